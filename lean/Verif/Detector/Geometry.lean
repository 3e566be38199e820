import Mathlib.Data.Int.Order.Basic
import Mathlib.Data.Nat.Basic
import Mathlib.Tactic.Linarith
import Verif.Common.Except

/-!
# Detector geometry (detector.py 81-374): model

A 2-D array is its shape and a function; only the values inside the shape count (`Img.Same`). Entries of a
geometry dictionary are non-negative integers.
-/

namespace Corgi.Det

inductive Err
  | keyError | exception | valueError
  deriving DecidableEq, Repr

/-- A 2-D array. -/
structure Img (α : Type) where
  nr : ℕ
  nc : ℕ
  px : ℕ → ℕ → α

/-- Equality of arrays: same shape and same values inside. -/
def Img.Same {α : Type} (a b : Img α) : Prop :=
  a.nr = b.nr ∧ a.nc = b.nc ∧ ∀ r c, r < a.nr → c < a.nc → a.px r c = b.px r c

/-- Python: where an index given in a slice lands on an axis of length `n`. -/
def pyIdx (i : ℤ) (n : ℕ) : ℕ := if i < 0 then (i + n).toNat else min i.toNat n

/-- Python: `a[start:stop]` on an axis of length `n`: first index and number of elements. -/
def pySlice (start stop : ℤ) (n : ℕ) : ℕ × ℕ := (pyIdx start n, pyIdx stop n - pyIdx start n)

/-- `f[r0:r1, c0:c1]` -/
def Img.slice {α : Type} (f : Img α) (r0 r1 c0 c1 : ℤ) : Img α where
  nr := (pySlice r0 r1 f.nr).2
  nc := (pySlice c0 c1 f.nc).2
  px r c := f.px ((pySlice r0 r1 f.nr).1 + r) ((pySlice c0 c1 f.nc).1 + c)

/-- A region in the geometry dictionary; `colStart`, `colEnd` only occur for the prescan. -/
structure Area where
  rows : ℕ
  cols : ℕ
  r0 : ℕ
  c0 : ℕ
  colStart : Option ℕ := none
  colEnd : Option ℕ := none
  deriving DecidableEq, Repr

/-- The entry of one read-out mode. -/
structure Geom where
  frameRows : ℕ
  frameCols : ℕ
  areas : List (String × Area)
  deriving DecidableEq, Repr

/-- A geometry dictionary. -/
abbrev Regions := List (String × Geom)

/-- detector.py 82-112 -/
def geomSci : Geom :=
  { frameRows := 1200, frameCols := 2200, areas := [
    ("image", { rows := 1024, cols := 1024, r0 := 13, c0 := 1088 }),
    ("prescan", { rows := 1200, cols := 1088, r0 := 0, c0 := 0, colStart := some 800, colEnd := some 1000 }),
    ("prescan_reliable", { rows := 1200, cols := 200, r0 := 0, c0 := 800 }),
    ("parallel_overscan", { rows := 163, cols := 1056, r0 := 1037, c0 := 1088 }),
    ("serial_overscan", { rows := 1200, cols := 56, r0 := 0, c0 := 2144 })] }

/-- detector.py 113-143 -/
def geomEng : Geom :=
  { frameRows := 2200, frameCols := 2200, areas := [
    ("image", { rows := 1024, cols := 1024, r0 := 13, c0 := 1088 }),
    ("prescan", { rows := 2200, cols := 1088, r0 := 0, c0 := 0, colStart := some 800, colEnd := some 1000 }),
    ("prescan_reliable", { rows := 2200, cols := 200, r0 := 0, c0 := 800 }),
    ("parallel_overscan", { rows := 1163, cols := 1056, r0 := 1037, c0 := 1088 }),
    ("serial_overscan", { rows := 2200, cols := 56, r0 := 0, c0 := 2144 })] }

/-- detector.py 144-184 -/
def geomEngEm : Geom :=
  { frameRows := 2200, frameCols := 2200, areas := [
    ("image", { rows := 2048, cols := 1024, r0 := 13, c0 := 1088 }),
    ("lower_image", { rows := 1024, cols := 1024, r0 := 13, c0 := 1088 }),
    ("upper_image", { rows := 1024, cols := 1024, r0 := 1037, c0 := 1088 }),
    ("prescan", { rows := 2200, cols := 1088, r0 := 0, c0 := 0, colStart := some 800, colEnd := some 1000 }),
    ("prescan_reliable", { rows := 2200, cols := 200, r0 := 0, c0 := 800 }),
    ("parallel_overscan", { rows := 130, cols := 1056, r0 := 2070, c0 := 1088 }),
    ("serial_overscan", { rows := 2200, cols := 56, r0 := 0, c0 := 2144 })] }

/-- detector.py 185-233 -/
def geomEngConv : Geom :=
  { frameRows := 2200, frameCols := 2200, areas := [
    ("image", { rows := 2048, cols := 1024, r0 := 13, c0 := 48 }),
    ("lower_image", { rows := 1024, cols := 1024, r0 := 13, c0 := 48 }),
    ("upper_image", { rows := 1024, cols := 1024, r0 := 1037, c0 := 48 }),
    ("prescan", { rows := 2200, cols := 1128, r0 := 0, c0 := 1072, colStart := some 1200,
                  colEnd := some 1400 }),
    ("prescan_reliable", { rows := 2200, cols := 200, r0 := 0, c0 := 1200 }),
    ("parallel_overscan", { rows := 130, cols := 1056, r0 := 2070, c0 := 16 }),
    ("serial_overscan", { rows := 2200, cols := 16, r0 := 0, c0 := 0 })] }

/-- `detector_areas`, detector.py 81-234. -/
def detectorAreas : Regions :=
  [("SCI", geomSci), ("ENG", geomEng), ("ENG_EM", geomEngEm), ("ENG_CONV", geomEngConv)]

/-- `d[key]` -/
def look {β : Type} (d : List (String × β)) (k : String) : Except Err β :=
  match d.lookup k with
  | some v => .ok v
  | none => .error .keyError

/-- `detector_regions[arrtype][key]` -/
def lookArea (d : Regions) (arrtype key : String) : Except Err Area := do
  let g ← look d arrtype
  look g.areas key

/-- `slice_section`, detector.py 237-262. -/
def sliceSection {α : Type} (d : Regions) (frame : Img α) (arrtype key : String) : Except Err (Img α) := do
  let a ← lookArea d arrtype key
  let s := frame.slice a.r0 (a.r0 + a.rows) a.c0 (a.c0 + a.cols)
  if s.nr * s.nc = 0 then .error .exception else .ok s

/-- numpy: an axis of length `d` can be assigned into one of length `s`. -/
def fits (s d : ℕ) : Bool := d = s || d = 1

/-- numpy: the element that a broadcast axis of length `d` supplies for index `i`. -/
def bcast (d i : ℕ) : ℕ := if d = 1 then 0 else i

/-- `embed`, detector.py 264-288: assign into a slice of a constant frame. -/
def embed {α : Type} (d : Regions) (data : Img α) (arrtype key : String) (pad : α) :
    Except Err (Img α) := do
  let g ← look d arrtype
  let a ← lookArea d arrtype key
  let R := pySlice a.r0 (a.r0 + a.rows) g.frameRows
  let C := pySlice a.c0 (a.c0 + a.cols) g.frameCols
  if fits R.2 data.nr && fits C.2 data.nc then
    .ok ⟨g.frameRows, g.frameCols, fun r c =>
      if (R.1 ≤ r ∧ r < R.1 + R.2) ∧ (C.1 ≤ c ∧ c < C.1 + C.2) then
        data.px (bcast data.nr (r - R.1)) (bcast data.nc (c - C.1))
      else pad⟩
  else .error .exception

/-- `imaging_area_geom`, detector.py 318-350: rows, columns, first row and column. -/
def imagingAreaGeom (d : Regions) (arrtype : String) : Except Err (ℤ × ℤ × ℤ × ℤ) := do
  let pre ← lookArea d arrtype "prescan"
  let ser ← lookArea d arrtype "serial_overscan"
  let par ← lookArea d arrtype "parallel_overscan"
  let im ← lookArea d arrtype "image"
  let g ← look d arrtype
  let rowsIm : ℤ := g.frameRows - par.rows
  let colsIm : ℤ := g.frameCols - pre.cols - ser.cols
  return (rowsIm, colsIm, im.r0 - (rowsIm - im.rows), im.c0)

/-- `imaging_slice`, detector.py 352-374. -/
def imagingSlice {α : Type} (d : Regions) (arrtype : String) (frame : Img α) : Except Err (Img α) := do
  let (rows, cols, r0, c0) ← imagingAreaGeom d arrtype
  return frame.slice r0 (r0 + rows) c0 (c0 + cols)

/-! ## C27 -/

/-- The area lies inside a frame of the mode and is not empty. -/
def Area.Inside (a : Area) (g : Geom) : Prop :=
  a.r0 + a.rows ≤ g.frameRows ∧ a.c0 + a.cols ≤ g.frameCols ∧ 0 < a.rows ∧ 0 < a.cols

instance (a : Area) (g : Geom) : Decidable (a.Inside g) := inferInstanceAs (Decidable (_ ∧ _ ∧ _ ∧ _))

/-- The pixel belongs to the area. -/
def Area.Has (a : Area) (r c : ℕ) : Prop := a.r0 ≤ r ∧ r < a.r0 + a.rows ∧ a.c0 ≤ c ∧ c < a.c0 + a.cols

instance (a : Area) (r c : ℕ) : Decidable (a.Has r c) := inferInstanceAs (Decidable (_ ∧ _ ∧ _ ∧ _))

theorem pySlice_inside {s k n : ℕ} (h : s + k ≤ n) : pySlice (s : ℤ) ((s : ℤ) + k) n = (s, k) := by
  unfold pySlice pyIdx
  rw [if_neg (by omega), if_neg (by omega)]
  simp only [Prod.mk.injEq]
  omega

theorem look_ok {β : Type} {d : List (String × β)} {k : String} {v : β} :
    look d k = .ok v ↔ d.lookup k = some v := by
  unfold look
  cases d.lookup k <;> simp

theorem lookArea_ok {d : Regions} {t k : String} {a : Area} :
    lookArea d t k = .ok a ↔ ∃ g, look d t = .ok g ∧ look g.areas k = .ok a := by
  unfold lookArea
  cases h : look d t with
  | error e => simp [bind, Except.bind]
  | ok g => simp [bind, Except.bind]

/-- **C27** What `slice_section` returns on a frame of the mode's size: the pixels of the area. -/
theorem C27_slice {α : Type} {d : Regions} {t k : String} {g : Geom} {a : Area} (hg : look d t = .ok g)
    (ha : look g.areas k = .ok a) (hi : a.Inside g) (f : Img α) (hr : f.nr = g.frameRows)
    (hc : f.nc = g.frameCols) :
    ∃ s, sliceSection d f t k = .ok s ∧ s.nr = a.rows ∧ s.nc = a.cols ∧
      ∀ r c, s.px r c = f.px (a.r0 + r) (a.c0 + c) := by
  have hl : lookArea d t k = .ok a := lookArea_ok.2 ⟨g, hg, ha⟩
  obtain ⟨h1, h2, h3, h4⟩ := hi
  have e1 := pySlice_inside (n := f.nr) (by rw [hr]; exact h1)
  have e2 := pySlice_inside (n := f.nc) (by rw [hc]; exact h2)
  refine ⟨f.slice a.r0 (a.r0 + a.rows) a.c0 (a.c0 + a.cols), ?_, ?_, ?_, ?_⟩
  · unfold sliceSection
    rw [hl]
    simp only [bind, Except.bind]
    rw [if_neg]
    simp only [Img.slice, e1, e2]
    have := Nat.mul_pos h3 h4
    omega
  · simp [Img.slice, e1]
  · simp [Img.slice, e2]
  · intro r c; simp [Img.slice, e1, e2]

/-- **C27** Cutting out what was embedded gives it back; the rest of the frame is the pad value. -/
theorem C27_roundtrip {α : Type} {d : Regions} {t k : String} {g : Geom} {a : Area} (hg : look d t = .ok g)
    (ha : look g.areas k = .ok a) (hi : a.Inside g) (x : Img α) (hr : x.nr = a.rows) (hc : x.nc = a.cols)
    (pad : α) :
    ∃ f s, embed d x t k pad = .ok f ∧ f.nr = g.frameRows ∧ f.nc = g.frameCols ∧
      sliceSection d f t k = .ok s ∧ s.Same x ∧ ∀ r c, ¬ a.Has r c → f.px r c = pad := by
  have hl : lookArea d t k = .ok a := lookArea_ok.2 ⟨g, hg, ha⟩
  have hi' := hi
  obtain ⟨h1, h2, h3, h4⟩ := hi'
  have e1 := pySlice_inside h1
  have e2 := pySlice_inside h2
  have he : ∃ f, embed d x t k pad = .ok f ∧ f.nr = g.frameRows ∧ f.nc = g.frameCols ∧
      ∀ r c, f.px r c = if (a.r0 ≤ r ∧ r < a.r0 + a.rows) ∧ (a.c0 ≤ c ∧ c < a.c0 + a.cols) then
        x.px (bcast x.nr (r - a.r0)) (bcast x.nc (c - a.c0)) else pad := by
    unfold embed
    rw [hg, hl]
    simp only [bind, Except.bind, e1, e2]
    rw [if_pos (by simp [fits, hr, hc])]
    exact ⟨_, rfl, rfl, rfl, fun r c => rfl⟩
  obtain ⟨f, hf, hfr, hfc, hpx⟩ := he
  obtain ⟨s, hs, hsr, hsc, hspx⟩ := C27_slice hg ha hi f hfr hfc
  refine ⟨f, s, hf, hfr, hfc, hs, ⟨hsr.trans hr.symm, hsc.trans hc.symm, ?_⟩, ?_⟩
  · intro r c h5 h6
    rw [hspx, hpx, if_pos (by omega)]
    have b1 : bcast x.nr (a.r0 + r - a.r0) = r := by unfold bcast; split <;> omega
    have b2 : bcast x.nc (a.c0 + c - a.c0) = c := by unfold bcast; split <;> omega
    rw [b1, b2]
  · intro r c hn
    rw [hpx, if_neg]
    intro h; exact hn ⟨h.1.1, h.1.2, h.2.1, h.2.2⟩

/-- **C27** When embedding raises: exactly for shapes that numpy cannot broadcast into the area. -/
theorem C27_embed_raises_iff {α : Type} {d : Regions} {t k : String} {g : Geom} {a : Area}
    (hg : look d t = .ok g) (ha : look g.areas k = .ok a) (hi : a.Inside g) (x : Img α) (pad : α) :
    embed d x t k pad = .error .exception ↔
      ¬ ((x.nr = a.rows ∨ x.nr = 1) ∧ (x.nc = a.cols ∨ x.nc = 1)) := by
  have hl : lookArea d t k = .ok a := lookArea_ok.2 ⟨g, hg, ha⟩
  unfold embed
  rw [hg, hl]
  simp only [bind, Except.bind, pySlice_inside hi.1, pySlice_inside hi.2.1]
  by_cases h : (x.nr = a.rows ∨ x.nr = 1) ∧ (x.nc = a.cols ∨ x.nc = 1)
  · rw [if_pos (by simpa [fits] using h)]
    simp [h]
  · rw [if_neg (by simpa [fits] using h)]
    simp [h]

/-- A single row that is embedded into the image area. -/
def oneRow : Img ℕ := ⟨1, 1024, fun _ c => c⟩

/-- **C27** is violated: data of another shape need not raise; one row is repeated in all 1024 rows of
the image area. -/
theorem C27_violated : ∃ f, embed detectorAreas oneRow "SCI" "image" 0 = .ok f ∧
    ∀ r c, 13 ≤ r → r < 1037 → 1088 ≤ c → c < 2112 → f.px r c = c - 1088 := by
  have hg : look detectorAreas "SCI" = .ok geomSci := by decide +kernel
  have hl : lookArea detectorAreas "SCI" "image" = .ok { rows := 1024, cols := 1024, r0 := 13, c0 := 1088 } := by
    decide +kernel
  unfold embed
  rw [hg, hl]
  simp only [bind, Except.bind]
  rw [show pySlice ((13 : ℕ) : ℤ) (((13 : ℕ) : ℤ) + ((1024 : ℕ) : ℤ))
      geomSci.frameRows = (13, 1024) from by decide +kernel,
    show pySlice ((1088 : ℕ) : ℤ) (((1088 : ℕ) : ℤ) + ((1024 : ℕ) : ℤ))
      geomSci.frameCols = (1088, 1024) from by decide +kernel,
    if_pos (by decide)]
  refine ⟨_, rfl, ?_⟩
  intro r c h1 h2 h3 h4
  dsimp only
  rw [if_pos (by omega)]
  rfl

/-- **C27** All regions of all read-out modes lie inside the frame and are not empty. (The table is finite;
this is a check of all its entries.) -/
theorem C27_table_inside :
    ∀ t ∈ detectorAreas, ∀ a ∈ t.2.areas, a.2.Inside t.2 := by decide +kernel

/-- **C27** When cutting out raises, for a frame of any size: exactly if it ends before the area (or the area is empty). A frame that
ends within the area gives a smaller piece. -/
theorem C27_slice_raises_iff {α : Type} {d : Regions} {t k : String} {a : Area} (hl : lookArea d t k = .ok a) (f : Img α) :
    sliceSection d f t k = .error .exception ↔ f.nr ≤ a.r0 ∨ f.nc ≤ a.c0 ∨ a.rows = 0 ∨ a.cols = 0 := by
  unfold sliceSection
  rw [hl]
  simp only [bind, Except.bind]
  have key : ∀ s k n : ℕ, (pySlice (s : ℤ) ((s : ℤ) + k) n).2 = 0 ↔ n ≤ s ∨ k = 0 := by
    intro s k n
    unfold pySlice pyIdx
    rw [if_neg (by omega), if_neg (by omega)]
    dsimp only
    omega
  by_cases h : (f.slice a.r0 (a.r0 + a.rows) a.c0 (a.c0 + a.cols)).nr * (f.slice a.r0 (a.r0 + a.rows) a.c0 (a.c0 + a.cols)).nc = 0
  · rw [if_pos h]
    simp only [Img.slice, Nat.mul_eq_zero, key] at h
    simp only [true_iff]
    tauto
  · rw [if_neg h]
    simp only [Img.slice, Nat.mul_eq_zero, key] at h
    simp only [reduceCtorEq, false_iff]
    tauto

/-- **C27** How the regions of the table fit together, in all modes: the reliable prescan consists of the columns `col_start` to
`col_end`, in all rows of the frame; lower and upper image together are the image. -/
theorem C27_table_parts : ∀ t ∈ detectorAreas,
    (∀ p ∈ t.2.areas.lookup "prescan", ∃ q ∈ t.2.areas.lookup "prescan_reliable",
      q.r0 = 0 ∧ q.rows = t.2.frameRows ∧ p.r0 = 0 ∧ p.rows = t.2.frameRows ∧ p.colStart = some q.c0 ∧
        p.colEnd = some (q.c0 + q.cols)) ∧
    ∀ u ∈ t.2.areas.lookup "upper_image", ∃ l ∈ t.2.areas.lookup "lower_image", ∃ i ∈ t.2.areas.lookup "image",
      l.r0 = i.r0 ∧ u.r0 = l.r0 + l.rows ∧ l.rows + u.rows = i.rows ∧ l.c0 = i.c0 ∧ u.c0 = i.c0 ∧ l.cols = i.cols ∧
        u.cols = i.cols := by
  intro t ht
  simp only [detectorAreas, List.mem_cons, List.not_mem_nil, or_false] at ht
  rcases ht with rfl | rfl | rfl | rfl <;> simp [geomSci, geomEng, geomEngEm, geomEngConv, List.lookup]

/-- The names in the table are distinct, so each entry is the one a lookup finds. -/
theorem C27_table_names : (detectorAreas.map Prod.fst).Nodup ∧
    ∀ t ∈ detectorAreas, (t.2.areas.map Prod.fst).Nodup := by decide +kernel

theorem lookup_mem {β : Type} : ∀ {d : List (String × β)} {k : String} {v : β},
    d.lookup k = some v → (k, v) ∈ d
  | [], k, v, h => by simp at h
  | (a, b) :: d, k, v, h => by
    rw [List.lookup_cons] at h
    by_cases hk : k = a
    · subst hk; simp at h; subst h; simp
    · have : (k == a) = false := by simpa using hk
      rw [this] at h
      exact List.mem_cons_of_mem _ (lookup_mem h)

/-- **C27** for the shipped geometry: every region of every mode, with no further condition. -/
theorem C27_default {α : Type} {t k : String} {a : Area} (hl : lookArea detectorAreas t k = .ok a)
    (x : Img α) (hr : x.nr = a.rows) (hc : x.nc = a.cols) (pad : α) :
    ∃ f s, embed detectorAreas x t k pad = .ok f ∧ sliceSection detectorAreas f t k = .ok s ∧ s.Same x ∧
      ∀ r c, ¬ a.Has r c → f.px r c = pad := by
  obtain ⟨g, hg, ha⟩ := lookArea_ok.1 hl
  have hi : a.Inside g := C27_table_inside (t, g) (lookup_mem (look_ok.1 hg)) (k, a) (lookup_mem (look_ok.1 ha))
  obtain ⟨f, s, h1, _, _, h2, h3, h4⟩ := C27_roundtrip hg ha hi x hr hc pad
  exact ⟨f, s, h1, h2, h3, h4⟩

/-! ## C28 -/

/-- The pixel is a physical one: in none of the three virtual regions. -/
def Physical (pre ser par : Area) (g : Geom) (r c : ℕ) : Prop :=
  r < g.frameRows ∧ c < g.frameCols ∧ ¬ pre.Has r c ∧ ¬ ser.Has r c ∧ ¬ par.Has r c

/-- A read-out: prescan columns first, serial overscan columns last, parallel overscan rows last between
them. -/
structure Layout (pre ser par : Area) (g : Geom) : Prop where
  pre_rows : pre.r0 = 0 ∧ pre.rows = g.frameRows
  ser_rows : ser.r0 = 0 ∧ ser.rows = g.frameRows
  pre_cols : pre.c0 = 0
  ser_cols : ser.c0 + ser.cols = g.frameCols
  order : pre.cols ≤ ser.c0
  par_cols : par.c0 = pre.cols ∧ par.c0 + par.cols = ser.c0
  par_rows : par.r0 + par.rows = g.frameRows

/-- **C28** In such a layout, if the image area starts right after the prescan and ends right at the parallel
overscan, the imaging slice consists of exactly the physical pixels, each once and at its place. -/
theorem C28_partial {α : Type} {d : Regions} {t : String} {g : Geom} {pre ser par im : Area}
    (hg : look d t = .ok g) (hpre : look g.areas "prescan" = .ok pre)
    (hser : look g.areas "serial_overscan" = .ok ser) (hpar : look g.areas "parallel_overscan" = .ok par)
    (him : look g.areas "image" = .ok im) (L : Layout pre ser par g) (h1 : im.c0 = pre.cols)
    (h2 : im.r0 + im.rows = par.r0) (f : Img α) (hr : f.nr = g.frameRows) (hc : f.nc = g.frameCols) :
    ∃ s, imagingSlice d t f = .ok s ∧ s.nr = par.r0 ∧ s.nc = ser.c0 - pre.cols ∧
      (∀ r c, s.px r c = f.px r (pre.cols + c)) ∧
      (∀ r c, Physical pre ser par g r c ↔ r < s.nr ∧ pre.cols ≤ c ∧ c < pre.cols + s.nc) := by
  obtain ⟨⟨a1, a2⟩, ⟨b1, b2⟩, c1, d1, o, ⟨e1, e2⟩, p⟩ := L
  have hgeom : imagingAreaGeom d t = .ok ((par.r0 : ℤ), ((ser.c0 - pre.cols : ℕ) : ℤ), 0, (pre.cols : ℤ)) := by
    unfold imagingAreaGeom
    rw [lookArea_ok.2 ⟨g, hg, hpre⟩, lookArea_ok.2 ⟨g, hg, hser⟩, lookArea_ok.2 ⟨g, hg, hpar⟩,
      lookArea_ok.2 ⟨g, hg, him⟩, hg]
    simp only [bind, Except.bind, pure, Except.pure, Except.ok.injEq, Prod.mk.injEq]
    refine ⟨?_, ?_, ?_, ?_⟩ <;> omega
  have s1 : pySlice 0 (0 + (par.r0 : ℤ)) f.nr = (0, par.r0) := by
    have := pySlice_inside (s := 0) (k := par.r0) (n := f.nr) (by omega)
    simpa using this
  have s2 : pySlice (pre.cols : ℤ) ((pre.cols : ℤ) + ((ser.c0 - pre.cols : ℕ) : ℤ)) f.nc =
      (pre.cols, ser.c0 - pre.cols) := pySlice_inside (by omega)
  refine ⟨f.slice 0 (0 + par.r0) pre.cols (pre.cols + ((ser.c0 - pre.cols : ℕ) : ℤ)), ?_, ?_, ?_, ?_, ?_⟩
  · unfold imagingSlice
    rw [hgeom]; rfl
  · simp only [Img.slice, s1]
  · simp only [Img.slice, s2]
  · intro r c; simp only [Img.slice, s1, s2, Nat.zero_add]
  · intro r c
    simp only [Img.slice, s1, s2, Physical, Area.Has]
    omega

/-- **C28** for the two science read-out modes. -/
theorem C28_sci_eng_partial {α : Type} (t : String) (g : Geom)
    (ht : (t = "SCI" ∧ g = geomSci) ∨ (t = "ENG" ∧ g = geomEng)) (f : Img α) (hr : f.nr = g.frameRows)
    (hc : f.nc = g.frameCols) :
    ∃ s pre ser par, look g.areas "prescan" = .ok pre ∧ look g.areas "serial_overscan" = .ok ser ∧
      look g.areas "parallel_overscan" = .ok par ∧ imagingSlice detectorAreas t f = .ok s ∧
      s.nr = 1037 ∧ s.nc = 1056 ∧ (∀ r c, s.px r c = f.px r (1088 + c)) ∧
      (∀ r c, Physical pre ser par g r c ↔ r < 1037 ∧ 1088 ≤ c ∧ c < 2144) := by
  rcases ht with ⟨rfl, rfl⟩ | ⟨rfl, rfl⟩
  · have hpre : look geomSci.areas "prescan" = .ok
        { rows := 1200, cols := 1088, r0 := 0, c0 := 0, colStart := some 800, colEnd := some 1000 } := by
      decide +kernel
    have hser : look geomSci.areas "serial_overscan" = .ok
        { rows := 1200, cols := 56, r0 := 0, c0 := 2144 } := by decide +kernel
    have hpar : look geomSci.areas "parallel_overscan" = .ok
        { rows := 163, cols := 1056, r0 := 1037, c0 := 1088 } := by decide +kernel
    have him : look geomSci.areas "image" = .ok
        { rows := 1024, cols := 1024, r0 := 13, c0 := 1088 } := by decide +kernel
    obtain ⟨s, h1, h2, h3, h4, h5⟩ := C28_partial (α := α) (d := detectorAreas) (t := "SCI") (by decide +kernel)
      hpre hser hpar him (by constructor <;> decide) (by decide) (by decide) f hr hc
    refine ⟨s, _, _, _, hpre, hser, hpar, h1, h2, h3, h4, ?_⟩
    intro r c
    rw [h5, h2, h3]
    dsimp only
    omega
  · have hpre : look geomEng.areas "prescan" = .ok
        { rows := 2200, cols := 1088, r0 := 0, c0 := 0, colStart := some 800, colEnd := some 1000 } := by
      decide +kernel
    have hser : look geomEng.areas "serial_overscan" = .ok
        { rows := 2200, cols := 56, r0 := 0, c0 := 2144 } := by decide +kernel
    have hpar : look geomEng.areas "parallel_overscan" = .ok
        { rows := 1163, cols := 1056, r0 := 1037, c0 := 1088 } := by decide +kernel
    have him : look geomEng.areas "image" = .ok
        { rows := 1024, cols := 1024, r0 := 13, c0 := 1088 } := by decide +kernel
    obtain ⟨s, h1, h2, h3, h4, h5⟩ := C28_partial (α := α) (d := detectorAreas) (t := "ENG") (by decide +kernel)
      hpre hser hpar him (by constructor <;> decide) (by decide) (by decide) f hr hc
    refine ⟨s, _, _, _, hpre, hser, hpar, h1, h2, h3, h4, ?_⟩
    intro r c
    rw [h5, h2, h3]
    dsimp only
    omega

/-- The physical pixels of a mode, by name. -/
def PhysicalIn (g : Geom) (r c : ℕ) : Prop :=
  r < g.frameRows ∧ c < g.frameCols ∧ ∀ k ∈ ["prescan", "serial_overscan", "parallel_overscan"],
    ∀ a, (k, a) ∈ g.areas → ¬ a.Has r c

/-- **C28** is violated: for both two-sided engineering modes the computed first row is -9 and the slice of
any full frame is empty, although 2070 x 1056 pixels are physical. -/
theorem C28_violated {α : Type} (t : String) (g : Geom) (c0 : ℕ)
    (ht : (t = "ENG_EM" ∧ g = geomEngEm ∧ c0 = 1088) ∨ (t = "ENG_CONV" ∧ g = geomEngConv ∧ c0 = 16))
    (f : Img α) (hr : f.nr = g.frameRows) : (∃ s, imagingSlice detectorAreas t f = .ok s ∧ s.nr = 0) ∧
      ∀ r c, PhysicalIn g r c ↔ r < 2070 ∧ c0 ≤ c ∧ c < c0 + 1056 := by
  rcases ht with ⟨rfl, rfl, rfl⟩ | ⟨rfl, rfl, rfl⟩
  · have : imagingAreaGeom detectorAreas "ENG_EM" = .ok (2070, 1056, -9, 1088) := by decide +kernel
    unfold imagingSlice
    rw [this]
    refine ⟨⟨_, rfl, ?_⟩, ?_⟩
    · simp only [Img.slice, hr]
      decide
    · intro r c
      simp [PhysicalIn, geomEngEm, Area.Has]
      omega
  · have : imagingAreaGeom detectorAreas "ENG_CONV" = .ok (2070, 1056, -9, 48) := by decide +kernel
    unfold imagingSlice
    rw [this]
    refine ⟨⟨_, rfl, ?_⟩, ?_⟩
    · simp only [Img.slice, hr]
      decide
    · intro r c
      simp [PhysicalIn, geomEngConv, Area.Has]
      omega

/-- Not vacuous: the corner pixels. -/
example : (imagingSlice detectorAreas "SCI" (⟨1200, 2200, fun r c => (r, c)⟩ : Img (ℕ × ℕ))).map
    (fun s => (s.nr, s.nc, s.px 0 0, s.px 1036 1055)) = .ok (1037, 1056, (0, 1088), (1036, 2143)) := by
  decide +kernel

end Corgi.Det

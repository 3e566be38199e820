import Mathlib.Analysis.SpecialFunctions.Sqrt
import Verif.Common.Nan
import Verif.Detector.Geometry

/-!
# `prescan_biassub` (l1_to_l2a.py 6-158): model and C26

Frames are independent, so one frame is modelled. Values are reals with NaN (`none`). The header changes and
the accumulation of the new error term are those of C13 and C17.
-/

noncomputable section

namespace Corgi.Det

open Corgi.Nan

/-- One L1 frame. -/
structure L1 where
  arrtype : Option String
  data : Img (Option ℝ)
  err : List (Img (Option ℝ))
  dq : Img ℕ

/-- What the step returns for a frame; `newErr` is the term handed to `add_error_term`. -/
structure BiasSub where
  data : Img (Option ℝ)
  err : List (Img (Option ℝ))
  dq : Img ℕ
  bias : List (Option ℝ)
  newErr : Img (Option ℝ)

/-- Which part is returned. -/
inductive Part
  | image | imaging | full
  deriving DecidableEq

/-- All values or, if one is NaN, none. -/
def allVals (l : List (Option ℝ)) : Option (List ℝ) := l.mapM id

/-- `np.median` along an axis: NaN if a value is NaN or there is none. -/
def npMedian (l : List (Option ℝ)) : Option ℝ :=
  match allVals l with
  | some (v :: vs) => some (median (v :: vs))
  | _ => none

/-- Population standard deviation. -/
def std (l : List ℝ) : ℝ := Real.sqrt (mean (l.map fun x => (x - mean l) ^ 2))

/-- `np.std` along an axis. -/
def npStd (l : List (Option ℝ)) : Option ℝ :=
  match allVals l with
  | some (v :: vs) => some (std (v :: vs))
  | _ => none

/-- `a[r, st:end]` as a list. -/
def rowSlice {α : Type} (a : Img α) (r : ℕ) (st en : ℕ) : List α :=
  (List.range (pySlice st en a.nc).2).map fun k => a.px r ((pySlice st en a.nc).1 + k)

/-- numpy: length of the result when axes of length `a` and `b` are combined. -/
def bshape (a b : ℕ) : Except Err ℕ :=
  if a = b then .ok a else if a = 1 then .ok b else if b = 1 then .ok a else .error .valueError

/-- lines 58-98: the area of data, err and dq that is kept, and the prescan rows used for it. In the default
case the rows come from the *global* table `glob`, not from the dictionary `d` that was passed in. -/
def pick (glob d : Regions) (t : String) (f : L1) (pre : Img (Option ℝ)) (part : Part) :
    Except Err (Img (Option ℝ) × List (Img (Option ℝ)) × Img ℕ × Img (Option ℝ)) :=
  match part with
  | .imaging => do
    let x ← imagingSlice d t f.data
    let q ← imagingSlice d t f.dq
    let e ← f.err.mapM (imagingSlice d t)
    let (prows, _, r0, _) ← imagingAreaGeom d t
    let p ← lookArea d t "prescan"
    return (x, e, q, pre.slice (r0 - p.r0) (r0 - p.r0 + prows) 0 pre.nc)
  | .image => do
    let x ← sliceSection d f.data t "image"
    let q ← sliceSection d f.dq t "image"
    let e ← f.err.mapM fun s => sliceSection d s t "image"
    let im ← lookArea glob t "image"
    let p ← lookArea glob t "prescan"
    return (x, e, q, pre.slice ((im.r0 : ℤ) - p.r0) ((im.r0 : ℤ) - p.r0 + im.rows) 0 pre.nc)
  | .full => .ok (f.data, f.err, f.dq, pre)

/-- A key of a sub-dictionary that may be absent. -/
def getKey {β : Type} : Option β → Except Err β
  | some v => .ok v
  | none => .error .keyError

/-- `prescan_biassub` for one frame; `off`, `offErr` are the bias offset and its error (0 without noise
maps). -/
def prescanBiasSub (glob d : Regions) (off offErr : ℝ) (part : Part) (f : L1) : Except Err BiasSub := do
  let t ← getKey f.arrtype
  if t ∈ ["SCI", "ENG", "ENG_EM", "ENG_CONV"] then do
    let g ← look d t
    if g.frameRows ≠ f.data.nr ∨ g.frameCols ≠ f.data.nc then .error .exception
    else do
      let pre ← sliceSection d f.data t "prescan"
      let (x, e, q, al) ← pick glob d t f pre part
      let p ← lookArea d t "prescan"
      let st ← getKey p.colStart
      let en ← getKey p.colEnd
      let med : ℕ → Option ℝ := fun r => npMedian (rowSlice al r st en)
      let n : ℝ := ((pySlice st en al.nc).2 : ℕ)
      let ste : ℕ → Option ℝ := fun r => (npStd (rowSlice al r st en)).map fun s =>
        Real.sqrt ((s / Real.sqrt n) ^ 2 + offErr ^ 2)
      let bias : ℕ → Option ℝ := fun r => (med r).map (· - off)
      let nr ← bshape x.nr al.nr
      .ok { data := ⟨nr, x.nc, fun r c => do
              let v ← x.px (bcast x.nr r) c
              let b ← bias (bcast al.nr r)
              return v - b⟩
            err := e
            dq := q
            bias := (List.range al.nr).map bias
            newErr := ⟨nr, x.nc, fun r _ => ste (bcast al.nr r)⟩ }
  else .error .exception

/-! ## Specification -/

/-- The bias of a detector row: median of its reliable prescan pixels minus the offset. -/
def rowBias (f : L1) (pre : Area) (st en : ℕ) (off : ℝ) (r : ℕ) : Option ℝ :=
  (npMedian ((List.range' (pre.c0 + st) (en - st)).map (f.data.px r))).map (· - off)

/-- The uncertainty of the bias of a row: standard error of the same pixels, and the offset's error in
quadrature. -/
def rowErr (f : L1) (pre : Area) (st en : ℕ) (offErr : ℝ) (r : ℕ) : Option ℝ :=
  (npStd ((List.range' (pre.c0 + st) (en - st)).map (f.data.px r))).map fun s =>
    Real.sqrt ((s / Real.sqrt ((en - st : ℕ) : ℝ)) ^ 2 + offErr ^ 2)

/-- Difference with NaN. -/
def sub (a b : Option ℝ) : Option ℝ :=
  match a, b with
  | some x, some y => some (x - y)
  | _, _ => none

/-- A frame whose regions are inside and whose arrays all have the mode's size. -/
structure Ready (d : Regions) (f : L1) (t : String) (g : Geom) (pre : Area) (st en : ℕ) : Prop where
  mode : f.arrtype = some t
  known : t ∈ ["SCI", "ENG", "ENG_EM", "ENG_CONV"]
  geom : look d t = .ok g
  size : f.data.nr = g.frameRows ∧ f.data.nc = g.frameCols
  sizeDq : f.dq.nr = g.frameRows ∧ f.dq.nc = g.frameCols
  sizeErr : ∀ e ∈ f.err, e.nr = g.frameRows ∧ e.nc = g.frameCols
  prescan : look g.areas "prescan" = .ok pre
  inside : pre.Inside g
  start : pre.colStart = some st
  stop : pre.colEnd = some en

/-- The result `o` is the rectangle of `f` from `(r0, c0)`, minus the bias of the rows from `b0` on. -/
structure IsBiasSub (f : L1) (pre : Area) (st en : ℕ) (off offErr : ℝ) (r0 c0 rows cols b0 : ℕ) (o : BiasSub) :
    Prop where
  shape : o.data.nr = rows ∧ o.data.nc = cols ∧ o.newErr.nr = rows ∧ o.newErr.nc = cols
  data : ∀ r c, r < rows → c < cols →
    o.data.px r c = sub (f.data.px (r0 + r) (c0 + c)) (rowBias f pre st en off (b0 + r))
  newErr : ∀ r c, r < rows → c < cols → o.newErr.px r c = rowErr f pre st en offErr (b0 + r)
  bias : o.bias = (List.range rows).map fun r => rowBias f pre st en off (b0 + r)
  dq : o.dq.nr = rows ∧ o.dq.nc = cols ∧ ∀ r c, o.dq.px r c = f.dq.px (r0 + r) (c0 + c)
  err : List.Forall₂ (fun (e e' : Img (Option ℝ)) => e'.nr = rows ∧ e'.nc = cols ∧
    ∀ r c, e'.px r c = e.px (r0 + r) (c0 + c)) f.err o.err

/-! ## Proofs -/

theorem pySlice_nat {a b n : ℕ} (h1 : a ≤ b) (h2 : b ≤ n) : pySlice (a : ℤ) (b : ℤ) n = (a, b - a) := by
  have := pySlice_inside (s := a) (k := b - a) (n := n) (by omega)
  rwa [show (a : ℤ) + ((b - a : ℕ) : ℤ) = (b : ℤ) by omega] at this

theorem rowSlice_eq {α : Type} (al : Img α) (f : Img α) (r r' c0 st en : ℕ) (h1 : st ≤ en) (h2 : en ≤ al.nc)
    (h : ∀ c, al.px r c = f.px r' (c0 + c)) :
    rowSlice al r st en = (List.range' (c0 + st) (en - st)).map (f.px r') := by
  unfold rowSlice
  rw [pySlice_nat h1 h2]
  dsimp only
  rw [List.range'_eq_map_range, List.map_map]
  apply List.map_congr_left
  intro k _
  simp only [Function.comp_apply]
  rw [h]; congr 1; omega

theorem core {glob d : Regions} {off offErr : ℝ} {part : Part} {f : L1} {t : String} {g : Geom} {pre : Area}
    {st en : ℕ} (H : Ready d f t g pre st en) (hse : st ≤ en) (hec : en ≤ pre.cols)
    {p x al : Img (Option ℝ)} {e : List (Img (Option ℝ))} {q : Img ℕ} {r0 c0 rows cols b0 : ℕ}
    (hp : sliceSection d f.data t "prescan" = .ok p)
    (hpick : pick glob d t f p part = .ok (x, e, q, al)) (hxr : x.nr = rows) (hxc : x.nc = cols)
    (halr : al.nr = rows) (halc : al.nc = pre.cols)
    (hx : ∀ r c, x.px r c = f.data.px (r0 + r) (c0 + c))
    (hal : ∀ r c, al.px r c = f.data.px (b0 + r) (pre.c0 + c))
    (hq : q.nr = rows ∧ q.nc = cols ∧ ∀ r c, q.px r c = f.dq.px (r0 + r) (c0 + c))
    (he : List.Forall₂ (fun (e e' : Img (Option ℝ)) => e'.nr = rows ∧ e'.nc = cols ∧
      ∀ r c, e'.px r c = e.px (r0 + r) (c0 + c)) f.err e) :
    ∃ o, prescanBiasSub glob d off offErr part f = .ok o ∧
      IsBiasSub f pre st en off offErr r0 c0 rows cols b0 o := by
  have hrow : ∀ r, rowSlice al r st en = (List.range' (pre.c0 + st) (en - st)).map (f.data.px (b0 + r)) :=
    fun r => rowSlice_eq al f.data r (b0 + r) pre.c0 st en hse (by omega) (hal r)
  have hn : (pySlice (st : ℤ) (en : ℤ) al.nc).2 = en - st := by rw [pySlice_nat hse (by omega)]
  unfold prescanBiasSub
  rw [H.mode]
  simp only [getKey, bind, Except.bind]
  rw [if_pos H.known, H.geom]
  simp only
  rw [if_neg (by rw [H.size.1, H.size.2]; simp), hp]
  simp only
  rw [hpick]
  simp only
  rw [lookArea_ok.2 ⟨g, H.geom, H.prescan⟩]
  simp only [H.start, H.stop]
  rw [hxr, halr]
  simp only [bshape, if_true]
  refine ⟨_, rfl, ⟨rfl, hxc, rfl, hxc⟩, ?_, ?_, ?_, hq, he⟩
  · intro r c hr hc
    have hb : bcast rows r = r := by unfold bcast; split <;> omega
    dsimp only
    rw [hb, hrow, hx]
    unfold rowBias sub
    cases f.data.px (r0 + r) (c0 + c) with
    | none => rfl
    | some v =>
      cases npMedian ((List.range' (pre.c0 + st) (en - st)).map (f.data.px (b0 + r))) <;> rfl
  · intro r c hr hc
    have hb : bcast rows r = r := by unfold bcast; split <;> omega
    dsimp only
    rw [hb, hrow, hn]; rfl
  · apply List.map_congr_left
    intro r _
    rw [hrow]; rfl

theorem mapM_slices {f : Img (Option ℝ) → Except Err (Img (Option ℝ))} {l : List (Img (Option ℝ))}
    {P : Img (Option ℝ) → Img (Option ℝ) → Prop} (h : ∀ e ∈ l, ∃ e', f e = .ok e' ∧ P e e') :
    ∃ l', l.mapM f = .ok l' ∧ List.Forall₂ P l l' := by
  induction l with
  | nil => exact ⟨[], rfl, .nil⟩
  | cons a l ih =>
    obtain ⟨a', h1, h2⟩ := h a (by simp)
    obtain ⟨l', h3, h4⟩ := ih fun e he => h e (by simp [he])
    refine ⟨a' :: l', ?_, .cons h2 h4⟩
    rw [List.mapM_cons, h1, h3]; rfl

/-- **C26** The default output, exactly: the image area of the geometry passed in, minus the bias of the rows
that the *built-in* table aligns with the image. -/
theorem C26_image_exact {glob d : Regions} (off offErr : ℝ) {f : L1} {t : String} {g : Geom} {pre im : Area}
    {st en : ℕ} (H : Ready d f t g pre st en) (hse : st ≤ en) (hec : en ≤ pre.cols)
    (him : look g.areas "image" = .ok im) (hin : im.Inside g) {gim gpre : Area}
    (hgim : lookArea glob t "image" = .ok gim) (hgpre : lookArea glob t "prescan" = .ok gpre)
    (hrows : gim.rows = im.rows)
    (hcov : gpre.r0 ≤ gim.r0 ∧ gim.r0 - gpre.r0 + gim.rows ≤ pre.rows) :
    ∃ o, prescanBiasSub glob d off offErr .image f = .ok o ∧
      IsBiasSub f pre st en off offErr im.r0 im.c0 im.rows im.cols (pre.r0 + (gim.r0 - gpre.r0)) o := by
  obtain ⟨p, hp, hpr, hpc, hppx⟩ := C27_slice H.geom H.prescan H.inside f.data H.size.1 H.size.2
  obtain ⟨x, hx, hxr, hxc, hxpx⟩ := C27_slice H.geom him hin f.data H.size.1 H.size.2
  obtain ⟨q, hq, hqr, hqc, hqpx⟩ := C27_slice H.geom him hin f.dq H.sizeDq.1 H.sizeDq.2
  obtain ⟨es, hes, hees⟩ := mapM_slices (f := fun s => sliceSection d s t "image") (l := f.err)
    (P := fun e e' => e'.nr = im.rows ∧ e'.nc = im.cols ∧ ∀ r c, e'.px r c = e.px (im.r0 + r) (im.c0 + c))
    (fun e he => by
      obtain ⟨s, h1, h2, h3, h4⟩ := C27_slice H.geom him hin e (H.sizeErr e he).1 (H.sizeErr e he).2
      exact ⟨s, h1, h2, h3, h4⟩)
  have s1 : pySlice ((gim.r0 : ℤ) - gpre.r0) ((gim.r0 : ℤ) - gpre.r0 + gim.rows) p.nr =
      (gim.r0 - gpre.r0, im.rows) := by
    rw [hrows, show (gim.r0 : ℤ) - gpre.r0 = ((gim.r0 - gpre.r0 : ℕ) : ℤ) by omega]
    exact pySlice_inside (by omega)
  have s2 : pySlice 0 (p.nc : ℤ) p.nc = (0, p.nc) := by
    have := pySlice_nat (a := 0) (b := p.nc) (n := p.nc) (by omega) (by omega)
    simpa using this
  have hpick : pick glob d t f p .image = .ok (x, es, q,
      p.slice ((gim.r0 : ℤ) - gpre.r0) ((gim.r0 : ℤ) - gpre.r0 + gim.rows) 0 p.nc) := by
    simp only [pick, bind, Except.bind, pure, Except.pure]
    rw [hx, hq]
    simp only
    rw [hes, hgim, hgpre]
  refine core H hse hec hp hpick hxr hxc ?_ ?_ hxpx ?_ ⟨hqr, hqc, hqpx⟩ hees
  · simp only [Img.slice, s1]
  · simp only [Img.slice, s2]; exact hpc
  · intro r c
    simp only [Img.slice, s1, s2]
    rw [hppx]; congr 1 <;> omega

/-- **C26** The default output: the image area minus the bias of the same detector row, for every frame, if
the geometry passed in has image and prescan aligned like the built-in table, the image rows are covered
by the prescan, and the reliable columns lie inside it. (Missing: other geometries, see `C26_violated` and
`C26_custom_geometry_violated`.) -/
theorem C26_image_partial {glob d : Regions} (off offErr : ℝ) {f : L1} {t : String} {g : Geom} {pre im : Area}
    {st en : ℕ} (H : Ready d f t g pre st en) (hse : st ≤ en) (hec : en ≤ pre.cols)
    (him : look g.areas "image" = .ok im) (hin : im.Inside g) {gim gpre : Area}
    (hgim : lookArea glob t "image" = .ok gim) (hgpre : lookArea glob t "prescan" = .ok gpre)
    (hal : (gim.r0 : ℤ) - gpre.r0 = (im.r0 : ℤ) - pre.r0) (hrows : gim.rows = im.rows)
    (hcov : pre.r0 ≤ im.r0 ∧ im.r0 + im.rows ≤ pre.r0 + pre.rows) :
    ∃ o, prescanBiasSub glob d off offErr .image f = .ok o ∧
      IsBiasSub f pre st en off offErr im.r0 im.c0 im.rows im.cols im.r0 o := by
  have := C26_image_exact (glob := glob) off offErr H hse hec him hin hgim hgpre hrows (by omega)
  rwa [show pre.r0 + (gim.r0 - gpre.r0) = im.r0 by omega] at this

/-- **C26** With `return_full_frame`: the whole frame minus the bias of each row, if the prescan covers all
rows. -/
theorem C26_full {glob d : Regions} (off offErr : ℝ) {f : L1} {t : String} {g : Geom} {pre : Area}
    {st en : ℕ} (H : Ready d f t g pre st en) (hse : st ≤ en) (hec : en ≤ pre.cols)
    (hcov : pre.r0 = 0 ∧ pre.rows = g.frameRows) :
    ∃ o, prescanBiasSub glob d off offErr .full f = .ok o ∧
      IsBiasSub f pre st en off offErr 0 0 g.frameRows g.frameCols 0 o := by
  obtain ⟨p, hp, hpr, hpc, hppx⟩ := C27_slice H.geom H.prescan H.inside f.data H.size.1 H.size.2
  refine core H hse hec hp (x := f.data) (e := f.err) (q := f.dq) (al := p) rfl H.size.1 H.size.2 ?_ hpc ?_ ?_ ?_ ?_
  · rw [hpr, hcov.2]
  · intro r c; rw [Nat.zero_add, Nat.zero_add]
  · intro r c; rw [hppx, hcov.1]
  · exact ⟨H.sizeDq.1, H.sizeDq.2, fun r c => by rw [Nat.zero_add, Nat.zero_add]⟩
  · rw [List.forall₂_same]
    intro e he
    exact ⟨(H.sizeErr e he).1, (H.sizeErr e he).2, fun r c => by rw [Nat.zero_add, Nat.zero_add]⟩

/-- **C26** With `use_imaging_area`: the imaging area minus the bias of each of its rows, if the computed area is
inside the frame and the prescan covers its rows. -/
theorem C26_imaging {glob d : Regions} (off offErr : ℝ) {f : L1} {t : String} {g : Geom} {pre : Area}
    {st en : ℕ} (H : Ready d f t g pre st en) (hse : st ≤ en) (hec : en ≤ pre.cols) {rows cols r0 c0 : ℕ}
    (hgeom : imagingAreaGeom d t = .ok ((rows : ℤ), (cols : ℤ), (r0 : ℤ), (c0 : ℤ)))
    (hin : r0 + rows ≤ g.frameRows ∧ c0 + cols ≤ g.frameCols)
    (hcov : pre.r0 ≤ r0 ∧ r0 + rows ≤ pre.r0 + pre.rows) :
    ∃ o, prescanBiasSub glob d off offErr .imaging f = .ok o ∧
      IsBiasSub f pre st en off offErr r0 c0 rows cols r0 o := by
  obtain ⟨p, hp, hpr, hpc, hppx⟩ := C27_slice H.geom H.prescan H.inside f.data H.size.1 H.size.2
  have sl : ∀ {α : Type} (a : Img α), a.nr = g.frameRows → a.nc = g.frameCols →
      ∃ s, imagingSlice d t a = .ok s ∧ s.nr = rows ∧ s.nc = cols ∧ ∀ r c, s.px r c = a.px (r0 + r) (c0 + c) := by
    intro α a h1 h2
    have s1 : pySlice (r0 : ℤ) ((r0 : ℤ) + rows) a.nr = (r0, rows) := pySlice_inside (by omega)
    have s2 : pySlice (c0 : ℤ) ((c0 : ℤ) + cols) a.nc = (c0, cols) := pySlice_inside (by omega)
    refine ⟨a.slice r0 (r0 + rows) c0 (c0 + cols), ?_, ?_, ?_, ?_⟩
    · unfold imagingSlice; rw [hgeom]; rfl
    · simp only [Img.slice, s1]
    · simp only [Img.slice, s2]
    · intro r c; simp only [Img.slice, s1, s2]
  obtain ⟨x, hx, hxr, hxc, hxpx⟩ := sl f.data H.size.1 H.size.2
  obtain ⟨q, hq, hqr, hqc, hqpx⟩ := sl f.dq H.sizeDq.1 H.sizeDq.2
  obtain ⟨es, hes, hees⟩ := mapM_slices (f := imagingSlice d t) (l := f.err)
    (P := fun e e' => e'.nr = rows ∧ e'.nc = cols ∧ ∀ r c, e'.px r c = e.px (r0 + r) (c0 + c))
    (fun e he => sl e (H.sizeErr e he).1 (H.sizeErr e he).2)
  have s1 : pySlice ((r0 : ℤ) - pre.r0) ((r0 : ℤ) - pre.r0 + rows) p.nr = (r0 - pre.r0, rows) := by
    rw [show (r0 : ℤ) - pre.r0 = ((r0 - pre.r0 : ℕ) : ℤ) by omega]
    exact pySlice_inside (by omega)
  have s2 : pySlice 0 (p.nc : ℤ) p.nc = (0, p.nc) := by
    have := pySlice_nat (a := 0) (b := p.nc) (n := p.nc) (by omega) (by omega)
    simpa using this
  have hpick : pick glob d t f p .imaging = .ok (x, es, q,
      p.slice ((r0 : ℤ) - pre.r0) ((r0 : ℤ) - pre.r0 + rows) 0 p.nc) := by
    simp only [pick, bind, Except.bind, pure, Except.pure]
    rw [hx, hq]
    simp only
    rw [hes, hgeom]
    simp only
    rw [lookArea_ok.2 ⟨g, H.geom, H.prescan⟩]
  refine core H hse hec hp hpick hxr hxc ?_ ?_ hxpx ?_ ⟨hqr, hqc, hqpx⟩ hees
  · simp only [Img.slice, s1]
  · simp only [Img.slice, s2]; exact hpc
  · intro r c
    simp only [Img.slice, s1, s2]
    rw [hppx]; congr 1 <;> omega

/-- **C26** Frames without ARRTYPE, of an unknown mode or of another size than their mode's are rejected. -/
theorem C26_rejects {glob d : Regions} (off offErr : ℝ) (part : Part) (f : L1) :
    (f.arrtype = none → prescanBiasSub glob d off offErr part f = .error .keyError) ∧
    (∀ t, f.arrtype = some t → t ∉ ["SCI", "ENG", "ENG_EM", "ENG_CONV"] →
      prescanBiasSub glob d off offErr part f = .error .exception) ∧
    (∀ t g, f.arrtype = some t → look d t = .ok g → ¬ (f.data.nr = g.frameRows ∧ f.data.nc = g.frameCols) →
      prescanBiasSub glob d off offErr part f = .error .exception) := by
  refine ⟨?_, ?_, ?_⟩
  · intro h
    unfold prescanBiasSub; rw [h]; rfl
  · intro t h hn
    unfold prescanBiasSub; rw [h]
    simp only [getKey, bind, Except.bind]
    rw [if_neg hn]
  · intro t g h hg hs
    unfold prescanBiasSub; rw [h]
    simp only [getKey, bind, Except.bind]
    by_cases hk : t ∈ ["SCI", "ENG", "ENG_EM", "ENG_CONV"]
    · rw [if_pos hk, hg]
      simp only
      rw [if_pos]
      by_contra hc
      push Not at hc
      exact hs ⟨hc.1.symm, hc.2.symm⟩
    · rw [if_neg hk]

/-- The built-in regions. -/
def sciImage : Area := { rows := 1024, cols := 1024, r0 := 13, c0 := 1088 }
def sciPrescan : Area :=
  { rows := 1200, cols := 1088, r0 := 0, c0 := 0, colStart := some 800, colEnd := some 1000 }

/-- **C26** for science frames and the built-in geometry, with no condition but the frame size. -/
theorem C26_sci (off offErr : ℝ) (f : L1) (ht : f.arrtype = some "SCI")
    (hd : f.data.nr = 1200 ∧ f.data.nc = 2200) (hq : f.dq.nr = 1200 ∧ f.dq.nc = 2200)
    (he : ∀ e ∈ f.err, e.nr = 1200 ∧ e.nc = 2200) :
    ∃ o, prescanBiasSub detectorAreas detectorAreas off offErr .image f = .ok o ∧
      IsBiasSub f sciPrescan 800 1000 off offErr 13 1088 1024 1024 13 o := by
  have H : Ready detectorAreas f "SCI" geomSci sciPrescan 800 1000 :=
    { mode := ht, known := by decide, geom := by decide +kernel, size := hd, sizeDq := hq, sizeErr := he,
      prescan := by decide +kernel, inside := by decide, start := rfl, stop := rfl }
  exact C26_image_partial (gim := sciImage) (gpre := sciPrescan) off offErr H (by decide) (by decide)
    (im := sciImage) (by decide +kernel) (by decide) (by decide +kernel) (by decide +kernel) rfl rfl (by decide)

/-- **C26** for the imaging area of science frames. -/
theorem C26_sci_imaging (off offErr : ℝ) (f : L1) (ht : f.arrtype = some "SCI")
    (hd : f.data.nr = 1200 ∧ f.data.nc = 2200) (hq : f.dq.nr = 1200 ∧ f.dq.nc = 2200)
    (he : ∀ e ∈ f.err, e.nr = 1200 ∧ e.nc = 2200) :
    ∃ o, prescanBiasSub detectorAreas detectorAreas off offErr .imaging f = .ok o ∧
      IsBiasSub f sciPrescan 800 1000 off offErr 0 1088 1037 1056 0 o := by
  have H : Ready detectorAreas f "SCI" geomSci sciPrescan 800 1000 :=
    { mode := ht, known := by decide, geom := by decide +kernel, size := hd, sizeDq := hq, sizeErr := he,
      prescan := by decide +kernel, inside := by decide, start := rfl, stop := rfl }
  exact C26_imaging off offErr H (by decide) (by decide) (by decide +kernel) (by decide) (by decide)

/-! ### Row offsets -/

/-- The frame with `b r` added to every pixel of row `r`. -/
def addRows (b : ℕ → ℝ) (f : L1) : L1 :=
  { f with data := ⟨f.data.nr, f.data.nc, fun r c => (f.data.px r c).map (· + b r)⟩ }

theorem allVals_shift (b : ℝ) (l : List (Option ℝ)) :
    allVals (l.map fun x => x.map (· + b)) = (allVals l).map fun v => v.map (· + b) := by
  unfold allVals
  induction l with
  | nil => rfl
  | cons a l ih =>
    rw [List.map_cons, List.mapM_cons, List.mapM_cons, ih]
    cases a with
    | none => rfl
    | some x => cases l.mapM id <;> rfl

theorem mean_shift (b : ℝ) (l : List ℝ) (hl : l ≠ []) : mean (l.map (· + b)) = mean l + b := by
  unfold mean
  have hs : (l.map (· + b)).sum = l.sum + l.length * b := by
    clear hl
    induction l with
    | nil => simp
    | cons a l ih => simp only [List.map_cons, List.sum_cons, ih, List.length_cons]; push_cast; ring
  have : (l.length : ℝ) ≠ 0 := by
    have := List.length_pos_of_ne_nil hl
    exact_mod_cast this.ne'
  rw [hs, List.length_map]
  field_simp

theorem median_shift (b : ℝ) (l : List ℝ) (hl : l ≠ []) : median (l.map (· + b)) = median l + b := by
  have hm : (l.map (· + b)).insertionSort (· ≤ ·) = (l.insertionSort (· ≤ ·)).map (· + b) := by
    refine (List.map_insertionSort (r := (· ≤ ·)) (s := (· ≤ ·)) (· + b) l ?_).symm
    intro x _ y _; simp
  have hlen : (l.insertionSort (· ≤ ·)).length = l.length := List.length_insertionSort _ l
  have hpos := List.length_pos_of_ne_nil hl
  unfold median
  rw [hm]
  dsimp only
  rw [List.length_map, hlen, List.getElem?_map, List.getElem?_map]
  have e1 : l.length / 2 < (l.insertionSort (· ≤ ·)).length := by omega
  have e2 : l.length / 2 - 1 < (l.insertionSort (· ≤ ·)).length := by omega
  rw [List.getElem?_eq_getElem e1, List.getElem?_eq_getElem e2]
  simp only [Option.map_some, Option.getD_some]
  split
  · rfl
  · ring

theorem npMedian_shift (b : ℝ) (l : List (Option ℝ)) :
    npMedian (l.map fun x => x.map (· + b)) = (npMedian l).map (· + b) := by
  unfold npMedian
  rw [allVals_shift]
  cases allVals l with
  | none => rfl
  | some v =>
    cases v with
    | nil => rfl
    | cons x xs =>
      simp only [Option.map_some, List.map_cons]
      rw [← median_shift b (x :: xs) (by simp)]; rfl

/-- **C26** numpy's rule for the lengths of combined axes: the result has one of the two lengths, and the other is the same or one. -/
theorem C26_broadcast {a b n : ℕ} : bshape a b = .ok n ↔ (n = a ∨ n = b) ∧ (a = n ∨ a = 1) ∧ (b = n ∨ b = 1) := by
  unfold bshape
  split_ifs <;> simp <;> omega

/-- **C26** The scatter of the bias columns is in the unit of the data, -/
theorem C26_std_scale (k : ℝ) (l : List ℝ) : std (l.map (k * ·)) = |k| * std l := by
  unfold std
  have hm : mean (l.map (k * ·)) = k * mean l := by
    unfold mean
    rw [List.sum_map_mul_left, List.length_map]
    simp only [List.map_id']
    ring
  rw [List.map_map, hm]
  have : (l.map ((fun x => (x - k * mean l) ^ 2) ∘ (k * ·))) = (l.map fun x => (x - mean l) ^ 2).map (k ^ 2 * ·) := by
    rw [List.map_map]
    apply List.map_congr_left
    intro x _
    simp only [Function.comp_apply]
    ring
  have hm2 : mean ((l.map fun x => (x - mean l) ^ 2).map (k ^ 2 * ·)) = k ^ 2 * mean (l.map fun x => (x - mean l) ^ 2) := by
    unfold mean
    rw [List.sum_map_mul_left, List.length_map]
    simp only [List.map_id']
    ring
  rw [this, hm2, Real.sqrt_mul (sq_nonneg k), Real.sqrt_sq_eq_abs]

/-- and that of a value plus and minus `s`, equally often, is `s`. -/
theorem C26_std_two {s : ℝ} (hs : 0 ≤ s) (v : ℝ) {n : ℕ} (hn : n ≠ 0) :
    std (List.replicate n (v + s) ++ List.replicate n (v - s)) = s := by
  have h0 : (n : ℝ) ≠ 0 := Nat.cast_ne_zero.2 hn
  have hm : mean (List.replicate n (v + s) ++ List.replicate n (v - s)) = v := by
    unfold mean
    simp only [List.sum_append, List.sum_replicate, List.length_append, List.length_replicate, nsmul_eq_mul]
    push_cast
    field_simp
    ring
  unfold std
  rw [hm, List.map_append, List.map_replicate, List.map_replicate]
  unfold mean
  simp only [List.sum_append, List.sum_replicate, List.length_append, List.length_replicate, nsmul_eq_mul]
  push_cast
  rw [show ((n : ℝ) * (v + s - v) ^ 2 + n * (v - s - v) ^ 2) / (n + n) = s ^ 2 by field_simp; ring]
  exact Real.sqrt_sq hs

theorem std_shift (b : ℝ) (l : List ℝ) (hl : l ≠ []) : std (l.map (· + b)) = std l := by
  unfold std
  rw [mean_shift b l hl, List.map_map]
  congr 2
  apply List.map_congr_left
  intro x _
  simp only [Function.comp_apply]; ring

theorem npStd_shift (b : ℝ) (l : List (Option ℝ)) : npStd (l.map fun x => x.map (· + b)) = npStd l := by
  unfold npStd
  rw [allVals_shift]
  cases allVals l with
  | none => rfl
  | some v =>
    cases v with
    | nil => rfl
    | cons x xs =>
      simp only [Option.map_some, List.map_cons]
      rw [← std_shift b (x :: xs) (by simp)]; rfl

theorem rowBias_shift (b : ℕ → ℝ) (f : L1) (pre : Area) (st en : ℕ) (off : ℝ) (r : ℕ) :
    rowBias (addRows b f) pre st en off r = (rowBias f pre st en off r).map (· + b r) := by
  unfold rowBias addRows
  dsimp only
  rw [show (List.range' (pre.c0 + st) (en - st)).map (fun c => (f.data.px r c).map (· + b r)) =
    ((List.range' (pre.c0 + st) (en - st)).map (f.data.px r)).map fun x => x.map (· + b r) by
      rw [List.map_map]; rfl, npMedian_shift, Option.map_map, Option.map_map]
  congr 1
  funext x
  simp only [Function.comp_apply]; ring

theorem rowErr_shift (b : ℕ → ℝ) (f : L1) (pre : Area) (st en : ℕ) (offErr : ℝ) (r : ℕ) :
    rowErr (addRows b f) pre st en offErr r = rowErr f pre st en offErr r := by
  unfold rowErr addRows
  dsimp only
  rw [show (List.range' (pre.c0 + st) (en - st)).map (fun c => (f.data.px r c).map (· + b r)) =
    ((List.range' (pre.c0 + st) (en - st)).map (f.data.px r)).map fun x => x.map (· + b r) by
      rw [List.map_map]; rfl, npStd_shift]

/-- **C26** A constant added to each row changes nothing but the stored bias column, which increases by it:
for any two results that are bias-subtracted rectangles (by the theorems above, what the step returns). -/
theorem C26_row_offsets {f : L1} {pre : Area} {st en : ℕ} {off offErr : ℝ} {r0 c0 rows cols : ℕ}
    {o o' : BiasSub} (b : ℕ → ℝ) (h : IsBiasSub f pre st en off offErr r0 c0 rows cols r0 o)
    (h' : IsBiasSub (addRows b f) pre st en off offErr r0 c0 rows cols r0 o') :
    o'.data.Same o.data ∧ o'.newErr.Same o.newErr ∧ o'.dq.Same o.dq ∧
    List.Forall₂ (fun e e' => e'.Same e) o.err o'.err ∧
    o'.bias = (List.zip o.bias (List.range rows)).map fun x => x.1.map (· + b (r0 + x.2)) := by
  refine ⟨⟨h'.shape.1.trans h.shape.1.symm, h'.shape.2.1.trans h.shape.2.1.symm, ?_⟩,
    ⟨h'.shape.2.2.1.trans h.shape.2.2.1.symm, h'.shape.2.2.2.trans h.shape.2.2.2.symm, ?_⟩,
    ⟨h'.dq.1.trans h.dq.1.symm, h'.dq.2.1.trans h.dq.2.1.symm, ?_⟩, ?_, ?_⟩
  · intro r c hr hc
    rw [h'.shape.1] at hr
    rw [h'.shape.2.1] at hc
    rw [h'.data r c hr hc, h.data r c hr hc, rowBias_shift]
    show sub ((f.data.px (r0 + r) (c0 + c)).map (· + b (r0 + r))) _ = _
    cases f.data.px (r0 + r) (c0 + c) with
    | none => rfl
    | some v =>
      cases rowBias f pre st en off (r0 + r) with
      | none => rfl
      | some w => simp [sub]
  · intro r c hr hc
    rw [h'.shape.2.2.1] at hr
    rw [h'.shape.2.2.2] at hc
    rw [h'.newErr r c hr hc, h.newErr r c hr hc, rowErr_shift]
  · intro r c _ _
    rw [h'.dq.2.2, h.dq.2.2]; rfl
  · have h1 := h.err
    have h2 := h'.err
    change List.Forall₂ _ f.err o'.err at h2
    revert h1 h2
    generalize o.err = l1
    generalize o'.err = l2
    generalize f.err = l
    intro h1
    induction h1 generalizing l2 with
    | nil => intro h2; cases h2; exact .nil
    | cons ha _ ih =>
      intro h2
      cases h2 with
      | cons hb hbs =>
        refine .cons ⟨hb.1.trans ha.1.symm, hb.2.1.trans ha.2.1.symm, fun r c _ _ => ?_⟩ (ih _ hbs)
        rw [hb.2.2, ha.2.2]
  · rw [h'.bias, h.bias]
    rw [List.zip_map_left, List.map_map]
    rw [show (List.range rows).zip (List.range rows) = (List.range rows).map fun i => (i, i) by
      rw [List.zip_eq_zipWith, List.zipWith_self], List.map_map]
    apply List.map_congr_left
    intro r _
    rw [rowBias_shift]; rfl

/-- Adding a constant to each row of a science frame, end to end. -/
theorem C26_sci_row_offsets (off offErr : ℝ) (f : L1) (b : ℕ → ℝ) (ht : f.arrtype = some "SCI")
    (hd : f.data.nr = 1200 ∧ f.data.nc = 2200) (hq : f.dq.nr = 1200 ∧ f.dq.nc = 2200)
    (he : ∀ e ∈ f.err, e.nr = 1200 ∧ e.nc = 2200) :
    ∃ o o', prescanBiasSub detectorAreas detectorAreas off offErr .image f = .ok o ∧
      prescanBiasSub detectorAreas detectorAreas off offErr .image (addRows b f) = .ok o' ∧
      o'.data.Same o.data ∧ o'.newErr.Same o.newErr ∧ o'.dq.Same o.dq ∧
      o'.bias = (List.zip o.bias (List.range 1024)).map fun x => x.1.map (· + b (13 + x.2)) := by
  obtain ⟨o, h1, h2⟩ := C26_sci off offErr f ht hd hq he
  obtain ⟨o', h3, h4⟩ := C26_sci off offErr (addRows b f) ht hd hq he
  obtain ⟨h5, h6, h7, _, h8⟩ := C26_row_offsets b h2 h4
  exact ⟨o, o', h1, h3, h5, h6, h7, h8⟩

/-! ### Where it fails -/

/-- With the reliable columns outside the prescan section every output pixel is NaN. -/
theorem all_nan {glob d : Regions} {off offErr : ℝ} {part : Part} {f : L1} {o : BiasSub}
    (h : prescanBiasSub glob d off offErr part f = .ok o) {t : String} (ht : f.arrtype = some t) {pre : Area}
    (hpre : lookArea d t "prescan" = .ok pre) {st : ℕ} (hst : pre.colStart = some st)
    (hout : pre.cols ≤ st) (r c : ℕ) : o.data.px r c = none := by
  unfold prescanBiasSub at h
  rw [ht] at h
  simp only [getKey, bind, Except.bind] at h
  by_cases hk : t ∈ ["SCI", "ENG", "ENG_EM", "ENG_CONV"]
  swap
  · rw [if_neg hk] at h; cases h
  rw [if_pos hk] at h
  cases hg : look d t with
  | error e => rw [hg] at h; cases h
  | ok g =>
  rw [hg] at h
  simp only at h
  by_cases hsz : g.frameRows ≠ f.data.nr ∨ g.frameCols ≠ f.data.nc
  · rw [if_pos hsz] at h; cases h
  rw [if_neg hsz] at h
  cases hp : sliceSection d f.data t "prescan" with
  | error e => rw [hp] at h; cases h
  | ok p =>
  rw [hp] at h
  simp only at h
  have hpc : p.nc ≤ pre.cols := by
    unfold sliceSection at hp
    rw [hpre] at hp
    simp only [bind, Except.bind] at hp
    split at hp
    · cases hp
    · simp only [Except.ok.injEq] at hp
      subst hp
      simp only [Img.slice, pySlice, pyIdx]
      rw [if_neg (by omega), if_neg (by omega)]
      omega
  cases hk2 : pick glob d t f p part with
  | error e => rw [hk2] at h; cases h
  | ok w =>
  obtain ⟨x, e, q, al⟩ := w
  rw [hk2] at h
  simp only at h
  have hal : al.nc ≤ p.nc := by
    have hsl : ∀ r0 r1 : ℤ, (p.slice r0 r1 0 p.nc).nc ≤ p.nc := by
      intro r0 r1
      simp only [Img.slice, pySlice, pyIdx]
      rw [if_neg (by omega), if_neg (by omega)]
      omega
    cases part with
    | full => simp [pick] at hk2; rw [← hk2.2.2.2]
    | image =>
      simp only [pick, bind, Except.bind, pure, Except.pure] at hk2
      cases h1 : sliceSection d f.data t "image" with
      | error e => rw [h1] at hk2; cases hk2
      | ok a1 =>
      cases h2 : sliceSection d f.dq t "image" with
      | error e => rw [h1, h2] at hk2; cases hk2
      | ok a2 =>
      cases h3 : f.err.mapM fun s => sliceSection d s t "image" with
      | error e => rw [h1, h2] at hk2; simp only at hk2; rw [h3] at hk2; cases hk2
      | ok a3 =>
      cases h4 : lookArea glob t "image" with
      | error e => rw [h1, h2] at hk2; simp only at hk2; rw [h3, h4] at hk2; cases hk2
      | ok a4 =>
      cases h5 : lookArea glob t "prescan" with
      | error e => rw [h1, h2] at hk2; simp only at hk2; rw [h3, h4, h5] at hk2; cases hk2
      | ok a5 =>
      rw [h1, h2] at hk2; simp only at hk2
      rw [h3, h4, h5] at hk2
      simp only [Except.ok.injEq, Prod.mk.injEq] at hk2
      rw [← hk2.2.2.2]
      exact hsl _ _
    | imaging =>
      simp only [pick, bind, Except.bind, pure, Except.pure] at hk2
      cases h1 : imagingSlice d t f.data with
      | error e => rw [h1] at hk2; cases hk2
      | ok a1 =>
      cases h2 : imagingSlice d t f.dq with
      | error e => rw [h1, h2] at hk2; cases hk2
      | ok a2 =>
      cases h3 : f.err.mapM (imagingSlice d t) with
      | error e => rw [h1, h2] at hk2; simp only at hk2; rw [h3] at hk2; cases hk2
      | ok a3 =>
      cases h4 : imagingAreaGeom d t with
      | error e => rw [h1, h2] at hk2; simp only at hk2; rw [h3, h4] at hk2; cases hk2
      | ok a4 =>
      rw [h1, h2] at hk2; simp only at hk2
      rw [h3, h4, hpre] at hk2
      simp only [Except.ok.injEq, Prod.mk.injEq] at hk2
      rw [← hk2.2.2.2]
      exact hsl _ _
  rw [hpre] at h
  simp only [hst] at h
  cases hen : pre.colEnd with
  | none => rw [hen] at h; cases h
  | some en =>
  rw [hen] at h
  simp only at h
  cases hb : bshape x.nr al.nr with
  | error e => rw [hb] at h; cases h
  | ok nr =>
  rw [hb] at h
  simp only [Except.ok.injEq] at h
  subst h
  dsimp only
  have hempty : ∀ r, rowSlice al r st en = [] := by
    intro r
    unfold rowSlice pySlice pyIdx
    rw [if_neg (by omega), if_neg (by omega)]
    have : min (en : ℤ).toNat al.nc - min (st : ℤ).toNat al.nc = 0 := by omega
    simp only [this, List.range_zero, List.map_nil]
  rw [hempty]
  cases x.px (bcast x.nr r) c <;> rfl

/-- **C26** is violated for ENG_CONV frames: the table gives the reliable columns in frame coordinates (1200
to 1400) but they are applied to the prescan section, which has 1128 columns; every pixel of every such frame
becomes NaN. -/
theorem C26_violated (off offErr : ℝ) (part : Part) (f : L1) (o : BiasSub) (ht : f.arrtype = some "ENG_CONV")
    (h : prescanBiasSub detectorAreas detectorAreas off offErr part f = .ok o) (r c : ℕ) :
    o.data.px r c = none :=
  all_nan h ht (pre := { rows := 2200, cols := 1128, r0 := 0, c0 := 1072, colStart := some 1200, colEnd := some 1400 })
    (by decide +kernel) rfl (by decide) r c

/-- ... and the step does return something for such a frame (without noticing). -/
theorem C26_violated_runs : ∃ o, prescanBiasSub detectorAreas detectorAreas 0 0 .full
    ⟨some "ENG_CONV", ⟨2200, 2200, fun _ _ => some 0⟩, [], ⟨2200, 2200, fun _ _ => 0⟩⟩ = .ok o := by
  have hg : look detectorAreas "ENG_CONV" = .ok geomEngConv := by decide +kernel
  have hp : look geomEngConv.areas "prescan" = .ok
    { rows := 2200, cols := 1128, r0 := 0, c0 := 1072, colStart := some 1200, colEnd := some 1400 } := by
    decide +kernel
  obtain ⟨p, h1, h2, h3, _⟩ := C27_slice hg hp (by decide)
    (⟨2200, 2200, fun _ _ => some 0⟩ : Img (Option ℝ)) rfl rfl
  unfold prescanBiasSub
  simp only [getKey, bind, Except.bind]
  rw [if_pos (by decide), hg]
  simp only
  rw [if_neg (by decide), h1]
  simp only [pick]
  rw [lookArea_ok.2 ⟨_, hg, hp⟩]
  simp only [bshape, h2, if_true]
  exact ⟨_, rfl⟩

/-- The median of equal values. -/
theorem median_const (n : ℕ) (x : ℝ) (hn : n ≠ 0) : median (List.replicate n x) = x := by
  obtain ⟨h1, h2⟩ := median_spec (List.replicate n x) (by simpa using hn)
  rw [List.length_replicate] at h1 h2
  have p1 : 0 < (List.replicate n x).countP fun y => decide (y ≤ median (List.replicate n x)) := by omega
  have p2 : 0 < (List.replicate n x).countP fun y => decide (median (List.replicate n x) ≤ y) := by omega
  rw [List.countP_pos_iff] at p1 p2
  obtain ⟨a, ha, ha'⟩ := p1
  obtain ⟨b, hb, hb'⟩ := p2
  rw [(List.mem_replicate.1 ha).2] at ha'
  rw [(List.mem_replicate.1 hb).2] at hb'
  simp only [decide_eq_true_eq] at ha' hb'
  exact le_antisymm hb' ha'

/-- A geometry with the image area 87 rows further up than in the built-in one. -/
def shifted : Regions := [("SCI", { frameRows := 1200, frameCols := 2200, areas := [
  ("image", { rows := 1024, cols := 1024, r0 := 100, c0 := 1088 }), ("prescan", sciPrescan)] })]

/-- **C26** is violated for a geometry passed in: the bias of row 13 + r (built-in table) is subtracted from
row 100 + r. -/
theorem C26_custom_geometry_violated (off offErr : ℝ) (f : L1) (ht : f.arrtype = some "SCI")
    (hd : f.data.nr = 1200 ∧ f.data.nc = 2200) (hq : f.dq.nr = 1200 ∧ f.dq.nc = 2200)
    (he : ∀ e ∈ f.err, e.nr = 1200 ∧ e.nc = 2200) :
    ∃ o, prescanBiasSub detectorAreas shifted off offErr .image f = .ok o ∧
      IsBiasSub f sciPrescan 800 1000 off offErr 100 1088 1024 1024 13 o := by
  have H : Ready shifted f "SCI" { frameRows := 1200, frameCols := 2200, areas := [
      ("image", { rows := 1024, cols := 1024, r0 := 100, c0 := 1088 }), ("prescan", sciPrescan)] }
      sciPrescan 800 1000 :=
    { mode := ht, known := by decide, geom := by decide +kernel, size := hd, sizeDq := hq, sizeErr := he,
      prescan := by decide +kernel, inside := by decide, start := rfl, stop := rfl }
  exact C26_image_exact (gim := sciImage) (gpre := sciPrescan) off offErr H (by decide) (by decide)
    (im := { rows := 1024, cols := 1024, r0 := 100, c0 := 1088 }) (by decide +kernel) (by decide)
    (by decide +kernel) (by decide +kernel) rfl (by decide)

/-- ... so a bias that differs from row to row stays in the image: constant rows r give 87 everywhere
instead of 0. -/
theorem C26_custom_geometry_wrong : ∃ o, prescanBiasSub detectorAreas shifted 0 0 .image
      ⟨some "SCI", ⟨1200, 2200, fun r _ => some r⟩, [], ⟨1200, 2200, fun _ _ => 0⟩⟩ = .ok o ∧
    ∀ r c, r < 1024 → c < 1024 → o.data.px r c = some 87 := by
  obtain ⟨o, h1, h2⟩ := C26_custom_geometry_violated 0 0
    ⟨some "SCI", ⟨1200, 2200, fun r _ => some (r : ℝ)⟩, [], ⟨1200, 2200, fun _ _ => 0⟩⟩ rfl ⟨rfl, rfl⟩ ⟨rfl, rfl⟩
    (by simp)
  refine ⟨o, h1, fun r c hr hc => ?_⟩
  rw [h2.data r c hr hc]
  have hb : ∀ r : ℕ, rowBias (⟨some "SCI", ⟨1200, 2200, fun r _ => some (r : ℝ)⟩, [], ⟨1200, 2200, fun _ _ => 0⟩⟩ : L1)
      sciPrescan 800 1000 0 r = some (r : ℝ) := by
    intro r
    unfold rowBias
    dsimp only
    have hc : (List.range' (sciPrescan.c0 + 800) (1000 - 800)).map (fun _ : ℕ => some (r : ℝ)) =
        (List.replicate 200 (some (0 : ℝ))).map fun x => x.map (· + (r : ℝ)) := by
      rw [List.map_const', List.map_replicate]; simp
    rw [hc, npMedian_shift]
    have h0 : npMedian (List.replicate 200 (some (0 : ℝ))) = some 0 := by
      have ha : allVals (List.replicate 200 (some (0 : ℝ))) = some (List.replicate 200 0) := by
        unfold allVals
        have : ∀ n, (List.replicate n (some (0 : ℝ))).mapM id = some (List.replicate n 0) := by
          intro n
          induction n with
          | zero => rfl
          | succ n ih => rw [List.replicate_succ, List.mapM_cons, ih]; rfl
        exact this 200
      unfold npMedian
      rw [ha]
      have hr : List.replicate 200 (0 : ℝ) = 0 :: List.replicate 199 0 := rfl
      rw [hr]
      simp only
      rw [← hr]
      rw [median_const 200 0 (by decide)]
    rw [h0]; simp
  rw [hb]
  simp only [sub]
  congr 1
  push_cast; ring

end Corgi.Det

end

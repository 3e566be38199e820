import Verif.Detector.Prescan

/-!
# `mean_combine` and `build_trad_dark` (darks.py 10-259): model and C34

Values are reals with NaN (`none`); images are float arrays. `np.ma.std` of a pixel masked in all frames is masked and
the number left in its data is not specified by numpy: it is the parameter `junk`.
-/

noncomputable section

namespace Corgi.Darks

open Corgi.Nan Corgi.Det

inductive Err
  | typeError | exception | valueError | keyError
  deriving DecidableEq, Repr

/-- Addition with NaN. -/
def addN (a b : Option ℝ) : Option ℝ := match a, b with
  | some x, some y => some (x + y)
  | _, _ => none

/-- `im_m.filled(0)` -/
def filled (v : Option ℝ) (b : ℤ) : Option ℝ := if b = 0 then v else some 0

/-- The values and mask bits of one pixel in all frames. -/
def column {α β : Type} (ims : List (Img α)) (bps : List (Img β)) (r c : ℕ) : List (α × β) :=
  List.zipWith (fun im bp => (im.px r c, bp.px r c)) ims bps

/-- lines 99-106: `sum_im` of one pixel. -/
def sumIm (err : Bool) (st : List (Option ℝ × ℤ)) : Option ℝ :=
  st.foldl (fun acc s => addN acc (if err then (filled s.1 s.2).map (· ^ 2) else filled s.1 s.2)) (some 0)

/-- lines 100, 107: `map_im` of one pixel. -/
def mapIm (st : List (Option ℝ × ℤ)) : ℕ := st.foldl (fun (acc : ℕ) s => acc + if s.2 = 0 then 1 else 0) 0

/-- lines 112-113: `comb_image` of one pixel. -/
def combIm (err : Bool) (st : List (Option ℝ × ℤ)) : Option ℝ :=
  let v := if mapIm st ≠ 0 then (sumIm err st).map (· / (mapIm st : ℝ)) else some 0
  if err then v.map Real.sqrt else v

structure Combined where
  image : Img (Option ℝ)
  bpmap : Img ℕ
  num : Img ℕ
  enough : Bool

/-- All pixel positions of an image. -/
def positions (nr nc : ℕ) : List (ℕ × ℕ) :=
  (List.range nr).flatMap fun r => (List.range nc).map fun c => (r, c)

/-- lines 72-89: the checks of one bad-pixel map. -/
def badMap (nr nc : ℕ) (bp : Img ℤ) : Bool :=
  decide (bp.nr ≠ nr ∨ bp.nc ≠ nc) || (positions bp.nr bp.nc).any fun p => bp.px p.1 p.2 ≠ 0 && bp.px p.1 p.2 ≠ 1

/-- `mean_combine`, lines 10-125, on lists. -/
def meanCombine (ims : List (Img (Option ℝ))) (bps : List (Img ℤ)) (err : Bool) : Except Err Combined :=
  if ims.length ≠ bps.length then .error .typeError
  else match ims with
  | [] => .error .typeError
  | i0 :: _ =>
    if ims.any fun im => decide (im.nr ≠ i0.nr ∨ im.nc ≠ i0.nc) then .error .typeError
    else if bps.any (badMap i0.nr i0.nc) then .error .typeError
    else if i0.nr * i0.nc = 0 then .error .valueError
    else .ok
      { image := ⟨i0.nr, i0.nc, fun r c => combIm err (column ims bps r c)⟩
        bpmap := ⟨i0.nr, i0.nc, fun r c => if mapIm (column ims bps r c) = 0 then 1 else 0⟩
        num := ⟨i0.nr, i0.nc, fun r c => mapIm (column ims bps r c)⟩
        enough := !((positions i0.nr i0.nc).any fun p => decide (2 * mapIm (column ims bps p.1 p.2) < ims.length)) }

/-! ## Specification -/

/-- The unmasked samples. -/
def good (st : List (Option ℝ × ℤ)) : List (Option ℝ) := (st.filter fun s => s.2 = 0).map Prod.fst

/-- Well-formed input. -/
structure Ok (ims : List (Img (Option ℝ))) (bps : List (Img ℤ)) (nr nc : ℕ) : Prop where
  len : ims.length = bps.length
  ne : ims ≠ []
  im : ∀ i ∈ ims, i.nr = nr ∧ i.nc = nc
  bp : ∀ b ∈ bps, (b.nr = nr ∧ b.nc = nc) ∧ ∀ r c, r < nr → c < nc → b.px r c = 0 ∨ b.px r c = 1
  pos : nr * nc ≠ 0

/-! ## Proofs -/

theorem mem_positions {nr nc : ℕ} {p : ℕ × ℕ} : p ∈ positions nr nc ↔ p.1 < nr ∧ p.2 < nc := by
  obtain ⟨r, c⟩ := p
  simp [positions]

theorem mapIm_eq (st : List (Option ℝ × ℤ)) : mapIm st = (good st).length := by
  unfold mapIm good
  rw [List.length_map]
  have : ∀ n : ℕ, st.foldl (fun (acc : ℕ) s => acc + if s.2 = 0 then 1 else 0) n =
      n + (st.filter fun s => s.2 = 0).length := by
    induction st with
    | nil => intro n; simp
    | cons s st ih =>
      intro n
      rw [List.foldl_cons, ih, List.filter_cons]
      by_cases h : s.2 = 0 <;> simp [h]
      omega
  rw [this]; omega

theorem addN_zero (a : Option ℝ) : addN a (some 0) = a := by cases a <;> simp [addN]

theorem sumIm_eq (err : Bool) (st : List (Option ℝ × ℤ)) (v : List ℝ) (h : good st = v.map some) :
    sumIm err st = some ((v.map fun x => if err then x ^ 2 else x).sum) := by
  unfold sumIm
  have : ∀ (a : ℝ) (st : List (Option ℝ × ℤ)) (v : List ℝ), good st = v.map some →
      st.foldl (fun acc s => addN acc (if err then (filled s.1 s.2).map (· ^ 2) else filled s.1 s.2)) (some a) =
        some (a + (v.map fun x => if err then x ^ 2 else x).sum) := by
    intro a st
    induction st generalizing a with
    | nil => intro v hv; cases v with
      | nil => simp
      | cons x v => simp [good] at hv
    | cons s st ih =>
      intro v hv
      rw [List.foldl_cons]
      by_cases hs : s.2 = 0
      · have hg : good (s :: st) = s.1 :: good st := by simp [good, hs]
        rw [hg] at hv
        cases v with
        | nil => simp at hv
        | cons x v =>
          rw [List.map_cons] at hv
          obtain ⟨h1, h2⟩ := List.cons.inj hv
          have : addN (some a) (if err then (filled s.1 s.2).map (· ^ 2) else filled s.1 s.2) =
              some (a + if err then x ^ 2 else x) := by
            rw [h1]; cases err <;> simp [filled, hs, addN]
          rw [this, ih _ v h2, List.map_cons, List.sum_cons, add_assoc]
      · have hg : good (s :: st) = good st := by simp [good, hs]
        rw [hg] at hv
        have : addN (some a) (if err then (filled s.1 s.2).map (· ^ 2) else filled s.1 s.2) = some a := by
          cases err <;> simp [filled, hs, addN]
        rw [this, ih _ v hv]
  rw [this 0 st v h, zero_add]

/-- A NaN among the unmasked samples makes the sum NaN. -/
theorem sumIm_nan (err : Bool) (st : List (Option ℝ × ℤ)) (h : none ∈ good st) : sumIm err st = none := by
  unfold sumIm
  have keep : ∀ st : List (Option ℝ × ℤ),
      st.foldl (fun acc s => addN acc (if err then (filled s.1 s.2).map (· ^ 2) else filled s.1 s.2)) none = none := by
    intro st
    induction st with
    | nil => rfl
    | cons s st ih => rw [List.foldl_cons]; exact ih
  generalize some (0 : ℝ) = a
  induction st generalizing a with
  | nil => simp [good] at h
  | cons s st ih =>
    rw [List.foldl_cons]
    by_cases hs : s.2 = 0
    · have hg : good (s :: st) = s.1 :: good st := by simp [good, hs]
      rw [hg] at h
      rcases List.mem_cons.1 h with h | h
      · have : addN a (if err then (filled s.1 s.2).map (· ^ 2) else filled s.1 s.2) = none := by
          rw [← h]; cases err <;> cases a <;> simp [filled, hs, addN]
        rw [this]; exact keep st
      · exact ih h _
    · have hg : good (s :: st) = good st := by simp [good, hs]
      rw [hg] at h
      exact ih h _

/-- **C34** The combined value of a pixel whose unmasked samples are numbers: their mean, 0 if there are none. -/
theorem C34_mean (st : List (Option ℝ × ℤ)) (v : List ℝ) (h : good st = v.map some) :
    (v ≠ [] → combIm false st = some (mean v)) ∧ (v = [] → combIm false st = some 0) := by
  have hn : mapIm st = v.length := by rw [mapIm_eq, h, List.length_map]
  unfold combIm
  rw [sumIm_eq false st v h, hn]
  constructor
  · intro hv
    have : v.length ≠ 0 := by simpa using hv
    simp [this, mean]
  · rintro rfl; simp

/-- **C34** For error arrays: the root of the mean square. -/
theorem C34_mean_err (st : List (Option ℝ × ℤ)) (v : List ℝ) (h : good st = v.map some) :
    combIm true st = some (Real.sqrt (mean (v.map (· ^ 2)))) := by
  have hn : mapIm st = v.length := by rw [mapIm_eq, h, List.length_map]
  unfold combIm
  rw [sumIm_eq true st v h, hn]
  by_cases hv : v = []
  · subst hv; simp [mean]
  · have : v.length ≠ 0 := by simpa using hv
    simp [this, mean]

/-- **C34** A NaN counts unless it is masked. -/
theorem C34_nan (err : Bool) (st : List (Option ℝ × ℤ)) (h : none ∈ good st) : combIm err st = none := by
  have hn : mapIm st ≠ 0 := by
    rw [mapIm_eq]; intro h0
    rw [List.length_eq_zero_iff] at h0
    rw [h0] at h; simp at h
  unfold combIm
  rw [sumIm_nan err st h]
  cases err <;> simp [hn]

/-- **C34** The value in a masked sample does not matter, be it NaN. -/
theorem C34_masked_irrelevant (err : Bool) (st st' : List (Option ℝ × ℤ))
    (h : List.Forall₂ (fun s s' => s.2 = s'.2 ∧ (s.2 = 0 → s.1 = s'.1)) st st') : combIm err st = combIm err st' := by
  have hs : sumIm err st = sumIm err st' := by
    unfold sumIm
    generalize some (0 : ℝ) = a
    induction h generalizing a with
    | nil => rfl
    | cons hd _ ih =>
      rename_i s s' _ _ _
      rw [List.foldl_cons, List.foldl_cons]
      have : filled s.1 s.2 = filled s'.1 s'.2 := by
        unfold filled
        by_cases h0 : s.2 = 0
        · rw [if_pos h0, if_pos (hd.1 ▸ h0), hd.2 h0]
        · rw [if_neg h0, if_neg (hd.1 ▸ h0)]
      rw [this]
      exact ih _
  have hm : mapIm st = mapIm st' := by
    clear hs
    unfold mapIm
    have : ∀ a : ℕ, st.foldl (fun (acc : ℕ) s => acc + if s.2 = 0 then 1 else 0) a =
        st'.foldl (fun (acc : ℕ) s => acc + if s.2 = 0 then 1 else 0) a := by
      induction h with
      | nil => intro a; rfl
      | cons hd _ ih => intro a; rw [List.foldl_cons, List.foldl_cons, hd.1]; exact ih _
    exact this 0
  unfold combIm
  rw [hs, hm]

private theorem badMap_false {nr nc : ℕ} {b : Img ℤ} : badMap nr nc b = false ↔
    (b.nr = nr ∧ b.nc = nc) ∧ ∀ r c, r < nr → c < nc → b.px r c = 0 ∨ b.px r c = 1 := by
  unfold badMap
  rw [Bool.or_eq_false_iff, decide_eq_false_iff_not, List.any_eq_false]
  constructor
  · rintro ⟨h1, h2⟩
    push Not at h1
    refine ⟨h1, fun r c hr hc => ?_⟩
    have := h2 (r, c) (mem_positions.2 ⟨by rw [h1.1]; exact hr, by rw [h1.2]; exact hc⟩)
    by_contra hcon
    push Not at hcon
    exact this (by simp [hcon.1, hcon.2])
  · rintro ⟨h1, h2⟩
    refine ⟨by push Not; exact h1, fun p hp => ?_⟩
    rw [mem_positions, h1.1, h1.2] at hp
    rcases h2 p.1 p.2 hp.1 hp.2 with h | h <;> simp [h]

/-- **C34** `mean_combine` for whole frames: succeeds iff the input is well formed; the pixels are those above, the
mask is 1 exactly where every sample is masked, the third output counts unmasked samples and the fourth says whether
each pixel has at least half of its samples. -/
theorem C34_combine {ims : List (Img (Option ℝ))} {bps : List (Img ℤ)} {nr nc : ℕ} (H : Ok ims bps nr nc) (err : Bool) :
    ∃ o, meanCombine ims bps err = .ok o ∧
      (o.image.nr = nr ∧ o.image.nc = nc ∧ o.bpmap.nr = nr ∧ o.bpmap.nc = nc ∧ o.num.nr = nr ∧ o.num.nc = nc) ∧
      (∀ r c, o.image.px r c = combIm err (column ims bps r c)) ∧
      (∀ r c, o.num.px r c = (good (column ims bps r c)).length) ∧
      (∀ r c, (o.bpmap.px r c = 1 ↔ good (column ims bps r c) = []) ∧ (o.bpmap.px r c = 0 ∨ o.bpmap.px r c = 1)) ∧
      (o.enough = true ↔ ∀ r c, r < nr → c < nc → ims.length ≤ 2 * (good (column ims bps r c)).length) := by
  obtain ⟨i0, l, rfl⟩ := List.exists_cons_of_ne_nil H.ne
  have h0 := H.im i0 (by simp)
  unfold meanCombine
  rw [if_neg (by rw [H.len]; simp)]
  simp only
  rw [if_neg, if_neg, if_neg]
  · refine ⟨_, rfl, ⟨h0.1, h0.2, h0.1, h0.2, h0.1, h0.2⟩, fun _ _ => rfl, fun _ _ => mapIm_eq _, fun r c => ?_, ?_⟩
    · dsimp only
      rw [mapIm_eq]
      by_cases hg : good (column (i0 :: l) bps r c) = [] <;> simp [hg]
    · simp only [Bool.not_eq_true', List.any_eq_false, decide_eq_true_eq, not_lt, mapIm_eq]
      constructor
      · intro h r c hr hc
        exact h (r, c) (mem_positions.2 ⟨by rw [h0.1]; exact hr, by rw [h0.2]; exact hc⟩)
      · intro h p hp
        rw [mem_positions, h0.1, h0.2] at hp
        exact h p.1 p.2 hp.1 hp.2
  · rw [h0.1, h0.2]; exact H.pos
  · rw [Bool.not_eq_true, List.any_eq_false]
    intro b hb
    rw [Bool.not_eq_true, badMap_false, h0.1, h0.2]
    exact H.bp b hb
  · rw [Bool.not_eq_true, List.any_eq_false]
    intro i hi
    have := H.im i hi
    simp [this.1, this.2, h0.1, h0.2]

/-- **C34** … and otherwise it fails. -/
theorem C34_combine_fails {ims : List (Img (Option ℝ))} {bps : List (Img ℤ)} (err : Bool)
    (H : ∀ nr nc, ¬ Ok ims bps nr nc) : ∃ e, meanCombine ims bps err = .error e := by
  unfold meanCombine
  by_cases h1 : ims.length ≠ bps.length
  · rw [if_pos h1]; exact ⟨_, rfl⟩
  · rw [if_neg h1]
    cases hi : ims with
    | nil => exact ⟨_, rfl⟩
    | cons i0 l =>
      subst hi
      simp only
      split
      · exact ⟨_, rfl⟩
      · rename_i h2
        split
        · exact ⟨_, rfl⟩
        · rename_i h3
          split
          · exact ⟨_, rfl⟩
          · rename_i h4
            exfalso
            refine H i0.nr i0.nc ⟨by simpa using h1, by simp, ?_, ?_, h4⟩
            · intro i him
              rw [Bool.not_eq_true, List.any_eq_false] at h2
              have := h2 i him
              simp only [decide_eq_true_eq] at this
              push Not at this
              exact this
            · intro b hb
              rw [Bool.not_eq_true, List.any_eq_false] at h3
              exact badMap_false.1 (by simpa using h3 b hb)

/-! ## `build_trad_dark` -/

/-- A dark frame: EXPTIME, EMGAIN_C, KGAINPAR and the arrays (`err` is `err[0]`). -/
structure Frame where
  key : ℚ × ℚ × ℚ
  data : Img (Option ℝ)
  err : Img (Option ℝ)
  dq : Img ℕ

structure Dark where
  data : Img (Option ℝ)
  err : Img (Option ℝ)
  dq : Img ℕ

/-- `slice(start, stop)`, either end may be None. -/
def inTelem (tel : Option ℤ × Option ℤ) (n r : ℕ) : Bool :=
  decide (((tel.1.map (pyIdx · n)).getD 0) ≤ r) && decide (r < ((tel.2.map (pyIdx · n)).getD n))

/-- `frame[telem_rows] = v` -/
def setTelem (tel : Option ℤ × Option ℤ) (v : Option ℝ) (f : Img (Option ℝ)) : Img (Option ℝ) :=
  ⟨f.nr, f.nc, fun r c => if inTelem tel f.nr r then v else f.px r c⟩

def liftE {β : Type} : Except Det.Err β → Except Err β
  | .ok v => .ok v
  | .error .keyError => .error .keyError
  | .error .exception => .error .exception
  | .error .valueError => .error .valueError

/-- lines 203-217: one turn of the loop. -/
def prepare (d : Regions) (tel : Option ℤ × Option ℤ) (f : Frame) : Except Err (Img (Option ℝ) × Img ℤ × Img (Option ℝ)) := do
  let i0 ← liftE (sliceSection d (setTelem tel none f.data) "SCI" "image")
  if (positions i0.nr i0.nc).any fun p => (i0.px p.1 p.2).isNone then .error .valueError
  else return (setTelem tel (some 0) f.data, ⟨f.dq.nr, f.dq.nc, fun r c => if f.dq.px r c = 0 then 0 else 1⟩, f.err)

/-- lines 219-227: `total_err` of a pixel. -/
def totalErr (junk : Option ℝ) (st se : List (Option ℝ × ℤ)) : Option ℝ :=
  if mapIm st = 0 then junk
  else do
    let m ← combIm true se
    let s ← npStd (good st)
    return Real.sqrt (m ^ 2 + (s / Real.sqrt (mapIm st)) ^ 2)

/-- lines 229-237: DQ of a pixel, from the number of unmasked frames and the combined mask. -/
def tradDq (n num bp : ℕ) : ℕ :=
  let q := if 2 * num < n then 256 else 0
  if bp = 1 then 1 else q

/-- `build_trad_dark`, lines 127-259, without the headers. -/
def tradDark (d : Regions) (tel : Option ℤ × Option ℤ) (junk : ℕ → ℕ → Option ℝ) (full : Bool) (fs : List Frame) :
    Except Err Dark :=
  if fs.any fun f => decide (f.key ≠ (fs.head?.map Frame.key).getD f.key) then .error .exception
  else do
    let ps ← fs.mapM (prepare d tel)
    let m ← meanCombine (ps.map fun p => p.1) (ps.map fun p => p.2.1) false
    let _ ← meanCombine (ps.map fun p => p.2.2) (ps.map fun p => p.2.1) true
    let err : Img (Option ℝ) := ⟨m.image.nr, m.image.nc, fun r c =>
      totalErr (junk r c) (column (ps.map fun p => p.1) (ps.map fun p => p.2.1) r c)
        (column (ps.map fun p => p.2.2) (ps.map fun p => p.2.1) r c)⟩
    let dq : Img ℕ := ⟨m.num.nr, m.num.nc, fun r c => tradDq fs.length (m.num.px r c) (m.bpmap.px r c)⟩
    if full then return ⟨m.image, err, dq⟩
    else do
      let q ← liftE (sliceSection d dq "SCI" "image")
      let e ← liftE (sliceSection d err "SCI" "image")
      let x ← liftE (sliceSection d m.image "SCI" "image")
      return ⟨x, e, q⟩

/-! ### Specification -/

/-- The frames that are usable at a pixel. -/
def usable (fs : List Frame) (r c : ℕ) : List Frame := fs.filter fun f => f.dq.px r c = 0

/-- The frames have one setting, one shape, and no NaN in the image area; telemetry rows are outside it. -/
structure Ready (d : Regions) (tel : Option ℤ × Option ℤ) (fs : List Frame) (g : Geom) (im : Area) : Prop where
  ne : fs ≠ []
  key : ∀ f ∈ fs, ∀ f' ∈ fs, f.key = f'.key
  geom : look d "SCI" = .ok g
  image : look g.areas "image" = .ok im
  inside : im.Inside g
  data : ∀ f ∈ fs, f.data.nr = g.frameRows ∧ f.data.nc = g.frameCols
  err : ∀ f ∈ fs, f.err.nr = g.frameRows ∧ f.err.nc = g.frameCols
  dq : ∀ f ∈ fs, f.dq.nr = g.frameRows ∧ f.dq.nc = g.frameCols
  finite : ∀ f ∈ fs, ∀ r c, im.Has r c → f.data.px r c ≠ none
  telem : ∀ r, im.r0 ≤ r → r < im.r0 + im.rows → inTelem tel g.frameRows r = false

/-! ### Proofs -/

theorem prepare_ok {d : Regions} {tel : Option ℤ × Option ℤ} {fs : List Frame} {g : Geom} {im : Area}
    (H : Ready d tel fs g im) (f : Frame) (hf : f ∈ fs) :
    prepare d tel f = .ok (setTelem tel (some 0) f.data,
      ⟨f.dq.nr, f.dq.nc, fun r c => if f.dq.px r c = 0 then 0 else 1⟩, f.err) := by
  obtain ⟨s, hs, h1, h2, h3⟩ := C27_slice H.geom H.image H.inside (setTelem tel none f.data) (H.data f hf).1
    (H.data f hf).2
  unfold prepare
  rw [hs]
  simp only [liftE, bind, Except.bind]
  rw [if_neg]
  · rfl
  · rw [Bool.not_eq_true, List.any_eq_false]
    intro p hp
    rw [mem_positions, h1, h2] at hp
    rw [h3]
    simp only [setTelem]
    rw [(H.data f hf).1, H.telem _ (by omega) (by omega)]
    have := H.finite f hf (im.r0 + p.1) (im.c0 + p.2) ⟨by omega, by omega, by omega, by omega⟩
    cases hx : f.data.px (im.r0 + p.1) (im.c0 + p.2) with
    | none => exact absurd hx this
    | some v => simp

private theorem column_good (fs : List Frame) (r c : ℕ) (a : Frame → Img (Option ℝ)) (b : Frame → Img ℤ)
    (hb : ∀ f ∈ fs, (b f).px r c = 0 ↔ f.dq.px r c = 0) :
    good (column (fs.map a) (fs.map b) r c) = (usable fs r c).map fun f => (a f).px r c := by
  induction fs with
  | nil => rfl
  | cons f fs ih =>
    have ih := ih fun x hx => hb x (by simp [hx])
    have h := hb f (by simp)
    unfold column good usable at *
    rw [List.map_cons, List.map_cons, List.zipWith_cons_cons, List.filter_cons, List.filter_cons]
    by_cases hq : f.dq.px r c = 0
    · simp only [h.2 hq, hq, decide_true, if_true, List.map_cons, ih]
    · have : (b f).px r c ≠ 0 := fun hx => hq (h.1 hx)
      simp only [this, hq, decide_false, Bool.false_eq_true, if_false, ih]

/-- `o` is the traditional dark of the rectangle at `(r0, c0)`; at each pixel: mean of the usable frames (0 without any; 0 in the
telemetry rows), the flag, and the error. -/
structure IsDark (tel : Option ℤ × Option ℤ) (fs : List Frame) (g : Geom) (junk : ℕ → ℕ → Option ℝ) (r0 c0 rows cols : ℕ)
    (o : Dark) : Prop where
  shape : o.data.nr = rows ∧ o.data.nc = cols ∧ o.err.nr = rows ∧ o.err.nc = cols ∧ o.dq.nr = rows ∧ o.dq.nc = cols
  mean : ∀ r c v, inTelem tel g.frameRows (r0 + r) = false →
    (usable fs (r0 + r) (c0 + c)).map (fun f => f.data.px (r0 + r) (c0 + c)) = List.map some v →
    v ≠ [] → o.data.px r c = some (Nan.mean v)
  none : ∀ r c, usable fs (r0 + r) (c0 + c) = [] → o.data.px r c = some 0
  telem : ∀ r c, inTelem tel g.frameRows (r0 + r) = true → o.data.px r c = some 0
  bad : ∀ r c, o.dq.px r c = 1 ↔ usable fs (r0 + r) (c0 + c) = []
  unreliable : ∀ r c, o.dq.px r c = 256 ↔
    usable fs (r0 + r) (c0 + c) ≠ [] ∧ 2 * (usable fs (r0 + r) (c0 + c)).length < fs.length
  other : ∀ r c, o.dq.px r c = 0 ∨ o.dq.px r c = 1 ∨ o.dq.px r c = 256
  err : ∀ r c v e, inTelem tel g.frameRows (r0 + r) = false →
    (usable fs (r0 + r) (c0 + c)).map (fun f => f.data.px (r0 + r) (c0 + c)) = List.map some v →
    (usable fs (r0 + r) (c0 + c)).map (fun f => f.err.px (r0 + r) (c0 + c)) = List.map some e →
    v ≠ [] → o.err.px r c = some (Real.sqrt (Nan.mean (e.map (· ^ 2)) + (std v / Real.sqrt v.length) ^ 2))

/-- **C34** The full-frame dark. -/
theorem C34_dark_full {d : Regions} {tel : Option ℤ × Option ℤ} {fs : List Frame} {g : Geom} {im : Area}
    (H : Ready d tel fs g im) (junk : ℕ → ℕ → Option ℝ) :
    ∃ o, tradDark d tel junk true fs = .ok o ∧ IsDark tel fs g junk 0 0 g.frameRows g.frameCols o := by
  have hps : fs.mapM (prepare d tel) = .ok (fs.map fun f => (setTelem tel (some 0) f.data,
      (⟨f.dq.nr, f.dq.nc, fun r c => if f.dq.px r c = 0 then 0 else 1⟩ : Img ℤ), f.err)) := by
    rw [mapM_ok_iff]
    have h : ∀ f ∈ fs, _ := fun f hf => prepare_ok H f hf
    clear H
    induction fs with
    | nil => exact .nil
    | cons f fs ih => exact .cons (h f (by simp)) (ih fun x hx => h x (by simp [hx]))
  have hkey : (fs.any fun f => decide (f.key ≠ (fs.head?.map Frame.key).getD f.key)) = false := by
    rw [List.any_eq_false]
    intro f hf
    obtain ⟨f0, l, rfl⟩ := List.exists_cons_of_ne_nil H.ne
    simp [H.key f hf f0 (by simp)]
  generalize hB : (fun f : Frame => (⟨f.dq.nr, f.dq.nc, fun r c => if f.dq.px r c = 0 then 0 else 1⟩ : Img ℤ)) = B
  have hBpx : ∀ (f : Frame) r c, (B f).px r c = if f.dq.px r c = 0 then 0 else 1 := by intro f r c; rw [← hB]
  have hB0 : ∀ (f : Frame) r c, (B f).px r c = 0 ↔ f.dq.px r c = 0 := by
    intro f r c; rw [hBpx]; by_cases h : f.dq.px r c = 0 <;> simp [h]
  have hpos : g.frameRows * g.frameCols ≠ 0 := by
    obtain ⟨h1, h2, h3, h4⟩ := H.inside
    exact Nat.mul_ne_zero (by omega) (by omega)
  have ok1 : Ok (fs.map fun f => setTelem tel (some 0) f.data) (fs.map B) g.frameRows g.frameCols := by
    refine ⟨by simp, by simpa using H.ne, ?_, ?_, hpos⟩
    · intro i hi
      obtain ⟨f, hf, rfl⟩ := List.mem_map.1 hi
      exact H.data f hf
    · intro i hi
      obtain ⟨f, hf, rfl⟩ := List.mem_map.1 hi
      refine ⟨by rw [← hB]; exact H.dq f hf, fun r c _ _ => ?_⟩
      rw [hBpx]; by_cases h : f.dq.px r c = 0 <;> simp [h]
  have ok2 : Ok (fs.map fun f => f.err) (fs.map B) g.frameRows g.frameCols :=
    ⟨by simp, by simpa using H.ne, fun i hi => by
      obtain ⟨f, hf, rfl⟩ := List.mem_map.1 hi
      exact H.err f hf, ok1.bp, hpos⟩
  obtain ⟨m, hm, hsh, hpx, hnum, hbp, -⟩ := C34_combine ok1 false
  obtain ⟨m2, hm2, -⟩ := C34_combine ok2 true
  have cg1 : ∀ r c, good (column (fs.map fun f => setTelem tel (some 0) f.data) (fs.map B) r c) =
      (usable fs r c).map fun f => (setTelem tel (some 0) f.data).px r c :=
    fun r c => column_good fs r c _ B fun f _ => hB0 f r c
  have cg2 : ∀ r c, good (column (fs.map fun f => f.err) (fs.map B) r c) = (usable fs r c).map fun f => f.err.px r c :=
    fun r c => column_good fs r c _ B fun f _ => hB0 f r c
  have tm : ∀ r c, inTelem tel g.frameRows r = false →
      ((usable fs r c).map fun f => (setTelem tel (some 0) f.data).px r c) =
        (usable fs r c).map fun f => f.data.px r c := by
    intro r c hr
    apply List.map_congr_left
    intro f hf
    simp only [setTelem]
    rw [(H.data f (List.mem_of_mem_filter hf)).1, hr]; rfl
  have tm' : ∀ r c, inTelem tel g.frameRows r = true →
      ((usable fs r c).map fun f => (setTelem tel (some 0) f.data).px r c) =
        (List.replicate (usable fs r c).length (0 : ℝ)).map some := by
    intro r c hr
    rw [List.map_replicate, List.eq_replicate_iff]
    refine ⟨by simp, fun x hx => ?_⟩
    obtain ⟨f, hf, rfl⟩ := List.mem_map.1 hx
    simp only [setTelem]
    rw [(H.data f (List.mem_of_mem_filter hf)).1, hr]; rfl
  unfold tradDark
  rw [if_neg (by rw [hkey]; simp), hps]
  simp only [bind, Except.bind, List.map_map, Function.comp_def]
  have hm' := hm
  have hm2' := hm2
  rw [← hB] at hm' hm2'
  rw [hm', hm2']
  simp only [if_true, pure, Except.pure, Except.ok.injEq, exists_eq_left']
  have hBe : (fs.map fun f : Frame =>
      (⟨f.dq.nr, f.dq.nc, fun r c => if f.dq.px r c = 0 then 0 else 1⟩ : Img ℤ)) = fs.map B := by rw [← hB]
  rw [hBe]
  have hdq : ∀ r c, tradDq fs.length (m.num.px r c) (m.bpmap.px r c) =
      if usable fs r c = [] then 1 else if 2 * (usable fs r c).length < fs.length then 256 else 0 := by
    intro r c
    have hb := (hbp r c).1
    rw [cg1, List.map_eq_nil_iff] at hb
    unfold tradDq
    dsimp only
    rw [hnum, cg1, List.length_map]
    by_cases hu : usable fs r c = []
    · rw [if_pos (hb.2 hu), if_pos hu]
    · rw [if_neg (fun h => hu (hb.1 h)), if_neg hu]
  refine ⟨⟨hsh.1, hsh.2.1, hsh.1, hsh.2.1, hsh.2.2.2.2.1, hsh.2.2.2.2.2⟩, ?_, ?_, ?_, ?_, ?_, ?_, ?_⟩
  · intro r c v hr hv hne
    rw [Nat.zero_add] at hr hv
    rw [Nat.zero_add] at hv
    dsimp only
    rw [hpx]
    exact (C34_mean _ v (by rw [cg1, tm r c hr, hv])).1 hne
  · intro r c hu
    rw [Nat.zero_add, Nat.zero_add] at hu
    dsimp only
    rw [hpx]
    exact (C34_mean _ [] (by rw [cg1, hu]; rfl)).2 rfl
  · intro r c hr
    rw [Nat.zero_add] at hr
    dsimp only
    rw [hpx]
    have := C34_mean _ _ (by rw [cg1, tm' r c hr])
    by_cases h0 : usable fs r c = []
    · exact this.2 (by rw [h0]; rfl)
    · rw [this.1 (by simpa using h0)]
      simp [Nan.mean]
  · intro r c
    rw [Nat.zero_add, Nat.zero_add]
    dsimp only
    rw [hdq]
    by_cases hu : usable fs r c = []
    · simp [hu]
    · simp only [hu, if_false, iff_false]; split <;> omega
  · intro r c
    rw [Nat.zero_add, Nat.zero_add]
    dsimp only
    rw [hdq]
    by_cases hu : usable fs r c = []
    · simp [hu]
    · simp only [hu, if_false, ne_eq, not_false_iff, true_and]; split <;> simp_all
  · intro r c
    dsimp only
    rw [hdq]
    split
    · simp
    · split <;> simp
  · intro r c v e hr hv he hne
    rw [Nat.zero_add] at hr hv he
    rw [Nat.zero_add] at hv he
    dsimp only
    have hg1 : good (column (fs.map fun f => setTelem tel (some 0) f.data) (fs.map B) r c) = v.map some := by
      rw [cg1, tm r c hr, hv]
    have hg2 : good (column (fs.map fun f => f.err) (fs.map B) r c) = e.map some := by rw [cg2, he]
    unfold totalErr
    have hl : mapIm (column (fs.map fun f => setTelem tel (some 0) f.data) (fs.map B) r c) = v.length := by
      rw [mapIm_eq, hg1, List.length_map]
    rw [hl, if_neg (by simpa using hne), C34_mean_err _ e hg2, hg1]
    have hall : allVals (v.map some) = some v := by
      unfold allVals
      clear hne hv hg1 hl
      induction v with
      | nil => rfl
      | cons a l ih => rw [List.map_cons, List.mapM_cons, ih]; rfl
    have hstd : npStd (v.map some) = some (std v) := by
      unfold npStd
      rw [hall]
      cases v with
      | nil => exact absurd rfl hne
      | cons a l => rfl
    rw [hstd]
    simp only [bind, Option.bind, pure, Option.some.injEq]
    rw [Real.sq_sqrt]
    unfold Nan.mean
    apply div_nonneg _ (Nat.cast_nonneg _)
    apply List.sum_nonneg
    intro x hx
    obtain ⟨y, _, rfl⟩ := List.mem_map.1 hx
    exact sq_nonneg y

/-- **C34** The default, image-area dark: the same numbers in the image area. -/
theorem C34_dark_image {d : Regions} {tel : Option ℤ × Option ℤ} {fs : List Frame} {g : Geom} {im : Area}
    (H : Ready d tel fs g im) (junk : ℕ → ℕ → Option ℝ) :
    ∃ o, tradDark d tel junk false fs = .ok o ∧ IsDark tel fs g junk im.r0 im.c0 im.rows im.cols o := by
  obtain ⟨o, ho, hD⟩ := C34_dark_full H junk
  obtain ⟨q, hq, q1, q2, q3⟩ := C27_slice H.geom H.image H.inside o.dq hD.shape.2.2.2.2.1 hD.shape.2.2.2.2.2
  obtain ⟨e, he, e1, e2, e3⟩ := C27_slice H.geom H.image H.inside o.err hD.shape.2.2.1 hD.shape.2.2.2.1
  obtain ⟨x, hx, x1, x2, x3⟩ := C27_slice H.geom H.image H.inside o.data hD.shape.1 hD.shape.2.1
  refine ⟨⟨x, e, q⟩, ?_, ⟨⟨x1, x2, e1, e2, q1, q2⟩, ?_, ?_, ?_, ?_, ?_, ?_, ?_⟩⟩
  · unfold tradDark at ho ⊢
    split at ho
    · cases ho
    · rename_i hk
      rw [if_neg hk]
      cases h1 : fs.mapM (prepare d tel) with
      | error _ => rw [h1] at ho; cases ho
      | ok ps =>
        rw [h1] at ho
        simp only [bind, Except.bind] at ho ⊢
        cases h2 : meanCombine (ps.map fun p => p.1) (ps.map fun p => p.2.1) false with
        | error _ => rw [h2] at ho; cases ho
        | ok m =>
          rw [h2] at ho
          simp only at ho ⊢
          cases h3 : meanCombine (ps.map fun p => p.2.2) (ps.map fun p => p.2.1) true with
          | error _ => rw [h3] at ho; cases ho
          | ok m2 =>
            rw [h3] at ho
            simp only [if_true, pure, Except.pure, Except.ok.injEq] at ho
            subst ho
            simp only [Bool.false_eq_true, if_false]
            rw [hq, he, hx]; rfl
  · intro r c v hr hv hne
    dsimp only
    rw [x3]
    have := hD.mean (im.r0 + r) (im.c0 + c) v
    rw [Nat.zero_add, Nat.zero_add] at this
    exact this hr hv hne
  · intro r c hu
    dsimp only
    rw [x3]
    have := hD.none (im.r0 + r) (im.c0 + c)
    rw [Nat.zero_add, Nat.zero_add] at this
    exact this hu
  · intro r c hr
    dsimp only
    rw [x3]
    have := hD.telem (im.r0 + r) (im.c0 + c)
    rw [Nat.zero_add] at this
    exact this hr
  · intro r c
    dsimp only
    rw [q3]
    have := hD.bad (im.r0 + r) (im.c0 + c)
    rwa [Nat.zero_add, Nat.zero_add] at this
  · intro r c
    dsimp only
    rw [q3]
    have := hD.unreliable (im.r0 + r) (im.c0 + c)
    rwa [Nat.zero_add, Nat.zero_add] at this
  · intro r c
    dsimp only
    rw [q3]
    exact hD.other _ _
  · intro r c v e' hr hv he' hne
    dsimp only
    rw [e3]
    have := hD.err (im.r0 + r) (im.c0 + c) v e'
    rw [Nat.zero_add, Nat.zero_add] at this
    exact this hr hv he' hne

/-- **C34** Frames of different settings, NaN in the image area and telemetry rows in the image area are refused. -/
theorem C34_rejects (d : Regions) (tel : Option ℤ × Option ℤ) (fs : List Frame) (junk : ℕ → ℕ → Option ℝ) (full : Bool) :
    ((∃ f ∈ fs, ∃ f' ∈ fs, f.key ≠ f'.key) → tradDark d tel junk full fs = .error .exception) ∧
    (∀ g im f l, fs = f :: l → (∀ f' ∈ fs, f.key = f'.key) → look d "SCI" = .ok g → look g.areas "image" = .ok im →
      im.Inside g → f.data.nr = g.frameRows → f.data.nc = g.frameCols →
      (∃ r c, im.Has r c ∧ (f.data.px r c = none ∨ inTelem tel g.frameRows r = true)) →
      tradDark d tel junk full fs = .error .valueError) := by
  constructor
  · rintro ⟨f, hf, f', hf', hne⟩
    unfold tradDark
    rw [if_pos]
    rw [List.any_eq_true]
    cases fs with
    | nil => simp at hf
    | cons f0 l =>
      by_cases h : f.key = f0.key
      · exact ⟨f', hf', decide_eq_true (fun h' : f'.key = f0.key => hne (h.trans h'.symm))⟩
      · exact ⟨f, hf, decide_eq_true h⟩
  · rintro g im f l rfl hk hg him hin hr hc ⟨r, c, ⟨h1, h2, h3, h4⟩, hn⟩
    unfold tradDark
    rw [if_neg]
    · obtain ⟨s, hs, s1, s2, s3⟩ := C27_slice hg him hin (setTelem tel none f.data) hr hc
      have : prepare d tel f = .error .valueError := by
        unfold prepare
        rw [hs]
        simp only [liftE, bind, Except.bind]
        rw [if_pos]
        rw [List.any_eq_true]
        refine ⟨(r - im.r0, c - im.c0), mem_positions.2 ⟨by dsimp only; omega, by dsimp only; omega⟩, ?_⟩
        rw [s3]
        dsimp only
        rw [show im.r0 + (r - im.r0) = r by omega, show im.c0 + (c - im.c0) = c by omega]
        simp only [setTelem, hr]
        rcases hn with hn | hn
        · rw [hn]; simp
        · rw [hn]; rfl
      rw [List.mapM_cons, this]; rfl
    · rw [Bool.not_eq_true, List.any_eq_false]
      intro f' hf'
      simp [hk f' hf']

/-! ### A small detector -/

def tinyGeom : Geom := { frameRows := 2, frameCols := 2, areas := [("image", { rows := 1, cols := 2, r0 := 0, c0 := 0 })] }
def tiny : Regions := [("SCI", tinyGeom)]
def tinyIm : Area := { rows := 1, cols := 2, r0 := 0, c0 := 0 }
/-- Two frames; pixel (0, 0) is masked in the first one. -/
def fr (q : ℕ) (v : ℝ) : Frame :=
  ⟨(1, 1, 1), ⟨2, 2, fun _ _ => some v⟩, ⟨2, 2, fun _ _ => some 1⟩, ⟨2, 2, fun r c => if r = 0 ∧ c = 0 then q else 0⟩⟩

/-- Not vacuous. -/
theorem tiny_ready (q q' : ℕ) : Ready tiny (some (-1), none) [fr q 1, fr q' 3] tinyGeom tinyIm := by
  refine ⟨by simp, ?_, by decide +kernel, by decide +kernel, by decide, ?_, ?_, ?_, ?_, ?_⟩
  · intro f hf f' hf'; simp at hf hf'; rcases hf with rfl | rfl <;> rcases hf' with rfl | rfl <;> rfl
  · intro f hf; simp at hf; rcases hf with rfl | rfl <;> exact ⟨rfl, rfl⟩
  · intro f hf; simp at hf; rcases hf with rfl | rfl <;> exact ⟨rfl, rfl⟩
  · intro f hf; simp at hf; rcases hf with rfl | rfl <;> exact ⟨rfl, rfl⟩
  · intro f hf r c _; simp at hf; rcases hf with rfl | rfl <;> simp [fr]
  · intro r h1 h2
    have : r = 0 := by simp [tinyIm] at h2; omega
    subst this
    decide

example : (usable [fr 4 1, fr 0 3] 0 0).length = 1 ∧ (usable [fr 4 1, fr 0 3] 0 1).length = 2 := by
  constructor <;> rfl

/-- The flag promised by the documentation (docstring of `build_trad_dark`) is not set: "a flag value of 256 is assigned to
pixels that are masked for half or more of the frames". A pixel masked in exactly half of the frames gets 0. -/
theorem C34_half_masked_violated {d : Regions} {tel : Option ℤ × Option ℤ} {fs : List Frame} {g : Geom} {im : Area}
    (H : Ready d tel fs g im) (junk : ℕ → ℕ → Option ℝ) (r c : ℕ) (h : 2 * (usable fs r c).length = fs.length) :
    ∃ o, tradDark d tel junk true fs = .ok o ∧ o.dq.px r c = 0 := by
  obtain ⟨o, ho, hD⟩ := C34_dark_full H junk
  refine ⟨o, ho, ?_⟩
  have h1 := hD.bad r c
  have h2 := hD.unreliable r c
  rw [Nat.zero_add, Nat.zero_add] at h1 h2
  rcases hD.other r c with h' | h' | h'
  · exact h'
  · have := h1.1 h'
    rw [this] at h
    have := H.ne
    rw [← List.length_pos_iff] at this
    simp at h; omega
  · have := (h2.1 h').2; omega

example : 2 * (usable [fr 4 1, fr 0 3] 0 0).length = [fr 4 1, fr 0 3].length := rfl

/-- The telemetry rows are those of the python slice: from the first bound on and before the second, negative bounds counted from the end. -/
theorem C34_telemetry_rows (tel : Option ℤ × Option ℤ) {n r : ℕ} (hr : r < n) :
    inTelem tel n r = true ↔ (∀ s, tel.1 = some s → (if s < 0 then (n : ℤ) + s else s) ≤ r) ∧
      ∀ e, tel.2 = some e → (r : ℤ) < if e < 0 then (n : ℤ) + e else e := by
  obtain ⟨a, b⟩ := tel
  unfold inTelem pyIdx
  rw [Bool.and_eq_true, decide_eq_true_eq, decide_eq_true_eq]
  refine and_congr ?_ ?_
  · cases a with
    | none => simp
    | some s =>
      simp only [Option.map_some, Option.getD_some, Option.some.injEq, forall_eq']
      split <;> omega
  · cases b with
    | none => simp [hr]
    | some e =>
      simp only [Option.map_some, Option.getD_some, Option.some.injEq, forall_eq']
      split <;> omega

/-- Nor are the telemetry rows NaN as the documentation says: they are 0 (`IsDark.telem`), unflagged. -/
theorem C34_telemetry_violated {d : Regions} {tel : Option ℤ × Option ℤ} {fs : List Frame} {g : Geom} {im : Area}
    (H : Ready d tel fs g im) (junk : ℕ → ℕ → Option ℝ) (r c : ℕ) (h : inTelem tel g.frameRows r = true)
    (hu : usable fs r c = fs) :
    ∃ o, tradDark d tel junk true fs = .ok o ∧ o.data.px r c = some 0 ∧ o.dq.px r c = 0 := by
  obtain ⟨o, ho, hD⟩ := C34_dark_full H junk
  have h1 := hD.bad r c
  have h2 := hD.unreliable r c
  rw [Nat.zero_add, Nat.zero_add, hu] at h1 h2
  refine ⟨o, ho, hD.telem r c (by rw [Nat.zero_add]; exact h), ?_⟩
  rcases hD.other r c with h' | h' | h'
  · exact h'
  · exact absurd (h1.1 h') H.ne
  · have := (h2.1 h').2; omega

example : inTelem (some (-1), none) 2 1 = true ∧ usable [fr 4 1, fr 0 3] 1 0 = [fr 4 1, fr 0 3] := ⟨by decide, rfl⟩

/-- The error of the dark does not shrink with the number of frames: for frames that all carry the error `e`, it is at
least `e`, however many there are. -/
theorem C34_error_floor {d : Regions} {tel : Option ℤ × Option ℤ} {fs : List Frame} {g : Geom} {im : Area}
    (H : Ready d tel fs g im) (junk : ℕ → ℕ → Option ℝ) (r c : ℕ) (e : ℝ)
    (ht : inTelem tel g.frameRows r = false) (hu : usable fs r c ≠ [])
    (hv : ∀ f ∈ usable fs r c, f.data.px r c ≠ none) (hc : ∀ f ∈ usable fs r c, f.err.px r c = some e) :
    ∃ o x, tradDark d tel junk true fs = .ok o ∧ o.err.px r c = some x ∧ e ≤ x := by
  obtain ⟨o, ho, hD⟩ := C34_dark_full H junk
  have hv' : ∃ v : List ℝ, (usable fs r c).map (fun f => f.data.px r c) = v.map some := by
    refine ⟨(usable fs r c).map fun f => (f.data.px r c).getD 0, ?_⟩
    rw [List.map_map]
    apply List.map_congr_left
    intro f hf
    simp only [Function.comp_apply]
    cases hx : f.data.px r c with
    | none => exact absurd hx (hv f hf)
    | some y => rfl
  obtain ⟨v, hv'⟩ := hv'
  have he' : (usable fs r c).map (fun f => f.err.px r c) = (List.replicate (usable fs r c).length e).map some := by
    rw [List.map_replicate, List.eq_replicate_iff]
    exact ⟨by simp, fun x hx => by obtain ⟨f, hf, rfl⟩ := List.mem_map.1 hx; exact hc f hf⟩
  have hvne : v ≠ [] := by
    rintro rfl
    apply hu
    simpa using hv'
  have := hD.err r c v _ (by rw [Nat.zero_add]; exact ht) (by rw [Nat.zero_add, Nat.zero_add]; exact hv')
    (by rw [Nat.zero_add, Nat.zero_add]; exact he') hvne
  refine ⟨o, _, ho, this, ?_⟩
  have hm : Nan.mean ((List.replicate (usable fs r c).length e).map (· ^ 2)) = e ^ 2 := by
    unfold Nan.mean
    rw [List.map_replicate, List.sum_replicate, List.length_replicate, nsmul_eq_mul]
    have : ((usable fs r c).length : ℝ) ≠ 0 := by
      rw [Nat.cast_ne_zero]; simpa using hu
    field_simp
  rw [hm]
  apply Real.le_sqrt_of_sq_le
  nlinarith [sq_nonneg (std v / Real.sqrt v.length)]

end Corgi.Darks

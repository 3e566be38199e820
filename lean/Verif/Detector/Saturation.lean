import Mathlib.Algebra.Order.Field.Basic
import Mathlib.Algebra.Order.Ring.Rat
import Mathlib.Data.List.Forall2
import Mathlib.Tactic.NormNum
import Verif.Common.Except

/-!
# Saturation thresholds in `detect_cosmic_rays` (l1_to_l2a.py 215-248; detector.py 553-571): model and C31

Values are in a linearly ordered field.
-/

namespace Corgi.Sat

inductive Err
  | keyError | valueError
  deriving DecidableEq, Repr

variable {K : Type} [Field K] [LinearOrder K]

/-- The gain keywords of a frame; `none` = absent. -/
structure Hdr (K : Type) where
  emgainM : Option K
  emgainA : Option K
  emgainC : Option K
  deriving DecidableEq, Repr

def get {β : Type} : Option β → Except Err β
  | some v => .ok v
  | none => .error .keyError

/-- lines 225-233: what one frame appends to `emgain_list`. The `append` stands inside the `except` branch, so a
frame with EMGAIN_M appends nothing. -/
def appended (h : Hdr K) : Except Err (List K) :=
  match h.emgainM with
  | some _ => .ok []
  | none => do
    let a ← get h.emgainA
    if a > 0 then return [a]
    else do
      let c ← get h.emgainC
      return [c]

/-- `emgain_list` -/
def gainList (hs : List (Hdr K)) : Except Err (List K) := do
  let ls ← hs.mapM appended
  return ls.flatten

/-- numpy: product of 1-D arrays of possibly different length. -/
def mulB (a b : List K) : Except Err (List K) :=
  if a.length = b.length then .ok (List.zipWith (· * ·) a b)
  else match a, b with
    | [x], b => .ok (b.map (x * ·))
    | a, [y] => .ok (a.map (· * y))
    | _, _ => .error .valueError

/-- `calc_sat_fwc`, detector.py 553-571. -/
def calcSat (gains pp em : List K) (thresh : K) : Except Err (List K) := do
  let prod ← mulB gains pp
  if prod.length = em.length then
    return List.zipWith (fun x y => thresh * min x y) prod em
  else .error .valueError

/-- lines 219-242: the threshold of every frame. -/
def satFwcs (kgain fwcPp fwcEm thresh : K) (hs : List (Hdr K)) : Except Err (List K) := do
  let gs ← gainList hs
  calcSat gs (hs.map fun _ => fwcPp / kgain) (hs.map fun _ => fwcEm / kgain) thresh

/-! ## Specification -/

/-- The gain of a frame: measured, else applied if positive, else commanded. -/
def Gain (h : Hdr K) (g : K) : Prop :=
  h.emgainM = some g ∨ (h.emgainM = none ∧ ∃ a, h.emgainA = some a ∧
    ((0 < a ∧ g = a) ∨ (¬ 0 < a ∧ h.emgainC = some g)))

/-- The threshold that goes with a gain. -/
def threshold (kgain fwcPp fwcEm thresh g : K) : K := thresh * min (g * (fwcPp / kgain)) (fwcEm / kgain)

/-! ## Proofs -/

theorem appended_measured (h : Hdr K) (hm : h.emgainM ≠ none) : appended h = .ok [] := by
  unfold appended
  cases hh : h.emgainM with
  | none => exact absurd hh hm
  | some g => rfl

theorem appended_unmeasured (h : Hdr K) (hm : h.emgainM = none) (g : K) (hg : Gain h g) :
    appended h = .ok [g] := by
  unfold appended
  rw [hm]
  rcases hg with h' | ⟨_, a, ha, h' | h'⟩
  · rw [hm] at h'; cases h'
  · rw [ha]; simp only [get, bind, Except.bind]; rw [if_pos h'.1, h'.2]; rfl
  · rw [ha, h'.2]; simp only [get, bind, Except.bind]; rw [if_neg h'.1]; rfl

/-- The list holds the gains of the frames without EMGAIN_M only. -/
theorem gainList_eq (hs : List (Hdr K)) (gain : Hdr K → K) (hg : ∀ h ∈ hs, Gain h (gain h)) :
    gainList hs = .ok ((hs.filter fun h => h.emgainM.isNone).map gain) := by
  have : hs.mapM appended = .ok (hs.map fun h => if h.emgainM.isNone then [gain h] else []) := by
    rw [mapM_ok_iff]
    induction hs with
    | nil => exact .nil
    | cons h hs ih =>
      refine .cons ?_ (ih fun x hx => hg x (by simp [hx]))
      cases hh : h.emgainM with
      | none => simpa [hh] using appended_unmeasured h hh _ (hg h (by simp))
      | some m => simpa [hh] using appended_measured h (by rw [hh]; simp)
  unfold gainList
  rw [this]
  simp only [bind, Except.bind, pure, Except.pure, Except.ok.injEq]
  clear this hg
  induction hs with
  | nil => rfl
  | cons h hs ih =>
    rw [List.map_cons, List.flatten_cons, ih, List.filter_cons]
    cases h.emgainM <;> rfl

omit [Field K] [LinearOrder K] in
theorem zip_const (gs : List K) (hs : List (Hdr K)) (hl : gs.length = hs.length) (f : K → K → K) (c : K) :
    List.zipWith f gs (hs.map fun _ => c) = gs.map (f · c) := by
  induction gs generalizing hs with
  | nil => simp
  | cons g gs ih =>
    cases hs with
    | nil => simp at hl
    | cons h hs => simp only [List.map_cons, List.zipWith_cons_cons]; rw [ih hs (by simpa using hl)]

/-- When all lists have the frames' length every frame gets the threshold of the gain at its place. -/
theorem calcSat_full (gs : List K) (hs : List (Hdr K)) (hl : gs.length = hs.length) (k pp em th : K) :
    calcSat gs (hs.map fun _ => pp / k) (hs.map fun _ => em / k) th = .ok (gs.map (threshold k pp em th)) := by
  unfold calcSat mulB
  rw [if_pos (by rw [List.length_map, hl])]
  simp only [bind, Except.bind]
  rw [if_pos (by rw [List.length_zipWith, List.length_map, List.length_map, hl]; simp)]
  rw [zip_const gs hs hl]
  rw [zip_const (gs.map (· * (pp / k))) hs (by rw [List.length_map, hl]) (fun x y => th * min x y)]
  rw [List.map_map]; rfl

/-- **C31**, the part that holds: if no frame has EMGAIN_M every frame gets the threshold of its own gain. -/
theorem C31_own_gain_partial (k pp em th : K) (hs : List (Hdr K)) (gain : Hdr K → K)
    (hg : ∀ h ∈ hs, Gain h (gain h)) (hm : ∀ h ∈ hs, h.emgainM = none) :
    satFwcs k pp em th hs = .ok (hs.map fun h => threshold k pp em th (gain h)) := by
  unfold satFwcs
  rw [gainList_eq hs gain hg]
  have : hs.filter (fun h => h.emgainM.isNone) = hs :=
    List.filter_eq_self.2 fun h hh => by rw [hm h hh]; rfl
  rw [this]
  simp only [bind, Except.bind]
  rw [calcSat_full _ _ (by simp), List.map_map]; rfl

/-- **C31** exactly, for the remaining cases: with measured gains in some of the frames, the call fails unless
exactly one frame is unmeasured, and then *all* frames get that frame's threshold. -/
theorem C31_measured_exact (k pp em th : K) (hs : List (Hdr K)) (gain : Hdr K → K)
    (hg : ∀ h ∈ hs, Gain h (gain h)) (hm : ∃ h ∈ hs, h.emgainM ≠ none) :
    (∀ h, hs.filter (fun h => h.emgainM.isNone) = [h] →
      satFwcs k pp em th hs = .ok (hs.map fun _ => threshold k pp em th (gain h))) ∧
    ((hs.filter (fun h => h.emgainM.isNone)).length ≠ 1 → satFwcs k pp em th hs = .error .valueError) := by
  have hlt : (hs.filter (fun h => h.emgainM.isNone)).length < hs.length := by
    obtain ⟨h, hh, hn⟩ := hm
    apply List.length_filter_lt_length_iff_exists.2
    exact ⟨h, hh, by cases hx : h.emgainM with
      | none => exact absurd hx hn
      | some _ => simp⟩
  constructor
  · intro h hf
    unfold satFwcs
    rw [gainList_eq hs gain hg, hf]
    rw [hf] at hlt
    simp only [List.length_singleton] at hlt
    simp only [bind, Except.bind, List.map_cons, List.map_nil]
    unfold calcSat
    have : mulB [gain h] (hs.map fun _ => pp / k) = .ok ((hs.map fun _ => pp / k).map (gain h * ·)) := by
      unfold mulB
      rw [if_neg (by simp; omega)]
    rw [this]
    simp only [bind, Except.bind]
    rw [if_pos (by simp)]
    rw [zip_const _ hs (by simp) (fun x y => th * min x y), List.map_map, List.map_map]; rfl
  · intro h1
    unfold satFwcs
    rw [gainList_eq hs gain hg]
    simp only [bind, Except.bind]
    generalize hgs : (hs.filter (fun h => h.emgainM.isNone)).map gain = gs
    have hgl : gs.length = (hs.filter (fun h => h.emgainM.isNone)).length := by rw [← hgs]; simp
    rw [← hgl] at h1 hlt
    unfold calcSat
    match gs, hs, h1, hlt with
    | [], [h], _, _ => rfl
    | [], h :: h' :: hs, _, _ => rfl
    | [a], _, h1, _ => simp at h1
    | a :: b :: gs, h :: h' :: h'' :: hs, _, hlt =>
      have : mulB (a :: b :: gs) ((h :: h' :: h'' :: hs).map fun _ => pp / k) = .error .valueError := by
        unfold mulB
        rw [if_neg (by simp at hlt ⊢; omega)]
        rfl
      rw [this]; rfl
    | a :: b :: gs, [], _, hlt => simp at hlt
    | a :: b :: gs, [_], _, hlt => simp at hlt
    | a :: b :: gs, [_, _], _, hlt => simp only [List.length_cons, List.length_nil] at hlt; omega

/-- **C31** is violated: with a measured gain in every frame the step always fails. -/
theorem C31_violated (k pp em th : K) (hs : List (Hdr K)) (hne : hs ≠ []) (hm : ∀ h ∈ hs, h.emgainM ≠ none) :
    satFwcs k pp em th hs = .error .valueError := by
  have hg : ∀ h ∈ hs, Gain h (h.emgainM.getD 0) := by
    intro h hh
    left
    cases hx : h.emgainM with
    | none => exact absurd hx (hm h hh)
    | some g => rfl
  have hempty : hs.filter (fun h => h.emgainM.isNone) = [] := by
    rw [List.filter_eq_nil_iff]
    intro h hh
    cases hx : h.emgainM with
    | none => exact absurd hx (hm h hh)
    | some g => simp
  obtain ⟨h, hh⟩ := List.exists_mem_of_ne_nil hs hne
  exact (C31_measured_exact k pp em th hs _ hg ⟨h, hh, hm h hh⟩).2 (by rw [hempty]; simp)

/-- **C31** is violated without any error too: a frame measured at gain 1000 gets the threshold of the other
frame's gain 1. -/
theorem C31_wrong_gain :
    satFwcs (1 : ℚ) 100 1000 1 [⟨some 1000, some 1000, some 1000⟩, ⟨none, some 1, some 1⟩] = .ok [100, 100] ∧
    threshold (1 : ℚ) 100 1000 1 1000 = 1000 := by
  constructor
  · decide +kernel
  · unfold threshold; norm_num

/-- Not vacuous. -/
example : satFwcs (1 : ℚ) 100 1000 1 [⟨none, some 5, some 7⟩, ⟨none, some 0, some 7⟩] = .ok [500, 700] := by
  decide +kernel

end Corgi.Sat

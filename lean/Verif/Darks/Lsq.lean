import Mathlib.LinearAlgebra.Matrix.NonsingularInverse
import Mathlib.LinearAlgebra.Matrix.ToLinearEquiv
import Mathlib.LinearAlgebra.Matrix.DotProduct
import Mathlib.Analysis.SpecialFunctions.Sqrt
import Mathlib.Data.List.Sort
import Mathlib.Tactic.FieldSimp
import Mathlib.Tactic.FinCases
import Verif.Common.ArgMin
import Verif.Darks.Combine

/-!
# `calibrate_darks_lsq` and `build_synthesized_dark` (darks.py 266-872): model, C33, C47 and C49

The fit is done pixel by pixel; one pixel is modelled, with what distinguishes pixels (telemetry row or not, imaging
area or not) as a parameter. Assumed of numpy: `np.linalg.pinv(X)` of a matrix of full column rank is `(XᵀX)⁻¹Xᵀ`, and
`np.linalg.inv` raises for a singular matrix. Values are reals.
-/

noncomputable section

namespace Corgi.Darks

open Matrix

/-- EM gain, exposure time and k-gain of one sub-stack. -/
structure Setting where
  g : ℝ
  t : ℝ
  k : ℝ

inductive LErr
  | lsq | linAlg | valueError | typeError
  deriving DecidableEq, Repr

open Classical in
/-- lines 441-443, 536-553: the checks on the sub-stacks. -/
def checkStacks (L : List Setting) : Except LErr Unit :=
  if L.length ≤ 3 then .error .lsq
  else if (L.map Setting.g).dedup.length < 2 then .error .lsq
  else if (L.map Setting.g).any (fun g => decide (g < 1)) then .error .lsq
  else if (L.map Setting.t).dedup.length < 2 then .error .lsq
  else if (L.map Setting.t).any (fun t => decide (t < 0)) then .error .lsq
  else if (L.map Setting.k).any (fun k => decide (k ≤ 0)) then .error .lsq
  else if (L.map fun s => (s.g, s.t)).any fun el => decide (1 < (L.map fun s => (s.g, s.t)).count el) then
    .error .lsq
  else .ok ()

/-- line 589: `X` -/
def design (L : List Setting) : Matrix (Fin L.length) (Fin 3) ℝ :=
  fun i => ![1, (L.get i).g, (L.get i).g * (L.get i).t]

/-- lines 591, 609: `pinv(X) @ y`; `inv(XᵀX)` raises if it is singular. -/
def fit (L : List Setting) (y : Fin L.length → ℝ) : Except LErr (Fin 3 → ℝ) :=
  open Classical in
  if ((design L)ᵀ * design L).det = 0 then .error .linAlg
  else .ok (((design L)ᵀ * design L)⁻¹ *ᵥ ((design L)ᵀ *ᵥ y))

/-- The three noise maps at a pixel; `none` = NaN. -/
structure Maps where
  F : Option ℝ
  C : Option ℝ
  D : Option ℝ

/-- lines 591-600, 699-712: the noise maps at a pixel, from the mean of the sub-stacks. -/
def noiseMaps (L : List Setting) (telem imaging : Bool) (y : Fin L.length → ℝ) : Except LErr Maps := do
  let _ ← checkStacks L
  let p ← fit L y
  if telem then return ⟨none, none, none⟩
  else return ⟨some (p 0), some (max (p 1) 0), some (if imaging then max (p 2) 0 else 0)⟩

/-- lines 519-534: the flag, from the number of sub-stacks in which fewer than half (`u`) or none (`w`) of the frames
are unmasked. -/
def mapsDq (M u w : ℕ) : ℕ :=
  let q := if M ≤ u + 3 then 256 else 0
  if M ≤ w + 3 then 1 else q

/-- `stacks_err`, line 586. -/
def stacksErr (es : List ℝ) : ℝ := Real.sqrt ((es.map (· ^ 2)).sum / Real.sqrt es.length)

/-- `build_synthesized_dark`, lines 806-867, at a pixel. -/
def synthesize (m : Maps) (g t : ℝ) : Except LErr (Option ℝ) :=
  if (∃ d, m.D = some d ∧ d < 0) ∨ (∃ c, m.C = some c ∧ c < 0) then .error .typeError
  else if g < 1 then .error .typeError
  else .ok (do
    let f ← m.F
    let d ← m.D
    let c ← m.C
    return f / g + t * d + c)

/-- line 864 -/
def synthErr (ef ec ed g t : ℝ) : ℝ := Real.sqrt (ef ^ 2 / g ^ 2 + t ^ 2 * ed ^ 2 + ec ^ 2)

/-- lines 866-867 -/
def synthDq (f d c : ℕ) : ℕ := (f ||| d) ||| c

/-! ## The fit -/

/-- The settings determine the three parameters. -/
def Identifiable (L : List Setting) : Prop :=
  ∀ a b c : ℝ, (∀ s ∈ L, a + b * s.g + c * (s.g * s.t) = 0) → a = 0 ∧ b = 0 ∧ c = 0

/-- Sum of the squared residuals of a noise model. -/
def cost (L : List Setting) (y : Fin L.length → ℝ) (F C D : ℝ) : ℝ :=
  ∑ i, (y i - (F + (L.get i).g * C + (L.get i).g * (L.get i).t * D)) ^ 2

theorem design_mulVec (L : List Setting) (v : Fin 3 → ℝ) (i : Fin L.length) :
    (design L *ᵥ v) i = v 0 + (L.get i).g * v 1 + (L.get i).g * (L.get i).t * v 2 := by
  simp only [Matrix.mulVec, dotProduct, Fin.sum_univ_three, design]
  simp

theorem det_ne_zero_iff (L : List Setting) : ((design L)ᵀ * design L).det ≠ 0 ↔ Identifiable L := by
  rw [ne_eq, ← Matrix.exists_mulVec_eq_zero_iff]
  constructor
  · intro h a b c hz
    by_contra hcon
    apply h
    refine ⟨![a, b, c], ?_, ?_⟩
    · intro h0
      apply hcon
      exact ⟨congrFun h0 0, congrFun h0 1, congrFun h0 2⟩
    · have : design L *ᵥ ![a, b, c] = 0 := by
        funext i
        rw [design_mulVec]
        have := hz (L.get i) (List.get_mem L i)
        simp only [Matrix.cons_val_zero, Matrix.cons_val_one, Matrix.cons_val, Pi.zero_apply]
        linarith
      rw [← Matrix.mulVec_mulVec, this, Matrix.mulVec_zero]
  · rintro hid ⟨v, hv, h0⟩
    have hz : (design L *ᵥ v) ⬝ᵥ (design L *ᵥ v) = 0 := by
      have : v ⬝ᵥ (((design L)ᵀ * design L) *ᵥ v) = 0 := by rw [h0]; simp
      rw [← Matrix.mulVec_mulVec, Matrix.dotProduct_mulVec, Matrix.vecMul_transpose] at this
      exact this
    have hX : design L *ᵥ v = 0 := dotProduct_self_eq_zero.1 hz
    have := hid (v 0) (v 1) (v 2) (fun s hs => by
      obtain ⟨i, rfl⟩ := List.get_of_mem hs
      have := congrFun hX i
      rw [design_mulVec] at this
      simp only [Pi.zero_apply] at this
      linarith)
    apply hv
    funext j
    fin_cases j
    · exact this.1
    · exact this.2.1
    · exact this.2.2

/-- A fit is computed iff the settings determine the parameters. -/
theorem fit_ok_iff (L : List Setting) (y : Fin L.length → ℝ) : (∃ p, fit L y = .ok p) ↔ Identifiable L := by
  rw [← det_ne_zero_iff]
  unfold fit
  by_cases h : ((design L)ᵀ * design L).det = 0 <;> simp [h]

theorem fit_normal {L : List Setting} {y : Fin L.length → ℝ} {p : Fin 3 → ℝ} (h : fit L y = .ok p) :
    ((design L)ᵀ * design L) *ᵥ p = (design L)ᵀ *ᵥ y := by
  unfold fit at h
  split at h
  · cases h
  · rename_i hd
    simp only [Except.ok.injEq] at h
    rw [← h, Matrix.mulVec_mulVec, Matrix.mul_nonsing_inv _ (isUnit_iff_ne_zero.2 hd), Matrix.one_mulVec]

theorem cost_eq (L : List Setting) (y : Fin L.length → ℝ) (v : Fin 3 → ℝ) :
    cost L y (v 0) (v 1) (v 2) = (y - design L *ᵥ v) ⬝ᵥ (y - design L *ᵥ v) := by
  unfold cost dotProduct
  apply Finset.sum_congr rfl
  intro i _
  rw [Pi.sub_apply, design_mulVec]; ring

/-- **C33** The fit is the least-squares solution: no other noise model is closer, and every other one is strictly
farther. -/
theorem C33_least_squares {L : List Setting} {y : Fin L.length → ℝ} {p : Fin 3 → ℝ} (h : fit L y = .ok p)
    (F C D : ℝ) : cost L y (p 0) (p 1) (p 2) ≤ cost L y F C D ∧
      (cost L y F C D = cost L y (p 0) (p 1) (p 2) → F = p 0 ∧ C = p 1 ∧ D = p 2) := by
  have hid : Identifiable L := (fit_ok_iff L y).1 ⟨p, h⟩
  have hn := fit_normal h
  generalize hv : (![F, C, D] : Fin 3 → ℝ) = v
  have e : cost L y F C D = cost L y (v 0) (v 1) (v 2) := by rw [← hv]; rfl
  rw [e, cost_eq, cost_eq]
  have horth : ∀ w : Fin 3 → ℝ, (design L *ᵥ w) ⬝ᵥ (y - design L *ᵥ p) = 0 := by
    intro w
    have : (design L)ᵀ *ᵥ (y - design L *ᵥ p) = 0 := by
      rw [Matrix.mulVec_sub, Matrix.mulVec_mulVec, hn, sub_self]
    have h2 : w ⬝ᵥ ((design L)ᵀ *ᵥ (y - design L *ᵥ p)) = 0 := by rw [this]; simp
    rwa [Matrix.dotProduct_mulVec, Matrix.vecMul_transpose] at h2
  have hsplit : y - design L *ᵥ v = (y - design L *ᵥ p) + design L *ᵥ (p - v) := by
    rw [Matrix.mulVec_sub]; abel
  have hsum : (y - design L *ᵥ v) ⬝ᵥ (y - design L *ᵥ v) =
      (y - design L *ᵥ p) ⬝ᵥ (y - design L *ᵥ p) + (design L *ᵥ (p - v)) ⬝ᵥ (design L *ᵥ (p - v)) := by
    rw [hsplit]
    simp only [add_dotProduct, dotProduct_add]
    rw [horth (p - v), dotProduct_comm (y - design L *ᵥ p) (design L *ᵥ (p - v)), horth (p - v)]
    ring
  have hnn : 0 ≤ (design L *ᵥ (p - v)) ⬝ᵥ (design L *ᵥ (p - v)) := by
    apply Finset.sum_nonneg
    intro i _
    exact mul_self_nonneg _
  refine ⟨by rw [hsum]; linarith, fun heq => ?_⟩
  have h0 : (design L *ᵥ (p - v)) ⬝ᵥ (design L *ᵥ (p - v)) = 0 := by rw [hsum] at heq; linarith
  have hX : design L *ᵥ (p - v) = 0 := dotProduct_self_eq_zero.1 h0
  have := hid ((p - v) 0) ((p - v) 1) ((p - v) 2) (fun s hs => by
    obtain ⟨i, rfl⟩ := List.get_of_mem hs
    have := congrFun hX i
    rw [design_mulVec] at this
    simp only [Pi.zero_apply] at this
    linarith)
  simp only [Pi.sub_apply] at this
  have v0 : v 0 = F := by rw [← hv]; rfl
  have v1 : v 1 = C := by rw [← hv]; rfl
  have v2 : v 2 = D := by rw [← hv]; rfl
  rw [v0, v1, v2] at this
  exact ⟨by linarith [this.1], by linarith [this.2.1], by linarith [this.2.2]⟩

/-- **C33** Exact data give back the noise model. -/
theorem C33_recovers {L : List Setting} (hid : Identifiable L) (y : Fin L.length → ℝ) (F C D : ℝ)
    (hy : ∀ i, y i = F + (L.get i).g * C + (L.get i).g * (L.get i).t * D) : fit L y = .ok ![F, C, D] := by
  obtain ⟨p, hp⟩ := (fit_ok_iff L y).2 hid
  have hz : cost L y F C D = 0 := by
    unfold cost
    apply Finset.sum_eq_zero
    intro i _
    rw [hy i]; ring
  obtain ⟨h1, h2⟩ := C33_least_squares hp F C D
  have h3 : 0 ≤ cost L y (p 0) (p 1) (p 2) := Finset.sum_nonneg fun i _ => sq_nonneg _
  obtain ⟨a, b, c⟩ := h2 (by rw [hz] at h1 ⊢; linarith)
  rw [hp]
  congr 1
  funext j
  fin_cases j
  · exact a.symm
  · exact b.symm
  · exact c.symm

/-- **C33** Round trip: if the mean of each sub-stack follows the noise model, with `C`, `D` not negative, the noise maps
are its parameters, and the dark synthesised for the settings of any of the sub-stacks is its mean divided by its gain. -/
theorem C33_roundtrip {L : List Setting} (hc : checkStacks L = .ok ()) (hid : Identifiable L) (imaging : Bool)
    (y : Fin L.length → ℝ) (F C D : ℝ) (hC : 0 ≤ C) (hD : 0 ≤ D) (hD' : imaging = false → D = 0)
    (hy : ∀ i, y i = F + (L.get i).g * C + (L.get i).g * (L.get i).t * D) :
    noiseMaps L false imaging y = .ok ⟨some F, some C, some D⟩ ∧
    (∀ i, 1 ≤ (L.get i).g → synthesize ⟨some F, some C, some D⟩ (L.get i).g (L.get i).t = .ok (some (y i / (L.get i).g))) := by
  constructor
  · unfold noiseMaps
    rw [hc, C33_recovers hid y F C D hy]
    simp only [bind, Except.bind, Bool.false_eq_true, if_false, pure, Except.pure, Except.ok.injEq]
    have e0 : (![F, C, D] : Fin 3 → ℝ) 0 = F := rfl
    have e1 : (![F, C, D] : Fin 3 → ℝ) 1 = C := rfl
    have e2 : (![F, C, D] : Fin 3 → ℝ) 2 = D := rfl
    rw [e0, e1, e2, max_eq_left hC, max_eq_left hD]
    cases imaging with
    | true => rfl
    | false => rw [hD' rfl]; rfl
  · intro i hg
    unfold synthesize
    rw [if_neg, if_neg (not_lt.2 hg)]
    · simp only [bind, Option.bind, pure, Except.ok.injEq, Option.some.injEq]
      rw [hy i]
      have : (L.get i).g ≠ 0 := by linarith
      field_simp
      ring
    · rintro (⟨d, h1, h2⟩ | ⟨c, h1, h2⟩)
      · simp only [Option.some.injEq] at h1; subst h1; linarith
      · simp only [Option.some.injEq] at h1; subst h1; linarith

/-- **C33** The maps are never negative, so they are always accepted for synthesis; the dark is then the formula
`F/g + t D + C`. -/
theorem C33_synthesis_accepts {L : List Setting} {telem imaging : Bool} {y : Fin L.length → ℝ} {m : Maps}
    (h : noiseMaps L telem imaging y = .ok m) (g t : ℝ) :
    (g < 1 → synthesize m g t = .error .typeError) ∧
    (1 ≤ g → ∃ v, synthesize m g t = .ok v ∧ (telem = true → v = none) ∧
      (telem = false → ∃ f c d, m = ⟨some f, some c, some d⟩ ∧ 0 ≤ c ∧ 0 ≤ d ∧ v = some (f / g + t * d + c))) := by
  unfold noiseMaps at h
  cases h1 : checkStacks L with
  | error e => rw [h1] at h; cases h
  | ok u =>
    cases h2 : fit L y with
    | error e => rw [h1, h2] at h; cases h
    | ok p =>
      rw [h1, h2] at h
      simp only [bind, Except.bind, pure, Except.pure] at h
      cases telem with
      | true =>
        simp only [if_true, Except.ok.injEq] at h
        subst h
        constructor
        · intro hg; unfold synthesize; rw [if_neg (by simp), if_pos hg]
        · intro hg
          refine ⟨none, ?_, fun _ => rfl, fun hf => by cases hf⟩
          unfold synthesize; rw [if_neg (by simp), if_neg (not_lt.2 hg)]; rfl
      | false =>
        simp only [Bool.false_eq_true, if_false, Except.ok.injEq] at h
        have hd : 0 ≤ if imaging then max (p 2) 0 else 0 := by
          cases imaging
          · exact le_refl _
          · exact le_max_right _ _
        generalize (if imaging then max (p 2) 0 else 0) = d at h hd
        have hcn : 0 ≤ max (p 1) 0 := le_max_right _ _
        generalize max (p 1) 0 = c at h hcn
        subst h
        have hneg : ¬ ((∃ d', (some d : Option ℝ) = some d' ∧ d' < 0) ∨ (∃ c', (some c : Option ℝ) = some c' ∧ c' < 0)) := by
          rintro (⟨d', e, h⟩ | ⟨c', e, h⟩)
          · simp only [Option.some.injEq] at e; subst e; linarith
          · simp only [Option.some.injEq] at e; subst e; linarith
        constructor
        · intro hg; unfold synthesize; rw [if_neg hneg, if_pos hg]
        · intro hg
          refine ⟨some (p 0 / g + t * d + c), ?_, fun hf => (by cases hf), fun _ => ⟨p 0, c, d, rfl, hcn, hd, rfl⟩⟩
          unfold synthesize; rw [if_neg hneg, if_neg (not_lt.2 hg)]; rfl

/-- **C33** The synthesised error is the quadrature sum of the errors of the three terms; the flag their union. -/
theorem C33_synth_err_dq (ef ec ed g t : ℝ) (f d c : ℕ) (i : ℕ) :
    (synthErr ef ec ed g t) ^ 2 = (ef / g) ^ 2 + (t * ed) ^ 2 + ec ^ 2 ∧
    ((synthDq f d c).testBit i = true ↔ f.testBit i = true ∨ d.testBit i = true ∨ c.testBit i = true) := by
  constructor
  · unfold synthErr
    rw [Real.sq_sqrt (by positivity)]; ring
  · unfold synthDq
    rw [Nat.testBit_or, Nat.testBit_or]; simp [or_assoc]

/-! ### When are the parameters determined? -/

/-- **C33** Given two different positive gains, the parameters are determined unless all the exposure times are
`α + β / g`. -/
theorem C33_identifiable_iff {L : List Setting} (hpos : ∀ s ∈ L, 0 < s.g) (h2 : ∃ s ∈ L, ∃ s' ∈ L, s.g ≠ s'.g) :
    Identifiable L ↔ ¬ ∃ α β : ℝ, ∀ s ∈ L, s.t = α + β / s.g := by
  constructor
  · rintro hid ⟨α, β, h⟩
    have := hid (-β) (-α) 1 (fun s hs => by
      have hg := (hpos s hs).ne'
      rw [h s hs]; field_simp; ring)
    exact one_ne_zero this.2.2
  · intro hn a b c h
    by_cases hc : c = 0
    · subst hc
      obtain ⟨s, hs, s', hs', hne⟩ := h2
      have e1 := h s hs
      have e2 := h s' hs'
      have hb : b = 0 := by
        have : b * (s.g - s'.g) = 0 := by linarith
        rcases mul_eq_zero.1 this with h | h
        · exact h
        · exact absurd (sub_eq_zero.1 h) hne
      subst hb
      exact ⟨by linarith, rfl, rfl⟩
    · exfalso
      apply hn
      refine ⟨-b / c, -a / c, fun s hs => ?_⟩
      have hg := (hpos s hs).ne'
      have := h s hs
      field_simp
      linarith

/-- Five sub-stacks that pass all the checks; exposure time = 1 + 20/gain. -/
def degenerate : List Setting := [⟨1, 21, 1⟩, ⟨2, 11, 1⟩, ⟨4, 6, 1⟩, ⟨5, 5, 1⟩, ⟨10, 3, 1⟩]

/-- **C33** is violated for accepted settings that do not determine the parameters: the checks pass (more than three
sub-stacks, different gains and times, no repeated pair) but there is no fit. -/
theorem C33_violated : checkStacks degenerate = .ok () ∧
    ∀ y telem imaging, noiseMaps degenerate telem imaging y = .error .linAlg := by
  have hc : checkStacks degenerate = .ok () := by
    unfold checkStacks degenerate
    simp only [List.map_cons, List.map_nil]
    rw [if_neg (by simp), if_neg, if_neg, if_neg, if_neg, if_neg, if_neg]
    · simp only [List.any_cons, List.any_nil, List.count_cons, List.count_nil]
      norm_num
    · norm_num
    · norm_num
    · have : [(21 : ℝ), 11, 6, 5, 3].dedup = [21, 11, 6, 5, 3] := by
        apply List.dedup_eq_self.2
        norm_num
      rw [this]; simp
    · norm_num
    · have : [(1 : ℝ), 2, 4, 5, 10].dedup = [1, 2, 4, 5, 10] := by
        apply List.dedup_eq_self.2
        norm_num
      rw [this]; simp
  refine ⟨hc, fun y telem imaging => ?_⟩
  have hid : ¬ Identifiable degenerate := by
    rw [C33_identifiable_iff]
    · push Not
      refine ⟨1, 20, ?_⟩
      intro s hs
      simp only [degenerate, List.mem_cons, List.not_mem_nil, or_false] at hs
      rcases hs with rfl | rfl | rfl | rfl | rfl <;> norm_num
    · intro s hs
      simp only [degenerate, List.mem_cons, List.not_mem_nil, or_false] at hs
      rcases hs with rfl | rfl | rfl | rfl | rfl <;> norm_num
    · exact ⟨⟨1, 21, 1⟩, by simp [degenerate], ⟨2, 11, 1⟩, by simp [degenerate], by norm_num⟩
  have : fit degenerate y = .error .linAlg := by
    unfold fit
    rw [if_pos]
    by_contra h
    exact hid ((det_ne_zero_iff degenerate).1 h)
  unfold noiseMaps
  rw [hc, this]; rfl

/-- **C33** Which sub-stacks are accepted: four or more, two different gains and two different times among them, gains of
at least 1, times of at least 0, positive k-gains, and no repeated pair of gain and time. -/
theorem C33_checks (L : List Setting) : checkStacks L = .ok () ↔
    4 ≤ L.length ∧ (∃ s ∈ L, ∃ r ∈ L, s.g ≠ r.g) ∧ (∃ s ∈ L, ∃ r ∈ L, s.t ≠ r.t) ∧
    (∀ s ∈ L, 1 ≤ s.g ∧ 0 ≤ s.t ∧ 0 < s.k) ∧ (L.map fun s => (s.g, s.t)).Nodup := by
  classical
  have two : ∀ l : List ℝ, ¬ l.dedup.length < 2 ↔ ∃ a ∈ l, ∃ b ∈ l, a ≠ b := by
    intro l
    constructor
    · intro h
      match hd : l.dedup, h with
      | [], h => simp at h
      | [a], h => simp at h
      | a :: b :: m, _ =>
        have hn := List.nodup_dedup l
        rw [hd] at hn
        refine ⟨a, List.mem_dedup.1 (by rw [hd]; simp), b, List.mem_dedup.1 (by rw [hd]; simp), ?_⟩
        rintro rfl; simp at hn
    · rintro ⟨a, ha, b, hb, hab⟩ h
      have ha' := List.mem_dedup.2 ha
      have hb' := List.mem_dedup.2 hb
      match hd : l.dedup, h with
      | [], _ => rw [hd] at ha'; simp at ha'
      | [x], _ =>
        rw [hd, List.mem_singleton] at ha' hb'
        exact hab (ha'.trans hb'.symm)
      | x :: y :: m, h => simp at h
  unfold checkStacks
  rw [show (if L.length ≤ 3 then Except.error LErr.lsq
    else if (L.map Setting.g).dedup.length < 2 then .error .lsq
    else if (L.map Setting.g).any (fun g => decide (g < 1)) then .error .lsq
    else if (L.map Setting.t).dedup.length < 2 then .error .lsq
    else if (L.map Setting.t).any (fun t => decide (t < 0)) then .error .lsq
    else if (L.map Setting.k).any (fun k => decide (k ≤ 0)) then .error .lsq
    else if (L.map fun s => (s.g, s.t)).any fun el => decide (1 < (L.map fun s => (s.g, s.t)).count el) then
      .error .lsq
    else .ok ()) = Except.ok () ↔ ¬ L.length ≤ 3 ∧ ¬ (L.map Setting.g).dedup.length < 2 ∧
      ¬ (L.map Setting.g).any (fun g => decide (g < 1)) ∧ ¬ (L.map Setting.t).dedup.length < 2 ∧
      ¬ (L.map Setting.t).any (fun t => decide (t < 0)) ∧ ¬ (L.map Setting.k).any (fun k => decide (k ≤ 0)) ∧
      ¬ (L.map fun s => (s.g, s.t)).any (fun el => decide (1 < (L.map fun s => (s.g, s.t)).count el)) by
    split_ifs <;> simp_all]
  rw [two, two, List.nodup_iff_count_le_one]
  simp only [List.any_map, List.any_eq_true, List.mem_map, Function.comp, decide_eq_true_eq, not_exists, not_and, not_lt,
    not_le]
  constructor
  · rintro ⟨h1, ⟨_, ⟨a, ha, rfl⟩, _, ⟨b, hb, rfl⟩, hab⟩, h3, ⟨_, ⟨c, hc, rfl⟩, _, ⟨d, hd, rfl⟩, hcd⟩, h5, h6, h7⟩
    refine ⟨h1, ⟨a, ha, b, hb, hab⟩, ⟨c, hc, d, hd, hcd⟩, fun s hs => ⟨h3 s hs, h5 s hs, h6 s hs⟩, fun p => ?_⟩
    by_cases hp : p ∈ L.map fun s => (s.g, s.t)
    · obtain ⟨s, hs, rfl⟩ := List.mem_map.1 hp
      exact h7 s hs
    · rw [List.count_eq_zero_of_not_mem hp]; omega
  · rintro ⟨h1, ⟨a, ha, b, hb, hab⟩, ⟨c, hc, d, hd, hcd⟩, h4, h5⟩
    exact ⟨h1, ⟨_, ⟨a, ha, rfl⟩, _, ⟨b, hb, rfl⟩, hab⟩, fun s hs => (h4 s hs).1,
      ⟨_, ⟨c, hc, rfl⟩, _, ⟨d, hd, rfl⟩, hcd⟩, fun s hs => (h4 s hs).2.1, fun s hs => (h4 s hs).2.2, fun s _ => h5 _⟩

/-! ## The adjusted coefficient of determination -/

/-- lines 626-637 for one pixel: `y` the means of the sub-stacks, `p` the fit (`none` = NaN, both sums zero). -/
def rMap (L : List Setting) (y : Fin L.length → ℝ) (p : Fin 3 → ℝ) : Option ℝ :=
  let avg := (∑ i, y i) / L.length
  let ssr := ∑ i, (avg - (design L *ᵥ p) i) ^ 2
  let sse := ∑ i, (y i - (design L *ᵥ p) i) ^ 2
  if sse + ssr = 0 then none
  else some (1 - (1 - ssr / (sse + ssr)) * (L.length - 1) / (L.length - 3))

/-- **C33** "Can never be above 1", and equals 1 exactly when the fit is perfect. -/
theorem C33_rmap {L : List Setting} (h : 4 ≤ L.length) (y : Fin L.length → ℝ) (p : Fin 3 → ℝ) {r : ℝ}
    (hr : rMap L y p = some r) : r ≤ 1 ∧ (r = 1 ↔ ∀ i, y i = (design L *ᵥ p) i) := by
  unfold rMap at hr
  dsimp only at hr
  split at hr
  · cases hr
  · rename_i hne
    simp only [Option.some.injEq] at hr
    set sse := ∑ i, (y i - (design L *ᵥ p) i) ^ 2 with hsse
    set ssr := ∑ i, ((∑ i, y i) / L.length - (design L *ᵥ p) i) ^ 2 with hssr
    have h1 : 0 ≤ sse := Finset.sum_nonneg fun i _ => sq_nonneg _
    have h2 : 0 ≤ ssr := Finset.sum_nonneg fun i _ => sq_nonneg _
    have h3 : 0 < sse + ssr := lt_of_le_of_ne (by linarith) (Ne.symm hne)
    have hM : (4 : ℝ) ≤ L.length := by exact_mod_cast h
    have h4 : 1 - ssr / (sse + ssr) = sse / (sse + ssr) := by field_simp; ring
    rw [h4] at hr
    have h5 : 0 ≤ sse / (sse + ssr) * (L.length - 1) / (L.length - 3) :=
      div_nonneg (mul_nonneg (div_nonneg h1 h3.le) (by linarith)) (by linarith)
    refine ⟨by linarith, ?_⟩
    have h6 : r = 1 ↔ sse = 0 := by
      rw [← hr]
      have hM1 : (L.length : ℝ) - 1 ≠ 0 := by intro h; linarith
      have hM3 : (L.length : ℝ) - 3 ≠ 0 := by intro h; linarith
      constructor
      · intro he
        have : sse / (sse + ssr) * (L.length - 1) / (L.length - 3) = 0 := by linarith
        rcases div_eq_zero_iff.1 this with h | h
        · rcases mul_eq_zero.1 h with h | h
          · rcases div_eq_zero_iff.1 h with h | h
            · exact h
            · exact absurd h hne
          · exact absurd h hM1
        · exact absurd h hM3
      · intro he; rw [he]; simp
    rw [h6, hsse, Finset.sum_eq_zero_iff_of_nonneg fun i _ => sq_nonneg _]
    constructor
    · intro hz i
      have := hz i (Finset.mem_univ i)
      linarith [pow_eq_zero_iff (two_ne_zero) |>.1 this]
    · intro hz i _
      rw [hz i]; ring

/-! ## C47: masked sub-stacks -/

/-- The samples of one pixel: for each sub-stack its frames' values and mask bits. -/
abbrev Pixel (L : List Setting) := Fin L.length → List (Option ℝ × ℤ)

/-- lines 500, 512-518: mean of each sub-stack, number of sub-stacks with fewer than half and with no unmasked frame. -/
def stackMeans {L : List Setting} (s : Pixel L) : Fin L.length → Option ℝ := fun i => combIm false (s i)
def halfMasked {L : List Setting} (s : Pixel L) : ℕ :=
  (Finset.univ.filter fun i => 2 * mapIm (s i) < (s i).length).card
def allMasked {L : List Setting} (s : Pixel L) : ℕ := (Finset.univ.filter fun i => mapIm (s i) = 0).card

/-- **C47** The flag: 1 iff at most three sub-stacks have an unmasked frame there, 256 iff more than three have but at most
three have at least half of their frames, else 0. -/
theorem C47_dq (M u w : ℕ) (hw : w ≤ M) (hu : u ≤ M) (h : w ≤ u) :
    (mapsDq M u w = 1 ↔ M - w ≤ 3) ∧ (mapsDq M u w = 256 ↔ 3 < M - w ∧ M - u ≤ 3) ∧
    (mapsDq M u w = 0 ↔ 3 < M - u) := by
  unfold mapsDq
  dsimp only
  by_cases h1 : M ≤ w + 3
  · rw [if_pos h1]; omega
  · rw [if_neg h1]
    by_cases h2 : M ≤ u + 3
    · rw [if_pos h2]; omega
    · rw [if_neg h2]; omega

/-- **C47** The same in terms of the masks. -/
theorem C47_dq_pixel {L : List Setting} (s : Pixel L) (hne : ∀ i, s i ≠ []) :
    (mapsDq L.length (halfMasked s) (allMasked s) = 1 ↔ (Finset.univ.filter fun i => good (s i) ≠ []).card ≤ 3) ∧
    (mapsDq L.length (halfMasked s) (allMasked s) = 0 ↔
      3 < (Finset.univ.filter fun i => (s i).length ≤ 2 * (good (s i)).length).card) ∧
    (mapsDq L.length (halfMasked s) (allMasked s) = 256 ↔ 3 < (Finset.univ.filter fun i => good (s i) ≠ []).card ∧
      (Finset.univ.filter fun i => (s i).length ≤ 2 * (good (s i)).length).card ≤ 3) := by
  classical
  have e1 : halfMasked s + (Finset.univ.filter fun i => (s i).length ≤ 2 * (good (s i)).length).card = L.length := by
    have := Finset.card_filter_add_card_filter_not (s := (Finset.univ : Finset (Fin L.length)))
      (fun i => 2 * mapIm (s i) < (s i).length)
    simp only [not_lt, mapIm_eq, Finset.card_univ, Fintype.card_fin] at this
    unfold halfMasked
    simp only [mapIm_eq]
    convert this
  have e2 : allMasked s + (Finset.univ.filter fun i => good (s i) ≠ []).card = L.length := by
    have := Finset.card_filter_add_card_filter_not (s := (Finset.univ : Finset (Fin L.length)))
      (fun i => good (s i) = [])
    simp only [Finset.card_univ, Fintype.card_fin] at this
    unfold allMasked
    simp only [mapIm_eq, List.length_eq_zero_iff]
    convert this
  have e3 : allMasked s ≤ halfMasked s := by
    unfold allMasked halfMasked
    apply Finset.card_le_card
    intro i hi
    rw [Finset.mem_filter] at hi ⊢
    refine ⟨hi.1, ?_⟩
    rw [hi.2]
    have : 0 < (s i).length := List.length_pos_iff.2 (hne i)
    omega
  obtain ⟨h1, h2, h3⟩ := C47_dq L.length (halfMasked s) (allMasked s) (by omega) (by omega) e3
  rw [h1, h2, h3]
  omega

/-- **C47** If the pixel has an unmasked frame in every sub-stack, the maps are the fit of the means of the unmasked
frames. -/
theorem C47_unmasked_partial {L : List Setting} (s : Pixel L) (v : Fin L.length → List ℝ)
    (hv : ∀ i, good (s i) = (v i).map some) (hne : ∀ i, v i ≠ []) :
    stackMeans s = fun i => some (Nan.mean (v i)) := by
  funext i
  exact (C34_mean (s i) (v i) (hv i)).1 (hne i)

/-- **C47** is violated: if the pixel is masked in every frame of one sub-stack whose dark level is not zero, that
sub-stack enters the fit with the value 0: with all the others exact, the noise maps are wrong for *every* such
configuration, and with five sub-stacks or more the pixel is not flagged. -/
theorem C47_violated {L : List Setting} (hid : Identifiable L) (s : Pixel L) (j : Fin L.length) (F C D : ℝ)
    (hj : good (s j) = []) (hne : F + (L.get j).g * C + (L.get j).g * (L.get j).t * D ≠ 0)
    (hi : ∀ i, i ≠ j → good (s i) = List.replicate (s i).length
      (some (F + (L.get i).g * C + (L.get i).g * (L.get i).t * D)) ∧ s i ≠ []) (hsj : s j ≠ []) (h5 : 5 ≤ L.length) :
    ∃ y p, stackMeans s = (fun i => some (y i)) ∧ fit L y = .ok p ∧ ¬ (p 0 = F ∧ p 1 = C ∧ p 2 = D) ∧
      mapsDq L.length (halfMasked s) (allMasked s) = 0 := by
  set model : Fin L.length → ℝ := fun i => F + (L.get i).g * C + (L.get i).g * (L.get i).t * D with hmodel
  set y : Fin L.length → ℝ := fun i => if i = j then 0 else model i with hy
  obtain ⟨p, hp⟩ := (fit_ok_iff L y).2 hid
  have hlen : ∀ i, i ≠ j → (good (s i)).length = (s i).length := fun i h => by rw [(hi i h).1, List.length_replicate]
  refine ⟨y, p, ?_, hp, ?_, ?_⟩
  · funext i
    by_cases h : i = j
    · subst h
      have : y i = 0 := by simp [hy]
      rw [this]
      exact (C34_mean (s i) [] (by rw [hj]; rfl)).2 rfl
    · have hyi : y i = model i := by simp [hy, h]
      rw [hyi]
      have hl : (s i).length ≠ 0 := by simpa using (hi i h).2
      have := (C34_mean (s i) (List.replicate (s i).length (model i)) (by
        rw [(hi i h).1, List.map_replicate])).1 (by simpa using (hi i h).2)
      unfold stackMeans
      rw [this]
      congr 1
      unfold Nan.mean
      rw [List.sum_replicate, List.length_replicate, nsmul_eq_mul]
      have : ((s i).length : ℝ) ≠ 0 := by exact_mod_cast hl
      field_simp
  · rintro ⟨h0, h1, h2⟩
    have hn := fit_normal hp
    have hr : (design L)ᵀ *ᵥ (y - design L *ᵥ p) = 0 := by
      rw [Matrix.mulVec_sub, Matrix.mulVec_mulVec, hn, sub_self]
    have := congrFun hr 0
    simp only [Matrix.mulVec, dotProduct, Matrix.transpose_apply, design, Pi.zero_apply, Matrix.cons_val_zero,
      one_mul] at this
    have hres : ∀ i, (y - fun i => ∑ x, ![1, (L.get i).g, (L.get i).g * (L.get i).t] x * p x) i =
        if i = j then - model j else 0 := by
      intro i
      rw [Pi.sub_apply]
      have := design_mulVec L p i
      simp only [Matrix.mulVec, dotProduct, design] at this
      rw [this, h0, h1, h2]
      by_cases h : i = j
      · subst h; simp [hy, hmodel]
      · simp [hy, hmodel, h]
    have hsum : ∑ i, (if i = j then - model j else 0) = 0 := by
      refine Eq.trans ?_ this
      apply Finset.sum_congr rfl
      intro i _
      rw [← hres i]; rfl
    rw [Finset.sum_ite_eq' Finset.univ j] at hsum
    simp only [Finset.mem_univ, if_true, neg_eq_zero] at hsum
    exact hne hsum
  · have e1 : halfMasked s = 1 := by
      unfold halfMasked
      rw [Finset.card_eq_one]
      refine ⟨j, ?_⟩
      ext i
      simp only [Finset.mem_filter, Finset.mem_univ, true_and, Finset.mem_singleton, mapIm_eq]
      constructor
      · intro h
        by_contra hne'
        rw [hlen i hne'] at h; omega
      · rintro rfl
        rw [hj]
        have : (s i).length ≠ 0 := by simpa using hsj
        simp; omega
    have e2 : allMasked s = 1 := by
      unfold allMasked
      rw [Finset.card_eq_one]
      refine ⟨j, ?_⟩
      ext i
      simp only [Finset.mem_filter, Finset.mem_univ, true_and, Finset.mem_singleton, mapIm_eq]
      constructor
      · intro h
        by_contra hne'
        rw [hlen i hne'] at h
        exact (hi i hne').2 (List.length_eq_zero_iff.1 h)
      · rintro rfl
        rw [hj]; rfl
    rw [e1, e2]
    unfold mapsDq
    dsimp only
    rw [if_neg (by omega), if_neg (by omega)]

/-- Settings that do determine the parameters. -/
def five : List Setting := [⟨1, 1, 1⟩, ⟨2, 1, 1⟩, ⟨1, 2, 1⟩, ⟨2, 2, 1⟩, ⟨3, 3, 1⟩]

theorem five_identifiable : Identifiable five := by
  intro a b c h
  have h1 := h ⟨1, 1, 1⟩ (by simp [five])
  have h2 := h ⟨2, 1, 1⟩ (by simp [five])
  have h3 := h ⟨1, 2, 1⟩ (by simp [five])
  dsimp only at h1 h2 h3
  refine ⟨by linarith, by linarith, by linarith⟩

/-- Not vacuous: one frame in each sub-stack, the first one masked, pure fixed pattern `F = 7`. -/
example : ∃ y p, stackMeans (L := five) (fun i => [(some 7, if i.val = 0 then 1 else 0)]) = (fun i => some (y i)) ∧
    fit five y = .ok p ∧ ¬ (p 0 = 7 ∧ p 1 = 0 ∧ p 2 = 0) ∧
    mapsDq five.length (halfMasked (L := five) (fun i => [(some 7, if i.val = 0 then 1 else 0)]))
      (allMasked (L := five) (fun i => [(some 7, if i.val = 0 then 1 else 0)])) = 0 := by
  refine C47_violated five_identifiable _ ⟨0, by simp [five]⟩ 7 0 0 ?_ ?_ ?_ ?_ ?_
  · simp [good]
  · norm_num
  · intro i hi
    have : i.val ≠ 0 := fun h => hi (Fin.ext h)
    simp [good, this]
  · simp
  · simp [five]

theorem five_checked : checkStacks five = .ok () := by
  unfold checkStacks five
  simp only [List.map_cons, List.map_nil]
  rw [if_neg (by simp), if_neg, if_neg, if_neg, if_neg, if_neg, if_neg]
  · simp only [List.any_cons, List.any_nil, List.count_cons, List.count_nil]
    norm_num
  · norm_num
  · norm_num
  · rw [show [(1 : ℝ), 1, 2, 2, 3].dedup = [1, 2, 3] by
      rw [List.dedup_cons_of_mem (by simp), List.dedup_cons_of_notMem (by norm_num),
        List.dedup_cons_of_mem (by simp), List.dedup_eq_self.2 (by norm_num)]]; simp
  · norm_num
  · rw [show [(1 : ℝ), 2, 1, 2, 3].dedup = [1, 2, 3] by
      rw [List.dedup_cons_of_mem (by simp), List.dedup_cons_of_mem (by simp), List.dedup_eq_self.2 (by norm_num)]]; simp

/-- Not vacuous: the round trip. -/
example : checkStacks five = .ok () ∧ ∃ y, noiseMaps five false true y = .ok ⟨some 1, some 2, some 3⟩ ∧
    synthesize ⟨some 1, some 2, some 3⟩ 3 3 = .ok (some (y ⟨4, by simp [five]⟩ / 3)) := by
  have hc := five_checked
  refine ⟨hc, ?_⟩
  obtain ⟨h1, h2⟩ := C33_roundtrip hc five_identifiable true
    (fun i => 1 + (five.get i).g * 2 + (five.get i).g * (five.get i).t * 3) 1 2 3 (by norm_num) (by norm_num)
    (fun h => by cases h) (fun i => rfl)
  exact ⟨_, h1, h2 ⟨4, by simp [five]⟩ (by simp [five])⟩

/-! ## C49: the error of the means -/

/-- **C49** is violated: `stacks_err` is said to be the standard error coming from the frames; for `M` sub-stacks with the
same error `e` its square is `e² √M`: it grows with the number of sub-stacks. -/
theorem C49_violated (M : ℕ) (e : ℝ) : (stacksErr (List.replicate M e)) ^ 2 = e ^ 2 * Real.sqrt M := by
  unfold stacksErr
  rw [Real.sq_sqrt, List.map_replicate, List.sum_replicate, List.length_replicate, nsmul_eq_mul]
  · rcases Nat.eq_zero_or_pos M with rfl | h
    · simp
    · have h1 : (0 : ℝ) < M := by exact_mod_cast h
      have h2 : Real.sqrt M ≠ 0 := (Real.sqrt_pos.2 h1).ne'
      have h3 : Real.sqrt M * Real.sqrt M = M := Real.mul_self_sqrt h1.le
      rw [div_eq_iff h2, mul_assoc, h3]; ring
  · apply div_nonneg _ (Real.sqrt_nonneg _)
    apply List.sum_nonneg
    intro x hx
    obtain ⟨y, _, rfl⟩ := List.mem_map.1 hx
    exact sq_nonneg y

/-- **C49** More sub-stacks of the same quality always give a larger error. -/
theorem C49_grows (M N : ℕ) (e : ℝ) (he : e ≠ 0) (h : M < N) :
    stacksErr (List.replicate M e) < stacksErr (List.replicate N e) := by
  have h1 := C49_violated M e
  have h2 := C49_violated N e
  have h3 : Real.sqrt (M : ℝ) < Real.sqrt N := Real.sqrt_lt_sqrt (Nat.cast_nonneg _) (by exact_mod_cast h)
  have h4 : 0 < e ^ 2 := by positivity
  have h0 : 0 ≤ stacksErr (List.replicate N e) := Real.sqrt_nonneg _
  apply lt_of_pow_lt_pow_left₀ 2 h0
  rw [h1, h2]
  exact mul_lt_mul_of_pos_left h3 h4

/-- **C49** What holds: it is at least the error of the mean of the sub-stacks, `√(Σ e²) / M`, and not larger than the
root of the sum of squares. -/
theorem C49_bounds_partial (es : List ℝ) (h : es ≠ []) :
    Real.sqrt ((es.map (· ^ 2)).sum) / es.length ≤ stacksErr es ∧ stacksErr es ≤ Real.sqrt ((es.map (· ^ 2)).sum) := by
  have hs : 0 ≤ (es.map (· ^ 2)).sum := by
    apply List.sum_nonneg
    intro x hx
    obtain ⟨y, _, rfl⟩ := List.mem_map.1 hx
    exact sq_nonneg y
  have hn : 1 ≤ es.length := List.length_pos_iff.2 h
  have hn' : (1 : ℝ) ≤ es.length := by exact_mod_cast hn
  have hr : 1 ≤ Real.sqrt es.length := by rw [Real.one_le_sqrt]; exact hn'
  unfold stacksErr
  constructor
  · rw [div_le_iff₀ (by linarith)]
    rw [Real.sqrt_le_left (by positivity)]
    rw [mul_pow, Real.sq_sqrt (by positivity), div_mul_eq_mul_div, le_div_iff₀ (by linarith)]
    have : Real.sqrt es.length ≤ es.length ^ 2 := by
      rw [Real.sqrt_le_left (by positivity)]
      have h4 : (1 : ℝ) ≤ (es.length : ℝ) ^ 3 := one_le_pow₀ hn'
      nlinarith
    exact mul_le_mul_of_nonneg_left this hs
  · apply Real.sqrt_le_sqrt
    exact div_le_self hs hr

end Corgi.Darks

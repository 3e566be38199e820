import Mathlib.Analysis.SpecialFunctions.Gaussian.GaussianIntegral
import Mathlib.Analysis.SpecialFunctions.Pow.Real
import Mathlib.Analysis.Complex.ExponentialBounds
import Mathlib.MeasureTheory.Integral.Prod
import Mathlib.Tactic.FieldSimp
import Mathlib.Tactic.Linarith

/-!
# Flux ratio noise curve

`/repo/corgidrp/l4_to_tda.py:177-318` (`compute_flux_ratio_noise`). The Gaussian fit, the annular noise and the interpolation
of the throughputs are parameters.
-/

noncomputable section

namespace Corgi.Tda

/-- Planet flux from the annular noise (line 302). -/
def planetFlux (amp fwhm : ℝ) : ℝ := Real.pi * amp * fwhm ^ 2 / (4 * Real.log 2)

/-- Star flux (lines 290-292): the optical density is used as the transmission. -/
def starFlux (od fit : ℝ) : ℝ := od * fit

/-- One value of the curve (line 308). -/
def frn (amp fwhm od fit klip ct : ℝ) : ℝ := planetFlux amp fwhm / starFlux od fit / (klip * ct)

/-- The 2-D Gaussian of the comments: amplitude `amp`, full width at half maximum `fwhm`. -/
def gauss2 (amp fwhm : ℝ) (p : ℝ × ℝ) : ℝ := amp * Real.exp (-(4 * Real.log 2 / fwhm ^ 2) * (p.1 ^ 2 + p.2 ^ 2))

/-- Spec: the star's flux without the filter, from the flux measured through a filter of optical density `od`. -/
def unfiltered (od fit : ℝ) : ℝ := fit / (10 : ℝ) ^ (-od)

/-! ## C74 -/

/-- `gauss2` has the stated width. -/
theorem gauss2_fwhm {amp fwhm : ℝ} (h : fwhm ≠ 0) : gauss2 amp fwhm (fwhm / 2, 0) = gauss2 amp fwhm (0, 0) / 2 := by
  unfold gauss2
  have e : -(4 * Real.log 2 / fwhm ^ 2) * ((fwhm / 2) ^ 2 + 0 ^ 2) = -Real.log 2 := by field_simp; ring
  dsimp only
  rw [e, Real.exp_neg, Real.exp_log (by norm_num)]
  simp
  ring

/-- C74: the planet flux is the volume under the 2-D Gaussian. -/
theorem C74_volume {amp fwhm : ℝ} (h : 0 < fwhm) : ∫ p : ℝ × ℝ, gauss2 amp fwhm p = planetFlux amp fwhm := by
  have hl : 0 < Real.log 2 := Real.log_pos (by norm_num)
  set b := 4 * Real.log 2 / fwhm ^ 2 with hb
  have hb0 : 0 < b := by positivity
  have e : ∀ p : ℝ × ℝ, gauss2 amp fwhm p = (amp * Real.exp (-b * p.1 ^ 2)) * Real.exp (-b * p.2 ^ 2) := by
    intro p
    unfold gauss2
    rw [← hb, mul_assoc, ← Real.exp_add]
    congr 2; ring
  simp_rw [e]
  rw [MeasureTheory.Measure.volume_eq_prod,
    MeasureTheory.integral_prod_mul (fun x => amp * Real.exp (-b * x ^ 2)) (fun y => Real.exp (-b * y ^ 2)),
    MeasureTheory.integral_const_mul, integral_gaussian, mul_assoc, Real.mul_self_sqrt (by positivity)]
  unfold planetFlux
  rw [hb]
  field_simp

theorem lt_ten_rpow (x : ℝ) : x < (10 : ℝ) ^ x := by
  have h1 : x + 1 ≤ Real.exp x := Real.add_one_le_exp x
  rcases le_or_gt x 0 with hx | hx
  · have : 0 < (10 : ℝ) ^ x := Real.rpow_pos_of_pos (by norm_num) x
    linarith
  · have : Real.exp x ≤ (10 : ℝ) ^ x := by
      rw [Real.rpow_def_of_pos (by norm_num), Real.exp_le_exp]
      have hl : 1 ≤ Real.log 10 := by
        rw [Real.le_log_iff_exp_le (by norm_num)]
        have := Real.exp_one_lt_d9
        linarith
      nlinarith
    linarith

/-- C74: the star flux used is smaller than the unfiltered star flux for every optical density, by the factor `od·10^-od`. -/
theorem C74_star {od fit : ℝ} (hf : 0 < fit) : starFlux od fit < unfiltered od fit ∧
    starFlux od fit = unfiltered od fit * (od * (10 : ℝ) ^ (-od)) := by
  have hp : 0 < (10 : ℝ) ^ (-od) := Real.rpow_pos_of_pos (by norm_num) _
  unfold starFlux unfiltered
  constructor
  · rw [Real.rpow_neg (by norm_num), div_inv_eq_mul]
    have := lt_ten_rpow od
    nlinarith
  · field_simp

/-- C74 as stated (planet to star flux ratio with the star corrected for the ND filter) fails for every positive optical
density: the curve is too high by `10^od / od`, which is never 1. -/
theorem C74_violated {amp fwhm od fit klip ct : ℝ} (ha : 0 < amp) (hw : 0 < fwhm) (ho : 0 < od) (hf : 0 < fit) (hk : 0 < klip) (hc : 0 < ct) :
    frn amp fwhm od fit klip ct = planetFlux amp fwhm / unfiltered od fit / (klip * ct) * ((10 : ℝ) ^ od / od) ∧
      planetFlux amp fwhm / unfiltered od fit / (klip * ct) < frn amp fwhm od fit klip ct := by
  have hl : 0 < Real.log 2 := Real.log_pos (by norm_num)
  have hp : 0 < (10 : ℝ) ^ od := Real.rpow_pos_of_pos (by norm_num) _
  have hpl : 0 < planetFlux amp fwhm := by unfold planetFlux; have := Real.pi_pos; positivity
  have e : frn amp fwhm od fit klip ct = planetFlux amp fwhm / unfiltered od fit / (klip * ct) * ((10 : ℝ) ^ od / od) := by
    unfold frn starFlux unfiltered
    rw [Real.rpow_neg (by norm_num)]
    field_simp
  refine ⟨e, ?_⟩
  rw [e]
  have h1 : 1 < (10 : ℝ) ^ od / od := by rw [lt_div_iff₀ ho, one_mul]; exact lt_ten_rpow od
  have h2 : 0 < planetFlux amp fwhm / unfiltered od fit / (klip * ct) := by
    unfold unfiltered
    have : 0 < (10 : ℝ) ^ (-od) := Real.rpow_pos_of_pos (by norm_num) _
    positivity
  nlinarith

/-- C74: apart from that the curve is proportional to the noise and to the inverse of the throughputs. -/
theorem C74_partial {amp fwhm od fit klip ct : ℝ} (k : ℝ) (hk : k ≠ 0) :
    frn (k * amp) fwhm od fit klip ct = k * frn amp fwhm od fit klip ct ∧
      frn amp fwhm od fit (k * klip) ct = frn amp fwhm od fit klip ct / k ∧
      frn amp fwhm od fit klip (k * ct) = frn amp fwhm od fit klip ct / k := by
  unfold frn planetFlux
  refine ⟨by ring, ?_, ?_⟩ <;> field_simp

/-! ### Separations and half width over the frames -/

/-- What the loop takes from one frame (lines 210-235). -/
structure FrnFrame where
  klipSeps : List ℝ
  spacing : ℝ

/-- The separations and half width used per frame (lines 219-220, 230-231): the function's own variables are overwritten in
the first iteration. -/
def used : Option (List ℝ) → Option ℝ → List FrnFrame → List (List ℝ × ℝ)
  | _, _, [] => []
  | seps, hw, f :: r =>
    let s := seps.getD f.klipSeps
    let w := hw.getD (f.spacing / 2)
    (s, w) :: used (some s) (some w) r

theorem used_some (s : List ℝ) (w : ℝ) (l : List FrnFrame) : used (some s) (some w) l = List.replicate l.length (s, w) := by
  induction l with
  | nil => rfl
  | cons f l ih => simp [used, ih, List.replicate_succ]

/-- C74: every frame uses the first frame's separations and half width. -/
theorem C74_first (seps : Option (List ℝ)) (hw : Option ℝ) (f : FrnFrame) (l : List FrnFrame) :
    used seps hw (f :: l) = List.replicate (l.length + 1) (seps.getD f.klipSeps, hw.getD (f.spacing / 2)) := by
  rw [used, used_some, List.replicate_succ]

/-- C74: so a frame with other separations is not evaluated at its own. -/
theorem C74_own_violated : ∃ l : List FrnFrame, used none none l ≠ l.map fun f => (f.klipSeps, f.spacing / 2) := by
  refine ⟨[⟨[5, 7], 2⟩, ⟨[6, 10], 4⟩], ?_⟩
  rw [C74_first]
  simp [List.replicate]

/-! ### Star location -/

/-- The size used for the fit (lines 248-257). -/
def oddSize (n : ℕ) : ℕ := if n % 2 = 0 then n - 1 else n

/-- One axis of the location check and of the look-up of the pixel (lines 245-246, 257-261); `none`: the ValueError of the
check, `some false`: IndexError. -/
def locate (n pos : ℕ) : Option Bool := if n < pos then none else some (decide (pos < oddSize n))

/-- C74: a location is usable exactly when it is inside the fitted area; the check accepts one pixel more, two for an even
size, for which the look-up fails. -/
theorem C74_location_iff {n pos : ℕ} : (locate n pos = some true ↔ pos < oddSize n) ∧
    (locate n pos = some false ↔ pos = n ∨ n % 2 = 0 ∧ pos + 1 = n) := by
  unfold locate oddSize
  constructor
  · split_ifs with h1 h2 <;> simp <;> omega
  · split_ifs with h1 h2 <;> simp <;> omega

/-- C74: a star whose peak is in the last row of an even image cannot be located. -/
theorem C74_last_row_violated {n : ℕ} (hn : 0 < n) (he : n % 2 = 0) : locate n (n - 1) = some false :=
  C74_location_iff.2.2 (Or.inr ⟨he, by omega⟩)

example : locate 10 4 = some true ∧ locate 10 9 = some false ∧ locate 10 11 = none := by decide

example : frn 0 1 2 3 1 1 = 0 := by simp [frn, planetFlux]

end Corgi.Tda

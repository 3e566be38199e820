import Verif.Tda.Phot
import Verif.Prob.NoiseMaps

/-!
# Is the error of aperture photometry a standard deviation? (fluxcal.py 321-344, 497-498, l4_to_tda.py 342-343, 375-382): C170

The pixels are random variables; different pixels are uncorrelated and the recorded error of each is its standard deviation. The aperture is
at a fixed place: the centring (which looks at the same pixels) is not modelled. The local background of the code is a median over a ring;
here it is any random variable (uncorrelated with the aperture) or any linear estimate, for example the mean of the ring.
-/

noncomputable section

namespace Corgi.ProbAper

open MeasureTheory ProbabilityTheory
open Corgi.Tda Corgi.Flux
open Corgi.Prob (coin coin_integral variance_product)
open Corgi.ProbMaps (memLp_comb mean_comb cov_comb var_comb signs)

variable {Ω : Type*} {mΩ : MeasurableSpace Ω} {μ : Measure Ω} {n : ℕ}

/-! ## Model -/

/-- The aperture: weight, recorded error and flag of each pixel. -/
structure Aperture (n : ℕ) where
  w : Fin n → ℝ
  e : Fin n → ℝ
  bad : Fin n → Bool

/-- The pixels of one frame. -/
def pixels (a : Aperture n) (x : Fin n → ℝ) : List Pix := (List.finRange n).map fun i => ⟨a.w i, x i, a.e i, a.bad i⟩

/-- The number at place `k` of what `aper_phot` returns (0: flux, 1: error). -/
def entry (k : ℕ) (fee : ℝ) (back : Option ℝ) (l : List Pix) : ℝ :=
  match aperPhot fee back l with
  | .ok r => r.getD k 0
  | .error _ => 0

/-- `flux` (fluxcal.py 338). -/
def flux (fee : ℝ) (back : Option ℝ) (a : Aperture n) (x : Fin n → ℝ) : ℝ := entry 0 fee back (pixels a x)

/-- `flux_err` (fluxcal.py 339). -/
def fluxErr (fee : ℝ) (back : Option ℝ) (a : Aperture n) (x : Fin n → ℝ) : ℝ := entry 1 fee back (pixels a x)

/-! ## Spec -/

/-- The pixels that are not flagged. -/
def good (a : Aperture n) : Finset (Fin n) := Finset.univ.filter fun i => a.bad i = false

/-- The pixels have finite variance, different ones are uncorrelated, and the recorded errors are the standard deviations. -/
structure Frame (a : Aperture n) (X : Fin n → Ω → ℝ) (μ : Measure Ω) : Prop where
  lp : ∀ i, MemLp (X i) 2 μ
  uncorrelated : ∀ i j, i ≠ j → cov[X i, X j; μ] = 0
  var_eq : ∀ i, Var[X i; μ] = a.e i ^ 2

/-- A star of flux `F` of which the fraction `fee` falls in the aperture, on a sky of `B` per pixel. -/
structure Star (a : Aperture n) (X : Fin n → Ω → ℝ) (s : Fin n → ℝ) (fee F B : ℝ) (μ : Measure Ω) : Prop where
  mean_eq : ∀ i, μ[X i] = s i + B
  enclosed : ∑ i, a.w i * s i = fee * F

/-- Weights are overlaps of the pixel with the aperture. -/
def Overlaps (a : Aperture n) : Prop := ∀ i, 0 ≤ a.w i ∧ a.w i ≤ 1

/-! ## The photometry as sums -/

theorem sum_good (a : Aperture n) (x : Fin n → ℝ) (f : Pix → ℝ) :
    (((pixels a x).filter fun p => !p.bad).map f).sum = ∑ i ∈ good a, f ⟨a.w i, x i, a.e i, a.bad i⟩ := by
  have hnd : ((List.finRange n).filter fun i => !a.bad i).Nodup := (List.nodup_finRange n).filter _
  unfold pixels
  rw [List.filter_map, List.map_map]
  have : good a = ((List.finRange n).filter fun i => !a.bad i).toFinset := by
    ext i
    simp [good]
  rw [this, List.sum_toFinset _ hnd]
  rfl

theorem flux_eq {fee : ℝ} (h : 0 < fee ∧ fee ≤ 1) (back : Option ℝ) (a : Aperture n) (x : Fin n → ℝ) :
    flux fee back a x = (∑ i ∈ good a, a.w i * (x i - back.getD 0)) / fee := by
  unfold flux entry
  rw [aperPhot_ok h]
  simp only [List.getD_cons_zero]
  rw [sum_good a x fun p => p.weight * (p.val - back.getD 0)]

theorem fluxErr_eq {fee : ℝ} (h : 0 < fee ∧ fee ≤ 1) (back : Option ℝ) (a : Aperture n) (x : Fin n → ℝ) :
    fluxErr fee back a x = Real.sqrt (∑ i ∈ good a, a.w i * a.e i ^ 2) / fee := by
  unfold fluxErr entry
  rw [aperPhot_ok h]
  simp only [List.getD_cons_succ, List.getD_cons_zero]
  rw [sum_good a x fun p => p.weight * p.err ^ 2]

theorem fluxErr_sq {fee : ℝ} (h : 0 < fee ∧ fee ≤ 1) (back : Option ℝ) {a : Aperture n} (hw : ∀ i, 0 ≤ a.w i) (x : Fin n → ℝ) :
    fluxErr fee back a x ^ 2 = (∑ i ∈ good a, a.w i * a.e i ^ 2) / fee ^ 2 := by
  rw [fluxErr_eq h, div_pow, Real.sq_sqrt (Finset.sum_nonneg fun i _ => mul_nonneg (hw i) (sq_nonneg _))]

theorem sum_ite (a : Aperture n) (f : Fin n → ℝ) : ∑ i ∈ good a, f i = ∑ i, if a.bad i then 0 else f i := by
  unfold good
  rw [Finset.sum_filter]
  refine Finset.sum_congr rfl fun i _ => ?_
  cases a.bad i <;> simp

/-- Weight that a pixel really has. -/
def eff (a : Aperture n) (i : Fin n) : ℝ := if a.bad i then 0 else a.w i

theorem sum_eff (a : Aperture n) (f : Fin n → ℝ) : ∑ i ∈ good a, a.w i * f i = ∑ i, eff a i * f i := by
  rw [sum_ite]
  refine Finset.sum_congr rfl fun i _ => ?_
  unfold eff
  split_ifs <;> simp

theorem sum_eff_sq (a : Aperture n) (f : Fin n → ℝ) : ∑ i, eff a i ^ 2 * f i = ∑ i ∈ good a, a.w i ^ 2 * f i := by
  rw [sum_ite]
  refine Finset.sum_congr rfl fun i _ => ?_
  unfold eff
  split_ifs <;> simp

/-- The weight of the unflagged part of the aperture. -/
def area (a : Aperture n) : ℝ := ∑ i ∈ good a, a.w i

theorem flux_back {fee : ℝ} (h : 0 < fee ∧ fee ≤ 1) (b : ℝ) (a : Aperture n) (x : Fin n → ℝ) :
    flux fee (some b) a x = (∑ i, eff a i * x i - area a * b) / fee := by
  rw [flux_eq h, ← sum_eff]
  simp only [Option.getD_some, mul_sub, Finset.sum_sub_distrib]
  rw [area, Finset.sum_mul]

theorem flux_none {fee : ℝ} (h : 0 < fee ∧ fee ≤ 1) (a : Aperture n) (x : Fin n → ℝ) :
    flux fee none a x = (∑ i, eff a i * x i) / fee := by
  rw [flux_eq h, ← sum_eff]
  simp

/-! ## C170: the mean -/

variable [IsProbabilityMeasure μ] {a : Aperture n} {X : Fin n → Ω → ℝ} {s : Fin n → ℝ} {fee F B : ℝ}

/-- What the flagged pixels would have added. -/
def lost (a : Aperture n) (s : Fin n → ℝ) : ℝ := ∑ i ∈ Finset.univ.filter fun i => a.bad i = true, a.w i * s i

theorem sum_split (a : Aperture n) (s : Fin n → ℝ) : ∑ i ∈ good a, a.w i * s i = ∑ i, a.w i * s i - lost a s := by
  have := Finset.sum_filter_add_sum_filter_not Finset.univ (fun i => a.bad i = true) fun i => a.w i * s i
  have hg : good a = Finset.univ.filter fun i => ¬a.bad i = true := by
    ext i
    simp [good]
  rw [hg, lost]
  linarith

/-- **C170.** Without subtraction of the background, the mean of the flux is that of the star, plus the sky in the unflagged part of the
aperture, minus what falls on flagged pixels. -/
theorem C170_mean (h : 0 < fee ∧ fee ≤ 1) (hX : Frame a X μ) (hs : Star a X s fee F B μ) :
    μ[fun ω => flux fee none a fun i => X i ω] = F + (area a * B - lost a s) / fee := by
  simp only [flux_none h]
  rw [integral_div, mean_comb hX.lp, ← sum_eff]
  simp only [hs.mean_eq, mul_add, Finset.sum_add_distrib]
  rw [← Finset.sum_mul, sum_split, hs.enclosed, ← area]
  field_simp [h.1.ne']
  ring

/-- **C170.** With an unbiased background the mean of the flux is that of the star minus what falls on flagged pixels. -/
theorem C170_mean_background (h : 0 < fee ∧ fee ≤ 1) (hX : Frame a X μ) (hs : Star a X s fee F B μ) {b : Ω → ℝ} (hb : MemLp b 2 μ)
    (hB : μ[b] = B) : μ[fun ω => flux fee (some (b ω)) a fun i => X i ω] = F - lost a s / fee := by
  simp only [flux_back h]
  rw [integral_div, integral_sub ((memLp_comb hX.lp _).integrable (by norm_num)) ((hb.const_mul _).integrable (by norm_num)),
    mean_comb hX.lp, integral_const_mul, hB, ← sum_eff]
  simp only [hs.mean_eq, mul_add, Finset.sum_add_distrib]
  rw [← Finset.sum_mul, sum_split, hs.enclosed, ← area]
  field_simp [h.1.ne']
  ring

/-- **C170.** No pixel of the aperture is flagged and the background is unbiased: the flux is right on average. -/
theorem C170_unbiased (h : 0 < fee ∧ fee ≤ 1) (hX : Frame a X μ) (hs : Star a X s fee F B μ) {b : Ω → ℝ} (hb : MemLp b 2 μ)
    (hB : μ[b] = B) (hbad : ∀ i, a.bad i = false) : μ[fun ω => flux fee (some (b ω)) a fun i => X i ω] = F := by
  rw [C170_mean_background h hX hs hb hB]
  simp [lost, hbad]

/-- **C170, violated.** The flux is not corrected for flagged pixels: it is too small on average as soon as a flagged pixel has light. -/
theorem C170_violated_flagged (h : 0 < fee ∧ fee ≤ 1) (hX : Frame a X μ) (hs : Star a X s fee F B μ) {b : Ω → ℝ} (hb : MemLp b 2 μ)
    (hB : μ[b] = B) (hw : Overlaps a) (hpos : ∀ i, 0 ≤ s i) {i : Fin n} (hi : a.bad i = true) (hwi : 0 < a.w i) (hsi : 0 < s i) :
    μ[fun ω => flux fee (some (b ω)) a fun i => X i ω] < F := by
  rw [C170_mean_background h hX hs hb hB]
  have : 0 < lost a s := Finset.sum_pos' (fun j _ => mul_nonneg (hw j).1 (hpos j))
    ⟨i, by simpa using hi, mul_pos hwi hsi⟩
  linarith [div_pos this h.1]

/-! ## C170: the error, background known -/

/-- **C170.** The variance of the flux: each pixel counts with the square of its weight. -/
theorem C170_variance (h : 0 < fee ∧ fee ≤ 1) (hX : Frame a X μ) :
    Var[fun ω => flux fee none a fun i => X i ω; μ] = (∑ i ∈ good a, a.w i ^ 2 * a.e i ^ 2) / fee ^ 2 := by
  simp only [flux_none h, div_eq_inv_mul]
  rw [variance_const_mul, var_comb hX.lp hX.uncorrelated hX.var_eq, sum_eff_sq, inv_pow]

theorem excess (h : 0 < fee ∧ fee ≤ 1) (hw : Overlaps a) (hX : Frame a X μ) (x : Fin n → ℝ) :
    fluxErr fee none a x ^ 2 - Var[fun ω => flux fee none a fun i => X i ω; μ] =
      (∑ i ∈ good a, a.w i * (1 - a.w i) * a.e i ^ 2) / fee ^ 2 := by
  rw [C170_variance h hX, fluxErr_sq h none (fun i => (hw i).1), ← sub_div, ← Finset.sum_sub_distrib]
  congr 1
  exact Finset.sum_congr rfl fun i _ => by ring

/-- **C170.** The recorded error is never smaller than the standard deviation (background known). -/
theorem C170_at_least (h : 0 < fee ∧ fee ≤ 1) (hw : Overlaps a) (hX : Frame a X μ) (x : Fin n → ℝ) :
    Var[fun ω => flux fee none a fun i => X i ω; μ] ≤ fluxErr fee none a x ^ 2 := by
  have := excess h hw hX x
  have h0 : 0 ≤ (∑ i ∈ good a, a.w i * (1 - a.w i) * a.e i ^ 2) / fee ^ 2 :=
    div_nonneg (Finset.sum_nonneg fun i _ => mul_nonneg (mul_nonneg (hw i).1 (by linarith [(hw i).2])) (sq_nonneg _)) (sq_nonneg _)
  linarith

/-- **C170.** It is the standard deviation exactly if no noisy pixel is cut by the edge of the aperture. -/
theorem C170_iff (h : 0 < fee ∧ fee ≤ 1) (hw : Overlaps a) (hX : Frame a X μ) (x : Fin n → ℝ) :
    fluxErr fee none a x ^ 2 = Var[fun ω => flux fee none a fun i => X i ω; μ] ↔
      ∀ i, a.bad i = false → a.w i = 0 ∨ a.w i = 1 ∨ a.e i = 0 := by
  have := excess h hw hX x
  have h0 : ∀ i ∈ good a, 0 ≤ a.w i * (1 - a.w i) * a.e i ^ 2 := fun i _ =>
    mul_nonneg (mul_nonneg (hw i).1 (by linarith [(hw i).2])) (sq_nonneg _)
  rw [← sub_eq_zero, this, div_eq_zero_iff, or_iff_left (pow_ne_zero 2 h.1.ne'), Finset.sum_eq_zero_iff_of_nonneg h0]
  refine forall_congr' fun i => ?_
  simp only [good, Finset.mem_filter, Finset.mem_univ, true_and, mul_eq_zero, pow_eq_zero_iff two_ne_zero, sub_eq_zero]
  rw [or_assoc, eq_comm (a := (1 : ℝ))]

/-- **C170, violated.** Every pixel has weight `c`: the square of the error is `1/c` times the variance. -/
theorem C170_violated_edge (h : 0 < fee ∧ fee ≤ 1) {c : ℝ} (hc : 0 < c) (hw : ∀ i, a.w i = c) (hX : Frame a X μ) (x : Fin n → ℝ) :
    fluxErr fee none a x ^ 2 = Var[fun ω => flux fee none a fun i => X i ω; μ] / c := by
  rw [C170_variance h hX, fluxErr_sq h none (fun i => (hw i).symm ▸ hc.le)]
  simp only [hw, ← Finset.mul_sum]
  field_simp

/-! ## C170: the error, background measured -/

/-- **C170.** The variance with a measured background that is uncorrelated with the aperture. -/
theorem C170_variance_background (h : 0 < fee ∧ fee ≤ 1) (hX : Frame a X μ) {b : Ω → ℝ} (hb : MemLp b 2 μ)
    (hXb : ∀ i, cov[X i, b; μ] = 0) : Var[fun ω => flux fee (some (b ω)) a fun i => X i ω; μ] =
      (∑ i ∈ good a, a.w i ^ 2 * a.e i ^ 2 + area a ^ 2 * Var[b; μ]) / fee ^ 2 := by
  simp only [flux_back h, div_eq_inv_mul]
  have hc : cov[fun ω => ∑ i, eff a i * X i ω, fun ω => area a * b ω; μ] = 0 := by
    rw [covariance_const_mul_right, covariance_fun_sum_left' (fun i _ => (hX.lp i).const_mul _) hb]
    simp [covariance_const_mul_left, hXb]
  rw [variance_const_mul, variance_fun_sub (memLp_comb hX.lp _) (hb.const_mul _), hc, variance_const_mul,
    var_comb hX.lp hX.uncorrelated hX.var_eq, sum_eff_sq, inv_pow]
  ring

/-- **C170.** The recorded error then is too small exactly if the noise of the background outweighs the excess at the edge. -/
theorem C170_background_iff (h : 0 < fee ∧ fee ≤ 1) (hw : Overlaps a) (hX : Frame a X μ) {b : Ω → ℝ} (hb : MemLp b 2 μ)
    (hXb : ∀ i, cov[X i, b; μ] = 0) (y : ℝ) (x : Fin n → ℝ) :
    fluxErr fee (some y) a x ^ 2 < Var[fun ω => flux fee (some (b ω)) a fun i => X i ω; μ] ↔
      ∑ i ∈ good a, a.w i * (1 - a.w i) * a.e i ^ 2 < area a ^ 2 * Var[b; μ] := by
  have h2 : 0 < fee ^ 2 := pow_pos h.1 2
  rw [C170_variance_background h hX hb hXb, fluxErr_sq h _ (fun i => (hw i).1), div_lt_div_iff_of_pos_right h2]
  have : ∑ i ∈ good a, a.w i * a.e i ^ 2 =
      ∑ i ∈ good a, a.w i ^ 2 * a.e i ^ 2 + ∑ i ∈ good a, a.w i * (1 - a.w i) * a.e i ^ 2 := by
    rw [← Finset.sum_add_distrib]
    exact Finset.sum_congr rfl fun i _ => by ring
  rw [this]
  exact add_lt_add_iff_left _

/-- **C170, violated.** `background_sub=True` leaves the error as it was: for whole pixels it is too small as soon as the background is
noisy. -/
theorem C170_violated_background (h : 0 < fee ∧ fee ≤ 1) (hw : ∀ i, a.w i = 1) (hX : Frame a X μ) {b : Ω → ℝ} (hb : MemLp b 2 μ)
    (hXb : ∀ i, cov[X i, b; μ] = 0) (hvar : 0 < Var[b; μ]) (hg : (good a).Nonempty) (y : ℝ) (x : Fin n → ℝ) :
    fluxErr fee (some y) a x ^ 2 < Var[fun ω => flux fee (some (b ω)) a fun i => X i ω; μ] := by
  rw [C170_background_iff h (fun i => by rw [hw i]; norm_num) hX hb hXb]
  have : 0 < area a := by
    unfold area
    simp only [hw, Finset.sum_const, nsmul_eq_mul, mul_one]
    exact_mod_cast hg.card_pos
  simp only [hw, sub_self, mul_zero, zero_mul, Finset.sum_const_zero]
  positivity

/-- **C170.** `k` whole pixels of equal noise, background the mean of `m` other such pixels: the variance is `1 + k/m` times the square
of the error. -/
theorem C170_ring (h : 0 < fee ∧ fee ≤ 1) (hw : ∀ i, a.w i = 1) {σ : ℝ} (he : ∀ i, a.e i = σ) (hX : Frame a X μ) {b : Ω → ℝ}
    (hb : MemLp b 2 μ) (hXb : ∀ i, cov[X i, b; μ] = 0) {m : ℕ} (hvar : Var[b; μ] = σ ^ 2 / m) (y : ℝ) (x : Fin n → ℝ) :
    Var[fun ω => flux fee (some (b ω)) a fun i => X i ω; μ] = (1 + (good a).card / m) * fluxErr fee (some y) a x ^ 2 := by
  rw [C170_variance_background h hX hb hXb, fluxErr_sq h _ (fun i => by rw [hw i]; norm_num), hvar, area]
  simp only [hw, he, Finset.sum_const, nsmul_eq_mul, mul_one, one_pow, one_mul]
  ring

/-- **C170.** The background is a linear estimate from any pixels, also those of the aperture: the exact variance. -/
theorem C170_linear_background (h : 0 < fee ∧ fee ≤ 1) (hX : Frame a X μ) (r : Fin n → ℝ) :
    Var[fun ω => flux fee (some (∑ i, r i * X i ω)) a fun i => X i ω; μ] =
      (∑ i, (eff a i - area a * r i) ^ 2 * a.e i ^ 2) / fee ^ 2 := by
  have : (fun ω => flux fee (some (∑ i, r i * X i ω)) a fun i => X i ω) =
      fun ω => fee⁻¹ * ∑ i, (eff a i - area a * r i) * X i ω := by
    funext ω
    rw [flux_back h, div_eq_inv_mul]
    congr 1
    rw [Finset.mul_sum, ← Finset.sum_sub_distrib]
    exact Finset.sum_congr rfl fun i _ => by ring
  rw [this, variance_const_mul, var_comb hX.lp hX.uncorrelated hX.var_eq, inv_pow, div_eq_inv_mul]

/-- **C170, violated.** The ring and the aperture are the same pixels: the flux is 0 whatever the star, its error is not. -/
theorem C170_violated_overlap (h : 0 < fee ∧ fee ≤ 1) (hw : ∀ i, a.w i = 1) (hbad : ∀ i, a.bad i = false) (hn : 0 < n)
    (x : Fin n → ℝ) : flux fee (some ((∑ i, x i) / n)) a x = 0 := by
  have hn' : (n : ℝ) ≠ 0 := by exact_mod_cast hn.ne'
  rw [flux_back h, area]
  have hg : good a = Finset.univ := by
    ext i
    simp [good, hbad]
  simp only [eff, hw, hbad, hg, Bool.false_eq_true, if_false, one_mul, Finset.sum_const, Finset.card_univ, Fintype.card_fin, nsmul_eq_mul,
    mul_one]
  field_simp
  ring

/-! ## C170: several frames, the calibration factor -/

/-- The calibrated flux and its error (l4_to_tda.py 342-343, 375-382); the band enters the magnitude only. -/
def calFlux (fac facErr : ℝ) (phot : List (ℝ × ℝ)) : ℝ := (determineFlux [] (fun _ => 0) (fun _ => 0) fac facErr none phot).flux

def calErr (fac facErr : ℝ) (phot : List (ℝ × ℝ)) : ℝ := (determineFlux [] (fun _ => 0) (fun _ => 0) fac facErr none phot).fluxErr

theorem calFlux_one (fac facErr : ℝ) (p : ℝ × ℝ) : calFlux fac facErr [p] = p.1 * fac := by
  simp [calFlux, determineFlux]

theorem calErr_one_sq (fac facErr : ℝ) (p : ℝ × ℝ) : calErr fac facErr [p] ^ 2 = p.2 ^ 2 * fac ^ 2 + facErr ^ 2 * p.1 ^ 2 := by
  simp only [calErr, determineFlux, Option.getD_none, div_one, List.map_cons, List.map_nil, List.sum_cons, List.sum_nil, add_zero,
    List.length_singleton, Nat.cast_one]
  rw [Real.sq_sqrt (by positivity)]

/-- **C170, violated.** `m` frames with uncorrelated sums of the same error, factor exact: the square of the error of the mean flux is `m`
times its variance. -/
theorem C170_violated_frames {m : ℕ} (hm : 0 < m) {A : Fin m → Ω → ℝ} (hA : ∀ i, MemLp (A i) 2 μ)
    (hAA : ∀ i j, i ≠ j → cov[A i, A j; μ] = 0) {e : ℝ} (hv : ∀ i, Var[A i; μ] = e ^ 2) (fac : ℝ) (y : Fin m → ℝ) :
    calErr fac 0 (List.ofFn fun i => (y i, e)) ^ 2 = m * Var[fun ω => calFlux fac 0 (List.ofFn fun i => (A i ω, e)); μ] := by
  have hm' : (m : ℝ) ≠ 0 := by exact_mod_cast hm.ne'
  have h1 : ∀ ω, calFlux fac 0 (List.ofFn fun i => (A i ω, e)) = ∑ i, fac / m * A i ω := by
    intro ω
    simp only [calFlux, determineFlux, Option.getD_none, div_one, List.map_ofFn, List.sum_ofFn, List.length_ofFn, Function.comp_apply]
    rw [← Finset.mul_sum]
    ring
  simp only [h1]
  rw [var_comb hA hAA hv]
  simp only [calErr, determineFlux, Option.getD_none, div_one, List.map_ofFn, List.sum_ofFn, List.length_ofFn, Function.comp_apply,
    Finset.sum_const, Finset.card_univ, Fintype.card_fin, nsmul_eq_mul]
  rw [Real.sq_sqrt (by positivity)]
  field_simp
  ring

/-- **C170.** Factor and sum independent with true errors: on average the square of the error is larger than the variance of the flux by
the product of both variances. -/
theorem C170_product {A K : Ω → ℝ} (hA : MemLp A 2 μ) (hK : MemLp K 2 μ) (hAK : IndepFun A K μ) {eA eK : ℝ} (hvA : Var[A; μ] = eA ^ 2)
    (hvK : Var[K; μ] = eK ^ 2) :
    μ[fun ω => calErr (K ω) eK [(A ω, eA)] ^ 2] = Var[fun ω => calFlux (K ω) eK [(A ω, eA)]; μ] + eA ^ 2 * eK ^ 2 := by
  simp only [calErr_one_sq, calFlux_one]
  rw [variance_product hA hK hAK, hvA, hvK, integral_add (hK.integrable_sq.const_mul _) (hA.integrable_sq.const_mul _),
    integral_const_mul, integral_const_mul]
  have e1 := variance_eq_sub hA
  have e2 := variance_eq_sub hK
  simp only [Pi.pow_apply] at e1 e2
  rw [hvA] at e1
  rw [hvK] at e2
  have e3 : ∫ ω, A ω ^ 2 ∂μ = eA ^ 2 + μ[A] ^ 2 := by linarith
  have e4 : ∫ ω, K ω ^ 2 ∂μ = eK ^ 2 + μ[K] ^ 2 := by linarith
  rw [e3, e4]
  ring

theorem mean_pos {S : Ω → ℝ} (hS : Integrable S μ) (hpos : ∀ᵐ ω ∂μ, 0 < S ω) : 0 < μ[S] := by
  rw [integral_pos_iff_support_of_nonneg_ae (hpos.mono fun ω h => h.le) hS]
  rw [show μ (Function.support S) = 1 from (prob_compl_eq_zero_iff₀ ?_).1 ?_]
  · norm_num
  · exact hS.aestronglyMeasurable.aemeasurable.nullMeasurable (measurableSet_singleton (0 : ℝ)).compl
  · exact measure_mono_null (fun ω h => by simpa using h) (ae_iff.1 (hpos.mono fun ω h => h.ne'))

theorem gap_eq {S : Ω → ℝ} (hS : Integrable S μ) (hpos : ∀ᵐ ω ∂μ, 0 < S ω) :
    (fun ω => (S ω)⁻¹ - (2 * μ[S]⁻¹ - μ[S]⁻¹ ^ 2 * S ω)) =ᵐ[μ] fun ω => (S ω - μ[S]) ^ 2 / (μ[S] ^ 2 * S ω) := by
  have hc := mean_pos hS hpos
  filter_upwards [hpos] with ω h
  generalize μ[S] = c at *
  field_simp
  ring

theorem integrable_gap {S : Ω → ℝ} (hS : Integrable S μ) (hi : Integrable (fun ω => (S ω)⁻¹) μ) (hpos : ∀ᵐ ω ∂μ, 0 < S ω) :
    Integrable (fun ω => (S ω - μ[S]) ^ 2 / (μ[S] ^ 2 * S ω)) μ :=
  (hi.sub ((integrable_const _).sub (hS.const_mul _))).congr (gap_eq hS hpos)

theorem integral_inv_sub {S : Ω → ℝ} (hS : Integrable S μ) (hi : Integrable (fun ω => (S ω)⁻¹) μ) (hpos : ∀ᵐ ω ∂μ, 0 < S ω) :
    ∫ ω, (S ω)⁻¹ ∂μ - μ[S]⁻¹ = ∫ ω, (S ω - μ[S]) ^ 2 / (μ[S] ^ 2 * S ω) ∂μ := by
  have hc := mean_pos hS hpos
  have hl : Integrable (fun ω => 2 * μ[S]⁻¹ - μ[S]⁻¹ ^ 2 * S ω) μ := (integrable_const _).sub (hS.const_mul _)
  rw [← integral_congr_ae (gap_eq hS hpos), integral_sub hi hl, integral_sub (integrable_const _) (hS.const_mul _), integral_const_mul ((∫ x, S x ∂μ)⁻¹ ^ 2)]
  simp only [integral_const, probReal_univ, smul_eq_mul, one_mul]
  generalize μ[S] = c at *
  field_simp
  ring

/-- **C170.** The calibration factor is never too small on average. -/
theorem C170_factor_bias {S : Ω → ℝ} (hS : Integrable S μ) (hi : Integrable (fun ω => (S ω)⁻¹) μ) (hpos : ∀ᵐ ω ∂μ, 0 < S ω) {band : ℝ}
    (hband : 0 ≤ band) (e : ℝ) : (fluxcal band μ[S] e).1 ≤ μ[fun ω => (fluxcal band (S ω) e).1] := by
  have hc := mean_pos hS hpos
  simp only [fluxcal, div_eq_mul_inv]
  rw [integral_const_mul]
  refine mul_le_mul_of_nonneg_left ?_ hband
  rw [← sub_nonneg, integral_inv_sub hS hi hpos]
  exact integral_nonneg_of_ae (hpos.mono fun ω h => by show (0 : ℝ) ≤ _; positivity)

/-- **C170, violated.** The factor is right on average only if the sum does not vary at all. -/
theorem C170_violated_factor {S : Ω → ℝ} (hS : Integrable S μ) (hi : Integrable (fun ω => (S ω)⁻¹) μ) (hpos : ∀ᵐ ω ∂μ, 0 < S ω) {band : ℝ}
    (hband : 0 < band) (e : ℝ) :
    μ[fun ω => (fluxcal band (S ω) e).1] = (fluxcal band μ[S] e).1 ↔ ∀ᵐ ω ∂μ, S ω = μ[S] := by
  have hc := mean_pos hS hpos
  simp only [fluxcal, div_eq_mul_inv]
  rw [integral_const_mul, mul_right_inj' hband.ne', ← sub_eq_zero, integral_inv_sub hS hi hpos,
    integral_eq_zero_iff_of_nonneg_ae (hpos.mono fun ω h => by show (0 : ℝ) ≤ _; positivity) (integrable_gap hS hi hpos)]
  constructor
  · intro h
    filter_upwards [h, hpos] with ω h1 h2
    have h3 : μ[S] ^ 2 * S ω ≠ 0 := by positivity
    have h4 : (S ω - μ[S]) ^ 2 / (μ[S] ^ 2 * S ω) = 0 := h1
    rw [div_eq_zero_iff, or_iff_left h3, pow_eq_zero_iff two_ne_zero] at h4
    linarith
  · intro h
    filter_upwards [h] with ω h1
    show (S ω - μ[S]) ^ 2 / (μ[S] ^ 2 * S ω) = 0
    rw [h1, sub_self]
    simp

/-- **C170, violated.** The frame of the standard star itself: the flux is that of the catalogue whatever the noise, while the error is `√2`
times the relative error of the sum. -/
theorem C170_violated_self {band S e : ℝ} (hS : 0 < S) :
    calFlux (fluxcal band S e).1 (fluxcal band S e).2 [(S, e)] = band ∧
    calErr (fluxcal band S e).1 (fluxcal band S e).2 [(S, e)] ^ 2 = 2 * (band * (e / S)) ^ 2 := by
  rw [calFlux_one, calErr_one_sq]
  simp only [fluxcal]
  constructor
  · field_simp
  · field_simp
    ring

/-! ## Such frames exist -/

/-- Independent pixels of given means and deviations. -/
def sample (m : Fin n → ℝ) (a : Aperture n) (i : Fin n) (ω : Fin n → Bool) : ℝ := m i + if ω i then a.e i else -a.e i

theorem frame_exists (m : Fin n → ℝ) (a : Aperture n) :
    Frame a (sample m a) (signs n) ∧ ∀ i, (signs n)[sample m a i] = m i := by
  let f : Fin n → Bool → ℝ := fun i b => m i + if b then a.e i else -a.e i
  have hf : ∀ i, MemLp (f i) 2 coin := fun i =>
    MemLp.of_bound Measurable.of_discrete.aestronglyMeasurable (|f i true| + |f i false|) (Filter.Eventually.of_forall fun b => by
      rw [Real.norm_eq_abs]
      cases b
      · linarith [abs_nonneg (f i true)]
      · linarith [abs_nonneg (f i false)])
  have hp : ∀ i, MeasurePreserving (fun ω : Fin n → Bool => ω i) (signs n) coin := fun i =>
    measurePreserving_eval (fun _ : Fin n => coin) i
  have hm : ∀ i, ∫ b, f i b ∂coin = m i := fun i => by
    rw [coin_integral]
    simp only [f, Bool.false_eq_true, if_true, if_false]
    ring
  have hl : ∀ i, MemLp (sample m a i) 2 (signs n) := fun i => (hf i).comp_measurePreserving (hp i)
  refine ⟨⟨hl, fun i j hij => ?_, fun i => ?_⟩, fun i => ?_⟩
  · refine IndepFun.covariance_eq_zero ?_ (hl i) (hl j)
    exact (iIndepFun_pi (μ := fun _ : Fin n => coin) (X := f) fun _ => Measurable.of_discrete.aemeasurable).indepFun hij
  · refine ((hp i).variance_fun_comp (f := f i) Measurable.of_discrete.aemeasurable).trans ?_
    rw [variance_eq_sub (hf i), hm, coin_integral]
    simp only [f, Pi.pow_apply, Bool.false_eq_true, if_true, if_false]
    ring
  · have := integral_map (hp i).measurable.aemeasurable (f := f i) (μ := signs n) Measurable.of_discrete.aestronglyMeasurable
    rw [(hp i).map_eq, hm i] at this
    exact this.symm

/-- Two whole pixels and one half inside, each with error 2: the error squared is 10, the variance 9. -/
def three : Aperture 3 := ⟨![1, 1, 1 / 2], fun _ => 2, fun _ => false⟩

example : ∃ X : Fin 3 → (Fin 3 → Bool) → ℝ, Frame three X (signs 3) ∧ Star three X ![10, 4, 2] 1 15 3 (signs 3) ∧ Overlaps three ∧
    (∀ x, fluxErr 1 none three x ^ 2 = 10) ∧ Var[fun ω => flux 1 none three fun i => X i ω; signs 3] = 9 := by
  obtain ⟨h1, h2⟩ := frame_exists (fun i => ![10, 4, 2] i + 3) three
  have ho : Overlaps three := by
    intro i
    fin_cases i <;> norm_num [three]
  have hg : good three = Finset.univ := by
    ext i
    simp [good, three]
  refine ⟨_, h1, ⟨h2, ?_⟩, ho, fun x => ?_, ?_⟩
  · simp [three, Fin.sum_univ_succ]
    norm_num
  · rw [fluxErr_sq (by norm_num) none fun i => (ho i).1, hg]
    simp [three, Fin.sum_univ_succ]
    norm_num
  · rw [C170_variance (by norm_num) h1, hg]
    simp [three, Fin.sum_univ_succ]
    norm_num

/-- A sum of 1 or 3: the factor is `2/3` on average, the right one is `1/2`. -/
example : (fluxcal 1 (∫ b, (if b then (1 : ℝ) else 3) ∂coin) 0).1 = 1 / 2 ∧
    ∫ b, (fluxcal 1 (if b then (1 : ℝ) else 3) 0).1 ∂coin = 2 / 3 := by
  rw [coin_integral, coin_integral]
  norm_num [fluxcal]

end Corgi.ProbAper

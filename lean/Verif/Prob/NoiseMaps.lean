import Mathlib.Probability.Moments.Variance
import Mathlib.Probability.Moments.Covariance
import Mathlib.Probability.Independence.Basic
import Mathlib.LinearAlgebra.Matrix.Trace
import Mathlib.Tactic.FieldSimp
import Verif.Darks.Lsq
import Verif.Prob.Combined

/-!
# Are the errors of the noise maps, and of a dark made of them, standard deviations? (darks.py 586-617, 711-722, 864): C169

One pixel. The means of the sub-stacks are random variables that follow the noise model on average and are uncorrelated; nothing else is
assumed of their distribution. The fit is that of C33.

Not modelled: masked frames (C47), and the clipping of the dark current outside of the image.
-/

noncomputable section

namespace Corgi.ProbMaps

open MeasureTheory ProbabilityTheory Matrix
open Corgi.Darks
open Corgi.Prob (coin coin_integral)

variable {Ω : Type*} {mΩ : MeasurableSpace Ω} {μ : Measure Ω} {L : List Setting}

/-! ## Model -/

/-- `np.linalg.inv(X.T@X)` (line 609). -/
def covMatrix (L : List Setting) : Matrix (Fin 3) (Fin 3) ℝ := ((design L)ᵀ * design L)⁻¹

/-- `np.linalg.pinv(X)` (line 591). -/
def pinv (L : List Setting) : Matrix (Fin 3) (Fin L.length) ℝ := covMatrix L * (design L)ᵀ

/-- `params_Y` (line 591). -/
def params (L : List Setting) (y : Fin L.length → ℝ) : Fin 3 → ℝ := pinv L *ᵥ y

/-- `sigma2_frame` (lines 603-604). -/
def sigma2 (L : List Setting) (y : Fin L.length → ℝ) : ℝ :=
  (∑ i, (y i - (design L *ᵥ params L y) i) ^ 2) / ((L.length : ℝ) - 3)

/-- `FPN_std_map`, `CIC_std_map`, `D_std_map_im` (lines 612-617). -/
def stdMap (L : List Setting) (j : Fin 3) (y : Fin L.length → ℝ) : ℝ := Real.sqrt (sigma2 L y * covMatrix L j j)

/-- `C_std_map_combo` (line 722); `es` are the errors of the means of the sub-stacks. -/
def cicErr (L : List Setting) (es : List ℝ) (y : Fin L.length → ℝ) : ℝ := Real.sqrt (stdMap L 1 y ^ 2 + stacksErr es ^ 2)

/-- The dark at one pixel without clipping (`C33`: `synthesize`). -/
def dark (p : Fin 3 → ℝ) (g t : ℝ) : ℝ := p 0 / g + t * p 2 + p 1

/-! ## Spec -/

/-- The means of the sub-stacks follow the noise model `th` = (F, C, D) on average, uncorrelated, with variances `v`. -/
structure Means (L : List Setting) (Y : Fin L.length → Ω → ℝ) (th : Fin 3 → ℝ) (v : Fin L.length → ℝ) (μ : Measure Ω) : Prop where
  lp : ∀ i, MemLp (Y i) 2 μ
  uncorrelated : ∀ i j, i ≠ j → cov[Y i, Y j; μ] = 0
  mean_eq : ∀ i, μ[Y i] = th 0 + (L.get i).g * th 1 + (L.get i).g * (L.get i).t * th 2
  var_eq : ∀ i, Var[Y i; μ] = v i

/-! ## The fit -/

/-- The model is the fit of C33. -/
theorem fit_eq (hid : Identifiable L) (y : Fin L.length → ℝ) : fit L y = .ok (params L y) := by
  unfold fit
  rw [if_neg ((det_ne_zero_iff L).2 hid)]
  unfold params pinv covMatrix
  rw [Matrix.mulVec_mulVec]

theorem pinv_design (hid : Identifiable L) : pinv L * design L = 1 := by
  unfold pinv covMatrix
  rw [Matrix.mul_assoc, Matrix.nonsing_inv_mul _ (isUnit_iff_ne_zero.2 ((det_ne_zero_iff L).2 hid))]

theorem covMatrix_symm (L : List Setting) : (covMatrix L)ᵀ = covMatrix L := by
  unfold covMatrix
  rw [Matrix.transpose_nonsing_inv, Matrix.transpose_mul, Matrix.transpose_transpose]

theorem pinv_mul_transpose (hid : Identifiable L) : pinv L * (pinv L)ᵀ = covMatrix L := by
  have h : (pinv L)ᵀ = design L * covMatrix L := by
    unfold pinv
    rw [Matrix.transpose_mul, Matrix.transpose_transpose, covMatrix_symm]
  rw [h, ← Matrix.mul_assoc, pinv_design hid, Matrix.one_mul]

/-- The matrix that makes the residuals. -/
def resid (L : List Setting) : Matrix (Fin L.length) (Fin L.length) ℝ := 1 - design L * pinv L

theorem resid_symm (L : List Setting) : (resid L)ᵀ = resid L := by
  unfold resid pinv
  rw [Matrix.transpose_sub, Matrix.transpose_one, Matrix.transpose_mul, Matrix.transpose_mul, Matrix.transpose_transpose, covMatrix_symm,
    Matrix.mul_assoc]

theorem resid_design (hid : Identifiable L) : resid L * design L = 0 := by
  unfold resid
  rw [Matrix.sub_mul, Matrix.one_mul, Matrix.mul_assoc, pinv_design hid, Matrix.mul_one, sub_self]

theorem resid_sq (hid : Identifiable L) : resid L * (resid L)ᵀ = resid L := by
  rw [resid_symm]
  nth_rw 2 [resid]
  rw [Matrix.mul_sub, Matrix.mul_one, ← Matrix.mul_assoc, resid_design hid, Matrix.zero_mul, sub_zero]

theorem resid_trace (hid : Identifiable L) : (resid L).trace = (L.length : ℝ) - 3 := by
  unfold resid
  rw [Matrix.trace_sub, Matrix.trace_mul_comm, pinv_design hid, Matrix.trace_one, Matrix.trace_one]
  simp

theorem residual_eq (y : Fin L.length → ℝ) (i : Fin L.length) : y i - (design L *ᵥ params L y) i = ∑ k, resid L i k * y k := by
  have : ∑ k, resid L i k * y k = (resid L *ᵥ y) i := rfl
  rw [this]
  unfold resid params
  rw [Matrix.sub_mulVec, Matrix.one_mulVec, Pi.sub_apply, Matrix.mulVec_mulVec]

theorem sigma2_eq (y : Fin L.length → ℝ) : sigma2 L y = (∑ i, (∑ k, resid L i k * y k) ^ 2) / ((L.length : ℝ) - 3) := by
  unfold sigma2
  congr 1
  exact Finset.sum_congr rfl fun i _ => by rw [residual_eq y i]

/-! ## Moments of linear combinations -/

section
variable {n : ℕ} {Y : Fin n → Ω → ℝ} {v : Fin n → ℝ}

theorem memLp_comb (hY : ∀ i, MemLp (Y i) 2 μ) (a : Fin n → ℝ) : MemLp (fun ω => ∑ i, a i * Y i ω) 2 μ :=
  memLp_finsetSum _ fun i _ => (hY i).const_mul _

theorem mean_comb [IsProbabilityMeasure μ] (hY : ∀ i, MemLp (Y i) 2 μ) (a : Fin n → ℝ) :
    μ[fun ω => ∑ i, a i * Y i ω] = ∑ i, a i * μ[Y i] := by
  rw [integral_finsetSum _ fun i _ => ((hY i).const_mul _).integrable (by norm_num)]
  simp only [integral_const_mul]

theorem cov_comb [IsProbabilityMeasure μ] (hY : ∀ i, MemLp (Y i) 2 μ) (hc : ∀ i j, i ≠ j → cov[Y i, Y j; μ] = 0)
    (hv : ∀ i, Var[Y i; μ] = v i) (a b : Fin n → ℝ) :
    cov[fun ω => ∑ i, a i * Y i ω, fun ω => ∑ i, b i * Y i ω; μ] = ∑ i, a i * b i * v i := by
  rw [covariance_fun_sum_fun_sum (fun i => (hY i).const_mul _) (fun i => (hY i).const_mul _)]
  refine Finset.sum_congr rfl fun i _ => ?_
  rw [Finset.sum_eq_single_of_mem i (Finset.mem_univ _) fun j _ hj => ?_]
  · rw [covariance_const_mul_left, covariance_const_mul_right, covariance_self (hY i).aestronglyMeasurable.aemeasurable, hv]
    ring
  · rw [covariance_const_mul_left, covariance_const_mul_right, hc i j hj.symm]
    ring

theorem var_comb [IsProbabilityMeasure μ] (hY : ∀ i, MemLp (Y i) 2 μ) (hc : ∀ i j, i ≠ j → cov[Y i, Y j; μ] = 0)
    (hv : ∀ i, Var[Y i; μ] = v i) (a : Fin n → ℝ) : Var[fun ω => ∑ i, a i * Y i ω; μ] = ∑ i, a i ^ 2 * v i := by
  rw [← covariance_self (memLp_comb hY a).aestronglyMeasurable.aemeasurable, cov_comb hY hc hv]
  refine Finset.sum_congr rfl fun i _ => ?_
  ring

end

variable {Y : Fin L.length → Ω → ℝ} {th : Fin 3 → ℝ} {v : Fin L.length → ℝ}

theorem params_eq (L : List Setting) (y : Fin L.length → ℝ) (j : Fin 3) : params L y j = ∑ i, pinv L j i * y i := rfl

theorem mean_eq_design (hY : Means L Y th v μ) (i : Fin L.length) : μ[Y i] = (design L *ᵥ th) i := by
  rw [hY.mean_eq, design_mulVec]

/-- **C169.** On average the fit gives the noise model, whatever the variances are. -/
theorem C169_unbiased [IsProbabilityMeasure μ] (hid : Identifiable L) (hY : Means L Y th v μ) (j : Fin 3) :
    μ[fun ω => params L (fun i => Y i ω) j] = th j := by
  simp only [params_eq]
  rw [mean_comb hY.lp]
  simp only [mean_eq_design hY]
  have : ∑ i, pinv L j i * (design L *ᵥ th) i = (pinv L *ᵥ (design L *ᵥ th)) j := rfl
  rw [this, Matrix.mulVec_mulVec, pinv_design hid, Matrix.one_mulVec]

/-- **C169.** Variances and covariances of the fitted parameters. -/
theorem C169_covariance [IsProbabilityMeasure μ] (hY : Means L Y th v μ) (j k : Fin 3) :
    cov[fun ω => params L (fun i => Y i ω) j, fun ω => params L (fun i => Y i ω) k; μ] = ∑ i, pinv L j i * pinv L k i * v i := by
  simp only [params_eq]
  exact cov_comb hY.lp hY.uncorrelated hY.var_eq _ _

theorem params_memLp (hY : Means L Y th v μ) (j : Fin 3) : MemLp (fun ω => params L (fun i => Y i ω) j) 2 μ := by
  simp only [params_eq]
  exact memLp_comb hY.lp _

theorem variance_params [IsProbabilityMeasure μ] (hY : Means L Y th v μ) (j : Fin 3) :
    Var[fun ω => params L (fun i => Y i ω) j; μ] = ∑ i, pinv L j i ^ 2 * v i := by
  simp only [params_eq]
  exact var_comb hY.lp hY.uncorrelated hY.var_eq _

/-- With equal variances: the covariance matrix is the one of line 609. -/
theorem C169_equal [IsProbabilityMeasure μ] (hid : Identifiable L) {s2 : ℝ} (hY : Means L Y th (fun _ => s2) μ) (j k : Fin 3) :
    cov[fun ω => params L (fun i => Y i ω) j, fun ω => params L (fun i => Y i ω) k; μ] = s2 * covMatrix L j k := by
  rw [C169_covariance hY, ← pinv_mul_transpose hid, Matrix.mul_apply, Finset.mul_sum]
  refine Finset.sum_congr rfl fun i _ => ?_
  rw [Matrix.transpose_apply]
  ring

theorem sum_sq_resid (hid : Identifiable L) (k : Fin L.length) : ∑ i, resid L i k ^ 2 = resid L k k := by
  have h := congrFun (congrFun (resid_sq hid) k) k
  rw [Matrix.mul_apply] at h
  rw [← h]
  refine Finset.sum_congr rfl fun i _ => ?_
  have : resid L k i = resid L i k := congrFun (congrFun (resid_symm L) i) k
  rw [Matrix.transpose_apply, this]
  ring

/-- **C169.** The expected `sigma2_frame`, for all variances: each sub-stack counts by what it does not determine of its own fitted value. -/
theorem C169_sigma2 [IsProbabilityMeasure μ] (hid : Identifiable L) (hY : Means L Y th v μ) :
    μ[fun ω => sigma2 L fun i => Y i ω] = (∑ k, resid L k k * v k) / ((L.length : ℝ) - 3) := by
  simp only [sigma2_eq]
  have hs : ∫ ω, ∑ i, (∑ k, resid L i k * Y k ω) ^ 2 ∂μ = ∑ i, ∫ ω, (∑ k, resid L i k * Y k ω) ^ 2 ∂μ :=
    integral_finsetSum Finset.univ fun i _ => (memLp_comb hY.lp (resid L i)).integrable_sq
  rw [integral_div, hs]
  congr 1
  have h : ∀ i, ∫ ω, (∑ k, resid L i k * Y k ω) ^ 2 ∂μ = ∑ k, resid L i k ^ 2 * v k := by
    intro i
    rw [← var_comb hY.lp hY.uncorrelated hY.var_eq, variance_eq_sub (memLp_comb hY.lp _), mean_comb hY.lp]
    have h0 : ∑ k, resid L i k * μ[Y k] = 0 := by
      simp only [mean_eq_design hY]
      have : ∑ k, resid L i k * (design L *ᵥ th) k = (resid L *ᵥ (design L *ᵥ th)) i := rfl
      rw [this, Matrix.mulVec_mulVec, resid_design hid, Matrix.zero_mulVec]
      rfl
    rw [h0]
    simp only [Pi.pow_apply]
    ring
  simp only [h]
  rw [Finset.sum_comm]
  refine Finset.sum_congr rfl fun k _ => ?_
  rw [← Finset.sum_mul, sum_sq_resid hid]

/-- **C169.** With equal variances `sigma2_frame` is the variance, on average. -/
theorem C169_sigma2_equal [IsProbabilityMeasure μ] (hid : Identifiable L) (hM : 3 < L.length) {s2 : ℝ} (hY : Means L Y th (fun _ => s2) μ) :
    μ[fun ω => sigma2 L fun i => Y i ω] = s2 := by
  rw [C169_sigma2 hid hY, ← Finset.sum_mul]
  have h := resid_trace hid
  unfold Matrix.trace at h
  simp only [Matrix.diag_apply] at h
  rw [h]
  have : (3 : ℝ) < L.length := by exact_mod_cast hM
  have : (L.length : ℝ) - 3 ≠ 0 := by linarith
  field_simp

theorem covMatrix_diag_nonneg (hid : Identifiable L) (j : Fin 3) : 0 ≤ covMatrix L j j := by
  rw [← pinv_mul_transpose hid, Matrix.mul_apply]
  exact Finset.sum_nonneg fun i _ => by rw [Matrix.transpose_apply]; exact mul_self_nonneg _

theorem stdMap_sq (hid : Identifiable L) (hM : 3 < L.length) (j : Fin 3) (y : Fin L.length → ℝ) :
    stdMap L j y ^ 2 = sigma2 L y * covMatrix L j j := by
  unfold stdMap
  have h3 : (3 : ℝ) < L.length := by exact_mod_cast hM
  have : 0 ≤ sigma2 L y := div_nonneg (Finset.sum_nonneg fun i _ => sq_nonneg _) (by linarith)
  rw [Real.sq_sqrt (mul_nonneg this (covMatrix_diag_nonneg hid j))]

/-- **C169.** Sub-stacks of equal variance: on average the square of each standard deviation is the variance of its parameter. -/
theorem C169_std_equal [IsProbabilityMeasure μ] (hid : Identifiable L) (hM : 3 < L.length) {s2 : ℝ} (hY : Means L Y th (fun _ => s2) μ)
    (j : Fin 3) : μ[fun ω => stdMap L j (fun i => Y i ω) ^ 2] = Var[fun ω => params L (fun i => Y i ω) j; μ] := by
  simp only [stdMap_sq hid hM]
  rw [integral_mul_const, C169_sigma2_equal hid hM hY,
    ← covariance_self (params_memLp hY j).aestronglyMeasurable.aemeasurable, C169_equal hid hY]

/-- **C169.** The exact condition for all variances. -/
theorem C169_std_iff [IsProbabilityMeasure μ] (hid : Identifiable L) (hM : 3 < L.length) (hY : Means L Y th v μ) (j : Fin 3) :
    μ[fun ω => stdMap L j (fun i => Y i ω) ^ 2] = Var[fun ω => params L (fun i => Y i ω) j; μ] ↔
      (∑ k, resid L k k * v k) / ((L.length : ℝ) - 3) * covMatrix L j j = ∑ i, pinv L j i ^ 2 * v i := by
  simp only [stdMap_sq hid hM]
  rw [integral_mul_const, C169_sigma2 hid hY, variance_params hY]

/-! ## The error of the clock-induced charge -/

/-- **C169, violated.** The error of the clock-induced charge contains the errors of the sub-stacks a second time: on average its square is too
large by `stacks_err²`. -/
theorem C169_violated_cic [IsProbabilityMeasure μ] (hid : Identifiable L) (hM : 3 < L.length) {s2 : ℝ} (hY : Means L Y th (fun _ => s2) μ)
    (es : List ℝ) : μ[fun ω => cicErr L es (fun i => Y i ω) ^ 2] = Var[fun ω => params L (fun i => Y i ω) 1; μ] + stacksErr es ^ 2 := by
  have h : ∀ y, cicErr L es y ^ 2 = stdMap L 1 y ^ 2 + stacksErr es ^ 2 := fun y => by
    unfold cicErr
    rw [Real.sq_sqrt (by positivity)]
  have hi : Integrable (fun ω => stdMap L 1 (fun i => Y i ω) ^ 2) μ := by
    simp only [stdMap_sq hid hM, sigma2_eq]
    exact ((integrable_finsetSum _ fun i _ => (memLp_comb hY.lp _).integrable_sq).div_const _).mul_const _
  simp only [h]
  rw [integral_add hi (integrable_const _), C169_std_equal hid hM hY]
  simp

/-- **C169, violated.** With the right error in every sub-stack the excess is `√M` times the variance of a sub-stack: it grows with the number
of sub-stacks. -/
theorem C169_violated_cic_grows [IsProbabilityMeasure μ] (hid : Identifiable L) (hM : 3 < L.length) {s : ℝ}
    (hY : Means L Y th (fun _ => s ^ 2) μ) :
    μ[fun ω => cicErr L (List.replicate L.length s) (fun i => Y i ω) ^ 2] = s ^ 2 * (covMatrix L 1 1 + Real.sqrt L.length) := by
  rw [C169_violated_cic hid hM hY, C49_violated, ← covariance_self (params_memLp hY 1).aestronglyMeasurable.aemeasurable, C169_equal hid hY]
  ring

/-! ## The dark -/

/-- How the dark depends on the three parameters. -/
def darkRow (g t : ℝ) : Fin 3 → ℝ := ![1 / g, 1, t]

theorem dark_eq (L : List Setting) (y : Fin L.length → ℝ) (g t : ℝ) :
    dark (params L y) g t = ∑ i, (darkRow g t ⬝ᵥ fun j => pinv L j i) * y i := by
  unfold dark
  simp only [params_eq, dotProduct, Fin.sum_univ_three, darkRow]
  rw [Finset.sum_div, Finset.mul_sum, ← Finset.sum_add_distrib, ← Finset.sum_add_distrib]
  refine Finset.sum_congr rfl fun i _ => ?_
  simp
  ring

/-- **C169.** The variance of the dark, for sub-stacks of equal variance: with the covariances of the three maps. -/
theorem C169_dark [IsProbabilityMeasure μ] (hid : Identifiable L) {s2 : ℝ} (hY : Means L Y th (fun _ => s2) μ) (g t : ℝ) :
    Var[fun ω => dark (params L fun i => Y i ω) g t; μ] =
      s2 * (covMatrix L 0 0 / g ^ 2 + t ^ 2 * covMatrix L 2 2 + covMatrix L 1 1) +
      2 * s2 * (covMatrix L 0 1 / g + covMatrix L 0 2 * t / g + covMatrix L 1 2 * t) := by
  simp only [dark_eq]
  rw [var_comb hY.lp hY.uncorrelated hY.var_eq]
  have e : ∀ j k, covMatrix L j k = ∑ i, pinv L j i * pinv L k i := fun j k => by
    rw [← pinv_mul_transpose hid, Matrix.mul_apply]
    rfl
  simp only [e, dotProduct, Fin.sum_univ_three, darkRow]
  simp only [Finset.sum_div, Finset.mul_sum, Finset.sum_mul, ← Finset.sum_add_distrib]
  refine Finset.sum_congr rfl fun i _ => ?_
  simp
  ring

/-- **C169, violated.** `build_synthesized_dark` adds the three errors in quadrature as if the maps were independent. Even with the exact
standard deviations of the maps the result is right only if the covariances cancel. -/
theorem C169_violated_dark [IsProbabilityMeasure μ] (hid : Identifiable L) {s : ℝ} (hs : 0 < s) (hY : Means L Y th (fun _ => s ^ 2) μ)
    {g t ef ec ed : ℝ} (hf : ef ^ 2 = Var[fun ω => params L (fun i => Y i ω) 0; μ])
    (hc : ec ^ 2 = Var[fun ω => params L (fun i => Y i ω) 1; μ]) (hd : ed ^ 2 = Var[fun ω => params L (fun i => Y i ω) 2; μ]) :
    synthErr ef ec ed g t ^ 2 = Var[fun ω => dark (params L fun i => Y i ω) g t; μ] ↔
      covMatrix L 0 1 / g + covMatrix L 0 2 * t / g + covMatrix L 1 2 * t = 0 := by
  have hv : ∀ j, Var[fun ω => params L (fun i => Y i ω) j; μ] = s ^ 2 * covMatrix L j j := fun j => by
    rw [← covariance_self (params_memLp hY j).aestronglyMeasurable.aemeasurable, C169_equal hid hY]
  unfold synthErr
  rw [Real.sq_sqrt (by positivity), C169_dark hid hY, hf, hc, hd, hv, hv, hv]
  have h2 : (2 * s ^ 2 : ℝ) ≠ 0 := by positivity
  constructor
  · intro h
    have : 2 * s ^ 2 * (covMatrix L 0 1 / g + covMatrix L 0 2 * t / g + covMatrix L 1 2 * t) = 0 := by linear_combination -h
    exact (mul_eq_zero.1 this).resolve_left h2
  · intro h
    rw [h]
    ring

/-- **C169.** For the gain and time of a sub-stack the dark is never worse than that sub-stack alone. -/
theorem C169_dark_bound [IsProbabilityMeasure μ] (hid : Identifiable L) {s2 : ℝ} (hs : 0 ≤ s2) (hY : Means L Y th (fun _ => s2) μ)
    (i : Fin L.length) (hg : (L.get i).g ≠ 0) :
    Var[fun ω => dark (params L fun i => Y i ω) (L.get i).g (L.get i).t; μ] ≤ s2 / (L.get i).g ^ 2 := by
  have e : ∀ y, dark (params L y) (L.get i).g (L.get i).t = ∑ k, ((design L * pinv L) i k / (L.get i).g) * y k := by
    intro y
    have h1 : dark (params L y) (L.get i).g (L.get i).t = (design L *ᵥ params L y) i / (L.get i).g := by
      rw [design_mulVec]
      unfold dark
      field_simp
      ring
    rw [h1]
    unfold params
    rw [Matrix.mulVec_mulVec]
    change (∑ k, (design L * pinv L) i k * y k) / _ = _
    rw [Finset.sum_div]
    exact Finset.sum_congr rfl fun k _ => by ring
  simp only [e]
  rw [var_comb hY.lp hY.uncorrelated hY.var_eq, ← Finset.sum_mul]
  have h1 : ∀ k, (design L * pinv L) i k = (1 : Matrix _ _ ℝ) i k - resid L i k := fun k => by
    unfold resid
    rw [Matrix.sub_apply]
    ring
  have h2 : ∑ k, resid L i k ^ 2 = resid L i i := by
    rw [← sum_sq_resid hid i]
    refine Finset.sum_congr rfl fun k _ => ?_
    have : resid L k i = resid L i k := congrFun (congrFun (resid_symm L) i) k
    rw [this]
  have h3 : ∑ k, ((design L * pinv L) i k / (L.get i).g) ^ 2 = (1 - resid L i i) / (L.get i).g ^ 2 := by
    simp only [div_pow]
    rw [← Finset.sum_div]
    congr 1
    have : ∀ k, (design L * pinv L) i k ^ 2 = (1 : Matrix _ _ ℝ) i k - 2 * ((1 : Matrix _ _ ℝ) i k * resid L i k) + resid L i k ^ 2 := by
      intro k
      rw [h1]
      by_cases hk : i = k
      · subst hk
        rw [Matrix.one_apply_eq]
        ring
      · rw [Matrix.one_apply_ne hk]
        ring
    simp only [this, Finset.sum_add_distrib, Finset.sum_sub_distrib, ← Finset.mul_sum, h2]
    simp only [Matrix.one_apply, ite_mul, one_mul, zero_mul, Finset.sum_ite_eq, Finset.mem_univ, if_true]
    ring
  rw [h3]
  have h4 : 0 ≤ resid L i i := by
    rw [← h2]
    exact Finset.sum_nonneg fun k _ => sq_nonneg _
  have h5 : 0 < (L.get i).g ^ 2 := by positivity
  rw [div_mul_eq_mul_div]
  apply div_le_div_of_nonneg_right _ h5.le
  nlinarith

/-! ## Negative values are set to zero -/

/-- **C169, violated.** Setting negative values to zero (lines 711-712) makes the mean of the map too large, unless negative values have
probability zero. -/
theorem C169_violated_clip [IsProbabilityMeasure μ] (hid : Identifiable L) (hY : Means L Y th v μ) (j : Fin 3) :
    th j ≤ μ[fun ω => max (params L (fun i => Y i ω) j) 0] ∧
    (μ[fun ω => max (params L (fun i => Y i ω) j) 0] = th j ↔ ∀ᵐ ω ∂μ, 0 ≤ params L (fun i => Y i ω) j) := by
  have hi : Integrable (fun ω => params L (fun i => Y i ω) j) μ := (params_memLp hY j).integrable (by norm_num)
  have hp : Integrable (fun ω => max (params L (fun i => Y i ω) j) 0) μ := hi.pos_part
  have hn : Integrable (fun ω => max (-params L (fun i => Y i ω) j) 0) μ := hi.neg_part
  have e : μ[fun ω => max (params L (fun i => Y i ω) j) 0] = th j + μ[fun ω => max (-params L (fun i => Y i ω) j) 0] := by
    rw [← C169_unbiased hid hY j, ← integral_add hi hn]
    refine integral_congr_ae (Filter.Eventually.of_forall fun ω => ?_)
    rcases le_total 0 (params L (fun i => Y i ω) j) with h | h
    · simp [h]
    · simp [h]
  have h0 : 0 ≤ μ[fun ω => max (-params L (fun i => Y i ω) j) 0] := integral_nonneg fun ω => le_max_right _ _
  rw [e]
  refine ⟨by linarith, ?_⟩
  have hz := integral_eq_zero_iff_of_nonneg (f := fun ω => max (-params L (fun i => Y i ω) j) 0) (fun ω => le_max_right _ _) hn
  rw [add_eq_left]
  refine hz.trans ?_
  constructor
  · intro h
    filter_upwards [h] with ω hω
    simpa using hω
  · intro h
    filter_upwards [h] with ω hω
    simpa using hω

/-! ## Such sub-stacks exist -/

/-- Independent signs. -/
def signs (n : ℕ) : Measure (Fin n → Bool) := Measure.pi fun _ => coin

instance (n : ℕ) : IsProbabilityMeasure (signs n) := by
  unfold signs
  infer_instance

/-- The value of the noise model and noise of standard deviation `sd i`. -/
def sample (L : List Setting) (th : Fin 3 → ℝ) (sd : Fin L.length → ℝ) (i : Fin L.length) (ω : Fin L.length → Bool) : ℝ :=
  (design L *ᵥ th) i + if ω i then sd i else -sd i

theorem means_exist (L : List Setting) (th : Fin 3 → ℝ) (sd : Fin L.length → ℝ) :
    Means L (sample L th sd) th (fun i => sd i ^ 2) (signs L.length) := by
  let f : Fin L.length → Bool → ℝ := fun i b => (design L *ᵥ th) i + if b then sd i else -sd i
  have hf : ∀ i, MemLp (f i) 2 coin := fun i =>
    MemLp.of_bound Measurable.of_discrete.aestronglyMeasurable (|f i true| + |f i false|) (Filter.Eventually.of_forall fun b => by
      rw [Real.norm_eq_abs]
      cases b
      · linarith [abs_nonneg (f i true)]
      · linarith [abs_nonneg (f i false)])
  have hp : ∀ i, MeasurePreserving (fun ω : Fin L.length → Bool => ω i) (signs L.length) coin := fun i =>
    measurePreserving_eval (fun _ : Fin L.length => coin) i
  have hm : ∀ i, ∫ b, f i b ∂coin = (design L *ᵥ th) i := fun i => by
    rw [coin_integral]
    simp only [f, Bool.false_eq_true, if_true, if_false]
    ring
  have hl : ∀ i, MemLp (sample L th sd i) 2 (signs L.length) := fun i => (hf i).comp_measurePreserving (hp i)
  refine ⟨hl, fun i j hij => ?_, fun i => ?_, fun i => ?_⟩
  · refine IndepFun.covariance_eq_zero ?_ (hl i) (hl j)
    exact (iIndepFun_pi (μ := fun _ : Fin L.length => coin) (X := f) fun _ => Measurable.of_discrete.aemeasurable).indepFun hij
  · rw [← design_mulVec, ← hm i]
    have := integral_map (hp i).measurable.aemeasurable (f := f i) (μ := signs L.length) Measurable.of_discrete.aestronglyMeasurable
    rw [(hp i).map_eq] at this
    exact this.symm
  · refine ((hp i).variance_fun_comp (f := f i) Measurable.of_discrete.aemeasurable).trans ?_
    rw [variance_eq_sub (hf i), hm, coin_integral]
    simp only [f, Pi.pow_apply, Bool.false_eq_true, if_true, if_false]
    ring

/-! ## Four sub-stacks -/

/-- Gains 1 and 2, times 0 and 1. -/
def four : List Setting := [⟨1, 0, 1⟩, ⟨1, 1, 1⟩, ⟨2, 0, 1⟩, ⟨2, 1, 1⟩]

theorem four_check : checkStacks four = .ok () := by
  unfold checkStacks four
  norm_num [List.dedup_cons_of_notMem, List.dedup_cons_of_mem]

theorem four_identifiable : Identifiable four := by
  intro a b c h
  have h1 := h ⟨1, 0, 1⟩ (by simp [four])
  have h2 := h ⟨1, 1, 1⟩ (by simp [four])
  have h3 := h ⟨2, 0, 1⟩ (by simp [four])
  norm_num at h1 h2 h3
  refine ⟨by linarith, by linarith, by linarith⟩

theorem four_design : design four = !![1, 1, 0; 1, 1, 1; 1, 2, 0; 1, 2, 2] := by
  ext i j
  fin_cases i <;> fin_cases j <;> simp [design, four]

theorem four_gram : (design four)ᵀ * design four = !![4, 6, 3; 6, 10, 5; 3, 5, 5] := by
  ext i j
  rw [Matrix.mul_apply]
  change ∑ k : Fin 4, design four k i * design four k j = _
  rw [Fin.sum_univ_four, four_design]
  fin_cases i <;> fin_cases j <;> simp <;> norm_num

theorem four_cov : covMatrix four = !![5 / 2, -3 / 2, 0; -3 / 2, 11 / 10, -1 / 5; 0, -1 / 5, 2 / 5] := by
  unfold covMatrix
  apply Matrix.inv_eq_left_inv
  rw [four_gram]
  ext i j
  fin_cases i <;> fin_cases j <;> simp [Matrix.mul_apply, Fin.sum_univ_three] <;> norm_num

theorem four_design_apply (k : Fin 4) (j : Fin 3) : design four k j = ![![1, 1, 0], ![1, 1, 1], ![1, 2, 0], ![1, 2, 2]] k j := by
  rw [four_design]
  rfl

theorem pinv_apply (L : List Setting) (j : Fin 3) (i : Fin L.length) :
    pinv L j i = covMatrix L j 0 * design L i 0 + covMatrix L j 1 * design L i 1 + covMatrix L j 2 * design L i 2 := by
  unfold pinv
  rw [Matrix.mul_apply, Fin.sum_univ_three]
  rfl

theorem resid_apply (L : List Setting) (i : Fin L.length) :
    resid L i i = 1 - (design L i 0 * pinv L 0 i + design L i 1 * pinv L 1 i + design L i 2 * pinv L 2 i) := by
  unfold resid
  rw [Matrix.sub_apply, Matrix.one_apply_eq, Matrix.mul_apply, Fin.sum_univ_three]

theorem four_pinv (j : Fin 3) (k : Fin 4) :
    pinv four j k = ![![1, 1, -1 / 2, -1 / 2], ![-2 / 5, -3 / 5, 7 / 10, 3 / 10], ![-1 / 5, 1 / 5, -2 / 5, 2 / 5]] j k := by
  refine (pinv_apply four j k).trans ?_
  simp only [four_design_apply, four_cov]
  fin_cases j <;> fin_cases k <;> simp <;> norm_num

theorem four_resid (k : Fin 4) : resid four k k = ![2 / 5, 2 / 5, 1 / 10, 1 / 10] k := by
  refine (resid_apply four k).trans ?_
  simp only [four_pinv, four_design_apply]
  fin_cases k <;> simp <;> norm_num

/-- **C169, violated.** Four sub-stacks with any variances: the error of the dark current is right on average only if the sub-stacks of gain 1
are as noisy as those of gain 2. -/
theorem C169_violated_unequal [IsProbabilityMeasure μ] {Y : Fin four.length → Ω → ℝ} {v : Fin four.length → ℝ} (hY : Means four Y th v μ) :
    μ[fun ω => stdMap four 2 (fun i => Y i ω) ^ 2] = Var[fun ω => params four (fun i => Y i ω) 2; μ] ↔
      v (0 : Fin 4) + v (1 : Fin 4) = v (2 : Fin 4) + v (3 : Fin 4) := by
  rw [C169_std_iff four_identifiable (by simp [four]) hY]
  have e1 : ∑ k, resid four k k * v k = 2 / 5 * v (0 : Fin 4) + 2 / 5 * v (1 : Fin 4) + 1 / 10 * v (2 : Fin 4) + 1 / 10 * v (3 : Fin 4) := by
    change ∑ k : Fin 4, resid four k k * v k = _
    simp only [Fin.sum_univ_four, four_resid]
    simp
  have e2 : ∑ k, pinv four 2 k ^ 2 * v k = 1 / 25 * v (0 : Fin 4) + 1 / 25 * v (1 : Fin 4) + 4 / 25 * v (2 : Fin 4) + 4 / 25 * v (3 : Fin 4) := by
    change ∑ k : Fin 4, pinv four 2 k ^ 2 * v k = _
    simp only [Fin.sum_univ_four, four_pinv]
    simp
    ring
  have e3 : (four.length : ℝ) - 3 = 1 := by
    simp [four]
    norm_num
  rw [e1, e2, e3, four_cov]
  simp
  constructor <;> intro h <;> linarith

/-- Noise in proportion to the gain: the variance of the dark current is 34/25, the expected square of its error 16/25. -/
example : ∃ (Y : Fin four.length → (Fin four.length → Bool) → ℝ) (v : Fin four.length → ℝ), Means four Y ![1, 1, 1] v (signs four.length) ∧
    v (0 : Fin 4) + v (1 : Fin 4) ≠ v (2 : Fin 4) + v (3 : Fin 4) :=
  ⟨_, _, means_exist four ![1, 1, 1] ![1, 1, 2, 2], by
    change ![(1 : ℝ), 1, 2, 2] 0 ^ 2 + ![(1 : ℝ), 1, 2, 2] 1 ^ 2 ≠ ![(1 : ℝ), 1, 2, 2] 2 ^ 2 + ![(1 : ℝ), 1, 2, 2] 3 ^ 2
    simp
    norm_num⟩

/-- Four sub-stacks of equal variance, the dark of gain 1 and no exposure time: the squared error is six times the variance. -/
example {s : ℝ} {Y : Fin four.length → Ω → ℝ} [IsProbabilityMeasure μ] (hY : Means four Y th (fun _ => s ^ 2) μ) {ef ec ed : ℝ}
    (hf : ef ^ 2 = s ^ 2 * covMatrix four 0 0) (hc : ec ^ 2 = s ^ 2 * covMatrix four 1 1) (hd : ed ^ 2 = s ^ 2 * covMatrix four 2 2) :
    synthErr ef ec ed 1 0 ^ 2 = 6 * Var[fun ω => dark (params four fun i => Y i ω) 1 0; μ] := by
  unfold synthErr
  rw [Real.sq_sqrt (by positivity), C169_dark four_identifiable hY, hf, hc, hd, four_cov]
  simp
  ring

end Corgi.ProbMaps

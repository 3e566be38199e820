import Mathlib.Probability.Moments.Variance
import Mathlib.Probability.Moments.Covariance
import Mathlib.Probability.Distributions.Poisson.Basic
import Mathlib.Algebra.Order.Chebyshev
import Mathlib.Data.List.OfFn
import Mathlib.Tactic.FieldSimp
import Verif.Kgain.Estimate
import Verif.Prob.Combined

/-!
# Is the k-gain the number of electrons per DN? (calibrate_kgain.py 123-125, 147-151, 541-558, 590-594, 645-647): C168

The pixels are random variables on a probability space. A pixel of a frame has a mean, in DN, and a variance; the noise of different pixels, and
of the same pixel in two frames, is uncorrelated. The statistics are those of the code: `np.nanmean` and `np.nanstd` with `ddof=0` of the
pixels of one bin, `np.std` with `ddof=1` of the prescan.

Not modelled: the choice of the bins, which depends on other frames (C104), the rounding of the counts to integers, and the clipping and mode
of the gains of all bins (C105).
-/

noncomputable section

namespace Corgi.ProbPtc

open MeasureTheory ProbabilityTheory
open Corgi.KgainEst hiding counts
open Corgi.Prob (coin coin_integral)

variable {Ω : Type*} {mΩ : MeasurableSpace Ω} {μ : Measure Ω} {m n : ℕ}

/-! ## Model -/

/-- `np.nanmean(frame_in_flat[mean_idx])` (line 124) of one frame; `x i` is pixel `i` of the bin. -/
def localMean (x : Fin m → ℝ) : ℝ := mean (List.ofFn x)

/-- `np.nanstd(...)` of the difference of two frames, over `√2` (lines 125, 544-547). -/
def stdDiff (a b : Fin m → ℝ) : ℝ := std (List.ofFn fun i => a i - b i) / Real.sqrt 2

/-- `np.std(..., ddof=1)` (line 149). -/
def std1 (l : List ℝ) : ℝ := Real.sqrt ((l.map fun x => (x - mean l) ^ 2).sum / ((l.length : ℝ) - 1))

/-- `diff2std` (lines 147-151): the read noise from the prescan of the difference. -/
def rnStd (a b : Fin n → ℝ) : ℝ := std1 (List.ofFn fun i => a i - b i) / Real.sqrt 2

/-- What is under the root in lines 554-558, before the absolute value of line 567. -/
def shotSq (s r : ℝ) : ℝ := s ^ 2 - r ^ 2

/-- One signal bin (lines 590-594, 647): the mean of the averages over the square of the mean of the deviations. -/
def binGain (avgs devs : List ℝ) : ℝ := kgain (mean avgs) (mean devs)

/-! ## Spec -/

/-- Spread of numbers about their mean. -/
def spread (x : Fin m → ℝ) : ℝ := (∑ i, (x i - (∑ j, x j) / m) ^ 2) / m

/-- A frame: in each pixel, finite variance; different pixels are uncorrelated. -/
structure Frame (X : Fin m → Ω → ℝ) (μ : Measure Ω) : Prop where
  lp : ∀ i, MemLp (X i) 2 μ
  pixels : ∀ i j, i ≠ j → cov[X i, X j; μ] = 0

/-- The noise of two frames is uncorrelated. -/
def Uncorrelated (A B : Fin m → Ω → ℝ) (μ : Measure Ω) : Prop := ∀ i j, cov[A i, B j; μ] = 0

/-- Pixel `i` has `lam i` electrons on average, in DN after division by `K`, with the variance of shot noise and of read noise `r`. -/
structure Photons (X : Fin m → Ω → ℝ) (lam : Fin m → ℝ) (K r : ℝ) (μ : Measure Ω) : Prop extends Frame X μ where
  mean_eq : ∀ i, μ[X i] = lam i / K
  var_eq : ∀ i, Var[X i; μ] = lam i / K ^ 2 + r ^ 2

/-- Average of numbers. -/
def avg (x : Fin m → ℝ) : ℝ := (∑ i, x i) / m

/-! ## Expected squares -/

theorem mean_ofFn (x : Fin m → ℝ) : mean (List.ofFn x) = avg x := by
  unfold mean avg
  rw [List.sum_ofFn, List.length_ofFn]

theorem sum_sq_ofFn (x : Fin m → ℝ) :
    ((List.ofFn x).map fun y => (y - mean (List.ofFn x)) ^ 2).sum = ∑ i, (x i - avg x) ^ 2 := by
  rw [mean_ofFn, List.map_ofFn, List.sum_ofFn]
  rfl

theorem sum_sq_eq (hm : m ≠ 0) (x : Fin m → ℝ) : ∑ i, (x i - avg x) ^ 2 = ∑ i, x i ^ 2 - (∑ i, x i) ^ 2 / m := by
  have h : (m : ℝ) ≠ 0 := by exact_mod_cast hm
  have : ∀ i, (x i - avg x) ^ 2 = x i ^ 2 - 2 * avg x * x i + avg x ^ 2 := fun i => by ring
  simp only [this, Finset.sum_add_distrib, Finset.sum_sub_distrib, ← Finset.mul_sum, Finset.sum_const, Finset.card_univ,
    Fintype.card_fin, nsmul_eq_mul]
  unfold avg
  field_simp
  ring

theorem stdDiff_sq (a b : Fin m → ℝ) : stdDiff a b ^ 2 = spread (fun i => a i - b i) / 2 := by
  unfold stdDiff spread std
  rw [div_pow, Real.sq_sqrt zero_le_two, sum_sq_ofFn, Real.sq_sqrt (by positivity), List.length_ofFn]
  rfl

theorem rnStd_sq (hn : 2 ≤ n) (a b : Fin n → ℝ) :
    rnStd a b ^ 2 = spread (fun i => a i - b i) * (n / (n - 1)) / 2 := by
  have h2 : (2 : ℝ) ≤ n := by exact_mod_cast hn
  have h1 : (0 : ℝ) < (n : ℝ) - 1 := by linarith
  have h0 : (n : ℝ) ≠ 0 := by linarith
  unfold rnStd std1 spread
  rw [div_pow, Real.sq_sqrt zero_le_two, sum_sq_ofFn, List.length_ofFn,
    Real.sq_sqrt (div_nonneg (Finset.sum_nonneg fun i _ => sq_nonneg _) h1.le)]
  change (∑ i, (a i - b i - avg fun j => a j - b j) ^ 2) / ((n : ℝ) - 1) / 2 =
    (∑ i, (a i - b i - avg fun j => a j - b j) ^ 2) / n * (n / (n - 1)) / 2
  field_simp

theorem integrable_spread [IsProbabilityMeasure μ] {X : Fin m → Ω → ℝ} (hX : Frame X μ) (hm : m ≠ 0) :
    Integrable (fun ω => spread fun i => X i ω) μ := by
  have hS : MemLp (fun ω => ∑ i, X i ω) 2 μ := memLp_finsetSum _ fun i _ => hX.lp i
  have e : ∀ x : Fin m → ℝ, spread x = (∑ i, x i ^ 2 - (∑ i, x i) ^ 2 / m) / m := fun x => by
    rw [← sum_sq_eq hm x]
    rfl
  simp only [e]
  exact ((integrable_finsetSum _ fun i _ => (hX.lp i).integrable_sq).sub (hS.integrable_sq.div_const _)).div_const _

/-- The expected spread of a frame: its noise, less one part in `m`, and the spread of its means. -/
theorem expected_spread [IsProbabilityMeasure μ] {X : Fin m → Ω → ℝ} (hX : Frame X μ) (hm : m ≠ 0) :
    μ[fun ω => spread fun i => X i ω] = (1 - 1 / m) * avg (fun i => Var[X i; μ]) + spread fun i => μ[X i] := by
  have h : (m : ℝ) ≠ 0 := by exact_mod_cast hm
  have hS : MemLp (fun ω => ∑ i, X i ω) 2 μ := memLp_finsetSum _ fun i _ => hX.lp i
  have e : ∀ x : Fin m → ℝ, spread x = (∑ i, x i ^ 2 - (∑ i, x i) ^ 2 / m) / m := fun x => by
    rw [← sum_sq_eq hm x]
    rfl
  have hvS : Var[fun ω => ∑ i, X i ω; μ] = ∑ i, Var[X i; μ] := by
    rw [variance_fun_sum' fun i _ => hX.lp i]
    refine Finset.sum_congr rfl fun i _ => ?_
    rw [Finset.sum_eq_single_of_mem i (Finset.mem_univ _) fun j _ hj => hX.pixels i j hj.symm,
      covariance_self (hX.lp i).aestronglyMeasurable.aemeasurable]
  have hsq : ∀ i, μ[fun ω => X i ω ^ 2] = Var[X i; μ] + μ[X i] ^ 2 := fun i => by
    have := variance_eq_sub (hX.lp i)
    simp only [Pi.pow_apply] at this
    linarith
  have hSq : μ[fun ω => (∑ i, X i ω) ^ 2] = ∑ i, Var[X i; μ] + (∑ i, μ[X i]) ^ 2 := by
    have h1 := variance_eq_sub hS
    simp only [Pi.pow_apply] at h1
    rw [integral_finsetSum _ fun i _ => (hX.lp i).integrable (by norm_num), hvS] at h1
    linarith
  simp only [e]
  rw [integral_div, integral_sub (integrable_finsetSum _ fun i _ => (hX.lp i).integrable_sq) (hS.integrable_sq.div_const _),
    integral_div, integral_finsetSum _ fun i _ => (hX.lp i).integrable_sq, hSq]
  simp only [hsq, Finset.sum_add_distrib]
  unfold avg
  field_simp
  ring

theorem frame_sub [IsProbabilityMeasure μ] {A B : Fin m → Ω → ℝ} (hA : Frame A μ) (hB : Frame B μ) (hAB : Uncorrelated A B μ) :
    Frame (fun i ω => A i ω - B i ω) μ := by
  refine ⟨fun i => (hA.lp i).sub (hB.lp i), fun i j hij => ?_⟩
  have hj : MemLp (fun ω => A j ω - B j ω) 2 μ := (hA.lp j).sub (hB.lp j)
  rw [covariance_fun_sub_left (hA.lp i) (hB.lp i) hj, covariance_fun_sub_right (hA.lp i) (hA.lp j) (hB.lp j),
    covariance_fun_sub_right (hB.lp i) (hA.lp j) (hB.lp j), hA.pixels i j hij, hB.pixels i j hij, hAB i j, covariance_comm, hAB j i]
  ring

theorem variance_difference [IsProbabilityMeasure μ] {A B : Fin m → Ω → ℝ} (hA : Frame A μ) (hB : Frame B μ) (hAB : Uncorrelated A B μ)
    (i : Fin m) : Var[fun ω => A i ω - B i ω; μ] = Var[A i; μ] + Var[B i; μ] := by
  rw [variance_fun_sub (hA.lp i) (hB.lp i), hAB i i]
  ring

/-- **C168.** Two frames, any means: half of the noise of both, less one part in `m`, and half of the spread of the differences of means. -/
theorem C168_difference [IsProbabilityMeasure μ] {A B : Fin m → Ω → ℝ} (hA : Frame A μ) (hB : Frame B μ) (hAB : Uncorrelated A B μ)
    (hm : m ≠ 0) :
    μ[fun ω => stdDiff (fun i => A i ω) (fun i => B i ω) ^ 2] =
      (1 - 1 / m) * ((avg (fun i => Var[A i; μ]) + avg (fun i => Var[B i; μ])) / 2) + spread (fun i => μ[A i] - μ[B i]) / 2 := by
  simp only [stdDiff_sq]
  rw [integral_div, expected_spread (frame_sub hA hB hAB) hm]
  have h1 : ∀ i, ∫ ω, A i ω - B i ω ∂μ = μ[A i] - μ[B i] := fun i =>
    integral_sub ((hA.lp i).integrable (by norm_num)) ((hB.lp i).integrable (by norm_num))
  simp only [h1, variance_difference hA hB hAB]
  unfold avg
  rw [Finset.sum_add_distrib]
  ring

theorem spread_zero : spread (fun _ : Fin m => (0 : ℝ)) = 0 := by simp [spread]

/-- **C168.** The local mean is right on average: the mean number of electrons of the pixels of the bin, over `K`. -/
theorem C168_mean [IsProbabilityMeasure μ] {A : Fin m → Ω → ℝ} {lam : Fin m → ℝ} {K r : ℝ} (hA : Photons A lam K r μ) :
    μ[fun ω => localMean fun i => A i ω] = avg lam / K := by
  simp only [localMean, mean_ofFn]
  unfold avg
  rw [integral_div, integral_finsetSum _ fun i _ => (hA.lp i).integrable (by norm_num)]
  simp only [hA.mean_eq]
  rw [← Finset.sum_div]
  ring

/-- **C168.** The pattern of the illumination cancels: the expected square of the noise of two frames of the same scene does not contain the
spread of the pixels, however different they are. -/
theorem C168_noise [IsProbabilityMeasure μ] {A B : Fin m → Ω → ℝ} {lam : Fin m → ℝ} {K r : ℝ} (hA : Photons A lam K r μ)
    (hB : Photons B lam K r μ) (hAB : Uncorrelated A B μ) (hm : m ≠ 0) :
    μ[fun ω => stdDiff (fun i => A i ω) (fun i => B i ω) ^ 2] = (1 - 1 / m) * (avg lam / K ^ 2 + r ^ 2) := by
  have h : (m : ℝ) ≠ 0 := by exact_mod_cast hm
  rw [C168_difference hA.toFrame hB.toFrame hAB hm]
  simp only [hA.mean_eq, hB.mean_eq, hA.var_eq, hB.var_eq, sub_self, spread_zero]
  unfold avg
  rw [Finset.sum_add_distrib, ← Finset.sum_div, Finset.sum_const, Finset.card_univ, Fintype.card_fin, nsmul_eq_mul]
  field_simp
  ring

/-- **C168.** One frame alone would contain it. -/
theorem C168_single [IsProbabilityMeasure μ] {A : Fin m → Ω → ℝ} {lam : Fin m → ℝ} {K r : ℝ} (hA : Photons A lam K r μ) (hm : m ≠ 0) :
    μ[fun ω => std (List.ofFn fun i => A i ω) ^ 2] = (1 - 1 / m) * (avg lam / K ^ 2 + r ^ 2) + spread lam / K ^ 2 := by
  have h : (m : ℝ) ≠ 0 := by exact_mod_cast hm
  have e : ∀ x : Fin m → ℝ, std (List.ofFn x) ^ 2 = spread x := fun x => by
    unfold std spread
    rw [sum_sq_ofFn, Real.sq_sqrt (by positivity), List.length_ofFn]
    rfl
  simp only [e]
  rw [expected_spread hA.toFrame hm]
  simp only [hA.mean_eq, hA.var_eq]
  have h1 : spread (fun i => lam i / K) = spread lam / K ^ 2 := by
    unfold spread
    have : ∀ i, (lam i / K - (∑ j, lam j / K) / m) ^ 2 = (lam i - (∑ j, lam j) / m) ^ 2 / K ^ 2 := fun i => by
      rw [← Finset.sum_div, ← div_pow]
      ring
    simp only [this]
    rw [← Finset.sum_div]
    ring
  rw [h1]
  unfold avg
  rw [Finset.sum_add_distrib, ← Finset.sum_div, Finset.sum_const, Finset.card_univ, Fintype.card_fin, nsmul_eq_mul]
  field_simp

/-- **C168.** The read noise of the prescan is right on average. -/
theorem C168_read_noise [IsProbabilityMeasure μ] {A B : Fin n → Ω → ℝ} {r : ℝ} (hA : Photons A (fun _ => 0) 1 r μ)
    (hB : Photons B (fun _ => 0) 1 r μ) (hAB : Uncorrelated A B μ) (hn : 2 ≤ n) :
    μ[fun ω => rnStd (fun i => A i ω) (fun i => B i ω) ^ 2] = r ^ 2 := by
  have h2 : (2 : ℝ) ≤ n := by exact_mod_cast hn
  have h1 : (n : ℝ) - 1 ≠ 0 := by linarith
  have h0 : (n : ℝ) ≠ 0 := by linarith
  have h := C168_noise hA hB hAB (by omega)
  simp only [stdDiff_sq] at h
  simp only [rnStd_sq hn]
  have e : ∀ ω, spread (fun i => A i ω - B i ω) * ((n : ℝ) / (n - 1)) / 2 = (n : ℝ) / (n - 1) * (spread (fun i => A i ω - B i ω) / 2) :=
    fun ω => by ring
  simp only [e]
  rw [integral_const_mul, h]
  unfold avg
  simp only [Finset.sum_const_zero, zero_div, zero_add]
  field_simp

/-! ## The gain -/

/-- Mean and variance of a pixel of the mean and the deviation of one bin, as line 647 takes them. -/
def ratio (mean noiseSq rnSq : ℝ) : ℝ := mean / (noiseSq - rnSq)

/-- **C168, violated.** The noise is taken with `ddof=0` and the read noise with `ddof=1`: on average the shot variance is too small, by one
part in `m` of all the noise in the bin. -/
theorem C168_violated_shot [IsProbabilityMeasure μ] {A B : Fin m → Ω → ℝ} {P Q : Fin n → Ω → ℝ} {lam : Fin m → ℝ} {K r : ℝ}
    (hA : Photons A lam K r μ) (hB : Photons B lam K r μ) (hAB : Uncorrelated A B μ) (hP : Photons P (fun _ => 0) 1 r μ)
    (hQ : Photons Q (fun _ => 0) 1 r μ) (hPQ : Uncorrelated P Q μ) (hm : m ≠ 0) (hn : 2 ≤ n) :
    μ[fun ω => shotSq (stdDiff (fun i => A i ω) (fun i => B i ω)) (rnStd (fun i => P i ω) (fun i => Q i ω))] =
      avg lam / K ^ 2 - (avg lam / K ^ 2 + r ^ 2) / m := by
  have hi : Integrable (fun ω => stdDiff (fun i => A i ω) (fun i => B i ω) ^ 2) μ := by
    simp only [stdDiff_sq]
    exact (integrable_spread (frame_sub hA.toFrame hB.toFrame hAB) hm).div_const _
  have hi' : Integrable (fun ω => rnStd (fun i => P i ω) (fun i => Q i ω) ^ 2) μ := by
    simp only [rnStd_sq hn]
    exact ((integrable_spread (frame_sub hP.toFrame hQ.toFrame hPQ) (by omega)).mul_const _).div_const _
  unfold shotSq
  rw [integral_sub hi hi', C168_noise hA hB hAB hm, C168_read_noise hP hQ hPQ hn]
  ring

/-- **C168, violated.** So the gain from the expected values is too large: `K` only in the limit of many pixels. -/
theorem C168_violated_gain {L K r : ℝ} (hL : 0 < L) (hK : 0 < K) (hm : m ≠ 0) (h : K ^ 2 * r ^ 2 < (m - 1) * L) :
    ratio (L / K) ((1 - 1 / m) * (L / K ^ 2 + r ^ 2)) (r ^ 2) = K * (m * L / ((m - 1) * L - K ^ 2 * r ^ 2)) ∧
    K < ratio (L / K) ((1 - 1 / m) * (L / K ^ 2 + r ^ 2)) (r ^ 2) := by
  have hm0 : (0 : ℝ) < m := by exact_mod_cast Nat.pos_of_ne_zero hm
  have hd : 0 < (m - 1) * L - K ^ 2 * r ^ 2 := by linarith
  have e : ratio (L / K) ((1 - 1 / m) * (L / K ^ 2 + r ^ 2)) (r ^ 2) = K * (m * L / ((m - 1) * L - K ^ 2 * r ^ 2)) := by
    unfold ratio
    have : (1 - 1 / (m : ℝ)) * (L / K ^ 2 + r ^ 2) - r ^ 2 = ((m - 1) * L - K ^ 2 * r ^ 2) / (m * K ^ 2) := by
      field_simp
      ring
    rw [this]
    field_simp
  refine ⟨e, ?_⟩
  rw [e]
  have : 1 < m * L / ((m - 1) * L - K ^ 2 * r ^ 2) := by
    rw [one_lt_div hd]
    nlinarith [mul_nonneg (sq_nonneg K) (sq_nonneg r)]
  nlinarith

open Filter Topology in
theorem C168_many {L K r : ℝ} (hL : 0 < L) (hK : 0 < K) :
    Tendsto (fun m : ℕ => ratio (L / K) ((1 - 1 / (m : ℝ)) * (L / K ^ 2 + r ^ 2)) (r ^ 2)) atTop (𝓝 K) := by
  have h1 : Tendsto (fun m : ℕ => 1 / (m : ℝ)) atTop (𝓝 0) := tendsto_one_div_atTop_nhds_zero_nat
  have h2 : Tendsto (fun m : ℕ => (1 - 1 / (m : ℝ)) * (L / K ^ 2 + r ^ 2) - r ^ 2) atTop (𝓝 ((1 - 0) * (L / K ^ 2 + r ^ 2) - r ^ 2)) :=
    ((tendsto_const_nhds.sub h1).mul_const _).sub_const _
  have h3 : (1 - 0) * (L / K ^ 2 + r ^ 2) - r ^ 2 = L / K ^ 2 := by ring
  rw [h3] at h2
  have h4 := (tendsto_const_nhds (x := L / K)).div h2 (by positivity)
  have h5 : L / K / (L / K ^ 2) = K := by field_simp
  rw [h5] at h4
  exact h4

/-- **C168, violated.** A bin of one pixel has no deviation: its gain is the mean over the square of the read noise, whatever `K` is. -/
theorem C168_violated_one (a b : Fin 1 → ℝ) (r avg : ℝ) (h : 0 < avg) (hr : 0 < r) :
    stdDiff a b = 0 ∧ kgain avg (shot (stdDiff a b) r) = avg / r ^ 2 := by
  have h0 : stdDiff a b = 0 := by
    have := stdDiff_sq a b
    unfold spread at this
    simpa using this
  refine ⟨h0, ?_⟩
  have hs : shot 0 r = r := by
    unfold shot
    rw [show (0 : ℝ) ^ 2 - r ^ 2 = -r ^ 2 by ring, abs_neg, abs_of_pos (by positivity), Real.sqrt_sq hr.le]
  rw [h0, hs]
  unfold kgain
  rw [Real.rpow_logb (by norm_num) (by norm_num) h, Real.rpow_logb (by norm_num) (by norm_num) hr]

theorem spread_smul (c : ℝ) (x : Fin m → ℝ) : spread (fun i => c * x i) = c ^ 2 * spread x := by
  unfold spread
  have : ∀ i, (c * x i - (∑ j, c * x j) / m) ^ 2 = c ^ 2 * (x i - (∑ j, x j) / m) ^ 2 := fun i => by
    rw [← Finset.mul_sum]
    ring
  simp only [this]
  rw [← Finset.mul_sum]
  ring

/-- **C168, violated.** If the lamp drifts between the two frames the pattern does not cancel: the noise contains its spread. -/
theorem C168_violated_drift [IsProbabilityMeasure μ] {A B : Fin m → Ω → ℝ} {lam : Fin m → ℝ} {K r c : ℝ} (hA : Photons A lam K r μ)
    (hB : Photons B (fun i => (1 + c) * lam i) K r μ) (hAB : Uncorrelated A B μ) (hm : m ≠ 0) :
    μ[fun ω => stdDiff (fun i => A i ω) (fun i => B i ω) ^ 2] =
      (1 - 1 / m) * ((1 + c / 2) * avg lam / K ^ 2 + r ^ 2) + c ^ 2 * spread lam / (2 * K ^ 2) := by
  have h : (m : ℝ) ≠ 0 := by exact_mod_cast hm
  rw [C168_difference hA.toFrame hB.toFrame hAB hm]
  simp only [hA.mean_eq, hB.mean_eq, hA.var_eq, hB.var_eq]
  have e : (fun i => lam i / K - (1 + c) * lam i / K) = fun i => (-c / K) * lam i := by
    funext i
    ring
  rw [e, spread_smul]
  unfold avg
  rw [Finset.sum_add_distrib, Finset.sum_add_distrib, ← Finset.sum_div, ← Finset.sum_div, ← Finset.mul_sum, Finset.sum_const,
    Finset.card_univ, Fintype.card_fin, nsmul_eq_mul]
  field_simp
  ring

/-- **C168, violated.** Frames with EM gain `g` are accepted (lines 867-870): the mean is `g` times as large, the variance of the shot noise
`F2 g²` times, with the excess noise `F2`. In mean and variance they are frames of another gain, `K / (F2 g)`, and so all of the above gives that
gain. Frames divided by the EM gain give `K / F2`. -/
theorem C168_violated_em_gain {X : Fin m → Ω → ℝ} {lam : Fin m → ℝ} {K r g F2 : ℝ} (hK : K ≠ 0) (hg : g ≠ 0) (hF : F2 ≠ 0)
    (hX : Frame X μ) (hmean : ∀ i, μ[X i] = g * lam i / K) (hvar : ∀ i, Var[X i; μ] = F2 * g ^ 2 * lam i / K ^ 2 + r ^ 2) :
    Photons X (fun i => lam i / F2) (K / (F2 * g)) r μ := by
  refine ⟨hX, fun i => ?_, fun i => ?_⟩
  · rw [hmean]
    field_simp
  · rw [hvar]
    field_simp

/-! ## The mean of deviations -/

theorem mean_sq (l : List ℝ) (hl : l ≠ []) : mean (l.map fun x => x ^ 2) = mean l ^ 2 + std l ^ 2 := by
  have hn : (0 : ℝ) < l.length := by exact_mod_cast List.length_pos_iff.2 hl
  have h := std_sq l hl
  have e : ∀ (c : ℝ) (l : List ℝ), (l.map fun x => (x - c) ^ 2).sum = (l.map fun x => x ^ 2).sum - 2 * c * l.sum + l.length * c ^ 2 := by
    intro c l
    induction l with
    | nil => simp
    | cons x xs ih =>
      simp only [List.map_cons, List.sum_cons, List.length_cons, Nat.cast_add, Nat.cast_one]
      rw [ih]
      ring
  rw [e] at h
  have hs : l.sum = l.length * mean l := by
    unfold mean
    field_simp
  have : mean (l.map fun x => x ^ 2) = (l.map fun x => x ^ 2).sum / l.length := by
    unfold mean
    rw [List.length_map]
  rw [this, div_eq_iff hn.ne']
  rw [hs] at h
  linarith

theorem std_zero_iff (l : List ℝ) (hl : l ≠ []) : std l = 0 ↔ ∀ x ∈ l, x = mean l := by
  have hn : (0 : ℝ) < l.length := by exact_mod_cast List.length_pos_iff.2 hl
  have h := std_sq l hl
  constructor
  · intro h0 x hx
    rw [h0] at h
    have hx0 : (x - mean l) ^ 2 ≤ 0 := by
      have := List.single_le_sum (l := l.map fun x => (x - mean l) ^ 2)
        (fun y hy => by obtain ⟨z, _, rfl⟩ := List.mem_map.1 hy; positivity) _ (List.mem_map.2 ⟨x, hx, rfl⟩)
      rw [h] at this
      simpa using this
    have : (x - mean l) ^ 2 = 0 := le_antisymm hx0 (sq_nonneg _)
    linarith [pow_eq_zero_iff (two_ne_zero) |>.1 this]
  · intro hall
    have : (l.map fun x => (x - mean l) ^ 2).sum = 0 := by
      apply List.sum_eq_zero
      intro y hy
      obtain ⟨x, hx, rfl⟩ := List.mem_map.1 hy
      rw [hall x hx]
      simp
    rw [this] at h
    have := (mul_eq_zero.1 h.symm).resolve_left hn.ne'
    exact pow_eq_zero_iff two_ne_zero |>.1 this

/-- **C168, violated.** The deviations, not the variances, are averaged in a signal bin: the gain is at least the mean over the mean variance,
and equal to it only if all deviations are equal. -/
theorem C168_violated_deviations (avgs devs : List ℝ) (hd : devs ≠ []) (ha : 0 < mean avgs) (hpos : ∀ x ∈ devs, 0 < x) :
    mean avgs / mean (devs.map fun x => x ^ 2) ≤ binGain avgs devs ∧
    (binGain avgs devs = mean avgs / mean (devs.map fun x => x ^ 2) ↔ ∀ x ∈ devs, x = mean devs) := by
  have hn : (0 : ℝ) < devs.length := by exact_mod_cast List.length_pos_iff.2 hd
  have hm : 0 < mean devs := div_pos (List.sum_pos _ hpos hd) hn
  have e : binGain avgs devs = mean avgs / mean devs ^ 2 := by
    unfold binGain kgain
    rw [Real.rpow_logb (by norm_num) (by norm_num) ha, Real.rpow_logb (by norm_num) (by norm_num) hm]
  rw [e, mean_sq devs hd, ← std_zero_iff devs hd]
  have h2 : 0 < mean devs ^ 2 := by positivity
  have h3 : 0 < mean devs ^ 2 + std devs ^ 2 := by positivity
  constructor
  · apply div_le_div_of_nonneg_left ha.le h2
    nlinarith [sq_nonneg (std devs)]
  · rw [div_eq_div_iff h2.ne' h3.ne', mul_right_inj' ha.ne', add_eq_left, pow_eq_zero_iff two_ne_zero]

/-- Two deviations of 1 and 3 about the same mean: the variances give a gain of `mean / 5`, the code `mean / 4`. -/
example : binGain [10, 10] [1, 3] = 10 / 4 ∧ mean [10, 10] / mean ([1, 3].map fun x : ℝ => x ^ 2) = 10 / 5 := by
  have e : ∀ a b : ℝ, mean [a, b] = (a + b) / 2 := fun a b => by simp [mean]
  refine ⟨?_, by simp only [List.map_cons, List.map_nil, e]; norm_num⟩
  unfold binGain kgain
  rw [e, e, Real.rpow_logb (by norm_num) (by norm_num) (by norm_num), Real.rpow_logb (by norm_num) (by norm_num) (by norm_num)]
  norm_num

/-! ## Such frames exist: Poisson electrons and read noise of one sign or the other -/

section Poisson

open scoped NNReal

/-- Weight of `k` electrons. -/
def w (a : ℝ≥0) (k : ℕ) : ℝ := Real.exp (-a) * a ^ k / k.factorial

theorem w_succ (a : ℝ≥0) (k : ℕ) : w a (k + 1) * ((k : ℝ) + 1) = a * w a k := by
  unfold w
  rw [Nat.factorial_succ]
  push_cast
  have : (k.factorial : ℝ) ≠ 0 := by exact_mod_cast k.factorial_ne_zero
  field_simp
  ring

theorem hasSum_w (a : ℝ≥0) : HasSum (w a) 1 := hasSum_one_poissonMeasure a

theorem hasSum_mean (a : ℝ≥0) : HasSum (fun k : ℕ => w a k * (k : ℝ)) a := by
  rw [← hasSum_nat_add_iff' 1]
  have h := (hasSum_w a).mul_left (a : ℝ)
  simp only [Finset.range_one, Finset.sum_singleton, Nat.cast_zero, mul_zero, sub_zero]
  rw [mul_one] at h
  have e : (fun k : ℕ => w a (k + 1) * ((k + 1 : ℕ) : ℝ)) = fun k => a * w a k := by
    funext k
    rw [← w_succ]
    push_cast
    rfl
  rw [e]
  exact h

theorem hasSum_sq (a : ℝ≥0) : HasSum (fun k : ℕ => w a k * (k : ℝ) ^ 2) ((a : ℝ) ^ 2 + a) := by
  rw [← hasSum_nat_add_iff' 1]
  have h := ((hasSum_mean a).add (hasSum_w a)).mul_left (a : ℝ)
  simp only [Finset.range_one, Finset.sum_singleton, Nat.cast_zero, ne_eq, OfNat.ofNat_ne_zero, not_false_eq_true, zero_pow, mul_zero,
    sub_zero]
  have e : (fun k : ℕ => w a (k + 1) * ((k + 1 : ℕ) : ℝ) ^ 2) = fun k => a * (w a k * k + w a k) := by
    funext k
    push_cast
    linear_combination ((k : ℝ) + 1) * w_succ a k
  rw [e]
  have e2 : (a : ℝ) ^ 2 + a = a * (a + 1) := by ring
  rw [e2]
  exact h

theorem poisson_memLp (a : ℝ≥0) : MemLp (fun k : ℕ => (k : ℝ)) 2 (poissonMeasure a) := by
  rw [memLp_two_iff_integrable_sq (Measurable.of_discrete).aestronglyMeasurable, integrable_poissonMeasure_iff]
  refine (hasSum_sq a).summable.congr fun k => ?_
  unfold w
  rw [Real.norm_of_nonneg (by positivity)]

theorem poisson_mean (a : ℝ≥0) : ∫ k, (k : ℝ) ∂poissonMeasure a = a := by
  rw [integral_poissonMeasure]
  exact (hasSum_mean a).tsum_eq

theorem poisson_variance (a : ℝ≥0) : Var[fun k : ℕ => (k : ℝ); poissonMeasure a] = a := by
  rw [variance_eq_sub (poisson_memLp a), poisson_mean, integral_poissonMeasure]
  have := (hasSum_sq a).tsum_eq
  unfold w at this
  simp only [Pi.pow_apply, smul_eq_mul]
  rw [this]
  ring

/-- One pixel: electrons and the sign of the read noise. -/
abbrev Pixel := ℕ × Bool

def pixelMeasure (a : ℝ≥0) : Measure Pixel := (poissonMeasure a).prod coin

instance (a : ℝ≥0) : IsProbabilityMeasure (pixelMeasure a) := by
  unfold pixelMeasure
  infer_instance

/-- Counts in DN. -/
def counts (K r : ℝ) (p : Pixel) : ℝ := (p.1 : ℝ) / K + if p.2 then r else -r

theorem sign_memLp (r : ℝ) : MemLp (fun b : Bool => if b then r else -r) 2 coin := by
  refine MemLp.of_bound (by fun_prop) |r| (Filter.Eventually.of_forall fun b => ?_)
  cases b <;> simp

theorem sign_mean (r : ℝ) : ∫ b, (if b then r else -r) ∂coin = 0 := by
  rw [coin_integral]
  simp

theorem sign_variance (r : ℝ) : Var[fun b : Bool => if b then r else -r; coin] = r ^ 2 := by
  rw [variance_eq_sub (sign_memLp r), sign_mean, coin_integral]
  simp

theorem counts_memLp (K r : ℝ) (a : ℝ≥0) : MemLp (counts K r) 2 (pixelMeasure a) := by
  have h1 : MemLp (fun k : ℕ => (k : ℝ) / K) 2 (poissonMeasure a) := by
    simpa only [div_eq_mul_inv] using (poisson_memLp a).mul_const _
  exact (h1.comp_fst coin).add ((sign_memLp r).comp_snd (poissonMeasure a))

theorem counts_mean (K r : ℝ) (a : ℝ≥0) : ∫ p, counts K r p ∂pixelMeasure a = a / K := by
  have h1 : MemLp (fun k : ℕ => (k : ℝ) / K) 2 (poissonMeasure a) := by
    simpa only [div_eq_mul_inv] using (poisson_memLp a).mul_const _
  unfold counts pixelMeasure
  rw [integral_add ((h1.comp_fst coin).integrable (by norm_num)) (((sign_memLp r).comp_snd (poissonMeasure a)).integrable (by norm_num)),
    integral_fun_fst (fun k : ℕ => (k : ℝ) / K), integral_fun_snd (fun b : Bool => if b then r else -r), integral_div, poisson_mean, sign_mean,
    probReal_univ]
  simp

theorem counts_variance (K r : ℝ) (a : ℝ≥0) : Var[counts K r; pixelMeasure a] = a / K ^ 2 + r ^ 2 := by
  have h1 : MemLp (fun k : ℕ => (k : ℝ) / K) 2 (poissonMeasure a) := by
    simpa only [div_eq_mul_inv] using (poisson_memLp a).mul_const _
  have h2 : Var[fun k : ℕ => (k : ℝ) / K; poissonMeasure a] = a / K ^ 2 := by
    have : (fun k : ℕ => (k : ℝ) / K) = fun k : ℕ => K⁻¹ * (k : ℝ) := by
      funext k
      ring
    rw [this, variance_const_mul, poisson_variance]
    ring
  have := variance_add_prod h1 (sign_memLp r)
  rw [h2, sign_variance] at this
  exact this

/-- All pixels of two frames. -/
def framesMeasure (lam : Fin m → ℝ≥0) : Measure (Bool × Fin m → Pixel) := Measure.pi fun p => pixelMeasure (lam p.2)

instance (lam : Fin m → ℝ≥0) : IsProbabilityMeasure (framesMeasure lam) := by
  unfold framesMeasure
  infer_instance

/-- Frame `f`. -/
def frame (K r : ℝ) (f : Bool) (i : Fin m) (ω : Bool × Fin m → Pixel) : ℝ := counts K r (ω (f, i))

theorem frame_memLp (lam : Fin m → ℝ≥0) (K r : ℝ) (f : Bool) (i : Fin m) : MemLp (frame K r f i) 2 (framesMeasure lam) :=
  (counts_memLp K r (lam i)).comp_measurePreserving (measurePreserving_eval (fun p : Bool × Fin m => pixelMeasure (lam p.2)) (f, i))

theorem frame_uncorrelated (lam : Fin m → ℝ≥0) (K r : ℝ) (p q : Bool × Fin m) (h : p ≠ q) :
    cov[frame K r p.1 p.2, frame K r q.1 q.2; framesMeasure lam] = 0 := by
  refine IndepFun.covariance_eq_zero ?_ (frame_memLp ..) (frame_memLp ..)
  exact (iIndepFun_pi (μ := fun p : Bool × Fin m => pixelMeasure (lam p.2)) (X := fun _ => counts K r)
    fun _ => Measurable.of_discrete.aemeasurable).indepFun h

/-- For all mean numbers of electrons, any gain and any read noise there are two such frames. -/
theorem photons_exist (lam : Fin m → ℝ≥0) (K r : ℝ) :
    (∀ f, Photons (frame K r f) (fun i => (lam i : ℝ)) K r (framesMeasure lam)) ∧
    Uncorrelated (frame K r true) (frame K r false) (framesMeasure lam) := by
  refine ⟨fun f => ⟨⟨frame_memLp lam K r f, fun i j hij => frame_uncorrelated lam K r (f, i) (f, j) (by simpa using hij)⟩, fun i => ?_, fun i => ?_⟩,
    fun i j => frame_uncorrelated lam K r (true, i) (false, j) (by simp)⟩
  · have hp := measurePreserving_eval (fun p : Bool × Fin m => pixelMeasure (lam p.2)) (f, i)
    have : ∫ ω, counts K r (ω (f, i)) ∂framesMeasure lam = ∫ p, counts K r p ∂pixelMeasure (lam i) := by
      have := integral_map hp.measurable.aemeasurable (f := counts K r) (μ := framesMeasure lam) Measurable.of_discrete.aestronglyMeasurable
      rw [← this]
      congr 1
      exact hp.map_eq
    exact this.trans (counts_mean K r (lam i))
  · have hp := measurePreserving_eval (fun p : Bool × Fin m => pixelMeasure (lam p.2)) (f, i)
    exact (hp.variance_fun_comp Measurable.of_discrete.aemeasurable).trans (counts_variance K r (lam i))

/-- Two pixels of 10 and 30 electrons, gain 2, no read noise: the expected variance is half of `20 / 4`, the expected mean 10, and the gain
from both is 4. -/
example : ∃ (A B : Fin 2 → (Bool × Fin 2 → Pixel) → ℝ) (ν : Measure (Bool × Fin 2 → Pixel)), IsProbabilityMeasure ν ∧
    ν[fun ω => localMean fun i => A i ω] = 10 ∧ ν[fun ω => stdDiff (fun i => A i ω) (fun i => B i ω) ^ 2] = 5 / 2 ∧
    ratio 10 (5 / 2) 0 = 4 := by
  obtain ⟨h1, h2⟩ := photons_exist (m := 2) ![10, 30] 2 0
  have ha : avg (fun i : Fin 2 => ((![10, 30] i : ℝ≥0) : ℝ)) = 20 := by
    unfold avg
    rw [Fin.sum_univ_two]
    norm_num
  refine ⟨frame 2 0 true, frame 2 0 false, framesMeasure ![10, 30], inferInstance, ?_, ?_, by unfold ratio; norm_num⟩
  · rw [C168_mean (h1 true), ha]
    norm_num
  · rw [C168_noise (h1 true) (h1 false) h2 (by norm_num), ha]
    norm_num

end Poisson

end Corgi.ProbPtc

import Verif.Combine.Props
import Mathlib.Probability.Moments.Variance

/-!
# Errors of combined frames as standard deviations (C164)

Data values are random variables. `combine_images` (combine.py 8-49, model `Corgi.Comb.combineImages`) after `dark_subtraction`
(l2a_to_l2b.py 45-116) or `convert_to_electrons` (256-286), whose error rules are those of C39 and C46: terms in quadrature.
-/

noncomputable section

namespace Corgi.Prob

open MeasureTheory ProbabilityTheory Corgi.Comb

variable {Ω : Type*} [MeasurableSpace Ω] {μ : Measure Ω} {n : ℕ}

/-! ## Model -/

/-- The frames at one pixel: values, errors, flags. -/
def frames (y e : Fin n → ℝ) (q : Fin n → ℕ) : List (Img Unit 1) :=
  (List.finRange n).map fun i => ⟨fun _ => some (y i), fun _ _ => some (e i), fun _ => q i⟩

/-- The combined value; it is not NaN if one frame is not flagged. -/
def value (c : Collapse) (y e : Fin n → ℝ) (q : Fin n → ℕ) : ℝ := ((combineImages c false (frames y e q)).data ()).getD 0

/-- The combined error. -/
def error (c : Collapse) (y e : Fin n → ℝ) (q : Fin n → ℕ) : ℝ := ((combineImages c false (frames y e q)).err 0 ()).getD 0

/-- The rule of `dark_subtraction`: the error of the dark is added in quadrature (l2a_to_l2b.py 99-100, data.py's `add_error_term`). -/
def darkErr (e d : ℝ) : ℝ := Real.sqrt (e ^ 2 + d ^ 2)

/-- The rule of `convert_to_electrons` (line 276). -/
def gainErr (k ek x e : ℝ) : ℝ := Real.sqrt ((k * e) ^ 2 + (x * ek) ^ 2)

/-! ## Specification -/

/-- The frames that are not flagged. -/
def good (q : Fin n → ℕ) : Finset (Fin n) := Finset.univ.filter fun i => q i = 0

/-! ## C164 -/

theorem goodValues_eq (y e : Fin n → ℝ) (q : Fin n → ℕ) :
    goodValues (frames y e q) () = ((List.finRange n).filter fun i => q i = 0).map y := by
  unfold goodValues frames
  rw [List.filter_map, List.filterMap_map]
  exact congrFun List.filterMap_eq_map' _

theorem unflagged_eq (y e : Fin n → ℝ) (q : Fin n → ℕ) :
    unflagged (frames y e q) () = ((List.finRange n).filter fun i => q i = 0).map
      fun i => ⟨fun _ => some (y i), fun _ _ => some (e i), fun _ => q i⟩ := by
  unfold unflagged frames
  rw [List.filter_map]
  rfl

theorem goodErrs_eq (y e : Fin n → ℝ) (q : Fin n → ℕ) :
    goodErrs (frames y e q) 0 () = ((List.finRange n).filter fun i => q i = 0).map e := by
  unfold goodErrs
  rw [unflagged_eq, List.filterMap_map]
  exact congrFun List.filterMap_eq_map' _

theorem sum_good (q : Fin n → ℕ) (f : Fin n → ℝ) : (((List.finRange n).filter fun i => q i = 0).map f).sum = ∑ i ∈ good q, f i := by
  have hnd : ((List.finRange n).filter fun i => q i = 0).Nodup := (List.nodup_finRange n).filter _
  rw [← List.sum_toFinset f hnd]
  congr 1
  ext i
  simp [good]

theorem length_good (q : Fin n → ℕ) : ((List.finRange n).filter fun i => q i = 0).length = (good q).card := by
  have hnd : ((List.finRange n).filter fun i => q i = 0).Nodup := (List.nodup_finRange n).filter _
  rw [← List.toFinset_card_of_nodup hnd]
  congr 1
  ext i
  simp [good]

theorem list_ne (q : Fin n → ℕ) (h : (good q).Nonempty) : (List.finRange n).filter (fun i => q i = 0) ≠ [] := by
  intro h0
  have := length_good q
  rw [h0] at this
  exact h.card_pos.ne this

theorem value_mean (y e : Fin n → ℝ) (q : Fin n → ℕ) (h : (good q).Nonempty) :
    value .mean y e q = (∑ i ∈ good q, y i) / (good q).card := by
  unfold value
  have hne : goodValues (frames y e q) () ≠ [] := by
    rw [goodValues_eq]
    simpa using list_ne q h
  rw [(C20_mean false (frames y e q) ()).1 hne, goodValues_eq, sum_good, List.length_map, length_good]
  simp

theorem error_sq (c : Collapse) (y e : Fin n → ℝ) (q : Fin n → ℕ) (h : (good q).Nonempty) :
    error c y e q ^ 2 = (∑ i ∈ good q, e i ^ 2) / (good q).card ^ 2 * (match c with | .mean => 1 | .median => Real.pi / 2) := by
  unfold error
  have hne : unflagged (frames y e q) () ≠ [] := by
    rw [unflagged_eq]
    simpa using list_ne q h
  have hall : ∀ f ∈ unflagged (frames y e q) (), f.err 0 () ≠ none := by
    rw [unflagged_eq]
    simp
  obtain ⟨h1, h2, -⟩ := C21_standard_error_partial false (frames y e q) 0 () hne hall
  have h0 : (0 : ℝ) ≤ ∑ i ∈ good q, e i ^ 2 := Finset.sum_nonneg fun i _ => sq_nonneg _
  have hs : standardError (goodErrs (frames y e q) 0 ()) = Real.sqrt (∑ i ∈ good q, e i ^ 2) / (good q).card := by
    unfold standardError
    rw [goodErrs_eq, List.map_map, List.length_map, length_good, ← sum_good]
    rfl
  cases c with
  | mean =>
    rw [h1, hs]
    simp only [Option.getD_some, Bool.false_eq_true, if_false, mul_one]
    rw [div_pow, Real.sq_sqrt h0]
  | median =>
    rw [h2, hs]
    simp only [Option.getD_some, Bool.false_eq_true, if_false, mul_one]
    rw [mul_pow, div_pow, Real.sq_sqrt h0, Real.sq_sqrt (by positivity)]

/-- The variance of a mean of values minus a common one. -/
theorem variance_common [IsProbabilityMeasure μ] {X : Fin n → Ω → ℝ} {D : Ω → ℝ} (hX : ∀ i, MemLp (X i) 2 μ) (hD : MemLp D 2 μ)
    (hXX : ∀ i j, i ≠ j → cov[X i, X j; μ] = 0) (hXD : ∀ i, cov[X i, D; μ] = 0) {s : Finset (Fin n)} (hs : s.Nonempty) :
    Var[fun ω => (∑ i ∈ s, (X i ω - D ω)) / s.card; μ] = (∑ i ∈ s, Var[X i; μ]) / (s.card : ℝ) ^ 2 + Var[D; μ] := by
  have hm : (s.card : ℝ) ≠ 0 := by exact_mod_cast hs.card_pos.ne'
  have h1 : (fun ω => (∑ i ∈ s, (X i ω - D ω)) / (s.card : ℝ)) = fun ω => ((s.card : ℝ))⁻¹ * (∑ i ∈ s, X i ω - s.card * D ω) := by
    funext ω
    rw [Finset.sum_sub_distrib, Finset.sum_const, nsmul_eq_mul]
    ring
  have hS : MemLp (fun ω => ∑ i ∈ s, X i ω) 2 μ := memLp_finsetSum s fun i _ => hX i
  have hcD : MemLp (fun ω => (s.card : ℝ) * D ω) 2 μ := hD.const_mul _
  rw [h1, variance_const_mul, variance_fun_sub hS hcD, variance_const_mul, covariance_const_mul_right,
    covariance_fun_sum_left' (fun i _ => hX i) hD, Finset.sum_eq_zero fun i _ => hXD i, variance_fun_sum' fun i _ => hX i]
  have h2 : ∑ i ∈ s, ∑ j ∈ s, cov[X i, X j; μ] = ∑ i ∈ s, Var[X i; μ] := by
    refine Finset.sum_congr rfl fun i hi => ?_
    rw [Finset.sum_eq_single_of_mem i hi fun j _ hj => hXX i j hj.symm, covariance_self (hX i).aestronglyMeasurable.aemeasurable]
  rw [h2]
  field_simp
  ring

/-- **C164.** Frames with uncorrelated errors: the square of the combined error is the variance of the combined value. -/
theorem C164_independent [IsProbabilityMeasure μ] {X : Fin n → Ω → ℝ} {e : Fin n → ℝ} (q : Fin n → ℕ) (hX : ∀ i, MemLp (X i) 2 μ)
    (hXX : ∀ i j, i ≠ j → cov[X i, X j; μ] = 0) (he : ∀ i, e i ^ 2 = Var[X i; μ]) (h : (good q).Nonempty) (y : Fin n → ℝ) :
    Var[fun ω => value .mean (fun i => X i ω) e q; μ] = error .mean y e q ^ 2 := by
  have := variance_common hX (memLp_const (0 : ℝ)) hXX (fun i => by simp) h
  simp only [sub_zero] at this
  simp only [value_mean _ _ q h]
  rw [this, error_sq _ _ _ q h]
  have h0 : Var[fun _ : Ω => (0 : ℝ); μ] = 0 := variance_zero μ
  simp [he, h0]

/-- **C164.** The same dark is subtracted from all frames: the variance is larger than the square of the combined error by the variance of
the dark times `1 - 1/m`, with `m` frames that are not flagged. -/
theorem C164_dark [IsProbabilityMeasure μ] {X : Fin n → Ω → ℝ} {D : Ω → ℝ} {e : Fin n → ℝ} {d : ℝ} (q : Fin n → ℕ)
    (hX : ∀ i, MemLp (X i) 2 μ) (hD : MemLp D 2 μ) (hXX : ∀ i j, i ≠ j → cov[X i, X j; μ] = 0) (hXD : ∀ i, cov[X i, D; μ] = 0)
    (he : ∀ i, e i ^ 2 = Var[X i; μ]) (hd : d ^ 2 = Var[D; μ]) (h : (good q).Nonempty) (y : Fin n → ℝ) :
    Var[fun ω => value .mean (fun i => X i ω - D ω) (fun i => darkErr (e i) d) q; μ] =
      error .mean y (fun i => darkErr (e i) d) q ^ 2 + d ^ 2 * (1 - 1 / (good q).card) := by
  have hm : ((good q).card : ℝ) ≠ 0 := by exact_mod_cast h.card_pos.ne'
  simp only [value_mean _ _ q h]
  rw [variance_common hX hD hXX hXD h, error_sq _ _ _ q h]
  have : ∀ i, darkErr (e i) d ^ 2 = Var[X i; μ] + d ^ 2 := by
    intro i
    unfold darkErr
    rw [Real.sq_sqrt (by positivity), he]
  simp only [this, Finset.sum_add_distrib, Finset.sum_const, nsmul_eq_mul, mul_one, ← hd]
  field_simp
  ring

/-- **C164, violated.** So the combined error is right only for one frame or an exact dark, and too small otherwise. -/
theorem C164_violated_dark_iff [IsProbabilityMeasure μ] {X : Fin n → Ω → ℝ} {D : Ω → ℝ} {e : Fin n → ℝ} {d : ℝ} (q : Fin n → ℕ)
    (hX : ∀ i, MemLp (X i) 2 μ) (hD : MemLp D 2 μ) (hXX : ∀ i j, i ≠ j → cov[X i, X j; μ] = 0) (hXD : ∀ i, cov[X i, D; μ] = 0)
    (he : ∀ i, e i ^ 2 = Var[X i; μ]) (hd : d ^ 2 = Var[D; μ]) (h : (good q).Nonempty) (y : Fin n → ℝ) :
    (error .mean y (fun i => darkErr (e i) d) q ^ 2 = Var[fun ω => value .mean (fun i => X i ω - D ω) (fun i => darkErr (e i) d) q; μ] ↔
      (good q).card = 1 ∨ d = 0) ∧
    (error .mean y (fun i => darkErr (e i) d) q ^ 2 ≤ Var[fun ω => value .mean (fun i => X i ω - D ω) (fun i => darkErr (e i) d) q; μ]) := by
  rw [C164_dark q hX hD hXX hXD he hd h y]
  have h1 : (1 : ℝ) ≤ (good q).card := by exact_mod_cast h.card_pos
  have h2 : (0 : ℝ) < (good q).card := by linarith
  have h3 : 0 ≤ 1 - 1 / ((good q).card : ℝ) := by
    rw [sub_nonneg, div_le_one h2]
    exact h1
  refine ⟨?_, by nlinarith [mul_nonneg (sq_nonneg d) h3]⟩
  rw [left_eq_add, mul_eq_zero, pow_eq_zero_iff two_ne_zero, or_comm, sub_eq_zero, eq_comm, div_eq_one_iff_eq h2.ne', eq_comm]
  norm_cast

/-- **C164, violated.** With more and more frames the combined error goes to zero while the standard deviation stays above that of the dark:
for frames of equal error `e` the ratio of variance to squared error is above `m d² / (e² + d²)`. -/
theorem C164_violated_many [IsProbabilityMeasure μ] {X : Fin n → Ω → ℝ} {D : Ω → ℝ} {e d : ℝ} (q : Fin n → ℕ)
    (hX : ∀ i, MemLp (X i) 2 μ) (hD : MemLp D 2 μ) (hXX : ∀ i j, i ≠ j → cov[X i, X j; μ] = 0) (hXD : ∀ i, cov[X i, D; μ] = 0)
    (hd : d ^ 2 = Var[D; μ]) (h : (good q).Nonempty) (y : Fin n → ℝ) :
    error .mean y (fun _ => darkErr e d) q ^ 2 = (e ^ 2 + d ^ 2) / (good q).card ∧
    d ^ 2 ≤ Var[fun ω => value .mean (fun i => X i ω - D ω) (fun _ => darkErr e d) q; μ] := by
  have hm : (0 : ℝ) < (good q).card := by exact_mod_cast h.card_pos
  constructor
  · rw [error_sq _ _ _ q h]
    unfold darkErr
    rw [Real.sq_sqrt (by positivity), Finset.sum_const, nsmul_eq_mul]
    field_simp
  · simp only [value_mean _ _ q h]
    rw [variance_common hX hD hXX hXD h, ← hd]
    have : 0 ≤ (∑ i ∈ good q, Var[X i; μ]) / ((good q).card : ℝ) ^ 2 := by
      apply div_nonneg (Finset.sum_nonneg fun i _ => variance_nonneg _ _) (by positivity)
    linarith

/-! ### A common gain -/

/-- The variance of a product of independent variables. -/
theorem variance_product [IsProbabilityMeasure μ] {K M : Ω → ℝ} (hK : MemLp K 2 μ) (hM : MemLp M 2 μ) (hKM : IndepFun K M μ) :
    Var[fun ω => K ω * M ω; μ] = μ[K] ^ 2 * Var[M; μ] + μ[M] ^ 2 * Var[K; μ] + Var[K; μ] * Var[M; μ] := by
  have h2 : IndepFun (fun ω => K ω ^ 2) (fun ω => M ω ^ 2) μ := hKM.comp (measurable_id.pow_const 2) (measurable_id.pow_const 2)
  have hKi := hK.integrable_sq
  have hMi := hM.integrable_sq
  have hKMi : Integrable (fun ω => (K ω * M ω) ^ 2) μ := by
    have := h2.integrable_mul hKi hMi
    refine this.congr (Filter.Eventually.of_forall fun ω => ?_)
    simp [mul_pow]
  have hKM2 : MemLp (fun ω => K ω * M ω) 2 μ :=
    (memLp_two_iff_integrable_sq (hK.aestronglyMeasurable.mul hM.aestronglyMeasurable)).2 hKMi
  rw [variance_eq_sub hKM2, variance_eq_sub hK, variance_eq_sub hM]
  have e1 : μ[fun ω => K ω * M ω] = μ[K] * μ[M] := hKM.integral_fun_mul_eq_mul_integral hK.aestronglyMeasurable hM.aestronglyMeasurable
  have e2 : μ[(fun ω => K ω * M ω) ^ 2] = μ[K ^ 2] * μ[M ^ 2] := by
    have := h2.integral_fun_mul_eq_mul_integral hKi.aestronglyMeasurable hMi.aestronglyMeasurable
    simp only [Pi.pow_apply, mul_pow]
    exact this
  rw [e1, e2]
  ring

/-- **C164.** All frames are multiplied by the same measured k-gain `K`. At the mean values, with frames of equal mean `x` and error `e`, the
variance of the combined value is larger than the square of its error by `x² ek² (1 - 1/m) + ek² e² / m`. -/
theorem C164_gain [IsProbabilityMeasure μ] {X : Fin n → Ω → ℝ} {K : Ω → ℝ} {x e k ek : ℝ} (q : Fin n → ℕ) (hX : ∀ i, MemLp (X i) 2 μ)
    (hK : MemLp K 2 μ) (hXX : ∀ i j, i ≠ j → cov[X i, X j; μ] = 0) (hKX : IndepFun K (fun ω i => X i ω) μ)
    (hx : ∀ i, μ[X i] = x) (he : ∀ i, Var[X i; μ] = e ^ 2) (hk : μ[K] = k) (hek : Var[K; μ] = ek ^ 2) (h : (good q).Nonempty)
    (y : Fin n → ℝ) :
    Var[fun ω => value .mean (fun i => K ω * X i ω) (fun _ => gainErr k ek x e) q; μ] =
      error .mean y (fun _ => gainErr k ek x e) q ^ 2 + (x ^ 2 * ek ^ 2 * (1 - 1 / (good q).card) + ek ^ 2 * e ^ 2 / (good q).card) := by
  have hm : ((good q).card : ℝ) ≠ 0 := by exact_mod_cast h.card_pos.ne'
  simp only [value_mean _ _ q h]
  have h0 : Var[fun _ : Ω => (0 : ℝ); μ] = 0 := variance_zero μ
  have hvar := variance_common hX (memLp_const (0 : ℝ)) hXX (fun i => by simp) h
  simp only [sub_zero, h0, add_zero, he, Finset.sum_const, nsmul_eq_mul] at hvar
  have hMmem : MemLp (fun ω => (∑ i ∈ good q, X i ω) / ((good q).card : ℝ)) 2 μ := by
    have : MemLp (fun ω => ∑ i ∈ good q, X i ω) 2 μ := memLp_finsetSum _ fun i _ => hX i
    simpa only [div_eq_mul_inv] using this.mul_const _
  have hind : IndepFun K (fun ω => (∑ i ∈ good q, X i ω) / ((good q).card : ℝ)) μ :=
    hKX.comp (φ := id) (ψ := fun v : Fin n → ℝ => (∑ i ∈ good q, v i) / ((good q).card : ℝ)) measurable_id (by fun_prop)
  have hmean : μ[fun ω => (∑ i ∈ good q, X i ω) / ((good q).card : ℝ)] = x := by
    rw [integral_div, integral_finsetSum _ fun i _ => (hX i).integrable (by norm_num)]
    simp only [hx, Finset.sum_const, nsmul_eq_mul]
    field_simp
  have heq : (fun ω => (∑ i ∈ good q, K ω * X i ω) / ((good q).card : ℝ)) = fun ω => K ω * ((∑ i ∈ good q, X i ω) / ((good q).card : ℝ)) := by
    funext ω
    rw [← Finset.mul_sum, mul_div_assoc]
  rw [heq, variance_product hK hMmem hind, hvar, hmean, hk, hek, error_sq _ _ _ q h]
  have : gainErr k ek x e ^ 2 = (k * e) ^ 2 + (x * ek) ^ 2 := Real.sq_sqrt (by positivity)
  simp only [this, Finset.sum_const, nsmul_eq_mul, mul_one]
  field_simp
  ring

/-- **C164.** For one frame the rule of `convert_to_electrons` misses only the product of both relative errors: relative to the square of the
error it is at most `(ek / k)²`. -/
theorem C164_gain_one {k ek x e : ℝ} (hk : k ≠ 0) : ek ^ 2 * e ^ 2 ≤ (ek / k) ^ 2 * gainErr k ek x e ^ 2 := by
  have : gainErr k ek x e ^ 2 = (k * e) ^ 2 + (x * ek) ^ 2 := Real.sq_sqrt (by positivity)
  rw [this, div_pow]
  have h2 : 0 < k ^ 2 := by positivity
  rw [div_mul_eq_mul_div, le_div_iff₀ h2]
  nlinarith [sq_nonneg (ek * (x * ek))]

/-! ### The median -/

theorem median_two (a b : ℝ) : Nan.median [a, b] = (a + b) / 2 := by
  unfold Nan.median
  by_cases hab : a ≤ b
  · simp [List.insertionSort, hab]
  · simp [List.insertionSort, List.orderedInsert, hab, add_comm]

/-- The median of one or two values is their mean. -/
theorem value_median (y e : Fin n → ℝ) (q : Fin n → ℕ) (h : (good q).Nonempty) (h2 : (good q).card ≤ 2) :
    value .median y e q = value .mean y e q := by
  unfold value
  have hne : goodValues (frames y e q) () ≠ [] := by
    rw [goodValues_eq]
    simpa using list_ne q h
  have hlen : (goodValues (frames y e q) ()).length ≤ 2 := by
    rw [goodValues_eq, List.length_map, length_good]
    exact h2
  rw [combine_data, combine_data, if_neg hne, if_neg hne]
  generalize goodValues (frames y e q) () = l at hne hlen
  match l, hne, hlen with
  | [a], _, _ => simp [Nan.median, Nan.mean, List.insertionSort]
  | [a, b], _, _ => simp [median_two, Nan.mean]

/-- **C164, violated.** One or two frames combined by the median: the value is that of the mean, the squared error is `π/2` times the variance. -/
theorem C164_violated_median [IsProbabilityMeasure μ] {X : Fin n → Ω → ℝ} {e : Fin n → ℝ} (q : Fin n → ℕ) (hX : ∀ i, MemLp (X i) 2 μ)
    (hXX : ∀ i j, i ≠ j → cov[X i, X j; μ] = 0) (he : ∀ i, e i ^ 2 = Var[X i; μ]) (h : (good q).Nonempty) (h2 : (good q).card ≤ 2)
    (y : Fin n → ℝ) :
    error .median y e q ^ 2 = Real.pi / 2 * Var[fun ω => value .median (fun i => X i ω) e q; μ] := by
  simp only [value_median _ _ q h h2]
  rw [C164_independent q hX hXX he h y, error_sq _ _ _ q h, error_sq _ _ _ q h]
  simp only
  ring

/-! ### Hypotheses that hold -/

/-- A fair coin. -/
def coin : Measure Bool := (2⁻¹ : ENNReal) • Measure.dirac true + (2⁻¹ : ENNReal) • Measure.dirac false

instance : IsProbabilityMeasure coin := ⟨by simp [coin, ENNReal.inv_two_add_inv_two]⟩

theorem coin_integral (f : Bool → ℝ) : ∫ b, f b ∂coin = (f true + f false) / 2 := by
  unfold coin
  rw [integral_add_measure, integral_smul_measure, integral_smul_measure, integral_dirac, integral_dirac]
  · simp
    ring
  · exact (integrable_dirac (by simp)).smul_measure (by simp)
  · exact (integrable_dirac (by simp)).smul_measure (by simp)

/-- A dark whose error is 1, subtracted from two frames without noise: the combined error is `1/√2`, the standard deviation 1. -/
example (y : Fin 2 → ℝ) : ∃ D : Bool → ℝ, MemLp D 2 coin ∧ Var[D; coin] = 1 ∧
    error .mean y (fun _ => darkErr 0 1) (fun _ : Fin 2 => 0) ^ 2 = 1 / 2 ∧
    Var[fun ω => value .mean (fun _ : Fin 2 => 5 - D ω) (fun _ => darkErr 0 1) (fun _ => 0); coin] = 1 := by
  have hmem : MemLp (fun b : Bool => if b then (1 : ℝ) else -1) 2 coin := by
    refine MemLp.of_bound (by fun_prop) 1 (Filter.Eventually.of_forall fun b => ?_)
    cases b <;> simp
  have hvar : Var[fun b : Bool => if b then (1 : ℝ) else -1; coin] = 1 := by
    rw [variance_eq_sub hmem, coin_integral, coin_integral]
    norm_num
  have hg : (good fun _ : Fin 2 => 0).Nonempty := ⟨0, by simp [good]⟩
  have hc : (good fun _ : Fin 2 => 0).card = 2 := by simp [good]
  have h0 : Var[fun _ : Bool => (5 : ℝ); coin] = 0 := by
    rw [variance_eq_sub (memLp_const 5), coin_integral, coin_integral]
    norm_num
  have hE : error .mean y (fun _ => darkErr 0 1) (fun _ : Fin 2 => 0) ^ 2 = 1 / 2 := by
    rw [error_sq _ _ _ _ hg, hc]
    simp only [darkErr, Finset.sum_const, hc]
    norm_num
  refine ⟨fun b => if b then 1 else -1, hmem, hvar, hE, ?_⟩
  have := C164_dark (n := 2) (μ := coin) (X := fun _ _ => 5) (D := fun b => if b then 1 else -1) (e := fun _ => 0) (d := 1) (fun _ => 0)
    (fun _ => memLp_const 5) hmem (fun _ _ _ => by simp) (fun _ => by simp) (fun _ => by rw [h0]; norm_num) (by rw [hvar]; norm_num) hg y
  rw [this, hE, hc]
  norm_num

end Corgi.Prob

import Verif.PhotonCount.Newton
import Mathlib.Analysis.SpecialFunctions.Exponential
import Mathlib.MeasureTheory.Integral.IntegralEqImproper
import Mathlib.Analysis.Calculus.Deriv.Pow
import Mathlib.Analysis.SpecialFunctions.Pow.Asymptotics

/-!
# Pixels with more than three electrons (C163)

`_calc_func` (photon_counting.py 430-453) takes for the probability of a detection that of a pixel with at most three electrons (C36). Here it
is compared with the probability for any number of electrons.
-/

noncomputable section

namespace Corgi.Pc

open Real Finset

/-! ## Specification -/

/-- The probability of a detection: a Poisson number of electrons of mean `l`, each number with its probability of exceeding the
threshold; `x` is threshold over gain. -/
def detect (x l : ℝ) : ℝ := ∑' k, poisson l k * tail k x

/-! ## C163 -/

theorem tail_deriv (n : ℕ) (u : ℝ) : HasDerivAt (tail (n + 1)) (-(u ^ n * exp (-u) / (n.factorial : ℝ))) u := by
  induction n with
  | zero =>
    have h : HasDerivAt (fun x : ℝ => exp (-x)) (exp (-u) * -1) u := (hasDerivAt_neg u).exp
    have e : tail (0 + 1) = fun x => exp (-x) := by funext x; simp [tail]
    rw [e]
    refine h.congr_deriv ?_
    simp
  | succ n ih =>
    have e : tail (n + 1 + 1) = fun x => tail (n + 1) x + exp (-x) * (x ^ (n + 1) / ((n + 1).factorial : ℝ)) := by
      funext x
      unfold tail
      rw [sum_range_succ _ (n + 1)]
      ring
    rw [e]
    have h1 : HasDerivAt (fun x : ℝ => exp (-x)) (exp (-u) * -1) u := (hasDerivAt_neg u).exp
    have h2 : HasDerivAt (fun x : ℝ => x ^ (n + 1) / ((n + 1).factorial : ℝ)) (((n + 1 : ℕ) : ℝ) * u ^ n / ((n + 1).factorial : ℝ)) u := by
      simpa using (hasDerivAt_pow (n + 1) u).div_const ((n + 1).factorial : ℝ)
    refine (ih.add (h1.mul h2)).congr_deriv ?_
    rw [Nat.factorial_succ]
    push_cast
    have h3 : ((n : ℝ) + 1) ≠ 0 := by positivity
    have h4 : (n.factorial : ℝ) ≠ 0 := by positivity
    field_simp
    ring

theorem tail_limit (k : ℕ) : Filter.Tendsto (tail k) Filter.atTop (nhds 0) := by
  have e : tail k = fun x => ∑ j ∈ range k, x ^ j * exp (-x) / (j.factorial : ℝ) := by
    funext x
    unfold tail
    rw [mul_sum]
    refine sum_congr rfl fun j _ => ?_
    ring
  rw [e]
  have : (0 : ℝ) = ∑ j ∈ range k, 0 / (j.factorial : ℝ) := by simp
  rw [this]
  exact tendsto_finsetSum _ fun j _ => (tendsto_pow_mul_exp_neg_atTop_nhds_zero j).div_const _

/-- **C163.** `tail` is the probability that `n + 1` electrons, each amplified to an exponential number of mean one, together give more than
`x`: the integral of the density of their sum. -/
theorem C163_tail (n : ℕ) {x : ℝ} (hx : 0 ≤ x) : ∫ u in Set.Ioi x, u ^ n * exp (-u) / (n.factorial : ℝ) = tail (n + 1) x := by
  have hd : ∀ u ∈ Set.Ici x, HasDerivAt (fun u => -tail (n + 1) u) (u ^ n * exp (-u) / (n.factorial : ℝ)) u := by
    intro u _
    have h : HasDerivAt (fun u => -tail (n + 1) u) _ u := (tail_deriv n u).neg
    exact h.congr_deriv (neg_neg _)
  have := MeasureTheory.integral_Ioi_of_hasDerivAt_of_nonneg' hd (fun u hu => by
    have : 0 ≤ u := hx.trans (le_of_lt hu)
    positivity) (by simpa using (tail_limit (n + 1)).neg)
  rw [this]
  simp

theorem poisson_sum (l : ℝ) : HasSum (poisson l) 1 := by
  have h := NormedSpace.expSeries_div_hasSum_exp (𝔸 := ℝ) l
  rw [← Real.exp_eq_exp_ℝ] at h
  have := h.mul_left (exp (-l))
  rw [← exp_add, neg_add_cancel, exp_zero] at this
  have e : poisson l = fun k : ℕ => exp (-l) * (l ^ k / (k.factorial : ℝ)) := by
    funext k
    unfold poisson
    ring
  rw [e]
  exact this

theorem poisson_nonneg {l : ℝ} (hl : 0 ≤ l) (k : ℕ) : 0 ≤ poisson l k := by
  unfold poisson
  have := exp_pos (-l)
  positivity

theorem tail_nonneg {x : ℝ} (hx : 0 ≤ x) (k : ℕ) : 0 ≤ tail k x := by
  unfold tail
  have := exp_pos (-x)
  positivity

theorem tail_le_one {x : ℝ} (hx : 0 ≤ x) (k : ℕ) : tail k x ≤ 1 := by
  unfold tail
  rw [exp_neg, inv_mul_le_iff₀ (exp_pos x), mul_one]
  exact Real.sum_le_exp_of_nonneg hx k

theorem tail_mono {x : ℝ} (hx : 0 ≤ x) {j k : ℕ} (h : j ≤ k) : tail j x ≤ tail k x := by
  unfold tail
  apply mul_le_mul_of_nonneg_left _ (exp_pos _).le
  exact sum_le_sum_of_subset_of_nonneg (range_subset_range.2 h) fun i _ _ => by positivity

theorem detect_summable {x l : ℝ} (hx : 0 ≤ x) (hl : 0 ≤ l) : Summable fun k => poisson l k * tail k x := by
  refine Summable.of_nonneg_of_le (fun k => mul_nonneg (poisson_nonneg hl k) (tail_nonneg hx k)) (fun k => ?_) (poisson_sum l).summable
  exact mul_le_of_le_one_right (poisson_nonneg hl k) (tail_le_one hx k)

/-- The Poisson probability of four or more. -/
theorem poisson_four {l : ℝ} (hl : 0 ≤ l) : ∑' k, poisson l (k + 4) ≤ l ^ 4 / 24 := by
  have h1 : ∀ k, poisson l (k + 4) ≤ l ^ 4 / 24 * poisson l k := by
    intro k
    have hf : (24 : ℝ) * k.factorial ≤ ((k + 4).factorial : ℝ) := by
      have : 4 * 3 * 2 * 1 * k.factorial ≤ (k + 4).factorial := by
        have e : (k + 4).factorial = (k + 4) * ((k + 3) * ((k + 2) * ((k + 1) * k.factorial))) := by
          simp only [Nat.factorial_succ]
        rw [e, show 4 * 3 * 2 * 1 * k.factorial = 4 * (3 * (2 * (1 * k.factorial))) by ring]
        exact Nat.mul_le_mul (by omega) (Nat.mul_le_mul (by omega) (Nat.mul_le_mul (by omega) (Nat.mul_le_mul (by omega) le_rfl)))
      exact_mod_cast this
    have hk : (0 : ℝ) < k.factorial := by positivity
    unfold poisson
    have e : l ^ 4 / 24 * (exp (-l) * l ^ k / (k.factorial : ℝ)) = exp (-l) * l ^ (k + 4) / (24 * k.factorial) := by
      rw [pow_add]
      field_simp
    rw [e]
    have := exp_pos (-l)
    exact div_le_div_of_nonneg_left (by positivity) (by positivity) hf
  have h2 := ((poisson_sum l).mul_left (l ^ 4 / 24))
  rw [mul_one] at h2
  rw [← h2.tsum_eq]
  exact Summable.tsum_le_tsum h1 ((summable_nat_add_iff 4).2 (poisson_sum l).summable) h2.summable

theorem den_sum (l : ℝ) : ∑ k ∈ range 4, poisson l k = exp (-l) * den l / 6 := by
  simp only [sum_range_succ, sum_range_zero, poisson, Nat.factorial, den]
  push_cast
  ring

/-- What is missing: the pixels with four or more electrons. -/
theorem detect_gap {x l : ℝ} (hx : 0 ≤ x) (hl : 0 ≤ l) :
    detect x l - efficiency x l = ∑' k, poisson l (k + 4) * (tail (k + 4) x - efficiency x l) := by
  set e := efficiency x l with he
  have hs := detect_summable hx hl
  have hp := (poisson_sum l).summable
  have h1 : detect x l - e = ∑' k, poisson l k * (tail k x - e) := by
    have h2 : ∑' k, poisson l k * (tail k x - e) = ∑' k, (poisson l k * tail k x - poisson l k * e) := by
      congr 1
      funext k
      ring
    rw [h2, hs.tsum_sub (hp.mul_right e), tsum_mul_right, (poisson_sum l).tsum_eq, one_mul]
    rfl
  have h3 : Summable fun k => poisson l k * (tail k x - e) := by
    have : (fun k => poisson l k * (tail k x - e)) = fun k => poisson l k * tail k x - poisson l k * e := by
      funext k
      ring
    rw [this]
    exact hs.sub (hp.mul_right e)
  rw [h1, ← h3.sum_add_tsum_nat_add 4]
  have h4 : ∑ k ∈ range 4, poisson l k * (tail k x - e) = 0 := by
    have h0 : ∑ k ∈ range 4, poisson l k ≠ 0 := by
      rw [den_sum]
      have := den_pos hl
      have := exp_pos (-l)
      positivity
    have : e * ∑ k ∈ range 4, poisson l k = ∑ k ∈ range 4, poisson l k * tail k x := by
      rw [he, efficiency]
      field_simp
    simp only [mul_sub]
    rw [sum_sub_distrib, ← this, ← sum_mul]
    ring
  rw [h4, zero_add]

/-- **C163.** The probability of `_calc_func` is too low, by at most the probability of four or more electrons. -/
theorem C163_probability {t g l : ℝ} (ht : 0 ≤ t) (hg : 0 < g) (hl : 0 < l) :
    eps t g l < detect (t / g) l ∧ detect (t / g) l - eps t g l ≤ l ^ 4 / 24 := by
  have hx : 0 ≤ t / g := div_nonneg ht hg.le
  obtain ⟨hb0, hb1, -⟩ := C36_bounds ht hg hl.le
  rw [C36_efficiency hg.ne'] at *
  have hgap := detect_gap hx hl.le
  have hp4 := (summable_nat_add_iff 4).2 (poisson_sum l).summable
  have hcap : cap (t / g) = tail 3 (t / g) := by
    unfold cap tail
    simp [sum_range_succ, Nat.factorial]
  have hpos : ∀ k, 0 ≤ poisson l (k + 4) * (tail (k + 4) (t / g) - efficiency (t / g) l) := by
    intro k
    have := tail_mono hx (show 3 ≤ k + 4 by omega)
    exact mul_nonneg (poisson_nonneg hl.le _) (by linarith)
  have hle : ∀ k, poisson l (k + 4) * (tail (k + 4) (t / g) - efficiency (t / g) l) ≤ poisson l (k + 4) := by
    intro k
    have := tail_le_one hx (k + 4)
    exact mul_le_of_le_one_right (poisson_nonneg hl.le _) (by linarith)
  have hsum := Summable.of_nonneg_of_le hpos hle hp4
  constructor
  · have h0 : 0 < poisson l (0 + 4) * (tail (0 + 4) (t / g) - efficiency (t / g) l) := by
      have := tail_mono hx (show 3 ≤ 0 + 4 by omega)
      apply mul_pos
      · unfold poisson
        have := exp_pos (-l)
        positivity
      · linarith
    have := hsum.tsum_pos hpos 0 h0
    linarith
  · have := Summable.tsum_le_tsum hle hsum hp4
    have := poisson_four hl.le
    linarith

/-- The distance of two fluxes below one from the distance of their probabilities. -/
theorem eps_gap {t g l s : ℝ} (ht : 0 ≤ t) (hg : 0 < g) (hl : 0 ≤ l) (hls : l ≤ s) (hs : s ≤ 1) :
    exp (-(t / g)) * (s - l) * (9 / 64) ≤ eps t g s - eps t g l := by
  have hx : 0 ≤ t / g := div_nonneg ht hg.le
  have hs0 : 0 ≤ s := hl.trans hls
  rw [eps_eq hg.ne', eps_eq hg.ne', mul_div_assoc, mul_div_assoc, ← mul_sub, mul_assoc]
  apply mul_le_mul_of_nonneg_left _ (exp_pos _).le
  have hdl := den_pos hl
  have hds := den_pos hs0
  rw [div_sub_div _ _ hds.ne' hdl.ne', le_div_iff₀ (mul_pos hds hdl)]
  have key := nx_den (t / g) l s
  have hd16 : ∀ a : ℝ, 0 ≤ a → a ≤ 1 → den a ≤ 16 := by
    intro a h0 h1
    unfold den
    have h2 : a ^ 2 ≤ 1 := pow_le_one₀ h0 h1
    have h3 : a ^ 3 ≤ 1 := pow_le_one₀ h0 h1
    nlinarith
  have hprod : den s * den l ≤ 256 := by
    have := mul_le_mul (hd16 s hs0 hs) (hd16 l hl (hls.trans hs)) hdl.le (by norm_num)
    linarith
  have hQ : 36 ≤ 36 + 18 * (1 + t / g) * (l + s) + 6 * (1 + t / g + (t / g) ^ 2 / 2) * (l ^ 2 + l * s + s ^ 2) + 18 * (t / g) * (l * s) +
      6 * (t / g + (t / g) ^ 2 / 2) * (l * s) * (l + s) + 3 / 2 * (t / g) ^ 2 * (l * s) ^ 2 := by
    have : 0 ≤ 18 * (1 + t / g) * (l + s) + 6 * (1 + t / g + (t / g) ^ 2 / 2) * (l ^ 2 + l * s + s ^ 2) + 18 * (t / g) * (l * s) +
      6 * (t / g + (t / g) ^ 2 / 2) * (l * s) * (l + s) + 3 / 2 * (t / g) ^ 2 * (l * s) ^ 2 := by positivity
    linarith
  have h0 : 0 ≤ s - l := sub_nonneg.2 hls
  have h1 := mul_le_mul_of_nonneg_left hQ h0
  have h2 := mul_le_mul_of_nonneg_left hprod h0
  rw [← key] at h1
  nlinarith

/-- **C163, violated.** For the expected number of detections of flux `l` the flux that `_calc_func` asks for is too high, by at most
`l⁴ exp(t/g) / 3`. -/
theorem C163_violated_bias {t g l s nfr : ℝ} (ht : 0 ≤ t) (hg : 0 < g) (hl : 0 < l) (hn : 0 < nfr) (hs : 0 ≤ s)
    (h : calcFunc (nfr * detect (t / g) l) nfr t g s = 0) : l < s ∧ (s ≤ 1 → s - l ≤ l ^ 4 * exp (t / g) / 3) := by
  have he : eps t g s = detect (t / g) l := by
    unfold calcFunc at h
    have : nfr * eps t g s = nfr * detect (t / g) l := by linarith
    exact mul_left_cancel₀ hn.ne' this
  obtain ⟨h1, h2⟩ := C163_probability ht hg hl
  have hls : l < s := by
    by_contra hc
    rcases (not_lt.1 hc).eq_or_lt with e | e
    · rw [e] at he; linarith
    · have := eps_strictMono ht hg hs e
      linarith
  refine ⟨hls, fun hs1 => ?_⟩
  have h3 := eps_gap ht hg hl.le hls.le hs1
  rw [he] at h3
  have h4 : exp (-(t / g)) * (s - l) * (9 / 64) ≤ l ^ 4 / 24 := h3.trans h2
  have hE := exp_pos (t / g)
  rw [exp_neg] at h4
  have h5 : (s - l) * (9 / 64) ≤ l ^ 4 / 24 * exp (t / g) := by
    have := mul_le_mul_of_nonneg_right h4 hE.le
    have e : (exp (t / g))⁻¹ * (s - l) * (9 / 64) * exp (t / g) = (s - l) * (9 / 64) := by field_simp
    rwa [e] at this
  have h6 : 0 ≤ l ^ 4 * exp (t / g) := by positivity
  linarith

theorem eps_continuousOn (t : ℝ) {g : ℝ} (hg : 0 < g) : ContinuousOn (eps t g) (Set.Ici 0) := by
  have e : eps t g = fun l => exp (-(t / g)) * nx (t / g) l / den l := by
    funext l
    exact eps_eq hg.ne' l
  rw [e]
  refine ContinuousOn.div ?_ ?_ fun l hl => (den_pos hl).ne'
  · unfold nx
    fun_prop
  · unfold den
    fun_prop

/-- **C163.** Up to half an electron per pixel and frame, and for thresholds up to the gain, this flux exists; it is below one. -/
theorem C163_root {t g l nfr : ℝ} (ht : 0 ≤ t) (hg : 0 < g) (htg : t ≤ g) (hl : 0 < l) (hl2 : l ≤ 1 / 2) (hn : 0 < nfr) :
    ∃ s, l < s ∧ s ≤ 1 ∧ calcFunc (nfr * detect (t / g) l) nfr t g s = 0 ∧ s - l ≤ l ^ 4 * exp (t / g) / 3 := by
  have hx1 : t / g ≤ 1 := (div_le_one hg).2 htg
  obtain ⟨h1, h2⟩ := C163_probability ht hg hl
  have h3 := eps_gap ht hg hl.le (by linarith : l ≤ 1) le_rfl
  have hE : exp (-1) ≤ exp (-(t / g)) := exp_le_exp.2 (by linarith)
  have hE1 : (1 : ℝ) / 3 ≤ exp (-1) := by
    rw [exp_neg, one_div]
    apply inv_anti₀ (exp_pos 1)
    have := Real.exp_one_lt_d9
    linarith
  have h4 : l ^ 4 / 24 ≤ exp (-(t / g)) * (1 - l) * (9 / 64) := by
    have h5 : l ^ 4 ≤ (1 / 2) ^ 4 := pow_le_pow_left₀ hl.le hl2 4
    have h6 : 1 / 3 * (1 / 2) ≤ exp (-(t / g)) * (1 - l) := mul_le_mul (hE1.trans hE) (by linarith) (by norm_num) (exp_pos _).le
    norm_num at h5
    linarith
  have hmem : detect (t / g) l ∈ Set.Icc (eps t g l) (eps t g 1) := ⟨h1.le, by linarith⟩
  obtain ⟨s, ⟨hs0, hs1⟩, hs⟩ := intermediate_value_Icc (by linarith : l ≤ 1)
    ((eps_continuousOn t hg).mono fun a ha => hl.le.trans ha.1) hmem
  have hroot : calcFunc (nfr * detect (t / g) l) nfr t g s = 0 := by
    unfold calcFunc
    rw [hs, sub_self]
  obtain ⟨h5, h6⟩ := C163_violated_bias ht hg hl hn (hl.le.trans hs0) hroot
  exact ⟨s, h5, hs1, hroot, h6 hs1⟩

/-- **C163.** Up to 0.1 electrons per pixel and frame the bias is below one in ten thousand of an electron. (PCECNTMX is 0.1,
but it limits the mean over the image, not the single pixel.) -/
theorem C163_default {t g l s nfr : ℝ} (ht : 0 ≤ t) (hg : 0 < g) (htg : t ≤ g) (hl : 0 < l) (hl2 : l ≤ 1 / 10) (hn : 0 < nfr) (hs : 0 ≤ s)
    (h : calcFunc (nfr * detect (t / g) l) nfr t g s = 0) : l < s ∧ s - l < 1 / 10000 := by
  obtain ⟨s', h1, h2, h3, h4⟩ := C163_root ht hg htg hl (by linarith) hn
  obtain rfl : s = s' := C36_unique hn ht hg hs (hl.le.trans h1.le) h h3
  refine ⟨h1, h4.trans_lt ?_⟩
  have h5 : l ^ 4 ≤ (1 / 10) ^ 4 := pow_le_pow_left₀ hl.le hl2 4
  have h6 : exp (t / g) ≤ exp 1 := exp_le_exp.2 ((div_le_one hg).2 htg)
  have h7 := Real.exp_one_lt_d9
  have h8 : l ^ 4 * exp (t / g) ≤ (1 / 10) ^ 4 * exp 1 := mul_le_mul h5 h6 (exp_pos _).le (by positivity)
  norm_num at h8
  linarith

theorem detect_zero {l : ℝ} : detect 0 l = 1 - exp (-l) := by
  have h : ∀ k, poisson l k * tail k 0 = poisson l k - if k = 0 then exp (-l) else 0 := by
    intro k
    cases k with
    | zero => simp [poisson, tail]
    | succ k =>
      have : tail (k + 1) 0 = 1 := by
        unfold tail
        rw [sum_range_succ', sum_eq_zero]
        · simp
        · intro j _
          simp
      rw [this]
      simp
  unfold detect
  simp only [h]
  rw [(poisson_sum l).summable.tsum_sub (summable_of_ne_finset_zero (s := {0}) (by simp)), (poisson_sum l).tsum_eq, tsum_ite_eq]

/-- **C163.** The first guess is too high as well; without a threshold it is exact. -/
theorem C163_guess {t g l : ℝ} (ht : 0 ≤ t) (hg : 0 < g) (hl : 0 ≤ l) (h : 0 < 1 - detect (t / g) l * exp (t / g)) :
    l ≤ -log (1 - detect (t / g) l * exp (t / g)) ∧ (t = 0 → -log (1 - detect (t / g) l * exp (t / g)) = l) := by
  have hx : 0 ≤ t / g := div_nonneg ht hg.le
  constructor
  · have h1 : 1 - exp (-l) ≤ detect (t / g) l * exp (t / g) := by
      rw [← detect_zero]
      unfold detect
      rw [← tsum_mul_right]
      refine Summable.tsum_le_tsum (fun k => ?_) (detect_summable le_rfl hl) ((detect_summable hx hl).mul_right _)
      rw [mul_assoc]
      apply mul_le_mul_of_nonneg_left _ (poisson_nonneg hl k)
      cases k with
      | zero => simp [tail]
      | succ k =>
        have h2 := tail_mono hx (show 1 ≤ k + 1 by omega)
        have h3 : tail 1 (t / g) = exp (-(t / g)) := by simp [tail]
        rw [h3] at h2
        calc tail (k + 1) 0 ≤ 1 := tail_le_one le_rfl _
          _ = exp (-(t / g)) * exp (t / g) := by rw [← exp_add, neg_add_cancel, exp_zero]
          _ ≤ _ := mul_le_mul_of_nonneg_right h2 (exp_pos _).le
    have h2 : log (1 - detect (t / g) l * exp (t / g)) ≤ log (exp (-l)) := log_le_log h (by linarith)
    rw [log_exp] at h2
    linarith
  · rintro rfl
    rw [zero_div, detect_zero, exp_zero, mul_one, sub_sub_cancel, log_exp, neg_neg]

/-- **C163, violated.** Without a threshold and with exactly the expected counts the first guess is the flux, and the iterations go away from
it: no flux but zero is a fixed point. -/
theorem C163_violated_guess {nobs nfr : ℕ} {g l : ℝ} (hg : 0 < g) (hl : 0 < l) (hn : nfr ≠ 0) (h : (nobs : ℝ) / nfr = detect 0 l) :
    lamApprox nobs nfr 0 g = some l ∧ l < l - calcFunc nobs nfr 0 g l / calcDfunc nfr 0 g l := by
  have hn' : (0 : ℝ) < nfr := by exact_mod_cast Nat.pos_of_ne_zero hn
  have e : 1 - (nobs : ℝ) / nfr * exp (0 / g) = exp (-l) := by
    rw [h, detect_zero, zero_div, exp_zero]
    ring
  constructor
  · unfold lamApprox
    rw [if_neg hn]
    dsimp only
    rw [e, if_pos (exp_pos _), log_exp, neg_neg]
  · have hd := C36_dfunc_pos hn' le_rfl hg hl.le
    have hp := (C163_probability le_rfl hg hl).1
    rw [zero_div, ← h, lt_div_iff₀ hn'] at hp
    have : calcFunc nobs nfr 0 g l < 0 := by
      unfold calcFunc
      linarith
    have := div_neg_of_neg_of_pos this hd
    linarith

/-- Counts with exactly the expected number exist: half of the frames for a flux of `log 2`. -/
example : ((1 : ℕ) : ℝ) / ((2 : ℕ) : ℝ) = detect 0 (log 2) := by
  rw [detect_zero, exp_neg, exp_log (by norm_num)]
  norm_num

end Corgi.Pc

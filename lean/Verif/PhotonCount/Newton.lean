import Mathlib.Analysis.SpecialFunctions.Exp
import Mathlib.Analysis.SpecialFunctions.Log.Basic
import Mathlib.Analysis.SpecialFunctions.ExpDeriv
import Mathlib.Analysis.Calculus.Deriv.Inv
import Mathlib.Analysis.Complex.ExponentialBounds
import Mathlib.Topology.Order.IntermediateValue
import Mathlib.Algebra.Polynomial.Eval.Defs
import Mathlib.Tactic.FieldSimp
import Mathlib.Tactic.Linarith
import Mathlib.Tactic.Positivity

/-!
# Photometric correction of photon counts (photon_counting.py 11-33, 337-475): model, C36 and C51

Reals for floats. Masked arrays are modelled per pixel by the data value and the mask bit; dividing by 0 masks the
result (numpy.ma). The data value is `none` for NaN.
-/

noncomputable section

namespace Corgi.Pc

open Real

/-! ## Model -/

/-- numerator and denominator polynomials of `epsilon_prime` -/
def num (t g l : ℝ) : ℝ := l * (2 * g ^ 2 * (6 + l * (3 + l)) + 2 * g * l * (3 + l) * t + l ^ 2 * t ^ 2)

def den (l : ℝ) : ℝ := 6 + l * (6 + l * (3 + l))

/-- line 444: `epsilon_prime` -/
def eps (t g l : ℝ) : ℝ := num t g l / (2 * exp (t / g) * g ^ 2 * den l)

/-- `_calc_func`, lines 430-453 -/
def calcFunc (nobs nfr t g l : ℝ) : ℝ := nfr * eps t g l - nobs

/-- `_calc_dfunc`, lines 456-475 -/
def calcDfunc (nfr t g l : ℝ) : ℝ :=
  (l * nfr * (2 * g ^ 2 * (3 + 2 * l) + 2 * g * l * t + 2 * g * (3 + l) * t + 2 * l * t ^ 2)) /
      (2 * exp (t / g) * g ^ 2 * (6 + l * (6 + l * (3 + l)))) -
    (l * (6 + l * (3 + l) + l * (3 + 2 * l)) * nfr *
      (2 * g ^ 2 * (6 + l * (3 + l)) + 2 * g * l * (3 + l) * t + l ^ 2 * t ^ 2)) /
      (2 * exp (t / g) * g ^ 2 * (6 + l * (6 + l * (3 + l))) ^ 2) +
    (nfr * (2 * g ^ 2 * (6 + l * (3 + l)) + 2 * g * l * (3 + l) * t + l ^ 2 * t ^ 2)) /
      (2 * exp (t / g) * g ^ 2 * (6 + l * (6 + l * (3 + l))))

/-- `eThresh` of `varL23`, lines 26-28 -/
def eThresh (g L T : ℝ) : ℝ :=
  (6 / (6 + L * (6 + L * (3 + L)))) *
    (exp (-T / g) * L * (2 * g ^ 2 * (6 + L * (3 + L)) + 2 * g * L * (3 + L) * T + L ^ 2 * T ^ 2)) / (12 * g ^ 2)

/-- `varL23`, lines 11-33 -/
def varL23 (g L T N : ℝ) : ℝ :=
  (sqrt (N * eThresh g L T * (1 - eThresh g L T))) ^ 2 *
    (exp (T / g) / N + 2 * ((exp ((2 * T) / g) * (g - T)) / (2 * g * N ^ 2)) * (N * eThresh g L T) +
      3 * ((exp ((3 * T) / g) * (4 * g ^ 2 - 8 * g * T + 5 * T ^ 2)) / (12 * g ^ 2 * N ^ 3)) * (N * eThresh g L T) ^ 2) ^ 2

/-- `calc_lam_approx`, lines 361-392, for one pixel. `none` = NaN (0/0, no unmasked frame). -/
def lamApprox (nobs nfr : ℕ) (t g : ℝ) : Option ℝ :=
  if nfr = 0 then none
  else
    let init := 1 - ((nobs : ℝ) / nfr) * exp (t / g)
    some (if 0 < init then -log init else (nobs : ℝ) / nfr)

/-- One element of the masked array `lam_est_m`. -/
structure Elem where
  data : Option ℝ
  masked : Bool

open Classical in
/-- Body of the loop, lines 417-419, for one pixel: `lam_est_m -= func / dfunc`. -/
def newtonStep (nobs nfr : ℕ) (t g : ℝ) (e : Elem) : Elem :=
  if e.masked ∨ nobs = 0 then { e with masked := true }
  else match e.data with
    | none => e
    | some l =>
      if den l = 0 ∨ calcDfunc nfr t g l = 0 then { e with masked := true }
      else { e with data := some (l - calcFunc nobs nfr t g l / calcDfunc nfr t g l) }

/-- lines 412-419: the loop of `lam_newton_fit`. -/
def newtonLoop (nobs nfr : ℕ) (t g : ℝ) (niter : ℕ) : Elem :=
  (newtonStep nobs nfr t g)^[niter] ⟨lamApprox nobs nfr t g, decide (lamApprox nobs nfr t g = some 0)⟩

inductive Err
  | negative | notInt | value | type | mixed | vistype | mode | ispc | thresh | gain | ecount | readNoise | dark | key
  deriving DecidableEq, Repr

open Classical in
/-- `corr_photon_count`, lines 337-358 and 395-428, for an image given by its pixels (counts, frames, considered);
`np.nanmin` raises if no pixel is considered. -/
def corrPhotonCount (px : List (ℕ × ℕ × Bool)) (t g : ℝ) (niter : ℕ) : Except Err (List (Option ℝ)) :=
  let es := px.map fun p => (newtonLoop p.1 p.2.1 t g niter, p.2.2)
  if es.all fun e => !e.2 then .error .value
  else if es.any fun e => e.2 && (match e.1.data with | some l => decide (l < 0) | none => false) then .error .negative
  else .ok (es.map fun e => if e.1.masked then some 0 else e.1.data)

/-! ## Specification

A pixel gets a Poisson number of electrons, truncated at three; `k` electrons amplified by the gain register exceed the
threshold with the tail probability of an Erlang distribution. -/

/-- Probability that `k` electrons give more than the threshold; `x` = threshold over gain. -/
def tail (k : ℕ) (x : ℝ) : ℝ := exp (-x) * ∑ j ∈ Finset.range k, x ^ j / (j.factorial : ℝ)

/-- Poisson probability of `k` electrons. -/
def poisson (l : ℝ) (k : ℕ) : ℝ := exp (-l) * l ^ k / (k.factorial : ℝ)

/-- Detection probability given at most three electrons. -/
def efficiency (x l : ℝ) : ℝ :=
  (∑ k ∈ Finset.range 4, poisson l k * tail k x) / ∑ k ∈ Finset.range 4, poisson l k

/-- The largest detection probability of the model: that of three electrons. -/
def cap (x : ℝ) : ℝ := exp (-x) * (1 + x + x ^ 2 / 2)

/-! ## Proofs -/

theorem den_pos {l : ℝ} (h : 0 ≤ l) : 0 < den l := by unfold den; positivity

/-- numerator scaled by gain and threshold -/
def nx (x l : ℝ) : ℝ := 6 * l + 3 * (1 + x) * l ^ 2 + (1 + x + x ^ 2 / 2) * l ^ 3

theorem eps_eq {t g : ℝ} (hg : g ≠ 0) (l : ℝ) : eps t g l = exp (-(t / g)) * nx (t / g) l / den l := by
  have h : num t g l = 2 * g ^ 2 * nx (t / g) l := by
    unfold num nx; field_simp; ring
  unfold eps
  rw [h, exp_neg]
  by_cases hd : den l = 0
  · rw [hd]; simp
  · have := (exp_pos (t / g)).ne'
    field_simp

/-- **C36** The detection probability is that of the truncated Poisson-Erlang model. -/
theorem C36_efficiency {t g : ℝ} (hg : g ≠ 0) (l : ℝ) : eps t g l = efficiency (t / g) l := by
  rw [eps_eq hg]
  generalize t / g = x
  unfold efficiency poisson tail
  simp only [Finset.sum_range_succ, Finset.sum_range_zero, Nat.factorial]
  have h1 : exp (-l) ≠ 0 := (exp_pos _).ne'
  have hn : exp (-x) * nx x l = 6 * (l * exp (-x) + l ^ 2 / 2 * (exp (-x) * (1 + x)) +
      l ^ 3 / 6 * (exp (-x) * (1 + x + x ^ 2 / 2))) := by unfold nx; ring
  have hd : den l = 6 * (1 + l + l ^ 2 / 2 + l ^ 3 / 6) := by unfold den; ring
  rw [hn, hd, mul_div_mul_left _ _ (by norm_num : (6 : ℝ) ≠ 0), ← mul_div_mul_left _ _ h1]
  congr 1
  · push_cast; ring
  · push_cast; ring

/-- **C36** `_calc_dfunc` is the derivative of `_calc_func`. -/
theorem C36_derivative (nobs nfr t : ℝ) {g l : ℝ} (hg : g ≠ 0) (hl : den l ≠ 0) :
    HasDerivAt (calcFunc nobs nfr t g) (calcDfunc nfr t g l) l := by
  have hE := (exp_pos (t / g)).ne'
  have hnum : HasDerivAt (num t g) ((2 * g ^ 2 * (6 + l * (3 + l)) + 2 * g * l * (3 + l) * t + l ^ 2 * t ^ 2) +
      l * (2 * g ^ 2 * (3 + 2 * l) + 2 * g * l * t + 2 * g * (3 + l) * t + 2 * l * t ^ 2)) l := by
    have hi := hasDerivAt_id l
    have h3 : HasDerivAt (fun x : ℝ => 3 + x) 1 l := by simpa using hi.const_add 3
    have h6 : HasDerivAt (fun x : ℝ => 6 + x * (3 + x)) (1 * (3 + l) + l * 1) l := (hi.mul h3).const_add 6
    have hA := h6.const_mul (2 * g ^ 2)
    have hB := ((hi.const_mul (2 * g)).mul h3).mul_const t
    have hC := (hi.pow 2).mul_const (t ^ 2)
    have := hi.mul ((hA.add hB).add hC)
    have h' : HasDerivAt (num t g) _ l := this
    exact h'.congr_deriv (by
      simp only [Pi.add_apply, Pi.mul_apply, Pi.pow_apply, id, Nat.cast_ofNat, Nat.add_one_sub_one, pow_one]
      ring)
  have hden : HasDerivAt den (6 + l * (3 + l) + l * (3 + 2 * l)) l := by
    have hi := hasDerivAt_id l
    have h3 : HasDerivAt (fun x : ℝ => 3 + x) 1 l := by simpa using hi.const_add 3
    have h6 : HasDerivAt (fun x : ℝ => 6 + x * (3 + x)) (1 * (3 + l) + l * 1) l := (hi.mul h3).const_add 6
    have := (hi.mul h6).const_add 6
    have h' : HasDerivAt den _ l := this
    exact h'.congr_deriv (by simp only [id]; ring)
  have hd := hden.const_mul (2 * exp (t / g) * g ^ 2)
  have hq := (hnum.div hd (by positivity)).const_mul nfr
  have := hq.sub_const nobs
  have h' : HasDerivAt (calcFunc nobs nfr t g) _ l := this
  refine h'.congr_deriv ?_
  unfold calcDfunc num
  have hl' : 6 + l * (6 + l * (3 + l)) ≠ 0 := hl
  unfold den
  field_simp
  ring

/-- The derivative in terms of the likelihood-ratio polynomial. -/
def wx (x l : ℝ) : ℝ :=
  36 + 36 * (1 + x) * l + (18 * (1 + x + x ^ 2 / 2) + 18 * x) * l ^ 2 + 12 * (x + x ^ 2 / 2) * l ^ 3 +
    3 / 2 * x ^ 2 * l ^ 4

theorem dfunc_eq (nfr t : ℝ) {g l : ℝ} (hg : g ≠ 0) (hl : den l ≠ 0) :
    calcDfunc nfr t g l = nfr * exp (-(t / g)) * wx (t / g) l / den l ^ 2 := by
  unfold calcDfunc wx
  have hl' : 6 + l * (6 + l * (3 + l)) ≠ 0 := hl
  have hE := (exp_pos (t / g)).ne'
  rw [exp_neg]
  unfold den
  field_simp
  ring

/-- **C36** The derivative is positive: the iteration never divides by zero at a nonnegative flux. -/
theorem C36_dfunc_pos {nfr t g l : ℝ} (hn : 0 < nfr) (ht : 0 ≤ t) (hg : 0 < g) (hl : 0 ≤ l) : 0 < calcDfunc nfr t g l := by
  rw [dfunc_eq nfr t hg.ne' (den_pos hl).ne']
  have hx : 0 ≤ t / g := div_nonneg ht hg.le
  have hw : 0 < wx (t / g) l := by unfold wx; positivity
  have := den_pos hl
  have := exp_pos (-(t / g))
  positivity

theorem nx_den (x l m : ℝ) : nx x m * den l - nx x l * den m = (m - l) * (
    36 + 18 * (1 + x) * (l + m) + 6 * (1 + x + x ^ 2 / 2) * (l ^ 2 + l * m + m ^ 2) + 18 * x * (l * m) +
    6 * (x + x ^ 2 / 2) * (l * m) * (l + m) + 3 / 2 * x ^ 2 * (l * m) ^ 2) := by
  unfold nx den; ring

/-- **C36** Strictly increasing in the flux. -/
theorem eps_strictMono {t g : ℝ} (ht : 0 ≤ t) (hg : 0 < g) {l m : ℝ} (hl : 0 ≤ l) (h : l < m) : eps t g l < eps t g m := by
  have hx : 0 ≤ t / g := div_nonneg ht hg.le
  rw [eps_eq hg.ne', eps_eq hg.ne', div_lt_div_iff₀ (den_pos hl) (den_pos (hl.trans h.le))]
  have hm : 0 ≤ m := hl.trans h.le
  have key := nx_den (t / g) l m
  have hpos : 0 < (m - l) * (36 + 18 * (1 + t / g) * (l + m) + 6 * (1 + t / g + (t / g) ^ 2 / 2) *
      (l ^ 2 + l * m + m ^ 2) + 18 * (t / g) * (l * m) + 6 * (t / g + (t / g) ^ 2 / 2) * (l * m) * (l + m) +
      3 / 2 * (t / g) ^ 2 * (l * m) ^ 2) := by
    apply mul_pos (by linarith)
    positivity
  have hE := exp_pos (-(t / g))
  nlinarith [mul_pos hE (key ▸ hpos)]

theorem cap_le_one {x : ℝ} (hx : 0 ≤ x) : cap x ≤ 1 := by
  unfold cap
  have h := Real.quadratic_le_exp_of_nonneg hx
  rw [exp_neg, inv_mul_le_iff₀ (exp_pos x)]
  linarith

theorem cap_lt_one {x : ℝ} (hx : 0 < x) : cap x < 1 := by
  unfold cap
  rw [exp_neg, inv_mul_lt_iff₀ (exp_pos x), mul_one]
  have h1 : 1 + x / 2 + (x / 2) ^ 2 / 2 ≤ exp (x / 2) := Real.quadratic_le_exp_of_nonneg (by linarith)
  have h2 : exp x = exp (x / 2) * exp (x / 2) := by rw [← exp_add]; ring_nf
  rw [h2]
  have h3 : (1 + x / 2 + (x / 2) ^ 2 / 2) * (1 + x / 2 + (x / 2) ^ 2 / 2) ≤ exp (x / 2) * exp (x / 2) :=
    mul_self_le_mul_self (by positivity) h1
  have h4 : 0 < x ^ 3 := by positivity
  have h5 : 0 ≤ x ^ 4 := by positivity
  nlinarith

/-- **C36** The detection probability lies between 0 and that of three electrons. -/
theorem C36_bounds {t g l : ℝ} (ht : 0 ≤ t) (hg : 0 < g) (hl : 0 ≤ l) :
    0 ≤ eps t g l ∧ eps t g l < cap (t / g) ∧ cap (t / g) ≤ 1 := by
  have hx : 0 ≤ t / g := div_nonneg ht hg.le
  have hd := den_pos hl
  have hE := exp_pos (-(t / g))
  rw [eps_eq hg.ne']
  refine ⟨?_, ?_, cap_le_one hx⟩
  · have : 0 ≤ nx (t / g) l := by unfold nx; positivity
    positivity
  · unfold cap
    rw [mul_div_assoc]
    apply mul_lt_mul_of_pos_left _ hE
    rw [div_lt_iff₀ hd]
    have : 0 < (1 + t / g + (t / g) ^ 2 / 2) * den l - nx (t / g) l := by
      have e : (1 + t / g + (t / g) ^ 2 / 2) * den l - nx (t / g) l =
          6 * (1 + t / g + (t / g) ^ 2 / 2) + 6 * (t / g + (t / g) ^ 2 / 2) * l + 3 * ((t / g) ^ 2 / 2) * l ^ 2 := by
        unfold den nx; ring
      rw [e]; positivity
    linarith

/-- **C36** At most one nonnegative flux explains the counts. -/
theorem C36_unique {nobs nfr t g l m : ℝ} (hn : 0 < nfr) (ht : 0 ≤ t) (hg : 0 < g) (hl : 0 ≤ l) (hm : 0 ≤ m)
    (h1 : calcFunc nobs nfr t g l = 0) (h2 : calcFunc nobs nfr t g m = 0) : l = m := by
  have e : eps t g l = eps t g m := by
    unfold calcFunc at h1 h2
    have : nfr * eps t g l = nfr * eps t g m := by linarith
    exact mul_left_cancel₀ hn.ne' this
  rcases lt_trichotomy l m with h | h | h
  · exact absurd e (eps_strictMono ht hg hl h).ne
  · exact h
  · exact absurd e (eps_strictMono ht hg hm h).ne'

/-- **C36** A flux explains the counts iff their fraction is below that of three electrons. -/
theorem C36_exists_iff {nobs nfr t g : ℝ} (hn : 0 < nfr) (ht : 0 ≤ t) (hg : 0 < g) :
    (∃ l, 0 ≤ l ∧ calcFunc nobs nfr t g l = 0) ↔ 0 ≤ nobs ∧ nobs / nfr < cap (t / g) := by
  have hx : 0 ≤ t / g := div_nonneg ht hg.le
  constructor
  · rintro ⟨l, hl, h⟩
    obtain ⟨b0, b1, _⟩ := C36_bounds ht hg hl
    have e : nobs / nfr = eps t g l := by
      unfold calcFunc at h
      rw [div_eq_iff hn.ne']; linarith
    refine ⟨?_, e ▸ b1⟩
    have : nobs = nfr * eps t g l := by unfold calcFunc at h; linarith
    rw [this]; positivity
  · rintro ⟨h0, h1⟩
    set f := nobs / nfr with hf
    have hf0 : 0 ≤ f := div_nonneg h0 hn.le
    -- a flux large enough
    set K := exp (-(t / g)) * (6 * (1 + t / g + (t / g) ^ 2 / 2) + 6 * (t / g + (t / g) ^ 2 / 2) + 3 * ((t / g) ^ 2 / 2))
      with hK
    have hKp : 0 < K := by have := exp_pos (-(t / g)); positivity
    obtain ⟨M, hM1, hM2⟩ : ∃ M : ℝ, 1 ≤ M ∧ f ≤ eps t g M := by
      refine ⟨1 + K / (cap (t / g) - f), ?_, ?_⟩
      · have : 0 ≤ K / (cap (t / g) - f) := div_nonneg hKp.le (by linarith)
        linarith
      set M := 1 + K / (cap (t / g) - f) with hM
      have hM1 : 1 ≤ M := by
        have : 0 ≤ K / (cap (t / g) - f) := div_nonneg hKp.le (by linarith)
        linarith
      have hb : K / M ≤ cap (t / g) - f := by
        rw [div_le_iff₀ (by linarith), hM, mul_add, mul_one, mul_div_cancel₀ _ (by linarith)]
        linarith
      have hd := den_pos (show 0 ≤ M by linarith)
      have hE := exp_pos (-(t / g))
      have hlow : cap (t / g) - K / M ≤ eps t g M := by
        rw [eps_eq hg.ne', sub_le_iff_le_add, div_add_div _ _ hd.ne' (by linarith), le_div_iff₀ (mul_pos hd (by linarith))]
        have e : cap (t / g) * (den M * M) - (exp (-(t / g)) * nx (t / g) M * M + den M * K) =
            exp (-(t / g)) * ((6 * (1 + t / g + (t / g) ^ 2 / 2) * M + 6 * (t / g + (t / g) ^ 2 / 2) * M ^ 2 +
              3 * ((t / g) ^ 2 / 2) * M ^ 3) - den M * (6 * (1 + t / g + (t / g) ^ 2 / 2) + 6 * (t / g + (t / g) ^ 2 / 2) +
              3 * ((t / g) ^ 2 / 2))) := by
          rw [hK]; unfold cap den nx; ring
        have h2 : M ≤ den M := by unfold den; nlinarith [sq_nonneg M]
        have h3 : M ^ 2 ≤ den M := by unfold den; nlinarith [sq_nonneg M, mul_nonneg (by linarith : (0:ℝ) ≤ M) (sq_nonneg M)]
        have h4 : M ^ 3 ≤ den M := by unfold den; nlinarith [sq_nonneg M]
        have hneg : (6 * (1 + t / g + (t / g) ^ 2 / 2) * M + 6 * (t / g + (t / g) ^ 2 / 2) * M ^ 2 +
              3 * ((t / g) ^ 2 / 2) * M ^ 3) - den M * (6 * (1 + t / g + (t / g) ^ 2 / 2) + 6 * (t / g + (t / g) ^ 2 / 2) +
              3 * ((t / g) ^ 2 / 2)) ≤ 0 := by
          have c1 : 0 ≤ 6 * (1 + t / g + (t / g) ^ 2 / 2) := by positivity
          have c2 : 0 ≤ 6 * (t / g + (t / g) ^ 2 / 2) := by positivity
          have c3 : 0 ≤ 3 * ((t / g) ^ 2 / 2) := by positivity
          nlinarith [mul_le_mul_of_nonneg_left h2 c1, mul_le_mul_of_nonneg_left h3 c2, mul_le_mul_of_nonneg_left h4 c3]
        have := mul_nonpos_of_nonneg_of_nonpos hE.le hneg
        linarith
      linarith
    have hcont : ContinuousOn (eps t g) (Set.Icc 0 M) := by
      intro l hl
      have hh := C36_derivative 0 1 t hg.ne' (den_pos hl.1).ne'
      have : calcFunc 0 1 t g = eps t g := by funext y; unfold calcFunc; ring
      rw [this] at hh
      exact hh.continuousAt.continuousWithinAt
    have h00 : eps t g 0 = 0 := by unfold eps num; simp
    obtain ⟨l, hl, hle⟩ := intermediate_value_Icc (by linarith : (0 : ℝ) ≤ M) hcont ⟨by rw [h00]; exact hf0, hM2⟩
    refine ⟨l, hl.1, ?_⟩
    unfold calcFunc
    rw [hle, hf, mul_div_cancel₀ _ hn.ne', sub_self]

/-- **C36** No flux explains a pixel detected in every frame (threshold above 0). -/
theorem C36_saturated {n t g : ℝ} (hn : 0 < n) (ht : 0 < t) (hg : 0 < g) : ¬ ∃ l, 0 ≤ l ∧ calcFunc n n t g l = 0 := by
  rw [C36_exists_iff hn ht.le hg, div_self hn.ne']
  rintro ⟨_, h⟩
  exact absurd (cap_lt_one (div_pos ht hg)) (not_lt.2 h.le)

/-- **C36** `varL23` uses the same detection probability. -/
theorem C36_same_efficiency {T g : ℝ} (hg : g ≠ 0) (L : ℝ) : eThresh g L T = eps T g L := by
  unfold eThresh eps num den
  rw [show -T / g = -(T / g) by ring, exp_neg]
  have := (exp_pos (T / g)).ne'
  by_cases hd : 6 + L * (6 + L * (3 + L)) = 0
  · rw [hd]; simp
  · field_simp
    ring

/-- Third-order series of the flux in the fraction `u = e^x y / N` of detections. -/
def series (x u : ℝ) : ℝ := u + (1 - x) / 2 * u ^ 2 + (4 - 8 * x + 5 * x ^ 2) / 12 * u ^ 3

/-- **C36** The series inverts the detection probability to third order: the error is of fourth order in `u`. -/
theorem C36_series (x : ℝ) : ∃ p : Polynomial ℝ, ∀ u, nx x (series x u) - u * den (series x u) = u ^ 4 * p.eval u := by
  refine ⟨Polynomial.C ((-7/4) * x ^ 0 + (17/4) * x ^ 1 + (-11/2) * x ^ 2 + (5/2) * x ^ 3) * Polynomial.X ^ 0 +
    Polynomial.C ((-3/2) * x ^ 0 + (13/4) * x ^ 1 + (-29/8) * x ^ 2 + (9/4) * x ^ 3 + (-1/4) * x ^ 4) * Polynomial.X ^ 1 +
    Polynomial.C ((-31/24) * x ^ 0 + (13/4) * x ^ 1 + (-173/48) * x ^ 2 + (37/16) * x ^ 3 + (-17/24) * x ^ 4 + (-1/6) * x ^ 5) * Polynomial.X ^ 2 +
    Polynomial.C ((-7/8) * x ^ 0 + (71/24) * x ^ 1 + (-197/48) * x ^ 2 + (45/16) * x ^ 3 + (-59/96) * x ^ 4 + (-9/16) * x ^ 5 + (5/12) * x ^ 6) * Polynomial.X ^ 3 +
    Polynomial.C ((-5/12) * x ^ 0 + (5/3) * x ^ 1 + (-131/48) * x ^ 2 + (53/24) * x ^ 3 + (-25/32) * x ^ 4 + (-1/8) * x ^ 5 + (55/192) * x ^ 6 + (-25/192) * x ^ 7) * Polynomial.X ^ 4 +
    Polynomial.C ((-7/54) * x ^ 0 + (35/54) * x ^ 1 + (-37/27) * x ^ 2 + (83/54) * x ^ 3 + (-799/864) * x ^ 4 + (187/864) * x ^ 5 + (155/1728) * x ^ 6 + (-175/1728) * x ^ 7 + (125/3456) * x ^ 8) * Polynomial.X ^ 5 +
    Polynomial.C ((-1/27) * x ^ 0 + (2/9) * x ^ 1 + (-7/12) * x ^ 2 + (23/27) * x ^ 3 + (-35/48) * x ^ 4 + (25/72) * x ^ 5 + (-125/1728) * x ^ 6) * Polynomial.X ^ 6, fun u => ?_⟩
  simp only [Polynomial.eval_add, Polynomial.eval_mul, Polynomial.eval_C, Polynomial.eval_pow, Polynomial.eval_X]
  unfold nx den series
  ring

/-- **C36** The variance is the binomial variance of the counts times the squared slope of that series. -/
theorem C36_variance {T g N L : ℝ} (hg : 0 < g) (hT : 0 ≤ T) (hN : 0 < N) (hL : 0 ≤ L) :
    varL23 g L T N = N * eps T g L * (1 - eps T g L) *
      (deriv (fun y => series (T / g) (exp (T / g) * y / N)) (N * eps T g L)) ^ 2 := by
  obtain ⟨b0, b1, b2⟩ := C36_bounds hT hg hL
  have hser : HasDerivAt (fun y => series (T / g) (exp (T / g) * y / N))
      (exp (T / g) / N * (1 + (1 - T / g) * (exp (T / g) * eps T g L) +
        (4 - 8 * (T / g) + 5 * (T / g) ^ 2) / 4 * (exp (T / g) * eps T g L) ^ 2)) (N * eps T g L) := by
    have hu : HasDerivAt (fun y : ℝ => exp (T / g) * y / N) (exp (T / g) * 1 / N) (N * eps T g L) :=
      ((hasDerivAt_id _).const_mul _).div_const _
    have := (hu.add ((hu.pow 2).const_mul ((1 - T / g) / 2))).add
      ((hu.pow 3).const_mul ((4 - 8 * (T / g) + 5 * (T / g) ^ 2) / 12))
    have h' : HasDerivAt (fun y => series (T / g) (exp (T / g) * y / N)) _ (N * eps T g L) := this
    refine h'.congr_deriv ?_
    simp only [Nat.cast_ofNat]
    field_simp
    ring
  rw [hser.deriv]
  unfold varL23
  rw [C36_same_efficiency hg.ne', Real.sq_sqrt (by
    have : 0 ≤ 1 - eps T g L := by linarith
    positivity)]
  congr 2
  have e2 : exp (2 * T / g) = exp (T / g) ^ 2 := by rw [← exp_nat_mul]; congr 1; push_cast; ring
  have e3 : exp (3 * T / g) = exp (T / g) ^ 3 := by rw [← exp_nat_mul]; congr 1; push_cast; ring
  rw [e2, e3]
  field_simp
  ring

/-- **C36** The starting estimate solves the zeroth-order coincidence equation whenever that has a solution, and is the
fraction of detections otherwise. -/
theorem C36_start {nobs nfr : ℕ} (hn : nfr ≠ 0) (t g : ℝ) :
    (∀ l, exp (-(t / g)) * (1 - exp (-l)) = (nobs : ℝ) / nfr ↔ (0 < 1 - ((nobs : ℝ) / nfr) * exp (t / g) ∧
      lamApprox nobs nfr t g = some l)) ∧
    ((∀ l, exp (-(t / g)) * (1 - exp (-l)) ≠ (nobs : ℝ) / nfr) → lamApprox nobs nfr t g = some ((nobs : ℝ) / nfr)) := by
  have key : ∀ l, exp (-(t / g)) * (1 - exp (-l)) = (nobs : ℝ) / nfr ↔ exp (-l) = 1 - ((nobs : ℝ) / nfr) * exp (t / g) := by
    intro l
    rw [exp_neg (t / g), inv_mul_eq_iff_eq_mul₀ (exp_pos _).ne']
    constructor <;> intro h <;> linarith
  have first : ∀ l, exp (-(t / g)) * (1 - exp (-l)) = (nobs : ℝ) / nfr ↔ (0 < 1 - ((nobs : ℝ) / nfr) * exp (t / g) ∧
      lamApprox nobs nfr t g = some l) := by
    intro l
    rw [key]
    unfold lamApprox
    rw [if_neg hn]
    dsimp only
    constructor
    · intro h
      have hp : 0 < 1 - ((nobs : ℝ) / nfr) * exp (t / g) := h ▸ exp_pos _
      refine ⟨hp, ?_⟩
      rw [if_pos hp, ← h, log_exp, neg_neg]
    · rintro ⟨hp, h⟩
      rw [if_pos hp, Option.some.injEq] at h
      rw [← h, neg_neg, exp_log hp]
  refine ⟨first, fun h => ?_⟩
  by_cases hp : 0 < 1 - ((nobs : ℝ) / nfr) * exp (t / g)
  · exfalso
    apply h (-log (1 - ((nobs : ℝ) / nfr) * exp (t / g)))
    rw [key, neg_neg, exp_log hp]
  · unfold lamApprox
    rw [if_neg hn]
    dsimp only
    rw [if_neg hp]

/-- **C36** No counts (also: no unmasked frame) gives 0. -/
theorem C36_zero_counts (nfr : ℕ) (t g : ℝ) {niter : ℕ} (h : 1 ≤ niter) : (newtonLoop 0 nfr t g niter).masked = true := by
  unfold newtonLoop
  obtain ⟨n, rfl⟩ := Nat.exists_eq_add_of_le' h
  rw [Function.iterate_succ_apply']
  unfold newtonStep
  simp

/-- Without a frame there is no start value. -/
theorem C36_no_frames (nobs : ℕ) (t g : ℝ) : lamApprox nobs 0 t g = none := by simp [lamApprox]

theorem newtonLoop_zero {nfr : ℕ} (hn : nfr ≠ 0) (t g : ℝ) (niter : ℕ) : newtonLoop 0 nfr t g niter = ⟨some 0, true⟩ := by
  have h0 : lamApprox 0 nfr t g = some 0 := by
    unfold lamApprox
    rw [if_neg hn]
    simp
  unfold newtonLoop
  rw [h0]
  simp only [decide_true]
  induction niter with
  | zero => rfl
  | succ n ih =>
    rw [Function.iterate_succ_apply', ih]
    unfold newtonStep
    simp

/-- **C36** A fixed point of the iteration is an exact solution, and a solution is a fixed point. -/
theorem C36_fixed_point {nobs nfr : ℕ} {t g l : ℝ} (ho : nobs ≠ 0) (hn : nfr ≠ 0) (ht : 0 ≤ t) (hg : 0 < g) (hl : 0 ≤ l) :
    newtonStep nobs nfr t g ⟨some l, false⟩ = ⟨some l, false⟩ ↔ calcFunc nobs nfr t g l = 0 := by
  have hn' : (0 : ℝ) < nfr := by exact_mod_cast Nat.pos_of_ne_zero hn
  have hd := C36_dfunc_pos hn' ht hg hl
  unfold newtonStep
  rw [if_neg (by simp [ho])]
  dsimp only
  rw [if_neg (by rw [not_or]; exact ⟨(den_pos hl).ne', hd.ne'⟩)]
  simp only [Elem.mk.injEq, Option.some.injEq, and_true]
  constructor
  · intro h
    have : calcFunc nobs nfr t g l / calcDfunc nfr t g l = 0 := by linarith
    rcases div_eq_zero_iff.1 this with h | h
    · exact h
    · exact absurd h hd.ne'
  · intro h; rw [h]; simp

/-! ## C51: negative counts -/

/-- Far below zero the objective and its derivative are positive, so that the iteration moves further away. -/
theorem newton_diverges {x d l : ℝ} (hx0 : 0.5 < x) (hx1 : x < 0.7) (hd0 : 0 < d) (hd1 : d < 1) (hex : exp x = 2 - 2 * d)
    (hl : l ≤ -20) : den l < 0 ∧ 0 < calcDfunc ((2 : ℕ) : ℝ) x 1 l ∧ 0 < calcFunc ((1 : ℕ) : ℝ) ((2 : ℕ) : ℝ) x 1 l := by
  obtain ⟨s, hs, rfl⟩ : ∃ s, 0 ≤ s ∧ l = -20 - s := ⟨-20 - l, by linarith, by ring⟩
  have hden : den (-20 - s) < 0 := by
    have : den (-20 - s) = -(6914 + 1086 * s + 57 * s ^ 2 + s ^ 3) := by unfold den; ring
    rw [this, neg_lt_zero]; positivity
  obtain ⟨y, hy, rfl⟩ : ∃ y, 0 ≤ y ∧ x = 0.5 + y := ⟨x - 0.5, by linarith, by ring⟩
  have hw : 0 < wx (0.5 + y) (-20 - s) := by
    have : wx (0.5 + y) (-20 - s) = 14256 + 113280 * y + 195600 * y ^ 2 + s * (4476 + 28164 * y + 41160 * y ^ 2) +
        s ^ 2 * (1953 / 4 + 2565 * y + 3249 * y ^ 2) + s ^ 3 * (45 / 2 + 102 * y + 114 * y ^ 2) +
        s ^ 4 * (3 / 8 + 3 / 2 * y + 3 / 2 * y ^ 2) := by
      unfold wx; ring
    rw [this]; positivity
  have hn : nx (0.5 + y) (-20 - s) < den (-20 - s) := by
    have : den (-20 - s) - nx (0.5 + y) (-20 - s) = 6 + (20 + s) ^ 2 * (11 + 0.625 * s + (27 + 1.5 * s) * y +
        (10 + 0.5 * s) * y ^ 2) := by
      unfold den nx; ring
    have h2 : 0 < den (-20 - s) - nx (0.5 + y) (-20 - s) := by rw [this]; positivity
    linarith
  have hd' : 0 < 1 - d := by linarith
  have h2 : (2 - 2 * d)⁻¹ = 1 / (2 * (1 - d)) := by rw [one_div]; congr 1; ring
  refine ⟨hden, ?_, ?_⟩
  · rw [dfunc_eq _ _ (by norm_num) hden.ne, div_one, exp_neg, hex, h2]
    have : 0 < den (-20 - s) ^ 2 := sq_pos_iff.2 hden.ne
    positivity
  · unfold calcFunc
    rw [eps_eq (by norm_num), div_one, exp_neg, hex, h2]
    have hq : 1 < nx (0.5 + y) (-20 - s) / den (-20 - s) := by rw [one_lt_div_of_neg hden]; exact hn
    have : ((2 : ℕ) : ℝ) * (1 / (2 * (1 - d)) * nx (0.5 + y) (-20 - s) / den (-20 - s)) - ((1 : ℕ) : ℝ) =
        (nx (0.5 + y) (-20 - s) / den (-20 - s) - (1 - d)) / (1 - d) := by
      push_cast; field_simp
    rw [this]
    apply div_pos _ hd'
    linarith

/-- **C51** One detection in two frames and a threshold below the gain, a solution exists, and the result is negative
for every number of iterations: the starting estimate is far above the solution, where the efficiency is nearly flat, the
first step is negative and the following ones diverge. -/
theorem C51_negative : ∃ t g : ℝ, 0 < t ∧ t < g ∧ (∃ l, 0 ≤ l ∧ calcFunc (1 : ℕ) (2 : ℕ) t g l = 0) ∧
    ∀ niter, 1 ≤ niter → corrPhotonCount [(1, 2, true)] t g niter = .error .negative := by
  classical
  set d := exp (-10 : ℝ) with hd
  have hd0 : 0 < d := exp_pos _
  have hd1 : d < 1 / 100 := by
    have h1 : d = (exp (-1 : ℝ)) ^ 10 := by rw [hd, ← exp_nat_mul]; norm_num
    have h2 : exp (-1 : ℝ) < 0.3678794412 := Real.exp_neg_one_lt_d9
    rw [h1]
    calc exp (-1 : ℝ) ^ 10 ≤ (0.4 : ℝ) ^ 10 := by
          apply pow_le_pow_left₀ (exp_pos _).le; linarith
      _ < 1 / 100 := by norm_num
  set x := log (2 - 2 * d) with hx
  have hpos : 0 < 2 - 2 * d := by linarith
  have hex : exp x = 2 - 2 * d := exp_log hpos
  have hx1 : x < 0.7 := by
    have : x < log 2 := log_lt_log hpos (by linarith)
    have := Real.log_two_lt_d9
    linarith
  have hx0 : 0.5 < x := by
    rw [hx, lt_log_iff_exp_lt hpos]
    have h1 : exp (0.5 : ℝ) * exp 0.5 = exp 1 := by rw [← exp_add]; norm_num
    have h2 := Real.exp_one_lt_d9
    by_contra hcon
    push Not at hcon
    have h3 : (1.9 : ℝ) ≤ exp 0.5 := by linarith
    nlinarith
  refine ⟨x, 1, by linarith, by linarith, ?_, ?_⟩
  · rw [C36_exists_iff (by norm_num) (by linarith) (by norm_num)]
    refine ⟨by norm_num, ?_⟩
    rw [div_one]
    unfold cap
    rw [exp_neg, hex]
    have : (1 : ℝ) / 2 < (2 - 2 * d)⁻¹ * (1 + x + x ^ 2 / 2) := by
      rw [inv_mul_eq_div, lt_div_iff₀ hpos]
      nlinarith [sq_nonneg x]
    simpa using this
  · have hinit : 1 - ((1 : ℕ) : ℝ) / ((2 : ℕ) : ℝ) * exp (x / 1) = d := by
      rw [div_one, hex]; push_cast; ring
    have hlam : lamApprox 1 2 x 1 = some 10 := by
      unfold lamApprox
      rw [if_neg (by norm_num)]
      dsimp only
      rw [hinit, if_pos hd0, hd, log_exp]
      norm_num
    have hden : den (10 : ℝ) = 1366 := by unfold den; norm_num
    have hdf := C36_dfunc_pos (nfr := ((2 : ℕ) : ℝ)) (t := x) (g := 1) (l := 10) (by norm_num) (by linarith) (by norm_num)
      (by norm_num)
    have hneg : 10 - calcFunc ((1 : ℕ) : ℝ) ((2 : ℕ) : ℝ) x 1 10 / calcDfunc ((2 : ℕ) : ℝ) x 1 10 ≤ -20 := by
      have : 30 ≤ calcFunc ((1 : ℕ) : ℝ) ((2 : ℕ) : ℝ) x 1 10 / calcDfunc ((2 : ℕ) : ℝ) x 1 10 := by
        rw [le_div_iff₀ hdf, dfunc_eq _ _ (by norm_num) (by rw [hden]; norm_num)]
        unfold calcFunc
        rw [eps_eq (by norm_num), hden, div_one, exp_neg, hex]
        have h2 : (2 - 2 * d)⁻¹ = 1 / (2 * (1 - d)) := by rw [one_div]; congr 1; ring
        rw [h2]
        have h1d : 0 < 1 - d := by linarith
        have hlhs : (30 : ℝ) * (((2 : ℕ) : ℝ) * (1 / (2 * (1 - d))) * wx x 10 / 1366 ^ 2) =
            30 * wx x 10 / 1366 ^ 2 / (1 - d) := by push_cast; field_simp
        have hrhs : ((2 : ℕ) : ℝ) * (1 / (2 * (1 - d)) * nx x 10 / 1366) - ((1 : ℕ) : ℝ) =
            (nx x 10 / 1366 - (1 - d)) / (1 - d) := by push_cast; field_simp
        rw [hlhs, hrhs, div_le_div_iff_of_pos_right h1d]
        unfold wx nx
        nlinarith [sq_nonneg x]
      linarith
    have hstep : ∀ n : ℕ, ∃ l, l ≤ -20 ∧ newtonLoop 1 2 x 1 (n + 1) = ⟨some l, false⟩ := by
      intro n
      induction n with
      | zero =>
        refine ⟨_, hneg, ?_⟩
        unfold newtonLoop
        rw [Function.iterate_one, hlam]
        unfold newtonStep
        rw [if_neg (by simp)]
        dsimp only
        rw [if_neg (by rw [not_or]; exact ⟨by rw [hden]; norm_num, hdf.ne'⟩)]
        simp
      | succ n ih =>
        obtain ⟨l, hl, hn⟩ := ih
        obtain ⟨h1, h2, h3⟩ := newton_diverges hx0 hx1 hd0 (by linarith) hex hl
        refine ⟨l - calcFunc ((1 : ℕ) : ℝ) ((2 : ℕ) : ℝ) x 1 l / calcDfunc ((2 : ℕ) : ℝ) x 1 l, ?_, ?_⟩
        · have := div_pos h3 h2
          linarith
        · unfold newtonLoop at hn ⊢
          rw [Function.iterate_succ_apply', hn]
          unfold newtonStep
          rw [if_neg (by simp)]
          dsimp only
          rw [if_neg (by rw [not_or]; exact ⟨h1.ne, h2.ne'⟩)]
    intro niter hni
    obtain ⟨n, rfl⟩ := Nat.exists_eq_add_of_le' hni
    obtain ⟨l, hl, hn⟩ := hstep n
    unfold corrPhotonCount
    simp only [List.map_cons, List.map_nil, hn, List.any_cons, List.any_nil, List.all_cons, List.all_nil]
    have : l < 0 := by linarith
    simp [this]

end Corgi.Pc

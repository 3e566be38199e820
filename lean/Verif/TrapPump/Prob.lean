import Mathlib.Analysis.SpecialFunctions.ExpDeriv
import Mathlib.Analysis.SpecialFunctions.Log.Basic
import Mathlib.Analysis.Calculus.LocalExtr.Basic
import Mathlib.Tactic.Linarith
import Mathlib.Tactic.Ring
import Mathlib.Tactic.NormNum
import Mathlib.Tactic.Positivity

/-!
# Amplitude curves of pumped traps (pump_trap_calibration.py 31-186, 1327-1468): model and C109

Times and constants are real numbers. The curves of `trap_fit_const` take the capture probability itself, those of
`trap_fit` the time constant of capture.
-/

namespace Corgi.TrapProb

open Real

/-- Line 44 and its copies. -/
noncomputable def capture (tauc t : ℝ) : ℝ := 1 - exp (-t / tauc)

/-- Lines 45-46, 84-85, 143-144: the bracket of the three curves. -/
noncomputable def emit1 (tau t : ℝ) : ℝ := exp (-t / tau) - exp (-2 * t / tau)
noncomputable def emit2 (tau t : ℝ) : ℝ := exp (-2 * t / tau) - exp (-3 * t / tau)
noncomputable def emit3 (tau t : ℝ) : ℝ := exp (-t / tau) - exp (-4 * t / tau)

/-- Lines 1327-1341, 1362-1376, 1416-1430: one trap, constant capture. -/
noncomputable def const (emit : ℝ → ℝ → ℝ) (n off pc tau t : ℝ) : ℝ := off + n * pc * emit tau t

/-- Lines 31-46, 70-85, 129-144: one trap, full time dependence. -/
noncomputable def full (emit : ℝ → ℝ → ℝ) (n off tauc tau t : ℝ) : ℝ := off + n * capture tauc t * emit tau t

/-- `P1_P1`, `P1_P2`, `P2_P2`, `P3_P3`, `P2_P3`, lines 48-68, 87-127, 146-186. -/
noncomputable def full2 (e e' : ℝ → ℝ → ℝ) (n off tauc tau tauc2 tau2 t : ℝ) : ℝ :=
  off + n * capture tauc t * e tau t + n * capture tauc2 t * e' tau2 t

/-- The copies in `trap_fit_const`, lines 1343-1360, 1378-1414, 1432-1468. -/
noncomputable def const2 (e e' : ℝ → ℝ → ℝ) (n off pc tau pc2 tau2 t : ℝ) : ℝ :=
  off + n * pc * e tau t + n * pc2 * e' tau2 t

/-- What the calibration assumes of a curve: its only maximum is `m`, at `t0`. -/
def IsPeak (f : ℝ → ℝ) (t0 m : ℝ) : Prop := f t0 = m ∧ ∀ t, t ≠ t0 → f t < m

/-- Time of the peak in units of tau, lines 910, 937, 1138. -/
noncomputable def at1 : ℝ := log 2
noncomputable def at2 : ℝ := log (3 / 2)
noncomputable def at3 : ℝ := 2 * log 2 / 3

/-! ## Brackets as polynomials -/

theorem exp_mul' (k : ℕ) (t tau : ℝ) : exp (-(k : ℝ) * t / tau) = exp (-t / tau) ^ k := by
  rw [← Real.exp_nat_mul]; congr 1; ring

theorem emit1_eq (tau t : ℝ) : emit1 tau t = exp (-t / tau) - exp (-t / tau) ^ 2 := by
  unfold emit1; rw [← exp_mul' 2]; norm_num

theorem emit2_eq (tau t : ℝ) : emit2 tau t = exp (-t / tau) ^ 2 - exp (-t / tau) ^ 3 := by
  unfold emit2; rw [← exp_mul' 2, ← exp_mul' 3]; norm_num

theorem emit3_eq (tau t : ℝ) : emit3 tau t = exp (-t / tau) - exp (-t / tau) ^ 4 := by
  unfold emit3; rw [← exp_mul' 4]; norm_num

theorem exp_eq_iff {tau t a : ℝ} (h : 0 < tau) : exp (-t / tau) = exp (-a) ↔ t = tau * a := by
  rw [Real.exp_eq_exp, neg_div, neg_inj, div_eq_iff h.ne', mul_comm]

/-- `exp (-at3)`; its cube is 1/4. -/
noncomputable def c3 : ℝ := exp (-at3)

theorem c3_pos : 0 < c3 := exp_pos _

theorem c3_cube : c3 ^ 3 = 1 / 4 := by
  unfold c3 at3
  rw [← Real.exp_nat_mul]
  have : (((3 : ℕ) : ℝ) * -(2 * log 2 / 3)) = -(log 2 + log 2) := by push_cast; ring
  rw [this, Real.exp_neg, Real.exp_add, Real.exp_log (by norm_num)]
  norm_num

theorem exp_at1 : exp (-at1) = 1 / 2 := by
  unfold at1; rw [Real.exp_neg, Real.exp_log (by norm_num)]; norm_num

theorem exp_at2 : exp (-at2) = 2 / 3 := by
  unfold at2; rw [Real.exp_neg, Real.exp_log (by norm_num)]; norm_num

/-! ## Peaks -/

/-- Function 1 peaks at `tau * ln 2`, with 1/4. -/
theorem C109_peak1 {tau : ℝ} (h : 0 < tau) : IsPeak (emit1 tau) (tau * at1) (1 / 4) := by
  constructor
  · rw [emit1_eq, (exp_eq_iff h).2 rfl, exp_at1]; norm_num
  · intro t ht
    have hx : exp (-t / tau) ≠ 1 / 2 := fun e => ht ((exp_eq_iff h).1 (by rw [exp_at1]; exact e))
    rw [emit1_eq]
    have : 0 < (exp (-t / tau) - 1 / 2) ^ 2 := by have := sub_ne_zero.2 hx; positivity
    nlinarith

/-- Function 2 peaks at `tau * ln (3/2)`, with 4/27. -/
theorem C109_peak2 {tau : ℝ} (h : 0 < tau) : IsPeak (emit2 tau) (tau * at2) (4 / 27) := by
  constructor
  · rw [emit2_eq, (exp_eq_iff h).2 rfl, exp_at2]; norm_num
  · intro t ht
    have hx : exp (-t / tau) ≠ 2 / 3 := fun e => ht ((exp_eq_iff h).1 (by rw [exp_at2]; exact e))
    rw [emit2_eq]
    have h0 := exp_pos (-t / tau)
    have : 0 < (exp (-t / tau) - 2 / 3) ^ 2 * (exp (-t / tau) + 1 / 3) := by
      have := sub_ne_zero.2 hx; positivity
    nlinarith

/-- Function 3 peaks at `tau * (2 ln 2) / 3`, with 3/4 of the cube root of 1/4. -/
theorem C109_peak3 {tau : ℝ} (h : 0 < tau) : IsPeak (emit3 tau) (tau * at3) (3 / 4 * c3) := by
  constructor
  · rw [emit3_eq, (exp_eq_iff h).2 rfl]
    show c3 - c3 ^ 4 = _
    have := c3_cube
    have e : c3 ^ 4 = c3 * c3 ^ 3 := by ring
    rw [e, this]; ring
  · intro t ht
    have hx : exp (-t / tau) ≠ c3 := fun e => ht ((exp_eq_iff h).1 e)
    rw [emit3_eq]
    have h0 := exp_pos (-t / tau)
    have hc := c3_pos
    generalize exp (-t / tau) = x at *
    have : 0 < (x - c3) ^ 2 * (x ^ 2 + 2 * c3 * x + 3 * c3 ^ 2) := by
      have := sub_ne_zero.2 hx; positivity
    have e : (x - c3) ^ 2 * (x ^ 2 + 2 * c3 * x + 3 * c3 ^ 2) = x ^ 4 - 4 * c3 ^ 3 * x + 3 * (c3 * c3 ^ 3) := by ring
    rw [e, c3_cube] at this
    linarith

/-- The three brackets with the times and heights of their peaks. -/
inductive Curve : (ℝ → ℝ → ℝ) → ℝ → ℝ → Prop
  | one : Curve emit1 (log 2) (1 / 4)
  | two : Curve emit2 (log (3 / 2)) (4 / 27)
  | three : Curve emit3 (2 * log 2 / 3) (3 / 4 * c3)

theorem Curve.peak {e a m} (hc : Curve e a m) {tau : ℝ} (h : 0 < tau) : IsPeak (e tau) (tau * a) m := by
  cases hc
  · exact C109_peak1 h
  · exact C109_peak2 h
  · exact C109_peak3 h

theorem Curve.pos {e a m} (hc : Curve e a m) : 0 < a ∧ 0 < m := by
  cases hc
  · exact ⟨log_pos (by norm_num), by norm_num⟩
  · exact ⟨log_pos (by norm_num), by norm_num⟩
  · refine ⟨?_, by have := c3_pos; positivity⟩
    have : 0 < log 2 := log_pos (by norm_num)
    positivity

/-- With constant capture (`trap_fit_const`) the time of the peak divided by ln 2, ln (3/2) or (2 ln 2)/3 is tau, and
the height of the peak is the number of pumps times the probability factor of lines 2449-2452. -/
theorem C109_constant_partial {e a m} (hc : Curve e a m) {n off pc tau : ℝ} (h : 0 < tau) (hn : 0 < n) (hp : 0 < pc) :
    IsPeak (const e n off pc tau) (tau * a) (off + n * pc * m) := by
  obtain ⟨h1, h2⟩ := hc.peak h
  refine ⟨by unfold const; rw [h1], fun t ht => ?_⟩
  unfold const
  have := h2 t ht
  have : n * pc * e tau t < n * pc * m := by apply mul_lt_mul_of_pos_left this; positivity
  linarith

/-- tau is recovered from the peak of a constant-capture curve, whatever the other parameters. -/
theorem C109_recover {e a m} (hc : Curve e a m) {n off pc tau tp : ℝ} (h : 0 < tau) (hn : 0 < n) (hp : 0 < pc)
    (hmax : ∀ t, const e n off pc tau t ≤ const e n off pc tau tp) : tp / a = tau := by
  obtain ⟨h1, h2⟩ := C109_constant_partial hc h hn hp (off := off)
  by_contra hne
  have : tp ≠ tau * a := fun hh => hne (by rw [hh, mul_div_assoc, div_self hc.pos.1.ne', mul_one])
  have := h2 tp this
  have := hmax (tau * a)
  rw [h1] at this
  linarith

/-! ## Time dependent capture -/

theorem capture_mono {tauc s t : ℝ} (h : 0 < tauc) (hst : s < t) : capture tauc s < capture tauc t := by
  unfold capture
  have : exp (-t / tauc) < exp (-s / tauc) := by
    rw [Real.exp_lt_exp]; apply div_lt_div_of_pos_right _ h; linarith
  linarith

theorem capture_lt_one (tauc t : ℝ) : capture tauc t < 1 := by
  unfold capture; have := exp_pos (-t / tauc); linarith

theorem capture_pos {tauc t : ℝ} (h : 0 < tauc) (ht : 0 < t) : 0 < capture tauc t := by
  have := capture_mono h ht
  simpa [capture] using this

theorem capture_deriv (tauc t : ℝ) : HasDerivAt (capture tauc) (exp (-t / tauc) / tauc) t := by
  have h1 : HasDerivAt (fun t : ℝ => -t / tauc) (-1 / tauc) t := ((hasDerivAt_id t).neg).div_const tauc
  have h2 := (h1.exp).const_sub 1
  have : capture tauc = fun t => 1 - exp (-t / tauc) := rfl
  rw [this]
  exact h2.congr_deriv (by ring)

theorem emit_differentiable {e a m} (hc : Curve e a m) (tau t : ℝ) : DifferentiableAt ℝ (e tau) t := by
  cases hc
  · have : emit1 tau = fun t => exp (-t / tau) - exp (-2 * t / tau) := rfl
    rw [this]; fun_prop
  · have : emit2 tau = fun t => exp (-2 * t / tau) - exp (-3 * t / tau) := rfl
    rw [this]; fun_prop
  · have : emit3 tau = fun t => exp (-t / tau) - exp (-4 * t / tau) := rfl
    rw [this]; fun_prop

theorem emit_nonneg {e a m} (hc : Curve e a m) {tau t : ℝ} (h : 0 < tau) (ht : 0 ≤ t) : 0 ≤ e tau t := by
  have hle : ∀ a b : ℝ, a ≤ b → exp (-b * t / tau) ≤ exp (-a * t / tau) := by
    intro a b hab
    rw [Real.exp_le_exp]; apply div_le_div_of_nonneg_right _ h.le
    nlinarith
  cases hc
  · have := hle 1 2 (by norm_num); unfold emit1; norm_num at this ⊢; linarith
  · have := hle 2 3 (by norm_num); unfold emit2; norm_num at this ⊢; linarith
  · have := hle 1 4 (by norm_num); unfold emit3; norm_num at this ⊢; linarith

/-- With time dependent capture (`trap_fit`) the curve rises up to the assumed time of the peak and beyond: every
phase time at which the amplitude is greatest is later. -/
theorem C109_violated_late {e a m} (hc : Curve e a m) {n off tauc tau : ℝ} (h : 0 < tau) (hn : 0 < n) (hp : 0 < tauc) :
    (∀ t, 0 ≤ t → t < tau * a → full e n off tauc tau t < full e n off tauc tau (tau * a)) ∧
    ∃ t, tau * a < t ∧ full e n off tauc tau (tau * a) < full e n off tauc tau t := by
  obtain ⟨h1, h2⟩ := hc.peak h
  obtain ⟨ha, hm⟩ := hc.pos
  have ht0 : 0 < tau * a := mul_pos h ha
  have hlow : ∀ t, 0 ≤ t → t < tau * a → full e n off tauc tau t < full e n off tauc tau (tau * a) := by
    intro t ht hlt
    unfold full
    have c0 : 0 ≤ capture tauc t := by
      rcases ht.eq_or_lt with rfl | h'
      · simp [capture]
      · exact (capture_pos hp h').le
    have c1 := capture_mono hp hlt
    have e0 := emit_nonneg hc h ht
    have e1 := h2 t hlt.ne
    rw [h1]
    have : capture tauc t * e tau t < capture tauc (tau * a) * m :=
      calc capture tauc t * e tau t ≤ capture tauc t * m := mul_le_mul_of_nonneg_left e1.le c0
        _ < _ := mul_lt_mul_of_pos_right c1 hm
    have := mul_lt_mul_of_pos_left this hn
    nlinarith
  refine ⟨hlow, ?_⟩
  by_contra hno
  push Not at hno
  have hloc : IsLocalMax (full e n off tauc tau) (tau * a) := by
    filter_upwards [lt_mem_nhds ht0] with t ht
    rcases lt_trichotomy t (tau * a) with hlt | rfl | hgt
    · exact (hlow t ht.le hlt).le
    · exact le_rfl
    · exact hno t hgt
  have hge : IsLocalMax (e tau) (tau * a) := by
    filter_upwards with t
    rw [h1]
    by_cases hh : t = tau * a
    · rw [hh, h1]
    · exact (h2 t hh).le
  have hd := (emit_differentiable hc tau (tau * a)).hasDerivAt
  rw [hge.deriv_eq_zero] at hd
  have hf : HasDerivAt (full e n off tauc tau)
      (n * (exp (-(tau * a) / tauc) / tauc) * e tau (tau * a) + n * capture tauc (tau * a) * 0) (tau * a) := by
    have := ((((capture_deriv tauc (tau * a)).const_mul n).mul hd)).const_add off
    exact this
  have := hloc.hasDerivAt_eq_zero hf
  rw [h1] at this
  have hpos : 0 < n * (exp (-(tau * a) / tauc) / tauc) * m := by
    have := exp_pos (-(tau * a) / tauc)
    positivity
  linarith

/-- So the estimate of lines 910-1191 made from the peak of such a curve is too large. -/
theorem C109_violated_estimate {e a m} (hc : Curve e a m) {n off tauc tau tp : ℝ} (h : 0 < tau) (hn : 0 < n)
    (hp : 0 < tauc) (h0 : 0 ≤ tp) (hmax : ∀ t, 0 ≤ t → full e n off tauc tau t ≤ full e n off tauc tau tp) :
    tau < tp / a := by
  obtain ⟨hlow, t, ht, hgt⟩ := C109_violated_late hc h hn hp (off := off)
  have ha := hc.pos.1
  rw [lt_div_iff₀ ha]
  rcases lt_trichotomy tp (tau * a) with hlt | rfl | h'
  · have := hlow tp h0 hlt
    have := hmax (tau * a) (mul_pos h ha).le
    linarith
  · have := hmax t (by have := mul_pos h ha; linarith)
    linarith
  · exact h'

/-- The amplitude stays strictly below the number of pumps times the probability factor. -/
theorem C109_bound {e a m} (hc : Curve e a m) {n off tauc tau t : ℝ} (h : 0 < tau) (hn : 0 < n) (hp : 0 < tauc)
    (ht : 0 ≤ t) : off ≤ full e n off tauc tau t ∧ full e n off tauc tau t < off + n * m := by
  have e0 := emit_nonneg hc h ht
  have hm := hc.pos.2
  have em : e tau t ≤ m := by
    obtain ⟨h1, h2⟩ := hc.peak h
    by_cases hh : t = tau * a
    · rw [hh, h1]
    · exact (h2 t hh).le
  have c0 : 0 ≤ capture tauc t := by
    rcases ht.eq_or_lt with rfl | h'
    · simp [capture]
    · exact (capture_pos hp h').le
  have c1 := capture_lt_one tauc t
  unfold full
  constructor
  · have : 0 ≤ n * capture tauc t * e tau t := by positivity
    linarith
  · have : capture tauc t * e tau t < m :=
      calc capture tauc t * e tau t ≤ capture tauc t * m := mul_le_mul_of_nonneg_left em c0
        _ < 1 * m := mul_lt_mul_of_pos_right c1 hm
        _ = m := one_mul m
    have := mul_lt_mul_of_pos_left this hn
    nlinarith

/-! ## Two traps -/

/-- Two traps add their amplitudes on one offset. -/
theorem C109_two (e e' : ℝ → ℝ → ℝ) (n off tauc tau tauc2 tau2 t : ℝ) :
    full2 e e' n off tauc tau tauc2 tau2 t = full e n off tauc tau t + full e' n 0 tauc2 tau2 t ∧
    const2 e e' n off tauc tau tauc2 tau2 t = const e n off tauc tau t + const e' n 0 tauc2 tau2 t := by
  constructor
  · unfold full2 full; ring
  · unfold const2 const; ring

/-- A fit of two traps of one kind does not tell which is which. -/
theorem C109_exchange (e : ℝ → ℝ → ℝ) (n off tauc tau tauc2 tau2 t : ℝ) :
    full2 e e n off tauc tau tauc2 tau2 t = full2 e e n off tauc2 tau2 tauc tau t := by
  unfold full2; ring

example : Curve emit1 at1 (1 / 4) ∧ Curve emit2 at2 (4 / 27) ∧ Curve emit3 at3 (3 / 4 * c3) := ⟨.one, .two, .three⟩

example : const emit1 2000 10 1 1 (log 2) = 510 := by
  have := (C109_constant_partial .one (n := 2000) (off := 10) (pc := 1) (tau := 1) (by norm_num) (by norm_num) (by norm_num)).1
  rw [one_mul] at this
  rw [this]; norm_num

end Corgi.TrapProb

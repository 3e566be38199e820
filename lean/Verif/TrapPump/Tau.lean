import Mathlib.Analysis.SpecialFunctions.ExpDeriv
import Mathlib.Analysis.SpecialFunctions.Pow.Real
import Mathlib.Analysis.SpecialFunctions.Sqrt
import Mathlib.Analysis.Calculus.Deriv.Inv
import Mathlib.Tactic.FieldSimp
import Mathlib.Tactic.Linarith
import Mathlib.Tactic.NormNum
import Mathlib.Tactic.Ring

/-!
# Release time and temperature (pump_trap_calibration.py 262-332, 2064-2106): model and C120

Real numbers; `np.e**x` is `exp x`.
-/

namespace Corgi.TrapTau

open Real

/-- Lines 282-284, 286. -/
noncomputable def k : ℝ := 8.6173e-5
noncomputable def kb : ℝ := 1.381e-23
noncomputable def hconst : ℝ := 6.626e-34
noncomputable def me : ℝ := 9.109e-31

/-- Line 285. -/
noncomputable def Eg (T : ℝ) : ℝ := 1.1692 - 4.9e-4 * T ^ 2 / (T + 655)

/-- Lines 287-289. -/
noncomputable def mlstar : ℝ := 0.1963 * me
noncomputable def mtstar (T : ℝ) : ℝ := 0.1905 * 1.1692 * me / Eg T
noncomputable def mstar (T : ℝ) : ℝ := (6 : ℝ) ^ (2 / 3 : ℝ) * (mtstar T ^ 2 * mlstar) ^ (1 / 3 : ℝ)

/-- Lines 290-291. -/
noncomputable def vth (T : ℝ) : ℝ := √(3 * kb * T / mstar T)
noncomputable def Nc (T : ℝ) : ℝ := 2 * (2 * π * mstar T * kb * T / hconst ^ 2) ^ (1.5 : ℝ)

/-- Line 293. -/
noncomputable def tau (T E cs : ℝ) : ℝ := exp (E / (k * T)) / (cs * Nc T * vth T * 1e-19)

/-- Lines 328-332. -/
noncomputable def sigTau (T E cs sE sC : ℝ) : ℝ :=
  √((-(tau T E cs / (cs * 1e-19)) * sC * 1e-19) ^ 2 + (tau T E cs / (k * T) * sE) ^ 2)

/-! ## The density of states grows with temperature -/

theorem k_pos : 0 < k := by unfold k; norm_num
theorem kb_pos : 0 < kb := by unfold kb; norm_num
theorem h_pos : 0 < hconst := by unfold hconst; norm_num
theorem me_pos : 0 < me := by unfold me; norm_num

theorem Eg_pos {T : ℝ} (h0 : 0 < T) (h : T ≤ 2900) : 0 < Eg T := by
  unfold Eg
  rw [sub_pos, div_lt_iff₀ (by linarith)]
  nlinarith

theorem Eg_anti {T T' : ℝ} (h0 : 0 < T) (h : T < T') : Eg T' < Eg T := by
  unfold Eg
  have h1 : (0 : ℝ) < T + 655 := by linarith
  have h2 : (0 : ℝ) < T' + 655 := by linarith
  have : 4.9e-4 * T ^ 2 / (T + 655) < 4.9e-4 * T' ^ 2 / (T' + 655) := by
    rw [div_lt_div_iff₀ h1 h2]
    have h3 : T ^ 2 * (T' + 655) < T' ^ 2 * (T + 655) := by
      have e : T' ^ 2 * (T + 655) - T ^ 2 * (T' + 655) = (T' - T) * (T * T' + 655 * (T' + T)) := by ring
      have : 0 < (T' - T) * (T * T' + 655 * (T' + T)) := by
        apply mul_pos (by linarith)
        have := mul_pos h0 (h0.trans h)
        nlinarith
      linarith
    nlinarith
  linarith

theorem mtstar_pos {T : ℝ} (h0 : 0 < T) (h : T ≤ 2900) : 0 < mtstar T := by
  unfold mtstar
  exact div_pos (mul_pos (by norm_num) me_pos) (Eg_pos h0 h)

theorem mlstar_pos : 0 < mlstar := mul_pos (by norm_num) me_pos

theorem mstar_pos {T : ℝ} (h0 : 0 < T) (h : T ≤ 2900) : 0 < mstar T := by
  unfold mstar
  exact mul_pos (rpow_pos_of_pos (by norm_num) _) (rpow_pos_of_pos (mul_pos (pow_pos (mtstar_pos h0 h) 2) mlstar_pos) _)

theorem mstar_mono {T T' : ℝ} (h0 : 0 < T) (h : T < T') (hT : T' ≤ 2900) : mstar T < mstar T' := by
  unfold mstar
  apply mul_lt_mul_of_pos_left _ (rpow_pos_of_pos (by norm_num) _)
  apply rpow_lt_rpow
  · exact (mul_pos (pow_pos (mtstar_pos h0 (h.le.trans hT)) 2) mlstar_pos).le
  · apply mul_lt_mul_of_pos_right _ mlstar_pos
    apply pow_lt_pow_left₀ _ (mtstar_pos h0 (h.le.trans hT)).le (by norm_num)
    unfold mtstar
    exact div_lt_div_of_pos_left (mul_pos (by norm_num) me_pos) (Eg_pos (h0.trans h) hT) (Eg_anti h0 h)
  · norm_num

/-- `Nc * vth`, without the roots. -/
theorem rate {T : ℝ} (h0 : 0 < T) (h : T ≤ 2900) :
    Nc T * vth T = 2 * (2 * π * kb / hconst ^ 2) ^ (1.5 : ℝ) * √(3 * kb) * (mstar T * T ^ 2) := by
  have hm := mstar_pos h0 h
  have hc : 0 < 2 * π * kb / hconst ^ 2 := by
    have := pi_pos
    have := kb_pos
    have := h_pos
    positivity
  have e1 : 2 * π * mstar T * kb * T / hconst ^ 2 = 2 * π * kb / hconst ^ 2 * (mstar T * T) := by ring
  have hmT : 0 < mstar T * T := mul_pos hm h0
  have e2 : (mstar T * T) ^ (1.5 : ℝ) = mstar T * T * √(mstar T * T) := by
    rw [show (1.5 : ℝ) = 1 + 1 / 2 by norm_num, rpow_add hmT, rpow_one, sqrt_eq_rpow]
  have e3 : 3 * kb * T / mstar T = 3 * kb * (T / mstar T) := by ring
  have hk3 : (0 : ℝ) ≤ 3 * kb := by have := kb_pos; linarith
  unfold Nc vth
  rw [e1, mul_rpow hc.le hmT.le, e2, e3, sqrt_mul hk3]
  have e4 : √(mstar T * T) * √(T / mstar T) = T := by
    rw [← sqrt_mul hmT.le, show mstar T * T * (T / mstar T) = T ^ 2 by field_simp, sqrt_sq h0.le]
  calc 2 * ((2 * π * kb / hconst ^ 2) ^ (1.5 : ℝ) * (mstar T * T * √(mstar T * T))) * (√(3 * kb) * √(T / mstar T))
      = 2 * (2 * π * kb / hconst ^ 2) ^ (1.5 : ℝ) * √(3 * kb) * (mstar T * T) * (√(mstar T * T) * √(T / mstar T)) := by ring
    _ = _ := by rw [e4]; ring

theorem rate_pos {T : ℝ} (h0 : 0 < T) (h : T ≤ 2900) : 0 < Nc T * vth T := by
  have hc : 0 < 2 * π * kb / hconst ^ 2 := by
    have := pi_pos
    have := kb_pos
    have := h_pos
    positivity
  have hk3 : (0 : ℝ) < 3 * kb := by have := kb_pos; linarith
  rw [rate h0 h]
  have := mstar_pos h0 h
  have := rpow_pos_of_pos hc 1.5
  have := sqrt_pos.2 hk3
  positivity

theorem rate_mono {T T' : ℝ} (h0 : 0 < T) (h : T < T') (hT : T' ≤ 2900) : Nc T * vth T < Nc T' * vth T' := by
  rw [rate h0 (h.le.trans hT), rate (h0.trans h) hT]
  have hc : 0 < 2 * π * kb / hconst ^ 2 := by
    have := pi_pos
    have := kb_pos
    have := h_pos
    positivity
  have hk3 : (0 : ℝ) < 3 * kb := by have := kb_pos; linarith
  apply mul_lt_mul_of_pos_left
  · have h1 := mstar_mono h0 h hT
    have h2 : T ^ 2 < T' ^ 2 := pow_lt_pow_left₀ h h0.le (by norm_num)
    have h3 := mstar_pos h0 (h.le.trans hT)
    exact mul_lt_mul'' h1 h2 h3.le (sq_nonneg _)
  · have := rpow_pos_of_pos hc 1.5
    have := sqrt_pos.2 hk3
    positivity

theorem tau_eq (T E cs : ℝ) : tau T E cs = exp (E / (k * T)) / (cs * (Nc T * vth T) * 1e-19) := by
  unfold tau; rw [mul_assoc cs]

theorem tau_pos {T E cs : ℝ} (h0 : 0 < T) (h : T ≤ 2900) (hc : 0 < cs) : 0 < tau T E cs := by
  rw [tau_eq]
  have := rate_pos h0 h
  have := exp_pos (E / (k * T))
  positivity

/-! ## C120 -/

/-- Release is faster at higher temperatures. -/
theorem C120_decreasing {T T' E cs : ℝ} (h0 : 0 < T) (h : T < T') (hT : T' ≤ 2900) (hE : 0 ≤ E) (hc : 0 < cs) :
    tau T' E cs < tau T E cs := by
  rw [tau_eq, tau_eq]
  have h1 := rate_pos h0 (h.le.trans hT)
  have h2 := rate_mono h0 h hT
  have hd : cs * (Nc T * vth T) * 1e-19 < cs * (Nc T' * vth T') * 1e-19 :=
    mul_lt_mul_of_pos_right (mul_lt_mul_of_pos_left h2 hc) (by norm_num)
  have hd0 : 0 < cs * (Nc T * vth T) * 1e-19 := by positivity
  have he : exp (E / (k * T')) ≤ exp (E / (k * T)) := by
    apply exp_le_exp.2
    apply div_le_div_of_nonneg_left hE (mul_pos k_pos h0)
    exact mul_le_mul_of_nonneg_left h.le k_pos.le
  calc exp (E / (k * T')) / (cs * (Nc T' * vth T') * 1e-19) ≤ exp (E / (k * T)) / (cs * (Nc T' * vth T') * 1e-19) :=
        div_le_div_of_nonneg_right he (hd0.trans hd).le
    _ < exp (E / (k * T)) / (cs * (Nc T * vth T) * 1e-19) := div_lt_div_of_pos_left (exp_pos _) hd0 hd

/-- Two temperatures determine energy and cross section. -/
theorem C120_unique {T T' E E' cs cs' : ℝ} (h0 : 0 < T) (h : T < T') (hT : T' ≤ 2900) (hc : 0 < cs) (hc' : 0 < cs')
    (h1 : tau T E cs = tau T E' cs') (h2 : tau T' E cs = tau T' E' cs') : E = E' ∧ cs = cs' := by
  have key : ∀ {t : ℝ}, 0 < t → t ≤ 2900 → tau t E cs = tau t E' cs' → (E - E') / (k * t) = log (cs / cs') := by
    intro t ht0 ht he
    have hr := rate_pos ht0 ht
    rw [tau_eq, tau_eq, div_eq_div_iff (by positivity) (by positivity)] at he
    have h3 : exp (E / (k * t)) * cs' = exp (E' / (k * t)) * cs := by
      have hne : Nc t * vth t * 1e-19 ≠ 0 := by positivity
      apply mul_right_cancel₀ hne
      linarith
    have h4 : exp ((E - E') / (k * t)) = cs / cs' := by
      rw [sub_div, exp_sub, div_eq_div_iff (exp_pos _).ne' hc'.ne', h3, mul_comm]
    rw [← h4, log_exp]
  have a1 := key h0 (h.le.trans hT) h1
  have a2 := key (h0.trans h) hT h2
  have hk := k_pos
  have hE : E = E' := by
    rw [← a2, div_eq_div_iff (by positivity) (by have := h0.trans h; positivity)] at a1
    have : (E - E') * (k * (T' - T)) = 0 := by linarith
    rcases mul_eq_zero.1 this with h' | h'
    · linarith
    · rcases mul_eq_zero.1 h' with h' | h'
      · exact absurd h' hk.ne'
      · linarith
  refine ⟨hE, ?_⟩
  rw [hE, sub_self, zero_div] at a1
  have hpos : 0 < cs / cs' := div_pos hc hc'
  have := log_eq_zero.1 a1.symm
  rcases this with h' | h' | h'
  · exact absurd h' hpos.ne'
  · rw [div_eq_one_iff_eq hc'.ne'] at h'; exact h'
  · linarith

/-- One temperature does not. -/
theorem C120_one {T E cs : ℝ} (h0 : 0 < T) (hc : 0 < cs) : ∃ E' cs', 0 < cs' ∧ E' ≠ E ∧ tau T E' cs' = tau T E cs := by
  have hk := k_pos
  have hkT := mul_pos hk h0
  refine ⟨E + k * T, cs * exp 1, by positivity, fun h' => by linarith, ?_⟩
  unfold tau
  have : (E + k * T) / (k * T) = E / (k * T) + 1 := by field_simp
  rw [this, exp_add, show cs * exp 1 * Nc T * vth T * 1e-19 = cs * Nc T * vth T * 1e-19 * exp 1 by ring,
    mul_div_mul_right _ _ (exp_pos 1).ne']

/-- The derivatives used for the error (lines 329-330) are the derivatives. -/
theorem C120_dE (T E cs : ℝ) : HasDerivAt (fun E => tau T E cs) (tau T E cs / (k * T)) E := by
  have h1 : HasDerivAt (fun E => E / (k * T)) (1 / (k * T)) E := (hasDerivAt_id E).div_const _
  have h2 := (h1.exp).div_const (cs * Nc T * vth T * 1e-19)
  have e : exp (E / (k * T)) * (1 / (k * T)) / (cs * Nc T * vth T * 1e-19) = tau T E cs / (k * T) := by
    unfold tau; ring
  rw [e] at h2
  exact h2

theorem C120_dcs (T E : ℝ) {cs : ℝ} (hc : 0 < cs) : HasDerivAt (fun cs => tau T E cs) (-(tau T E cs / cs)) cs := by
  have h1 := ((hasDerivAt_id cs).inv (by simpa using hc.ne')).const_mul (exp (E / (k * T)) / (Nc T * vth T * 1e-19))
  have e : (fun cs => tau T E cs) = fun y => exp (E / (k * T)) / (Nc T * vth T * 1e-19) * (id y)⁻¹ := by
    funext y
    unfold tau
    simp only [id]
    rw [show y * Nc T * vth T * 1e-19 = Nc T * vth T * 1e-19 * y by ring, div_mul_eq_div_div, div_eq_mul_inv _ y]
  have e2 : exp (E / (k * T)) / (Nc T * vth T * 1e-19) * (-1 / id cs ^ 2) = -(tau T E cs / cs) := by
    unfold tau
    simp only [id]
    rw [show cs * Nc T * vth T * 1e-19 = Nc T * vth T * 1e-19 * cs by ring, div_mul_eq_div_div]
    field_simp
  rw [e2] at h1
  rw [e]
  exact h1

/-- The error is that of independent E and cs; the factors 1e-19 cancel. -/
theorem C120_sigma_partial (T E sE sC : ℝ) {cs : ℝ} (hc : 0 < cs) :
    sigTau T E cs sE sC =
      √((deriv (fun c => tau T E c) cs * sC) ^ 2 + (deriv (fun x => tau T x cs) E * sE) ^ 2) := by
  rw [(C120_dcs T E hc).deriv, (C120_dE T E cs).deriv]
  unfold sigTau
  congr 2
  congr 1
  field_simp

/-- First-order variance with a covariance `v` of E and cs. -/
noncomputable def variance (T E cs sE sC v : ℝ) : ℝ :=
  (deriv (fun c => tau T E c) cs * sC) ^ 2 + (deriv (fun x => tau T x cs) E * sE) ^ 2 +
    2 * deriv (fun c => tau T E c) cs * deriv (fun x => tau T x cs) E * v

/-- E and cs of a fit are correlated: a larger energy is made up for by a larger cross section. The reported error leaves the
covariance out and is too large. -/
theorem C120_violated_covariance {T E cs sE sC v : ℝ} (h0 : 0 < T) (hT : T ≤ 2900) (hc : 0 < cs) (hv : 0 < v) :
    variance T E cs sE sC v < sigTau T E cs sE sC ^ 2 := by
  rw [C120_sigma_partial T E sE sC hc, sq_sqrt (by positivity)]
  unfold variance
  rw [(C120_dcs T E hc).deriv, (C120_dE T E cs).deriv]
  have h1 := tau_pos (E := E) h0 hT hc
  have hk := k_pos
  have h2 : 0 < tau T E cs / cs * (tau T E cs / (k * T)) * v := by positivity
  linarith

/-! ## `fit_cs`, lines 2064-2106 -/

/-- Result of `curve_fit`: E, cs, and the diagonal of the covariance matrix. -/
structure Fit where
  E : ℝ
  cs : ℝ
  vE : ℝ
  vC : ℝ

/-- Lines 2092-2097. -/
noncomputable def choose (t f : Fit) : Fit := if √f.vE + √f.vC ≤ √t.vE + √t.vC then t else f

structure Out where
  E : ℝ
  sE : ℝ
  cs : ℝ
  sC : ℝ
  tau : ℝ
  sTau : ℝ

/-- Lines 2064-2067, 2079-2106; `fits` is `none` if `curve_fit` raised. -/
noncomputable def fitCs (nUnique : ℕ) (fits : Option (Fit × Fit)) (T : ℝ) : Option Out :=
  if nUnique < 3 then none else
    match fits with
    | none => none
    | some (t, f) =>
      let p := choose t f
      let cs := p.cs * 1e-15
      let sC := √p.vC * 1e-15
      some ⟨p.E, √p.vE, cs, sC, TrapTau.tau T p.E (cs * 1e15), sigTau T p.E (cs * 1e15) (√p.vE) (sC * 1e15)⟩

/-- Without `absolute_sigma` the covariance is scaled by the reduced chi squared `s`. Then both errors of the chosen fit are the
larger ones. -/
theorem C120_larger (t f : Fit) {s : ℝ} (hs : 0 ≤ s) (hE : f.vE = s * t.vE) (hC : f.vC = s * t.vC) (h1 : 0 ≤ t.vE)
    (h2 : 0 ≤ t.vC) : (choose t f).vE = max t.vE f.vE ∧ (choose t f).vC = max t.vC f.vC := by
  have a1 := sqrt_nonneg t.vE
  have a2 := sqrt_nonneg t.vC
  have e1 : √f.vE = √s * √t.vE := by rw [hE, sqrt_mul hs]
  have e2 : √f.vC = √s * √t.vC := by rw [hC, sqrt_mul hs]
  have hr : 0 ≤ √s := sqrt_nonneg s
  unfold choose
  by_cases h : √f.vE + √f.vC ≤ √t.vE + √t.vC
  · rw [if_pos h]
    rw [e1, e2, ← mul_add] at h
    have hle : f.vE ≤ t.vE ∧ f.vC ≤ t.vC := by
      rcases eq_or_lt_of_le (add_nonneg a1 a2) with h0 | h0
      · have z1 : √t.vE = 0 := by linarith
        have z2 : √t.vC = 0 := by linarith
        rw [sqrt_eq_zero h1] at z1
        rw [sqrt_eq_zero h2] at z2
        rw [hE, hC, z1, z2]; simp
      · have : √s ≤ 1 := by
          by_contra hc
          push Not at hc
          have := mul_lt_mul_of_pos_right hc h0
          linarith
        have hs1 : s ≤ 1 := by
          have := (sqrt_le_left (by norm_num : (0 : ℝ) ≤ 1)).1 this
          simpa using this
        rw [hE, hC]
        exact ⟨by nlinarith, by nlinarith⟩
    exact ⟨(max_eq_left hle.1).symm, (max_eq_left hle.2).symm⟩
  · rw [if_neg h]
    push Not at h
    rw [e1, e2, ← mul_add] at h
    have : 1 < √s := by
      by_contra hc
      push Not at hc
      have := mul_le_mul_of_nonneg_right hc (add_nonneg a1 a2)
      linarith
    have hs1 : 1 ≤ s := by
      have h3 := sq_sqrt hs
      nlinarith
    rw [hE, hC]
    exact ⟨(max_eq_right (by nlinarith)).symm, (max_eq_right (by nlinarith)).symm⟩

/-- The reported time constant and its error are those of the reported energy and cross section; the units cancel. -/
theorem C120_reported (n : ℕ) (fits : Option (Fit × Fit)) (T : ℝ) (o : Out) (h : fitCs n fits T = some o) :
    3 ≤ n ∧ ∃ t f, fits = some (t, f) ∧ o.E = (choose t f).E ∧ o.cs = (choose t f).cs * 1e-15 ∧ o.sE = √(choose t f).vE ∧
      o.sC = √(choose t f).vC * 1e-15 ∧ o.tau = tau T o.E ((choose t f).cs) ∧
      o.sTau = sigTau T o.E (choose t f).cs o.sE √(choose t f).vC := by
  unfold fitCs at h
  split at h
  · cases h
  · rename_i hn
    cases fits with
    | none => cases h
    | some p =>
      obtain ⟨t, f⟩ := p
      dsimp only at h
      have h' := Option.some.inj h
      subst h'
      refine ⟨by omega, t, f, rfl, rfl, rfl, rfl, rfl, ?_, ?_⟩
      · dsimp only
        congr 1
        norm_num [mul_assoc]
      · dsimp only
        congr 1 <;> norm_num [mul_assoc]

/-- A fit is reported exactly if there were three different temperatures and `curve_fit` did not raise. -/
theorem C120_some (n : ℕ) (fits : Option (Fit × Fit)) (T : ℝ) : (fitCs n fits T).isSome ↔ 3 ≤ n ∧ fits.isSome := by
  unfold fitCs
  by_cases h : n < 3
  · rw [if_pos h]; simp; omega
  · rw [if_neg h]
    cases fits with
    | none => simp
    | some p => simp; omega

example : (0 : ℝ) < 180 ∧ (180 : ℝ) ≤ 2900 := by norm_num

end Corgi.TrapTau

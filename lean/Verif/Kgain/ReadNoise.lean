import Mathlib.Analysis.SpecialFunctions.Log.Basic
import Mathlib.Analysis.SpecialFunctions.Sqrt
import Mathlib.Algebra.BigOperators.Fin
import Mathlib.Algebra.BigOperators.Ring.Finset
import Mathlib.Algebra.Order.BigOperators.Group.Finset
import Mathlib.Algebra.Order.Floor.Ring
import Mathlib.Tactic.FieldSimp
import Mathlib.Tactic.Linarith
import Mathlib.Tactic.Ring

/-!
# C135: read noise helpers (`corgidrp/calibrate_kgain.py` 132-228) and parameter checks
(`calibrate_kgain.py` 32-71, `calibrate_nonlin.py` 46-116)

Pixels of the prescan region are functions on `Fin n`, reals for floats, `none` for NaN.
-/

noncomputable section

namespace Corgi.ReadNoise

open Real Finset

variable {n : ℕ}

/-! ## Model -/

def mean (a : Fin n → ℝ) : ℝ := (∑ i, a i) / n

/-- `np.std(..., ddof=1)` squared. -/
def var (a : Fin n → ℝ) : ℝ := (∑ i, (a i - mean a) ^ 2) / ((n : ℝ) - 1)

/-- `diff2std` (lines 147-151) on the pixels of the region; one pixel: 0/0. -/
def diff2std (d : Fin n → ℝ) : Option ℝ := if n ≤ 1 then none else some (sqrt (var d) / sqrt 2)

/-- `gauss` (line 166). -/
def gauss (x A mu sigma : ℝ) : ℝ := A * exp (-(1 / 2) * (x - mu) ^ 2 / sigma ^ 2)

/-- The sum of squares that `curve_fit` minimises (line 182). -/
def cost (pts : List (ℝ × ℝ)) (A mu sigma : ℝ) : ℝ := (pts.map fun p => (p.2 - gauss p.1 A mu sigma) ^ 2).sum

/-- C135: the cost is positive unless the curve passes through all points. -/
theorem C135_cost (pts : List (ℝ × ℝ)) (A mu sigma : ℝ) :
    0 ≤ cost pts A mu sigma ∧ (cost pts A mu sigma = 0 ↔ ∀ p ∈ pts, p.2 = A * exp (-(1 / 2) * (p.1 - mu) ^ 2 / sigma ^ 2)) := by
  unfold cost
  have h0 : ∀ v ∈ pts.map fun p => (p.2 - gauss p.1 A mu sigma) ^ 2, 0 ≤ v := by
    intro v hv
    obtain ⟨p, _, rfl⟩ := List.mem_map.1 hv
    positivity
  refine ⟨List.sum_nonneg h0, ?_⟩
  induction pts with
  | nil => simp
  | cons p l ih =>
    have h1 : ∀ v ∈ l.map fun p => (p.2 - gauss p.1 A mu sigma) ^ 2, 0 ≤ v := fun v hv => h0 v (by
      rw [List.map_cons]; exact List.mem_cons_of_mem _ hv)
    rw [List.map_cons, List.sum_cons, add_eq_zero_iff_of_nonneg (by positivity) (List.sum_nonneg h1), ih h1, List.forall_mem_cons,
      sq_eq_zero_iff, sub_eq_zero]
    rfl

open Classical in
/-- `np.histogram` with the edges `range(lo, lo + m + 1)`: the count of bin `k < m`; the last bin is closed. -/
def count (px : List ℝ) (lo : ℤ) (m k : ℕ) : ℕ :=
  (px.filter fun x => decide (((lo + k : ℤ) : ℝ) ≤ x ∧ (x < ((lo + k + 1 : ℤ) : ℝ) ∨ (k + 1 = m ∧ x = ((lo + m : ℤ) : ℝ))))).length

/-! ## Specification -/

/-- Sample covariance of two frames. -/
def cov (a b : Fin n → ℝ) : ℝ := (∑ i, (a i - mean a) * (b i - mean b)) / ((n : ℝ) - 1)

/-! ## Difference of two frames -/

theorem mean_sub (a b : Fin n → ℝ) : mean (fun i => a i - b i) = mean a - mean b := by
  unfold mean
  rw [sum_sub_distrib, sub_div]

theorem var_sub (a b : Fin n → ℝ) : var (fun i => a i - b i) = var a + var b - 2 * cov a b := by
  unfold var cov
  rw [mean_sub]
  have : ∀ i, (a i - b i - (mean a - mean b)) ^ 2 =
      (a i - mean a) ^ 2 + (b i - mean b) ^ 2 - 2 * ((a i - mean a) * (b i - mean b)) := fun i => by ring
  simp only [this]
  rw [sum_sub_distrib, sum_add_distrib, ← mul_sum]
  ring

theorem var_nonneg (a : Fin n → ℝ) (h : 2 ≤ n) : 0 ≤ var a := by
  have : (2 : ℝ) ≤ n := by exact_mod_cast h
  exact div_nonneg (sum_nonneg fun i _ => sq_nonneg _) (by linarith)

/-- C135: the square of the noise found is the mean variance of the two frames less their covariance. -/
theorem C135_square {a b : Fin n → ℝ} {r : ℝ} (h : diff2std (fun i => a i - b i) = some r) :
    0 ≤ r ∧ r ^ 2 = (var a + var b) / 2 - cov a b := by
  unfold diff2std at h
  by_cases hn : n ≤ 1
  · rw [if_pos hn] at h; cases h
  · rw [if_neg hn] at h
    have h' := Option.some.inj h
    subst h'
    refine ⟨by positivity, ?_⟩
    rw [div_pow, sq_sqrt (var_nonneg _ (by omega)), sq_sqrt (by norm_num), var_sub]
    ring

/-- C135: for two frames of the same variance it is the noise of one frame exactly when they do not correlate. -/
theorem C135_one_frame_iff {a b : Fin n → ℝ} {r s : ℝ} (hs : 0 ≤ s) (ha : var a = s ^ 2) (hb : var b = s ^ 2)
    (h : diff2std (fun i => a i - b i) = some r) : r = s ↔ cov a b = 0 := by
  obtain ⟨h0, h2⟩ := C135_square h
  rw [ha, hb] at h2
  constructor
  · rintro rfl; linarith
  · intro hc
    rw [hc] at h2
    have : r ^ 2 = s ^ 2 := by linarith
    exact (sq_eq_sq₀ h0 hs).1 this

/-- C135: a pattern common to both frames drops out. -/
theorem C135_pattern (a b p : Fin n → ℝ) :
    diff2std (fun i => (a i + p i) - (b i + p i)) = diff2std (fun i => a i - b i) := by
  congr 1; funext i; ring

theorem mean_shift (d : Fin n → ℝ) (c : ℝ) (hn : 0 < n) : mean (fun i => d i + c) = mean d + c := by
  have : (n : ℝ) ≠ 0 := by positivity
  unfold mean
  rw [sum_add_distrib, sum_const, card_univ, Fintype.card_fin, nsmul_eq_mul]
  field_simp

/-- C135: a drift of the bias between the frames drops out. -/
theorem C135_offset (d : Fin n → ℝ) (c : ℝ) : diff2std (fun i => d i + c) = diff2std d := by
  unfold diff2std
  by_cases hn : n ≤ 1
  · rw [if_pos hn, if_pos hn]
  · rw [if_neg hn, if_neg hn]
    unfold var
    rw [mean_shift d c (by omega)]
    simp only [add_sub_add_right_eq_sub]

/-- C135: the order of the two frames does not matter. -/
theorem C135_swap (a b : Fin n → ℝ) : diff2std (fun i => a i - b i) = diff2std (fun i => b i - a i) := by
  unfold diff2std
  rw [var_sub, var_sub]
  have : cov a b = cov b a := by
    unfold cov
    congr 1
    exact sum_congr rfl fun i _ => mul_comm _ _
  rw [this, add_comm (var a)]

/-- C135: there is no noise of a single pixel. -/
theorem C135_single (d : Fin 1 → ℝ) : diff2std d = none := rfl

/-- Non-vacuity of `C135_one_frame_iff`: four pixels, variance 4/3 in each frame, no correlation. -/
example : ∃ a b : Fin 4 → ℝ, var a = 4 / 3 ∧ var b = 4 / 3 ∧ cov a b = 0 := by
  refine ⟨![1, 1, -1, -1], ![1, -1, 1, -1], ?_, ?_, ?_⟩ <;>
  · simp [var, cov, mean, Fin.sum_univ_four]; try norm_num

/-! ## Histogram -/

open Classical in
theorem count_eq (px : List ℝ) (lo : ℤ) (m k : ℕ) : count px lo m k =
    (px.map fun x => if ((lo + k : ℤ) : ℝ) ≤ x ∧ (x < ((lo + k + 1 : ℤ) : ℝ) ∨ (k + 1 = m ∧ x = ((lo + m : ℤ) : ℝ))) then 1 else 0).sum := by
  unfold count
  induction px with
  | nil => rfl
  | cons x xs ih =>
    by_cases h : ((lo + k : ℤ) : ℝ) ≤ x ∧ (x < ((lo + k + 1 : ℤ) : ℝ) ∨ (k + 1 = m ∧ x = ((lo + m : ℤ) : ℝ)))
    · rw [List.filter_cons_of_pos (by simpa using h), List.length_cons, ih, List.map_cons, List.sum_cons, if_pos h, add_comm]
    · rw [List.filter_cons_of_neg (by simpa using h), ih, List.map_cons, List.sum_cons, if_neg h, zero_add]

open Classical in
/-- Exactly one bin holds a value in range. -/
theorem one_bin (x : ℝ) (lo : ℤ) (m : ℕ) (hm : 0 < m) :
    (∑ k ∈ range m, if ((lo + k : ℤ) : ℝ) ≤ x ∧ (x < ((lo + k + 1 : ℤ) : ℝ) ∨ (k + 1 = m ∧ x = ((lo + m : ℤ) : ℝ))) then 1 else 0) =
      if (lo : ℝ) ≤ x ∧ x ≤ ((lo + m : ℤ) : ℝ) then 1 else 0 := by
  by_cases h : (lo : ℝ) ≤ x ∧ x ≤ ((lo + m : ℤ) : ℝ)
  · rw [if_pos h]
    obtain ⟨h1, h2⟩ := h
    -- the bin
    obtain ⟨k, hk, hkx, huniq⟩ : ∃ k < m,
        (((lo + k : ℤ) : ℝ) ≤ x ∧ (x < ((lo + k + 1 : ℤ) : ℝ) ∨ (k + 1 = m ∧ x = ((lo + m : ℤ) : ℝ)))) ∧
        ∀ j < m, (((lo + j : ℤ) : ℝ) ≤ x ∧ (x < ((lo + j + 1 : ℤ) : ℝ) ∨ (j + 1 = m ∧ x = ((lo + m : ℤ) : ℝ)))) → j = k := by
      rcases lt_or_eq_of_le h2 with h2 | h2
      · have hf1 : lo ≤ ⌊x⌋ := Int.le_floor.2 h1
        have hf2 : ⌊x⌋ < lo + m := Int.floor_lt.2 h2
        obtain ⟨k, hk⟩ := Int.eq_ofNat_of_zero_le (by omega : 0 ≤ ⌊x⌋ - lo)
        have hk' : lo + (k : ℤ) = ⌊x⌋ := by omega
        refine ⟨k, by omega, ⟨?_, Or.inl ?_⟩, ?_⟩
        · rw [hk']; exact Int.floor_le x
        · rw [hk']; push_cast; exact Int.lt_floor_add_one x
        · rintro j hj ⟨hj1, hj2⟩
          have a1 : lo + (j : ℤ) ≤ ⌊x⌋ := Int.le_floor.2 hj1
          rcases hj2 with hj2 | ⟨_, hj2⟩
          · have a2 : ⌊x⌋ < lo + j + 1 := Int.floor_lt.2 hj2
            omega
          · exact absurd hj2 h2.ne
      · refine ⟨m - 1, by omega, ⟨?_, Or.inr ⟨by omega, h2⟩⟩, ?_⟩
        · rw [h2]
          have : lo + ((m - 1 : ℕ) : ℤ) ≤ lo + m := by omega
          exact_mod_cast this
        · rintro j hj ⟨hj1, hj2⟩
          rcases hj2 with hj2 | ⟨hj2, _⟩
          · rw [h2] at hj2
            have : lo + (m : ℤ) < lo + j + 1 := by exact_mod_cast hj2
            omega
          · omega
    rw [sum_eq_single k]
    · rw [if_pos hkx]
    · intro j hj hne
      rw [if_neg]
      intro hjx
      exact hne (huniq j (mem_range.1 hj) hjx)
    · intro hnk
      exact absurd (mem_range.2 hk) hnk
  · rw [if_neg h]
    apply sum_eq_zero
    intro k hk
    have hk' := mem_range.1 hk
    rw [if_neg]
    rintro ⟨h1, h2⟩
    apply h
    have a1 : ((lo : ℤ) : ℝ) ≤ ((lo + k : ℤ) : ℝ) := by
      have : lo ≤ lo + (k : ℤ) := by omega
      exact_mod_cast this
    refine ⟨le_trans a1 h1, ?_⟩
    rcases h2 with h2 | ⟨_, h2⟩
    · have : ((lo + k + 1 : ℤ) : ℝ) ≤ ((lo + m : ℤ) : ℝ) := by
        have : lo + (k : ℤ) + 1 ≤ lo + m := by omega
        exact_mod_cast this
      exact le_trans h2.le this
    · exact h2.le

open Classical in
/-- C135: every pixel between the first and the last edge, both included, is counted once; the others not at all. -/
theorem C135_total (px : List ℝ) (lo : ℤ) (m : ℕ) (hm : 0 < m) :
    ∑ k ∈ range m, count px lo m k = (px.filter fun x => decide ((lo : ℝ) ≤ x ∧ x ≤ ((lo + m : ℤ) : ℝ))).length := by
  simp only [count_eq]
  induction px with
  | nil => simp
  | cons x xs ih =>
    simp only [List.map_cons, List.sum_cons, sum_add_distrib]
    rw [ih, one_bin x lo m hm]
    by_cases h : (lo : ℝ) ≤ x ∧ x ≤ ((lo + m : ℤ) : ℝ)
    · rw [if_pos h, List.filter_cons_of_pos (by simpa using h), List.length_cons, add_comm]
    · rw [if_neg h, List.filter_cons_of_neg (by simpa using h), zero_add]

/-- C135: for frames of whole numbers the count of a bin other than the last belongs to the value at its left edge, the
place `bin_locs` gives it (line 459). -/
theorem C135_whole (px : List ℤ) (lo : ℤ) (m k : ℕ) (hk : k + 1 < m) :
    count (px.map fun z : ℤ => (z : ℝ)) lo m k = px.count (lo + k) := by
  unfold count
  induction px with
  | nil => rfl
  | cons z zs ih =>
    rw [List.map_cons, List.count_cons]
    by_cases h : z = lo + k
    · subst h
      rw [List.filter_cons_of_pos, List.length_cons, ih]
      · simp
      · simp only [decide_eq_true_eq]
        refine ⟨le_refl _, Or.inl ?_⟩
        exact_mod_cast (by omega : lo + (k : ℤ) < lo + k + 1)
    · rw [List.filter_cons_of_neg, ih]
      · simp [h]
      · simp only [decide_eq_true_eq]
        rintro ⟨h1, h2 | ⟨h2, _⟩⟩
        · have a1 : lo + (k : ℤ) ≤ z := by exact_mod_cast h1
          have a2 : z < lo + k + 1 := by exact_mod_cast h2
          omega
        · omega

/-- C135, **violated**: the last bin also holds the value of the edge after it: the count belongs to two values. -/
theorem C135_violated_last (px : List ℤ) (lo : ℤ) (m : ℕ) :
    count (px.map fun z : ℤ => (z : ℝ)) lo (m + 1) m = px.count (lo + m) + px.count (lo + m + 1) := by
  unfold count
  induction px with
  | nil => rfl
  | cons z zs ih =>
    rw [List.map_cons, List.count_cons, List.count_cons]
    by_cases h : z = lo + m ∨ z = lo + m + 1
    · rw [List.filter_cons_of_pos, List.length_cons, ih]
      · rcases h with h | h
        · subst h; simp; omega
        · subst h; simp; omega
      · simp only [decide_eq_true_eq]
        rcases h with h | h
        · subst h
          refine ⟨le_refl _, Or.inl ?_⟩
          exact_mod_cast (by omega : lo + (m : ℤ) < lo + m + 1)
        · subst h
          refine ⟨?_, Or.inr ⟨trivial, ?_⟩⟩
          · exact_mod_cast (by omega : lo + (m : ℤ) ≤ lo + m + 1)
          · push_cast; ring
    · rw [not_or] at h
      rw [List.filter_cons_of_neg, ih]
      · simp [h.1, h.2]
      · simp only [decide_eq_true_eq]
        rintro ⟨h1, h2 | ⟨_, h2⟩⟩
        · have a1 : lo + (m : ℤ) ≤ z := by exact_mod_cast h1
          have a2 : z < lo + m + 1 := by exact_mod_cast h2
          exact h.1 (by omega)
        · have a2 : z = lo + ((m + 1 : ℕ) : ℤ) := by exact_mod_cast h2
          exact h.2 (by push_cast at a2; omega)

/-! ## Fit -/

/-- C135, **violated**: the sign of the fitted width is not determined: with any solution the one with the opposite width
is equally good, and `Single_peakfit` (line 206) returns it as it is. -/
theorem C135_violated_sign (pts : List (ℝ × ℝ)) (A mu sigma : ℝ) :
    cost pts A mu (-sigma) = cost pts A mu sigma ∧
    ((∀ A' mu' s', cost pts A mu sigma ≤ cost pts A' mu' s') ↔ ∀ A' mu' s', cost pts A mu (-sigma) ≤ cost pts A' mu' s') := by
  have h : cost pts A mu (-sigma) = cost pts A mu sigma := by
    unfold cost gauss
    simp only [even_two.neg_pow]
  exact ⟨h, by rw [h]⟩

/-- C135: apart from the sign, three counts of a Gaussian determine it. -/
theorem C135_unique {A mu s A' mu' s' x y z : ℝ} (hA : 0 < A) (hA' : 0 < A') (hs : s ≠ 0) (hs' : s' ≠ 0)
    (hxy : x ≠ y) (hxz : x ≠ z) (hyz : y ≠ z) (hx : gauss x A mu s = gauss x A' mu' s')
    (hy : gauss y A mu s = gauss y A' mu' s') (hz : gauss z A mu s = gauss z A' mu' s') :
    A = A' ∧ mu = mu' ∧ |s| = |s'| := by
  have key : ∀ w, gauss w A mu s = gauss w A' mu' s' →
      log A - (w - mu) ^ 2 * (1 / (2 * s ^ 2)) = log A' - (w - mu') ^ 2 * (1 / (2 * s' ^ 2)) := by
    intro w hw
    have h := congrArg log hw
    unfold gauss at h
    rw [log_mul hA.ne' (exp_pos _).ne', log_mul hA'.ne' (exp_pos _).ne', log_exp, log_exp] at h
    have e1 : -(1 / 2) * (w - mu) ^ 2 / s ^ 2 = -((w - mu) ^ 2 * (1 / (2 * s ^ 2))) := by field_simp
    have e2 : -(1 / 2) * (w - mu') ^ 2 / s' ^ 2 = -((w - mu') ^ 2 * (1 / (2 * s' ^ 2))) := by field_simp
    rw [e1, e2] at h
    linarith
  have kx := key x hx
  have ky := key y hy
  have kz := key z hz
  have hp : 0 < 1 / (2 * s ^ 2) := by positivity
  have hp' : 0 < 1 / (2 * s' ^ 2) := by positivity
  have hinv : 1 / (2 * s ^ 2) = 1 / (2 * s' ^ 2) → s ^ 2 = s' ^ 2 := by
    intro h
    field_simp at h
    exact h.symm
  generalize 1 / (2 * s ^ 2) = p at *
  generalize 1 / (2 * s' ^ 2) = q at *
  have dxy : x - y ≠ 0 := sub_ne_zero.2 hxy
  have dxz : x - z ≠ 0 := sub_ne_zero.2 hxz
  have dyz : y - z ≠ 0 := sub_ne_zero.2 hyz
  -- first differences
  have f1 : (x + y) * (p - q) = 2 * (mu * p - mu' * q) := by
    have : (x - y) * ((x + y) * (p - q) - 2 * (mu * p - mu' * q)) = 0 := by linear_combination ky - kx
    rcases mul_eq_zero.1 this with h | h
    · exact absurd h dxy
    · linarith
  have f2 : (x + z) * (p - q) = 2 * (mu * p - mu' * q) := by
    have : (x - z) * ((x + z) * (p - q) - 2 * (mu * p - mu' * q)) = 0 := by linear_combination kz - kx
    rcases mul_eq_zero.1 this with h | h
    · exact absurd h dxz
    · linarith
  have hpq : p = q := by
    have : (y - z) * (p - q) = 0 := by linear_combination f1 - f2
    rcases mul_eq_zero.1 this with h | h
    · exact absurd h dyz
    · linarith
  have hmu : mu = mu' := by
    rw [hpq, sub_self, mul_zero] at f1
    have : (mu - mu') * q = 0 := by linarith
    rcases mul_eq_zero.1 this with h | h
    · linarith
    · exact absurd h hp'.ne'
  have hss := hinv hpq
  subst hmu
  rw [hpq] at kx
  have hl : log A = log A' := by linarith
  refine ⟨?_, rfl, sq_eq_sq_iff_abs_eq_abs s s' |>.1 hss⟩
  rw [← exp_log hA, ← exp_log hA', hl]

/-! ## Parameter checks -/

/-- What a dictionary entry can be, as far as the checks see it; `numpy.float64` is a `float`. -/
inductive Obj
  | int (z : ℤ)
  | bool (b : Bool)
  | float (x : Option ℝ)
  | npInt (z : ℤ)
  | other

/-- `isinstance(v, (float, int))` -/
def isNumber : Obj → Bool
  | .int _ | .bool _ | .float _ => true
  | .npInt _ | .other => false

inductive ParErr
  | missing (name : String)
  | notNumber (name : String)
deriving DecidableEq

/-- `check_kgain_params`, `check_nonlin_params`: all names are looked for, then all types. -/
def checkParams (names : List String) (d : String → Option Obj) : Except ParErr Unit :=
  match names.find? fun k => (d k).isNone with
  | some k => .error (.missing k)
  | none =>
    match names.find? fun k => !((d k).map isNumber).getD false with
    | some k => .error (.notNumber k)
    | none => .ok ()

def kgainNames : List String :=
  ["rowroi1", "rowroi2", "colroi1", "colroi2", "rn_bins1", "rn_bins2", "max_DN_val", "signal_bins_N"]

def nonlinNames : List String :=
  ["rowroi1", "rowroi2", "colroi1", "colroi2", "rowback11", "rowback12", "rowback21", "rowback22", "colback11", "colback12",
    "colback21", "colback22", "min_exp_time", "num_bins", "min_bin", "min_mask_factor"]

/-- C135: the check passes exactly when every name is there and is a number. -/
theorem C135_params_iff (names : List String) (d : String → Option Obj) :
    checkParams names d = .ok () ↔ ∀ k ∈ names, ∃ v, d k = some v ∧ isNumber v = true := by
  unfold checkParams
  cases h1 : names.find? fun k => (d k).isNone with
  | some k =>
    constructor
    · intro h; cases h
    · intro h
      obtain ⟨v, hv, _⟩ := h k (List.mem_of_find?_eq_some h1)
      have := List.find?_some h1
      rw [hv] at this
      cases this
  | none =>
    have n1 := List.find?_eq_none.1 h1
    cases h2 : names.find? fun k => !((d k).map isNumber).getD false with
    | some k =>
      constructor
      · intro h; cases h
      · intro h
        obtain ⟨v, hv, hn⟩ := h k (List.mem_of_find?_eq_some h2)
        have := List.find?_some h2
        rw [hv] at this
        simp [hn] at this
    | none =>
      have n2 := List.find?_eq_none.1 h2
      refine ⟨fun _ k hk => ?_, fun _ => rfl⟩
      cases hv : d k with
      | none => exact absurd (by rw [hv]; rfl) (n1 k hk)
      | some v =>
        refine ⟨v, rfl, ?_⟩
        have := n2 k hk
        rw [hv] at this
        simpa using this

/-- C135: a missing name is reported whatever the types of the others, and the first one in the order of the code. -/
theorem C135_missing_iff (names : List String) (d : String → Option Obj) (k : String) :
    checkParams names d = .error (.missing k) ↔
      ∃ a b, names = a ++ k :: b ∧ d k = none ∧ ∀ j ∈ a, ∃ v, d j = some v := by
  have hf : names.find? (fun k => (d k).isNone) = some k ↔
      ∃ a b, names = a ++ k :: b ∧ d k = none ∧ ∀ j ∈ a, ∃ v, d j = some v := by
    rw [List.find?_eq_some_iff_append]
    simp only [Option.isNone_iff_eq_none, Bool.not_eq_true', Option.isNone_eq_false_iff, Option.isSome_iff_exists]
    constructor
    · rintro ⟨h, a, b, e, h'⟩; exact ⟨a, b, e, h, h'⟩
    · rintro ⟨a, b, e, h, h'⟩; exact ⟨h, a, b, e, h'⟩
  rw [← hf]
  unfold checkParams
  cases h1 : names.find? fun k => (d k).isNone with
  | some j =>
    simp
  | none =>
    cases h2 : names.find? fun k => !((d k).map isNumber).getD false with
    | some j => simp
    | none => simp

/-- The values that python takes as an index. -/
def index : Obj → Option ℤ
  | .int z | .npInt z => some z
  | .bool b => some (if b then 1 else 0)
  | .float _ | .other => none

/-- `range(a, b)` (line 458) needs integers. -/
def rangeOk (a b : Obj) : Bool := (index a).isSome && (index b).isSome

/-- C135: what passes the check and cannot be a limit of a range is a float. -/
theorem C135_range_iff (a b : Obj) (ha : isNumber a = true) (hb : isNumber b = true) :
    rangeOk a b = true ↔ (∀ x, a ≠ .float x) ∧ ∀ x, b ≠ .float x := by
  cases a <;> cases b <;> simp_all [rangeOk, index, isNumber]

/-- C135, **violated**: fractions, NaN and truth values pass; `range` then raises for the bin limits, and an empty region
(limits in the wrong order) passes too. -/
theorem C135_violated_types (d : String → Option Obj) (x : Option ℝ) (h : ∀ k ∈ kgainNames, ∃ v, d k = some v ∧ isNumber v = true) :
    checkParams kgainNames (Function.update d "rn_bins1" (some (.float x))) = .ok () ∧ (∀ o, rangeOk (.float x) o = false) ∧
    checkParams kgainNames (Function.update (Function.update d "rowroi1" (some (.int 1000))) "rowroi2" (some (.int 9))) = .ok () := by
  have upd : ∀ (e : String → Option Obj) (s : String) (o : Obj), isNumber o = true →
      (∀ k ∈ kgainNames, ∃ v, e k = some v ∧ isNumber v = true) →
      ∀ k ∈ kgainNames, ∃ v, Function.update e s (some o) k = some v ∧ isNumber v = true := by
    intro e s o ho he k hk
    by_cases hks : k = s
    · subst hks
      exact ⟨o, by simp, ho⟩
    · rw [Function.update_of_ne hks]
      exact he k hk
  refine ⟨(C135_params_iff _ _).2 (upd _ _ _ rfl h), fun o => ?_, (C135_params_iff _ _).2 (upd _ _ _ rfl (upd _ _ _ rfl h))⟩
  cases o <;> rfl

/-- C135, **violated**: a numpy integer is not taken for a number. -/
theorem C135_violated_numpy (names : List String) (d : String → Option Obj) (k : String) (z : ℤ) (hk : k ∈ names)
    (h : d k = some (.npInt z)) : checkParams names d ≠ .ok () := by
  intro hc
  obtain ⟨v, hv, hn⟩ := (C135_params_iff _ _).1 hc k hk
  rw [h] at hv
  have := Option.some.inj hv
  subst this
  cases hn

/-- Non-vacuity: the defaults (lines 14-30). -/
example : checkParams kgainNames (fun _ => some (.int 9)) = .ok () :=
  (C135_params_iff _ _).2 fun _ _ => ⟨_, rfl, rfl⟩

end Corgi.ReadNoise

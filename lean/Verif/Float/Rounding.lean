import Mathlib.Algebra.Order.Floor.Ring
import Mathlib.Analysis.SpecialFunctions.Pow.Real
import Mathlib.Data.Int.Log
import Mathlib.Tactic.FieldSimp
import Mathlib.Tactic.Linarith
import Mathlib.Tactic.NormNum
import Mathlib.Tactic.Positivity
import Mathlib.Tactic.Ring

/-!
# Rounding

Floating-point numbers as reals with rounding after each operation: the standard model `|fl x - x| ≤ u |x|` (no overflow and no
underflow). `bin p` rounds to `p` binary digits, halves to even (IEEE 754 without limits on the exponent): `p = 53` for float64, 24 for
float32.
-/

noncomputable section

namespace Corgi.Fl

/-- What is used of a rounding function. -/
structure Rounding (u : ℝ) (fl : ℝ → ℝ) : Prop where
  nonneg : 0 ≤ u
  small : u < 1
  err : ∀ x, |fl x - x| ≤ u * |x|

/-- To the nearest integer, halves to even. -/
def roundEven (x : ℝ) : ℤ :=
  if x - ⌊x⌋ < 1 / 2 then ⌊x⌋
  else if 1 / 2 < x - ⌊x⌋ then ⌊x⌋ + 1
  else if Even ⌊x⌋ then ⌊x⌋ else ⌊x⌋ + 1

/-- Exponent of the last of `p` digits. -/
def lastDigit (p : ℕ) (x : ℝ) : ℤ := Int.log 2 |x| + 1 - p

/-- Rounding to `p` binary digits. -/
def bin (p : ℕ) (x : ℝ) : ℝ := roundEven (x / 2 ^ lastDigit p x) * 2 ^ lastDigit p x

theorem roundEven_near (x : ℝ) : |(roundEven x : ℝ) - x| ≤ 1 / 2 := by
  have h0 := Int.floor_le x
  have h1 := Int.lt_floor_add_one x
  unfold roundEven
  split_ifs <;> rw [abs_le] <;> push_cast <;> constructor <;> linarith

theorem roundEven_int (z : ℤ) : roundEven z = z := by
  unfold roundEven
  simp

/-- `bin p` is a rounding function with unit `2 ^ (-p)`. -/
theorem bin_rounding (p : ℕ) (hp : 1 ≤ p) : Rounding ((2 : ℝ) ^ (-(p : ℤ))) (bin p) := by
  refine ⟨by positivity, ?_, fun x => ?_⟩
  · exact zpow_lt_one_of_neg₀ (by norm_num) (by omega)
  · rcases eq_or_ne x 0 with rfl | hx
    · have : bin p 0 = 0 := by
        unfold bin
        rw [zero_div]
        have := roundEven_int 0
        rw [Int.cast_zero] at this
        rw [this]
        simp
      rw [this]
      simp
    · have hpos : (0 : ℝ) < 2 ^ lastDigit p x := by positivity
      have h1 : bin p x - x = (roundEven (x / 2 ^ lastDigit p x) - x / 2 ^ lastDigit p x) * 2 ^ lastDigit p x := by
        unfold bin
        rw [sub_mul, div_mul_cancel₀ _ hpos.ne']
      have h2 := roundEven_near (x / 2 ^ lastDigit p x)
      have h3 : (2 : ℝ) ^ Int.log 2 |x| ≤ |x| := by
        have := Int.zpow_log_le_self (b := 2) (r := |x|) (by norm_num) (abs_pos.2 hx)
        exact_mod_cast this
      have h4 : (1 / 2 : ℝ) * 2 ^ lastDigit p x = 2 ^ (-(p : ℤ)) * 2 ^ Int.log 2 |x| := by
        rw [← zpow_add₀ (by norm_num)]
        have : (1 / 2 : ℝ) = 2 ^ (-1 : ℤ) := by norm_num
        rw [this, ← zpow_add₀ (by norm_num)]
        congr 1
        unfold lastDigit
        ring
      rw [h1, abs_mul, abs_of_pos hpos]
      calc _ ≤ 1 / 2 * (2 : ℝ) ^ lastDigit p x := mul_le_mul_of_nonneg_right h2 hpos.le
        _ = _ := h4
        _ ≤ _ := mul_le_mul_of_nonneg_left h3 (by positivity)

/-- Integers of up to `p` digits are not changed. -/
theorem bin_int (p : ℕ) (hp : 1 ≤ p) (n : ℤ) (hn : |n| ≤ 2 ^ p) : bin p n = n := by
  rcases eq_or_ne n 0 with rfl | h0
  · unfold bin
    have := roundEven_int 0
    rw [Int.cast_zero] at this
    rw [Int.cast_zero, zero_div, this]
    simp
  · have hpos : (0 : ℝ) < 2 ^ lastDigit p n := by positivity
    have hne : (n : ℝ) ≠ 0 := by exact_mod_cast h0
    have hint : ∃ z : ℤ, (n : ℝ) / 2 ^ lastDigit p n = z := by
      rcases lt_or_eq_of_le hn with hlt | heq
      · have hlog : Int.log 2 |(n : ℝ)| < p := by
          have h1 := Int.zpow_log_le_self (b := 2) (r := |(n : ℝ)|) (by norm_num) (abs_pos.2 hne)
          have h2 : |(n : ℝ)| < (2 : ℝ) ^ (p : ℤ) := by
            rw [zpow_natCast]
            exact_mod_cast hlt
          have h3 : ((2 : ℕ) : ℝ) ^ Int.log 2 |(n : ℝ)| < ((2 : ℕ) : ℝ) ^ (p : ℤ) := h1.trans_lt (by exact_mod_cast h2)
          exact (zpow_lt_zpow_iff_right₀ (by norm_num)).1 h3
        obtain ⟨k, hk⟩ : ∃ k : ℕ, -lastDigit p (n : ℝ) = k := Int.eq_ofNat_of_zero_le (by unfold lastDigit; omega)
        refine ⟨n * 2 ^ k, ?_⟩
        rw [div_eq_mul_inv, ← zpow_neg, hk, zpow_natCast]
        push_cast
        rfl
      · have hlog : Int.log 2 |(n : ℝ)| = p := by
          have : |(n : ℝ)| = ((2 : ℕ) : ℝ) ^ (p : ℤ) := by
            rw [zpow_natCast]
            exact_mod_cast heq
          rw [this]
          exact Int.log_zpow (by norm_num) _
        have hl : lastDigit p (n : ℝ) = 1 := by
          unfold lastDigit
          rw [hlog]
          ring
        rw [hl, zpow_one]
        have hd : (2 : ℤ) ∣ n := by
          rw [← dvd_abs, heq]
          exact dvd_pow_self 2 (by omega)
        obtain ⟨m, rfl⟩ := hd
        exact ⟨m, by push_cast; ring⟩
    obtain ⟨z, hz⟩ := hint
    unfold bin
    rw [hz, roundEven_int, ← hz, div_mul_cancel₀ _ hpos.ne']

/-! ## Relative errors -/

/-- The error of `n` roundings, relative. -/
def gap (u : ℝ) (n : ℕ) : ℝ := ((1 - u) ^ n)⁻¹ - 1

/-- `x'` is `x` up to the relative error of `n` roundings. -/
def Near (u : ℝ) (n : ℕ) (x' x : ℝ) : Prop := ∃ ρ, (1 - u) ^ n ≤ ρ ∧ ρ ≤ ((1 - u) ^ n)⁻¹ ∧ x' = x * ρ

/-- `x'` is `x` up to the error of `n` roundings relative to `a`. -/
def Approx (u : ℝ) (n : ℕ) (x' x a : ℝ) : Prop := |x' - x| ≤ gap u n * a ∧ |x| ≤ a

variable {u : ℝ} {fl : ℝ → ℝ}

theorem base_pos (h : Rounding u fl) : 0 < 1 - u := by
  have := h.small
  linarith

theorem base_le (h : Rounding u fl) : 1 - u ≤ 1 := by
  have := h.nonneg
  linarith

theorem pow_pos' (h : Rounding u fl) (n : ℕ) : 0 < (1 - u) ^ n := pow_pos (base_pos h) n

theorem pow_le' (h : Rounding u fl) (n : ℕ) : (1 - u) ^ n ≤ 1 := pow_le_one₀ (base_pos h).le (base_le h)

theorem gap_nonneg (h : Rounding u fl) (n : ℕ) : 0 ≤ gap u n := by
  unfold gap
  have := (one_le_inv₀ (pow_pos' h n)).2 (pow_le' h n)
  linarith

theorem gap_mono (h : Rounding u fl) {m n : ℕ} (hmn : m ≤ n) : gap u m ≤ gap u n := by
  unfold gap
  have := inv_anti₀ (pow_pos' h n) (pow_le_pow_of_le_one (base_pos h).le (base_le h) hmn)
  linarith

theorem gap_add (m n : ℕ) : (1 + gap u m) * (1 + gap u n) = 1 + gap u (m + n) := by
  unfold gap
  rw [pow_add, mul_inv]
  ring

/-- Bernoulli's inequality: `n` roundings cost at most `2 n u`. -/
theorem gap_le (h : Rounding u fl) {n : ℕ} (hn : n * u ≤ 1 / 2) : gap u n ≤ 2 * n * u := by
  have hb : 1 - n * u ≤ (1 - u) ^ n := by
    have := one_add_mul_le_pow (a := -u) (by have := h.small; linarith) n
    have e : (1 : ℝ) + -u = 1 - u := by ring
    rw [e] at this
    linarith
  have hu : 0 ≤ (n : ℝ) * u := mul_nonneg (Nat.cast_nonneg n) h.nonneg
  have hpos : (0 : ℝ) < 1 - n * u := by linarith
  have h1 : ((1 - u) ^ n)⁻¹ ≤ (1 - n * u)⁻¹ := inv_anti₀ hpos hb
  have h2 : (1 - n * u)⁻¹ ≤ 1 + 2 * n * u := by
    rw [inv_le_iff_one_le_mul₀ hpos]
    nlinarith
  unfold gap
  linarith

theorem near_refl (x : ℝ) : Near u 0 x x := ⟨1, by simp, by simp, by simp⟩

theorem near_mono (h : Rounding u fl) {m n : ℕ} (hmn : m ≤ n) {x' x : ℝ} (hx : Near u m x' x) : Near u n x' x := by
  obtain ⟨ρ, h1, h2, rfl⟩ := hx
  have hp := pow_le_pow_of_le_one (base_pos h).le (base_le h) hmn
  exact ⟨ρ, hp.trans h1, h2.trans (inv_anti₀ (pow_pos' h n) hp), rfl⟩

theorem near_mul (h : Rounding u fl) {m n : ℕ} {x' x y' y : ℝ} (hx : Near u m x' x) (hy : Near u n y' y) :
    Near u (m + n) (x' * y') (x * y) := by
  obtain ⟨ρ, h1, h2, rfl⟩ := hx
  obtain ⟨σ, h3, h4, rfl⟩ := hy
  refine ⟨ρ * σ, ?_, ?_, by ring⟩
  · rw [pow_add]
    exact mul_le_mul h1 h3 (pow_pos' h n).le ((pow_pos' h m).le.trans h1)
  · rw [pow_add, mul_inv]
    exact mul_le_mul h2 h4 ((pow_pos' h n).le.trans h3) (inv_nonneg.2 (pow_pos' h m).le)

theorem near_inv (h : Rounding u fl) {n : ℕ} {x' x : ℝ} (hx : Near u n x' x) : Near u n x'⁻¹ x⁻¹ := by
  obtain ⟨ρ, h1, h2, rfl⟩ := hx
  have hρ := (pow_pos' h n).trans_le h1
  refine ⟨ρ⁻¹, ?_, inv_anti₀ (pow_pos' h n) h1, by rw [mul_inv]⟩
  rw [le_inv_comm₀ (pow_pos' h n) hρ]
  exact h2

theorem near_div (h : Rounding u fl) {m n : ℕ} {x' x y' y : ℝ} (hx : Near u m x' x) (hy : Near u n y' y) :
    Near u (m + n) (x' / y') (x / y) := by
  rw [div_eq_mul_inv, div_eq_mul_inv]
  exact near_mul h hx (near_inv h hy)

theorem near_fl (h : Rounding u fl) (x : ℝ) : Near u 1 (fl x) x := by
  have he := h.err x
  have hu := h.nonneg
  have hs := h.small
  rcases eq_or_ne x 0 with rfl | hx
  · simp only [abs_zero, mul_zero, sub_zero] at he
    have : fl 0 = 0 := abs_eq_zero.1 (le_antisymm he (abs_nonneg _))
    exact ⟨1, by rw [pow_one]; exact base_le h, by rw [pow_one]; exact (one_le_inv₀ (base_pos h)).2 (base_le h), by rw [this]; simp⟩
  · have hq : |fl x / x - 1| ≤ u := by
      have : fl x / x - 1 = (fl x - x) / x := by field_simp
      rw [this, abs_div, div_le_iff₀ (abs_pos.2 hx)]
      exact he
    rw [abs_le] at hq
    refine ⟨fl x / x, ?_, ?_, by field_simp⟩
    · rw [pow_one]
      linarith
    · rw [pow_one]
      have : 1 + u ≤ (1 - u)⁻¹ := by
        rw [le_inv_comm₀ (by linarith) (base_pos h), ← one_div, le_div_iff₀ (by linarith)]
        nlinarith
      linarith

/-- One more rounding. -/
theorem near_round (h : Rounding u fl) {n : ℕ} {x' x : ℝ} (hx : Near u n x' x) : Near u (n + 1) (fl x') x := by
  obtain ⟨σ, h3, h4, h5⟩ := near_fl h x'
  obtain ⟨ρ, h1, h2, rfl⟩ := hx
  have := near_mul h (m := n) (n := 1) (x' := x * ρ) (x := x) (y' := σ) (y := 1) ⟨ρ, h1, h2, rfl⟩ ⟨σ, h3, h4, by simp⟩
  rw [mul_one] at this
  rw [h5]
  exact this

theorem near_pow (h : Rounding u fl) {n : ℕ} {x' x : ℝ} (hx : Near u n x' x) (k : ℕ) : Near u (n * k) (x' ^ k) (x ^ k) := by
  induction k with
  | zero =>
    rw [pow_zero, pow_zero, Nat.mul_zero]
    exact near_refl 1
  | succ k ih =>
    rw [pow_succ, pow_succ, Nat.mul_succ]
    exact near_mul h ih hx

/-- Sums of terms that are not negative. -/
theorem near_add {n : ℕ} {x' x y' y : ℝ} (hx : Near u n x' x) (hy : Near u n y' y) (hx0 : 0 ≤ x) (hy0 : 0 ≤ y) :
    Near u n (x' + y') (x + y) := by
  obtain ⟨ρ, h1, h2, rfl⟩ := hx
  obtain ⟨σ, h3, h4, rfl⟩ := hy
  rcases eq_or_lt_of_le (add_nonneg hx0 hy0) with h0 | h0
  · have hxx : x = 0 := by linarith
    have hyy : y = 0 := by linarith
    subst hxx hyy
    exact ⟨ρ, h1, h2, by simp⟩
  · refine ⟨(x * ρ + y * σ) / (x + y), ?_, ?_, by field_simp⟩
    · rw [le_div_iff₀ h0]
      nlinarith
    · rw [div_le_iff₀ h0]
      nlinarith

theorem near_sqrt (h : Rounding u fl) {n : ℕ} {x' x : ℝ} (hx : Near u n x' x) (h0 : 0 ≤ x) : Near u n (Real.sqrt x') (Real.sqrt x) := by
  obtain ⟨ρ, h1, h2, rfl⟩ := hx
  have hp := pow_pos' h n
  have hl := pow_le' h n
  refine ⟨Real.sqrt ρ, ?_, ?_, Real.sqrt_mul h0 ρ⟩
  · apply Real.le_sqrt_of_sq_le
    nlinarith
  · rw [Real.sqrt_le_left (inv_nonneg.2 hp.le)]
    have h1' := (one_le_inv₀ hp).2 hl
    nlinarith

theorem near_nonneg (h : Rounding u fl) {n : ℕ} {x' x : ℝ} (hx : Near u n x' x) (h0 : 0 ≤ x) : 0 ≤ x' := by
  obtain ⟨ρ, h1, _, rfl⟩ := hx
  exact mul_nonneg h0 ((pow_pos' h n).le.trans h1)

theorem near_abs (h : Rounding u fl) {n : ℕ} {ρ : ℝ} (h1 : (1 - u) ^ n ≤ ρ) (h2 : ρ ≤ ((1 - u) ^ n)⁻¹) : |ρ - 1| ≤ gap u n := by
  have hp := pow_pos' h n
  have hl := pow_le' h n
  have hi := (one_le_inv₀ hp).2 hl
  have hh : 1 - (1 - u) ^ n ≤ ((1 - u) ^ n)⁻¹ - 1 := by
    have e : (1 - u) ^ n * ((1 - u) ^ n)⁻¹ = 1 := mul_inv_cancel₀ hp.ne'
    nlinarith
  unfold gap
  rw [abs_le]
  constructor <;> linarith

/-- The error of `n` roundings is at most `gap`. -/
theorem near_bound (h : Rounding u fl) {n : ℕ} {x' x : ℝ} (hx : Near u n x' x) : |x' - x| ≤ gap u n * |x| := by
  obtain ⟨ρ, h1, h2, rfl⟩ := hx
  have : x * ρ - x = (ρ - 1) * x := by ring
  rw [this, abs_mul]
  exact mul_le_mul_of_nonneg_right (near_abs h h1 h2) (abs_nonneg x)

theorem approx_of_near (h : Rounding u fl) {n : ℕ} {x' x : ℝ} (hx : Near u n x' x) : Approx u n x' x |x| := ⟨near_bound h hx, le_rfl⟩

theorem approx_mono (h : Rounding u fl) {m n : ℕ} (hmn : m ≤ n) {x' x a b : ℝ} (hab : a ≤ b) (hx : Approx u m x' x a) : Approx u n x' x b := by
  have h0 : 0 ≤ a := (abs_nonneg x).trans hx.2
  exact ⟨hx.1.trans (mul_le_mul (gap_mono h hmn) hab h0 (gap_nonneg h n)), hx.2.trans hab⟩

theorem approx_add {n : ℕ} {x' x a y' y b : ℝ} (hx : Approx u n x' x a) (hy : Approx u n y' y b) :
    Approx u n (x' + y') (x + y) (a + b) := by
  refine ⟨?_, (abs_add_le x y).trans (add_le_add hx.2 hy.2)⟩
  have : x' + y' - (x + y) = (x' - x) + (y' - y) := by ring
  rw [this, mul_add]
  exact (abs_add_le _ _).trans (add_le_add hx.1 hy.1)

theorem approx_sub {n : ℕ} {x' x a y' y b : ℝ} (hx : Approx u n x' x a) (hy : Approx u n y' y b) :
    Approx u n (x' - y') (x - y) (a + b) := by
  refine ⟨?_, (abs_sub x y).trans (add_le_add hx.2 hy.2)⟩
  have : x' - y' - (x - y) = (x' - x) - (y' - y) := by ring
  rw [this, mul_add]
  exact (abs_sub _ _).trans (add_le_add hx.1 hy.1)

theorem approx_mul (h : Rounding u fl) {m n : ℕ} {x' x a c' c : ℝ} (hx : Approx u m x' x a) (hc : Near u n c' c) :
    Approx u (m + n) (x' * c') (x * c) (a * |c|) := by
  obtain ⟨ρ, h1, h2, rfl⟩ := hc
  have ha : 0 ≤ a := (abs_nonneg x).trans hx.2
  refine ⟨?_, by rw [abs_mul]; exact mul_le_mul_of_nonneg_right hx.2 (abs_nonneg c)⟩
  have hρ0 : 0 ≤ ρ := (pow_pos' h n).le.trans h1
  have e : x' * (c * ρ) - x * c = ((x' - x) * ρ + x * (ρ - 1)) * c := by ring
  rw [e, abs_mul, ← mul_assoc]
  apply mul_le_mul_of_nonneg_right _ (abs_nonneg c)
  have hρ : ρ ≤ 1 + gap u n := by
    unfold gap
    linarith
  have hg := gap_nonneg h (u := u) m
  calc |(x' - x) * ρ + x * (ρ - 1)| ≤ |x' - x| * ρ + |x| * |ρ - 1| := by
        have := abs_add_le ((x' - x) * ρ) (x * (ρ - 1))
        rwa [abs_mul, abs_mul, abs_of_nonneg hρ0] at this
    _ ≤ gap u m * a * (1 + gap u n) + a * gap u n :=
        add_le_add (mul_le_mul hx.1 hρ hρ0 (mul_nonneg hg ha)) (mul_le_mul hx.2 (near_abs h h1 h2) (abs_nonneg _) ha)
    _ = gap u (m + n) * a := by
        have := gap_add (u := u) m n
        linear_combination a * this

theorem approx_div (h : Rounding u fl) {m n : ℕ} {x' x a c' c : ℝ} (hx : Approx u m x' x a) (hc : Near u n c' c) :
    Approx u (m + n) (x' / c') (x / c) (a / |c|) := by
  rw [div_eq_mul_inv, div_eq_mul_inv, div_eq_mul_inv, ← abs_inv]
  exact approx_mul h hx (near_inv h hc)

/-- One more rounding. -/
theorem approx_round (h : Rounding u fl) {n : ℕ} {x' x a : ℝ} (hx : Approx u n x' x a) : Approx u (n + 1) (fl x') x a := by
  obtain ⟨σ, h3, h4, h5⟩ := near_fl h x'
  have := approx_mul h hx (n := 1) (c' := σ) (c := 1) ⟨σ, h3, h4, by simp⟩
  rw [mul_one, abs_one, mul_one] at this
  rw [h5]
  exact this

end Corgi.Fl

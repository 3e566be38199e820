import Verif.Float.Rounding
import Verif.L2a.Desmear

/-!
# Rounding in the steps from L1 to L2b (C161)

`desmear` (l2a_to_l2b.py 388-425) and the arithmetic of bias, non-linearity, gains, dark and flat, with a rounding after every operation.
The power of libm has a relative error of `q` roundings.
-/

noncomputable section

namespace Corgi.Fl

variable {u : ℝ} {fl : ℝ → ℝ}

/-! ## Model -/

/-- The power function for negative exponents: `q` roundings. -/
def PowOk (u : ℝ) (q : ℕ) (pw : ℝ → ℤ → ℝ) : Prop := ∀ b k, 0 < b → Near u q (pw b k) (b ^ k)

/-- One term of line 416-417. -/
def termFl (fl : ℝ → ℝ) (pw : ℝ → ℤ → ℝ) (rr te : ℝ) (col : ℕ → ℝ) (r s : ℕ) : ℝ :=
  fl (fl (fl (rr / te) * pw (fl (1 + fl (rr / te))) (((s : ℤ) + 1) - ((r : ℤ) + 1) - 1)) * col s)

/-- The inner loop (lines 414-417) with rounding. -/
def smearFl (fl : ℝ → ℝ) (pw : ℝ → ℤ → ℝ) (rr te : ℝ) (col : ℕ → ℝ) (r : ℕ) : ℝ :=
  (List.range (r + 1)).foldl (fun sum s => fl (sum + termFl fl pw rr te col r s)) 0

/-- A column of a desmeared frame, lines 413-419. -/
def desmearFl (fl : ℝ → ℝ) (pw : ℝ → ℤ → ℝ) (rr te : ℝ) (col : List ℝ) : List ℝ :=
  (List.range col.length).map fun r => fl ((col[r]?).getD 0 - smearFl fl pw rr te (fun s => (col[s]?).getD 0) r)

/-! ## Sums in a row -/

theorem foldl_approx (h : Rounding u fl) {m : ℕ} (f' f : ℕ → ℝ) (hf : ∀ s, Near u m (f' s) (f s)) (n : ℕ) :
    Approx u (m + n) ((List.range n).foldl (fun sum s => fl (sum + f' s)) 0) ((List.range n).foldl (fun sum s => sum + f s) 0)
      ((List.range n).map fun s => |f s|).sum := by
  induction n with
  | zero => simp [Approx]
  | succ n ih =>
    rw [List.range_succ, List.foldl_append, List.foldl_append, List.map_append, List.sum_append]
    simp only [List.foldl_cons, List.foldl_nil, List.map_cons, List.map_nil, List.sum_cons, List.sum_nil, add_zero]
    exact approx_round h (approx_add ih (approx_mono h (Nat.le_add_right m n) le_rfl (approx_of_near h (hf n))))

theorem term_near (h : Rounding u fl) {q : ℕ} {pw : ℝ → ℤ → ℝ} (hp : PowOk u q pw) {rr te : ℝ} (hr : 0 ≤ rr) (ht : 0 < te) (col : ℕ → ℝ)
    {r s : ℕ} (hs : s ≤ r) :
    Near u (2 * (r + 1) + q + 3) (termFl fl pw rr te col r s)
      (rr / te * (1 + rr / te) ^ (((s : ℤ) + 1) - ((r : ℤ) + 1) - 1) * col s) := by
  have h0 : 0 ≤ rr / te := div_nonneg hr ht.le
  have h1 : Near u 1 (fl (rr / te)) (rr / te) := near_fl h _
  have h2 : Near u 2 (fl (1 + fl (rr / te))) (1 + rr / te) :=
    near_round h (near_add (near_mono h (Nat.zero_le 1) (near_refl 1)) h1 (by norm_num) h0)
  have hb : 0 < fl (1 + fl (rr / te)) := by
    obtain ⟨ρ, g1, _, g3⟩ := h2
    rw [g3]
    exact mul_pos (by linarith) ((pow_pos' h 2).trans_le g1)
  obtain ⟨k, hk⟩ : ∃ k : ℕ, (((s : ℤ) + 1) - ((r : ℤ) + 1) - 1) = -(k : ℤ) ∧ k ≤ r + 1 := ⟨r - s + 1, by omega, by omega⟩
  rw [termFl, hk.1]
  have h3 : Near u (2 * k) ((fl (1 + fl (rr / te))) ^ (-(k : ℤ))) ((1 + rr / te) ^ (-(k : ℤ))) := by
    rw [zpow_neg, zpow_neg, zpow_natCast, zpow_natCast]
    exact near_inv h (near_pow h h2 k)
  have h4 : Near u (2 * k + q) (pw (fl (1 + fl (rr / te))) (-(k : ℤ))) ((1 + rr / te) ^ (-(k : ℤ))) := by
    obtain ⟨ρ, g1, g2, g3⟩ := hp (fl (1 + fl (rr / te))) (-(k : ℤ)) hb
    have := near_mul h h3 (y' := ρ) (y := 1) ⟨ρ, g1, g2, by simp⟩
    rw [mul_one] at this
    rw [g3]
    exact this
  have h5 := near_round h (near_mul h (near_round h (near_mul h h1 h4)) (near_refl (col s)))
  exact near_mono h (by omega) h5

/-- The weights of the rows in the smear of a row do not exceed one together. -/
theorem weights_le {ρ : ℝ} (h0 : 0 ≤ ρ) (r : ℕ) :
    ((List.range (r + 1)).map fun s : ℕ => ρ * (1 + ρ) ^ (((s : ℤ) + 1) - ((r : ℤ) + 1) - 1)).sum ≤ 1 := by
  have hb : (0 : ℝ) < 1 + ρ := by linarith
  have key : ∀ r : ℕ, ((List.range (r + 1)).map fun s : ℕ => ρ * (1 + ρ) ^ (((s : ℤ) + 1) - ((r : ℤ) + 1) - 1)).sum =
      1 - (1 + ρ) ^ (-((r : ℤ) + 1)) := by
    intro r
    induction r with
    | zero =>
      simp only [zero_add, List.range_one, List.map_cons, List.map_nil, List.sum_cons, List.sum_nil, add_zero, Nat.cast_zero]
      norm_num
      field_simp
      ring
    | succ r ih =>
      rw [List.range_succ, List.map_append, List.sum_append]
      have e : ((List.range (r + 1)).map fun s : ℕ => ρ * (1 + ρ) ^ (((s : ℤ) + 1) - (((r + 1 : ℕ) : ℤ) + 1) - 1)).sum =
          ((List.range (r + 1)).map fun s : ℕ => ρ * (1 + ρ) ^ (((s : ℤ) + 1) - ((r : ℤ) + 1) - 1)).sum * (1 + ρ)⁻¹ := by
        rw [← List.sum_map_mul_right]
        congr 1
        apply List.map_congr_left
        intro s _
        rw [mul_assoc, ← zpow_neg_one, ← zpow_add₀ hb.ne']
        congr 2
        push_cast
        ring
      rw [e, ih]
      simp only [List.map_cons, List.map_nil, List.sum_cons, List.sum_nil, add_zero]
      have e1 : (((r + 1 : ℕ) : ℤ) + 1) - (((r + 1 : ℕ) : ℤ) + 1) - 1 = -1 := by ring
      have e2 : (1 + ρ) ^ (-(((r + 1 : ℕ) : ℤ) + 1)) = (1 + ρ) ^ (-((r : ℤ) + 1)) * (1 + ρ)⁻¹ := by
        rw [← zpow_neg_one, ← zpow_add₀ hb.ne']
        congr 1
      rw [e1, e2, zpow_neg_one]
      field_simp
      ring
  rw [key]
  have : 0 < (1 + ρ) ^ (-((r : ℤ) + 1)) := zpow_pos hb _
  linarith

/-- The smear of a row is at most the largest value of the column. -/
theorem smear_abs {ρ D : ℝ} (h0 : 0 ≤ ρ) (col : ℕ → ℝ) (hD : ∀ s, |col s| ≤ D) (r : ℕ) :
    ((List.range (r + 1)).map fun s : ℕ => |ρ * (1 + ρ) ^ (((s : ℤ) + 1) - ((r : ℤ) + 1) - 1) * col s|).sum ≤ D := by
  have hD0 : 0 ≤ D := (abs_nonneg _).trans (hD 0)
  have hb : (0 : ℝ) < 1 + ρ := by linarith
  calc _ ≤ ((List.range (r + 1)).map fun s : ℕ => ρ * (1 + ρ) ^ (((s : ℤ) + 1) - ((r : ℤ) + 1) - 1) * D).sum := by
        apply List.sum_le_sum
        intro s _
        have : 0 ≤ ρ * (1 + ρ) ^ (((s : ℤ) + 1) - ((r : ℤ) + 1) - 1) := mul_nonneg h0 (zpow_pos hb _).le
        rw [abs_mul, abs_of_nonneg this]
        exact mul_le_mul_of_nonneg_left (hD s) this
    _ = ((List.range (r + 1)).map fun s : ℕ => ρ * (1 + ρ) ^ (((s : ℤ) + 1) - ((r : ℤ) + 1) - 1)).sum * D := by rw [List.sum_map_mul_right]
    _ ≤ 1 * D := mul_le_mul_of_nonneg_right (weights_le h0 r) hD0
    _ = D := one_mul D

/-! ## C161 -/

theorem getD_le {col : List ℝ} {D : ℝ} (hD0 : 0 ≤ D) (hD : ∀ x ∈ col, |x| ≤ D) (s : ℕ) : |(col[s]?).getD 0| ≤ D := by
  cases hs : col[s]? with
  | none => simpa using hD0
  | some x => exact hD x (List.mem_of_getElem? hs)

/-- **C161.** A desmeared column with rounding differs from the exact one by at most the error of `3 r + q + 7` roundings of twice the
largest value, in row `r`. -/
theorem C161_desmear (h : Rounding u fl) {q : ℕ} {pw : ℝ → ℤ → ℝ} (hp : PowOk u q pw) {rr te D : ℝ} (hr : 0 ≤ rr) (ht : 0 < te)
    {col : List ℝ} (hD0 : 0 ≤ D) (hD : ∀ x ∈ col, |x| ≤ D) {r : ℕ} {x' x : ℝ} (hx' : (desmearFl fl pw rr te col)[r]? = some x')
    (hx : (Desmear.desmearCol rr te col)[r]? = some x) : |x' - x| ≤ gap u (3 * r + q + 7) * (2 * D) := by
  have hlt : r < col.length := by
    have := (List.getElem?_eq_some_iff.1 hx).1
    simpa [Desmear.desmearCol] using this
  unfold desmearFl at hx'
  unfold Desmear.desmearCol at hx
  rw [List.getElem?_map, List.getElem?_range hlt, Option.map_some, Option.some.injEq] at hx' hx
  subst hx' hx
  set c : ℕ → ℝ := fun s => (col[s]?).getD 0 with hc
  have h0 : 0 ≤ rr / te := div_nonneg hr ht.le
  have hDc : ∀ s, |c s| ≤ D := getD_le hD0 hD
  -- beyond row `r` the terms do not matter
  have hsum : Approx u (2 * (r + 1) + q + 3 + (r + 1)) (smearFl fl pw rr te c r) (Desmear.smear (rr / te) c r) D := by
    have key := foldl_approx h (m := 2 * (r + 1) + q + 3)
      (fun s => if s ≤ r then termFl fl pw rr te c r s else 0)
      (fun s => if s ≤ r then rr / te * (1 + rr / te) ^ (((s : ℤ) + 1) - ((r : ℤ) + 1) - 1) * c s else 0)
      (fun s => by
        by_cases hs : s ≤ r
        · simp only [hs, if_true]
          exact term_near h hp hr ht c hs
        · simp only [hs, if_false]
          exact near_mono h (Nat.zero_le _) (near_refl 0)) (r + 1)
    have e1 : (List.range (r + 1)).foldl (fun sum s => fl (sum + if s ≤ r then termFl fl pw rr te c r s else 0)) 0 =
        smearFl fl pw rr te c r := by
      unfold smearFl
      apply List.foldl_ext
      intro a s hs
      rw [List.mem_range] at hs
      rw [if_pos (by omega)]
    have e2 : (List.range (r + 1)).foldl (fun sum s => sum + if s ≤ r then rr / te * (1 + rr / te) ^ (((s : ℤ) + 1) - ((r : ℤ) + 1) - 1) * c s
        else 0) 0 = Desmear.smear (rr / te) c r := by
      unfold Desmear.smear
      apply List.foldl_ext
      intro a s hs
      rw [List.mem_range] at hs
      rw [if_pos (by omega)]
    have e3 : ((List.range (r + 1)).map fun s : ℕ => |if s ≤ r then rr / te * (1 + rr / te) ^ (((s : ℤ) + 1) - ((r : ℤ) + 1) - 1) * c s
        else 0|).sum ≤ D := by
      refine le_trans (le_of_eq ?_) (smear_abs h0 c hDc r)
      congr 1
      apply List.map_congr_left
      intro s hs
      rw [List.mem_range] at hs
      rw [if_pos (by omega)]
    rw [e1, e2] at key
    exact approx_mono h le_rfl e3 key
  have hd : Approx u (2 * (r + 1) + q + 3 + (r + 1)) (c r) (c r) D := by
    have := approx_of_near h (near_mono h (Nat.zero_le (2 * (r + 1) + q + 3 + (r + 1))) (near_refl (u := u) (c r)))
    exact approx_mono h le_rfl (hDc r) this
  have := (approx_mono h (n := 3 * r + q + 7) (by omega) (two_mul D).ge (approx_round h (approx_sub hd hsum))).1
  exact this

/-- **C161.** For float64 (53 digits), a power function good to four roundings and up to 1024 rows: the error is at most `2e-12` of the
largest value. -/
theorem C161_desmear_float64 {pw : ℝ → ℤ → ℝ} (hp : PowOk ((2 : ℝ) ^ (-(53 : ℤ))) 4 pw) {rr te D : ℝ} (hr : 0 ≤ rr) (ht : 0 < te)
    {col : List ℝ} (hn : col.length ≤ 1024) (hD0 : 0 ≤ D) (hD : ∀ x ∈ col, |x| ≤ D) {r : ℕ} {x' x : ℝ}
    (hx' : (desmearFl (bin 53) pw rr te col)[r]? = some x') (hx : (Desmear.desmearCol rr te col)[r]? = some x) :
    |x' - x| ≤ 2 / 10 ^ 12 * D := by
  have hR : Rounding ((2 : ℝ) ^ (-(53 : ℤ))) (bin 53) := bin_rounding 53 (by norm_num)
  have hlt : r < 1024 := by
    have := (List.getElem?_eq_some_iff.1 hx).1
    have h2 : (Desmear.desmearCol rr te col).length = col.length := by simp [Desmear.desmearCol]
    omega
  have h1 := C161_desmear hR hp hr ht hD0 hD hx' hx
  have hN : ((3 * r + 4 + 7 : ℕ) : ℝ) ≤ 3080 := by exact_mod_cast (by omega : 3 * r + 4 + 7 ≤ 3080)
  have hu : (2 : ℝ) ^ (-(53 : ℤ)) ≤ 1.2 / 10 ^ 16 := by
    rw [zpow_neg]
    norm_num
  have hu0 : (0 : ℝ) ≤ 2 ^ (-(53 : ℤ)) := by positivity
  have hnu : ((3 * r + 4 + 7 : ℕ) : ℝ) * 2 ^ (-(53 : ℤ)) ≤ 3080 * (1.2 / 10 ^ 16) := mul_le_mul hN hu hu0 (by norm_num)
  have hg := gap_le hR (n := 3 * r + 4 + 7) (hnu.trans (by norm_num))
  have hg' : gap ((2 : ℝ) ^ (-(53 : ℤ))) (3 * r + 4 + 7) ≤ 1 / 10 ^ 12 := by
    refine hg.trans ?_
    rw [mul_assoc]
    linarith [hnu, (by norm_num : (2 : ℝ) * (3080 * (1.2 / 10 ^ 16)) ≤ 1 / 10 ^ 12)]
  refine h1.trans ?_
  have := mul_le_mul_of_nonneg_right hg' (by linarith : (0 : ℝ) ≤ 2 * D)
  linarith

/-- A correctly rounded power meets the condition. -/
example : PowOk ((2 : ℝ) ^ (-(53 : ℤ))) 4 fun b k => bin 53 (b ^ k) := by
  have hR : Rounding ((2 : ℝ) ^ (-(53 : ℤ))) (bin 53) := bin_rounding 53 (by norm_num)
  exact fun b k _ => near_mono hR (by norm_num) (near_fl hR _)

/-- **C161.** Errors of the data are at most doubled: if the column differs from the observation of `t` by at most `η`, the exact result
differs from `t` by at most `2 η`. -/
theorem C161_stable {rr te η : ℝ} (hr : 0 ≤ rr) (ht : 0 < te) (hη : 0 ≤ η) {col t : List ℝ}
    (hlen : col.length = t.length) (hobs : ∀ (s : ℕ) (a b : ℝ), col[s]? = some a → (Desmear.observe (rr / te) t)[s]? = some b → |a - b| ≤ η)
    {r : ℕ} {x y : ℝ} (hx : (Desmear.desmearCol rr te col)[r]? = some x) (hy : t[r]? = some y) : |x - y| ≤ 2 * η := by
  have h0 : 0 ≤ rr / te := div_nonneg hr ht.le
  have hinv := Desmear.C25_inverse rr te (by linarith) t
  have holen : (Desmear.observe (rr / te) t).length = t.length := by simp [Desmear.observe]
  have hlt : r < t.length := (List.getElem?_eq_some_iff.1 hy).1
  rw [← hinv] at hy
  set o := Desmear.observe (rr / te) t with ho
  unfold Desmear.desmearCol at hx hy
  rw [List.getElem?_map, List.getElem?_range (by omega), Option.map_some, Option.some.injEq] at hx hy
  subst hx hy
  have hdiff : ∀ s : ℕ, |(col[s]?).getD 0 - (o[s]?).getD 0| ≤ η := by
    intro s
    by_cases hs : s < t.length
    · have h1 : s < col.length := by omega
      have h2 : s < o.length := by omega
      rw [List.getElem?_eq_getElem h1, List.getElem?_eq_getElem h2]
      exact hobs s _ _ (List.getElem?_eq_getElem h1) (List.getElem?_eq_getElem h2)
    · rw [List.getElem?_eq_none (by omega), List.getElem?_eq_none (by omega)]
      simpa using hη
  have hlin : ∀ (f g : ℕ → ℝ) (l : List ℕ) (w : ℕ → ℝ) (a b : ℝ),
      l.foldl (fun sum s => sum + w s * f s) a - l.foldl (fun sum s => sum + w s * g s) b =
        (a - b) + (l.map fun s => w s * (f s - g s)).sum := by
    intro f g l w
    induction l with
    | nil => intro a b; simp
    | cons s l ih =>
      intro a b
      rw [List.foldl_cons, List.foldl_cons, ih, List.map_cons, List.sum_cons]
      ring
  have hsm := hlin (fun s : ℕ => (col[s]?).getD 0) (fun s : ℕ => (o[s]?).getD 0) (List.range (r + 1))
    (fun s : ℕ => rr / te * (1 + rr / te) ^ (((s : ℤ) + 1) - ((r : ℤ) + 1) - 1)) 0 0
  have habs : |Desmear.smear (rr / te) (fun s => (col[s]?).getD 0) r - Desmear.smear (rr / te) (fun s => (o[s]?).getD 0) r| ≤ η := by
    unfold Desmear.smear
    rw [hsm, sub_self, zero_add]
    have h1 : ∀ l : List ℝ, |l.sum| ≤ (l.map abs).sum := by
      intro l
      induction l with
      | nil => simp
      | cons a l ih =>
        rw [List.sum_cons, List.map_cons, List.sum_cons]
        exact (abs_add_le a l.sum).trans (by linarith)
    refine (h1 _).trans ?_
    rw [List.map_map]
    exact smear_abs h0 (fun s => (col[s]?).getD 0 - (o[s]?).getD 0) hdiff r
  have e : (col[r]?).getD 0 - Desmear.smear (rr / te) (fun s => (col[s]?).getD 0) r -
      ((o[r]?).getD 0 - Desmear.smear (rr / te) (fun s => (o[s]?).getD 0) r) =
      ((col[r]?).getD 0 - (o[r]?).getD 0) -
        (Desmear.smear (rr / te) (fun s => (col[s]?).getD 0) r - Desmear.smear (rr / te) (fun s => (o[s]?).getD 0) r) := by ring
  rw [e]
  have := abs_sub ((col[r]?).getD 0 - (o[r]?).getD 0)
    (Desmear.smear (rr / te) (fun s => (col[s]?).getD 0) r - Desmear.smear (rr / te) (fun s => (o[s]?).getD 0) r)
  linarith [hdiff r]

/-! ### Frames of integers -/

/-- Conversion of a float to an integer: the fraction is cut off. -/
def trunc (x : ℝ) : ℤ := if 0 ≤ x then ⌊x⌋ else ⌈x⌉

/-- A column if the frame holds integers: `np.zeros_like` (line 411) makes an array of integers, so the smear loses its fraction (line 418). -/
def desmearInt (rr te : ℝ) (col : List ℤ) : List ℤ :=
  (List.range col.length).map fun r =>
    (col[r]?).getD 0 - trunc (Desmear.smear (rr / te) (fun s => (((col[s]?).getD 0 : ℤ) : ℝ)) r)

/-- **C161, violated.** In a frame of integers a smear of less than one count is not removed at all. -/
theorem C161_violated_integers {rr te : ℝ} {col : List ℤ}
    (h : ∀ r < col.length, |Desmear.smear (rr / te) (fun s => (((col[s]?).getD 0 : ℤ) : ℝ)) r| < 1) : desmearInt rr te col = col := by
  have ht : ∀ x : ℝ, |x| < 1 → trunc x = 0 := by
    intro x hx
    rw [abs_lt] at hx
    unfold trunc
    split
    · rw [Int.floor_eq_zero_iff]
      exact ⟨by assumption, hx.2⟩
    · rw [Int.ceil_eq_zero_iff]
      exact ⟨hx.1, by linarith⟩
  apply List.ext_getElem?
  intro r
  unfold desmearInt
  by_cases hr : r < col.length
  · rw [List.getElem?_map, List.getElem?_range hr, Option.map_some, ht _ (h r hr), sub_zero, List.getElem?_eq_getElem hr]
    rfl
  · rw [List.getElem?_map, List.getElem?_eq_none (by simpa using hr), List.getElem?_eq_none (by omega)]
    rfl

/-- Such frames: whenever the row time is short, `n D rr < te` for `n` rows of up to `D` counts. -/
theorem C161_violated_integers_exists {rr te : ℝ} (hr : 0 ≤ rr) (ht : 0 < te) {col : List ℤ} {D : ℝ} (hD0 : 0 ≤ D)
    (hD : ∀ x ∈ col, |(x : ℝ)| ≤ D) (hn : (col.length : ℝ) * D * rr < te) : desmearInt rr te col = col := by
  apply C161_violated_integers
  intro r hr'
  have h0 : 0 ≤ rr / te := div_nonneg hr ht.le
  set c : ℕ → ℝ := fun s => (((col[s]?).getD 0 : ℤ) : ℝ) with hc
  have hDc : ∀ s, |c s| ≤ D := by
    intro s
    simp only [hc]
    cases hs : col[s]? with
    | none => simpa using hD0
    | some x => exact hD x (List.mem_of_getElem? hs)
  have key : ∀ n ≤ r + 1, |(List.range n).foldl
      (fun (sum : ℝ) (s : ℕ) => sum + rr / te * (1 + rr / te) ^ (((s : ℤ) + 1) - ((r : ℤ) + 1) - 1) * c s) 0| ≤ n * (rr / te * D) := by
    intro n
    induction n with
    | zero => intro _; simp
    | succ n ih =>
      intro hn'
      rw [List.range_succ, List.foldl_append]
      simp only [List.foldl_cons, List.foldl_nil]
      refine (abs_add_le _ _).trans ?_
      have h1 := ih (by omega)
      have hw : (1 + rr / te) ^ (((n : ℤ) + 1) - ((r : ℤ) + 1) - 1) ≤ 1 :=
        zpow_le_one_of_nonpos₀ (by linarith) (by omega)
      have hw0 : 0 < (1 + rr / te) ^ (((n : ℤ) + 1) - ((r : ℤ) + 1) - 1) := zpow_pos (by linarith) _
      have h2 : |rr / te * (1 + rr / te) ^ (((n : ℤ) + 1) - ((r : ℤ) + 1) - 1) * c n| ≤ rr / te * D := by
        rw [abs_mul, abs_mul, abs_of_nonneg h0, abs_of_pos hw0]
        have : rr / te * (1 + rr / te) ^ (((n : ℤ) + 1) - ((r : ℤ) + 1) - 1) ≤ rr / te := mul_le_of_le_one_right h0 hw
        exact mul_le_mul this (hDc n) (abs_nonneg _) h0
      push_cast
      linarith
  have := key (r + 1) le_rfl
  unfold Desmear.smear
  refine this.trans_lt ?_
  have hlen : ((r + 1 : ℕ) : ℝ) ≤ col.length := by exact_mod_cast hr'
  have h2 : ((r + 1 : ℕ) : ℝ) * (rr / te * D) ≤ col.length * (rr / te * D) := mul_le_mul_of_nonneg_right hlen (mul_nonneg h0 hD0)
  refine h2.trans_lt ?_
  have : (col.length : ℝ) * (rr / te * D) = col.length * D * rr / te := by ring
  rw [this, div_lt_one ht]
  exact hn

/-- Not vacuous: three rows of up to a hundred counts, row time a thousandth of the exposure time; nothing is removed. -/
example : desmearInt 1 1000 [100, 50, 100] = [100, 50, 100] :=
  C161_violated_integers_exists (D := 100) (by norm_num) (by norm_num) (by norm_num) (by intro x hx; fin_cases hx <;> norm_num) (by norm_num)

/-! ### The other steps -/

/-- One pixel: bias subtraction (l1_to_l2a.py), correction factor of the non-linearity, k-gain, EM gain, dark and flat, each with its
rounding. -/
def pixelFl (fl : ℝ → ℝ) (raw bias nl k g dark flat : ℝ) : ℝ :=
  fl (fl (fl (fl (fl (fl (raw - bias) * nl) * k) / g) - dark) / flat)

/-- **C161.** The value of a pixel differs from the exact one by at most the error of six roundings of the sum of the terms. -/
theorem C161_pixel (h : Rounding u fl) (raw bias nl k g dark flat : ℝ) :
    |pixelFl fl raw bias nl k g dark flat - ((raw - bias) * nl * k / g - dark) / flat| ≤
      gap u 6 * (((|raw| + |bias|) * |nl| * |k| / |g| + |dark|) / |flat|) := by
  have a0 : ∀ x : ℝ, Approx u 0 x x |x| := fun x => approx_of_near h (near_refl x)
  have h1 := approx_round h (approx_sub (a0 raw) (a0 bias))
  have h2 := approx_round h (approx_mul h h1 (near_refl nl))
  have h3 := approx_round h (approx_mul h h2 (near_refl k))
  have h4 := approx_round h (approx_div h h3 (near_refl g))
  have h5 := approx_round h (approx_sub h4 (approx_mono h (Nat.zero_le _) le_rfl (a0 dark)))
  have h6 := approx_round h (approx_div h h5 (near_refl flat))
  exact h6.1

/-- **C161.** In float64 this is less than `2e-15` of the sum of the terms. -/
theorem C161_pixel_float64 (raw bias nl k g dark flat : ℝ) :
    |pixelFl (bin 53) raw bias nl k g dark flat - ((raw - bias) * nl * k / g - dark) / flat| ≤
      2 / 10 ^ 15 * (((|raw| + |bias|) * |nl| * |k| / |g| + |dark|) / |flat|) := by
  have hR : Rounding ((2 : ℝ) ^ (-(53 : ℤ))) (bin 53) := bin_rounding 53 (by norm_num)
  refine (C161_pixel hR raw bias nl k g dark flat).trans ?_
  apply mul_le_mul_of_nonneg_right _ (by positivity)
  have hu : (2 : ℝ) ^ (-(53 : ℤ)) ≤ 1.2 / 10 ^ 16 := by
    rw [zpow_neg]
    norm_num
  refine (gap_le hR ?_).trans ?_ <;> push_cast <;> linarith

end Corgi.Fl

import Verif.Float.Rounding

/-!
# Rounding in sums, means and errors (C162)

numpy adds in an order of its own (along the first axis one after the other, in blocks or by halves otherwise), so a sum is any binary tree
over the values; a rounding follows every operation. `combine_images` (combine.py 8-49), `mean_combine` (darks.py), `np.nansum` of photon
counts (photon_counting.py 239-249), `add_error_term` (data.py 528-560).
-/

noncomputable section

namespace Corgi.Fl

variable {u : ℝ} {fl : ℝ → ℝ}

/-! ## Model -/

/-- An order of addition; a leaf holds the value as it was computed and the exact one. -/
inductive Tree
  | leaf (x' x : ℝ)
  | node (l r : Tree)

namespace Tree

/-- The sum with rounding. -/
def total (fl : ℝ → ℝ) : Tree → ℝ
  | leaf x' _ => x'
  | node l r => fl (l.total fl + r.total fl)

def leaves : Tree → List (ℝ × ℝ)
  | leaf x' x => [(x', x)]
  | node l r => l.leaves ++ r.leaves

/-- Number of additions on the longest way. -/
def depth : Tree → ℕ
  | leaf _ _ => 0
  | node l r => max l.depth r.depth + 1

end Tree

/-- `add_error_term` (data.py 547, 549) for one pixel and several terms. -/
def quadFl (fl : ℝ → ℝ) (e0 : ℝ) (es : List ℝ) : ℝ :=
  es.foldl (fun t e => fl (Real.sqrt (fl (fl (t * t) + fl (e * e))))) e0

/-! ## Specification -/

def exact (l : List (ℝ × ℝ)) : ℝ := (l.map Prod.snd).sum

def absSum (l : List (ℝ × ℝ)) : ℝ := (l.map fun p => |p.2|).sum

/-! ## C162 -/

theorem tree_approx (h : Rounding u fl) {m : ℕ} : ∀ t : Tree, (∀ p ∈ t.leaves, Near u m p.1 p.2) →
    Approx u (m + t.depth) (t.total fl) (exact t.leaves) (absSum t.leaves)
  | .leaf x' x, hl => by
    have := approx_of_near h (hl (x', x) (by simp [Tree.leaves]))
    simpa [Tree.depth, Tree.total, Tree.leaves, exact, absSum] using this
  | .node l r, hl => by
    have h1 := tree_approx h l fun p hp => hl p (by simp [Tree.leaves, hp])
    have h2 := tree_approx h r fun p hp => hl p (by simp [Tree.leaves, hp])
    have h3 := approx_add (approx_mono h (n := m + max l.depth r.depth) (by omega) le_rfl h1) (approx_mono h (by omega) le_rfl h2)
    have h4 := approx_round h h3
    simpa [Tree.depth, Tree.total, Tree.leaves, exact, absSum, add_assoc] using h4

/-- **C162.** Whatever the order of addition, a sum is off by at most the error of as many roundings as the longest way has additions,
relative to the sum of the absolute values. -/
theorem C162_sum (h : Rounding u fl) {m : ℕ} (t : Tree) (hl : ∀ p ∈ t.leaves, Near u m p.1 p.2) :
    |t.total fl - exact t.leaves| ≤ gap u (m + t.depth) * absSum t.leaves := (tree_approx h t hl).1

/-- **C162.** With `n` values that is at most `n - 1` additions. -/
theorem C162_depth (t : Tree) : t.depth + 1 ≤ t.leaves.length := by
  induction t with
  | leaf x' x => simp [Tree.depth, Tree.leaves]
  | node l r ihl ihr =>
    simp only [Tree.depth, Tree.leaves, List.length_append]
    omega

theorem exact_nonneg {l : List (ℝ × ℝ)} (h : ∀ p ∈ l, 0 ≤ p.2) : 0 ≤ exact l := by
  unfold exact
  apply List.sum_nonneg
  intro x hx
  obtain ⟨p, hp, rfl⟩ := List.mem_map.1 hx
  exact h p hp

/-- **C162.** A sum of values that are not negative has a small relative error. -/
theorem C162_positive (h : Rounding u fl) {m : ℕ} : ∀ t : Tree, (∀ p ∈ t.leaves, Near u m p.1 p.2 ∧ 0 ≤ p.2) →
    Near u (m + t.depth) (t.total fl) (exact t.leaves)
  | .leaf x' x, hl => by simpa [Tree.depth, Tree.total, Tree.leaves, exact] using (hl (x', x) (by simp [Tree.leaves])).1
  | .node l r, hl => by
    have hl1 : ∀ p ∈ l.leaves, Near u m p.1 p.2 ∧ 0 ≤ p.2 := fun p hp => hl p (by simp [Tree.leaves, hp])
    have hl2 : ∀ p ∈ r.leaves, Near u m p.1 p.2 ∧ 0 ≤ p.2 := fun p hp => hl p (by simp [Tree.leaves, hp])
    have h3 := near_add (near_mono h (n := m + max l.depth r.depth) (by omega) (C162_positive h l hl1))
      (near_mono h (by omega) (C162_positive h r hl2)) (exact_nonneg fun p hp => (hl1 p hp).2) (exact_nonneg fun p hp => (hl2 p hp).2)
    have h4 := near_round h h3
    simpa [Tree.depth, Tree.total, Tree.leaves, exact, add_assoc] using h4

/-- **C162.** Two orders of addition of the same values differ by at most their errors. -/
theorem C162_order (h : Rounding u fl) {m : ℕ} (t t' : Tree) (hp : t.leaves.Perm t'.leaves) (hl : ∀ p ∈ t.leaves, Near u m p.1 p.2) :
    |t.total fl - t'.total fl| ≤ (gap u (m + t.depth) + gap u (m + t'.depth)) * absSum t.leaves := by
  have h1 := C162_sum h t hl
  have h2 := C162_sum h t' fun p hp' => hl p (hp.symm.subset hp')
  have e1 : exact t'.leaves = exact t.leaves := (hp.symm.map _).sum_eq
  have e2 : absSum t'.leaves = absSum t.leaves := (hp.symm.map _).sum_eq
  rw [e1, e2] at h2
  have : t.total fl - t'.total fl = (t.total fl - exact t.leaves) - (t'.total fl - exact t.leaves) := by ring
  rw [this, add_mul]
  exact (abs_sub _ _).trans (add_le_add h1 h2)

/-- **C162.** The mean of frames: the sum over the number of good samples. -/
theorem C162_mean (h : Rounding u fl) (t : Tree) (hl : ∀ p ∈ t.leaves, p.1 = p.2) (n : ℕ) :
    |fl (t.total fl / n) - exact t.leaves / n| ≤ gap u (t.depth + 1) * (absSum t.leaves / n) := by
  have h1 := tree_approx h (m := 0) t fun p hp => by rw [hl p hp]; exact near_refl _
  have h2 := approx_round h (approx_div h h1 (near_refl (n : ℝ)))
  rw [Nat.zero_add, Nat.add_zero, Nat.abs_cast] at h2
  exact h2.1

/-- **C162.** The error of a mean, `sqrt (mean e²) / sqrt n` (combine.py 35), is right to a relative error of five more roundings than the
sum. -/
theorem C162_mean_error (h : Rounding u fl) (t : Tree) (hl : ∀ p ∈ t.leaves, ∃ e, p = (fl (e * e), e * e)) (n : ℕ) :
    Near u (t.depth + 5) (fl (fl (Real.sqrt (fl (t.total fl / n))) / fl (Real.sqrt n))) (Real.sqrt (exact t.leaves) / n) := by
  have h1 := C162_positive h (m := 1) t fun p hp => by
    obtain ⟨e, rfl⟩ := hl p hp
    exact ⟨near_fl h _, mul_self_nonneg e⟩
  have h0 : 0 ≤ exact t.leaves := exact_nonneg fun p hp => by
    obtain ⟨e, rfl⟩ := hl p hp
    exact mul_self_nonneg e
  have h2 := near_round h (near_div h h1 (near_refl (n : ℝ)))
  have h3 := near_round h (near_sqrt h h2 (div_nonneg h0 (Nat.cast_nonneg n)))
  have h4 := near_round h (near_div h h3 (near_fl h (Real.sqrt n)))
  have e : Real.sqrt (exact t.leaves / n) / Real.sqrt n = Real.sqrt (exact t.leaves) / n := by
    rw [Real.sqrt_div h0, div_div, Real.mul_self_sqrt (Nat.cast_nonneg n)]
  rw [e] at h4
  exact near_mono h (by omega) h4

theorem near_sqrt_half (h : Rounding u fl) {n : ℕ} {x' x : ℝ} (hx : Near u (n + n) x' x) (h0 : 0 ≤ x) :
    Near u n (Real.sqrt x') (Real.sqrt x) := by
  obtain ⟨ρ, h1, h2, rfl⟩ := hx
  have hp := pow_pos' h n
  refine ⟨Real.sqrt ρ, ?_, ?_, Real.sqrt_mul h0 ρ⟩
  · apply Real.le_sqrt_of_sq_le
    rw [sq, ← pow_add]
    exact h1
  · rw [Real.sqrt_le_left (inv_nonneg.2 hp.le), sq, ← mul_inv, ← pow_add]
    exact h2

/-- **C162.** The total error after `k` error terms is right to a relative error of `2 k` roundings; so the order of the terms matters no
more than that. -/
theorem C162_quadrature (h : Rounding u fl) (e0 : ℝ) (h0 : 0 ≤ e0) (es : List ℝ) :
    Near u (2 * es.length) (quadFl fl e0 es) (Real.sqrt (e0 * e0 + (es.map fun e => e * e).sum)) := by
  have key : ∀ (es : List ℝ) (k : ℕ) (t' s : ℝ), 0 ≤ s → Near u k t' (Real.sqrt s) →
      Near u (k + 2 * es.length) (quadFl fl t' es) (Real.sqrt (s + (es.map fun e => e * e).sum)) := by
    intro es
    induction es with
    | nil => intro k t' s _ h1; simpa [quadFl] using h1
    | cons e es ih =>
      intro k t' s hs h1
      have h2 : Near u (k + k) (t' * t') s := by
        have := near_mul h h1 h1
        rwa [Real.mul_self_sqrt hs] at this
      have h3 := near_round h h2
      have h4 : Near u (k + k + 1) (fl (e * e)) (e * e) := near_mono h (by omega) (near_fl h _)
      have h5 := near_round h (near_add h3 h4 hs (mul_self_nonneg e))
      have h6 : Near u ((k + 1) + (k + 1)) (fl (fl (t' * t') + fl (e * e))) (s + e * e) := near_mono h (by omega) h5
      have h7 := near_round h (near_sqrt_half h h6 (add_nonneg hs (mul_self_nonneg e)))
      have h8 := ih (k + 2) _ _ (add_nonneg hs (mul_self_nonneg e)) h7
      have e1 : k + 2 * (e :: es).length = k + 2 + 2 * es.length := by simp; omega
      have e2 : s + ((e :: es).map fun e => e * e).sum = s + e * e + (es.map fun e => e * e).sum := by simp; ring
      rw [e1, e2]
      exact h8
  have := key es 0 e0 (e0 * e0) (mul_self_nonneg e0) (by rw [Real.sqrt_mul_self h0]; exact near_refl e0)
  rwa [Nat.zero_add] at this

/-- **C162.** Numbers of photons and of frames are exact: a sum of naturals that fits into the digits is not rounded, whatever the order. -/
theorem C162_counts (p : ℕ) (hp : 1 ≤ p) : ∀ t : Tree, (∀ q ∈ t.leaves, q.1 = q.2 ∧ ∃ n : ℕ, q.2 = n) → exact t.leaves ≤ 2 ^ p →
    t.total (bin p) = exact t.leaves := by
  have hnat : ∀ l : List (ℝ × ℝ), (∀ q ∈ l, q.1 = q.2 ∧ ∃ n : ℕ, q.2 = n) → ∃ n : ℕ, exact l = n := by
    intro l hl
    induction l with
    | nil => exact ⟨0, by simp [exact]⟩
    | cons q l ih =>
      obtain ⟨n, hn⟩ := ih fun q hq => hl q (by simp [hq])
      obtain ⟨k, hk⟩ := (hl q (by simp)).2
      refine ⟨k + n, ?_⟩
      unfold exact at *
      rw [List.map_cons, List.sum_cons, hn, hk]
      push_cast
      rfl
  intro t
  induction t with
  | leaf x' x =>
    intro hl _
    simpa [Tree.total, Tree.leaves, exact] using (hl (x', x) (by simp [Tree.leaves])).1
  | node l r ihl ihr =>
    intro hl hs
    have e : exact (Tree.node l r).leaves = exact l.leaves + exact r.leaves := by simp [exact, Tree.leaves]
    have hl1 : ∀ q ∈ l.leaves, q.1 = q.2 ∧ ∃ n : ℕ, q.2 = n := fun q hq => hl q (by simp [Tree.leaves, hq])
    have hl2 : ∀ q ∈ r.leaves, q.1 = q.2 ∧ ∃ n : ℕ, q.2 = n := fun q hq => hl q (by simp [Tree.leaves, hq])
    obtain ⟨a, ha⟩ := hnat _ hl1
    obtain ⟨b, hb⟩ := hnat _ hl2
    rw [e, ha, hb] at hs
    have ha0 : (0 : ℝ) ≤ a := Nat.cast_nonneg a
    have hb0 : (0 : ℝ) ≤ b := Nat.cast_nonneg b
    rw [Tree.total, ihl hl1 (by rw [ha]; linarith), ihr hl2 (by rw [hb]; linarith), e, ha, hb]
    have := bin_int p hp ((a : ℤ) + b) (by
      rw [abs_of_nonneg (by positivity)]
      exact_mod_cast hs)
    push_cast at this
    exact this

/-- `2 ^ p + 1` is rounded to `2 ^ p`. -/
theorem bin_half (p : ℕ) (hp : 2 ≤ p) : bin p ((2 : ℝ) ^ p + 1) = 2 ^ p := by
  have h1 : (1 : ℝ) < 2 ^ p := one_lt_pow₀ (by norm_num) (by omega)
  have hpos : (0 : ℝ) < 2 ^ p + 1 := by positivity
  have hlog : Int.log 2 |(2 : ℝ) ^ p + 1| = p := by
    rw [abs_of_pos hpos]
    have ha := Int.zpow_log_le_self (b := 2) (r := (2 : ℝ) ^ p + 1) (by norm_num) hpos
    have hb := Int.lt_zpow_succ_log_self (b := 2) (by norm_num) ((2 : ℝ) ^ p + 1)
    have h2 : ((2 : ℕ) : ℝ) ^ Int.log 2 ((2 : ℝ) ^ p + 1) < ((2 : ℕ) : ℝ) ^ ((p : ℤ) + 1) := by
      refine ha.trans_lt ?_
      rw [zpow_add₀ (by norm_num), zpow_natCast, zpow_one]
      push_cast
      linarith
    have h3 : ((2 : ℕ) : ℝ) ^ (p : ℤ) < ((2 : ℕ) : ℝ) ^ (Int.log 2 ((2 : ℝ) ^ p + 1) + 1) := by
      refine lt_trans ?_ hb
      rw [zpow_natCast]
      push_cast
      linarith
    have h4 := (zpow_lt_zpow_iff_right₀ (by norm_num : (1 : ℝ) < ((2 : ℕ) : ℝ))).1 h2
    have h5 := (zpow_lt_zpow_iff_right₀ (by norm_num : (1 : ℝ) < ((2 : ℕ) : ℝ))).1 h3
    omega
  have hl : lastDigit p ((2 : ℝ) ^ p + 1) = 1 := by
    unfold lastDigit
    rw [hlog]
    ring
  obtain ⟨k, rfl⟩ : ∃ k, p = k + 1 + 1 := ⟨p - 2, by omega⟩
  have hf : ⌊((2 : ℝ) ^ (k + 1 + 1) + 1) / 2⌋ = 2 ^ (k + 1) := by
    rw [Int.floor_eq_iff]
    push_cast
    constructor
    · rw [pow_succ (2 : ℝ) (k + 1)]; linarith
    · rw [pow_succ (2 : ℝ) (k + 1)]; linarith
  have hr : roundEven (((2 : ℝ) ^ (k + 1 + 1) + 1) / 2) = 2 ^ (k + 1) := by
    unfold roundEven
    rw [hf]
    have : ((2 : ℝ) ^ (k + 1 + 1) + 1) / 2 - ((2 ^ (k + 1) : ℤ) : ℝ) = 1 / 2 := by
      push_cast
      rw [pow_succ (2 : ℝ) (k + 1)]
      ring
    rw [this, if_neg (lt_irrefl _), if_neg (lt_irrefl _), if_pos]
    rw [pow_succ]
    exact even_two.mul_left _
  unfold bin
  rw [hl, zpow_one, hr]
  push_cast
  rw [pow_succ (2 : ℝ) (k + 1)]

theorem bin_zero : bin 53 (2 ^ 53 + -2 ^ 53) = 0 := by
  have := bin_int 53 (by norm_num) 0 (by norm_num)
  rw [Int.cast_zero] at this
  rw [add_neg_cancel]
  exact this

/-- **C162, violated** if equality is asked for: the sum of `2^53`, one and `-2^53` depends on the order. -/
theorem C162_violated_order : ∃ t t' : Tree, t.leaves.Perm t'.leaves ∧ (∀ q ∈ t.leaves, q.1 = q.2) ∧ t.total (bin 53) ≠ t'.total (bin 53) := by
  refine ⟨.node (.node (.leaf (2 ^ 53) (2 ^ 53)) (.leaf 1 1)) (.leaf (-2 ^ 53) (-2 ^ 53)),
    .node (.node (.leaf (2 ^ 53) (2 ^ 53)) (.leaf (-2 ^ 53) (-2 ^ 53))) (.leaf 1 1), ?_, by simp [Tree.leaves], ?_⟩
  · simp only [Tree.leaves, List.cons_append, List.nil_append]
    exact (List.Perm.swap _ _ _).cons _
  · simp only [Tree.total]
    have h1 := bin_int 53 (by norm_num) 1 (by norm_num)
    rw [Int.cast_one] at h1
    rw [bin_half 53 (by norm_num), bin_zero, zero_add, h1]
    norm_num

/-- **C162, violated** for the relative error of values of both signs: the sum of `2^53`, one and `-2^53` is zero. -/
theorem C162_violated_relative : ∃ t : Tree, (∀ q ∈ t.leaves, q.1 = q.2) ∧ exact t.leaves = 1 ∧ t.total (bin 53) = 0 := by
  refine ⟨.node (.node (.leaf (2 ^ 53) (2 ^ 53)) (.leaf 1 1)) (.leaf (-2 ^ 53) (-2 ^ 53)), by simp [Tree.leaves], by simp [exact, Tree.leaves], ?_⟩
  simp only [Tree.total]
  rw [bin_half 53 (by norm_num)]
  exact bin_zero

/-- Adding three frames one after the other in double precision: the bound of `C162_sum` is of `2` roundings. -/
example (a b c : ℝ) : |(Tree.node (.node (.leaf a a) (.leaf b b)) (.leaf c c)).total (bin 53) - (a + (b + c))| ≤
    gap (2 ^ (-(53 : ℤ))) 2 * (|a| + (|b| + |c|)) := by
  have := C162_sum (bin_rounding 53 (by norm_num)) (m := 0) (.node (.node (.leaf a a) (.leaf b b)) (.leaf c c))
    (by simp [Tree.leaves, near_refl])
  simpa [Tree.leaves, Tree.depth, exact, absSum] using this

/-- Frames of one photon each are counted exactly. -/
example (t : Tree) (n : ℕ) (hn : n ≤ 2 ^ 53) (h : t.leaves = List.replicate n (1, 1)) : t.total (bin 53) = n := by
  have e : exact (List.replicate n ((1 : ℝ), (1 : ℝ))) = n := by
    unfold exact
    rw [List.map_replicate, List.sum_replicate, nsmul_one]
  have := C162_counts 53 (by norm_num) t (by
    intro q hq
    rw [h] at hq
    rw [List.eq_of_mem_replicate hq]
    exact ⟨rfl, 1, by simp⟩) (by rw [h, e]; exact_mod_cast hn)
  rw [this, h, e]

end Corgi.Fl

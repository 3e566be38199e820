import Mathlib.Algebra.BigOperators.Field
import Mathlib.Algebra.BigOperators.Ring.Finset
import Mathlib.Algebra.BigOperators.Intervals
import Mathlib.Algebra.Order.BigOperators.Group.Finset
import Mathlib.Data.Real.Basic
import Mathlib.Tactic.Linarith
import Mathlib.Tactic.LinearCombination
import Mathlib.Tactic.Ring
import Mathlib.Tactic.FieldSimp
import Mathlib.Tactic.NormNum

/-!
# The centroid of `measure_offset`

`centroid` (`/repo/corgidrp/astrom.py` 17-35) and the part of `measure_offset` that depends on it
(150-178). Real numbers for floats; `none` is NaN (or infinity) from the division by a zero sum.
-/

namespace Corgi.Moment

open Finset

noncomputable section

/-- `np.sum(frame)`. -/
def total (h w : ℕ) (f : ℕ → ℕ → ℝ) : ℝ := ∑ i ∈ range h, ∑ j ∈ range w, f i j

/-- `np.sum(x * frame)` and `np.sum(y * frame)`. -/
def sumX (h w : ℕ) (f : ℕ → ℕ → ℝ) : ℝ := ∑ i ∈ range h, ∑ j ∈ range w, (j : ℝ) * f i j
def sumY (h w : ℕ) (f : ℕ → ℕ → ℝ) : ℝ := ∑ i ∈ range h, ∑ j ∈ range w, (i : ℝ) * f i j

open Classical in
/-- `centroid` (astrom.py 30-35): `(xcen, ycen)`. -/
def centroid (h w : ℕ) (f : ℕ → ℕ → ℝ) : Option (ℝ × ℝ) :=
  if total h w f = 0 then none else some (sumX h w f / total h w f, sumY h w f / total h w f)

theorem total_add (h w : ℕ) (f g : ℕ → ℕ → ℝ) :
    total h w (fun i j => f i j + g i j) = total h w f + total h w g := by
  unfold total
  rw [← Finset.sum_add_distrib]
  exact Finset.sum_congr rfl fun i _ => Finset.sum_add_distrib

theorem sumX_add (h w : ℕ) (f g : ℕ → ℕ → ℝ) :
    sumX h w (fun i j => f i j + g i j) = sumX h w f + sumX h w g := by
  unfold sumX
  rw [← Finset.sum_add_distrib]
  exact Finset.sum_congr rfl fun i _ => by
    rw [← Finset.sum_add_distrib]; exact Finset.sum_congr rfl fun j _ => by ring

theorem sumY_add (h w : ℕ) (f g : ℕ → ℕ → ℝ) :
    sumY h w (fun i j => f i j + g i j) = sumY h w f + sumY h w g := by
  unfold sumY
  rw [← Finset.sum_add_distrib]
  exact Finset.sum_congr rfl fun i _ => by
    rw [← Finset.sum_add_distrib]; exact Finset.sum_congr rfl fun j _ => by ring

theorem total_mul (h w : ℕ) (c : ℝ) (f : ℕ → ℕ → ℝ) :
    total h w (fun i j => c * f i j) = c * total h w f := by
  unfold total; rw [Finset.mul_sum]
  exact Finset.sum_congr rfl fun i _ => by rw [Finset.mul_sum]

theorem sumX_mul (h w : ℕ) (c : ℝ) (f : ℕ → ℕ → ℝ) :
    sumX h w (fun i j => c * f i j) = c * sumX h w f := by
  unfold sumX; rw [Finset.mul_sum]
  exact Finset.sum_congr rfl fun i _ => by
    rw [Finset.mul_sum]; exact Finset.sum_congr rfl fun j _ => by ring

theorem sumY_mul (h w : ℕ) (c : ℝ) (f : ℕ → ℕ → ℝ) :
    sumY h w (fun i j => c * f i j) = c * sumY h w f := by
  unfold sumY; rw [Finset.mul_sum]
  exact Finset.sum_congr rfl fun i _ => by
    rw [Finset.mul_sum]; exact Finset.sum_congr rfl fun j _ => by ring

/-- **C140.** The brightness of the star does not matter. -/
theorem C140_scale (h w : ℕ) {c : ℝ} (hc : c ≠ 0) (f : ℕ → ℕ → ℝ) :
    centroid h w (fun i j => c * f i j) = centroid h w f := by
  unfold centroid
  rw [total_mul, sumX_mul, sumY_mul]
  by_cases h0 : total h w f = 0
  · rw [if_pos h0, if_pos (by rw [h0, mul_zero])]
  · rw [if_neg h0, if_neg (mul_ne_zero hc h0), mul_div_mul_left _ _ hc, mul_div_mul_left _ _ hc]

/-- **C140.** A star in one pixel is found there. -/
theorem C140_pixel {h w a b : ℕ} (ha : a < h) (hb : b < w) {v : ℝ} (hv : v ≠ 0) :
    centroid h w (fun i j => if i = a ∧ j = b then v else 0) = some ((b : ℝ), (a : ℝ)) := by
  have hs : ∀ g : ℕ → ℕ → ℝ, ∑ i ∈ range h, ∑ j ∈ range w, (g i j * if i = a ∧ j = b then v else 0)
      = g a b * v := by
    intro g
    rw [Finset.sum_eq_single a, Finset.sum_eq_single b]
    · simp
    · intro j _ hj; rw [if_neg (by tauto), mul_zero]
    · intro hj; exact absurd (Finset.mem_range.2 hb) hj
    · intro i _ hi
      apply Finset.sum_eq_zero
      intro j _
      rw [if_neg (by tauto), mul_zero]
    · intro hi; exact absurd (Finset.mem_range.2 ha) hi
  have ht : total h w (fun i j => if i = a ∧ j = b then v else 0) = v := by
    unfold total
    have := hs fun _ _ => 1
    simpa using this
  have hx : sumX h w (fun i j => if i = a ∧ j = b then v else 0) = b * v := hs fun _ j => (j : ℝ)
  have hy : sumY h w (fun i j => if i = a ∧ j = b then v else 0) = a * v := hs fun i _ => (i : ℝ)
  unfold centroid
  rw [ht, hx, hy, if_neg hv, mul_div_cancel_right₀ _ hv, mul_div_cancel_right₀ _ hv]

/-- **C140.** Two frames add up: the centroid is the mean weighted with the sums. -/
theorem C140_mixture {h w : ℕ} {f g : ℕ → ℕ → ℝ} {p q : ℝ × ℝ} (hf : centroid h w f = some p)
    (hg : centroid h w g = some q) (h0 : total h w f + total h w g ≠ 0) :
    centroid h w (fun i j => f i j + g i j) =
      some ((total h w f * p.1 + total h w g * q.1) / (total h w f + total h w g),
        (total h w f * p.2 + total h w g * q.2) / (total h w f + total h w g)) := by
  unfold centroid at hf hg ⊢
  by_cases h1 : total h w f = 0
  · rw [if_pos h1] at hf; cases hf
  by_cases h2 : total h w g = 0
  · rw [if_pos h2] at hg; cases hg
  rw [if_neg h1] at hf
  rw [if_neg h2] at hg
  have e1 := Option.some.inj hf
  have e2 := Option.some.inj hg
  subst e1; subst e2
  rw [total_add, sumX_add, sumY_add, if_neg h0]
  dsimp only
  rw [mul_div_cancel₀ _ h1, mul_div_cancel₀ _ h2, mul_div_cancel₀ _ h1, mul_div_cancel₀ _ h2]

theorem sum_range_cast (n : ℕ) : ∑ i ∈ range n, (i : ℝ) = n * ((n : ℝ) - 1) / 2 := by
  induction n with
  | zero => simp
  | succ n ih => rw [Finset.sum_range_succ, ih]; push_cast; ring

/-- **C140.** A uniform frame has its centroid in the middle. -/
theorem C140_uniform {h w : ℕ} (hh : 0 < h) (hw : 0 < w) {b : ℝ} (hb : b ≠ 0) :
    centroid h w (fun _ _ => b) = some (((w : ℝ) - 1) / 2, ((h : ℝ) - 1) / 2) := by
  have hh' : (h : ℝ) ≠ 0 := by exact_mod_cast hh.ne'
  have hw' : (w : ℝ) ≠ 0 := by exact_mod_cast hw.ne'
  have ht : total h w (fun _ _ => b) = h * (w * b) := by
    unfold total; simp
  have hx : sumX h w (fun _ _ => b) = h * ((w : ℝ) * (w - 1) / 2 * b) := by
    unfold sumX
    simp only [← Finset.sum_mul, sum_range_cast, Finset.sum_const, Finset.card_range, nsmul_eq_mul]
    ring
  have hy : sumY h w (fun _ _ => b) = (h : ℝ) * (h - 1) / 2 * (w * b) := by
    unfold sumY
    simp only [Finset.sum_const, Finset.card_range, nsmul_eq_mul]
    rw [← sum_range_cast, Finset.sum_mul]
    exact Finset.sum_congr rfl fun i _ => by ring
  have h0 : (h : ℝ) * (w * b) ≠ 0 := mul_ne_zero hh' (mul_ne_zero hw' hb)
  unfold centroid
  rw [ht, hx, hy, if_neg h0]
  congr 2
  · field_simp
  · field_simp

/-- **C140, violated.** With a uniform background the centroid is not that of the star: it is moved
towards the middle of the cutout, by the share of the background in the light. -/
theorem C140_violated_background {h w : ℕ} (hh : 0 < h) (hw : 0 < w) {f : ℕ → ℕ → ℝ} {p : ℝ × ℝ}
    (hf : centroid h w f = some p) (hpos : 0 < total h w f) {b : ℝ} (hb : 0 < b) :
    ∃ q, centroid h w (fun i j => f i j + b) = some q ∧
      q.1 - p.1 = (h * (w * b)) / (total h w f + h * (w * b)) * (((w : ℝ) - 1) / 2 - p.1) ∧
      q.2 - p.2 = (h * (w * b)) / (total h w f + h * (w * b)) * (((h : ℝ) - 1) / 2 - p.2) ∧
      (q = p ↔ p = (((w : ℝ) - 1) / 2, ((h : ℝ) - 1) / 2)) := by
  have hh' : (0 : ℝ) < h := by exact_mod_cast hh
  have hw' : (0 : ℝ) < w := by exact_mod_cast hw
  have ht : total h w (fun _ _ => b) = h * (w * b) := by unfold total; simp
  have hB : 0 < (h : ℝ) * (w * b) := by positivity
  have hS : total h w f + h * (w * b) ≠ 0 := by linarith
  have hm := C140_mixture hf (C140_uniform hh hw hb.ne') (by rw [ht]; exact hS)
  rw [ht] at hm
  have e1 : (total h w f * p.1 + h * (w * b) * (((w : ℝ) - 1) / 2)) / (total h w f + h * (w * b)) - p.1
      = (h * (w * b)) / (total h w f + h * (w * b)) * (((w : ℝ) - 1) / 2 - p.1) := by
    field_simp; ring
  have e2 : (total h w f * p.2 + h * (w * b) * (((h : ℝ) - 1) / 2)) / (total h w f + h * (w * b)) - p.2
      = (h * (w * b)) / (total h w f + h * (w * b)) * (((h : ℝ) - 1) / 2 - p.2) := by
    field_simp; ring
  refine ⟨_, hm, e1, e2, ?_⟩
  have hk : (h : ℝ) * (w * b) / (total h w f + h * (w * b)) ≠ 0 := div_ne_zero hB.ne' hS
  rw [Prod.ext_iff, Prod.ext_iff]
  dsimp only
  constructor
  · rintro ⟨a1, a2⟩
    rw [a1, sub_self] at e1
    rw [a2, sub_self] at e2
    have z1 := (mul_eq_zero.1 e1.symm).resolve_left hk
    have z2 := (mul_eq_zero.1 e2.symm).resolve_left hk
    exact ⟨by linarith, by linarith⟩
  · rintro ⟨a1, a2⟩
    rw [← a1, sub_self, mul_zero] at e1
    rw [← a2, sub_self, mul_zero] at e2
    rw [← a1, ← a2]
    exact ⟨by linarith, by linarith⟩

/-- **C140 (partial).** Without negative pixels the centroid lies in the frame. -/
theorem C140_inside_partial {h w : ℕ} {f : ℕ → ℕ → ℝ} (hf : ∀ i j, 0 ≤ f i j) {p : ℝ × ℝ}
    (hp : centroid h w f = some p) : 0 ≤ p.1 ∧ p.1 ≤ w - 1 ∧ 0 ≤ p.2 ∧ p.2 ≤ h - 1 := by
  unfold centroid at hp
  by_cases h0 : total h w f = 0
  · rw [if_pos h0] at hp; cases hp
  rw [if_neg h0] at hp
  have := Option.some.inj hp
  subst this
  have ht : 0 < total h w f := lt_of_le_of_ne
    (Finset.sum_nonneg fun i _ => Finset.sum_nonneg fun j _ => hf i j) (Ne.symm h0)
  refine ⟨div_nonneg ?_ ht.le, ?_, div_nonneg ?_ ht.le, ?_⟩
  · exact Finset.sum_nonneg fun i _ => Finset.sum_nonneg fun j _ =>
      mul_nonneg (Nat.cast_nonneg j) (hf i j)
  · rw [div_le_iff₀ ht]
    unfold sumX total
    rw [Finset.mul_sum]
    refine Finset.sum_le_sum fun i _ => ?_
    rw [Finset.mul_sum]
    refine Finset.sum_le_sum fun j hj => mul_le_mul_of_nonneg_right ?_ (hf i j)
    have : j + 1 ≤ w := Finset.mem_range.1 hj
    have : (j : ℝ) + 1 ≤ w := by exact_mod_cast this
    linarith
  · exact Finset.sum_nonneg fun i _ => Finset.sum_nonneg fun j _ =>
      mul_nonneg (Nat.cast_nonneg i) (hf i j)
  · rw [div_le_iff₀ ht]
    unfold sumY total
    rw [Finset.mul_sum]
    refine Finset.sum_le_sum fun i hi => ?_
    rw [Finset.mul_sum]
    refine Finset.sum_le_sum fun j _ => mul_le_mul_of_nonneg_right ?_ (hf i j)
    have : i + 1 ≤ h := Finset.mem_range.1 hi
    have : (i : ℝ) + 1 ≤ h := by exact_mod_cast this
    linarith

/-- **C140, violated.** A background that was subtracted too much: the centroid leaves the frame. -/
theorem C140_violated_outside : centroid 1 2 (fun _ j => if j = 0 then -1 else 2) = some (2, 0) := by
  unfold centroid total sumX sumY
  norm_num [Finset.sum_range_succ]

/-- **C140, violated.** A blank cutout has no centroid; there is no check as in `centroid_with_roi`. -/
theorem C140_violated_blank (h w : ℕ) : centroid h w (fun _ _ => 0) = none := by
  unfold centroid total
  simp

/-! ### What the bias does to offsets -/

/-- The stamp of the first star (astrom.py 155-161), the scene being `f` at real positions and `c` the
centroid; the data stamp (164-171); the model for a shift `d` and flux one (99-106). -/
def stamp (f : ℝ × ℝ → ℝ) (c u : ℝ × ℝ) : ℝ := f (c.1 + u.1, c.2 + u.2)
def dataStamp (f : ℝ × ℝ → ℝ) (c guess u : ℝ × ℝ) : ℝ := f (c.1 + guess.1 + u.1, c.2 + guess.2 + u.2)
def model (s : ℝ × ℝ → ℝ) (d u : ℝ × ℝ) : ℝ := s (u.1 + d.1, u.2 + d.2)

/-- `binary_offset` (astrom.py 178). -/
def offset (guess d : ℝ × ℝ) : ℝ × ℝ := (guess.1 - d.1, guess.2 - d.2)

/-- **C140.** For two stars of equal shape, the scene around the first (`N`) being repeated at the
distance `off`, there is a shift that fits the window `W` exactly and is reported as `off`, wherever
the centroid was taken: its bias does not enter the measured offset. -/
theorem C140_bias_cancels {f : ℝ × ℝ → ℝ} {off : ℝ × ℝ} {N W : Set (ℝ × ℝ)}
    (hf : ∀ p ∈ N, f (p.1 + off.1, p.2 + off.2) = f p) (c guess : ℝ × ℝ)
    (hW : ∀ u ∈ W, (c.1 + (u.1 + (guess.1 - off.1)), c.2 + (u.2 + (guess.2 - off.2))) ∈ N) :
    ∃ d, (∀ u ∈ W, model (stamp f c) d u = dataStamp f c guess u) ∧ offset guess d = off := by
  refine ⟨(guess.1 - off.1, guess.2 - off.2), fun u hu => ?_, ?_⟩
  · unfold model stamp dataStamp
    have := hf _ (hW u hu)
    dsimp only at this ⊢
    rw [← this]
    congr 2 <;> ring
  · unfold offset
    ext <;> simp

example : centroid 3 4 (fun i j => if i = 1 ∧ j = 2 then 7 else 0) = some (((2 : ℕ) : ℝ), ((1 : ℕ) : ℝ)) :=
  C140_pixel (by norm_num) (by norm_num) (by norm_num)

example : ∃ q, centroid 3 4 (fun i j => (if i = 1 ∧ j = 2 then 7 else 0) + 1) = some q ∧ q.1 ≠ 2 := by
  obtain ⟨q, h1, h2, -⟩ := C140_violated_background (h := 3) (w := 4) (by norm_num) (by norm_num)
    (C140_pixel (a := 1) (b := 2) (v := 7) (by norm_num) (by norm_num) (by norm_num))
    (by unfold total; norm_num [Finset.sum_range_succ]) (b := 1) one_pos
  refine ⟨q, h1, fun h => ?_⟩
  rw [h] at h2
  have : total 3 4 (fun i j => if i = 1 ∧ j = 2 then (7 : ℝ) else 0) = 7 := by
    unfold total; norm_num [Finset.sum_range_succ]
  rw [this] at h2
  norm_num at h2

end

end Corgi.Moment

import Mathlib.Analysis.SpecialFunctions.Pow.NNReal
import Mathlib.Analysis.SpecialFunctions.Trigonometric.Basic
import Mathlib.Algebra.BigOperators.Fin
import Mathlib.Tactic.Linarith
import Mathlib.Tactic.FieldSimp
import Mathlib.Tactic.Ring

/-!
# Regions of interest around satellite spots

`circle` and the spot masks of `/repo/corgidrp/star_center.py` 182-257, 431-483, 706-760.  Pixel
values and coordinates are reals (rounding is not modelled).
-/

namespace Corgi.StarCenter

open Finset Real

noncomputable section

/-- `np.linspace(a, b, n)[k]`. -/
def linspace (a b : ℝ) (n k : ℕ) : ℝ :=
  if n ≤ 1 then a else a + k * ((b - a) / ((n : ℝ) - 1))

/-- Coordinate of column (row) `k` relative to the shifted centre (star_center.py 212-220). -/
def coord (n k : ℕ) (shear : ℝ) : ℝ :=
  if n % 2 = 0 then linspace (-(n : ℝ) / 2) ((n : ℝ) / 2 - 1) n k - shear
  else linspace (-((n : ℝ) - 1) / 2) (((n : ℝ) - 1) / 2) n k - shear

/-- `xUp` (star_center.py 233-238): centres of the subpixels. -/
def sub (n i : ℕ) : ℝ :=
  linspace (-((n : ℝ) - 1) / 2) (((n : ℝ) - 1) / 2) n i * (1 / (n : ℝ))

/-- Is subpixel `(i, j)` of the pixel at `(x, y)` within the radius (star_center.py 248-253)? -/
def inside (r x y : ℝ) (n : ℕ) (ij : ℕ × ℕ) : Prop :=
  sqrt ((sub n ij.1 + x) ^ 2 + (sub n ij.2 + y) ^ 2) ≤ r

instance (r x y : ℝ) (n : ℕ) : DecidablePred (inside r x y n) := fun _ => Classical.propDecidable _

/-- Mean of the binary subpixels (star_center.py 245-254). -/
def fraction (r x y : ℝ) (n : ℕ) : ℝ :=
  (((range n ×ˢ range n).filter (inside r x y n)).card : ℝ) / ((n : ℝ) * (n : ℝ))

/-- Value of the mask for the pixel at `(x, y)` from the centre, `dx` being the pixel pitch
(star_center.py 224-255). -/
def maskValue (dx r x y : ℝ) (n : ℕ) : ℝ :=
  if r + sqrt 2 * dx < |sqrt (x * x + y * y)| then 0
  else if |sqrt (x * x + y * y)| < r - sqrt 2 * dx then 1
  else fraction r x y n

/-- `circle(nx, ny, r, xShear, yShear, nSubpixels)[row, col]`; `x[1]` does not exist for a single
column (`none`). -/
def circle (nx : ℕ) (ny : ℕ) (r xs ys : ℝ) (nsub row col : ℕ) : Option ℝ :=
  if nx < 2 then none
  else some (maskValue (coord nx 1 xs - coord nx 0 xs) r (coord nx col xs) (coord ny row ys) nsub)

/-! ## Geometry -/

/-- **C94.** The centre of the circle is the pixel `n // 2` plus the shift, for even and odd sizes:
the same pixel that `star_center_from_satellite_spots` counts offsets from. -/
theorem C94_centre (n k : ℕ) (s : ℝ) (hn : 2 ≤ n) : coord n k s = (k : ℝ) - (n / 2 : ℕ) - s := by
  have h1 : ¬ n ≤ 1 := by omega
  have h2 : ((n : ℝ) - 1) ≠ 0 := by
    have : (2 : ℝ) ≤ n := by exact_mod_cast hn
    intro h; linarith
  unfold coord linspace
  rw [if_neg h1, if_neg h1]
  by_cases hp : n % 2 = 0
  · rw [if_pos hp]
    have h3 : ((n / 2 : ℕ) : ℝ) = (n : ℝ) / 2 := by
      have : n = 2 * (n / 2) := by omega
      have h4 : (n : ℝ) = 2 * ((n / 2 : ℕ) : ℝ) := by exact_mod_cast this
      linarith
    rw [h3]
    have : ((n : ℝ) / 2 - 1 - -(n : ℝ) / 2) = (n : ℝ) - 1 := by ring
    rw [this, div_self h2]; ring
  · rw [if_neg hp]
    have h3 : ((n / 2 : ℕ) : ℝ) = ((n : ℝ) - 1) / 2 := by
      have : n = 2 * (n / 2) + 1 := by omega
      have h4 : (n : ℝ) = 2 * ((n / 2 : ℕ) : ℝ) + 1 := by exact_mod_cast this
      linarith
    rw [h3]
    have : (((n : ℝ) - 1) / 2 - -((n : ℝ) - 1) / 2) = (n : ℝ) - 1 := by ring
    rw [this, div_self h2]; ring

theorem sub_eq (n i : ℕ) (hi : i < n) : sub n i = ((i : ℝ) - ((n : ℝ) - 1) / 2) / n := by
  unfold sub linspace
  by_cases h : n ≤ 1
  · rw [if_pos h]
    have h0 : n = 1 := by omega
    have h1 : i = 0 := by omega
    subst h0 h1; norm_num
  · rw [if_neg h]
    have h2 : ((n : ℝ) - 1) ≠ 0 := by
      have : (2 : ℝ) ≤ n := by exact_mod_cast (by omega : 2 ≤ n)
      intro h; linarith
    have : (((n : ℝ) - 1) / 2 - -((n : ℝ) - 1) / 2) = (n : ℝ) - 1 := by ring
    rw [this, div_self h2]; ring

theorem sub_bound {n i : ℕ} (hi : i < n) : |sub n i| ≤ 1 / 2 := by
  rw [sub_eq n i hi]
  have hn : (0 : ℝ) < n := by exact_mod_cast (by omega : 0 < n)
  have h1 : (i : ℝ) ≤ n - 1 := by
    have : i + 1 ≤ n := hi
    have : ((i + 1 : ℕ) : ℝ) ≤ n := by exact_mod_cast this
    push_cast at this; linarith
  have h0 : (0 : ℝ) ≤ i := Nat.cast_nonneg i
  rw [abs_le]
  constructor
  · rw [le_div_iff₀ hn]; linarith
  · rw [div_le_iff₀ hn]; linarith

/-- Triangle inequality for the plane. -/
theorem hyp_add (a b c d : ℝ) :
    sqrt ((a + c) ^ 2 + (b + d) ^ 2) ≤ sqrt (a ^ 2 + b ^ 2) + sqrt (c ^ 2 + d ^ 2) := by
  have h1 : 0 ≤ a ^ 2 + b ^ 2 := by positivity
  have h2 : 0 ≤ c ^ 2 + d ^ 2 := by positivity
  apply Real.sqrt_le_iff.2
  refine ⟨by positivity, ?_⟩
  have hs1 := Real.sq_sqrt h1
  have hs2 := Real.sq_sqrt h2
  have hcs : a * c + b * d ≤ sqrt (a ^ 2 + b ^ 2) * sqrt (c ^ 2 + d ^ 2) := by
    rw [← Real.sqrt_mul h1]
    apply Real.le_sqrt_of_sq_le
    nlinarith [sq_nonneg (a * d - b * c)]
  nlinarith

theorem hyp_sub_bound {n i j : ℕ} (hi : i < n) (hj : j < n) :
    sqrt ((sub n i) ^ 2 + (sub n j) ^ 2) ≤ sqrt 2 := by
  apply Real.sqrt_le_sqrt
  have h1 := sub_bound hi
  have h2 := sub_bound hj
  have h3 : (sub n i) ^ 2 ≤ 1 := by
    rw [← sq_abs]; nlinarith [abs_nonneg (sub n i)]
  have h4 : (sub n j) ^ 2 ≤ 1 := by
    rw [← sq_abs]; nlinarith [abs_nonneg (sub n j)]
  linarith

/-- **C94.** The shortcut for pixels away from the edge is exact: every pixel of the mask holds the
fraction of its subpixels within the radius. -/
theorem C94_exact (r x y : ℝ) (n : ℕ) (hn : 0 < n) : maskValue 1 r x y n = fraction r x y n := by
  have hn' : (0 : ℝ) < n := by exact_mod_cast hn
  have hxy : x * x + y * y = x ^ 2 + y ^ 2 := by ring
  unfold maskValue
  rw [mul_one, abs_of_nonneg (Real.sqrt_nonneg _), hxy]
  split_ifs with h1 h2
  · symm
    unfold fraction
    rw [div_eq_zero_iff]
    left
    rw [Nat.cast_eq_zero, card_eq_zero, filter_eq_empty_iff]
    rintro ⟨i, j⟩ hij
    rw [mem_product, mem_range, mem_range] at hij
    unfold inside
    intro hle
    have h3 := hyp_add (sub n i + x) (sub n j + y) (-sub n i) (-sub n j)
    have e1 : sub n i + x + -sub n i = x := by ring
    have e2 : sub n j + y + -sub n j = y := by ring
    rw [e1, e2, neg_sq, neg_sq] at h3
    have := hyp_sub_bound hij.1 hij.2
    dsimp only at hle
    linarith
  · symm
    unfold fraction
    have hall : (range n ×ˢ range n).filter (inside r x y n) = range n ×ˢ range n := by
      rw [filter_eq_self]
      rintro ⟨i, j⟩ hij
      rw [mem_product, mem_range, mem_range] at hij
      unfold inside
      have h3 := hyp_add (sub n i) (sub n j) x y
      have := hyp_sub_bound hij.1 hij.2
      dsimp only
      linarith
    rw [hall, card_product, card_range]
    push_cast
    exact div_self (by positivity)
  · rfl

theorem fraction_range (r x y : ℝ) (n : ℕ) : 0 ≤ fraction r x y n ∧ fraction r x y n ≤ 1 := by
  unfold fraction
  refine ⟨by positivity, ?_⟩
  rcases Nat.eq_zero_or_pos n with h | h
  · subst h; simp
  · have hn' : (0 : ℝ) < n := by exact_mod_cast h
    rw [div_le_one (by positivity)]
    have h1 := card_filter_le (range n ×ˢ range n) (inside r x y n)
    rw [card_product, card_range] at h1
    have h2 : (((range n ×ˢ range n).filter (inside r x y n)).card : ℝ) ≤ ((n * n : ℕ) : ℝ) := by
      exact_mod_cast h1
    push_cast at h2
    exact h2

/-- **C94.** On every frame with at least two columns each mask value is the covered fraction of the
pixel whose distance is measured from pixel `n // 2` plus the shift, and lies between 0 and 1. -/
theorem C94_circle (nx ny : ℕ) (r xs ys : ℝ) (nsub row col : ℕ) (hx : 2 ≤ nx) (hy : 2 ≤ ny)
    (hs : 0 < nsub) :
    circle nx ny r xs ys nsub row col
        = some (fraction r ((col : ℝ) - (nx / 2 : ℕ) - xs) ((row : ℝ) - (ny / 2 : ℕ) - ys) nsub) ∧
    ∃ v, circle nx ny r xs ys nsub row col = some v ∧ 0 ≤ v ∧ v ≤ 1 := by
  have h : circle nx ny r xs ys nsub row col
        = some (fraction r ((col : ℝ) - (nx / 2 : ℕ) - xs) ((row : ℝ) - (ny / 2 : ℕ) - ys) nsub) := by
    unfold circle
    rw [if_neg (by omega)]
    have hd : coord nx 1 xs - coord nx 0 xs = 1 := by
      rw [C94_centre _ _ _ hx, C94_centre _ _ _ hx]; push_cast; ring
    rw [hd, C94_exact _ _ _ _ hs, C94_centre _ _ _ hx, C94_centre _ _ _ hy]
  exact ⟨h, _, h, fraction_range _ _ _ _⟩

theorem sub_rev {n i : ℕ} (hi : i < n) : sub n (n - 1 - i) = -sub n i := by
  rw [sub_eq _ _ hi, sub_eq _ _ (by omega)]
  have : ((n - 1 - i : ℕ) : ℝ) = (n : ℝ) - 1 - i := by
    have h1 : n - 1 - i + i + 1 = n := by omega
    have h2 : ((n - 1 - i + i + 1 : ℕ) : ℝ) = (n : ℝ) := by rw [h1]
    push_cast at h2; linarith
  rw [this]
  ring

/-- **C94.** The mask is point symmetric about the spot position, so it introduces no bias. -/
theorem C94_symmetric (r x y : ℝ) (n : ℕ) : fraction r (-x) (-y) n = fraction r x y n := by
  unfold fraction
  congr 2
  refine card_bij' (fun a _ => (n - 1 - a.1, n - 1 - a.2)) (fun a _ => (n - 1 - a.1, n - 1 - a.2))
    ?_ ?_ ?_ ?_
  all_goals
    rintro ⟨i, j⟩ h
    rw [mem_filter, mem_product, mem_range, mem_range] at h
    obtain ⟨⟨hi, hj⟩, hin⟩ := h
    dsimp only at hi hj hin
  · rw [mem_filter, mem_product, mem_range, mem_range]
    refine ⟨⟨by dsimp only; omega, by dsimp only; omega⟩, ?_⟩
    unfold inside at hin ⊢
    dsimp only at hin ⊢
    rw [sub_rev hi, sub_rev hj]
    have : (-sub n i + x) ^ 2 + (-sub n j + y) ^ 2 = (sub n i + -x) ^ 2 + (sub n j + -y) ^ 2 := by ring
    rw [this]; exact hin
  · rw [mem_filter, mem_product, mem_range, mem_range]
    refine ⟨⟨by dsimp only; omega, by dsimp only; omega⟩, ?_⟩
    unfold inside at hin ⊢
    dsimp only at hin ⊢
    rw [sub_rev hi, sub_rev hj]
    have : (-sub n i + -x) ^ 2 + (-sub n j + -y) ^ 2 = (sub n i + x) ^ 2 + (sub n j + y) ^ 2 := by ring
    rw [this]; exact hin
  · apply Prod.ext <;> dsimp only <;> omega
  · apply Prod.ext <;> dsimp only <;> omega

/-- **C94.** Without subpixels a pixel counts exactly if its centre is within the radius, the edge included. -/
theorem C94_edge (r x y : ℝ) : fraction r x y 1 = if sqrt (x ^ 2 + y ^ 2) ≤ r then 1 else 0 := by
  have hs : sub 1 0 = 0 := by simp [sub, linspace]
  have hi : inside r x y 1 (0, 0) ↔ sqrt (x ^ 2 + y ^ 2) ≤ r := by
    unfold inside; dsimp only; rw [hs, zero_add, zero_add]
  have hr : range 1 ×ˢ range 1 = {((0 : ℕ), (0 : ℕ))} := rfl
  unfold fraction
  rw [hr, Finset.filter_singleton]
  by_cases h : sqrt (x ^ 2 + y ^ 2) ≤ r
  · rw [if_pos (hi.2 h), if_pos h]; simp
  · rw [if_neg (fun hc => h (hi.1 hc)), if_neg h]; simp

/-- **C94.** Mirror symmetry about the diagonal: x and y are treated alike. -/
theorem C94_transpose (r x y : ℝ) (n : ℕ) : fraction r y x n = fraction r x y n := by
  unfold fraction
  congr 2
  refine card_bij' (fun a _ => (a.2, a.1)) (fun a _ => (a.2, a.1)) ?_ ?_
    (fun _ _ => rfl) (fun _ _ => rfl)
  all_goals
    rintro ⟨i, j⟩ h
    rw [mem_filter, mem_product, mem_range, mem_range] at h
    obtain ⟨⟨hi, hj⟩, hin⟩ := h
  · rw [mem_filter, mem_product, mem_range, mem_range]
    refine ⟨⟨hj, hi⟩, ?_⟩
    unfold inside at hin ⊢
    dsimp only at hin ⊢
    rw [add_comm]; exact hin
  · rw [mem_filter, mem_product, mem_range, mem_range]
    refine ⟨⟨hj, hi⟩, ?_⟩
    unfold inside at hin ⊢
    dsimp only at hin ⊢
    rw [add_comm]; exact hin

/-- **C94.** Two columns are needed: with one the pixel pitch is undefined and the mask fails. -/
theorem C94_single_column (ny : ℕ) (r xs ys : ℝ) (nsub row col : ℕ) :
    circle 1 ny r xs ys nsub row col = none := by
  unfold circle
  rw [if_pos (by omega)]

/-- Non-vacuous: the centre pixel of a 4x4 frame is inside a circle of radius 3, its neighbour four
pixels away is outside a circle of radius 1. -/
example : maskValue 1 3 0 0 100 = 1 := by
  have h2 : sqrt 2 < 3 := by
    rw [Real.sqrt_lt' (by norm_num)]; norm_num
  unfold maskValue
  have h0 : |sqrt ((0 : ℝ) * 0 + 0 * 0)| = 0 := by simp
  rw [h0, if_neg (by have := Real.sqrt_nonneg 2; linarith), if_pos (by linarith)]

example : maskValue 1 1 4 0 100 = 0 := by
  have h2 : sqrt 2 < 3 := by
    rw [Real.sqrt_lt' (by norm_num)]; norm_num
  unfold maskValue
  have h0 : |sqrt ((4 : ℝ) * 4 + 0 * 0)| = 4 := by
    rw [show (4 : ℝ) * 4 + 0 * 0 = 4 ^ 2 by norm_num, Real.sqrt_sq (by norm_num)]
    norm_num
  rw [h0, if_pos (by linarith)]

/-! ## Positions of the spots (star_center.py 446-460, 723-737, 1015-1026) -/

/-- The two spots of a pair at angle `deg`, separation `sep`, around `(x, y)`. -/
def pair (deg sep x y : ℝ) : (ℝ × ℝ) × (ℝ × ℝ) :=
  ((cos (deg * π / 180) * sep + x, sin (deg * π / 180) * sep + y),
   (cos (deg * π / 180 + π) * sep + x, sin (deg * π / 180 + π) * sep + y))

/-- **C94.** The star is midway between the two spots of each pair, and each spot is at the
separation. -/
theorem C94_pair (deg sep x y : ℝ) :
    let p := pair deg sep x y
    (p.1.1 + p.2.1) / 2 = x ∧ (p.1.2 + p.2.2) / 2 = y ∧
    (p.1.1 - x) ^ 2 + (p.1.2 - y) ^ 2 = sep ^ 2 ∧ (p.2.1 - x) ^ 2 + (p.2.2 - y) ^ 2 = sep ^ 2 := by
  unfold pair
  dsimp only
  rw [cos_add_pi, sin_add_pi]
  have := sin_sq_add_cos_sq (deg * π / 180)
  refine ⟨by ring, by ring, ?_, ?_⟩ <;>
  · ring_nf
    have h : cos (deg * π * (1 / 180)) ^ 2 = 1 - sin (deg * π * (1 / 180)) ^ 2 := by
      have := sin_sq_add_cos_sq (deg * π * (1 / 180)); linarith
    rw [h]; ring

/-- **C94.** Angles count from +x towards +y: 90 degrees is above the star. -/
theorem C94_angle (sep x y : ℝ) :
    (pair 0 sep x y).1 = (x + sep, y) ∧ (pair 90 sep x y).1 = (x, y + sep) := by
  unfold pair
  have h : (90 : ℝ) * π / 180 = π / 2 := by ring
  rw [h]
  constructor
  · simp [add_comm]
  · simp [add_comm]

end

end Corgi.StarCenter

import Mathlib.Analysis.Real.Sqrt
import Mathlib.Analysis.SpecialFunctions.Exp
import Mathlib.Tactic.Linarith

/-!
# The raster kernel of flat fields (C149)

`raster_kernel` (`/repo/corgidrp/flat.py` 43-74), which `create_onsky_rasterscans` uses (`/repo/corgidrp/mocks.py` 939) to
smear a planet over a circle. Reals for floats.
-/

noncomputable section

namespace Corgi.Kernel

/-! ## Model -/

/-- `np.arange(0, n + 1) - n / 2 - 1` (lines 60-61), entry `k`. -/
def coord (n k : ℕ) : ℝ := (k : ℝ) - n / 2 - 1

/-- `rr` (lines 62-64). -/
def rr (rows cols y x : ℕ) : ℝ := Real.sqrt (coord cols x ^ 2 + coord rows y ^ 2)

open Classical in
/-- Line 68: `rr_hard[rr_hard <= kernel_width / 2] = 1`. -/
def mark (width r : ℝ) : ℝ := if r ≤ width / 2 then 1 else r

open Classical in
/-- Line 69, on the array that line 68 has changed: `rr_hard[rr_hard > kernel_width / 2] = 0`. -/
def clear (width v : ℝ) : ℝ := if width / 2 < v then 0 else v

/-- Lines 67-72: the value of one pixel. -/
def pixel (hard : Bool) (width r : ℝ) : ℝ :=
  if hard then clear width (mark width r) else Real.exp (-r ^ 2 / (2 * width ^ 2))

/-- `raster_kernel` (lines 43-74) for an image of `rows` by `cols` pixels. -/
def kernel (width : ℝ) (rows cols : ℕ) (hard : Bool) : List (List ℝ) :=
  (List.range (rows + 1)).map fun y => (List.range (cols + 1)).map fun x => pixel hard width (rr rows cols y x)

/-! ## Specification -/

/-- Entry of a list of rows. -/
def At (k : List (List ℝ)) (y x : ℕ) (v : ℝ) : Prop := ∃ row, k[y]? = some row ∧ row[x]? = some v

/-- Distance of pixel `(y, x)` from `(cy, cx)`. -/
def distance (cy cx : ℝ) (y x : ℕ) : ℝ := Real.sqrt (((x : ℝ) - cx) ^ 2 + ((y : ℝ) - cy) ^ 2)

/-! ## Size and centre -/

theorem at_iff (width : ℝ) (rows cols : ℕ) (hard : Bool) (y x : ℕ) (v : ℝ) :
    At (kernel width rows cols hard) y x v ↔ y ≤ rows ∧ x ≤ cols ∧ v = pixel hard width (rr rows cols y x) := by
  unfold At kernel
  constructor
  · rintro ⟨row, h1, h2⟩
    rw [List.getElem?_map, Option.map_eq_some_iff] at h1
    obtain ⟨y', hy, rfl⟩ := h1
    rw [List.getElem?_map, Option.map_eq_some_iff] at h2
    obtain ⟨x', hx, rfl⟩ := h2
    rw [List.getElem?_eq_some_iff] at hy hx
    obtain ⟨hy1, rfl⟩ := hy
    obtain ⟨hx1, rfl⟩ := hx
    rw [List.length_range] at hy1 hx1
    rw [List.getElem_range, List.getElem_range]
    exact ⟨by omega, by omega, rfl⟩
  · rintro ⟨hy, hx, rfl⟩
    refine ⟨(List.range (cols + 1)).map fun x => pixel hard width (rr rows cols y x), ?_, ?_⟩
    · rw [List.getElem?_map, List.getElem?_range (by omega)]
      rfl
    · rw [List.getElem?_map, List.getElem?_range (by omega)]
      rfl

/-- **C149.** The distance is taken from row `rows / 2 + 1` and column `cols / 2 + 1`. -/
theorem C149_centre (rows cols y x : ℕ) : rr rows cols y x = distance (rows / 2 + 1) (cols / 2 + 1) y x := by
  unfold rr distance coord
  congr 1
  ring

/-- **C149 is violated**: the kernel is larger than the image, by one in both directions. -/
theorem C149_violated_size (width : ℝ) (rows cols : ℕ) (hard : Bool) :
    (kernel width rows cols hard).length = rows + 1 ∧ ∀ row ∈ kernel width rows cols hard, row.length = cols + 1 := by
  unfold kernel
  constructor
  · rw [List.length_map, List.length_range]
  · intro row hr
    obtain ⟨y, _, rfl⟩ := List.mem_map.1 hr
    rw [List.length_map, List.length_range]

/-- **C149 is violated**: the centre is one pixel from the middle of the array, in both directions. -/
theorem C149_violated_centre (width : ℝ) (rows cols : ℕ) (hard : Bool) :
    ∃ cy cx : ℝ, (∀ y x v, At (kernel width rows cols hard) y x v → v = pixel hard width (distance cy cx y x)) ∧
      cy - (((kernel width rows cols hard).length : ℝ) - 1) / 2 = 1 ∧
      ∀ row ∈ kernel width rows cols hard, cx - ((row.length : ℝ) - 1) / 2 = 1 := by
  refine ⟨rows / 2 + 1, cols / 2 + 1, fun y x v h => ?_, ?_, fun row hr => ?_⟩
  · rw [← C149_centre]
    exact ((at_iff ..).1 h).2.2
  · rw [(C149_violated_size width rows cols hard).1]
    push_cast
    ring
  · rw [(C149_violated_size width rows cols hard).2 row hr]
    push_cast
    ring

/-- **C149.** A pixel is at the centre exactly if both sides are even and it is the one after the middle. -/
theorem C149_zero_iff (rows cols y x : ℕ) : rr rows cols y x = 0 ↔ 2 * y = rows + 2 ∧ 2 * x = cols + 2 := by
  have e : ∀ n k : ℕ, coord n k = 0 ↔ 2 * k = n + 2 := by
    intro n k
    unfold coord
    rw [← @Nat.cast_inj ℝ]
    push_cast
    constructor <;> intro h <;> linarith
  unfold rr
  rw [Real.sqrt_eq_zero (by positivity)]
  constructor
  · intro h
    have h1 := sq_nonneg (coord cols x)
    have h2 := sq_nonneg (coord rows y)
    exact ⟨(e _ _).1 (pow_eq_zero_iff two_ne_zero |>.1 (by linarith)), (e _ _).1 (pow_eq_zero_iff two_ne_zero |>.1 (by linarith))⟩
  · rintro ⟨h1, h2⟩
    rw [(e _ _).2 h1, (e _ _).2 h2]
    norm_num

/-- **C149.** Mirror images about the centre and, for a square image, exchange of the axes do not change the kernel. -/
theorem C149_symmetric (rows cols y x : ℕ) (hy : y ≤ rows + 2) (hx : x ≤ cols + 2) :
    rr rows cols y x = rr rows cols (rows + 2 - y) x ∧ rr rows cols y x = rr rows cols y (cols + 2 - x) ∧
      (rows = cols → rr rows cols y x = rr rows cols x y) := by
  have e : ∀ n k : ℕ, k ≤ n + 2 → coord n (n + 2 - k) = -coord n k := by
    intro n k hk
    unfold coord
    rw [Nat.cast_sub hk]
    push_cast
    ring
  unfold rr
  rw [e _ _ hy, e _ _ hx, neg_sq, neg_sq]
  refine ⟨rfl, rfl, ?_⟩
  rintro rfl
  rw [add_comm]

/-! ## Values -/

/-- **C149.** A hard kernel of width two or more is one within half the width of the centre and zero outside. -/
theorem C149_hard_partial {width : ℝ} (hw : 2 ≤ width) (r : ℝ) :
    (r ≤ width / 2 → pixel true width r = 1) ∧ (width / 2 < r → pixel true width r = 0) := by
  unfold pixel
  rw [if_pos rfl]
  unfold mark clear
  constructor
  · intro h
    rw [if_pos h, if_neg (by linarith)]
  · intro h
    rw [if_neg (not_le.2 h), if_pos h]

/-- **C149 is violated**: line 69 clears what line 68 has marked if the width is less than two; the kernel is zero everywhere
and cannot be normalised. -/
theorem C149_violated_narrow {width : ℝ} (hw : width < 2) (rows cols : ℕ) :
    (∀ y x v, At (kernel width rows cols true) y x v → v = 0) ∧ ((kernel width rows cols true).map List.sum).sum = 0 := by
  have h : ∀ r, pixel true width r = 0 := by
    intro r
    unfold pixel
    rw [if_pos rfl]
    unfold mark clear
    by_cases h : r ≤ width / 2
    · rw [if_pos h, if_pos (by linarith)]
    · rw [if_neg h, if_pos (by linarith)]
  constructor
  · intro y x v hv
    rw [((at_iff ..).1 hv).2.2, h]
  · unfold kernel
    apply List.sum_eq_zero
    intro s hs
    obtain ⟨row, hr, rfl⟩ := List.mem_map.1 hs
    obtain ⟨y, _, rfl⟩ := List.mem_map.1 hr
    apply List.sum_eq_zero
    intro v hv
    obtain ⟨x, _, rfl⟩ := List.mem_map.1 hv
    exact h _

/-- **C149.** Exactly the images and widths for which a hard kernel has an entry that is not zero. -/
theorem C149_nonzero_iff (width : ℝ) (rows cols : ℕ) :
    (∃ y x v, At (kernel width rows cols true) y x v ∧ v ≠ 0) ↔
      2 ≤ width ∧ ∃ y ≤ rows, ∃ x ≤ cols, rr rows cols y x ≤ width / 2 := by
  constructor
  · rintro ⟨y, x, v, h, hv⟩
    have hw : 2 ≤ width := by
      by_contra hw
      exact hv ((C149_violated_narrow (not_le.1 hw) rows cols).1 y x v h)
    obtain ⟨hy, hx, rfl⟩ := (at_iff ..).1 h
    refine ⟨hw, y, hy, x, hx, ?_⟩
    by_contra hr
    exact hv ((C149_hard_partial hw _).2 (not_le.1 hr))
  · rintro ⟨hw, y, hy, x, hx, hr⟩
    refine ⟨y, x, 1, (at_iff ..).2 ⟨hy, hx, ?_⟩, one_ne_zero⟩
    rw [(C149_hard_partial hw _).1 hr]

/-- **C149 is violated**: the documentation calls the width a radius, but it is the diameter: between half the width and
the width the kernel is zero. -/
theorem C149_violated_radius {width r : ℝ} (h1 : width / 2 < r) (_ : r ≤ width) : pixel true width r = 0 := by
  by_cases hw : 2 ≤ width
  · exact (C149_hard_partial hw r).2 h1
  · unfold pixel
    rw [if_pos rfl]
    unfold mark clear
    rw [if_neg (not_le.2 h1), if_pos h1]

/-- **C149.** The Gaussian kernel is positive, one at the centre only, and falls with the distance. -/
theorem C149_gauss {width : ℝ} (hw : 0 < width) {r s : ℝ} (hr : 0 ≤ r) :
    0 < pixel false width r ∧ (pixel false width r = 1 ↔ r = 0) ∧ (r < s → pixel false width s < pixel false width r) := by
  have hw2 : 0 < 2 * width ^ 2 := by positivity
  have e : ∀ t, pixel false width t = Real.exp (-t ^ 2 / (2 * width ^ 2)) := by
    intro t
    unfold pixel
    rw [if_neg (by decide)]
  rw [e, e]
  refine ⟨Real.exp_pos _, ?_, fun h => ?_⟩
  · rw [Real.exp_eq_one_iff, div_eq_zero_iff, neg_eq_zero, pow_eq_zero_iff two_ne_zero]
    exact ⟨fun h => h.resolve_right hw2.ne', Or.inl⟩
  · rw [Real.exp_lt_exp, div_lt_div_iff_of_pos_right hw2, neg_lt_neg_iff]
    exact pow_lt_pow_left₀ h hr two_ne_zero

/-- **C149.** The standard deviation of the Gaussian is the width: at one width it has fallen to `exp (-1 / 2)`. -/
theorem C149_gauss_width {width : ℝ} (hw : width ≠ 0) : pixel false width width = Real.exp (-1 / 2) := by
  unfold pixel
  rw [if_neg (by decide)]
  congr 1
  field_simp

/-! ## Non-vacuity -/

/-- The raster radius of 40 on the images of 420 pixels: a disc. -/
example : ∃ y x v, At (kernel 40 420 420 true) y x v ∧ v ≠ 0 :=
  (C149_nonzero_iff ..).2 ⟨by norm_num, 211, by norm_num, 211, by norm_num, by
    rw [(C149_zero_iff ..).2 ⟨by norm_num, by norm_num⟩]
    norm_num⟩

/-- A disc of diameter 1.5 is empty. -/
example : ¬ ∃ y x v, At (kernel 1.5 420 420 true) y x v ∧ v ≠ 0 := by
  rw [C149_nonzero_iff]
  rintro ⟨h, -⟩
  norm_num at h

end Corgi.Kernel

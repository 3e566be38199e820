import Mathlib.Analysis.SpecialFunctions.Trigonometric.Basic
import Mathlib.Algebra.BigOperators.Group.Finset.Basic
import Mathlib.Algebra.BigOperators.Ring.Finset
import Mathlib.Algebra.BigOperators.Intervals
import Mathlib.Tactic.Linarith
import Mathlib.Tactic.Ring
import Mathlib.Tactic.FieldSimp
import Mathlib.Tactic.NormNum

/-!
# Boresight offsets and the distortion map

`compute_boresight` (`/repo/corgidrp/astrom.py` 803-888), its use in `boresight_calibration`
(1115-1119, 1128-1133), the default distortion coefficients (1142-1146) and
`distortion_correction` (`/repo/corgidrp/l3_to_l4.py` 21-93).

Simplifications: the TAN projection is linearised around the target (offsets are plane offsets
`ξ = Δα cos δ`, `η = Δδ`, in degrees; plate scale in degrees per pixel); the Gaussian fit of a star
returns its true pixel position.  Resampling with `map_coordinates` is not modelled beyond the
positions at which the image is read.
-/

namespace Corgi.Boresight

open Real

noncomputable section

/-- `pc = [[-cos θ, sin θ], [sin θ, cos θ]]` (astrom.py 845) applied to a vector. -/
def pc (θ : ℝ) (v : ℝ × ℝ) : ℝ × ℝ :=
  (-cos θ * v.1 + sin θ * v.2, sin θ * v.1 + cos θ * v.2)

/-- World to pixel for reference pixel `c`, sky centre `b`, plate scale `k` (degrees per pixel):
the inverse of `b + k · pc (p - c)`. -/
def toPixel (k θ : ℝ) (c b s : ℝ × ℝ) : ℝ × ℝ :=
  (c.1 + (pc θ (s.1 - b.1, s.2 - b.2)).1 / k, c.2 + (pc θ (s.1 - b.1, s.2 - b.2)).2 / k)

/-- `np.mean` of a list. -/
def mean (l : List ℝ) : ℝ := l.sum / l.length

/-- `compute_boresight` (astrom.py 863-886): mean pixel offset of the fitted star positions from
those predicted for the nominal pointing (sky offset zero), times the plate scale. `stars` are
pairs of fitted pixel position and sky position. -/
def computeBoresight (k θ : ℝ) (c : ℝ × ℝ) (stars : List ((ℝ × ℝ) × (ℝ × ℝ))) : ℝ × ℝ :=
  (mean (stars.map fun st => st.1.1 - (toPixel k θ c (0, 0) st.2).1) * k,
   mean (stars.map fun st => st.1.2 - (toPixel k θ c (0, 0) st.2).2) * k)

/-- `corr_ra, corr_dec = target - offset` (astrom.py 1118), relative to the target. -/
def corrected (k θ : ℝ) (c : ℝ × ℝ) (stars : List ((ℝ × ℝ) × (ℝ × ℝ))) : ℝ × ℝ :=
  (-(computeBoresight k θ c stars).1, -(computeBoresight k θ c stars).2)

/-! ## Specification -/

/-- Stars as the detector sees them when its centre `c` really points at the plane offset `b`. -/
def Seen (k θ : ℝ) (c b : ℝ × ℝ) (stars : List ((ℝ × ℝ) × (ℝ × ℝ))) : Prop :=
  ∀ st ∈ stars, st.1 = toPixel k θ c b st.2

/-- The right ascension and declination of the centre relative to the target: the plane offset
`(ξ, η)` is `Δα = ξ / cos δ`, `Δδ = η`. -/
def trueOffset (cosDec : ℝ) (b : ℝ × ℝ) : ℝ × ℝ := (b.1 / cosDec, b.2)

/-! ## Proofs -/

theorem pc_pc (θ : ℝ) (v : ℝ × ℝ) : pc θ (pc θ v) = v := by
  have h := Real.sin_sq_add_cos_sq θ
  unfold pc
  apply Prod.ext
  · show -cos θ * (-cos θ * v.1 + sin θ * v.2) + sin θ * (sin θ * v.1 + cos θ * v.2) = v.1
    linear_combination v.1 * h
  · show sin θ * (-cos θ * v.1 + sin θ * v.2) + cos θ * (sin θ * v.1 + cos θ * v.2) = v.2
    linear_combination v.2 * h

/-- `toPixel` inverts the pixel-to-world map of the header. -/
theorem toPixel_inverse {k : ℝ} (hk : k ≠ 0) (θ : ℝ) (c b p : ℝ × ℝ) :
    toPixel k θ c b (b.1 + k * (pc θ (p.1 - c.1, p.2 - c.2)).1,
      b.2 + k * (pc θ (p.1 - c.1, p.2 - c.2)).2) = p := by
  have h := pc_pc θ (p.1 - c.1, p.2 - c.2)
  have h1 := congrArg Prod.fst h
  have h2 := congrArg Prod.snd h
  set q := pc θ (p.1 - c.1, p.2 - c.2) with hq
  have e1 : (pc θ (b.1 + k * q.1 - b.1, b.2 + k * q.2 - b.2)).1 = k * (pc θ q).1 := by
    simp only [pc]; ring
  have e2 : (pc θ (b.1 + k * q.1 - b.1, b.2 + k * q.2 - b.2)).2 = k * (pc θ q).2 := by
    simp only [pc]; ring
  unfold toPixel
  apply Prod.ext
  · show c.1 + (pc θ (b.1 + k * q.1 - b.1, b.2 + k * q.2 - b.2)).1 / k = p.1
    rw [e1, h1, mul_div_cancel_left₀ _ hk]
    ring
  · show c.2 + (pc θ (b.1 + k * q.1 - b.1, b.2 + k * q.2 - b.2)).2 / k = p.2
    rw [e2, h2, mul_div_cancel_left₀ _ hk]
    ring

theorem mean_const {α : Type} (l : List α) (f : α → ℝ) (c : ℝ) (hne : l ≠ [])
    (h : ∀ a ∈ l, f a = c) : mean (l.map f) = c := by
  have hs : (l.map f).sum = l.length * c := by
    clear hne
    induction l with
    | nil => simp
    | cons a l ih =>
      rw [List.map_cons, List.sum_cons, h a (by simp), ih fun b hb => h b (by simp [hb])]
      push_cast [List.length_cons]
      ring
  have : (l.length : ℝ) ≠ 0 := by simpa using hne
  rw [mean, hs, List.length_map]
  field_simp

/-- **C89.** What is reported: the corrected position is the target plus `pc · b`, the true plane
offset turned (and mirrored) into pixel axes, instead of the offset itself. -/
theorem C89_reported {k : ℝ} (hk : k ≠ 0) (θ : ℝ) (c b : ℝ × ℝ)
    (stars : List ((ℝ × ℝ) × (ℝ × ℝ))) (hne : stars ≠ []) (h : Seen k θ c b stars) :
    corrected k θ c stars = pc θ b := by
  have h1 : mean (stars.map fun st => st.1.1 - (toPixel k θ c (0, 0) st.2).1)
      = -(pc θ b).1 / k := by
    apply mean_const _ _ _ hne
    intro st hst
    rw [h st hst]
    simp only [toPixel, pc]
    ring
  have h2 : mean (stars.map fun st => st.1.2 - (toPixel k θ c (0, 0) st.2).2)
      = -(pc θ b).2 / k := by
    apply mean_const _ _ _ hne
    intro st hst
    rw [h st hst]
    simp only [toPixel, pc]
    ring
  unfold corrected computeBoresight
  rw [h1, h2]
  apply Prod.ext
  · show -(-(pc θ b).1 / k * k) = (pc θ b).1
    field_simp
  · show -(-(pc θ b).2 / k * k) = (pc θ b).2
    field_simp

/-- **C89 (partial).** Without a pointing error the corrected position is the target. -/
theorem C89_zero_partial {k : ℝ} (hk : k ≠ 0) (θ : ℝ) (c : ℝ × ℝ)
    (stars : List ((ℝ × ℝ) × (ℝ × ℝ))) (hne : stars ≠ []) (h : Seen k θ c (0, 0) stars) :
    corrected k θ c stars = (0, 0) := by
  rw [C89_reported hk θ c (0, 0) stars hne h]
  simp [pc]

/-- **C89 (partial).** The size of the pointing error is right. -/
theorem C89_size_partial {k : ℝ} (hk : k ≠ 0) (θ : ℝ) (c b : ℝ × ℝ)
    (stars : List ((ℝ × ℝ) × (ℝ × ℝ))) (hne : stars ≠ []) (h : Seen k θ c b stars) :
    (corrected k θ c stars).1 ^ 2 + (corrected k θ c stars).2 ^ 2 = b.1 ^ 2 + b.2 ^ 2 := by
  rw [C89_reported hk θ c b stars hne h]
  have h := Real.sin_sq_add_cos_sq θ
  simp only [pc]
  linear_combination (b.1 ^ 2 + b.2 ^ 2) * h

/-- **C89 (partial).** With north up the declination is right. -/
theorem C89_dec_partial {k : ℝ} (hk : k ≠ 0) (c b : ℝ × ℝ)
    (stars : List ((ℝ × ℝ) × (ℝ × ℝ))) (hne : stars ≠ []) (h : Seen k 0 c b stars) :
    (corrected k 0 c stars).2 = b.2 := by
  rw [C89_reported hk 0 c b stars hne h]
  simp [pc]

/-- **C89, violated.** With north up every non-zero right-ascension offset comes out with the wrong
sign: correcting doubles the error. -/
theorem C89_violated_sign {k cosDec : ℝ} (hk : k ≠ 0) (hd : 0 < cosDec) (c b : ℝ × ℝ)
    (hb : b.1 ≠ 0) (stars : List ((ℝ × ℝ) × (ℝ × ℝ))) (hne : stars ≠ [])
    (h : Seen k 0 c b stars) :
    (corrected k 0 c stars).1 = -b.1 ∧
      (corrected k 0 c stars).1 ≠ (trueOffset cosDec b).1 ∧
      (0 < (corrected k 0 c stars).1 ↔ (trueOffset cosDec b).1 < 0) := by
  have hr : (corrected k 0 c stars).1 = -b.1 := by
    rw [C89_reported hk 0 c b stars hne h]
    simp [pc]
  refine ⟨hr, ?_, ?_⟩
  · rw [hr]
    intro he
    have he' : -b.1 * cosDec = b.1 := by
      rw [he]
      simp only [trueOffset]
      field_simp
    have : b.1 * (1 + cosDec) = 0 := by linarith
    rcases mul_eq_zero.1 this with h0 | h0
    · exact hb h0
    · linarith
  · rw [hr]
    simp only [trueOffset]
    rw [div_neg_iff]
    constructor
    · intro h0
      exact Or.inr ⟨by linarith, hd⟩
    · rintro (⟨_, h0⟩ | ⟨h0, _⟩)
      · linarith
      · linarith

/-- **C89, violated.** With the detector turned by 90 degrees a pure declination error is reported
as a right-ascension error. -/
theorem C89_violated_rotation {k : ℝ} (hk : k ≠ 0) (c : ℝ × ℝ) (d : ℝ)
    (stars : List ((ℝ × ℝ) × (ℝ × ℝ))) (hne : stars ≠ []) (h : Seen k (π / 2) c (0, d) stars) :
    corrected k (π / 2) c stars = (d, 0) := by
  rw [C89_reported hk (π / 2) c (0, d) stars hne h]
  simp [pc]

/-- **C89.** Exactly when the correction is right: the plane offset must be fixed by the matrix up
to the `cos δ` factor, which the code leaves out. -/
theorem C89_right_iff {k cosDec : ℝ} (hk : k ≠ 0) (θ : ℝ) (c b : ℝ × ℝ)
    (stars : List ((ℝ × ℝ) × (ℝ × ℝ))) (hne : stars ≠ []) (h : Seen k θ c b stars) :
    corrected k θ c stars = trueOffset cosDec b ↔ pc θ b = (b.1 / cosDec, b.2) := by
  rw [C89_reported hk θ c b stars hne h]
  rfl

/-- Non-vacuous: one star seen with the detector pointing elsewhere. -/
example : Seen 1 0 (512, 512) (3, 4) [((515, 508), (0, 0))] := by
  intro st hst
  simp at hst
  subst hst
  norm_num [toPixel, pc]

end

/-! ## Distortion coefficients -/

section Distortion

open Finset

/-- Legendre polynomials (`np.polynomial.legendre`). -/
def leg (x : ℚ) : ℕ → ℚ
  | 0 => 1
  | 1 => x
  | n + 2 => ((2 * (n : ℚ) + 3) * x * leg x (n + 1) - ((n : ℚ) + 1) * leg x n) / ((n : ℚ) + 2)

/-- **C90.** The recurrence gives the Legendre polynomials: value 1 at 1, alternating parity, and
`P₂ = (3x² - 1)/2`. -/
theorem C90_legendre (x : ℚ) : leg x 2 = (3 * x ^ 2 - 1) / 2 ∧
    ∀ n, (leg 1 n = 1 ∧ leg (-x) n = (-1) ^ n * leg x n) ∧
      leg 1 (n + 1) = 1 ∧ leg (-x) (n + 1) = (-1) ^ (n + 1) * leg x (n + 1) := by
  constructor
  · simp only [leg]; push_cast; ring
  · intro n
    induction n with
    | zero => simp [leg]
    | succ n ih =>
      refine ⟨ih.2, ?_, ?_⟩
      · have h : (n : ℚ) + 2 ≠ 0 := by positivity
        rw [leg, ih.1.1, ih.2.1]
        field_simp
        ring
      · rw [leg, leg, ih.1.2, ih.2.2]
        ring

/-- `legval2d(x, y, params / 500**total_orders)` with `params` the row-major coefficients of order
`m-1` (astrom.py 592-603, l3_to_l4.py 58-66). -/
def evalLeg (m : ℕ) (cs : List ℚ) (x y : ℚ) : ℚ :=
  ∑ i ∈ range m, ∑ j ∈ range m, cs.getD (i * m + j) 0 / 500 ^ (i + j) * leg x i * leg y j

/-- The default coefficients (astrom.py 1143-1146; also the default initial guess, 990-992). -/
def zeroDist (fitorder : ℕ) : List ℚ :=
  List.replicate (fitorder + 1) 0 ++ [500]
    ++ List.replicate ((fitorder + 1) ^ 2 - fitorder - 2) 0 ++ [0, 500]
    ++ List.replicate ((fitorder + 1) ^ 2 - 2) 0

/-- `distortion_coeffs[:fitparams].reshape(order+1, order+1)` and the same for the rest
(l3_to_l4.py 55-72): `none` when the reshape raises. -/
def splitParams (order : ℕ) (cs : List ℚ) : Option (List ℚ × List ℚ) :=
  if (cs.take ((order + 1) ^ 2)).length = (order + 1) ^ 2 ∧
      (cs.drop ((order + 1) ^ 2)).length = (order + 1) ^ 2 then
    some (cs.take ((order + 1) ^ 2), cs.drop ((order + 1) ^ 2))
  else none

theorem sq_ge {m : ℕ} (h : 1 ≤ m) : m + 2 ≤ (m + 1) ^ 2 := by nlinarith

theorem zeroDist_split {m : ℕ} (h : 1 ≤ m) :
    splitParams m (zeroDist m) = some
      (List.replicate (m + 1) 0 ++ [500] ++ List.replicate ((m + 1) ^ 2 - m - 2) 0,
       [0, 500] ++ List.replicate ((m + 1) ^ 2 - 2) 0) := by
  have hs := sq_ge h
  have hl : (List.replicate (m + 1) (0 : ℚ) ++ [500]
      ++ List.replicate ((m + 1) ^ 2 - m - 2) 0).length = (m + 1) ^ 2 := by
    simp only [List.length_append, List.length_replicate, List.length_cons, List.length_nil]
    omega
  have hz : zeroDist m = (List.replicate (m + 1) (0 : ℚ) ++ [500]
      ++ List.replicate ((m + 1) ^ 2 - m - 2) 0) ++ ([0, 500]
        ++ List.replicate ((m + 1) ^ 2 - 2) 0) := by
    unfold zeroDist
    simp only [List.append_assoc]
  unfold splitParams
  rw [hz, List.take_left' hl, List.drop_left' hl, hl]
  rw [if_pos]
  refine ⟨rfl, ?_⟩
  simp only [List.length_append, List.length_replicate, List.length_cons, List.length_nil]
  omega

theorem xs_entry (m e k : ℕ) :
    (List.replicate (m + 1) (0 : ℚ) ++ [500] ++ List.replicate e 0).getD k 0
      = if k = m + 1 then 500 else 0 := by
  rw [List.append_assoc, List.getD_eq_getElem?_getD]
  rcases Nat.lt_trichotomy k (m + 1) with h | h | h
  · rw [List.getElem?_append_left (by simpa using h), if_neg (by omega)]
    simp [h]
  · subst h
    rw [List.getElem?_append_right (by simp), if_pos rfl]
    simp
  · rw [List.getElem?_append_right (by simp; omega), if_neg (by omega)]
    obtain ⟨d, rfl⟩ : ∃ d, k = m + 1 + 1 + d := ⟨k - (m + 1 + 1), by omega⟩
    have : m + 1 + 1 + d - (List.replicate (m + 1) (0 : ℚ)).length = d + 1 := by
      simp; omega
    rw [this]
    simp [List.getElem?_replicate]
    split_ifs <;> rfl

theorem ys_entry (e k : ℕ) :
    ([0, 500] ++ List.replicate e (0 : ℚ)).getD k 0 = if k = 1 then 500 else 0 := by
  rcases k with _ | _ | k
  · simp
  · simp
  · rw [if_neg (by omega), List.getD_eq_getElem?_getD]
    simp [List.getElem?_replicate]
    split_ifs <;> rfl

/-- **C90.** For every fit order from 1 on the default coefficients describe no distortion: both
polynomials are the identity in their own coordinate, at every position. -/
theorem C90_identity {m : ℕ} (h : 1 ≤ m) :
    ∃ xs ys, splitParams m (zeroDist m) = some (xs, ys) ∧
      ∀ x y : ℚ, evalLeg (m + 1) xs x y = x ∧ evalLeg (m + 1) ys x y = y := by
  refine ⟨_, _, zeroDist_split h, ?_⟩
  intro x y
  have hm : 1 ∈ range (m + 1) := by simp; omega
  have h0 : 0 ∈ range (m + 1) := by simp
  constructor
  · unfold evalLeg
    rw [Finset.sum_eq_single_of_mem 1 hm, Finset.sum_eq_single_of_mem 0 h0]
    · rw [xs_entry, if_pos (by omega)]
      norm_num [leg]
    · intro j hj hj0
      rw [xs_entry, if_neg (by omega)]
      simp
    · intro i hi hi1
      apply Finset.sum_eq_zero
      intro j hj
      rw [xs_entry, if_neg]
      · simp
      · intro he
        have hjlt := mem_range.1 hj
        rcases i with _ | _ | i
        · omega
        · exact hi1 rfl
        · have : (i + 1 + 1) * (m + 1) = i * (m + 1) + 2 * (m + 1) := by ring
          have h2 : 0 ≤ i * (m + 1) := Nat.zero_le _
          omega
  · unfold evalLeg
    rw [Finset.sum_eq_single_of_mem 0 h0, Finset.sum_eq_single_of_mem 1 hm]
    · rw [ys_entry, if_pos (by omega)]
      norm_num [leg]
    · intro j hj hj1
      rw [ys_entry, if_neg (by omega)]
      simp
    · intro i hi hi0
      apply Finset.sum_eq_zero
      intro j hj
      rw [ys_entry, if_neg]
      · simp
      · intro he
        have : 1 ≤ i := by omega
        have h2 : 1 * (m + 1) ≤ i * (m + 1) := Nat.mul_le_mul_right _ this
        omega

/-- **C90, violated.** For fit order 0 the default list is too long and cannot be reshaped. -/
theorem C90_violated_order_zero : splitParams 0 (zeroDist 0) = none := by
  decide +kernel

/-- Pixel position at which `distortion_correction` reads the image for the output pixel
`(row, col)` of a square frame of side `n` (l3_to_l4.py 43-84). -/
def readAt (n m : ℕ) (xs ys : List ℚ) (row col : ℕ) : ℚ × ℚ :=
  let x : ℚ := (col : ℚ) - (n / 2 : ℕ)
  let y : ℚ := (row : ℚ) - (n / 2 : ℕ)
  (col - (evalLeg m xs x y - x), row - (evalLeg m ys x y - y))

/-- **C90.** With the default coefficients every output pixel is read from its own place: frames
are resampled at whole pixels without displacement. -/
theorem C90_no_displacement {m : ℕ} (h : 1 ≤ m) (n row col : ℕ) (xs ys : List ℚ)
    (hp : splitParams m (zeroDist m) = some (xs, ys)) :
    readAt n (m + 1) xs ys row col = ((col : ℚ), (row : ℚ)) := by
  obtain ⟨xs', ys', h1, h2⟩ := C90_identity h
  rw [hp] at h1
  cases h1
  unfold readAt
  dsimp only
  rw [(h2 _ _).1, (h2 _ _).2]
  simp

/-- Displacement of a star at `(x, y)` in the fit: the polynomials are taken around pixel 511
(astrom.py 607-622). -/
def fitShift (m : ℕ) (xs ys : List ℚ) (x y : ℚ) : ℚ × ℚ :=
  (evalLeg m xs (x - 511) (y - 511) - (x - 511), evalLeg m ys (x - 511) (y - 511) - (y - 511))

/-- Displacement that `distortion_correction` removes at the same pixel. -/
def appliedShift (n m : ℕ) (xs ys : List ℚ) (row col : ℕ) : ℚ × ℚ :=
  (col - (readAt n m xs ys row col).1, row - (readAt n m xs ys row col).2)

/-- **C90 (partial).** Frames of side 1022 or 1023 are corrected by the fitted displacement. -/
theorem C90_centre_partial (n m : ℕ) (hn : n / 2 = 511) (xs ys : List ℚ) (row col : ℕ) :
    appliedShift n m xs ys row col = fitShift m xs ys col row := by
  unfold appliedShift fitShift readAt
  simp only [hn]
  apply Prod.ext
  · push_cast
    ring
  · push_cast
    ring

/-- **C90.** In general the correction applied at a pixel is the one fitted for the pixel displaced
by `511 - n/2` along both axes. -/
theorem C90_offset (n m : ℕ) (xs ys : List ℚ) (row col : ℕ) :
    appliedShift n m xs ys row col
      = fitShift m xs ys (col + 511 - (n / 2 : ℕ)) (row + 511 - (n / 2 : ℕ)) := by
  unfold appliedShift fitShift readAt
  apply Prod.ext
  · show (col : ℚ) - (col - (evalLeg m xs _ _ - _)) = evalLeg m xs _ _ - _
    ring_nf
  · show (row : ℚ) - (row - (evalLeg m ys _ _ - _)) = evalLeg m ys _ _ - _
    ring_nf

/-- A quadratic distortion along x: `x + (x² terms)`. -/
def bentX : List ℚ := [0, 0, 0, 500, 0, 0, 500, 0, 0]
def flatY : List ℚ := [0, 500, 0, 0, 0, 0, 0, 0, 0]

/-- **C90, violated.** On the 1024 x 1024 detector the correction is taken one pixel away from where
it was fitted, so a curved distortion is not removed. -/
theorem C90_violated_centre :
    appliedShift 1024 3 bentX flatY 100 100 ≠ fitShift 3 bentX flatY 100 100 := by
  decide +kernel

/-- Shapes in l3_to_l4.py 80-82: the coordinate grid is square with the larger side, the distortion
map has the frame's shape; they broadcast only if equal (or a side is 1). -/
def gridOk (rows cols : ℕ) : Bool :=
  let s := max rows cols
  (rows == s || rows == 1) && (cols == s || cols == 1)

/-- **C90, violated.** Every non-square frame with sides above 1 makes the correction fail. -/
theorem C90_violated_rectangular (rows cols : ℕ) (hr : 1 < rows) (hc : 1 < cols) :
    gridOk rows cols = true ↔ rows = cols := by
  unfold gridOk
  simp only [Bool.and_eq_true, Bool.or_eq_true, beq_iff_eq]
  omega

/-- **C90.** All shapes that are accepted. -/
theorem C90_shape_iff (rows cols : ℕ) : gridOk rows cols = true ↔ rows = cols ∨ rows = 1 ∧ 1 ≤ cols ∨ cols = 1 ∧ 1 ≤ rows := by
  unfold gridOk
  simp only [Bool.and_eq_true, Bool.or_eq_true, beq_iff_eq]
  omega

/-- Non-vacuous: the third-order default of the pipeline has 32 coefficients. -/
example : (zeroDist 3).length = 32 := by decide +kernel

end Distortion

end Corgi.Boresight

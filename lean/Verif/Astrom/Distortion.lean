import Verif.Astrom.Boresight
import Verif.Astrom.Sources
import Mathlib.Analysis.SpecialFunctions.Complex.Arg
import Mathlib.Analysis.SpecialFunctions.Trigonometric.Arctan
import Mathlib.Algebra.BigOperators.Group.List.Lemmas
import Mathlib.Tactic.Linarith
import Mathlib.Tactic.LinearCombination
import Mathlib.Tactic.Ring
import Mathlib.Tactic.FieldSimp
import Mathlib.Tactic.NormNum
import Mathlib.Tactic.Positivity

/-!
# The fit of the distortion map

`fit_distortion_solution` (`/repo/corgidrp/astrom.py` 574-668), `format_distortion_inputs`
(890-959), `compute_distortion` (961-1001) and their use in `boresight_calibration` (1135-1140).

Simplifications: real numbers for floats; `leastsq` is represented by its check of the number of
residuals and by the cost it minimises (the sum of the squared residuals); the star positions
measured by `measure_offset` are inputs (see C93 for what is measured). `arctan2(y, x)` is
`Complex.arg ⟨x, y⟩`.
-/

namespace Corgi.Distortion

open Real Finset

noncomputable section

/-- Legendre polynomials (`np.polynomial.legendre`). -/
def leg (x : ℝ) : ℕ → ℝ
  | 0 => 1
  | 1 => x
  | n + 2 => ((2 * (n : ℝ) + 3) * x * leg x (n + 1) - ((n : ℝ) + 1) * leg x n) / ((n : ℝ) + 2)

/-- `legval2d(x, y, params / 500**total_orders)` with `m = fitorder + 1` (astrom.py 594-603,
618-622). -/
def evalLeg (m : ℕ) (cs : List ℝ) (x y : ℝ) : ℝ :=
  ∑ i ∈ range m, ∑ j ∈ range m, cs.getD (i * m + j) 0 / 500 ^ (i + j) * leg x i * leg y j

/-- One pair of stars: pixel position of the first star, measured pixel offset, separation (mas)
and position angle (degrees) on the sky, errors of the offset. -/
structure Pair where
  x1 : ℝ
  y1 : ℝ
  dx : ℝ
  dy : ℝ
  sep : ℝ
  pa : ℝ
  ex : ℝ
  ey : ℝ

/-- `corr_offset_x, corr_offset_y`: the offset between the two undistorted positions (astrom.py
607-622, 633-634). -/
def corrOffset (m : ℕ) (xs ys : List ℝ) (p : Pair) : ℝ × ℝ :=
  let x := p.x1 - 511
  let y := p.y1 - 511
  (evalLeg m xs (x + p.dx) (y + p.dy) - evalLeg m xs x y,
   evalLeg m ys (x + p.dx) (y + p.dy) - evalLeg m ys x y)

/-- `np.arctan(num / denom)`, with `±π/2` for a zero denominator (astrom.py 642-644). -/
def arctanRatio (s c : ℝ) : ℝ :=
  if c = 0 then (if 0 < s then π / 2 else -(π / 2)) else arctan (s / c)

/-- `sep_err = np.mean([meas_errs[0], meas_errs[1]])` (astrom.py 648). -/
def sepErr (p : Pair) : ℝ := (p.ex + p.ey) / 2

/-- `true_offset_sep = sky_sep / platescale` (astrom.py 629). -/
def pixSep (scale : ℝ) (p : Pair) : ℝ := p.sep / scale

/-- Weighted residual of the separation (astrom.py 636, 640, 660). -/
def resSep (scale : ℝ) (p : Pair) (c : ℝ × ℝ) : ℝ :=
  (√(c.1 ^ 2 + c.2 ^ 2) - pixSep scale p) / sepErr p

/-- `corr_offset_pa - true_offset_pa` in degrees (astrom.py 630, 637). -/
def paDiff (rot : ℝ) (p : Pair) (c : ℝ × ℝ) : ℝ :=
  Complex.arg ⟨c.2, -c.1⟩ * (180 / π) - (p.pa - rot)

/-- Weighted residual of the position angle (astrom.py 642-644, 655, 660). -/
def resPa (scale rot : ℝ) (p : Pair) (c : ℝ × ℝ) : ℝ :=
  arctanRatio (sin (paDiff rot p c * (π / 180))) (cos (paDiff rot p c * (π / 180)))
    / (sepErr p / pixSep scale p)

/-- The reshaped halves of the parameters (astrom.py 592-598); `none` when `reshape` raises. -/
def splitParams (order : ℕ) (cs : List ℝ) : Option (List ℝ × List ℝ) :=
  if (cs.take ((order + 1) ^ 2)).length = (order + 1) ^ 2 ∧
      (cs.drop ((order + 1) ^ 2)).length = (order + 1) ^ 2 then
    some (cs.take ((order + 1) ^ 2), cs.drop ((order + 1) ^ 2))
  else none

/-- Residuals for given halves: all separations first, then all position angles (astrom.py 666). -/
def residualsOf (order : ℕ) (scale rot : ℝ) (xs ys : List ℝ) (pairs : List Pair) : List ℝ :=
  pairs.map (fun p => resSep scale p (corrOffset (order + 1) xs ys p))
    ++ pairs.map (fun p => resPa scale rot p (corrOffset (order + 1) xs ys p))

/-- `fit_distortion_solution` (astrom.py 574-668). -/
def residuals (order : ℕ) (scale rot : ℝ) (params : List ℝ) (pairs : List Pair) :
    Option (List ℝ) :=
  (splitParams order params).map fun h => residualsOf order scale rot h.1 h.2 pairs

/-- What `leastsq` minimises. -/
def cost (rs : List ℝ) : ℝ := (rs.map fun r => r ^ 2).sum

/-- `compute_distortion` up to the call of the optimiser (astrom.py 985-999): the residuals of the
initial guess are computed and `leastsq` refuses more parameters than residuals (TypeError). -/
def starts (order : ℕ) (scale rot : ℝ) (guess : List ℝ) (pairs : List Pair) : Bool :=
  match residuals order scale rot guess pairs with
  | none => false
  | some rs => decide (guess.length ≤ rs.length)

/-! ## Specification -/

/-- The pixel offset of the second star implied by the catalogue, the plate scale and the north
angle: separation along the position angle, counter-clockwise from the y axis. -/
def expected (scale rot : ℝ) (p : Pair) : ℝ × ℝ :=
  (-(p.sep / scale * sin ((p.pa - rot) * (π / 180))), p.sep / scale * cos ((p.pa - rot) * (π / 180)))

/-- Usable pair: distinct stars and positive errors. -/
def Usable (p : Pair) : Prop := 0 < p.sep ∧ 0 < p.ex ∧ 0 < p.ey

/-! ## Proofs -/

theorem arctanRatio_eq_zero {s c : ℝ} (h : s ^ 2 + c ^ 2 = 1) : arctanRatio s c = 0 ↔ s = 0 := by
  unfold arctanRatio
  by_cases hc : c = 0
  · rw [if_pos hc]
    have hs : s ≠ 0 := by
      rintro rfl
      rw [hc] at h
      norm_num at h
    have hp := Real.pi_pos
    constructor
    · intro h0
      by_cases h1 : 0 < s
      · rw [if_pos h1] at h0; linarith
      · rw [if_neg h1] at h0; linarith
    · intro h0; exact absurd h0 hs
  · rw [if_neg hc, Real.arctan_eq_zero_iff, div_eq_zero_iff]
    exact ⟨fun h => h.resolve_right hc, Or.inl⟩

theorem polar (c : ℝ × ℝ) :
    √(c.1 ^ 2 + c.2 ^ 2) * cos (Complex.arg ⟨c.2, -c.1⟩) = c.2 ∧
      √(c.1 ^ 2 + c.2 ^ 2) * sin (Complex.arg ⟨c.2, -c.1⟩) = -c.1 := by
  have hn : ‖(⟨c.2, -c.1⟩ : ℂ)‖ = √(c.1 ^ 2 + c.2 ^ 2) := by
    rw [Complex.norm_def, Complex.normSq_apply]
    congr 1
    show c.2 * c.2 + -c.1 * -c.1 = _
    ring
  have h1 := Complex.norm_mul_cos_arg ⟨c.2, -c.1⟩
  have h2 := Complex.norm_mul_sin_arg ⟨c.2, -c.1⟩
  rw [hn] at h1 h2
  exact ⟨h1, h2⟩

theorem paDiff_rad (rot : ℝ) (p : Pair) (c : ℝ × ℝ) : paDiff rot p c * (π / 180)
    = Complex.arg ⟨c.2, -c.1⟩ - (p.pa - rot) * (π / 180) := by
  have := Real.pi_ne_zero
  unfold paDiff
  field_simp

theorem sepErr_pos {p : Pair} (h : Usable p) : 0 < sepErr p := by
  unfold sepErr
  linarith [h.2.1, h.2.2]

/-- **C137.** Exactly when a pair fits perfectly: the undistorted offset is the expected one or its
opposite. The position angle only counts modulo 180 degrees. -/
theorem C137_pair_iff {scale : ℝ} (hs : 0 < scale) (rot : ℝ) {p : Pair} (h : Usable p)
    (c : ℝ × ℝ) : (resSep scale p c = 0 ∧ resPa scale rot p c = 0)
      ↔ (c = expected scale rot p ∨ c = (-(expected scale rot p).1, -(expected scale rot p).2)) := by
  have he := sepErr_pos h
  have hk : 0 < p.sep / scale := div_pos h.1 hs
  obtain ⟨hc, hsn⟩ := polar c
  have e1 : resSep scale p c = 0 ↔ √(c.1 ^ 2 + c.2 ^ 2) = p.sep / scale := by
    unfold resSep pixSep
    rw [div_eq_zero_iff]
    constructor
    · rintro (h | h) <;> linarith
    · intro h; left; linarith
  have e2 : resPa scale rot p c = 0 ↔
      sin (Complex.arg ⟨c.2, -c.1⟩ - (p.pa - rot) * (π / 180)) = 0 := by
    unfold resPa
    rw [paDiff_rad, div_eq_zero_iff, or_iff_left]
    · exact arctanRatio_eq_zero (Real.sin_sq_add_cos_sq _)
    · have : 0 < sepErr p / pixSep scale p := div_pos he hk
      linarith
  rw [e1, e2]
  unfold expected
  generalize (p.pa - rot) * (π / 180) = τ
  generalize hφ : Complex.arg ⟨c.2, -c.1⟩ = φ at hc hsn ⊢
  generalize p.sep / scale = s at hk ⊢
  have st := Real.sin_sq_add_cos_sq τ
  constructor
  · rintro ⟨h1, h2⟩
    rw [h1] at hc hsn
    have hsub : φ = (φ - τ) + τ := by ring
    have hq := Real.sin_sq_add_cos_sq (φ - τ)
    rw [h2] at hq
    have hcc : cos (φ - τ) = 1 ∨ cos (φ - τ) = -1 := by
      have : (cos (φ - τ) - 1) * (cos (φ - τ) + 1) = 0 := by linarith [hq]
      rcases mul_eq_zero.1 this with h | h
      · left; linarith
      · right; linarith
    rw [hsub, Real.cos_add, h2] at hc
    rw [hsub, Real.sin_add, h2] at hsn
    rcases hcc with h | h
    · left
      rw [h] at hc hsn
      apply Prod.ext
      · show c.1 = -(s * sin τ); linarith
      · show c.2 = s * cos τ; linarith
    · right
      rw [h] at hc hsn
      apply Prod.ext
      · show c.1 = - -(s * sin τ); linarith
      · show c.2 = -(s * cos τ); linarith
  · intro h0
    have hr : √(c.1 ^ 2 + c.2 ^ 2) = s := by
      have : c.1 ^ 2 + c.2 ^ 2 = s ^ 2 := by
        rcases h0 with h0 | h0
        · rw [h0]
          show (-(s * sin τ)) ^ 2 + (s * cos τ) ^ 2 = s ^ 2
          linear_combination s ^ 2 * st
        · rw [h0]
          show (- -(s * sin τ)) ^ 2 + (-(s * cos τ)) ^ 2 = s ^ 2
          linear_combination s ^ 2 * st
      rw [this, Real.sqrt_sq hk.le]
    refine ⟨hr, ?_⟩
    rw [hr] at hc hsn
    rw [Real.sin_sub]
    have hz : s * (sin φ * cos τ - cos φ * sin τ) = 0 := by
      have : s * (sin φ * cos τ - cos φ * sin τ) = (s * sin φ) * cos τ - (s * cos φ) * sin τ := by
        ring
      rw [this, hc, hsn]
      rcases h0 with h0 | h0
      · rw [h0]
        show - -(s * sin τ) * cos τ - s * cos τ * sin τ = 0
        ring
      · rw [h0]
        show - - -(s * sin τ) * cos τ - -(s * cos τ) * sin τ = 0
        ring
    exact (mul_eq_zero.1 hz).resolve_left hk.ne'

theorem cost_nonneg (rs : List ℝ) : 0 ≤ cost rs := by
  unfold cost
  induction rs with
  | nil => simp
  | cons r rs ih => rw [List.map_cons, List.sum_cons]; positivity

theorem cost_eq_zero (rs : List ℝ) : cost rs = 0 ↔ ∀ r ∈ rs, r = 0 := by
  induction rs with
  | nil => simp [cost]
  | cons r rs ih =>
    have h0 := cost_nonneg rs
    have e : cost (r :: rs) = r ^ 2 + cost rs := by simp [cost]
    rw [e, List.forall_mem_cons, ← ih]
    constructor
    · intro h
      have : r ^ 2 = 0 := by nlinarith [sq_nonneg r]
      exact ⟨pow_eq_zero_iff (two_ne_zero) |>.1 this, by linarith [sq_nonneg r]⟩
    · rintro ⟨rfl, h⟩
      rw [h]; norm_num

/-- **C137.** The cost of a set of coefficients is zero exactly when every undistorted offset is the
expected one or its opposite. -/
theorem C137_cost_iff (order : ℕ) {scale : ℝ} (hs : 0 < scale) (rot : ℝ) (xs ys : List ℝ)
    (pairs : List Pair) (hu : ∀ p ∈ pairs, Usable p) :
    cost (residualsOf order scale rot xs ys pairs) = 0 ↔
      ∀ p ∈ pairs, corrOffset (order + 1) xs ys p = expected scale rot p ∨
        corrOffset (order + 1) xs ys p
          = (-(expected scale rot p).1, -(expected scale rot p).2) := by
  rw [cost_eq_zero]
  unfold residualsOf
  simp only [List.mem_append, List.mem_map]
  constructor
  · intro h p hp
    exact (C137_pair_iff hs rot (hu p hp) _).1
      ⟨h _ (Or.inl ⟨p, hp, rfl⟩), h _ (Or.inr ⟨p, hp, rfl⟩)⟩
  · rintro h r (⟨p, hp, rfl⟩ | ⟨p, hp, rfl⟩)
    · exact ((C137_pair_iff hs rot (hu p hp) _).2 (h p hp)).1
    · exact ((C137_pair_iff hs rot (hu p hp) _).2 (h p hp)).2

theorem evalLeg_neg (m : ℕ) (cs : List ℝ) (x y : ℝ) :
    evalLeg m (cs.map Neg.neg) x y = -evalLeg m cs x y := by
  unfold evalLeg
  rw [← Finset.sum_neg_distrib]
  refine Finset.sum_congr rfl fun i _ => ?_
  rw [← Finset.sum_neg_distrib]
  refine Finset.sum_congr rfl fun j _ => ?_
  have : (cs.map Neg.neg).getD (i * m + j) 0 = -cs.getD (i * m + j) 0 := by
    rw [List.getD_eq_getElem?_getD, List.getD_eq_getElem?_getD, List.getElem?_map]
    cases cs[i * m + j]? <;> simp
  rw [this]
  ring

theorem corrOffset_neg (m : ℕ) (xs ys : List ℝ) (p : Pair) :
    corrOffset m (xs.map Neg.neg) (ys.map Neg.neg) p
      = (-(corrOffset m xs ys p).1, -(corrOffset m xs ys p).2) := by
  unfold corrOffset
  dsimp only
  simp only [evalLeg_neg]
  apply Prod.ext
  · show -_ - -_ = -(_ - _); ring
  · show -_ - -_ = -(_ - _); ring

theorem arctanRatio_neg_sq (s c : ℝ) (hs : s ≠ 0 ∨ c ≠ 0) :
    arctanRatio (-s) (-c) ^ 2 = arctanRatio s c ^ 2 := by
  unfold arctanRatio
  by_cases hc : c = 0
  · have h0 : s ≠ 0 := hs.resolve_right fun h => h hc
    rw [if_pos (by rw [hc, neg_zero]), if_pos hc]
    rcases lt_or_gt_of_ne h0 with h | h
    · rw [if_pos (by linarith), if_neg (by linarith)]; ring
    · rw [if_neg (by linarith), if_pos h]; ring
  · rw [if_neg (by simpa using hc), if_neg hc, neg_div_neg_eq]

theorem arg_neg_trig {z : ℂ} (hz : z ≠ 0) (τ : ℝ) :
    sin (Complex.arg (-z) - τ) = -sin (Complex.arg z - τ) ∧
      cos (Complex.arg (-z) - τ) = -cos (Complex.arg z - τ) := by
  have hn : (0 : ℝ) < ‖z‖ := norm_pos_iff.2 hz
  have c1 := Complex.norm_mul_cos_arg z
  have s1 := Complex.norm_mul_sin_arg z
  have c2 := Complex.norm_mul_cos_arg (-z)
  have s2 := Complex.norm_mul_sin_arg (-z)
  rw [norm_neg] at c2 s2
  rw [Complex.neg_re] at c2
  rw [Complex.neg_im] at s2
  have hc : cos (Complex.arg (-z)) = -cos (Complex.arg z) := by
    apply mul_left_cancel₀ hn.ne'
    rw [c2, mul_neg, c1]
  have hs : sin (Complex.arg (-z)) = -sin (Complex.arg z) := by
    apply mul_left_cancel₀ hn.ne'
    rw [s2, mul_neg, s1]
  rw [Real.sin_sub, Real.cos_sub, Real.sin_sub, Real.cos_sub, hc, hs]
  constructor <;> ring

theorem div_sq_congr {a b : ℝ} (d : ℝ) (h : a ^ 2 = b ^ 2) : (a / d) ^ 2 = (b / d) ^ 2 := by
  rw [div_pow, div_pow, h]

theorem resPa_neg_sq (scale rot : ℝ) (p : Pair) (c : ℝ × ℝ) :
    resPa scale rot p (-c.1, -c.2) ^ 2 = resPa scale rot p c ^ 2 := by
  by_cases h0 : c = (0, 0)
  · subst h0
    norm_num
  · unfold resPa
    rw [paDiff_rad, paDiff_rad]
    have hz : (⟨c.2, -c.1⟩ : ℂ) ≠ 0 := by
      intro h
      have h1 := congrArg Complex.re h
      have h2 := congrArg Complex.im h
      simp at h1 h2
      exact h0 (Prod.ext h2 h1)
    have hzn : (⟨(-c.1, -c.2).2, -(-c.1, -c.2).1⟩ : ℂ) = -⟨c.2, -c.1⟩ := by
      apply Complex.ext <;> simp
    rw [hzn, (arg_neg_trig hz _).1, (arg_neg_trig hz _).2]
    apply div_sq_congr
    apply arctanRatio_neg_sq
    by_contra hcon
    push Not at hcon
    have := Real.sin_sq_add_cos_sq (Complex.arg ⟨c.2, -c.1⟩ - (p.pa - rot) * (π / 180))
    rw [hcon.1, hcon.2] at this
    norm_num at this

theorem cost_append (a b : List ℝ) : cost (a ++ b) = cost a + cost b := by
  simp [cost]

theorem cost_map_congr {α : Type} (l : List α) (f g : α → ℝ) (h : ∀ a ∈ l, f a ^ 2 = g a ^ 2) :
    cost (l.map f) = cost (l.map g) := by
  unfold cost
  rw [List.map_map, List.map_map]
  congr 1
  exact List.map_congr_left fun a ha => h a ha

/-- **C137, violated.** The fit cannot tell a map from its point reflection: for all stars and
coefficients the negated coefficients have the same cost. The minimum is never unique. -/
theorem C137_violated_reflection (order : ℕ) (scale rot : ℝ) (xs ys : List ℝ)
    (pairs : List Pair) :
    cost (residualsOf order scale rot (xs.map Neg.neg) (ys.map Neg.neg) pairs)
      = cost (residualsOf order scale rot xs ys pairs) := by
  unfold residualsOf
  rw [cost_append, cost_append]
  congr 1
  · apply cost_map_congr
    intro p _
    rw [corrOffset_neg]
    unfold resSep
    simp only [neg_sq]
  · apply cost_map_congr
    intro p _
    rw [corrOffset_neg]
    exact resPa_neg_sq _ _ _ _

theorem evalLeg_set_zero {m : ℕ} (hm : 0 < m) (cs : List ℝ) (hne : cs ≠ []) (a x y : ℝ) :
    evalLeg m (cs.set 0 a) x y = evalLeg m cs x y + (a - cs.getD 0 0) := by
  have key : ∀ i ∈ range m, ∀ j ∈ range m,
      (cs.set 0 a).getD (i * m + j) 0 / 500 ^ (i + j) * leg x i * leg y j
        = cs.getD (i * m + j) 0 / 500 ^ (i + j) * leg x i * leg y j
          + (if i = 0 then if j = 0 then a - cs.getD 0 0 else 0 else 0) := by
    intro i _ j _
    obtain ⟨c, cs, rfl⟩ := List.exists_cons_of_ne_nil hne
    rcases Nat.eq_zero_or_pos i with rfl | hi
    · rcases Nat.eq_zero_or_pos j with rfl | hj
      · simp [leg]
      · obtain ⟨j, rfl⟩ : ∃ j', j = j' + 1 := ⟨j - 1, by omega⟩
        simp
    · have : i * m + j ≠ 0 := by
        have := Nat.mul_pos hi hm
        omega
      obtain ⟨k, hk⟩ : ∃ k, i * m + j = k + 1 := ⟨i * m + j - 1, by omega⟩
      rw [hk, if_neg (by omega)]
      simp
  unfold evalLeg
  rw [Finset.sum_congr rfl fun i hi => Finset.sum_congr rfl fun j hj => key i hi j hj]
  simp only [Finset.sum_add_distrib]
  congr 1
  rw [Finset.sum_eq_single_of_mem 0 (by simpa using hm)]
  · rw [Finset.sum_eq_single_of_mem 0 (by simpa using hm)]
    · simp
    · intro j _ hj; simp [hj]
  · intro i _ hi
    simp [hi]

/-- **C137, violated.** The first coefficients, a shift of the whole field, do not enter the
residuals at all, although they are part of the correction applied to images. -/
theorem C137_violated_shift (order : ℕ) (scale rot : ℝ) (xs ys : List ℝ) (hx : xs ≠ [])
    (hy : ys ≠ []) (a b : ℝ) (pairs : List Pair) :
    residualsOf order scale rot (xs.set 0 a) (ys.set 0 b) pairs
        = residualsOf order scale rot xs ys pairs ∧
      ∀ x y, evalLeg (order + 1) (xs.set 0 a) x y = evalLeg (order + 1) xs x y + (a - xs.getD 0 0) ∧
        evalLeg (order + 1) (ys.set 0 b) x y = evalLeg (order + 1) ys x y + (b - ys.getD 0 0) := by
  have hsx := fun x y => evalLeg_set_zero (Nat.succ_pos order) xs hx a x y
  have hsy := fun x y => evalLeg_set_zero (Nat.succ_pos order) ys hy b x y
  refine ⟨?_, fun x y => ⟨hsx x y, hsy x y⟩⟩
  have hc : ∀ p, corrOffset (order + 1) (xs.set 0 a) (ys.set 0 b) p
      = corrOffset (order + 1) xs ys p := by
    intro p
    unfold corrOffset
    dsimp only
    apply Prod.ext
    · show evalLeg _ _ _ _ - evalLeg _ _ _ _ = evalLeg _ _ _ _ - evalLeg _ _ _ _
      rw [hsx, hsx]; ring
    · show evalLeg _ _ _ _ - evalLeg _ _ _ _ = evalLeg _ _ _ _ - evalLeg _ _ _ _
      rw [hsy, hsy]; ring
  unfold residualsOf
  simp only [hc]

/-- **C137.** Turning the north angle by 180 degrees leaves every squared residual as it was: the
fit cannot notice a calibration that is upside down. -/
theorem C137_violated_north (order : ℕ) (scale rot : ℝ) (xs ys : List ℝ) (pairs : List Pair) :
    cost (residualsOf order scale (rot + 180) xs ys pairs)
      = cost (residualsOf order scale rot xs ys pairs) := by
  unfold residualsOf
  rw [cost_append, cost_append]
  congr 1
  apply cost_map_congr
  intro p _
  generalize corrOffset (order + 1) xs ys p = c
  unfold resPa
  rw [paDiff_rad, paDiff_rad]
  have e : Complex.arg ⟨c.2, -c.1⟩ - (p.pa - (rot + 180)) * (π / 180)
      = (Complex.arg ⟨c.2, -c.1⟩ - (p.pa - rot) * (π / 180)) + π := by ring
  rw [e, Real.sin_add_pi, Real.cos_add_pi]
  apply div_sq_congr
  apply arctanRatio_neg_sq
  by_contra hcon
  push Not at hcon
  have := Real.sin_sq_add_cos_sq (Complex.arg ⟨c.2, -c.1⟩ - (p.pa - rot) * (π / 180))
  rw [hcon.1, hcon.2] at this
  norm_num at this

/-- **C137.** The errors are weights: errors `k` times as large make every residual `k` times
smaller, so a uniform error (`position_error`) does not change where the minimum is. -/
theorem C137_weights (order : ℕ) (scale rot : ℝ) (xs ys : List ℝ) (k : ℝ)
    (pairs : List Pair) :
    residualsOf order scale rot xs ys
        (pairs.map fun p => { p with ex := k * p.ex, ey := k * p.ey })
      = (residualsOf order scale rot xs ys pairs).map (· / k) := by
  unfold residualsOf
  rw [List.map_append, List.map_map, List.map_map, List.map_map, List.map_map]
  congr 1
  · apply List.map_congr_left
    intro p _
    show (_ - _) / ((k * p.ex + k * p.ey) / 2) = (_ - _) / ((p.ex + p.ey) / 2) / k
    rw [div_div]
    congr 1
    ring
  · apply List.map_congr_left
    intro p _
    have hw : (k * p.ex + k * p.ey) / 2 / (p.sep / scale)
        = (p.ex + p.ey) / 2 / (p.sep / scale) * k := by ring
    show _ / ((k * p.ex + k * p.ey) / 2 / (p.sep / scale))
      = _ / ((p.ex + p.ey) / 2 / (p.sep / scale)) / k
    rw [hw, div_mul_eq_div_div]
    rfl

theorem leg_cast (x : ℚ) (n : ℕ) : ((Boresight.leg x n : ℚ) : ℝ) = leg (x : ℝ) n ∧
    ((Boresight.leg x (n + 1) : ℚ) : ℝ) = leg (x : ℝ) (n + 1) := by
  induction n with
  | zero => simp [Boresight.leg, leg]
  | succ n ih =>
    refine ⟨ih.2, ?_⟩
    rw [Boresight.leg, leg]
    push_cast
    rw [ih.1, ih.2]

/-- The polynomials are those of the correction (C90). -/
theorem C137_same_polynomials (m : ℕ) (cs : List ℚ) (x y : ℚ) :
    ((Boresight.evalLeg m cs x y : ℚ) : ℝ)
      = evalLeg m (cs.map fun q : ℚ => (q : ℝ)) (x : ℝ) (y : ℝ) := by
  unfold Boresight.evalLeg evalLeg
  push_cast
  refine Finset.sum_congr rfl fun i _ => Finset.sum_congr rfl fun j _ => ?_
  rw [(leg_cast x i).1, (leg_cast y j).1]
  have : (cs.map fun q : ℚ => (q : ℝ)).getD (i * m + j) 0 = ((cs.getD (i * m + j) 0 : ℚ) : ℝ) := by
    rw [List.getD_eq_getElem?_getD, List.getD_eq_getElem?_getD, List.getElem?_map]
    cases cs[i * m + j]? <;> simp
  rw [this]

/-- **C137.** The corrected offset is the measured one plus the difference of the displacements of the
two stars, in the map of C90 (which has its origin in pixel 511). -/
theorem C137_displacements (m : ℕ) (xs ys : List ℚ) (x1 y1 dx dy : ℚ) (sep pa ex ey : ℝ) :
    corrOffset m (xs.map fun q : ℚ => (q : ℝ)) (ys.map fun q : ℚ => (q : ℝ))
        ⟨x1, y1, dx, dy, sep, pa, ex, ey⟩
      = (((dx + (Boresight.fitShift m xs ys (x1 + dx) (y1 + dy)).1
            - (Boresight.fitShift m xs ys x1 y1).1 : ℚ) : ℝ),
         ((dy + (Boresight.fitShift m xs ys (x1 + dx) (y1 + dy)).2
            - (Boresight.fitShift m xs ys x1 y1).2 : ℚ) : ℝ)) := by
  have e : ∀ a b : ℚ, ((a : ℝ) - 511 + b) = ((a + b - 511 : ℚ) : ℝ) := by
    intro a b; push_cast; ring
  have e' : ∀ a : ℚ, ((a : ℝ) - 511) = ((a - 511 : ℚ) : ℝ) := by
    intro a; push_cast; ring
  unfold corrOffset Boresight.fitShift
  dsimp only
  rw [e, e, e', e', ← C137_same_polynomials, ← C137_same_polynomials, ← C137_same_polynomials,
    ← C137_same_polynomials]
  ext <;> (push_cast; ring)

/-- The default initial guess (astrom.py 990-992). -/
def guess (order : ℕ) : List ℝ := (Boresight.zeroDist order).map fun q : ℚ => (q : ℝ)

theorem guess_length (order : ℕ) :
    (guess order).length = order + 2 + ((order + 1) ^ 2 - order - 2) + 2 + ((order + 1) ^ 2 - 2) := by
  unfold guess Boresight.zeroDist
  simp only [List.length_map, List.length_append, List.length_replicate, List.length_cons,
    List.length_nil]

theorem split_iff (order : ℕ) (cs : List ℝ) :
    (splitParams order cs).isSome = true ↔ cs.length = 2 * (order + 1) ^ 2 := by
  unfold splitParams
  rw [List.length_take, List.length_drop]
  split_ifs with h
  · simp only [Option.isSome_some, true_iff]
    omega
  · simp only [Option.isSome_none, Bool.false_eq_true, false_iff]
    omega

/-- **C137.** When the fit starts at all: the guess must have `2 (order+1)²` coefficients and there
must be at least `(order+1)²` pairs of stars. -/
theorem C137_starts_iff (order : ℕ) (scale rot : ℝ) (g : List ℝ) (pairs : List Pair) :
    starts order scale rot g pairs = true ↔
      g.length = 2 * (order + 1) ^ 2 ∧ (order + 1) ^ 2 ≤ pairs.length := by
  have h := split_iff order g
  unfold starts residuals
  cases hs : splitParams order g with
  | none =>
    rw [hs] at h
    simp only [Option.isSome_none, Bool.false_eq_true, false_iff] at h
    simp only [Option.map_none, Bool.false_eq_true, false_iff]
    exact fun hc => h hc.1
  | some w =>
    rw [hs] at h
    have hl := h.1 rfl
    simp only [Option.map_some, decide_eq_true_iff]
    have : (residualsOf order scale rot w.1 w.2 pairs).length = 2 * pairs.length := by
      unfold residualsOf
      rw [List.length_append, List.length_map, List.length_map]
      omega
    rw [this, hl]
    omega

/-- **C137 (partial).** With the default guess the fit starts for every order from 1 on with enough
pairs, and only then: order 0 is refused by `reshape`. -/
theorem C137_default_starts_partial (order : ℕ) (scale rot : ℝ) (pairs : List Pair) :
    starts order scale rot (guess order) pairs = true ↔
      1 ≤ order ∧ (order + 1) ^ 2 ≤ pairs.length := by
  rw [C137_starts_iff, guess_length]
  rcases Nat.eq_zero_or_pos order with rfl | h
  · simp
  · have := Boresight.sq_ge h
    constructor
    · rintro ⟨_, h2⟩; exact ⟨h, h2⟩
    · rintro ⟨_, h2⟩; exact ⟨by omega, h2⟩

theorem guess_split {order : ℕ} (h : 1 ≤ order) : ∃ xs ys : List ℚ,
    Boresight.splitParams order (Boresight.zeroDist order) = some (xs, ys) ∧
    splitParams order (guess order)
      = some (xs.map (fun q : ℚ => (q : ℝ)), ys.map fun q : ℚ => (q : ℝ)) := by
  have hb := Boresight.zeroDist_split h
  refine ⟨_, _, hb, ?_⟩
  unfold Boresight.splitParams at hb
  split_ifs at hb with hc
  have hb' := Option.some.inj hb
  rw [Prod.mk.injEq] at hb'
  rw [← hb'.1, ← hb'.2]
  unfold splitParams guess
  rw [if_pos]
  · simp only [List.map_take, List.map_drop]
  · refine ⟨?_, ?_⟩
    · rw [← List.map_take, List.length_map]; exact hc.1
    · rw [← List.map_drop, List.length_map]; exact hc.2

/-- The offset between the raw measured positions. -/
theorem guess_evalX {order : ℕ} (h : 1 ≤ order) : ∃ xs ys : List ℝ,
    splitParams order (guess order) = some (xs, ys) ∧
      ∀ x y : ℝ, evalLeg (order + 1) xs x y = x ∧ evalLeg (order + 1) ys x y = y := by
  have hs := Boresight.sq_ge h
  obtain ⟨xs, ys, h1, h2⟩ := guess_split h
  refine ⟨_, _, h2, ?_⟩
  rw [Boresight.zeroDist_split h] at h1
  have h1' := Option.some.inj h1
  have hx := (Prod.ext_iff.1 h1').1
  have hy := (Prod.ext_iff.1 h1').2
  have ex : ∀ k, (xs.map fun q : ℚ => (q : ℝ)).getD k 0 = if k = order + 1 then 500 else 0 := by
    intro k
    have : (xs.map fun q : ℚ => (q : ℝ)).getD k 0 = ((xs.getD k 0 : ℚ) : ℝ) := by
      rw [List.getD_eq_getElem?_getD, List.getD_eq_getElem?_getD, List.getElem?_map]
      cases xs[k]? <;> simp
    rw [this]
    dsimp only at hx
    rw [← hx, Boresight.xs_entry]
    split_ifs <;> norm_num
  have ey : ∀ k, (ys.map fun q : ℚ => (q : ℝ)).getD k 0 = if k = 1 then 500 else 0 := by
    intro k
    have : (ys.map fun q : ℚ => (q : ℝ)).getD k 0 = ((ys.getD k 0 : ℚ) : ℝ) := by
      rw [List.getD_eq_getElem?_getD, List.getD_eq_getElem?_getD, List.getElem?_map]
      cases ys[k]? <;> simp
    rw [this]
    dsimp only at hy
    rw [← hy, Boresight.ys_entry]
    split_ifs <;> norm_num
  intro x y
  have hm : 1 ∈ range (order + 1) := by simp; omega
  have h0 : 0 ∈ range (order + 1) := by simp
  constructor
  · unfold evalLeg
    rw [Finset.sum_eq_single_of_mem 1 hm, Finset.sum_eq_single_of_mem 0 h0]
    · rw [ex, if_pos (by omega)]
      norm_num [leg]
    · intro j hj hj0
      rw [ex, if_neg (by omega)]
      simp
    · intro i hi hi1
      apply Finset.sum_eq_zero
      intro j hj
      rw [ex, if_neg]
      · simp
      · intro he
        have hjlt := mem_range.1 hj
        rcases i with _ | _ | i
        · omega
        · exact hi1 rfl
        · have : (i + 1 + 1) * (order + 1) = i * (order + 1) + 2 * (order + 1) := by ring
          have h2 : 0 ≤ i * (order + 1) := Nat.zero_le _
          omega
  · unfold evalLeg
    rw [Finset.sum_eq_single_of_mem 0 h0, Finset.sum_eq_single_of_mem 1 hm]
    · rw [ey, if_pos (by omega)]
      norm_num [leg]
    · intro j hj hj1
      rw [ey, if_neg (by omega)]
      simp
    · intro i hi hi0
      apply Finset.sum_eq_zero
      intro j hj
      rw [ey, if_neg]
      · simp
      · intro he
        have : 1 ≤ i := by omega
        have h2 : 1 * (order + 1) ≤ i * (order + 1) := Nat.mul_le_mul_right _ this
        omega

/-- **C137.** The default guess has cost zero exactly for stars whose measured offsets are already
the expected ones (up to sign): undistorted fields are left alone. -/
theorem C137_undistorted {order : ℕ} (h : 1 ≤ order) {scale : ℝ} (hs : 0 < scale) (rot : ℝ)
    (pairs : List Pair) (hu : ∀ p ∈ pairs, Usable p) :
    ∃ rs, residuals order scale rot (guess order) pairs = some rs ∧
      (cost rs = 0 ↔ ∀ p ∈ pairs, (p.dx, p.dy) = expected scale rot p ∨
        (p.dx, p.dy) = (-(expected scale rot p).1, -(expected scale rot p).2)) := by
  obtain ⟨xs, ys, h1, h2⟩ := guess_evalX h
  refine ⟨residualsOf order scale rot xs ys pairs, by unfold residuals; rw [h1]; rfl, ?_⟩
  rw [C137_cost_iff order hs rot xs ys pairs hu]
  have hc : ∀ p, corrOffset (order + 1) xs ys p = (p.dx, p.dy) := by
    intro p
    unfold corrOffset
    dsimp only
    apply Prod.ext
    · show evalLeg _ _ _ _ - evalLeg _ _ _ _ = p.dx
      rw [(h2 _ _).1, (h2 _ _).1]; ring
    · show evalLeg _ _ _ _ - evalLeg _ _ _ _ = p.dy
      rw [(h2 _ _).2, (h2 _ _).2]; ring
  simp only [hc]

/-- Non-vacuous: a pair 10 pixels apart along y, north up. -/
def upright : Pair := ⟨511, 511, 0, 10, 218, 0, 1, 1⟩

example : Usable upright := by norm_num [Usable, upright]

example : (upright.dx, upright.dy) = expected 21.8 0 upright := by
  norm_num [upright, expected]

/-- The position angle comes out with the documented sense: from the y axis towards negative x. -/
example : expected 21.8 0 { upright with pa := 90 } = (-10, 0) := by
  have : (90 : ℝ) * (π / 180) = π / 2 := by ring
  norm_num [upright, expected, this]

/-! ## The frames of the fit -/

/-- The pairs of `format_distortion_inputs` (astrom.py 912-951): the reference of each frame with
every matched star of that frame, frame by frame; `none` is the IndexError of
`source_matches[frame_ind]`. -/
def pairsOf {R S : Type} (frames : ℕ) (matches_ : List (List S)) (refs : List R) :
    Option (List (R × S)) :=
  ((List.range frames).mapM fun i => do
    let m ← matches_[i]?
    let r ← refs[i]?
    pure (List.map (fun s => (r, s)) m)).map List.flatten

theorem mapM_isSome {α β : Type} (f : α → Option β) (l : List α) :
    (l.mapM f).isSome = true ↔ ∀ a ∈ l, (f a).isSome = true := by
  induction l with
  | nil => simp
  | cons a l ih =>
    rw [List.mapM_cons, List.forall_mem_cons, ← ih]
    cases f a with
    | none => simp
    | some b => cases l.mapM f <;> simp

/-- **C137.** The inputs can be formatted exactly when there is a table of matches and a reference
for every frame of the input dataset. -/
theorem C137_frames_iff {R S : Type} (frames : ℕ) (ms : List (List S)) (refs : List R) :
    (pairsOf frames ms refs).isSome = true ↔ frames ≤ ms.length ∧ frames ≤ refs.length := by
  unfold pairsOf
  rw [Option.isSome_map, mapM_isSome]
  have key : ∀ i, (do
      let m ← ms[i]?
      let r ← refs[i]?
      pure (List.map (fun s => (r, s)) m) : Option (List (R × S))).isSome = true ↔
        i < ms.length ∧ i < refs.length := by
    intro i
    by_cases h1 : i < ms.length
    · by_cases h2 : i < refs.length
      · simp [h1, h2]
      · simp [h1, h2]
    · simp [h1]
  simp only [key, List.mem_range]
  constructor
  · intro h
    rcases Nat.eq_zero_or_pos frames with rfl | hf
    · simp
    · have := h (frames - 1) (by omega)
      omega
  · rintro ⟨h1, h2⟩ i hi
    omega

theorem groups_length {num k : ℕ} (hk : 0 < k) : ∀ (fuel count : ℕ) (gs : List AstromSources.Group),
    count ≤ num → AstromSources.groups num k fuel count = some gs → gs.length * k < num - count + k := by
  intro fuel
  induction fuel with
  | zero => intro count gs _ h; exact absurd h (by simp [AstromSources.groups])
  | succ fuel ih =>
    intro count gs hcn h
    rw [AstromSources.groups] at h
    by_cases hc : count < num
    · rw [if_pos hc] at h
      cases hg : AstromSources.groups num k fuel (count + k) with
      | none => rw [hg] at h; simp at h
      | some gs' =>
        rw [hg] at h
        have h' := Option.some.inj h
        subst h'
        rw [List.length_cons]
        by_cases hn : count + k ≤ num
        · have := ih (count + k) gs' hn hg
          have e : (gs'.length + 1) * k = gs'.length * k + k := by ring
          omega
        · have hnil : gs' = [] := by
            cases fuel with
            | zero => simp [AstromSources.groups] at hg
            | succ f =>
              rw [AstromSources.groups, if_neg (by omega)] at hg
              exact (Option.some.inj hg).symm
          subst hnil
          simp
          omega
    · rw [if_neg hc] at h
      have h' := Option.some.inj h
      subst h'
      simp
      omega

/-- **C137, violated.** With `frames_to_combine` of two or more and two or more frames,
`find_distortion` always fails: the matches are those of the combined images, the loop runs over
the frames of the input (astrom.py 1138). -/
theorem C137_violated_combined {R S : Type} {num k : ℕ} (hn : 2 ≤ num) (hk : 2 ≤ k)
    (gs : List AstromSources.Group) (hg : AstromSources.groups num k (num + 1) 0 = some gs)
    (ms : List (List S)) (refs : List R) (hm : ms.length = gs.length) :
    pairsOf num ms refs = none := by
  have hl := groups_length (by omega) _ 0 gs (by omega) hg
  have hlt : gs.length < num := by
    by_contra hc
    push Not at hc
    have : num * k ≤ gs.length * k := Nat.mul_le_mul_right _ hc
    have h2 : num + k ≤ num * k := by
      obtain ⟨a, rfl⟩ := Nat.exists_eq_add_of_le hn
      obtain ⟨b, rfl⟩ := Nat.exists_eq_add_of_le hk
      have : (2 + a) * (2 + b) = 4 + 2 * a + 2 * b + a * b := by ring
      omega
    omega
  have := (C137_frames_iff num ms refs).not.2 (by omega)
  simpa using this

theorem mapM_some {α β : Type} (f : α → Option β) (g : α → β) (l : List α)
    (h : ∀ a ∈ l, f a = some (g a)) : l.mapM f = some (l.map g) := by
  induction l with
  | nil => rfl
  | cons a l ih =>
    rw [List.mapM_cons, h a (by simp), ih fun b hb => h b (by simp [hb])]
    rfl

/-- **C137 (partial).** Without combining, the reference of every frame is paired with each of its
matched stars, frame after frame. -/
theorem C137_pairs_partial {R S : Type} (ms : List (List S)) (refs : List R)
    (h : ms.length = refs.length) : pairsOf ms.length ms refs
      = some ((List.zipWith (fun r m => List.map (fun s => (r, s)) m) refs ms).flatten) := by
  unfold pairsOf
  rw [mapM_some _ (fun i => ((List.zipWith (fun r m => List.map (fun s => (r, s)) m) refs ms)[i]?).getD [])]
  · rw [Option.map_some]
    congr 2
    apply List.ext_getElem
    · simp [h]
    · intro i h1 h2
      rw [List.getElem_map, List.getElem_range, List.getElem?_eq_getElem h2]
      rfl
  · intro i hi
    have h1 := List.mem_range.1 hi
    have h2 : i < refs.length := by omega
    simp [h1, h2]

example : pairsOf 2 [["a", "b"], ["c"]] [0, 1] = some [(0, "a"), (0, "b"), (1, "c")] := rfl

end

end Corgi.Distortion

import Mathlib.Analysis.SpecialFunctions.Trigonometric.Arctan
import Mathlib.Analysis.SpecialFunctions.Complex.Arg
import Mathlib.Tactic.Linarith
import Mathlib.Tactic.Ring
import Mathlib.Tactic.FieldSimp
import Mathlib.Tactic.NormNum
import Mathlib.Tactic.Positivity

/-!
# Position angles and polar offsets (`/repo/corgidrp/astrom.py` 210-290, 763-801)

`angle_between` turns a pixel displacement into a position angle (degrees counter-clockwise from
north, north being +y), `seppa2dxdy` and `seppa2xy` go back, `get_polar_dist` is the distance of
two points given in polar form, and the last step of `compute_platescale_and_northangle` turns
position-angle differences into the north angle.

Simplifications: real arithmetic instead of IEEE floats; signed zeros are not distinguished.
The division `xdif/ydif` by a zero `ydif` is numpy's (`±inf`, so `arctan` is `±π/2`), which is what
the callers' numpy scalars give; `0/0` (coincident points) is NaN and modelled by `none`.
-/

namespace Corgi.Astrom

open Real

noncomputable section

/-- `np.arctan(xdif/ydif)` (astrom.py 225-234); `none` is NaN. -/
def atanRatio (dx dy : ℝ) : Option ℝ :=
  if dy = 0 then
    if dx = 0 then none else if 0 < dx then some (π / 2) else some (-(π / 2))
  else some (arctan (dx / dy))

/-- The quadrant selection of astrom.py 225-234, in radians. -/
def quadrant (dx dy r : ℝ) : ℝ :=
  if dx < 0 then
    if dy < 0 then π - r else -r
  else
    if dy < 0 then -r + π else 2 * π - r

/-- `angle_between` (astrom.py 210-236) on the pixel positions `(x, y)`. -/
def angleBetween (p q : ℝ × ℝ) : Option ℝ :=
  (atanRatio (q.1 - p.1) (q.2 - p.2)).map fun r =>
    quadrant (q.1 - p.1) (q.2 - p.2) r * 180 / π

/-- `get_polar_dist` (astrom.py 239-252). -/
def polarDist (a b : ℝ × ℝ) : ℝ :=
  sqrt (a.1 ^ 2 + b.1 ^ 2 - 2 * a.1 * b.1 * cos ((a.2 - b.2) * π / 180))

/-- `seppa2dxdy` (astrom.py 255-269). -/
def seppa2dxdy (sep pa : ℝ) : ℝ × ℝ :=
  (-sep * sin (pa * π / 180), sep * cos (pa * π / 180))

/-- `seppa2xy` (astrom.py 272-290). -/
def seppa2xy (sep pa cx cy : ℝ) : ℝ × ℝ :=
  ((seppa2dxdy sep pa).1 + cx, (seppa2dxdy sep pa).2 + cy)

/-! ## Specification -/

/-- Euclidean length. -/
def len (d : ℝ × ℝ) : ℝ := sqrt (d.1 ^ 2 + d.2 ^ 2)

/-- `pa` (degrees) is a position angle of the displacement `(dx, dy)`: counter-clockwise from +y. -/
def IsPA (pa dx dy : ℝ) : Prop :=
  dx = -(len (dx, dy)) * sin (pa * π / 180) ∧ dy = len (dx, dy) * cos (pa * π / 180)

/-! ## Proofs -/

theorem len_pos {dx dy : ℝ} (h : dx ≠ 0 ∨ dy ≠ 0) : 0 < len (dx, dy) := by
  unfold len
  apply Real.sqrt_pos.2
  rcases h with h | h
  · have := sq_pos_of_ne_zero h
    dsimp only
    positivity
  · have := sq_pos_of_ne_zero h
    dsimp only
    positivity

theorem sqrt_ratio {dx dy : ℝ} (h : dy ≠ 0) :
    sqrt (1 + (dx / dy) ^ 2) = len (dx, dy) / |dy| := by
  unfold len
  have h1 : (1 + (dx / dy) ^ 2) = (dx ^ 2 + dy ^ 2) / dy ^ 2 := by
    field_simp
    ring
  rw [h1, Real.sqrt_div (by positivity), Real.sqrt_sq_eq_abs]

/-- The quadrant selection gives a position angle: sine and cosine are right in every quadrant and
on the axes. -/
theorem quadrant_spec {dx dy r : ℝ} (h : atanRatio dx dy = some r) :
    dx = -(len (dx, dy)) * sin (quadrant dx dy r) ∧ dy = len (dx, dy) * cos (quadrant dx dy r) := by
  unfold atanRatio at h
  by_cases hy : dy = 0
  · subst hy
    rw [if_pos rfl] at h
    by_cases hx : dx = 0
    · rw [if_pos hx] at h
      cases h
    rw [if_neg hx] at h
    have hl : len (dx, 0) = |dx| := by
      simp [len, Real.sqrt_sq_eq_abs]
    rw [hl]
    by_cases hp : 0 < dx
    · rw [if_pos hp] at h
      cases h
      have : quadrant dx 0 (π / 2) = 2 * π - π / 2 := by
        simp [quadrant, not_lt.2 hp.le]
      rw [this, Real.sin_two_pi_sub, Real.cos_two_pi_sub, Real.sin_pi_div_two,
        Real.cos_pi_div_two, abs_of_pos hp]
      constructor <;> ring
    · rw [if_neg hp] at h
      cases h
      have hn : dx < 0 := lt_of_le_of_ne (not_lt.1 hp) hx
      have : quadrant dx 0 (-(π / 2)) = π / 2 := by
        simp [quadrant, hn]
      rw [this, Real.sin_pi_div_two, Real.cos_pi_div_two, abs_of_neg hn]
      constructor <;> ring
  · rw [if_neg hy] at h
    cases h
    have hl : 0 < len (dx, dy) := len_pos (Or.inr hy)
    have ha : 0 < |dy| := abs_pos.2 hy
    have hs : sin (arctan (dx / dy)) = dx / dy * (|dy| / len (dx, dy)) := by
      rw [Real.sin_arctan, sqrt_ratio hy]
      field_simp
    have hc : cos (arctan (dx / dy)) = |dy| / len (dx, dy) := by
      rw [Real.cos_arctan, sqrt_ratio hy]
      field_simp
    rcases lt_or_gt_of_ne hy with hn | hp
    · have hq : quadrant dx dy (arctan (dx / dy)) = π - arctan (dx / dy) := by
        unfold quadrant
        split_ifs <;> ring
      rw [hq, Real.sin_pi_sub, Real.cos_pi_sub, hs, hc, abs_of_neg hn]
      constructor <;> field_simp
    · by_cases hx : dx < 0
      · have hq : quadrant dx dy (arctan (dx / dy)) = -arctan (dx / dy) := by
          simp [quadrant, hx, not_lt.2 hp.le]
        rw [hq, Real.sin_neg, Real.cos_neg, hs, hc, abs_of_pos hp]
        constructor <;> field_simp
      · have hq : quadrant dx dy (arctan (dx / dy)) = 2 * π - arctan (dx / dy) := by
          simp [quadrant, hx, not_lt.2 hp.le]
        rw [hq, Real.sin_two_pi_sub, Real.cos_two_pi_sub, hs, hc, abs_of_pos hp]
        constructor <;> field_simp

theorem quadrant_range {dx dy r : ℝ} (h : atanRatio dx dy = some r) :
    0 < quadrant dx dy r ∧ quadrant dx dy r ≤ 2 * π := by
  have hpi := Real.pi_pos
  unfold atanRatio at h
  by_cases hy : dy = 0
  · subst hy
    rw [if_pos rfl] at h
    by_cases hx : dx = 0
    · rw [if_pos hx] at h
      cases h
    rw [if_neg hx] at h
    by_cases hp : 0 < dx
    · rw [if_pos hp] at h
      cases h
      simp only [quadrant, not_lt.2 hp.le, if_false, lt_irrefl]
      constructor <;> linarith
    · rw [if_neg hp] at h
      cases h
      have hn : dx < 0 := lt_of_le_of_ne (not_lt.1 hp) hx
      simp only [quadrant, hn, if_true, lt_irrefl, if_false]
      constructor <;> linarith
  · rw [if_neg hy] at h
    cases h
    have h1 := Real.neg_pi_div_two_lt_arctan (dx / dy)
    have h2 := Real.arctan_lt_pi_div_two (dx / dy)
    rcases lt_or_gt_of_ne hy with hn | hp
    · have hq : quadrant dx dy (arctan (dx / dy)) = π - arctan (dx / dy) := by
        unfold quadrant
        split_ifs <;> ring
      rw [hq]
      constructor <;> linarith
    · by_cases hx : dx < 0
      · have hq : quadrant dx dy (arctan (dx / dy)) = -arctan (dx / dy) := by
          simp [quadrant, hx, not_lt.2 hp.le]
        rw [hq]
        have : arctan (dx / dy) < 0 := by
          rw [Real.arctan_lt_zero]
          exact div_neg_of_neg_of_pos hx hp
        constructor <;> linarith
      · have hq : quadrant dx dy (arctan (dx / dy)) = 2 * π - arctan (dx / dy) := by
          simp [quadrant, hx, not_lt.2 hp.le]
        rw [hq]
        have : 0 ≤ arctan (dx / dy) := by
          rw [Real.arctan_nonneg]
          exact div_nonneg (not_lt.1 hx) hp.le
        constructor <;> linarith

/-- **C86.** For distinct points `angle_between` succeeds and is a position angle of the
displacement, counter-clockwise from north, in `(0, 360]`. -/
theorem C86_angle (p q : ℝ × ℝ) (h : p ≠ q) :
    ∃ pa, angleBetween p q = some pa ∧ IsPA pa (q.1 - p.1) (q.2 - p.2) ∧ 0 < pa ∧ pa ≤ 360 := by
  have hpi := Real.pi_pos
  have hne : ¬ (q.2 - p.2 = 0 ∧ q.1 - p.1 = 0) := by
    rintro ⟨h1, h2⟩
    exact h (Prod.ext (by linarith) (by linarith))
  obtain ⟨r, hr⟩ : ∃ r, atanRatio (q.1 - p.1) (q.2 - p.2) = some r := by
    unfold atanRatio
    split_ifs with h1 h2 h3
    · exact absurd ⟨h1, h2⟩ hne
    · exact ⟨_, rfl⟩
    · exact ⟨_, rfl⟩
    · exact ⟨_, rfl⟩
  refine ⟨_, by rw [angleBetween, hr]; rfl, ?_, ?_, ?_⟩
  · unfold IsPA
    have : quadrant (q.1 - p.1) (q.2 - p.2) r * 180 / π * π / 180
        = quadrant (q.1 - p.1) (q.2 - p.2) r := by
      field_simp
    rw [this]
    exact quadrant_spec hr
  · have := (quadrant_range hr).1
    positivity
  · have := (quadrant_range hr).2
    rw [div_le_iff₀ hpi]
    linarith

/-- Coincident points give NaN. -/
theorem C86_coincident (p : ℝ × ℝ) : angleBetween p p = none := by
  simp [angleBetween, atanRatio]

/-- **C86.** Going back with `seppa2xy` from the first point, by the distance and the angle,
lands on the second point. -/
theorem C86_round_trip (p q : ℝ × ℝ) (pa : ℝ) (h : angleBetween p q = some pa) :
    seppa2xy (len (q.1 - p.1, q.2 - p.2)) pa p.1 p.2 = q := by
  have hne : p ≠ q := by
    rintro rfl
    rw [C86_coincident] at h
    cases h
  obtain ⟨pa', h1, ⟨hx, hy⟩, -⟩ := C86_angle p q hne
  rw [h] at h1
  cases h1
  apply Prod.ext
  · show -(len (q.1 - p.1, q.2 - p.2)) * sin (pa * π / 180) + p.1 = q.1
    linarith
  · show len (q.1 - p.1, q.2 - p.2) * cos (pa * π / 180) + p.2 = q.2
    linarith

theorem len_seppa (sep pa : ℝ) (hs : 0 ≤ sep) : len (seppa2dxdy sep pa) = sep := by
  unfold len seppa2dxdy
  have : (-sep * sin (pa * π / 180)) ^ 2 + (sep * cos (pa * π / 180)) ^ 2 = sep ^ 2 := by
    have := Real.sin_sq_add_cos_sq (pa * π / 180)
    calc _ = sep ^ 2 * (sin (pa * π / 180) ^ 2 + cos (pa * π / 180) ^ 2) := by ring
      _ = _ := by rw [this, mul_one]
  rw [this, Real.sqrt_sq hs]

/-- An angle in `(0, 360]` degrees is determined by its sine and cosine. -/
theorem angle_unique {a b : ℝ} (ha : 0 < a ∧ a ≤ 360) (hb : 0 < b ∧ b ≤ 360)
    (hs : sin (a * π / 180) = sin (b * π / 180)) (hc : cos (a * π / 180) = cos (b * π / 180)) :
    a = b := by
  have hpi := Real.pi_pos
  have h1 : cos ((a * π / 180) - (b * π / 180)) = 1 := by
    rw [Real.cos_sub, hs, hc]
    have := Real.sin_sq_add_cos_sq (b * π / 180)
    nlinarith
  rw [Real.cos_eq_one_iff] at h1
  obtain ⟨n, hn⟩ := h1
  have h2 : (n : ℝ) * 360 = a - b := by
    have : (n : ℝ) * (2 * π) * (180 / π) = (a * π / 180 - b * π / 180) * (180 / π) := by rw [hn]
    field_simp at this
    linarith
  have h3 : (n : ℝ) < 1 := by
    by_contra hh
    have : (1 : ℝ) ≤ n := not_lt.1 hh
    linarith [ha.2, hb.1]
  have h4 : (-1 : ℝ) < n := by
    by_contra hh
    have : (n : ℝ) ≤ -1 := not_lt.1 hh
    linarith [ha.1, hb.2]
  have h5 : n < 1 := by exact_mod_cast h3
  have h6 : -1 < n := by exact_mod_cast h4
  have h7 : n = 0 := by omega
  subst h7
  simp at h2
  linarith

/-- **C86.** The other way round: a polar offset of positive separation and angle in `(0, 360]` is
recovered exactly by `angle_between`. -/
theorem C86_inverse (sep pa cx cy : ℝ) (hs : 0 < sep) (hp : 0 < pa ∧ pa ≤ 360) :
    angleBetween (cx, cy) (seppa2xy sep pa cx cy) = some pa := by
  have hd : seppa2xy sep pa cx cy
      = ((seppa2dxdy sep pa).1 + cx, (seppa2dxdy sep pa).2 + cy) := rfl
  have hne : ((cx, cy) : ℝ × ℝ) ≠ seppa2xy sep pa cx cy := by
    intro h
    have hl := len_seppa sep pa hs.le
    rw [hd] at h
    have h1 := congrArg Prod.fst h
    have h2 := congrArg Prod.snd h
    simp only at h1 h2
    have e1 : (seppa2dxdy sep pa).1 = 0 := by linarith
    have e2 : (seppa2dxdy sep pa).2 = 0 := by linarith
    rw [len, e1, e2] at hl
    norm_num at hl
    linarith
  obtain ⟨pa', h1, ⟨hx, hy⟩, h3, h4⟩ := C86_angle _ _ hne
  rw [h1]
  have hx1 : (seppa2xy sep pa cx cy).1 - cx = (seppa2dxdy sep pa).1 := by rw [hd]; ring
  have hy1 : (seppa2xy sep pa cx cy).2 - cy = (seppa2dxdy sep pa).2 := by rw [hd]; ring
  simp only [hx1, hy1] at hx hy
  have hl : len ((seppa2dxdy sep pa).1, (seppa2dxdy sep pa).2) = sep := len_seppa sep pa hs.le
  rw [hl] at hx hy
  congr 1
  apply angle_unique ⟨h3, h4⟩ hp
  · have : -sep * sin (pa * π / 180) = -sep * sin (pa' * π / 180) := hx
    exact (mul_left_cancel₀ (by linarith : -sep ≠ 0) this).symm
  · have : sep * cos (pa * π / 180) = sep * cos (pa' * π / 180) := hy
    exact (mul_left_cancel₀ (by linarith : sep ≠ 0) this).symm

/-- **C86.** `get_polar_dist` is the Euclidean distance between the two points. -/
theorem C86_distance (s₁ p₁ s₂ p₂ : ℝ) :
    polarDist (s₁, p₁) (s₂, p₂)
      = len ((seppa2dxdy s₁ p₁).1 - (seppa2dxdy s₂ p₂).1,
             (seppa2dxdy s₁ p₁).2 - (seppa2dxdy s₂ p₂).2) := by
  unfold polarDist len seppa2dxdy
  dsimp only
  congr 1
  have e : (p₁ - p₂) * π / 180 = p₁ * π / 180 - p₂ * π / 180 := by ring
  rw [e, Real.cos_sub]
  have h1 := Real.sin_sq_add_cos_sq (p₁ * π / 180)
  have h2 := Real.sin_sq_add_cos_sq (p₂ * π / 180)
  linear_combination s₁ ^ 2 * (-1) * h1 - s₂ ^ 2 * h2

/-- Due north is reported as 360, not 0. -/
theorem C86_north (p : ℝ × ℝ) (d : ℝ) (hd : 0 < d) :
    angleBetween p (p.1, p.2 + d) = some 360 := by
  have hpi := Real.pi_pos
  have h1 : p.2 + d - p.2 = d := by ring
  simp only [angleBetween, atanRatio, sub_self, h1, hd.ne', if_false, zero_div, Real.arctan_zero,
    Option.map_some, quadrant, lt_irrefl, not_lt.2 hd.le]
  congr 1
  field_simp
  ring

/-- East (to the left, -x) is at 90 degrees. -/
theorem C86_east (p : ℝ × ℝ) (d : ℝ) (hd : 0 < d) :
    angleBetween p (p.1 - d, p.2) = some 90 := by
  have hpi := Real.pi_pos
  have h1 : p.1 - d - p.1 = -d := by ring
  have h2 : ¬ (0 < -d) := by linarith
  have h3 : -d ≠ 0 := by linarith
  have h4 : -d < 0 := by linarith
  simp only [angleBetween, atanRatio, sub_self, h1, h2, h3, if_false, if_true,
    Option.map_some, quadrant, lt_irrefl, h4]
  congr 1
  field_simp
  ring

example : angleBetween (0, 0) (0, 1) = some 360 := by simpa using C86_north (0, 0) 1 one_pos
example : angleBetween (3, 4) (2, 4) = some 90 := by
  have := C86_east (3, 4) 1 one_pos
  norm_num at this
  exact this

/-! ## North angle (astrom.py 776-800) -/

/-- `np.degrees(np.arctan(sin d / cos d))` with `d` the sky angle minus the pixel angle
(astrom.py 785-787). -/
def northOffset (sky pix : ℝ) : ℝ :=
  arctan (sin ((sky - pix) * π / 180) / cos ((sky - pix) * π / 180)) * 180 / π

/-- `np.mean` of the offsets (astrom.py 776-800); the star equal to the pointing target is left
out beforehand. -/
def northAngle (pairs : List (ℝ × ℝ)) : ℝ :=
  (pairs.map fun sp => northOffset sp.1 sp.2).sum / pairs.length

theorem northOffset_period (sky pix : ℝ) (k : ℤ) :
    northOffset (sky + 180 * k) pix = northOffset sky pix := by
  unfold northOffset
  have e : (sky + 180 * k - pix) * π / 180 = (sky - pix) * π / 180 + k * π := by ring
  rw [e, ← Real.tan_eq_sin_div_cos, ← Real.tan_eq_sin_div_cos, Real.tan_add_int_mul_pi]

/-- **C87 (partial).** A difference of position angles within 90 degrees of zero, up to whole
turns, is recovered exactly. -/
theorem C87_small_partial (θ pix : ℝ) (k : ℤ) (h : -90 < θ ∧ θ < 90) :
    northOffset (pix + θ + 360 * k) pix = θ := by
  have hpi := Real.pi_pos
  have e : pix + θ + 360 * (k : ℝ) = (pix + θ) + 180 * ((2 * k : ℤ) : ℝ) := by
    push_cast
    ring
  rw [e, northOffset_period]
  unfold northOffset
  have e2 : (pix + θ - pix) * π / 180 = θ * π / 180 := by ring
  rw [e2, ← Real.tan_eq_sin_div_cos, Real.arctan_tan]
  · field_simp
  · rw [lt_div_iff₀ (by norm_num)]
    nlinarith [h.1]
  · rw [div_lt_iff₀ (by norm_num)]
    nlinarith [h.2]

theorem sum_map_const {α : Type} (l : List α) (f : α → ℝ) (c : ℝ) (h : ∀ a ∈ l, f a = c) :
    (l.map f).sum = l.length * c := by
  induction l with
  | nil => simp
  | cons a l ih =>
    rw [List.map_cons, List.sum_cons, h a (by simp), ih fun b hb => h b (by simp [hb])]
    push_cast [List.length_cons]
    ring

/-- **C87 (partial).** If every star's sky angle is its pixel angle rotated by the same
`θ` in `(-90, 90)`, the north angle is `θ`. -/
theorem C87_mean_partial (pairs : List (ℝ × ℝ)) (θ : ℝ) (h : -90 < θ ∧ θ < 90) (hne : pairs ≠ [])
    (hp : ∀ sp ∈ pairs, ∃ k : ℤ, sp.1 = sp.2 + θ + 360 * k) : northAngle pairs = θ := by
  unfold northAngle
  rw [sum_map_const pairs _ θ]
  · have : (pairs.length : ℝ) ≠ 0 := by
      simpa using hne
    field_simp
  · intro sp hsp
    obtain ⟨k, hk⟩ := hp sp hsp
    rw [hk]
    exact C87_small_partial θ sp.2 k h

/-- **C87, violated.** For every rotation beyond 90 degrees the reported angle is off by exactly
180 degrees: the quotient of sine and cosine forgets the half turn. -/
theorem C87_violated_half_turn (pairs : List (ℝ × ℝ)) (θ : ℝ) (h : 90 < θ ∧ θ < 270)
    (hne : pairs ≠ []) (hp : ∀ sp ∈ pairs, ∃ k : ℤ, sp.1 = sp.2 + θ + 360 * k) :
    northAngle pairs = θ - 180 := by
  unfold northAngle
  rw [sum_map_const pairs _ (θ - 180)]
  · have : (pairs.length : ℝ) ≠ 0 := by
      simpa using hne
    field_simp
  · intro sp hsp
    obtain ⟨k, hk⟩ := hp sp hsp
    rw [hk]
    have e : sp.2 + θ + 360 * (k : ℝ) = (sp.2 + (θ - 180) + 360 * k) + 180 * ((1 : ℤ) : ℝ) := by
      push_cast
      ring
    simp only [e, northOffset_period]
    exact C87_small_partial (θ - 180) sp.2 k ⟨by linarith, by linarith⟩

/-- **C87, violated.** The mean is taken across the branch cut: two stars whose rotations are
89 and 91 degrees average to 0 instead of 90. -/
theorem C87_violated_average : northAngle [(89, 0), (91, 0)] = 0 := by
  have h1 : northOffset 89 0 = 89 := by
    have := C87_small_partial 89 0 0 ⟨by norm_num, by norm_num⟩
    simpa using this
  have h2 : northOffset 91 0 = -89 := by
    have := C87_small_partial (-89) 0 0 ⟨by norm_num, by norm_num⟩
    have e : (91 : ℝ) = (0 + -89 + 360 * ((0 : ℤ) : ℝ)) + 180 * ((1 : ℤ) : ℝ) := by
      push_cast; norm_num
    rw [e, northOffset_period]
    exact this
  simp [northAngle, h1, h2]

example : northAngle [(200, 20), (250, 70)] = 0 := by
  have := C87_violated_half_turn [(200, 20), (250, 70)] 180 ⟨by norm_num, by norm_num⟩ (by simp)
    (by
      intro sp hsp
      simp at hsp
      rcases hsp with rfl | rfl
      · exact ⟨0, by norm_num⟩
      · exact ⟨0, by norm_num⟩)
  rw [this]; norm_num

/-- The reference point of the pixel angles, `((shape[0]-1)//2, (shape[1]-1)//2)` used as `(x, y)`
(astrom.py 772): row and column sizes are swapped. -/
def refPoint (rows cols : ℕ) : ℕ × ℕ := ((rows - 1) / 2, (cols - 1) / 2)

/-- The target position of the same routine's caller, `x` from the columns, `y` from the rows
(astrom.py 1103-1104). -/
def targetPoint (rows cols : ℕ) : ℕ × ℕ := ((cols - 1) / 2, (rows - 1) / 2)

/-- **C87.** On square images the reference point is the assumed target position. -/
theorem C87_square (n : ℕ) : refPoint n n = targetPoint n n := rfl

/-- **C87, violated.** Off the square they agree only if the halves coincide. -/
theorem C87_violated_rectangular (rows cols : ℕ) :
    refPoint rows cols = targetPoint rows cols ↔ (rows - 1) / 2 = (cols - 1) / 2 := by
  unfold refPoint targetPoint
  constructor
  · intro h
    exact congrArg Prod.fst h
  · intro h
    rw [h]

example : refPoint 512 1024 = (255, 511) ∧ targetPoint 512 1024 = (511, 255) := by
  decide +kernel

/-! ## First guess of the north angle (astrom.py 505-511) -/

/-- `np.abs(np.mean(rot_field - rot_image))`. -/
def initialNorth (pairs : List (ℝ × ℝ)) : ℝ :=
  |(pairs.map fun fi => fi.1 - fi.2).sum / pairs.length|

/-- **C87 (partial).** Without wrap-around and with a non-negative rotation the first guess is the
rotation. -/
theorem C87_guess_partial (pairs : List (ℝ × ℝ)) (θ : ℝ) (h : 0 ≤ θ) (hne : pairs ≠ [])
    (hp : ∀ p ∈ pairs, p.1 = p.2 + θ) : initialNorth pairs = θ := by
  unfold initialNorth
  rw [sum_map_const pairs _ θ]
  · have : (pairs.length : ℝ) ≠ 0 := by
      simpa using hne
    rw [mul_div_cancel_left₀ _ this, abs_of_nonneg h]
  · intro p hpm
    have := hp p hpm
    linarith

/-- **C87, violated.** For a negative rotation the first guess has the opposite sign. -/
theorem C87_violated_sign (pairs : List (ℝ × ℝ)) (θ : ℝ) (h : θ < 0) (hne : pairs ≠ [])
    (hp : ∀ p ∈ pairs, p.1 = p.2 + θ) : initialNorth pairs = -θ := by
  unfold initialNorth
  rw [sum_map_const pairs _ θ]
  · have : (pairs.length : ℝ) ≠ 0 := by
      simpa using hne
    rw [mul_div_cancel_left₀ _ this, abs_of_neg h]
  · intro p hpm
    have := hp p hpm
    linarith

/-- **C87, violated.** One star of three whose angle wraps past 360 shifts the guess by 120
degrees. -/
theorem C87_violated_wrap :
    initialNorth [(10, 355), (40, 25), (70, 55)] = 105 := by
  norm_num [initialNorth]

end

end Corgi.Astrom

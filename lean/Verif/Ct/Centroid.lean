import Verif.Common.ArgMin
import Verif.Common.Round
import Verif.Common.Except
import Mathlib.Algebra.BigOperators.Intervals
import Mathlib.Algebra.Order.BigOperators.Group.Finset
import Mathlib.Algebra.BigOperators.Field
import Mathlib.Algebra.Order.Field.Rat
import Mathlib.Order.WithBot
import Mathlib.Data.Int.Interval
import Mathlib.Order.Interval.Finset.Basic
import Mathlib.Tactic.Linarith
import Mathlib.Tactic.FieldSimp
import Mathlib.Tactic.Ring
import Mathlib.Tactic.NormNum

/-!
# Flux-weighted centroid in a region of interest

`/repo/corgidrp/astrom.py:38-81` (`centroid_with_roi`), used by `corethroughput.get_psf_pix`, the ND filter calibration and the
on-sky flat.  Pixels are `Option ℚ` (`none` is NaN); floating point rounding is not modelled.
-/

namespace Corgi.Centroid

/-- A 2-d array: shape and pixels (only pixels inside the shape are ever read). -/
structure Frame where
  h : ℕ
  w : ℕ
  px : ℤ → ℤ → Option ℚ

/-- `roi_radius` is documented as "int or float". -/
inductive Radius
  | int (n : ℤ)
  | float (q : ℚ)

inductive Err
  | value
  | type
  deriving DecidableEq

/-- The frame in row-major order (`np.nanargmax` works on the flattened array). -/
def flat (f : Frame) : List (Option ℚ) := (List.range (f.h * f.w)).map fun k => f.px (k / f.w : ℕ) (k % f.w : ℕ)

/-- `nanargmax` replaces NaN by −∞. -/
def toBot : Option ℚ → WithBot ℚ
  | none => ⊥
  | some v => v

/-- The peak `(peak_x, peak_y)` (lines 55-58): the rounded guess, or the first brightest pixel (`nanargmax` raises a
ValueError if there are only NaN). -/
def peak (f : Frame) (guess : Option (ℚ × ℚ)) : Except Err (ℤ × ℤ) :=
  match guess with
  | some g => .ok (npRound g.1, npRound g.2)
  | none =>
    if (flat f).all (fun p => p.isNone) then .error .value
    else match argmax ((flat f).map toBot) with
      | none => .error .value
      | some k => .ok ((k % f.w : ℕ), (k / f.w : ℕ))

/-- `max(0, peak - roi_radius)` used as a slice bound (lines 61, 63): a float bound is a TypeError. -/
def lo (r : Radius) (p : ℤ) : Except Err ℤ :=
  match r with
  | .int n => .ok (max 0 (p - n))
  | .float q => if 0 < (p : ℚ) - q then .error .type else .ok 0

/-- `min(size, peak + roi_radius + 1)` used as a slice bound (lines 62, 64). -/
def hi (r : Radius) (size : ℕ) (p : ℤ) : Except Err ℤ :=
  match r with
  | .int n => .ok (min size (p + n + 1))
  | .float q => if (p : ℚ) + q + 1 < size then .error .type else .ok size

/-- The upper bound of a Python slice of an axis of `size` elements: a negative bound counts from the end. -/
def stop (size : ℕ) (b : ℤ) : ℤ := if b < 0 then max 0 (b + size) else min b size

/-- Flux and first moments of the finite image `g` over a box. -/
def flux (g : ℤ → ℤ → ℚ) (ys xs : Finset ℤ) : ℚ := ∑ y ∈ ys, ∑ x ∈ xs, g y x
def momX (g : ℤ → ℤ → ℚ) (ys xs : Finset ℤ) : ℚ := ∑ y ∈ ys, ∑ x ∈ xs, (x : ℚ) * g y x
def momY (g : ℤ → ℤ → ℚ) (ys xs : Finset ℤ) : ℚ := ∑ y ∈ ys, ∑ x ∈ xs, (y : ℚ) * g y x

/-- Lines 69-81 on the sub-frame: a NaN pixel makes the result NaN (`none`); zero flux returns the peak. -/
def weigh (px : ℤ → ℤ → Option ℚ) (ys xs : Finset ℤ) (pk : ℤ × ℤ) : Option (ℚ × ℚ) :=
  if ∃ y ∈ ys, ∃ x ∈ xs, px y x = none then none
  else
    let g := fun y x => (px y x).getD 0
    if flux g ys xs = 0 then some (pk.1, pk.2)
    else some (momX g ys xs / flux g ys xs, momY g ys xs / flux g ys xs)

/-- `centroid_with_roi`; the result is `(xcen, ycen)`. -/
def centroid (f : Frame) (r : Radius) (guess : Option (ℚ × ℚ)) : Except Err (Option (ℚ × ℚ)) := do
  let pk ← peak f guess
  let y0 ← lo r pk.2
  let y1 ← hi r f.h pk.2
  let x0 ← lo r pk.1
  let x1 ← hi r f.w pk.1
  pure (weigh f.px (Finset.Ico y0 (stop f.h y1)) (Finset.Ico x0 (stop f.w x1)) pk)

/-! ## The peak -/

/-- C79: without a guess the peak is a pixel of the frame, not NaN, and no other pixel is brighter. -/
theorem C79_peak {f : Frame} {p : ℤ × ℤ} (h : peak f none = .ok p) :
    (0 ≤ p.1 ∧ p.1 < f.w) ∧ (0 ≤ p.2 ∧ p.2 < f.h) ∧
      ∃ m, f.px p.2 p.1 = some m ∧ ∀ x y : ℕ, x < f.w → y < f.h → ∀ v, f.px y x = some v → v ≤ m := by
  unfold peak at h
  dsimp only at h
  split_ifs at h with hall
  split at h
  · simp at h
  · rename_i k hk
    simp only [Except.ok.injEq] at h
    subst h
    obtain ⟨m, hm, hle, -⟩ := argmax_isFirstMax hk
    obtain ⟨hkl, hkv⟩ := List.getElem?_eq_some_iff.1 hm
    have hkn : k < f.h * f.w := by simpa [flat] using hkl
    have hw : 0 < f.w := by
      rcases Nat.eq_zero_or_pos f.w with h0 | h0
      · rw [h0] at hkn; simp at hkn
      · exact h0
    have hkv' : toBot (f.px (k / f.w : ℕ) (k % f.w : ℕ)) = m := by simpa [flat] using hkv
    have hlw : k % f.w < f.w := Nat.mod_lt _ hw
    have hlh : k / f.w < f.h := by rw [Nat.div_lt_iff_lt_mul hw]; exact hkn
    refine ⟨⟨Int.natCast_nonneg _, Int.ofNat_lt.2 hlw⟩, ⟨Int.natCast_nonneg _, Int.ofNat_lt.2 hlh⟩, ?_⟩
    have hmem : ∀ x y : ℕ, x < f.w → y < f.h → f.px y x ∈ flat f := by
      intro x y hx hy
      unfold flat
      refine List.mem_map.2 ⟨y * f.w + x, List.mem_range.2 ?_, ?_⟩
      · calc y * f.w + x < y * f.w + f.w := by omega
          _ = (y + 1) * f.w := by ring
          _ ≤ f.h * f.w := Nat.mul_le_mul_right _ hy
      · have e1 : (y * f.w + x) / f.w = y := by
          rw [Nat.mul_comm, Nat.mul_add_div hw, Nat.div_eq_of_lt hx, Nat.add_zero]
        have e2 : (y * f.w + x) % f.w = x := by
          rw [Nat.mul_comm, Nat.mul_add_mod, Nat.mod_eq_of_lt hx]
        rw [e1, e2]
    dsimp only
    cases hv : f.px (k / f.w : ℕ) (k % f.w : ℕ) with
    | none =>
      exfalso
      apply hall
      rw [List.all_eq_true]
      intro p hp
      have := hle _ (List.mem_map_of_mem hp)
      rw [← hkv', hv] at this
      cases p with
      | none => rfl
      | some v => exact absurd this (WithBot.not_coe_le_bot v)
    | some m' =>
      refine ⟨m', rfl, ?_⟩
      intro x y hx hy v hv'
      have := hle _ (List.mem_map_of_mem (hmem x y hx hy))
      rw [hv', ← hkv', hv] at this
      exact WithBot.coe_le_coe.1 this

/-! ## Bounds -/

theorem weighted_bounds {ι : Type} {s : Finset ι} {c wt : ι → ℚ} {a b : ℚ} (h0 : ∀ i ∈ s, 0 ≤ wt i)
    (hab : ∀ i ∈ s, a ≤ c i ∧ c i ≤ b) (hs : ∑ i ∈ s, wt i ≠ 0) :
    a ≤ (∑ i ∈ s, c i * wt i) / ∑ i ∈ s, wt i ∧ (∑ i ∈ s, c i * wt i) / ∑ i ∈ s, wt i ≤ b := by
  have hp : 0 < ∑ i ∈ s, wt i := lt_of_le_of_ne (Finset.sum_nonneg h0) (Ne.symm hs)
  rw [le_div_iff₀ hp, div_le_iff₀ hp, Finset.mul_sum, Finset.mul_sum]
  exact ⟨Finset.sum_le_sum fun i hi => mul_le_mul_of_nonneg_right (hab i hi).1 (h0 i hi),
    Finset.sum_le_sum fun i hi => mul_le_mul_of_nonneg_right (hab i hi).2 (h0 i hi)⟩

/-- The part of an axis seen by the region of interest: within `n` of the peak and inside the frame. -/
def seen (size : ℕ) (p n : ℤ) : Finset ℤ := Finset.Ico (max 0 (p - n)) (min size (p + n + 1))

theorem ico_eq_seen {size : ℕ} {p n : ℤ} (h : 0 ≤ p + n + 1) :
    Finset.Ico (max 0 (p - n)) (stop size (min size (p + n + 1))) = seen size p n := by
  unfold stop seen
  have : ¬ min (size : ℤ) (p + n + 1) < 0 := by simp [h]
  rw [if_neg this]
  congr 1
  omega

/-- What `centroid_with_roi` computes for an integer radius and a peak that is not left of / above the frame by more than the
radius. -/
theorem centroid_int {f : Frame} {n : ℤ} {guess : Option (ℚ × ℚ)} {pk : ℤ × ℤ} (hp : peak f guess = .ok pk)
    (hx : 0 ≤ pk.1 + n + 1) (hy : 0 ≤ pk.2 + n + 1) :
    centroid f (.int n) guess = .ok (weigh f.px (seen f.h pk.2 n) (seen f.w pk.1 n) pk) := by
  unfold centroid
  rw [hp]
  simp only [lo, hi, bind, Except.bind, pure, Except.pure]
  rw [ico_eq_seen hx, ico_eq_seen hy]

/-- C79: a whole-pixel guess `(x, y)` inside the frame puts the region of interest on column `x` and row `y`. -/
theorem C79_guess {f : Frame} {n : ℤ} {x y : ℤ} (hn : 0 ≤ n) (hx : 0 ≤ x) (hy : 0 ≤ y) :
    centroid f (.int n) (some ((x : ℚ), (y : ℚ))) = .ok (weigh f.px (seen f.h y n) (seen f.w x n) (x, y)) := by
  have hp : peak f (some ((x : ℚ), (y : ℚ))) = .ok (x, y) := by
    simp only [peak, npRound_int]
  have h1 : 0 ≤ ((x, y) : ℤ × ℤ).1 + n + 1 := by
    show 0 ≤ x + n + 1
    omega
  have h2 : 0 ≤ ((x, y) : ℤ × ℤ).2 + n + 1 := by
    show 0 ≤ y + n + 1
    omega
  rw [centroid_int hp h1 h2]

theorem flux_prod (g : ℤ → ℤ → ℚ) (ys xs : Finset ℤ) : flux g ys xs = ∑ i ∈ ys ×ˢ xs, g i.1 i.2 := by
  rw [Finset.sum_product]; rfl

theorem momX_prod (g : ℤ → ℤ → ℚ) (ys xs : Finset ℤ) : momX g ys xs = ∑ i ∈ ys ×ˢ xs, (i.2 : ℚ) * g i.1 i.2 := by
  rw [Finset.sum_product]; rfl

theorem momY_prod (g : ℤ → ℤ → ℚ) (ys xs : Finset ℤ) : momY g ys xs = ∑ i ∈ ys ×ˢ xs, (i.1 : ℚ) * g i.1 i.2 := by
  rw [Finset.sum_product]; rfl

/-- C79: if no pixel of the region is negative, the centroid is inside the frame and within the radius of the peak. -/
theorem C79_in_box_partial {f : Frame} {n : ℤ} {guess : Option (ℚ × ℚ)} {pk : ℤ × ℤ} {c : ℚ × ℚ} (hp : peak f guess = .ok pk)
    (hn : 0 ≤ n) (hx : 0 ≤ pk.1 ∧ pk.1 < f.w) (hy : 0 ≤ pk.2 ∧ pk.2 < f.h)
    (hpos : ∀ y ∈ seen f.h pk.2 n, ∀ x ∈ seen f.w pk.1 n, ∀ v, f.px y x = some v → 0 ≤ v)
    (h : centroid f (.int n) guess = .ok (some c)) :
    (pk.1 - n : ℚ) ≤ c.1 ∧ c.1 ≤ pk.1 + n ∧ (pk.2 - n : ℚ) ≤ c.2 ∧ c.2 ≤ pk.2 + n ∧
      0 ≤ c.1 ∧ c.1 ≤ f.w - 1 ∧ 0 ≤ c.2 ∧ c.2 ≤ f.h - 1 := by
  rw [centroid_int hp (by omega) (by omega)] at h
  have hcast : ∀ {size : ℕ} {p x : ℤ}, x ∈ seen size p n →
      (p - n : ℚ) ≤ x ∧ (x : ℚ) ≤ p + n ∧ (0 : ℚ) ≤ x ∧ (x : ℚ) ≤ size - 1 := by
    intro size p x hx
    simp only [seen, Finset.mem_Ico] at hx
    have h1 : p - n ≤ x := by omega
    have h2 : x ≤ p + n := by omega
    have h3 : 0 ≤ x := by omega
    have h4 : x ≤ size - 1 := by omega
    refine ⟨by exact_mod_cast h1, by exact_mod_cast h2, by exact_mod_cast h3, by exact_mod_cast h4⟩
  have hpkx : pk.1 ∈ seen f.w pk.1 n := by simp only [seen, Finset.mem_Ico]; omega
  have hpky : pk.2 ∈ seen f.h pk.2 n := by simp only [seen, Finset.mem_Ico]; omega
  simp only [Except.ok.injEq] at h
  unfold weigh at h
  split_ifs at h with hnan
  dsimp only at h
  split_ifs at h with h0
  · simp only [Option.some.injEq] at h
    subst h
    have a := hcast hpkx
    have b := hcast hpky
    dsimp only
    exact ⟨a.1, a.2.1, b.1, b.2.1, a.2.2.1, a.2.2.2, b.2.2.1, b.2.2.2⟩
  · simp only [Option.some.injEq] at h
    subst h
    dsimp only
    rw [flux_prod] at h0
    rw [flux_prod, momX_prod, momY_prod]
    have hw : ∀ i ∈ seen f.h pk.2 n ×ˢ seen f.w pk.1 n, 0 ≤ (f.px i.1 i.2).getD 0 := by
      intro i hi
      rw [Finset.mem_product] at hi
      cases hv : f.px i.1 i.2 with
      | none => simp
      | some v => simpa using hpos _ hi.1 _ hi.2 v hv
    have kx := fun (a b : ℚ) hab => weighted_bounds (a := a) (b := b) (c := fun i : ℤ × ℤ => (i.2 : ℚ)) hw hab h0
    have ky := fun (a b : ℚ) hab => weighted_bounds (a := a) (b := b) (c := fun i : ℤ × ℤ => (i.1 : ℚ)) hw hab h0
    have x1 := kx (pk.1 - n) (pk.1 + n) (fun i hi => ⟨(hcast (Finset.mem_product.1 hi).2).1, (hcast (Finset.mem_product.1 hi).2).2.1⟩)
    have x2 := kx 0 (f.w - 1) (fun i hi => ⟨(hcast (Finset.mem_product.1 hi).2).2.2.1, (hcast (Finset.mem_product.1 hi).2).2.2.2⟩)
    have y1 := ky (pk.2 - n) (pk.2 + n) (fun i hi => ⟨(hcast (Finset.mem_product.1 hi).1).1, (hcast (Finset.mem_product.1 hi).1).2.1⟩)
    have y2 := ky 0 (f.h - 1) (fun i hi => ⟨(hcast (Finset.mem_product.1 hi).1).2.2.1, (hcast (Finset.mem_product.1 hi).1).2.2.2⟩)
    exact ⟨x1.1, x1.2, y1.1, y1.2, x2.1, x2.2, y2.1, y2.2⟩

/-! ## Accuracy -/

/-- A region that fits into the frame. -/
def Inside (f : Frame) (pk : ℤ × ℤ) (n : ℤ) : Prop := (n ≤ pk.1 ∧ pk.1 + n < f.w) ∧ (n ≤ pk.2 ∧ pk.2 + n < f.h)

theorem seen_inside {size : ℕ} {p n : ℤ} (h1 : n ≤ p) (h2 : p + n < size) : seen size p n = Finset.Icc (p - n) (p + n) := by
  ext z
  simp only [seen, Finset.mem_Ico, Finset.mem_Icc]
  omega

theorem sum_reflect (p n : ℤ) (g : ℤ → ℚ) : ∑ x ∈ Finset.Icc (p - n) (p + n), g (2 * p - x) = ∑ x ∈ Finset.Icc (p - n) (p + n), g x := by
  refine Finset.sum_nbij' (fun x => 2 * p - x) (fun x => 2 * p - x) ?_ ?_ ?_ ?_ ?_
  · intro x hx; simp only [Finset.mem_Icc] at *; omega
  · intro x hx; simp only [Finset.mem_Icc] at *; omega
  · intro x _; omega
  · intro x _; omega
  · intro x _; rfl

/-- C79: a spot that is point-symmetric about the peak pixel is centred exactly on the peak pixel. -/
theorem C79_symmetric_partial {f : Frame} {n : ℤ} {guess : Option (ℚ × ℚ)} {pk : ℤ × ℤ} (hp : peak f guess = .ok pk)
    (hn : 0 ≤ n) (hin : Inside f pk n) {g : ℤ → ℤ → ℚ}
    (hg : ∀ y ∈ Finset.Icc (pk.2 - n) (pk.2 + n), ∀ x ∈ Finset.Icc (pk.1 - n) (pk.1 + n), f.px y x = some (g y x))
    (hsym : ∀ y x, g (2 * pk.2 - y) (2 * pk.1 - x) = g y x) :
    centroid f (.int n) guess = .ok (some (pk.1, pk.2)) := by
  obtain ⟨⟨h1, h2⟩, h3, h4⟩ := hin
  rw [centroid_int hp (by omega) (by omega), seen_inside h1 h2, seen_inside h3 h4]
  set ys := Finset.Icc (pk.2 - n) (pk.2 + n) with hys
  set xs := Finset.Icc (pk.1 - n) (pk.1 + n) with hxs
  have refl2 : ∀ G : ℤ → ℤ → ℚ, ∑ y ∈ ys, ∑ x ∈ xs, G (2 * pk.2 - y) (2 * pk.1 - x) = ∑ y ∈ ys, ∑ x ∈ xs, G y x := by
    intro G
    rw [hys, sum_reflect pk.2 n (fun y => ∑ x ∈ xs, G y (2 * pk.1 - x))]
    refine Finset.sum_congr rfl fun y _ => ?_
    rw [hxs, sum_reflect pk.1 n (fun x => G y x)]
  unfold weigh
  have hnan : ¬ ∃ y ∈ ys, ∃ x ∈ xs, f.px y x = none := by
    rintro ⟨y, hy, x, hx, h⟩
    rw [hg y hy x hx] at h
    simp at h
  rw [if_neg hnan]
  dsimp only
  have ef : flux (fun y x => (f.px y x).getD 0) ys xs = flux g ys xs := by
    refine Finset.sum_congr rfl fun y hy => Finset.sum_congr rfl fun x hx => ?_
    simp only [hg y hy x hx, Option.getD_some]
  have ex : momX (fun y x => (f.px y x).getD 0) ys xs = momX g ys xs := by
    refine Finset.sum_congr rfl fun y hy => Finset.sum_congr rfl fun x hx => ?_
    simp only [hg y hy x hx, Option.getD_some]
  have ey : momY (fun y x => (f.px y x).getD 0) ys xs = momY g ys xs := by
    refine Finset.sum_congr rfl fun y hy => Finset.sum_congr rfl fun x hx => ?_
    simp only [hg y hy x hx, Option.getD_some]
  rw [ef, ex, ey]
  split_ifs with h0
  · rfl
  · have kx : momX g ys xs = pk.1 * flux g ys xs := by
      have h := refl2 fun y x => (x : ℚ) * g y x
      have e : ∑ y ∈ ys, ∑ x ∈ xs, ((2 * pk.1 - x : ℤ) : ℚ) * g (2 * pk.2 - y) (2 * pk.1 - x) =
          2 * pk.1 * flux g ys xs - momX g ys xs := by
        unfold flux momX
        rw [Finset.mul_sum, ← Finset.sum_sub_distrib]
        refine Finset.sum_congr rfl fun y _ => ?_
        rw [Finset.mul_sum, ← Finset.sum_sub_distrib]
        refine Finset.sum_congr rfl fun x _ => ?_
        rw [hsym]
        push_cast
        ring
      rw [e] at h
      unfold momX at *
      linarith
    have ky : momY g ys xs = pk.2 * flux g ys xs := by
      have h := refl2 fun y x => (y : ℚ) * g y x
      have e : ∑ y ∈ ys, ∑ x ∈ xs, ((2 * pk.2 - y : ℤ) : ℚ) * g (2 * pk.2 - y) (2 * pk.1 - x) =
          2 * pk.2 * flux g ys xs - momY g ys xs := by
        unfold flux momY
        rw [Finset.mul_sum, ← Finset.sum_sub_distrib]
        refine Finset.sum_congr rfl fun y _ => ?_
        rw [Finset.mul_sum, ← Finset.sum_sub_distrib]
        refine Finset.sum_congr rfl fun x _ => ?_
        rw [hsym]
        push_cast
        ring
      rw [e] at h
      unfold momY at *
      linarith
    rw [kx, ky]
    rw [mul_div_assoc, mul_div_assoc, div_self h0, mul_one, mul_one]

theorem sum_shift (a b d : ℤ) (g : ℤ → ℚ) : ∑ x ∈ Finset.Icc (a + d) (b + d), g x = ∑ x ∈ Finset.Icc a b, g (x + d) := by
  refine Finset.sum_nbij' (fun x => x - d) (fun x => x + d) ?_ ?_ ?_ ?_ ?_
  · intro x hx; simp only [Finset.mem_Icc] at *; omega
  · intro x hx; simp only [Finset.mem_Icc] at *; omega
  · intro x _; omega
  · intro x _; omega
  · intro x _; simp

/-- C79: moving the spot by whole pixels moves the centroid by as much, as long as the region stays inside the frame. -/
theorem C79_translate_partial {f f' : Frame} {n : ℤ} {guess guess' : Option (ℚ × ℚ)} {pk : ℤ × ℤ} {dx dy : ℤ} {c : ℚ × ℚ}
    (hp : peak f guess = .ok pk) (hp' : peak f' guess' = .ok (pk.1 + dx, pk.2 + dy)) (hn : 0 ≤ n)
    (hin : Inside f pk n) (hin' : Inside f' (pk.1 + dx, pk.2 + dy) n)
    (hpx : ∀ y ∈ Finset.Icc (pk.2 - n) (pk.2 + n), ∀ x ∈ Finset.Icc (pk.1 - n) (pk.1 + n), f'.px (y + dy) (x + dx) = f.px y x)
    (h : centroid f (.int n) guess = .ok (some c)) :
    centroid f' (.int n) guess' = .ok (some (c.1 + dx, c.2 + dy)) := by
  obtain ⟨⟨h1, h2⟩, h3, h4⟩ := hin
  obtain ⟨⟨h1', h2'⟩, h3', h4'⟩ := hin'
  dsimp only at h1' h2' h3' h4'
  rw [centroid_int hp (by omega) (by omega), seen_inside h1 h2, seen_inside h3 h4] at h
  rw [centroid_int hp' (by dsimp only; omega) (by dsimp only; omega), seen_inside h1' h2', seen_inside h3' h4']
  have e1 : pk.1 + dx - n = (pk.1 - n) + dx := by ring
  have e2 : pk.1 + dx + n = (pk.1 + n) + dx := by ring
  have e3 : pk.2 + dy - n = (pk.2 - n) + dy := by ring
  have e4 : pk.2 + dy + n = (pk.2 + n) + dy := by ring
  rw [e1, e2, e3, e4]
  simp only [Except.ok.injEq] at h ⊢
  unfold weigh at h ⊢
  have sh : ∀ G : ℤ → ℤ → ℚ, ∑ y ∈ Finset.Icc (pk.2 - n + dy) (pk.2 + n + dy), ∑ x ∈ Finset.Icc (pk.1 - n + dx) (pk.1 + n + dx), G y x =
      ∑ y ∈ Finset.Icc (pk.2 - n) (pk.2 + n), ∑ x ∈ Finset.Icc (pk.1 - n) (pk.1 + n), G (y + dy) (x + dx) := by
    intro G
    rw [sum_shift]
    refine Finset.sum_congr rfl fun y _ => ?_
    rw [sum_shift]
  split_ifs at h with hnan
  have hnan' : ¬ ∃ y ∈ Finset.Icc (pk.2 - n + dy) (pk.2 + n + dy), ∃ x ∈ Finset.Icc (pk.1 - n + dx) (pk.1 + n + dx), f'.px y x = none := by
    rintro ⟨y, hy, x, hx, hh⟩
    apply hnan
    refine ⟨y - dy, ?_, x - dx, ?_, ?_⟩
    · simp only [Finset.mem_Icc] at *; omega
    · simp only [Finset.mem_Icc] at *; omega
    · rw [← hpx (y - dy) (by simp only [Finset.mem_Icc] at *; omega) (x - dx) (by simp only [Finset.mem_Icc] at *; omega)]
      simpa using hh
  rw [if_neg hnan']
  dsimp only at h ⊢
  set ys := Finset.Icc (pk.2 - n) (pk.2 + n) with hys
  set xs := Finset.Icc (pk.1 - n) (pk.1 + n) with hxs
  set g := fun y x => (f.px y x).getD 0 with hg
  have ef : flux (fun y x => (f'.px y x).getD 0) (Finset.Icc (pk.2 - n + dy) (pk.2 + n + dy)) (Finset.Icc (pk.1 - n + dx) (pk.1 + n + dx)) =
      flux g ys xs := by
    unfold flux
    rw [sh]
    refine Finset.sum_congr rfl fun y hy => Finset.sum_congr rfl fun x hx => ?_
    rw [hpx y hy x hx]
  have ex : momX (fun y x => (f'.px y x).getD 0) (Finset.Icc (pk.2 - n + dy) (pk.2 + n + dy)) (Finset.Icc (pk.1 - n + dx) (pk.1 + n + dx)) =
      momX g ys xs + dx * flux g ys xs := by
    unfold flux momX
    rw [sh, Finset.mul_sum, ← Finset.sum_add_distrib]
    refine Finset.sum_congr rfl fun y hy => ?_
    rw [Finset.mul_sum, ← Finset.sum_add_distrib]
    refine Finset.sum_congr rfl fun x hx => ?_
    dsimp only
    rw [hpx y hy x hx, hg]
    push_cast
    ring
  have ey : momY (fun y x => (f'.px y x).getD 0) (Finset.Icc (pk.2 - n + dy) (pk.2 + n + dy)) (Finset.Icc (pk.1 - n + dx) (pk.1 + n + dx)) =
      momY g ys xs + dy * flux g ys xs := by
    unfold flux momY
    rw [sh, Finset.mul_sum, ← Finset.sum_add_distrib]
    refine Finset.sum_congr rfl fun y hy => ?_
    rw [Finset.mul_sum, ← Finset.sum_add_distrib]
    refine Finset.sum_congr rfl fun x hx => ?_
    dsimp only
    rw [hpx y hy x hx, hg]
    push_cast
    ring
  rw [ef, ex, ey]
  by_cases h0 : flux g ys xs = 0
  · rw [if_pos h0] at h ⊢
    simp only [Option.some.injEq] at h ⊢
    subst h
    push_cast
    rfl
  · rw [if_neg h0] at h ⊢
    simp only [Option.some.injEq] at h ⊢
    subst h
    rw [add_div, add_div, mul_div_assoc, mul_div_assoc, div_self h0, mul_one, mul_one]

/-- C79: scaling the image does not move the centroid. -/
theorem C79_scale {px : ℤ → ℤ → Option ℚ} {ys xs : Finset ℤ} {pk : ℤ × ℤ} {k : ℚ} (hk : k ≠ 0) :
    weigh (fun y x => (px y x).map (k * ·)) ys xs pk = weigh px ys xs pk := by
  unfold weigh
  simp only [Option.map_eq_none_iff]
  by_cases hnan : ∃ y ∈ ys, ∃ x ∈ xs, px y x = none
  · rw [if_pos hnan, if_pos hnan]
  · rw [if_neg hnan, if_neg hnan]
    have e : (fun y x => ((px y x).map (k * ·)).getD 0) = fun y x => k * (px y x).getD 0 := by
      funext y x
      cases px y x <;> simp
    rw [e]
    have ef : flux (fun y x => k * (px y x).getD 0) ys xs = k * flux (fun y x => (px y x).getD 0) ys xs := by
      unfold flux
      simp only [Finset.mul_sum]
    have ex : momX (fun y x => k * (px y x).getD 0) ys xs = k * momX (fun y x => (px y x).getD 0) ys xs := by
      unfold momX
      simp only [Finset.mul_sum]
      refine Finset.sum_congr rfl fun y _ => Finset.sum_congr rfl fun x _ => by ring
    have ey : momY (fun y x => k * (px y x).getD 0) ys xs = k * momY (fun y x => (px y x).getD 0) ys xs := by
      unfold momY
      simp only [Finset.mul_sum]
      refine Finset.sum_congr rfl fun y _ => Finset.sum_congr rfl fun x _ => by ring
    rw [ef, ex, ey, mul_div_mul_left _ _ hk, mul_div_mul_left _ _ hk]
    simp [hk]

/-- C79: a NaN anywhere in the region makes the position NaN, and only that does. -/
theorem C79_nan_iff {px : ℤ → ℤ → Option ℚ} {ys xs : Finset ℤ} {pk : ℤ × ℤ} :
    weigh px ys xs pk = none ↔ ∃ y ∈ ys, ∃ x ∈ xs, px y x = none := by
  unfold weigh
  dsimp only
  split_ifs with h h0 <;> simp [h]

/-- C79: a uniform background pulls the centroid towards the middle of the box: the exact dilution. -/
theorem C79_background {g : ℤ → ℤ → ℚ} {ys xs : Finset ℤ} {b : ℚ} {pk : ℤ × ℤ} {c m : ℚ × ℚ}
    (hc : weigh (fun y x => some (g y x)) ys xs pk = some c) (hm : weigh (fun _ _ => some b) ys xs pk = some m)
    (h1 : flux g ys xs ≠ 0) (h2 : b * (ys.card * xs.card) ≠ 0) (h3 : flux g ys xs + b * (ys.card * xs.card) ≠ 0) :
    weigh (fun y x => some (g y x + b)) ys xs pk = some
      ((flux g ys xs * c.1 + b * (ys.card * xs.card) * m.1) / (flux g ys xs + b * (ys.card * xs.card)),
       (flux g ys xs * c.2 + b * (ys.card * xs.card) * m.2) / (flux g ys xs + b * (ys.card * xs.card))) := by
  have eb : flux (fun _ _ => b) ys xs = b * (ys.card * xs.card) := by
    simp [flux]; ring
  have ef : flux (fun y x => g y x + b) ys xs = flux g ys xs + b * (ys.card * xs.card) := by
    rw [← eb]; unfold flux; simp only [Finset.sum_add_distrib]
  have ex : momX (fun y x => g y x + b) ys xs = momX g ys xs + momX (fun _ _ => b) ys xs := by
    unfold momX; simp only [mul_add, Finset.sum_add_distrib]
  have ey : momY (fun y x => g y x + b) ys xs = momY g ys xs + momY (fun _ _ => b) ys xs := by
    unfold momY; simp only [mul_add, Finset.sum_add_distrib]
  unfold weigh at hc hm ⊢
  simp only [reduceCtorEq, and_false, exists_false, if_false, Option.getD_some] at hc hm ⊢
  rw [if_neg h1] at hc
  rw [eb, if_neg h2] at hm
  rw [ef, if_neg h3, ex, ey]
  simp only [Option.some.injEq] at hc hm ⊢
  subst hc
  subst hm
  dsimp only
  rw [mul_div_cancel₀ _ h1, mul_div_cancel₀ _ h1, mul_div_cancel₀ _ h2, mul_div_cancel₀ _ h2]

/-! ## Violations -/

/-- An image with one bright pixel at `(3, 3)` and one negative neighbour. -/
def negImg : Frame where
  h := 7
  w := 7
  px := fun y x => if y = 3 ∧ x = 3 then some 10 else if y = 3 ∧ x = 4 then some (-9) else some 0

/-- C79 refuted: one negative pixel (as after background subtraction) puts the centroid far outside the region and the frame. -/
theorem C79_violated_negative : ¬ ∀ (f : Frame) (n : ℤ) (c : ℚ × ℚ), centroid f (.int n) none = .ok (some c) → 0 ≤ c.1 := by
  intro h
  have e : centroid negImg (.int 1) none = .ok (some (-6, 3)) := by decide +kernel
  have := h negImg 1 (-6, 3) e
  norm_num at this

/-- One NaN pixel next to the peak. -/
def nanImg : Frame where
  h := 7
  w := 7
  px := fun y x => if y = 3 ∧ x = 3 then some 10 else if y = 3 ∧ x = 4 then none else some 0

/-- C79 refuted: NaN pixels are skipped when the peak is searched (`nanargmax`) but not when it is centred. -/
theorem C79_violated_nan : peak nanImg none = .ok (3, 3) ∧ centroid nanImg (.int 1) none = .ok none := by
  constructor <;> decide +kernel

/-- C79 refuted: a fractional radius, documented as allowed, is a TypeError unless the region covers the whole frame. -/
theorem C79_violated_float {f : Frame} {q : ℚ} {guess : Option (ℚ × ℚ)} {pk : ℤ × ℤ} (hp : peak f guess = .ok pk)
    (h : 0 < (pk.2 : ℚ) - q ∨ (pk.2 : ℚ) + q + 1 < f.h ∨ 0 < (pk.1 : ℚ) - q ∨ (pk.1 : ℚ) + q + 1 < f.w) :
    centroid f (.float q) guess = .error .type := by
  unfold centroid
  rw [hp]
  simp only [lo, hi, bind, Except.bind]
  by_cases h1 : 0 < (pk.2 : ℚ) - q
  · simp [h1]
  by_cases h2 : (pk.2 : ℚ) + q + 1 < f.h
  · simp [h1, h2]
  by_cases h3 : 0 < (pk.1 : ℚ) - q
  · simp only [h1, h2, h3, if_true, if_false]
  have h4 : (pk.1 : ℚ) + q + 1 < f.w := by tauto
  simp only [h1, h2, h3, h4, if_true, if_false]

/-- A single spot at `(5, 5)` in a 9×9 frame. -/
def spot : Frame where
  h := 9
  w := 9
  px := fun y x => if y = 5 ∧ x = 5 then some 1 else some 0

/-- C79 refuted: a guess left of and above the frame makes the upper slice bounds negative, so the "region within the radius"
is nearly the whole image, while a guess beyond the other edges has an empty region and is returned unchanged. -/
theorem C79_violated_guess : centroid spot (.int 1) (some (-4, -4)) = .ok (some (5, 5)) ∧
    centroid spot (.int 1) (some (20, 20)) = .ok (some (20, 20)) := by
  constructor <;> decide +kernel

example : centroid spot (.int 2) none = .ok (some (5, 5)) := by decide +kernel
example : Inside spot (5, 5) 2 := by unfold Inside spot; decide
example : peak spot none = .ok (5, 5) := by decide +kernel
example : centroid spot (.float (5 / 2)) none = .error .type := C79_violated_float (pk := (5, 5)) (by decide +kernel) (by norm_num)

end Corgi.Centroid

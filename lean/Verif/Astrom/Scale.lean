import Mathlib.Algebra.BigOperators.Group.List.Basic
import Mathlib.Algebra.Order.BigOperators.Group.List
import Verif.Astrom.Angles
import Verif.Astrom.Combos

/-!
# `compute_platescale_and_northangle` (astrom.py 670-801): model and C155

The separations and position angles on the sky (`SkyCoord.separation`, `position_angle`), the offsets between two stars
(`measure_offset`) and the fitted positions (`gaussfit2d`) are inputs; `none` is NaN or infinity. The checks of the argument types
(691-704) are left out.
-/

noncomputable section

namespace Corgi.Astrom

open Real

/-! ## Model -/

/-- A row of `source_info`: guessed position, fitted position (750-757), sky position, angle of `position_angle` (764-767). -/
structure Star where
  guess : ℝ × ℝ
  fit : ℝ × ℝ
  ra : ℝ
  dec : ℝ
  pa : ℝ

/-- 707-712: the stars used. -/
def used (rows cols : ℕ) (radius : ℝ) (stars : List Star) : List Star :=
  let cut := 1 - radius
  stars.filter fun s => decide (cols * cut ≤ s.guess.1 ∧ s.guess.1 ≤ cols - cols * cut ∧
    rows * cut ≤ s.guess.2 ∧ s.guess.2 ≤ rows - rows * cut)

/-- `compute_combinations` of pairs, in its order. -/
def pairsOf {α : Type} : List α → List (α × α)
  | [] => []
  | s :: ss => ss.map (fun t => (s, t)) ++ pairsOf ss

/-- 716-721: all pairs, or those at 200 random places. -/
def chosen {α : Type} (rand : List ℕ) (l : List α) : List α :=
  if 200 < l.length then rand.filterMap fun i => l[i]? else l

/-- `np.mean`. -/
def meanOrNan (l : List ℝ) : Option ℝ := if l = [] then none else some (l.sum / l.length)

/-- Separation on the sky over the one in the image, for one pair. -/
def ratio (sep : Star → Star → ℝ) (off : Star → Star → ℝ × ℝ) (p : Star × Star) : Option ℝ :=
  if len (off p.1 p.2) = 0 then none else some (sep p.1 p.2 / len (off p.1 p.2))

/-- 724-748 -/
def plateScale (sep : Star → Star → ℝ) (off : Star → Star → ℝ × ℝ) (rand : List ℕ) (stars : List Star) : Option ℝ :=
  ((chosen rand (pairsOf stars)).mapM (ratio sep off)).bind meanOrNan

/-- 763-799: the first star with the coordinates of the target is left out. -/
def north (rows cols : ℕ) (target : ℝ × ℝ) (stars : List Star) : Option ℝ :=
  ((stars.eraseP fun s => decide (s.ra = target.1 ∧ s.dec = target.2)).mapM fun s =>
    (angleBetween ((refPoint rows cols).1, (refPoint rows cols).2) s.fit).map (northOffset s.pa)).bind meanOrNan

/-- `compute_platescale_and_northangle`. -/
def scaleAndNorth (sep : Star → Star → ℝ) (off : Star → Star → ℝ × ℝ) (rand : List ℕ) (rows cols : ℕ) (target : ℝ × ℝ) (radius : ℝ)
    (stars : List Star) : Option ℝ × Option ℝ :=
  (plateScale sep off rand (used rows cols radius stars), north rows cols target (used rows cols radius stars))

/-! ## Specification -/

/-- The stars are an image of the sky: `r s` is the distance of the star from the target, `k` the scale, `θ` the rotation. The sky
is flat, and positions and offsets are measured without errors. -/
structure Pictures (k θ : ℝ) (c : ℝ × ℝ) (r : Star → ℝ) (sep : Star → Star → ℝ) (off : Star → Star → ℝ × ℝ) (stars : List Star) :
    Prop where
  place : ∀ s ∈ stars, s.fit = seppa2xy (r s / k) (s.pa - θ) c.1 c.2
  sep : ∀ s ∈ stars, ∀ t ∈ stars, sep s t = polarDist (r s, s.pa) (r t, t.pa)
  off : ∀ s ∈ stars, ∀ t ∈ stars, off s t = (t.fit.1 - s.fit.1, t.fit.2 - s.fit.2)

/-- The random numbers that are drawn for `n` pairs. -/
def Drawn (n : ℕ) (rand : List ℕ) : Prop := rand.length = 200 ∧ ∀ i ∈ rand, i < n

/-! ## Pairs -/

theorem pairsOf_mem {α : Type} {l : List α} {p : α × α} (h : p ∈ pairsOf l) : p.1 ∈ l ∧ p.2 ∈ l := by
  induction l with
  | nil => cases h
  | cons s ss ih =>
    unfold pairsOf at h
    rw [List.mem_append, List.mem_map] at h
    rcases h with ⟨t, ht, rfl⟩ | h
    · exact ⟨List.mem_cons_self, List.mem_cons_of_mem _ ht⟩
    · exact ⟨List.mem_cons_of_mem _ (ih h).1, List.mem_cons_of_mem _ (ih h).2⟩

theorem pairsOf_rel {α : Type} {R : α → α → Prop} {l : List α} (hl : l.Pairwise R) {p : α × α} (h : p ∈ pairsOf l) : R p.1 p.2 := by
  induction hl with
  | nil => cases h
  | cons h1 _ ih =>
    unfold pairsOf at h
    rw [List.mem_append, List.mem_map] at h
    rcases h with ⟨t, ht, rfl⟩ | h
    · exact h1 t ht
    · exact ih h

theorem pairsOf_map {α β : Type} (f : α → β) (l : List α) : pairsOf (l.map f) = (pairsOf l).map fun p => (f p.1, f p.2) := by
  induction l with
  | nil => rfl
  | cons s ss ih => simp [pairsOf, ih, Function.comp_def]

theorem mem_pairsOf_iff {l : List ℕ} (hl : l.Pairwise (· < ·)) (i j : ℕ) : (i, j) ∈ pairsOf l ↔ i ∈ l ∧ j ∈ l ∧ i < j := by
  induction hl with
  | nil => simp [pairsOf]
  | @cons a l h1 h2 ih =>
    simp only [pairsOf, List.mem_append, List.mem_map, Prod.mk.injEq, ih, List.mem_cons]
    constructor
    · rintro (⟨t, ht, rfl, rfl⟩ | ⟨h3, h4, h5⟩)
      · exact ⟨Or.inl rfl, Or.inr ht, h1 _ ht⟩
      · exact ⟨Or.inr h3, Or.inr h4, h5⟩
    · rintro ⟨rfl | h3, rfl | h4, h5⟩
      · omega
      · exact Or.inl ⟨j, h4, rfl, rfl⟩
      · have := h1 _ h3
        omega
      · exact Or.inr ⟨h3, h4, h5⟩

/-- **C155.** The pairs are those of `compute_combinations` (C88). -/
theorem C155_pairs (n i j : ℕ) : (i, j) ∈ pairsOf (List.range n) ↔ Combos.Yielded n 2 [i, j] := by
  rw [mem_pairsOf_iff List.pairwise_lt_range, Combos.C88_exact]
  simp only [List.mem_range, List.length_cons, List.length_nil, List.mem_cons, List.not_mem_nil, or_false, forall_eq_or_imp,
    forall_eq, List.pairwise_cons, List.Pairwise.nil, and_true]
  constructor
  · rintro ⟨h1, h2, h3⟩
    exact ⟨trivial, ⟨h1, h2⟩, h3, by simp⟩
  · rintro ⟨-, ⟨h1, h2⟩, h3, -⟩
    exact ⟨h1, h2, h3⟩

theorem pairsOf_length {α : Type} (l : List α) : 2 * (pairsOf l).length = l.length * (l.length - 1) := by
  induction l with
  | nil => rfl
  | cons s ss ih =>
    simp only [pairsOf, List.length_append, List.length_map, List.length_cons, Nat.add_sub_cancel]
    rw [mul_add, ih]
    cases ss with
    | nil => rfl
    | cons t ts =>
      simp only [List.length_cons, Nat.add_sub_cancel]
      ring

/-- **C155.** From 21 stars on, only 200 random pairs are used. -/
theorem C155_sampled_iff {α : Type} (l : List α) : 200 < (pairsOf l).length ↔ 21 ≤ l.length := by
  have h := pairsOf_length l
  constructor
  · intro h1
    by_contra h2
    have h3 : l.length ≤ 20 := by omega
    have h4 : l.length * (l.length - 1) ≤ 20 * 19 := Nat.mul_le_mul h3 (by omega)
    omega
  · intro h1
    have : 21 * 20 ≤ l.length * (l.length - 1) := Nat.mul_le_mul h1 (by omega)
    omega

theorem pairsOf_nil_iff {α : Type} (l : List α) : pairsOf l = [] ↔ l.length < 2 := by
  match l with
  | [] => simp [pairsOf]
  | [_] => simp [pairsOf]
  | _ :: _ :: _ => simp [pairsOf]

theorem chosen_mem {α : Type} {rand : List ℕ} {l : List α} {p : α} (h : p ∈ chosen rand l) : p ∈ l := by
  unfold chosen at h
  split_ifs at h
  · rw [List.mem_filterMap] at h
    obtain ⟨i, -, hi⟩ := h
    exact List.mem_of_getElem? hi
  · exact h

theorem chosen_nil_iff {α : Type} {rand : List ℕ} {l : List α} (h : Drawn l.length rand) : chosen rand l = [] ↔ l = [] := by
  unfold chosen
  split_ifs with hl
  · constructor
    · intro h0
      exfalso
      obtain ⟨i, hi⟩ : ∃ i, i ∈ rand := List.exists_mem_of_ne_nil rand (by
        rintro rfl
        simpa using h.1)
      rw [List.filterMap_eq_nil_iff] at h0
      have := h0 i hi
      rw [List.getElem?_eq_none_iff] at this
      have := h.2 i hi
      omega
    · intro h0
      rw [h0] at hl
      simp at hl
  · rfl

/-! ## Theorems -/

theorem mapM_some_of {α β : Type} {f : α → Option β} {g : α → β} {l : List α} (h : ∀ x ∈ l, f x = some (g x)) :
    l.mapM f = some (l.map g) := by
  induction l with
  | nil => rfl
  | cons x xs ih =>
    rw [List.mapM_cons, h x (by simp), ih fun y hy => h y (by simp [hy])]
    rfl

theorem meanOrNan_const {α : Type} {l : List α} {f : α → ℝ} {v : ℝ} (hl : l ≠ []) (h : ∀ x ∈ l, f x = v) :
    meanOrNan (l.map f) = some v := by
  unfold meanOrNan
  rw [if_neg (by simpa using hl), sum_map_const l f v h, List.length_map]
  have : (l.length : ℝ) ≠ 0 := by
    rw [Nat.cast_ne_zero]
    exact fun h0 => hl (List.length_eq_zero_iff.1 h0)
  rw [mul_div_cancel_left₀ _ this]

theorem northOffset_congr {sky a b : ℝ} (hs : sin (a * π / 180) = sin (b * π / 180)) (hc : cos (a * π / 180) = cos (b * π / 180)) :
    northOffset sky a = northOffset sky b := by
  unfold northOffset
  rw [show (sky - a) * π / 180 = sky * π / 180 - a * π / 180 by ring, show (sky - b) * π / 180 = sky * π / 180 - b * π / 180 by ring,
    Real.sin_sub, Real.sin_sub, Real.cos_sub, Real.cos_sub, hs, hc]

theorem seppa2xy_ne {sep pa : ℝ} (hs : 0 < sep) (c : ℝ × ℝ) : c ≠ seppa2xy sep pa c.1 c.2 := by
  intro h
  have h1 := len_seppa sep pa hs.le
  have hx : (seppa2dxdy sep pa).1 = 0 := by
    have := congrArg Prod.fst h
    simp only [seppa2xy] at this
    linarith
  have hy : (seppa2dxdy sep pa).2 = 0 := by
    have := congrArg Prod.snd h
    simp only [seppa2xy] at this
    linarith
  unfold len at h1
  rw [hx, hy] at h1
  simp at h1
  linarith

/-- The offset of one star, for any position angle. -/
theorem offset_of_place {c : ℝ × ℝ} {sep pa θ : ℝ} (hs : 0 < sep) (hθ : -90 < θ ∧ θ < 90) :
    (angleBetween c (seppa2xy sep (pa - θ) c.1 c.2)).map (northOffset pa) = some θ := by
  obtain ⟨a, h1, h2, -⟩ := C86_angle c _ (seppa2xy_ne (pa := pa - θ) hs c)
  rw [h1, Option.map_some]
  have hdx : (seppa2xy sep (pa - θ) c.1 c.2).1 - c.1 = (seppa2dxdy sep (pa - θ)).1 := by simp [seppa2xy]
  have hdy : (seppa2xy sep (pa - θ) c.1 c.2).2 - c.2 = (seppa2dxdy sep (pa - θ)).2 := by simp [seppa2xy]
  rw [hdx, hdy] at h2
  unfold IsPA at h2
  rw [Prod.mk.eta, len_seppa sep _ hs.le] at h2
  simp only [seppa2dxdy] at h2
  have e1 : sin (a * π / 180) = sin ((pa - θ) * π / 180) := mul_left_cancel₀ hs.ne' (by linarith [h2.1])
  have e2 : cos (a * π / 180) = cos ((pa - θ) * π / 180) := mul_left_cancel₀ hs.ne' (by linarith [h2.2])
  rw [northOffset_congr e1 e2]
  have := C87_small_partial θ (pa - θ) 0 hθ
  rw [show pa - θ + θ + 360 * ((0 : ℤ) : ℝ) = pa by push_cast; ring] at this
  rw [this]

/-- Distances in the image are those on the sky over the scale. -/
theorem dist_of_place {k θ : ℝ} (hk : 0 < k) (c : ℝ × ℝ) (r₁ p₁ r₂ p₂ : ℝ) :
    len ((seppa2xy (r₂ / k) (p₂ - θ) c.1 c.2).1 - (seppa2xy (r₁ / k) (p₁ - θ) c.1 c.2).1,
      (seppa2xy (r₂ / k) (p₂ - θ) c.1 c.2).2 - (seppa2xy (r₁ / k) (p₁ - θ) c.1 c.2).2) = polarDist (r₁, p₁) (r₂, p₂) / k := by
  have h1 := C86_distance (r₂ / k) (p₂ - θ) (r₁ / k) (p₁ - θ)
  have e : ∀ s p : ℝ, seppa2xy s p c.1 c.2 = ((seppa2dxdy s p).1 + c.1, (seppa2dxdy s p).2 + c.2) := fun _ _ => rfl
  rw [e, e]
  simp only [add_sub_add_right_eq_sub]
  rw [← h1]
  unfold polarDist
  dsimp only
  rw [show (p₂ - θ - (p₁ - θ)) * π / 180 = -((p₁ - p₂) * π / 180) by ring, Real.cos_neg]
  rw [show (r₂ / k) ^ 2 + (r₁ / k) ^ 2 - 2 * (r₂ / k) * (r₁ / k) * cos ((p₁ - p₂) * π / 180)
    = (r₁ ^ 2 + r₂ ^ 2 - 2 * r₁ * r₂ * cos ((p₁ - p₂) * π / 180)) / k ^ 2 by field_simp; ring]
  rw [Real.sqrt_div' _ (sq_nonneg k), Real.sqrt_sq hk.le]

/-- **C155.** The plate scale of an image of the sky is its scale, whatever pairs are drawn, if two stars are used and no two stars
coincide. -/
theorem C155_scale {k θ : ℝ} {c : ℝ × ℝ} {r : Star → ℝ} {sep : Star → Star → ℝ} {off : Star → Star → ℝ × ℝ} {stars : List Star}
    (h : Pictures k θ c r sep off stars) (hk : 0 < k) (hn : 2 ≤ stars.length) (hd : stars.Pairwise fun s t => sep s t ≠ 0)
    {rand : List ℕ} (hr : Drawn (pairsOf stars).length rand) : plateScale sep off rand stars = some k := by
  unfold plateScale
  have hall : ∀ p ∈ chosen rand (pairsOf stars), ratio sep off p = some k := by
    intro p hp
    have hp' := chosen_mem hp
    obtain ⟨h1, h2⟩ := pairsOf_mem hp'
    have hne := pairsOf_rel hd hp'
    have hoff : len (off p.1 p.2) = sep p.1 p.2 / k := by
      rw [h.off _ h1 _ h2, h.place _ h1, h.place _ h2, dist_of_place hk, h.sep _ h1 _ h2]
    unfold ratio
    rw [hoff, if_neg (div_ne_zero hne hk.ne')]
    congr 1
    field_simp
  rw [mapM_some_of (g := fun _ => k) hall, Option.bind_some]
  refine meanOrNan_const ?_ fun _ _ => rfl
  rw [Ne, chosen_nil_iff hr, pairsOf_nil_iff]
  omega

/-- **C155.** The north angle of an image of the sky is its rotation, below a quarter turn, if the rotation is about the reference
point and a star other than the target is used. -/
theorem C155_north {k θ : ℝ} {c : ℝ × ℝ} {r : Star → ℝ} {sep : Star → Star → ℝ} {off : Star → Star → ℝ × ℝ} {stars : List Star}
    (h : Pictures k θ c r sep off stars) (hk : 0 < k) (hθ : -90 < θ ∧ θ < 90) {rows cols : ℕ} {target : ℝ × ℝ}
    (hc : c = (((refPoint rows cols).1 : ℝ), ((refPoint rows cols).2 : ℝ)))
    (hne : (stars.eraseP fun s => decide (s.ra = target.1 ∧ s.dec = target.2)) ≠ [])
    (hr : ∀ s ∈ stars.eraseP (fun s => decide (s.ra = target.1 ∧ s.dec = target.2)), 0 < r s) :
    north rows cols target stars = some θ := by
  unfold north
  rw [mapM_some_of (g := fun _ => θ), Option.bind_some]
  · exact meanOrNan_const hne fun _ _ => rfl
  · intro s hs
    rw [h.place s (List.mem_of_mem_eraseP hs), ← hc]
    exact offset_of_place (div_pos (hr s hs) hk) hθ

/-- **C155.** Both together, for the stars within the crop. -/
theorem C155_field {k θ : ℝ} {r : Star → ℝ} {sep : Star → Star → ℝ} {off : Star → Star → ℝ × ℝ} {stars : List Star} {rows cols : ℕ}
    {target : ℝ × ℝ} {radius : ℝ} {rand : List ℕ}
    (h : Pictures k θ (((refPoint rows cols).1 : ℝ), ((refPoint rows cols).2 : ℝ)) r sep off stars) (hk : 0 < k)
    (hθ : -90 < θ ∧ θ < 90) (hn : 2 ≤ (used rows cols radius stars).length)
    (hd : (used rows cols radius stars).Pairwise fun s t => sep s t ≠ 0)
    (ht : ∀ s ∈ (used rows cols radius stars).eraseP (fun s => decide (s.ra = target.1 ∧ s.dec = target.2)), 0 < r s)
    (hr : Drawn (pairsOf (used rows cols radius stars)).length rand) :
    scaleAndNorth sep off rand rows cols target radius stars = (some k, some θ) := by
  have hsub : ∀ s ∈ used rows cols radius stars, s ∈ stars := fun s hs => List.mem_of_mem_filter hs
  have hp : Pictures k θ (((refPoint rows cols).1 : ℝ), ((refPoint rows cols).2 : ℝ)) r sep off (used rows cols radius stars) :=
    ⟨fun s hs => h.place s (hsub s hs), fun s hs t ht => h.sep s (hsub s hs) t (hsub t ht),
      fun s hs t ht => h.off s (hsub s hs) t (hsub t ht)⟩
  unfold scaleAndNorth
  rw [C155_scale hp hk hn hd hr, C155_north hp hk hθ rfl _ ht]
  intro h0
  have h1 := List.length_eraseP (p := fun s : Star => decide (s.ra = target.1 ∧ s.dec = target.2)) (l := used rows cols radius stars)
  rw [h0] at h1
  simp only [List.length_nil] at h1
  split_ifs at h1 <;> omega

/-- **C155.** With measurement errors: the plate scale lies within the bounds of the ratios of all pairs, whatever pairs are drawn. -/
theorem C155_between {sep : Star → Star → ℝ} {off : Star → Star → ℝ × ℝ} {rand : List ℕ} {stars : List Star} {lo hi k : ℝ}
    (h : ∀ p ∈ pairsOf stars, ∀ v, ratio sep off p = some v → lo ≤ v ∧ v ≤ hi) (hk : plateScale sep off rand stars = some k) :
    lo ≤ k ∧ k ≤ hi := by
  unfold plateScale at hk
  rw [Option.bind_eq_some_iff] at hk
  obtain ⟨l, hl, hm⟩ := hk
  have hmem : ∀ {L : List (Star × Star)} {l : List ℝ}, L.mapM (ratio sep off) = some l → (∀ p ∈ L, p ∈ pairsOf stars) →
      ∀ v ∈ l, lo ≤ v ∧ v ≤ hi := by
    intro L
    induction L with
    | nil =>
      intro l hl _ v hv
      cases hl
      cases hv
    | cons p L ih =>
      intro l hl hL v hv
      rw [List.mapM_cons] at hl
      cases hp : ratio sep off p with
      | none => rw [hp] at hl; cases hl
      | some w =>
        cases hq : L.mapM (ratio sep off) with
        | none => rw [hp, hq] at hl; cases hl
        | some l' =>
          rw [hp, hq] at hl
          cases hl
          rcases List.mem_cons.1 hv with rfl | hv
          · exact h p (hL p (by simp)) _ hp
          · exact ih hq (fun q hq' => hL q (by simp [hq'])) v hv
  have hb := hmem hl fun p hp => chosen_mem hp
  unfold meanOrNan at hm
  split_ifs at hm with hnil
  cases hm
  have hpos : (0 : ℝ) < l.length := by
    rw [Nat.cast_pos]
    exact List.length_pos_iff.2 hnil
  rw [le_div_iff₀ hpos, div_le_iff₀ hpos]
  constructor
  · have := List.card_nsmul_le_sum l lo fun v hv => (hb v hv).1
    rw [nsmul_eq_mul] at this
    linarith
  · have := List.sum_le_card_nsmul l hi fun v hv => (hb v hv).2
    rw [nsmul_eq_mul] at this
    linarith

/-- **C155.** The crop: a star is used exactly if it is, in both axes, at most `size · (radius - 1/2)` from the middle. -/
theorem C155_used_iff {rows cols : ℕ} {radius : ℝ} {stars : List Star} {s : Star} :
    s ∈ used rows cols radius stars ↔ s ∈ stars ∧ |s.guess.1 - cols / 2| ≤ cols * (radius - 1 / 2) ∧
      |s.guess.2 - rows / 2| ≤ rows * (radius - 1 / 2) := by
  unfold used
  simp only [List.mem_filter, decide_eq_true_eq, abs_le]
  constructor
  · rintro ⟨h, h1, h2, h3, h4⟩
    exact ⟨h, ⟨by linarith, by linarith⟩, by linarith, by linarith⟩
  · rintro ⟨h, ⟨h1, h2⟩, h3, h4⟩
    exact ⟨h, by linarith, by linarith, by linarith, by linarith⟩

/-- **C155, violated.** `center_radius` is documented as the fraction of the image radius that is used: this is so only for 1. -/
theorem C155_violated_crop {n : ℕ} (hn : 0 < n) {radius : ℝ} (h0 : 0 ≤ radius) :
    (∀ x : ℝ, |x - n / 2| ≤ n * (radius - 1 / 2) ↔ |x - n / 2| ≤ radius * (n / 2)) ↔ radius = 1 := by
  have hn' : (0 : ℝ) < n := by exact_mod_cast hn
  constructor
  · intro h
    have h1 := (h (n / 2 + radius * (n / 2))).2 (by rw [add_sub_cancel_left, abs_of_nonneg (by positivity)])
    rw [add_sub_cancel_left, abs_of_nonneg (by positivity)] at h1
    have h2 : (1 : ℝ) ≤ radius := by nlinarith
    have h3 := (h (n / 2 + n * (radius - 1 / 2))).1 (by
      rw [add_sub_cancel_left, abs_of_nonneg (by nlinarith)])
    rw [add_sub_cancel_left, abs_of_nonneg (by nlinarith)] at h3
    nlinarith
  · rintro rfl x
    rw [show (n : ℝ) * (1 - 1 / 2) = 1 * (n / 2) by ring]

/-- **C155, violated.** Below one half no star is used, and plate scale and north angle are NaN for every field, without an error. -/
theorem C155_violated_empty {sep : Star → Star → ℝ} {off : Star → Star → ℝ × ℝ} {rand : List ℕ} {rows cols : ℕ} {target : ℝ × ℝ}
    {radius : ℝ} (hr : radius < 1 / 2) (hc : 0 < cols) (stars : List Star) :
    scaleAndNorth sep off rand rows cols target radius stars = (none, none) := by
  have hu : used rows cols radius stars = [] := by
    rw [List.eq_nil_iff_forall_not_mem]
    intro s hs
    rw [C155_used_iff] at hs
    have h1 := (abs_nonneg _).trans hs.2.1
    have hc' : (0 : ℝ) < cols := by exact_mod_cast hc
    nlinarith
  unfold scaleAndNorth
  rw [hu]
  simp [plateScale, north, pairsOf, chosen, meanOrNan]

/-- **C155, violated.** A single star in the crop: the plate scale is NaN. -/
theorem C155_violated_single {sep : Star → Star → ℝ} {off : Star → Star → ℝ × ℝ} {rand : List ℕ} {stars : List Star}
    (h : stars.length < 2) : plateScale sep off rand stars = none := by
  unfold plateScale
  rw [(pairsOf_nil_iff stars).2 h]
  simp [chosen, meanOrNan]

/-- **C155.** Up to twenty stars all pairs are used and the plate scale does not depend on the random numbers. -/
theorem C155_reproducible {sep : Star → Star → ℝ} {off : Star → Star → ℝ × ℝ} {stars : List Star} (h : stars.length ≤ 20) (rand : List ℕ) :
    plateScale sep off rand stars = ((pairsOf stars).mapM (ratio sep off)).bind meanOrNan := by
  unfold plateScale chosen
  rw [if_neg]
  rw [C155_sampled_iff]
  omega

/-- **C155, violated.** From twenty-one stars on the plate scale of the same stars depends on the random numbers, which have no seed. -/
theorem C155_violated_random {stars : List Star} (hnd : stars.Nodup) (h : 21 ≤ stars.length) :
    ∃ (sep : Star → Star → ℝ) (off : Star → Star → ℝ × ℝ) (r1 r2 : List ℕ), Drawn (pairsOf stars).length r1 ∧ Drawn (pairsOf stars).length r2 ∧
      plateScale sep off r1 stars = some 1 ∧ plateScale sep off r2 stars = some 2 := by
  classical
  have hlong := (C155_sampled_iff stars).2 h
  match stars, hnd, h, hlong with
  | a :: b :: c :: l, hnd, _, hlong =>
    have hbc : b ≠ c := by
      rintro rfl
      simp at hnd
    have h0 : (pairsOf (a :: b :: c :: l))[0]? = some (a, b) := rfl
    have h1 : (pairsOf (a :: b :: c :: l))[1]? = some (a, c) := rfl
    have hd : ∀ k < 2, Drawn (pairsOf (a :: b :: c :: l)).length (List.replicate 200 k) := by
      intro k hk
      refine ⟨List.length_replicate, fun i hi => ?_⟩
      rw [List.eq_of_mem_replicate hi]
      omega
    have key : ∀ (k : ℕ) (p : Star × Star) (v : ℝ) (sep : Star → Star → ℝ), (pairsOf (a :: b :: c :: l))[k]? = some p → sep p.1 p.2 = v →
        plateScale sep (fun _ _ => (1, 0)) (List.replicate 200 k) (a :: b :: c :: l) = some v := by
      intro k p v sep hk hv
      unfold plateScale chosen
      rw [if_pos hlong]
      have e : (List.replicate 200 k).filterMap (fun i => (pairsOf (a :: b :: c :: l))[i]?) = List.replicate 200 p := by
        rw [List.filterMap_replicate, hk]
      have hlen : len ((1 : ℝ), (0 : ℝ)) = 1 := by simp [len]
      rw [e, mapM_some_of (g := fun _ => v), Option.bind_some]
      · exact meanOrNan_const (by simp) fun _ _ => rfl
      · intro q hq
        rw [List.eq_of_mem_replicate hq]
        unfold ratio
        rw [hlen, if_neg one_ne_zero, hv, div_one]
    refine ⟨fun _ t => if t = b then 1 else 2, fun _ _ => (1, 0), List.replicate 200 0, List.replicate 200 1, hd 0 (by norm_num), hd 1 (by norm_num),
      key 0 (a, b) 1 _ h0 (by simp), key 1 (a, c) 2 _ h1 (by simp [hbc.symm])⟩

/-! ## Non-vacuity -/

/-- Target and two stars, 1000 mas north and 2000 mas east of it, with scale 20 and rotation 45 in an image of 201 pixels. -/
def exStars : List Star :=
  [⟨(100, 100), seppa2xy 0 (0 - 45) 100 100, 10, 20, 0⟩, ⟨(135, 135), seppa2xy 50 (0 - 45) 100 100, 11, 20, 0⟩,
    ⟨(30, 170), seppa2xy 100 (90 - 45) 100 100, 10, 21, 90⟩]

def exDist (s : Star) : ℝ := if s.ra = 11 then 1000 else if s.dec = 21 then 2000 else 0

example : scaleAndNorth (fun s t => polarDist (exDist s, s.pa) (exDist t, t.pa)) (fun s t => (t.fit.1 - s.fit.1, t.fit.2 - s.fit.2))
    (List.replicate 200 0) 201 201 (10, 20) 0.9 exStars = (some 20, some 45) := by
  have hu : used 201 201 0.9 exStars = exStars := by
    unfold used
    rw [List.filter_eq_self]
    intro s hs
    simp only [exStars, List.mem_cons, List.not_mem_nil, or_false] at hs
    rcases hs with rfl | rfl | rfl <;> norm_num
  have hc : ∀ x y z w : ℝ, polarDist (x, y) (z, w) = sqrt (x ^ 2 + z ^ 2 - 2 * x * z * cos ((y - w) * π / 180)) := fun _ _ _ _ => rfl
  refine C155_field (r := exDist) ⟨?_, fun _ _ _ _ => rfl, fun _ _ _ _ => rfl⟩ (by norm_num) ⟨by norm_num, by norm_num⟩ ?_ ?_ ?_ ?_
  · intro s hs
    simp only [exStars, List.mem_cons, List.not_mem_nil, or_false] at hs
    rcases hs with rfl | rfl | rfl <;> norm_num [exDist, refPoint]
  · rw [hu]
    simp [exStars]
  · rw [hu]
    have h90 : cos ((0 - 90) * π / 180) = 0 := by
      rw [show ((0 : ℝ) - 90) * π / 180 = -(π / 2) by ring, Real.cos_neg, Real.cos_pi_div_two]
    simp only [exStars, List.pairwise_cons, List.mem_cons, List.not_mem_nil, or_false, List.Pairwise.nil, and_true,
      forall_eq_or_imp, forall_eq, hc, exDist]
    norm_num
    rw [show (-(90 * π) / 180 : ℝ) = (0 - 90) * π / 180 by ring, h90]
    norm_num
  · rw [hu]
    intro s hs
    simp [exStars] at hs
    rcases hs with rfl | rfl <;> norm_num [exDist]
  · rw [hu]
    exact ⟨List.length_replicate, fun i hi => by rw [List.eq_of_mem_replicate hi]; simp [exStars, pairsOf]⟩

end Corgi.Astrom

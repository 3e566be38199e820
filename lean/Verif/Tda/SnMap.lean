import Verif.Common.Nan
import Verif.Tda.FindSource
import Verif.Sorting.FrameId
import Mathlib.Algebra.Order.Floor.Semiring
import Mathlib.Data.Finset.Lattice.Fold
import Mathlib.Data.Finset.Prod
import Mathlib.Data.Nat.Digits.Lemmas
import Mathlib.Analysis.SpecialFunctions.Sqrt
import Mathlib.Tactic.Linarith
import Mathlib.Tactic.Ring
import Mathlib.Tactic.FieldSimp
import Mathlib.Tactic.NormNum

/-!
# The map, the subtraction and the cards of `find_source`

`make_snmap` (`/repo/corgidrp/find_source.py` 5-38), `psf_scalesub` (41-73) and the header cards
(`/repo/corgidrp/l4_to_tda.py` 489-491).

Reals for floats, `none` is NaN; PSF values are numbers other than zero. The map itself comes from
pyKLIP and is a parameter.
-/

namespace Corgi.SnMap

open Finset Corgi.Nan

noncomputable section

/-- An image with its finite values. -/
structure Img where
  h : ℕ
  w : ℕ
  px : ℕ → ℕ → Option ℝ

/-- The pixels that are not NaN (find_source.py 31). -/
def Img.finite (f : Img) : Finset (ℕ × ℕ) :=
  (range f.h ×ˢ range f.w).filter fun p => (f.px p.1 p.2).isSome

/-- `distance_map` (find_source.py 27-30). -/
def Img.dist (f : Img) (p : ℕ × ℕ) : ℝ :=
  √(((p.2 : ℝ) - (f.w / 2 : ℕ)) ^ 2 + ((p.1 : ℝ) - (f.h / 2 : ℕ)) ^ 2)

/-- `mask_radius` (find_source.py 25-33); `none`: the ValueError of `np.min` of nothing. -/
def maskRadius (coronagraph : Bool) (f : Img) : Option ℕ :=
  if coronagraph then
    if h : f.finite.Nonempty then some ⌈f.finite.inf' h f.dist⌉₊ else none
  else some 0

/-- **C138.** Without a coronagraph nothing is masked. -/
theorem C138_no_mask (f : Img) : maskRadius false f = some 0 := rfl

theorem dist_nonneg (f : Img) (p : ℕ × ℕ) : 0 ≤ f.dist p := Real.sqrt_nonneg _

/-- **C138.** The radius is the distance of the innermost finite pixel, rounded up. -/
theorem C138_radius_iff (f : Img) (r : ℕ) : maskRadius true f = some r ↔
    (∃ p ∈ f.finite, f.dist p ≤ r) ∧ ∀ p ∈ f.finite, (r : ℝ) < f.dist p + 1 := by
  unfold maskRadius
  rw [if_pos rfl]
  by_cases h : f.finite.Nonempty
  · rw [dif_pos h]
    obtain ⟨q, hq, hmin⟩ := Finset.exists_mem_eq_inf' h f.dist
    have hle : ∀ p ∈ f.finite, f.finite.inf' h f.dist ≤ f.dist p := fun p hp =>
      Finset.inf'_le _ hp
    have h0 : 0 ≤ f.finite.inf' h f.dist := by rw [hmin]; exact dist_nonneg f q
    rw [Option.some.injEq]
    constructor
    · rintro rfl
      refine ⟨⟨q, hq, hmin ▸ Nat.le_ceil _⟩, fun p hp => ?_⟩
      exact lt_of_lt_of_le (Nat.ceil_lt_add_one h0) (by linarith [hle p hp])
    · rintro ⟨⟨p, hp, hpr⟩, hall⟩
      apply le_antisymm
      · exact Nat.ceil_le.2 ((hle p hp).trans hpr)
      · have := hall q hq
        rw [← hmin] at this
        have h2 := Nat.le_ceil (f.finite.inf' h f.dist)
        have h3 : (r : ℝ) < (⌈f.finite.inf' h f.dist⌉₊ : ℝ) + 1 := by linarith
        have h4 : r < ⌈f.finite.inf' h f.dist⌉₊ + 1 := by exact_mod_cast h3
        omega
  · rw [dif_neg h]
    simp only [reduceCtorEq, false_iff]
    rintro ⟨⟨p, hp, _⟩, _⟩
    exact h ⟨p, hp⟩

/-- **C138.** Without NaN at the centre there is no mask, and the other way round. -/
theorem C138_radius_zero (f : Img) (hh : 0 < f.h) (hw : 0 < f.w) :
    maskRadius true f = some 0 ↔ (f.px (f.h / 2) (f.w / 2)).isSome = true := by
  rw [C138_radius_iff]
  have hc : f.dist (f.h / 2, f.w / 2) = 0 := by
    unfold Img.dist
    simp
  constructor
  · rintro ⟨⟨p, hp, hd⟩, _⟩
    have h0 : f.dist p = 0 := le_antisymm (by simpa using hd) (dist_nonneg f p)
    unfold Img.dist at h0
    rw [Real.sqrt_eq_zero (by positivity)] at h0
    have s1 := sq_nonneg ((p.2 : ℝ) - ((f.w / 2 : ℕ) : ℝ))
    have s2 := sq_nonneg ((p.1 : ℝ) - ((f.h / 2 : ℕ) : ℝ))
    have e1 : (p.2 : ℝ) - ((f.w / 2 : ℕ) : ℝ) = 0 := pow_eq_zero_iff two_ne_zero |>.1 (by linarith)
    have e2 : (p.1 : ℝ) - ((f.h / 2 : ℕ) : ℝ) = 0 := pow_eq_zero_iff two_ne_zero |>.1 (by linarith)
    have e1' : p.2 = f.w / 2 := by
      have : (p.2 : ℝ) = ((f.w / 2 : ℕ) : ℝ) := by linarith
      exact_mod_cast this
    have e2' : p.1 = f.h / 2 := by
      have : (p.1 : ℝ) = ((f.h / 2 : ℕ) : ℝ) := by linarith
      exact_mod_cast this
    have := (Finset.mem_filter.1 hp).2
    rw [e1', e2'] at this
    exact this
  · intro h
    refine ⟨⟨(f.h / 2, f.w / 2), ?_, by rw [hc]; simp⟩, fun p _ => ?_⟩
    · unfold Img.finite
      simp only [Finset.mem_filter, Finset.mem_product, Finset.mem_range]
      exact ⟨⟨by omega, by omega⟩, h⟩
    · have := dist_nonneg f p
      push_cast
      linarith

/-- **C138, violated.** An image without finite pixels has no map: `np.min` raises. -/
theorem C138_violated_blank (f : Img) : maskRadius true f = none ↔ f.finite = ∅ := by
  unfold maskRadius
  rw [if_pos rfl]
  split_ifs with h
  · simp only [false_iff]
    exact Finset.nonempty_iff_ne_empty.1 h
  · simp only [true_iff]
    exact Finset.not_nonempty_iff_eq_empty.1 h

/-- **C138.** Every finite pixel that is lost can only widen the mask. -/
theorem C138_radius_mono {f g : Img} (hh : g.h = f.h) (hw : g.w = f.w) (hs : g.finite ⊆ f.finite)
    {r r' : ℕ} (hf : maskRadius true f = some r) (hg : maskRadius true g = some r') : r ≤ r' := by
  rw [C138_radius_iff] at hf hg
  obtain ⟨⟨p, hp, hpr⟩, -⟩ := hg
  have hd : g.dist p = f.dist p := by unfold Img.dist; rw [hh, hw]
  have := hf.2 p (hs hp)
  rw [← hd] at this
  have h3 : (r : ℝ) < (r' : ℝ) + 1 := by linarith
  have h4 : r < r' + 1 := by exact_mod_cast h3
  omega

/-- The dimensions for which lines 27-33 work: `image.shape[1]` must exist, and `distance_map` has
two axes while `np.where(...)` gives one index array for each axis of the image. -/
def indexable (ndim : ℕ) : Bool := decide (2 ≤ ndim) && decide (ndim ≤ 2)

/-- **C138, violated.** `find_source` takes single frames only; the products of PSF subtraction are
cubes of KL modes (l3_to_l4.py), for which the map raises an IndexError. -/
theorem C138_violated_cube (ndim : ℕ) : indexable ndim = true ↔ ndim = 2 := by
  unfold indexable
  simp only [Bool.and_eq_true, decide_eq_true_iff]
  omega

/-! ## The subtraction of a PSF -/

/-- A pixel of the window: image value, PSF value, distance from the centre of the PSF. -/
structure WPix where
  img : Option ℝ
  psf : ℝ
  d : ℝ

/-- `np.nanmedian(window / psf)` (find_source.py 65-67). -/
def scale (win : List WPix) : Option ℝ := nanmedian (win.map fun p => p.img.map (· / p.psf))

/-- The window after the subtraction; the core of the PSF is NaN (find_source.py 60-71). -/
def subtract (fwhm : ℝ) (win : List WPix) : List (Option ℝ) :=
  win.map fun p => if p.d < fwhm then none
    else match p.img, scale win with
      | some v, some s => some (v - p.psf * s)
      | _, _ => none

theorem median_bounds {l : List ℝ} (hl : l ≠ []) {lo hi : ℝ} (h : ∀ x ∈ l, lo ≤ x ∧ x ≤ hi) :
    lo ≤ median l ∧ median l ≤ hi := by
  obtain ⟨h1, h2⟩ := median_spec l hl
  have hpos : 0 < l.length := List.length_pos_of_ne_nil hl
  constructor
  · by_contra hc
    push Not at hc
    have : l.countP (fun x => decide (x ≤ median l)) = 0 := by
      rw [List.countP_eq_zero]
      intro x hx
      simp only [decide_eq_true_eq, not_le]
      linarith [(h x hx).1]
    omega
  · by_contra hc
    push Not at hc
    have : l.countP (fun x => decide (median l ≤ x)) = 0 := by
      rw [List.countP_eq_zero]
      intro x hx
      simp only [decide_eq_true_eq, not_le]
      linarith [(h x hx).2]
    omega

theorem mem_ratios {win : List WPix} {x : ℝ} :
    x ∈ vals (win.map fun p => p.img.map (· / p.psf)) ↔
      ∃ p ∈ win, ∃ v, p.img = some v ∧ x = v / p.psf := by
  unfold vals
  simp only [List.mem_filterMap, List.mem_map, id]
  constructor
  · rintro ⟨o, ⟨p, hp, rfl⟩, h⟩
    cases hv : p.img with
    | none => rw [hv] at h; cases h
    | some v =>
      rw [hv] at h
      exact ⟨p, hp, v, hv, (Option.some.inj h).symm⟩
  · rintro ⟨p, hp, v, hv, rfl⟩
    exact ⟨_, ⟨p, hp, rfl⟩, by rw [hv]; rfl⟩

theorem scale_some {win : List WPix} (h : ∃ p ∈ win, p.img.isSome = true) :
    ∃ s, scale win = some s ∧
      s = median (vals (win.map fun p => p.img.map (· / p.psf))) ∧
      vals (win.map fun p => p.img.map (· / p.psf)) ≠ [] := by
  obtain ⟨p, hp, hs⟩ := h
  obtain ⟨v, hv⟩ := Option.isSome_iff_exists.1 hs
  have hne : vals (win.map fun p => p.img.map (· / p.psf)) ≠ [] :=
    List.ne_nil_of_mem (mem_ratios.2 ⟨p, hp, v, hv, rfl⟩)
  refine ⟨_, ?_, rfl, hne⟩
  unfold scale nanmedian
  rw [if_neg hne]

/-- **C138.** The scale lies between the smallest and the largest ratio of image and PSF. -/
theorem C138_scale_bounds {win : List WPix} (hne : ∃ p ∈ win, p.img.isSome = true) {lo hi : ℝ}
    (h : ∀ p ∈ win, ∀ v, p.img = some v → lo ≤ v / p.psf ∧ v / p.psf ≤ hi) :
    ∃ s, scale win = some s ∧ lo ≤ s ∧ s ≤ hi := by
  obtain ⟨s, h1, rfl, h2⟩ := scale_some hne
  refine ⟨_, h1, median_bounds h2 ?_⟩
  intro x hx
  obtain ⟨p, hp, v, hv, rfl⟩ := mem_ratios.1 hx
  exact h p hp v hv

/-- **C138 (partial).** A source that is the PSF times any amplitude is removed completely: what is
left is zero outside the core and NaN inside. -/
theorem C138_exact_partial {win : List WPix} {A : ℝ} (hp : ∀ p ∈ win, p.psf ≠ 0)
    (h : ∀ p ∈ win, p.img = some (A * p.psf)) (hne : win ≠ []) (fwhm : ℝ) :
    scale win = some A ∧
      subtract fwhm win = win.map fun p => if p.d < fwhm then none else some 0 := by
  have hs : scale win = some A := by
    obtain ⟨q, hq⟩ := List.exists_mem_of_ne_nil win hne
    obtain ⟨s, h1, h2, h3⟩ := C138_scale_bounds (lo := A) (hi := A)
      ⟨q, hq, by rw [h q hq]; rfl⟩ (by
        intro p hpm v hv
        rw [h p hpm] at hv
        have := Option.some.inj hv
        subst this
        have h0 := hp p hpm
        rw [mul_div_cancel_right₀ _ h0]
        exact ⟨le_refl _, le_refl _⟩)
    rw [h1, le_antisymm h3 h2]
  refine ⟨hs, ?_⟩
  unfold subtract
  apply List.map_congr_left
  intro p hpm
  rw [hs, h p hpm]
  by_cases hd : p.d < fwhm
  · rw [if_pos hd, if_pos hd]
  · rw [if_neg hd, if_neg hd]
    show some (A * p.psf - p.psf * A) = some 0
    congr 1
    ring

/-- **C138, violated.** On a positive background `b` the amplitude is overestimated by at least
`b` over the peak of the PSF, and every pixel left is too low. -/
theorem C138_violated_background {win : List WPix} {A b top : ℝ} (hb : 0 < b)
    (hp : ∀ p ∈ win, 0 < p.psf ∧ p.psf ≤ top) (h : ∀ p ∈ win, p.img = some (A * p.psf + b))
    (hne : win ≠ []) (fwhm : ℝ) :
    ∃ s, scale win = some s ∧ A + b / top ≤ s ∧
      ∀ p ∈ win, ∀ r, (if p.d < fwhm then none else some (A * p.psf + b - p.psf * s)) = some r →
        r < b := by
  obtain ⟨q, hq⟩ := List.exists_mem_of_ne_nil win hne
  obtain ⟨s, h1, h2, h3⟩ := scale_some (win := win) ⟨q, hq, by rw [h q hq]; rfl⟩
  have htop : 0 < top := lt_of_lt_of_le (hp q hq).1 (hp q hq).2
  have hlo : A + b / top ≤ s := by
    have key : ∀ x ∈ vals (win.map fun p => p.img.map (· / p.psf)), A + b / top ≤ x := by
      intro x hx
      obtain ⟨p, hpm, v, hv, rfl⟩ := mem_ratios.1 hx
      rw [h p hpm] at hv
      have := Option.some.inj hv
      subst this
      obtain ⟨h0, ht⟩ := hp p hpm
      have : (A * p.psf + b) / p.psf = A + b / p.psf := by
        field_simp
      rw [this]
      have : b / top ≤ b / p.psf := div_le_div_of_nonneg_left hb.le h0 ht
      linarith
    have hmed := median_spec _ h3
    by_contra hc
    push Not at hc
    rw [h2] at hc
    have hz : (vals (win.map fun p => p.img.map (· / p.psf))).countP
        (fun x => decide (x ≤ median (vals (win.map fun p => p.img.map (· / p.psf))))) = 0 := by
      rw [List.countP_eq_zero]
      intro x hx
      simp only [decide_eq_true_eq, not_le]
      linarith [key x hx]
    have hpos := List.length_pos_of_ne_nil h3
    have := hmed.1
    rw [hz] at this
    omega
  refine ⟨s, h1, hlo, ?_⟩
  intro p hpm r hr
  by_cases hd : p.d < fwhm
  · rw [if_pos hd] at hr; cases hr
  · rw [if_neg hd] at hr
    have := Option.some.inj hr
    subst this
    have h0 := (hp p hpm).1
    have hpb : 0 < b / top := div_pos hb htop
    nlinarith

/-- **C138.** What is finite afterwards: the finite pixels outside the core. -/
theorem C138_finite (fwhm : ℝ) (win : List WPix) (i : ℕ) (p : WPix) (hi : win[i]? = some p) :
    ∃ o, (subtract fwhm win)[i]? = some o ∧
      (o.isSome = true ↔ p.img.isSome = true ∧ fwhm ≤ p.d) := by
  unfold subtract
  refine ⟨_, by rw [List.getElem?_map, hi]; rfl, ?_⟩
  dsimp only
  by_cases hd : p.d < fwhm
  · rw [if_pos hd]
    simp only [Option.isSome_none, Bool.false_eq_true, false_iff, not_and, not_le]
    exact fun _ => hd
  · rw [if_neg hd]
    cases hv : p.img with
    | none => simp
    | some v =>
      have hmem : p ∈ win := List.mem_of_getElem? hi
      obtain ⟨s, h1, -⟩ := scale_some (win := win) ⟨p, hmem, by rw [hv]; rfl⟩
      rw [h1]
      simp
      linarith

theorem median_map_mul {k : ℝ} (hk : 0 < k) (l : List ℝ) :
    median (l.map (k * ·)) = k * median l := by
  have hs : (l.map (k * ·)).insertionSort (· ≤ ·) = (l.insertionSort (· ≤ ·)).map (k * ·) := by
    symm
    apply List.map_insertionSort
    intro a _ b _
    exact (mul_le_mul_iff_right₀ hk).symm
  unfold median
  dsimp only
  rw [hs]
  simp only [List.length_map]
  have hg : ∀ i : ℕ, (((l.insertionSort (· ≤ ·)).map (k * ·))[i]?).getD 0
      = k * ((l.insertionSort (· ≤ ·))[i]?).getD 0 := by
    intro i
    rw [List.getElem?_map]
    cases (l.insertionSort (· ≤ ·))[i]? <;> simp
  simp only [hg]
  split_ifs
  · rfl
  · ring

/-- **C138.** A brighter image gives the same picture: the result scales with the image. -/
theorem C138_homogeneous {k : ℝ} (hk : 0 < k) (fwhm : ℝ) (win : List WPix) :
    subtract fwhm (win.map fun p => { p with img := p.img.map (k * ·) })
      = (subtract fwhm win).map (Option.map (k * ·)) := by
  have hv : vals ((win.map fun p => ({ p with img := p.img.map (k * ·) } : WPix)).map
      fun p => p.img.map (· / p.psf))
      = (vals (win.map fun p => p.img.map (· / p.psf))).map (k * ·) := by
    unfold vals
    rw [List.map_map, List.filterMap_map, List.filterMap_map, List.map_filterMap]
    apply List.filterMap_congr
    intro p _
    simp only [Function.comp, id]
    cases p.img with
    | none => rfl
    | some v =>
      show some (k * v / p.psf) = some (k * (v / p.psf))
      rw [mul_div_assoc]
  have hs : scale (win.map fun p => { p with img := p.img.map (k * ·) })
      = (scale win).map (k * ·) := by
    unfold scale nanmedian
    rw [hv]
    by_cases h : vals (win.map fun p => p.img.map (· / p.psf)) = []
    · rw [if_pos h, if_pos (by rw [h]; rfl)]; rfl
    · rw [if_neg h, if_neg (by simpa using h), median_map_mul hk]; rfl
  unfold subtract
  rw [hs, List.map_map, List.map_map]
  apply List.map_congr_left
  intro p _
  simp only [Function.comp]
  by_cases hd : p.d < fwhm
  · rw [if_pos hd, if_pos hd]; rfl
  · rw [if_neg hd, if_neg hd]
    cases p.img with
    | none => rfl
    | some v =>
      cases scale win with
      | none => rfl
      | some s =>
        show some (k * v - p.psf * (k * s)) = some (k * (v - p.psf * s))
        congr 1
        ring

/-! ## Termination -/

/-- The window of a detection at `c`, for a PSF of `2 k + 1` by `2 k + 1` pixels, lies inside the
image (otherwise the subtraction fails, C73). -/
def Inside (k : ℕ) (f : Img) (c : ℕ × ℕ) : Prop :=
  k ≤ c.1 ∧ c.1 + k < f.h ∧ k ≤ c.2 ∧ c.2 + k < f.w

/-- The pixels of the window with the PSF and the distances (find_source.py 55-58, 65-67). -/
def window (k : ℕ) (psf : ℕ → ℕ → ℝ) (f : Img) (c : ℕ × ℕ) : List WPix :=
  (List.range (2 * k + 1)).flatMap fun a => (List.range (2 * k + 1)).map fun b =>
    { img := f.px (c.1 - k + a) (c.2 - k + b), psf := psf a b,
      d := √(((b : ℝ) - k) ^ 2 + ((a : ℝ) - k) ^ 2) }

/-- `psf_scalesub` for a window inside the image (find_source.py 41-73). -/
def scalesub (k : ℕ) (psf : ℕ → ℕ → ℝ) (fwhm : ℝ) (f : Img) (c : ℕ × ℕ) : Img :=
  { f with px := fun i j =>
      if c.1 - k ≤ i ∧ i ≤ c.1 + k ∧ c.2 - k ≤ j ∧ j ≤ c.2 + k then
        if √(((j : ℝ) - c.2) ^ 2 + ((i : ℝ) - c.1) ^ 2) < fwhm then none
        else match f.px i j, scale (window k psf f c) with
          | some v, some s => some (v - psf (i - (c.1 - k)) (j - (c.2 - k)) * s)
          | _, _ => none
      else f.px i j }

/-- **C138.** The whole-image subtraction is the subtraction of the window, pixel by pixel. -/
theorem C138_window {k : ℕ} (psf : ℕ → ℕ → ℝ) (fwhm : ℝ) {f : Img} {c : ℕ × ℕ}
    (hin : Inside k f c) : subtract fwhm (window k psf f c) =
      (List.range (2 * k + 1)).flatMap fun a => (List.range (2 * k + 1)).map fun b =>
        (scalesub k psf fwhm f c).px (c.1 - k + a) (c.2 - k + b) := by
  obtain ⟨h1, h2, h3, h4⟩ := hin
  unfold subtract
  conv_lhs => arg 2; unfold window
  rw [List.map_flatMap]
  apply List.flatMap_congr
  intro a ha
  rw [List.map_map]
  apply List.map_congr_left
  intro b hb
  rw [List.mem_range] at ha hb
  simp only [Function.comp, scalesub]
  rw [if_pos (⟨by omega, by omega, by omega, by omega⟩ :
    c.1 - k ≤ c.1 - k + a ∧ c.1 - k + a ≤ c.1 + k ∧ c.2 - k ≤ c.2 - k + b ∧ c.2 - k + b ≤ c.2 + k)]
  have e1 : ((c.1 - k + a : ℕ) : ℝ) - c.1 = a - k := by
    rw [Nat.cast_add, Nat.cast_sub h1]; ring
  have e2 : ((c.2 - k + b : ℕ) : ℝ) - c.2 = b - k := by
    rw [Nat.cast_add, Nat.cast_sub h3]; ring
  rw [e1, e2, Nat.add_sub_cancel_left, Nat.add_sub_cancel_left]

/-- **C138.** Outside the window nothing changes. -/
theorem C138_outside (k : ℕ) (psf : ℕ → ℕ → ℝ) (fwhm : ℝ) (f : Img) (c : ℕ × ℕ) {i j : ℕ}
    (h : i < c.1 - k ∨ c.1 + k < i ∨ j < c.2 - k ∨ c.2 + k < j) :
    (scalesub k psf fwhm f c).px i j = f.px i j := by
  unfold scalesub
  dsimp only
  rw [if_neg (by omega)]

/-- **C138.** A subtraction makes no pixel finite, and takes the pixel of the detection away. -/
theorem C138_removes {k : ℕ} (psf : ℕ → ℕ → ℝ) {fwhm : ℝ} (hf : 0 < fwhm) (f : Img) (c : ℕ × ℕ) :
    (scalesub k psf fwhm f c).finite ⊆ f.finite.erase c := by
  intro q hq
  obtain ⟨hr, hs⟩ := Finset.mem_filter.1 hq
  have hr' : q ∈ range f.h ×ˢ range f.w := hr
  have hc : q ≠ c := by
    rintro rfl
    unfold scalesub at hs
    dsimp only at hs
    rw [if_pos (by omega)] at hs
    simp [hf] at hs
  refine Finset.mem_erase.2 ⟨hc, Finset.mem_filter.2 ⟨hr', ?_⟩⟩
  cases hv : f.px q.1 q.2 with
  | some v => rfl
  | none =>
    exfalso
    unfold scalesub at hs
    dsimp only at hs
    rw [hv] at hs
    split_ifs at hs <;> cases hs

/-- **C138 (partial).** With a map that is NaN where the image is, the search ends after at most as
many detections as there are finite pixels, unless a maximum is exactly at the threshold (C73).
Missing: the map comes from pyKLIP, which is not modelled; the image is correlated with NaN replaced
by zero (find_source.py 19), and whether the map is NaN there is not visible here. -/
theorem C138_terminates_partial {thr : ℚ} {peak : Img → Option (ℚ × (ℕ × ℕ))} {k : ℕ}
    (psf : ℕ → ℕ → ℝ) {fwhm : ℝ} (hf : 0 < fwhm)
    (hp : ∀ f d, peak f = some d → d.2 ∈ f.finite)
    (hne : ∀ f d, peak f = some d → d.1 ≠ thr) (f : Img) :
    ∃ r, Corgi.Tda.detect thr peak (scalesub k psf fwhm) (f.finite.card + 1) f [] = some r := by
  apply Corgi.Tda.C73_terminates (fun g => g.finite.card) ?_ hne
  · exact Nat.lt_succ_self _
  · intro g d hd _
    have h1 := Finset.card_le_card (C138_removes psf hf g d.2 (k := k))
    have h2 := Finset.card_erase_lt_of_mem (hp g d hd)
    show (scalesub k psf fwhm g d.2).finite.card < g.finite.card
    omega

/-- **C138.** The assumption on the map is needed: one that stays above the threshold at the removed
pixel is searched forever. -/
theorem C138_map_needed {thr sn : ℚ} (h : thr < sn) {k : ℕ} (psf : ℕ → ℕ → ℝ) (fwhm : ℝ)
    (c : ℕ × ℕ) {peak : Img → Option (ℚ × (ℕ × ℕ))} (hp : ∀ f, peak f = some (sn, c)) (n : ℕ) :
    ∀ (f : Img) (l : List (ℚ × (ℕ × ℕ))),
      Corgi.Tda.detect thr peak (scalesub k psf fwhm) n f l = none := by
  induction n with
  | zero => intro f l; rfl
  | succ n ih =>
    intro f l
    unfold Corgi.Tda.detect
    rw [hp f]
    simp only [h, h.le, if_true, ih]

/-! Non-vacuity: a source of amplitude 3 on a one-pixel PSF, with and without background, and a
search that ends. -/

example : scale [⟨some (3 * 2), 2, 5⟩] = some 3 :=
  (C138_exact_partial (A := 3) (by simp) (by simp) (by simp) 1).1

example : ∃ s, scale [⟨some (3 * 2 + 1), 2, 5⟩] = some s ∧ 3 + (1 : ℝ) / 2 ≤ s := by
  obtain ⟨s, h1, h2, -⟩ := C138_violated_background (win := [⟨some (3 * 2 + 1), 2, 5⟩]) (A := 3)
    (b := 1) (top := 2) one_pos (by simp) (by simp) (by simp) 1
  exact ⟨s, h1, h2⟩

example : maskRadius true ⟨3, 3, fun _ _ => some 1⟩ = some 0 :=
  (C138_radius_zero _ (by norm_num) (by norm_num)).2 rfl

example : maskRadius true ⟨3, 3, fun _ _ => none⟩ = none :=
  (C138_violated_blank _).2 (by simp [Img.finite])

example : ∃ r, Corgi.Tda.detect 5 (fun f : Img => if (0, 0) ∈ f.finite then some (6, (0, 0)) else none)
    (scalesub 0 (fun _ _ => 1) 1) 2 ⟨1, 1, fun _ _ => some 9⟩ [] = some r := by
  classical
  have hc : (Img.finite ⟨1, 1, fun _ _ => some 9⟩).card = 1 := by simp [Img.finite]
  have := C138_terminates_partial (thr := 5) (k := 0)
    (peak := fun f : Img => if (0, 0) ∈ f.finite then some (6, (0, 0)) else none)
    (fun _ _ => 1) one_pos (fun f d h => by
      by_cases hm : (0, 0) ∈ f.finite
      · rw [if_pos hm] at h
        have := Option.some.inj h
        subst this
        exact hm
      · rw [if_neg hm] at h; cases h) (fun f d h => by
      by_cases hm : (0, 0) ∈ f.finite
      · rw [if_pos hm] at h
        have := Option.some.inj h
        subst this
        norm_num
      · rw [if_neg hm] at h; cases h) ⟨1, 1, fun _ _ => some 9⟩
  rw [hc] at this
  exact this

end

/-! ## The header cards -/

/-- Decimal digits of a number. -/
def digitsOf (n : ℕ) : List Char :=
  if n = 0 then ['0'] else ((Nat.digits 10 n).map Nat.digitChar).reverse

/-- `{n:4d}` (blanks) and `{n:03d}` (zeros). -/
def padTo (c : Char) (k : ℕ) (ds : List Char) : List Char := List.replicate (k - ds.length) c ++ ds

/-- `f'snyx{i:03d}'` (l4_to_tda.py 491). -/
def cardName (i : ℕ) : List Char := "snyx".toList ++ padTo '0' 3 (digitsOf i)

/-- `f'{sn:5.1f},{y:4d},{x:4d}'` for the text `sn` of the significance. -/
def cardText (sn : List Char) (y x : ℕ) : List Char :=
  sn ++ ',' :: (padTo ' ' 4 (digitsOf y) ++ ',' :: padTo ' ' 4 (digitsOf x))

/-- `str.split(c)`. -/
def split (c : Char) : List Char → List (List Char)
  | [] => [[]]
  | x :: xs =>
    if x = c then [] :: split c xs
    else match split c xs with
      | [] => [[x]]
      | a :: l => (x :: a) :: l

/-- `float(part)` for a whole number with blanks in front. -/
def number (part : List Char) : Option ℕ := Corgi.Sorting.FrameId.toInt (part.dropWhile (· = ' '))

/-- The position read from a card (measure_companions.py 249-254). -/
def position (text : List Char) : Option (ℕ × ℕ) :=
  match split ',' text with
  | _ :: y :: x :: _ => do
    let y ← number y
    let x ← number x
    pure (y, x)
  | _ => none

theorem split_of_not_mem {c : Char} : ∀ {a : List Char}, c ∉ a → split c a = [a]
  | [], _ => rfl
  | x :: xs, h => by
    rw [split, if_neg (fun e => h (by rw [e]; simp)),
      split_of_not_mem (fun hx => h (List.mem_cons_of_mem _ hx))]

theorem split_append {c : Char} {b : List Char} : ∀ {a : List Char}, c ∉ a →
    split c (a ++ c :: b) = a :: split c b
  | [], _ => by rw [List.nil_append, split, if_pos rfl]
  | x :: xs, h => by
    rw [List.cons_append, split, if_neg (fun e => h (by rw [e]; simp)),
      split_append (fun hx => h (List.mem_cons_of_mem _ hx))]

theorem digitChar_facts : ∀ d, d < 10 → (Nat.digitChar d).isDigit = true ∧
    (Nat.digitChar d).toNat - '0'.toNat = d := by decide +kernel

theorem value_append (a : List Char) (c : Char) : Corgi.Sorting.FrameId.value (a ++ [c])
    = 10 * Corgi.Sorting.FrameId.value a + (c.toNat - '0'.toNat) := by
  unfold Corgi.Sorting.FrameId.value
  rw [List.foldl_append]
  rfl

theorem value_digits : ∀ {l : List ℕ}, (∀ d ∈ l, d < 10) →
    Corgi.Sorting.FrameId.value (l.map Nat.digitChar).reverse = Nat.ofDigits 10 l
  | [], _ => rfl
  | d :: l, h => by
    rw [List.map_cons, List.reverse_cons, value_append,
      value_digits (fun e he => h e (List.mem_cons_of_mem _ he)), Nat.ofDigits_cons,
      (digitChar_facts d (h d (by simp))).2]
    ring

theorem value_digitsOf (n : ℕ) : Corgi.Sorting.FrameId.value (digitsOf n) = n := by
  unfold digitsOf
  by_cases h : n = 0
  · rw [if_pos h, h]; decide +kernel
  · rw [if_neg h, value_digits (fun d hd => Nat.digits_lt_base (by norm_num) hd),
      Nat.ofDigits_digits]

theorem digitsOf_digit (n : ℕ) : ∀ c ∈ digitsOf n, c.isDigit = true := by
  unfold digitsOf
  by_cases h : n = 0
  · rw [if_pos h]; decide +kernel
  · rw [if_neg h]
    intro c hc
    rw [List.mem_reverse, List.mem_map] at hc
    obtain ⟨d, hd, rfl⟩ := hc
    exact (digitChar_facts d (Nat.digits_lt_base (by norm_num) hd)).1

theorem digitsOf_ne_nil (n : ℕ) : digitsOf n ≠ [] := by
  unfold digitsOf
  by_cases h : n = 0
  · rw [if_pos h]; simp
  · rw [if_neg h]
    simpa [Nat.digits_eq_nil_iff_eq_zero] using h

theorem toInt_digitsOf (n : ℕ) : Corgi.Sorting.FrameId.toInt (digitsOf n) = some n := by
  unfold Corgi.Sorting.FrameId.toInt
  rw [if_pos ⟨digitsOf_ne_nil n, digitsOf_digit n⟩, value_digitsOf]

theorem number_pad (k n : ℕ) : number (padTo ' ' k (digitsOf n)) = some n := by
  unfold number padTo
  have h1 : ∀ m, (List.replicate m ' ' ++ digitsOf n).dropWhile (· = ' ') = digitsOf n := by
    intro m
    induction m with
    | zero =>
      rw [List.replicate_zero, List.nil_append]
      obtain ⟨c, cs, hc⟩ := List.exists_cons_of_ne_nil (digitsOf_ne_nil n)
      have hd := digitsOf_digit n c (by rw [hc]; simp)
      rw [hc, List.dropWhile_cons, if_neg]
      simp only [decide_eq_true_eq]
      rintro rfl
      exact absurd hd (by decide +kernel)
    | succ m ih =>
      rw [List.replicate_succ, List.cons_append, List.dropWhile_cons, if_pos (by simp)]
      exact ih
  rw [h1, toInt_digitsOf]

theorem comma_pad (c : Char) (hc : c ≠ ',') (k n : ℕ) : ',' ∉ padTo c k (digitsOf n) := by
  unfold padTo
  rw [List.mem_append]
  rintro (h | h)
  · exact hc (List.eq_of_mem_replicate h).symm
  · exact absurd (digitsOf_digit n _ h) (by decide +kernel)

/-- **C138.** Every position is read back from its card as it was written, in the order y, x,
whatever its size. -/
theorem C138_card {sn : List Char} (h : ',' ∉ sn) (y x : ℕ) :
    position (cardText sn y x) = some (y, x) := by
  unfold position cardText
  rw [split_append h, split_append (comma_pad ' ' (by decide +kernel) 4 y),
    split_of_not_mem (comma_pad ' ' (by decide +kernel) 4 x)]
  dsimp only
  rw [number_pad, number_pad]
  rfl

theorem value_replicate (k : ℕ) (ds : List Char) :
    Corgi.Sorting.FrameId.value (List.replicate k '0' ++ ds) = Corgi.Sorting.FrameId.value ds := by
  induction k with
  | zero => rfl
  | succ k ih =>
    rw [List.replicate_succ, List.cons_append, ← ih]
    unfold Corgi.Sorting.FrameId.value
    rw [List.foldl_cons]
    rfl

/-- **C138.** Different sources have different cards. -/
theorem C138_names {i j : ℕ} (h : cardName i = cardName j) : i = j := by
  unfold cardName padTo at h
  have h' := List.append_cancel_left h
  have hv := congrArg Corgi.Sorting.FrameId.value h'
  rw [value_replicate, value_replicate, value_digitsOf, value_digitsOf] at hv
  exact hv

/-- **C138.** The name has seven letters for the first thousand sources, and fits into the eight letters of a FITS keyword for exactly the
first ten thousand. -/
theorem C138_name_length (i : ℕ) : ((cardName i).length = 7 ↔ i < 10 ^ 3) ∧ ((cardName i).length ≤ 8 ↔ i < 10 ^ 4) := by
  have hlen : ∀ k, 1 ≤ k → ((digitsOf i).length ≤ k ↔ i < 10 ^ k) := by
    intro k hk
    unfold digitsOf
    split_ifs with h
    · subst h
      simpa using hk
    · rw [List.length_reverse, List.length_map]
      exact Nat.digits_length_le_iff (by norm_num) i
  have h3 := hlen 3 (by norm_num)
  have h4 := hlen 4 (by norm_num)
  have hl : (cardName i).length = 4 + (3 - (digitsOf i).length + (digitsOf i).length) := by
    unfold cardName padTo
    rw [List.length_append, List.length_append, List.length_replicate]
    rfl
  rw [← h3, ← h4, hl]
  omega

example : cardName 7 = "snyx007".toList := by decide +kernel
example : cardText " 12.3".toList 50 1023 = " 12.3,  50,1023".toList := by decide +kernel

/-- The cards after a search: `hdr i` is the card of source `i` in the input (the header is
copied, l4_to_tda.py 448, 489-491). -/
def cards {V : Type} (hdr : ℕ → Option V) (found : List V) (i : ℕ) : Option V :=
  match found[i]? with
  | some v => some v
  | none => hdr i

/-- **C138 (partial).** The header lists exactly the sources found if and only if the input had no
cards beyond their number. -/
theorem C138_cards_partial {V : Type} (hdr : ℕ → Option V) (found : List V) :
    (∀ i, cards hdr found i = found[i]?) ↔ ∀ i, found.length ≤ i → hdr i = none := by
  constructor
  · intro h i hi
    have := h i
    unfold cards at this
    rw [List.getElem?_eq_none hi] at this
    exact this
  · intro h i
    unfold cards
    cases hf : found[i]? with
    | some v => rfl
    | none => exact h i (List.getElem?_eq_none_iff.1 hf)

/-- **C138, violated.** Searching an image again with a higher threshold leaves the sources of the
first search in the header. -/
theorem C138_violated_stale {V : Type} (first : List V) (v : V) (i : ℕ) (h : first[i]? = some v) :
    cards (cards (fun _ => none) first) [] i = some v := by
  unfold cards
  simp [h]

end Corgi.SnMap

import Verif.L2a.Dq
import Verif.Common.Nan
import Mathlib.Algebra.Order.BigOperators.Group.Finset
import Mathlib.Algebra.BigOperators.Fin
import Mathlib.Algebra.Order.Chebyshev
import Mathlib.Tactic.Positivity
import Mathlib.Tactic.FieldSimp

/-!
# Bad pixel maps (bad_pixel_calibration.py, `correct_bad_pixels`): model, C40 and C59

Values are `Option ℝ`, `none` = NaN. The master dark is taken as given (a synthesized one is C58). Headers, file names and
provenance are C19. The flat and the dark have the same shape (otherwise numpy raises IndexError).
-/

noncomputable section

namespace Corgi.BadPix

open Finset

/-- A two-dimensional image. -/
structure Im where
  rows : ℕ
  cols : ℕ
  px : ℕ → ℕ → Option ℝ

/-! ## Model -/

/-- The values of the list if none is NaN. -/
def allSome (l : List (Option ℝ)) : Option (List ℝ) := if l.all Option.isSome then some (l.filterMap id) else none

/-- `np.mean`: NaN if a value is NaN or there is none. -/
def npMean (l : List (Option ℝ)) : Option ℝ := match allSome l with
  | none => none
  | some v => if v = [] then none else some (v.sum / v.length)

/-- `np.std` -/
def npStd (l : List (Option ℝ)) : Option ℝ := match allSome l with
  | none => none
  | some v => if v = [] then none
    else some (Real.sqrt ((v.map fun x => (x - v.sum / v.length) ^ 2).sum / v.length))

/-- All values of an image in row order. -/
def flatten (im : Im) : List (Option ℝ) :=
  (List.range im.rows).flatMap fun r => (List.range im.cols).map fun c => im.px r c

open Classical in
/-- comparison of floats: False with NaN -/
def lt : Option ℝ → Option ℝ → Bool
  | some a, some b => decide (a < b)
  | _, _ => false

/-- line 80: `np.mean(dark) + dthresh*np.std(dark)` -/
def hotLevel (dthresh : ℝ) (dark : Im) : Option ℝ := match npMean (flatten dark), npStd (flatten dark) with
  | some m, some s => some (m + dthresh * s)
  | _, _ => none

/-- `detect_hot_warm_pixels_from_dark`, lines 60-82 -/
def hot (dthresh : ℝ) (dark : Im) (r c : ℕ) : Bool := lt (hotLevel dthresh dark) (dark.px r c)

/-- lines 119-125: `tmpr[rind]` -/
def boxIdx (fwidth n r : ℕ) : List ℕ :=
  (((List.range fwidth).map fun i : ℕ => (i : ℤ) - (fwidth / 2 : ℕ) + r).filter fun z : ℤ => decide (0 ≤ z ∧ z < n)).map
    Int.toNat

/-- lines 128-130 -/
def localMean (fwidth : ℕ) (flat : Im) (r c : ℕ) : Option ℝ :=
  npMean ((boxIdx fwidth flat.rows r).flatMap fun i => (boxIdx fwidth flat.cols c).map fun j => flat.px i j)

/-- `detect_dead_pixels_from_flat`, lines 85-138 -/
def dead (ffrac : ℝ) (fwidth : ℕ) (flat : Im) (r c : ℕ) : Bool :=
  lt (flat.px r c) ((localMean fwidth flat r c).map (ffrac * ·))

/-- `create_bad_pixel_map`, lines 31-45 -/
def badMap (dthresh ffrac : ℝ) (fwidth : ℕ) (dark flat : Im) : Dq.Map := fun p =>
  (if hot dthresh dark p.1 p.2 then 8 else 0) ||| (if dead ffrac fwidth flat p.1 p.2 then 4 else 0)

/-- `correct_bad_pixels`, l2a_to_l2b.py 369-385, for the data; the flags are `Dq.Step.badPix`. -/
def correctData (bp q : Dq.Map) (data : ℕ → ℕ → Option ℝ) (r c : ℕ) : Option ℝ :=
  if Dq.u8 (q (r, c)) ||| Dq.u8 (bp (r, c)) ≠ 0 then none else data r c

/-! ## Specification -/

/-- Image without NaN. -/
def Finite (im : Im) (v : ℕ → ℕ → ℝ) : Prop := ∀ r < im.rows, ∀ c < im.cols, im.px r c = some (v r c)

/-- The pixels of an image. -/
def pixels (im : Im) : Finset (ℕ × ℕ) := range im.rows ×ˢ range im.cols

def avg (s : Finset (ℕ × ℕ)) (v : ℕ → ℕ → ℝ) : ℝ := (∑ p ∈ s, v p.1 p.2) / s.card

/-- The variance over all pixels. -/
def variance (s : Finset (ℕ × ℕ)) (v : ℕ → ℕ → ℝ) : ℝ := (∑ p ∈ s, (v p.1 p.2 - avg s v) ^ 2) / s.card

/-- The box of `fwidth` pixels, `fwidth/2` of them before the pixel, cut off at the edges. -/
def box (fwidth : ℕ) (im : Im) (r c : ℕ) : Finset (ℕ × ℕ) :=
  (pixels im).filter fun p => (r ≤ p.1 + fwidth / 2 ∧ p.1 + fwidth / 2 < r + fwidth) ∧
    (c ≤ p.2 + fwidth / 2 ∧ p.2 + fwidth / 2 < c + fwidth)

def IsHot (dthresh : ℝ) (dark : Im) (v : ℕ → ℕ → ℝ) (r c : ℕ) : Prop :=
  avg (pixels dark) v + dthresh * Real.sqrt (variance (pixels dark) v) < v r c

def IsDead (ffrac : ℝ) (fwidth : ℕ) (flat : Im) (v : ℕ → ℕ → ℝ) (r c : ℕ) : Prop :=
  v r c < ffrac * avg (box fwidth flat r c) v

/-! ## Proofs -/

theorem allSome_map {ι : Type} (l : List ι) (f : ι → Option ℝ) (g : ι → ℝ) (h : ∀ i ∈ l, f i = some (g i)) :
    allSome (l.map f) = some (l.map g) := by
  unfold allSome
  rw [if_pos]
  · congr 1
    rw [List.filterMap_map]
    induction l with
    | nil => rfl
    | cons a l ih =>
      rw [List.filterMap_cons, Function.comp, h a (by simp)]
      simp only [id, List.map_cons]
      rw [← ih fun i hi => h i (by simp [hi])]
  · rw [List.all_eq_true]
    intro x hx
    obtain ⟨i, hi, rfl⟩ := List.mem_map.1 hx
    rw [h i hi]; rfl

/-- The rectangle of two index lists, in row order. -/
def rect (a b : List ℕ) : List (ℕ × ℕ) := a.flatMap fun r => b.map fun c => (r, c)

theorem rect_map (a b : List ℕ) {γ : Type} (f : ℕ → ℕ → γ) :
    (a.flatMap fun r => b.map fun c => f r c) = (rect a b).map fun p => f p.1 p.2 := by
  unfold rect
  rw [List.map_flatMap]
  congr 1
  funext r
  rw [List.map_map]; rfl

theorem rect_nodup {a b : List ℕ} (ha : a.Nodup) (hb : b.Nodup) : (rect a b).Nodup := by
  have : rect a b = a ×ˢ b := rfl
  rw [this]
  exact ha.product hb

theorem mem_rect {a b : List ℕ} {p : ℕ × ℕ} : p ∈ rect a b ↔ p.1 ∈ a ∧ p.2 ∈ b := by
  unfold rect
  simp only [List.mem_flatMap, List.mem_map]
  constructor
  · rintro ⟨r, hr, c, hc, rfl⟩; exact ⟨hr, hc⟩
  · rintro ⟨h1, h2⟩; exact ⟨p.1, h1, p.2, h2, rfl⟩

theorem sum_rect {a b : List ℕ} (ha : a.Nodup) (hb : b.Nodup) {s : Finset (ℕ × ℕ)} (hs : ∀ p, p ∈ s ↔ p.1 ∈ a ∧ p.2 ∈ b)
    (f : ℕ × ℕ → ℝ) : ((rect a b).map f).sum = ∑ p ∈ s, f p ∧ (rect a b).length = s.card := by
  have : s = (rect a b).toFinset := by
    ext p; rw [hs, List.mem_toFinset, mem_rect]
  subst this
  exact ⟨(List.sum_toFinset f (rect_nodup ha hb)).symm, (List.toFinset_card_of_nodup (rect_nodup ha hb)).symm⟩

theorem npMean_rect {a b : List ℕ} (ha : a.Nodup) (hb : b.Nodup) {s : Finset (ℕ × ℕ)} (hs : ∀ p, p ∈ s ↔ p.1 ∈ a ∧ p.2 ∈ b)
    (hne : s.Nonempty) (f : ℕ → ℕ → Option ℝ) (v : ℕ → ℕ → ℝ) (h : ∀ p ∈ s, f p.1 p.2 = some (v p.1 p.2)) :
    npMean (a.flatMap fun r => b.map fun c => f r c) = some (avg s v) := by
  have h1 := sum_rect ha hb hs fun p => v p.1 p.2
  rw [rect_map]
  unfold npMean
  rw [allSome_map _ _ (fun p => v p.1 p.2) (fun p hp => h p ((hs p).2 (mem_rect.1 hp)))]
  dsimp only
  rw [if_neg, List.length_map, h1.1, h1.2]; rfl
  intro hnil
  rw [List.map_eq_nil_iff] at hnil
  rw [hnil] at h1
  have := hne.card_pos
  rw [← h1.2] at this
  simp at this

theorem npStd_rect {a b : List ℕ} (ha : a.Nodup) (hb : b.Nodup) {s : Finset (ℕ × ℕ)} (hs : ∀ p, p ∈ s ↔ p.1 ∈ a ∧ p.2 ∈ b)
    (hne : s.Nonempty) (f : ℕ → ℕ → Option ℝ) (v : ℕ → ℕ → ℝ) (h : ∀ p ∈ s, f p.1 p.2 = some (v p.1 p.2)) :
    npStd (a.flatMap fun r => b.map fun c => f r c) = some (Real.sqrt (variance s v)) := by
  have h1 := sum_rect ha hb hs fun p => v p.1 p.2
  have h2 := sum_rect ha hb hs fun p => (v p.1 p.2 - avg s v) ^ 2
  rw [rect_map]
  unfold npStd
  rw [allSome_map _ _ (fun p => v p.1 p.2) (fun p hp => h p ((hs p).2 (mem_rect.1 hp)))]
  dsimp only
  rw [if_neg, List.length_map, h1.1, h1.2, List.map_map]
  · unfold variance
    rw [← h2.1]; rfl
  · intro hnil
    rw [List.map_eq_nil_iff] at hnil
    rw [hnil] at h1
    have := hne.card_pos
    rw [← h1.2] at this
    simp at this

theorem mem_pixels {im : Im} {p : ℕ × ℕ} : p ∈ pixels im ↔ p.1 < im.rows ∧ p.2 < im.cols := by
  simp [pixels]

theorem pixels_range (im : Im) (p : ℕ × ℕ) : p ∈ pixels im ↔ p.1 ∈ List.range im.rows ∧ p.2 ∈ List.range im.cols := by
  rw [mem_pixels]; simp

theorem hotLevel_eq {im : Im} {v : ℕ → ℕ → ℝ} (h : Finite im v) (hne : (pixels im).Nonempty) (d : ℝ) :
    hotLevel d im = some (avg (pixels im) v + d * Real.sqrt (variance (pixels im) v)) := by
  have hf : ∀ p ∈ pixels im, im.px p.1 p.2 = some (v p.1 p.2) := fun p hp =>
    h _ (mem_pixels.1 hp).1 _ (mem_pixels.1 hp).2
  unfold hotLevel flatten
  rw [npMean_rect List.nodup_range List.nodup_range (pixels_range im) hne im.px v hf,
    npStd_rect List.nodup_range List.nodup_range (pixels_range im) hne im.px v hf]

/-- **C40** Hot pixels: exactly those above the mean by more than `dthresh` standard deviations. -/
theorem C40_hot_iff {dark : Im} {v : ℕ → ℕ → ℝ} (h : Finite dark v) (d : ℝ) {r c : ℕ} (hr : r < dark.rows)
    (hc : c < dark.cols) : hot d dark r c = true ↔ IsHot d dark v r c := by
  unfold hot IsHot
  rw [hotLevel_eq h ⟨(r, c), mem_pixels.2 ⟨hr, hc⟩⟩, h r hr c hc]
  simp [lt]

theorem boxIdx_nodup (w n r : ℕ) : (boxIdx w n r).Nodup := by
  unfold boxIdx
  apply List.Nodup.map_on
  · intro x hx y hy hxy
    have hx := (List.mem_filter.1 hx).2
    have hy := (List.mem_filter.1 hy).2
    simp only [decide_eq_true_eq] at hx hy
    omega
  · apply List.Nodup.filter
    apply List.Nodup.map_on _ List.nodup_range
    intro x _ y _ hxy
    omega

theorem mem_boxIdx {w n r i : ℕ} : i ∈ boxIdx w n r ↔ i < n ∧ r ≤ i + w / 2 ∧ i + w / 2 < r + w := by
  unfold boxIdx
  simp only [List.mem_map, List.mem_filter, List.mem_range, decide_eq_true_eq]
  constructor
  · rintro ⟨z, ⟨⟨k, hk, rfl⟩, h0, hn⟩, rfl⟩
    omega
  · rintro ⟨h1, h2, h3⟩
    exact ⟨i, ⟨⟨i + w / 2 - r, by omega, by omega⟩, by omega, by omega⟩, by omega⟩

theorem mem_box {w : ℕ} {im : Im} {r c : ℕ} {p : ℕ × ℕ} :
    p ∈ box w im r c ↔ p.1 ∈ boxIdx w im.rows r ∧ p.2 ∈ boxIdx w im.cols c := by
  unfold box
  rw [Finset.mem_filter, mem_pixels, mem_boxIdx, mem_boxIdx]
  tauto

theorem self_mem_box {w : ℕ} (hw : 0 < w) {im : Im} {r c : ℕ} (hr : r < im.rows) (hc : c < im.cols) :
    (r, c) ∈ box w im r c := by
  rw [mem_box, mem_boxIdx, mem_boxIdx]
  dsimp only
  omega

theorem localMean_eq {im : Im} {v : ℕ → ℕ → ℝ} {w r c : ℕ} (h : ∀ p ∈ box w im r c, im.px p.1 p.2 = some (v p.1 p.2))
    (hne : (box w im r c).Nonempty) : localMean w im r c = some (avg (box w im r c) v) :=
  npMean_rect (boxIdx_nodup _ _ _) (boxIdx_nodup _ _ _) (fun _ => mem_box) hne im.px v h

/-- **C40** Dead pixels: exactly those below the fraction `ffrac` of the mean of the box. -/
theorem C40_dead_iff {flat : Im} {v : ℕ → ℕ → ℝ} (h : Finite flat v) (ffrac : ℝ) {w r c : ℕ} (hw : 0 < w)
    (hr : r < flat.rows) (hc : c < flat.cols) : dead ffrac w flat r c = true ↔ IsDead ffrac w flat v r c := by
  unfold dead IsDead
  rw [localMean_eq (v := v) (fun p hp => ?_) ⟨_, self_mem_box hw hr hc⟩, h r hr c hc]
  · simp [lt]
  · have := (Finset.mem_filter.1 hp).1
    exact h _ (mem_pixels.1 this).1 _ (mem_pixels.1 this).2

/-- **C40** The map: bit 3 (value 8) is hot, bit 2 (value 4) is dead, no other bit is ever set. -/
theorem C40_map {dark flat : Im} {vd vf : ℕ → ℕ → ℝ} (hd : Finite dark vd) (hf : Finite flat vf) (dthresh ffrac : ℝ)
    {w r c : ℕ} (hw : 0 < w) (hr : r < dark.rows) (hc : c < dark.cols) (hs : flat.rows = dark.rows ∧ flat.cols = dark.cols)
    (b : ℕ) : (badMap dthresh ffrac w dark flat (r, c)).testBit b = true ↔
      (b = 3 ∧ IsHot dthresh dark vd r c) ∨ (b = 2 ∧ IsDead ffrac w flat vf r c) := by
  rw [← C40_hot_iff hd dthresh hr hc, ← C40_dead_iff hf ffrac hw (hs.1 ▸ hr) (hs.2 ▸ hc)]
  unfold badMap
  rw [Nat.testBit_or, Bool.or_eq_true]
  have e8 : (8 : ℕ).testBit b = decide (b = 3) := by
    rw [show (8 : ℕ) = 2 ^ 3 from rfl, Nat.testBit_two_pow]; simp [eq_comm]
  have e4 : (4 : ℕ).testBit b = decide (b = 2) := by
    rw [show (4 : ℕ) = 2 ^ 2 from rfl, Nat.testBit_two_pow]; simp [eq_comm]
  dsimp only
  cases hot dthresh dark r c <;> cases dead ffrac w flat r c <;> simp [e8, e4]

/-- The bits are those of the named flags. -/
theorem C40_flags : Dq.flagBit "hot_pixel" = some 3 ∧ Dq.flagBit "bad_pixel" = some 2 := by decide +kernel

/-- **C40** `correct_bad_pixels`: NaN exactly where there is a flag in the low byte of either map, or NaN before. -/
theorem C40_correct_partial (bp q : Dq.Map) (data : ℕ → ℕ → Option ℝ) (r c : ℕ) (hq : q (r, c) < 256) (hb : bp (r, c) < 256) :
    (correctData bp q data r c = none ↔ (q (r, c) ≠ 0 ∨ bp (r, c) ≠ 0) ∨ data r c = none) ∧
      (q (r, c) = 0 ∧ bp (r, c) = 0 → correctData bp q data r c = data r c) := by
  unfold correctData Dq.u8
  rw [Nat.mod_eq_of_lt hq, Nat.mod_eq_of_lt hb]
  have : q (r, c) ||| bp (r, c) ≠ 0 ↔ q (r, c) ≠ 0 ∨ bp (r, c) ≠ 0 := by
    rw [Ne, Nat.or_eq_zero_iff]; tauto
  split_ifs with h <;> rw [this] at h
  · exact ⟨by simp [h], fun h' => by rcases h with h | h; exacts [absurd h'.1 h, absurd h'.2 h]⟩
  · exact ⟨by tauto, fun _ => rfl⟩

/-- **C40** is violated for pixels whose only flag is 256: they keep their value. -/
theorem C40_violated (data : ℕ → ℕ → Option ℝ) (r c : ℕ) :
    correctData (fun _ => 0) (fun _ => 256) data r c = data r c := by
  simp [correctData, Dq.u8]

theorem badMap_lt (dthresh ffrac : ℝ) (w : ℕ) (dark flat : Im) (p : ℕ × ℕ) : badMap dthresh ffrac w dark flat p < 256 := by
  unfold badMap
  cases hot dthresh dark p.1 p.2 <;> cases dead ffrac w flat p.1 p.2 <;> decide

/-- **C40** Both together: a pixel without a flag is replaced exactly if it is hot or dead. -/
theorem C40_pipeline {dark flat : Im} {vd vf : ℕ → ℕ → ℝ} (hd : Finite dark vd) (hf : Finite flat vf) (dthresh ffrac : ℝ)
    {w r c : ℕ} (hw : 0 < w) (hr : r < dark.rows) (hc : c < dark.cols) (hs : flat.rows = dark.rows ∧ flat.cols = dark.cols)
    (q : Dq.Map) (hq : q (r, c) = 0) (data : ℕ → ℕ → Option ℝ) (hdata : data r c ≠ none) :
    correctData (badMap dthresh ffrac w dark flat) q data r c = none ↔
      IsHot dthresh dark vd r c ∨ IsDead ffrac w flat vf r c := by
  rw [(C40_correct_partial _ q data r c (by rw [hq]; decide) (badMap_lt _ _ _ _ _ _)).1]
  have hmap := C40_map hd hf dthresh ffrac hw hr hc hs
  constructor
  · rintro ((h | h) | h)
    · exact absurd hq h
    · by_contra hcon
      push Not at hcon
      apply h
      apply Nat.eq_of_testBit_eq
      intro b
      rw [Nat.zero_testBit]
      by_contra hb
      rw [Bool.not_eq_false] at hb
      rcases (hmap b).1 hb with ⟨_, h1⟩ | ⟨_, h1⟩
      exacts [hcon.1 h1, hcon.2 h1]
    · exact absurd h hdata
  · intro h
    refine Or.inl (Or.inr fun h0 => ?_)
    rcases h with h | h
    · have := (hmap 3).2 (Or.inl ⟨rfl, h⟩)
      rw [h0] at this; simp at this
    · have := (hmap 2).2 (Or.inr ⟨rfl, h⟩)
      rw [h0] at this; simp at this

open Classical in
/-- **C40** However the dark looks, at most a fraction `1/dthresh²` of the pixels is hot (4% for the default of 5). -/
theorem C40_hot_fraction (dark : Im) (v : ℕ → ℕ → ℝ) {d : ℝ} (hd : 0 ≤ d) :
    (((pixels dark).filter fun p => IsHot d dark v p.1 p.2).card : ℝ) * d ^ 2 ≤ (pixels dark).card := by
  set s := pixels dark with hs
  set H := s.filter fun p => IsHot d dark v p.1 p.2 with hH
  rcases s.eq_empty_or_nonempty with he | hne
  · simp [hH, he]
  have hN : (0 : ℝ) < s.card := by exact_mod_cast hne.card_pos
  have hV : 0 ≤ variance s v := by
    unfold variance
    exact div_nonneg (sum_nonneg fun _ _ => sq_nonneg _) hN.le
  have hsum : ∑ p ∈ s, (v p.1 p.2 - avg s v) ^ 2 = s.card * variance s v := by
    unfold variance; field_simp
  have hle : ∑ p ∈ H, (v p.1 p.2 - avg s v) ^ 2 ≤ s.card * variance s v := by
    rw [← hsum]
    exact sum_le_sum_of_subset_of_nonneg (filter_subset _ _) fun _ _ _ => sq_nonneg _
  have hlow : H.card * (d ^ 2 * variance s v) ≤ ∑ p ∈ H, (v p.1 p.2 - avg s v) ^ 2 := by
    rw [← nsmul_eq_mul]
    apply card_nsmul_le_sum
    intro p hp
    have hp := (Finset.mem_filter.1 hp).2
    unfold IsHot at hp
    rw [← hs] at hp
    have h1 : d * Real.sqrt (variance s v) ≤ v p.1 p.2 - avg s v := by linarith
    calc d ^ 2 * variance s v = (d * Real.sqrt (variance s v)) ^ 2 := by rw [mul_pow, Real.sq_sqrt hV]
      _ ≤ _ := pow_le_pow_left₀ (by positivity) h1 2
  rcases hV.eq_or_lt with h0 | h0
  · -- variance zero: no pixel is hot
    have hemp : H = ∅ := by
      by_contra hcon
      obtain ⟨p, hp⟩ := Finset.nonempty_of_ne_empty hcon
      have hp1 := (Finset.mem_filter.1 hp).1
      have hp2 := (Finset.mem_filter.1 hp).2
      unfold IsHot at hp2
      rw [← hs, ← h0, Real.sqrt_zero, mul_zero, add_zero] at hp2
      rw [← h0, mul_zero] at hsum
      have := (sum_eq_zero_iff_of_nonneg fun _ _ => sq_nonneg _).1 hsum p hp1
      have : v p.1 p.2 - avg s v = 0 := by simpa using this
      linarith
    rw [hemp]; simp
  · have := hlow.trans hle
    have : (H.card * d ^ 2) * variance s v ≤ s.card * variance s v := by linarith
    exact le_of_mul_le_mul_right this h0

/-- **C40** A pixel of a flat is never dead if it is the brightest, for a fraction of at most one and a positive mean:
there is always a good pixel. -/
theorem C40_brightest_alive (flat : Im) (v : ℕ → ℕ → ℝ) {ffrac : ℝ} (h1 : ffrac ≤ 1) {w r c : ℕ} (hw : 0 < w)
    (hr : r < flat.rows) (hc : c < flat.cols) (hmax : ∀ p ∈ box w flat r c, v p.1 p.2 ≤ v r c)
    (hpos : 0 ≤ avg (box w flat r c) v) : ¬ IsDead ffrac w flat v r c := by
  unfold IsDead
  rw [not_lt]
  have hne : (box w flat r c).Nonempty := ⟨_, self_mem_box hw hr hc⟩
  have hN : (0 : ℝ) < (box w flat r c).card := by exact_mod_cast hne.card_pos
  have : avg (box w flat r c) v ≤ v r c := by
    unfold avg
    rw [div_le_iff₀ hN]
    calc _ ≤ ∑ _p ∈ box w flat r c, v r c := sum_le_sum hmax
      _ = _ := by rw [sum_const, nsmul_eq_mul, mul_comm]
  nlinarith

/-- **C40** A pixel without response is dead if the box has any. -/
theorem C40_zero_dead (flat : Im) (v : ℕ → ℕ → ℝ) {ffrac : ℝ} (h0 : 0 < ffrac) {w r c : ℕ} (hz : v r c ≤ 0)
    (hpos : 0 < avg (box w flat r c) v) : IsDead ffrac w flat v r c := by
  unfold IsDead
  have : 0 < ffrac * avg (box w flat r c) v := by positivity
  linarith

/-- **C40** Neither criterion depends on the scale of the image. -/
theorem C40_scale (im : Im) (v : ℕ → ℕ → ℝ) {k : ℝ} (hk : 0 < k) (d ffrac : ℝ) (w r c : ℕ) :
    (IsHot d im (fun i j => k * v i j) r c ↔ IsHot d im v r c) ∧
      (IsDead ffrac w im (fun i j => k * v i j) r c ↔ IsDead ffrac w im v r c) := by
  have havg : ∀ s : Finset (ℕ × ℕ), avg s (fun i j => k * v i j) = k * avg s v := by
    intro s; unfold avg; rw [← Finset.mul_sum]; ring
  have hvar : ∀ s : Finset (ℕ × ℕ), variance s (fun i j => k * v i j) = k ^ 2 * variance s v := by
    intro s; unfold variance; rw [havg]
    rw [← mul_div_assoc, Finset.mul_sum]
    congr 1
    apply Finset.sum_congr rfl
    intro p _; ring
  constructor
  · unfold IsHot
    rw [havg, hvar, Real.sqrt_mul (by positivity), Real.sqrt_sq hk.le,
      show k * avg (pixels im) v + d * (k * √(variance (pixels im) v)) =
        k * (avg (pixels im) v + d * √(variance (pixels im) v)) by ring]
    exact mul_lt_mul_iff_right₀ hk
  · unfold IsDead
    rw [havg, show ffrac * (k * avg (box w im r c) v) = k * (ffrac * avg (box w im r c) v) by ring]
    exact mul_lt_mul_iff_right₀ hk

/-! ## C59: NaN in the calibration images -/

theorem allSome_none {l : List (Option ℝ)} (h : none ∈ l) : allSome l = none := by
  unfold allSome
  rw [if_neg]
  intro hall
  have := List.all_eq_true.1 hall none h
  simp at this

/-- **C59** is violated: one NaN pixel anywhere in the dark, and no pixel at all is hot. -/
theorem C59_violated (dark : Im) {i j : ℕ} (hi : i < dark.rows) (hj : j < dark.cols) (h : dark.px i j = none) (d : ℝ)
    (r c : ℕ) : hot d dark r c = false := by
  have hmem : none ∈ flatten dark := by
    unfold flatten
    rw [List.mem_flatMap]
    exact ⟨i, by simpa using hi, by rw [List.mem_map]; exact ⟨j, by simpa using hj, h⟩⟩
  unfold hot hotLevel npMean
  rw [allSome_none hmem]
  simp [lt]

/-- **C59** A NaN pixel of the flat hides all dead pixels whose box contains it. -/
theorem C59_flat_violated (flat : Im) {w i j r c : ℕ} (h : flat.px i j = none) (hm : (i, j) ∈ box w flat r c) (ffrac : ℝ) :
    dead ffrac w flat r c = false := by
  rw [mem_box] at hm
  have hmem : none ∈ (boxIdx w flat.rows r).flatMap fun i => (boxIdx w flat.cols c).map fun j => flat.px i j := by
    rw [List.mem_flatMap]
    exact ⟨i, hm.1, by rw [List.mem_map]; exact ⟨j, hm.2, h⟩⟩
  unfold dead localMean npMean
  rw [allSome_none hmem]
  cases flat.px r c <;> simp [lt]

/-- **C59** A NaN pixel gets no flag itself. -/
theorem C59_nan_unflagged (dthresh ffrac : ℝ) (w : ℕ) (dark flat : Im) (r c : ℕ) (hd : dark.px r c = none)
    (hf : flat.px r c = none) : badMap dthresh ffrac w dark flat (r, c) = 0 := by
  unfold badMap hot dead
  dsimp only
  rw [hd, hf]
  have h1 : lt (hotLevel dthresh dark) none = false := by cases hotLevel dthresh dark <;> rfl
  have h2 : lt none ((localMean w flat r c).map (ffrac * ·)) = false := by cases localMean w flat r c <;> rfl
  rw [h1, h2]; rfl

/-- **C59** Pixels whose box has no NaN are not affected by NaN elsewhere in the flat. -/
theorem C59_flat_partial {flat : Im} {v : ℕ → ℕ → ℝ} {w r c : ℕ} (hw : 0 < w) (hr : r < flat.rows) (hc : c < flat.cols)
    (h : ∀ p ∈ box w flat r c, flat.px p.1 p.2 = some (v p.1 p.2)) (ffrac : ℝ) :
    dead ffrac w flat r c = true ↔ IsDead ffrac w flat v r c := by
  unfold dead IsDead
  rw [localMean_eq h ⟨_, self_mem_box hw hr hc⟩, h (r, c) (self_mem_box hw hr hc)]
  simp [lt]

/-- Not vacuous: a dead pixel and a hot one. -/
example : IsDead 0.8 3 ⟨1, 2, fun _ c => some c⟩ (fun _ c => c) 0 0 := by
  have hb : box 3 ⟨1, 2, fun _ c => some (c : ℝ)⟩ 0 0 = {(0, 0), (0, 1)} := by
    ext p
    rw [mem_box, mem_boxIdx, mem_boxIdx]
    simp only [Finset.mem_insert, Finset.mem_singleton, Prod.ext_iff]
    omega
  unfold IsDead avg
  rw [hb]
  norm_num

end Corgi.BadPix

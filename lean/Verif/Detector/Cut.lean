import Verif.Detector.Modes
import Verif.Detector.Plateau

/-!
# Cutting the image area out before or after the cosmic ray search (detector.py 376-551): C202

`l1_to_l2a_basic.json` and the other science recipes cut the image area out in `prescan_biassub` and search the cut; the recipes of
`Verif/Detector/Modes.lean` search the full frame. The search is the model of `Verif/Detector/Cosmics.lean`.
-/

namespace Corgi.Cr

open Corgi.Det

variable {α : Type} [LinearOrder α]

/-! ## Specification -/

/-- The image area of a frame. -/
def cutOf (im : Area) (f : Img α) : Img α := ⟨im.rows, im.cols, fun r c => f.px (im.r0 + r) (im.c0 + c)⟩

/-- The area is inside the frame, and no pixel outside it, in its first column or in its last two columns is as bright as a plateau. -/
structure Quiet (im : Area) (f : Img α) (P : α) : Prop where
  rows : im.r0 + im.rows ≤ f.nr
  cols : im.c0 + im.cols ≤ f.nc
  wide : 2 < im.cols
  below : ∀ r c, r < f.nr → c < f.nc → r < im.r0 ∨ im.r0 + im.rows ≤ r → f.px r c < P
  border : ∀ r c, r < f.nr → c < f.nc → c ≤ im.c0 ∨ im.c0 + im.cols ≤ c + 2 → f.px r c < P

/-- A row that is dark up to column `a` and from two columns before `a + w` on. -/
structure QuietRow (row : ℕ → α) (n a w : ℕ) (P : α) : Prop where
  fits : a + w ≤ n
  wide : 2 < w
  dark : ∀ k, k < n → k ≤ a ∨ a + w ≤ k + 2 → row k < P

/-! ## One row -/

theorem med_cut {row : ℕ → α} {n a w : ℕ} {S P : α} (h : QuietRow row n a w P) (hPS : P ≤ S) (filter : ℕ) {k : ℕ} (hk : k < w) :
    S ≤ medFilt (fun c => row (a + c)) w (filter + 1) k ↔ S ≤ medFilt row n (filter + 1) (a + k) := by
  rw [medFilt_iff _ _ _ _ (by omega), medFilt_iff _ _ _ _ (by omega)]
  have hf := h.fits
  have hw := h.wide
  generalize (filter + 1) / 2 = s
  have : ∀ j : ℕ, (decide (row (a + clamp w ((k : ℤ) + (j : ℤ) - ((s : ℕ) : ℤ))) < S)) =
      decide (row (clamp n (((a + k : ℕ) : ℤ) + (j : ℤ) - ((s : ℕ) : ℤ))) < S) := by
    intro j
    rw [decide_eq_decide]
    by_cases hj : s ≤ k + j ∧ k + j < w + s
    · have : a + clamp w ((k : ℤ) + (j : ℤ) - ((s : ℕ) : ℤ)) = clamp n (((a + k : ℕ) : ℤ) + (j : ℤ) - ((s : ℕ) : ℤ)) := by
        unfold clamp
        omega
      rw [this]
    · have h1 := h.dark (a + clamp w ((k : ℤ) + (j : ℤ) - ((s : ℕ) : ℤ))) (by unfold clamp; omega) (by unfold clamp; omega)
      have h2 := h.dark (clamp n (((a + k : ℕ) : ℤ) + (j : ℤ) - ((s : ℕ) : ℤ))) (by unfold clamp; omega) (by unfold clamp; omega)
      exact iff_of_true (h1.trans_le hPS) (h2.trans_le hPS)
  simp only [this]

theorem beg_cut {row : ℕ → α} {n a w : ℕ} {P : α} (h : QuietRow row n a w P) (k : ℕ) :
    a + begOf (fun c => row (a + c)) P k = begOf row P (a + k) := by
  have hf := h.fits
  have hw := h.wide
  have hl : a + goLeft (fun c => row (a + c)) P k = goLeft row P (a + k) := by
    induction k with
    | zero =>
      cases a with
      | zero => rfl
      | succ a =>
        show a + 1 + 0 = goLeft row P (a + 1)
        simp only [goLeft]
        rw [if_neg (not_le.2 (h.dark (a + 1) (by omega) (Or.inl le_rfl)))]
    | succ k ih =>
      show _ = goLeft row P (a + k + 1)
      simp only [goLeft]
      by_cases hb : row (a + k + 1) ≥ P
      · rw [if_pos hb, if_pos (show row (a + (k + 1)) ≥ P from hb)]
        exact ih
      · rw [if_neg hb, if_neg (show ¬ row (a + (k + 1)) ≥ P from hb)]
        rfl
  unfold begOf
  dsimp only
  rw [← hl]
  by_cases hb : row (a + goLeft (fun c => row (a + c)) P k) < P
  · rw [if_pos hb, if_pos hb]
    rfl
  · rw [if_neg hb, if_neg hb]

/-- No column outside the area passes the filter, nor the last column of the area. -/
theorem med_outside {row : ℕ → α} {n a w : ℕ} {S P : α} (h : QuietRow row n a w P) (hPS : P ≤ S) (filter : ℕ) {k : ℕ} (hk : k < n)
    (ho : k < a ∨ a + w ≤ k + 1) : ¬ S ≤ medFilt row n (filter + 1) k := by
  rw [medFilt_iff _ _ _ _ (by omega), not_le]
  have hf := h.fits
  have hw := h.wide
  have hN : (filter + 1) / 2 ≤ filter := by omega
  have hN2 : 2 * ((filter + 1) / 2) ≤ filter + 1 := by omega
  generalize (filter + 1) / 2 = s at hN hN2 ⊢
  rcases ho with ho | ho
  · refine lt_of_lt_of_le ?_ (List.countP_mono_left (p := fun j => decide (¬ (s + 1 ≤ j ∧ j < filter + 1))) fun j hj hd => ?_)
    · rw [count_interval]
      omega
    · simp only [decide_eq_true_eq] at hd ⊢
      have := List.mem_range.1 hj
      exact (h.dark _ (by unfold clamp; omega) (by unfold clamp; omega)).trans_le hPS
  · refine lt_of_lt_of_le ?_ (List.countP_mono_left (p := fun j => decide (¬ (0 ≤ j ∧ j < s - 1))) fun j hj hd => ?_)
    · rw [count_interval]
      omega
    · simp only [decide_eq_true_eq] at hd ⊢
      have := List.mem_range.1 hj
      exact (h.dark _ (by unfold clamp; omega) (by unfold clamp; omega)).trans_le hPS

/-! ## Starts -/

theorem quiet_row {im : Area} {f : Img α} {P : α} (h : Quiet im f P) {r : ℕ} (hr : r < f.nr) : QuietRow (f.px r) f.nc im.c0 im.cols P :=
  ⟨h.cols, h.wide, fun c hc hd => h.border r c hr hc hd⟩

/-- The starts of the frame are those of the cut, moved. -/
theorem starts_cut {im : Area} {f : Img α} {S P : α} (h : Quiet im f P) (hPS : P ≤ S) (filter : ℕ) {r b : ℕ} (hr : r < f.nr) :
    Starts f S P filter r b ↔ ∃ i b', r = im.r0 + i ∧ b = im.c0 + b' ∧ i < im.rows ∧ b' < im.cols ∧ Starts (cutOf im f) S P filter i b' := by
  have hq := quiet_row h hr
  have hc := h.cols
  constructor
  · rintro ⟨k, hk, hS, rfl⟩
    have hin : im.c0 ≤ k ∧ k + 1 < im.c0 + im.cols := by
      by_contra hn
      exact med_outside hq hPS filter hk (by omega) hS
    have hrow : im.r0 ≤ r ∧ r < im.r0 + im.rows := by
      by_contra hn
      obtain ⟨c, hc', hb⟩ := C29_prefilter_sound f S P filter r _ ⟨k, hk, hS, rfl⟩
      exact absurd (hPS.trans hb) (not_le.2 (h.below r c hr hc' (by omega)))
    obtain ⟨i, rfl⟩ := Nat.exists_eq_add_of_le hrow.1
    obtain ⟨k, rfl⟩ := Nat.exists_eq_add_of_le hin.1
    have hb : begOf (fun c => f.px (im.r0 + i) (im.c0 + c)) P k ≤ k + 1 := by
      rcases lt_or_ge (f.px (im.r0 + i) (im.c0 + k)) P with hd | hd
      · rw [begOf_dark _ P k hd]
      · exact (begOf_bright (fun c => f.px (im.r0 + i) (im.c0 + c)) P k hd).2.1.trans (Nat.le_succ k)
    refine ⟨i, begOf (fun c => f.px (im.r0 + i) (im.c0 + c)) P k, rfl, (beg_cut hq k).symm, by omega, by omega, k, ?_, ?_, rfl⟩
    · show k < im.cols
      omega
    · exact (med_cut hq hPS filter (by omega)).2 hS
  · rintro ⟨i, b', rfl, rfl, hi, hb', k, hk, hS, rfl⟩
    have hk' : k < im.cols := hk
    exact ⟨im.c0 + k, by omega, (med_cut hq hPS filter hk').1 hS, beg_cut hq k⟩

/-! ## C202 -/

/-- **C202** When nothing outside the image area, in its first column or in its last two columns is bright, the mask of the image area does not depend
on the way: cut and then search, search the full frame in mode `full`, or search it in mode `image`. -/
theorem C202_ways (d : Regions) (t t' : String) (im : Area) (hi : lookArea d t "image" = .ok im) (p : Par) (f : Img α) (S P : α) (hPS : P ≤ S)
    (hq : Quiet im f P) (hw : im.c0 + im.cols + p.filter + p.tail < f.nc) :
    ∃ mc mf mi, flagCosmics d t' false p (cutOf im f) S P = .ok mc ∧ flagCosmics d t true p f S P = .ok mf ∧
      flagCosmics d t false p f S P = .ok mi ∧
      ∀ r c, r < im.rows → c < im.cols → mc r c = mf (im.r0 + r) (im.c0 + c) ∧ mi (im.r0 + r) (im.c0 + c) = mf (im.r0 + r) (im.c0 + c) := by
  have hr0 := hq.rows
  have hc0 := hq.cols
  obtain ⟨mc, hc, kc⟩ := C29_image d t' p (cutOf im f) S P
  obtain ⟨mf, mi, hf, hm, k⟩ := C201_modes d t im hi p f S P hw
  obtain ⟨mf', mi', hf', hm', k'⟩ := C201_agree d t im hi p f S P hw (by
    intro i b h1 _ h3
    obtain ⟨i', b', rfl, rfl, h4, h5, -⟩ := (starts_cut hq hPS p.filter h1).1 h3
    unfold Within
    omega)
  cases hf.symm.trans hf'
  cases hm.symm.trans hm'
  refine ⟨mc, mf, mi, hc, hf, hm, fun r c hr hcc => ⟨?_, k' _ _ (by omega) (by omega) (by unfold Within; omega)⟩⟩
  rw [Bool.eq_iff_iff, kc r c hr hcc, (k (im.r0 + r) (im.c0 + c) (by omega) (by omega)).1]
  constructor
  · rintro ⟨i, b, h1, h2, h3, h4⟩
    have h1' : i < im.rows := h1
    have h2' : b < im.cols := h2
    refine ⟨im.r0 + i, im.c0 + b, by omega, by unfold Within; omega, (starts_cut hq hPS p.filter (by omega)).2 ⟨i, b, rfl, rfl, h1, h2, h3⟩, ?_⟩
    rcases h4 with h | h
    · left; unfold ByStreak; omega
    · right; unfold BySquare Within; omega
  · rintro ⟨i, b, h1, h2, h3, h4⟩
    obtain ⟨i', b', rfl, rfl, h5, h6, h7⟩ := (starts_cut hq hPS p.filter h1).1 h3
    refine ⟨i', b', h5, h6, h7, ?_⟩
    rcases h4 with h | ⟨h, -⟩
    · left; unfold ByStreak at h; omega
    · right; unfold BySquare at h; omega

/-- **C202** on science frames, with the thresholds and sizes of the step's defaults. -/
theorem C202_sci (f : Img α) (S : α) (hc : f.nc = 2200)
    (hq : Quiet { rows := 1024, cols := 1024, r0 := 13, c0 := 1088 } f S) :
    ∃ mc mf mi, flagCosmics detectorAreas "SCI" false ⟨1, 3, 10⟩ (cutOf { rows := 1024, cols := 1024, r0 := 13, c0 := 1088 } f) S S = .ok mc ∧
      flagCosmics detectorAreas "SCI" true ⟨1, 3, 10⟩ f S S = .ok mf ∧ flagCosmics detectorAreas "SCI" false ⟨1, 3, 10⟩ f S S = .ok mi ∧
      ∀ r c, r < 1024 → c < 1024 → mc r c = mf (13 + r) (1088 + c) ∧ mi (13 + r) (1088 + c) = mf (13 + r) (1088 + c) :=
  C202_ways detectorAreas "SCI" "SCI" _ (by rfl) ⟨1, 3, 10⟩ f S S le_rfl hq (by rw [hc]; decide)

/-! ## The border cannot be left out -/

/-- An area of 2 rows and 5 columns inside a frame of 5 rows and 14 columns. -/
def stripGeom : Regions :=
  [("SCI", { frameRows := 5, frameCols := 14, areas := [("image", { rows := 2, cols := 5, r0 := 1, c0 := 3 })] })]

def stripArea : Area := { rows := 2, cols := 5, r0 := 1, c0 := 3 }

/-- A frame with one bright pixel. -/
def spot (a b : ℕ) : Img ℕ := ⟨5, 14, fun r c => if r = a ∧ c = b then 10 else 0⟩

theorem strip_area : lookArea stripGeom "SCI" "image" = .ok stripArea := by decide +kernel

theorem spot_dark (a b r c : ℕ) (h : ¬ (r = a ∧ c = b)) : (spot a b).px r c < 7 := by
  show (if r = a ∧ c = b then 10 else 0) < 7
  rw [if_neg h]
  decide

/-- A frame with a plateau in row 1, from the second to the last but one column of the area. -/
def longHit : Img ℕ := ⟨5, 14, fun r c => if r = 1 ∧ 4 ≤ c ∧ c ≤ 6 then 10 else 0⟩

/-- **C202** A plateau up to the last column but one, with an odd filter: the second start, behind the plateau, lies beyond the cut, and the square
around it flags a pixel of the area in the full frame only. The frame is quiet but for this column. -/
theorem C202_right_edge : (∀ r c, ¬ (r = 1 ∧ 4 ≤ c ∧ c + 2 ≤ stripArea.c0 + stripArea.cols) → longHit.px r c < 7) ∧
    ∃ mc mf, flagCosmics stripGeom "SCI" false ⟨1, 1, 0⟩ (cutOf stripArea longHit) 7 7 = .ok mc ∧
      flagCosmics stripGeom "SCI" true ⟨1, 1, 0⟩ longHit 7 7 = .ok mf ∧ mc 1 4 = false ∧ mf (1 + 1) (3 + 4) = true := by
  constructor
  · intro r c h
    show (if r = 1 ∧ 4 ≤ c ∧ c ≤ 6 then 10 else 0) < 7
    rw [if_neg fun hh => h ⟨hh.1, hh.2.1, by show c + 2 ≤ 3 + 5; omega⟩]
    decide
  unfold flagCosmics
  rw [if_pos rfl, strip_area]
  refine ⟨_, _, rfl, rfl, ?_⟩
  decide +kernel

/-- Not vacuous: a hit inside the area. -/
example : ∃ mc mf mi, flagCosmics stripGeom "SCI" false ⟨1, 1, 2⟩ (cutOf stripArea (spot 1 4)) 7 7 = .ok mc ∧
    flagCosmics stripGeom "SCI" true ⟨1, 1, 2⟩ (spot 1 4) 7 7 = .ok mf ∧ flagCosmics stripGeom "SCI" false ⟨1, 1, 2⟩ (spot 1 4) 7 7 = .ok mi ∧
    mf (1 + 0) (3 + 1) = true ∧ mc 0 1 = true ∧ mi (1 + 0) (3 + 1) = true := by
  obtain ⟨mc, mf, mi, h1, h2, h3, h⟩ := C202_ways stripGeom "SCI" "SCI" stripArea strip_area ⟨1, 1, 2⟩ (spot 1 4) 7 7 le_rfl
    ⟨by decide, by decide, by decide, fun r c _ _ h => spot_dark _ _ _ _ fun hh => by
      have : r < 1 ∨ 1 + 2 ≤ r := h
      omega, fun r c _ _ h => spot_dark _ _ _ _ fun hh => by
      have : c ≤ 3 ∨ 3 + 5 ≤ c + 2 := h
      omega⟩ (by decide)
  have hk := h 0 1 (by decide) (by decide)
  have : mf (1 + 0) (3 + 1) = true := by
    unfold flagCosmics at h2
    rw [if_pos rfl, strip_area] at h2
    cases h2
    decide +kernel
  exact ⟨mc, mf, mi, h1, h2, h3, this, hk.1.trans this, hk.2.trans this⟩

end Corgi.Cr

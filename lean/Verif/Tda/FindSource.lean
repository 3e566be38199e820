import Mathlib.Data.Rat.Floor
import Mathlib.Data.Nat.Init
import Mathlib.Tactic.Linarith
import Mathlib.Tactic.Ring

/-!
# Source detection

`/repo/corgidrp/l4_to_tda.py:431-494` (`find_source`) and `/repo/corgidrp/find_source.py:41-73` (`psf_scalesub`).

The signal-to-noise map (pyKLIP) and the subtraction are parameters: `peak` gives the maximum of the map with its position
(`none`: all NaN), `sub` the image after the subtraction.
-/

namespace Corgi.Tda

section Loop

variable {S : Type}

/-- The detection loop (l4_to_tda.py:474-487) with fuel; `none`: still running. The image only changes inside the inner
`if`. -/
def detect (thr : ℚ) (peak : S → Option (ℚ × (ℕ × ℕ))) (sub : S → ℕ × ℕ → S) : ℕ → S → List (ℚ × (ℕ × ℕ)) → Option (List (ℚ × (ℕ × ℕ)) × S)
  | 0, _, _ => none
  | n + 1, s, acc =>
    match peak s with
    | none => some (acc, s)
    | some (sn, xy) =>
      if thr ≤ sn then
        if thr < sn then detect thr peak sub n (sub s xy) (acc ++ [(sn, xy)])
        else detect thr peak sub n s acc
      else some (acc, s)

/-- The image after subtracting at the given positions. -/
def after (sub : S → ℕ × ℕ → S) (s : S) (l : List (ℚ × (ℕ × ℕ))) : S := l.foldl (fun s d => sub s d.2) s

/-- Spec: a correct list of detections: each is the peak of the image from which the earlier ones were subtracted. -/
def Detections (thr : ℚ) (peak : S → Option (ℚ × (ℕ × ℕ))) (sub : S → ℕ × ℕ → S) : S → List (ℚ × (ℕ × ℕ)) → Prop
  | _, [] => True
  | s, d :: l => peak s = some d ∧ thr < d.1 ∧ Detections thr peak sub (sub s d.2) l

theorem detections_append {thr : ℚ} {peak : S → Option (ℚ × (ℕ × ℕ))} {sub : S → ℕ × ℕ → S} {s : S} {l : List (ℚ × (ℕ × ℕ))}
    {d : ℚ × (ℕ × ℕ)} (h : Detections thr peak sub s l) (hp : peak (after sub s l) = some d) (hd : thr < d.1) :
    Detections thr peak sub s (l ++ [d]) := by
  induction l generalizing s with
  | nil => exact ⟨hp, hd, trivial⟩
  | cons a l ih => exact ⟨h.1, h.2.1, ih h.2.2 hp⟩

/-- C73: when the loop ends, the detections are a correct list, the final image is what is left, and no peak at or above the
threshold is left. -/
theorem detect_spec {thr : ℚ} {peak : S → Option (ℚ × (ℕ × ℕ))} {sub : S → ℕ × ℕ → S} {s₀ : S} : ∀ {n : ℕ} {s : S}
    {acc out : List (ℚ × (ℕ × ℕ))} {s' : S}, s = after sub s₀ acc → Detections thr peak sub s₀ acc →
    detect thr peak sub n s acc = some (out, s') →
    Detections thr peak sub s₀ out ∧ s' = after sub s₀ out ∧ ∀ d, peak s' = some d → d.1 < thr
  | 0, _, _, _, _, _, _, h => by cases h
  | n + 1, s, acc, out, s', hs, hacc, h => by
    rw [detect] at h
    cases hp : peak s with
    | none =>
      rw [hp] at h; cases h
      exact ⟨hacc, hs, by rw [hp]; intro d hd; cases hd⟩
    | some d =>
      obtain ⟨sn, xy⟩ := d
      rw [hp] at h
      dsimp only at h
      split_ifs at h with h1 h2
      · refine detect_spec (n := n) (s := sub s xy) (acc := acc ++ [(sn, xy)]) ?_ ?_ h
        · rw [hs]; simp [after, List.foldl_append]
        · exact detections_append hacc (by rw [← hs]; exact hp) h2
      · exact detect_spec (n := n) hs hacc h
      · cases h
        refine ⟨hacc, hs, ?_⟩
        rw [hp]; intro d hd; cases hd; exact lt_of_not_ge h1

theorem C73_partial {thr : ℚ} {peak : S → Option (ℚ × (ℕ × ℕ))} {sub : S → ℕ × ℕ → S} {n : ℕ} {s s' : S}
    {out : List (ℚ × (ℕ × ℕ))} (h : detect thr peak sub n s [] = some (out, s')) :
    Detections thr peak sub s out ∧ s' = after sub s out ∧ ∀ d, peak s' = some d → d.1 < thr :=
  detect_spec (s₀ := s) (acc := []) rfl trivial h

/-- C73: a peak exactly at the threshold keeps the loop running forever. -/
theorem C73_hangs {thr : ℚ} {peak : S → Option (ℚ × (ℕ × ℕ))} {sub : S → ℕ × ℕ → S} {s : S} {xy : ℕ × ℕ} (h : peak s = some (thr, xy)) :
    ∀ (n : ℕ) (acc : List (ℚ × (ℕ × ℕ))), detect thr peak sub n s acc = none
  | 0, _ => rfl
  | n + 1, acc => by
    rw [detect, h]
    dsimp only
    rw [if_pos le_rfl, if_neg (lt_irrefl _)]
    exact C73_hangs h n acc

/-- C73: the same when the equality is reached after some detections. -/
theorem C73_hangs_later {thr : ℚ} {peak : S → Option (ℚ × (ℕ × ℕ))} {sub : S → ℕ × ℕ → S} {xy : ℕ × ℕ} :
    ∀ {l : List (ℚ × (ℕ × ℕ))} {s : S}, Detections thr peak sub s l → peak (after sub s l) = some (thr, xy) →
    ∀ (n : ℕ) (acc : List (ℚ × (ℕ × ℕ))), detect thr peak sub n s acc = none
  | [], s, _, h, n, acc => C73_hangs h n acc
  | d :: l, s, hd, h, 0, acc => rfl
  | d :: l, s, hd, h, n + 1, acc => by
    rw [detect, hd.1]
    dsimp only
    rw [if_pos hd.2.1.le, if_pos hd.2.1]
    exact C73_hangs_later hd.2.2 h n _

/-- C73: the loop ends when the number of detections is bounded and the threshold is never met exactly: `rank` falls with
every subtraction. -/
theorem C73_terminates {thr : ℚ} {peak : S → Option (ℚ × (ℕ × ℕ))} {sub : S → ℕ × ℕ → S} (rank : S → ℕ)
    (hr : ∀ s d, peak s = some d → thr < d.1 → rank (sub s d.2) < rank s) (hne : ∀ s d, peak s = some d → d.1 ≠ thr) :
    ∀ (n : ℕ) (s : S) (acc : List (ℚ × (ℕ × ℕ))), rank s < n → ∃ r, detect thr peak sub n s acc = some r
  | 0, s, _, h => absurd h (by omega)
  | n + 1, s, acc, h => by
    rw [detect]
    cases hp : peak s with
    | none => exact ⟨_, rfl⟩
    | some d =>
      obtain ⟨sn, xy⟩ := d
      dsimp only
      split_ifs with h1 h2
      · exact C73_terminates rank hr hne n _ _ (by have := hr s _ hp h2; dsimp only at this; omega)
      · exact absurd (le_antisymm (not_lt.1 h2) h1) (hne s _ hp)
      · exact ⟨_, rfl⟩

/-- C73 as stated (the search always ends) fails: one pixel with a signal-to-noise ratio of exactly 5. -/
theorem C73_violated : ∀ n : ℕ, detect (S := Unit) 5 (fun _ => some (5, (0, 0))) (fun s _ => s) n () [] = none :=
  fun n => C73_hangs (peak := fun _ => some (5, (0, 0))) (xy := (0, 0)) rfl n []

/-- The detections and their number are unaffected by more fuel. -/
theorem detect_mono {thr : ℚ} {peak : S → Option (ℚ × (ℕ × ℕ))} {sub : S → ℕ × ℕ → S} : ∀ {n m : ℕ} {s : S}
    {acc : List (ℚ × (ℕ × ℕ))} {r}, n ≤ m → detect thr peak sub n s acc = some r → detect thr peak sub m s acc = some r
  | 0, _, _, _, _, _, h => by cases h
  | n + 1, 0, _, _, _, hm, _ => absurd hm (by omega)
  | n + 1, m + 1, s, acc, r, hm, h => by
    rw [detect] at h ⊢
    cases hp : peak s with
    | none => rw [hp] at h; exact h
    | some d =>
      obtain ⟨sn, xy⟩ := d
      rw [hp] at h
      dsimp only at h ⊢
      split_ifs at h ⊢ with h1 h2
      · exact detect_mono (by omega) h
      · exact detect_mono (by omega) h
      · exact h

/-- Three blobs, the two above 5 are found in order of significance. -/
example : detect (S := List (ℚ × (ℕ × ℕ))) 5 List.head? (fun s _ => s.tail) 10 [(9, (1, 1)), (6, (2, 5)), (3, (4, 4))] [] =
    some ([(9, (1, 1)), (6, (2, 5))], [(3, (4, 4))]) := by decide +kernel

end Loop

/-! ## The windows of the subtraction -/

/-- Length of a Python slice `[start:stop]` of an axis of `size` elements. -/
def sliceLen (size start stop : ℤ) : ℤ :=
  let norm := fun i : ℤ => if i < 0 then max 0 (i + size) else min i size
  max 0 (norm stop - norm start)

/-- C73: a negative start counts from the end of the axis. -/
theorem C73_slice_negative {size start stop : ℤ} (h0 : -size ≤ start) (h1 : start < 0) (h2 : 0 ≤ stop) (h3 : stop ≤ size) :
    sliceLen size start stop = max 0 (stop - (start + size)) := by
  unfold sliceLen
  dsimp only
  split_ifs <;> omega

/-- C73: an ordinary slice inside the axis. -/
theorem C73_slice {size start stop : ℤ} (h0 : 0 ≤ start) (h1 : start ≤ stop) (h2 : stop ≤ size) : sliceLen size start stop = stop - start := by
  unfold sliceLen
  dsimp only
  split_ifs <;> omega

/-- Does `window -= psf * nanmedian(window / psf)` work along one axis (find_source.py:64-71)? The window is
`[y-n//2 : y+n//2+1]`; numpy needs equal lengths, or a PSF axis of length one. -/
def subtractOk (size y n : ℤ) : Bool :=
  let h := n / 2
  let r := sliceLen size (y - h) (y + h + 1)
  decide (r = n) || decide (n = 1)

/-- C73: with an odd PSF the subtraction works exactly when the whole PSF fits into the image; otherwise the first detection
near the border ends the search with a ValueError. -/
theorem C73_window_iff {size y h : ℤ} (h0 : 1 ≤ h) (hy : 0 ≤ y) (hy2 : y < size) :
    subtractOk size y (2 * h + 1) = true ↔ h ≤ y ∧ y + h < size := by
  have e : (2 * h + 1) / 2 = h := by omega
  unfold subtractOk sliceLen
  dsimp only
  rw [e]
  simp only [Bool.or_eq_true, decide_eq_true_eq]
  constructor
  · intro hh
    rcases hh with hh | hh
    · split_ifs at hh <;> omega
    · omega
  · rintro ⟨h1, h2⟩
    left
    split_ifs <;> omega

/-- C73: with an even PSF the subtraction fails for every source whose window is inside the image. -/
theorem C73_even_violated {size y h : ℤ} (h0 : 1 ≤ h) (hy : h ≤ y) (hy2 : y + h < size) : subtractOk size y (2 * h) = false := by
  have e : 2 * h / 2 = h := by omega
  unfold subtractOk sliceLen
  dsimp only
  rw [e]
  simp only [Bool.or_eq_false_iff, decide_eq_false_iff_not]
  constructor
  · split_ifs <;> omega
  · omega

/-- `boxsize` (l4_to_tda.py:451-452). -/
def boxsize (fwhm : ℚ) : ℤ :=
  let b := ⌊fwhm * 3⌋
  if b % 2 = 0 then b + 1 else b

/-- Is the pixel in the mask for the cross-correlation (l4_to_tda.py:463-465)? -/
def inMask (fwhm : ℚ) (i j : ℤ) : Prop :=
  let c := boxsize fwhm / 2
  0 ≤ i ∧ i < boxsize fwhm ∧ 0 ≤ j ∧ j < boxsize fwhm ∧ ((i - c) ^ 2 + (j - c) ^ 2 : ℤ) ≤ (fwhm * (1 / 2)) ^ 2

theorem boxsize_odd (fwhm : ℚ) : boxsize fwhm = 2 * (boxsize fwhm / 2) + 1 := by
  unfold boxsize
  dsimp only
  split_ifs <;> omega

theorem boxsize_pos {fwhm : ℚ} (h : 0 ≤ fwhm) : 1 ≤ boxsize fwhm := by
  have : 0 ≤ ⌊fwhm * 3⌋ := Int.floor_nonneg.2 (by linarith)
  unfold boxsize
  dsimp only
  split_ifs <;> omega

/-- C73: the mask is point symmetric about the middle of the box, and contains it. -/
theorem C73_mask {fwhm : ℚ} (h : 0 ≤ fwhm) : inMask fwhm (boxsize fwhm / 2) (boxsize fwhm / 2) ∧
    ∀ a b : ℤ, inMask fwhm (boxsize fwhm / 2 + a) (boxsize fwhm / 2 + b) ↔ inMask fwhm (boxsize fwhm / 2 - a) (boxsize fwhm / 2 - b) := by
  have h1 := boxsize_odd fwhm
  have h2 := boxsize_pos h
  refine ⟨?_, fun a b => ?_⟩
  · unfold inMask
    dsimp only
    refine ⟨by omega, by omega, by omega, by omega, ?_⟩
    simp only [sub_self]
    norm_num
    positivity
  · unfold inMask
    dsimp only
    have e1 : (boxsize fwhm / 2 + a - boxsize fwhm / 2) ^ 2 + (boxsize fwhm / 2 + b - boxsize fwhm / 2) ^ 2 =
        (boxsize fwhm / 2 - a - boxsize fwhm / 2) ^ 2 + (boxsize fwhm / 2 - b - boxsize fwhm / 2) ^ 2 := by ring
    rw [e1]
    constructor
    · rintro ⟨h3, h4, h5, h6, h7⟩; exact ⟨by omega, by omega, by omega, by omega, h7⟩
    · rintro ⟨h3, h4, h5, h6, h7⟩; exact ⟨by omega, by omega, by omega, by omega, h7⟩

/-- C73: so for a PSF array of another size the mask is not on the PSF's centre: already the default FWHM with an 11 pixel
PSF; with a 3 pixel PSF the index is out of range. -/
theorem C73_mask_violated : boxsize 2.8 / 2 = 4 ∧ (11 : ℤ) / 2 ≠ boxsize 2.8 / 2 ∧ inMask 2.8 4 4 ∧ ¬(4 : ℤ) < 3 := by
  have hb : boxsize 2.8 = 9 := by
    unfold boxsize
    have : ⌊(2.8 : ℚ) * 3⌋ = 8 := by norm_num [Int.floor_eq_iff]
    rw [this]; rfl
  refine ⟨by rw [hb]; rfl, by rw [hb]; decide, ?_, by decide⟩
  have := (C73_mask (fwhm := 2.8) (by norm_num)).1
  rw [hb] at this
  exact this

end Corgi.Tda

import Verif.Ct.Centroid
import Verif.Tda.FindSource
import Mathlib.Algebra.Order.Floor.Ring
import Mathlib.Algebra.Order.Floor.Div
import Mathlib.Data.Rat.Floor
import Mathlib.Analysis.Real.Sqrt
import Mathlib.Tactic.Linarith
import Mathlib.Tactic.NormNum
import Mathlib.Tactic.Ring

/-!
# Finding and matching stars of the astrometric field (`/repo/corgidrp/astrom.py`)

* `find_source_locations` 293-412 up to the Gaussian refinement,
* `match_sources` 414-572 (triangle comparison and nearest-star assignment),
* the cutout of `measure_offset` 127-148, `format_distortion_inputs` 923-929,
* the glue of `boresight_calibration` 1033-1166 and `create_circular_mask` 1169-1192.

Pixels are `Option ℚ` (`none` is NaN); floats are exact rationals.
-/

namespace Corgi.AstromSources

open Corgi.Centroid (Frame peak C79_peak)
open Corgi.Tda (sliceLen)

/-! ## C91: `find_source_locations` -/

/-- `startx` / `starty` (astrom.py 334-380): `int(fwhm)` is the floor, `fwhm` being non-negative. -/
def startOf (fwhm : ℚ) (p : ℤ) : ℤ := if (p : ℚ) - fwhm < 0 then 0 else p - ⌊fwhm⌋

/-- `endx` / `endy`. -/
def endOf (fwhm : ℚ) (size : ℕ) (p : ℤ) : ℤ :=
  if (p : ℚ) - fwhm < 0 then p + ⌊fwhm⌋ + 1
  else if (size : ℚ) - 1 < (p : ℚ) + fwhm then size
  else p + ⌊fwhm⌋ + 1

/-- Is the pixel coordinate `i` of an axis of `size` inside `[start:end]` (numpy clips the end)? -/
def inAxis (fwhm : ℚ) (size : ℕ) (p i : ℤ) : Bool :=
  decide (startOf fwhm p ≤ i) && decide (i < endOf fwhm size p) && decide (i < size)

/-- `image[starty:endy, startx:endx] = zeros` (astrom.py 382-384), `(x, y)` being the location. -/
def maskBox (fwhm : ℚ) (f : Frame) (p : ℤ × ℤ) : Frame where
  h := f.h
  w := f.w
  px := fun j i => if inAxis fwhm f.w p.1 i && inAxis fwhm f.h p.2 j then some 0 else f.px j i

/-- The `while i < threshold` loop (astrom.py 315-386); the first argument is `threshold - i`, and
`i` is the number of locations recorded so far. -/
def findLoop (fwhm : ℚ) : ℕ → Frame → List (ℤ × ℤ) → Except Centroid.Err (List (ℤ × ℤ))
  | 0, _, found => .ok found
  | n + 1, f, found =>
    match peak f none with
    | .error e => .error e
    | .ok p =>
      if 2 < found.length ∧ found.getLast? = some p then .ok found
      else findLoop fwhm n (maskBox fwhm f p) (found ++ [p])

def findSources (fwhm : ℚ) (threshold : ℕ) (f : Frame) : Except Centroid.Err (List (ℤ × ℤ)) :=
  findLoop fwhm threshold f []

/-- The image after masking the listed locations. -/
def masked (fwhm : ℚ) (f : Frame) (l : List (ℤ × ℤ)) : Frame := l.foldl (maskBox fwhm) f

/-- Spec: within `r` pixels of `q` along both axes. -/
def Near (r : ℤ) (q p : ℤ × ℤ) : Prop := |p.1 - q.1| ≤ r ∧ |p.2 - q.2| ≤ r

/-- Spec: every location is a brightest pixel of the image with the earlier ones blanked. -/
def Greedy (fwhm : ℚ) (f : Frame) (l : List (ℤ × ℤ)) : Prop :=
  ∀ k p, l[k]? = some p → peak (masked fwhm f (l.take k)) none = .ok p

/-- The edge cases of the code amount to the clipped box of half-width `int(fwhm)`. -/
theorem inAxis_iff {fwhm : ℚ} {size : ℕ} {p i : ℤ} (hi : 0 ≤ i)
    (his : i < size) : inAxis fwhm size p i = true ↔ |i - p| ≤ ⌊fwhm⌋ := by
  have hf1 : ((⌊fwhm⌋ : ℤ) : ℚ) ≤ fwhm := Int.floor_le fwhm
  have hf2 : fwhm < (⌊fwhm⌋ : ℤ) + 1 := Int.lt_floor_add_one fwhm
  unfold inAxis startOf endOf
  simp only [Bool.and_eq_true, decide_eq_true_eq]
  rw [abs_le]
  by_cases h1 : (p : ℚ) - fwhm < 0
  · simp only [h1, if_true]
    have : p < ⌊fwhm⌋ + 1 := by
      have : (p : ℚ) < (⌊fwhm⌋ : ℤ) + 1 := by linarith
      exact_mod_cast this
    omega
  · simp only [h1, if_false]
    by_cases h2 : (size : ℚ) - 1 < (p : ℚ) + fwhm
    · simp only [h2, if_true]
      have : (size : ℤ) - 1 < p + ⌊fwhm⌋ + 1 := by
        have : (size : ℚ) - 1 < (p : ℚ) + (⌊fwhm⌋ : ℤ) + 1 := by linarith
        exact_mod_cast this
      omega
    · simp only [h2, if_false]
      omega

theorem masked_size (fwhm : ℚ) (f : Frame) (l : List (ℤ × ℤ)) :
    (masked fwhm f l).h = f.h ∧ (masked fwhm f l).w = f.w := by
  unfold masked
  induction l generalizing f with
  | nil => exact ⟨rfl, rfl⟩
  | cons p l ih => exact ih (maskBox fwhm f p)

theorem masked_append (fwhm : ℚ) (f : Frame) (l : List (ℤ × ℤ)) (p : ℤ × ℤ) :
    masked fwhm f (l ++ [p]) = maskBox fwhm (masked fwhm f l) p := by
  simp [masked]

theorem findLoop_spec {fwhm : ℚ} {f₀ : Frame} : ∀ {n : ℕ} {f : Frame} {found l : List (ℤ × ℤ)},
    f = masked fwhm f₀ found → Greedy fwhm f₀ found → findLoop fwhm n f found = .ok l →
    Greedy fwhm f₀ l ∧ l.length ≤ found.length + n ∧ found.length ≤ l.length := by
  intro n
  induction n with
  | zero =>
    intro f found l _ hg h
    rw [findLoop] at h
    cases h
    exact ⟨hg, by omega, le_rfl⟩
  | succ n ih =>
    intro f found l hf hg h
    rw [findLoop] at h
    cases hp : peak f none with
    | error e =>
      rw [hp] at h
      cases h
    | ok p =>
      rw [hp] at h
      dsimp only at h
      split_ifs at h with hs
      · cases h
        exact ⟨hg, by omega, le_rfl⟩
      · have := ih (f := maskBox fwhm f p) (found := found ++ [p]) (by rw [masked_append, ← hf]) ?_ h
        · refine ⟨this.1, ?_, ?_⟩
          · have := this.2.1
            simp only [List.length_append, List.length_cons, List.length_nil] at this
            omega
          · have := this.2.2
            simp only [List.length_append, List.length_cons, List.length_nil] at this
            omega
        · intro k q hk
          rcases Nat.lt_or_ge k found.length with hlt | hge
          · rw [List.getElem?_append_left hlt] at hk
            rw [List.take_append_of_le_length hlt.le]
            exact hg k q hk
          · rw [List.getElem?_append_right hge] at hk
            obtain ⟨d, rfl⟩ : ∃ d, k = found.length + d := ⟨k - found.length, by omega⟩
            rw [Nat.add_sub_cancel_left] at hk
            rcases d with _ | d
            · simp at hk
              subst hk
              rw [Nat.add_zero, List.take_left' rfl, ← hf, hp]
            · simp at hk

/-- **C91.** The locations are found greedily: each is a brightest pixel of the image with the
boxes around all earlier ones blanked; there are at most `threshold`. -/
theorem C91_greedy {fwhm : ℚ} {threshold : ℕ} {f : Frame} {l : List (ℤ × ℤ)}
    (h : findSources fwhm threshold f = .ok l) : Greedy fwhm f l ∧ l.length ≤ threshold := by
  have := findLoop_spec (f₀ := f) (found := []) rfl (by intro k p hk; simp at hk) h
  exact ⟨this.1, by simpa using this.2.1⟩

theorem masked_px (fwhm : ℚ) (f : Frame) (l : List (ℤ × ℤ))
    (hl : ∀ q ∈ l, 0 ≤ q.1 ∧ 0 ≤ q.2) (i j : ℤ) (hi : 0 ≤ i ∧ i < f.w) (hj : 0 ≤ j ∧ j < f.h) :
    ((∃ q ∈ l, Near ⌊fwhm⌋ q (i, j)) → (masked fwhm f l).px j i = some 0) ∧
    ((∀ q ∈ l, ¬ Near ⌊fwhm⌋ q (i, j)) → (masked fwhm f l).px j i = f.px j i) := by
  induction l using List.reverseRecOn with
  | nil => simp [masked]
  | append_singleton l p ih =>
    have ih' := ih fun q hq => hl q (by simp [hq])
    have hs := masked_size fwhm f l
    have hp := hl p (by simp)
    rw [masked_append]
    have hpx : (maskBox fwhm (masked fwhm f l) p).px j i
        = if inAxis fwhm f.w p.1 i && inAxis fwhm f.h p.2 j then some 0
          else (masked fwhm f l).px j i := by
      unfold maskBox
      rw [hs.1, hs.2]
    have hc : (inAxis fwhm f.w p.1 i && inAxis fwhm f.h p.2 j) = true ↔ Near ⌊fwhm⌋ p (i, j) := by
      rw [Bool.and_eq_true, inAxis_iff hi.1 hi.2, inAxis_iff hj.1 hj.2]
      rfl
    rw [hpx]
    constructor
    · rintro ⟨q, hq, hn⟩
      by_cases hh : Near ⌊fwhm⌋ p (i, j)
      · rw [if_pos (hc.2 hh)]
      · rw [if_neg (fun h => hh (hc.1 h))]
        rcases List.mem_append.1 hq with hq | hq
        · exact ih'.1 ⟨q, hq, hn⟩
        · rw [List.mem_singleton] at hq
          subst hq
          exact absurd hn hh
    · intro hn
      rw [if_neg (fun h => hn p (by simp) (hc.1 h))]
      exact ih'.2 fun q hq => hn q (by simp [hq])

theorem greedy_inside {fwhm : ℚ} {f : Frame} {l : List (ℤ × ℤ)} (h : Greedy fwhm f l)
    {p : ℤ × ℤ} (hp : p ∈ l) : (0 ≤ p.1 ∧ p.1 < f.w) ∧ (0 ≤ p.2 ∧ p.2 < f.h) := by
  obtain ⟨k, hk⟩ := List.mem_iff_getElem?.1 hp
  have := C79_peak (h k p hk)
  have hs := masked_size fwhm f (l.take k)
  rw [hs.1, hs.2] at this
  exact ⟨this.1, this.2.1⟩

/-- **C91 (partial).** As long as the blanked image still has a positive pixel, the next location is
a pixel of the original image with at least that value, more than `int(fwhm)` pixels away (along one axis) from all earlier
ones. -/
theorem C91_separated_partial {fwhm : ℚ} {threshold : ℕ} {f : Frame}
    {l : List (ℤ × ℤ)} (h : findSources fwhm threshold f = .ok l) {k : ℕ} {p : ℤ × ℤ}
    (hk : l[k]? = some p) {x y : ℤ} {v : ℚ} (hx : 0 ≤ x ∧ x < f.w) (hy : 0 ≤ y ∧ y < f.h)
    (hv : f.px y x = some v) (hpos : 0 < v) (hfar : ∀ q ∈ l.take k, ¬ Near ⌊fwhm⌋ q (x, y)) :
    (∀ q ∈ l.take k, ¬ Near ⌊fwhm⌋ q p) ∧ ∃ m, f.px p.2 p.1 = some m ∧ v ≤ m := by
  obtain ⟨hg, -⟩ := C91_greedy h
  have hins : ∀ q ∈ l.take k, 0 ≤ q.1 ∧ 0 ≤ q.2 := fun q hq =>
    ⟨(greedy_inside hg (List.mem_of_mem_take hq)).1.1,
     (greedy_inside hg (List.mem_of_mem_take hq)).2.1⟩
  have hpk := C79_peak (hg k p hk)
  have hs := masked_size fwhm f (l.take k)
  rw [hs.1, hs.2] at hpk
  obtain ⟨hp1, hp2, m, hm, hmax⟩ := hpk
  have hval := (masked_px fwhm f (l.take k) hins x y hx hy).2 hfar
  have hvm : v ≤ m := by
    have := hmax x.toNat y.toNat (by omega) (by omega) v
      (by rw [Int.toNat_of_nonneg hx.1, Int.toNat_of_nonneg hy.1, hval, hv])
    exact this
  have hnear : ∀ q ∈ l.take k, ¬ Near ⌊fwhm⌋ q p := by
    intro q hq hn
    have := (masked_px fwhm f (l.take k) hins p.1 p.2 hp1 hp2).1 ⟨q, hq, hn⟩
    rw [hm] at this
    cases this
    linarith
  refine ⟨hnear, m, ?_, hvm⟩
  rw [← (masked_px fwhm f (l.take k) hins p.1 p.2 hp1 hp2).2 hnear, hm]

/-- One star on a slightly negative background. -/
def lone : Frame := ⟨5, 5, fun j i => if j = 2 ∧ i = 2 then some 10 else some (-1)⟩

/-- **C91, violated.** On a background-subtracted image with negative pixels the blanked box (zeros)
becomes the brightest place: a single star yields three "sources", two of them in blanked areas. -/
theorem C91_violated_negative :
    findSources 1 10 lone = .ok [(2, 2), (1, 1), (0, 0)] := by
  decide +kernel

/-- One star on a zero background: the empty corner is reported repeatedly. -/
def dark : Frame := ⟨3, 3, fun j i => if j = 1 ∧ i = 1 then some 10 else some 0⟩

/-- **C91, violated.** When the stars are used up the first blank pixel is reported as a source, and
reported again until the third repetition. -/
theorem C91_violated_repeats :
    findSources 1 10 dark = .ok [(1, 1), (0, 0), (0, 0)] := by
  decide +kernel

/-- The padded frame of astrom.py 398-400 has shape `[shape[1]+50, shape[0]+50]`: the assignment of
the `(h, w)` image into the `(w, h)` slice broadcasts only along axes of length one. -/
def padOk (h w : ℕ) : Bool := (h == w || h == 1) && (w == h || w == 1)

/-- **C91, violated.** The refinement step fails for every non-square image. -/
theorem C91_violated_rectangular (h w : ℕ) : padOk h w = true ↔ h = w := by
  unfold padOk
  simp only [Bool.and_eq_true, Bool.or_eq_true, beq_iff_eq]
  omega

/-! ## C92: `match_sources` -/

/-- Three sorted side lengths. -/
structure Tri where
  s : ℚ
  m : ℚ
  l : ℚ
  deriving DecidableEq

/-- Spec: sorted sides of a (possibly flat) triangle that is not a point. -/
def Tri.Proper (t : Tri) : Prop := 0 ≤ t.s ∧ t.s ≤ t.m ∧ t.m ≤ t.l ∧ t.l ≤ t.s + t.m ∧ 0 < t.l

/-- Side to perimeter ratios (astrom.py 440-446, 476-480). -/
def Tri.ratios (t : Tri) : Tri :=
  ⟨t.s / (t.s + t.m + t.l), t.m / (t.s + t.m + t.l), t.l / (t.s + t.m + t.l)⟩

/-- The plate-scale test of astrom.py 483-486, in mas per pixel. -/
def Within (g tol : ℚ) (img fld : Tri) : Prop :=
  (fld.s / img.s ≤ g * (1 + tol) ∧ fld.m / img.m ≤ g * (1 + tol) ∧ fld.l / img.l ≤ g * (1 + tol)) ∧
  (g * (1 - tol) ≤ fld.s / img.s ∧ g * (1 - tol) ≤ fld.m / img.m ∧ g * (1 - tol) ≤ fld.l / img.l)

/-- **C92.** The test passes exactly if the plate scale of every side differs from the guess by at most the tolerance. -/
theorem C92_within_iff {g tol : ℚ} {img fld : Tri} :
    Within g tol img fld ↔ |fld.s / img.s - g| ≤ g * tol ∧ |fld.m / img.m - g| ≤ g * tol ∧ |fld.l / img.l - g| ≤ g * tol := by
  unfold Within
  simp only [abs_le]
  constructor
  · rintro ⟨⟨a, b, c⟩, d, e, f⟩
    refine ⟨⟨?_, ?_⟩, ⟨?_, ?_⟩, ?_, ?_⟩ <;> linarith
  · rintro ⟨⟨a, b⟩, ⟨c, d⟩, e, f⟩
    refine ⟨⟨?_, ?_, ?_⟩, ?_, ?_, ?_⟩ <;> linarith

instance (g tol : ℚ) (img fld : Tri) : Decidable (Within g tol img fld) := by
  unfold Within; infer_instance

/-- Squared distance of two triples. -/
def Tri.dist (a b : Tri) : ℚ := (a.s - b.s) ^ 2 + (a.m - b.m) ^ 2 + (a.l - b.l) ^ 2

/-- `lstsq` of a field triangle (astrom.py 476-489): outside the tolerance the ratios are set to
zero. -/
def score (g tol : ℚ) (img fld : Tri) : ℚ :=
  img.ratios.dist (if Within g tol img fld then fld.ratios else ⟨0, 0, 0⟩)

/-- The running minimum `if v < best: best = v; ind = i` (astrom.py 489-493 with start 1e10,
544-550 with start 1e6). -/
def pickFrom : List ℚ → ℕ → ℚ → Option ℕ → Option ℕ
  | [], _, _, r => r
  | v :: vs, i, b, r => if v < b then pickFrom vs (i + 1) v (some i) else pickFrom vs (i + 1) b r

def pick (start : ℚ) (vs : List ℚ) : Option ℕ := pickFrom vs 0 start none

/-- Spec: `k` is the first smallest entry, and below `start`. -/
def FirstBelow (start : ℚ) (vs : List ℚ) (k : ℕ) : Prop :=
  ∃ v, vs[k]? = some v ∧ v < start ∧ (∀ (j : ℕ) (w : ℚ), vs[j]? = some w → v ≤ w) ∧
    ∀ (j : ℕ) (w : ℚ), j < k → vs[j]? = some w → v < w

theorem pickFrom_spec (vs : List ℚ) : ∀ (i : ℕ) (b : ℚ) (r : Option ℕ),
    (∀ w ∈ vs, b ≤ w) ∧ pickFrom vs i b r = r ∨
    ∃ (k : ℕ) (v : ℚ), vs[k]? = some v ∧ v < b ∧ (∀ w ∈ vs, v ≤ w) ∧
      (∀ (j : ℕ) (w : ℚ), j < k → vs[j]? = some w → v < w) ∧ pickFrom vs i b r = some (i + k) := by
  induction vs with
  | nil =>
    intro i b r
    exact Or.inl ⟨by simp, rfl⟩
  | cons a vs ih =>
    intro i b r
    by_cases hab : a < b
    · right
      rcases ih (i + 1) a (some i) with ⟨h1, h2⟩ | ⟨k, v, h1, h2, h3, h4, h5⟩
      · refine ⟨0, a, rfl, hab, ?_, ?_, ?_⟩
        · intro w hw
          rcases List.mem_cons.1 hw with rfl | hw
          · exact le_rfl
          · exact h1 w hw
        · intro j w hj
          omega
        · rw [pickFrom, if_pos hab, h2]
          rfl
      · refine ⟨k + 1, v, by simpa using h1, h2.trans hab, ?_, ?_, ?_⟩
        · intro w hw
          rcases List.mem_cons.1 hw with rfl | hw
          · exact h2.le
          · exact h3 w hw
        · intro j w hj hw
          rcases j with _ | j
          · simp at hw
            subst hw
            exact h2
          · exact h4 j w (by omega) (by simpa using hw)
        · rw [pickFrom, if_pos hab, h5]
          congr 1
          omega
    · rcases ih (i + 1) b r with ⟨h1, h2⟩ | ⟨k, v, h1, h2, h3, h4, h5⟩
      · left
        refine ⟨?_, by rw [pickFrom, if_neg hab, h2]⟩
        intro w hw
        rcases List.mem_cons.1 hw with rfl | hw
        · exact not_lt.1 hab
        · exact h1 w hw
      · right
        have hva : v < a := h2.trans_le (not_lt.1 hab)
        refine ⟨k + 1, v, by simpa using h1, h2, ?_, ?_, ?_⟩
        · intro w hw
          rcases List.mem_cons.1 hw with rfl | hw
          · exact hva.le
          · exact h3 w hw
        · intro j w hj hw
          rcases j with _ | j
          · simp at hw
            subst hw
            exact hva
          · exact h4 j w (by omega) (by simpa using hw)
        · rw [pickFrom, if_neg hab, h5]
          congr 1
          omega

/-- **C92.** The running minimum picks the first smallest entry, if it is below the start value. -/
theorem C92_pick (start : ℚ) (vs : List ℚ) (k : ℕ) :
    pick start vs = some k → FirstBelow start vs k := by
  intro h
  rcases pickFrom_spec vs 0 start none with ⟨_, h2⟩ | ⟨k', v, h1, h2, h3, h4, h5⟩
  · rw [pick, h2] at h
    cases h
  · rw [pick, h5] at h
    simp at h
    subst h
    exact ⟨v, h1, h2, fun j w hw => h3 w (List.mem_of_getElem? hw), h4⟩

/-- **C92.** Nothing is picked exactly when no entry is below the start value; the code then indexes
with NaN and fails. -/
theorem C92_pick_none (start : ℚ) (vs : List ℚ) :
    pick start vs = none ↔ ∀ v ∈ vs, start ≤ v := by
  constructor
  · intro h
    rcases pickFrom_spec vs 0 start none with ⟨h1, _⟩ | ⟨k', v, h1, h2, h3, h4, h5⟩
    · exact h1
    · rw [pick, h5] at h
      cases h
  · intro h
    rcases pickFrom_spec vs 0 start none with ⟨_, h2⟩ | ⟨k', v, h1, h2, h3, h4, h5⟩
    · exact h2
    · have := h v (List.mem_of_getElem? h1)
      linarith

theorem ratios_spec {t : Tri} (h : t.Proper) :
    t.ratios.s + t.ratios.m + t.ratios.l = 1 ∧ 0 ≤ t.ratios.s ∧ t.ratios.s ≤ t.ratios.m ∧
      t.ratios.m ≤ t.ratios.l ∧ t.ratios.l ≤ 1 / 2 := by
  obtain ⟨h1, h2, h3, h4, h5⟩ := h
  have hp : 0 < t.s + t.m + t.l := by linarith
  refine ⟨?_, ?_, ?_, ?_, ?_⟩
  · simp only [Tri.ratios]
    rw [← add_div, ← add_div, div_self hp.ne']
  · exact div_nonneg h1 hp.le
  · exact div_le_div_of_nonneg_right h2 hp.le
  · exact div_le_div_of_nonneg_right h3 hp.le
  · simp only [Tri.ratios]
    rw [div_le_div_iff₀ hp (by norm_num)]
    linarith

/-- Sorted triples with unit sum: any two are closer to each other than either is to zero. -/
theorem accepted_beats {a b : Tri} (ha : a.Proper) (hb : b.Proper) :
    a.ratios.dist b.ratios < a.ratios.dist ⟨0, 0, 0⟩ := by
  obtain ⟨e1, p1, p2, p3, p4⟩ := ratios_spec ha
  obtain ⟨e2, q1, q2, q3, q4⟩ := ratios_spec hb
  generalize a.ratios = u at *
  generalize b.ratios = v at *
  unfold Tri.dist
  simp only [sub_zero]
  have hche : 1 / 3 ≤ u.s * v.s + u.m * v.m + u.l * v.l := by
    have hu : u.s = 1 - u.m - u.l := by linarith
    have hv : v.s = 1 - v.m - v.l := by linarith
    nlinarith [mul_nonneg (sub_nonneg.2 p2) (sub_nonneg.2 q2),
      mul_nonneg (sub_nonneg.2 p3) (sub_nonneg.2 q3),
      mul_nonneg (sub_nonneg.2 (p2.trans p3)) (sub_nonneg.2 (q2.trans q3))]
  have hsq : v.s ^ 2 + v.m ^ 2 + v.l ^ 2 ≤ 1 / 2 := by
    have hm : v.m ≤ 1 / 2 := q3.trans q4
    have hs : v.s ≤ 1 / 2 := q2.trans hm
    nlinarith [mul_nonneg q1 (sub_nonneg.2 hs), mul_nonneg (q1.trans q2) (sub_nonneg.2 hm),
      mul_nonneg (q1.trans (q2.trans q3)) (sub_nonneg.2 q4)]
  nlinarith

/-- The chosen field triangle (astrom.py 466-493). -/
def bestTriangle (g tol : ℚ) (img : Tri) (flds : List Tri) : Option ℕ :=
  pick 10000000000 (flds.map (score g tol img))

/-- **C92 (partial).** If any field triangle passes the plate-scale test, the chosen one passes it, and its side
ratios are the closest of all that do. -/
theorem C92_best_partial {g tol : ℚ} {img : Tri} {flds : List Tri} (hi : img.Proper)
    (hf : ∀ t ∈ flds, t.Proper) {t₀ : Tri} (h0 : t₀ ∈ flds) (hw : Within g tol img t₀) :
    ∃ k t, bestTriangle g tol img flds = some k ∧ flds[k]? = some t ∧ Within g tol img t ∧
      ∀ t' ∈ flds, Within g tol img t' → img.ratios.dist t.ratios ≤ img.ratios.dist t'.ratios := by
  have hs0 : score g tol img t₀ < img.ratios.dist ⟨0, 0, 0⟩ := by
    unfold score
    rw [if_pos hw]
    exact accepted_beats hi (hf t₀ h0)
  obtain ⟨e1, p1, p2, p3, p4⟩ := ratios_spec hi
  have hz : img.ratios.dist ⟨0, 0, 0⟩ < 10000000000 := by
    unfold Tri.dist
    simp only [sub_zero]
    nlinarith
  cases hb : bestTriangle g tol img flds with
  | none =>
    have := (C92_pick_none _ _).1 hb (score g tol img t₀) (List.mem_map.2 ⟨t₀, h0, rfl⟩)
    linarith
  | some k =>
    obtain ⟨v, hv, hlt, hmin, -⟩ := C92_pick _ _ _ hb
    rw [List.getElem?_map, Option.map_eq_some_iff] at hv
    obtain ⟨t, ht, hvt⟩ := hv
    have hle : ∀ t' ∈ flds, v ≤ score g tol img t' := by
      intro t' ht'
      obtain ⟨j, hj⟩ := List.mem_iff_getElem?.1 ht'
      exact hmin j _ (by rw [List.getElem?_map, hj]; rfl)
    have hwt : Within g tol img t := by
      by_contra hn
      have := hle t₀ h0
      rw [← hvt] at this
      unfold score at this
      rw [if_neg hn, if_pos hw] at this
      have h2 := accepted_beats hi (hf t₀ h0)
      linarith
    refine ⟨k, t, rfl, ht, hwt, ?_⟩
    intro t' ht' hw'
    have := hle t' ht'
    rw [← hvt] at this
    unfold score at this
    rw [if_pos hwt, if_pos hw'] at this
    exact this

/-- **C92, violated.** If no triangle passes, the search does not fail: the first one is used. -/
theorem C92_violated_discarded {g tol : ℚ} {img : Tri} {flds : List Tri} (hi : img.Proper)
    (hne : flds ≠ []) (hw : ∀ t ∈ flds, ¬ Within g tol img t) :
    bestTriangle g tol img flds = some 0 := by
  obtain ⟨e1, p1, p2, p3, p4⟩ := ratios_spec hi
  have hz : img.ratios.dist ⟨0, 0, 0⟩ < 10000000000 := by
    unfold Tri.dist
    simp only [sub_zero]
    nlinarith
  have hall : ∀ t ∈ flds, score g tol img t = img.ratios.dist ⟨0, 0, 0⟩ := by
    intro t ht
    unfold score
    rw [if_neg (hw t ht)]
  cases hb : bestTriangle g tol img flds with
  | none =>
    obtain ⟨t, ht⟩ := List.exists_mem_of_ne_nil _ hne
    have := (C92_pick_none _ _).1 hb (score g tol img t) (List.mem_map.2 ⟨t, ht, rfl⟩)
    rw [hall t ht] at this
    linarith
  | some k =>
    rcases k with _ | k
    · rfl
    · exfalso
      obtain ⟨v, hv, -, -, hfirst⟩ := C92_pick _ _ _ hb
      obtain ⟨t, ts, rfl⟩ := List.exists_cons_of_ne_nil hne
      have h1 := hfirst 0 (score g tol img t) (by omega) rfl
      rw [hall t (by simp)] at h1
      rw [List.getElem?_map, Option.map_eq_some_iff] at hv
      obtain ⟨t', ht', rfl⟩ := hv
      rw [hall t' (List.mem_of_getElem? ht')] at h1
      exact lt_irrefl _ h1

/-- Non-vacuous: a 3-4-5 triangle at 20 mas per pixel is recognised behind one of the wrong size. -/
example : bestTriangle 21.8 0.1 ⟨3, 4, 5⟩ [⟨6, 8, 10⟩, ⟨60, 80, 100⟩] = some 1 := by
  decide +kernel

/-- Squared distance to every predicted position. -/
def sqDists (pred : List (ℚ × ℚ)) (s : ℚ × ℚ) : List ℚ :=
  pred.map fun p => (s.1 - p.1) ^ 2 + (s.2 - p.2) ^ 2

/-- The field star assigned to a source (astrom.py 543-552). -/
def nearest (pred : List (ℚ × ℚ)) (s : ℚ × ℚ) : Option ℕ := pick 1000000 (sqDists pred s)

/-- **C92.** Every source gets the nearest predicted star, the first in case of ties, within 1000
pixels. -/
theorem C92_nearest {pred : List (ℚ × ℚ)} {s : ℚ × ℚ} {k : ℕ} (h : nearest pred s = some k) :
    ∃ p, pred[k]? = some p ∧ (s.1 - p.1) ^ 2 + (s.2 - p.2) ^ 2 < 1000000 ∧
      ∀ q ∈ pred, (s.1 - p.1) ^ 2 + (s.2 - p.2) ^ 2 ≤ (s.1 - q.1) ^ 2 + (s.2 - q.2) ^ 2 := by
  obtain ⟨v, hv, hlt, hmin, -⟩ := C92_pick _ _ _ h
  unfold sqDists at hv hmin
  rw [List.getElem?_map, Option.map_eq_some_iff] at hv
  obtain ⟨p, hp, rfl⟩ := hv
  refine ⟨p, hp, hlt, ?_⟩
  intro q hq
  obtain ⟨j, hj⟩ := List.mem_iff_getElem?.1 hq
  exact hmin j _ (by rw [List.getElem?_map, hj]; rfl)

/-- **C92, violated.** The assignment is not one-to-one: two sources can share one field star while
another star stays unused, and no distance limit short of 1000 pixels rejects a mismatch. -/
theorem C92_violated_shared :
    nearest [(0, 0), (900, 0)] (0, 0) = some 0 ∧ nearest [(0, 0), (900, 0)] (300, 0) = some 0 := by
  decide +kernel

/-- `'RA' and 'DEC' and 'VMAG' not in field.colnames` (astrom.py 433). -/
def columnsOk (cols : List String) : Bool := cols.contains "VMAG"

/-- **C92, violated.** A catalogue without positions passes the column check. -/
theorem C92_violated_columns :
    ¬ ∀ cols : List String, columnsOk cols = true → "RA" ∈ cols ∧ "DEC" ∈ cols ∧ "VMAG" ∈ cols := by
  intro h
  have := h ["VMAG"] (by decide)
  simp at this

/-- The search window in right ascension (astrom.py 456), degrees. -/
def inWindow (rad target ra : ℚ) : Bool := decide (target - rad ≤ ra) && decide (ra ≤ target + rad)

/-- **C92.** The window holds exactly the values within the radius. -/
theorem C92_window_iff (rad target ra : ℚ) : inWindow rad target ra = true ↔ |ra - target| ≤ rad := by
  unfold inWindow
  simp only [Bool.and_eq_true, decide_eq_true_eq, abs_le]
  constructor
  · rintro ⟨a, b⟩
    constructor <;> linarith
  · rintro ⟨a, b⟩
    constructor <;> linarith

/-- **C92, violated.** The window does not wrap: a star a hundredth of a degree west of a target at
RA 0.005 is not considered. -/
theorem C92_violated_wrap : inWindow 0.012 0.005 359.995 = false := by decide +kernel

/-! ## C93: cutouts, pairs, and the glue of `boresight_calibration` -/

/-- The cutout bounds of `measure_offset` along one axis (astrom.py 130-146). -/
def cutout (size rad p : ℤ) : ℤ × ℤ :=
  let a := if p - rad < 0 then (0, 2 * rad + 1) else (p - rad, p + rad + 1)
  if size < a.2 then (size - 2 * rad - 1, size) else a

/-- **C93 (partial).** On an axis of at least `2·rad+1` pixels the cutout has exactly that width, lies inside the
frame and contains the star, also at the edges. -/
theorem C93_cutout_partial {size rad p : ℤ} (h0 : 0 ≤ rad) (hs : 2 * rad + 1 ≤ size) (hp : 0 ≤ p)
    (hp2 : p < size) :
    0 ≤ (cutout size rad p).1 ∧ (cutout size rad p).2 ≤ size ∧
      (cutout size rad p).2 - (cutout size rad p).1 = 2 * rad + 1 ∧
      (cutout size rad p).1 ≤ p ∧ p < (cutout size rad p).2 := by
  unfold cutout
  dsimp only
  by_cases h1 : p - rad < 0
  · rw [if_pos h1]
    dsimp only
    split_ifs <;> dsimp only <;> omega
  · rw [if_neg h1]
    dsimp only
    split_ifs <;> dsimp only <;> omega

/-- **C93.** Away from the edges it is centred on the star. -/
theorem C93_cutout_centred {size rad p : ℤ} (h1 : rad ≤ p) (h2 : p + rad < size) :
    cutout size rad p = (p - rad, p + rad + 1) := by
  unfold cutout
  dsimp only
  rw [if_neg (show ¬ p - rad < 0 by omega)]
  dsimp only
  rw [if_neg (by omega)]

/-- **C93, violated.** On a smaller frame the lower bound is negative, which numpy counts from the
other end: part of the frame is lost. -/
theorem C93_violated_small {size rad p : ℤ} (hs : 0 < size) (hs2 : size < 2 * rad + 1)
    (hr : 2 * rad + 1 ≤ 2 * size) :
    cutout size rad p = (size - 2 * rad - 1, size) ∧
      sliceLen size (cutout size rad p).1 (cutout size rad p).2 = 2 * rad + 1 - size ∧
      2 * rad + 1 - size ≤ size := by
  have hc : cutout size rad p = (size - 2 * rad - 1, size) := by
    unfold cutout
    by_cases h1 : p - rad < 0
    · rw [if_pos h1]
      dsimp only
      rw [if_pos (by omega)]
    · rw [if_neg h1]
      dsimp only
      rw [if_pos (by omega)]
  refine ⟨hc, ?_, by omega⟩
  rw [hc]
  unfold sliceLen
  dsimp only
  rw [if_neg (by omega), if_pos (by omega)]
  omega

/-- What the fit of `measure_offset` compares (astrom.py 150-171 and `shift_psf` 99-106): `φ v` is
the flux at `star + v`, the data stamp is centred on `star + guess`, and a second star of the same
profile sits at `star + off`. -/
def dataStamp (φ : ℚ × ℚ → ℚ) (off guess u : ℚ × ℚ) : ℚ :=
  φ (guess.1 + u.1 - off.1, guess.2 + u.2 - off.2)

def modelStamp (φ : ℚ × ℚ → ℚ) (d u : ℚ × ℚ) : ℚ := φ (u.1 + d.1, u.2 + d.2)

/-- `binary_offset` (astrom.py 178). -/
def offsetOf (guess d : ℚ × ℚ) : ℚ × ℚ := (guess.1 - d.1, guess.2 - d.2)

/-- **C93.** The sign convention of `measure_offset` is right: for any profile and any guess the
shift `guess - off` fits exactly, and it is reported as the true offset. -/
theorem C93_offset (φ : ℚ × ℚ → ℚ) (off guess : ℚ × ℚ) :
    ∃ d, (∀ u, modelStamp φ d u = dataStamp φ off guess u) ∧ offsetOf guess d = off := by
  refine ⟨(guess.1 - off.1, guess.2 - off.2), ?_, ?_⟩
  · intro u
    unfold modelStamp dataStamp
    dsimp only
    congr 1
    apply Prod.ext <;> dsimp only <;> ring
  · unfold offsetOf
    dsimp only
    apply Prod.ext <;> dsimp only <;> ring

/-- Centre of the data stamp when `format_distortion_inputs` measures a pair (astrom.py 923-929): the
first star handed over is `star2`, the offset `star2 - star1`. -/
def pairStamp (star1 star2 : ℚ × ℚ) : ℚ × ℚ :=
  (star2.1 + (star2.1 - star1.1), star2.2 + (star2.2 - star1.2))

/-- **C93, violated.** The data stamp is on neither star of the pair, for any two distinct stars. -/
theorem C93_violated_pair {s t : ℚ × ℚ} (h : s ≠ t) : pairStamp s t ≠ t ∧ pairStamp s t ≠ s := by
  unfold pairStamp
  constructor
  · intro he
    apply h
    have h1 := congrArg Prod.fst he
    have h2 := congrArg Prod.snd he
    simp only at h1 h2
    exact Prod.ext (by linarith) (by linarith)
  · intro he
    apply h
    have h1 := congrArg Prod.fst he
    have h2 := congrArg Prod.snd he
    simp only at h1 h2
    exact Prod.ext (by linarith) (by linarith)

/-- One combined image: first frame, end of the slice, and the frame whose file name it gets
(astrom.py 1071-1085). -/
structure Group where
  first : ℕ
  stop : ℕ
  name : ℕ
  deriving DecidableEq, Repr

/-- The `while count < num_frames` loop with `k = frames_to_combine`; the first argument bounds the
number of turns. -/
def groups (num k : ℕ) : ℕ → ℕ → Option (List Group)
  | 0, _ => none
  | fuel + 1, count =>
    if count < num then
      let g : Group := if num ≤ count + k then ⟨count, num, num - 1⟩ else ⟨count, count + k, count + k⟩
      (groups num k fuel (count + k)).map (g :: ·)
    else some []

/-- The frames of a list of groups. -/
def framesOf (gs : List Group) : List ℕ := gs.flatMap fun g => List.range' g.first (g.stop - g.first)

theorem groups_frames {num k : ℕ} (hk : 0 < k) : ∀ (fuel count : ℕ), num - count < fuel →
    ∃ gs, groups num k fuel count = some gs ∧ framesOf gs = List.range' count (num - count) := by
  intro fuel
  induction fuel with
  | zero => intro count h; omega
  | succ fuel ih =>
    intro count h
    rw [groups]
    by_cases hc : count < num
    · rw [if_pos hc]
      obtain ⟨gs, h1, h2⟩ := ih (count + k) (by omega)
      refine ⟨_, by rw [h1]; rfl, ?_⟩
      by_cases hn : num ≤ count + k
      · simp only [if_pos hn, framesOf, List.flatMap_cons]
        have : framesOf gs = [] := by
          rw [h2]
          have : num - (count + k) = 0 := by omega
          rw [this]; rfl
        unfold framesOf at this
        rw [this, List.append_nil]
      · simp only [if_neg hn, framesOf, List.flatMap_cons]
        unfold framesOf at h2
        rw [h2]
        have e1 : count + k - count = k := by omega
        have e2 : num - count = k + (num - (count + k)) := by omega
        rw [e1, e2, ← List.range'_append_1]
    · rw [if_neg hc]
      refine ⟨[], rfl, ?_⟩
      have : num - count = 0 := by omega
      rw [this]; rfl

/-- **C93 (partial).** Combining `k > 0` frames at a time terminates and uses every frame exactly once, in order. -/
theorem C93_groups_partial {num k : ℕ} (hk : 0 < k) :
    ∃ gs, groups num k (num + 1) 0 = some gs ∧ framesOf gs = List.range num := by
  obtain ⟨gs, h1, h2⟩ := groups_frames (num := num) hk (num + 1) 0 (by omega)
  exact ⟨gs, h1, by rw [h2, List.range_eq_range']; rfl⟩

/-- **C93, violated.** With `frames_to_combine = 0` the loop never ends. -/
theorem C93_violated_zero {num : ℕ} (h : 0 < num) : ∀ fuel, groups num 0 fuel 0 = none := by
  intro fuel
  induction fuel with
  | zero => rfl
  | succ fuel ih =>
    rw [groups, if_pos h, Nat.add_zero, ih]
    rfl

/-- **C93, violated.** Every combined image but the last is named after a frame that is not in it
(the first frame of the next group). -/
theorem C93_violated_name {num k : ℕ} (hk : 0 < k) (hkn : k < num) :
    ∃ gs, groups num k (num + 1) 0 = some (⟨0, k, k⟩ :: gs) ∧ k ∉ List.range' 0 (k - 0) := by
  obtain ⟨gs, h1, -⟩ := groups_frames (num := num) hk num k (by omega)
  refine ⟨gs, ?_, by simp⟩
  rw [groups, if_pos (by omega)]
  simp only [Nat.zero_add, if_neg (not_le.2 hkn), h1]
  rfl

example : groups 5 2 6 0 = some [⟨0, 2, 2⟩, ⟨2, 4, 4⟩, ⟨4, 5, 4⟩] := by decide +kernel

/-- Loading of `field_matches` (astrom.py 1037-1055); `none` is the TypeError. -/
def loadMatches {T : Type} (fm : List T) (frames : ℕ) : Option (List T) :=
  match fm with
  | [] => some []
  | [t] => some (List.replicate frames t)
  | _ => if fm.length = frames then some fm else none

/-- **C93.** One table stands for every frame; several must be as many as the frames. -/
theorem C93_load {T : Type} (fm : List T) (frames : ℕ) (l : List T) :
    loadMatches fm frames = some l ∧ fm ≠ [] ↔
      (∃ t, fm = [t] ∧ l = List.replicate frames t) ∨ (2 ≤ fm.length ∧ fm.length = frames ∧ l = fm) := by
  unfold loadMatches
  match fm with
  | [] => simp
  | [t] => simp [eq_comm]
  | a :: b :: r =>
    simp only [List.length_cons]
    constructor
    · rintro ⟨h, -⟩
      split_ifs at h with hl
      exact Or.inr ⟨by omega, hl, (Option.some.inj h).symm⟩
    · rintro (⟨t, h, -⟩ | ⟨-, h, rfl⟩)
      · simp at h
      · rw [if_pos h]; simp

/-- The matches that plate scale, north angle, boresight and distortion are computed from
(astrom.py 1110-1116, 1137-1140): those found in the frames, never the loaded ones. -/
def usedMatches {T : Type} (fm : Option (List T)) (frames : ℕ) (found : List T) : Option (List T) :=
  match fm with
  | none => some found
  | some l => (loadMatches l frames).map fun _ => found

/-- **C93, violated.** Matches supplied by the user only have their number checked; the result is
computed from the automatic ones. -/
theorem C93_violated_matches {T : Type} (l : List T) (frames : ℕ) (found used : List T)
    (h : usedMatches (some l) frames found = some used) : used = found := by
  unfold usedMatches at h
  dsimp only at h
  rw [Option.map_eq_some_iff] at h
  obtain ⟨_, _, h⟩ := h
  exact h.symm

example : usedMatches (some ["mine"]) 2 ["auto1", "auto2"] = some ["auto1", "auto2"] := by
  decide +kernel

/-- `hdr[key] = (value, comment)`: astropy takes a 2-tuple as value and comment; reading the keyword
gives the value (astrom.py 1155-1157). -/
structure Card where
  value : ℚ
  comment : ℚ

def positionCard (corr : ℚ × ℚ) : Card := ⟨corr.1, corr.2⟩

/-- **C93, violated.** The `F{i}POS` keyword holds the right ascension only: frames with different
declinations have the same keyword value. -/
theorem C93_violated_card : ∃ p q : ℚ × ℚ, p ≠ q ∧ (positionCard p).value = (positionCard q).value :=
  ⟨(10, 20), (10, 30), by decide, rfl⟩

/-- `create_circular_mask` (astrom.py 1182-1192): is the pixel (row `y`, column `x`) inside? `center`
is used as `(x, y)`; the radius is compared squared. -/
def inCircle (center : ℚ × ℚ) (r : ℚ) (y x : ℕ) : Prop :=
  0 ≤ r ∧ (x - center.1) ^ 2 + (y - center.2) ^ 2 ≤ r ^ 2

/-- **C93.** The mask holds exactly the pixels within the radius of the centre. -/
theorem C93_circle_iff (center : ℚ × ℚ) (r : ℚ) (y x : ℕ) :
    inCircle center r y x ↔ Real.sqrt (((x : ℝ) - center.1) ^ 2 + ((y : ℝ) - center.2) ^ 2) ≤ r := by
  unfold inCircle
  constructor
  · rintro ⟨h0, h⟩
    rw [Real.sqrt_le_left (by exact_mod_cast h0)]
    exact_mod_cast h
  · intro h
    have h0 : (0 : ℝ) ≤ r := (Real.sqrt_nonneg _).trans h
    rw [Real.sqrt_le_left h0] at h
    exact ⟨by exact_mod_cast h0, by exact_mod_cast h⟩

/-- The default centre `(shape_yx - 1) / 2`: first component from the rows. -/
def defaultCenter (rows cols : ℕ) : ℚ × ℚ := (((rows : ℚ) - 1) / 2, ((cols : ℚ) - 1) / 2)

/-- **C93 (partial).** On a square array the default mask is symmetric under the mirror images of the array. -/
theorem C93_mask_partial {n : ℕ} {r : ℚ} {y x : ℕ} (hy : y < n) (hx : x < n) :
    (inCircle (defaultCenter n n) r y x ↔ inCircle (defaultCenter n n) r y (n - 1 - x)) ∧
      (inCircle (defaultCenter n n) r y x ↔ inCircle (defaultCenter n n) r (n - 1 - y) x) := by
  have e : ∀ z : ℕ, z < n → ((n - 1 - z : ℕ) : ℚ) = (n : ℚ) - 1 - z := by
    intro z hz
    rw [Nat.sub_sub, Nat.cast_sub (by omega)]
    push_cast
    ring
  unfold inCircle defaultCenter
  dsimp only
  rw [e x hx, e y hy]
  constructor
  · have : ((n : ℚ) - 1 - x - ((n : ℚ) - 1) / 2) ^ 2 = ((x : ℚ) - ((n : ℚ) - 1) / 2) ^ 2 := by ring
    rw [this]
  · have : ((n : ℚ) - 1 - y - ((n : ℚ) - 1) / 2) ^ 2 = ((y : ℚ) - ((n : ℚ) - 1) / 2) ^ 2 := by ring
    rw [this]

/-- **C93, violated.** On a 3 x 9 array the default mask of radius 1 is empty: its centre is taken at
column 1, row 4, outside the array. -/
theorem C93_violated_mask : ∀ y x : ℕ, y < 3 → x < 9 → ¬ inCircle (defaultCenter 3 9) 1 y x := by
  intro y x hy hx
  unfold inCircle defaultCenter
  rintro ⟨-, h⟩
  dsimp only at h
  have hy' : (y : ℚ) ≤ 2 := by exact_mod_cast (by omega : y ≤ 2)
  nlinarith [sq_nonneg ((x : ℚ) - ((3 : ℕ) - 1) / 2)]

end Corgi.AstromSources

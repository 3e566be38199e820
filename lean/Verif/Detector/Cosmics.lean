import Mathlib.Data.List.Sort
import Mathlib.Data.List.Dedup
import Mathlib.Order.Basic
import Mathlib.Tactic.Ring
import Mathlib.Algebra.Order.Ring.Rat
import Verif.Detector.Geometry

/-!
# `flag_cosmics` and `find_plateaus` (detector.py 376-551): model, C29 and C30

Pixel values are in any linear order, without NaN. Only the products `sat_thresh*fwc` and
`plat_thresh*fwc` enter; they are `S` and `P`. One frame of the cube is modelled (frames are independent).
-/

namespace Corgi.Cr

open Corgi.Det

variable {α : Type} [LinearOrder α]

/-- Index with the edge value repeated (`mode='nearest'`). -/
def clamp (n : ℕ) (i : ℤ) : ℕ := min i.toNat (n - 1)

/-- `median_filter(row, size, mode='nearest')` at index `i`: the element of rank `size//2` of the window
that starts `size//2` to the left. -/
def medFilt (row : ℕ → α) (n size i : ℕ) : α :=
  let w := (List.range size).map fun (k : ℕ) => row (clamp n ((i : ℤ) + (k : ℤ) - ((size / 2 : ℕ) : ℤ)))
  ((w.insertionSort (· ≤ ·))[size / 2]?).getD (row i)

/-- lines 542-543: the `while` loop. -/
def goLeft (row : ℕ → α) (P : α) : ℕ → ℕ
  | 0 => 0
  | i + 1 => if row (i + 1) ≥ P then goLeft row P i else i + 1

/-- lines 541-546: plateau start for a saturated index. -/
def begOf (row : ℕ → α) (P : α) (i : ℕ) : ℕ :=
  let j := goLeft row P i
  if row j < P then j + 1 else j

/-- lines 535-536 -/
def saturated (row : ℕ → α) (n : ℕ) (S : α) (filter : ℕ) : List ℕ :=
  (List.range n).filter fun i => medFilt row n (filter + 1) i ≥ S

/-- `find_plateaus`, detector.py 511-551; `np.unique` sorts and removes duplicates. -/
def findPlateaus (row : ℕ → α) (n : ℕ) (S P : α) (filter : ℕ) : Option (List ℕ) :=
  let sat := saturated row n S filter
  if sat.length > 0 then some ((sat.map (begOf row P)).dedup.insertionSort (· ≤ ·)) else none

/-- A painted rectangle, half-open. -/
structure Rect where
  r0 : ℕ
  r1 : ℕ
  c0 : ℕ
  c1 : ℕ

/-- `mask[r0:r1, c0:c1] = 1` -/
def paint (m : ℕ → ℕ → Bool) (a : Rect) : ℕ → ℕ → Bool := fun r c =>
  m r c || (decide (a.r0 ≤ r) && decide (r < a.r1) && decide (a.c0 ≤ c) && decide (c < a.c1))

/-- `mask.ravel()[a:b] = 1`, for rows of length `nc` -/
def paintFlat (m : ℕ → ℕ → Bool) (nc a b : ℕ) : ℕ → ℕ → Bool := fun r c =>
  m r c || (decide (a ≤ r * nc + c) && decide (r * nc + c < b))

/-- Parameters of the masking. -/
structure Par where
  filter : ℕ
  box : ℕ
  tail : ℕ

/-- The rows and columns that are looked at, both ends included (lines 452-463). -/
structure Bounds where
  sr : ℕ
  er : ℕ
  sc : ℕ
  ec : ℕ

/-- mode 'full': the image area from the dictionary; the ends are one past the last row and column. -/
def fullBounds (im : Area) : Bounds := ⟨im.r0, im.r0 + im.rows, im.c0, im.c0 + im.cols⟩

/-- otherwise: the whole array. -/
def imageBounds (nr nc : ℕ) : Bounds := ⟨0, nr - 1, 0, nc - 1⟩

/-- lines 481-500: the mask for one plateau start of row `i`, and the overflow. -/
def paintHit (p : Par) (B : Bounds) (nc i : ℕ) (st : (ℕ → ℕ → Bool) × List (ℕ × ℕ)) (b : ℕ) :
    (ℕ → ℕ → Bool) × List (ℕ × ℕ) :=
  if b < B.sc ∨ b > B.ec then st
  else
    let ex := if b + p.filter + p.tail + 1 > nc then st.2 ++ [(b + p.filter + p.tail + 1 - nc, i + 1)] else st.2
    let m := paint st.1 ⟨i, i + 1, b, min (b + p.filter + p.tail + 1) nc⟩
    (paint m ⟨max (i - p.box) B.sr, min (i + p.box + 1) (B.er + 1),
      max (b - p.box) B.sc, min (b + p.box + 1) (B.ec + 1)⟩, ex)

/-- lines 470-507: one streak row. -/
def paintRow (full : Bool) (p : Par) (B : Bounds) (f : Img α) (S P : α) (m : ℕ → ℕ → Bool) (i : ℕ) :
    ℕ → ℕ → Bool :=
  if i < B.sr ∨ i > B.er then m
  else
    let r := match findPlateaus (f.px i) f.nc S P p.filter with
      | some bs => bs.foldl (paintHit p B f.nc i) (m, [])
      | none => (m, [])
    if full ∧ r.2.length > 0 then
      r.2.foldl (fun m x => paintFlat m f.nc (x.2 * f.nc - 1) (x.2 * f.nc - 1 + x.1)) r.1
    else r.1

/-- lines 467-468: rows with a pixel of at least `S`. -/
def streakRows (f : Img α) (S : α) : List ℕ :=
  (List.range f.nr).filter fun i => (List.range f.nc).any fun c => decide (f.px i c ≥ S)

/-- `flag_cosmics` with the bounds given. -/
def flagWith (full : Bool) (p : Par) (B : Bounds) (f : Img α) (S P : α) : ℕ → ℕ → Bool :=
  (streakRows f S).foldl (paintRow full p B f S P) fun _ _ => false

/-- `flag_cosmics`, detector.py 376-509, for one frame. -/
def flagCosmics (d : Regions) (arrtype : String) (full : Bool) (p : Par) (f : Img α) (S P : α) :
    Except Err (ℕ → ℕ → Bool) :=
  if full then do
    let im ← lookArea d arrtype "image"
    return flagWith true p (fullBounds im) f S P
  else .ok (flagWith false p (imageBounds f.nr f.nc) f S P)

/-! ## C30 -/

theorem goLeft_spec (row : ℕ → α) (P : α) (i : ℕ) :
    goLeft row P i ≤ i ∧ (∀ k, goLeft row P i < k → k ≤ i → P ≤ row k) ∧
    (goLeft row P i = 0 ∨ row (goLeft row P i) < P) := by
  induction i with
  | zero => exact ⟨le_refl _, fun k h1 h2 => by simp [goLeft] at h1; omega, Or.inl rfl⟩
  | succ i ih =>
    simp only [goLeft]
    by_cases h : row (i + 1) ≥ P
    · rw [if_pos h]
      refine ⟨by omega, fun k h1 h2 => ?_, ih.2.2⟩
      rcases Nat.lt_or_ge i k with h3 | h3
      · have : k = i + 1 := by omega
        subst this; exact h
      · exact ih.2.1 k h1 h3
    · rw [if_neg h]
      exact ⟨le_refl _, fun k h1 h2 => by omega, Or.inr (not_le.1 h)⟩

/-- A plateau start: bright, and at the row's beginning or after a pixel that is not. -/
def LeftEdge (row : ℕ → α) (P : α) (b : ℕ) : Prop := P ≤ row b ∧ (b = 0 ∨ row (b - 1) < P)

/-- From a bright pixel the search ends at the left edge of the plateau containing it. -/
theorem begOf_bright (row : ℕ → α) (P : α) (i : ℕ) (h : P ≤ row i) :
    LeftEdge row P (begOf row P i) ∧ begOf row P i ≤ i ∧ ∀ k, begOf row P i ≤ k → k ≤ i → P ≤ row k := by
  obtain ⟨h1, h2, h3⟩ := goLeft_spec row P i
  unfold begOf
  dsimp only
  by_cases hj : row (goLeft row P i) < P
  · rw [if_pos hj]
    have hlt : goLeft row P i < i := by
      rcases Nat.lt_or_ge (goLeft row P i) i with h4 | h4
      · exact h4
      · have : goLeft row P i = i := by omega
        rw [this] at hj
        exact absurd h (not_le.2 hj)
    refine ⟨⟨h2 _ (by omega) (by omega), Or.inr ?_⟩, by omega, fun k h4 h5 => h2 k (by omega) h5⟩
    rw [Nat.add_sub_cancel]; exact hj
  · rw [if_neg hj]
    have h0 : goLeft row P i = 0 := h3.resolve_right hj
    rw [h0] at hj ⊢
    refine ⟨⟨not_lt.1 hj, Or.inl rfl⟩, by omega, fun k h4 h5 => ?_⟩
    rcases Nat.eq_zero_or_pos k with h6 | h6
    · subst h6; exact not_lt.1 hj
    · exact h2 k (by rw [h0]; exact h6) h5

/-- From a pixel that is not bright the search answers the next index. -/
theorem begOf_dark (row : ℕ → α) (P : α) (i : ℕ) (h : row i < P) : begOf row P i = i + 1 := by
  have : goLeft row P i = i := by
    cases i with
    | zero => rfl
    | succ i => simp only [goLeft]; rw [if_neg (not_le.2 h)]
  unfold begOf
  rw [this]
  dsimp only
  rw [if_pos h]

theorem mem_findPlateaus {row : ℕ → α} {n : ℕ} {S P : α} {filter : ℕ} {bs : List ℕ}
    (h : findPlateaus row n S P filter = some bs) (b : ℕ) :
    b ∈ bs ↔ ∃ i, i < n ∧ S ≤ medFilt row n (filter + 1) i ∧ b = begOf row P i := by
  unfold findPlateaus at h
  dsimp only at h
  split at h
  · simp only [Option.some.injEq] at h
    subst h
    rw [List.mem_insertionSort, List.mem_dedup, List.mem_map]
    constructor
    · rintro ⟨i, hi, rfl⟩
      rw [saturated, List.mem_filter] at hi
      exact ⟨i, List.mem_range.1 hi.1, by simpa using hi.2, rfl⟩
    · rintro ⟨i, h1, h2, rfl⟩
      exact ⟨i, List.mem_filter.2 ⟨List.mem_range.2 h1, by simpa using h2⟩, rfl⟩
  · cases h

/-- **C30** The indices are strictly increasing. -/
theorem C30_increasing {row : ℕ → α} {n : ℕ} {S P : α} {filter : ℕ} {bs : List ℕ}
    (h : findPlateaus row n S P filter = some bs) : bs.Pairwise (· < ·) := by
  unfold findPlateaus at h
  dsimp only at h
  split at h
  · simp only [Option.some.injEq] at h
    subst h
    generalize hl : (List.map (begOf row P) (saturated row n S filter)).dedup = l
    have h1 : (l.insertionSort (· ≤ ·)).Pairwise (· ≤ ·) := List.pairwise_insertionSort _ _
    have h2 : (l.insertionSort (· ≤ ·)).Nodup :=
      (List.perm_insertionSort _ l).nodup_iff.2 (hl ▸ List.nodup_dedup _)
    have := h1.and h2
    exact this.imp fun ⟨a, b⟩ => lt_of_le_of_ne a b
  · cases h

/-- **C30** Each index either is the left edge of the plateau of a pixel that passed the filter, or comes right
after a pixel that passed the filter without being bright itself; always its left neighbour is not bright
(or there is none). (Missing: that the second case does not occur; it does, see `C30_violated`.) -/
theorem C30_left_edge_partial {row : ℕ → α} {n : ℕ} {S P : α} {filter : ℕ} {bs : List ℕ}
    (h : findPlateaus row n S P filter = some bs) (b : ℕ) (hb : b ∈ bs) :
    (b = 0 ∨ row (b - 1) < P) ∧ ∃ i, i < n ∧ S ≤ medFilt row n (filter + 1) i ∧
      ((P ≤ row i ∧ LeftEdge row P b ∧ b ≤ i ∧ ∀ k, b ≤ k → k ≤ i → P ≤ row k) ∨ (row i < P ∧ b = i + 1)) := by
  obtain ⟨i, h1, h2, rfl⟩ := (mem_findPlateaus h b).1 hb
  rcases le_or_gt P (row i) with hi | hi
  · obtain ⟨h3, h4, h5⟩ := begOf_bright row P i hi
    exact ⟨h3.2, i, h1, h2, Or.inl ⟨hi, h3, h4, h5⟩⟩
  · rw [begOf_dark row P i hi]
    exact ⟨Or.inr (by rw [Nat.add_sub_cancel]; exact hi), i, h1, h2, Or.inr ⟨hi, rfl⟩⟩

/-- The window element of some rank is one of the row's pixels. -/
theorem medFilt_mem (row : ℕ → α) (n size i : ℕ) (hs : 0 < size) (hn : 0 < n) :
    ∃ k, k < n ∧ medFilt row n size i = row k := by
  unfold medFilt
  dsimp only
  generalize hw : (List.range size).map (fun (k : ℕ) => row (clamp n ((i : ℤ) + (k : ℤ) - ((size / 2 : ℕ) : ℤ)))) = w
  have hlen : (w.insertionSort (· ≤ ·)).length = size := by
    rw [List.length_insertionSort, ← hw]; simp
  have hlt : size / 2 < (w.insertionSort (· ≤ ·)).length := by rw [hlen]; omega
  rw [List.getElem?_eq_getElem hlt, Option.getD_some]
  have hm : (w.insertionSort (· ≤ ·))[size / 2] ∈ w :=
    (List.mem_insertionSort _).1 (List.getElem_mem hlt)
  generalize (w.insertionSort (· ≤ ·))[size / 2] = x at hm ⊢
  rw [← hw] at hm
  obtain ⟨k, _, hk⟩ := List.mem_map.1 hm
  exact ⟨_, by unfold clamp; omega, hk.symm⟩

/-- With the default `cosm_filter=1` the filter has size 2 and its "median" is the larger of a pixel and its
left neighbour. -/
theorem medFilt_two (row : ℕ → α) (n i : ℕ) (hi : i < n) : medFilt row n 2 i = max (row (i - 1)) (row i) := by
  have h0 : clamp n ((i : ℤ) + ((0 : ℕ) : ℤ) - ((2 / 2 : ℕ) : ℤ)) = i - 1 := by unfold clamp; omega
  have h1 : clamp n ((i : ℤ) + ((1 : ℕ) : ℤ) - ((2 / 2 : ℕ) : ℤ)) = i := by unfold clamp; omega
  have hw : (List.range 2).map (fun (k : ℕ) => row (clamp n ((i : ℤ) + (k : ℤ) - ((2 / 2 : ℕ) : ℤ)))) =
      [row (i - 1), row i] := by
    rw [show List.range 2 = [0, 1] from rfl]
    simp only [List.map_cons, List.map_nil]
    rw [h0, h1]
  unfold medFilt
  dsimp only
  rw [hw]
  simp only [List.insertionSort, List.foldr, List.orderedInsert]
  by_cases h : row (i - 1) ≤ row i
  · rw [if_pos h, max_eq_right h]; rfl
  · rw [if_neg h, max_eq_left (le_of_not_ge h)]; rfl

/-- **C30** is violated, for every row with a single bright pixel (not in the last two columns) and the
default `cosm_filter`: besides its own index the answer contains the index two to the right, which is dark. -/
theorem C30_violated (row : ℕ → α) (n : ℕ) (S P : α) (hPS : P ≤ S) (i : ℕ) (hi : i + 2 < n) (hbright : S ≤ row i)
    (hdark : ∀ k, k < n → k ≠ i → row k < P) :
    ∃ bs, findPlateaus row n S P 1 = some bs ∧ (∀ b, b ∈ bs ↔ b = i ∨ b = i + 2) ∧ ¬ LeftEdge row P (i + 2) := by
  have hsat : ∀ k, k < n → (S ≤ medFilt row n 2 k ↔ k = i ∨ k = i + 1) := by
    intro k hk
    rw [medFilt_two row n k hk, le_max_iff]
    constructor
    · rintro (h | h)
      · by_contra hne
        push Not at hne
        exact absurd (hPS.trans h) (not_le.2 (hdark (k - 1) (by omega) (by omega)))
      · by_contra hne
        push Not at hne
        exact absurd (hPS.trans h) (not_le.2 (hdark k hk hne.1))
    · rintro (rfl | rfl)
      · exact Or.inr hbright
      · left; rwa [Nat.add_sub_cancel]
  have hsome : ∃ bs, findPlateaus row n S P 1 = some bs := by
    unfold findPlateaus
    dsimp only
    rw [if_pos]
    · exact ⟨_, rfl⟩
    · apply List.length_pos_of_mem (a := i)
      rw [saturated, List.mem_filter]
      exact ⟨List.mem_range.2 (by omega), by simpa using (hsat i (by omega)).2 (Or.inl rfl)⟩
  obtain ⟨bs, hbs⟩ := hsome
  have hown : begOf row P i = i := by
    obtain ⟨_, h2, h3⟩ := begOf_bright row P i (hPS.trans hbright)
    by_contra hne
    have := h3 (i - 1) (by omega) (by omega)
    exact absurd this (not_le.2 (hdark (i - 1) (by omega) (by omega)))
  refine ⟨bs, hbs, ?_, fun h => absurd h.1 (not_le.2 (hdark (i + 2) hi (by omega)))⟩
  intro b
  rw [mem_findPlateaus hbs]
  constructor
  · rintro ⟨k, h1, h2, rfl⟩
    rcases (hsat k h1).1 h2 with rfl | rfl
    · left; exact hown
    · right; exact begOf_dark row P _ (hdark _ h1 (by omega))
  · rintro (rfl | rfl)
    · exact ⟨b, by omega, (hsat b (by omega)).2 (Or.inl rfl), hown.symm⟩
    · exact ⟨i + 1, by omega, (hsat _ (by omega)).2 (Or.inr rfl),
        (begOf_dark row P _ (hdark _ (by omega) (by omega))).symm⟩

/-- Not vacuous: one bright pixel at column 3. -/
example : findPlateaus (fun i => if i = 3 then (10 : ℚ) else 0) 8 7 7 1 = some [3, 5] := by decide +kernel

/-! ## C29 -/

/-- Specification: index `b` starts a plateau of row `i` (as found by `find_plateaus`). -/
def Starts (f : Img α) (S P : α) (filter i b : ℕ) : Prop :=
  ∃ k, k < f.nc ∧ S ≤ medFilt (f.px i) f.nc (filter + 1) k ∧ b = begOf (f.px i) P k

/-- The hit and its tail, in the row. -/
def Streak (p : Par) (nc i b r c : ℕ) : Prop := r = i ∧ b ≤ c ∧ c ≤ b + p.filter + p.tail ∧ c < nc

/-- The box around the start, clipped to the bounds. -/
def Box (p : Par) (B : Bounds) (i b r c : ℕ) : Prop :=
  (i ≤ r + p.box ∧ r ≤ i + p.box) ∧ (b ≤ c + p.box ∧ c ≤ b + p.box) ∧
  (B.sr ≤ r ∧ r ≤ B.er) ∧ (B.sc ≤ c ∧ c ≤ B.ec)

/-- What the code masks on the rows after `i`: the flat indices from the *last* pixel of row `i` on, as many
as the tail is too long. -/
def Overflow (p : Par) (nc i b r c : ℕ) : Prop :=
  nc < b + p.filter + p.tail + 1 ∧ (i + 1) * nc - 1 ≤ r * nc + c ∧
    r * nc + c < (i + 1) * nc - 1 + (b + p.filter + p.tail + 1 - nc)

theorem paint_iff (m : ℕ → ℕ → Bool) (a : Rect) (r c : ℕ) : paint m a r c = true ↔
    m r c = true ∨ (a.r0 ≤ r ∧ r < a.r1 ∧ a.c0 ≤ c ∧ c < a.c1) := by
  simp [paint, and_assoc]

theorem paintHits_iff (p : Par) (B : Bounds) (nc i : ℕ) (bs : List ℕ) :
    ∀ (m : ℕ → ℕ → Bool) (ex : List (ℕ × ℕ)),
    (∀ r c, (bs.foldl (paintHit p B nc i) (m, ex)).1 r c = true ↔ m r c = true ∨
      ∃ b ∈ bs, (B.sc ≤ b ∧ b ≤ B.ec) ∧ (Streak p nc i b r c ∨ Box p B i b r c)) ∧
    (∀ x, x ∈ (bs.foldl (paintHit p B nc i) (m, ex)).2 ↔ x ∈ ex ∨
      ∃ b ∈ bs, (B.sc ≤ b ∧ b ≤ B.ec) ∧ nc < b + p.filter + p.tail + 1 ∧
        x = (b + p.filter + p.tail + 1 - nc, i + 1)) := by
  induction bs with
  | nil => intro m ex; simp
  | cons b bs ih =>
    intro m ex
    rw [List.foldl_cons]
    by_cases hb : b < B.sc ∨ b > B.ec
    · have : paintHit p B nc i (m, ex) b = (m, ex) := by unfold paintHit; rw [if_pos hb]
      rw [this]
      obtain ⟨h1, h2⟩ := ih m ex
      refine ⟨fun r c => ?_, fun x => ?_⟩
      · rw [h1]
        simp only [List.mem_cons, exists_eq_or_imp]
        constructor
        · rintro (h | h)
          · exact Or.inl h
          · exact Or.inr (Or.inr h)
        · rintro (h | h | h)
          · exact Or.inl h
          · omega
          · exact Or.inr h
      · rw [h2]
        simp only [List.mem_cons, exists_eq_or_imp]
        constructor
        · rintro (h | h)
          · exact Or.inl h
          · exact Or.inr (Or.inr h)
        · rintro (h | h | h)
          · exact Or.inl h
          · omega
          · exact Or.inr h
    · have hb' : B.sc ≤ b ∧ b ≤ B.ec := by omega
      obtain ⟨m', ex', he⟩ : ∃ m' ex', paintHit p B nc i (m, ex) b = (m', ex') := ⟨_, _, rfl⟩
      have hm' : ∀ r c, m' r c = true ↔ m r c = true ∨ Streak p nc i b r c ∨ Box p B i b r c := by
        intro r c
        have : m' = (paintHit p B nc i (m, ex) b).1 := by rw [he]
        rw [this]
        unfold paintHit
        rw [if_neg hb]
        dsimp only
        rw [paint_iff, paint_iff, or_assoc]
        unfold Streak Box
        dsimp only
        constructor
        · rintro (h | h | h)
          · exact Or.inl h
          · right; left; omega
          · right; right; omega
        · rintro (h | h | h)
          · exact Or.inl h
          · right; left; omega
          · right; right; omega
      have hex' : ∀ x, x ∈ ex' ↔ x ∈ ex ∨ (nc < b + p.filter + p.tail + 1 ∧
          x = (b + p.filter + p.tail + 1 - nc, i + 1)) := by
        intro x
        have : ex' = (paintHit p B nc i (m, ex) b).2 := by rw [he]
        rw [this]
        unfold paintHit
        rw [if_neg hb]
        dsimp only
        split
        · rename_i h
          rw [List.mem_append, List.mem_singleton]
          simp [h]
        · rename_i h
          simp [h]
      rw [he]
      obtain ⟨h1, h2⟩ := ih m' ex'
      refine ⟨fun r c => ?_, fun x => ?_⟩
      · rw [h1, hm', or_assoc]
        simp only [List.mem_cons, exists_eq_or_imp, hb', true_and]
      · rw [h2, hex', or_assoc]
        simp only [List.mem_cons, exists_eq_or_imp, hb', true_and]

theorem paintFlats_iff (nc : ℕ) (ex : List (ℕ × ℕ)) : ∀ (m : ℕ → ℕ → Bool) (r c : ℕ),
    ex.foldl (fun m x => paintFlat m nc (x.2 * nc - 1) (x.2 * nc - 1 + x.1)) m r c = true ↔
      m r c = true ∨ ∃ x ∈ ex, x.2 * nc - 1 ≤ r * nc + c ∧ r * nc + c < x.2 * nc - 1 + x.1 := by
  induction ex with
  | nil => intro m r c; simp
  | cons x ex ih =>
    intro m r c
    rw [List.foldl_cons, ih]
    simp only [paintFlat, Bool.or_eq_true, Bool.and_eq_true, decide_eq_true_eq, List.mem_cons,
      exists_eq_or_imp]
    tauto

theorem starts_iff (f : Img α) (S P : α) (filter i : ℕ) :
    (∀ bs, findPlateaus (f.px i) f.nc S P filter = some bs → ∀ b, b ∈ bs ↔ Starts f S P filter i b) ∧
    (findPlateaus (f.px i) f.nc S P filter = none → ∀ b, ¬ Starts f S P filter i b) := by
  refine ⟨fun bs h b => mem_findPlateaus h b, fun h b ⟨k, h1, h2, _⟩ => ?_⟩
  unfold findPlateaus at h
  dsimp only at h
  split at h
  · cases h
  · rename_i hl
    apply hl
    apply List.length_pos_of_mem (a := k)
    rw [saturated, List.mem_filter]
    exact ⟨List.mem_range.2 h1, by simpa using h2⟩

theorem paintRow_iff (full : Bool) (p : Par) (B : Bounds) (f : Img α) (S P : α) (m : ℕ → ℕ → Bool) (i r c : ℕ) :
    paintRow full p B f S P m i r c = true ↔ m r c = true ∨ ((B.sr ≤ i ∧ i ≤ B.er) ∧
      ∃ b, Starts f S P p.filter i b ∧ (B.sc ≤ b ∧ b ≤ B.ec) ∧
        (Streak p f.nc i b r c ∨ Box p B i b r c ∨ (full = true ∧ Overflow p f.nc i b r c))) := by
  unfold paintRow
  by_cases hi : i < B.sr ∨ i > B.er
  · rw [if_pos hi]
    constructor
    · exact Or.inl
    · rintro (h | ⟨h, _⟩)
      · exact h
      · omega
  · rw [if_neg hi]
    have hi' : B.sr ≤ i ∧ i ≤ B.er := by omega
    cases hp : findPlateaus (f.px i) f.nc S P p.filter with
    | none =>
      dsimp only
      rw [if_neg (by simp)]
      constructor
      · exact Or.inl
      · rintro (h | ⟨_, b, hb, _⟩)
        · exact h
        · exact absurd hb ((starts_iff f S P p.filter i).2 hp b)
    | some bs =>
      have hs := (starts_iff f S P p.filter i).1 bs hp
      obtain ⟨h1, h2⟩ := paintHits_iff p B f.nc i bs m []
      dsimp only
      cases full with
      | false =>
        rw [if_neg (by simp), h1]
        constructor
        · rintro (h | ⟨b, hb, hc, h⟩)
          · exact Or.inl h
          · exact Or.inr ⟨hi', b, (hs b).1 hb, hc, by tauto⟩
        · rintro (h | ⟨_, b, hb, hc, h⟩)
          · exact Or.inl h
          · refine Or.inr ⟨b, (hs b).2 hb, hc, ?_⟩
            rcases h with h | h | ⟨h, _⟩
            · exact Or.inl h
            · exact Or.inr h
            · cases h
      | true =>
        have hov : (∃ x ∈ (bs.foldl (paintHit p B f.nc i) (m, [])).2, x.2 * f.nc - 1 ≤ r * f.nc + c ∧
            r * f.nc + c < x.2 * f.nc - 1 + x.1) ↔
            ∃ b, Starts f S P p.filter i b ∧ (B.sc ≤ b ∧ b ≤ B.ec) ∧ Overflow p f.nc i b r c := by
          constructor
          · rintro ⟨x, hx, hx1, hx2⟩
            rcases (h2 x).1 hx with h | ⟨b, hb, hc, hlt, rfl⟩
            · simp at h
            · exact ⟨b, (hs b).1 hb, hc, hlt, hx1, hx2⟩
          · rintro ⟨b, hb, hc, hlt, hx1, hx2⟩
            exact ⟨_, (h2 _).2 (Or.inr ⟨b, (hs b).2 hb, hc, hlt, rfl⟩), hx1, hx2⟩
        have hsplit : (if (true = true ∧ (bs.foldl (paintHit p B f.nc i) (m, [])).2.length > 0) then
              (bs.foldl (paintHit p B f.nc i) (m, [])).2.foldl
                (fun m x => paintFlat m f.nc (x.2 * f.nc - 1) (x.2 * f.nc - 1 + x.1))
                (bs.foldl (paintHit p B f.nc i) (m, [])).1
            else (bs.foldl (paintHit p B f.nc i) (m, [])).1) =
            (bs.foldl (paintHit p B f.nc i) (m, [])).2.foldl
                (fun m x => paintFlat m f.nc (x.2 * f.nc - 1) (x.2 * f.nc - 1 + x.1))
                (bs.foldl (paintHit p B f.nc i) (m, [])).1 := by
          split
          · rfl
          · rename_i h
            have : (bs.foldl (paintHit p B f.nc i) (m, [])).2 = [] := by
              apply List.length_eq_zero_iff.1
              by_contra h0
              exact h ⟨rfl, Nat.pos_of_ne_zero h0⟩
            rw [this]; rfl
        rw [hsplit, paintFlats_iff, h1, hov]
        constructor
        · rintro ((h | ⟨b, hb, hc, h⟩) | ⟨b, hb, hc, h⟩)
          · exact Or.inl h
          · exact Or.inr ⟨hi', b, (hs b).1 hb, hc, by tauto⟩
          · exact Or.inr ⟨hi', b, hb, hc, Or.inr (Or.inr ⟨rfl, h⟩)⟩
        · rintro (h | ⟨_, b, hb, hc, h | h | ⟨_, h⟩⟩)
          · exact Or.inl (Or.inl h)
          · exact Or.inl (Or.inr ⟨b, (hs b).2 hb, hc, Or.inl h⟩)
          · exact Or.inl (Or.inr ⟨b, (hs b).2 hb, hc, Or.inr h⟩)
          · exact Or.inr ⟨b, hb, hc, h⟩

/-- The prefilter for bright rows loses nothing: a row with a plateau start has a pixel of at least `S`. -/
theorem C29_prefilter_sound (f : Img α) (S P : α) (filter i b : ℕ) (h : Starts f S P filter i b) :
    ∃ c, c < f.nc ∧ S ≤ f.px i c := by
  obtain ⟨k, h1, h2, _⟩ := h
  obtain ⟨c, hc, he⟩ := medFilt_mem (f.px i) f.nc (filter + 1) k (by omega) (by omega)
  exact ⟨c, hc, he ▸ h2⟩

/-- The mask, exactly, in both modes. -/
theorem flagWith_iff (full : Bool) (p : Par) (B : Bounds) (f : Img α) (S P : α) (r c : ℕ) :
    flagWith full p B f S P r c = true ↔ ∃ i b, i < f.nr ∧ (B.sr ≤ i ∧ i ≤ B.er) ∧ (B.sc ≤ b ∧ b ≤ B.ec) ∧
      Starts f S P p.filter i b ∧
        (Streak p f.nc i b r c ∨ Box p B i b r c ∨ (full = true ∧ Overflow p f.nc i b r c)) := by
  have key : ∀ (l : List ℕ) (m : ℕ → ℕ → Bool), l.foldl (paintRow full p B f S P) m r c = true ↔
      m r c = true ∨ ∃ i ∈ l, (B.sr ≤ i ∧ i ≤ B.er) ∧ ∃ b, Starts f S P p.filter i b ∧ (B.sc ≤ b ∧ b ≤ B.ec) ∧
        (Streak p f.nc i b r c ∨ Box p B i b r c ∨ (full = true ∧ Overflow p f.nc i b r c)) := by
    intro l
    induction l with
    | nil => intro m; simp
    | cons i l ih =>
      intro m
      rw [List.foldl_cons, ih, paintRow_iff, or_assoc]
      simp only [List.mem_cons, exists_eq_or_imp]
  unfold flagWith
  rw [key]
  constructor
  · rintro (h | ⟨i, hi, h1, b, h2, h3, h4⟩)
    · cases h
    · exact ⟨i, b, List.mem_range.1 (List.mem_filter.1 hi).1, h1, h3, h2, h4⟩
  · rintro ⟨i, b, hi, h1, h3, h2, h4⟩
    refine Or.inr ⟨i, ?_, h1, b, h2, h3, h4⟩
    obtain ⟨c', hc', hS⟩ := C29_prefilter_sound f S P p.filter i b h2
    refine List.mem_filter.2 ⟨List.mem_range.2 hi, ?_⟩
    rw [List.any_eq_true]
    exact ⟨c', List.mem_range.2 hc', by simpa using hS⟩

/-- **C29**, image mode: a pixel is masked iff it is on the streak of a plateau start (clipped to the row) or
in the box around one. -/
theorem C29_image (d : Regions) (t : String) (p : Par) (f : Img α) (S P : α) :
    ∃ m, flagCosmics d t false p f S P = .ok m ∧ ∀ r c, r < f.nr → c < f.nc →
      (m r c = true ↔ ∃ i b, i < f.nr ∧ b < f.nc ∧ Starts f S P p.filter i b ∧
        ((r = i ∧ b ≤ c ∧ c ≤ b + p.filter + p.tail) ∨
          ((i ≤ r + p.box ∧ r ≤ i + p.box) ∧ (b ≤ c + p.box ∧ c ≤ b + p.box)))) := by
  refine ⟨_, rfl, fun r c hr hc => ?_⟩
  rw [flagWith_iff]
  unfold imageBounds Streak Box
  dsimp only
  constructor
  · rintro ⟨i, b, h1, h2, h3, h4, h5⟩
    refine ⟨i, b, h1, by omega, h4, ?_⟩
    rcases h5 with h | h | ⟨h, _⟩
    · left; omega
    · right; omega
    · cases h
  · rintro ⟨i, b, h1, h2, h3, h4⟩
    refine ⟨i, b, h1, by omega, by omega, h3, ?_⟩
    rcases h4 with h | h
    · left; omega
    · right; left; omega

/-- **C29**, image mode: nothing outside the frame is masked. -/
theorem C29_in_bounds (p : Par) (f : Img α) (S P : α) (r c : ℕ)
    (h : flagWith false p (imageBounds f.nr f.nc) f S P r c = true) : r < f.nr ∧ c < f.nc := by
  rw [flagWith_iff] at h
  obtain ⟨i, b, h1, h2, h3, ⟨k, hk, _⟩, h5⟩ := h
  unfold imageBounds Streak Box at *
  dsimp only at *
  rcases h5 with h | h | ⟨h, _⟩
  · omega
  · omega
  · cases h

/-- **C29**, full mode, exactly: streak in the row, box, and the continuation, which starts on the last pixel
of the same row and so reaches one pixel less far than the tail. -/
theorem C29_full_partial (d : Regions) (t : String) (im : Area) (hi : lookArea d t "image" = .ok im) (p : Par)
    (f : Img α) (S P : α) :
    ∃ m, flagCosmics d t true p f S P = .ok m ∧ ∀ r c, c < f.nc →
      (m r c = true ↔ ∃ i b, i < f.nr ∧ (im.r0 ≤ i ∧ i ≤ im.r0 + im.rows) ∧ (im.c0 ≤ b ∧ b ≤ im.c0 + im.cols) ∧
        Starts f S P p.filter i b ∧
        ((r = i ∧ b ≤ c ∧ c ≤ b + p.filter + p.tail) ∨ Box p (fullBounds im) i b r c ∨
         (i < r ∧ r * f.nc + c < i * f.nc + (b + p.filter + p.tail)) ∨
         (r = i ∧ c + 1 = f.nc ∧ f.nc < b + p.filter + p.tail + 1))) := by
  refine ⟨flagWith true p (fullBounds im) f S P, ?_, fun r c hc => ?_⟩
  · unfold flagCosmics
    rw [if_pos rfl, hi]; rfl
  rw [flagWith_iff]
  have hov : ∀ i b, Overflow p f.nc i b r c ↔
      (i < r ∧ r * f.nc + c < i * f.nc + (b + p.filter + p.tail)) ∨
         (r = i ∧ c + 1 = f.nc ∧ f.nc < b + p.filter + p.tail + 1) := by
    intro i b
    unfold Overflow
    have e1 : (i + 1) * f.nc = i * f.nc + f.nc := by ring
    rw [e1]
    rcases Nat.lt_trichotomy r i with h | h | h
    · have : (r + 1) * f.nc ≤ i * f.nc := Nat.mul_le_mul_right _ h
      have e2 : (r + 1) * f.nc = r * f.nc + f.nc := by ring
      omega
    · subst h
      omega
    · have : (i + 1) * f.nc ≤ r * f.nc := Nat.mul_le_mul_right _ h
      rw [e1] at this
      omega
  constructor
  · rintro ⟨i, b, h1, h2, h3, h4, h5⟩
    refine ⟨i, b, h1, h2, h3, h4, ?_⟩
    rcases h5 with h | h | ⟨_, h⟩
    · left; exact ⟨h.1, h.2.1, h.2.2.1⟩
    · right; left; exact h
    · right; right; exact (hov i b).1 h
  · rintro ⟨i, b, h1, h2, h3, h4, h5⟩
    refine ⟨i, b, h1, h2, h3, h4, ?_⟩
    rcases h5 with h | h | h
    · left; exact ⟨h.1, h.2.1, h.2.2, hc⟩
    · right; left; exact h
    · right; right; exact ⟨rfl, (hov i b).2 h⟩

/-- A frame of 4 rows and 6 columns, all of it image area. -/
def smallGeom : Regions :=
  [("SCI", { frameRows := 4, frameCols := 6, areas := [("image", { rows := 4, cols := 6, r0 := 0, c0 := 0 })] })]

/-- One saturated pixel in the last column of row 1. -/
def oneHit : Img ℕ := ⟨4, 6, fun r c => if r = 1 ∧ c = 5 then 10 else 0⟩

/-- **C29** is violated in full mode: the plateau starts at row 1, column 5; with filter 1 and tail 3 the mask
should extend four pixels further, to flat index 15, but row 2 is masked only up to column 2. -/
theorem C29_violated : ∃ m, flagCosmics smallGeom "SCI" true ⟨1, 0, 3⟩ oneHit 7 7 = .ok m ∧
    findPlateaus (oneHit.px 1) 6 7 7 1 = some [5] ∧ 2 * 6 + 3 = (1 * 6 + 5) + 1 + 3 ∧
    m 1 5 = true ∧ m 2 0 = true ∧ m 2 1 = true ∧ m 2 2 = true ∧ m 2 3 = false := by
  have : lookArea smallGeom "SCI" "image" = .ok { rows := 4, cols := 6, r0 := 0, c0 := 0 } := by decide +kernel
  unfold flagCosmics
  rw [if_pos rfl, this]
  refine ⟨_, rfl, by decide +kernel, by decide, ?_⟩
  decide +kernel

/-- An image area that is only part of the frame. -/
def borderGeom : Regions :=
  [("SCI", { frameRows := 4, frameCols := 6, areas := [("image", { rows := 2, cols := 3, r0 := 0, c0 := 0 })] })]

/-- **C29** The box does reach outside the image area, by one row and one column. -/
theorem C29_box_outside : ∃ m, flagCosmics borderGeom "SCI" true ⟨1, 2, 0⟩
      (⟨4, 6, fun r c => if r = 1 ∧ c = 2 then 10 else 0⟩ : Img ℕ) 7 7 = .ok m ∧ m 2 3 = true := by
  have : lookArea borderGeom "SCI" "image" = .ok { rows := 2, cols := 3, r0 := 0, c0 := 0 } := by decide +kernel
  unfold flagCosmics
  rw [if_pos rfl, this]
  refine ⟨_, rfl, ?_⟩
  decide +kernel

/-- Not vacuous: in image mode the tail stops at the row's end. -/
example : ∃ m, flagCosmics smallGeom "SCI" false ⟨1, 0, 3⟩ oneHit 7 7 = .ok m ∧
    m 1 5 = true ∧ m 1 4 = false ∧ m 2 0 = false ∧ m 1 3 = false := by
  refine ⟨_, rfl, ?_⟩
  decide +kernel

end Corgi.Cr

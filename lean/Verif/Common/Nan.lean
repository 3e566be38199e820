import Mathlib.Analysis.SpecialFunctions.Sqrt
import Mathlib.Data.List.Sort
import Mathlib.Tactic.Linarith
import Mathlib.Tactic.Ring

/-!
# Numbers with NaN

A floating-point value is `Option ℝ`, `none` being NaN. Infinities and rounding are not modelled.
-/

noncomputable section

namespace Corgi.Nan

/-- The values that are not NaN. -/
def vals (l : List (Option ℝ)) : List ℝ := l.filterMap id

/-- Mean of a list of reals. -/
def mean (l : List ℝ) : ℝ := l.sum / l.length

/-- `np.nanmean` along one axis: NaN if there is no value (numpy warns). -/
def nanmean (l : List (Option ℝ)) : Option ℝ :=
  if vals l = [] then none else some (mean (vals l))

/-- `np.median` of a non-empty list: the middle of the sorted values, or the mean of the two in the
middle. -/
def median (l : List ℝ) : ℝ :=
  let s := l.insertionSort (· ≤ ·)
  if s.length % 2 = 1 then (s[s.length / 2]?).getD 0
  else ((s[s.length / 2 - 1]?).getD 0 + (s[s.length / 2]?).getD 0) / 2

/-- `np.nanmedian` along one axis. -/
def nanmedian (l : List (Option ℝ)) : Option ℝ :=
  if vals l = [] then none else some (median (vals l))

theorem nanmean_none {l : List (Option ℝ)} : nanmean l = none ↔ ∀ x ∈ l, x = none := by
  unfold nanmean
  split
  · rename_i h
    simp only [true_iff]
    intro x hx
    cases x with
    | none => rfl
    | some v =>
      have : v ∈ vals l := List.mem_filterMap.2 ⟨some v, hx, rfl⟩
      rw [h] at this; simp at this
  · rename_i h
    simp only [reduceCtorEq, false_iff]
    intro h0
    apply h
    apply List.filterMap_eq_nil_iff.2
    intro a ha
    rw [h0 a ha]; rfl

theorem nanmedian_none {l : List (Option ℝ)} : nanmedian l = none ↔ ∀ x ∈ l, x = none := by
  rw [← nanmean_none]
  unfold nanmean nanmedian
  split <;> simp

theorem countP_take {α} (p : α → Bool) (l : List α) (k : ℕ) (hk : k ≤ l.length)
    (h : ∀ i (hi : i < k), p (l[i]'(by omega))) : k ≤ l.countP p := by
  have e : (l.take k).countP p = k := by
    have : (l.take k).countP p = (l.take k).length := by
      rw [List.countP_eq_length]
      intro a ha
      obtain ⟨i, hi, rfl⟩ := List.getElem_of_mem ha
      have hi' : i < k := by simp at hi; omega
      rw [List.getElem_take]
      exact h i hi'
    rw [this]; simp; exact hk
  calc k = (l.take k).countP p := e.symm
    _ ≤ l.countP p := (List.take_sublist k l).countP_le

theorem countP_drop {α} (p : α → Bool) (l : List α) (k : ℕ)
    (h : ∀ i (hi : i < l.length), k ≤ i → p l[i]) : l.length - k ≤ l.countP p := by
  have e : (l.drop k).countP p = l.length - k := by
    have : (l.drop k).countP p = (l.drop k).length := by
      rw [List.countP_eq_length]
      intro a ha
      obtain ⟨i, hi, rfl⟩ := List.getElem_of_mem ha
      rw [List.getElem_drop]
      exact h _ _ (by omega)
    rw [this]; simp
  calc l.length - k = (l.drop k).countP p := e.symm
    _ ≤ l.countP p := (List.drop_sublist k l).countP_le

/-- The median has at least half of the values on either side. -/
theorem median_spec (l : List ℝ) (hl : l ≠ []) :
    l.length ≤ 2 * l.countP (fun x => decide (x ≤ median l)) ∧
    l.length ≤ 2 * l.countP (fun x => decide (median l ≤ x)) := by
  set s := l.insertionSort (· ≤ ·) with hs
  have hp : s.Perm l := List.perm_insertionSort _ l
  have hlen : s.length = l.length := hp.length_eq
  have hpos : 0 < s.length := by rw [hlen]; exact List.length_pos_of_ne_nil hl
  have hsorted : s.Pairwise (· ≤ ·) := List.pairwise_insertionSort _ l
  have hmono : ∀ i j (hi : i < s.length) (hj : j < s.length), i ≤ j → s[i] ≤ s[j] := by
    intro i j hi hj hij
    rcases Nat.lt_or_ge i j with h | h
    · exact List.pairwise_iff_getElem.1 hsorted i j hi hj h
    · have : i = j := by omega
      subst this; exact le_refl _
  have hmed : ∃ (h1 : (s.length - 1) / 2 < s.length) (h2 : s.length / 2 < s.length),
      s[(s.length - 1) / 2] ≤ median l ∧ median l ≤ s[s.length / 2] := by
    refine ⟨by omega, by omega, ?_⟩
    have h1 : s.length / 2 < s.length := by omega
    unfold median
    dsimp only
    rw [← hs]
    split
    · rename_i hodd
      have e : (s.length - 1) / 2 = s.length / 2 := by omega
      rw [List.getElem?_eq_getElem h1]
      simp only [Option.getD_some, e]
      exact ⟨le_refl _, le_refl _⟩
    · rename_i heven
      have e : (s.length - 1) / 2 = s.length / 2 - 1 := by omega
      have h2 : s.length / 2 - 1 < s.length := by omega
      have := hmono (s.length / 2 - 1) (s.length / 2) h2 h1 (by omega)
      rw [List.getElem?_eq_getElem h1, List.getElem?_eq_getElem h2]
      simp only [Option.getD_some, e]
      constructor <;> linarith
  obtain ⟨h1, h2, m1, m2⟩ := hmed
  rw [← hp.countP_eq, ← hp.countP_eq, ← hlen]
  constructor
  · have := countP_take (fun x => decide (x ≤ median l)) s ((s.length - 1) / 2 + 1) (by omega) (by
      intro i hi
      simp only [decide_eq_true_eq]
      exact (hmono i _ (by omega) h1 (by omega)).trans m1)
    omega
  · have := countP_drop (fun x => decide (median l ≤ x)) s (s.length / 2) (by
      intro i hi hk
      simp only [decide_eq_true_eq]
      exact m2.trans (hmono _ i h2 hi hk))
    omega

/-- The median does not depend on the order of the values. -/
theorem median_perm {l l' : List ℝ} (h : l.Perm l') : median l = median l' := by
  have : l.insertionSort (· ≤ ·) = l'.insertionSort (· ≤ ·) :=
    List.Perm.eq_of_pairwise (le := (· ≤ ·)) (fun a b _ _ h1 h2 => le_antisymm h1 h2)
      (List.pairwise_insertionSort _ l) (List.pairwise_insertionSort _ l')
      ((List.perm_insertionSort _ l).trans (h.trans (List.perm_insertionSort _ l').symm))
  unfold median
  rw [this]

theorem mean_perm {l l' : List ℝ} (h : l.Perm l') : mean l = mean l' := by
  unfold mean
  rw [h.sum_eq, h.length_eq]

end Corgi.Nan

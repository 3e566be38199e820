import Mathlib.Data.List.Sort
import Mathlib.Data.List.Dedup
import Mathlib.Data.Rat.Defs
import Mathlib.Algebra.Order.Ring.Rat
import Mathlib.Algebra.BigOperators.Group.List.Basic

/-!
Grouping a list by a number: the distinct values in ascending order (`np.unique`), and for each of them the elements in
their original order (`split_dataset`, `np.where(x == value)`).
-/

namespace Corgi.Groups

variable {α : Type}

/-- `np.unique` -/
def uniq (l : List ℚ) : List ℚ := l.dedup.insertionSort (· ≤ ·)

def at' (key : α → ℚ) (e : ℚ) (l : List α) : List α := l.filter fun f => decide (key f = e)

def groups (key : α → ℚ) (l : List α) : List (List α) := (uniq (l.map key)).map fun e => at' key e l

theorem mem_uniq (l : List ℚ) (e : ℚ) : e ∈ uniq l ↔ e ∈ l := by
  unfold uniq; rw [List.mem_insertionSort, List.mem_dedup]

theorem uniq_nodup (l : List ℚ) : (uniq l).Nodup :=
  (l.dedup.perm_insertionSort (· ≤ ·)).nodup_iff.2 (List.nodup_dedup _)

theorem uniq_sorted (l : List ℚ) : (uniq l).Pairwise (· < ·) := by
  have h1 : (uniq l).Pairwise (· ≤ ·) := List.pairwise_insertionSort (· ≤ ·) l.dedup
  have h2 : (uniq l).Pairwise (· ≠ ·) := uniq_nodup l
  exact h1.imp₂ (fun a b h h' => lt_of_le_of_ne h h') h2

theorem mem_at (key : α → ℚ) (e : ℚ) (l : List α) (f : α) : f ∈ at' key e l ↔ f ∈ l ∧ key f = e := by
  unfold at'; rw [List.mem_filter, decide_eq_true_iff]

theorem mem_groups (key : α → ℚ) (l g : List α) : g ∈ groups key l ↔ ∃ f ∈ l, g = at' key (key f) l := by
  unfold groups
  rw [List.mem_map]
  constructor
  · rintro ⟨e, he, rfl⟩
    obtain ⟨f, hf, rfl⟩ := List.mem_map.1 ((mem_uniq _ _).1 he)
    exact ⟨f, hf, rfl⟩
  · rintro ⟨f, hf, rfl⟩
    exact ⟨key f, (mem_uniq _ _).2 (List.mem_map.2 ⟨f, hf, rfl⟩), rfl⟩

theorem at_ne_nil (key : α → ℚ) (l : List α) (e : ℚ) (h : e ∈ l.map key) : at' key e l ≠ [] := by
  obtain ⟨f, hf, rfl⟩ := List.mem_map.1 h
  exact List.ne_nil_of_mem ((mem_at key _ l f).2 ⟨hf, rfl⟩)

theorem perm_filters [DecidableEq α] (key : α → ℚ) (l : List α) :
    ∀ es : List ℚ, es.Nodup → (es.map fun e => at' key e l).flatten.Perm (l.filter fun f => decide (key f ∈ es)) := by
  intro es hes
  rw [List.perm_iff_count]
  intro a
  rw [List.count_flatten, List.map_map]
  have hc : ∀ e, (List.count a ∘ fun e => at' key e l) e = if key a = e then l.count a else 0 := by
    intro e
    simp only [Function.comp, at']
    split_ifs with h
    · exact List.count_filter (by simpa using h)
    · exact List.count_eq_zero.2 (fun hm => h (by simpa using (List.mem_filter.1 hm).2))
  rw [List.map_congr_left fun e _ => hc e]
  have hr : List.count a (l.filter fun f => decide (key f ∈ es)) = if key a ∈ es then l.count a else 0 := by
    split_ifs with h
    · exact List.count_filter (by simpa using h)
    · exact List.count_eq_zero.2 (fun hm => h (by simpa using (List.mem_filter.1 hm).2))
  rw [hr]
  clear hr hc
  induction es with
  | nil => simp
  | cons e es ih =>
    rw [List.nodup_cons] at hes
    rw [List.map_cons, List.sum_cons, ih hes.2]
    by_cases h : key a = e
    · subst h; simp [hes.1]
    · simp [h]

theorem groups_perm (key : α → ℚ) (l : List α) : (groups key l).flatten.Perm l := by
  classical
  have h := perm_filters key l _ (uniq_nodup (l.map key))
  refine h.trans (List.Perm.of_eq ?_)
  apply List.filter_eq_self.2
  intro f hf
  rw [decide_eq_true_iff, mem_uniq]
  exact List.mem_map.2 ⟨f, hf, rfl⟩

end Corgi.Groups

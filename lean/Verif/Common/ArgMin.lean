import Mathlib.Order.Defs.LinearOrder
import Mathlib.Order.Basic
import Mathlib.Algebra.Order.Ring.Int

/-!
numpy/pandas `argmin` and `argmax`: index of the first extremal element, an error (`none`) on
an empty sequence.  Used by `caldb.py` lines 299, 315, 324 and `sorting.py` lines 61, 77, 160, 230.
-/

namespace Corgi

variable {α : Type*} [LinearOrder α]

/-- The scanning loop of `np.argmin`: `b` is the best value so far, at index `bi`; `i` is the
index of the next element. -/
def argminAux : List α → α → Nat → Nat → Nat
  | [], _, bi, _ => bi
  | x :: xs, b, bi, i => if x < b then argminAux xs x i (i + 1) else argminAux xs b bi (i + 1)

/-- `np.argmin` / `Series.argmin` (first occurrence of the minimum); `none` models the
`ValueError` on an empty sequence. -/
def argmin : List α → Option Nat
  | [] => none
  | x :: xs => some (argminAux xs x 0 1)

/-- The scanning loop of `np.argmax`. -/
def argmaxAux : List α → α → Nat → Nat → Nat
  | [], _, bi, _ => bi
  | x :: xs, b, bi, i => if b < x then argmaxAux xs x i (i + 1) else argmaxAux xs b bi (i + 1)

/-- `np.argmax` / `Series.argmax` (first occurrence of the maximum). -/
def argmax : List α → Option Nat
  | [] => none
  | x :: xs => some (argmaxAux xs x 0 1)

/-- Specification: `k` is the index of the first minimal element of `xs`. -/
def IsFirstMin (xs : List α) (k : Nat) : Prop :=
  ∃ m, xs[k]? = some m ∧ (∀ y ∈ xs, m ≤ y) ∧ ∀ j y, j < k → xs[j]? = some y → m < y

/-- Specification: `k` is the index of the first maximal element of `xs`. -/
def IsFirstMax (xs : List α) (k : Nat) : Prop :=
  ∃ m, xs[k]? = some m ∧ (∀ y ∈ xs, y ≤ m) ∧ ∀ j y, j < k → xs[j]? = some y → y < m

theorem argminAux_spec (xs : List α) :
    ∀ (pre : List α) (b : α) (bi : Nat), IsFirstMin pre bi → pre[bi]? = some b →
      IsFirstMin (pre ++ xs) (argminAux xs b bi pre.length) := by
  induction xs with
  | nil => intro pre b bi h _; simpa [argminAux] using h
  | cons x xs ih =>
    intro pre b bi h hb
    obtain ⟨m, hm, hle, hlt⟩ := h
    have hmb : m = b := by rw [hm] at hb; exact Option.some.inj hb
    subst hmb
    have hbi : bi < pre.length := by
      rcases List.getElem?_eq_some_iff.1 hb with ⟨h, _⟩; exact h
    have key : pre ++ x :: xs = (pre ++ [x]) ++ xs := by simp
    have hl : (pre ++ [x]).length = pre.length + 1 := by simp
    unfold argminAux
    split
    · rename_i hx
      rw [key, ← hl]
      apply ih
      · refine ⟨x, by simp, ?_, ?_⟩
        · intro y hy
          rcases List.mem_append.1 hy with hy | hy
          · exact le_of_lt (lt_of_lt_of_le hx (hle y hy))
          · simp at hy; exact le_of_eq hy.symm
        · intro j y hj hy
          rw [List.getElem?_append_left hj] at hy
          exact lt_of_lt_of_le hx (hle y (List.mem_of_getElem? hy))
      · simp
    · rename_i hx
      rw [key, ← hl]
      apply ih
      · refine ⟨m, by rw [List.getElem?_append_left hbi]; exact hb, ?_, ?_⟩
        · intro y hy
          rcases List.mem_append.1 hy with hy | hy
          · exact hle y hy
          · simp at hy; subst hy; exact not_lt.1 hx
        · intro j y hj hy
          rw [List.getElem?_append_left (Nat.lt_trans hj hbi)] at hy
          exact hlt j y hj hy
      · rw [List.getElem?_append_left hbi]; exact hb

theorem argmin_isFirstMin {xs : List α} {k : Nat} (h : argmin xs = some k) : IsFirstMin xs k := by
  cases xs with
  | nil => simp [argmin] at h
  | cons x xs =>
    simp only [argmin, Option.some.injEq] at h
    have := argminAux_spec xs [x] x 0 ⟨x, by simp, by simp, by simp⟩ (by simp)
    simpa [← h] using this

theorem argmin_eq_none {xs : List α} : argmin xs = none ↔ xs = [] := by
  cases xs <;> simp [argmin]

theorem argmin_exists {xs : List α} (h : xs ≠ []) : ∃ k, argmin xs = some k := by
  cases xs with
  | nil => exact absurd rfl h
  | cons x xs => exact ⟨_, rfl⟩

theorem argmaxAux_spec (xs : List α) :
    ∀ (pre : List α) (b : α) (bi : Nat), IsFirstMax pre bi → pre[bi]? = some b →
      IsFirstMax (pre ++ xs) (argmaxAux xs b bi pre.length) := by
  induction xs with
  | nil => intro pre b bi h _; simpa [argmaxAux] using h
  | cons x xs ih =>
    intro pre b bi h hb
    obtain ⟨m, hm, hle, hlt⟩ := h
    have hmb : m = b := by rw [hm] at hb; exact Option.some.inj hb
    subst hmb
    have hbi : bi < pre.length := by
      rcases List.getElem?_eq_some_iff.1 hb with ⟨h, _⟩; exact h
    have key : pre ++ x :: xs = (pre ++ [x]) ++ xs := by simp
    have hl : (pre ++ [x]).length = pre.length + 1 := by simp
    unfold argmaxAux
    split
    · rename_i hx
      rw [key, ← hl]
      apply ih
      · refine ⟨x, by simp, ?_, ?_⟩
        · intro y hy
          rcases List.mem_append.1 hy with hy | hy
          · exact le_of_lt (lt_of_le_of_lt (hle y hy) hx)
          · simp at hy; exact le_of_eq hy
        · intro j y hj hy
          rw [List.getElem?_append_left hj] at hy
          exact lt_of_le_of_lt (hle y (List.mem_of_getElem? hy)) hx
      · simp
    · rename_i hx
      rw [key, ← hl]
      apply ih
      · refine ⟨m, by rw [List.getElem?_append_left hbi]; exact hb, ?_, ?_⟩
        · intro y hy
          rcases List.mem_append.1 hy with hy | hy
          · exact hle y hy
          · simp at hy; subst hy; exact not_lt.1 hx
        · intro j y hj hy
          rw [List.getElem?_append_left (Nat.lt_trans hj hbi)] at hy
          exact hlt j y hj hy
      · rw [List.getElem?_append_left hbi]; exact hb

theorem argmax_isFirstMax {xs : List α} {k : Nat} (h : argmax xs = some k) : IsFirstMax xs k := by
  cases xs with
  | nil => simp [argmax] at h
  | cons x xs =>
    simp only [argmax, Option.some.injEq] at h
    have := argmaxAux_spec xs [x] x 0 ⟨x, by simp, by simp, by simp⟩ (by simp)
    simpa [← h] using this

theorem argmax_eq_none {xs : List α} : argmax xs = none ↔ xs = [] := by
  cases xs <;> simp [argmax]

theorem argmax_exists {xs : List α} (h : xs ≠ []) : ∃ k, argmax xs = some k := by
  cases xs with
  | nil => exact absurd rfl h
  | cons x xs => exact ⟨_, rfl⟩

/-- The first minimum is unique, so `argmin` is characterised by its specification. -/
theorem IsFirstMin.unique {xs : List α} {i j : Nat} (hi : IsFirstMin xs i) (hj : IsFirstMin xs j) :
    i = j := by
  obtain ⟨m, hm, hle, hlt⟩ := hi
  obtain ⟨n, hn, hle', hlt'⟩ := hj
  rcases Nat.lt_trichotomy i j with h | h | h
  · exact absurd (hlt' i m h hm) (not_lt.2 (hle n (List.mem_of_getElem? hn)))
  · exact h
  · exact absurd (hlt j n h hn) (not_lt.2 (hle' m (List.mem_of_getElem? hm)))

theorem IsFirstMax.unique {xs : List α} {i j : Nat} (hi : IsFirstMax xs i) (hj : IsFirstMax xs j) :
    i = j := by
  obtain ⟨m, hm, hle, hlt⟩ := hi
  obtain ⟨n, hn, hle', hlt'⟩ := hj
  rcases Nat.lt_trichotomy i j with h | h | h
  · exact absurd (hlt' i m h hm) (not_lt.2 (hle n (List.mem_of_getElem? hn)))
  · exact h
  · exact absurd (hlt j n h hn) (not_lt.2 (hle' m (List.mem_of_getElem? hm)))

theorem argmin_eq_some_iff {xs : List α} {k : Nat} : argmin xs = some k ↔ IsFirstMin xs k := by
  refine ⟨argmin_isFirstMin, fun h => ?_⟩
  have hne : xs ≠ [] := by
    rintro rfl; obtain ⟨m, hm, _⟩ := h; simp at hm
  obtain ⟨k', hk'⟩ := argmin_exists hne
  rw [hk', (argmin_isFirstMin hk').unique h]

theorem argmax_eq_some_iff {xs : List α} {k : Nat} : argmax xs = some k ↔ IsFirstMax xs k := by
  refine ⟨argmax_isFirstMax, fun h => ?_⟩
  have hne : xs ≠ [] := by
    rintro rfl; obtain ⟨m, hm, _⟩ := h; simp at hm
  obtain ⟨k', hk'⟩ := argmax_exists hne
  rw [hk', (argmax_isFirstMax hk').unique h]

example : argmin [3, 1, 2, (1 : Int)] = some 1 := by decide
example : argmax [3, 1, 3, (1 : Int)] = some 0 := by decide

end Corgi

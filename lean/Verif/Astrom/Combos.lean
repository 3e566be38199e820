import Mathlib.Data.List.Basic
import Mathlib.Data.List.Nodup
import Mathlib.Data.List.Range
import Mathlib.Order.Basic
import Mathlib.Tactic.Linarith
import Mathlib.Tactic.Ring

/-!
# Index combinations (`compute_combinations`, `/repo/corgidrp/astrom.py` 182-208)

The generator keeps a list of `r` indices into a pool of `n`, starts it at `0, 1, …, r-1`, and
repeatedly increments the rightmost index that is not yet at its largest value `i + n - r`,
restarting the ones to its right just above it.  The model follows the list from the left: an
element is incremented when nothing to its right can be; `advance` is the body of the `while`
loop, `none` the `return` in the `else` of the `for`.  The pool is `0 … n-1`
(`np.indices(np.shape(iteration))[0]`), so the yielded tuples are the indices themselves.
-/

namespace Corgi.Combos

/-- `indices[i] += 1; indices[j] = indices[j-1] + 1` (astrom.py 205-207): `k` consecutive numbers
from `x` on. -/
def fillFrom (x : ℕ) : ℕ → List ℕ
  | 0 => []
  | k + 1 => x :: fillFrom (x + 1) k

/-- Choice at one position: keep it if something to the right moved, otherwise increment it if it
is not at its last value (`indices[i] != i + n - r`: there are `rest` indices to its right). -/
def bump (n x rest : ℕ) : Option (List ℕ) → Option (List ℕ)
  | some ys => some (x :: ys)
  | none => if x + rest + 1 = n then none else some (fillFrom (x + 1) (rest + 1))

/-- One turn of the `while True` loop (astrom.py 200-208). -/
def advance (n : ℕ) : List ℕ → Option (List ℕ)
  | [] => none
  | x :: xs => bump n x xs.length (advance n xs)

/-- The tuples that `compute_combinations` yields for a pool of `n` and length `r`
(astrom.py 191-208); nothing is yielded when `r > n`. -/
inductive Yielded (n r : ℕ) : List ℕ → Prop
  | first : r ≤ n → Yielded n r (fillFrom 0 r)
  | step {c c' : List ℕ} : Yielded n r c → advance n c = some c' → Yielded n r c'

/-! ## Specification -/

/-- An increasing list of `r` indices below `n`, all at least `lo`. -/
def Comb (n lo : ℕ) : List ℕ → Prop
  | [] => True
  | x :: xs => lo ≤ x ∧ x < n ∧ Comb n (x + 1) xs

/-- Lexicographic order. -/
def Before : List ℕ → List ℕ → Prop
  | [], _ => False
  | _ :: _, [] => False
  | x :: xs, y :: ys => x < y ∨ (x = y ∧ Before xs ys)

/-! ## Proofs -/

theorem comb_iff (n lo : ℕ) (c : List ℕ) :
    Comb n lo c ↔ (∀ x ∈ c, lo ≤ x ∧ x < n) ∧ c.Pairwise (· < ·) := by
  induction c generalizing lo with
  | nil => simp [Comb]
  | cons x xs ih =>
    rw [Comb, ih, List.pairwise_cons]
    constructor
    · rintro ⟨h1, h2, h3, h4⟩
      refine ⟨?_, fun y hy => (h3 y hy).1, h4⟩
      intro y hy
      rcases List.mem_cons.1 hy with rfl | hy
      · exact ⟨h1, h2⟩
      · have := h3 y hy
        exact ⟨by omega, this.2⟩
    · rintro ⟨h1, h2, h3⟩
      have := h1 x (by simp)
      exact ⟨this.1, this.2, fun y hy => ⟨h2 y hy, (h1 y (by simp [hy])).2⟩, h3⟩

theorem fill_length (x k : ℕ) : (fillFrom x k).length = k := by
  induction k generalizing x with
  | zero => rfl
  | succ k ih => simp [fillFrom, ih]

theorem fill_comb (n lo x k : ℕ) (h1 : lo ≤ x) (h2 : x + k ≤ n) : Comb n lo (fillFrom x k) := by
  induction k generalizing x lo with
  | zero => trivial
  | succ k ih => exact ⟨h1, by omega, ih _ _ le_rfl (by omega)⟩

theorem comb_room (n lo : ℕ) (c : List ℕ) (h : Comb n lo c) (hne : c ≠ []) :
    lo + c.length ≤ n := by
  induction c generalizing lo with
  | nil => exact absurd rfl hne
  | cons x xs ih =>
    obtain ⟨h1, h2, h3⟩ := h
    cases xs with
    | nil => simp; omega
    | cons y ys =>
      have := ih (x + 1) h3 (by simp)
      simp only [List.length_cons] at this ⊢
      omega

theorem comb_room' (n lo : ℕ) (c : List ℕ) (h : Comb n lo c) (hlo : lo ≤ n) :
    lo + c.length ≤ n := by
  cases c with
  | nil => simpa using hlo
  | cons x xs => exact comb_room n lo _ h (by simp)

theorem comb_weaken {n lo lo' : ℕ} {c : List ℕ} (h : Comb n lo c) (hl : lo' ≤ lo) :
    Comb n lo' c := by
  cases c with
  | nil => trivial
  | cons x xs => exact ⟨hl.trans h.1, h.2⟩

theorem advance_length {n : ℕ} {c c' : List ℕ} (h : advance n c = some c') :
    c'.length = c.length := by
  induction c generalizing c' with
  | nil => simp [advance] at h
  | cons x xs ih =>
    rw [advance] at h
    cases ha : advance n xs with
    | some ys =>
      rw [ha, bump] at h
      cases h
      simp [ih ha]
    | none =>
      rw [ha, bump] at h
      split_ifs at h
      cases h
      simp [fill_length]

theorem advance_comb {n lo : ℕ} {c c' : List ℕ} (hc : Comb n lo c) (h : advance n c = some c') :
    Comb n lo c' := by
  induction c generalizing c' lo with
  | nil => simp [advance] at h
  | cons x xs ih =>
    obtain ⟨h1, h2, h3⟩ := hc
    rw [advance] at h
    cases ha : advance n xs with
    | some ys =>
      rw [ha, bump] at h
      cases h
      exact ⟨h1, h2, ih h3 ha⟩
    | none =>
      rw [ha, bump] at h
      split_ifs at h with hx
      cases h
      have := comb_room' n (x + 1) xs h3 (by omega)
      exact fill_comb n lo _ _ (by omega) (by omega)

theorem advance_before {n : ℕ} {c c' : List ℕ} (h : advance n c = some c') : Before c c' := by
  induction c generalizing c' with
  | nil => simp [advance] at h
  | cons x xs ih =>
    rw [advance] at h
    cases ha : advance n xs with
    | some ys =>
      rw [ha, bump] at h
      cases h
      exact Or.inr ⟨rfl, ih ha⟩
    | none =>
      rw [ha, bump] at h
      split_ifs at h
      cases h
      exact Or.inl (Nat.lt_succ_self x)

theorem before_irrefl (c : List ℕ) : ¬ Before c c := by
  induction c with
  | nil => exact id
  | cons x xs ih =>
    rintro (h | ⟨_, h⟩)
    · exact lt_irrefl _ h
    · exact ih h

theorem before_trans {a b c : List ℕ} (h1 : Before a b) (h2 : Before b c) : Before a c := by
  induction a generalizing b c with
  | nil => exact h1
  | cons x xs ih =>
    cases b with
    | nil => exact h1.elim
    | cons y ys =>
      cases c with
      | nil => exact h2
      | cons z zs =>
        rcases h1 with h1 | ⟨rfl, h1⟩
        · rcases h2 with h2 | ⟨rfl, h2⟩
          · exact Or.inl (h1.trans h2)
          · exact Or.inl h1
        · rcases h2 with h2 | ⟨rfl, h2⟩
          · exact Or.inl h2
          · exact Or.inr ⟨rfl, ih h1 h2⟩

/-- The consecutive filling is the earliest combination. -/
theorem fill_first {n lo : ℕ} {c : List ℕ} (h : Comb n lo c) :
    fillFrom lo c.length = c ∨ Before (fillFrom lo c.length) c := by
  induction c generalizing lo with
  | nil => exact Or.inl rfl
  | cons x xs ih =>
    obtain ⟨h1, h2, h3⟩ := h
    rcases Nat.lt_or_ge lo x with hlt | hge
    · exact Or.inr (Or.inl hlt)
    · have : lo = x := by omega
      subst this
      rcases ih h3 with he | hb
      · left
        simp only [List.length_cons, fillFrom, he]
      · exact Or.inr (Or.inr ⟨rfl, hb⟩)

/-- `advance` moves to the immediate successor: any later combination is the result or after it. -/
theorem advance_next {n lo : ℕ} {a b : List ℕ} (ha : Comb n lo a) (hb : Comb n lo b)
    (hl : a.length = b.length) (hab : Before a b) :
    ∃ a', advance n a = some a' ∧ (a' = b ∨ Before a' b) := by
  induction a generalizing b lo with
  | nil => exact hab.elim
  | cons x xs ih =>
    cases b with
    | nil => exact hab.elim
    | cons y ys =>
      obtain ⟨h1, h2, h3⟩ := ha
      obtain ⟨k1, k2, k3⟩ := hb
      have hl' : xs.length = ys.length := by simpa using hl
      rw [advance]
      rcases hab with hlt | ⟨rfl, hbf⟩
      · cases hadv : advance n xs with
        | some zs => exact ⟨x :: zs, rfl, Or.inr (Or.inl hlt)⟩
        | none =>
          have hroom := comb_room' n (y + 1) ys k3 (by omega)
          refine ⟨fillFrom (x + 1) (xs.length + 1), ?_, ?_⟩
          · rw [bump, if_neg (by omega)]
          · have hc : Comb n (x + 1) (y :: ys) := ⟨hlt, k2, k3⟩
            have := fill_first hc
            simp only [List.length_cons, ← hl'] at this
            exact this
      · obtain ⟨zs, hz, hz'⟩ := ih h3 k3 hl' hbf
        refine ⟨x :: zs, by rw [hz]; rfl, ?_⟩
        rcases hz' with rfl | hz'
        · exact Or.inl rfl
        · exact Or.inr (Or.inr ⟨rfl, hz'⟩)

/-- Value of a list as digits in base `n`. -/
def value (n : ℕ) : List ℕ → ℕ
  | [] => 0
  | x :: xs => x * n ^ xs.length + value n xs

theorem value_lt {n lo : ℕ} {c : List ℕ} (h : Comb n lo c) : value n c < n ^ c.length := by
  induction c generalizing lo with
  | nil => simp [value]
  | cons x xs ih =>
    obtain ⟨h1, h2, h3⟩ := h
    have := ih h3
    rw [value, List.length_cons, pow_succ]
    calc x * n ^ xs.length + value n xs < x * n ^ xs.length + n ^ xs.length := by omega
      _ = (x + 1) * n ^ xs.length := by ring
      _ ≤ n * n ^ xs.length := Nat.mul_le_mul_right _ h2
      _ = n ^ xs.length * n := by ring

theorem value_before {n lo : ℕ} {a b : List ℕ} (ha : Comb n lo a) (hb : Comb n lo b)
    (hl : a.length = b.length) (hab : Before a b) : value n a < value n b := by
  induction a generalizing b lo with
  | nil => exact hab.elim
  | cons x xs ih =>
    cases b with
    | nil => exact hab.elim
    | cons y ys =>
      obtain ⟨h1, h2, h3⟩ := ha
      obtain ⟨k1, k2, k3⟩ := hb
      have hl' : xs.length = ys.length := by simpa using hl
      rw [value, value]
      rcases hab with hlt | ⟨rfl, hbf⟩
      · have h4 := value_lt h3
        rw [hl'] at h4 ⊢
        calc x * n ^ ys.length + value n xs < x * n ^ ys.length + n ^ ys.length := by omega
          _ = (x + 1) * n ^ ys.length := by ring
          _ ≤ y * n ^ ys.length := Nat.mul_le_mul_right _ hlt
          _ ≤ _ := Nat.le_add_right _ _
      · have := ih h3 k3 hl' hbf
        rw [hl']
        omega

theorem yielded_comb {n r : ℕ} {c : List ℕ} (h : Yielded n r c) : Comb n 0 c ∧ c.length = r := by
  induction h with
  | first hr => exact ⟨fill_comb n 0 0 r le_rfl (by omega), fill_length 0 r⟩
  | step _ hs ih => exact ⟨advance_comb ih.1 hs, (advance_length hs).trans ih.2⟩

theorem reach {n r : ℕ} {c : List ℕ} (hc : Comb n 0 c) (hl : c.length = r) :
    ∀ (m : ℕ) (y : List ℕ), n ^ r - value n y = m → Yielded n r y → (y = c ∨ Before y c) →
      Yielded n r c := by
  intro m
  induction m using Nat.strong_induction_on with
  | _ m ih =>
    intro y hm hy hyc
    rcases hyc with rfl | hb
    · exact hy
    · obtain ⟨hyC, hyl⟩ := yielded_comb hy
      obtain ⟨y', hs, hy'⟩ := advance_next hyC hc (hyl.trans hl.symm) hb
      have hstep := Yielded.step hy hs
      obtain ⟨hyC', hyl'⟩ := yielded_comb hstep
      have h1 := value_before hyC hyC' (hyl.trans hyl'.symm) (advance_before hs)
      have h2 := value_lt hyC'
      rw [hyl'] at h2
      exact ih _ (by omega) y' rfl hstep hy'

/-- **C88.** `compute_combinations` yields exactly the strictly increasing `r`-tuples of indices
below `n`. -/
theorem C88_exact (n r : ℕ) (c : List ℕ) :
    Yielded n r c ↔ c.length = r ∧ (∀ x ∈ c, x < n) ∧ c.Pairwise (· < ·) := by
  constructor
  · intro h
    obtain ⟨h1, h2⟩ := yielded_comb h
    rw [comb_iff] at h1
    exact ⟨h2, fun x hx => (h1.1 x hx).2, h1.2⟩
  · rintro ⟨hl, hx, hp⟩
    have hc : Comb n 0 c := (comb_iff n 0 c).2 ⟨fun x h => ⟨Nat.zero_le x, hx x h⟩, hp⟩
    have hr : r ≤ n := by
      have := comb_room' n 0 c hc (Nat.zero_le n)
      omega
    refine reach hc hl _ _ rfl (Yielded.first hr) ?_
    have := fill_first hc
    rwa [hl] at this

/-- **C88.** They come in strictly increasing lexicographic order, so none twice. -/
theorem C88_order (n : ℕ) (c c' : List ℕ) (h : advance n c = some c') : Before c c' ∧ c ≠ c' := by
  have := advance_before h
  refine ⟨this, ?_⟩
  rintro rfl
  exact before_irrefl _ this

/-- **C88.** No combination is skipped between two consecutive ones. -/
theorem C88_no_gap (n r : ℕ) (c c' d : List ℕ) (hc : Yielded n r c) (h : advance n c = some c')
    (hd : Yielded n r d) : ¬ (Before c d ∧ Before d c') := by
  rintro ⟨h1, h2⟩
  obtain ⟨hC, hl⟩ := yielded_comb hc
  obtain ⟨hD, hl'⟩ := yielded_comb hd
  obtain ⟨a', ha, hb⟩ := advance_next hC hD (hl.trans hl'.symm) h1
  rw [h] at ha
  cases ha
  rcases hb with rfl | hb
  · exact before_irrefl _ h2
  · exact before_irrefl _ (before_trans h2 hb)

/-- **C88.** The generator stops exactly at the last combination. -/
theorem C88_stop (n r : ℕ) (c : List ℕ) (hc : Yielded n r c) :
    advance n c = none ↔ ∀ d, Yielded n r d → ¬ Before c d := by
  obtain ⟨hC, hl⟩ := yielded_comb hc
  constructor
  · intro h d hd hb
    obtain ⟨hD, hl'⟩ := yielded_comb hd
    obtain ⟨a', ha, -⟩ := advance_next hC hD (hl.trans hl'.symm) hb
    rw [h] at ha
    cases ha
  · intro h
    cases ha : advance n c with
    | none => rfl
    | some c' => exact absurd (advance_before ha) (h c' (Yielded.step hc ha))

/-- **C88.** Nothing is yielded when more indices are asked for than there are. -/
theorem C88_empty (n r : ℕ) (h : n < r) (c : List ℕ) : ¬ Yielded n r c := by
  intro hy
  obtain ⟨hC, hl⟩ := yielded_comb hy
  have := comb_room' n 0 c hC (Nat.zero_le n)
  omega

example : advance 4 [0, 3] = some [1, 2] := by decide +kernel
example : advance 5 [0, 3, 4] = some [1, 2, 3] := by decide +kernel
example : advance 4 [2, 3] = none := by decide +kernel
example : Yielded 5 3 [1, 2, 4] := by
  rw [C88_exact]
  decide +kernel

end Corgi.Combos

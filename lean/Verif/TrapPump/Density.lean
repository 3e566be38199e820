import Mathlib.Algebra.Order.Floor.Ring
import Mathlib.Algebra.Order.Floor.Semiring
import Mathlib.Algebra.Order.Ring.Rat
import Mathlib.Algebra.Order.Field.Basic
import Mathlib.Algebra.BigOperators.Group.Finset.Basic
import Mathlib.Data.Finset.Prod
import Mathlib.Data.Rat.Floor
import Mathlib.Tactic.FieldSimp
import Mathlib.Tactic.Linarith
import Mathlib.Tactic.NormNum
import Mathlib.Tactic.Ring

/-!
# Trap densities (pump_trap_calibration.py 3110-3157): model and C118

`np.histogram2d` with given ranges: `n` bins of equal width in [0, hi], the upper edge belongs to the last bin, values outside
are not counted.
-/

namespace Corgi.TrapDensity

/-- A linked trap: adjusted R² (`none` if there was no fit), E and cs. -/
structure Tr where
  rsq : Option ℚ
  E : ℚ
  cs : ℚ

/-- Lines 3134-3137. -/
def accepted (thresh : ℚ) (l : List Tr) : List (ℚ × ℚ) :=
  l.filterMap fun t => match t.rsq with
    | none => none
    | some r => if thresh ≤ r then some (t.E, t.cs) else none

/-- The bin of `x` in a histogram of `n` bins over [0, hi]. -/
def bin (hi : ℚ) (n : ℕ) (x : ℚ) : Option ℕ :=
  if 0 ≤ x ∧ x ≤ hi then some (min ⌊x * n / hi⌋₊ (n - 1)) else none

/-- `max(1, E_vals.max()) + 0.5/bins[0]`, line 3146. -/
def hiE (n : ℕ) (v : List (ℚ × ℚ)) : ℚ := v.foldr (fun p a => max p.1 a) 1 + 1 / 2 / n

/-- `max(1e-14, cs_vals.max()) + 1e-14*0.5/bins[1]`, line 3147. -/
def hiC (n : ℕ) (v : List (ℚ × ℚ)) : ℚ := v.foldr (fun p a => max p.2 a) (1 / 10 ^ 14) + 1 / 10 ^ 14 * (1 / 2) / n

/-- `H[i, j]`, line 3145. -/
def hist (n m : ℕ) (v : List (ℚ × ℚ)) (i j : ℕ) : ℕ :=
  (v.filter fun p => decide (bin (hiE n v) n p.1 = some i ∧ bin (hiC m v) m p.2 = some j)).length

/-- Lines 3150-3157: density, centre of the bin in E, centre in cs. -/
def densities (n m pixels : ℕ) (v : List (ℚ × ℚ)) : List (ℚ × ℚ × ℚ) :=
  if v = [] then [] else
    (List.range n).flatMap fun i => (List.range m).filterMap fun j =>
      if hist n m v i j ≠ 0 then
        some ((hist n m v i j : ℚ) / pixels,
          ((i + 1 : ℕ) * (hiE n v / n) + i * (hiE n v / n)) / 2, ((j + 1 : ℕ) * (hiC m v / m) + j * (hiC m v / m)) / 2)
      else none

/-! ## Every accepted trap is in a bin -/

theorem bin_spec {hi x : ℚ} {n : ℕ} (hn : 0 < n) (h0 : 0 ≤ x) (hx : x < hi) :
    ∃ i < n, bin hi n x = some i ∧ i * (hi / n) ≤ x ∧ x < (i + 1 : ℕ) * (hi / n) := by
  have hhi : 0 < hi := lt_of_le_of_lt h0 hx
  have hnq : (0 : ℚ) < n := by exact_mod_cast hn
  have hq : 0 ≤ x * n / hi := div_nonneg (mul_nonneg h0 hnq.le) hhi.le
  have hlt : x * n / hi < n := by rw [div_lt_iff₀ hhi]; nlinarith
  have hfl : ⌊x * n / hi⌋₊ < n := (Nat.floor_lt hq).2 hlt
  refine ⟨⌊x * n / hi⌋₊, hfl, ?_, ?_, ?_⟩
  · unfold bin
    rw [if_pos ⟨h0, hx.le⟩, min_eq_left (by omega)]
  · have := Nat.floor_le hq
    rw [le_div_iff₀ hhi] at this
    rw [← mul_div_assoc, div_le_iff₀ hnq]
    exact this
  · have := Nat.lt_floor_add_one (x * n / hi)
    rw [div_lt_iff₀ hhi] at this
    rw [← mul_div_assoc, lt_div_iff₀ hnq]
    push_cast
    exact this

theorem le_foldr (f : ℚ × ℚ → ℚ) (d : ℚ) {v : List (ℚ × ℚ)} {p : ℚ × ℚ} (hp : p ∈ v) :
    f p ≤ v.foldr (fun p a => max (f p) a) d := by
  induction v with
  | nil => cases hp
  | cons a v ih =>
    rw [List.foldr_cons]
    rcases List.mem_cons.1 hp with rfl | hp
    · exact le_max_left _ _
    · exact (ih hp).trans (le_max_right _ _)

theorem lt_hiE {n : ℕ} (hn : 0 < n) {v : List (ℚ × ℚ)} {p : ℚ × ℚ} (hp : p ∈ v) : p.1 < hiE n v := by
  have := le_foldr Prod.fst 1 hp
  have hnq : (0 : ℚ) < n := by exact_mod_cast hn
  have : (0 : ℚ) < 1 / 2 / n := by positivity
  unfold hiE
  linarith

theorem lt_hiC {n : ℕ} (hn : 0 < n) {v : List (ℚ × ℚ)} {p : ℚ × ℚ} (hp : p ∈ v) : p.2 < hiC n v := by
  have := le_foldr Prod.snd (1 / 10 ^ 14) hp
  have hnq : (0 : ℚ) < n := by exact_mod_cast hn
  have : (0 : ℚ) < 1 / 10 ^ 14 * (1 / 2) / n := by positivity
  unfold hiC
  linarith

/-- Energies and cross sections are not negative (bounds of the fit, lines 2055-2062). -/
def Nonneg (v : List (ℚ × ℚ)) : Prop := ∀ p ∈ v, 0 ≤ p.1 ∧ 0 ≤ p.2

/-- Every accepted trap lies in exactly one bin, within its edges. -/
theorem C118_inside {n m : ℕ} (hn : 0 < n) (hm : 0 < m) {v : List (ℚ × ℚ)} (hv : Nonneg v) {p : ℚ × ℚ} (hp : p ∈ v) :
    ∃ i < n, ∃ j < m, bin (hiE n v) n p.1 = some i ∧ bin (hiC m v) m p.2 = some j ∧
      (i * (hiE n v / n) ≤ p.1 ∧ p.1 < (i + 1 : ℕ) * (hiE n v / n)) ∧
      (j * (hiC m v / m) ≤ p.2 ∧ p.2 < (j + 1 : ℕ) * (hiC m v / m)) := by
  obtain ⟨i, hi, h1, h2, h3⟩ := bin_spec hn (hv p hp).1 (lt_hiE hn hp)
  obtain ⟨j, hj, k1, k2, k3⟩ := bin_spec hm (hv p hp).2 (lt_hiC hm hp)
  exact ⟨i, hi, j, hj, h1, k1, ⟨h2, h3⟩, ⟨k2, k3⟩⟩

theorem sum_count (n m : ℕ) (f g : ℚ → Option ℕ) (v : List (ℚ × ℚ))
    (h : ∀ p ∈ v, (∃ i < n, f p.1 = some i) ∧ ∃ j < m, g p.2 = some j) :
    (((List.range n).map fun i => ((List.range m).map fun j =>
      (v.filter fun p => decide (f p.1 = some i ∧ g p.2 = some j)).length).sum).sum) = v.length := by
  have key : ∀ (n : ℕ) (F : ℕ → ℕ), ((List.range n).map F).sum = ∑ i ∈ Finset.range n, F i := by
    intro n F
    induction n with
    | zero => rfl
    | succ n ih => rw [List.range_succ, List.map_append, List.sum_append, ih, Finset.sum_range_succ]; simp
  simp only [key]
  induction v with
  | nil => simp
  | cons p v ih =>
    obtain ⟨⟨i, hi, hf⟩, j, hj, hg⟩ := h p List.mem_cons_self
    have ih' := ih fun q hq => h q (List.mem_cons_of_mem _ hq)
    rw [List.length_cons, ← ih']
    have e : ∀ i' j', ((p :: v).filter fun p => decide (f p.1 = some i' ∧ g p.2 = some j')).length =
        (v.filter fun p => decide (f p.1 = some i' ∧ g p.2 = some j')).length + (if i' = i then (if j' = j then 1 else 0) else 0) := by
      intro i' j'
      by_cases hc : f p.1 = some i' ∧ g p.2 = some j'
      · rw [List.filter_cons_of_pos (by simpa using hc)]
        have h1 : i' = i := by rw [hf] at hc; exact (Option.some.inj hc.1).symm
        have h2 : j' = j := by rw [hg] at hc; exact (Option.some.inj hc.2).symm
        simp [h1, h2]
      · rw [List.filter_cons_of_neg (by simpa using hc)]
        have : (if i' = i then (if j' = j then 1 else 0) else 0) = 0 := by
          split
          · split
            · subst_vars; exact absurd ⟨hf, hg⟩ hc
            · rfl
          · rfl
        omega
    simp only [e, Finset.sum_add_distrib]
    congr 1
    rw [Finset.sum_eq_single i]
    · rw [Finset.sum_eq_single j]
      · simp
      · intro j' _ hne
        simp [hne]
      · intro hnj
        exact absurd (Finset.mem_range.2 hj) hnj
    · intro i' _ hne
      simp [hne]
    · intro hni
      exact absurd (Finset.mem_range.2 hi) hni

theorem dens_sum (n m pixels : ℕ) (c : ℕ → ℕ → ℕ) (x : ℕ → ℚ) (y : ℕ → ℚ) :
    ((((List.range n).flatMap fun i => (List.range m).filterMap fun j =>
      if c i j ≠ 0 then some ((c i j : ℚ) / pixels, x i, y j) else none).map fun d => d.1).sum) =
    ((((List.range n).map fun i => ((List.range m).map fun j => c i j).sum).sum : ℕ) : ℚ) / pixels := by
  have inner : ∀ (i : ℕ) (l : List ℕ), (((l.filterMap fun j =>
      if c i j ≠ 0 then some ((c i j : ℚ) / pixels, x i, y j) else none).map fun d => d.1).sum) =
      (((l.map fun j => c i j).sum : ℕ) : ℚ) / pixels := by
    intro i l
    induction l with
    | nil => simp
    | cons j l ih =>
      by_cases h : c i j = 0
      · rw [List.filterMap_cons_none (by simp [h]), ih]; simp [h]
      · rw [List.filterMap_cons_some (b := ((c i j : ℚ) / pixels, x i, y j)) (by simp [h])]
        simp only [List.map_cons, List.sum_cons, ih]
        push_cast
        ring
  generalize List.range n = l
  induction l with
  | nil => simp
  | cons i l ih =>
    rw [List.flatMap_cons, List.map_append, List.sum_append, ih, inner]
    simp only [List.map_cons, List.sum_cons]
    push_cast
    ring

/-- The densities add up to the number of accepted traps per pixel. -/
theorem C118_sum {n m : ℕ} (hn : 0 < n) (hm : 0 < m) (pixels : ℕ) (v : List (ℚ × ℚ)) (hv : Nonneg v) :
    ((densities n m pixels v).map fun d => d.1).sum = (v.length : ℚ) / pixels := by
  unfold densities
  by_cases h : v = []
  · rw [if_pos h, h]; simp
  · rw [if_neg h]
    have h1 := dens_sum n m pixels (hist n m v) (fun i => ((i + 1 : ℕ) * (hiE n v / n) + i * (hiE n v / n)) / 2)
      (fun j => ((j + 1 : ℕ) * (hiC m v / m) + j * (hiC m v / m)) / 2)
    rw [h1]
    congr 2
    apply sum_count n m (bin (hiE n v) n) (bin (hiC m v) m) v
    intro p hp
    obtain ⟨i, hi, j, hj, h1, h2, -⟩ := C118_inside hn hm hv hp
    exact ⟨⟨i, hi, h1⟩, j, hj, h2⟩

/-- Every entry has a positive density, and a trap within half a bin of its energy and cross section. -/
theorem C118_centre {n m pixels : ℕ} (hn : 0 < n) (hm : 0 < m) (hpx : 0 < pixels) (v : List (ℚ × ℚ)) (hv : Nonneg v)
    (d : ℚ × ℚ × ℚ) (hd : d ∈ densities n m pixels v) :
    0 < d.1 ∧ ∃ p ∈ v, |p.1 - d.2.1| ≤ hiE n v / n / 2 ∧ |p.2 - d.2.2| ≤ hiC m v / m / 2 := by
  unfold densities at hd
  split at hd
  · cases hd
  · obtain ⟨i, -, hd⟩ := List.mem_flatMap.1 hd
    obtain ⟨j, -, hd⟩ := List.mem_filterMap.1 hd
    split at hd
    · rename_i hne
      cases hd
      refine ⟨?_, ?_⟩
      · have h1 : (0 : ℚ) < hist n m v i j := by exact_mod_cast Nat.pos_of_ne_zero hne
        have h2 : (0 : ℚ) < pixels := by exact_mod_cast hpx
        exact div_pos h1 h2
      · obtain ⟨p, hp⟩ := List.exists_mem_of_length_pos (Nat.pos_of_ne_zero hne)
        obtain ⟨hp', hb⟩ := List.mem_filter.1 hp
        simp only [decide_eq_true_eq] at hb
        obtain ⟨i', -, j', -, h1, h2, h3, h4⟩ := C118_inside hn hm hv hp'
        have e1 := Option.some.inj (h1.symm.trans hb.1)
        have e2 := Option.some.inj (h2.symm.trans hb.2)
        subst e1 e2
        refine ⟨p, hp', ?_, ?_⟩
        · rw [abs_le]
          push_cast at h3 ⊢
          constructor <;> linarith [h3.1, h3.2]
        · rw [abs_le]
          push_cast at h4 ⊢
          constructor <;> linarith [h4.1, h4.2]
    · cases hd

/-- A trap is accepted exactly if there is a fit with an R² of at least the threshold. -/
theorem C118_accepted (thresh : ℚ) (l : List Tr) :
    accepted thresh l =
      (l.filter fun t => decide (∃ r, t.rsq = some r ∧ thresh ≤ r)).map fun t => (t.E, t.cs) := by
  induction l with
  | nil => rfl
  | cons t l ih =>
    unfold accepted at ih ⊢
    cases hr : t.rsq with
    | none =>
      rw [List.filterMap_cons_none (by simp [hr]), List.filter_cons_of_neg (by simp [hr]), ih]
    | some r =>
      by_cases h : thresh ≤ r
      · rw [List.filterMap_cons_some (b := (t.E, t.cs)) (by simp [hr, h]), List.filter_cons_of_pos (by simp [hr, h]), ih]
        rfl
      · rw [List.filterMap_cons_none (by simp [hr, h]), List.filter_cons_of_neg (by simpa [hr] using h), ih]

example : densities 2 2 10 [(1 / 4, 0), (1 / 3, 0), (1, 0)] =
    [(1 / 5, 5 / 16, 5 / 16 / 10 ^ 14), (1 / 10, 15 / 16, 5 / 16 / 10 ^ 14)] := by decide +kernel

end Corgi.TrapDensity

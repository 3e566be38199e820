import Verif.Darks.Lsq
import Mathlib.Data.List.Sort
import Mathlib.Algebra.Order.Field.Basic
import Mathlib.Algebra.Order.Field.Rat

/-!
`darks.py` lines 555-572: the two sub-stacks whose mean images are correlated to estimate how much of the fixed pattern is
common to the sub-stacks (used by the read-noise estimate, line 685).
-/

namespace Corgi.Darks

variable {K : Type} [Field K] [LinearOrder K]

/-- Indices in order of `key` (`np.argsort`; ties in index order). -/
def argsort (key : ℕ → K) (n : ℕ) : List ℕ := (List.range n).insertionSort fun a b => key a ≤ key b

/-- gain times exposure time of sub-stack `i` -/
def prodAt (gt : List (K × K)) (i : ℕ) : K := ((gt[i]?).map fun s => s.1 * s.2).getD 0

/-- line 566 `EMgain_arr[EMgain_arr > g].min()`; `none` = numpy's `ValueError` on an empty array. -/
def nextGain (gt : List (K × K)) (g : K) : Option K :=
  (((gt.map Prod.fst).filter fun x => g < x).insertionSort (· ≤ ·)).head?

/-- lines 565, 567-570: the first sub-stack with that time and that gain. -/
def sameTime (gt : List (K × K)) (t g : K) : Option ℕ :=
  (List.range gt.length).find? fun i => decide (gt[i]? = some (g, t))

/-- lines 561-572: `min1` and `min2` for the gains and times of the sub-stacks. -/
def corrPair (gt : List (K × K)) : Except LErr (ℕ × ℕ) :=
  match argmin (gt.map fun s => s.1 * s.2) with
  | none => .error .valueError
  | some min1 =>
    match gt[min1]? with
    | none => .error .valueError
    | some s1 =>
      match nextGain gt s1.1 with
      | none => .error .valueError
      | some g =>
        match sameTime gt s1.2 g with
        | some i => .ok (min1, i)
        | none => .ok (min1, (argsort (prodAt gt) gt.length).idxOf 1)

/-! ## Specification -/

/-- `i` is the first sub-stack of least gain × time. -/
def IsLeast (gt : List (K × K)) (i : ℕ) (s : K × K) : Prop :=
  gt[i]? = some s ∧ (∀ r ∈ gt, s.1 * s.2 ≤ r.1 * r.2) ∧
  ∀ (j : ℕ) (r : K × K), j < i → gt[j]? = some r → s.1 * s.2 < r.1 * r.2

theorem least_of_argmin {gt : List (K × K)} {i : ℕ} (h : argmin (gt.map fun s => s.1 * s.2) = some i) :
    ∃ s, IsLeast gt i s := by
  obtain ⟨m, hm, hle, hlt⟩ := argmin_isFirstMin h
  rw [List.getElem?_map] at hm
  obtain ⟨s, hs, rfl⟩ := Option.map_eq_some_iff.1 hm
  refine ⟨s, hs, fun r hr => hle _ (List.mem_map_of_mem hr), fun j r hj hr => hlt j _ hj ?_⟩
  rw [List.getElem?_map, hr]; rfl

theorem isLeast_unique {gt : List (K × K)} {i j : ℕ} {s r : K × K} (h : IsLeast gt i s) (h' : IsLeast gt j r) :
    i = j ∧ s = r := by
  have hij : i = j := by
    rcases lt_trichotomy i j with hl | hl | hl
    · exact absurd (h'.2.2 i s hl h.1) (not_lt.2 (h.2.1 r (List.mem_of_getElem? h'.1)))
    · exact hl
    · exact absurd (h.2.2 j r hl h'.1) (not_lt.2 (h'.2.1 s (List.mem_of_getElem? h.1)))
  subst hij
  exact ⟨rfl, Option.some.inj (h.1.symm.trans h'.1)⟩

omit [Field K] in
theorem nextGain_none {gt : List (K × K)} {g : K} : nextGain gt g = none ↔ ∀ r ∈ gt, r.1 ≤ g := by
  unfold nextGain
  rw [List.head?_eq_none_iff, ← List.length_eq_zero_iff, List.length_insertionSort, List.length_eq_zero_iff,
    List.filter_eq_nil_iff]
  simp

omit [Field K] in
theorem nextGain_some {gt : List (K × K)} {g n : K} (h : nextGain gt g = some n) :
    g < n ∧ (∃ r ∈ gt, r.1 = n) ∧ ∀ r ∈ gt, g < r.1 → n ≤ r.1 := by
  unfold nextGain at h
  have hp := List.perm_insertionSort (· ≤ ·) ((gt.map Prod.fst).filter fun x => g < x)
  have hs := List.pairwise_insertionSort (· ≤ ·) ((gt.map Prod.fst).filter fun x => g < x)
  obtain ⟨tl, htl⟩ : ∃ tl, ((gt.map Prod.fst).filter fun x => g < x).insertionSort (· ≤ ·) = n :: tl := by
    cases hh : ((gt.map Prod.fst).filter fun x => g < x).insertionSort (· ≤ ·) with
    | nil => rw [hh] at h; simp at h
    | cons a tl => rw [hh] at h; simp at h; exact ⟨tl, by rw [h]⟩
  rw [htl] at hp hs
  have hn : n ∈ (gt.map Prod.fst).filter fun x => g < x := hp.subset (List.mem_cons_self ..)
  rw [List.mem_filter, List.mem_map] at hn
  refine ⟨by simpa using hn.2, hn.1, ?_⟩
  intro r hr hgr
  have hm : r.1 ∈ n :: tl := hp.symm.subset (List.mem_filter.2 ⟨List.mem_map_of_mem hr, by simpa using hgr⟩)
  rcases List.mem_cons.1 hm with he | he
  · exact he.ge
  · exact (List.pairwise_cons.1 hs).1 _ he

/-- **C48** The first sub-stack chosen is the one of least gain × time. -/
theorem C48_first {gt : List (K × K)} {i j : ℕ} (h : corrPair gt = .ok (i, j)) : ∃ s, IsLeast gt i s := by
  unfold corrPair at h
  split at h
  · cases h
  · rename_i m hm
    obtain ⟨s, hs⟩ := least_of_argmin hm
    rw [hs.1] at h
    dsimp only at h
    split at h
    · cases h
    · split at h <;> (cases h; exact ⟨s, hs⟩)

/-- **C48** Which sub-stacks make the calibration fail: those where no sub-stack has a larger gain than the one of least
gain × time.  Nothing in the input checks excludes this. -/
theorem C48_crash_iff (gt : List (K × K)) :
    corrPair gt = .error .valueError ↔ ∀ i s, IsLeast gt i s → ∀ r ∈ gt, r.1 ≤ s.1 := by
  constructor
  · intro h i s hs
    unfold corrPair at h
    split at h
    · rename_i hm
      rw [argmin_eq_none, List.map_eq_nil_iff] at hm
      subst hm; intro r hr; cases hr
    · rename_i m hm
      obtain ⟨s', hs'⟩ := least_of_argmin hm
      obtain ⟨rfl, rfl⟩ := isLeast_unique hs hs'
      rw [hs.1] at h
      dsimp only at h
      split at h
      · rename_i hn; exact nextGain_none.1 hn
      · split at h <;> cases h
  · intro h
    unfold corrPair
    cases hm : argmin (gt.map fun s => s.1 * s.2) with
    | none => rfl
    | some m =>
      obtain ⟨s, hs⟩ := least_of_argmin hm
      dsimp only
      rw [hs.1]
      dsimp only
      rw [nextGain_none.2 (h m s hs)]

/-- **C48** When a sub-stack with the same time and the next larger gain exists, the first such is taken. -/
theorem C48_same_time_partial {gt : List (K × K)} {i : ℕ} {s : K × K} {n : K} (hs : IsLeast gt i s)
    (hg : s.1 < n) (hn : ∀ r ∈ gt, s.1 < r.1 → n ≤ r.1) (hex : (n, s.2) ∈ gt) :
    ∃ j, corrPair gt = .ok (i, j) ∧ gt[j]? = some (n, s.2) ∧ i ≠ j ∧
      ∀ k, k < j → gt[k]? ≠ some (n, s.2) := by
  obtain ⟨m, hm⟩ := argmin_exists (xs := gt.map fun s => s.1 * s.2) (by
    intro h; rw [List.map_eq_nil_iff] at h; subst h; cases hex)
  obtain ⟨s', hs'⟩ := least_of_argmin hm
  obtain ⟨rfl, rfl⟩ := isLeast_unique hs hs'
  have hnext : nextGain gt s.1 = some n := by
    cases hh : nextGain gt s.1 with
    | none => exact absurd (nextGain_none.1 hh _ hex) (not_le.2 hg)
    | some n' =>
      obtain ⟨h1, ⟨r, hr, rfl⟩, h3⟩ := nextGain_some hh
      rw [le_antisymm (h3 _ hex hg) (hn r hr h1)]
  obtain ⟨k, hk⟩ := List.getElem?_of_mem hex
  have hkl : k < gt.length := by
    rcases List.getElem?_eq_some_iff.1 hk with ⟨h, _⟩; exact h
  cases hf : sameTime gt s.2 n with
  | none =>
    unfold sameTime at hf
    rw [List.find?_eq_none] at hf
    exact absurd (by simpa using hk) (hf k (List.mem_range.2 hkl))
  | some j =>
    have hj := hf
    unfold sameTime at hj
    rw [List.find?_range_eq_some] at hj
    refine ⟨j, ?_, by simpa using hj.1, ?_, ?_⟩
    · unfold corrPair
      rw [hm]; dsimp only; rw [hs.1]; dsimp only; rw [hnext]; dsimp only; rw [hf]
    · rintro rfl
      have h1 := hj.1
      rw [decide_eq_true_iff, hs.1] at h1
      have := congrArg Prod.fst (Option.some.inj h1)
      exact absurd this hg.ne
    · intro k hkj hk'
      have := hj.2.2 k hkj
      simp [hk'] at this

omit [Field K] in
theorem idxOf_sorted (key : ℕ → K) {a : ℕ} : ∀ {l : List ℕ}, l.Pairwise (fun b c => key b ≤ key c) → a ∈ l →
    (∀ b ∈ l, b ≠ a → key b ≠ key a) → l.Nodup → l.idxOf a = l.countP fun b => key b < key a
  | [], _, h, _, _ => by cases h
  | b :: l, hp, ha, hk, hn => by
    rw [List.pairwise_cons] at hp
    rw [List.nodup_cons] at hn
    by_cases hb : b = a
    · subst hb
      rw [List.idxOf_cons_self, List.countP_cons_of_neg (by simp)]
      symm
      rw [List.countP_eq_zero]
      intro c hc
      simpa using hp.1 c hc
    · have hal : a ∈ l := (List.mem_cons.1 ha).resolve_left fun h => hb h.symm
      rw [List.idxOf_cons_ne _ hb, idxOf_sorted key hp.2 hal (fun c hc => hk c (List.mem_cons_of_mem _ hc)) hn.2,
        List.countP_cons_of_pos]
      simpa using lt_of_le_of_ne (hp.1 a hal) (hk b List.mem_cons_self hb)

/-- **C48** In the remaining case the second sub-stack is the one whose number is how many sub-stacks have a smaller
gain × time than sub-stack 1 (products pairwise different from that of sub-stack 1): a rank is used as a number. -/
theorem C48_otherwise_partial {gt : List (K × K)} {i : ℕ} {s r : K × K} {n : K} (hs : IsLeast gt i s) (hr : gt[1]? = some r)
    (hg : s.1 < n) (hn : ∀ q ∈ gt, s.1 < q.1 → n ≤ q.1) (hex : ∃ q ∈ gt, q.1 = n) (hno : (n, s.2) ∉ gt)
    (hne : ∀ k q, k ≠ 1 → gt[k]? = some q → q.1 * q.2 ≠ r.1 * r.2) :
    corrPair gt = .ok (i, gt.countP fun q => q.1 * q.2 < r.1 * r.2) := by
  obtain ⟨q, hq, rfl⟩ := hex
  obtain ⟨m, hm⟩ := argmin_exists (xs := gt.map fun s => s.1 * s.2) (by
    intro h; rw [List.map_eq_nil_iff] at h; subst h; cases hq)
  obtain ⟨s', hs'⟩ := least_of_argmin hm
  obtain ⟨rfl, rfl⟩ := isLeast_unique hs hs'
  have hnext : nextGain gt s.1 = some q.1 := by
    cases hh : nextGain gt s.1 with
    | none => exact absurd (nextGain_none.1 hh _ hq) (not_le.2 hg)
    | some n' =>
      obtain ⟨h1, ⟨r, hr, rfl⟩, h3⟩ := nextGain_some hh
      rw [le_antisymm (h3 _ hq hg) (hn r hr h1)]
  have hsame : sameTime gt s.2 q.1 = none := by
    unfold sameTime
    rw [List.find?_eq_none]
    intro k _ hk
    exact hno (List.mem_of_getElem? (by simpa using hk))
  unfold corrPair
  rw [hm]; dsimp only; rw [hs.1]; dsimp only; rw [hnext]; dsimp only; rw [hsame]; dsimp only
  have h1l : 1 < gt.length := (List.getElem?_eq_some_iff.1 hr).1
  have hperm : (argsort (prodAt gt) gt.length).Perm (List.range gt.length) := List.perm_insertionSort ..
  have hp1 : prodAt gt 1 = r.1 * r.2 := by unfold prodAt; rw [hr]; rfl
  have hsort : (argsort (prodAt gt) gt.length).Pairwise fun b c => prodAt gt b ≤ prodAt gt c := by
    have : IsTrans ℕ fun b c => prodAt gt b ≤ prodAt gt c := ⟨fun _ _ _ h1 h2 => le_trans h1 h2⟩
    have : Std.Total fun b c => prodAt gt b ≤ prodAt gt c := ⟨fun _ _ => le_total _ _⟩
    exact List.pairwise_insertionSort _ _
  have hidx := idxOf_sorted (prodAt gt) (a := 1) hsort (hperm.mem_iff.2 (List.mem_range.2 h1l)) (by
    intro b hb hb1
    have hbl := List.mem_range.1 (hperm.mem_iff.1 hb)
    have hgb : gt[b]? = some gt[b] := List.getElem?_eq_getElem hbl
    have hpb : prodAt gt b = gt[b].1 * gt[b].2 := by unfold prodAt; rw [hgb]; rfl
    rw [hpb, hp1]
    exact hne b _ hb1 hgb) (hperm.nodup_iff.2 List.nodup_range)
  rw [hidx, hperm.countP_eq, hp1]
  have hmap : gt.map (fun q => q.1 * q.2) = (List.range gt.length).map (prodAt gt) := by
    apply List.ext_getElem
    · simp
    · intro k h1 h2
      rw [List.getElem_map, List.getElem_map, List.getElem_range]
      unfold prodAt
      rw [List.getElem?_eq_getElem (by simpa using h1)]
      rfl
  have e1 : gt.countP (fun q => decide (q.1 * q.2 < r.1 * r.2)) =
      (gt.map fun q => q.1 * q.2).countP fun p => decide (p < r.1 * r.2) := by
    rw [List.countP_map]; rfl
  rw [e1, hmap, List.countP_map]
  rfl

/-- **C48** In the remaining case the comment asks for the next smallest gain × time; the code returns the position of
sub-stack 1 in the sorted order, which can be the very sub-stack already chosen, so that the correlation is 1. -/
theorem C48_violated :
    corrPair [((10 : ℚ), 1), (20, 2), (2, 3), (30, 4)] = .ok (2, 2) ∧
    ((10 : ℚ) * 1 = 10 ∧ (20 : ℚ) * 2 = 40 ∧ (2 : ℚ) * 3 = 6 ∧ (30 : ℚ) * 4 = 120) := by
  constructor
  · decide +kernel
  · norm_num

/-- **C48** Or the sub-stack of largest gain × time (products 1, 100, 300, 20: the next smallest is number 3). -/
theorem C48_largest_violated : corrPair [((1 : ℚ), 1), (50, 2), (100, 3), (5, 4)] = .ok (0, 2) := by
  decide +kernel

/-- **C48** Settings that pass every input check (four sub-stacks, distinct, two gains and four times) with which it
crashes. -/
theorem C48_crash_violated :
    corrPair [((20 : ℚ), 1), (20, 10), (1, 100), (1, 200)] = .error .valueError ∧
    checkStacks [⟨20, 1, 1⟩, ⟨20, 10, 1⟩, ⟨1, 100, 1⟩, ⟨1, 200, 1⟩] = .ok () := by
  constructor
  · decide +kernel
  · unfold checkStacks
    simp only [List.map_cons, List.map_nil]
    rw [if_neg (by simp), if_neg, if_neg, if_neg, if_neg, if_neg, if_neg]
    · simp only [List.any_cons, List.any_nil, List.count_cons, List.count_nil]
      norm_num
    · norm_num
    · norm_num
    · rw [List.dedup_eq_self.2 (by norm_num)]; simp
    · norm_num
    · rw [show [(20 : ℝ), 20, 1, 1].dedup = [20, 1] by
        rw [List.dedup_cons_of_mem (by simp), List.dedup_cons_of_notMem (by norm_num),
          List.dedup_cons_of_mem (by simp), List.dedup_eq_self.2 (by norm_num)]]; simp

/-- Not vacuous: two products are smaller than that of sub-stack 1. -/
example : corrPair [((10 : ℚ), 1), (20, 2), (2, 3), (30, 4)] = .ok (2, 2) := by
  have h := C48_otherwise_partial (gt := [((10 : ℚ), 1), (20, 2), (2, 3), (30, 4)]) (i := 2) (s := (2, 3)) (r := (20, 2))
    (n := 10) ⟨rfl, by norm_num, fun j r hj h => by
      rcases j with _ | _ | j
      · cases h; norm_num
      · cases h; norm_num
      · omega⟩ rfl (by norm_num) (by norm_num) ⟨(10, 1), by simp, rfl⟩ (by norm_num) fun k q hk h => by
        rcases k with _ | _ | _ | _ | k
        · cases h; norm_num
        · exact absurd rfl hk
        · cases h; norm_num
        · cases h; norm_num
        · simp at h
  rw [h]
  norm_num [List.countP_cons]

/-- Not vacuous. -/
example : corrPair [((1 : ℚ), 1), (50, 1), (3, 1), (5, 4)] = .ok (0, 2) := by decide +kernel

end Corgi.Darks

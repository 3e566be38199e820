import Verif.Common.ArgMin
import Verif.Common.Except
import Mathlib.Algebra.Order.Ring.Rat
import Mathlib.Data.List.Sort
import Mathlib.Data.List.Dedup
import Mathlib.Data.List.Chain
import Mathlib.Algebra.BigOperators.Group.List.Basic
import Mathlib.Tactic.Ring
import Mathlib.Tactic.Push

/-!
# `sort_pupilimg_frames`, K-gain and non-linearity parts (sorting.py 100-246): model, C60 and C61

The unity gain frames outside the exposure time group of the mean frame are given as ids and exposure times in ascending
order of id. For the non-linearity part: the frames of one other gain, in ascending order of id.
-/

namespace Corgi.Pupil

inductive SErr
  | typeError | valueError | indexError
  deriving DecidableEq, Repr

/-! ## Model: K-gain -/

/-- lines 122-128: counting equal neighbours; `x`, `c` are the last entries of `exptime_cons`, `count_cons` -/
def expLoop : List ℚ → ℚ → ℕ → List (ℕ × ℚ)
  | [], x, c => [(c, x)]
  | y :: ys, x, c => if y = x then expLoop ys x (c + 1) else (c, x) :: expLoop ys y 1

/-- lines 119-130 -/
def expRuns : List ℚ → List (ℕ × ℚ)
  | [] => []
  | x :: xs => match expLoop (x :: xs) x 1 with
    | (c, e) :: r => (c - 1, e) :: r
    | [] => []

/-- The variables of the loop: `idx_cons2[0]`, the exposure times in `exptime_cons2`, whether the latter holds a list
(line 154), `kgain_subset`. -/
structure KSt where
  first : ℕ
  exps : List ℚ
  nested : Bool
  subs : List (ℕ × ℕ)
  deriving DecidableEq

/-- The ids of the sets `i` and `i+1` (lines 138-140). -/
def idsOf (runs : List (ℕ × ℚ)) (ids : List ℤ) (i : ℕ) : List ℤ :=
  (ids.take ((runs.map Prod.fst).take (i + 2)).sum).drop ((runs.map Prod.fst).take i).sum

def cnt (runs : List (ℕ × ℚ)) (i : ℕ) : ℕ := (runs.map Prod.fst).getD i 0

def ex (runs : List (ℕ × ℚ)) (i : ℕ) : ℚ := (runs.map Prod.snd).getD i 0

def consec (l : List ℤ) : Bool := (l.zip l.tail).all fun p => p.2 - p.1 == 1

/-- These are the ids of both sets: as many as the two sets have images, after those of the earlier sets. -/
theorem C60_pair (runs : List (ℕ × ℚ)) (ids : List ℤ) (i : ℕ) :
    idsOf runs ids i = (ids.drop ((runs.map Prod.fst).take i).sum).take (cnt runs i + cnt runs (i + 1)) := by
  have hstep : ∀ k, ((runs.map Prod.fst).take (k + 1)).sum = ((runs.map Prod.fst).take k).sum + cnt runs k := by
    intro k
    unfold cnt
    generalize runs.map Prod.fst = l
    induction l generalizing k with
    | nil => simp
    | cons a l ih =>
      cases k with
      | zero => simp
      | succ k => rw [List.take_succ_cons, List.sum_cons, List.take_succ_cons, List.sum_cons, ih k, List.getD_cons_succ]; omega
  unfold idsOf
  rw [List.drop_take, hstep (i + 1), hstep i]
  congr 1
  omega

/-- lines 144-145 -/
def up (runs : List (ℕ × ℚ)) (ids : List ℤ) (i : ℕ) : Prop :=
  cnt runs (i + 1) = cnt runs i ∧ consec (idsOf runs ids i) = true ∧ ex runs i < ex runs (i + 1)

instance (runs : List (ℕ × ℚ)) (ids : List ℤ) (i : ℕ) : Decidable (up runs ids i) := by unfold up; infer_instance

/-- lines 149-151 -/
def back (runs : List (ℕ × ℚ)) (i : ℕ) : Prop :=
  ex runs (i + 1) < ex runs i ∧ ex runs (i + 1) ∈ (runs.map Prod.snd).take (i + 1)

instance (runs : List (ℕ × ℚ)) (i : ℕ) : Decidable (back runs i) := by unfold back; infer_instance

/-- lines 136-157; `set` of a list that holds a list is a TypeError -/
def kstep (runs : List (ℕ × ℚ)) (ids : List ℤ) (s : KSt) (i : ℕ) : Except SErr KSt :=
  if up runs ids i then .ok { s with exps := s.exps ++ [ex runs (i + 1)] }
  else if back runs i then
    if s.nested then .error .typeError
    else if s.exps.Nodup then .ok ⟨i + 1, [], true, s.subs ++ [(s.first, i + 1)]⟩
    else .ok s
  else .ok s

def kloop (runs : List (ℕ × ℚ)) (ids : List ℤ) : ℕ → Except SErr KSt
  | 0 => .ok ⟨0, [ex runs 0], false, []⟩
  | n + 1 => match kloop runs ids n with
    | .ok s => kstep runs ids s n
    | .error e => .error e

/-- lines 116-163: the first and last set; `argmax` of an empty array is a ValueError -/
def kgainSets (ids : List ℤ) (exps : List ℚ) : Except SErr (ℕ × ℕ) :=
  if exps = [] then .error .indexError
  else match kloop (expRuns exps) ids ((expRuns exps).length - 1) with
    | .error e => .error e
    | .ok s => match argmax (s.subs.map fun p => p.2 - p.1) with
      | none => .error .valueError
      | some k => .ok (s.subs.getD k (0, 0))

/-- lines 165-171: the ids of the K-gain frames -/
def kgainIds (ids : List ℤ) (exps : List ℚ) : Except SErr (List ℤ) := match kgainSets ids exps with
  | .error e => .error e
  | .ok (i0, i1) =>
    let c := (expRuns exps).map Prod.fst
    let first := (c.take i0).sum
    let last := first + ((c.take (i1 + 1)).drop i0).sum
    .ok ((ids.take last).drop first)

/-! ## C60 -/

theorem expLoop_spec (l : List ℚ) (x : ℚ) (c : ℕ) (hc : 0 < c) :
    ((expLoop l x c).flatMap fun p => List.replicate p.1 p.2) = List.replicate c x ++ l ∧
    (∀ p ∈ expLoop l x c, 0 < p.1) ∧ (expLoop l x c).IsChain (fun p q => p.2 ≠ q.2) ∧
    ∃ n r, expLoop l x c = (n, x) :: r ∧ c ≤ n := by
  induction l generalizing x c with
  | nil => simp [expLoop, hc]
  | cons y ys ih =>
    unfold expLoop
    split_ifs with h
    · subst h
      obtain ⟨a, b, d, n, r, e, f⟩ := ih y (c + 1) (by omega)
      refine ⟨?_, b, d, n, r, e, by omega⟩
      rw [a, List.replicate_succ', List.append_assoc]; rfl
    · obtain ⟨a, b, d, n, r, e, f⟩ := ih y 1 (by omega)
      refine ⟨?_, ?_, ?_, c, _, rfl, le_refl _⟩
      · rw [List.flatMap_cons, a]; simp
      · intro p hp
        rcases List.mem_cons.1 hp with rfl | hp
        · exact hc
        · exact b p hp
      · rw [e] at d ⊢
        exact List.isChain_cons_cons.2 ⟨fun h' => h h'.symm, d⟩

/-- The sets are the runs of equal exposure times: written out one after the other they give the list, no set is empty,
and neighbours differ. -/
theorem expRuns_spec (l : List ℚ) : ((expRuns l).flatMap fun p => List.replicate p.1 p.2) = l ∧
    (∀ p ∈ expRuns l, 0 < p.1) ∧ (expRuns l).IsChain (fun p q => p.2 ≠ q.2) := by
  cases l with
  | nil => simp [expRuns]
  | cons x xs =>
    have e0 : expLoop (x :: xs) x 1 = expLoop xs x 2 := by simp [expLoop]
    obtain ⟨a, b, d, n, r, e, f⟩ := expLoop_spec xs x 2 (by omega)
    unfold expRuns
    dsimp only
    rw [e0]
    rw [e] at a b d ⊢
    dsimp only
    refine ⟨?_, ?_, ?_⟩
    · rw [List.flatMap_cons] at a ⊢
      dsimp only at a ⊢
      obtain ⟨m, rfl⟩ : ∃ m, n = m + 1 := ⟨n - 1, by omega⟩
      rw [List.replicate_succ, List.cons_append] at a
      simp only [Nat.add_sub_cancel]
      have := List.cons.inj a
      simpa using this.2
    · intro p hp
      rcases List.mem_cons.1 hp with rfl | hp
      · show 0 < n - 1
        omega
      · exact b p (List.mem_cons_of_mem _ hp)
    · cases r with
      | nil => simp
      | cons q r =>
        rw [List.isChain_cons_cons] at d ⊢
        exact d

/-- The exposure times of the sets that continue the series, up to step `n`. -/
def seen (runs : List (ℕ × ℚ)) (ids : List ℤ) : ℕ → List ℚ
  | 0 => [ex runs 0]
  | n + 1 => if up runs ids n then seen runs ids n ++ [ex runs (n + 1)] else seen runs ids n

theorem seen_nodup {runs : List (ℕ × ℚ)} {ids : List ℤ} {i j : ℕ} (h : i ≤ j) (hn : (seen runs ids j).Nodup) :
    (seen runs ids i).Nodup := by
  induction j, h using Nat.le_induction with
  | base => exact hn
  | succ j _ ih =>
    apply ih
    unfold seen at hn
    split_ifs at hn
    · exact (List.nodup_append.1 hn).1
    · exact hn

/-- What the loop has found after `n` steps. -/
inductive Found (runs : List (ℕ × ℚ)) (ids : List ℤ) (n : ℕ) : Except SErr KSt → Prop
  | nothing (h : ∀ i < n, back runs i → ¬ (seen runs ids i).Nodup) :
      Found runs ids n (.ok ⟨0, seen runs ids n, false, []⟩)
  | one (s : KSt) (j : ℕ) (hj : j < n) (hb : back runs j) (hn : (seen runs ids j).Nodup)
      (hu : ∀ i < n, back runs i → i = j) (h1 : s.nested = true) (h2 : s.subs = [(0, j + 1)]) : Found runs ids n (.ok s)
  | two (j k : ℕ) (hj : j < k) (hk : k < n) (hb : back runs j) (hb' : back runs k) (hn : (seen runs ids j).Nodup) :
      Found runs ids n (.error .typeError)

theorem up_not_back {runs : List (ℕ × ℚ)} {ids : List ℤ} {i : ℕ} (h : up runs ids i) : ¬ back runs i :=
  fun hb => absurd hb.1 (not_lt.2 h.2.2.le)

theorem kloop_found (runs : List (ℕ × ℚ)) (ids : List ℤ) (n : ℕ) : Found runs ids n (kloop runs ids n) := by
  induction n with
  | zero => exact .nothing (by intro i hi; omega)
  | succ n ih =>
    rw [kloop]
    generalize kloop runs ids n = q at ih
    cases ih with
    | nothing h =>
      dsimp only [kstep]
      split_ifs with h1 h2 h3 h4
      · have : seen runs ids (n + 1) = seen runs ids n ++ [ex runs (n + 1)] := by simp [seen, h1]
        rw [← this]
        refine .nothing fun i hi hb => ?_
        rcases Nat.lt_succ_iff_lt_or_eq.1 hi with hi | rfl
        · exact h i hi hb
        · exact absurd hb (up_not_back h1)
      · simp at h3
      · refine .one _ n (by omega) h2 h4 (fun i hi hb => ?_) rfl (by simp)
        rcases Nat.lt_succ_iff_lt_or_eq.1 hi with hi | rfl
        · exact absurd (seen_nodup hi.le h4) (h i hi hb)
        · rfl
      · have : seen runs ids (n + 1) = seen runs ids n := by simp [seen, h1]
        rw [← this]
        refine .nothing fun i hi hb => ?_
        rcases Nat.lt_succ_iff_lt_or_eq.1 hi with hi | rfl
        · exact h i hi hb
        · exact h4
      · have : seen runs ids (n + 1) = seen runs ids n := by simp [seen, h1]
        rw [← this]
        refine .nothing fun i hi hb => ?_
        rcases Nat.lt_succ_iff_lt_or_eq.1 hi with hi | rfl
        · exact h i hi hb
        · exact absurd hb h2
    | one s j hj hb hn hu hs1 hs2 =>
      dsimp only [kstep]
      split_ifs with h1 h2
      · refine .one _ j (by omega) hb hn (fun i hi hb' => ?_) hs1 hs2
        rcases Nat.lt_succ_iff_lt_or_eq.1 hi with hi | rfl
        · exact hu i hi hb'
        · exact absurd hb' (up_not_back h1)
      · exact .two j n hj (by omega) hb h2 hn
      · refine .one _ j (by omega) hb hn (fun i hi hb' => ?_) hs1 hs2
        rcases Nat.lt_succ_iff_lt_or_eq.1 hi with hi | rfl
        · exact hu i hi hb'
        · exact absurd hb' h2
    | two j k hj hk hb hb' hn => exact .two j k hj (by omega) hb hb' hn

/-- **C60** The exact condition for success: just one set returns to an earlier exposure time, and the times collected
before are distinct. The choice then always starts with the first set. "Choose the largest subset" never has a choice. -/
theorem C60_ok_iff {ids : List ℤ} {exps : List ℚ} {r : ℕ × ℕ} (he : exps ≠ []) :
    kgainSets ids exps = .ok r ↔ ∃ j < (expRuns exps).length - 1, back (expRuns exps) j ∧
      (seen (expRuns exps) ids j).Nodup ∧ (∀ i < (expRuns exps).length - 1, back (expRuns exps) i → i = j) ∧ r = (0, j + 1) := by
  unfold kgainSets
  rw [if_neg he]
  have hf := kloop_found (expRuns exps) ids ((expRuns exps).length - 1)
  generalize kloop (expRuns exps) ids ((expRuns exps).length - 1) = q at hf
  cases hf with
  | nothing h =>
    simp only [List.map_nil, argmax]
    refine iff_of_false (by simp) ?_
    rintro ⟨j, hj, hb, hn, _⟩
    exact h j hj hb hn
  | one s j hj hb hn hu h1 h2 =>
    dsimp only
    rw [h2]
    simp only [List.map_cons, List.map_nil, argmax, argmaxAux, List.getD_cons_zero, Except.ok.injEq]
    constructor
    · rintro rfl; exact ⟨j, hj, hb, hn, hu, rfl⟩
    · rintro ⟨j', hj', hb', _, _, rfl⟩
      rw [hu j' hj' hb']
  | two j k hj hk hb hb' hn =>
    refine iff_of_false (by simp) ?_
    rintro ⟨j', _, _, _, hu, _⟩
    have := hu j (by omega) hb
    have := hu k hk hb'
    omega

/-- **C60** Two complete series: TypeError. -/
theorem C60_type_error_iff {ids : List ℤ} {exps : List ℚ} (he : exps ≠ []) :
    kgainSets ids exps = .error .typeError ↔ ∃ j k, j < k ∧ k < (expRuns exps).length - 1 ∧ back (expRuns exps) j ∧
      back (expRuns exps) k ∧ (seen (expRuns exps) ids j).Nodup := by
  unfold kgainSets
  rw [if_neg he]
  have hf := kloop_found (expRuns exps) ids ((expRuns exps).length - 1)
  generalize kloop (expRuns exps) ids ((expRuns exps).length - 1) = q at hf
  cases hf with
  | nothing h =>
    simp only [List.map_nil, argmax]
    refine iff_of_false (by simp) ?_
    rintro ⟨j, k, hj, hk, hb, _, hn⟩
    exact h j (by omega) hb hn
  | one s j hj hb hn hu h1 h2 =>
    dsimp only
    rw [h2]
    simp only [List.map_cons, List.map_nil, argmax, argmaxAux]
    refine iff_of_false (by simp) ?_
    rintro ⟨j', k', hj', hk', hb1, hb2, _⟩
    have := hu j' (by omega) hb1
    have := hu k' hk' hb2
    omega
  | two j k hj hk hb hb' hn => exact iff_of_true rfl ⟨j, k, hj, hk, hb, hb', hn⟩

/-- **C60** The frames chosen are always a front piece of the unity gain frames. -/
theorem C60_front {ids r : List ℤ} {exps : List ℚ} (h : kgainIds ids exps = .ok r) : ∃ n, r = ids.take n := by
  unfold kgainIds at h
  cases hk : kgainSets ids exps with
  | error e => rw [hk] at h; cases h
  | ok p =>
    rw [hk] at h
    by_cases he : exps = []
    · subst he; simp [kgainSets] at hk
    · obtain ⟨j, _, _, _, _, rfl⟩ := (C60_ok_iff he).1 hk
      simp only [List.take_zero, List.sum_nil, List.drop_zero, Nat.zero_add, Except.ok.injEq] at h
      exact ⟨_, h.symm⟩

/-- **C60** Which ids: those of the frames up to the end of the set that returns to an earlier exposure time, all of this set and no more. -/
theorem C60_ids {ids r : List ℤ} {exps : List ℚ} (h : kgainIds ids exps = .ok r) : ∃ j < (expRuns exps).length - 1, back (expRuns exps) j ∧
    ∃ n, r = ids.take n ∧ exps.take n = ((expRuns exps).take (j + 2)).flatMap (fun p => List.replicate p.1 p.2) ∧
      n = (((expRuns exps).take (j + 2)).map Prod.fst).sum := by
  unfold kgainIds at h
  cases hk : kgainSets ids exps with
  | error e => rw [hk] at h; cases h
  | ok p =>
    rw [hk] at h
    by_cases he : exps = []
    · subst he; simp [kgainSets] at hk
    · obtain ⟨j, hj, hb, _, _, rfl⟩ := (C60_ok_iff he).1 hk
      simp only [List.take_zero, List.sum_nil, List.drop_zero, Nat.zero_add, Except.ok.injEq] at h
      refine ⟨j, hj, hb, _, h.symm, ?_, ?_⟩
      · have key : ∀ (l : List (ℕ × ℚ)) (k : ℕ), (l.flatMap fun p => List.replicate p.1 p.2).take ((l.map Prod.fst).take k).sum =
            (l.take k).flatMap fun p => List.replicate p.1 p.2 := by
          intro l
          induction l with
          | nil => simp
          | cons q l ih =>
            intro k
            cases k with
            | zero => simp
            | succ k =>
              rw [List.map_cons, List.take_succ_cons, List.sum_cons, List.flatMap_cons, List.take_succ_cons, List.flatMap_cons, ← ih k,
                List.take_append, List.length_replicate, Nat.add_sub_cancel_left, List.take_of_length_le (by simp)]
        rw [← key, (expRuns_spec exps).1]
      · rw [List.map_take]

theorem seen_up {runs : List (ℕ × ℚ)} {ids : List ℤ} {n : ℕ} (h : ∀ i < n, up runs ids i) :
    seen runs ids n = (List.range (n + 1)).map (ex runs) := by
  induction n with
  | zero => rfl
  | succ n ih =>
    rw [seen, if_pos (h n (by omega)), ih (fun i hi => h i (by omega)), List.range_succ (n := n + 1), List.map_append]
    rfl

theorem ex_up {runs : List (ℕ × ℚ)} {ids : List ℤ} {n : ℕ} (h : ∀ i < n, up runs ids i) {i k : ℕ} (hik : i < k) (hk : k ≤ n) :
    ex runs i < ex runs k := by
  induction k, hik using Nat.le_induction with
  | base => exact (h i (by omega)).2.2
  | succ k hk' ih => exact (ih (by omega)).trans (h k (by omega)).2.2

/-- **C60 (partial)** The intended case. Sets of equal size with consecutive ids and increasing exposure times, then a
set that repeats an earlier time, and no other such set: exactly these sets are chosen. -/
theorem C60_partial {ids : List ℤ} {exps : List ℚ} {j : ℕ} (he : exps ≠ []) (hj : j < (expRuns exps).length - 1)
    (hu : ∀ i < j, up (expRuns exps) ids i) (hb : back (expRuns exps) j)
    (ho : ∀ i, j < i → i < (expRuns exps).length - 1 → ¬ back (expRuns exps) i) : kgainSets ids exps = .ok (0, j + 1) := by
  rw [C60_ok_iff he]
  refine ⟨j, hj, hb, ?_, fun i hi hbi => ?_, rfl⟩
  · rw [seen_up hu, List.nodup_map_iff_inj_on List.nodup_range]
    intro a ha b hb' hab
    rw [List.mem_range] at ha hb'
    rcases Nat.lt_trichotomy a b with h | h | h
    · exact absurd hab (ex_up hu h (by omega)).ne
    · exact h
    · exact absurd hab (ex_up hu h (by omega)).ne'
  · rcases Nat.lt_trichotomy i j with h | h | h
    · exact absurd hbi (up_not_back (hu i h))
    · exact h
    · exact absurd hbi (ho i h hi)

/-- **C60 (false)** Frames that do not belong to the series are chosen: two frames of 5 s with ids far before the series. -/
theorem C60_violated : kgainIds [1, 2, 10, 11, 12, 13, 14, 15] [5, 5, 1, 1, 2, 2, 1, 1] = .ok [1, 2, 10, 11, 12, 13, 14, 15] ∧
    kgainIds [10, 11, 12, 13, 14, 15] [1, 1, 2, 2, 1, 1] = .ok [10, 11, 12, 13, 14, 15] := by decide +kernel

/-- **C60 (false)** Two complete series cannot be sorted, although each alone can. -/
theorem C60_two_violated : kgainIds [1, 2, 3, 4, 5, 6] [1, 2, 1, 1/2, 3/4, 1/2] = .error .typeError ∧
    kgainIds [1, 2, 3] [1, 2, 1] = .ok [1, 2, 3] ∧ kgainIds [4, 5, 6] [1/2, 3/4, 1/2] = .ok [4, 5, 6] := by decide +kernel

/-- **C60 (false)** A gap in the ids, or a set of another size, makes a series good that is not: exposure times 1, 2, 1.5, 2, 1 are refused if
the ids are consecutive, for 2 comes twice, and accepted otherwise. -/
theorem C60_violated_gap : kgainIds [1, 2, 3, 4, 5] [1, 2, 3/2, 2, 1] = .error .valueError ∧
    kgainIds [1, 2, 3, 5, 6] [1, 2, 3/2, 2, 1] = .ok [1, 2, 3, 5, 6] ∧
    kgainIds [1, 2, 3, 4, 5, 6] [1, 2, 3/2, 2, 2, 1] = .ok [1, 2, 3, 4, 5, 6] := by decide +kernel

/-! ## Model: non-linearity -/

/-- line 209 -/
def descents (E : List ℚ) : List ℕ := (List.range (E.length - 1)).filter fun i => E.getD (i + 1) 0 < E.getD i 0

/-- lines 216-219: start of candidate `k` -/
def segStart (D : List ℕ) : ℕ → ℕ
  | 0 => 0
  | k + 1 => D.getD k 0 + 1

def seg (E : List ℚ) (D : List ℕ) (k : ℕ) : List ℚ := (E.take (D.getD k 0 + 2)).drop (segStart D k)

/-- lines 221-222 -/
def good (t : List ℚ) : Bool := match t.getLast? with
  | none => false
  | some v => v ∈ t.dropLast ∧ t.length - 1 = t.dedup.length

/-- lines 213-225 -/
def lens (E : List ℚ) : List ℤ :=
  (List.range (descents E).length).map fun k =>
    if good (seg E (descents E) k) then ((seg E (descents E) k).length : ℤ) else -1

/-- lines 202-235: first and last index of the frames of one gain; `none` is `continue` -/
def nonlinSel (E : List ℚ) : Option (ℕ × ℕ) :=
  if E.length < 3 then none
  else match argmax (lens E) with
    | none => none
    | some k => if (lens E).getD k 0 ≤ 0 then none
      else some (segStart (descents E) k, (descents E).getD k 0 + 1)

/-- the exposure times of the chosen frames (line 238) -/
def nonlinExps (E : List ℚ) : Option (List ℚ) := (nonlinSel E).map fun p => (E.take (p.2 + 1)).drop p.1

/-- the ids of the chosen frames -/
def nonlinIds (ids : List ℤ) (E : List ℚ) : Option (List ℤ) := (nonlinSel E).map fun p => (ids.take (p.2 + 1)).drop p.1

/-! ## C61 -/

/-- Specification: increasing exposure times, then one that repeats an earlier, smaller one. -/
def Series (t : List ℚ) : Prop := ∃ u v, t = u ++ [v] ∧ u.Pairwise (· < ·) ∧ v ∈ u ∧ ∀ w ∈ u.getLast?, v < w

theorem descents_sorted (E : List ℚ) : (descents E).Pairwise (· < ·) :=
  List.Pairwise.filter _ List.pairwise_lt_range

theorem mem_descents {E : List ℚ} {i : ℕ} : i ∈ descents E ↔ i < E.length - 1 ∧ E.getD (i + 1) 0 < E.getD i 0 := by
  simp [descents]

theorem sorted_get {D : List ℕ} (h : D.Pairwise (· < ·)) {i j : ℕ} (hij : i < j) (hj : j < D.length) : D.getD i 0 < D.getD j 0 := by
  rw [List.getD_eq_getElem?_getD, List.getD_eq_getElem?_getD, List.getElem?_eq_getElem hj,
    List.getElem?_eq_getElem (by omega)]
  exact List.pairwise_iff_getElem.1 h i j (by omega) hj hij

/-- Between two neighbouring entries nothing is a descent. -/
theorem no_descent {E : List ℚ} {k i : ℕ} (hk : k < (descents E).length) (h1 : segStart (descents E) k ≤ i)
    (h2 : i < (descents E).getD k 0) : i ∉ descents E := by
  intro hi
  obtain ⟨m, hm, he⟩ := List.getElem_of_mem hi
  have hget : (descents E).getD m 0 = i := by
    rw [List.getD_eq_getElem?_getD, List.getElem?_eq_getElem hm, he]; rfl
  rcases Nat.lt_trichotomy m k with h | h | h
  · cases k with
    | zero => omega
    | succ k =>
      simp only [segStart] at h1
      rcases Nat.lt_succ_iff_lt_or_eq.1 h with h | rfl
      · have := sorted_get (descents_sorted E) h (by omega)
        omega
      · omega
  · subst h; omega
  · have := sorted_get (descents_sorted E) h hm
    omega

theorem dedup_append_mem {u : List ℚ} {v : ℚ} (h : v ∈ u) : (u ++ [v]).dedup.length = u.dedup.length := by
  apply List.Perm.length_eq
  rw [List.perm_ext_iff_of_nodup (List.nodup_dedup _) (List.nodup_dedup _)]
  intro a
  simp only [List.mem_dedup, List.mem_append, List.mem_singleton]
  constructor
  · rintro (h1 | rfl)
    · exact h1
    · exact h
  · exact Or.inl

/-- A candidate accepted by the code is a series. -/
theorem good_series {E : List ℚ} {k : ℕ} (hk : k < (descents E).length) (hg : good (seg E (descents E) k) = true) :
    Series (seg E (descents E) k) := by
  have hd : (descents E).getD k 0 ∈ descents E := by
    rw [List.getD_eq_getElem?_getD, List.getElem?_eq_getElem hk]
    exact List.getElem_mem _
  obtain ⟨hlt, hdesc⟩ := mem_descents.1 hd
  set d := (descents E).getD k 0 with hdd
  set s := segStart (descents E) k with hss
  have hsd : s ≤ d := by
    rw [hss, hdd]
    cases k with
    | zero => simp [segStart]
    | succ k => exact sorted_get (descents_sorted E) (Nat.lt_succ_self k) hk
  set u := (E.take (d + 1)).drop s with hu
  have ht : seg E (descents E) k = u ++ [E.getD (d + 1) 0] := by
    unfold seg
    rw [← hdd, ← hss, List.take_add_one, List.drop_append_of_le_length (by rw [List.length_take]; omega)]
    congr 1
    rw [List.getD_eq_getElem?_getD, List.getElem?_eq_getElem (by omega)]
    simp
  rw [ht] at hg ⊢
  set v := E.getD (d + 1) 0 with hv
  simp only [good, List.getLast?_append, List.getLast?_singleton, Option.some_or, List.dropLast_concat, List.length_append,
    List.length_singleton, Nat.add_sub_cancel, decide_eq_true_eq] at hg
  obtain ⟨hmem, hlen⟩ := hg
  rw [dedup_append_mem hmem] at hlen
  have hnd : u.Nodup := by
    rw [← List.dedup_eq_self]
    exact (List.dedup_sublist u).eq_of_length hlen.symm
  have hul : u.length = d + 1 - s := by rw [hu, List.length_drop, List.length_take]; omega
  have hug : ∀ i (h : i < u.length), u[i] = E.getD (s + i) 0 := by
    intro i h
    rw [List.getD_eq_getElem?_getD, List.getElem?_eq_getElem (by omega)]
    simp [hu]
  have hmono : ∀ (n i : ℕ), s ≤ i → i + n ≤ d → E.getD i 0 ≤ E.getD (i + n) 0 := by
    intro n
    induction n with
    | zero => intro i _ _; exact le_refl _
    | succ n ih =>
      intro i h1 h2
      refine (ih i h1 (by omega)).trans ?_
      have := no_descent (E := E) hk (i := i + n) (by omega) (by omega)
      rw [mem_descents] at this
      have h3 : ¬ E.getD (i + n + 1) 0 < E.getD (i + n) 0 := fun h => this ⟨by omega, h⟩
      exact not_lt.1 h3
  refine ⟨u, v, rfl, ?_, hmem, ?_⟩
  · rw [List.pairwise_iff_getElem]
    intro i j hi hj hij
    have h1 : u[i] ≤ u[j] := by
      rw [hug i hi, hug j hj]
      have := hmono (j - i) (s + i) (by omega) (by omega)
      rwa [show s + i + (j - i) = s + j by omega] at this
    refine lt_of_le_of_ne h1 ?_
    have := List.pairwise_iff_getElem.1 hnd i j hi hj hij
    exact this
  · intro w hw
    rw [List.getLast?_eq_getElem?, List.getElem?_eq_getElem (by omega)] at hw
    cases hw
    rw [hug _ (by omega), show s + (u.length - 1) = d by omega]
    exact hdesc

/-- **C61** The frames marked NONLIN of one gain have increasing exposure times and end with one repeated time. No
accepted candidate is longer. -/
theorem C61_series {E t : List ℚ} (h : nonlinExps E = some t) :
    Series t ∧ ∃ k < (descents E).length, t = seg E (descents E) k ∧
      ∀ k' < (descents E).length, good (seg E (descents E) k') = true → (seg E (descents E) k').length ≤ t.length := by
  unfold nonlinExps at h
  obtain ⟨p, hp, rfl⟩ := Option.map_eq_some_iff.1 h
  unfold nonlinSel at hp
  split_ifs at hp with h3
  cases hk : argmax (lens E) with
  | none => rw [hk] at hp; cases hp
  | some k =>
    rw [hk] at hp
    dsimp only at hp
    split_ifs at hp with h0
    cases hp
    obtain ⟨m, hm, hmax, _⟩ := argmax_isFirstMax hk
    obtain ⟨hlt, he⟩ := List.getElem?_eq_some_iff.1 hm
    have hkl : k < (descents E).length := by simpa [lens] using hlt
    have hmv : m = if good (seg E (descents E) k) then ((seg E (descents E) k).length : ℤ) else -1 := by
      rw [← he]; simp [lens]
    have hm0 : 0 < m := by
      rw [List.getD_eq_getElem?_getD, hm, Option.getD_some] at h0; omega
    have hg : good (seg E (descents E) k) = true := by
      by_contra hng
      rw [if_neg hng] at hmv; omega
    rw [if_pos hg] at hmv
    refine ⟨good_series hkl hg, k, hkl, rfl, fun k' hk' hg' => ?_⟩
    have : ((seg E (descents E) k').length : ℤ) ≤ m := by
      apply hmax
      refine List.mem_map.2 ⟨k', List.mem_range.2 hk', ?_⟩
      rw [if_pos hg']
    rw [hmv] at this
    exact_mod_cast this

/-- **C61** A gain is skipped exactly if it has less than three frames or no accepted candidate. -/
theorem C61_skipped_iff (E : List ℚ) :
    nonlinExps E = none ↔ E.length < 3 ∨ ∀ k < (descents E).length, good (seg E (descents E) k) = false := by
  unfold nonlinExps
  rw [Option.map_eq_none_iff]
  unfold nonlinSel
  split_ifs with h3
  · simp [h3]
  · simp only [h3, false_or]
    cases hk : argmax (lens E) with
    | none =>
      rw [argmax_eq_none] at hk
      have : (descents E).length = 0 := by
        have := congrArg List.length hk
        simpa [lens] using this
      rw [this]; simp
    | some k =>
      dsimp only
      obtain ⟨m, hm, hmax, _⟩ := argmax_isFirstMax hk
      rw [List.getD_eq_getElem?_getD, hm, Option.getD_some]
      obtain ⟨hlt, he⟩ := List.getElem?_eq_some_iff.1 hm
      have hkl : k < (descents E).length := by simpa [lens] using hlt
      split_ifs with h0
      · simp only [true_iff]
        intro k' hk'
        by_contra hg
        rw [Bool.not_eq_false] at hg
        have : ((seg E (descents E) k').length : ℤ) ≤ m :=
          hmax _ (List.mem_map.2 ⟨k', List.mem_range.2 hk', by rw [if_pos hg]⟩)
        have h5 : (seg E (descents E) k').length = 0 := by omega
        rw [List.length_eq_zero_iff] at h5
        rw [h5] at hg; simp [good] at hg
      · simp only [false_iff]
        intro hall
        have := hall k hkl
        rw [← he] at h0
        simp [lens, this] at h0

/-- **C61 (false)** "Frames must be taken consecutively" is not checked: ids with gaps are marked. -/
theorem C61_violated : nonlinIds [1, 50, 700, 9000] [1, 2, 3, 2] = some [1, 50, 700, 9000] := by decide +kernel

/-- **C61 (false)** A frame of the same exposure time before a good series hides it. -/
theorem C61_hidden : nonlinExps [1, 1, 2, 3, 2] = none ∧ nonlinExps [1, 2, 3, 2] = some [1, 2, 3, 2] := by decide +kernel

/-! ## Non-vacuity -/

example : expRuns [1, 1, 2, 2, 1, 1] = [(2, 1), (2, 2), (2, 1)] := by decide +kernel
example : kgainSets [10, 11, 12, 13, 14, 15] [1, 1, 2, 2, 1, 1] = .ok (0, 2) := by decide +kernel
example : kgainSets [10, 11] [1, 2] = .error .valueError := by decide +kernel
example : nonlinExps [1, 2, 1, 1/2, 1, 2, 3, 1] = some [1/2, 1, 2, 3, 1] := by decide +kernel

end Corgi.Pupil

import Verif.Common.ArgMin
import Mathlib.Algebra.Order.Ring.Rat
import Mathlib.Data.List.Sort
import Mathlib.Data.List.Dedup
import Mathlib.Data.List.Perm.Subperm
import Mathlib.Data.List.Flatten
import Mathlib.Algebra.BigOperators.Group.List.Lemmas
import Mathlib.Tactic.Ring
import Mathlib.Tactic.Push

/-!
# `sort_pupilimg_frames`, mean frame part (sorting.py 50-90): model and C44

A frame is its id (from the file name), commanded gain and exposure time. Groups come in ascending order of exposure time
(`split_dataset`, see `Verif.Dataset.Split`).
-/

namespace Corgi.Pupil

structure Fr where
  id : ℤ
  gain : ℚ
  expt : ℚ
  deriving DecidableEq

/-! ## Model -/

/-- lines 70-75: the loop over neighbouring ids, `c` is the last entry of `count_cons` -/
def countLoop : List ℤ → ℤ → ℕ → List ℕ
  | [], _, c => [c]
  | y :: ys, x, c => if y - x = 1 then countLoop ys y (c + 1) else c :: countLoop ys y 1

/-- lines 68-75 -/
def countCons : List ℤ → List ℕ
  | [] => [1]
  | x :: xs => countLoop xs x 1

/-- lines 66-80: the ids of the mean frame -/
def meanIds (ids : List ℤ) : List ℤ :=
  let s := ids.insertionSort (· ≤ ·)
  let c := countCons s
  match argmax c with
  | none => []
  | some k =>
    let last := (c.take (k + 1)).sum
    let first := last - c.getD k 0
    (s.take last).drop first

/-- lines 54-55: the exposure times of the unity gain frames -/
def exptimes (fs : List Fr) : List ℚ := (fs.map Fr.expt).dedup.insertionSort (· ≤ ·)

def group (fs : List Fr) (t : ℚ) : List Fr := fs.filter fun f => f.expt = t

/-- lines 50-90; `none` is the IndexError of line 54 -/
def meanFrames (fs : List Fr) : Option (List Fr) :=
  let unity := fs.filter fun f => f.gain = 1
  let ts := exptimes unity
  match argmax (ts.map fun t => (group unity t).length) with
  | none => none
  | some k =>
    let g := group unity (ts.getD k 0)
    some (g.filter fun f => f.id ∈ meanIds (g.map Fr.id))

/-! ## Specification -/

/-- The unity gain frames with exposure time `t`. -/
def unityAt (fs : List Fr) (t : ℚ) : List Fr := fs.filter fun f => f.gain = 1 ∧ f.expt = t

/-- The ids `a, a+1, …, a+n-1` all occur. -/
def Run (ids : List ℤ) (a : ℤ) (n : ℕ) : Prop := ∀ i < n, a + (i : ℤ) ∈ ids

/-! ## Runs of consecutive ids -/

/-- The list cut where the ids jump. -/
def blocks : List ℤ → List (List ℤ)
  | [] => []
  | x :: xs => match blocks xs with
    | [] => [[x]]
    | b :: bs => if b.head? = some (x + 1) then (x :: b) :: bs else [x] :: b :: bs

theorem blocks_cons (x : ℤ) (xs : List ℤ) : ∃ b bs, blocks (x :: xs) = (x :: b) :: bs := by
  unfold blocks
  split
  · exact ⟨_, _, rfl⟩
  · split
    · exact ⟨_, _, rfl⟩
    · exact ⟨_, _, rfl⟩

theorem blocks_cons_cons (x y : ℤ) (ys b : List ℤ) (bs : List (List ℤ)) (h : blocks (y :: ys) = (y :: b) :: bs) :
    blocks (x :: y :: ys) = if y = x + 1 then (x :: y :: b) :: bs else [x] :: (y :: b) :: bs := by
  rw [blocks, h]
  simp only [List.head?_cons, Option.some.injEq]

theorem blocks_flatten (l : List ℤ) : (blocks l).flatten = l := by
  induction l with
  | nil => rfl
  | cons x xs ih =>
    cases xs with
    | nil => rfl
    | cons y ys =>
      obtain ⟨b, bs, h⟩ := blocks_cons y ys
      rw [h] at ih
      rw [blocks_cons_cons x y ys b bs h]
      split_ifs <;> simp_all

theorem countLoop_blocks (ys : List ℤ) (x : ℤ) (c : ℕ) {b : List ℤ} {bs : List (List ℤ)}
    (h : blocks (x :: ys) = (x :: b) :: bs) : countLoop ys x c = (c + b.length) :: bs.map List.length := by
  induction ys generalizing x c b bs with
  | nil => cases h; rfl
  | cons y ys ih =>
    obtain ⟨b', bs', h'⟩ := blocks_cons y ys
    rw [blocks_cons_cons x y ys b' bs' h'] at h
    unfold countLoop
    by_cases hy : y = x + 1
    · rw [if_pos hy] at h
      rw [if_pos (by omega), ih y (c + 1) h']
      cases h
      simp only [List.length_cons]
      congr 1; omega
    · rw [if_neg hy] at h
      rw [if_neg (by omega), ih y 1 h']
      cases h
      simp only [List.length_cons, List.map_cons, List.length_nil]
      congr 2; omega

theorem countCons_blocks {l : List ℤ} (hl : l ≠ []) : countCons l = (blocks l).map List.length := by
  cases l with
  | nil => exact absurd rfl hl
  | cons x xs =>
    obtain ⟨b, bs, h⟩ := blocks_cons x xs
    rw [countCons, countLoop_blocks xs x 1 h, h]
    simp only [List.map_cons, List.length_cons]
    congr 1; omega

theorem blocks_consec {l b : List ℤ} (hb : b ∈ blocks l) : ∃ a : ℤ, b = (List.range b.length).map fun i : ℕ => a + (i : ℤ) := by
  suffices H : ∀ l : List ℤ, ∀ b ∈ blocks l, ∃ a : ℤ, b.head? = some a ∧
      b = (List.range b.length).map fun i : ℕ => a + (i : ℤ) by
    obtain ⟨a, _, h⟩ := H l b hb
    exact ⟨a, h⟩
  intro l
  induction l with
  | nil => intro b hb; simp [blocks] at hb
  | cons x xs ih =>
    cases xs with
    | nil => intro b hb; simp [blocks] at hb; subst hb; exact ⟨x, rfl, by simp⟩
    | cons y ys =>
      obtain ⟨b', bs', h'⟩ := blocks_cons y ys
      rw [blocks_cons_cons x y ys b' bs' h']
      rw [h'] at ih
      split_ifs with hy
      · intro b hb
        rcases List.mem_cons.1 hb with rfl | hb
        · obtain ⟨a, ha, he⟩ := ih (y :: b') (by simp)
          simp only [List.head?_cons, Option.some.injEq] at ha
          refine ⟨x, rfl, ?_⟩
          rw [List.length_cons, List.range_succ_eq_map, List.map_cons, List.map_map]
          congr 1
          · simp
          · conv_lhs => rw [he]
            apply List.map_congr_left
            intro i _
            simp only [Function.comp_apply, Nat.succ_eq_add_one]
            push_cast
            omega
        · exact ih b (List.mem_cons_of_mem _ hb)
      · intro b hb
        rcases List.mem_cons.1 hb with rfl | hb
        · exact ⟨x, rfl, by simp⟩
        · exact ih b hb

/-- In an ascending list every run of ids lies in one block. -/
theorem run_in_block {l : List ℤ} (hs : l.Pairwise (· < ·)) {a : ℤ} {n : ℕ} (hn : 0 < n) (hr : Run l a n) :
    ∃ b ∈ blocks l, Run b a n ∧ (l.head? = some a → (blocks l).head? = some b) := by
  induction l generalizing a n with
  | nil => exact absurd (hr 0 hn) (by simp)
  | cons x xs ih =>
    obtain ⟨hx, hs'⟩ := List.pairwise_cons.1 hs
    cases xs with
    | nil => exact ⟨[x], by simp [blocks], hr, fun _ => by simp [blocks]⟩
    | cons y ys =>
      obtain ⟨b', bs', h'⟩ := blocks_cons y ys
      rw [blocks_cons_cons x y ys b' bs' h']
      rw [h'] at ih
      have h0 := hr 0 hn
      simp only [Nat.cast_zero, add_zero] at h0
      rcases List.mem_cons.1 h0 with rfl | ha
      · by_cases h1 : n = 1
        · subst h1
          split_ifs with hy
          · refine ⟨a :: y :: b', by simp, ?_, fun _ => by simp⟩
            intro i hi
            have : i = 0 := by omega
            subst this; simp
          · refine ⟨[a], by simp, ?_, fun _ => by simp⟩
            intro i hi
            have : i = 0 := by omega
            subst this; simp
        · have h2 := hr 1 (by omega)
          have hy : y = a + 1 := by
            rcases List.mem_cons.1 h2 with h | h
            · push_cast at h; omega
            · have e1 := hx y (by simp)
              rcases List.mem_cons.1 h with h | h
              · push_cast at h; omega
              · have := (List.pairwise_cons.1 hs').1 _ h
                push_cast at this; omega
          rw [if_pos hy]
          have hr' : Run (y :: ys) (a + 1) (n - 1) := by
            intro i hi
            have h3 := hr (i + 1) (by omega)
            push_cast at h3
            rcases List.mem_cons.1 h3 with h | h
            · omega
            · rwa [show a + 1 + (i : ℤ) = a + ((i : ℤ) + 1) by ring]
          obtain ⟨b, hb, hrb, hhd⟩ := ih hs' (by omega) hr'
          have hbe := hhd (by simp [hy])
          simp only [List.head?_cons, Option.some.injEq] at hbe
          subst hbe
          refine ⟨a :: y :: b', by simp, ?_, fun _ => by simp⟩
          intro i hi
          cases i with
          | zero => simp
          | succ j =>
            have := hrb j (by omega)
            push_cast
            rw [show a + ((j : ℤ) + 1) = a + 1 + (j : ℤ) by ring]
            exact List.mem_cons_of_mem _ this
      · have hr' : Run (y :: ys) a n := by
          intro i hi
          rcases List.mem_cons.1 (hr i hi) with h | h
          · have := hx a ha; omega
          · exact h
        obtain ⟨b, hb, hrb, hhd⟩ := ih hs' hn hr'
        have hne : ¬ (x = a) := by have := hx a ha; omega
        split_ifs with hy
        · rcases List.mem_cons.1 hb with rfl | hb
          · exact ⟨x :: y :: b', by simp, fun i hi => List.mem_cons_of_mem _ (hrb i hi), by simp [hne]⟩
          · exact ⟨b, by simp [hb], hrb, by simp [hne]⟩
        · exact ⟨b, by simp only [List.mem_cons] at hb ⊢; tauto, hrb, by simp [hne]⟩

theorem run_length {b : List ℤ} {a : ℤ} {n : ℕ} (hr : Run b a n) : n ≤ b.length := by
  have hnd : ((List.range n).map fun i : ℕ => a + (i : ℤ)).Nodup := by
    apply List.Nodup.map _ List.nodup_range
    intro i j h
    simpa using h
  have := (hnd.subperm (l₂ := b) (by
    intro z hz
    obtain ⟨i, hi, rfl⟩ := List.mem_map.1 hz
    exact hr i (List.mem_range.1 hi))).length_le
  simpa using this

/-- The ids picked are one block, the longest. -/
theorem meanIds_block {ids : List ℤ} (hn : ids ≠ []) :
    ∃ b ∈ blocks (ids.insertionSort (· ≤ ·)), meanIds ids = b ∧
      ∀ b' ∈ blocks (ids.insertionSort (· ≤ ·)), b'.length ≤ b.length := by
  set s := ids.insertionSort (· ≤ ·) with hs
  have hsn : s ≠ [] := by
    intro h
    have := (List.perm_insertionSort (· ≤ ·) ids).length_eq
    rw [← hs, h] at this
    exact hn (List.length_eq_zero_iff.1 this.symm)
  unfold meanIds
  simp only [← hs]
  rw [countCons_blocks hsn]
  cases hk : argmax ((blocks s).map List.length) with
  | none =>
    rw [argmax_eq_none, List.map_eq_nil_iff] at hk
    have := blocks_flatten s
    rw [hk] at this
    exact absurd this.symm hsn
  | some k =>
    dsimp only
    obtain ⟨m, hm, hmax, _⟩ := argmax_isFirstMax hk
    obtain ⟨hlt, he⟩ := List.getElem?_eq_some_iff.1 hm
    rw [List.length_map] at hlt
    rw [List.getElem_map] at he
    refine ⟨(blocks s)[k], List.getElem_mem _, ?_, fun b' hb' => ?_⟩
    · have hd := List.drop_take_succ_flatten_eq_getElem (blocks s) k hlt
      rw [blocks_flatten] at hd
      rw [← hd]
      congr 1
      rw [List.getD_eq_getElem?_getD, hm, Option.getD_some, List.take_add_one, List.sum_append, hm]
      simp
    · rw [he]; exact hmax _ (List.mem_map_of_mem hb')

theorem meanIds_spec {ids : List ℤ} (hn : ids ≠ []) (hnd : ids.Nodup) :
    ∃ (a : ℤ) (n : ℕ), 0 < n ∧ meanIds ids = (List.range n).map (fun i : ℕ => a + (i : ℤ)) ∧ Run ids a n ∧
      ∀ a' n', Run ids a' n' → n' ≤ n := by
  obtain ⟨b, hb, he, hmax⟩ := meanIds_block hn
  obtain ⟨a, ha⟩ := blocks_consec hb
  have hperm := List.perm_insertionSort (· ≤ ·) ids
  have hsort : (ids.insertionSort (· ≤ ·)).Pairwise (· < ·) := by
    have h1 : (ids.insertionSort (· ≤ ·)).Pairwise (· ≤ ·) := List.pairwise_insertionSort (· ≤ ·) ids
    have h2 : (ids.insertionSort (· ≤ ·)).Pairwise (· ≠ ·) := hperm.nodup_iff.2 hnd
    exact (h1.and h2).imp fun h => lt_of_le_of_ne h.1 h.2
  have hmaxr : ∀ a' n', Run ids a' n' → n' ≤ b.length := by
    intro a' n' hr
    rcases Nat.eq_zero_or_pos n' with h0 | h0
    · omega
    · have hr' : Run (ids.insertionSort (· ≤ ·)) a' n' := fun i hi => hperm.mem_iff.2 (hr i hi)
      obtain ⟨b', hb', hrb, _⟩ := run_in_block hsort h0 hr'
      exact (run_length hrb).trans (hmax b' hb')
  refine ⟨a, b.length, ?_, he.trans ha, ?_, hmaxr⟩
  · obtain ⟨x, hx⟩ := List.exists_mem_of_ne_nil _ hn
    exact hmaxr x 1 (fun i hi => by have : i = 0 := by omega
                                    subst this; simpa using hx)
  · intro i hi
    apply hperm.mem_iff.1
    have hm : a + (i : ℤ) ∈ b := by
      rw [ha]; exact List.mem_map.2 ⟨i, List.mem_range.2 hi, rfl⟩
    have := blocks_flatten (ids.insertionSort (· ≤ ·))
    rw [← this]
    exact List.mem_flatten.2 ⟨b, hb, hm⟩

/-! ## C44 -/

theorem group_unity (fs : List Fr) (t : ℚ) : group (fs.filter fun f => f.gain = 1) t = unityAt fs t := by
  unfold group unityAt
  rw [List.filter_filter]
  congr 1; funext f
  simp [and_comm]

/-- **C44** The mean frame frames are the unity gain frames of one exposure time, which no other exposure time exceeds in
number of frames, with ids in an unbroken series that is the longest one among the ids of that exposure time. Every id
of the series occurs. Ids within the group are assumed distinct. -/
theorem C44_meanFrames {fs r : List Fr} (h : meanFrames fs = some r)
    (hnd : ∀ t, ((unityAt fs t).map Fr.id).Nodup) :
    ∃ (t : ℚ) (a : ℤ) (n : ℕ), (∀ t', (unityAt fs t').length ≤ (unityAt fs t).length) ∧
      r = (unityAt fs t).filter (fun f => a ≤ f.id ∧ f.id < a + n) ∧
      Run ((unityAt fs t).map Fr.id) a n ∧ 0 < n ∧ ∀ a' n', Run ((unityAt fs t).map Fr.id) a' n' → n' ≤ n := by
  unfold meanFrames at h
  dsimp only at h
  set u := fs.filter fun f => f.gain = 1 with hu
  cases hk : argmax ((exptimes u).map fun t => (group u t).length) with
  | none => rw [hk] at h; cases h
  | some k =>
    rw [hk] at h
    obtain ⟨m, hm, hmax, _⟩ := argmax_isFirstMax hk
    obtain ⟨hlt, he⟩ := List.getElem?_eq_some_iff.1 hm
    rw [List.length_map] at hlt
    rw [List.getElem_map] at he
    have hget : (exptimes u).getD k 0 = (exptimes u)[k] := by
      rw [List.getD_eq_getElem?_getD, List.getElem?_eq_getElem hlt, Option.getD_some]
    have hmem : ∀ t, t ∈ exptimes u ↔ ∃ f ∈ u, f.expt = t := by
      intro t
      unfold exptimes
      rw [(List.perm_insertionSort (· ≤ ·) _).mem_iff, List.mem_dedup, List.mem_map]
    set t := (exptimes u)[k] with ht
    dsimp only at h
    rw [hget, group_unity] at h
    have hne : (unityAt fs t).map Fr.id ≠ [] := by
      obtain ⟨f, hf, hft⟩ := (hmem t).1 (List.getElem_mem _)
      intro hnil
      rw [List.map_eq_nil_iff, ← group_unity] at hnil
      have : f ∈ group u t := List.mem_filter.2 ⟨hf, by simpa using hft⟩
      rw [hnil] at this
      cases this
    obtain ⟨a, n, hn0, hids, hrun, hmx⟩ := meanIds_spec hne (hnd t)
    refine ⟨t, a, n, fun t' => ?_, ?_, hrun, hn0, hmx⟩
    · rw [← group_unity fs t', ← group_unity fs t]
      by_cases ht' : t' ∈ exptimes u
      · rw [← hu, he]; exact hmax _ (List.mem_map_of_mem ht')
      · have : group u t' = [] := by
          rw [List.eq_nil_iff_forall_not_mem]
          intro f hf
          obtain ⟨h1, h2⟩ := List.mem_filter.1 hf
          exact ht' ((hmem t').2 ⟨f, h1, by simpa using h2⟩)
        rw [← hu, this]; simp
    · simp only [Option.some.injEq] at h
      rw [← h, hids]
      congr 1; funext f
      rw [decide_eq_decide]
      constructor
      · intro hf
        obtain ⟨i, hi, e⟩ := List.mem_map.1 hf
        have := List.mem_range.1 hi
        omega
      · intro hf
        refine List.mem_map.2 ⟨(f.id - a).toNat, List.mem_range.2 (by omega), by omega⟩

/-- **C44** It fails exactly if there is no frame with unity gain. -/
theorem C44_fails_iff (fs : List Fr) : meanFrames fs = none ↔ ∀ f ∈ fs, f.gain ≠ 1 := by
  unfold meanFrames
  dsimp only
  set u := fs.filter fun f => f.gain = 1 with hu
  have h1 : argmax ((exptimes u).map fun t => (group u t).length) = none ↔ u = [] := by
    rw [argmax_eq_none, List.map_eq_nil_iff]
    unfold exptimes
    constructor
    · intro h
      have := (List.perm_insertionSort (· ≤ ·) (u.map Fr.expt).dedup).length_eq
      rw [h] at this
      have h2 := List.length_eq_zero_iff.1 this.symm
      cases hu' : u with
      | nil => rfl
      | cons f l =>
        have : f.expt ∈ (u.map Fr.expt).dedup := by rw [List.mem_dedup, hu']; simp
        rw [h2] at this; cases this
    · intro h; rw [h]; rfl
  have h2 : u = [] ↔ ∀ f ∈ fs, f.gain ≠ 1 := by
    rw [hu, List.filter_eq_nil_iff]; simp
  rw [← h2, ← h1]
  cases argmax ((exptimes u).map fun t => (group u t).length) <;> simp

/-- With an id that occurs twice in the group (two visits) a series is cut there. -/
theorem C44_duplicates : meanIds [1, 2, 2, 3] = [1, 2] ∧ Run [1, 2, 2, 3] 1 3 := by
  refine ⟨by decide, ?_⟩
  intro i hi
  have : i = 0 ∨ i = 1 ∨ i = 2 := by omega
  rcases this with rfl | rfl | rfl <;> simp

/-! ## Non-vacuity -/

example : meanIds [7, 3, 9, 8, 2, 12] = [7, 8, 9] := by decide

example : meanFrames [⟨3, 1, 5⟩, ⟨1, 1, 5⟩, ⟨2, 1, 5⟩, ⟨6, 1, 5⟩, ⟨4, 2, 5⟩, ⟨5, 1, 7⟩] =
    some [⟨3, 1, 5⟩, ⟨1, 1, 5⟩, ⟨2, 1, 5⟩] := by decide +kernel

end Corgi.Pupil

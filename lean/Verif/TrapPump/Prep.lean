import Mathlib.Data.List.Sort
import Mathlib.Data.List.Dedup
import Mathlib.Data.List.Nodup
import Mathlib.Algebra.Order.Ring.Rat
import Mathlib.Algebra.Order.Field.Basic
import Mathlib.Algebra.Order.BigOperators.Group.List
import Mathlib.Tactic.Linarith
import Mathlib.Tactic.FieldSimp
import Mathlib.Tactic.NormNum
import Mathlib.Tactic.Ring

/-!
# Schemes and units of trap-pumped frames (pump_trap_calibration.py 2287-2474, 2678-2682): model and C121, C122

The frames of one temperature. `split_dataset` gives one group for each combination of the four cards; their order does
not matter for the theorems, so `keys` is any list of the combinations that occur.
-/

namespace Corgi.TrapPrep

/-- TPSCHEM1 to TPSCHEM4: the number of pumps of the scheme of the frame, zero for the others. -/
structure Key where
  s1 : ℕ
  s2 : ℕ
  s3 : ℕ
  s4 : ℕ
  deriving DecidableEq, Repr

def Key.list (k : Key) : List ℕ := [k.s1, k.s2, k.s3, k.s4]

variable {α : Type} (key : α → Key)

inductive Err | scheme | ragged | noOne
  deriving DecidableEq, Repr

/-- `np.where(this_num_pumps != 0)[0]`, line 2313 -/
def nonzero (k : Key) : List ℕ := (List.range 4).filter fun i => decide (k.list[i]?.getD 0 ≠ 0)

/-- Line 2313: `int` of an array works for exactly one element. -/
def scheme (k : Key) : Option ℕ := match nonzero k with
  | [i] => some (i + 1)
  | _ => none

/-- Line 2317. -/
def pumps (k : Key) (s : ℕ) : ℕ := k.list[s - 1]?.getD 0

/-- One group: scheme, number of pumps, frames. -/
structure Group (α : Type) where
  s : ℕ
  p : ℕ
  fs : List α

def group (frames : List α) (k : Key) : Option (Group α) :=
  (scheme k).map fun s => ⟨s, pumps k s, frames.filter fun f => decide (key f = k)⟩

/-- Line 2322: `np.array` of datasets of different lengths raises. -/
def ragged (gs : List (Group α)) : Bool :=
  gs.any fun g => gs.any fun g' => decide (g.fs.length ≠ g'.fs.length)

/-- Lines 2320-2323. -/
def sorted (gs : List (Group α)) : List (Group α) := gs.insertionSort fun a b => a.s ≤ b.s

/-- Lines 2330, 2344-2352: for every scheme of the list the first group of the scheme is taken. -/
def runs (gs : List (Group α)) : List (Group α) :=
  gs.filterMap fun g => gs.find? fun g' => decide (g'.s = g.s)

/-- Lines 2301-2352. -/
def prepare (keys : List Key) (frames : List α) : Except Err (List (Group α)) :=
  match keys.mapM (group key frames) with
  | none => .error .scheme
  | some gs =>
    if ragged gs then .error .ragged
    else if gs.any fun g => decide (g.s = 1) then .ok (runs (sorted gs))
    else .error .noOne

/-- `keys` are the combinations that occur. -/
def Keys (keys : List Key) (frames : List α) : Prop := keys.Nodup ∧ ∀ k, k ∈ keys ↔ ∃ f ∈ frames, key f = k

/-! ## Specification -/

/-- The frame belongs to scheme `s` alone, with `p` pumps. -/
def Of (k : Key) (s p : ℕ) : Prop :=
  0 < p ∧ ((s = 1 ∧ k = ⟨p, 0, 0, 0⟩) ∨ (s = 2 ∧ k = ⟨0, p, 0, 0⟩) ∨ (s = 3 ∧ k = ⟨0, 0, p, 0⟩) ∨ (s = 4 ∧ k = ⟨0, 0, 0, p⟩))

theorem scheme_of {k : Key} {s p : ℕ} (h : Of k s p) : scheme k = some s ∧ pumps k s = p := by
  obtain ⟨hp, ⟨rfl, rfl⟩ | ⟨rfl, rfl⟩ | ⟨rfl, rfl⟩ | ⟨rfl, rfl⟩⟩ := h <;>
    simp [scheme, nonzero, Key.list, pumps, List.range_succ, hp.ne']

/-- A scheme is found exactly if one of the four numbers is not zero. -/
theorem C121_scheme (k : Key) (s : ℕ) : scheme k = some s ↔ ∃ p, Of k s p := by
  constructor
  · intro h
    obtain ⟨a, b, c, d⟩ := k
    unfold scheme nonzero Key.list at h
    rcases Nat.eq_zero_or_pos a with rfl | ha <;> rcases Nat.eq_zero_or_pos b with rfl | hb <;>
      rcases Nat.eq_zero_or_pos c with rfl | hc <;> rcases Nat.eq_zero_or_pos d with rfl | hd <;>
      simp_all [List.range_succ, Nat.pos_iff_ne_zero, Of]
  · rintro ⟨p, h⟩
    exact (scheme_of h).1

theorem group_eq {frames : List α} {k : Key} {g : Group α} (h : group key frames k = some g) :
    Of k g.s g.p ∧ g.fs = frames.filter fun f => decide (key f = k) := by
  unfold group at h
  cases hs : scheme k with
  | none => rw [hs] at h; cases h
  | some s =>
    rw [hs] at h
    have h' := Option.some.inj h
    subst h'
    obtain ⟨p, hp⟩ := (C121_scheme k s).1 hs
    refine ⟨?_, rfl⟩
    have e := (scheme_of hp).2
    subst e
    exact hp

theorem mapM_spec {keys : List Key} {frames : List α} {gs : List (Group α)} (h : keys.mapM (group key frames) = some gs) :
    List.Forall₂ (fun k g => group key frames k = some g) keys gs := by
  induction keys generalizing gs with
  | nil => cases h; exact .nil
  | cons k ks ih =>
    rw [List.mapM_cons] at h
    cases hk : group key frames k with
    | none => rw [hk] at h; cases h
    | some g =>
      rw [hk] at h
      cases hl : List.mapM (group key frames) ks with
      | none => rw [hl] at h; cases h
      | some gs' => rw [hl] at h; cases h; exact .cons hk (ih hl)

theorem mapM_none {keys : List Key} {frames : List α} :
    keys.mapM (group key frames) = none ↔ ∃ k ∈ keys, scheme k = none := by
  induction keys with
  | nil => simp
  | cons k ks ih =>
    rw [List.mapM_cons]
    cases hs : scheme k with
    | none =>
      have : group key frames k = none := by unfold group; rw [hs]; rfl
      rw [this]
      constructor
      · intro _; exact ⟨k, List.mem_cons_self, hs⟩
      · intro _; rfl
    | some s =>
      obtain ⟨g, hg⟩ : ∃ g, group key frames k = some g := by unfold group; rw [hs]; exact ⟨_, rfl⟩
      rw [hg]
      cases hl : List.mapM (group key frames) ks with
      | none =>
        rw [hl] at ih
        obtain ⟨k', hk', hn⟩ := ih.1 rfl
        constructor
        · intro _; exact ⟨k', List.mem_cons_of_mem _ hk', hn⟩
        · intro _; rfl
      | some gs =>
        rw [hl] at ih
        constructor
        · intro h; cases h
        · rintro ⟨k', hk', hn⟩
          rcases List.mem_cons.1 hk' with rfl | hk'
          · rw [hs] at hn; cases hn
          · exact absurd (ih.2 ⟨k', hk', hn⟩) (by simp)

/-- The frames are accepted exactly if each belongs to one scheme, all combinations have the same number of frames, and there
are frames of scheme 1. -/
theorem C121_accepted (keys : List Key) (frames : List α) (hk : Keys key keys frames) :
    (∃ r, prepare key keys frames = .ok r) ↔
      (∀ f ∈ frames, ∃ s p, Of (key f) s p) ∧
      (∀ f ∈ frames, ∀ f' ∈ frames, (frames.filter fun x => decide (key x = key f)).length =
        (frames.filter fun x => decide (key x = key f')).length) ∧
      ∃ f ∈ frames, ∃ p, Of (key f) 1 p := by
  unfold prepare
  cases hm : keys.mapM (group key frames) with
  | none =>
    constructor
    · rintro ⟨r, hr⟩; cases hr
    · rintro ⟨h1, -, -⟩
      obtain ⟨k, hkm, hn⟩ := (mapM_none key).1 hm
      obtain ⟨f, hf, rfl⟩ := (hk.2 k).1 hkm
      obtain ⟨s, p, ho⟩ := h1 f hf
      rw [(scheme_of ho).1] at hn
      cases hn
  | some gs =>
    have hF := mapM_spec key hm
    have toG : ∀ k ∈ keys, ∃ g ∈ gs, group key frames k = some g := by
      intro k hkm
      clear hm hk
      induction hF with
      | nil => cases hkm
      | cons h _ ih =>
        rcases List.mem_cons.1 hkm with rfl | hkm
        · exact ⟨_, List.mem_cons_self, h⟩
        · obtain ⟨g, hg, h⟩ := ih hkm
          exact ⟨g, List.mem_cons_of_mem _ hg, h⟩
    have toK : ∀ g ∈ gs, ∃ k ∈ keys, group key frames k = some g := by
      intro g hg
      clear hm hk toG
      induction hF with
      | nil => cases hg
      | cons h _ ih =>
        rcases List.mem_cons.1 hg with rfl | hg
        · exact ⟨_, List.mem_cons_self, h⟩
        · obtain ⟨k, hk, h⟩ := ih hg
          exact ⟨k, List.mem_cons_of_mem _ hk, h⟩
    dsimp only
    have h1 : ∀ f ∈ frames, ∃ s p, Of (key f) s p := by
      intro f hf
      obtain ⟨g, -, hg⟩ := toG (key f) ((hk.2 _).2 ⟨f, hf, rfl⟩)
      exact ⟨_, _, (group_eq key hg).1⟩
    have hr : ragged gs = false ↔ ∀ f ∈ frames, ∀ f' ∈ frames, (frames.filter fun x => decide (key x = key f)).length =
        (frames.filter fun x => decide (key x = key f')).length := by
      constructor
      · intro hr f hf f' hf'
        obtain ⟨g, hg, e⟩ := toG (key f) ((hk.2 _).2 ⟨f, hf, rfl⟩)
        obtain ⟨g', hg', e'⟩ := toG (key f') ((hk.2 _).2 ⟨f', hf', rfl⟩)
        unfold ragged at hr
        rw [List.any_eq_false] at hr
        have := hr g hg
        simp only [List.any_eq_true, not_exists, not_and, decide_eq_true_eq, not_not] at this
        rw [← (group_eq key e).2, ← (group_eq key e').2]
        exact this g' hg'
      · intro h
        unfold ragged
        rw [List.any_eq_false]
        intro g hg
        simp only [List.any_eq_true, not_exists, not_and, decide_eq_true_eq, not_not]
        intro g' hg'
        obtain ⟨k, hkm, e⟩ := toK g hg
        obtain ⟨k', hkm', e'⟩ := toK g' hg'
        obtain ⟨f, hf, rfl⟩ := (hk.2 k).1 hkm
        obtain ⟨f', hf', rfl⟩ := (hk.2 k').1 hkm'
        rw [(group_eq key e).2, (group_eq key e').2]
        exact h f hf f' hf'
    have ho : (gs.any fun g => decide (g.s = 1)) = true ↔ ∃ f ∈ frames, ∃ p, Of (key f) 1 p := by
      rw [List.any_eq_true]
      constructor
      · rintro ⟨g, hg, hs⟩
        obtain ⟨k, hkm, e⟩ := toK g hg
        obtain ⟨f, hf, rfl⟩ := (hk.2 k).1 hkm
        have := (group_eq key e).1
        rw [of_decide_eq_true hs] at this
        exact ⟨f, hf, _, this⟩
      · rintro ⟨f, hf, p, hp⟩
        obtain ⟨g, hg, e⟩ := toG (key f) ((hk.2 _).2 ⟨f, hf, rfl⟩)
        refine ⟨g, hg, ?_⟩
        have h2 := (scheme_of (group_eq key e).1).1
        rw [(scheme_of hp).1] at h2
        simpa using (Option.some.inj h2).symm
    constructor
    · rintro ⟨r, h⟩
      split at h
      · cases h
      · rename_i hnr
        split at h
        · rename_i hone
          exact ⟨h1, hr.1 (by simpa using hnr), ho.1 hone⟩
        · cases h
    · rintro ⟨-, h2, h3⟩
      rw [hr.2 h2]
      simp only [Bool.false_eq_true, if_false]
      rw [if_pos (ho.2 h3)]
      exact ⟨_, rfl⟩

theorem runs_eq (gs : List (Group α)) (h : (gs.map Group.s).Nodup) : runs gs = gs := by
  have key : ∀ l : List (Group α), l.Sublist gs → l.filterMap (fun g => gs.find? fun g' => decide (g'.s = g.s)) = l := by
    intro l
    induction l with
    | nil => intro _; rfl
    | cons g l ih =>
      intro hl
      have hg : g ∈ gs := hl.subset List.mem_cons_self
      have hfind : gs.find? (fun g' => decide (g'.s = g.s)) = some g := by
        clear ih hl
        induction gs with
        | nil => cases hg
        | cons a gs ih =>
          rw [List.map_cons, List.nodup_cons] at h
          rw [List.find?_cons]
          rcases List.mem_cons.1 hg with rfl | hg
          · simp
          · have : a.s ≠ g.s := fun e => h.1 (e ▸ List.mem_map_of_mem hg)
            simp only [this, decide_false]
            exact ih h.2 hg
      rw [List.filterMap_cons_some (f := fun g : Group α => gs.find? fun g' => decide (g'.s = g.s)) hfind, ih ((List.sublist_cons_self _ _).trans hl)]
  exact key gs (List.Sublist.refl _)

theorem sorted_perm (gs : List (Group α)) : (sorted gs).Perm gs := List.perm_insertionSort _ _

theorem sorted_s (gs : List (Group α)) : ((sorted gs).map Group.s).Pairwise (· ≤ ·) := by
  rw [List.pairwise_map]
  unfold sorted
  have : IsTrans (Group α) fun a b => a.s ≤ b.s := ⟨fun _ _ _ h h' => le_trans h h'⟩
  have : Std.Total fun a b : Group α => a.s ≤ b.s := ⟨fun a b => le_total a.s b.s⟩
  exact List.pairwise_insertionSort _ _

theorem of_unique {k : Key} {s s' p p' : ℕ} (h : Of k s p) (h' : Of k s' p') : s = s' ∧ p = p' := by
  have h1 := (scheme_of h).1.symm.trans (scheme_of h').1
  have h2 := Option.some.inj h1
  subst h2
  exact ⟨rfl, (scheme_of h).2.symm.trans (scheme_of h').2⟩

theorem of_inj {k k' : Key} {s p : ℕ} (h : Of k s p) (h' : Of k' s p) : k = k' := by
  obtain ⟨-, ⟨rfl, rfl⟩ | ⟨rfl, rfl⟩ | ⟨rfl, rfl⟩ | ⟨rfl, rfl⟩⟩ := h <;>
    obtain ⟨-, ⟨h1, rfl⟩ | ⟨h1, rfl⟩ | ⟨h1, rfl⟩ | ⟨h1, rfl⟩⟩ := h' <;> first | rfl | omega

/-- What is known of the groups of accepted frames. -/
theorem prepare_spec {keys : List Key} {frames : List α} {r : List (Group α)}
    (h : prepare key keys frames = .ok r) : ∃ gs, r = runs (sorted gs) ∧
      List.Forall₂ (fun k g => Of k g.s g.p ∧ ∀ f, f ∈ g.fs ↔ f ∈ frames ∧ key f = k) keys gs ∧
      (∀ k ∈ keys, ∃ g ∈ gs, Of k g.s g.p ∧ ∀ f, f ∈ g.fs ↔ f ∈ frames ∧ key f = k) ∧
      (∀ g ∈ gs, ∃ k ∈ keys, Of k g.s g.p ∧ ∀ f, f ∈ g.fs ↔ f ∈ frames ∧ key f = k) := by
  unfold prepare at h
  cases hm : keys.mapM (group key frames) with
  | none => rw [hm] at h; cases h
  | some gs =>
    rw [hm] at h
    dsimp only at h
    have hF : List.Forall₂ (fun k g => Of k g.s g.p ∧ ∀ f, f ∈ g.fs ↔ f ∈ frames ∧ key f = k) keys gs := by
      refine (mapM_spec key hm).imp fun k g hg => ⟨(group_eq key hg).1, fun f => ?_⟩
      rw [(group_eq key hg).2, List.mem_filter, decide_eq_true_iff]
    refine ⟨gs, ?_, hF, ?_, ?_⟩
    · split at h
      · cases h
      · split at h
        · cases h; rfl
        · cases h
    · intro k hkm
      clear h hm
      induction hF with
      | nil => cases hkm
      | cons h _ ih =>
        rcases List.mem_cons.1 hkm with rfl | hkm
        · exact ⟨_, List.mem_cons_self, h⟩
        · obtain ⟨g, hg, h⟩ := ih hkm
          exact ⟨g, List.mem_cons_of_mem _ hg, h⟩
    · intro g hg
      clear h hm
      induction hF with
      | nil => cases hg
      | cons h _ ih =>
        rcases List.mem_cons.1 hg with rfl | hg
        · exact ⟨_, List.mem_cons_self, h⟩
        · obtain ⟨k, hk, h⟩ := ih hg
          exact ⟨k, List.mem_cons_of_mem _ hk, h⟩

/-- Without two numbers of pumps for one scheme, every scheme is run once, in ascending order, with its number of pumps and
exactly its frames. -/
theorem C121_used_partial (keys : List Key) (frames : List α) (hk : Keys key keys frames)
    (hu : ∀ f ∈ frames, ∀ f' ∈ frames, ∀ s p p', Of (key f) s p → Of (key f') s p' → p = p')
    (r : List (Group α)) (h : prepare key keys frames = .ok r) :
    (r.map Group.s).Pairwise (· < ·) ∧ (∀ f ∈ frames, ∃ g ∈ r, f ∈ g.fs) ∧
    ∀ g ∈ r, ∀ f, f ∈ g.fs ↔ f ∈ frames ∧ Of (key f) g.s g.p := by
  obtain ⟨gs, hr, hF, toG, toK⟩ := prepare_spec key h
  have hnd : (gs.map Group.s).Nodup := by
    have hk1 := hk.1
    have hsub : ∀ k ∈ keys, ∃ f ∈ frames, key f = k := fun k hkm => (hk.2 k).1 hkm
    clear hr toG toK h hk
    induction hF with
    | nil => exact List.nodup_nil
    | @cons k g ks gs' hkg hrest ih =>
      rw [List.nodup_cons] at hk1
      rw [List.map_cons, List.nodup_cons]
      refine ⟨?_, ih hk1.2 fun k hkm => hsub k (List.mem_cons_of_mem _ hkm)⟩
      intro hmem
      obtain ⟨g', hg', hs⟩ := List.mem_map.1 hmem
      obtain ⟨k', hk', hkg'⟩ : ∃ k' ∈ ks, Of k' g'.s g'.p := by
        clear ih hk1 hsub hmem
        induction hrest with
        | nil => cases hg'
        | cons h _ ih =>
          rcases List.mem_cons.1 hg' with rfl | hg'
          · exact ⟨_, List.mem_cons_self, h.1⟩
          · obtain ⟨k, hk, h⟩ := ih hg'
            exact ⟨k, List.mem_cons_of_mem _ hk, h⟩
      obtain ⟨f, hf, rfl⟩ := hsub k List.mem_cons_self
      obtain ⟨f', hf', rfl⟩ := hsub k' (List.mem_cons_of_mem _ hk')
      rw [hs] at hkg'
      have := hu f hf f' hf' _ _ _ hkg.1 hkg'
      rw [← this] at hkg'
      exact hk1.1 (of_inj hkg.1 hkg' ▸ hk')
  have hnd' : ((sorted gs).map Group.s).Nodup := (((sorted_perm gs).map Group.s).nodup_iff).2 hnd
  rw [runs_eq _ hnd'] at hr
  subst hr
  refine ⟨?_, ?_, ?_⟩
  · exact (sorted_s gs).imp₂ (fun a b h h' => lt_of_le_of_ne h h') hnd'
  · intro f hf
    obtain ⟨g, hg, -, h'⟩ := toG (key f) ((hk.2 _).2 ⟨f, hf, rfl⟩)
    exact ⟨g, (sorted_perm gs).mem_iff.2 hg, (h' f).2 ⟨hf, rfl⟩⟩
  · intro g hg f
    obtain ⟨k, -, ho, h'⟩ := toK g ((sorted_perm gs).mem_iff.1 hg)
    rw [h' f]
    constructor
    · rintro ⟨hf, rfl⟩; exact ⟨hf, ho⟩
    · rintro ⟨hf, ho'⟩; exact ⟨hf, of_inj ho' ho⟩

/-- With two numbers of pumps for one scheme, frames are left out without a message. -/
theorem C121_violated_pumps (keys : List Key) (frames : List α) (r : List (Group α))
    (h : prepare key keys frames = .ok r) (f f' : α) (hf : f ∈ frames) (hf' : f' ∈ frames) (s p p' : ℕ)
    (ho : Of (key f) s p) (ho' : Of (key f') s p') (hp : p ≠ p') :
    ∃ x ∈ frames, ∀ g ∈ r, x ∉ g.fs := by
  obtain ⟨gs, hr, hF, toG, toK⟩ := prepare_spec key h
  -- all runs of a scheme are the same group
  have hsame : ∀ g ∈ r, ∀ g' ∈ r, g.s = g'.s → g = g' := by
    intro g hg g' hg' hs
    rw [hr] at hg hg'
    unfold runs at hg hg'
    obtain ⟨a, -, ha⟩ := List.mem_filterMap.1 hg
    obtain ⟨b, -, hb⟩ := List.mem_filterMap.1 hg'
    have h1 : g.s = a.s := by simpa using List.find?_some ha
    have h2 : g'.s = b.s := by simpa using List.find?_some hb
    rw [← h1] at ha
    rw [← h2, ← hs] at hb
    exact Option.some.inj (ha.symm.trans hb)
  have hin : ∀ g ∈ r, g ∈ gs := by
    intro g hg
    rw [hr] at hg
    unfold runs at hg
    obtain ⟨a, -, ha⟩ := List.mem_filterMap.1 hg
    exact (sorted_perm gs).mem_iff.1 (List.mem_of_find?_eq_some ha)
  by_contra hc
  push Not at hc
  obtain ⟨g, hg, hfg⟩ := hc f hf
  obtain ⟨g', hg', hfg'⟩ := hc f' hf'
  obtain ⟨k, -, hk1, hk2⟩ := toK g (hin g hg)
  obtain ⟨k', -, hk1', hk2'⟩ := toK g' (hin g' hg')
  have e1 := ((hk2 f).1 hfg).2
  have e2 := ((hk2' f').1 hfg').2
  subst e1 e2
  have a1 := of_unique ho hk1
  have a2 := of_unique ho' hk1'
  have := hsame g hg g' hg' (a1.1.symm.trans a2.1)
  subst this
  exact hp (a1.2.trans a2.2.symm)

/-- Different numbers of frames in the schemes: refused. -/
theorem C121_violated_counts : prepare (α := Key × ℕ) Prod.fst [⟨10, 0, 0, 0⟩, ⟨0, 10, 0, 0⟩]
    [(⟨10, 0, 0, 0⟩, 0), (⟨10, 0, 0, 0⟩, 1), (⟨0, 10, 0, 0⟩, 2)] = .error .ragged := rfl

/-- A frame with two schemes, or none, is refused. -/
theorem C121_none (k : Key) : scheme k = none ↔ ∀ s p, ¬ Of k s p := by
  constructor
  · intro h s p ho
    rw [(scheme_of ho).1] at h
    cases h
  · intro h
    cases hs : scheme k with
    | none => rfl
    | some s =>
      obtain ⟨p, hp⟩ := (C121_scheme k s).1 hs
      exact absurd hp (h s p)

example : ∃ r, prepare (α := Key × ℕ) Prod.fst [⟨0, 10, 0, 0⟩, ⟨10, 0, 0, 0⟩]
    [(⟨10, 0, 0, 0⟩, 0), (⟨0, 10, 0, 0⟩, 2)] = .ok r ∧ r.map Group.s = [1, 2] := ⟨_, rfl, rfl⟩

/-- Two numbers of pumps: the frames with 20 are never used, those with 10 twice. -/
example : ∃ r, prepare (α := Key × ℕ) Prod.fst [⟨10, 0, 0, 0⟩, ⟨20, 0, 0, 0⟩]
    [(⟨10, 0, 0, 0⟩, 0), (⟨20, 0, 0, 0⟩, 2)] = .ok r ∧ r.map Group.p = [10, 10] := ⟨_, rfl, rfl⟩

/-! ## C122: units -/

/-- A pixel of `rc_both` of scheme 1: the series, and the amplitudes of the two dipoles. -/
structure Both where
  amps : List ℚ
  above : List ℚ
  below : List ℚ
  deriving DecidableEq, Repr

/-- The pixels of scheme 1. -/
structure Pix where
  above : List (List ℚ)
  below : List (List ℚ)
  both : List Both
  deriving DecidableEq, Repr

/-- Largest of a series; a series has an element for every frame. -/
def peak (l : List ℚ) : ℚ := match l with
  | [] => 0
  | x :: r => r.foldl max x

/-- `max_all`, lines 2425-2438. -/
def peaks (x : Pix) : List ℚ := x.above.map peak ++ x.below.map peak ++ x.both.map fun b => peak b.amps

/-- Lines 2449-2458; `prob` is 1/4 or 4/27. -/
def maxE (pumps : ℕ) (prob : ℚ) (meanField : Option ℚ) : ℚ := match meanField with
  | none => pumps * 1 * prob
  | some f => min (pumps * 1 * prob) f

def scale (g : ℚ) (l : List ℚ) : List ℚ := l.map (g * ·)

/-- Lines 2439-2459: `none` is the exception; otherwise eperdn. -/
def eperdn (med : List ℚ → ℚ) (e : ℚ) (x : Pix) : Option ℚ :=
  if (peaks x) = [] ∨ peak (peaks x) ≤ 0 then none else some (e / med (peaks x))

/-- Lines 2463-2474. -/
def convert (k : ℚ) (x : Pix) : Pix :=
  ⟨x.above.map (scale k), x.below.map (scale k), x.both.map fun b => ⟨scale k b.amps, b.above, b.below⟩⟩

/-- The pixels in other units. -/
def units (g : ℚ) (x : Pix) : Pix :=
  ⟨x.above.map (scale g), x.below.map (scale g), x.both.map fun b => ⟨scale g b.amps, scale g b.above, scale g b.below⟩⟩

/-- The median of values in other units. -/
def Homog (med : List ℚ → ℚ) : Prop := ∀ g l, 0 < g → med (scale g l) = g * med l

theorem peak_scale {g : ℚ} (hg : 0 < g) (l : List ℚ) : peak (scale g l) = g * peak l := by
  cases l with
  | nil => simp [peak, scale]
  | cons x r =>
    show (r.map (g * ·)).foldl max (g * x) = g * r.foldl max x
    induction r generalizing x with
    | nil => rfl
    | cons y r ih =>
      rw [List.map_cons, List.foldl_cons, List.foldl_cons, ← mul_max_of_nonneg _ _ hg.le, ih]

theorem peaks_units {g : ℚ} (hg : 0 < g) (x : Pix) : peaks (units g x) = scale g (peaks x) := by
  unfold peaks units scale
  simp only [List.map_append, List.map_map]
  congr 1
  · congr 1 <;> exact List.map_congr_left fun l _ => peak_scale hg l
  · exact List.map_congr_left fun b _ => peak_scale hg b.amps

theorem scale_scale (a b : ℚ) (l : List ℚ) : scale a (scale b l) = scale (a * b) l := by
  unfold scale
  rw [List.map_map]
  exact List.map_congr_left fun x _ => by simp [mul_assoc]

/-- The gain of the camera cancels: series in other units give the same series in electrons. -/
theorem C122_gain_partial (med : List ℚ → ℚ) (hm : Homog med) (e : ℚ) (x : Pix) {g : ℚ} (hg : 0 < g) (k : ℚ)
    (h : eperdn med e x = some k) : eperdn med e (units g x) = some (k / g) ∧
      (convert (k / g) (units g x)).above = (convert k x).above ∧ (convert (k / g) (units g x)).below = (convert k x).below ∧
      (convert (k / g) (units g x)).both.map Both.amps = (convert k x).both.map Both.amps := by
  have hk : k / g * g = k := div_mul_cancel₀ k hg.ne'
  refine ⟨?_, ?_, ?_, ?_⟩
  · unfold eperdn at h ⊢
    split at h
    · cases h
    · rename_i hc
      push Not at hc
      have h' := Option.some.inj h
      subst h'
      rw [peaks_units hg, if_neg, hm _ _ hg, div_div, mul_comm g]
      push Not
      refine ⟨?_, ?_⟩
      · unfold scale; simpa using hc.1
      · rw [peak_scale hg]; exact mul_pos hg hc.2
  · show (x.above.map (scale g)).map (scale (k / g)) = x.above.map (scale k)
    rw [List.map_map]
    exact List.map_congr_left fun l _ => by rw [Function.comp, scale_scale, hk]
  · show (x.below.map (scale g)).map (scale (k / g)) = x.below.map (scale k)
    rw [List.map_map]
    exact List.map_congr_left fun l _ => by rw [Function.comp, scale_scale, hk]
  · unfold convert units
    simp only [List.map_map, Function.comp_def]
    exact List.map_congr_left fun b _ => by rw [scale_scale, hk]

/-- The two dipoles of a pixel with both stay in the units of the frames: their largest amplitudes (lines 2678-2682, 2797)
are not in electrons. -/
theorem C122_violated_both (k g : ℚ) (x : Pix) :
    (convert k (units g x)).both.map Both.above = x.both.map (fun b => scale g b.above) ∧
    (convert k (units g x)).both.map Both.below = x.both.map (fun b => scale g b.below) := by
  unfold convert units
  simp only [List.map_map, Function.comp_def, and_self]

/-- After the conversion the median peak is the largest number of electrons that can be pumped. -/
theorem C122_median (med : List ℚ → ℚ) (hm : Homog med) (e : ℚ) (x : Pix) (k : ℚ) (h : eperdn med e x = some k)
    (he : 0 < e) (hp : 0 < med (peaks x)) : 0 < k ∧ med (peaks (convert k x)) = e := by
  unfold eperdn at h
  split at h
  · cases h
  · have h' := Option.some.inj h
    have hk : 0 < k := by rw [← h']; exact div_pos he hp
    refine ⟨hk, ?_⟩
    have e1 : peaks (convert k x) = scale k (peaks x) := by
      rw [← peaks_units hk]
      unfold peaks convert units
      simp only [List.map_map, Function.comp_def]
    rw [e1, hm _ _ hk, ← h', div_mul_cancel₀ _ hp.ne']

/-- The factor is found exactly if a pixel was found and one of the peaks is positive; whether the median is, is not
checked. -/
theorem C122_found (med : List ℚ → ℚ) (e : ℚ) (x : Pix) :
    (eperdn med e x).isSome ↔ ∃ p ∈ peaks x, 0 < p := by
  have hle : ∀ (r : List ℚ) (a : ℚ), 0 < r.foldl max a ↔ 0 < a ∨ ∃ p ∈ r, 0 < p := by
    intro r
    induction r with
    | nil => intro a; simp
    | cons y r ih =>
      intro a
      rw [List.foldl_cons, ih, lt_max_iff]
      simp only [List.mem_cons, exists_eq_or_imp]
      tauto
  unfold eperdn
  cases hp : peaks x with
  | nil => simp
  | cons a r =>
    have : peak (a :: r) = r.foldl max a := rfl
    rw [this]
    by_cases h : r.foldl max a ≤ 0
    · rw [if_pos (Or.inr h)]
      have := (hle r a).not.1 (not_lt.2 h)
      simp only [List.mem_cons, exists_eq_or_imp]
      simpa using this
    · rw [if_neg (by simp; exact not_le.1 h)]
      have := (hle r a).1 (not_le.1 h)
      simp only [List.mem_cons, exists_eq_or_imp]
      simpa using this

/-- A field of fewer electrons than can be pumped limits the amplitude. -/
theorem C122_field (pumps : ℕ) (prob f : ℚ) :
    maxE pumps prob (some f) ≤ f ∧ maxE pumps prob (some f) ≤ maxE pumps prob none ∧
    (maxE pumps prob (some f) = f ∨ maxE pumps prob (some f) = pumps * prob) := by
  unfold maxE
  dsimp only
  rw [mul_one]
  refine ⟨min_le_right _ _, min_le_left _ _, ?_⟩
  rcases le_total ((pumps : ℚ) * prob) f with h | h
  · right; exact min_eq_left h
  · left; exact min_eq_right h

/-- The mean is one function to which the theorems apply. -/
example : Homog fun l => l.sum / l.length := by
  intro g l _
  have : (scale g l).sum = g * l.sum := by
    unfold scale
    induction l with
    | nil => simp
    | cons x l ih => simp only [List.map_cons, List.sum_cons, ih]; ring
  simp only [this]
  unfold scale
  rw [List.length_map, mul_div_assoc]

end Corgi.TrapPrep

import Verif.Dataset.Props

/-!
# C15: `split_dataset` is a partition; C14 for split datasets
-/

namespace Corgi.DS

variable {V : Type}

/-- The frames of a dataset refer to existing arrays. -/
def PlanesValid (h : Heap V) (fs : List ℕ) : Prop := ∀ f ∈ fs, ∀ k, (h.frm f).addr k < h.nmem

theorem mkDataset_nmem {h h' : Heap V} {fs : List ℕ} {d : Dataset}
    (hk : mkDataset h fs = .ok (h', d)) : h'.nmem = h.nmem + fs.length + fs.length + fs.length := by
  obtain ⟨_, _, hh⟩ := mkDataset_ok hk
  rw [hh]
  simp
  omega

theorem mkDataset_addr {h h' : Heap V} {fs : List ℕ} {d : Dataset} (hn : fs.Nodup)
    (hk : mkDataset h fs = .ok (h', d)) {f : ℕ} (hf : f ∈ fs) (k : Kind) :
    h.nmem ≤ (h'.frm f).addr k ∧ (h'.frm f).addr k < h'.nmem := by
  obtain ⟨i, hi, rfl⟩ := List.getElem_of_mem hf
  have := (mkDataset_linked hn hk).link k i fs[i]
    (by rw [mkDataset_frames hk]; exact List.getElem?_eq_getElem hi)
  rw [mkDataset_cube hk, cube_getElem] at this
  rw [this.2, mkDataset_nmem hk]
  refine ⟨by omega, ?_⟩
  cases k <;> simp only [Kind.off] <;> omega

theorem mkDataset_view_other {h h' : Heap V} {fs : List ℕ} {d : Dataset}
    (hk : mkDataset h fs = .ok (h', d)) {f : ℕ} (hf : f ∉ fs) (hp : ∀ k, (h.frm f).addr k < h.nmem) :
    viewFrame h' f = viewFrame h f := by
  unfold viewFrame
  dsimp only
  have e1 := mkDataset_old hk (hp .data)
  have e2 := mkDataset_old hk (hp .err)
  have e3 := mkDataset_old hk (hp .dq)
  simp only [Frame.addr] at e1 e2 e3
  rw [mkDataset_frm_notin hk hf, e1, e2, e3, (mkDataset_hdr hk).1]

theorem mem_of_pos {l : List ℕ} (hl : l.Nodup) {idx fs : List ℕ}
    (h : List.Forall₂ (fun i f => l[i]? = some f) idx fs) {i f : ℕ} (hf : l[i]? = some f) :
    f ∈ fs ↔ i ∈ idx := by
  constructor
  · intro hin
    obtain ⟨j, hj, hjf⟩ := forall2_mem_left h hin
    obtain ⟨a1, a2⟩ := List.getElem?_eq_some_iff.1 hf
    obtain ⟨b1, b2⟩ := List.getElem?_eq_some_iff.1 hjf
    have : i = j := (List.Nodup.getElem_inj_iff hl).1 (a2.trans b2.symm)
    exact this ▸ hj
  · intro hx
    obtain ⟨f', hf', he⟩ := forall2_mem_right h hx
    rw [hf] at he; cases he; exact hf'

theorem select_keep {g g' : Heap V} {ds sub : Dataset} {idx : List ℕ} (hn : ds.frames.Nodup)
    (hi : idx.Nodup) (hv : PlanesValid g ds.frames) (hk : select g ds idx = .ok (g', sub)) :
    PlanesValid g' ds.frames ∧ (∀ f ∈ ds.frames, viewFrame g' f = viewFrame g f) ∧
    (∀ a < g.nmem, g'.mem a = g.mem a) ∧ g.nmem ≤ g'.nmem ∧
    List.Forall₂ (fun i f => ds.frames[i]? = some f) idx sub.frames ∧ Linked g' sub ∧ Separate sub ∧
    (∀ (i f : ℕ), ds.frames[i]? = some f → i ∈ idx → ∀ k, g.nmem ≤ (g'.frm f).addr k) ∧
    (∀ (i f : ℕ), ds.frames[i]? = some f → i ∉ idx → g'.frm f = g.frm f) := by
  obtain ⟨fs, hfs, hm⟩ := select_ok hk
  have hfn := select_nodup hn hi hfs
  have hle := (mkDataset_hdr hm).2.2.2
  refine ⟨?_, ?_, fun a ha => mkDataset_old hm ha, hle, by rw [mkDataset_frames hm]; exact hfs,
    mkDataset_linked hfn hm, mkDataset_separate hm, ?_, ?_⟩
  · intro f hf k
    by_cases hin : f ∈ fs
    · exact (mkDataset_addr hfn hm hin k).2
    · rw [mkDataset_frm_notin hm hin]; have := hv f hf k; omega
  · intro f hf
    by_cases hin : f ∈ fs
    · exact mkDataset_view hfn hm hin
    · exact mkDataset_view_other hm hin (hv f hf)
  · intro i f hf hx k
    exact (mkDataset_addr hfn hm ((mem_of_pos hn hfs hf).2 hx) k).1
  · intro i f hf hx
    exact mkDataset_frm_notin hm (fun hin => hx ((mem_of_pos hn hfs hf).1 hin))

theorem selectAll_keep {ds : Dataset} (hn : ds.frames.Nodup) (idxs : List (List ℕ)) {g g' : Heap V}
    {subs : List Dataset} (hi : ∀ idx ∈ idxs, idx.Nodup) (hd : idxs.Pairwise List.Disjoint)
    (hv : PlanesValid g ds.frames) (hk : selectAll g ds idxs = .ok (g', subs)) :
    PlanesValid g' ds.frames ∧ (∀ f ∈ ds.frames, viewFrame g' f = viewFrame g f) ∧
    (∀ a < g.nmem, g'.mem a = g.mem a) ∧ g.nmem ≤ g'.nmem ∧
    List.Forall₂ (fun idx sub => List.Forall₂ (fun i f => ds.frames[i]? = some f) idx sub.frames ∧
      Linked g' sub ∧ Separate sub) idxs subs ∧
    (∀ (i f : ℕ), ds.frames[i]? = some f → (∃ idx ∈ idxs, i ∈ idx) → ∀ k, g.nmem ≤ (g'.frm f).addr k) ∧
    (∀ (i f : ℕ), ds.frames[i]? = some f → (∀ idx ∈ idxs, i ∉ idx) → g'.frm f = g.frm f) := by
  induction idxs generalizing g subs with
  | nil =>
    simp only [selectAll, Except.ok.injEq, Prod.mk.injEq] at hk
    obtain ⟨rfl, rfl⟩ := hk
    refine ⟨hv, fun _ _ => rfl, fun _ _ => rfl, le_refl _, .nil, ?_, fun _ _ _ _ => rfl⟩
    rintro i f _ ⟨idx, h, _⟩
    simp at h
  | cons idx idxs ih =>
    simp only [selectAll] at hk
    cases h1 : select g ds idx with
    | error e => rw [h1] at hk; cases hk
    | ok r =>
      obtain ⟨g1, d⟩ := r
      rw [h1] at hk
      simp only at hk
      cases h2 : selectAll g1 ds idxs with
      | error e => rw [h2] at hk; cases hk
      | ok r2 =>
        obtain ⟨g2, ds'⟩ := r2
        rw [h2] at hk
        simp only [Except.ok.injEq, Prod.mk.injEq] at hk
        obtain ⟨rfl, rfl⟩ := hk
        obtain ⟨a1, a2, a3, a4, a5, a6, a7, a8, a9⟩ := select_keep hn (hi idx (by simp)) hv h1
        have hd' := List.pairwise_cons.1 hd
        obtain ⟨b1, b2, b3, b4, b5, b6, b7⟩ := ih (fun x hx => hi x (by simp [hx])) hd'.2 a1 h2
        refine ⟨b1, fun f hf => (b2 f hf).trans (a2 f hf), fun a ha => (b3 a (by omega)).trans (a3 a ha),
          by omega, .cons ⟨a5, ?_, a7⟩ b5, ?_, ?_⟩
        · refine ⟨a6.len, ?_⟩
          intro k j f hj
          have hmem : f ∈ d.frames := List.mem_of_getElem? hj
          obtain ⟨i, hi1, hi2⟩ := forall2_mem_left a5 hmem
          rw [b7 i f hi2 (fun idx' h' hin => hd'.1 idx' h' hi1 hin)]
          exact a6.link k j f hj
        · intro i f hf hex k
          by_cases hrest : ∃ idx' ∈ idxs, i ∈ idx'
          · have := b6 i f hf hrest k; omega
          · rw [b7 i f hf (fun idx' h' hin => hrest ⟨idx', h', hin⟩)]
            obtain ⟨idx', hm, hin⟩ := hex
            rcases List.mem_cons.1 hm with rfl | hm
            · exact a8 i f hf hin k
            · exact absurd ⟨idx', hm, hin⟩ hrest
        · intro i f hf hall
          rw [b7 i f hf (fun idx' h' => hall idx' (by simp [h'])), a9 i f hf (hall idx (by simp))]

variable {K : Type} [LinearOrder K]

theorem groupKeys_mem (keys : List (Option K)) (k : K) : k ∈ groupKeys keys ↔ some k ∈ keys := by
  unfold groupKeys
  rw [List.mem_insertionSort, List.mem_dedup]
  simp

theorem groupKeys_sorted (keys : List (Option K)) : (groupKeys keys).Pairwise (· < ·) := by
  unfold groupKeys
  have h1 : ((keys.filterMap id).dedup.insertionSort (· ≤ ·)).Pairwise (· ≤ ·) :=
    List.pairwise_insertionSort _ _
  have h2 : ((keys.filterMap id).dedup.insertionSort (· ≤ ·)).Nodup :=
    (List.perm_insertionSort _ _).nodup_iff.2 (List.nodup_dedup _)
  exact (h1.and h2).imp fun h => lt_of_le_of_ne h.1 h.2

theorem indicesOf_nodup (keys : List (Option K)) (k : K) : (indicesOf keys k).Nodup :=
  List.Nodup.filter _ List.nodup_range

theorem mem_indicesOf {keys : List (Option K)} {k : K} {i : ℕ} :
    i ∈ indicesOf keys k ↔ keys[i]? = some (some k) := by
  unfold indicesOf
  simp only [List.mem_filter, List.mem_range, decide_eq_true_eq]
  refine ⟨fun h => h.2, fun h => ⟨?_, h⟩⟩
  obtain ⟨h1, _⟩ := List.getElem?_eq_some_iff.1 h
  exact h1

theorem indices_disjoint (keys : List (Option K)) :
    ((groupKeys keys).map (indicesOf keys)).Pairwise List.Disjoint := by
  rw [List.pairwise_map]
  refine (groupKeys_sorted keys).imp ?_
  intro a b hab i ha hb
  rw [mem_indicesOf] at ha hb
  rw [ha] at hb
  simp only [Option.some.injEq] at hb
  exact absurd hb (ne_of_lt hab)

/-- Picking the positions of a key gives the frames with that key, in order. -/
theorem pick_eq_filter {keyOf : ℕ → Except Err (Option K)} {fs : List ℕ} {keys : List (Option K)}
    (h : List.Forall₂ (fun f k => keyOf f = .ok k) fs keys) (k : K) :
    (indicesOf keys k).filterMap (fun i => fs[i]?) = fs.filter (fun f => keyOf f = .ok (some k)) := by
  induction h with
  | nil => rfl
  | @cons f y fs ys h1 h2 ih =>
    unfold indicesOf at ih ⊢
    rw [List.length_cons, List.range_succ_eq_map, List.filter_cons, List.filter_map]
    have e : (fun i => decide ((y :: ys)[i]? = some (some k))) ∘ Nat.succ =
        fun i => decide (ys[i]? = some (some k)) := by
      funext i; simp
    have e2 : ((fun i => (f :: fs)[i]?) ∘ Nat.succ) = fun i => fs[i]? := by funext i; simp
    rw [e]
    by_cases hy : y = some k
    · subst hy
      rw [if_pos (by simp)]
      rw [List.filterMap_cons, List.filter_cons, if_pos (by simp [h1])]
      simp only [List.getElem?_cons_zero]
      rw [List.filterMap_map, e2, ih]
    · rw [if_neg (by simpa using hy), List.filterMap_map, e2, ih, List.filter_cons,
        if_neg (by simpa [h1] using hy)]

theorem forall2_filterMap {α β : Type} {f : α → Option β} {l : List α} {r : List β}
    (h : List.Forall₂ (fun a b => f a = some b) l r) : l.filterMap f = r := by
  induction h with
  | nil => rfl
  | cons h1 _ ih => rw [List.filterMap_cons, h1]; simp [ih]

theorem forall2_get {α β : Type} {R : α → β → Prop} {l : List α} {r : List β}
    (h : List.Forall₂ R l r) {i : ℕ} {b : β} (hb : r[i]? = some b) : ∃ a, l[i]? = some a ∧ R a b := by
  induction h generalizing i with
  | nil => simp at hb
  | cons h1 _ ih =>
    cases i with
    | zero => simp at hb; subst hb; exact ⟨_, rfl, h1⟩
    | succ i => simpa using ih (by simpa using hb)

theorem forall2_get_left {α β : Type} {R : α → β → Prop} {l : List α} {r : List β}
    (h : List.Forall₂ R l r) {i : ℕ} {a : α} (ha : l[i]? = some a) : ∃ b, r[i]? = some b ∧ R a b := by
  induction h generalizing i with
  | nil => simp at ha
  | cons h1 _ ih =>
    cases i with
    | zero => simp at ha; subst ha; exact ⟨_, rfl, h1⟩
    | succ i => simpa using ih (by simpa using ha)

theorem splitDataset_ok {h h' : Heap V} {ds : Dataset} {b : Bool}
    {keyOf : Heap V → ℕ → Except Err (Option K)} {subs : List Dataset} {ks : List K}
    (hk : splitDataset h ds b keyOf = .ok (h', subs, ks)) :
    b = false ∧ ∃ keys, List.Forall₂ (fun f k => keyOf h f = .ok k) ds.frames keys ∧
      ks = groupKeys keys ∧ selectAll h ds (ks.map (indicesOf keys)) = .ok (h', subs) := by
  unfold splitDataset at hk
  split at hk
  · cases hk
  · rename_i hb
    refine ⟨by simpa using hb, ?_⟩
    cases hm : ds.frames.mapM (keyOf h) with
    | error e => rw [hm] at hk; cases hk
    | ok keys =>
      rw [hm] at hk
      simp only at hk
      cases hs : selectAll h ds ((groupKeys keys).map (indicesOf keys)) with
      | error e => rw [hs] at hk; cases hk
      | ok r =>
        obtain ⟨g, s⟩ := r
        rw [hs] at hk
        simp only [Except.ok.injEq, Prod.mk.injEq] at hk
        obtain ⟨rfl, rfl, rfl⟩ := hk
        exact ⟨keys, mapM_ok_iff.1 hm, rfl, hs⟩

/-- **C15** `split_dataset` sorts: the returned keys are distinct and ascending, they are exactly the
combinations that occur, and subset `j` consists of exactly the frames with key `j` in their original
order; no subset is empty. -/
theorem C15_split {h h' : Heap V} {ds : Dataset} {b : Bool}
    {keyOf : Heap V → ℕ → Except Err (Option K)} {subs : List Dataset} {ks : List K}
    (hn : ds.frames.Nodup) (hv : PlanesValid h ds.frames)
    (hk : splitDataset h ds b keyOf = .ok (h', subs, ks)) :
    ks.Pairwise (· < ·) ∧ (∀ k, k ∈ ks ↔ ∃ f ∈ ds.frames, keyOf h f = .ok (some k)) ∧
    subs.length = ks.length ∧
    ∀ (j : ℕ) (sub : Dataset) (k : K), subs[j]? = some sub → ks[j]? = some k →
      sub.frames = ds.frames.filter (fun f => keyOf h f = .ok (some k)) ∧ sub.frames ≠ [] := by
  obtain ⟨_, keys, hkeys, rfl, hs⟩ := splitDataset_ok hk
  obtain ⟨_, _, _, _, hall, _, _⟩ := selectAll_keep hn _ (by
    intro idx hidx
    obtain ⟨k, _, rfl⟩ := List.mem_map.1 hidx
    exact indicesOf_nodup keys k) (indices_disjoint keys) hv hs
  have hmem : ∀ k, k ∈ groupKeys keys ↔ ∃ f ∈ ds.frames, keyOf h f = .ok (some k) := by
    intro k
    rw [groupKeys_mem]
    constructor
    · intro hin
      obtain ⟨f, hf, he⟩ := forall2_mem_left hkeys hin
      exact ⟨f, hf, he⟩
    · rintro ⟨f, hf, he⟩
      obtain ⟨y, hy, hye⟩ := forall2_mem_right hkeys hf
      rw [he] at hye
      cases hye
      exact hy
  refine ⟨groupKeys_sorted keys, hmem, by simpa using hall.length_eq.symm, ?_⟩
  intro j sub k hj hkj
  obtain ⟨idx, hidx, hfa, _⟩ := forall2_get hall hj
  have hidx' : idx = indicesOf keys k := by
    rw [List.getElem?_map, hkj] at hidx
    simpa using hidx.symm
  subst hidx'
  have hfr : sub.frames = ds.frames.filter (fun f => keyOf h f = .ok (some k)) := by
    rw [← forall2_filterMap hfa]
    exact pick_eq_filter (keyOf := keyOf h) hkeys k
  refine ⟨hfr, ?_⟩
  obtain ⟨f, hf, he⟩ := (hmem k).1 (List.mem_of_getElem? hkj)
  intro h0
  rw [hfr, List.filter_eq_nil_iff] at h0
  exact h0 f hf (by simpa using he)

/-- **C15** The subsets partition: each frame whose keyword values are present is in exactly one of
them; a frame with a missing value is in none. -/
theorem C15_partition {h h' : Heap V} {ds : Dataset} {b : Bool}
    {keyOf : Heap V → ℕ → Except Err (Option K)} {subs : List Dataset} {ks : List K}
    (hn : ds.frames.Nodup) (hv : PlanesValid h ds.frames)
    (hk : splitDataset h ds b keyOf = .ok (h', subs, ks)) {f : ℕ} (hf : f ∈ ds.frames) :
    (∀ k, keyOf h f = .ok (some k) →
      ∃! j : ℕ, ∃ sub : Dataset, subs[j]? = some sub ∧ f ∈ sub.frames) ∧
    (keyOf h f = .ok none → ∀ sub ∈ subs, f ∉ sub.frames) := by
  obtain ⟨hsort, hmem, hlen, hsub⟩ := C15_split hn hv hk
  have hin : ∀ (j : ℕ) (sub : Dataset), subs[j]? = some sub → f ∈ sub.frames →
      ∃ k, ks[j]? = some k ∧ keyOf h f = .ok (some k) := by
    intro j sub hj hfs
    obtain ⟨hlt, _⟩ := List.getElem?_eq_some_iff.1 hj
    have hkj : ks[j]? = some (ks[j]'(by omega)) := List.getElem?_eq_getElem _
    obtain ⟨e, _⟩ := hsub j sub _ hj hkj
    rw [e] at hfs
    exact ⟨_, hkj, by simpa using (List.mem_filter.1 hfs).2⟩
  constructor
  · intro k hkf
    obtain ⟨j, hj, hje⟩ := List.getElem_of_mem ((hmem k).2 ⟨f, hf, hkf⟩)
    have hkj : ks[j]? = some k := by rw [List.getElem?_eq_getElem hj, hje]
    have hsj : subs[j]? = some (subs[j]'(by omega)) := List.getElem?_eq_getElem _
    obtain ⟨e, _⟩ := hsub j _ k hsj hkj
    refine ⟨j, ⟨_, hsj, ?_⟩, ?_⟩
    · rw [e]; exact List.mem_filter.2 ⟨hf, by simpa using hkf⟩
    · rintro j' ⟨sub, hj', hfs⟩
      obtain ⟨k', hk', hkf'⟩ := hin j' sub hj' hfs
      rw [hkf] at hkf'
      cases hkf'
      obtain ⟨hlt', he'⟩ := List.getElem?_eq_some_iff.1 hk'
      have hnd : ks.Nodup := hsort.imp fun h => ne_of_lt h
      exact (List.Nodup.getElem_inj_iff hnd).1 (he'.trans hje.symm)
  · intro hnone sub hs hfs
    obtain ⟨j, hj, rfl⟩ := List.getElem_of_mem hs
    obtain ⟨k, _, hkf⟩ := hin j _ (List.getElem?_eq_getElem hj) hfs
    rw [hnone] at hkf
    cases hkf

/-- **C15** Splitting changes no frame's arrays, headers or name, and each subset is a connected dataset
at the end. -/
theorem C15_contents {h h' : Heap V} {ds : Dataset} {b : Bool}
    {keyOf : Heap V → ℕ → Except Err (Option K)} {subs : List Dataset} {ks : List K}
    (hn : ds.frames.Nodup) (hv : PlanesValid h ds.frames)
    (hk : splitDataset h ds b keyOf = .ok (h', subs, ks)) :
    (∀ f ∈ ds.frames, viewFrame h' f = viewFrame h f) ∧
    ∀ sub ∈ subs, Linked h' sub ∧ Separate sub := by
  obtain ⟨_, keys, hkeys, rfl, hs⟩ := splitDataset_ok hk
  obtain ⟨_, h2, _, _, hall, _, _⟩ := selectAll_keep hn _ (by
    intro idx hidx
    obtain ⟨k, _, rfl⟩ := List.mem_map.1 hidx
    exact indicesOf_nodup keys k) (indices_disjoint keys) hv hs
  refine ⟨h2, ?_⟩
  intro sub hsub
  obtain ⟨_, _, h3⟩ := forall2_mem_left hall hsub
  exact h3.2

theorem select_succeeds {g : Heap V} {ds : Dataset} {idx : List ℕ} (h0 : idx ≠ [])
    (hr : ∀ i ∈ idx, i < ds.frames.length)
    (hshape : ∀ f ∈ ds.frames, ∀ f' ∈ ds.frames, ∀ k : Kind,
      (g.mem ((g.frm f).addr k)).shape = (g.mem ((g.frm f').addr k)).shape) :
    ∃ r, select g ds idx = .ok r := by
  have hfa : List.Forall₂ (fun i f => ds.frames[i]? = some f) idx (idx.map fun i => ds.frames.getD i 0) := by
    rw [List.forall₂_map_right_iff, List.forall₂_same]
    intro i hi
    simp [List.getD_eq_getElem?_getD, List.getElem?_eq_getElem (hr i hi)]
  unfold select
  rw [optMapM_iff.2 hfa]
  simp only
  apply (C12_builds_iff _ _).2
  refine ⟨by simpa using h0, ?_⟩
  intro f hf f' hf' k
  obtain ⟨i, _, e1⟩ := forall2_mem_left hfa hf
  obtain ⟨j, _, e2⟩ := forall2_mem_left hfa hf'
  exact hshape f (List.mem_of_getElem? e1) f' (List.mem_of_getElem? e2) k

/-- **C15** Splitting by at least one keyword succeeds whenever the keywords can be read from all frames
and the frames agree in shape. -/
theorem C15_succeeds {h : Heap V} {ds : Dataset} {keyOf : Heap V → ℕ → Except Err (Option K)}
    (hn : ds.frames.Nodup) (hv : PlanesValid h ds.frames)
    (hread : ∀ f ∈ ds.frames, ∃ k, keyOf h f = .ok k)
    (hshape : ∀ f ∈ ds.frames, ∀ f' ∈ ds.frames, ∀ k : Kind,
      (h.mem ((h.frm f).addr k)).shape = (h.mem ((h.frm f').addr k)).shape) :
    ∃ r, splitDataset h ds false keyOf = .ok r := by
  have hread' : ∃ keys, ds.frames.mapM (keyOf h) = .ok keys := by
    have : ∀ (l : List ℕ), (∀ f ∈ l, ∃ k, keyOf h f = .ok k) →
        ∃ keys, List.Forall₂ (fun f k => keyOf h f = .ok k) l keys := by
      intro l
      induction l with
      | nil => intro _; exact ⟨[], .nil⟩
      | cons a l ih =>
        intro hh
        obtain ⟨k, hk⟩ := hh a (by simp)
        obtain ⟨ks, hks⟩ := ih (fun f hf => hh f (by simp [hf]))
        exact ⟨k :: ks, .cons hk hks⟩
    obtain ⟨keys, hk⟩ := this ds.frames hread
    exact ⟨keys, mapM_ok_iff.2 hk⟩
  obtain ⟨keys, hkeys⟩ := hread'
  have hfa := mapM_ok_iff.1 hkeys
  have key : ∀ (idxs : List (List ℕ)) (g : Heap V), (∀ idx ∈ idxs, idx.Nodup ∧ idx ≠ [] ∧
      ∀ i ∈ idx, i < ds.frames.length) → PlanesValid g ds.frames →
      (∀ f ∈ ds.frames, viewFrame g f = viewFrame h f) → ∃ r, selectAll g ds idxs = .ok r := by
    intro idxs
    induction idxs with
    | nil => intro g _ _ _; exact ⟨_, rfl⟩
    | cons idx idxs ih =>
      intro g hidx hg hview
      obtain ⟨a1, a2, a3⟩ := hidx idx (by simp)
      have hsh : ∀ f ∈ ds.frames, ∀ k : Kind, (g.mem ((g.frm f).addr k)) = (h.mem ((h.frm f).addr k)) := by
        intro f hf k
        have := hview f hf
        unfold viewFrame at this
        simp only [FrameView.mk.injEq] at this
        cases k
        · exact this.1
        · exact this.2.1
        · exact this.2.2.1
      obtain ⟨⟨g1, d⟩, h1⟩ := select_succeeds (g := g) (ds := ds) a2 a3 (by
        intro f hf f' hf' k
        rw [hsh f hf, hsh f' hf']; exact hshape f hf f' hf' k)
      obtain ⟨b1, b2, _⟩ := select_keep hn a1 hg h1
      obtain ⟨⟨g2, r⟩, h2⟩ := ih g1 (fun x hx => hidx x (by simp [hx])) b1
        (fun f hf => (b2 f hf).trans (hview f hf))
      exact ⟨(g2, d :: r), by simp only [selectAll, h1, h2]⟩
  obtain ⟨r, hr⟩ := key ((groupKeys keys).map (indicesOf keys)) h (by
    intro idx hidx
    obtain ⟨k, hk, rfl⟩ := List.mem_map.1 hidx
    refine ⟨indicesOf_nodup keys k, ?_, ?_⟩
    · rw [groupKeys_mem] at hk
      obtain ⟨i, hi, he⟩ := List.getElem_of_mem hk
      have : i ∈ indicesOf keys k := mem_indicesOf.2 (by rw [List.getElem?_eq_getElem hi, he])
      exact List.ne_nil_of_mem this
    · intro i hi
      rw [mem_indicesOf] at hi
      obtain ⟨hlt, _⟩ := List.getElem?_eq_some_iff.1 hi
      rw [hfa.length_eq]; exact hlt) hv (fun _ _ => rfl)
  unfold splitDataset
  rw [hkeys]
  simp only [hr]
  exact ⟨_, rfl⟩

/-- **C15** Without keywords `split_dataset` raises `ValueError`. -/
theorem C15_no_keywords (h : Heap V) (ds : Dataset) (keyOf : Heap V → ℕ → Except Err (Option K)) :
    splitDataset h ds true keyOf = .error .valueError := rfl

/-- Example: split the example dataset by VISTYPE (number of characters stands in for the order). -/
def exKey (h : Heap ℕ) (f : ℕ) : Except Err (Option ℕ) :=
  match (h.hdr (h.frm f).pri).card "VISTYPE" with
  | none => .error .keyError
  | some v => .ok (if v = "A" then some 2 else if v = "B" then some 1 else none)

example : (match splitDataset exMade.1 exMade.2 false exKey with
    | .ok r => (r.2.2, r.2.1.map Dataset.frames)
    | .error _ => ([], [])) = ([1, 2], [[1], [0]]) := by decide +kernel
example : exMade.2.frames.Nodup := by decide
example : PlanesValid exMade.1 exMade.2.frames := exMade_valid.plane

/-- **C14** for `split_dataset`: afterwards every frame with a key is disconnected from the parent: an
update of the parent's data leaves it showing the old data. -/
theorem C14_after_split {h h' h2 : Heap V} {ds d2 : Dataset} {b : Bool}
    {keyOf : Heap V → ℕ → Except Err (Option K)} {subs : List Dataset} {ks : List K}
    (hs : Separate ds) (hv : Valid h ds) (hn : ds.frames.Nodup)
    (hk : splitDataset h ds b keyOf = .ok (h', subs, ks)) {e : String} {nd : List (Plane V)}
    {es : List (String × String)} (hu : update h' ds e (some nd) none none es = (h2, d2, none))
    {f : ℕ} (hf : f ∈ ds.frames) {k : K} (hkf : keyOf h f = .ok (some k)) :
    h2.dataOf f = h.dataOf f := by
  obtain ⟨_, keys, hkeys, rfl, hsel⟩ := splitDataset_ok hk
  obtain ⟨_, h3, _, _, _, h6, _⟩ := selectAll_keep hn _ (by
    intro idx hidx
    obtain ⟨k, _, rfl⟩ := List.mem_map.1 hidx
    exact indicesOf_nodup keys k) (indices_disjoint keys) hv.plane hsel
  obtain ⟨_, u2, u3, u4⟩ := update_data_effect hs hu
  have hdat : h'.dataOf f = h.dataOf f := congrArg FrameView.data (h3 f hf)
  rw [← hdat]
  unfold Heap.dataOf
  rw [u2, u3]
  intro hin
  have hlt := hv.cubes .data _ hin
  obtain ⟨i, hi, rfl⟩ := List.getElem_of_mem hf
  obtain ⟨y, hy, hye⟩ := forall2_get_left hkeys (List.getElem?_eq_getElem hi)
  rw [hkf] at hye
  cases hye
  have := h6 i _ (List.getElem?_eq_getElem hi)
    ⟨indicesOf keys k, List.mem_map.2 ⟨k, (groupKeys_mem keys k).2 (List.mem_of_getElem? hy), rfl⟩,
      mem_indicesOf.2 hy⟩ .data
  simp only [Frame.addr] at this
  omega

end Corgi.DS

import Verif.Levels.Model
import Verif.Dataset.Split

namespace Corgi.Levels
open Corgi.DS

variable {V : Type}

/-! ### the effect of one upgrade on the objects -/

theorem upgradeFrame_keep (toLvl : String) (cards : List (String × String)) (rename : String → String)
    (h : Heap V) (f : ℕ) :
    let r := upgradeFrame toLvl cards rename h f
    r.mem = h.mem ∧ r.nmem = h.nmem ∧ r.nhdr = h.nhdr ∧ r.nfrm = h.nfrm ∧
    (∀ g, g ≠ f → r.frm g = h.frm g) ∧
    r.frm f = { h.frm f with filename := rename (h.frm f).filename } := by
  obtain ⟨a1, a2, a3, a4, a5, _, _⟩ := setKeys_keep f (("DATALVL", toLvl) :: cards) h
  unfold upgradeFrame
  dsimp only at a1 a2 a3 a4 a5 ⊢
  refine ⟨a2, a3, a4, a5, ?_, ?_⟩
  · intro g hg; rw [Function.update_of_ne hg, a1]
  · rw [Function.update_self, a1]

theorem upgradeFrames_keep (toLvl : String) (cards : List (String × String)) (rename : String → String)
    (fs : List ℕ) (hn : fs.Nodup) (h : Heap V) :
    let r := fs.foldl (upgradeFrame toLvl cards rename) h
    r.mem = h.mem ∧ r.nmem = h.nmem ∧ r.nhdr = h.nhdr ∧ r.nfrm = h.nfrm ∧
    (∀ g, g ∉ fs → r.frm g = h.frm g) ∧
    (∀ f ∈ fs, r.frm f = { h.frm f with filename := rename (h.frm f).filename }) := by
  induction fs generalizing h with
  | nil => simp
  | cons f fs ih =>
    simp only [List.nodup_cons] at hn
    simp only [List.foldl_cons]
    obtain ⟨a1, a2, a3, a4, a5, a6⟩ := upgradeFrame_keep toLvl cards rename h f
    obtain ⟨b1, b2, b3, b4, b5, b6⟩ := ih hn.2 (upgradeFrame toLvl cards rename h f)
    dsimp only at a1 a2 a3 a4 a5 a6 b1 b2 b3 b4 b5 b6
    refine ⟨b1.trans a1, b2.trans a2, b3.trans a3, b4.trans a4, ?_, ?_⟩
    · intro g hg
      simp only [List.mem_cons, not_or] at hg
      rw [b5 g hg.2, a5 g hg.1]
    · intro g hg
      rcases List.mem_cons.1 hg with rfl | hg
      · rw [b5 g hn.1, a6]
      · rw [b6 g hg, a5 g (fun he => hn.1 (he ▸ hg))]

/-- Same-shape frames that exist. -/
structure Good (h : Heap V) (ds : Dataset) : Prop where
  valid : Valid h ds
  nonempty : ds.frames ≠ []
  shapes : ∀ f ∈ ds.frames, ∀ g ∈ ds.frames, ∀ k : Kind,
    (h.mem ((h.frm f).addr k)).shape = (h.mem ((h.frm g).addr k)).shape

/-- What a shallow copy makes of the frames. -/
theorem shallow_frames {h h1 : Heap V} {ds dc : Dataset} (hv : Valid h ds) {v now : String}
    (hk : copyDataset v now false h ds = .ok (h1, dc)) :
    dc.frames = List.range' h.nfrm ds.frames.length ∧ dc.frames.Nodup ∧ Valid h1 dc ∧
    ∀ (i : ℕ) (hi : i < ds.frames.length),
      (∀ k, h1.mem ((h1.frm (h.nfrm + i)).addr k) = h.mem ((h.frm ds.frames[i]).addr k)) ∧
      (h1.frm (h.nfrm + i)).filename = (h.frm ds.frames[i]).filename ∧
      (∀ k, (h1.frm (h.nfrm + i)).hdrAddr k = (h.frm ds.frames[i]).hdrAddr k) := by
  have hinv := copyDataset_shallow_inv v now hv.frame hk
  unfold copyDataset at hk
  obtain ⟨a, b⟩ := copyFrames_frames v now false h ds.frames
  obtain ⟨s1, s2, s3, s4, s5, -⟩ := copyFrames_shallow v now h ds.frames hv.frame
  generalize copyFrames v now false h ds.frames = gg at *
  obtain ⟨g, fs⟩ := gg
  simp only at a b hk s1 s2 s3 s4 s5
  have hfr := mkDataset_frames hk
  have hn : fs.Nodup := by rw [a]; exact List.nodup_range'
  have hlen : fs.length = ds.frames.length := by rw [a]; simp
  obtain ⟨m1, m2, m3, m4⟩ := mkDataset_hdr hk
  have hhdr : ∀ (i : ℕ) (hi : i < ds.frames.length) k,
      (h1.frm (h.nfrm + i)).hdrAddr k = (h.frm ds.frames[i]).hdrAddr k := by
    intro i hi k
    obtain ⟨x1, x2, x3, x4, _⟩ := mkDataset_frm_hdr hk (h.nfrm + i)
    rw [s5 i hi] at x1 x2 x3 x4
    cases k
    · exact x1
    · exact x2
    · exact x3
    · exact x4
  refine ⟨by rw [hfr, a], by rw [hfr]; exact hn, ⟨?_, ?_, ?_, ?_⟩, ?_⟩
  · intro f hf
    rw [hfr, a, List.mem_range'] at hf
    obtain ⟨i, hi, rfl⟩ := hf
    rw [m3, b]; omega
  · intro f hf k
    rw [hfr] at hf
    exact (mkDataset_addr hn hk hf k).2
  · intro f hf
    rw [hfr, a, List.mem_range'] at hf
    obtain ⟨i, hi, rfl⟩ := hf
    rw [Nat.one_mul]
    have hm := List.getElem_mem hi
    have e := hhdr i hi
    rw [m2, s3]
    have := hv.header _ hm
    have e1 := e .pri
    have e2 := e .ext
    have e3 := e .errh
    have e4 := e .dqh
    simp only [Frame.hdrAddr] at e1 e2 e3 e4
    rw [e1, e2, e3, e4]
    exact this
  · intro k x hx
    rw [mkDataset_cube hk, List.mem_range'] at hx
    obtain ⟨i, hi, rfl⟩ := hx
    rw [mkDataset_nmem hk]
    cases k <;> simp only [Kind.off] <;> omega
  · intro i hi
    refine ⟨?_, ?_, hhdr i hi⟩
    · intro k
      have hi' : i < fs.length := by omega
      have e : fs[i] = h.nfrm + i := by subst a; simp
      have hl := (mkDataset_linked hn hk).link k i fs[i] (by rw [hfr]; exact List.getElem?_eq_getElem hi')
      rw [mkDataset_cube hk, cube_getElem, e] at hl
      rw [hl.2, mkDataset_content hk k hi', e, s5 i hi, s1]
    · rw [(mkDataset_frm_hdr hk (h.nfrm + i)).2.2.2.2, s5 i hi]

theorem updHist_keep (e : String) (fs : List ℕ) (h : Heap V) :
    let r := fs.foldl (updateHdr e []) h
    r.nmem = h.nmem ∧ r.nhdr = h.nhdr ∧ r.nfrm = h.nfrm ∧
    ∀ a, (r.hdr a).card = (h.hdr a).card := by
  induction fs generalizing h with
  | nil => simp
  | cons f fs ih =>
    simp only [List.foldl_cons]
    obtain ⟨a, b, c, d⟩ := ih (updateHdr e [] h f)
    refine ⟨a, b, c, ?_⟩
    intro x
    rw [d]
    simp only [updateHdr, List.foldl_nil, Heap.addHistory]
    by_cases hx : x = (h.frm f).ext
    · subst hx; rw [Function.update_self]
    · rw [Function.update_of_ne hx]

/-- Everything an upgrade does to the frames. -/
theorem upgrade_effect {h h1 : Heap V} {ds d1 : Dataset} (hv : Valid h ds) {v now src dst : String}
    {cards : List (String × String)} (hc0 : "DATALVL" ∉ cards.map Prod.fst) {rename : String → String}
    (hk : upgrade v now src dst cards rename h ds = .ok (h1, d1)) :
    (∀ f ∈ ds.frames, (viewFrame h f).ext.card "DATALVL" = some src) ∧
    d1.frames.length = ds.frames.length ∧ Valid h1 d1 ∧ d1.frames.Nodup ∧
    ∀ (i : ℕ) (hi : i < ds.frames.length) (hi' : i < d1.frames.length),
      (viewFrame h1 d1.frames[i]).data = (viewFrame h ds.frames[i]).data ∧
      (viewFrame h1 d1.frames[i]).err = (viewFrame h ds.frames[i]).err ∧
      (viewFrame h1 d1.frames[i]).dq = (viewFrame h ds.frames[i]).dq ∧
      (viewFrame h1 d1.frames[i]).filename = rename (viewFrame h ds.frames[i]).filename ∧
      (viewFrame h1 d1.frames[i]).ext.card "DATALVL" = some dst := by
  unfold upgrade at hk
  split at hk
  · rename_i hall
    cases hc : copyDataset v now false h ds with
    | error e => rw [hc] at hk; cases hk
    | ok r =>
      obtain ⟨hc1, dc⟩ := r
      rw [hc] at hk
      simp only [update, putCube, putErr, Except.ok.injEq, Prod.mk.injEq] at hk
      obtain ⟨rfl, rfl⟩ := hk
      obtain ⟨p1, p2, p3, p4⟩ := shallow_frames hv hc
      obtain ⟨q1, q2, q3, q4, q5, q6⟩ := upgradeFrames_keep dst cards rename dc.frames p2 hc1
      obtain ⟨l1, l2, l3⟩ := upgradeLoop_level dst cards hc0 rename dc.frames hc1
      dsimp only at q1 q2 q3 q4 q5 q6 l1 l2 l3
      generalize dc.frames.foldl (upgradeFrame dst cards rename) hc1 = g at *
      obtain ⟨k1, k2⟩ := updateHdrs_keep ("Updated Data Level to " ++ dst) [] dc.frames g
      obtain ⟨j1, j2, j3, j4⟩ := updHist_keep ("Updated Data Level to " ++ dst) dc.frames g
      generalize dc.frames.foldl (updateHdr ("Updated Data Level to " ++ dst) []) g = g2 at *
      have haddr : ∀ f ∈ dc.frames, ∀ k, (g2.frm f).addr k = (hc1.frm f).addr k := by
        intro f hf k
        rw [k1, q6 f hf]
        cases k <;> rfl
      have hh : ∀ f ∈ dc.frames, ∀ k, (g2.frm f).hdrAddr k = (hc1.frm f).hdrAddr k := by
        intro f hf k
        rw [k1, q6 f hf]
        cases k <;> rfl
      refine ⟨?_, by rw [p1]; simp, ⟨?_, ?_, ?_, ?_⟩, p2, ?_⟩
      · intro f hf
        have := List.all_eq_true.1 hall f hf
        simpa [viewFrame] using this
      · intro f hf; rw [j3, q4]; exact p3.frame f hf
      · intro f hf k; rw [haddr f hf, j1, q2]; exact p3.plane f hf k
      · intro f hf
        rw [j2, q3]
        have e1 := hh f hf .pri
        have e2 := hh f hf .ext
        have e3 := hh f hf .errh
        have e4 := hh f hf .dqh
        simp only [Frame.hdrAddr] at e1 e2 e3 e4
        rw [e1, e2, e3, e4]; exact p3.header f hf
      · intro k a ha; rw [j1, q2]; exact p3.cubes k a ha
      · intro i hi hi'
        have e : dc.frames[i] = h.nfrm + i := by
          have h0 : dc.frames[i]? = some (h.nfrm + i) := by
            rw [p1, cube_getElem]; exact ⟨hi, rfl⟩
          have h1 := List.getElem?_eq_getElem hi'
          rw [h0] at h1
          exact (Option.some.inj h1).symm
        have hm : h.nfrm + i ∈ dc.frames := e ▸ List.getElem_mem hi'
        obtain ⟨r1, r2, r3⟩ := p4 i hi
        rw [e]
        have hpl : ∀ k, g2.mem ((g2.frm (h.nfrm + i)).addr k) = h.mem ((h.frm ds.frames[i]).addr k) := by
          intro k
          rw [haddr _ hm, k2, q1]
          exact r1 k
        refine ⟨hpl .data, hpl .err, hpl .dq, ?_, ?_⟩
        · show (g2.frm (h.nfrm + i)).filename = _
          rw [k1, q6 _ hm]
          show rename (hc1.frm (h.nfrm + i)).filename = _
          rw [r2]; rfl
        · show (g2.hdr (g2.frm (h.nfrm + i)).ext).card "DATALVL" = _
          have := hh _ hm .ext
          simp only [Frame.hdrAddr] at this
          rw [this, j4]
          exact l3 _ hm
  · cases hk

theorem copyShallow_succeeds {h : Heap V} {ds : Dataset} (hg : Good h ds) (v now : String) :
    ∃ r, copyDataset v now false h ds = .ok r := by
  have hv := hg.valid
  unfold copyDataset
  obtain ⟨a, b⟩ := copyFrames_frames v now false h ds.frames
  obtain ⟨s1, s2, s3, s4, s5, -⟩ := copyFrames_shallow v now h ds.frames hv.frame
  generalize copyFrames v now false h ds.frames = gg at *
  obtain ⟨g, fs⟩ := gg
  simp only at a b s1 s2 s3 s4 s5 ⊢
  apply (C12_builds_iff _ _).2
  have hn := hg.nonempty
  refine ⟨?_, ?_⟩
  · rw [a]
    intro h0
    have : ds.frames.length = 0 := by simpa using congrArg List.length h0
    exact hn (List.length_eq_zero_iff.1 this)
  · intro f hf f' hf' k
    rw [a, List.mem_range'] at hf hf'
    obtain ⟨i, hi, rfl⟩ := hf
    obtain ⟨j, hj, rfl⟩ := hf'
    rw [Nat.one_mul, Nat.one_mul, s5 i hi, s5 j hj, s1]
    exact hg.shapes _ (List.getElem_mem hi) _ (List.getElem_mem hj) k

theorem upgrade_succeeds {h : Heap V} {ds : Dataset} (hg : Good h ds) (v now src dst : String)
    (cards : List (String × String)) (rename : String → String)
    (hl : ∀ f ∈ ds.frames, (viewFrame h f).ext.card "DATALVL" = some src) :
    ∃ r, upgrade v now src dst cards rename h ds = .ok r := by
  unfold upgrade
  rw [if_pos (by
    rw [List.all_eq_true]
    intro f hf
    simpa [viewFrame] using hl f hf)]
  obtain ⟨⟨h1, d1⟩, hr⟩ := copyShallow_succeeds hg v now
  rw [hr]
  exact ⟨_, rfl⟩

theorem upgrade_good {h h1 : Heap V} {ds d1 : Dataset} (hg : Good h ds) {v now src dst : String}
    {cards : List (String × String)} (hc0 : "DATALVL" ∉ cards.map Prod.fst) {rename : String → String}
    (hk : upgrade v now src dst cards rename h ds = .ok (h1, d1)) : Good h1 d1 := by
  obtain ⟨_, e2, e3, _, e5⟩ := upgrade_effect hg.valid hc0 hk
  refine ⟨e3, ?_, ?_⟩
  · intro h0
    rw [h0] at e2
    exact hg.nonempty (List.length_eq_zero_iff.1 (by simpa using e2.symm))
  · intro f hf f' hf' k
    obtain ⟨i, hi, rfl⟩ := List.getElem_of_mem hf
    obtain ⟨j, hj, rfl⟩ := List.getElem_of_mem hf'
    obtain ⟨a1, a2, a3, _⟩ := e5 i (by omega) hi
    obtain ⟨b1, b2, b3, _⟩ := e5 j (by omega) hj
    have hs := hg.shapes _ (List.getElem_mem (show i < ds.frames.length by omega)) _
      (List.getElem_mem (show j < ds.frames.length by omega)) k
    simp only [viewFrame] at a1 a2 a3 b1 b2 b3
    cases k
    · simp only [Frame.addr] at hs ⊢; rw [a1, b1]; exact hs
    · simp only [Frame.addr] at hs ⊢; rw [a2, b2]; exact hs
    · simp only [Frame.addr] at hs ⊢; rw [a3, b3]; exact hs

theorem Up.cards_ok (ct flux : String) (u : Up) : "DATALVL" ∉ (u.cards ct flux).map Prod.fst := by
  cases u <;> simp [Up.cards]

/-! ### names -/

theorem replace1_first (old new stem rest : List Char) (hne : old ≠ [])
    (h : ∀ i < stem.length, ¬ old <+: (stem ++ old ++ rest).drop i) :
    replace1 old new (stem ++ old ++ rest) = stem ++ new ++ rest := by
  induction stem with
  | nil =>
    cases old with
    | nil => exact absurd rfl hne
    | cons c cs =>
      simp only [List.nil_append, List.cons_append, replace1]
      rw [if_pos (by rw [List.isPrefixOf_iff_prefix]; exact ⟨rest, by simp⟩)]
      simp
  | cons c stem ih =>
    simp only [List.cons_append, replace1]
    rw [if_neg, ih]
    · intro i hi
      have := h (i + 1) (by simpa using hi)
      simpa using this
    · have := h 0 (by simp)
      rw [List.isPrefixOf_iff_prefix]
      simpa using this

/-- If `_L` does not occur in the stem, no tag `_L..` starts before its end. -/
theorem no_tag_before (stem : List Char) (hs : ¬ ['_', 'L'] <:+: stem) (tag t2 rest : List Char)
    (htag : ∃ t, tag = '_' :: 'L' :: t) (ht2 : ∃ t, t2 = '_' :: t) :
    ∀ i < stem.length, ¬ tag <+: (stem ++ t2 ++ rest).drop i := by
  intro i hi hp
  obtain ⟨t, rfl⟩ := htag
  obtain ⟨t', rfl⟩ := ht2
  obtain ⟨w, hw⟩ := hp
  have h0 : (stem ++ '_' :: t' ++ rest)[i]? = some '_' := by
    have := congrArg (·[0]?) hw
    simpa using this.symm
  have h1 : (stem ++ '_' :: t' ++ rest)[i+1]? = some 'L' := by
    have := congrArg (·[1]?) hw
    simpa using this.symm
  rw [List.append_assoc, List.getElem?_append_left hi] at h0
  by_cases hi1 : i + 1 < stem.length
  · rw [List.append_assoc, List.getElem?_append_left hi1] at h1
    apply hs
    refine ⟨stem.take i, stem.drop (i + 2), ?_⟩
    obtain ⟨_, e0⟩ := List.getElem?_eq_some_iff.1 h0
    obtain ⟨_, e1⟩ := List.getElem?_eq_some_iff.1 h1
    conv_rhs => rw [← List.take_append_drop i stem, ← List.getElem_cons_drop hi,
      ← List.getElem_cons_drop hi1, e0, e1]
    simp
  · have he : i + 1 = stem.length := by omega
    rw [List.append_assoc, List.getElem?_append_right (by omega), he] at h1
    simp at h1

theorem pyReplace1_tag (stem rest tag new : String) (hs : ¬ ['_', 'L'] <:+: stem.toList)
    (ht : ∃ t, tag.toList = '_' :: 'L' :: t) :
    pyReplace1 tag new (stem ++ tag ++ rest) = stem ++ new ++ rest := by
  unfold pyReplace1
  have : (stem ++ tag ++ rest).toList = stem.toList ++ tag.toList ++ rest.toList := by simp
  rw [this, replace1_first]
  · apply String.ext
    simp
  · obtain ⟨t, e⟩ := ht; rw [e]; simp
  · obtain ⟨t, e⟩ := ht
    exact no_tag_before _ hs _ _ _ ⟨t, e⟩ ⟨_, e⟩

end Corgi.Levels

import Verif.Dataset.Lemmas

/-!
Operations on datasets that only refer to objects created after a given point do not touch objects
created before it.
-/

namespace Corgi.DS

variable {V : Type}

/-- `h` agrees with `h0` on all objects below the bounds, and `Image` objects above the bound refer to
arrays and headers above the bounds. -/
structure HeapInv (n0 k0 f0 : ℕ) (h0 h : Heap V) : Prop where
  memLe : n0 ≤ h.nmem
  hdrLe : k0 ≤ h.nhdr
  frmLe : f0 ≤ h.nfrm
  agreeM : ∀ a < n0, h.mem a = h0.mem a
  agreeH : ∀ a < k0, h.hdr a = h0.hdr a
  agreeF : ∀ f < f0, h.frm f = h0.frm f
  planes : ∀ f, f0 ≤ f → f < h.nfrm → ∀ k, n0 ≤ (h.frm f).addr k
  hdrs : ∀ f, f0 ≤ f → f < h.nfrm → ∀ k, k0 ≤ (h.frm f).hdrAddr k

/-- The dataset refers only to objects above the bounds. -/
structure DsInv (n0 f0 : ℕ) (h : Heap V) (d : Dataset) : Prop where
  frames : ∀ f ∈ d.frames, f0 ≤ f ∧ f < h.nfrm
  cubes : ∀ k, ∀ a ∈ d.cube k, n0 ≤ a

variable {n0 k0 f0 : ℕ} {h0 h : Heap V}

theorem HeapInv.setPix (hi : HeapInv n0 k0 f0 h0 h) {a : ℕ} (ha : n0 ≤ a) (p : List ℕ) (v : V) :
    HeapInv n0 k0 f0 h0 (h.setPix a p v) := by
  refine ⟨hi.memLe, hi.hdrLe, hi.frmLe, ?_, hi.agreeH, hi.agreeF, hi.planes, hi.hdrs⟩
  intro b hb
  simp only [Heap.setPix]
  rw [Function.update_of_ne (by omega)]
  exact hi.agreeM b hb

theorem HeapInv.fill (hi : HeapInv n0 k0 f0 h0 h) {as : List ℕ} (ha : ∀ a ∈ as, n0 ≤ a)
    (ps : List (Plane V)) :
    HeapInv n0 k0 f0 h0 (h.fill as ps) ∧ (h.fill as ps).frm = h.frm ∧ (h.fill as ps).nfrm = h.nfrm := by
  induction as generalizing h ps with
  | nil => simp [Heap.fill, hi]
  | cons a as ih =>
    cases ps with
    | nil => simp [Heap.fill, hi]
    | cons p ps =>
      simp only [Heap.fill]
      have : HeapInv n0 k0 f0 h0 { h with mem := Function.update h.mem a p } := by
        refine ⟨hi.memLe, hi.hdrLe, hi.frmLe, ?_, hi.agreeH, hi.agreeF, hi.planes, hi.hdrs⟩
        intro b hb
        have := ha a (by simp)
        show Function.update h.mem a p b = _
        rw [Function.update_of_ne (by omega)]
        exact hi.agreeM b hb
      exact ih this (fun b hb => ha b (by simp [hb])) ps

theorem HeapInv.putCube (hi : HeapInv n0 k0 f0 h0 h) {as : List ℕ} (ha : ∀ a ∈ as, n0 ≤ a)
    {new : Option (List (Plane V))} {h' : Heap V} (hp : putCube h as new = some h') :
    HeapInv n0 k0 f0 h0 h' ∧ h'.frm = h.frm ∧ h'.nfrm = h.nfrm := by
  cases new with
  | none => simp only [Corgi.DS.putCube, Option.some.injEq] at hp; subst hp; exact ⟨hi, rfl, rfl⟩
  | some ps =>
    simp only [Corgi.DS.putCube] at hp
    split at hp
    · simp only [Option.some.injEq] at hp; subst hp; exact hi.fill ha ps
    · cases hp

theorem HeapInv.setKey (hi : HeapInv n0 k0 f0 h0 h) {a : ℕ} (ha : k0 ≤ a) (k v : String) :
    HeapInv n0 k0 f0 h0 (h.setKey a k v) := by
  refine ⟨hi.memLe, hi.hdrLe, hi.frmLe, hi.agreeM, ?_, hi.agreeF, hi.planes, hi.hdrs⟩
  intro b hb
  simp only [Heap.setKey]
  rw [Function.update_of_ne (by omega)]
  exact hi.agreeH b hb

theorem HeapInv.addHistory (hi : HeapInv n0 k0 f0 h0 h) {a : ℕ} (ha : k0 ≤ a) (e : String) :
    HeapInv n0 k0 f0 h0 (h.addHistory a e) := by
  refine ⟨hi.memLe, hi.hdrLe, hi.frmLe, hi.agreeM, ?_, hi.agreeF, hi.planes, hi.hdrs⟩
  intro b hb
  simp only [Heap.addHistory]
  rw [Function.update_of_ne (by omega)]
  exact hi.agreeH b hb

theorem HeapInv.alloc (hi : HeapInv n0 k0 f0 h0 h) (ps : List (Plane V)) :
    HeapInv n0 k0 f0 h0 (h.alloc ps) := by
  refine ⟨by simp; have := hi.memLe; omega, hi.hdrLe, hi.frmLe, ?_, hi.agreeH, hi.agreeF, hi.planes,
    hi.hdrs⟩
  intro b hb
  rw [alloc_old _ _ (by have := hi.memLe; omega)]
  exact hi.agreeM b hb

/-- Changing `Image` objects above the bound to refer to arrays above the bound. -/
theorem HeapInv.setFrm (hi : HeapInv n0 k0 f0 h0 h) (m : ℕ → Frame)
    (h1 : ∀ f < f0, m f = h.frm f) (h2 : ∀ f, f0 ≤ f → f < h.nfrm → ∀ k, n0 ≤ (m f).addr k)
    (h3 : ∀ f, f0 ≤ f → f < h.nfrm → ∀ k, k0 ≤ (m f).hdrAddr k) :
    HeapInv n0 k0 f0 h0 { h with frm := m } := by
  refine ⟨hi.memLe, hi.hdrLe, hi.frmLe, hi.agreeM, hi.agreeH, ?_, h2, h3⟩
  intro f hf
  rw [← hi.agreeF f hf]; exact h1 f hf

theorem HeapInv.pointTo (hi : HeapInv n0 k0 f0 h0 h) {fs ds es qs : List ℕ}
    (hf : ∀ f ∈ fs, f0 ≤ f) (hd : ∀ a ∈ ds, n0 ≤ a) (he : ∀ a ∈ es, n0 ≤ a) (hq : ∀ a ∈ qs, n0 ≤ a) :
    HeapInv n0 k0 f0 h0 { h with frm := pointTo h.frm fs ds es qs } := by
  apply hi.setFrm
  · intro f hlt
    exact pointTo_notin _ _ _ _ _ (fun hm => by have := hf f hm; omega)
  · intro f h1 h2 k
    exact pointTo_addr fs ds es qs h.frm f k (n0 ≤ ·) hd he hq (hi.planes f h1 h2 k)
  · intro f h1 h2 k
    obtain ⟨a1, a2, a3, a4, _⟩ := pointTo_hdr fs ds es qs h.frm f
    have := hi.hdrs f h1 h2 k
    cases k <;> simp only [Frame.hdrAddr] at this ⊢
    · rw [a1]; exact this
    · rw [a2]; exact this
    · rw [a3]; exact this
    · rw [a4]; exact this

theorem HeapInv.pointErr (hi : HeapInv n0 k0 f0 h0 h) {fs es : List ℕ}
    (hf : ∀ f ∈ fs, f0 ≤ f) (he : ∀ a ∈ es, n0 ≤ a) :
    HeapInv n0 k0 f0 h0 { h with frm := pointErr h.frm fs es } := by
  apply hi.setFrm
  · intro f hlt
    exact pointErr_notin _ _ _ (fun hm => by have := hf f hm; omega)
  · intro f h1 h2 k
    exact pointErr_addr fs es h.frm f k (n0 ≤ ·) he (hi.planes f h1 h2 k)
  · intro f h1 h2 k
    obtain ⟨a1, a2, a3, a4, _⟩ := pointErr_rest fs es h.frm f
    have := hi.hdrs f h1 h2 k
    cases k <;> simp only [Frame.hdrAddr] at this ⊢
    · rw [a1]; exact this
    · rw [a2]; exact this
    · rw [a3]; exact this
    · rw [a4]; exact this

theorem mem_range'_le {n len a m : ℕ} (h : a ∈ List.range' n len) (hm : m ≤ n) : m ≤ a := by
  rw [List.mem_range'] at h
  obtain ⟨i, _, rfl⟩ := h
  omega

theorem HeapInv.mkDataset (hi : HeapInv n0 k0 f0 h0 h) {fs : List ℕ}
    (hf : ∀ f ∈ fs, f0 ≤ f ∧ f < h.nfrm) {h' : Heap V} {d : Dataset}
    (hk : mkDataset h fs = .ok (h', d)) : HeapInv n0 k0 f0 h0 h' ∧ DsInv n0 f0 h' d := by
  have hc := mkDataset_cube hk
  have hfr := mkDataset_frames hk
  have hcub : ∀ k, ∀ a ∈ d.cube k, n0 ≤ a := by
    intro k a ha
    rw [hc] at ha
    have := hi.memLe
    exact mem_range'_le ha (by omega)
  obtain ⟨_, hd, hh⟩ := mkDataset_ok hk
  constructor
  · rw [hh]
    exact (hi.alloc _).pointTo (fun f hm => (hf f hm).1) (hcub .data) (hcub .err) (hcub .dq)
  · refine ⟨?_, hcub⟩
    rw [hfr, (mkDataset_hdr hk).2.2.1]
    exact hf

theorem HeapInv.select (hi : HeapInv n0 k0 f0 h0 h) {d : Dataset} (hd : DsInv n0 f0 h d)
    {idx : List ℕ} {h' : Heap V} {d' : Dataset} (hk : select h d idx = .ok (h', d')) :
    HeapInv n0 k0 f0 h0 h' ∧ DsInv n0 f0 h' d' ∧ h'.nfrm = h.nfrm := by
  unfold Corgi.DS.select at hk
  split at hk
  · cases hk
  · rename_i fs hfs
    have hmem : ∀ f ∈ fs, f ∈ d.frames := by
      intro f hf
      obtain ⟨i, -, hi⟩ : ∃ i, i ∈ idx ∧ d.frames[i]? = some f := by
        clear hk
        induction idx generalizing fs with
        | nil => simp at hfs; subst hfs; simp at hf
        | cons j idx ih =>
          rw [List.mapM_cons] at hfs
          cases hj : d.frames[j]? with
          | none => simp [hj] at hfs
          | some g =>
            cases hr : idx.mapM (fun i => d.frames[i]?) with
            | none => simp [hj, hr] at hfs
            | some gs =>
              simp [hj, hr] at hfs
              subst hfs
              rcases List.mem_cons.1 hf with rfl | hf
              · exact ⟨j, by simp, hj⟩
              · obtain ⟨i, h1, h2⟩ := ih gs hr hf
                exact ⟨i, by simp [h1], h2⟩
      exact List.mem_of_getElem? hi
    obtain ⟨h1, h2⟩ := hi.mkDataset (fun f hf => hd.frames f (hmem f hf)) hk
    exact ⟨h1, h2, (mkDataset_hdr hk).2.2.1⟩

theorem HeapInv.copyImage (hi : HeapInv n0 k0 f0 h0 h) {f : ℕ} (hf : f0 ≤ f ∧ f < h.nfrm)
    (v now : String) (c : Bool) :
    HeapInv n0 k0 f0 h0 (copyImage v now c h f).1 ∧ (copyImage v now c h f).2 = h.nfrm ∧
      (copyImage v now c h f).1.nfrm = h.nfrm + 1 := by
  cases c with
  | true =>
    refine ⟨?_, rfl, rfl⟩
    simp only [Corgi.DS.copyImage, if_true]
    have base : HeapInv n0 k0 f0 h0
        { h.alloc [h.mem (h.frm f).data, h.mem (h.frm f).err, h.mem (h.frm f).dq] with
          hdr := fun a =>
            if a = h.nhdr then h.hdr (h.frm f).pri else if a = h.nhdr + 1 then h.hdr (h.frm f).ext
            else if a = h.nhdr + 2 then h.hdr (h.frm f).errh else if a = h.nhdr + 3 then h.hdr (h.frm f).dqh
            else h.hdr a
          nhdr := h.nhdr + 4
          frm := Function.update h.frm h.nfrm
            { data := h.nmem, err := h.nmem + 1, dq := h.nmem + 2, pri := h.nhdr, ext := h.nhdr + 1,
              errh := h.nhdr + 2, dqh := h.nhdr + 3, filename := (h.frm f).filename }
          nfrm := h.nfrm + 1 } := by
      have ha := hi.alloc [h.mem (h.frm f).data, h.mem (h.frm f).err, h.mem (h.frm f).dq]
      have hm := hi.memLe
      have hh := hi.hdrLe
      have hfl := hi.frmLe
      refine ⟨ha.memLe, by show k0 ≤ h.nhdr + 4; omega, by show f0 ≤ h.nfrm + 1; omega, ha.agreeM, ?_, ?_, ?_, ?_⟩
      · intro a hlt
        show (if a = h.nhdr then _ else _) = _
        rw [if_neg (by omega), if_neg (by omega), if_neg (by omega), if_neg (by omega)]
        exact hi.agreeH a hlt
      · intro g hg
        show Function.update h.frm h.nfrm _ g = _
        rw [Function.update_of_ne (by omega)]
        exact hi.agreeF g hg
      · intro g hg1 hg2 k
        show n0 ≤ (Function.update h.frm h.nfrm _ g).addr k
        by_cases hg : g = h.nfrm
        · subst hg
          rw [Function.update_self]
          cases k <;> simp only [Frame.addr] <;> omega
        · rw [Function.update_of_ne hg]
          refine hi.planes g hg1 ?_ k
          have : g < h.nfrm + 1 := hg2
          omega
      · intro g hg1 hg2 k
        show k0 ≤ (Function.update h.frm h.nfrm _ g).hdrAddr k
        by_cases hg : g = h.nfrm
        · subst hg
          rw [Function.update_self]
          cases k <;> simp only [Frame.hdrAddr] <;> omega
        · rw [Function.update_of_ne hg]
          refine hi.hdrs g hg1 ?_ k
          have : g < h.nfrm + 1 := hg2
          omega
    have hx := base.hdrs h.nfrm hi.frmLe (by show h.nfrm < h.nfrm + 1; omega) .ext
    exact (base.setKey hx _ _).setKey hx _ _
  | false =>
    refine ⟨?_, rfl, rfl⟩
    simp only [Corgi.DS.copyImage, Bool.false_eq_true, if_false]
    have base : HeapInv n0 k0 f0 h0
        { h with frm := Function.update h.frm h.nfrm (h.frm f), nfrm := h.nfrm + 1 } := by
      have hfl := hi.frmLe
      refine ⟨hi.memLe, hi.hdrLe, by show f0 ≤ h.nfrm + 1; omega, hi.agreeM, hi.agreeH, ?_, ?_, ?_⟩
      · intro g hg
        show Function.update h.frm h.nfrm _ g = _
        rw [Function.update_of_ne (by omega)]
        exact hi.agreeF g hg
      · intro g hg1 hg2 k
        show n0 ≤ (Function.update h.frm h.nfrm _ g).addr k
        by_cases hg : g = h.nfrm
        · subst hg
          rw [Function.update_self]
          exact hi.planes f hf.1 hf.2 k
        · rw [Function.update_of_ne hg]
          refine hi.planes g hg1 ?_ k
          have : g < h.nfrm + 1 := hg2
          omega
      · intro g hg1 hg2 k
        show k0 ≤ (Function.update h.frm h.nfrm _ g).hdrAddr k
        by_cases hg : g = h.nfrm
        · subst hg
          rw [Function.update_self]
          exact hi.hdrs f hf.1 hf.2 k
        · rw [Function.update_of_ne hg]
          refine hi.hdrs g hg1 ?_ k
          have : g < h.nfrm + 1 := hg2
          omega
    have hx := base.hdrs h.nfrm hi.frmLe (by show h.nfrm < h.nfrm + 1; omega) .ext
    exact (base.setKey hx _ _).setKey hx _ _

theorem HeapInv.copyFrames (v now : String) (c : Bool) (fs : List ℕ) (hi : HeapInv n0 k0 f0 h0 h)
    (hf : ∀ f ∈ fs, f0 ≤ f ∧ f < h.nfrm) :
    HeapInv n0 k0 f0 h0 (copyFrames v now c h fs).1 ∧
      (∀ f ∈ (copyFrames v now c h fs).2, f0 ≤ f ∧ f < (copyFrames v now c h fs).1.nfrm) ∧
      h.nfrm ≤ (copyFrames v now c h fs).1.nfrm := by
  induction fs generalizing h with
  | nil => simp [Corgi.DS.copyFrames, hi]
  | cons f fs ih =>
    obtain ⟨a1, a2, a3⟩ := hi.copyImage (hf f (by simp)) v now c
    obtain ⟨b1, b2, b3⟩ := ih a1 (fun g hg => by
      have := hf g (by simp [hg])
      rw [a3]; omega)
    simp only [Corgi.DS.copyFrames]
    refine ⟨b1, ?_, by rw [a3] at b3; omega⟩
    intro g hg
    rcases List.mem_cons.1 hg with rfl | hg
    · rw [a2]
      rw [a3] at b3
      have := hi.frmLe
      exact ⟨this, by omega⟩
    · exact b2 g hg

theorem HeapInv.copyDataset (v now : String) (c : Bool) {d : Dataset} (hi : HeapInv n0 k0 f0 h0 h)
    (hd : DsInv n0 f0 h d) {h' : Heap V} {d' : Dataset}
    (hk : copyDataset v now c h d = .ok (h', d')) :
    HeapInv n0 k0 f0 h0 h' ∧ DsInv n0 f0 h' d' ∧ h.nfrm ≤ h'.nfrm := by
  unfold Corgi.DS.copyDataset at hk
  obtain ⟨a1, a2, a3⟩ := hi.copyFrames v now c d.frames hd.frames
  obtain ⟨b1, b2⟩ := a1.mkDataset a2 hk
  refine ⟨b1, b2, ?_⟩
  rw [(mkDataset_hdr hk).2.2.1]; exact a3

theorem updateHdr_frm (e : String) (es : List (String × String)) (h : Heap V) (f : ℕ) :
    (updateHdr e es h f).frm = h.frm ∧ (updateHdr e es h f).nfrm = h.nfrm ∧
    (updateHdr e es h f).mem = h.mem ∧ (updateHdr e es h f).nmem = h.nmem ∧
    (updateHdr e es h f).nhdr = h.nhdr := by
  unfold updateHdr
  have : ∀ g : Heap V, (es.foldl (fun h kv =>
      (h.setKey (h.frm f).ext kv.1 kv.2).setKey (h.frm f).errh kv.1 kv.2) g).frm = g.frm ∧
    (es.foldl (fun h kv =>
      (h.setKey (h.frm f).ext kv.1 kv.2).setKey (h.frm f).errh kv.1 kv.2) g).nfrm = g.nfrm ∧
    (es.foldl (fun h kv =>
      (h.setKey (h.frm f).ext kv.1 kv.2).setKey (h.frm f).errh kv.1 kv.2) g).mem = g.mem ∧
    (es.foldl (fun h kv =>
      (h.setKey (h.frm f).ext kv.1 kv.2).setKey (h.frm f).errh kv.1 kv.2) g).nmem = g.nmem ∧
    (es.foldl (fun h kv =>
      (h.setKey (h.frm f).ext kv.1 kv.2).setKey (h.frm f).errh kv.1 kv.2) g).nhdr = g.nhdr := by
    induction es with
    | nil => intro g; simp
    | cons kv es ih =>
      intro g
      rw [List.foldl_cons]
      exact ih _
  exact this _

theorem HeapInv.updateHdr (e : String) (es : List (String × String)) {f : ℕ}
    (hi : HeapInv n0 k0 f0 h0 h) (hf : f0 ≤ f ∧ f < h.nfrm) :
    HeapInv n0 k0 f0 h0 (updateHdr e es h f) := by
  unfold Corgi.DS.updateHdr
  have key : ∀ g : Heap V, HeapInv n0 k0 f0 h0 g → f < g.nfrm →
      HeapInv n0 k0 f0 h0 (es.foldl (fun h kv =>
        (h.setKey (h.frm f).ext kv.1 kv.2).setKey (h.frm f).errh kv.1 kv.2) g) := by
    induction es with
    | nil => intro g hg _; exact hg
    | cons kv es ih =>
      intro g hg hlt
      rw [List.foldl_cons]
      exact ih _ ((hg.setKey (hg.hdrs f hf.1 hlt .ext) _ _).setKey (hg.hdrs f hf.1 hlt .errh) _ _) hlt
  exact key _ (hi.addHistory (hi.hdrs f hf.1 hf.2 .ext) e) hf.2

theorem HeapInv.updateHdrs (e : String) (es : List (String × String)) (fs : List ℕ)
    (hi : HeapInv n0 k0 f0 h0 h) (hf : ∀ f ∈ fs, f0 ≤ f ∧ f < h.nfrm) :
    HeapInv n0 k0 f0 h0 (fs.foldl (Corgi.DS.updateHdr e es) h) ∧
      (fs.foldl (Corgi.DS.updateHdr e es) h).nfrm = h.nfrm := by
  induction fs generalizing h with
  | nil => exact ⟨hi, rfl⟩
  | cons f fs ih =>
    rw [List.foldl_cons]
    have h1 := (updateHdr_frm e es h f).2.1
    obtain ⟨a, b⟩ := ih (hi.updateHdr e es (hf f (by simp))) (fun g hg => by
      rw [h1]; exact hf g (by simp [hg]))
    exact ⟨a, by rw [b, h1]⟩

theorem DsInv.of_nfrm {h h' : Heap V} {d : Dataset} (hd : DsInv n0 f0 h d) (hn : h.nfrm ≤ h'.nfrm) :
    DsInv n0 f0 h' d :=
  ⟨fun f hf => ⟨(hd.frames f hf).1, by have := (hd.frames f hf).2; omega⟩, hd.cubes⟩

theorem HeapInv.update {d : Dataset} (hi : HeapInv n0 k0 f0 h0 h) (hd : DsInv n0 f0 h d) (e : String)
    (nd : Option (List (Plane V))) (ne : Option (List ℕ)) (nq : Option (List (Plane V)))
    (es : List (String × String)) (hne : ∀ l, ne = some l → ∀ a ∈ l, n0 ≤ a) :
    HeapInv n0 k0 f0 h0 (update h d e nd ne nq es).1 ∧
    DsInv n0 f0 (update h d e nd ne nq es).1 (update h d e nd ne nq es).2.1 ∧
    (update h d e nd ne nq es).1.nfrm = h.nfrm := by
  unfold Corgi.DS.update
  cases h1 : Corgi.DS.putCube h d.allData nd with
  | none => exact ⟨hi, hd, rfl⟩
  | some g1 =>
    obtain ⟨i1, j1, k1⟩ := hi.putCube (hd.cubes .data) h1
    have d1 : DsInv n0 f0 g1 d := hd.of_nfrm k1.symm.le
    simp only []
    cases h2 : putErr g1 d ne with
    | none => exact ⟨i1, d1, k1⟩
    | some r =>
      obtain ⟨g2, d2⟩ := r
      obtain ⟨i2, e2, k2⟩ : HeapInv n0 k0 f0 h0 g2 ∧ DsInv n0 f0 g2 d2 ∧ g2.nfrm = h.nfrm := by
        cases ne with
        | none =>
          simp only [putErr, Option.some.injEq, Prod.mk.injEq] at h2
          obtain ⟨rfl, rfl⟩ := h2
          exact ⟨i1, d1, k1⟩
        | some l =>
          simp only [putErr] at h2
          split at h2
          · simp only [Option.some.injEq, Prod.mk.injEq] at h2
            obtain ⟨rfl, rfl⟩ := h2
            refine ⟨i1.pointErr (fun f hf => (hd.frames f hf).1) (hne l rfl), ⟨d1.frames, ?_⟩, k1⟩
            intro k a ha
            cases k
            · exact hd.cubes .data a ha
            · exact hne l rfl a ha
            · exact hd.cubes .dq a ha
          · cases h2
      simp only []
      cases h3 : Corgi.DS.putCube g2 d2.allDq nq with
      | none => exact ⟨i2, e2, k2⟩
      | some g3 =>
        obtain ⟨i3, j3, k3⟩ := i2.putCube (e2.cubes .dq) h3
        have d3 : DsInv n0 f0 g3 d2 := e2.of_nfrm k3.symm.le
        obtain ⟨a1, a2⟩ := i3.updateHdrs e es d2.frames d3.frames
        exact ⟨a1, d3.of_nfrm a2.symm.le, a2.trans (k3.trans k2)⟩

/-- The invariant over all operations on datasets above the bounds. -/
theorem Op.run_inv {s : Heap V × List Dataset} (o : Op V) (hi : HeapInv n0 k0 f0 h0 s.1)
    (hd : ∀ d ∈ s.2, DsInv n0 f0 s.1 d) :
    HeapInv n0 k0 f0 h0 (o.run s).1 ∧ ∀ d ∈ (o.run s).2, DsInv n0 f0 (o.run s).1 d := by
  obtain ⟨h, l⟩ := s
  have get : ∀ {j : ℕ} {d : Dataset}, l[j]? = some d → DsInv n0 f0 h d := fun hj =>
    hd _ (List.mem_of_getElem? hj)
  have getf : ∀ {d : Dataset} {i f : ℕ}, DsInv n0 f0 h d → d.frames[i]? = some f →
      f0 ≤ f ∧ f < h.nfrm := fun hd hi => hd.frames _ (List.mem_of_getElem? hi)
  cases o with
  | pixel j o =>
    simp only [Op.run]
    cases hj : l[j]? with
    | none => exact ⟨hi, hd⟩
    | some d =>
      cases o with
      | frame k i p v =>
        simp only [PixOp.run]
        cases hf : d.frames[i]? with
        | none => exact ⟨hi, hd⟩
        | some f =>
          have := getf (get hj) hf
          exact ⟨hi.setPix (hi.planes f this.1 this.2 k) p v, fun d' hd' => (hd d' hd').of_nfrm (le_refl _)⟩
      | cube k i p v =>
        simp only [PixOp.run]
        cases hf : (d.cube k)[i]? with
        | none => exact ⟨hi, hd⟩
        | some a => exact ⟨hi.setPix ((get hj).cubes k a (List.mem_of_getElem? hf)) p v, fun d' hd' => (hd d' hd').of_nfrm (le_refl _)⟩
  | card j k i key value =>
    simp only [Op.run]
    cases hj : l[j]? with
    | none => exact ⟨hi, hd⟩
    | some d =>
      cases hf : d.frames[i]? with
      | none => simp only [hf]; exact ⟨hi, hd⟩
      | some f =>
        simp only [hf]
        have := getf (get hj) hf
        exact ⟨hi.setKey (hi.hdrs f this.1 this.2 k) _ _, fun d' hd' => (hd d' hd').of_nfrm (le_refl _)⟩
  | history j k i e =>
    simp only [Op.run]
    cases hj : l[j]? with
    | none => exact ⟨hi, hd⟩
    | some d =>
      cases hf : d.frames[i]? with
      | none => simp only [hf]; exact ⟨hi, hd⟩
      | some f =>
        simp only [hf]
        have := getf (get hj) hf
        exact ⟨hi.addHistory (hi.hdrs f this.1 this.2 k) _, fun d' hd' => (hd d' hd').of_nfrm (le_refl _)⟩
  | rename j i name =>
    simp only [Op.run]
    cases hj : l[j]? with
    | none => exact ⟨hi, hd⟩
    | some d =>
      cases hf : d.frames[i]? with
      | none => simp only [hf]; exact ⟨hi, hd⟩
      | some f =>
        simp only [hf]
        have hff := getf (get hj) hf
        refine ⟨hi.setFrm _ ?_ ?_ ?_, fun d' hd' => (hd d' hd').of_nfrm (le_refl _)⟩
        · intro g hg
          rw [Function.update_of_ne]
          rintro rfl; exact absurd hff.1 (Nat.not_le.2 hg)
        · intro g h1 h2 k
          by_cases hg : g = f
          · subst hg; rw [Function.update_self]
            have := hi.planes g h1 h2 k
            cases k <;> exact this
          · rw [Function.update_of_ne hg]; exact hi.planes g h1 h2 k
        · intro g h1 h2 k
          by_cases hg : g = f
          · subst hg; rw [Function.update_self]
            have := hi.hdrs g h1 h2 k
            cases k <;> exact this
          · rw [Function.update_of_ne hg]; exact hi.hdrs g h1 h2 k
  | update j e nd ne nq es =>
    simp only [Op.run]
    cases hj : l[j]? with
    | none => exact ⟨hi, hd⟩
    | some d =>
      simp only []
      have i1 : HeapInv n0 k0 f0 h0 (h.alloc (ne.getD [])) ∧ (h.alloc (ne.getD [])).nfrm = h.nfrm :=
        ⟨hi.alloc _, rfl⟩
      have hne : ∀ l', (ne.map fun ps => List.range' h.nmem ps.length) = some l' → ∀ a ∈ l', n0 ≤ a := by
        intro l' hl a ha
        cases ne with
        | none => cases hl
        | some ps =>
          cases hl
          exact mem_range'_le ha hi.memLe
      obtain ⟨a1, a2, a3⟩ := i1.1.update ((get hj).of_nfrm i1.2.symm.le) e nd _ nq es hne
      refine ⟨a1, ?_⟩
      intro d' hd'
      rcases List.mem_or_eq_of_mem_set hd' with hd' | rfl
      · exact (hd d' hd').of_nfrm (by rw [a3, i1.2])
      · exact a2
  | newErr j ps =>
    simp only [Op.run]
    cases hj : l[j]? with
    | none => exact ⟨hi, hd⟩
    | some d =>
      simp only []
      have hr : ∀ a ∈ List.range' h.nmem ps.length, n0 ≤ a := fun a ha => mem_range'_le ha hi.memLe
      refine ⟨(hi.alloc ps).pointErr (fun f hf => ((get hj).frames f hf).1) hr, ?_⟩
      intro d' hd'
      rcases List.mem_or_eq_of_mem_set hd' with hd' | rfl
      · exact (hd d' hd').of_nfrm (le_refl _)
      · refine ⟨(get hj).frames, ?_⟩
        intro k a ha
        cases k
        · exact (get hj).cubes .data a ha
        · exact hr a ha
        · exact (get hj).cubes .dq a ha
  | select j idx =>
    simp only [Op.run]
    cases hj : l[j]? with
    | none => exact ⟨hi, hd⟩
    | some d =>
      cases hs : Corgi.DS.select h d idx with
      | error e => simp only [hs]; exact ⟨hi, hd⟩
      | ok r =>
        obtain ⟨h', d'⟩ := r
        simp only [hs]
        obtain ⟨a1, a2, a3⟩ := hi.select (get hj) hs
        refine ⟨a1, ?_⟩
        intro x hx
        rcases List.mem_append.1 hx with hx | hx
        · exact (hd x hx).of_nfrm a3.symm.le
        · simp at hx; subst hx; exact a2
  | copy j v now c =>
    simp only [Op.run]
    cases hj : l[j]? with
    | none => exact ⟨hi, hd⟩
    | some d =>
      cases hs : Corgi.DS.copyDataset v now c h d with
      | error e => simp only [hs]; exact ⟨hi, hd⟩
      | ok r =>
        obtain ⟨h', d'⟩ := r
        simp only [hs]
        obtain ⟨a1, a2, a3⟩ := hi.copyDataset v now c (get hj) hs
        refine ⟨a1, ?_⟩
        intro x hx
        rcases List.mem_append.1 hx with hx | hx
        · exact (hd x hx).of_nfrm a3
        · simp at hx; subst hx; exact a2

theorem runOps_inv (ops : List (Op V)) {s : Heap V × List Dataset} (hi : HeapInv n0 k0 f0 h0 s.1)
    (hd : ∀ d ∈ s.2, DsInv n0 f0 s.1 d) : HeapInv n0 k0 f0 h0 (ops.foldl Op.run s).1 := by
  induction ops generalizing s with
  | nil => exact hi
  | cons o ops ih =>
    rw [List.foldl_cons]
    obtain ⟨a, b⟩ := Op.run_inv o hi hd
    exact ih a b

end Corgi.DS

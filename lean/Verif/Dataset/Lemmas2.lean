import Verif.Dataset.Fence
import Mathlib.Data.List.Nodup

namespace Corgi.DS

variable {V : Type}

/-! ### pixel operations -/

theorem PixOp.run_frm (d : Dataset) (h : Heap V) (o : PixOp V) : (o.run d h).frm = h.frm := by
  cases o <;> simp only [PixOp.run] <;> split <;> rfl

theorem readFrame_eq_readCube {h : Heap V} {d : Dataset} (hl : Linked h d) (k : Kind) (i : ℕ)
    (p : List ℕ) : readFrame h d k i p = readCube h d k i p := by
  unfold readFrame readCube
  cases hf : d.frames[i]? with
  | none =>
    have h1 : d.frames.length ≤ i := by simpa using hf
    rw [List.getElem?_eq_none (by rw [hl.len k]; exact h1)]
    rfl
  | some f => rw [hl.link k i f hf]; rfl

theorem Linked.of_frm {h h' : Heap V} {d : Dataset} (hl : Linked h d) (hf : h'.frm = h.frm) :
    Linked h' d := ⟨hl.len, by rw [hf]; exact hl.link⟩

theorem setPix_val (h : Heap V) (a b : ℕ) (p q : List ℕ) (v : V) :
    ((h.setPix a p v).mem b).val q = if b = a ∧ q = p then v else (h.mem b).val q := by
  unfold Heap.setPix
  dsimp only
  by_cases hb : b = a
  · subst hb
    rw [Function.update_self]
    by_cases hq : q = p
    · subst hq; simp
    · simp [hq]
  · simp [hb]

/-- Writing plane `(k,i)` of a separate dataset changes exactly that plane. -/
theorem readCube_setPix {h : Heap V} {d : Dataset} (hs : Separate d) {k : Kind} {i a : ℕ}
    (ha : (d.cube k)[i]? = some a) (p : List ℕ) (v : V) (k' : Kind) (i' : ℕ) (p' : List ℕ) :
    readCube (h.setPix a p v) d k' i' p' =
      if k' = k ∧ i' = i ∧ p' = p then some v else readCube h d k' i' p' := by
  unfold readCube
  cases hb : (d.cube k')[i']? with
  | none =>
    have : ¬ (k' = k ∧ i' = i ∧ p' = p) := by
      rintro ⟨rfl, rfl, _⟩; rw [ha] at hb; cases hb
    rw [if_neg this]; rfl
  | some b =>
    simp only [Option.map_some, setPix_val]
    by_cases hba : b = a
    · subst hba
      obtain ⟨rfl, rfl⟩ := hs k i k' i' b ha hb
      by_cases hp : p' = p <;> simp [hp]
    · have : ¬ (k' = k ∧ i' = i ∧ p' = p) := by
        rintro ⟨rfl, rfl, _⟩
        rw [ha] at hb; exact hba (Option.some.inj hb).symm
      rw [if_neg this, if_neg (fun h => hba h.1)]

theorem readCube_run {h : Heap V} {d : Dataset} (hl : Linked h d) (hs : Separate d)
    (σ : Kind → ℕ → List ℕ → V)
    (hσ : ∀ k i p, i < d.frames.length → readCube h d k i p = some (σ k i p)) (o : PixOp V) :
    ∀ k i p, i < d.frames.length → readCube (o.run d h) d k i p = some (o.expect σ k i p) := by
  intro k' i' p' hi'
  cases o with
  | frame k i p v =>
    simp only [PixOp.run, PixOp.expect]
    cases hf : d.frames[i]? with
    | none =>
      have : ¬ (k' = k ∧ i' = i ∧ p' = p) := by
        rintro ⟨rfl, rfl, _⟩
        rw [List.getElem?_eq_getElem hi'] at hf; cases hf
      rw [if_neg this]; exact hσ k' i' p' hi'
    | some f =>
      simp only []
      rw [readCube_setPix hs (hl.link k i f hf)]
      split
      · rfl
      · exact hσ k' i' p' hi'
  | cube k i p v =>
    simp only [PixOp.run, PixOp.expect]
    cases hf : (d.cube k)[i]? with
    | none =>
      have : ¬ (k' = k ∧ i' = i ∧ p' = p) := by
        rintro ⟨rfl, rfl, _⟩
        rw [List.getElem?_eq_getElem (by rw [hl.len k']; exact hi')] at hf; cases hf
      rw [if_neg this]; exact hσ k' i' p' hi'
    | some a =>
      simp only []
      rw [readCube_setPix hs hf]
      split
      · rfl
      · exact hσ k' i' p' hi'

/-! ### observation of old objects -/

theorem viewFrame_of_inv {n0 k0 f0 : ℕ} {h0 h : Heap V} (hi : HeapInv n0 k0 f0 h0 h) {f : ℕ}
    (hf : f < f0) (hp : ∀ k, (h0.frm f).addr k < n0) (hh : ∀ k, (h0.frm f).hdrAddr k < k0) :
    viewFrame h f = viewFrame h0 f := by
  unfold viewFrame
  dsimp only
  have a1 := hi.agreeM _ (hp .data)
  have a2 := hi.agreeM _ (hp .err)
  have a3 := hi.agreeM _ (hp .dq)
  have b1 := hi.agreeH _ (hh .pri)
  have b2 := hi.agreeH _ (hh .ext)
  have b3 := hi.agreeH _ (hh .errh)
  have b4 := hi.agreeH _ (hh .dqh)
  simp only [Frame.addr, Frame.hdrAddr] at a1 a2 a3 b1 b2 b3 b4
  rw [hi.agreeF f hf, a1, a2, a3, b1, b2, b3, b4]

theorem Valid.hdrAddr {h : Heap V} {d : Dataset} (hv : Valid h d) {f : ℕ} (hf : f ∈ d.frames)
    (k : HKind) : (h.frm f).hdrAddr k < h.nhdr := by
  obtain ⟨a, b, c, e⟩ := hv.header f hf
  cases k
  · exact a
  · exact b
  · exact c
  · exact e

theorem HeapInv.refl (h : Heap V) : HeapInv h.nmem h.nhdr h.nfrm h h :=
  ⟨le_refl _, le_refl _, le_refl _, fun _ _ => rfl, fun _ _ => rfl, fun _ _ => rfl,
    fun f h1 h2 => by omega, fun f h1 h2 => by omega⟩

/-! ### copying -/

/-- The stamps written by `Image.copy`. -/
def stampHdr (v now : String) (x : Hdr) : Hdr :=
  { x with card := Function.update (Function.update x.card "DRPVERSN" (some v)) "DRPCTIME" (some now) }

theorem copyFrames_frames (v now : String) (c : Bool) (h : Heap V) (fs : List ℕ) :
    (copyFrames v now c h fs).2 = List.range' h.nfrm fs.length ∧
      (copyFrames v now c h fs).1.nfrm = h.nfrm + fs.length := by
  induction fs generalizing h with
  | nil => simp [copyFrames]
  | cons f fs ih =>
    have h1 : (copyImage v now c h f).2 = h.nfrm ∧ (copyImage v now c h f).1.nfrm = h.nfrm + 1 := by
      cases c <;> exact ⟨rfl, rfl⟩
    obtain ⟨a, b⟩ := ih (copyImage v now c h f).1
    simp only [copyFrames]
    rw [a, b, h1.1, h1.2]
    constructor
    · rw [List.length_cons, List.range'_succ]
    · simp; omega

/-- Deep copy of a frame that may lie below the bounds. -/
theorem HeapInv.copyImage_deep {n0 k0 f0 : ℕ} {h0 h : Heap V} (hi : HeapInv n0 k0 f0 h0 h) (f : ℕ)
    (v now : String) : HeapInv n0 k0 f0 h0 (Corgi.DS.copyImage v now true h f).1 := by
  simp only [Corgi.DS.copyImage, if_true]
  have base : HeapInv n0 k0 f0 h0
      { h.alloc [h.mem (h.frm f).data, h.mem (h.frm f).err, h.mem (h.frm f).dq] with
        hdr := fun a =>
          if a = h.nhdr then h.hdr (h.frm f).pri else if a = h.nhdr + 1 then h.hdr (h.frm f).ext
          else if a = h.nhdr + 2 then h.hdr (h.frm f).errh else if a = h.nhdr + 3 then h.hdr (h.frm f).dqh
          else h.hdr a
        nhdr := h.nhdr + 4
        frm := Function.update h.frm h.nfrm
          { data := h.nmem, err := h.nmem + 1, dq := h.nmem + 2, pri := h.nhdr, ext := h.nhdr + 1,
            errh := h.nhdr + 2, dqh := h.nhdr + 3, filename := (h.frm f).filename }
        nfrm := h.nfrm + 1 } := by
    have ha := hi.alloc [h.mem (h.frm f).data, h.mem (h.frm f).err, h.mem (h.frm f).dq]
    have hm := hi.memLe
    have hh := hi.hdrLe
    have hfl := hi.frmLe
    refine ⟨ha.memLe, by show k0 ≤ h.nhdr + 4; omega, by show f0 ≤ h.nfrm + 1; omega, ha.agreeM, ?_, ?_, ?_, ?_⟩
    · intro a hlt
      show (if a = h.nhdr then _ else _) = _
      rw [if_neg (by omega), if_neg (by omega), if_neg (by omega), if_neg (by omega)]
      exact hi.agreeH a hlt
    · intro g hg
      show Function.update h.frm h.nfrm _ g = _
      rw [Function.update_of_ne (by omega)]
      exact hi.agreeF g hg
    · intro g hg1 hg2 k
      show n0 ≤ (Function.update h.frm h.nfrm _ g).addr k
      by_cases hg : g = h.nfrm
      · subst hg
        rw [Function.update_self]
        cases k <;> simp only [Frame.addr] <;> omega
      · rw [Function.update_of_ne hg]
        refine hi.planes g hg1 ?_ k
        have : g < h.nfrm + 1 := hg2
        omega
    · intro g hg1 hg2 k
      show k0 ≤ (Function.update h.frm h.nfrm _ g).hdrAddr k
      by_cases hg : g = h.nfrm
      · subst hg
        rw [Function.update_self]
        cases k <;> simp only [Frame.hdrAddr] <;> omega
      · rw [Function.update_of_ne hg]
        refine hi.hdrs g hg1 ?_ k
        have : g < h.nfrm + 1 := hg2
        omega
  have hx := base.hdrs h.nfrm hi.frmLe (by show h.nfrm < h.nfrm + 1; omega) .ext
  exact (base.setKey hx _ _).setKey hx _ _

theorem HeapInv.copyFrames_deep {n0 k0 f0 : ℕ} {h0 h : Heap V} (hi : HeapInv n0 k0 f0 h0 h)
    (v now : String) (fs : List ℕ) : HeapInv n0 k0 f0 h0 (Corgi.DS.copyFrames v now true h fs).1 := by
  induction fs generalizing h with
  | nil => exact hi
  | cons f fs ih =>
    simp only [Corgi.DS.copyFrames]
    exact ih (hi.copyImage_deep f v now)

theorem HeapInv.copyDataset_deep {n0 k0 f0 : ℕ} {h0 h : Heap V} (hi : HeapInv n0 k0 f0 h0 h)
    (v now : String) {d : Dataset} {h' : Heap V} {d' : Dataset}
    (hk : Corgi.DS.copyDataset v now true h d = .ok (h', d')) :
    HeapInv n0 k0 f0 h0 h' ∧ DsInv n0 f0 h' d' := by
  unfold Corgi.DS.copyDataset at hk
  obtain ⟨a, b⟩ := copyFrames_frames v now true h d.frames
  refine (hi.copyFrames_deep v now d.frames).mkDataset ?_ hk
  intro f hf
  change f ∈ (Corgi.DS.copyFrames v now true h d.frames).2 at hf
  rw [a] at hf
  obtain ⟨i, h1, rfl⟩ := List.mem_range'.1 hf
  have := hi.frmLe
  change f0 ≤ _ ∧ _ < (Corgi.DS.copyFrames v now true h d.frames).1.nfrm
  rw [b]
  omega

theorem copyImage_view (v now : String) (h : Heap V) (f : ℕ) :
    viewFrame (copyImage v now true h f).1 h.nfrm =
      { viewFrame h f with ext := stampHdr v now (viewFrame h f).ext } := by
  have e0 : (h.alloc [h.mem (h.frm f).data, h.mem (h.frm f).err, h.mem (h.frm f).dq]).mem h.nmem =
      h.mem (h.frm f).data := alloc_new h _ (i := 0) (by simp)
  have e1 : (h.alloc [h.mem (h.frm f).data, h.mem (h.frm f).err, h.mem (h.frm f).dq]).mem (h.nmem + 1) =
      h.mem (h.frm f).err := alloc_new h _ (i := 1) (by simp)
  have e2 : (h.alloc [h.mem (h.frm f).data, h.mem (h.frm f).err, h.mem (h.frm f).dq]).mem (h.nmem + 2) =
      h.mem (h.frm f).dq := alloc_new h _ (i := 2) (by simp)
  simp only [copyImage, if_true, viewFrame, Heap.setKey, Function.update_self, e0, e1, e2, stampHdr,
    FrameView.mk.injEq, true_and, and_true]
  refine ⟨?_, ?_, ?_⟩
  · rw [Function.update_of_ne (by omega), Function.update_of_ne (by omega)]; simp
  · simp
  · rw [Function.update_of_ne (by omega), Function.update_of_ne (by omega),
      Function.update_of_ne (by omega), Function.update_of_ne (by omega)]
    simp

theorem copyImage_bounds (v now : String) (h : Heap V) (f : ℕ) :
    (∀ k, ((copyImage v now true h f).1.frm h.nfrm).addr k < (copyImage v now true h f).1.nmem) ∧
    (∀ k, ((copyImage v now true h f).1.frm h.nfrm).hdrAddr k < (copyImage v now true h f).1.nhdr) ∧
    (copyImage v now true h f).1.nfrm = h.nfrm + 1 := by
  refine ⟨?_, ?_, rfl⟩
  · intro k
    simp only [copyImage, if_true, Heap.setKey, Function.update_self]
    cases k <;> simp [Frame.addr]
  · intro k
    simp only [copyImage, if_true, Heap.setKey, Function.update_self]
    cases k <;> simp [Frame.hdrAddr]

theorem copyFrames_view (v now : String) (h : Heap V) (fs : List ℕ)
    (hf : ∀ f ∈ fs, f < h.nfrm) (hp : ∀ f ∈ fs, ∀ k, (h.frm f).addr k < h.nmem)
    (hh : ∀ f ∈ fs, ∀ k, (h.frm f).hdrAddr k < h.nhdr) :
    ∀ i (hi : i < fs.length), viewFrame (copyFrames v now true h fs).1 (h.nfrm + i) =
      { viewFrame h fs[i] with ext := stampHdr v now (viewFrame h fs[i]).ext } := by
  induction fs generalizing h with
  | nil => intro i hi; simp at hi
  | cons f fs ih =>
    have hinv := (HeapInv.refl h).copyImage_deep f v now
    obtain ⟨c1, c2, c3⟩ := copyImage_bounds v now h f
    simp only [copyFrames]
    generalize hg : (copyImage v now true h f).1 = g at *
    have hview : ∀ f' ∈ fs, viewFrame g f' = viewFrame h f' := fun f' hf' =>
      viewFrame_of_inv hinv (hf f' (by simp [hf'])) (hp f' (by simp [hf'])) (hh f' (by simp [hf']))
    have hfrm : ∀ f' ∈ fs, g.frm f' = h.frm f' := fun f' hf' => hinv.agreeF _ (hf f' (by simp [hf']))
    have hrest := ih g (fun f' hf' => by have := hf f' (by simp [hf']); omega)
      (fun f' hf' k => by
        rw [hfrm f' hf']
        have := hp f' (by simp [hf']) k
        have := hinv.memLe; omega)
      (fun f' hf' k => by
        rw [hfrm f' hf']
        have := hh f' (by simp [hf']) k
        have := hinv.hdrLe; omega)
    intro i hi
    cases i with
    | zero =>
      have hin2 := (HeapInv.refl g).copyFrames_deep v now fs
      have := viewFrame_of_inv hin2 (f := h.nfrm) (by omega) c1 c2
      rw [Nat.add_zero, this, ← hg, copyImage_view]
      simp
    | succ i =>
      have := hrest i (by simpa using hi)
      rw [c3] at this
      rw [show h.nfrm + (i + 1) = h.nfrm + 1 + i by omega, this]
      simp only [List.getElem_cons_succ]
      rw [hview _ (List.getElem_mem _)]

theorem mkDataset_view {h h' : Heap V} {fs : List ℕ} {d : Dataset} (hn : fs.Nodup)
    (hk : mkDataset h fs = .ok (h', d)) {f : ℕ} (hf : f ∈ fs) : viewFrame h' f = viewFrame h f := by
  have hl := mkDataset_linked hn hk
  have hc := mkDataset_cube hk
  have hfr := mkDataset_frames hk
  obtain ⟨i, hi, rfl⟩ := List.getElem_of_mem hf
  have haddr : ∀ k, (h'.frm fs[i]).addr k = h.nmem + k.off * fs.length + i := by
    intro k
    have := hl.link k i fs[i] (by rw [hfr]; exact List.getElem?_eq_getElem hi)
    rw [hc, cube_getElem] at this
    exact this.2
  obtain ⟨a1, a2, a3, a4, a5⟩ := mkDataset_frm_hdr hk fs[i]
  have hh := (mkDataset_hdr hk).1
  unfold viewFrame
  dsimp only
  rw [a1, a2, a3, a4, a5, hh]
  have h1 := mkDataset_content hk .data hi
  have h2 := mkDataset_content hk .err hi
  have h3 := mkDataset_content hk .dq hi
  rw [← haddr] at h1 h2 h3
  simp only [Frame.addr] at h1 h2 h3
  rw [h1, h2, h3]

/-! ### shallow copies -/

theorem copyFrames_shallow (v now : String) (h : Heap V) (fs : List ℕ) (hf : ∀ f ∈ fs, f < h.nfrm) :
    (copyFrames v now false h fs).1.mem = h.mem ∧ (copyFrames v now false h fs).1.nmem = h.nmem ∧
    (copyFrames v now false h fs).1.nhdr = h.nhdr ∧
    (∀ f < h.nfrm, (copyFrames v now false h fs).1.frm f = h.frm f) ∧
    (∀ i (hi : i < fs.length), (copyFrames v now false h fs).1.frm (h.nfrm + i) = h.frm fs[i]) ∧
    (∀ a, (∀ f ∈ fs, (h.frm f).ext ≠ a) → (copyFrames v now false h fs).1.hdr a = h.hdr a) ∧
    (∀ f ∈ fs, ((copyFrames v now false h fs).1.hdr (h.frm f).ext).card "DRPCTIME" = some now) ∧
    (∀ a key, key ≠ "DRPVERSN" → key ≠ "DRPCTIME" →
      ((copyFrames v now false h fs).1.hdr a).card key = (h.hdr a).card key) := by
  induction fs generalizing h with
  | nil => simp [copyFrames]
  | cons f fs ih =>
    simp only [copyFrames]
    have e : (copyImage v now false h f).1 =
        (({ h with frm := Function.update h.frm h.nfrm (h.frm f), nfrm := h.nfrm + 1 } : Heap V).setKey
          (h.frm f).ext "DRPVERSN" v).setKey (h.frm f).ext "DRPCTIME" now := by
      simp [copyImage, Heap.setKey]
    generalize hg : (copyImage v now false h f).1 = g at *
    have gf : g.frm = Function.update h.frm h.nfrm (h.frm f) := by rw [e]; rfl
    have gn : g.nfrm = h.nfrm + 1 := by rw [e]; rfl
    have gm : g.mem = h.mem ∧ g.nmem = h.nmem ∧ g.nhdr = h.nhdr := by rw [e]; exact ⟨rfl, rfl, rfl⟩
    have gold : ∀ f' < h.nfrm, g.frm f' = h.frm f' := fun f' hf' => by
      rw [gf, Function.update_of_ne (by omega)]
    have gh : ∀ a, a ≠ (h.frm f).ext → g.hdr a = h.hdr a := by
      intro a ha
      rw [e]
      simp only [Heap.setKey]
      rw [Function.update_of_ne ha, Function.update_of_ne ha]
    have gx : (g.hdr (h.frm f).ext).card "DRPCTIME" = some now := by
      rw [e]; simp [Heap.setKey]
    have gk : ∀ a key, key ≠ "DRPVERSN" → key ≠ "DRPCTIME" → (g.hdr a).card key = (h.hdr a).card key := by
      intro a key h1 h2
      by_cases ha : a = (h.frm f).ext
      · rw [e, ha]
        simp [Heap.setKey, h1, h2]
      · rw [gh a ha]
    obtain ⟨i1, i2, i3, i4, i5, i6, i7, i8⟩ := ih g (fun f' hf' => by
      have := hf f' (by simp [hf']); omega)
    have gfs : ∀ f' ∈ fs, g.frm f' = h.frm f' := fun f' hf' => gold f' (hf f' (by simp [hf']))
    refine ⟨i1.trans gm.1, i2.trans gm.2.1, i3.trans gm.2.2, ?_, ?_, ?_, ?_, ?_⟩
    · intro f' hf'
      rw [i4 f' (by omega), gold f' hf']
    · intro i hi
      cases i with
      | zero =>
        rw [Nat.add_zero, i4 _ (by omega), gf, Function.update_self]
        simp
      | succ i =>
        have := i5 i (by simpa using hi)
        rw [gn] at this
        rw [show h.nfrm + (i + 1) = h.nfrm + 1 + i by omega, this]
        simp only [List.getElem_cons_succ]
        exact gfs _ (List.getElem_mem _)
    · intro a ha
      rw [i6 a (fun f' hf' => by rw [gfs f' hf']; exact ha f' (by simp [hf']))]
      exact gh a (fun hh => ha f (by simp) hh.symm)
    · intro f' hf'
      rcases List.mem_cons.1 hf' with rfl | hf'
      · by_cases hex : ∃ g' ∈ fs, (h.frm g').ext = (h.frm f').ext
        · obtain ⟨g', h1, h2⟩ := hex
          have := i7 g' h1
          rw [gfs g' h1, h2] at this
          exact this
        · rw [i6 (h.frm f').ext (fun g' hg' hh => hex ⟨g', hg', by rw [← gfs g' hg']; exact hh⟩)]
          exact gx
      · have := i7 f' hf'
        rw [gfs f' hf'] at this
        exact this
    · intro a key h1 h2
      rw [i8 a key h1 h2, gk a key h1 h2]

/-- A shallow copy, seen from the pixels: the copy's planes are new. -/
theorem copyDataset_shallow_inv (v now : String) {h : Heap V} {d : Dataset}
    (hf : ∀ f ∈ d.frames, f < h.nfrm) {h' : Heap V} {d' : Dataset}
    (hk : copyDataset v now false h d = .ok (h', d')) :
    HeapInv h.nmem 0 h.nfrm h h' ∧ DsInv h.nmem h.nfrm h' d' := by
  unfold copyDataset at hk
  obtain ⟨a, b⟩ := copyFrames_frames v now false h d.frames
  obtain ⟨s1, s2, s3, s4, s5, -, -, -⟩ := copyFrames_shallow v now h d.frames hf
  generalize hg : copyFrames v now false h d.frames = gg at *
  obtain ⟨g, fs⟩ := gg
  simp only at a b s1 s2 s3 s4 s5 hk
  have hn : fs.Nodup := by rw [a]; exact List.nodup_range'
  have hl := mkDataset_linked hn hk
  have hc := mkDataset_cube hk
  have hfr := mkDataset_frames hk
  obtain ⟨m1, m2, m3, m4⟩ := mkDataset_hdr hk
  have hin : ∀ f, h.nfrm ≤ f → f < h'.nfrm → f ∈ fs := by
    intro f h1 h2
    rw [a, List.mem_range']
    exact ⟨f - h.nfrm, by rw [m3, b] at h2; omega, by omega⟩
  have hcub : ∀ k, ∀ x ∈ d'.cube k, h.nmem ≤ x := by
    intro k x hx
    rw [hc] at hx
    exact mem_range'_le hx (by rw [s2]; omega)
  constructor
  · refine ⟨by rw [← s2]; exact m4, Nat.zero_le _, by rw [m3, b]; omega, ?_, fun a ha => by omega, ?_, ?_, ?_⟩
    · intro x hx
      rw [mkDataset_old hk (by rw [s2]; exact hx), s1]
    · intro f hlt
      rw [mkDataset_frm_notin hk, s4 f hlt]
      intro hm
      rw [a, List.mem_range'] at hm
      obtain ⟨i, _, rfl⟩ := hm
      omega
    · intro f h1 h2 k
      obtain ⟨i, hi, rfl⟩ := List.getElem_of_mem (hin f h1 h2)
      have := hl.link k i fs[i] (by rw [hfr]; exact List.getElem?_eq_getElem hi)
      exact hcub k _ (List.mem_of_getElem? this)
    · intro f _ _ k; exact Nat.zero_le _
  · refine ⟨?_, hcub⟩
    rw [hfr, m3]
    intro f hfm
    rw [a, List.mem_range'] at hfm
    obtain ⟨i, hi, rfl⟩ := hfm
    rw [b]; omega

/-! ### filling a cube -/

theorem fill_frm (h : Heap V) (as : List ℕ) (ps : List (Plane V)) :
    (h.fill as ps).frm = h.frm ∧ (h.fill as ps).hdr = h.hdr ∧ (h.fill as ps).nmem = h.nmem := by
  induction as generalizing h ps with
  | nil => simp [Heap.fill]
  | cons a as ih =>
    cases ps with
    | nil => simp [Heap.fill]
    | cons p ps => simp only [Heap.fill]; exact ih _ ps

theorem fill_notin (h : Heap V) (as : List ℕ) (ps : List (Plane V)) {a : ℕ} (ha : a ∉ as) :
    (h.fill as ps).mem a = h.mem a := by
  induction as generalizing h ps with
  | nil => simp [Heap.fill]
  | cons b as ih =>
    cases ps with
    | nil => simp [Heap.fill]
    | cons p ps =>
      simp only [Heap.fill]
      rw [ih _ _ (fun h => ha (by simp [h]))]
      show Function.update h.mem b p a = _
      rw [Function.update_of_ne (fun h => ha (by simp [h]))]

theorem fill_in (h : Heap V) (as : List ℕ) (ps : List (Plane V)) (hn : as.Nodup)
    (hl : as.length = ps.length) {i : ℕ} (hi : i < as.length) :
    (h.fill as ps).mem as[i] = ps[i] := by
  induction as generalizing h ps i with
  | nil => simp at hi
  | cons b as ih =>
    obtain ⟨p, ps, rfl⟩ : ∃ d ds', ps = d :: ds' := by cases ps <;> simp at hl ⊢
    simp only [List.nodup_cons] at hn
    simp only [Heap.fill]
    cases i with
    | zero =>
      simp only [List.getElem_cons_zero]
      rw [fill_notin _ _ _ hn.1]
      show Function.update h.mem b p b = _
      rw [Function.update_self]
    | succ i =>
      simp only [List.getElem_cons_succ]
      exact ih _ ps hn.2 (by simpa using hl) (by simpa using hi)

theorem Separate.nodup {d : Dataset} (hs : Separate d) (k : Kind) : (d.cube k).Nodup := by
  rw [List.nodup_iff_injective_getElem]
  intro ⟨i, hi⟩ ⟨j, hj⟩ he
  simp only at he
  have := (hs k i k j _ (List.getElem?_eq_getElem hi)
    (by rw [List.getElem?_eq_getElem hj, ← he])).2
  simpa using this

theorem Separate.disjoint {d : Dataset} (hs : Separate d) {k k' : Kind} (hk : k ≠ k') {a : ℕ}
    (ha : a ∈ d.cube k) : a ∉ d.cube k' := by
  intro hb
  obtain ⟨i, hi, rfl⟩ := List.getElem_of_mem ha
  obtain ⟨j, hj, he⟩ := List.getElem_of_mem hb
  exact hk (hs k i k' j _ (List.getElem?_eq_getElem hi)
    (by rw [List.getElem?_eq_getElem hj, he])).1

theorem shapeOk_iff {h : Heap V} {as : List ℕ} {ps : List (Plane V)} :
    shapeOk h as ps = true ↔ as.length = ps.length ∧
      ∀ i (hi : i < as.length) (hi' : i < ps.length), (h.mem as[i]).shape = ps[i].shape := by
  unfold shapeOk
  simp only [Bool.and_eq_true, beq_iff_eq, List.all_eq_true, Prod.forall]
  constructor
  · rintro ⟨h1, h2⟩
    refine ⟨h1, ?_⟩
    intro i hi hi'
    exact h2 as[i] ps[i] (List.mem_iff_getElem.2 ⟨i, by simp; omega, by simp⟩)
  · rintro ⟨h1, h2⟩
    refine ⟨h1, ?_⟩
    intro a p hap
    obtain ⟨i, hi, he⟩ := List.getElem_of_mem hap
    simp only [List.getElem_zip, Prod.mk.injEq] at he
    obtain ⟨rfl, rfl⟩ := he
    exact h2 i (by simp at hi; omega) (by simp at hi; omega)

theorem fill_shape (h : Heap V) (as : List ℕ) (ps : List (Plane V))
    (hs : ∀ ap ∈ as.zip ps, (h.mem ap.1).shape = ap.2.shape) (a : ℕ) :
    ((h.fill as ps).mem a).shape = (h.mem a).shape := by
  induction as generalizing h ps with
  | nil => simp [Heap.fill]
  | cons b as ih =>
    cases ps with
    | nil => simp [Heap.fill]
    | cons p ps =>
      simp only [Heap.fill]
      have hb := hs (b, p) (by simp)
      have hup : ∀ c, (Function.update h.mem b p c).shape = (h.mem c).shape := by
        intro c
        by_cases hc : c = b
        · subst hc; rw [Function.update_self]; exact hb.symm
        · rw [Function.update_of_ne hc]
      rw [ih]
      · exact hup a
      · intro ap hap
        show (Function.update h.mem b p ap.1).shape = _
        rw [hup]
        exact hs ap (by simp [hap])

/-! ### headers in `update` -/

theorem updateHdr_other (e : String) (es : List (String × String)) (h : Heap V) (f a : ℕ)
    (h1 : a ≠ (h.frm f).ext) (h2 : a ≠ (h.frm f).errh) : (updateHdr e es h f).hdr a = h.hdr a := by
  unfold updateHdr
  have key : ∀ g : Heap V, g.frm = h.frm → (es.foldl (fun h kv =>
      (h.setKey (h.frm f).ext kv.1 kv.2).setKey (h.frm f).errh kv.1 kv.2) g).hdr a = g.hdr a := by
    induction es with
    | nil => intro g _; rfl
    | cons kv es ih =>
      intro g hg
      rw [List.foldl_cons, ih ((g.setKey (g.frm f).ext kv.1 kv.2).setKey (g.frm f).errh kv.1 kv.2) hg]
      simp only [Heap.setKey, hg]
      rw [Function.update_of_ne h2, Function.update_of_ne h1]
  rw [key (h.addHistory (h.frm f).ext e) rfl]
  simp only [Heap.addHistory]
  rw [Function.update_of_ne h1]

theorem updateHdr_history (e : String) (es : List (String × String)) (h : Heap V) (f a : ℕ) :
    ((updateHdr e es h f).hdr a).history =
      (h.hdr a).history ++ (if a = (h.frm f).ext then [e] else []) := by
  unfold updateHdr
  have key : ∀ g : Heap V, g.frm = h.frm → ((es.foldl (fun h kv =>
      (h.setKey (h.frm f).ext kv.1 kv.2).setKey (h.frm f).errh kv.1 kv.2) g).hdr a).history =
        (g.hdr a).history := by
    induction es with
    | nil => intro g _; rfl
    | cons kv es ih =>
      intro g hg
      rw [List.foldl_cons, ih ((g.setKey (g.frm f).ext kv.1 kv.2).setKey (g.frm f).errh kv.1 kv.2) hg]
      have hs : ∀ (q : Heap V) (b : ℕ) (k v : String), ((q.setKey b k v).hdr a).history = (q.hdr a).history := by
        intro q b k v
        simp only [Heap.setKey]
        by_cases hb : a = b
        · subst hb; rw [Function.update_self]
        · rw [Function.update_of_ne hb]
      rw [hs, hs]
  rw [key (h.addHistory (h.frm f).ext e) rfl]
  simp only [Heap.addHistory]
  by_cases ha : a = (h.frm f).ext
  · subst ha; simp
  · rw [Function.update_of_ne ha]; simp [ha]

theorem updateHdr_cards (e : String) (es : List (String × String)) (h : Heap V) (f : ℕ)
    (hn : (es.map Prod.fst).Nodup) (k v : String) (hkv : (k, v) ∈ es) :
    ((updateHdr e es h f).hdr (h.frm f).ext).card k = some v ∧
    ((updateHdr e es h f).hdr (h.frm f).errh).card k = some v := by
  unfold updateHdr
  have hstep : ∀ (g : Heap V) (kv : String × String) (a : ℕ) (x : String), x ≠ kv.1 →
      (((g.setKey (g.frm f).ext kv.1 kv.2).setKey (g.frm f).errh kv.1 kv.2).hdr a).card x =
        (g.hdr a).card x := by
    intro g kv a x hx
    have hs : ∀ (q : Heap V) (b : ℕ), ((q.setKey b kv.1 kv.2).hdr a).card x = (q.hdr a).card x := by
      intro q b
      simp only [Heap.setKey]
      by_cases hb : a = b
      · subst hb; rw [Function.update_self]; simp [hx]
      · rw [Function.update_of_ne hb]
    rw [hs, hs]
  have keep : ∀ (es : List (String × String)) (g : Heap V) (a : ℕ) (x : String),
      x ∉ es.map Prod.fst → ((es.foldl (fun h kv =>
        (h.setKey (h.frm f).ext kv.1 kv.2).setKey (h.frm f).errh kv.1 kv.2) g).hdr a).card x =
        (g.hdr a).card x := by
    intro es
    induction es with
    | nil => intro g a x _; rfl
    | cons kv es ih =>
      intro g a x hx
      simp only [List.map_cons, List.mem_cons, not_or] at hx
      rw [List.foldl_cons, ih _ _ _ hx.2, hstep g kv a x hx.1]
  have key : ∀ (es : List (String × String)), (es.map Prod.fst).Nodup → (k, v) ∈ es → ∀ g : Heap V,
      g.frm = h.frm →
      (((es.foldl (fun h kv =>
        (h.setKey (h.frm f).ext kv.1 kv.2).setKey (h.frm f).errh kv.1 kv.2) g).hdr (h.frm f).ext).card k
        = some v) ∧
      (((es.foldl (fun h kv =>
        (h.setKey (h.frm f).ext kv.1 kv.2).setKey (h.frm f).errh kv.1 kv.2) g).hdr (h.frm f).errh).card k
        = some v) := by
    intro es
    induction es with
    | nil => intro _ hm; simp at hm
    | cons kv es ih =>
      intro hn hm g hg
      simp only [List.map_cons, List.nodup_cons] at hn
      rw [List.foldl_cons]
      rcases List.mem_cons.1 hm with rfl | hm
      · rw [keep _ _ _ _ hn.1, keep _ _ _ _ hn.1]
        constructor
        · simp only [Heap.setKey, hg]
          by_cases hx : (h.frm f).ext = (h.frm f).errh
          · rw [hx]; simp
          · rw [Function.update_of_ne hx]; simp
        · simp [Heap.setKey, hg]
      · exact ih hn.2 hm _ hg
  exact key es hn hkv _ rfl

theorem updateHdrs_keep (e : String) (es : List (String × String)) (fs : List ℕ) (h : Heap V) :
    (fs.foldl (updateHdr e es) h).frm = h.frm ∧ (fs.foldl (updateHdr e es) h).mem = h.mem := by
  induction fs generalizing h with
  | nil => simp
  | cons f fs ih =>
    obtain ⟨a, b, c, _, _⟩ := updateHdr_frm e es h f
    rw [List.foldl_cons]
    exact ⟨(ih _).1.trans a, (ih _).2.trans c⟩

theorem updateHdrs_history (e : String) (es : List (String × String)) (fs : List ℕ) (h : Heap V)
    (a : ℕ) : ((fs.foldl (updateHdr e es) h).hdr a).history =
      (h.hdr a).history ++ List.replicate (fs.countP fun f => (h.frm f).ext = a) e := by
  induction fs generalizing h with
  | nil => simp
  | cons f fs ih =>
    rw [List.foldl_cons, ih, updateHdr_history, (updateHdr_frm e es h f).1, List.append_assoc,
      List.countP_cons]
    congr 1
    by_cases hx : a = (h.frm f).ext
    · simp [hx, List.replicate_succ]
    · simp [hx, Ne.symm hx]

theorem updateHdrs_cards (e : String) (es : List (String × String)) (fs : List ℕ) (h : Heap V)
    (hn : (es.map Prod.fst).Nodup) {k v : String} (hkv : (k, v) ∈ es) {f : ℕ} (hf : f ∈ fs) :
    ((fs.foldl (updateHdr e es) h).hdr (h.frm f).ext).card k = some v ∧
    ((fs.foldl (updateHdr e es) h).hdr (h.frm f).errh).card k = some v := by
  -- a card once set to `v` stays `v`
  have stay1 : ∀ (h : Heap V) (f a : ℕ), (h.hdr a).card k = some v →
      ((updateHdr e es h f).hdr a).card k = some v := by
    intro h f a ha
    by_cases h1 : a = (h.frm f).ext
    · subst h1; exact (updateHdr_cards e es h f hn k v hkv).1
    · by_cases h2 : a = (h.frm f).errh
      · subst h2; exact (updateHdr_cards e es h f hn k v hkv).2
      · rw [updateHdr_other e es h f a h1 h2]; exact ha
  have stay : ∀ (fs : List ℕ) (h : Heap V) (a : ℕ), (h.hdr a).card k = some v →
      ((fs.foldl (updateHdr e es) h).hdr a).card k = some v := by
    intro fs
    induction fs with
    | nil => intro h a ha; exact ha
    | cons f fs ih => intro h a ha; rw [List.foldl_cons]; exact ih _ _ (stay1 h f a ha)
  induction fs generalizing h with
  | nil => simp at hf
  | cons g fs ih =>
    rw [List.foldl_cons]
    rcases List.mem_cons.1 hf with rfl | hf
    · obtain ⟨a, b⟩ := updateHdr_cards e es h f hn k v hkv
      exact ⟨stay _ _ _ a, stay _ _ _ b⟩
    · have := ih (updateHdr e es h g) hf
      rw [(updateHdr_frm e es h g).1] at this
      exact this

/-! ### select -/

theorem optMapM_iff {α β : Type} {f : α → Option β} {l : List α} {r : List β} :
    l.mapM f = some r ↔ List.Forall₂ (fun a b => f a = some b) l r := by
  induction l generalizing r with
  | nil =>
    constructor
    · intro h
      simp at h
      subst h; exact .nil
    · intro h; cases h; rfl
  | cons a l ih =>
    rw [List.mapM_cons]
    cases hf : f a with
    | none =>
      simp
      intro h
      cases h with | cons h1 _ => rw [hf] at h1; cases h1
    | some b =>
      cases hl : l.mapM f with
      | none =>
        simp
        intro h
        cases h with
        | cons h1 h2 =>
          have := ih.2 h2
          rw [hl] at this; cases this
      | some bs =>
        simp
        constructor
        · rintro rfl; exact .cons hf (ih.1 hl)
        · intro h
          cases h with
          | cons h1 h2 =>
            rw [hf] at h1; cases h1
            have := ih.2 h2
            rw [hl] at this; cases this; rfl

theorem select_ok {h h' : Heap V} {d d' : Dataset} {idx : List ℕ} (hk : select h d idx = .ok (h', d')) :
    ∃ fs, List.Forall₂ (fun i f => d.frames[i]? = some f) idx fs ∧ mkDataset h fs = .ok (h', d') := by
  unfold select at hk
  split at hk
  · cases hk
  · rename_i fs hfs
    exact ⟨fs, optMapM_iff.1 hfs, hk⟩

theorem forall2_mem_left {α β : Type} {R : α → β → Prop} {l : List α} {r : List β}
    (h : List.Forall₂ R l r) {b : β} (hb : b ∈ r) : ∃ a ∈ l, R a b := by
  induction h with
  | nil => simp at hb
  | cons h1 _ ih =>
    rcases List.mem_cons.1 hb with rfl | hb
    · exact ⟨_, by simp, h1⟩
    · obtain ⟨a, h2, h3⟩ := ih hb; exact ⟨a, by simp [h2], h3⟩

theorem forall2_mem_right {α β : Type} {R : α → β → Prop} {l : List α} {r : List β}
    (h : List.Forall₂ R l r) {a : α} (ha : a ∈ l) : ∃ b ∈ r, R a b := by
  induction h with
  | nil => simp at ha
  | cons h1 _ ih =>
    rcases List.mem_cons.1 ha with rfl | ha
    · exact ⟨_, by simp, h1⟩
    · obtain ⟨b, h2, h3⟩ := ih ha; exact ⟨b, by simp [h2], h3⟩

/-- Selecting distinct positions of distinct frames gives distinct frames. -/
theorem select_nodup {l : List ℕ} (hl : l.Nodup) {idx fs : List ℕ} (hi : idx.Nodup)
    (h : List.Forall₂ (fun i f => l[i]? = some f) idx fs) : fs.Nodup := by
  induction h with
  | nil => exact List.nodup_nil
  | @cons i f idx fs h1 h2 ih =>
    simp only [List.nodup_cons] at hi
    rw [List.nodup_cons]
    refine ⟨?_, ih hi.2⟩
    intro hm
    obtain ⟨j, hj, hjf⟩ := forall2_mem_left h2 hm
    have : i = j := by
      obtain ⟨a1, a2⟩ := List.getElem?_eq_some_iff.1 h1
      obtain ⟨b1, b2⟩ := List.getElem?_eq_some_iff.1 hjf
      exact (List.Nodup.getElem_inj_iff hl).1 (a2.trans b2.symm)
    exact hi.1 (this ▸ hj)

end Corgi.DS

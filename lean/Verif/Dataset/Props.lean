import Verif.Dataset.Lemmas2
import Verif.Common.Except
import Mathlib.Data.List.Dedup

/-!
# C12-C14, C16: datasets, frames and copies
-/

namespace Corgi.DS

variable {V : Type}

/-! ### Example objects used beside the theorems -/

/-- Two 1x1 frames with pixels 10 and 20, error 1, dq 0; separate headers, level L1. -/
def exHeap : Heap ℕ where
  mem a := match a with
    | 0 => ⟨[1, 1], fun _ => 10⟩
    | 1 => ⟨[1, 1, 1], fun _ => 1⟩
    | 2 => ⟨[1, 1], fun _ => 0⟩
    | 3 => ⟨[1, 1], fun _ => 20⟩
    | 4 => ⟨[1, 1, 1], fun _ => 1⟩
    | _ => ⟨[1, 1], fun _ => 0⟩
  nmem := 6
  hdr a := ⟨fun k => if k = "DATALVL" then some "L1" else if k = "VISTYPE" ∧ a < 4 then some "A"
    else if k = "VISTYPE" then some "B" else none, []⟩
  nhdr := 8
  frm f := if f = 0 then ⟨0, 1, 2, 0, 1, 2, 3, "a_L1_.fits"⟩ else ⟨3, 4, 5, 4, 5, 6, 7, "b_L1_.fits"⟩
  nfrm := 2

/-- `Dataset([image0, image1])` -/
def exMade : Heap ℕ × Dataset :=
  match mkDataset exHeap [0, 1] with
  | .ok r => r
  | .error _ => (exHeap, ⟨[], [], [], []⟩)

theorem exMade_ok : mkDataset exHeap [0, 1] = .ok exMade := rfl

theorem exMade_linked : Linked exMade.1 exMade.2 := mkDataset_linked (by decide) exMade_ok
theorem exMade_separate : Separate exMade.2 := mkDataset_separate exMade_ok

theorem exMade_valid : Valid exMade.1 exMade.2 := by
  refine ⟨?_, ?_, ?_, ?_⟩
  · decide +kernel
  · intro f hf k
    have h0 : exMade.2.frames = [0, 1] := by decide
    have : f = 0 ∨ f = 1 := by simpa [h0] using hf
    rcases this with rfl | rfl <;> cases k <;> decide +kernel
  · decide +kernel
  · intro k; cases k <;> decide +kernel

/-! ### C12 -/

/-- **C12** Building a dataset from distinct frames gives a dataset whose frames are views of its cubes:
after any sequence of pixel assignments, through frames or through cubes, reading through a frame and
reading through a cube both give the last value assigned to that pixel by either route, and the
original value if there was none. -/
theorem C12_frames_are_views {h h' : Heap V} {fs : List ℕ} {d : Dataset} (hn : fs.Nodup)
    (hk : mkDataset h fs = .ok (h', d)) (ops : List (PixOp V)) (k : Kind) (i : ℕ)
    (hi : i < fs.length) (p : List ℕ) :
    let after := ops.foldl (PixOp.run d) h'
    let expected := ops.foldl PixOp.expect
      (fun k i p => (h.mem ((h.frm (fs.getD i 0)).addr k)).val p)
    readFrame after d k i p = some (expected k i p) ∧
    readCube after d k i p = some (expected k i p) := by
  have hl := mkDataset_linked hn hk
  have hs := mkDataset_separate hk
  have hfr := mkDataset_frames hk
  have h0 : ∀ k i p, i < d.frames.length →
      readCube h' d k i p = some ((fun k i p => (h.mem ((h.frm (fs.getD i 0)).addr k)).val p) k i p) := by
    intro k i p hi
    rw [hfr] at hi
    unfold readCube
    rw [mkDataset_cube hk, List.getElem?_eq_getElem (by simpa using hi)]
    simp only [Option.map_some, List.getElem_range', Nat.one_mul]
    rw [mkDataset_content hk k hi]
    simp [List.getD_eq_getElem?_getD, List.getElem?_eq_getElem hi]
  have key : ∀ (ops : List (PixOp V)) (g : Heap V) (σ : Kind → ℕ → List ℕ → V), Linked g d →
      (∀ k i p, i < d.frames.length → readCube g d k i p = some (σ k i p)) →
      Linked (ops.foldl (PixOp.run d) g) d ∧ ∀ k i p, i < d.frames.length →
        readCube (ops.foldl (PixOp.run d) g) d k i p = some (ops.foldl PixOp.expect σ k i p) := by
    intro ops
    induction ops with
    | nil => intro g σ hl hσ; exact ⟨hl, hσ⟩
    | cons o ops ih =>
      intro g σ hl hσ
      simp only [List.foldl_cons]
      exact ih _ _ (hl.of_frm (PixOp.run_frm d g o)) (readCube_run hl hs σ hσ o)
  obtain ⟨a, b⟩ := key ops h' _ hl h0
  have hi' : i < d.frames.length := by rw [hfr]; exact hi
  exact ⟨by rw [readFrame_eq_readCube a]; exact b k i p hi', b k i p hi'⟩

example : readCube ([PixOp.frame .data 1 [0, 0] 5, .cube .data 0 [0, 0] 7].foldl
    (PixOp.run exMade.2) exMade.1) exMade.2 .data 1 [0, 0] = some 5 := by decide +kernel
example : readFrame ([PixOp.frame .data 1 [0, 0] 5, .cube .data 0 [0, 0] 7].foldl
    (PixOp.run exMade.2) exMade.1) exMade.2 .data 0 [0, 0] = some 7 := by decide +kernel

/-- **C12** A dataset can be built exactly from a non-empty list of frames whose arrays agree in shape. -/
theorem C12_builds_iff (h : Heap V) (fs : List ℕ) :
    (∃ r, mkDataset h fs = .ok r) ↔ fs ≠ [] ∧ ∀ f ∈ fs, ∀ g ∈ fs, ∀ k : Kind,
      (h.mem ((h.frm f).addr k)).shape = (h.mem ((h.frm g).addr k)).shape := by
  have hss : ∀ (l : List (Plane V)), sameShape l = true ↔ ∀ p ∈ l, ∀ q ∈ l, p.shape = q.shape := by
    intro l
    cases l with
    | nil => simp [sameShape]
    | cons p l =>
      simp only [sameShape, List.all_eq_true, beq_iff_eq]
      constructor
      · intro hh a ha b hb
        have e : ∀ x ∈ p :: l, x.shape = p.shape := by
          intro x hx
          rcases List.mem_cons.1 hx with rfl | hx
          · rfl
          · exact hh x hx
        rw [e a ha, e b hb]
      · intro hh x hx
        exact hh x (by simp [hx]) p (by simp)
  unfold mkDataset
  by_cases h0 : fs = []
  · subst h0; simp
  · simp only [if_neg h0]
    by_cases hs : (sameShape (fs.map h.dataOf) && sameShape (fs.map h.errOf) && sameShape (fs.map h.dqOf)) = true
    · rw [if_neg (by rw [hs]; simp)]
      simp only [Bool.and_eq_true, hss, List.mem_map, forall_exists_index, and_imp,
        forall_apply_eq_imp_iff₂] at hs
      refine ⟨fun _ => ⟨h0, ?_⟩, fun _ => ⟨_, rfl⟩⟩
      intro f hf g hg k
      cases k
      · exact hs.1.1 f hf g hg
      · exact hs.1.2 f hf g hg
      · exact hs.2 f hf g hg
    · rw [if_pos (by rw [Bool.not_eq_true] at hs; rw [hs]; rfl)]
      constructor
      · rintro ⟨r, hr⟩; cases hr
      · rintro ⟨_, hh⟩
        exfalso
        apply hs
        simp only [Bool.and_eq_true, hss, List.mem_map, forall_exists_index, and_imp,
          forall_apply_eq_imp_iff₂]
        exact ⟨⟨fun f hf g hg => hh f hf g hg .data, fun f hf g hg => hh f hf g hg .err⟩,
          fun f hf g hg => hh f hf g hg .dq⟩

/-! ### C13 -/

/-- **C13** `Dataset.copy()` isolates: no sequence of operations on the copy (pixel writes, header
writes, updates, replacing error arrays, selecting, copying again) can be seen through the original.
The original may have been built in any way. -/
theorem C13_copy_isolated {h h1 : Heap V} {ds dc : Dataset} (hv : Valid h ds) (v now : String)
    (hk : copyDataset v now true h ds = .ok (h1, dc)) (ops : List (Op V)) :
    view (ops.foldl Op.run (h1, [dc])).1 ds = view h ds := by
  obtain ⟨a, b⟩ := (HeapInv.refl h).copyDataset_deep v now hk
  have hi := runOps_inv ops (s := (h1, [dc])) a (by intro d hd; simp at hd; subst hd; exact b)
  generalize (ops.foldl Op.run (h1, [dc])).1 = g at hi
  unfold view
  have hc : ∀ k, (ds.cube k).map g.mem = (ds.cube k).map h.mem := fun k =>
    List.map_congr_left fun x hx => hi.agreeM x (hv.cubes k x hx)
  have h1 := hc .data
  have h2 := hc .err
  have h3 := hc .dq
  simp only [Dataset.cube] at h1 h2 h3
  rw [h1, h2, h3]
  have : ds.frames.map (viewFrame g) = ds.frames.map (viewFrame h) :=
    List.map_congr_left fun f hf => viewFrame_of_inv hi (hv.frame f hf) (hv.plane f hf)
      (fun k => hv.hdrAddr hf k)
  rw [this]

example : Valid exMade.1 exMade.2 := exMade_valid
example : ∃ r, copyDataset "3.0" "now" true exMade.1 exMade.2 = .ok r := ⟨_, rfl⟩

/-- **C13** The copy shows what the original shows, frame by frame, except for the version and time
stamps in the extension header; its cubes hold its frames' arrays. -/
theorem C13_copy_equal {h h1 : Heap V} {ds dc : Dataset} (hv : Valid h ds) (v now : String)
    (hk : copyDataset v now true h ds = .ok (h1, dc)) :
    dc.frames.map (viewFrame h1) = ds.frames.map (fun f =>
      { viewFrame h f with ext := stampHdr v now (viewFrame h f).ext }) ∧
    dc.allData.map h1.mem = ds.frames.map (fun f => (viewFrame h f).data) ∧
    dc.allErr.map h1.mem = ds.frames.map (fun f => (viewFrame h f).err) ∧
    dc.allDq.map h1.mem = ds.frames.map (fun f => (viewFrame h f).dq) := by
  unfold copyDataset at hk
  obtain ⟨a, b⟩ := copyFrames_frames v now true h ds.frames
  have hview := copyFrames_view v now h ds.frames hv.frame hv.plane (fun f hf k => hv.hdrAddr hf k)
  generalize copyFrames v now true h ds.frames = gg at *
  obtain ⟨g, fs⟩ := gg
  simp only at a b hk hview
  have hn : fs.Nodup := by rw [a]; exact List.nodup_range'
  have hfr := mkDataset_frames hk
  have hlen : fs.length = ds.frames.length := by rw [a]; simp
  have hfs : ∀ i (hi : i < fs.length), fs[i] = h.nfrm + i := by
    intro i hi
    subst a
    simp
  have hcub : ∀ k, (dc.cube k).map h1.mem = fs.map (fun f => g.mem ((g.frm f).addr k)) := by
    intro k
    rw [mkDataset_cube hk]
    apply List.ext_getElem
    · simp
    · intro i hi1 hi2
      simp only [List.getElem_map, List.getElem_range', Nat.one_mul]
      exact mkDataset_content hk k (by simpa using hi2)
  have hpl : ∀ (F : FrameView V → Plane V), (∀ x : FrameView V, ∀ y, F { x with ext := y } = F x) →
      fs.map (fun f => F (viewFrame g f)) = ds.frames.map (fun f => F (viewFrame h f)) := by
    intro F hF
    apply List.ext_getElem
    · simp [hlen]
    · intro i hi1 hi2
      simp only [List.getElem_map]
      rw [hfs i (by simpa using hi1), hview i (by simpa using hi2), hF]
  refine ⟨?_, ?_, ?_, ?_⟩
  · rw [hfr]
    apply List.ext_getElem
    · simp [hlen]
    · intro i hi1 hi2
      simp only [List.getElem_map]
      rw [mkDataset_view hn hk (List.getElem_mem _), hfs i (by simpa using hi1),
        hview i (by simpa using hi2)]
  · exact (hcub .data).trans (hpl FrameView.data (fun _ _ => rfl))
  · exact (hcub .err).trans (hpl FrameView.err (fun _ _ => rfl))
  · exact (hcub .dq).trans (hpl FrameView.dq (fun _ _ => rfl))

/-- **C13, part** For `copy(copy_data=False)` too, pixels are isolated: no operation on the copy changes
a pixel seen through the original. (Missing: headers, see `C13_violated`.) -/
theorem C13_shallow_pixels_partial {h h1 : Heap V} {ds dc : Dataset} (hv : Valid h ds) (v now : String)
    (hk : copyDataset v now false h ds = .ok (h1, dc)) (ops : List (Op V)) :
    pixelView (ops.foldl Op.run (h1, [dc])).1 ds = pixelView h ds := by
  obtain ⟨a, b⟩ := copyDataset_shallow_inv v now hv.frame hk
  have hi := runOps_inv ops (s := (h1, [dc])) a (by intro d hd; simp at hd; subst hd; exact b)
  generalize (ops.foldl Op.run (h1, [dc])).1 = g at hi
  unfold pixelView
  have hc : ∀ k, (ds.cube k).map g.mem = (ds.cube k).map h.mem := fun k =>
    List.map_congr_left fun x hx => hi.agreeM x (hv.cubes k x hx)
  have h1 := hc .data
  have h2 := hc .err
  have h3 := hc .dq
  simp only [Dataset.cube] at h1 h2 h3
  rw [h1, h2, h3]
  have : ds.frames.map (fun f => ((viewFrame g f).data, (viewFrame g f).err, (viewFrame g f).dq)) =
      ds.frames.map (fun f => ((viewFrame h f).data, (viewFrame h f).err, (viewFrame h f).dq)) := by
    refine List.map_congr_left fun f hf => ?_
    simp only [viewFrame]
    have e1 := hi.agreeM _ (hv.plane f hf .data)
    have e2 := hi.agreeM _ (hv.plane f hf .err)
    have e3 := hi.agreeM _ (hv.plane f hf .dq)
    simp only [Frame.addr] at e1 e2 e3
    rw [hi.agreeF f (hv.frame f hf), e1, e2, e3]
  rw [this]

/-- With `copy_data=False` frame `i` of the copy and of the original have the same header objects. -/
theorem shallow_shares_headers {h h1 : Heap V} {ds dc : Dataset} (hv : Valid h ds) {v now : String}
    (hk : copyDataset v now false h ds = .ok (h1, dc)) {i f : ℕ} (hf : ds.frames[i]? = some f) :
    ∃ f', dc.frames[i]? = some f' ∧ ∀ k, (h1.frm f').hdrAddr k = (h1.frm f).hdrAddr k := by
  unfold copyDataset at hk
  obtain ⟨a, b⟩ := copyFrames_frames v now false h ds.frames
  obtain ⟨_, _, _, s4, s5, -⟩ := copyFrames_shallow v now h ds.frames hv.frame
  generalize copyFrames v now false h ds.frames = gg at *
  obtain ⟨g, fs⟩ := gg
  simp only at a b hk s4 s5
  obtain ⟨hi, he⟩ := List.getElem?_eq_some_iff.1 hf
  have hfr := mkDataset_frames hk
  refine ⟨h.nfrm + i, ?_, ?_⟩
  · rw [hfr, a, cube_getElem]; exact ⟨hi, rfl⟩
  · intro k
    have e1 := mkDataset_frm_hdr hk (h.nfrm + i)
    have e2 := mkDataset_frm_hdr hk f
    rw [s5 i hi, he] at e1
    rw [s4 f (hv.frame f (List.mem_of_getElem? hf))] at e2
    obtain ⟨x1, x2, x3, x4, _⟩ := e1
    obtain ⟨y1, y2, y3, y4, _⟩ := e2
    cases k
    · exact x1.trans y1.symm
    · exact x2.trans y2.symm
    · exact x3.trans y3.symm
    · exact x4.trans y4.symm

/-- **C13** fails for `copy(copy_data=False)`, always: whatever keyword is set in any header of any frame
of the copy, the original's frame has that value afterwards. -/
theorem C13_shallow_headers_shared {h h1 : Heap V} {ds dc : Dataset} (hv : Valid h ds) {v now : String}
    (hk : copyDataset v now false h ds = .ok (h1, dc)) {i f : ℕ} (hf : ds.frames[i]? = some f)
    (k : HKind) (key value : String) :
    let after := (Op.run (h1, [dc]) (.card 0 k i key value)).1
    (after.hdr ((after.frm f).hdrAddr k)).card key = some value := by
  obtain ⟨f', h1', h2'⟩ := shallow_shares_headers hv hk hf
  simp only [Op.run, List.getElem?_cons_zero, h1', Heap.setKey]
  rw [h2' k]
  simp

/-- **C13** is violated: there is a dataset and a shallow copy such that writing a header keyword in the
copy changes the original. -/
theorem C13_violated : ∃ (h h1 : Heap ℕ) (ds dc : Dataset) (op : Op ℕ), Valid h ds ∧
    copyDataset "3.0" "now" false h ds = .ok (h1, dc) ∧
    view (Op.run (h1, [dc]) op).1 ds ≠ view h ds := by
  obtain ⟨⟨h1, dc⟩, hk⟩ : ∃ r, copyDataset "3.0" "now" false exMade.1 exMade.2 = .ok r := ⟨_, rfl⟩
  refine ⟨exMade.1, h1, exMade.2, dc, .card 0 .pri 0 "X" "1", exMade_valid, hk, ?_⟩
  have := C13_shallow_headers_shared exMade_valid hk (i := 0) (f := 0) (by decide) .pri "X" "1"
  intro he
  have hfr : exMade.2.frames = [0, 1] := by decide
  simp only [view, hfr, List.map_cons, Prod.mk.injEq, List.cons.injEq] at he
  have h2 : ((viewFrame (Op.run (h1, [dc]) (.card 0 .pri 0 "X" "1")).1 0).pri).card "X" = some "1" := this
  rw [he.1.1] at h2
  revert h2
  decide +kernel

/-- **C13** The shallow copy itself already changes the original: its frames get the new DRPCTIME. -/
theorem C13_shallow_stamps_original {h h1 : Heap V} {ds dc : Dataset} (hv : Valid h ds) {v now : String}
    (hk : copyDataset v now false h ds = .ok (h1, dc)) {f : ℕ} (hf : f ∈ ds.frames) :
    (viewFrame h1 f).ext.card "DRPCTIME" = some now := by
  unfold copyDataset at hk
  obtain ⟨_, _, _, s4, _, _, s7, _⟩ := copyFrames_shallow v now h ds.frames hv.frame
  generalize copyFrames v now false h ds.frames = gg at *
  obtain ⟨g, fs⟩ := gg
  simp only at hk s4 s7
  unfold viewFrame
  dsimp only
  rw [(mkDataset_frm_hdr hk f).2.1, s4 f (hv.frame f hf), (mkDataset_hdr hk).1]
  exact s7 f hf

theorem setKeys_keep (f : ℕ) (cs : List (String × String)) (h : Heap V) :
    let r := cs.foldl (fun h kv => h.setKey (h.frm f).ext kv.1 kv.2) h
    r.frm = h.frm ∧ r.mem = h.mem ∧ r.nmem = h.nmem ∧ r.nhdr = h.nhdr ∧ r.nfrm = h.nfrm ∧
    (∀ a, (r.hdr a).history = (h.hdr a).history) ∧
    (∀ a k, (a ≠ (h.frm f).ext ∨ k ∉ cs.map Prod.fst) → (r.hdr a).card k = (h.hdr a).card k) := by
  induction cs generalizing h with
  | nil => simp
  | cons c cs ih =>
    simp only [List.foldl_cons]
    obtain ⟨a1, a2, a3, a4, a5, a6, a7⟩ := ih (h.setKey (h.frm f).ext c.1 c.2)
    refine ⟨a1, a2, a3, a4, a5, ?_, ?_⟩
    · intro a
      rw [a6 a]
      simp only [Heap.setKey]
      by_cases ha : a = (h.frm f).ext
      · subst ha; rw [Function.update_self]
      · rw [Function.update_of_ne ha]
    · intro a k hk
      rw [a7 a k (by
        rcases hk with hk | hk
        · exact .inl hk
        · simp only [List.map_cons, List.mem_cons, not_or] at hk; exact .inr hk.2)]
      simp only [Heap.setKey]
      by_cases ha : a = (h.frm f).ext
      · subst ha
        rw [Function.update_self]
        have : k ≠ c.1 := by
          rcases hk with hk | hk
          · exact absurd rfl hk
          · simp only [List.map_cons, List.mem_cons, not_or] at hk; exact hk.1
        simp [this]
      · rw [Function.update_of_ne ha]

/-- The loop of `upgrade` sets the level of every frame's extension header. -/
theorem upgradeLoop_level (toLvl : String) (cards : List (String × String))
    (hc : "DATALVL" ∉ cards.map Prod.fst) (rename : String → String) (fs : List ℕ) (h : Heap V) :
    let r := fs.foldl (upgradeFrame toLvl cards rename) h
    (∀ f, (r.frm f).ext = (h.frm f).ext) ∧
    (∀ a, (h.hdr a).card "DATALVL" = some toLvl → (r.hdr a).card "DATALVL" = some toLvl) ∧
    (∀ f ∈ fs, (r.hdr (h.frm f).ext).card "DATALVL" = some toLvl) := by
  induction fs generalizing h with
  | nil => simp
  | cons f fs ih =>
    simp only [List.foldl_cons]
    have hg : ∀ f', ((upgradeFrame toLvl cards rename h f).frm f').ext = (h.frm f').ext := by
      intro f'
      have := (setKeys_keep f (("DATALVL", toLvl) :: cards) h).1
      unfold upgradeFrame
      dsimp only at this ⊢
      rw [this]
      by_cases hf : f' = f
      · subst hf; simp
      · simp [hf]
    have g0 : ∀ a, ((upgradeFrame toLvl cards rename h f).hdr a).card "DATALVL" =
        if a = (h.frm f).ext then some toLvl else (h.hdr a).card "DATALVL" := by
      intro a
      unfold upgradeFrame
      dsimp only
      rw [List.foldl_cons]
      have := (setKeys_keep f cards (h.setKey (h.frm f).ext "DATALVL" toLvl)).2.2.2.2.2.2 a "DATALVL" (.inr hc)
      rw [this]
      simp only [Heap.setKey]
      by_cases ha : a = (h.frm f).ext
      · subst ha; simp
      · simp [ha]
    obtain ⟨i1, i2, i3⟩ := ih (upgradeFrame toLvl cards rename h f)
    refine ⟨fun f' => (i1 f').trans (hg f'), fun a ha => i2 a (by rw [g0]; split <;> simp [ha]), ?_⟩
    intro f' hf'
    rcases List.mem_cons.1 hf' with rfl | hf'
    · exact i2 _ (by rw [g0]; simp)
    · rw [← hg f']; exact i3 f' hf'

/-- **C13** Consequence for the level upgrades: after a successful `update_to_…` the *input* dataset's
frames carry the new level, and calling the same upgrade again on the same input raises `ValueError`. -/
theorem C13_upgrade_changes_input {h h1 : Heap V} {ds d1 : Dataset} (hv : Valid h ds)
    {v now fromLvl toLvl : String} {cards : List (String × String)}
    (hc0 : "DATALVL" ∉ cards.map Prod.fst) {rename : String → String} (hne : fromLvl ≠ toLvl)
    (hk : upgrade v now fromLvl toLvl cards rename h ds = .ok (h1, d1)) :
    (∀ f ∈ ds.frames, (viewFrame h1 f).ext.card "DATALVL" = some toLvl) ∧
    (∀ (v' now' : String) (c : List (String × String)),
      upgrade v' now' fromLvl toLvl c rename h1 ds = .error .valueError) := by
  have main : ds.frames ≠ [] ∧ ∀ f ∈ ds.frames, (viewFrame h1 f).ext.card "DATALVL" = some toLvl := by
    unfold upgrade at hk
    split at hk
    · cases hc : copyDataset v now false h ds with
      | error e => rw [hc] at hk; cases hk
      | ok r =>
        obtain ⟨hc1, dc⟩ := r
        rw [hc] at hk
        simp only [update, putCube, putErr, Except.ok.injEq, Prod.mk.injEq] at hk
        obtain ⟨rfl, rfl⟩ := hk
        refine ⟨?_, ?_⟩
        · intro h0
          unfold copyDataset at hc
          rw [h0] at hc
          simp [copyFrames, mkDataset] at hc
        intro f hf
        obtain ⟨i, hi, rfl⟩ := List.getElem_of_mem hf
        obtain ⟨f', e1, e2⟩ := shallow_shares_headers hv hc (List.getElem?_eq_getElem hi)
        obtain ⟨u1, u2, u3⟩ := upgradeLoop_level toLvl cards hc0 rename dc.frames hc1
        generalize List.foldl _ hc1 dc.frames = g at *
        have hx := u3 f' (List.mem_of_getElem? e1)
        have e2' := e2 .ext
        simp only [Frame.hdrAddr] at e2'
        rw [e2'] at hx
        obtain ⟨w1, _⟩ := updateHdrs_keep ("Updated Data Level to " ++ toLvl) [] dc.frames g
        unfold viewFrame
        dsimp only
        rw [w1, u1]
        have hcard : ∀ (fs : List ℕ) (q : Heap V) (a : ℕ), ((fs.foldl (updateHdr
            ("Updated Data Level to " ++ toLvl) []) q).hdr a).card = (q.hdr a).card := by
          intro fs
          induction fs with
          | nil => intro q a; rfl
          | cons f fs ih =>
            intro q a
            rw [List.foldl_cons, ih]
            simp only [updateHdr, List.foldl_nil, Heap.addHistory]
            by_cases ha : a = (q.frm f).ext
            · subst ha; rw [Function.update_self]
            · rw [Function.update_of_ne ha]
        rw [hcard]
        exact hx
    · cases hk
  refine ⟨main.2, ?_⟩
  intro v' now' c
  unfold upgrade
  rw [if_neg]
  intro hall
  obtain ⟨f, hf⟩ := List.exists_mem_of_ne_nil _ main.1
  have h1 := List.all_eq_true.1 hall f hf
  have h2 := main.2 f hf
  simp only [viewFrame] at h2
  rw [h2] at h1
  simp only [beq_iff_eq, Option.some.injEq] at h1
  exact hne h1.symm

example : ∃ r, upgrade "3.0" "now" "L1" "L2a" [] id exMade.1 exMade.2 = .ok r := by
  unfold upgrade
  rw [if_pos (by decide +kernel)]
  exact ⟨_, rfl⟩

/-! ### C14 -/

/-- What updating the data of a linked dataset does to any frame object: it shows the new plane if its
array is the cube's, and is unchanged if its array is not part of the cube. -/
theorem update_data_effect {h h2 : Heap V} {ds d2 : Dataset} {e : String} {nd : List (Plane V)}
    {es : List (String × String)} (hs : Separate ds)
    (hu : update h ds e (some nd) none none es = (h2, d2, none)) :
    nd.length = ds.allData.length ∧ (∀ f, h2.frm f = h.frm f) ∧
    (∀ a, a ∉ ds.allData → h2.mem a = h.mem a) ∧
    (∀ (i a : ℕ), ds.allData[i]? = some a → some (h2.mem a) = nd[i]?) := by
  unfold update at hu
  simp only [putCube, putErr] at hu
  by_cases hok : shapeOk h ds.allData nd = true
  · rw [if_pos hok] at hu
    simp only [Prod.mk.injEq, and_true] at hu
    obtain ⟨rfl, rfl⟩ := hu
    obtain ⟨k1, k2⟩ := updateHdrs_keep e es ds.frames (h.fill ds.allData nd)
    have hlen := (shapeOk_iff.1 hok).1
    refine ⟨hlen.symm, ?_, ?_, ?_⟩
    · intro f; rw [k1, (fill_frm h _ _).1]
    · intro a ha; rw [k2, fill_notin _ _ _ ha]
    · intro i a hi
      obtain ⟨hlt, rfl⟩ := List.getElem?_eq_some_iff.1 hi
      rw [k2, fill_in h ds.allData nd (hs.nodup .data) hlen hlt, List.getElem?_eq_getElem (by omega)]
  · rw [if_neg hok] at hu
    simp at hu

/-- **C14** exactly what happens. After `dataset[idx]`, an update of the parent's data is shown by the
frames that were *not* selected; the selected ones keep showing the old data. -/
theorem C14_after_select {h h1 h2 : Heap V} {ds sub d2 : Dataset} {idx : List ℕ} (hl : Linked h ds)
    (hs : Separate ds) (hv : Valid h ds) (hn : ds.frames.Nodup) (hi : idx.Nodup)
    (hk : select h ds idx = .ok (h1, sub)) {e : String} {nd : List (Plane V)}
    {es : List (String × String)} (hu : update h1 ds e (some nd) none none es = (h2, d2, none))
    {i f : ℕ} (hf : ds.frames[i]? = some f) :
    (i ∈ idx → h2.dataOf f = h.dataOf f) ∧ (i ∉ idx → some (h2.dataOf f) = nd[i]?) := by
  obtain ⟨fs, hfs, hm⟩ := select_ok hk
  have hfn := select_nodup hn hi hfs
  obtain ⟨_, u2, u3, u4⟩ := update_data_effect hs hu
  have hfm := List.mem_of_getElem? hf
  constructor
  · intro hx
    obtain ⟨f', hf', he⟩ := forall2_mem_right hfs hx
    rw [hf] at he
    cases he
    have hview := mkDataset_view hfn hm hf'
    have hdat : h1.dataOf f = h.dataOf f := congrArg FrameView.data hview
    rw [← hdat]
    unfold Heap.dataOf
    rw [u2, u3]
    -- the frame's array is a new one
    intro hin
    have hlt := hv.cubes .data _ hin
    obtain ⟨j, hj, rfl⟩ := List.getElem_of_mem hf'
    have hl1 := (mkDataset_linked hfn hm).link .data j fs[j]
      (by rw [mkDataset_frames hm]; exact List.getElem?_eq_getElem hj)
    rw [mkDataset_cube hm, cube_getElem] at hl1
    have := hl1.2
    simp only [Frame.addr] at this
    omega
  · intro hx
    have hnot : f ∉ fs := by
      intro hin
      obtain ⟨j, hj, hjf⟩ := forall2_mem_left hfs hin
      obtain ⟨a1, a2⟩ := List.getElem?_eq_some_iff.1 hf
      obtain ⟨b1, b2⟩ := List.getElem?_eq_some_iff.1 hjf
      have : i = j := (List.Nodup.getElem_inj_iff hn).1 (a2.trans b2.symm)
      exact hx (this ▸ hj)
    have hlk := hl.link .data i f hf
    have hfr := mkDataset_frm_notin hm hnot
    unfold Heap.dataOf
    rw [u2, hfr]
    exact u4 i _ hlk

/-- **C14, part** After a selection the sub-dataset is fully connected, and frames that were not selected
still follow the parent. (Missing: the selected frames, see `C14_violated`.) -/
theorem C14_unselected_partial {h h1 : Heap V} {ds sub : Dataset} {idx : List ℕ} (hl : Linked h ds)
    (hn : ds.frames.Nodup) (hi : idx.Nodup) (hk : select h ds idx = .ok (h1, sub)) :
    Linked h1 sub ∧ Separate sub ∧
    ∀ (i f : ℕ), ds.frames[i]? = some f → i ∉ idx → ∀ k, (ds.cube k)[i]? = some ((h1.frm f).addr k) := by
  obtain ⟨fs, hfs, hm⟩ := select_ok hk
  have hfn := select_nodup hn hi hfs
  refine ⟨mkDataset_linked hfn hm, mkDataset_separate hm, ?_⟩
  intro i f hf hx k
  have hnot : f ∉ fs := by
    intro hin
    obtain ⟨j, hj, hjf⟩ := forall2_mem_left hfs hin
    obtain ⟨a1, a2⟩ := List.getElem?_eq_some_iff.1 hf
    obtain ⟨b1, b2⟩ := List.getElem?_eq_some_iff.1 hjf
    have : i = j := (List.Nodup.getElem_inj_iff hn).1 (a2.trans b2.symm)
    exact hx (this ▸ hj)
  rw [mkDataset_frm_notin hm hnot]
  exact hl.link k i f hf

/-- **C14** is violated: a linked dataset, a slice of it, an update of the parent that succeeds, and a
frame of the parent that does not show the update although the parent's cube does. -/
theorem C14_violated : ∃ (h h1 h2 : Heap ℕ) (ds sub d2 : Dataset) (nd : List (Plane ℕ)),
    Linked h ds ∧ Valid h ds ∧ select h ds [0] = .ok (h1, sub) ∧
    update h1 ds "step" (some nd) none none [] = (h2, d2, none) ∧
    readCube h2 ds .data 0 [0, 0] = some 99 ∧ readFrame h2 ds .data 0 [0, 0] = some 10 := by
  obtain ⟨r, hk⟩ : ∃ r, select exMade.1 exMade.2 [0] = .ok r := ⟨_, rfl⟩
  have hk' := hk
  cases hk'
  refine ⟨exMade.1, _, _, exMade.2, _, _, [⟨[1, 1], fun _ => 99⟩, ⟨[1, 1], fun _ => 98⟩],
    exMade_linked, exMade_valid, hk, rfl, by decide +kernel, by decide +kernel⟩

/-! ### C16 -/

/-- The error array frame `i` shows after an update. -/
theorem putErr_frames {h h' : Heap V} {ds d' : Dataset} {ne : Option (List ℕ)}
    (hp : putErr h ds ne = some (h', d')) : d'.frames = ds.frames ∧ d'.allData = ds.allData ∧
      d'.allDq = ds.allDq ∧ d'.allErr = ne.getD ds.allErr ∧ h'.mem = h.mem ∧ h'.hdr = h.hdr ∧
      (∀ f, (h'.frm f).data = (h.frm f).data ∧ (h'.frm f).dq = (h.frm f).dq ∧
        (h'.frm f).ext = (h.frm f).ext ∧ (h'.frm f).errh = (h.frm f).errh) := by
  cases ne with
  | none => simp only [putErr, Option.some.injEq, Prod.mk.injEq] at hp; obtain ⟨rfl, rfl⟩ := hp; simp
  | some l =>
    simp only [putErr] at hp
    split at hp
    · simp only [Option.some.injEq, Prod.mk.injEq] at hp
      obtain ⟨rfl, rfl⟩ := hp
      refine ⟨rfl, rfl, rfl, rfl, rfl, rfl, ?_⟩
      intro f
      obtain ⟨_, b, c, _, _, d, e⟩ := pointErr_rest ds.frames l h.frm f
      exact ⟨d, e, b, c⟩
    · cases hp

theorem putErr_linked {h h' : Heap V} {ds d' : Dataset} {ne : Option (List ℕ)} (hl : Linked h ds)
    (hn : ds.frames.Nodup) (hp : putErr h ds ne = some (h', d')) : Linked h' d' := by
  have hpf := putErr_frames hp
  cases ne with
  | none => simp only [putErr, Option.some.injEq, Prod.mk.injEq] at hp; obtain ⟨rfl, rfl⟩ := hp; exact hl
  | some l =>
    simp only [putErr] at hp
    split at hp
    · rename_i hok
      have hlen : ds.allErr.length = l.length := by
        simp only [errShapeOk, Bool.and_eq_true, beq_iff_eq] at hok; exact hok.1
      have hlf : l.length = ds.frames.length := by rw [← hlen]; exact hl.len .err
      simp only [Option.some.injEq, Prod.mk.injEq] at hp
      obtain ⟨rfl, rfl⟩ := hp
      constructor
      · intro k
        cases k
        · exact hl.len .data
        · exact hlf
        · exact hl.len .dq
      · intro k i f hf
        obtain ⟨hi, rfl⟩ := List.getElem?_eq_some_iff.1 hf
        have e := pointErr_in ds.frames l h.frm hn hlf hi
        show (Dataset.cube _ k)[i]? = some ((pointErr h.frm ds.frames l ds.frames[i]).addr k)
        rw [e]
        cases k
        · exact hl.link .data i _ hf
        · show l[i]? = some (l[i]'(by rw [hlf]; exact hi))
          exact List.getElem?_eq_getElem _
        · exact hl.link .dq i _ hf
    · cases hp

/-- What frame `i` should show: plane `i` of the array handed in, the old plane if none was. -/
def shown (old : Plane V) : Option (List (Plane V)) → ℕ → Option (Plane V)
  | none, _ => some old
  | some l, i => l[i]?

/-- **C16** A successful update keeps the frames in step with the cubes, and each frame shows the new
arrays where given, the old ones where not. `newErr`, if given, consists of distinct arrays that are not
part of the dataset's data or dq cube. -/
theorem C16_success {h h2 : Heap V} {ds d2 : Dataset} (hl : Linked h ds) (hs : Separate ds)
    (hn : ds.frames.Nodup) {e : String} {nd nq : Option (List (Plane V))} {ne : Option (List ℕ)}
    {es : List (String × String)}
    (hne : ∀ l, ne = some l → l.Nodup ∧ ∀ a ∈ l, a ∉ ds.allData ∧ a ∉ ds.allDq)
    (hu : update h ds e nd ne nq es = (h2, d2, none)) :
    Linked h2 d2 ∧ d2.frames = ds.frames ∧
    ∀ (i f : ℕ), ds.frames[i]? = some f →
      some (h2.dataOf f) = shown (h.dataOf f) nd i ∧
      some (h2.errOf f) = shown (h.errOf f) (ne.map (List.map h.mem)) i ∧
      some (h2.dqOf f) = shown (h.dqOf f) nq i := by
  have hdisj := fun (k k' : Kind) (hk : k ≠ k') (a : ℕ) (ha : a ∈ ds.cube k) => hs.disjoint hk ha
  unfold update at hu
  cases h1 : putCube h ds.allData nd with
  | none => rw [h1] at hu; simp at hu
  | some g1 =>
    rw [h1] at hu
    simp only at hu
    cases h2' : putErr g1 ds ne with
    | none => rw [h2'] at hu; simp at hu
    | some g2d =>
      obtain ⟨g2, dd⟩ := g2d
      rw [h2'] at hu
      simp only at hu
      cases h3 : putCube g2 dd.allDq nq with
      | none => rw [h3] at hu; simp at hu
      | some g3 =>
        rw [h3] at hu
        simp only [Prod.mk.injEq, and_true] at hu
        obtain ⟨rfl, rfl⟩ := hu
        have step : ∀ {g g' : Heap V} {cube : List ℕ} {new : Option (List (Plane V))},
            cube.Nodup → putCube g cube new = some g' → g'.frm = g.frm ∧
              (∀ a, a ∉ cube → g'.mem a = g.mem a) ∧
              (∀ (i a : ℕ), cube[i]? = some a → some (g'.mem a) = shown (g.mem a) new i) := by
          intro g g' cube new hcn hp
          cases new with
          | none => simp only [putCube, Option.some.injEq] at hp; subst hp; simp [shown]
          | some l =>
            simp only [putCube] at hp
            split at hp
            · rename_i hok
              cases hp
              have hlen := (shapeOk_iff.1 hok).1
              refine ⟨(fill_frm g _ _).1, fun a ha => fill_notin _ _ _ ha, ?_⟩
              intro i a hi
              obtain ⟨hlt, rfl⟩ := List.getElem?_eq_some_iff.1 hi
              simp only [shown]
              rw [fill_in g cube l hcn hlen hlt, List.getElem?_eq_getElem (by omega)]
            · cases hp
        obtain ⟨a1, a2, a3⟩ := step (hs.nodup .data) h1
        have hl1 : Linked g1 ds := hl.of_frm a1
        obtain ⟨b1, b2, b3, b4, b5, b6, b7⟩ := putErr_frames h2'
        have hl2 := putErr_linked hl1 hn h2'
        obtain ⟨c1, c2, c3⟩ := step (by rw [b3]; exact hs.nodup .dq) h3
        have hl3 : Linked g3 dd := hl2.of_frm c1
        obtain ⟨d1, d2⟩ := updateHdrs_keep e es dd.frames g3
        refine ⟨hl3.of_frm d1, b1, ?_⟩
        intro i f hf
        have hf2 : dd.frames[i]? = some f := by rw [b1]; exact hf
        have kd := hl.link .data i f hf
        have kq := hl.link .dq i f hf
        have ke := hl2.link .err i f hf2
        simp only [Frame.addr, Dataset.cube] at kd kq ke
        have frm3 : (List.foldl (updateHdr e es) g3 dd.frames).frm f = g2.frm f := by rw [d1, c1]
        unfold Heap.dataOf Heap.errOf Heap.dqOf
        rw [frm3, d2]
        obtain ⟨f1, f2, _⟩ := b7 f
        rw [a1] at f1 f2
        refine ⟨?_, ?_, ?_⟩
        · rw [f1, c2 _ (by rw [b3]; exact hdisj .data .dq (by decide) _ (List.mem_of_getElem? kd)), b5]
          exact a3 i _ kd
        · cases ne with
          | none =>
            simp only [Option.getD_none] at b4
            rw [b4] at ke
            have ke0 := hl.link .err i f hf
            simp only [Frame.addr, Dataset.cube] at ke0
            have : (g2.frm f).err = (h.frm f).err := by rw [ke] at ke0; exact Option.some.inj ke0
            have hmem := List.mem_of_getElem? ke0
            rw [this, c2 _ (by rw [b3]; exact hdisj .err .dq (by decide) _ hmem), b5,
              a2 _ (hdisj .err .data (by decide) _ hmem)]
            rfl
          | some l =>
            simp only [Option.getD_some] at b4
            rw [b4] at ke
            obtain ⟨x1, x2⟩ := (hne l rfl).2 _ (List.mem_of_getElem? ke)
            rw [c2 _ (by rw [b3]; exact x2), b5, a2 _ x1]
            simp only [shown, Option.map_some, List.getElem?_map, ke]
        · have := c3 i (h.frm f).dq (by rw [b3]; exact kq)
          rw [f2, this]
          cases nq with
          | none => rw [b5, a2 _ (hdisj .dq .data (by decide) _ (List.mem_of_getElem? kq))]
          | some l => rfl

/-- **C16** A successful update adds exactly one HISTORY line to each frame's extension header, when no
two frames share that header, and sets every given keyword in the extension and error headers. -/
theorem C16_history {h h2 : Heap V} {ds d2 : Dataset} (hn : ds.frames.Nodup)
    (hx : ∀ f ∈ ds.frames, ∀ g ∈ ds.frames, (h.frm f).ext = (h.frm g).ext → f = g)
    {e : String} {nd nq : Option (List (Plane V))} {ne : Option (List ℕ)}
    {es : List (String × String)} (hes : (es.map Prod.fst).Nodup)
    (hu : update h ds e nd ne nq es = (h2, d2, none)) {f : ℕ} (hf : f ∈ ds.frames) :
    (viewFrame h2 f).ext.history = (viewFrame h f).ext.history ++ [e] ∧
    ∀ k v, (k, v) ∈ es → (viewFrame h2 f).ext.card k = some v ∧ (viewFrame h2 f).errh.card k = some v := by
  unfold update at hu
  cases h1 : putCube h ds.allData nd with
  | none => rw [h1] at hu; simp at hu
  | some g1 =>
    rw [h1] at hu
    simp only at hu
    cases h2' : putErr g1 ds ne with
    | none => rw [h2'] at hu; simp at hu
    | some g2d =>
      obtain ⟨g2, dd⟩ := g2d
      rw [h2'] at hu
      simp only at hu
      cases h3 : putCube g2 dd.allDq nq with
      | none => rw [h3] at hu; simp at hu
      | some g3 =>
        rw [h3] at hu
        simp only [Prod.mk.injEq, and_true] at hu
        obtain ⟨rfl, rfl⟩ := hu
        have step : ∀ {g g' : Heap V} {cube : List ℕ} {new : Option (List (Plane V))},
            putCube g cube new = some g' → g'.frm = g.frm ∧ g'.hdr = g.hdr := by
          intro g g' cube new hp
          cases new with
          | none => simp only [putCube, Option.some.injEq] at hp; subst hp; simp
          | some l =>
            simp only [putCube] at hp
            split at hp
            · cases hp; exact ⟨(fill_frm g _ _).1, (fill_frm g _ _).2.1⟩
            · cases hp
        obtain ⟨a1, a2⟩ := step h1
        obtain ⟨b1, _, _, _, _, b6, b7⟩ := putErr_frames h2'
        obtain ⟨c1, c2⟩ := step h3
        obtain ⟨d1, d2⟩ := updateHdrs_keep e es dd.frames g3
        have hext : ∀ f, (g3.frm f).ext = (h.frm f).ext := fun f => by
          rw [c1, (b7 f).2.2.1, a1]
        have hhdr : g3.hdr = h.hdr := by rw [c2, b6, a2]
        have hf2 : f ∈ dd.frames := by rw [b1]; exact hf
        unfold viewFrame
        dsimp only
        rw [d1]
        refine ⟨?_, ?_⟩
        · rw [updateHdrs_history, hhdr, hext]
          have hc : dd.frames.countP (fun f' => decide ((g3.frm f').ext = (h.frm f).ext)) = 1 := by
            have : dd.frames.countP (fun f' => decide ((g3.frm f').ext = (h.frm f).ext)) =
                dd.frames.count f := by
              unfold List.count
              apply List.countP_congr
              intro f' hf'
              simp only [decide_eq_true_eq, beq_iff_eq]
              rw [hext f']
              refine ⟨fun h => hx f' (by rw [← b1]; exact hf') f hf h, fun h => by rw [h]⟩
            rw [this, List.count_eq_one_of_mem (by rw [b1]; exact hn) hf2]
          rw [hc]; rfl
        · intro k v hkv
          exact updateHdrs_cards e es dd.frames g3 hes hkv hf2

example : ∃ (h2 : Heap ℕ) (d2 : Dataset), update exMade.1 exMade.2 "step"
    (some [⟨[1, 1], fun _ => 99⟩, ⟨[1, 1], fun _ => 98⟩]) none none [("BUNIT", "e")] = (h2, d2, none) :=
  ⟨_, _, rfl⟩
example : ∀ f ∈ exMade.2.frames, ∀ g ∈ exMade.2.frames,
    (exMade.1.frm f).ext = (exMade.1.frm g).ext → f = g := by decide +kernel

/-- The shapes of what is handed in, compared with the dataset before the call. -/
def ShapesFit (h : Heap V) (ds : Dataset) (nd : Option (List (Plane V))) (ne : Option (List ℕ))
    (nq : Option (List (Plane V))) : Prop :=
  (∀ l, nd = some l → ds.allData.map (fun a => (h.mem a).shape) = l.map Plane.shape) ∧
  (∀ l, ne = some l → ds.allErr.map (fun a => lastTwo (h.mem a).shape) =
    l.map (fun a => lastTwo (h.mem a).shape)) ∧
  (∀ l, nq = some l → ds.allDq.map (fun a => (h.mem a).shape) = l.map Plane.shape)

theorem shapeOk_map {h : Heap V} {as : List ℕ} {ps : List (Plane V)} :
    shapeOk h as ps = true ↔ as.map (fun a => (h.mem a).shape) = ps.map Plane.shape := by
  rw [shapeOk_iff]
  constructor
  · rintro ⟨h1, h2⟩
    apply List.ext_getElem
    · simp [h1]
    · intro i hi hi'
      simpa using h2 i (by simpa using hi) (by simpa using hi')
  · intro he
    have hl : as.length = ps.length := by simpa using congrArg List.length he
    refine ⟨hl, ?_⟩
    intro i hi hi'
    have : (as.map (fun a => (h.mem a).shape))[i]? = (ps.map Plane.shape)[i]? := by rw [he]
    simpa [List.getElem?_eq_getElem hi, List.getElem?_eq_getElem hi'] using this

theorem errShapeOk_map {h : Heap V} {as bs : List ℕ} :
    errShapeOk h as bs = true ↔ as.map (fun a => lastTwo (h.mem a).shape) =
      bs.map (fun a => lastTwo (h.mem a).shape) := by
  unfold errShapeOk
  simp only [Bool.and_eq_true, beq_iff_eq, List.all_eq_true]
  constructor
  · rintro ⟨h1, h2⟩
    apply List.ext_getElem
    · simp [h1]
    · intro i hi hi'
      have := h2 (as[i]'(by simpa using hi), bs[i]'(by simpa using hi'))
        (List.mem_iff_getElem.2 ⟨i, by simp at hi hi' ⊢; omega, by simp⟩)
      simpa using this
  · intro he
    have hl : as.length = bs.length := by simpa using congrArg List.length he
    refine ⟨hl, ?_⟩
    intro ap hap
    obtain ⟨i, hi, rfl⟩ := List.getElem_of_mem hap
    simp only [List.length_zip] at hi
    have : (as.map (fun a => lastTwo (h.mem a).shape))[i]? = (bs.map (fun a => lastTwo (h.mem a).shape))[i]? := by
      rw [he]
    simpa [List.getElem?_eq_getElem (show i < as.length by omega),
      List.getElem?_eq_getElem (show i < bs.length by omega)] using this

/-- **C16** The call succeeds exactly when all three shapes fit, and otherwise raises `ValueError`. -/
theorem C16_raises_iff (h : Heap V) (ds : Dataset) (e : String) (nd : Option (List (Plane V)))
    (ne : Option (List ℕ)) (nq : Option (List (Plane V))) (es : List (String × String)) :
    (update h ds e nd ne nq es).2.2 = none ↔ ShapesFit h ds nd ne nq := by
  have cubeShape : ∀ {g g' : Heap V} {cube : List ℕ} {new : Option (List (Plane V))},
      putCube g cube new = some g' → ∀ a, (g'.mem a).shape = (g.mem a).shape := by
    intro g g' cube new hp
    cases new with
    | none => simp only [putCube, Option.some.injEq] at hp; subst hp; simp
    | some l =>
      simp only [putCube] at hp
      split at hp
      · rename_i hok
        cases hp
        intro a
        apply fill_shape
        simp only [shapeOk, Bool.and_eq_true, List.all_eq_true, beq_iff_eq] at hok
        exact hok.2
      · cases hp
  have cubeIff : ∀ (g : Heap V) (cube : List ℕ) (new : Option (List (Plane V))),
      (∃ g', putCube g cube new = some g') ↔
        ∀ l, new = some l → cube.map (fun a => (g.mem a).shape) = l.map Plane.shape := by
    intro g cube new
    cases new with
    | none => simp [putCube]
    | some l =>
      simp only [putCube, Option.some.injEq, forall_eq', ← shapeOk_map]
      by_cases hok : shapeOk g cube l = true <;> simp [hok]
  unfold update
  cases h1 : putCube h ds.allData nd with
  | none =>
    simp only [reduceCtorEq, false_iff]
    intro hf
    obtain ⟨g, hg⟩ := (cubeIff h ds.allData nd).2 hf.1
    rw [h1] at hg; cases hg
  | some g1 =>
    have p1 := (cubeIff h ds.allData nd).1 ⟨g1, h1⟩
    have s1 := cubeShape h1
    simp only
    cases h2 : putErr g1 ds ne with
    | none =>
      simp only [reduceCtorEq, false_iff]
      intro hf
      cases ne with
      | none => simp [putErr] at h2
      | some l =>
        have := hf.2.1 l rfl
        simp only [← s1] at this
        simp only [putErr] at h2
        rw [if_pos (errShapeOk_map.2 this)] at h2
        cases h2
    | some g2d =>
      obtain ⟨g2, dd⟩ := g2d
      obtain ⟨b1, b2, b3, b4, b5, b6, b7⟩ := putErr_frames h2
      have p2 : ∀ l, ne = some l → ds.allErr.map (fun a => lastTwo (h.mem a).shape) =
          l.map (fun a => lastTwo (h.mem a).shape) := by
        intro l hl
        subst hl
        simp only [putErr] at h2
        by_cases hok : errShapeOk g1 ds.allErr l = true
        · have := errShapeOk_map.1 hok
          simpa only [s1] using this
        · rw [if_neg hok] at h2; cases h2
      simp only
      have hc := cubeIff g2 dd.allDq nq
      rw [b3, b5] at hc
      simp only [s1] at hc
      rw [b3]
      cases h3 : putCube g2 ds.allDq nq with
      | none =>
        simp only [reduceCtorEq, false_iff]
        intro hf
        obtain ⟨g, hg⟩ := hc.2 hf.2.2
        rw [h3] at hg; cases hg
      | some g3 =>
        simp only [true_iff]
        exact ⟨p1, p2, hc.1 ⟨g3, h3⟩⟩

/-- **C16** What the last two dimensions are: error cubes of any numbers of layers fit exactly when rows and
columns agree. -/
theorem C16_layers_free (l l' r r' c c' : ℕ) :
    lastTwo [l, r, c] = lastTwo [l', r', c'] ↔ r = r' ∧ c = c' := by
  simp [lastTwo]

/-- **C16, part** A wrong shape of the *data* raises before anything is changed. (Missing: for a wrong
error or dq shape this is false, see `C16_violated`.) -/
theorem C16_data_mismatch_partial (h : Heap V) (ds : Dataset) (e : String) (l : List (Plane V))
    (ne : Option (List ℕ)) (nq : Option (List (Plane V))) (es : List (String × String))
    (hbad : ds.allData.map (fun a => (h.mem a).shape) ≠ l.map Plane.shape) :
    update h ds e (some l) ne nq es = (h, ds, some .valueError) := by
  unfold update
  simp only [putCube]
  rw [if_neg (fun hok => hbad (shapeOk_map.1 hok))]

/-- **C16** What a rejected dq (or err) array leaves behind: if the data fitted, every frame of a linked
dataset already shows the new data although the call raised, and no HISTORY line was added. -/
theorem C16_rejected_but_changed {h h2 : Heap V} {ds d2 : Dataset} (hl : Linked h ds) (hs : Separate ds)
    {e : String} {l : List (Plane V)} {ne : Option (List ℕ)} {nq : Option (List (Plane V))}
    {es : List (String × String)}
    (hfit : ds.allData.map (fun a => (h.mem a).shape) = l.map Plane.shape)
    (hu : update h ds e (some l) ne nq es = (h2, d2, some .valueError)) :
    (∀ (i f : ℕ), ds.frames[i]? = some f → some (h2.dataOf f) = l[i]?) ∧ h2.hdr = h.hdr := by
  have hok := shapeOk_map.2 hfit
  have hlen := (shapeOk_iff.1 hok).1
  have hdat : ∀ (i f : ℕ), ds.frames[i]? = some f →
      some ((h.fill ds.allData l).mem (h.frm f).data) = l[i]? := by
    intro i f hf
    have kd := hl.link .data i f hf
    simp only [Frame.addr, Dataset.cube] at kd
    obtain ⟨hlt, he⟩ := List.getElem?_eq_some_iff.1 kd
    rw [← he, fill_in h ds.allData l (hs.nodup .data) hlen hlt, List.getElem?_eq_getElem (by omega)]
  unfold update at hu
  simp only [putCube, if_pos hok] at hu
  cases h2' : putErr (h.fill ds.allData l) ds ne with
  | none =>
    rw [h2'] at hu
    simp only [Prod.mk.injEq, and_true] at hu
    obtain ⟨rfl, rfl⟩ := hu
    refine ⟨?_, (fill_frm h _ _).2.1⟩
    intro i f hf
    unfold Heap.dataOf
    rw [(fill_frm h _ _).1]
    exact hdat i f hf
  | some g2d =>
    obtain ⟨g2, dd⟩ := g2d
    obtain ⟨b1, b2, b3, b4, b5, b6, b7⟩ := putErr_frames h2'
    rw [h2'] at hu
    simp only at hu
    split at hu
    · simp only [Prod.mk.injEq, and_true] at hu
      obtain ⟨rfl, rfl⟩ := hu
      refine ⟨?_, by rw [b6, (fill_frm h _ _).2.1]⟩
      intro i f hf
      unfold Heap.dataOf
      rw [(b7 f).1, b5, (fill_frm h _ _).1]
      exact hdat i f hf
    · simp at hu

/-- **C16** is violated: a dq array of the wrong shape is rejected, but the data have been replaced. -/
theorem C16_violated : ∃ (h h2 : Heap ℕ) (ds d2 : Dataset) (nd nq : List (Plane ℕ)),
    Linked h ds ∧ update h ds "step" (some nd) none (some nq) [] = (h2, d2, some .valueError) ∧
    readFrame h ds .data 0 [0, 0] = some 10 ∧ readFrame h2 ds .data 0 [0, 0] = some 99 := by
  refine ⟨exMade.1, _, exMade.2, _, [⟨[1, 1], fun _ => 99⟩, ⟨[1, 1], fun _ => 98⟩],
    [⟨[2, 1], fun _ => 0⟩, ⟨[2, 1], fun _ => 0⟩], exMade_linked, rfl, by decide +kernel, by decide +kernel⟩

end Corgi.DS

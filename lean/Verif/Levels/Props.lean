import Verif.Levels.Lemmas

/-!
# C19: data-level upgrades
-/

namespace Corgi.Levels
open Corgi.DS

variable {V : Type}

/-- All frames of the dataset are at level `l`. -/
def AtLevel (h : Heap V) (ds : Dataset) (l : String) : Prop :=
  ∀ f ∈ ds.frames, (viewFrame h f).ext.card "DATALVL" = some l

/-- The pipeline order, as a specification: the upgrades that can follow a level. -/
def remaining : String → List Up
  | "L1" => [.l2a, .l2b, .l3, .l4, .tda]
  | "L2a" => [.l2b, .l3, .l4, .tda]
  | "L2b" => [.l3, .l4, .tda]
  | "L3" => [.l4, .tda]
  | "L4" => [.tda]
  | _ => []

/-- **C19** An upgrade of a (non-empty, well-shaped) dataset is accepted exactly when all its frames are at
the level before. -/
theorem C19_accepts_iff {h : Heap V} {ds : Dataset} (hg : Good h ds) (v now ct flux : String) (u : Up) :
    (∃ r, u.run v now ct flux h ds = .ok r) ↔ AtLevel h ds u.src := by
  constructor
  · rintro ⟨⟨h1, d1⟩, hr⟩
    exact (upgrade_effect hg.valid (u.cards_ok ct flux) hr).1
  · intro hl
    exact upgrade_succeeds hg _ _ _ _ _ _ hl

/-- **C19** A dataset with a frame at any other level, or without DATALVL, is refused and the heap is as
before (the function returns no new heap). -/
theorem C19_refuses (h : Heap V) (ds : Dataset) (v now ct flux : String) (u : Up) {f : ℕ}
    (hf : f ∈ ds.frames) (hl : (viewFrame h f).ext.card "DATALVL" ≠ some u.src) :
    u.run v now ct flux h ds = .error .valueError := by
  unfold Up.run upgrade
  rw [if_neg]
  intro hall
  have := List.all_eq_true.1 hall f hf
  exact hl (by simpa [viewFrame] using this)

/-- **C19** An accepted upgrade sets DATALVL on all frames, renames each, keeps their number and order and
changes no pixel. -/
theorem C19_effect {h h1 : Heap V} {ds d1 : Dataset} (hg : Good h ds) {v now ct flux : String} {u : Up}
    (hk : u.run v now ct flux h ds = .ok (h1, d1)) :
    AtLevel h1 d1 u.dst ∧ Good h1 d1 ∧
    d1.frames.map (fun f => ((viewFrame h1 f).data, (viewFrame h1 f).err, (viewFrame h1 f).dq)) =
      ds.frames.map (fun f => ((viewFrame h f).data, (viewFrame h f).err, (viewFrame h f).dq)) ∧
    d1.frames.map (fun f => (viewFrame h1 f).filename) =
      ds.frames.map (fun f => u.rename (viewFrame h f).filename) := by
  obtain ⟨_, e2, _, _, e5⟩ := upgrade_effect hg.valid (u.cards_ok ct flux) hk
  refine ⟨?_, upgrade_good hg (u.cards_ok ct flux) hk, ?_, ?_⟩
  · intro f hf
    obtain ⟨i, hi, rfl⟩ := List.getElem_of_mem hf
    exact (e5 i (by omega) hi).2.2.2.2
  · apply List.ext_getElem
    · simp [e2]
    · intro i h1' h2'
      simp only [List.getElem_map]
      obtain ⟨a, b, c, _, _⟩ := e5 i (by simpa using h2') (by simpa using h1')
      rw [a, b, c]
  · apply List.ext_getElem
    · simp [e2]
    · intro i h1' h2'
      simp only [List.getElem_map]
      exact (e5 i (by simpa using h2') (by simpa using h1')).2.2.2.1

theorem runAll_good (v now ct flux : String) (us : List Up) {h h1 : Heap V} {ds d1 : Dataset}
    (hg : Good h ds) (hk : runAll v now ct flux us h ds = .ok (h1, d1)) :
    Good h1 d1 ∧
    d1.frames.map (fun f => ((viewFrame h1 f).data, (viewFrame h1 f).err, (viewFrame h1 f).dq)) =
      ds.frames.map (fun f => ((viewFrame h f).data, (viewFrame h f).err, (viewFrame h f).dq)) ∧
    d1.frames.map (fun f => (viewFrame h1 f).filename) =
      ds.frames.map (fun f => us.foldl (fun s u => u.rename s) (viewFrame h f).filename) := by
  induction us generalizing h ds with
  | nil =>
    simp only [runAll, Except.ok.injEq, Prod.mk.injEq] at hk
    obtain ⟨rfl, rfl⟩ := hk
    exact ⟨hg, rfl, rfl⟩
  | cons u us ih =>
    simp only [runAll] at hk
    cases hu : u.run v now ct flux h ds with
    | error e => rw [hu] at hk; cases hk
    | ok r =>
      obtain ⟨h2, d2⟩ := r
      rw [hu] at hk
      obtain ⟨_, a2, a3, a4⟩ := C19_effect hg hu
      obtain ⟨b1, b2, b3⟩ := ih a2 hk
      refine ⟨b1, b2.trans a3, b3.trans ?_⟩
      have : d2.frames.map (fun f => us.foldl (fun s u => u.rename s) (viewFrame h2 f).filename) =
          (d2.frames.map (fun f => (viewFrame h2 f).filename)).map (us.foldl fun s u => u.rename s) := by
        rw [List.map_map]; rfl
      rw [this, a4, List.map_map]
      rfl

/-- **C19** Upgrades can only be applied in pipeline order, none twice and none left out: a sequence of
upgrades applied to a dataset at level `l` succeeds exactly when it is an initial part of the pipeline
from that level on. -/
theorem C19_order {h : Heap V} {ds : Dataset} (hg : Good h ds) (v now ct flux : String) {l : String}
    (hl : AtLevel h ds l) (us : List Up) :
    (∃ r, runAll v now ct flux us h ds = .ok r) ↔ us <+: remaining l := by
  induction us generalizing h ds l with
  | nil => simp [runAll]
  | cons u us ih =>
    have hsrc : ∀ l', AtLevel h ds l' → l' = l := by
      intro l' hl'
      obtain ⟨f, hf⟩ := List.exists_mem_of_ne_nil _ hg.nonempty
      have := (hl f hf).symm.trans (hl' f hf)
      exact (Option.some.inj this).symm
    have hrem : ∀ u : Up, remaining u.src = u :: remaining u.dst := by
      intro u; cases u <;> rfl
    have hhead : ∀ l, ∀ u ∈ (remaining l).head?, u.src = l := by
      intro l u hu
      unfold remaining at hu
      split at hu <;> simp at hu <;> subst hu <;> rfl
    constructor
    · rintro ⟨r, hr⟩
      simp only [runAll] at hr
      cases hu : u.run v now ct flux h ds with
      | error e => rw [hu] at hr; cases hr
      | ok q =>
        obtain ⟨h2, d2⟩ := q
        rw [hu] at hr
        have hs := hsrc _ ((C19_accepts_iff hg v now ct flux u).1 ⟨_, hu⟩)
        obtain ⟨a1, a2, _⟩ := C19_effect hg hu
        have := (ih a2 a1).1 ⟨r, hr⟩
        rw [← hs, hrem]
        exact List.cons_prefix_cons.2 ⟨rfl, this⟩
    · intro hp
      have hh : u.src = l := by
        apply hhead
        obtain ⟨t, ht⟩ := hp
        rw [← ht]; simp
      subst hh
      rw [hrem] at hp
      have hp' := (List.cons_prefix_cons.1 hp).2
      obtain ⟨⟨h2, d2⟩, hu⟩ := (C19_accepts_iff hg v now ct flux u).2 hl
      obtain ⟨a1, a2, _⟩ := C19_effect hg hu
      obtain ⟨r, hr⟩ := (ih a2 a1).2 hp'
      exact ⟨r, by simp only [runAll, hu, hr]⟩

/-- **C19** Names: a file `<stem>_L1_<rest>` whose stem has no `_L` in it becomes `<stem>_L2a<rest>`,
`<stem>_L2b<rest>`, `<stem>_L3_<rest>`, `<stem>_L4_<rest>`, `<stem>_TDA_<rest>` along the pipeline. -/
theorem C19_names (stem rest : String) (hs : ¬ ['_', 'L'] <:+: stem.toList) :
    Up.l2a.rename (stem ++ "_L1_" ++ rest) = stem ++ "_L2a" ++ rest ∧
    Up.l2b.rename (stem ++ "_L2a" ++ rest) = stem ++ "_L2b" ++ rest ∧
    Up.l3.rename (stem ++ "_L2b" ++ rest) = stem ++ "_L3_" ++ rest ∧
    Up.l4.rename (stem ++ "_L3_" ++ rest) = stem ++ "_L4_" ++ rest ∧
    Up.tda.rename (stem ++ "_L4_" ++ rest) = stem ++ "_TDA_" ++ rest := by
  refine ⟨?_, ?_, ?_, ?_, ?_⟩ <;> exact pyReplace1_tag _ _ _ _ hs ⟨_, rfl⟩

/-- **C19** The whole course: a dataset at L1 whose files are named `<stem>_L1_<rest>` comes out of the four
upgrades at L4 with the same pixels and names `<stem>_L4_<rest>`. -/
theorem C19_pipeline {h : Heap V} {ds : Dataset} (hg : Good h ds) (v now ct flux : String)
    (hl : AtLevel h ds "L1") (stem rest : ℕ → String)
    (hs : ∀ f ∈ ds.frames, ¬ ['_', 'L'] <:+: (stem f).toList)
    (hname : ∀ f ∈ ds.frames, (viewFrame h f).filename = stem f ++ "_L1_" ++ rest f) :
    ∃ h1 d1, runAll v now ct flux [.l2a, .l2b, .l3, .l4] h ds = .ok (h1, d1) ∧ AtLevel h1 d1 "L4" ∧
      d1.frames.map (fun f => ((viewFrame h1 f).data, (viewFrame h1 f).err, (viewFrame h1 f).dq)) =
        ds.frames.map (fun f => ((viewFrame h f).data, (viewFrame h f).err, (viewFrame h f).dq)) ∧
      d1.frames.map (fun f => (viewFrame h1 f).filename) =
        ds.frames.map (fun f => stem f ++ "_L4_" ++ rest f) := by
  obtain ⟨⟨h1, d1⟩, hr⟩ := (C19_order hg v now ct flux hl [.l2a, .l2b, .l3, .l4]).2 ⟨[.tda], rfl⟩
  obtain ⟨g1, g2, g3⟩ := runAll_good v now ct flux _ hg hr
  refine ⟨h1, d1, hr, ?_, g2, ?_⟩
  · -- the level: one more upgrade would be accepted
    obtain ⟨r5, hr5⟩ := (C19_order hg v now ct flux hl [.l2a, .l2b, .l3, .l4, .tda]).2 ⟨[], rfl⟩
    have split : ∀ (us : List Up) (u : Up) (g : Heap V) (d : Dataset) (g' : Heap V) (d' : Dataset),
        runAll v now ct flux us g d = .ok (g', d') →
        runAll v now ct flux (us ++ [u]) g d = u.run v now ct flux g' d' := by
      intro us
      induction us with
      | nil =>
        intro u g d g' d' h0
        simp only [runAll, Except.ok.injEq, Prod.mk.injEq] at h0
        obtain ⟨rfl, rfl⟩ := h0
        simp only [List.nil_append, runAll]
        cases u.run v now ct flux g d <;> rfl
      | cons w us ih =>
        intro u g d g' d' h0
        simp only [runAll] at h0
        cases hw : w.run v now ct flux g d with
        | error e => rw [hw] at h0; cases h0
        | ok q =>
          rw [hw] at h0
          simp only [List.cons_append, runAll, hw]
          exact ih u _ _ _ _ h0
    have := split [.l2a, .l2b, .l3, .l4] .tda h ds h1 d1 hr
    simp only [List.cons_append, List.nil_append] at this
    rw [this] at hr5
    exact (C19_accepts_iff g1 v now ct flux .tda).1 ⟨r5, hr5⟩
  · rw [g3]
    apply List.map_congr_left
    intro f hf
    obtain ⟨n1, n2, n3, n4, _⟩ := C19_names (stem f) (rest f) (hs f hf)
    simp only [List.foldl_cons, List.foldl_nil, hname f hf, n1, n2, n3, n4]

/-- The example dataset qualifies: two frames at L1 named `a_L1_.fits`, `b_L1_.fits`. -/
theorem exGood : Good exMade.1 exMade.2 := by
  refine ⟨exMade_valid, by decide, ?_⟩
  have h0 : exMade.2.frames = [0, 1] := by decide
  intro f hf g hg k
  have hf' : f = 0 ∨ f = 1 := by simpa [h0] using hf
  have hg' : g = 0 ∨ g = 1 := by simpa [h0] using hg
  rcases hf' with rfl | rfl <;> rcases hg' with rfl | rfl <;> cases k <;> decide +kernel

example : AtLevel exMade.1 exMade.2 "L1" := by
  have h0 : exMade.2.frames = [0, 1] := by decide
  intro f hf
  have hf' : f = 0 ∨ f = 1 := by simpa [h0] using hf
  rcases hf' with rfl | rfl <;> decide +kernel
example : ¬ ['_', 'L'] <:+: "CGI_0200001_20250415T0305102".toList := by decide +kernel
example : pyReplace1 "_L1_" "_L2a" "CGI_0200001_L1_.fits" = "CGI_0200001_L2a.fits" := by decide +kernel

/-- **C19** Finding: a failed upgrade is not without effect. `update_to_l4` without a flux calibration
(`None`) raises `AttributeError`, but the caller's first frame is then marked L4, so that the next attempt
with the flux calibration raises `ValueError`. -/
theorem C19_failed_l4_marks_input {h : Heap V} {ds : Dataset} (hg : Good h ds) (v now : String)
    (rename : String → String) (ct : Option String) (hl : AtLevel h ds "L3") :
    let r := upgradeL4 v now rename ct none h ds
    r.2 = .error .attributeError ∧
    (∃ f, ds.frames.head? = some f ∧ (viewFrame r.1 f).ext.card "DATALVL" = some "L4") ∧
    ∀ (v' now' fx : String), (upgradeL4 v' now' rename ct (some fx) r.1 ds).2 = .error .valueError := by
  have hall : ds.frames.all (fun f => (h.hdr (h.frm f).ext).card "DATALVL" == some "L3") = true := by
    rw [List.all_eq_true]
    intro f hf
    simpa [viewFrame] using hl f hf
  obtain ⟨⟨h1, d1⟩, hr⟩ := copyShallow_succeeds hg v now
  obtain ⟨p1, _, _, p4⟩ := shallow_frames hg.valid hr
  obtain ⟨f0, rest, hf0⟩ := List.exists_cons_of_ne_nil hg.nonempty
  have hlen : 0 < ds.frames.length := by rw [hf0]; simp
  have hd1 : ∃ t, d1.frames = h.nfrm :: t := by
    rw [p1, hf0]
    exact ⟨_, by rw [List.length_cons, List.range'_succ]⟩
  obtain ⟨t, ht⟩ := hd1
  obtain ⟨f', e1, e2⟩ := shallow_shares_headers hg.valid hr (i := 0) (f := f0) (by simp [hf0])
  have hf' : f' = h.nfrm := by rw [ht] at e1; simpa using e1.symm
  subst hf'
  have e2' := e2 .ext
  simp only [Frame.hdrAddr] at e2'
  have hlvl : (viewFrame (upgradeL4 v now rename ct none h ds).1 f0).ext.card "DATALVL" = some "L4" := by
    simp only [upgradeL4, if_pos hall, hr, ht, viewFrame, Heap.setKey]
    rw [e2']
    simp
  have herr : (upgradeL4 v now rename ct none h ds).2 = .error .attributeError := by
    simp only [upgradeL4, if_pos hall, hr, ht]
  refine ⟨herr, ⟨f0, by rw [hf0]; rfl, hlvl⟩, ?_⟩
  intro v' now' fx
  generalize (upgradeL4 v now rename ct none h ds).1 = g at hlvl
  have : upgrade v' now' "L3" "L4" [("CTCALFN", ct.getD ""), ("FLXCALFN", fx)] rename g ds =
      .error .valueError := by
    unfold upgrade
    rw [if_neg]
    intro hall
    have := List.all_eq_true.1 hall f0 (by rw [hf0]; simp)
    simp only [viewFrame] at hlvl
    rw [hlvl] at this
    revert this
    decide
  simp only [upgradeL4, this]

end Corgi.Levels

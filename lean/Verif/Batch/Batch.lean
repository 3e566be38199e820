import Verif.EndToEnd.L2b
import Verif.L2a.FrameSelect
import Verif.Detector.Saturation
import Verif.L4.Crop
import Verif.CalDB.Suit

/-!
# Property C172: frames together and one at a time

The steps get a whole dataset.  What becomes of a frame should not depend on the other frames that happen to be in it: the
models of the other files are called on a list of frames and on its frames one by one.
-/

noncomputable section

namespace Corgi.Batch

/-! ## Specification -/

/-- A dataset passes a step exactly if each of its frames passes it alone, with the same result. -/
def Separate {ε α β : Type} (step : List α → Except ε (List β)) : Prop :=
  ∀ fs out, fs ≠ [] → (step fs = .ok out ↔ List.Forall₂ (fun f o => step [f] = .ok [o]) fs out)

variable {ε ε' α β γ : Type}

/-- **C172** In a step that takes the frames separately nothing depends on frames that are added or left out, … -/
theorem C172_rest {step : List α → Except ε (List β)} (h : Separate step) {xs ys : List α} {out : List β} (hx : xs ≠ [])
    (hs : step (xs ++ ys) = .ok out) : step xs = .ok (out.take xs.length) := by
  rw [h _ _ (by simp [hx])] at hs
  rw [h _ _ hx]
  have := List.forall₂_take xs.length hs
  rwa [List.take_left] at this

/-- … nor on the way a set of frames is divided, … -/
theorem C172_append {step : List α → Except ε (List β)} (h : Separate step) {xs ys : List α} (hx : xs ≠ []) (hy : ys ≠ [])
    (out : List β) : step (xs ++ ys) = .ok out ↔ ∃ a b, step xs = .ok a ∧ step ys = .ok b ∧ out = a ++ b := by
  rw [h _ _ (by simp [hx])]
  constructor
  · intro hf
    have ha := List.forall₂_take xs.length hf
    have hb := List.forall₂_drop xs.length hf
    rw [List.take_left] at ha
    rw [List.drop_left] at hb
    exact ⟨_, _, (h _ _ hx).2 ha, (h _ _ hy).2 hb, (List.take_append_drop _ _).symm⟩
  · rintro ⟨a, b, ha, hb, rfl⟩
    exact List.rel_append ((h _ _ hx).1 ha) ((h _ _ hy).1 hb)

/-- … nor on their order, which the result keeps. -/
theorem C172_perm {step : List α → Except ε (List β)} (h : Separate step) {xs ys : List α} (hp : xs.Perm ys) (hx : xs ≠ [])
    {out : List β} (hs : step xs = .ok out) : ∃ out', step ys = .ok out' ∧ out.Perm out' := by
  have hy : ys ≠ [] := fun h0 => hx (by rw [h0] at hp; exact hp.eq_nil)
  rw [h _ _ hx] at hs
  obtain ⟨w, hw, hpw⟩ := List.perm_comp_forall₂ hp.symm hs
  exact ⟨w, (h _ _ hy).2 hw, hpw.symm⟩

/-- **C172** Steps that take the frames separately do so one after the other. -/
theorem C172_then {s : List α → Except ε (List β)} {t : List β → Except ε (List γ)} (hs : Separate s) (ht : Separate t) :
    Separate fun fs => s fs >>= t := by
  intro fs out hne
  have key : ∀ f o, (s [f] >>= t) = .ok [o] ↔ ∃ g, s [f] = .ok [g] ∧ t [g] = .ok [o] := by
    intro f o
    constructor
    · intro h
      cases h1 : s [f] with
      | error e => rw [h1] at h; cases h
      | ok l =>
        have := (hs _ _ (by simp)).1 h1
        obtain ⟨g, l', -, hn, rfl⟩ := List.forall₂_cons_left_iff.1 this
        rw [List.forall₂_nil_left_iff.1 hn] at h1
        refine ⟨g, by rw [List.forall₂_nil_left_iff.1 hn], ?_⟩
        rw [h1] at h
        exact h
    · rintro ⟨g, h1, h2⟩
      rw [h1]
      exact h2
  constructor
  · intro h
    cases h1 : s fs with
    | error e =>
      simp only [bind, Except.bind] at h
      rw [h1] at h; cases h
    | ok gs =>
      simp only [bind, Except.bind] at h
      rw [h1] at h
      dsimp only at h
      have f1 := (hs _ _ hne).1 h1
      have hg : gs ≠ [] := fun h0 => hne (by rw [h0] at f1; exact List.forall₂_nil_right_iff.1 f1)
      have f2 := (ht _ _ hg).1 h
      clear h h1 hg hne
      induction f1 generalizing out with
      | nil => cases f2; exact .nil
      | cons a b ih =>
        cases f2 with
        | cons c d => exact .cons ((key _ _).2 ⟨_, a, c⟩) (ih _ d)
  · intro h
    obtain ⟨gs, f1, f2⟩ : ∃ gs, List.Forall₂ (fun f g => s [f] = .ok [g]) fs gs ∧
        List.Forall₂ (fun g o => t [g] = .ok [o]) gs out := by
      clear hne
      induction h with
      | nil => exact ⟨[], .nil, .nil⟩
      | cons a b ih =>
        obtain ⟨gs, i1, i2⟩ := ih
        obtain ⟨g, k1, k2⟩ := (key _ _).1 a
        exact ⟨g :: gs, .cons k1 i1, .cons k2 i2⟩
    have hg : gs ≠ [] := fun h0 => hne (by rw [h0] at f1; exact List.forall₂_nil_right_iff.1 f1)
    simp only [bind, Except.bind]
    rw [(hs _ _ hne).2 f1]
    exact (ht _ _ hg).2 f2

/-! ## Steps that loop over the frames -/

theorem mapM_single (g : α → Except ε β) (f : α) (o : β) : [f].mapM g = .ok [o] ↔ g f = .ok o := by
  rw [mapM_ok_iff]
  constructor
  · intro h; cases h with | cons a _ => exact a
  · intro h; exact .cons h .nil

theorem separate_mapM (g : α → Except ε β) : Separate fun fs => fs.mapM g := by
  intro fs out _
  dsimp only
  rw [mapM_ok_iff]
  simp only [mapM_single]

theorem separate_map (g : α → β) : Separate fun fs => (.ok (fs.map g) : Except ε (List β)) := by
  intro fs out hne
  clear hne
  simp only [Except.ok.injEq, List.map_cons, List.map_nil, List.cons.injEq, and_true]
  constructor
  · rintro rfl
    exact List.forall₂_map_right_iff.2 (List.forall₂_same.2 fun _ _ => rfl)
  · intro h
    induction h with
    | nil => rfl
    | cons a _ ih => rw [List.map_cons, a, ih]

open Corgi.Arith Corgi.EndToEnd

/-- **C172** The steps that only loop over the frames take them separately: bias subtraction with correction of the non-linearity, conversion
to electrons, division by the gain, desmearing, flat division and division by the exposure time. -/
theorem C172_steps (tab : NonLin.Table ℝ) (off offErr k ek rowread : ℝ) (track : Bool) (junk : Ix → ℝ) (F : Arith.Flat) :
    Separate (fun xs => xs.mapM (l2a tab off offErr)) ∧
    Separate (fun fs => (.ok (fs.map (toElectrons k ek)) : Except Arith.Err _)) ∧
    Separate (fun fs => (.ok (fs.map emDiv) : Except Arith.Err _)) ∧
    Separate (fun fs => (.ok (fs.map (desmearFr rowread)) : Except Arith.Err _)) ∧
    Separate (flatDiv track junk F) ∧ Separate (fun fs => fs.mapM expDiv) :=
  ⟨separate_mapM _, separate_map _, separate_map _, separate_map _, separate_mapM _, separate_mapM _⟩

/-! ## Dark subtraction -/

theorem uniform_iff (fs : List Fr) :
    uniform fs = true ↔ ∀ f ∈ fs, ∀ g ∈ fs, (f.exptime, f.emC, f.kgain) = (g.exptime, g.emC, g.kgain) := by
  unfold uniform
  cases fs with
  | nil => simp
  | cons a l =>
    simp only [List.all_eq_true, decide_eq_true_eq]
    constructor
    · intro h f hf g hg
      rw [h f hf, h g hg]
    · intro h f hf
      exact h f hf a (by simp)

theorem uniform_single (f : Fr) : uniform [f] = true := by rw [uniform_iff]; simp

/-- **C172** The subtraction of a traditional dark takes the frames separately: the frames of a dataset need not be compared with each other,
all of them are compared with the dark. -/
theorem C172_dark (track : Bool) (d : DarkCal) : Separate (darkSub track d) := by
  intro fs out hne
  have one : ∀ f o, darkSub track d [f] = .ok [o] ↔ ¬ (d.pcStat ≠ none ∧ d.pcStat ≠ some "analog master dark") ∧
      (d.exptime, d.emC, d.kgain) = (f.exptime, f.emC, f.kgain) ∧ subFrame track d f = .ok o := by
    intro f o
    unfold darkSub
    dsimp only
    rw [if_neg (by rw [uniform_single]; simp)]
    by_cases h1 : d.pcStat ≠ none ∧ d.pcStat ≠ some "analog master dark"
    · rw [if_pos h1]; simp [h1]
    · rw [if_neg h1]
      by_cases h2 : (d.exptime, d.emC, d.kgain) = (f.exptime, f.emC, f.kgain)
      · rw [if_neg (not_not.2 h2), mapM_single]
        exact ⟨fun h => ⟨h1, h2, h⟩, fun h => h.2.2⟩
      · rw [if_pos h2]
        constructor
        · intro h; cases h
        · intro h; exact absurd h.2.1 h2
  simp only [one]
  cases fs with
  | nil => exact absurd rfl hne
  | cons f l =>
    unfold darkSub
    dsimp only
    constructor
    · intro h
      split_ifs at h with h0 h1 h2
      · rw [Bool.not_eq_false, uniform_iff] at h0
        rw [mapM_ok_iff, List.forall₂_iff_zip] at h
        rw [List.forall₂_iff_zip]
        refine ⟨h.1, fun {a b} hab => ⟨h1, ?_, h.2 hab⟩⟩
        rw [not_not] at h2
        rw [h2]
        exact h0 f (by simp) a (List.of_mem_zip hab).1
    · intro h
      have hall : ∀ g ∈ f :: l, (d.exptime, d.emC, d.kgain) = (g.exptime, g.emC, g.kgain) := by
        intro g hg
        obtain ⟨i, hi⟩ := List.mem_iff_getElem?.1 hg
        rw [List.forall₂_iff_zip] at h
        have hlt : i < (f :: l).length := (List.getElem?_eq_some_iff.1 hi).1
        have ho : out[i]? = some out[i] := List.getElem?_eq_getElem (by rw [← h.1]; exact hlt)
        have hz : (g, out[i]) ∈ (f :: l).zip out := by
          rw [List.mem_iff_getElem?]
          exact ⟨i, by rw [List.getElem?_zip_eq_some]; exact ⟨hi, ho⟩⟩
        exact (h.2 hz).2.1
      have hu : uniform (f :: l) = true := by
        rw [uniform_iff]
        intro a ha b hb
        rw [← hall a ha, ← hall b hb]
      rw [if_neg (by rw [hu]; simp)]
      have hpc : ¬ (d.pcStat ≠ none ∧ d.pcStat ≠ some "analog master dark") := by
        cases h with
        | cons a _ => exact a.1
      rw [if_neg hpc, if_neg (not_not.2 (hall f (by simp))), mapM_ok_iff]
      exact h.imp fun a b hab => hab.2.2

/-- The frames agree in everything that the dark is made of. -/
def Alike (fs : List Fr) : Prop := ∀ f ∈ fs, ∀ g ∈ fs, (f.exptime, f.emC, f.kgain) = (g.exptime, g.emC, g.kgain) ∧ emGain f = emGain g

theorem synthDark_alike (m : Maps) {f g : Fr} (h : (f.exptime, f.emC, f.kgain) = (g.exptime, g.emC, g.kgain)) (hg : emGain f = emGain g) :
    synthDark m f = synthDark m g := by
  simp only [Prod.mk.injEq] at h
  unfold synthDark
  rw [hg, h.1, h.2.2]

theorem maps_single (track : Bool) (m : Maps) (f o : Fr) :
    darkSubMaps track m [f] = .ok [o] ↔ ∃ d, synthDark m f = .ok d ∧ subFrame track d f = .ok o := by
  unfold darkSubMaps
  dsimp only
  rw [if_neg (by rw [uniform_single]; simp)]
  cases synthDark m f with
  | error e => simp
  | ok d =>
    simp only [Except.ok.injEq, exists_eq_left']
    exact mapM_single _ _ _

/-- **C172** The part that holds for noise maps: frames of the same times and gains are taken separately. -/
theorem C172_maps_partial (track : Bool) (m : Maps) {fs : List Fr} (hne : fs ≠ []) (ha : Alike fs) (out : List Fr) :
    darkSubMaps track m fs = .ok out ↔ List.Forall₂ (fun f o => darkSubMaps track m [f] = .ok [o]) fs out := by
  simp only [maps_single]
  cases fs with
  | nil => exact absurd rfl hne
  | cons f l =>
    have hu : uniform (f :: l) = true := by
      rw [uniform_iff]
      exact fun a h b h' => (ha a h b h').1
    unfold darkSubMaps
    dsimp only
    rw [if_neg (by rw [hu]; simp)]
    have hs : ∀ g ∈ f :: l, synthDark m g = synthDark m f := fun g hg =>
      synthDark_alike m (ha g hg f (by simp)).1 (ha g hg f (by simp)).2
    cases hd : synthDark m f with
    | error e =>
      simp only [reduceCtorEq, false_iff]
      intro h
      cases h with
      | cons a _ => obtain ⟨d, h1, -⟩ := a; rw [hd] at h1; cases h1
    | ok d =>
      dsimp only
      rw [mapM_ok_iff, List.forall₂_iff_zip, List.forall₂_iff_zip]
      refine and_congr_right fun _ => ⟨fun h {a b} hab => ⟨d, ?_, h hab⟩, fun h {a b} hab => ?_⟩
      · rw [hs a (List.of_mem_zip hab).1, hd]
      · obtain ⟨d', h1, h2⟩ := h hab
        rw [hs a (List.of_mem_zip hab).1, hd] at h1
        cases h1
        exact h2

/-- **C172, violated.** With noise maps two frames of different exposure time, commanded gain or k-gain, which pass one by one, are refused
together: with a dark made for each frame there would be no reason to. -/
theorem C172_violated_mixed (track : Bool) (m : Maps) (f g : Fr) (h : (f.exptime, f.emC, f.kgain) ≠ (g.exptime, g.emC, g.kgain)) :
    darkSubMaps track m [f, g] = .error .mixed := by
  unfold darkSubMaps
  dsimp only
  rw [if_pos]
  rw [← Bool.not_eq_true, uniform_iff]
  exact fun hu => h (hu f (by simp) g (by simp))

/-- **C172, violated.** Frames with the same commanded and different true gain: the later frame gets another result than alone, wherever the fixed
pattern is not zero. -/
theorem C172_violated_maps {track : Bool} {m : Maps} {f g o1 o2 o : Fr} (h : darkSubMaps track m [f, g] = .ok [o1, o2])
    (hs : darkSubMaps track m [g] = .ok [o]) (p : Ix) :
    o2.data p - o.data p = m.F p * (1 / emGain g - 1 / emGain f) := by
  obtain ⟨f', l, d, hfs, hu, hd, hall⟩ := darkSubMaps_ok h
  cases hfs
  obtain ⟨d', hd', hsub⟩ := (maps_single track m g o).1 hs
  obtain ⟨f'', l'', hfs'', hall''⟩ := C58_first_gain h
  cases hfs''
  obtain ⟨f3, l3, hfs3, hall3⟩ := C58_first_gain hs
  cases hfs3
  cases hall'' with
  | cons _ hr =>
    cases hr with
    | cons h2 _ =>
      cases hall3 with
      | cons h3 _ =>
        have e2 := h2 p
        have e3 := h3 p
        unfold Maps.dark at e2 e3
        rw [eq_comm, ← sub_eq_zero]
        have : o2.data p - o.data p = m.F p / emGain g - m.F p / emGain f := by linarith
        rw [this]
        ring

/-! ## The recipe from L1 to L2b -/

theorem l2a_keeps {tab : NonLin.Table ℝ} {off offErr : ℝ} {x : Raw} {f : Fr} (h : l2a tab off offErr x = .ok f) :
    (f.exptime, f.emC, f.kgain) = (x.fr.exptime, x.fr.emC, x.fr.kgain) ∧ emGain f = emGain x.fr := by
  unfold l2a at h
  split at h
  · cases h
  · split at h
    · cases h
    · cases h
      exact ⟨rfl, rfl⟩

theorem l2a_alike {tab : NonLin.Table ℝ} {off offErr : ℝ} {xs : List Raw} {fs : List Fr} (ha : Alike (xs.map (·.fr)))
    (h1 : List.Forall₂ (fun x f => l2a tab off offErr x = .ok f) xs fs) : Alike fs := by
  have hk : ∀ f ∈ fs, ∃ x ∈ xs, l2a tab off offErr x = .ok f := by
    clear ha
    induction h1 with
    | nil => intro f hf; cases hf
    | cons a b ih =>
      intro f hf
      rcases List.mem_cons.1 hf with rfl | hf
      · exact ⟨_, List.mem_cons_self, a⟩
      · obtain ⟨x, hx, hxf⟩ := ih f hf
        exact ⟨x, List.mem_cons_of_mem _ hx, hxf⟩
  intro f hf g hg
  obtain ⟨x, hx, hxf⟩ := hk f hf
  obtain ⟨y, hy, hyg⟩ := hk g hg
  obtain ⟨a1, a2⟩ := ha x.fr (List.mem_map_of_mem hx) y.fr (List.mem_map_of_mem hy)
  obtain ⟨b1, b2⟩ := l2a_keeps hxf
  obtain ⟨c1, c2⟩ := l2a_keeps hyg
  exact ⟨by rw [b1, c1, a1], by rw [b2, c2, a2]⟩

/-- `l2b` is its three parts one after the other. -/
theorem l2b_eq (track : Bool) (junk : Ix → ℝ) (k ek rowread : ℝ) (m : Maps) (F : Arith.Flat) (fs out : List Fr) :
    l2b track junk k ek rowread m F fs = .ok out ↔
      ∃ gs, darkSubMaps track m (fs.map fun f => emDiv (toElectrons k ek f)) = .ok gs ∧
        flatDiv track junk F (gs.map (desmearFr rowread)) = .ok out := by
  unfold l2b
  rw [List.map_map]
  have e : (emDiv ∘ toElectrons k ek) = fun f => emDiv (toElectrons k ek f) := rfl
  rw [e]
  cases darkSubMaps track m (fs.map fun f => emDiv (toElectrons k ek f)) with
  | error e => simp
  | ok gs =>
    simp only [Except.ok.injEq, exists_eq_left']
    cases flatDiv track junk F (gs.map (desmearFr rowread)) with
    | error e => simp
    | ok o => simp

theorem single_of_forall₂ {R : α → β → Prop} {f : α} {l : List β} (h : List.Forall₂ R [f] l) : ∃ o, l = [o] ∧ R f o := by
  cases h with
  | cons a b => cases b; exact ⟨_, rfl, a⟩

theorem l2b_separate (track : Bool) (junk : Ix → ℝ) (k ek rowread : ℝ) (m : Maps) (F : Arith.Flat) {fs : List Fr} (hne : fs ≠ [])
    (ha : Alike fs) (out : List Fr) :
    l2b track junk k ek rowread m F fs = .ok out ↔
      List.Forall₂ (fun f o => l2b track junk k ek rowread m F [f] = .ok [o]) fs out := by
  have ha' : Alike (fs.map fun f => emDiv (toElectrons k ek f)) := by
    intro f hf g hg
    obtain ⟨f0, hf0, rfl⟩ := List.mem_map.1 hf
    obtain ⟨g0, hg0, rfl⟩ := List.mem_map.1 hg
    obtain ⟨h1, h2⟩ := ha f0 hf0 g0 hg0
    simp only [Prod.mk.injEq] at h1
    exact ⟨by simp only [emDiv, toElectrons, h1.1, h1.2.1], h2⟩
  have hone : ∀ f o, l2b track junk k ek rowread m F [f] = .ok [o] ↔
      ∃ g, darkSubMaps track m [emDiv (toElectrons k ek f)] = .ok [g] ∧ flatFrame track junk F (desmearFr rowread g) = .ok o := by
    intro f o
    rw [l2b_eq]
    constructor
    · rintro ⟨gs, h1, h2⟩
      have hl := (C172_maps_partial track m (fs := [emDiv (toElectrons k ek f)]) (by simp)
        (fun a ha b hb => by rw [List.mem_singleton.1 ha, List.mem_singleton.1 hb]; exact ⟨rfl, rfl⟩) gs).1 h1
      obtain ⟨g, rfl, h3⟩ := single_of_forall₂ hl
      exact ⟨g, h3, (mapM_single _ _ _).1 h2⟩
    · rintro ⟨g, h1, h2⟩
      exact ⟨[g], h1, (mapM_single _ _ _).2 h2⟩
  rw [l2b_eq]
  simp only [hone]
  constructor
  · rintro ⟨gs, h1, h2⟩
    rw [C172_maps_partial track m (by simpa using hne) ha', List.forall₂_map_left_iff] at h1
    unfold flatDiv at h2
    rw [mapM_ok_iff, List.forall₂_map_left_iff] at h2
    clear ha ha' hne
    induction h1 generalizing out with
    | nil => cases h2; exact .nil
    | cons a b ih =>
      cases h2 with
      | cons c d => exact .cons ⟨_, a, c⟩ (ih _ d)
  · intro h
    have : ∃ gs, List.Forall₂ (fun f g => darkSubMaps track m [emDiv (toElectrons k ek f)] = .ok [g]) fs gs ∧
        List.Forall₂ (fun g o => flatFrame track junk F (desmearFr rowread g) = .ok o) gs out := by
      clear ha ha' hne
      induction h with
      | nil => exact ⟨[], .nil, .nil⟩
      | cons a b ih =>
        obtain ⟨gs, i1, i2⟩ := ih
        obtain ⟨g, k1, k2⟩ := a
        exact ⟨g :: gs, .cons k1 i1, .cons k2 i2⟩
    obtain ⟨gs, h1, h2⟩ := this
    refine ⟨gs, ?_, ?_⟩
    · rw [C172_maps_partial track m (by simpa using hne) ha', List.forall₂_map_left_iff]
      exact h1
    · unfold flatDiv
      rw [mapM_ok_iff, List.forall₂_map_left_iff]
      exact h2

/-- **C172** The whole recipe from raw frames to L2b: frames of the same times and gains are processed together as they are one by one. -/
theorem C172_recipe_partial (track : Bool) (junk : Ix → ℝ) (tab : NonLin.Table ℝ) (off offErr k ek rowread : ℝ) (m : Maps)
    (F : Arith.Flat) {xs : List Raw} (hne : xs ≠ []) (ha : Alike (xs.map (·.fr))) (out : List Fr) :
    recipe track junk tab off offErr k ek rowread m F xs = .ok out ↔
      List.Forall₂ (fun x o => recipe track junk tab off offErr k ek rowread m F [x] = .ok [o]) xs out := by
  have hone : ∀ x o, recipe track junk tab off offErr k ek rowread m F [x] = .ok [o] ↔
      ∃ f, l2a tab off offErr x = .ok f ∧ l2b track junk k ek rowread m F [f] = .ok [o] := by
    intro x o
    unfold recipe
    rw [List.mapM_cons]
    cases l2a tab off offErr x with
    | error e => simp [bind, Except.bind]
    | ok f => simp [bind, Except.bind, pure, Except.pure]
  simp only [hone]
  unfold recipe
  constructor
  · intro h
    cases h1 : xs.mapM (l2a tab off offErr) with
    | error e => rw [h1] at h; cases h
    | ok fs =>
      rw [h1] at h
      dsimp only at h
      rw [mapM_ok_iff] at h1
      have hfs : Alike fs := l2a_alike ha h1
      have hfn : fs ≠ [] := fun h0 => hne (by rw [h0] at h1; exact List.forall₂_nil_right_iff.1 h1)
      rw [l2b_separate track junk k ek rowread m F hfn hfs] at h
      clear hfs hfn ha hne
      induction h1 generalizing out with
      | nil => cases h; exact .nil
      | cons a b ih =>
        cases h with
        | cons c d => exact .cons ⟨_, a, c⟩ (ih _ d)
  · intro h
    have : ∃ fs, List.Forall₂ (fun x f => l2a tab off offErr x = .ok f) xs fs ∧
        List.Forall₂ (fun f o => l2b track junk k ek rowread m F [f] = .ok [o]) fs out := by
      clear ha hne
      induction h with
      | nil => exact ⟨[], .nil, .nil⟩
      | cons a b ih =>
        obtain ⟨fs, i1, i2⟩ := ih
        obtain ⟨f, k1, k2⟩ := a
        exact ⟨f :: fs, .cons k1 i1, .cons k2 i2⟩
    obtain ⟨fs, h1, h2⟩ := this
    rw [mapM_ok_iff.2 h1]
    dsimp only
    have hfs : Alike fs := l2a_alike ha h1
    have hfn : fs ≠ [] := fun h0 => hne (by rw [h0] at h1; exact List.forall₂_nil_right_iff.1 h1)
    rw [l2b_separate track junk k ek rowread m F hfn hfs]
    exact h2

/-! ## Non-linearity: the check of the first frame -/

section NonLinearity

open Corgi.NonLin

variable {K : Type} [Field K] [LinearOrder K]

/-- `correct_nonlinearity` without the mark of the history. -/
def correctAll (nl : Option (Table K)) (thr : Option K) (fs : List (NonLin.Frame K)) : Except NonLin.Err (List (NonLin.Frame K)) :=
  (correct nl thr fs).map Prod.fst

theorem correctAll_iff (nl : Option (Table K)) (thr : Option K) (fs out : List (NonLin.Frame K)) :
    correctAll nl thr fs = .ok out ↔ (∃ f, fs.head? = some f ∧ f.hdr.emgainC ≠ none) ∧
      List.Forall₂ (fun f f' => correctFrame nl thr f = .ok f') fs out := by
  unfold correctAll
  constructor
  · intro h
    cases hc : correct nl thr fs with
    | error e => rw [hc] at h; cases h
    | ok r =>
      rw [hc] at h
      cases h
      obtain ⟨h1, -, h3⟩ := (C32_dataset nl thr fs r.1 r.2).1 hc
      exact ⟨h1, h3⟩
  · rintro ⟨h1, h2⟩
    rw [(C32_dataset nl thr fs out nl.isSome).2 ⟨h1, rfl, h2⟩]
    rfl

/-- **C172** Frames that all have the card EMGAIN_C are corrected separately; a dataset is accepted as a whole if its first frame has the card. -/
theorem C172_nonlinearity (nl : Option (Table K)) (thr : Option K) {fs : List (NonLin.Frame K)} (hne : fs ≠ []) (out : List (NonLin.Frame K)) :
    List.Forall₂ (fun f o => correctAll nl thr [f] = .ok [o]) fs out ↔
      correctAll nl thr fs = .ok out ∧ ∀ f ∈ fs, f.hdr.emgainC ≠ none := by
  have one : ∀ f o, correctAll nl thr [f] = .ok [o] ↔ f.hdr.emgainC ≠ none ∧ correctFrame nl thr f = .ok o := by
    intro f o
    rw [correctAll_iff]
    simp
  simp only [one]
  rw [correctAll_iff]
  constructor
  · intro h
    have h1 : ∀ f ∈ fs, f.hdr.emgainC ≠ none := by
      clear hne
      induction h with
      | nil => intro f hf; cases hf
      | cons a _ ih =>
        intro f hf
        rcases List.mem_cons.1 hf with rfl | hf
        · exact a.1
        · exact ih f hf
    refine ⟨⟨?_, h.imp fun _ _ hab => hab.2⟩, h1⟩
    obtain ⟨f, l, rfl⟩ := List.exists_cons_of_ne_nil hne
    exact ⟨f, rfl, h1 f (by simp)⟩
  · rintro ⟨⟨-, h⟩, h1⟩
    rw [List.forall₂_iff_zip] at h ⊢
    exact ⟨h.1, fun {a b} hab => ⟨h1 a (List.of_mem_zip hab).1, h.2 hab⟩⟩

/-- **C172, violated.** Only the first frame is asked for the card: a frame with a measured gain and without a commanded one is refused alone and corrected
after another frame. -/
theorem C172_violated_nonlinearity (g c : K) : let a : NonLin.Frame K := ⟨⟨none, some g, some c⟩, [], []⟩
    let b : NonLin.Frame K := ⟨⟨some g, none, none⟩, [], []⟩
    (∃ out, correctAll none none [a, b] = .ok out) ∧ correctAll none none [b] = .error .valueError := by
  intro a b
  constructor
  · have ha : ∃ a', correctFrame none none a = .ok a' := by
      by_cases hg : 0 < g
      · obtain ⟨a', h, -⟩ := C32_step_none none a g (Or.inr ⟨rfl, g, rfl, Or.inl ⟨hg, rfl⟩⟩)
        exact ⟨a', h⟩
      · obtain ⟨a', h, -⟩ := C32_step_none none a c (Or.inr ⟨rfl, g, rfl, Or.inr ⟨hg, rfl⟩⟩)
        exact ⟨a', h⟩
    obtain ⟨a', ha⟩ := ha
    obtain ⟨b', hb, -⟩ := C32_step_none none b g (Or.inl rfl)
    exact ⟨[a', b'], (correctAll_iff _ _ _ _).2 ⟨⟨a, rfl, by simp [a]⟩, .cons ha (.cons hb .nil)⟩⟩
  · rfl

end NonLinearity

/-! ## Saturation -/

section Saturation

open Corgi.Sat

variable {K : Type} [Field K] [LinearOrder K]

/-- **C172** The thresholds of frames without a measured gain are found separately, … -/
theorem C172_saturation_partial (k pp em th : K) {hs : List (Hdr K)} (hm : ∀ h ∈ hs, h.emgainM = none) (hg : ∀ h ∈ hs, ∃ g, Gain h g) :
    ∃ out, satFwcs k pp em th hs = .ok out ∧ List.Forall₂ (fun h o => satFwcs k pp em th [h] = .ok [o]) hs out := by
  classical
  let gain : Hdr K → K := fun h => if hh : ∃ g, Gain h g then hh.choose else 0
  have hgain : ∀ h ∈ hs, Gain h (gain h) := by
    intro h hh
    simp only [gain]
    rw [dif_pos (hg h hh)]
    exact (hg h hh).choose_spec
  refine ⟨_, C31_own_gain_partial k pp em th hs gain hgain hm, ?_⟩
  rw [List.forall₂_map_right_iff, List.forall₂_same]
  intro h hh
  have := C31_own_gain_partial k pp em th [h] gain (fun x hx => by rw [List.mem_singleton.1 hx]; exact hgain h hh)
    (fun x hx => by rw [List.mem_singleton.1 hx]; exact hm h hh)
  simpa using this

/-- **C172, violated.** … but a frame with a measured gain, which is refused alone, passes together with one frame that has none: it gets the threshold of the
gain of that other frame. -/
theorem C172_violated_saturation (k pp em th : K) (a b : Hdr K) (ga gb : K) (ha : a.emgainM = some ga) (hb : b.emgainM = none) (hg : Gain b gb) :
    satFwcs k pp em th [a] = .error .valueError ∧
    satFwcs k pp em th [a, b] = .ok [threshold k pp em th gb, threshold k pp em th gb] := by
  classical
  refine ⟨C31_violated k pp em th [a] (by simp) (by simp [ha]), ?_⟩
  have hab : a ≠ b := fun h => by rw [h, hb] at ha; cases ha
  let gain : Hdr K → K := fun h => if h = b then gb else ga
  have h1 := (C31_measured_exact k pp em th [a, b] gain (by
    intro h hh
    simp only [List.mem_cons, List.not_mem_nil, or_false] at hh
    rcases hh with rfl | rfl
    · simp only [gain, if_neg hab]; exact Or.inl ha
    · simpa [gain] using hg) ⟨a, by simp, by simp [ha]⟩).1 b (by simp [ha, hb])
  simpa [gain] using h1

end Saturation

/-! ## Frame selection -/

section Select

open Corgi.FSel

/-- **C172** If bad frames are dropped the frames that are left are those left of the single frames. Alone a bad frame is an error. -/
theorem C172_frame_select {p : FSel.Params} (hd : p.discardBad = true) {fs out : List (FSel.Frame α)} {rep : List (String × List Reason)}
    (h : frameSelect p fs = .ok (out, rep)) :
    ∃ parts : List (List (FSel.Frame α)), out = parts.flatten ∧ List.Forall₂ (fun f o =>
      (∃ r, frameSelect p [f] = .ok (o, r)) ∨ (frameSelect p [f] = .error .valueError ∧ o = [])) fs parts := by
  classical
  have ho := (C23_select h).1 hd
  have ht := ((C23_succeeds_iff p fs).1 ⟨_, h⟩).1
  refine ⟨fs.map fun f => if FSel.Good p f then [recorded p f] else [], ?_, ?_⟩
  · rw [ho]
    clear ho ht h
    induction fs with
    | nil => rfl
    | cons f l ih =>
      rw [List.map_cons, List.flatten_cons, List.filter_cons, ← ih]
      by_cases hG : FSel.Good p f <;> simp [hG]
  · rw [List.forall₂_map_right_iff, List.forall₂_same]
    intro f hf
    by_cases hG : FSel.Good p f
    · rw [if_pos hG]
      obtain ⟨⟨o, r⟩, hr⟩ := (C23_succeeds_iff p [f]).2 ⟨fun g hg => by rw [List.mem_singleton.1 hg]; exact ht f hf, f, by simp, hG⟩
      have := (C23_select hr).1 hd
      left
      refine ⟨r, ?_⟩
      rw [hr, this]
      simp [hG]
    · rw [if_neg hG]
      right
      exact ⟨(C23_valueError_iff p [f]).2 ⟨fun g hg => by rw [List.mem_singleton.1 hg]; exact ht f hf,
        fun g hg => by rw [List.mem_singleton.1 hg]; exact hG⟩, rfl⟩

/-- **C172, violated.** If bad frames are only marked a bad frame is kept in good company and stops the recipe alone. -/
theorem C172_violated_select {p : FSel.Params} (hd : p.discardBad = false) {f g : FSel.Frame α} (hf : Testable p f) (hg : Testable p g)
    (hgood : FSel.Good p f) (hbad : ¬ FSel.Good p g) :
    (∃ a b rep, frameSelect p [f, g] = .ok ([a, b], rep) ∧ b.isBad = true) ∧ frameSelect p [g] = .error .valueError := by
  classical
  constructor
  · obtain ⟨⟨o, r⟩, hr⟩ := (C23_succeeds_iff p [f, g]).2 ⟨fun x hx => by
      simp only [List.mem_cons, List.not_mem_nil, or_false] at hx
      rcases hx with rfl | rfl
      · exact hf
      · exact hg, f, by simp, hgood⟩
    have := (C23_select hr).2.1 hd
    refine ⟨_, _, r, by rw [hr, this]; rfl, ?_⟩
    simp [hbad]
  · exact (C23_valueError_iff p [g]).2 ⟨fun x hx => by rw [List.mem_singleton.1 hx]; exact hg,
      fun x hx => by rw [List.mem_singleton.1 hx]; exact hbad⟩

end Select

/-! ## Cropping -/

/-- **C172, violated.** The centre of the first frame stays for the others: the second of two frames is cut out elsewhere than alone. -/
theorem C172_violated_crop :
    Crop.stars (Crop.crop [Crop.sample "a" (99/2) (99/2), Crop.sample "b" (119/2) (99/2)] .default .default) =
      some [(some (59/2), some (59/2), 60, 60, 20020), (some (79/2), some (59/2), 60, 60, 20020)] ∧
    Crop.stars (Crop.crop [Crop.sample "b" (119/2) (99/2)] .default .default) = some [(some (59/2), some (59/2), 60, 60, 20030)] := by
  constructor
  · decide +kernel
  · decide +kernel

/-- **C172, violated.** In general: two frames that are cropped together around the star are cut out at the same place, whatever their stars. -/
theorem C172_violated_crop_place {δ ζ η θ : Type} {f g o1 o2 : Crop.Frame δ ζ η θ} {s : Crop.Size}
    (h : Crop.crop [f, g] s .default = .ok [o1, o2]) (hp : Crop.Positive s) :
    ∃ x y w hh : ℕ, Crop.Cropped x y w hh f o1 ∧ Crop.Cropped x y w hh g o2 := by
  obtain ⟨f', fs', hd, x, y, w, hh, -, hall, -⟩ := Crop.C38_crop h hp
  cases hall with
  | cons a b =>
    cases b with
    | cons c _ => exact ⟨x, y, w, hh, a, c⟩

/-- **C172** With a given centre and size the frames are cropped separately. -/
theorem C172_crop_given {δ ζ η θ : Type} (w h : ℤ) (cx cy : ℚ) :
    Separate fun ds : List (Crop.Frame δ ζ η θ) => Crop.crop ds (.pair w h) (.pair cx cy) := by
  have loop : ∀ (ds : List (Crop.Frame δ ζ η θ)) (q : ℚ × ℚ) (r : List (Crop.Frame δ ζ η θ)),
      (∃ c, Crop.cropLoop ds (.pair w h) (.pair q.1 q.2) = .ok (r, c)) ↔
        List.Forall₂ (fun f o => Crop.cropFrame (w, h) (Crop.roundCenter q) f = .ok o) ds r := by
    intro ds
    induction ds with
    | nil =>
      intro q r
      simp [Crop.cropLoop, eq_comm]
    | cons f l ih =>
      intro q r
      simp only [Crop.cropLoop, Crop.resolveSize, Crop.resolveCenter, Crop.nextCenter]
      have ihq := ih (Crop.roundCenter q)
      rw [Crop.roundCenter_idem] at ihq
      cases hf : Crop.cropFrame (w, h) (Crop.roundCenter q) f with
      | error e =>
        simp only [reduceCtorEq, exists_false, false_iff]
        intro hh
        cases hh with
        | cons a _ => rw [hf] at a; cases a
      | ok g =>
        dsimp only
        cases hl : Crop.cropLoop l (.pair w h) (.pair (Crop.roundCenter q).1 (Crop.roundCenter q).2) with
        | error e =>
          simp only [reduceCtorEq, exists_false, false_iff]
          intro hh
          cases hh with
          | cons a b =>
            obtain ⟨c, hc⟩ := (ihq _).2 b
            rw [hl] at hc; cases hc
        | ok p =>
          simp only [Except.ok.injEq, Prod.mk.injEq, exists_and_left, exists_eq', and_true]
          constructor
          · rintro rfl
            exact .cons hf ((ihq _).1 ⟨p.2, hl⟩)
          · intro hh
            cases hh with
            | cons a b =>
              rw [hf] at a
              cases a
              obtain ⟨c, hc⟩ := (ihq _).2 b
              rw [hl] at hc
              cases hc
              rfl
  have pairs : ∀ (ds : List (Crop.Frame δ ζ η θ)) (q : ℚ × ℚ) (p : List (Crop.Frame δ ζ η θ) × Crop.Center),
      Crop.cropLoop ds (.pair w h) (.pair q.1 q.2) = .ok p → ∃ a b, p.2 = .pair a b := by
    intro ds
    induction ds with
    | nil => intro q p hp; cases hp; exact ⟨_, _, rfl⟩
    | cons f l ih =>
      intro q p hp
      simp only [Crop.cropLoop, Crop.resolveSize, Crop.resolveCenter, Crop.nextCenter] at hp
      split at hp
      · cases hp
      · split at hp
        · cases hp
        · rename_i p' hl
          cases hp
          exact ih (Crop.roundCenter (q.1, q.2)) p' hl
  have whole : ∀ ds out : List (Crop.Frame δ ζ η θ), ds ≠ [] → (Crop.crop ds (.pair w h) (.pair cx cy) = .ok out ↔
      Crop.evenOk (.pair w h) = true ∧ List.Forall₂ (fun f o => Crop.cropFrame (w, h) (Crop.roundCenter (cx, cy)) f = .ok o) ds out) := by
    intro ds out hne
    unfold Crop.crop
    by_cases he : Crop.evenOk (.pair w h) = false
    · rw [if_pos he]
      simp [he]
    · rw [if_neg he]
      rw [Bool.not_eq_false] at he
      rw [← loop ds (cx, cy) out]
      simp only [he, true_and]
      cases hl : Crop.cropLoop ds (.pair w h) (.pair cx cy) with
      | error e => simp
      | ok p =>
        obtain ⟨l, c⟩ := p
        obtain ⟨a, b, hab⟩ := pairs ds (cx, cy) (l, c) hl
        dsimp only at hab
        subst hab
        cases l with
        | nil =>
          have := (loop ds (cx, cy) []).1 ⟨_, hl⟩
          exact absurd (List.forall₂_nil_right_iff.1 this) hne
        | cons g gs => simp
  intro ds out hne
  dsimp only
  rw [whole ds out hne]
  have one : ∀ f o : Crop.Frame δ ζ η θ, Crop.crop [f] (.pair w h) (.pair cx cy) = .ok [o] ↔
      Crop.evenOk (.pair w h) = true ∧ Crop.cropFrame (w, h) (Crop.roundCenter (cx, cy)) f = .ok o := by
    intro f o
    rw [whole [f] [o] (by simp)]
    simp
  simp only [one]
  constructor
  · rintro ⟨he, hf⟩
    exact hf.imp fun _ _ hab => ⟨he, hab⟩
  · intro hf
    refine ⟨?_, hf.imp fun _ _ hab => hab.2⟩
    cases hf with
    | nil => exact absurd rfl hne
    | cons a _ => exact a.1

/-! ## Automatic calibrations -/

section Auto

open Corgi.CalDB

/-- A step with an `AUTOMATIC` calibration (walker.py 126, 166-169, 210; with the calibrations found just in time 410-418): the calibration is looked up
for the first frame. -/
def auto (db : Table) (cls : Cls) (entry : α → Entry) (step : Row → List α → Except ε (List β)) (fs : List α) : Option (List β) :=
  match fs with
  | [] => none
  | f :: _ => match getCalib db (some (entry f)) cls with
    | .error _ => none
    | .ok r => match step r fs with
      | .error _ => none
      | .ok out => some out

/-- **C172** A step that takes the frames separately does so with an automatic calibration if the same one is found for all frames. -/
theorem C172_auto_partial {db : Table} {cls : Cls} {entry : α → Entry} {step : Row → List α → Except ε (List β)}
    (hs : ∀ r, Separate (step r)) {fs : List α} (hne : fs ≠ []) {r : Row} (hr : ∀ f ∈ fs, getCalib db (some (entry f)) cls = .ok r)
    (out : List β) :
    auto db cls entry step fs = some out ↔ List.Forall₂ (fun f o => auto db cls entry step [f] = some [o]) fs out := by
  have key : ∀ l : List α, l ≠ [] → (∀ f ∈ l, f ∈ fs) → ∀ o, (auto db cls entry step l = some o ↔ step r l = .ok o) := by
    intro l hl hsub o
    obtain ⟨f, l', rfl⟩ := List.exists_cons_of_ne_nil hl
    unfold auto
    dsimp only
    rw [hr f (hsub f (by simp))]
    dsimp only
    cases step r (f :: l') <;> simp
  rw [key fs hne (fun _ h => h), hs r fs out hne]
  constructor
  · intro h
    rw [List.forall₂_iff_zip] at h ⊢
    refine ⟨h.1, fun {a b} hab => (key [a] (by simp) (fun x hx => ?_) _).2 (h.2 hab)⟩
    rw [List.mem_singleton.1 hx]
    exact (List.of_mem_zip hab).1
  · intro h
    rw [List.forall₂_iff_zip] at h ⊢
    refine ⟨h.1, fun {a b} hab => (key [a] (by simp) (fun x hx => ?_) _).1 (h.2 hab)⟩
    rw [List.mem_singleton.1 hx]
    exact (List.of_mem_zip hab).1

/-- **C172, violated.** Otherwise the later frames get the calibration of the first: if another row is nearest to the second frame, that frame is calibrated with
another file than alone. -/
theorem C172_violated_auto {db : Table} {cls : Cls} {entry : α → Entry} {step : Row → List α → Except ε (List β)}
    (hs : ∀ r, Separate (step r)) {f g : α} {a b : Row} (ha : getCalib db (some (entry f)) cls = .ok a)
    (hb : getCalib db (some (entry g)) cls = .ok b) {o1 o2 o : β} (h : auto db cls entry step [f, g] = some [o1, o2])
    (h' : auto db cls entry step [g] = some [o]) : step a [g] = .ok [o2] ∧ step b [g] = .ok [o] := by
  unfold auto at h h'
  dsimp only at h h'
  rw [ha] at h
  rw [hb] at h'
  dsimp only at h h'
  constructor
  · cases hx : step a [f, g] with
    | error e => rw [hx] at h; cases h
    | ok l =>
      rw [hx] at h
      simp only [Option.some.injEq] at h
      subst h
      have := (hs a _ _ (by simp)).1 hx
      cases this with
      | cons _ k => cases k with | cons k1 _ => exact k1
  · cases hx : step b [g] with
    | error e => rw [hx] at h'; cases h'
    | ok l =>
      rw [hx] at h'
      simp only [Option.some.injEq] at h'
      rw [h']

/-- Such frames exist whenever the database has two calibrations of different times: one taken at the time of each. -/
theorem C172_auto_differs {db : Table} {cls : Cls} {t : String} {x : Option ℚ} {a b : Row} {f g : Entry} (ht : TypeName cls t)
    (hf : Complete f a.mjd x) (hg : Complete g b.mjd x) (ha : a ∈ db) (hb : b ∈ db) (hea : Eligible a t x) (heb : Eligible b t x)
    (hu : ∀ q ∈ db, ∀ q' ∈ db, q ≠ q' → q.mjd ≠ q'.mjd) :
    getCalib db (some f) cls = .ok a ∧ getCalib db (some g) cls = .ok b := by
  have near : ∀ r ∈ db, ∀ q ∈ db, q ≠ r → Eligible q t x → |r.mjd - r.mjd| < |q.mjd - r.mjd| := by
    intro r hr q hq hne _
    rw [sub_self, abs_zero]
    exact abs_pos.2 (sub_ne_zero.2 (hu q hq r hr hne))
  exact ⟨getCalib_nearest ht hf ha hea (near a ha), getCalib_nearest ht hg hb heb (near b hb)⟩

/-- Two darks, of day 10 and day 99: for a frame of day 12 the first one, for a frame of day 98 the other. -/
example : getCalib [exRow "/a" 10 2 0, exRow "/b" 99 2 0] (some (exDark "/sci" 12 2 0)) .dark = .ok (exRow "/a" 10 2 0) ∧
    getCalib [exRow "/a" 10 2 0, exRow "/b" 99 2 0] (some (exDark "/sci" 98 2 0)) .dark = .ok (exRow "/b" 99 2 0) := by
  constructor <;> decide +kernel

end Auto

/-! ## Not vacuous -/

/-- Two frames of the same header pass the dark subtraction, and they agree in what the dark is made of. -/
example (m : Maps) (hs : m.shape = [1, 1]) (hD : ∀ p, 0 ≤ m.D p) (hC : ∀ p, 0 ≤ m.C p) :
    Alike [sample (some 100) 5, sample (some 100) 7] ∧
    ∃ out, darkSubMaps false m [sample (some 100) 5, sample (some 100) 7] = .ok out := by
  have ha : Alike [sample (some 100) 5, sample (some 100) 7] := by
    intro f hf g hg
    simp only [List.mem_cons, List.not_mem_nil, or_false] at hf hg
    rcases hf with rfl | rfl <;> rcases hg with rfl | rfl <;> exact ⟨rfl, rfl⟩
  refine ⟨ha, ?_⟩
  refine darkSubMaps_exists (fun g hg => ?_) ⟨hC, hD⟩ (by simp [emGain, sample]) (fun g hg => ?_) (by rw [hs]; rfl)
  · simp only [List.mem_cons, List.not_mem_nil, or_false] at hg
    rcases hg with rfl | rfl <;> exact ⟨rfl, rfl, rfl⟩
  · simp only [List.mem_cons, List.not_mem_nil, or_false] at hg
    rcases hg with rfl | rfl <;> exact ⟨hs.symm, by simp [sample]⟩

end Corgi.Batch

import Verif.EndToEnd.Walk
import Verif.L3.Wcs

/-!
# From raw frames to rates on the sky: the walks over `l1_to_l2b.json` and `l2b_to_l3.json` (C198)

The second walk is run on the L2b products of the first (model `Walk.walk`, C182), with its own database, settings and astrometric
calibration: `create_wcs` (l2b_to_l3.py 7-71), `divide_by_exptime` (73-110), `update_to_l3` (112-142), `save`.

Simplifications: an L2b file that is read has the pixels, errors, flags and exposure time that were written (C18); RA, DEC and ROLL of
the primary header are numbers; exceptions of the steps are one value, `other`.
-/

noncomputable section

namespace Corgi.Rate

open Corgi.Det Corgi.Arith Corgi.EndToEnd Corgi.CalDB Corgi.Walk Corgi.Sky
open Corgi.Walker (Recipe Step Env St Settings runStep runSteps runRecipe autogen fillStep fillOne fillAndSet setDarkDir stepArgs loadCalibs
  jitNow fillsNow applyConfig mentions getKey)

/-! ## Model -/

/-- A frame between L2b and L3. -/
structure Frame where
  fin : Final
  point : Pointing
  wcs : Option Wcs

structure Dat where
  entry : Entry
  level : String
  frames : List Frame

/-- The disk of C182, what the astrometric calibration files hold, and the products. -/
structure Sky where
  disk : Disk
  astrom : String → Astrom
  products : List Dat

/-- `create_wcs` (l2b_to_l3.py 7-71); images that are not two-dimensional cannot be unpacked (31). -/
def wcsFr (a : Astrom) (f : Frame) : Except WErr Frame :=
  match f.fin.fr.img.shape with
  | [rows, cols] => .ok { f with wcs := some (createWcs rows cols a f.point) }
  | _ => .error .other

open Classical in
/-- `divide_by_exptime` (l2b_to_l3.py 73-110) for one frame; `1/exposure_time` of a zero raises (94). -/
def divFr (f : Frame) : Except WErr Frame :=
  if f.fin.fr.exptime = 0 then .error .other
  else match expDiv f.fin.fr with
  | .error _ => .error .other
  | .ok h => .ok { f with fin := ⟨h, fun p => (f.fin.data p).map (· / f.fin.fr.exptime)⟩ }

/-- The step functions of `l2b_to_l3.json`. -/
def func : String → Option (Sky → Dat → List (Option Astrom) → List (String × String) → Except WErr Dat)
  | "create_wcs" => some fun _ d args _ =>
    match args with
    | [some a] => (d.frames.mapM (wcsFr a)).map fun l => { d with frames := l }
    | _ => .error .other
  | "divide_by_exptime" => some fun _ d _ _ => (d.frames.mapM divFr).map fun l => { d with frames := l }
  | "update_to_l3" => some fun _ d _ _ => if d.level = "L2b" then .ok { d with level := "L3" } else .error .valueError
  | _ => none

/-- The outside of `run_recipe`. -/
def env : Env Dat Astrom Sky where
  func := func
  lookup := fun w d n => lookup w.disk d.entry n
  load := fun w n p => match w.disk.files n p with
    | some _ => .ok (w.astrom p)
    | none => .error .other
  save := fun w d _ _ => .ok { w with products := w.products ++ [d] }

/-- The calibrated step of `l2b_to_l3.json`. -/
def wcsStep (v : String) : Step := ⟨"create_wcs", some [("AstrometricCalibration", some v)], false, none⟩

/-- The other steps. -/
def plainSteps : List Step :=
  [⟨"divide_by_exptime", none, false, none⟩, ⟨"update_to_l3", none, false, none⟩, ⟨"save", none, false, none⟩]

/-- `l2b_to_l3.json` -/
def l2bToL3 : Recipe := ⟨"l2b_to_l3", true, [("track_individual_errors", false)], [], "", wcsStep "AUTOMATIC" :: plainSteps⟩

/-- `walk_corgidrp` with `l2b_to_l3.json`. -/
def walk3 (g : Settings) (w : Sky) (d : Dat) (files : List String) (o : String) : Except WErr (St Dat Astrom Sky × Option WErr) :=
  (autogen (lookup w.disk d.entry) g files o l2bToL3).map fun r => runRecipe env g w d r.1

/-! ## Specification -/

/-- `o` is the L3 frame of the L2b frame `f`: the data and every error divided by the exposure time, flags and pointing unchanged, the
world coordinates of the astrometric calibration. -/
structure IsL3 (a : Astrom) (rows cols : ℕ) (f o : Frame) : Prop where
  data : ∀ p, o.fin.data p = (f.fin.data p).map (· / f.fin.fr.exptime)
  dq : o.fin.fr.dq = f.fin.fr.dq
  err : ∀ p, Errs.total o.fin.fr.img p = Errs.total f.fin.fr.img p / f.fin.fr.exptime
  unit : o.fin.fr.bunit = "photoelectrons/s"
  wcs : o.wcs = some (createWcs rows cols a f.point)
  point : o.point = f.point

/-! ## Proofs -/

private theorem plain_fill {L : String → Except WErr String} {cfg : List (String × Bool)} {g : Settings} {o : String} {s : Step}
    (h : s ∈ plainSteps) : fillAndSet L cfg g o s = .ok s := by
  have h1 : s.calibs = none ∧ (s.name.toLower == "dark_subtraction") = false := by
    revert s
    decide +kernel
  have hd : setDarkDir o s = .ok s := by
    unfold setDarkDir
    simp only [h1.2, Bool.false_eq_true, if_false]
  have hf : ∀ sk, fillStep L sk s = .ok s := by
    intro sk
    unfold fillStep
    rw [h1.1]
  unfold fillAndSet
  rw [hf]
  cases fillsNow cfg g <;> exact hd

private theorem auto_auto : mentions "AUTOMATIC" "AUTOMATIC" = true := by decide +kernel

private theorem fill_wcs {L : String → Except WErr String} {p : String} (h : L "AstrometricCalibration" = .ok p) (sk : Bool) :
    fillStep L sk (wcsStep "AUTOMATIC") = .ok (wcsStep p) := by
  unfold fillStep wcsStep
  simp only [List.mapM_cons, List.mapM_nil, bind, Except.bind, pure, Except.pure, fillOne, auto_auto, if_true, h]
  rfl

private theorem wcs_set {L : String → Except WErr String} {p : String} (h : L "AstrometricCalibration" = .ok p)
    (cfg : List (String × Bool)) (g : Settings) (o : String) :
    fillAndSet L cfg g o (wcsStep "AUTOMATIC") = .ok (if fillsNow cfg g then wcsStep p else wcsStep "AUTOMATIC") := by
  have hd : ∀ v, setDarkDir o (wcsStep v) = .ok (wcsStep v) := by
    intro v
    unfold setDarkDir
    have : ((wcsStep v).name.toLower == "dark_subtraction") = false := by
      show ("create_wcs".toLower == "dark_subtraction") = false
      decide +kernel
    simp only [this, Bool.false_eq_true, if_false]
  unfold fillAndSet
  rw [fill_wcs h]
  cases fillsNow cfg g
  · exact hd _
  · exact hd _

private theorem autogen_l3 {L : String → Except WErr String} {p : String} (h : L "AstrometricCalibration" = .ok p) (g : Settings)
    (files : List String) (o : String) :
    (autogen L g files o l2bToL3).map Prod.fst = .ok ⟨"l2b_to_l3", false, [("track_individual_errors", false)], files, o,
      (if fillsNow l2bToL3.drpconfig g then wcsStep p else wcsStep "AUTOMATIC") :: plainSteps⟩ := by
  unfold autogen
  rw [show l2bToL3.steps = wcsStep "AUTOMATIC" :: plainSteps from rfl]
  have : plainSteps.mapM (fillAndSet L l2bToL3.drpconfig g o) = .ok plainSteps := by
    rw [mapM_ok_iff]
    exact List.forall₂_same.2 fun s hs => plain_fill hs
  simp only [List.mapM_cons, wcs_set h, this, bind, Except.bind, pure, Except.pure, Except.map]
  rfl

private theorem run_cons {cfg : List (String × Bool)} {o : String} {st st' : St Dat Astrom Sky} {s : Step} (l : List Step)
    (h : runStep env cfg o st s = (st', none)) : runSteps env cfg o st (s :: l) = runSteps env cfg o st' l := by
  conv_lhs => unfold runSteps
  rw [h]

private theorem step_plain {cfg : List (String × Bool)} {o : String} {st : St Dat Astrom Sky} {n : String} {d : Dat}
    (hn : (n.toLower == "save") = false) {f : Sky → Dat → List (Option Astrom) → List (String × String) → Except WErr Dat}
    (hf : func n = some f) (h : f st.world st.data [] [] = .ok d) :
    runStep env cfg o st ⟨n, none, false, none⟩ = ({ st with data := d, trace := st.trace ++ [.called n st.data []] }, none) := by
  unfold runStep
  dsimp only
  rw [hn, show env.func n = func n from rfl, hf]
  simp only [Bool.false_eq_true, if_false]
  rw [show stepArgs env cfg st ⟨n, none, false, none⟩ = .ok [] from rfl]
  dsimp only [Option.getD_none]
  rw [h]

private theorem lookup_file' {w : Disk} {e : Entry} {n p : String} (h : lookup w e n = .ok p) : ∃ c, w.files n p = some c :=
  let ⟨c, h, _⟩ := lookup_file h
  ⟨c, h⟩

private theorem step_wcs {cfg : List (String × Bool)} (hc : (cfg.map Prod.fst).Nodup) {g : Settings} {w : Sky} {d d' : Dat} {p o : String}
    (h : lookup w.disk d.entry "AstrometricCalibration" = .ok p) {tr : List (Walker.Ev Dat Astrom)}
    (hd : (d.frames.mapM (wcsFr (w.astrom p))).map (fun l => ({ d with frames := l } : Dat)) = .ok d') :
    runStep env cfg o ⟨applyConfig cfg g, w, d, tr⟩ (if fillsNow cfg g then wcsStep p else wcsStep "AUTOMATIC") =
      (⟨applyConfig cfg g, w, d', tr ++ [.called "create_wcs" d [some (w.astrom p)]]⟩, none) := by
  obtain ⟨c, hfile⟩ := lookup_file' h
  have hload : loadCalibs env w [("AstrometricCalibration", some p)] = .ok [some (w.astrom p)] := by
    unfold loadCalibs
    simp only [List.mapM_cons, List.mapM_nil, bind, Except.bind, pure, Except.pure]
    rw [show env.load w "AstrometricCalibration" p = .ok (w.astrom p) by
      show (match w.disk.files "AstrometricCalibration" p with
        | some _ => Except.ok (w.astrom p)
        | none => (Except.error Walker.Err.other : Except WErr Astrom)) = _
      rw [hfile]]
    rfl
  have ha : stepArgs env cfg ⟨applyConfig cfg g, w, d, tr⟩ (if fillsNow cfg g then wcsStep p else wcsStep "AUTOMATIC") =
      .ok [some (w.astrom p)] := by
    have hj := jit_fills hc g
    cases hfn : fillsNow cfg g
    · rw [hfn] at hj
      simp only [Bool.false_eq_true, if_false]
      unfold stepArgs
      rw [show (wcsStep "AUTOMATIC").calibs = some [("AstrometricCalibration", some "AUTOMATIC")] from rfl]
      dsimp only
      rw [hj]
      simp only [Bool.not_false, if_true]
      rw [show env.lookup w d = lookup w.disk d.entry from rfl, fill_wcs h]
      simp only [bind, Except.bind]
      exact hload
    · rw [hfn] at hj
      simp only [if_true]
      unfold stepArgs
      rw [show (wcsStep p).calibs = some [("AstrometricCalibration", some p)] from rfl]
      dsimp only
      rw [hj]
      simp only [Bool.not_true, Bool.false_eq_true, if_false, bind, Except.bind, pure, Except.pure]
      exact hload
  generalize hs : (if fillsNow cfg g then wcsStep p else wcsStep "AUTOMATIC") = s at ha ⊢
  have h3 : s.name = "create_wcs" ∧ s.skip = false := by
    rw [← hs]
    split <;> exact ⟨rfl, rfl⟩
  unfold runStep
  rw [ha, h3.1, h3.2]
  rw [show ("create_wcs".toLower == "save") = false by decide +kernel]
  simp only [Bool.false_eq_true, if_false]
  rw [show env.func "create_wcs" = some (fun (_ : Sky) (d : Dat) (args : List (Option Astrom)) (_ : List (String × String)) =>
    match args with
    | [some a] => (d.frames.mapM (wcsFr a)).map fun l => ({ d with frames := l } : Dat)
    | _ => (Except.error Walker.Err.other : Except WErr Dat)) from rfl]
  dsimp only
  rw [hd]

private theorem wcs_all (a : Astrom) {rows cols : ℕ} {l : List Frame} (hs : ∀ f ∈ l, f.fin.fr.img.shape = [rows, cols]) :
    l.mapM (wcsFr a) = .ok (l.map fun f => { f with wcs := some (createWcs rows cols a f.point) }) := by
  rw [mapM_ok_iff, List.forall₂_map_right_iff]
  refine List.forall₂_same.2 fun f hf => ?_
  unfold wcsFr
  rw [hs f hf]

private theorem div_one {f : Frame} (h0 : f.fin.fr.exptime ≠ 0) {rows cols : ℕ} (hs : f.fin.fr.img.shape = [rows, cols]) :
    ∃ o, divFr f = .ok o ∧ (∀ p, o.fin.data p = (f.fin.data p).map (· / f.fin.fr.exptime)) ∧ o.fin.fr.dq = f.fin.fr.dq ∧
      (∀ p, Errs.total o.fin.fr.img p = Errs.total f.fin.fr.img p / f.fin.fr.exptime) ∧ o.fin.fr.bunit = "photoelectrons/s" ∧
      o.wcs = f.wcs ∧ o.point = f.point := by
  obtain ⟨h, hh⟩ := (C46_exptime_accepts_iff f.fin.fr).2 (by rw [hs]; rfl)
  have hsc := C46_exptime hh
  refine ⟨{ f with fin := ⟨h, fun p => (f.fin.data p).map (· / f.fin.fr.exptime)⟩ }, ?_, fun p => rfl, ?_, fun p => ?_, ?_, rfl, rfl⟩
  · unfold divFr
    rw [if_neg h0, hh]
  · exact hsc.2.2
  · rw [div_eq_mul_one_div, mul_comm]
    exact hsc.2.1 p
  · unfold expDiv at hh
    split at hh
    · cases hh
    · cases hh
      rfl

private theorem exists_map {α β ε : Type} {f : α → Except ε β} {R : α → β → Prop} :
    ∀ {l : List α}, (∀ a ∈ l, ∃ b, f a = .ok b ∧ R a b) → ∃ m, l.mapM f = .ok m ∧ List.Forall₂ R l m
  | [], _ => ⟨[], rfl, .nil⟩
  | a :: l, h => by
    obtain ⟨b, hb, hr⟩ := h a (List.mem_cons_self ..)
    obtain ⟨m, hm, hrs⟩ := exists_map fun x hx => h x (List.mem_cons_of_mem _ hx)
    refine ⟨b :: m, ?_, .cons hr hrs⟩
    rw [List.mapM_cons, hb, hm]
    rfl

private theorem step_save {cfg : List (String × Bool)} {o : String} {st : St Dat Astrom Sky} :
    runSteps env cfg o st [⟨"save", none, false, none⟩] =
      (⟨st.settings, { st.world with products := st.world.products ++ [st.data] }, st.data, st.trace ++ [.saved st.data ""]⟩, none) := by
  have hsv : ("save".toLower == "save") = true := by decide +kernel
  refine (run_cons [] (?_ : _ = (_, none))).trans rfl
  unfold runStep
  dsimp only
  rw [hsv]
  rfl

private theorem steps_plain {cfg : List (String × Bool)} {o : String} {st : St Dat Astrom Sky} {out : List Frame}
    (hout : st.data.frames.mapM divFr = .ok out) (hl : st.data.level = "L2b") :
    ∃ tr, runSteps env cfg o st plainSteps =
      (⟨st.settings, { st.world with products := st.world.products ++ [⟨st.data.entry, "L3", out⟩] }, ⟨st.data.entry, "L3", out⟩, tr⟩, none) := by
  have h1 : (st.data.frames.mapM divFr).map (fun l => ({ st.data with frames := l } : Dat)) = .ok { st.data with frames := out } := by
    rw [hout]
    rfl
  unfold plainSteps
  rw [run_cons _ (step_plain (st := st) (n := "divide_by_exptime") (d := { st.data with frames := out }) (by decide +kernel) (f := fun _ d _ _ =>
    (d.frames.mapM divFr).map fun l => { d with frames := l }) rfl h1)]
  rw [run_cons _ (step_plain (n := "update_to_l3") (d := ⟨st.data.entry, "L3", out⟩) (by decide +kernel) (f := fun _ d _ _ =>
    if d.level = "L2b" then .ok { d with level := "L3" } else .error .valueError) rfl (if_pos hl))]
  exact ⟨_, step_save⟩

/-- **C198** The walk over `l2b_to_l3.json`: with an astrometric calibration in the database, whatever the settings are, every frame of
L2b with an exposure time gives a frame of L3. -/
theorem C198_l3 (g : Settings) (w : Sky) {d : Dat} (files : List String) (o : String) {p : String}
    (hp : lookup w.disk d.entry "AstrometricCalibration" = .ok p) (hl : d.level = "L2b") {rows cols : ℕ}
    (hs : ∀ f ∈ d.frames, f.fin.fr.img.shape = [rows, cols] ∧ f.fin.fr.exptime ≠ 0) :
    ∃ res out, walk3 g w d files o = .ok res ∧ res.2 = none ∧ res.1.data = ⟨d.entry, "L3", out⟩ ∧
      res.1.world = { w with products := w.products ++ [res.1.data] } ∧
      List.Forall₂ (IsL3 (w.astrom p) rows cols) d.frames out := by
  have hwcs := wcs_all (w.astrom p) (fun f hf => (hs f hf).1)
  obtain ⟨out, hout, hR⟩ := exists_map (f := divFr) (R := fun f o =>
      (∀ p, o.fin.data p = (f.fin.data p).map (· / f.fin.fr.exptime)) ∧ o.fin.fr.dq = f.fin.fr.dq ∧
      (∀ p, Errs.total o.fin.fr.img p = Errs.total f.fin.fr.img p / f.fin.fr.exptime) ∧ o.fin.fr.bunit = "photoelectrons/s" ∧
      o.wcs = f.wcs ∧ o.point = f.point)
    (l := d.frames.map fun f => { f with wcs := some (createWcs rows cols (w.astrom p) f.point) }) (by
      intro x hx
      obtain ⟨f, hf, rfl⟩ := List.mem_map.1 hx
      exact div_one (f := { f with wcs := some (createWcs rows cols (w.astrom p) f.point) }) (hs f hf).2 (hs f hf).1)
  rw [List.forall₂_map_left_iff] at hR
  have ha := autogen_l3 hp g files o
  cases hau : autogen (lookup w.disk d.entry) g files o l2bToL3 with
  | error e => rw [hau] at ha; cases ha
  | ok r =>
    rw [hau] at ha
    have hr : r.1 = ⟨"l2b_to_l3", false, [("track_individual_errors", false)], files, o,
      (if fillsNow l2bToL3.drpconfig g then wcsStep p else wcsStep "AUTOMATIC") :: plainSteps⟩ := Except.ok.inj ha
    have h1 := step_wcs (cfg := l2bToL3.drpconfig) (by decide +kernel) (g := g) (w := w) (d := d) (o := o) hp (tr := [])
      (d' := { d with frames := d.frames.map fun f => { f with wcs := some (createWcs rows cols (w.astrom p) f.point) } })
      (by rw [hwcs]; rfl)
    have hd1 : (d.frames.map fun f => ({ f with wcs := some (createWcs rows cols (w.astrom p) f.point) } : Frame)).mapM divFr = .ok out := hout
    have hrun : ∃ tr, runRecipe env g w d r.1 =
        (⟨applyConfig l2bToL3.drpconfig g, { w with products := w.products ++ [⟨d.entry, "L3", out⟩] }, ⟨d.entry, "L3", out⟩, tr⟩, none) := by
      rw [hr]
      unfold runRecipe
      dsimp only
      rw [show (l2bToL3.drpconfig) = [("track_individual_errors", false)] from rfl] at h1 ⊢
      rw [run_cons _ h1]
      exact steps_plain hd1 hl
    obtain ⟨tr, hrun⟩ := hrun
    refine ⟨runRecipe env g w d r.1, out, ?_, ?_, ?_, ?_, ?_⟩
    · unfold walk3
      rw [hau]
      rfl
    · rw [hrun]
    · rw [hrun]
    · rw [hrun]
    · exact hR.imp fun f o ⟨x1, x2, x3, x4, x5, x6⟩ => ⟨x1, x2, x3, x4, x5, x6⟩

/-- What is observed from the scene `s` in the time `t`: the value of a pixel of L3 is the rate where the flag is zero, NaN elsewhere. -/
def RateOf (t : ℝ) (s : ℕ → ℕ → ℝ) (o : Frame) : Prop :=
  ∀ r c, r < 1024 → c < 1024 → o.fin.data [r, c] = if o.fin.fr.dq [r, c] = 0 then some (s r c / t) else none

/-- **C198** From raw frames to L3: when the closest calibrations describe the detector, both walks succeed, whatever their settings are; the
pixels of L3 are the scene divided by the exposure time where the flag is zero and NaN elsewhere; the flags are those of L2b. -/
theorem C198_scene (P : Rest) {d : Detector} (hd : Sound d) (ht0 : d.exptime ≠ 0) {tab : NonLin.Table ℝ} (ht : NonLin.Good tab) {m : Maps}
    {off rr k : ℝ} {F : Flat} {bp : Ix → ℕ} {w : Disk} {e : Entry} (hw : Has w e d tab m off rr k F bp) {ss : List (ℕ → ℕ → ℝ)} {xs : List Raw}
    (hx : Shot d tab off ss xs) (g : Settings) (files : List String) (o : String) :
    ∃ res gs, walk P g w ⟨e, "L1", .raw xs⟩ files o l1ToL2b = .ok res ∧ res.2 = none ∧ res.1.data = ⟨e, "L2b", .final gs⟩ ∧
      ∀ (g' : Settings) (w' : Sky) (D : Dat) (files' : List String) (o' p : String),
        lookup w'.disk D.entry "AstrometricCalibration" = .ok p → D.level = "L2b" → D.frames.map Frame.fin = gs →
        ∃ res' out, walk3 g' w' D files' o' = .ok res' ∧ res'.2 = none ∧ res'.1.data = ⟨D.entry, "L3", out⟩ ∧
          List.Forall₂ (RateOf d.exptime) ss out ∧
          List.Forall₂ (fun (f : Final) (o : Frame) => o.fin.fr.dq = f.fr.dq) gs out ∧
          List.Forall₂ (fun (f o : Frame) => o.wcs = some (createWcs 1024 1024 (w'.astrom p) f.point)) D.frames out := by
  obtain ⟨res, gs, a, bs, h1, h2, h3, -, -, hv, -, -, hh⟩ := C182_scene P hd ht hw hx g files o
  refine ⟨res, gs, h1, h2, h3, ?_⟩
  intro g' w' D files' o' p hp hl hfr
  have hmem : ∀ f ∈ D.frames, f.fin.fr.exptime = d.exptime ∧ f.fin.fr.img.shape = [1024, 1024] := fun f hf =>
    hh f.fin (by rw [← hfr]; exact List.mem_map_of_mem hf)
  obtain ⟨res', out, r1, r2, r3, -, r5⟩ := C198_l3 g' w' files' o' hp hl (rows := 1024) (cols := 1024)
    (fun f hf => ⟨(hmem f hf).2, by rw [(hmem f hf).1]; exact ht0⟩)
  refine ⟨res', out, r1, r2, r3, ?_, ?_, r5.imp fun f o h => h.wcs⟩
  · rw [← hfr, List.forall₂_map_right_iff] at hv
    have hz := hv
    rw [List.forall₂_iff_get] at hz r5 ⊢
    refine ⟨hz.1.trans r5.1, fun i hi1 hi2 r c hr hc => ?_⟩
    have hi : i < D.frames.length := hz.1 ▸ hi1
    have hA := hz.2 i hi1 hi r c hr hc
    have hB := r5.2 i hi hi2
    rw [hB.data, hB.dq, hA, (hmem _ (List.get_mem ..)).1]
    split <;> rfl
  · rw [← hfr, List.forall₂_map_left_iff]
    exact r5.imp fun f o h => h.dq

/-- **C198** Two observations of the same rates, by different detectors, in different times, calibrated with different databases, settings
and pointings, agree in L3: pixels whose flags are zero in both have the same value, the rate. -/
theorem C198_same {t₁ t₂ : ℝ} (h1 : t₁ ≠ 0) (h2 : t₂ ≠ 0) {R : ℕ → ℕ → ℝ} {o₁ o₂ : Frame} (ho₁ : RateOf t₁ (fun r c => t₁ * R r c) o₁)
    (ho₂ : RateOf t₂ (fun r c => t₂ * R r c) o₂) {r c : ℕ} (hr : r < 1024) (hc : c < 1024) (hq₁ : o₁.fin.fr.dq [r, c] = 0)
    (hq₂ : o₂.fin.fr.dq [r, c] = 0) : o₁.fin.data [r, c] = some (R r c) ∧ o₂.fin.data [r, c] = o₁.fin.data [r, c] := by
  have e1 := ho₁ r c hr hc
  have e2 := ho₂ r c hr hc
  rw [if_pos hq₁, mul_div_cancel_left₀ _ h1] at e1
  rw [if_pos hq₂, mul_div_cancel_left₀ _ h2] at e2
  exact ⟨e1, e2.trans e1.symm⟩

/-- **C198** The second walk, without an exposure time: `divide_by_exptime` raises, whatever the other frames are. -/
theorem C198_zero {l : List Frame} {f : Frame} (hf : f ∈ l) (h0 : f.fin.fr.exptime = 0) : ¬ ∃ m, l.mapM divFr = .ok m := by
  rintro ⟨m, hm⟩
  rw [mapM_ok_iff] at hm
  obtain ⟨o, -, ho⟩ := forall₂_left hm hf
  unfold divFr at ho
  rw [if_pos h0] at ho
  cases ho

private def exSky : Sky where
  disk := ⟨[{ exRow "/cal" 1 1 0 with type := some "AstrometricCalibration" }], fun n _ => if n = "AstrometricCalibration" then some .other else none, []⟩
  astrom := fun _ => ⟨0, 1, 1, 0, 0⟩
  products := []

private def exFr (v t : ℝ) : Frame :=
  ⟨⟨⟨fun _ => v, ⟨[1024, 1024], [fun _ => 1], fun _ => none, []⟩, fun _ => 0, t, 1, 1, none, 1, ""⟩, fun _ => some v⟩, ⟨0, 0, 0⟩, none⟩

/-- Two frames of the same rate in two times and their L3 product. -/
example (g : Settings) : ∃ res out, walk3 g exSky ⟨exDark "/f" 2 1 0, "L2b", [exFr 6 2, exFr 12 4]⟩ ["/f"] "/out" = .ok res ∧ res.2 = none ∧
    res.1.data.frames = out ∧ out.map (fun o => o.fin.data [0, 0]) = [some 3, some 3] ∧ res.1.world.products.length = 1 := by
  obtain ⟨res, out, h1, h2, h3, h4, h5⟩ := C198_l3 g exSky (d := ⟨exDark "/f" 2 1 0, "L2b", [exFr 6 2, exFr 12 4]⟩) ["/f"] "/out" (p := "/cal") rfl rfl
    (rows := 1024) (cols := 1024) (by
      intro f hf
      rcases List.mem_cons.1 hf with rfl | hf
      · exact ⟨rfl, two_ne_zero⟩
      · rw [List.mem_singleton] at hf
        subst hf
        exact ⟨rfl, four_ne_zero⟩)
  refine ⟨res, out, h1, h2, by rw [h3], ?_, by rw [h4]; rfl⟩
  cases h5 with
  | cons ha h =>
    cases h with
    | cons hb h =>
      cases h
      simp only [List.map_cons, List.map_nil, ha.data, hb.data, exFr, Option.map_some]
      norm_num

/-- Both walks, one after the other. -/
example (P : Rest) (s : ℕ → ℕ → ℝ) (g : Settings) : ∃ w e xs res gs res', walk P g w ⟨e, "L1", .raw xs⟩ ["/f"] "/out" l1ToL2b = .ok res ∧
    res.1.data = ⟨e, "L2b", .final gs⟩ ∧
    walk3 g exSky ⟨exDark "/f" 2 1 0, "L2b", gs.map fun f => ⟨f, ⟨0, 0, 0⟩, none⟩⟩ ["/f"] "/out" = .ok res' ∧ res'.2 = none ∧
    res'.1.data.frames.length = 2 := by
  obtain ⟨w, e, d, tab, m, off, rr, k, F, xs, h1, h2, h3, h4, -, h6⟩ := exShot s fun _ => 0
  obtain ⟨res, gs, r1, r2, r3, r4⟩ := C198_scene P h1 h6 h2 h3 h4 g ["/f"] "/out"
  obtain ⟨res', out, q1, q2, q3, q4, -⟩ := r4 g exSky ⟨exDark "/f" 2 1 0, "L2b", gs.map fun f => ⟨f, ⟨0, 0, 0⟩, none⟩⟩ ["/f"] "/out" "/cal" rfl rfl
    (by rw [List.map_map]; exact List.map_id _)
  exact ⟨w, e, xs, res, gs, res', r1, r3, q1, q2, by rw [q3]; exact q4.length_eq.symm⟩

end Corgi.Rate

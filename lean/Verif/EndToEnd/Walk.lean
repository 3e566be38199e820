import Verif.EndToEnd.Flagged
import Verif.EndToEnd.Errors
import Verif.EndToEnd.Photometry
import Verif.Walker.Lemmas
import Verif.CalDB.Choice
import Verif.Data.Autoload
import Verif.L2a.FrameSelect
import Verif.PhotonCount.PcMean

/-!
# From files and a database to L2b: the walker with the steps it calls (C182)

`walk_corgidrp` (walker.py 65-104) with the templates `l1_to_l2b.json`, `l1_to_l2a_basic.json` and `l2a_to_l2b.json`, the calibration database
of `CalDB`, and the models of the steps as the functions that `all_steps` (walker.py 25-61) names. `run_recipe` is the one of `Walker/Model.lean`;
its outside is now filled in:

* the disk has the table of the database, the calibration files (class and path to what the constructor of the class reads) and the products written;
* the data are the frames at the stage of processing they are in, with the header values that the database reads from the first frame;
* `detect_cosmic_rays` flags pixels and changes nothing else (l1_to_l2a.py 160-286); which ones is a parameter (`rays`);
* `frame_select` without keywords keeps all frames (`select_default` below) and raises without frames; `cti_correction` returns its
  argument (l2a_to_l2b.py 329-344);
* exceptions of the steps are one value, `other`.
-/

noncomputable section

namespace Corgi.Walk

open Corgi.Det Corgi.Arith Corgi.EndToEnd Corgi.CalDB
open Corgi.Walker (Recipe Step Env St Settings runStep runSteps runRecipe autogen fillStep fillOne fillAndSet setDarkDir stepArgs loadCalibs
  jitNow fillsNow applyConfig mentions getKey)

/-! ## Model -/

abbrev WErr := Walker.Err

/-- What a calibration file contains, as far as the steps use it. -/
inductive Cal
  | maps (m : Maps) (off offErr : ℝ)
  | params (rowread : ℝ)
  | nonlin (t : NonLin.Table ℝ)
  | kgain (k ek : ℝ)
  | flat (F : Flat)
  | badpix (b : Ix → ℕ)
  | dark (d : Pc.MasterDark)
  | other

/-- A frame after the bias is subtracted. -/
structure Biased where
  out : BiasSub
  fr : Fr

/-- A frame of L2b: `none` is NaN. -/
structure Final where
  fr : Fr
  data : Ix → Option ℝ

/-- The frames between two steps. -/
inductive Stage
  | raw (xs : List Raw)
  | biased (bs : List Biased)
  | image (fs : List Fr)
  | final (gs : List Final)

structure Data where
  entry : Entry
  level : String
  stage : Stage

structure Disk where
  csv : Table
  files : String → String → Option Cal
  products : List Data

/-- What the model leaves open: the setting `track_individual_errors`, values of NaN, and the pixels found by the search for cosmic rays. -/
structure Rest where
  track : Bool
  junkP : Ix → ℝ
  junk : Ix → ℝ
  rays : Cal → Option Cal → List Biased → Biased → Ix → ℕ

/-- An exception of a step. -/
def raised {ε α : Type} : Except ε α → Except WErr α
  | .ok a => .ok a
  | .error _ => .error .other

/-- `prescan_biassub` (l1_to_l2a.py 6-157) for one frame. -/
def biasFr (track : Bool) (off offErr : ℝ) (x : Raw) : Except WErr Biased :=
  match prescanBiasSub detectorAreas detectorAreas off offErr .image x.l1 with
  | .error _ => .error .other
  | .ok o =>
    match Errs.addError track ⟨[o.newErr.nr, o.newErr.nc], at2 o.newErr⟩ "prescan_bias_sub"
        { x.fr.img with shape := [o.data.nr, o.data.nc], layers := o.err.map at2 } with
    | .error _ => .error .other
    | .ok i => .ok ⟨o, { x.fr with img := i }⟩

/-- `correct_nonlinearity` (l1_to_l2a.py 288-331) for one frame. -/
def nonlinFr (tab : NonLin.Table ℝ) (b : Biased) : Except WErr Fr :=
  match NonLin.correctFrame (some tab) none ⟨hdr b.fr, ravel b.out.data, ravel b.out.dq⟩ with
  | .error _ => .error .other
  | .ok f => .ok { b.fr with data := unravel b.out.data.nc f.data }

/-- `detect_cosmic_rays` for one frame. -/
def raysFr (flags : Ix → ℕ) (b : Biased) : Biased := { b with fr := { b.fr with dq := fun p => b.fr.dq p ||| flags p } }

/-- `correct_bad_pixels` (l2a_to_l2b.py 370-384) for one frame. -/
def badFr (bp : Ix → ℕ) (f : Fr) : Final :=
  let q := fun p => f.dq p % 256 ||| bp p % 256
  ⟨{ f with dq := fun p => if q p ≠ 0 then q p ||| 2 else q p }, fun p => if q p ≠ 0 then none else some (f.data p)⟩

/-- The level cards (l1_to_l2a.py 346-356, l2a_to_l2b.py 440-450). -/
def upgrade (a b : String) (d : Data) : Except WErr Data :=
  if d.level = a then .ok { d with level := b } else .error .valueError

/-- The steps of the three templates. -/
def func (P : Rest) : String → Option (Disk → Data → List (Option Cal) → List (String × String) → Except WErr Data)
  | "prescan_biassub" => some fun _ d args kw =>
    match d.stage, args, getKey kw "return_full_frame" with
    | .raw xs, [some (.maps _ off offErr)], some "false" => (xs.mapM (biasFr P.track off offErr)).map fun bs => { d with stage := .biased bs }
    | .raw xs, [none], some "false" => (xs.mapM (biasFr P.track 0 0)).map fun bs => { d with stage := .biased bs }
    | _, _, _ => .error .other
  | "detect_cosmic_rays" => some fun _ d args _ =>
    match d.stage, args with
    | .biased bs, [some c, k] => .ok { d with stage := .biased (bs.map fun b => raysFr (P.rays c k bs b) b) }
    | _, _ => .error .other
  | "correct_nonlinearity" => some fun _ d args _ =>
    match d.stage, args with
    | .biased bs, [some (.nonlin tab)] => (bs.mapM (nonlinFr tab)).map fun fs => { d with stage := .image fs }
    | _, _ => .error .other
  | "update_to_l2a" => some fun _ d _ _ => upgrade "L1" "L2a" d
  | "frame_select" => some fun _ d _ _ =>
    match d.stage with
    | .image [] => .error .valueError
    | .image fs => .ok { d with stage := .image fs }
    | _ => .error .other
  | "convert_to_electrons" => some fun _ d args _ =>
    match d.stage, args with
    | .image fs, [some (.kgain k ek)] => .ok { d with stage := .image (fs.map (toElectrons k ek)) }
    | _, _ => .error .other
  | "em_gain_division" => some fun _ d _ _ =>
    match d.stage with
    | .image fs => .ok { d with stage := .image (fs.map emDiv) }
    | _ => .error .other
  | "add_photon_noise" => some fun _ d _ _ =>
    match d.stage with
    | .image fs => (raised (fs.mapM (photFr P.track P.junkP))).map fun gs => { d with stage := .image gs }
    | _ => .error .other
  | "dark_subtraction" => some fun _ d args _ =>
    match d.stage, args with
    | .image fs, [some (.maps m _ _)] => (raised (darkSubMaps P.track m fs)).map fun gs => { d with stage := .image gs }
    | _, _ => .error .other
  | "desmear" => some fun _ d args _ =>
    match d.stage, args with
    | .image fs, [some (.params rr)] => .ok { d with stage := .image (fs.map (desmearFr rr)) }
    | _, _ => .error .other
  | "cti_correction" => some fun _ d _ _ => .ok d
  | "flat_division" => some fun _ d args _ =>
    match d.stage, args with
    | .image fs, [some (.flat F)] => (raised (flatDiv P.track P.junk F fs)).map fun gs => { d with stage := .image gs }
    | _, _ => .error .other
  | "correct_bad_pixels" => some fun _ d args _ =>
    match d.stage, args with
    | .image fs, [some (.badpix b)] => .ok { d with stage := .final (fs.map (badFr b)) }
    | _, _ => .error .other
  | "update_to_l2b" => some fun _ d _ _ => upgrade "L2a" "L2b" d
  | _ => none

/-- `get_calib(frame, datatypes[calib]).filepath` (walker.py 206-210): the row of the database, and the file is read. -/
def lookup (w : Disk) (e : Entry) (n : String) : Except WErr String :=
  match Autoload.datatypes n with
  | none => .error .keyError
  | some c =>
    match getCalib (load w.csv) (some e) c with
    | .error .valueError => .error .valueError
    | .error _ => .error .keyError
    | .ok r =>
      match r.path with
      | none => .error .other
      | some p =>
        match w.files n p with
        | none => .error .other
        | some _ => .ok p

/-- The outside of `run_recipe`. -/
def env (P : Rest) : Env Data Cal Disk where
  func := func P
  lookup := fun w d n => lookup w d.entry n
  load := fun w n p => match w.files n p with
    | some c => .ok c
    | none => .error .other
  save := fun w d _ _ => .ok { w with products := w.products ++ [d] }

private def auto (name : String) (calibs : List (String × String)) (kw : Option (List (String × String)) := none) : Step :=
  ⟨name, if calibs.isEmpty then none else some (calibs.map fun c => (c.1, some c.2)), false, kw⟩

/-- The steps of `l1_to_l2a_basic.json`; in `l1_to_l2b.json` the noise maps are not optional. -/
def basicSteps (maps : String) : List Step :=
  [auto "prescan_biassub" [("DetectorNoiseMaps", maps)] (some [("return_full_frame", "false")]),
   auto "detect_cosmic_rays" [("DetectorParams", "AUTOMATIC"), ("KGain", "AUTOMATIC, OPTIONAL")],
   auto "correct_nonlinearity" [("NonLinearityCalibration", "AUTOMATIC")], auto "update_to_l2a" [], auto "save" []]

/-- The steps of `l2a_to_l2b.json`. -/
def l2bSteps : List Step :=
  [auto "frame_select" [], auto "convert_to_electrons" [("KGain", "AUTOMATIC")], auto "em_gain_division" [], auto "add_photon_noise" [],
   auto "dark_subtraction" [("DetectorNoiseMaps", "AUTOMATIC")] (some [("outputdir", "AUTOMATIC")]),
   auto "desmear" [("DetectorParams", "AUTOMATIC")], auto "cti_correction" [("TrapCalibration", "AUTOMATIC,OPTIONAL")],
   auto "flat_division" [("FlatField", "AUTOMATIC")], auto "correct_bad_pixels" [("BadPixelMap", "AUTOMATIC")], auto "update_to_l2b" [],
   auto "save" []]

private def template (name : String) (steps : List Step) : Recipe := ⟨name, true, [("track_individual_errors", false)], [], "", steps⟩

/-- `l1_to_l2b.json`, `l1_to_l2a_basic.json`, `l2a_to_l2b.json`. -/
def l1ToL2b : Recipe := template "l1_to_l2b" (basicSteps "AUTOMATIC" ++ l2bSteps)
def l1ToL2a : Recipe := template "l1_to_l2a_basic" (basicSteps "AUTOMATIC,OPTIONAL")
def l2aToL2b : Recipe := template "l2a_to_l2b" l2bSteps

/-- `walk_corgidrp` with one of the templates (walker.py 93-102) on a dataset that has been read from `files`. -/
def walk (P : Rest) (g : Settings) (w : Disk) (d : Data) (files : List String) (outputdir : String) (t : Recipe) :
    Except WErr (St Data Cal Disk × Option WErr) :=
  (autogen (lookup w d.entry) g files outputdir t).map fun r => runRecipe (env P) g w d r.1

/-! ## Specification -/

/-- The calibration that the database has for the frame. -/
def cal (w : Disk) (e : Entry) (n : String) : Option Cal := (lookup w e n).toOption.bind (w.files n)

/-- Applying one step after the other with these calibrations: the data at the end and what is written on the way. -/
def meaning (P : Rest) (w : Disk) (e : Entry) : List Step → Data → Except WErr (Data × List Data)
  | [], d => .ok (d, [])
  | s :: l, d =>
    if s.name.toLower = "save" then (meaning P w e l d).map fun x => (x.1, d :: x.2)
    else match func P s.name with
      | none => .error .keyError
      | some f =>
        match f w d ((s.calibs.getD []).map fun c => cal w e c.1) (s.keywords.getD []) with
        | .error x => .error x
        | .ok d' => meaning P w e l d'

/-- The outcome of a run: the data, and the products on the disk; or the exception. -/
def Agrees (w : Disk) (res : St Data Cal Disk × Option WErr) : Except WErr (Data × List Data) → Prop
  | .ok x => res.2 = none ∧ res.1.data = x.1 ∧ res.1.world = { w with products := w.products ++ x.2 }
  | .error x => res.2 = some x

/-- Calibrations are to be found, and can be. -/
structure Findable (w : Disk) (e : Entry) (s : Step) : Prop where
  skip : s.skip = false
  calibs : ∀ cs, s.calibs = some cs → ∀ c ∈ cs, ∃ v, c.2 = some v ∧ mentions "AUTOMATIC" v = true ∧
    ((∃ p, lookup w e c.1 = .ok p) ∨ lookup w e c.1 = .error .valueError ∧ mentions "OPTIONAL" v = true)

/-! ## Lemmas: calibrations -/

theorem lookup_file {w : Disk} {e : Entry} {n p : String} (h : lookup w e n = .ok p) : ∃ c, w.files n p = some c ∧ cal w e n = some c := by
  have key : ∃ c, w.files n p = some c := by
    unfold lookup at h
    split at h
    · cases h
    split at h
    · cases h
    · cases h
    split at h
    · cases h
    split at h
    · cases h
    · rename_i c hc
      cases h
      exact ⟨c, hc⟩
  obtain ⟨c, hc⟩ := key
  refine ⟨c, hc, ?_⟩
  unfold cal
  rw [h]
  exact hc

theorem fill_findable {w : Disk} {e : Entry} {s : Step} (h : Findable w e s) (sk : Bool) :
    fillStep (lookup w e) sk s = .ok { s with calibs := s.calibs.map fun cs => cs.map fun c => (c.1, (lookup w e c.1).toOption) } := by
  unfold fillStep
  cases hc : s.calibs with
  | none =>
    dsimp only
    rw [show Option.map _ (none : Option (List (String × Option String))) = s.calibs from hc.symm]
  | some cs =>
    have key : cs.mapM (fillOne (lookup w e) sk) = .ok (cs.map fun c => ((c.1, (lookup w e c.1).toOption), false)) := by
      have h1 := h.calibs cs hc
      clear hc
      induction cs with
      | nil => rfl
      | cons c cs ih =>
        have h2 := ih fun x hx => h1 x (List.mem_cons_of_mem _ hx)
        obtain ⟨v, hv, ha, hl⟩ := h1 c (by simp)
        have h3 : fillOne (lookup w e) sk c = .ok ((c.1, (lookup w e c.1).toOption), false) := by
          unfold fillOne
          rw [hv]
          dsimp only
          rw [if_pos ha]
          rcases hl with ⟨p, hp⟩ | ⟨hp, ho⟩
          · rw [hp]; rfl
          · rw [hp]
            dsimp only
            rw [if_pos ho]
            rfl
        rw [List.mapM_cons, h3, h2]
        rfl
    simp only [key, bind, Except.bind, pure, Except.pure, Option.map_some, List.map_map]
    have h4 : (cs.map fun c => ((c.1, (lookup w e c.1).toOption), false)).any Prod.snd = false := by
      simp
    rw [h4, Bool.or_false]
    rfl

theorem load_findable {P : Rest} {w w' : Disk} {e : Entry} (hw : w'.files = w.files) {cs : List (String × Option String)}
    : loadCalibs (env P) w' (cs.map fun c => (c.1, (lookup w e c.1).toOption)) = .ok (cs.map fun c => cal w e c.1) := by
  unfold loadCalibs
  induction cs with
  | nil => rfl
  | cons c cs ih =>
    rw [List.map_cons, List.mapM_cons, ih]
    cases hl : lookup w e c.1 with
    | error x =>
      have : cal w e c.1 = none := by unfold cal; rw [hl]; rfl
      rw [List.map_cons, this]
      rfl
    | ok p =>
      obtain ⟨k, h1, h2⟩ := lookup_file hl
      have : (env P).load w' c.1 p = .ok k := by
        show (match w'.files c.1 p with | some c => Except.ok c | none => .error (Walker.Err.other)) = _
        rw [hw, h1]
      rw [List.map_cons, h2]
      show ((Except.map some ((env P).load w' c.1 p)).bind _) = _
      rw [this]
      rfl

theorem lookup_products {w w' : Disk} (h1 : w'.files = w.files) (h2 : w'.csv = w.csv) (e : Entry) : lookup w' e = lookup w e := by
  funext n
  unfold lookup
  rw [h1, h2]

/-- The steps leave the header values that the database reads. -/
theorem func_entry {P : Rest} {n : String} {f : Disk → Data → List (Option Cal) → List (String × String) → Except WErr Data}
    (hf : func P n = some f) {w : Disk} {d d' : Data} {args : List (Option Cal)} {kw : List (String × String)} (h : f w d args kw = .ok d') :
    d'.entry = d.entry := by
  have hmap : ∀ {α ε : Type} {x : Except ε α} {g : α → Data} {y : Data}, x.map g = .ok y → (∀ a, (g a).entry = d.entry) → y.entry = d.entry := by
    intro α ε x g y hx hg
    cases x with
    | error e => cases hx
    | ok a => cases hx; exact hg a
  unfold func at hf
  split at hf <;> cases hf
  all_goals dsimp only at h
  all_goals (try unfold upgrade at h)
  all_goals (try split at h)
  all_goals first
    | exact hmap h fun _ => rfl
    | (cases h; rfl)
    | cases h

/-- The functions do not look at the disk. -/
theorem func_disk {P : Rest} {n : String} {f : Disk → Data → List (Option Cal) → List (String × String) → Except WErr Data}
    (hf : func P n = some f) (w w' : Disk) (d : Data) (args : List (Option Cal)) (kw : List (String × String)) : f w d args kw = f w' d args kw := by
  unfold func at hf
  split at hf <;> cases hf <;> rfl

/-! ## Lemmas: the run -/

/-- The step `r` of the recipe stands for the step `s` of the template. -/
structure Ready (P : Rest) (cfg : List (String × Bool)) (G : Settings) (w : Disk) (e : Entry) (s r : Step) : Prop where
  name : r.name = s.name
  skip : r.skip = false
  keywords : r.keywords = s.keywords
  args : ∀ st : St Data Cal Disk, st.settings = G → st.data.entry = e → st.world.files = w.files → st.world.csv = w.csv →
    stepArgs (env P) cfg st r = .ok ((s.calibs.getD []).map fun c => cal w e c.1)

theorem run_ready {P : Rest} {cfg : List (String × Bool)} {G : Settings} {w : Disk} {e : Entry} {out : String} {ss rs : List Step}
    (h : List.Forall₂ (Ready P cfg G w e) ss rs) (st : St Data Cal Disk) (h1 : st.settings = G) (h2 : st.data.entry = e)
    (h3 : st.world.files = w.files) (h4 : st.world.csv = w.csv) :
    Agrees st.world (runSteps (env P) cfg out st rs) (meaning P w e ss st.data) := by
  induction h generalizing st with
  | nil => exact ⟨rfl, rfl, by simp [runSteps]⟩
  | @cons s r ss rs hr _ ih =>
    unfold meaning runSteps runStep
    rw [hr.name]
    by_cases hs : s.name.toLower = "save"
    · rw [if_pos hs, if_pos (by rw [hs]; rfl)]
      have hi := ih ⟨st.settings, { st.world with products := st.world.products ++ [st.data] }, st.data,
        st.trace ++ [.saved st.data ((r.keywords.bind fun k => getKey k "suffix").getD "")]⟩ h1 h2 h3 h4
      dsimp only at hi
      show Agrees st.world (runSteps (env P) cfg out ⟨st.settings, { st.world with products := st.world.products ++ [st.data] }, st.data,
        st.trace ++ [.saved st.data ((r.keywords.bind fun k => getKey k "suffix").getD "")]⟩ rs) _
      generalize runSteps (env P) cfg out _ rs = res at hi ⊢
      cases hm : meaning P w e ss st.data with
      | error x => rw [hm] at hi; exact hi
      | ok x =>
        rw [hm] at hi
        obtain ⟨e1, e2, e3⟩ := hi
        refine ⟨e1, e2, ?_⟩
        rw [e3]
        simp
    · have hb : ¬ (s.name.toLower == "save") = true := by simpa using hs
      rw [if_neg hs, if_neg hb]
      have hfe : (env P).func s.name = func P s.name := rfl
      rw [hfe]
      cases hf : func P s.name with
      | none => rfl
      | some f =>
        dsimp only
        rw [hr.args st h1 h2 h3 h4, hr.keywords, if_neg (by rw [hr.skip]; simp), func_disk hf w st.world]
        dsimp only
        cases hd : f st.world st.data ((s.calibs.getD []).map fun c => cal w e c.1) (s.keywords.getD []) with
        | error x => rfl
        | ok d' =>
          dsimp only
          exact ih ⟨st.settings, st.world, d', st.trace ++ [.called s.name st.data ((s.calibs.getD []).map fun c => cal w e c.1)]⟩ h1
            ((func_entry hf hd).trans h2) h3 h4

theorem setDarkDir_fields {out : String} {s s' : Step} (h : setDarkDir out s = .ok s') :
    s'.name = s.name ∧ s'.calibs = s.calibs ∧ s'.skip = s.skip := by
  unfold setDarkDir at h
  split at h
  · split at h
    · cases h
    · split at h
      · cases h
      · split at h <;> cases h <;> exact ⟨rfl, rfl, rfl⟩
  · cases h
    exact ⟨rfl, rfl, rfl⟩

theorem setDarkDir_calibs {out : String} {s s' : Step} (h : setDarkDir out s = .ok s') (cs : Option (List (String × Option String))) :
    setDarkDir out { s with calibs := cs } = .ok { s' with calibs := cs } := by
  unfold setDarkDir at h ⊢
  dsimp only
  split at h
  · rename_i hn
    rw [if_pos hn]
    split at h
    · cases h
    · rename_i kw hk
      rw [hk]
      split at h
      · cases h
      · rename_i v hv
        split at h
        · rename_i ha
          rw [if_pos ha]
          cases h
          rfl
        · rename_i ha
          rw [if_neg ha]
          cases h
          rw [hk]
  · rename_i hn
    rw [if_neg hn]
    cases h
    rfl

theorem jit_fills {cfg : List (String × Bool)} (hc : (cfg.map Prod.fst).Nodup) (g : Settings) :
    jitNow cfg (applyConfig cfg g) = !fillsNow cfg g := by
  unfold jitNow fillsNow
  rw [Walker.applyConfig_eq cfg hc]
  cases getKey cfg "jit_calib_id" with
  | none => simp
  | some b => simp

theorem ready_of_findable {P : Rest} {cfg : List (String × Bool)} (hc : (cfg.map Prod.fst).Nodup) {g : Settings} {w : Disk} {e : Entry}
    {out : String} {s s' : Step} (hs : Findable w e s) (hd : setDarkDir out s = .ok s') :
    ∃ r, fillAndSet (lookup w e) cfg g out s = .ok r ∧ Ready P cfg (applyConfig cfg g) w e s' r := by
  obtain ⟨n1, n2, n3⟩ := setDarkDir_fields hd
  unfold fillAndSet
  cases hn : fillsNow cfg g with
  | true =>
    simp only [if_true]
    rw [fill_findable hs]
    refine ⟨{ s' with calibs := s.calibs.map fun cs => cs.map fun c => (c.1, (lookup w e c.1).toOption) }, setDarkDir_calibs hd _, rfl, ?_, rfl, ?_⟩
    · show s'.skip = false
      rw [n3]
      exact hs.skip
    · intro st h1 h2 h3 h4
      unfold stepArgs
      dsimp only
      rw [n2]
      cases hcs : s.calibs with
      | none => rfl
      | some cs =>
        have hj : jitNow cfg st.settings = false := by rw [h1, jit_fills hc, hn]; rfl
        simp only [Option.map_some, hj, bind, Except.bind, pure, Except.pure, Option.getD_some]
        exact load_findable h3
  | false =>
    simp only [bind, Except.bind, pure, Except.pure]
    refine ⟨s', hd, rfl, by rw [n3]; exact hs.skip, rfl, ?_⟩
    intro st h1 h2 h3 h4
    have hs' : Findable w e s' := ⟨by rw [n3]; exact hs.skip, by rw [n2]; exact hs.calibs⟩
    unfold stepArgs
    have hj : jitNow cfg st.settings = true := by rw [h1, jit_fills hc, hn]; rfl
    have hl : (env P).lookup st.world st.data = lookup w e := by
      show (fun n => lookup st.world st.data.entry n) = _
      rw [h2]
      exact lookup_products h3 h4 e
    rw [hl, fill_findable hs', hj]
    cases hcs : s'.calibs with
    | none => rfl
    | some cs =>
      simp only [Option.map_some, if_true, bind, Except.bind, Option.getD_some]
      exact load_findable h3

theorem ready_all {P : Rest} {cfg : List (String × Bool)} (hc : (cfg.map Prod.fst).Nodup) {g : Settings} {w : Disk} {e : Entry}
    {out : String} {ss ss' : List Step} (hs : ∀ s ∈ ss, Findable w e s) (hd : ss.mapM (setDarkDir out) = .ok ss') :
    ∃ rs, ss.mapM (fillAndSet (lookup w e) cfg g out) = .ok rs ∧ List.Forall₂ (Ready P cfg (applyConfig cfg g) w e) ss' rs := by
  rw [mapM_ok_iff] at hd
  induction hd with
  | nil => exact ⟨[], rfl, .nil⟩
  | @cons s s' ss ss' h1 _ ih =>
    obtain ⟨r, hr, hR⟩ := ready_of_findable (P := P) (cfg := cfg) (g := g) hc (hs s (by simp)) h1
    obtain ⟨rs, hrs, hRs⟩ := ih fun x hx => hs x (List.mem_cons_of_mem _ hx)
    refine ⟨r :: rs, ?_, .cons hR hRs⟩
    rw [List.mapM_cons, hr, hrs]
    rfl

/-! ## C182: what a walk computes -/

/-- **C182** A walk with any template whose calibrations are to be found in the database, and can be: the recipe is generated, and running it
applies the steps one after the other, each with the calibrations that are closest to the first frame. It does not matter whether they are
looked up when the recipe is made or right before the step. -/
theorem C182_meaning (P : Rest) {t : Recipe} (hc : (t.drpconfig.map Prod.fst).Nodup) (g : Settings) (w : Disk) (d : Data) (files : List String)
    (out : String) (hs : ∀ s ∈ t.steps, Findable w d.entry s) {ss : List Step} (hd : t.steps.mapM (setDarkDir out) = .ok ss) :
    ∃ res, walk P g w d files out t = .ok res ∧ Agrees w res (meaning P w d.entry ss d) := by
  obtain ⟨rs, h1, h2⟩ := ready_all (P := P) (g := g) hc hs hd
  refine ⟨_, by unfold walk autogen; rw [h1]; rfl, ?_⟩
  exact run_ready (out := out) h2 ⟨applyConfig t.drpconfig g, w, d, []⟩ rfl rfl rfl rfl

/-! ## The templates -/

theorem meaning_step {P : Rest} {w : Disk} {e : Entry} {s : Step} {l : List Step} {d d' : Data}
    {f : Disk → Data → List (Option Cal) → List (String × String) → Except WErr Data} (hs : s.name.toLower ≠ "save") (hf : func P s.name = some f)
    (h : f w d ((s.calibs.getD []).map fun c => cal w e c.1) (s.keywords.getD []) = .ok d') : meaning P w e (s :: l) d = meaning P w e l d' := by
  rw [meaning, if_neg hs, hf]
  dsimp only
  rw [h]

theorem meaning_append (P : Rest) (w : Disk) (e : Entry) (a b : List Step) (d : Data) :
    meaning P w e (a ++ b) d = (meaning P w e a d).bind fun x => (meaning P w e b x.1).map fun y => (y.1, x.2 ++ y.2) := by
  induction a generalizing d with
  | nil =>
    show meaning P w e b d = (meaning P w e b d).map fun y => (y.1, [] ++ y.2)
    cases meaning P w e b d <;> rfl
  | cons s a ih =>
    rw [List.cons_append, meaning, meaning]
    by_cases hs : s.name.toLower = "save"
    · rw [if_pos hs, if_pos hs, ih]
      cases meaning P w e a d with
      | error x => rfl
      | ok x =>
        show ((meaning P w e b x.1).map _).map _ = (meaning P w e b x.1).map _
        cases meaning P w e b x.1 <;> rfl
    · rw [if_neg hs, if_neg hs]
      cases func P s.name with
      | none => rfl
      | some f =>
        dsimp only
        cases f w d ((s.calibs.getD []).map fun c => cal w e c.1) (s.keywords.getD []) with
        | error x => rfl
        | ok d' => exact ih d'

/-- The steps with the folder of the dark filled in. -/
def l2bOut (out : String) : List Step :=
  l2bSteps.map fun s => if s.name = "dark_subtraction" then { s with keywords := some [("outputdir", out)] } else s

theorem dark_basic (v out : String) : (basicSteps v).mapM (setDarkDir out) = .ok (basicSteps v) := by
  have h1 : ("prescan_biassub".toLower == "dark_subtraction") = false := by decide +kernel
  have h2 : ("detect_cosmic_rays".toLower == "dark_subtraction") = false := by decide +kernel
  have h3 : ("correct_nonlinearity".toLower == "dark_subtraction") = false := by decide +kernel
  have h4 : ("update_to_l2a".toLower == "dark_subtraction") = false := by decide +kernel
  have h5 : ("save".toLower == "dark_subtraction") = false := by decide +kernel
  simp [basicSteps, auto, setDarkDir, h1, h2, h3, h4, h5]
  rfl

theorem dark_l2b (out : String) : l2bSteps.mapM (setDarkDir out) = .ok (l2bOut out) := by
  have h1 : ("frame_select".toLower == "dark_subtraction") = false := by decide +kernel
  have h2 : ("convert_to_electrons".toLower == "dark_subtraction") = false := by decide +kernel
  have h3 : ("em_gain_division".toLower == "dark_subtraction") = false := by decide +kernel
  have h4 : ("add_photon_noise".toLower == "dark_subtraction") = false := by decide +kernel
  have h5 : ("dark_subtraction".toLower == "dark_subtraction") = true := by decide +kernel
  have h6 : ("desmear".toLower == "dark_subtraction") = false := by decide +kernel
  have h7 : ("cti_correction".toLower == "dark_subtraction") = false := by decide +kernel
  have h8 : ("flat_division".toLower == "dark_subtraction") = false := by decide +kernel
  have h9 : ("correct_bad_pixels".toLower == "dark_subtraction") = false := by decide +kernel
  have h10 : ("update_to_l2b".toLower == "dark_subtraction") = false := by decide +kernel
  have h11 : ("save".toLower == "dark_subtraction") = false := by decide +kernel
  have h12 : ("AUTOMATIC".toUpper == "AUTOMATIC") = true := by decide +kernel
  have h13 : ("AUTOMATIC".toUpper == "AUTOMATIC") = true := by decide +kernel
  have h14 : Walker.getKey [("outputdir", "AUTOMATIC")] "outputdir" = some "AUTOMATIC" := by decide +kernel
  have h15 : Walker.setKey [("outputdir", "AUTOMATIC")] "outputdir" out = [("outputdir", out)] := by simp [Walker.setKey]
  have h16 : ("AUTOMATIC".toUpper = "AUTOMATIC") := by decide +kernel
  simp [l2bOut, l2bSteps, auto, setDarkDir, h1, h2, h3, h4, h5, h6, h7, h8, h9, h10, h11, h14, h15, h16]
  rfl

/-- Steps that call the same function with the same arguments. -/
structure Alike (a b : Step) : Prop where
  name : b.name = a.name
  calibs : (b.calibs.getD []).map Prod.fst = (a.calibs.getD []).map Prod.fst
  keywords : b.keywords = a.keywords ∨ a.name = "dark_subtraction"

theorem meaning_alike {P : Rest} {w : Disk} {e : Entry} {l l' : List Step} (h : List.Forall₂ Alike l l') (d : Data) :
    meaning P w e l' d = meaning P w e l d := by
  induction h generalizing d with
  | nil => rfl
  | @cons a b l l' hab _ ih =>
    have hc : (b.calibs.getD []).map (fun c => cal w e c.1) = (a.calibs.getD []).map fun c => cal w e c.1 := by
      have := congrArg (List.map (cal w e)) hab.calibs
      rwa [List.map_map, List.map_map] at this
    rw [meaning, meaning, hab.name, hc]
    by_cases hs : a.name.toLower = "save"
    · rw [if_pos hs, if_pos hs, ih]
    · rw [if_neg hs, if_neg hs]
      have hk : ∀ f, func P a.name = some f → ∀ args, f w d args (b.keywords.getD []) = f w d args (a.keywords.getD []) := by
        intro f hf args
        rcases hab.keywords with hk | hk
        · rw [hk]
        · rw [hk] at hf
          cases hf
          rfl
      cases hf : func P a.name with
      | none => rfl
      | some f =>
        dsimp only
        rw [hk f hf]
        cases f w d ((a.calibs.getD []).map fun c => cal w e c.1) (a.keywords.getD []) with
        | error x => rfl
        | ok d' => exact ih d'

theorem alike_basic (v v' : String) : List.Forall₂ Alike (basicSteps v) (basicSteps v') :=
  .cons ⟨rfl, rfl, .inl rfl⟩ <| .cons ⟨rfl, rfl, .inl rfl⟩ <| .cons ⟨rfl, rfl, .inl rfl⟩ <| .cons ⟨rfl, rfl, .inl rfl⟩ <|
    .cons ⟨rfl, rfl, .inl rfl⟩ .nil

theorem alike_out (o o' : String) : List.Forall₂ Alike (l2bOut o) (l2bOut o') := by
  unfold l2bOut
  rw [List.forall₂_map_left_iff, List.forall₂_map_right_iff, List.forall₂_same]
  intro s _
  by_cases h : s.name = "dark_subtraction"
  · rw [if_pos h, if_pos h]
    exact ⟨rfl, rfl, .inr h⟩
  · rw [if_neg h, if_neg h]
    exact ⟨rfl, rfl, .inl rfl⟩

/-- L1 to L2a. -/
theorem meaning_basic {P : Rest} {w : Disk} {e : Entry} (v : String) {m : Maps} {off offErr rr : ℝ} {tab : NonLin.Table ℝ}
    (hm : cal w e "DetectorNoiseMaps" = some (.maps m off offErr)) (hp : cal w e "DetectorParams" = some (.params rr))
    (hn : cal w e "NonLinearityCalibration" = some (.nonlin tab)) {xs : List Raw} {bs : List Biased} {fs : List Fr}
    (hb : xs.mapM (biasFr P.track off offErr) = .ok bs)
    (hf : (bs.map fun b => raysFr (P.rays (.params rr) (cal w e "KGain") bs b) b).mapM (nonlinFr tab) = .ok fs) :
    meaning P w e (basicSteps v) ⟨e, "L1", .raw xs⟩ = .ok (⟨e, "L2a", .image fs⟩, [⟨e, "L2a", .image fs⟩]) := by
  have k1 : Walker.getKey [("return_full_frame", "false")] "return_full_frame" = some "false" := by decide +kernel
  have s1 : "prescan_biassub".toLower ≠ "save" := by decide +kernel
  have s2 : "detect_cosmic_rays".toLower ≠ "save" := by decide +kernel
  have s3 : "correct_nonlinearity".toLower ≠ "save" := by decide +kernel
  have s4 : "update_to_l2a".toLower ≠ "save" := by decide +kernel
  have s5 : "save".toLower = "save" := by decide +kernel
  unfold basicSteps
  rw [meaning_step (d' := ⟨e, "L1", .biased bs⟩) s1 rfl (by simp [auto, hm, k1, hb]; rfl)]
  rw [meaning_step (d' := ⟨e, "L1", .biased (bs.map fun b => raysFr (P.rays (.params rr) (cal w e "KGain") bs b) b)⟩) s2 rfl (by simp [auto, hp])]
  rw [meaning_step (d' := ⟨e, "L1", .image fs⟩) s3 rfl (by simp [auto, hn, hf]; rfl)]
  rw [meaning_step (d' := ⟨e, "L2a", .image fs⟩) s4 rfl (by simp [upgrade])]
  rw [meaning, if_pos (show (auto "save" []).name.toLower = "save" from s5)]
  rfl

/-- L2a to L2b up to the flat field. -/
theorem meaning_head {P : Rest} {w : Disk} {e : Entry} {m : Maps} {off offErr rr k ek : ℝ} (l : List Step)
    (hm : cal w e "DetectorNoiseMaps" = some (.maps m off offErr)) (hp : cal w e "DetectorParams" = some (.params rr))
    (hk : cal w e "KGain" = some (.kgain k ek)) {fs ps gs : List Fr} (hne : fs ≠ [])
    (h1 : ((fs.map (toElectrons k ek)).map emDiv).mapM (photFr P.track P.junkP) = .ok ps) (h2 : darkSubMaps P.track m ps = .ok gs) :
    meaning P w e (l2bSteps.take 7 ++ l) ⟨e, "L2a", .image fs⟩ = meaning P w e l ⟨e, "L2a", .image (gs.map (desmearFr rr))⟩ := by
  have s1 : "frame_select".toLower ≠ "save" := by decide +kernel
  have s2 : "convert_to_electrons".toLower ≠ "save" := by decide +kernel
  have s3 : "em_gain_division".toLower ≠ "save" := by decide +kernel
  have s4 : "add_photon_noise".toLower ≠ "save" := by decide +kernel
  have s5 : "dark_subtraction".toLower ≠ "save" := by decide +kernel
  have s6 : "desmear".toLower ≠ "save" := by decide +kernel
  have s7 : "cti_correction".toLower ≠ "save" := by decide +kernel
  show meaning P w e (_ :: _ :: _ :: _ :: _ :: _ :: _ :: l) _ = _
  rw [meaning_step (d' := ⟨e, "L2a", .image fs⟩) s1 rfl (by cases fs with
    | nil => exact absurd rfl hne
    | cons f fs => rfl)]
  rw [meaning_step (d' := ⟨e, "L2a", .image (fs.map (toElectrons k ek))⟩) s2 rfl (by simp [auto, hk])]
  rw [meaning_step (d' := ⟨e, "L2a", .image ((fs.map (toElectrons k ek)).map emDiv)⟩) s3 rfl rfl]
  rw [meaning_step (d' := ⟨e, "L2a", .image ps⟩) s4 rfl (by dsimp only; rw [h1]; rfl)]
  rw [meaning_step (d' := ⟨e, "L2a", .image gs⟩) s5 rfl (by simp [auto, hm, h2]; rfl)]
  rw [meaning_step (d' := ⟨e, "L2a", .image (gs.map (desmearFr rr))⟩) s6 rfl (by simp [auto, hp])]
  rw [meaning_step (d' := ⟨e, "L2a", .image (gs.map (desmearFr rr))⟩) s7 rfl rfl]

/-- The end of L2a to L2b. -/
theorem meaning_tail {P : Rest} {w : Disk} {e : Entry} {bp : Ix → ℕ} (hb : cal w e "BadPixelMap" = some (.badpix bp)) (fs : List Fr) :
    meaning P w e (l2bSteps.drop 8) ⟨e, "L2a", .image fs⟩ = .ok (⟨e, "L2b", .final (fs.map (badFr bp))⟩, [⟨e, "L2b", .final (fs.map (badFr bp))⟩]) := by
  have s1 : "correct_bad_pixels".toLower ≠ "save" := by decide +kernel
  have s2 : "update_to_l2b".toLower ≠ "save" := by decide +kernel
  have s3 : "save".toLower = "save" := by decide +kernel
  show meaning P w e [_, _, _] _ = _
  rw [meaning_step (d' := ⟨e, "L2a", .final (fs.map (badFr bp))⟩) s1 rfl (by simp [auto, hb])]
  rw [meaning_step (d' := ⟨e, "L2b", .final (fs.map (badFr bp))⟩) s2 rfl (by simp [upgrade])]
  rw [meaning, if_pos (show (auto "save" []).name.toLower = "save" from s3)]
  rfl

theorem meaning_flat {P : Rest} {w : Disk} {e : Entry} {F : Flat} (hF : cal w e "FlatField" = some (.flat F)) {fs out : List Fr}
    (h : flatDiv P.track P.junk F fs = .ok out) (l : List Step) :
    meaning P w e (auto "flat_division" [("FlatField", "AUTOMATIC")] :: l) ⟨e, "L2a", .image fs⟩ = meaning P w e l ⟨e, "L2a", .image out⟩ := by
  have s1 : "flat_division".toLower ≠ "save" := by decide +kernel
  exact meaning_step s1 rfl (by simp [auto, hF, h]; rfl)

theorem l2bE_parts {track : Bool} {junkP junk : Ix → ℝ} {k ek rr : ℝ} {m : Maps} {F : Flat} {fs out : List Fr}
    (h : l2bE track junkP junk k ek rr m F fs = .ok out) :
    ∃ ps gs, ((fs.map (toElectrons k ek)).map emDiv).mapM (photFr track junkP) = .ok ps ∧ darkSubMaps track m ps = .ok gs ∧
      flatDiv track junk F (gs.map (desmearFr rr)) = .ok out := by
  unfold l2bE at h
  cases h1 : ((fs.map (toElectrons k ek)).map emDiv).mapM (photFr track junkP) with
  | error x => rw [h1] at h; cases h
  | ok ps =>
    rw [h1] at h
    dsimp only at h
    cases h2 : darkSubMaps track m ps with
    | error x => rw [h2] at h; cases h
    | ok gs =>
      rw [h2] at h
      exact ⟨ps, gs, rfl, h2, h⟩

/-- L2a to L2b keeps the exposure time and the shape. -/
theorem l2bE_heads {track : Bool} {junkP junk : Ix → ℝ} {k ek rr : ℝ} {m : Maps} {F : Flat} {fs out : List Fr}
    (h : l2bE track junkP junk k ek rr m F fs = .ok out) {g : Fr} (hg : g ∈ out) :
    ∃ f ∈ fs, g.exptime = f.exptime ∧ g.img.shape = f.img.shape := by
  obtain ⟨ps, gs, h1, h2, h3⟩ := l2bE_parts h
  obtain ⟨u, hu, h4⟩ := forall₂_right (mapM_ok_iff.1 h3) hg
  obtain ⟨v, hv, rfl⟩ := List.mem_map.1 hu
  obtain ⟨x, hx, x1, -, x2⟩ := forall₂_right (darkSubMaps_keeps h2) hv
  obtain ⟨y, hy, h5⟩ := forall₂_right (mapM_ok_iff.1 h1) hx
  obtain ⟨y1, y2, -⟩ := photFr_ok h5
  rw [List.map_map] at hy
  obtain ⟨f, hf, rfl⟩ := List.mem_map.1 hy
  have h6 : g.exptime = v.exptime ∧ g.img.shape = v.img.shape := by
    unfold flatFrame at h4
    dsimp only at h4
    split at h4
    · cases h4
    · rename_i i1 e1
      split at h4
      · cases h4
      · rename_i i2 e2
        cases h4
        exact ⟨rfl, (Errs.addError_effect (ofErrs_ok e2)).1.trans (Errs.rescale_effect (ofErrs_ok e1)).1⟩
  refine ⟨f, hf, ?_, ?_⟩
  · rw [h6.1, x2, y1]
    rfl
  · rw [h6.2, x1, y2]
    rfl

/-- L2a to L2b. -/
theorem meaning_l2b {P : Rest} {w : Disk} {e : Entry} {m : Maps} {off offErr rr k ek : ℝ} {F : Flat} {bp : Ix → ℕ} (o : String)
    (hm : cal w e "DetectorNoiseMaps" = some (.maps m off offErr)) (hp : cal w e "DetectorParams" = some (.params rr))
    (hk : cal w e "KGain" = some (.kgain k ek)) (hF : cal w e "FlatField" = some (.flat F)) (hb : cal w e "BadPixelMap" = some (.badpix bp))
    {fs out : List Fr} (hne : fs ≠ []) (h : l2bE P.track P.junkP P.junk k ek rr m F fs = .ok out) :
    meaning P w e (l2bOut o) ⟨e, "L2a", .image fs⟩ = .ok (⟨e, "L2b", .final (out.map (badFr bp))⟩, [⟨e, "L2b", .final (out.map (badFr bp))⟩]) := by
  obtain ⟨ps, gs, h1, h2, h3⟩ := l2bE_parts h
  have ha : l2bOut "AUTOMATIC" = l2bSteps.take 7 ++ (auto "flat_division" [("FlatField", "AUTOMATIC")] :: l2bSteps.drop 8) := rfl
  rw [meaning_alike (alike_out "AUTOMATIC" o), ha, meaning_head _ hm hp hk hne h1 h2, meaning_flat hF h3, meaning_tail hb]

/-! ## C182: the scene -/

/-- The two steps of L1 to L2a are those of `l2aE`, with the flags of the cosmic rays in between. -/
theorem nonlin_rays {track : Bool} {tab : NonLin.Table ℝ} {off offErr : ℝ} {x : Raw} {f : Fr} (h : l2aE track tab off offErr x = .ok f) :
    ∃ b, biasFr track off offErr x = .ok b ∧ b.fr.dq = x.fr.dq ∧
      ∀ q, nonlinFr tab (raysFr q b) = .ok { f with dq := fun p => x.fr.dq p ||| q p } := by
  unfold l2aE at h
  unfold biasFr
  cases ho : prescanBiasSub detectorAreas detectorAreas off offErr .image x.l1 with
  | error y => rw [ho] at h; cases h
  | ok o =>
    rw [ho] at h
    dsimp only at h ⊢
    cases hi : Errs.addError track ⟨[o.newErr.nr, o.newErr.nc], at2 o.newErr⟩ "prescan_bias_sub"
        { x.fr.img with shape := [o.data.nr, o.data.nc], layers := o.err.map at2 } with
    | error y => rw [hi] at h; cases h
    | ok i =>
      rw [hi] at h
      dsimp only at h ⊢
      refine ⟨_, rfl, rfl, fun q => ?_⟩
      unfold nonlinFr raysFr
      dsimp only
      have hh : hdr { x.fr with img := i, dq := fun p => x.fr.dq p ||| q p } = hdr x.fr := rfl
      rw [hh]
      cases hn : NonLin.correctFrame (some tab) none ⟨hdr x.fr, ravel o.data, ravel o.dq⟩ with
      | error y => rw [hn] at h; cases h
      | ok g =>
        rw [hn] at h
        dsimp only at h
        cases h
        rfl

/-- `l2aE` has the values of `l2a`. -/
theorem l2aE_l2a {track : Bool} {tab : NonLin.Table ℝ} {off offErr : ℝ} {x : Raw} {f : Fr} (h : l2aE track tab off offErr x = .ok f) :
    ∃ f', l2a tab off offErr x = .ok f' ∧ f = { f' with img := f.img } := by
  unfold l2aE at h
  unfold l2a
  cases ho : prescanBiasSub detectorAreas detectorAreas off offErr .image x.l1 with
  | error y => rw [ho] at h; cases h
  | ok o =>
    rw [ho] at h
    dsimp only at h ⊢
    cases hi : Errs.addError track ⟨[o.newErr.nr, o.newErr.nc], at2 o.newErr⟩ "prescan_bias_sub"
        { x.fr.img with shape := [o.data.nr, o.data.nc], layers := o.err.map at2 } with
    | error y => rw [hi] at h; cases h
    | ok i =>
      rw [hi] at h
      dsimp only at h
      cases hn : NonLin.correctFrame (some tab) none ⟨hdr x.fr, ravel o.data, ravel o.dq⟩ with
      | error y => rw [hn] at h; cases h
      | ok g =>
        rw [hn] at h
        dsimp only at h
        cases h
        exact ⟨_, rfl, rfl⟩

/-- The calibrations that the database has for the frame, without the flat field. -/
structure Base (w : Disk) (e : Entry) (tab : NonLin.Table ℝ) (m : Maps) (off rr k : ℝ) (bp : Ix → ℕ) : Prop where
  maps : ∃ offErr, cal w e "DetectorNoiseMaps" = some (.maps m off offErr)
  params : cal w e "DetectorParams" = some (.params rr)
  nonlin : cal w e "NonLinearityCalibration" = some (.nonlin tab)
  kgain : ∃ ek, cal w e "KGain" = some (.kgain k ek)
  badpix : cal w e "BadPixelMap" = some (.badpix bp)
  trap : (∃ p, lookup w e "TrapCalibration" = .ok p) ∨ lookup w e "TrapCalibration" = .error .valueError

/-- The calibrations that the database has for the frame describe the detector. -/
structure Has (w : Disk) (e : Entry) (d : Detector) (tab : NonLin.Table ℝ) (m : Maps) (off rr k : ℝ) (F : Flat) (bp : Ix → ℕ) : Prop
    extends Base w e tab m off rr k bp where
  flat : cal w e "FlatField" = some (.flat F)
  agree : Calibrated d k rr m F

/-- Raw frames of scenes. -/
structure Shot (d : Detector) (tab : NonLin.Table ℝ) (off : ℝ) (ss : List (ℕ → ℕ → ℝ)) (xs : List Raw) : Prop where
  some : xs ≠ []
  header : ∀ x ∈ xs, Header d x.fr
  gain : ∀ x ∈ xs, ∀ y ∈ xs, x.fr.emC = y.fr.emC
  errs : ∀ x ∈ xs, x.l1.err ≠ []
  expose : List.Forall₂ (fun s (x : Raw) => Exposes d tab off s x.l1) ss xs

/-- L1 to L2a on frames of scenes. -/
theorem shot_l2a {d : Detector} {tab : NonLin.Table ℝ} (ht : NonLin.Good tab) {off : ℝ} {ss : List (ℕ → ℕ → ℝ)} {xs : List Raw}
    (hx : Shot d tab off ss xs) (track : Bool) (offErr : ℝ) (rays : List Biased → Biased → Ix → ℕ) :
    ∃ bs fs, xs.mapM (biasFr track off offErr) = .ok bs ∧ (bs.map fun b => raysFr (rays bs b) b).mapM (nonlinFr tab) = .ok fs ∧
      List.Forall₂ (fun (b : Biased) (f : Fr) => f.dq = fun p => b.fr.dq p ||| rays bs b p) bs fs ∧
      List.Forall₂ (fun (x : Raw) (b : Biased) => b.fr.dq = x.fr.dq) xs bs ∧ fs ≠ [] ∧ (∀ f ∈ fs, Header d f) ∧
      (∀ f ∈ fs, ∀ g ∈ fs, f.emC = g.emC) ∧
      List.Forall₂ (fun s (f : Fr) => ∀ r c, r < 1024 → c < 1024 → f.data [r, c] = d.counts s r c) ss fs := by
  have one : ∀ i (h : i < xs.length), ∃ f, l2aE track tab off offErr xs[i] = .ok f ∧ Header d f ∧ f.emC = xs[i].fr.emC ∧
      ∀ (h' : i < ss.length) r c, r < 1024 → c < 1024 → f.data [r, c] = d.counts ss[i] r c := by
    intro i h
    have hl := hx.expose.length_eq
    have h' : i < ss.length := by rw [hl]; exact h
    have he : Exposes d tab off ss[i] xs[i].l1 := (List.forall₂_iff_get.1 hx.expose).2 i h' h
    have hh := hx.header xs[i] (List.getElem_mem h)
    have hn := hx.errs xs[i] (List.getElem_mem h)
    cases hle : xs[i].l1.err with
    | nil => exact absurd hle hn
    | cons e₀ es =>
      obtain ⟨f, hf, hs, hy, -⟩ := C147_l2a ht track off offErr he.mode he.size he.sizeDq he.sizeErr hle (hdr_gain xs[i].fr)
      obtain ⟨f', hf', hff⟩ := l2aE_l2a hf
      obtain ⟨f'', h1, h2, h3⟩ := C144_l2a ht offErr he hh.gain
      rw [h1] at hf'
      cases hf'
      have hg : emGain f = emGain xs[i].fr := by rw [hff, h3]; rfl
      have ht' : f.exptime = xs[i].fr.exptime := by rw [hff, h3]
      exact ⟨f, hf, ⟨hg.trans hh.gain, ht'.trans hh.exptime, hs, hy⟩, by rw [hff, h3], fun _ r c hr hc => by rw [hff]; exact h2 r c hr hc⟩
  obtain ⟨bs, hbs⟩ : ∃ bs, xs.mapM (biasFr track off offErr) = .ok bs := by
    refine mapM_ok_exists.2 fun x hxm => ?_
    obtain ⟨i, hi, rfl⟩ := List.getElem_of_mem hxm
    obtain ⟨f, hf, -⟩ := one i hi
    obtain ⟨b, hb, -⟩ := nonlin_rays hf
    exact ⟨b, hb⟩
  have hB := List.forall₂_iff_get.1 (mapM_ok_iff.1 hbs)
  have two : ∀ i (h : i < xs.length) (h2 : i < bs.length), bs[i].fr.dq = xs[i].fr.dq ∧
      ∃ f, nonlinFr tab (raysFr (rays bs bs[i]) bs[i]) = .ok f ∧ (f.dq = fun p => bs[i].fr.dq p ||| rays bs bs[i] p) ∧ Header d f ∧
        f.emC = xs[i].fr.emC ∧ ∀ (h' : i < ss.length) r c, r < 1024 → c < 1024 → f.data [r, c] = d.counts ss[i] r c := by
    intro i h h2
    obtain ⟨f, hf, hH, hE, hv⟩ := one i h
    obtain ⟨b, hb, hq, hr⟩ := nonlin_rays hf
    have h3 : biasFr track off offErr xs[i] = .ok bs[i] := hB.2 i h h2
    rw [hb] at h3
    cases h3
    refine ⟨hq, _, hr _, ?_, ⟨hH.gain, hH.exptime, hH.shape, hH.layers⟩, hE, hv⟩
    rw [hq]
  obtain ⟨fs, hfs⟩ : ∃ fs, (bs.map fun b => raysFr (rays bs b) b).mapM (nonlinFr tab) = .ok fs := by
    refine mapM_ok_exists.2 fun y hy => ?_
    obtain ⟨b, hb, rfl⟩ := List.mem_map.1 hy
    obtain ⟨i, hi, rfl⟩ := List.getElem_of_mem hb
    obtain ⟨-, f, hf, -⟩ := two i (by rw [hB.1]; exact hi) hi
    exact ⟨f, hf⟩
  have hF := mapM_ok_iff.1 hfs
  rw [List.forall₂_map_left_iff, List.forall₂_iff_get] at hF
  have three : ∀ i (h : i < xs.length) (h2 : i < bs.length) (h3 : i < fs.length), (fs[i].dq = fun p => bs[i].fr.dq p ||| rays bs bs[i] p) ∧
      Header d fs[i] ∧ fs[i].emC = xs[i].fr.emC ∧
      ∀ (h' : i < ss.length) r c, r < 1024 → c < 1024 → fs[i].data [r, c] = d.counts ss[i] r c := by
    intro i h h2 h3
    obtain ⟨-, f, hf, h4⟩ := two i h h2
    have h5 : nonlinFr tab (raysFr (rays bs bs[i]) bs[i]) = .ok fs[i] := hF.2 i h2 h3
    rw [hf] at h5
    cases h5
    exact h4
  have hl1 : xs.length = bs.length := hB.1
  have hl2 : bs.length = fs.length := hF.1
  refine ⟨bs, fs, hbs, hfs, ?_, ?_, ?_, ?_, ?_, ?_⟩
  · exact List.forall₂_iff_get.2 ⟨hl2, fun i h2 h3 => (three i (by omega) h2 h3).1⟩
  · exact List.forall₂_iff_get.2 ⟨hl1, fun i h1 h2 => (two i h1 h2).1⟩
  · intro h0
    rw [h0] at hl2
    exact hx.some (List.eq_nil_of_length_eq_zero (by simpa [hl2] using hl1))
  · intro f hf
    obtain ⟨i, hi, rfl⟩ := List.getElem_of_mem hf
    exact (three i (by omega) (by omega) hi).2.1
  · intro f hf g hg
    obtain ⟨i, hi, rfl⟩ := List.getElem_of_mem hf
    obtain ⟨j, hj, rfl⟩ := List.getElem_of_mem hg
    rw [(three i (by omega) (by omega) hi).2.2.1, (three j (by omega) (by omega) hj).2.2.1]
    exact hx.gain _ (List.getElem_mem _) _ (List.getElem_mem _)
  · have hl := hx.expose.length_eq
    exact List.forall₂_iff_get.2 ⟨by omega, fun i h1 h3 => (three i (by omega) (by omega) h3).2.2.2 h1⟩

theorem cal_lookup {w : Disk} {e : Entry} {n : String} {c : Cal} (h : cal w e n = some c) : ∃ p, lookup w e n = .ok p := by
  cases hl : lookup w e n with
  | ok p => exact ⟨p, rfl⟩
  | error x =>
    unfold cal at h
    rw [hl] at h
    cases h

theorem findable_auto {w : Disk} {e : Entry} (name : String) (calibs : List (String × String)) (kw : Option (List (String × String)))
    (h : ∀ c ∈ calibs, mentions "AUTOMATIC" c.2 = true ∧
      ((∃ p, lookup w e c.1 = .ok p) ∨ lookup w e c.1 = .error .valueError ∧ mentions "OPTIONAL" c.2 = true)) :
    Findable w e (auto name calibs kw) := by
  refine ⟨rfl, fun cs hcs c hc => ?_⟩
  unfold auto at hcs
  dsimp only at hcs
  split at hcs
  · cases hcs
  · cases hcs
    obtain ⟨a, ha, rfl⟩ := List.mem_map.1 hc
    exact ⟨a.2, rfl, h a ha⟩

theorem findable_basic {w : Disk} {e : Entry} {v : String} (hv : mentions "AUTOMATIC" v = true)
    (hm : ∃ p, lookup w e "DetectorNoiseMaps" = .ok p) (hp : ∃ p, lookup w e "DetectorParams" = .ok p)
    (hk : (∃ p, lookup w e "KGain" = .ok p) ∨ lookup w e "KGain" = .error .valueError) (hn : ∃ p, lookup w e "NonLinearityCalibration" = .ok p) :
    ∀ s ∈ basicSteps v, Findable w e s := by
  have a1 : mentions "AUTOMATIC" "AUTOMATIC" = true := by decide +kernel
  have a2 : mentions "AUTOMATIC" "AUTOMATIC, OPTIONAL" = true := by decide +kernel
  have a3 : mentions "OPTIONAL" "AUTOMATIC, OPTIONAL" = true := by decide +kernel
  intro s hs
  simp only [basicSteps, List.mem_cons, List.not_mem_nil, or_false] at hs
  rcases hs with rfl | rfl | rfl | rfl | rfl <;> refine findable_auto _ _ _ fun c hc => ?_
  · simp only [List.mem_cons, List.not_mem_nil, or_false] at hc
    subst hc
    exact ⟨hv, .inl hm⟩
  · simp only [List.mem_cons, List.not_mem_nil, or_false] at hc
    rcases hc with rfl | rfl
    · exact ⟨a1, .inl hp⟩
    · exact ⟨a2, hk.imp id fun h => ⟨h, a3⟩⟩
  · simp only [List.mem_cons, List.not_mem_nil, or_false] at hc
    subst hc
    exact ⟨a1, .inl hn⟩
  · cases hc
  · cases hc

theorem findable_l2b {w : Disk} {e : Entry}
    (hm : ∃ p, lookup w e "DetectorNoiseMaps" = .ok p) (hp : ∃ p, lookup w e "DetectorParams" = .ok p)
    (hk : ∃ p, lookup w e "KGain" = .ok p) (hF : ∃ p, lookup w e "FlatField" = .ok p) (hb : ∃ p, lookup w e "BadPixelMap" = .ok p)
    (ht : (∃ p, lookup w e "TrapCalibration" = .ok p) ∨ lookup w e "TrapCalibration" = .error .valueError) :
    ∀ s ∈ l2bSteps, Findable w e s := by
  have a1 : mentions "AUTOMATIC" "AUTOMATIC" = true := by decide +kernel
  have a2 : mentions "AUTOMATIC" "AUTOMATIC,OPTIONAL" = true := by decide +kernel
  have a3 : mentions "OPTIONAL" "AUTOMATIC,OPTIONAL" = true := by decide +kernel
  intro s hs
  simp only [l2bSteps, List.mem_cons, List.not_mem_nil, or_false] at hs
  rcases hs with rfl | rfl | rfl | rfl | rfl | rfl | rfl | rfl | rfl | rfl | rfl <;> refine findable_auto _ _ _ fun c hc => ?_
  all_goals simp only [List.mem_cons, List.not_mem_nil, or_false] at hc
  all_goals subst hc
  · exact ⟨a1, .inl hk⟩
  · exact ⟨a1, .inl hm⟩
  · exact ⟨a1, .inl hp⟩
  · exact ⟨a2, ht.imp id fun h => ⟨h, a3⟩⟩
  · exact ⟨a1, .inl hF⟩
  · exact ⟨a1, .inl hb⟩

theorem or_mod_eq (a b : ℕ) : (a ||| b) % 256 = a % 256 ||| b % 256 := Nat.or_mod_two_pow (n := 8)

theorem badFr_flag (bp : Ix → ℕ) (f : Fr) (p : Ix) : (badFr bp f).fr.dq p = 0 ↔ (f.dq p ||| bp p) % 256 = 0 := by
  unfold badFr
  dsimp only
  rw [or_mod_eq]
  split
  · rename_i h
    constructor
    · intro h1
      exact absurd (Nat.or_eq_zero_iff.1 h1).2 (by norm_num)
    · intro h1
      exact absurd h1 h
  · rfl

theorem badFr_value (bp : Ix → ℕ) (f : Fr) (p : Ix) :
    (badFr bp f).data p = if (badFr bp f).fr.dq p = 0 then some (f.data p) else none := by
  by_cases h : (f.dq p ||| bp p) % 256 = 0
  · rw [if_pos ((badFr_flag bp f p).2 h)]
    rw [or_mod_eq] at h
    unfold badFr
    dsimp only
    rw [if_neg (not_not.2 h)]
  · rw [if_neg fun h1 => h ((badFr_flag bp f p).1 h1)]
    rw [or_mod_eq] at h
    unfold badFr
    dsimp only
    rw [if_pos h]

/-- The flags from outside: the lower eight bits of those of the raw frame, the cosmic rays, the three noise maps and the map of bad pixels. -/
def flagsOf (P : Rest) (w : Disk) (e : Entry) (rr : ℝ) (m : Maps) (bp : Ix → ℕ) (bs : List Biased) (b : Biased) (p : Ix) : ℕ :=
  (b.fr.dq p ||| P.rays (.params rr) (cal w e "KGain") bs b p ||| (m.qF p ||| m.qD p ||| m.qC p) ||| bp p) % 256

/-- **C182** From files and a database to the scene: when the closest calibrations of each class describe the detector, the walk over
`l1_to_l2b.json` succeeds, whatever the settings are; it writes an L2a and an L2b product; a pixel of L2b has the value of the scene if its flag
is zero and is NaN otherwise; and the flag is zero exactly when the raw frame, the cosmic rays, the three noise maps and the map of bad pixels
have no flag among the lower eight there and the flat field is not zero; otherwise it is these flags, 4 for a flat field of zero, and 2. The
frames of L2b have 1024 rows and columns and the exposure time of the detector. -/
theorem C182_scene (P : Rest) {d : Detector} (hs : Sound d) {tab : NonLin.Table ℝ} (ht : NonLin.Good tab) {m : Maps} {off rr k : ℝ} {F : Flat}
    {bp : Ix → ℕ} {w : Disk} {e : Entry} (hw : Has w e d tab m off rr k F bp) {ss : List (ℕ → ℕ → ℝ)} {xs : List Raw}
    (hx : Shot d tab off ss xs) (g : Settings) (files : List String) (o : String) :
    ∃ res gs a bs, walk P g w ⟨e, "L1", .raw xs⟩ files o l1ToL2b = .ok res ∧ res.2 = none ∧ res.1.data = ⟨e, "L2b", .final gs⟩ ∧
      res.1.world = { w with products := w.products ++ [a, res.1.data] } ∧ a.level = "L2a" ∧
      List.Forall₂ (fun s (g : Final) => ∀ r c, r < 1024 → c < 1024 → g.data [r, c] = if g.fr.dq [r, c] = 0 then some (s r c) else none) ss gs ∧
      List.Forall₂ (fun (x : Raw) (b : Biased) => b.fr.dq = x.fr.dq) xs bs ∧
      List.Forall₂ (fun (b : Biased) (g : Final) => ∀ p,
        (g.fr.dq p = 0 ↔ F.data p ≠ 0 ∧ flagsOf P w e rr m bp bs b p = 0) ∧
        (g.fr.dq p ≠ 0 → g.fr.dq p = flagsOf P w e rr m bp bs b p ||| (if F.data p = 0 then 4 else 0) ||| 2)) bs gs ∧
      ∀ g ∈ gs, g.fr.exptime = d.exptime ∧ g.fr.img.shape = [1024, 1024] := by
  obtain ⟨offErr, hm⟩ := hw.maps
  obtain ⟨ek, hk⟩ := hw.kgain
  obtain ⟨bs, fs, hb, hf, hq, hqx, hne, hH, hE, hD⟩ := shot_l2a ht hx P.track offErr (P.rays (.params rr) (cal w e "KGain"))
  obtain ⟨out, ho, hval⟩ := C144_l2b hs P.track P.junk ek hw.agree hne hH hE hD
  obtain ⟨out', ho'⟩ := C147_runs P.junkP ho
  have hv := C147_values ho ho'
  obtain ⟨f0, dk, -, hdk, hpx⟩ := Flagged.l2b_px ho
  have hdq : ∀ p, dk.dq p = (m.qF p ||| m.qD p) ||| m.qC p := by
    unfold synthDark at hdk
    split at hdk
    · cases hdk
    · cases hdk
      intro p
      rfl
  have hfind : ∀ s ∈ l1ToL2b.steps, Findable w e s := by
    intro s hs
    rcases List.mem_append.1 hs with h | h
    · exact findable_basic (by decide +kernel) (cal_lookup hm) (cal_lookup hw.params) (.inl (cal_lookup hk)) (cal_lookup hw.nonlin) s h
    · exact findable_l2b (cal_lookup hm) (cal_lookup hw.params) (cal_lookup hk) (cal_lookup hw.flat) (cal_lookup hw.badpix) hw.trap s h
  have hdark : l1ToL2b.steps.mapM (setDarkDir o) = .ok (basicSteps "AUTOMATIC" ++ l2bOut o) := by
    show (basicSteps "AUTOMATIC" ++ l2bSteps).mapM (setDarkDir o) = _
    rw [List.mapM_append, dark_basic, dark_l2b]
    rfl
  obtain ⟨res, h1, h2⟩ := C182_meaning P (t := l1ToL2b) (by decide +kernel) g w ⟨e, "L1", .raw xs⟩ files o hfind hdark
  rw [meaning_append, meaning_basic _ hm hw.params hw.nonlin hb hf] at h2
  simp only [Except.bind] at h2
  rw [meaning_l2b o hm hw.params hk hw.flat hw.badpix hne ho'] at h2
  obtain ⟨r1, r2, r3⟩ := h2
  refine ⟨res, out'.map (badFr bp), ⟨e, "L2a", .image fs⟩, bs, h1, r1, r2, ?_, rfl, ?_, hqx, ?_, ?_⟩
  · rw [r3, r2]
    rfl
  · rw [List.forall₂_map_right_iff]
    have hz := hval
    rw [List.forall₂_iff_get] at hz hv hpx ⊢
    have hlf := hv.1
    have hlp := hpx.1
    refine ⟨by have := hz.1; omega, fun i h1 h2 r c hr hc => ?_⟩
    rw [badFr_value]
    split
    · rename_i hflag
      have hi : i < out.length := by omega
      obtain ⟨v1, v2, -⟩ := hv.2 i hi h2
      have hfl := (hpx.2 i (by omega) hi).2
      have hF : F.data [r, c] ≠ 0 := by
        intro h0
        rw [badFr_flag, v2, hfl] at hflag
        simp only [h0, if_true] at hflag
        rw [or_mod_eq, or_mod_eq] at hflag
        exact absurd (Nat.or_eq_zero_iff.1 (Nat.or_eq_zero_iff.1 hflag).1).2 (by norm_num)
      rw [v1, (hz.2 i h1 hi).1 r c hr hc (by rw [← hw.agree.flat r c hr hc]; exact hF)]
    · rfl
  · rw [List.forall₂_map_right_iff]
    rw [List.forall₂_iff_get] at hq hv hpx ⊢
    have l1 := hv.1
    have l2 := hpx.1
    have l3 := hq.1
    refine ⟨by omega, fun i h1 h2 p => ?_⟩
    obtain ⟨-, v2, -⟩ := hv.2 i (by omega) h2
    have hfl := (hpx.2 i (by omega) (by omega)).2
    have hqq := hq.2 i h1 (by omega)
    have hall : (out'.get ⟨i, h2⟩).dq p = if F.data p = 0 then
        (bs.get ⟨i, h1⟩).fr.dq p ||| P.rays (.params rr) (cal w e "KGain") bs (bs.get ⟨i, h1⟩) p ||| (m.qF p ||| m.qD p ||| m.qC p) ||| 4 else
        (bs.get ⟨i, h1⟩).fr.dq p ||| P.rays (.params rr) (cal w e "KGain") bs (bs.get ⟨i, h1⟩) p ||| (m.qF p ||| m.qD p ||| m.qC p) := by
      rw [v2, hfl]
      dsimp only
      rw [hqq, hdq]
    have hz : (badFr bp (out'.get ⟨i, h2⟩)).fr.dq p = 0 ↔ F.data p ≠ 0 ∧ flagsOf P w e rr m bp bs (bs.get ⟨i, h1⟩) p = 0 := by
      rw [badFr_flag, hall]
      by_cases h0 : F.data p = 0
      · rw [if_pos h0]
        constructor
        · intro h
          rw [or_mod_eq, or_mod_eq] at h
          exact absurd (Nat.or_eq_zero_iff.1 (Nat.or_eq_zero_iff.1 h).1).2 (by norm_num)
        · intro h
          exact absurd h0 h.1
      · rw [if_neg h0]
        exact ⟨fun h => ⟨h0, h⟩, fun h => h.2⟩
    refine ⟨hz, fun hn => ?_⟩
    have hb : (badFr bp (out'.get ⟨i, h2⟩)).fr.dq p = (((out'.get ⟨i, h2⟩).dq p ||| bp p) % 256) ||| 2 := by
      rw [Ne, badFr_flag] at hn
      rw [or_mod_eq] at hn ⊢
      unfold badFr
      dsimp only
      rw [if_pos hn]
    rw [hb, hall]
    unfold flagsOf
    congr 1
    split
    · rw [Nat.or_right_comm, or_mod_eq]
    · rw [Nat.or_zero]
  · intro g hg
    obtain ⟨u, hu, rfl⟩ := List.mem_map.1 hg
    obtain ⟨f, hf, e1, e2⟩ := l2bE_heads ho' hu
    exact ⟨e1.trans (hH f hf).exptime, e2.trans (hH f hf).shape⟩

/-! ## C182: one walk or two -/

theorem meaning_disk {P : Rest} {w w' : Disk} (h1 : w'.files = w.files) (h2 : w'.csv = w.csv) (e : Entry) (l : List Step) (d : Data) :
    meaning P w' e l d = meaning P w e l d := by
  have hc : ∀ n, cal w' e n = cal w e n := by
    intro n
    unfold cal
    rw [lookup_products h1 h2, h1]
  induction l generalizing d with
  | nil => rfl
  | cons s l ih =>
    rw [meaning, meaning, ih]
    by_cases hs : s.name.toLower = "save"
    · rw [if_pos hs, if_pos hs]
    · rw [if_neg hs, if_neg hs]
      cases hf : func P s.name with
      | none => rfl
      | some f =>
        dsimp only
        simp only [hc]
        rw [func_disk hf w' w]
        cases f w d ((s.calibs.getD []).map fun c => cal w e c.1) (s.keywords.getD []) with
        | error x => rfl
        | ok d' => exact ih d'

theorem meaning_entry {P : Rest} {w : Disk} {e : Entry} {l : List Step} {d : Data} {x : Data × List Data} (h : meaning P w e l d = .ok x) :
    x.1.entry = d.entry := by
  induction l generalizing d x with
  | nil => cases h; rfl
  | cons s l ih =>
    rw [meaning] at h
    by_cases hs : s.name.toLower = "save"
    · rw [if_pos hs] at h
      cases hm : meaning P w e l d with
      | error y => rw [hm] at h; cases h
      | ok y =>
        rw [hm] at h
        cases h
        exact (ih hm : y.1.entry = d.entry)
    · rw [if_neg hs] at h
      cases hf : func P s.name with
      | none => rw [hf] at h; cases h
      | some f =>
        rw [hf] at h
        dsimp only at h
        cases hd : f w d ((s.calibs.getD []).map fun c => cal w e c.1) (s.keywords.getD []) with
        | error y => rw [hd] at h; cases h
        | ok d' =>
          rw [hd] at h
          exact (ih h).trans (func_entry hf hd)

/-- **C182** One walk with `l1_to_l2b.json`, or one with `l1_to_l2a_basic.json` and one with `l2a_to_l2b.json` on its product: the products are the
same, and so is the exception, if there is one. The settings and folders of the three walks may differ. -/
theorem C182_two (P : Rest) {w : Disk} {d : Data} (hs : ∀ s ∈ l1ToL2b.steps, Findable w d.entry s) (g₁ g₂ g₃ : Settings)
    (fl₁ fl₂ fl₃ : List String) (o₁ o₂ o₃ : String) :
    ∃ r₁ r, walk P g₁ w d fl₁ o₁ l1ToL2a = .ok r₁ ∧ walk P g₃ w d fl₃ o₃ l1ToL2b = .ok r ∧ (∀ x, r₁.2 = some x → r.2 = some x) ∧
      (r₁.2 = none → ∃ r₂, walk P g₂ r₁.1.world r₁.1.data fl₂ o₂ l2aToL2b = .ok r₂ ∧ r₂.2 = r.2 ∧
        (r.2 = none → r₂.1.data = r.1.data ∧ r₂.1.world = r.1.world)) := by
  have hb : ∀ s ∈ basicSteps "AUTOMATIC", Findable w d.entry s := fun s h => hs s (List.mem_append_left _ h)
  have hl : ∀ s ∈ l2bSteps, Findable w d.entry s := fun s h => hs s (List.mem_append_right _ h)
  have hb' : ∀ s ∈ l1ToL2a.steps, Findable w d.entry s := by
    intro s h
    have h1 : s ∈ basicSteps "AUTOMATIC,OPTIONAL" := h
    have hfirst := hb (auto "prescan_biassub" [("DetectorNoiseMaps", "AUTOMATIC")] (some [("return_full_frame", "false")])) (by simp [basicSteps])
    simp only [basicSteps, List.mem_cons, List.not_mem_nil, or_false] at h1
    rcases h1 with rfl | h1
    · refine findable_auto _ _ _ fun c hc => ?_
      simp only [List.mem_cons, List.not_mem_nil, or_false] at hc
      subst hc
      obtain ⟨v, h1, h2, h3⟩ := hfirst.calibs _ rfl _ (List.mem_cons_self ..)
      cases h1
      refine ⟨by decide +kernel, h3.imp id fun h => absurd h.2 (by decide +kernel)⟩
    · exact hb s (by simp only [basicSteps, List.mem_cons, List.not_mem_nil, or_false]; exact .inr h1)
  have hd1 : l1ToL2b.steps.mapM (setDarkDir o₃) = .ok (basicSteps "AUTOMATIC" ++ l2bOut o₃) := by
    show (basicSteps "AUTOMATIC" ++ l2bSteps).mapM (setDarkDir o₃) = _
    rw [List.mapM_append, dark_basic, dark_l2b]
    rfl
  obtain ⟨r₁, h1, a1⟩ := C182_meaning P (t := l1ToL2a) (by decide +kernel) g₁ w d fl₁ o₁ hb' (dark_basic _ _)
  obtain ⟨r, h3, a3⟩ := C182_meaning P (t := l1ToL2b) (by decide +kernel) g₃ w d fl₃ o₃ hs hd1
  rw [meaning_append] at a3
  rw [meaning_alike (alike_basic "AUTOMATIC" _)] at a1
  refine ⟨r₁, r, h1, h3, ?_⟩
  cases hm : meaning P w d.entry (basicSteps "AUTOMATIC") d with
  | error x =>
    rw [hm] at a1 a3
    have e1 : r₁.2 = some x := a1
    have e3 : r.2 = some x := a3
    rw [e1, e3]
    exact ⟨fun y hy => hy, fun h => by cases h⟩
  | ok x =>
    rw [hm] at a1 a3
    obtain ⟨b1, b2, b3⟩ := a1
    have he : r₁.1.data.entry = d.entry := by rw [b2]; exact meaning_entry hm
    have hw1 : r₁.1.world.files = w.files := by rw [b3]
    have hw2 : r₁.1.world.csv = w.csv := by rw [b3]
    have hf : ∀ s ∈ l2aToL2b.steps, Findable r₁.1.world r₁.1.data.entry s := by
      intro s h
      have := hl s h
      refine ⟨this.skip, ?_⟩
      rw [he, lookup_products hw1 hw2]
      exact this.calibs
    obtain ⟨r₂, h2, a2⟩ := C182_meaning P (t := l2aToL2b) (by decide +kernel) g₂ r₁.1.world r₁.1.data fl₂ o₂ hf (dark_l2b o₂)
    rw [he, meaning_disk hw1 hw2, b2, meaning_alike (alike_out o₃ o₂)] at a2
    refine ⟨fun y hy => (by rw [b1] at hy; cases hy), fun _ => ⟨r₂, h2, ?_⟩⟩
    simp only [Except.bind] at a3
    cases hy : meaning P w d.entry (l2bOut o₃) x.1 with
    | error y =>
      rw [hy] at a2 a3
      have e2 : r₂.2 = some y := a2
      have e3 : r.2 = some y := a3
      rw [e2, e3]
      exact ⟨rfl, fun h => by cases h⟩
    | ok y =>
      rw [hy] at a2 a3
      obtain ⟨c1, c2, c3⟩ := a2
      obtain ⟨f1, f2, f3⟩ := a3
      refine ⟨by rw [c1, f1], fun _ => ⟨by rw [c2, f2], ?_⟩⟩
      rw [c3, f3, b3]
      simp

/-! ## C182: steps without calibration -/

/-- A step that is skipped might as well not be there. -/
theorem runSteps_skip {P : Rest} {cfg : List (String × Bool)} {o : String} {r : Step} (h1 : r.name.toLower ≠ "save") (h2 : func P r.name ≠ none)
    (h3 : r.skip = true) (a b : List Step) (st : St Data Cal Disk) :
    runSteps (env P) cfg o st (a ++ r :: b) = runSteps (env P) cfg o st (a ++ b) := by
  induction a generalizing st with
  | nil =>
    show runSteps (env P) cfg o st (r :: b) = runSteps (env P) cfg o st b
    rw [runSteps]
    have : runStep (env P) cfg o st r = (st, none) := by
      unfold runStep
      rw [if_neg (by simpa using h1)]
      cases hf : func P r.name with
      | none => exact absurd hf h2
      | some f =>
        have : (env P).func r.name = some f := hf
        rw [this]
        dsimp only
        rw [if_pos h3]
    rw [this]
  | cons s a ih =>
    rw [List.cons_append, List.cons_append, runSteps, runSteps]
    split
    · exact ih _
    · rfl

/-- The database has no calibration of the class that the step needs. -/
structure Lacks (P : Rest) (w : Disk) (e : Entry) (s : Step) : Prop where
  known : func P s.name ≠ none
  save : s.name.toLower ≠ "save"
  dark : s.name.toLower ≠ "dark_subtraction"
  calib : ∃ n v, s.calibs = some [(n, some v)] ∧ mentions "AUTOMATIC" v = true ∧ mentions "OPTIONAL" v = false ∧ lookup w e n = .error .valueError

theorem fill_lacks {P : Rest} {w : Disk} {e : Entry} {s : Step} (h : Lacks P w e s) (cfg : List (String × Bool)) {g : Settings} (o : String)
    (hn : fillsNow cfg g = true) :
    (g "skip_missing_cal_steps" = true →
      ∃ r, fillAndSet (lookup w e) cfg g o s = .ok r ∧ r.name = s.name ∧ r.skip = true) ∧
    (g "skip_missing_cal_steps" = false → fillAndSet (lookup w e) cfg g o s = .error .valueError) := by
  obtain ⟨n, v, hc, ha, ho, hl⟩ := h.calib
  have hd : ¬ (s.name.toLower == "dark_subtraction") = true := by simpa using h.dark
  have key : ∀ b, fillOne (lookup w e) b (n, some v) = if b then .ok ((n, none), true) else .error .valueError := by
    intro b
    unfold fillOne
    dsimp only
    rw [if_pos ha, hl]
    dsimp only
    rw [ho]
    simp
  constructor
  · intro hg
    unfold fillAndSet fillStep
    rw [if_pos hn, hg, hc]
    simp only [List.mapM_cons, List.mapM_nil, key, bind, Except.bind, pure, Except.pure, if_true]
    unfold setDarkDir
    rw [if_neg hd]
    exact ⟨_, rfl, rfl, by simp⟩
  · intro hg
    unfold fillAndSet fillStep
    rw [if_pos hn, hg, hc]
    simp only [List.mapM_cons, key, bind, Except.bind, pure, Except.pure]
    rfl

/-- **C182** With `skip_missing_cal_steps` a step whose calibration is missing is left out, and the rest runs as if it had never been in the
template: no exception, and the level card of the product is the same. -/
theorem C182_violated_skipped (P : Rest) {t : Recipe} (hc : (t.drpconfig.map Prod.fst).Nodup) {g : Settings} (w : Disk) (d : Data)
    (files : List String) (o : String) {pre post pre' post' : List Step} {x : Step} (ht : t.steps = pre ++ x :: post)
    (h1 : ∀ s ∈ pre, Findable w d.entry s) (h2 : ∀ s ∈ post, Findable w d.entry s) (hx : Lacks P w d.entry x)
    (hd1 : pre.mapM (setDarkDir o) = .ok pre') (hd2 : post.mapM (setDarkDir o) = .ok post') (hn : fillsNow t.drpconfig g = true)
    (hg : g "skip_missing_cal_steps" = true) :
    ∃ res, walk P g w d files o t = .ok res ∧ Agrees w res (meaning P w d.entry (pre' ++ post') d) := by
  obtain ⟨rs, a1, a2⟩ := ready_all (P := P) (g := g) hc h1 hd1
  obtain ⟨rs', b1, b2⟩ := ready_all (P := P) (g := g) hc h2 hd2
  obtain ⟨r, c1, c2, c3⟩ := (fill_lacks hx t.drpconfig o hn).1 hg
  have hm : t.steps.mapM (fillAndSet (lookup w d.entry) t.drpconfig g o) = .ok (rs ++ r :: rs') := by
    rw [ht, List.mapM_append, a1, List.mapM_cons, c1, b1]
    rfl
  refine ⟨_, by unfold walk autogen; rw [hm]; rfl, ?_⟩
  have := run_ready (out := o) (List.rel_append a2 b2) ⟨applyConfig t.drpconfig g, w, d, []⟩ rfl rfl rfl rfl
  rw [← runSteps_skip (by rw [c2]; exact hx.save) (by rw [c2]; exact hx.known) c3] at this
  exact this

/-- **C182** Without the setting, no recipe is made and nothing runs. -/
theorem C182_missing (P : Rest) {t : Recipe} (hc : (t.drpconfig.map Prod.fst).Nodup) {g : Settings} (w : Disk) (d : Data)
    (files : List String) (o : String) {pre post pre' : List Step} {x : Step} (ht : t.steps = pre ++ x :: post)
    (h1 : ∀ s ∈ pre, Findable w d.entry s) (hx : Lacks P w d.entry x)
    (hd1 : pre.mapM (setDarkDir o) = .ok pre') (hn : fillsNow t.drpconfig g = true)
    (hg : g "skip_missing_cal_steps" = false) : walk P g w d files o t = .error .valueError := by
  obtain ⟨rs, a1, -⟩ := ready_all (P := P) (g := g) hc h1 hd1
  have c1 := (fill_lacks hx t.drpconfig o hn).2 hg
  unfold walk autogen
  rw [ht, List.mapM_append, a1, List.mapM_cons, c1]
  rfl

/-- **C182** The database has no flat field, the setting is on: the walk succeeds, the product says L2b, and its values are the scene times
the sensitivity of the pixels. -/
theorem C182_violated_no_flat (P : Rest) {d : Detector} (hs : Sound d) {tab : NonLin.Table ℝ} (ht : NonLin.Good tab) {m : Maps} {off rr k : ℝ}
    {F : Flat} {bp : Ix → ℕ} {w : Disk} {e : Entry} (hw : Base w e tab m off rr k bp) (hc : Calibrated d k rr m F)
    (hF : lookup w e "FlatField" = .error .valueError) {ss : List (ℕ → ℕ → ℝ)} {xs : List Raw} (hx : Shot d tab off ss xs) {g : Settings}
    (hj : g "jit_calib_id" = false) (hg : g "skip_missing_cal_steps" = true) (files : List String) (o : String) :
    ∃ res gs, walk P g w ⟨e, "L1", .raw xs⟩ files o l1ToL2b = .ok res ∧ res.2 = none ∧ res.1.data = ⟨e, "L2b", .final gs⟩ ∧
      List.Forall₂ (fun s (g : Final) => ∀ r c, r < 1024 → c < 1024 →
        g.data [r, c] = if g.fr.dq [r, c] = 0 then some (d.flat r c * s r c) else none) ss gs := by
  obtain ⟨offErr, hm⟩ := hw.maps
  obtain ⟨ek, hk⟩ := hw.kgain
  obtain ⟨bs, fs, hb, hf, -, -, hne, hH, hE, hD⟩ := shot_l2a ht hx P.track offErr (P.rays (.params rr) (cal w e "KGain"))
  -- the same counts come from pixels that are all alike and a scene that is not
  have hs' : Sound { d with flat := fun _ _ => 1 } := ⟨hs.kgain, hs.gain, hs.time⟩
  have hc' : Calibrated { d with flat := fun _ _ => 1 } k rr m { F with data := fun _ => 1 } :=
    ⟨hc.kgain, hc.rowread, hc.shape, hc.fpn, hc.cic, hc.dark, fun _ _ _ _ => rfl, hc.pos⟩
  have hH' : ∀ f ∈ fs, Header { d with flat := fun _ _ => 1 } f := fun f hf => ⟨(hH f hf).gain, (hH f hf).exptime, (hH f hf).shape, (hH f hf).layers⟩
  have hD' : List.Forall₂ (fun s (f : Fr) => ∀ r c, r < 1024 → c < 1024 → f.data [r, c] = Detector.counts { d with flat := fun _ _ => 1 } s r c)
      (ss.map fun s r c => d.flat r c * s r c) fs := by
    rw [List.forall₂_map_left_iff]
    refine hD.imp fun s f h r c hr hc => ?_
    rw [h r c hr hc]
    unfold Detector.counts Detector.charge
    simp only [one_mul]
  obtain ⟨out, ho, hval⟩ := C144_l2b hs' P.track P.junk ek hc' hne hH' hE hD'
  obtain ⟨out', ho'⟩ := C147_runs P.junkP ho
  have hv := C147_values ho ho'
  obtain ⟨ps, gs, h1, h2, h3⟩ := l2bE_parts ho'
  have hfl : List.Forall₂ (fun f g : Fr => g.data = f.data) (gs.map (desmearFr rr)) out' := by
    unfold flatDiv at h3
    refine (mapM_ok_iff.1 h3).imp fun f g h => ?_
    unfold flatFrame at h
    dsimp only at h
    split at h
    · cases h
    · split at h
      · cases h
      · cases h
        funext p
        simp
  have hp1 : (basicSteps "AUTOMATIC" ++ l2bSteps.take 7).mapM (setDarkDir o) = .ok (basicSteps "AUTOMATIC" ++ (l2bOut o).take 7) := by
    have := dark_l2b o
    rw [← List.take_append_drop 7 l2bSteps, List.mapM_append] at this
    rw [List.mapM_append, dark_basic]
    cases ha : (l2bSteps.take 7).mapM (setDarkDir o) with
    | error x => rw [ha] at this; cases this
    | ok a =>
      cases hb : (l2bSteps.drop 7).mapM (setDarkDir o) with
      | error x => rw [ha, hb] at this; cases this
      | ok b =>
        rw [ha, hb] at this
        have h5 : a ++ b = l2bOut o := Except.ok.inj this
        have h6 : a.length = 7 := (mapM_ok_iff.1 ha).length_eq.symm
        rw [← h5, List.take_left' h6]
        rfl
  have hp2 : (l2bSteps.drop 8).mapM (setDarkDir o) = .ok (l2bSteps.drop 8) := by
    have h1 : ("correct_bad_pixels".toLower == "dark_subtraction") = false := by decide +kernel
    have h2 : ("update_to_l2b".toLower == "dark_subtraction") = false := by decide +kernel
    have h3 : ("save".toLower == "dark_subtraction") = false := by decide +kernel
    simp [l2bSteps, auto, setDarkDir, h1, h2, h3]
    rfl
  have hq : ∀ s ∈ l2bSteps, s.name ≠ "flat_division" → Findable w e s := by
    intro s hs hn
    have a1 : mentions "AUTOMATIC" "AUTOMATIC" = true := by decide +kernel
    have a2 : mentions "AUTOMATIC" "AUTOMATIC,OPTIONAL" = true := by decide +kernel
    have a3 : mentions "OPTIONAL" "AUTOMATIC,OPTIONAL" = true := by decide +kernel
    simp only [l2bSteps, List.mem_cons, List.not_mem_nil, or_false] at hs
    rcases hs with rfl | rfl | rfl | rfl | rfl | rfl | rfl | rfl | rfl | rfl | rfl <;> refine findable_auto _ _ _ fun c hc => ?_
    all_goals simp only [List.mem_cons, List.not_mem_nil, or_false] at hc
    all_goals subst hc
    · exact ⟨a1, .inl (cal_lookup hk)⟩
    · exact ⟨a1, .inl (cal_lookup hm)⟩
    · exact ⟨a1, .inl (cal_lookup hw.params)⟩
    · exact ⟨a2, hw.trap.imp id fun h => ⟨h, a3⟩⟩
    · exact absurd rfl hn
    · exact ⟨a1, .inl (cal_lookup hw.badpix)⟩
  have hpre : ∀ s ∈ basicSteps "AUTOMATIC" ++ l2bSteps.take 7, Findable w e s := by
    intro s h
    rcases List.mem_append.1 h with h | h
    · exact findable_basic (by decide +kernel) (cal_lookup hm) (cal_lookup hw.params) (.inl (cal_lookup hk)) (cal_lookup hw.nonlin) s h
    · refine hq s (List.mem_of_mem_take h) fun hn => ?_
      simp only [l2bSteps, List.take, List.mem_cons, List.not_mem_nil, or_false] at h
      rcases h with rfl | rfl | rfl | rfl | rfl | rfl | rfl <;> exact absurd hn (by decide +kernel)
  have hpost : ∀ s ∈ l2bSteps.drop 8, Findable w e s := by
    intro s h
    refine hq s (List.mem_of_mem_drop h) fun hn => ?_
    simp only [l2bSteps, List.drop, List.mem_cons, List.not_mem_nil, or_false] at h
    rcases h with rfl | rfl | rfl <;> exact absurd hn (by decide +kernel)
  have hlack : Lacks P w e (auto "flat_division" [("FlatField", "AUTOMATIC")]) :=
    ⟨by show func P "flat_division" ≠ none; simp [func], by show "flat_division".toLower ≠ _; decide +kernel,
      by show "flat_division".toLower ≠ _; decide +kernel, "FlatField", "AUTOMATIC", rfl, by decide +kernel, by decide +kernel, hF⟩
  obtain ⟨res, r1, r2⟩ := C182_violated_skipped P (t := l1ToL2b) (by decide +kernel) w ⟨e, "L1", .raw xs⟩ files o
    (pre := basicSteps "AUTOMATIC" ++ l2bSteps.take 7) (x := auto "flat_division" [("FlatField", "AUTOMATIC")]) (post := l2bSteps.drop 8) rfl
    hpre hpost hlack hp1 hp2 (by
      have : Walker.getKey l1ToL2b.drpconfig "jit_calib_id" = none := by decide +kernel
      unfold fillsNow
      rw [this, hj]
      rfl) hg
  have hal : List.Forall₂ Alike (l2bSteps.take 7) ((l2bOut o).take 7) := List.forall₂_take 7 (alike_out "AUTOMATIC" o)
  rw [List.append_assoc, meaning_append, meaning_basic _ hm hw.params hw.nonlin hb hf] at r2
  simp only [Except.bind] at r2
  rw [meaning_alike (List.rel_append hal (List.forall₂_same.2 fun s _ => ⟨rfl, rfl, .inl rfl⟩)), meaning_head _ hm hw.params hk hne h1 h2,
    meaning_tail hw.badpix] at r2
  obtain ⟨q1, q2, -⟩ := r2
  refine ⟨res, _, r1, q1, q2, ?_⟩
  rw [List.forall₂_map_right_iff]
  rw [List.forall₂_map_left_iff] at hval
  rw [List.forall₂_iff_get] at hval hv hfl ⊢
  have l1 := hval.1
  have l2 := hv.1
  have l3 := hfl.1
  refine ⟨by omega, fun i i1 i2 r c hr hc => ?_⟩
  rw [badFr_value, ← hfl.2 i i2 (by omega), (hv.2 i (by omega) (by omega)).1, (hval.2 i i1 (by omega)).1 r c hr hc (by norm_num)]

/-! ## Frame selection and non-vacuity -/

/-- `frame_select` without keywords (bpix_frac=1, nothing else): all frames are kept, with their pixels; without frames it raises. -/
theorem select_default {α : Type} (fs : List (FSel.Frame α)) :
    (fs = [] → FSel.frameSelect ⟨1, 0, false, none, none, true⟩ fs = .error .valueError) ∧
    (fs ≠ [] → ∃ r, FSel.frameSelect ⟨1, 0, false, none, none, true⟩ fs = .ok r ∧ r.1.map FSel.Frame.pix = fs.map FSel.Frame.pix) := by
  have hg : ∀ f : FSel.Frame α, FSel.Good ⟨1, 0, false, none, none, true⟩ f := fun f =>
    FSel.C23_default_keeps_all _ (by norm_num) rfl rfl rfl f
  constructor
  · rintro rfl
    rfl
  · intro hne
    obtain ⟨f, l, rfl⟩ := List.exists_cons_of_ne_nil hne
    obtain ⟨⟨out, rep⟩, hr⟩ := (FSel.C23_succeeds_iff ⟨1, 0, false, none, none, true⟩ (f :: l)).2
      ⟨fun x _ => by simp [FSel.Testable], f, List.mem_cons_self .., hg f⟩
    refine ⟨_, hr, ?_⟩
    rw [(FSel.C23_select hr).1 rfl, List.filter_eq_self.2 fun x _ => by simpa using hg x, List.map_map]
    rfl

private def exCsv : Table :=
  ["DetectorNoiseMaps", "DetectorParams", "NonLinearityCalibration", "KGain", "FlatField", "BadPixelMap"].map fun t =>
    { exRow "/cal" 1 1 0 with type := some t }

private def exFiles (R : Run) (bp : Ix → ℕ) : String → String → Option Cal
  | "DetectorNoiseMaps", _ => some (.maps R.maps R.off R.offErr)
  | "DetectorParams", _ => some (.params R.rowread)
  | "NonLinearityCalibration", _ => some (.nonlin R.tab)
  | "KGain", _ => some (.kgain R.k R.ek)
  | "FlatField", _ => some (.flat R.flat)
  | "BadPixelMap", _ => some (.badpix bp)
  | _, _ => none

private theorem exLookup {R : Run} {bp : Ix → ℕ} {ps : List Data} {n : String} {c : Cls} {r : Row} (h1 : Autoload.datatypes n = some c)
    (h2 : getCalib (load exCsv) (some (exDark "/f" 2 1 0)) c = .ok r) (h3 : r.path = some "/cal") (h4 : ∃ k, exFiles R bp n "/cal" = some k) :
    lookup ⟨exCsv, exFiles R bp, ps⟩ (exDark "/f" 2 1 0) n = .ok "/cal" := by
  obtain ⟨k, h4⟩ := h4
  unfold lookup
  rw [h1]
  dsimp only
  rw [h2]
  dsimp only
  rw [h3]
  dsimp only
  rw [h4]

/-- A database with one calibration of each class but for the traps, and frames of a scene. -/
theorem exShot (s : ℕ → ℕ → ℝ) (bp : Ix → ℕ) : ∃ w e d tab m off rr k F xs,
    Sound d ∧ NonLin.Good tab ∧ Has w e d tab m off rr k F bp ∧ Shot d tab off [s, s] xs ∧ w.products = [] ∧ d.exptime ≠ 0 := by
  have hE := exRun_observes (t := 1) (G := 2) (by norm_num) (by norm_num) (n := 2) (by norm_num) s
  set R := exRun 1 2 2 s
  have key : ∀ {n : String} {c : Cls} {r : Row} {q : Cal}, Autoload.datatypes n = some c →
      getCalib (load exCsv) (some (exDark "/f" 2 1 0)) c = .ok r → r.path = some "/cal" → exFiles R bp n "/cal" = some q →
      cal ⟨exCsv, exFiles R bp, []⟩ (exDark "/f" 2 1 0) n = some q := by
    intro n c r q h1 h2 h3 h4
    unfold cal
    rw [exLookup h1 h2 h3 ⟨q, h4⟩]
    exact h4
  have hw : Has ⟨exCsv, exFiles R bp, []⟩ (exDark "/f" 2 1 0) (exDetector 1 2) R.tab R.maps R.off R.rowread R.k R.flat bp := by
    refine ⟨⟨⟨R.offErr, key rfl rfl rfl rfl⟩, key rfl rfl rfl rfl, key rfl rfl rfl rfl, ⟨R.ek, key rfl rfl rfl rfl⟩, key rfl rfl rfl rfl, ?_⟩,
      key rfl rfl rfl rfl, hE.cal⟩
    right
    rfl
  have hx : Shot (exDetector 1 2) R.tab R.off [s, s]
      (R.xs.map fun x => { x with l1 := { x.l1 with err := [⟨1200, 2200, fun _ _ => some 0⟩] } }) := by
    have hex : ∀ x ∈ R.xs, Exposes (exDetector 1 2) R.tab R.off s { x.l1 with err := [⟨1200, 2200, fun _ _ => some 0⟩] } := by
      intro x hx
      have h := hE.exposed x hx
      exact ⟨h.mode, h.size, h.sizeDq, by simp, h.pixels⟩
    refine ⟨by simp [hE.some], ?_, ?_, ?_, ?_⟩
    · intro x hx
      obtain ⟨y, hy, rfl⟩ := List.mem_map.1 hx
      exact hE.header y hy
    · intro x hx x' hx'
      obtain ⟨y, hy, rfl⟩ := List.mem_map.1 hx
      obtain ⟨y', hy', rfl⟩ := List.mem_map.1 hx'
      exact hE.gain y hy y' hy'
    · intro x hx
      obtain ⟨y, hy, rfl⟩ := List.mem_map.1 hx
      simp
    · have hr : R.xs = [R.xs.head hE.some, R.xs.head hE.some] := rfl
      rw [hr]
      exact .cons (hex _ (List.head_mem _)) (.cons (hex _ (List.head_mem _)) .nil)
  exact ⟨_, _, _, _, _, _, _, _, _, _, hE.sound, hE.table, hw, hx, rfl, one_ne_zero⟩

example (P : Rest) (s : ℕ → ℕ → ℝ) (bp : Ix → ℕ) (g : Settings) : ∃ w e d tab m off rr k F xs,
    Sound d ∧ NonLin.Good tab ∧ Has w e d tab m off rr k F bp ∧ Shot d tab off [s, s] xs ∧
    ∃ res, walk P g w ⟨e, "L1", .raw xs⟩ ["/f"] "/out" l1ToL2b = .ok res ∧ res.2 = none ∧ res.1.world.products.length = 2 := by
  obtain ⟨w, e, d, tab, m, off, rr, k, F, xs, h1, h2, h3, h4, h5, -⟩ := exShot s bp
  refine ⟨w, e, d, tab, m, off, rr, k, F, xs, h1, h2, h3, h4, ?_⟩
  obtain ⟨res, gs, a, bs, r1, r2, -, r4, -⟩ := C182_scene P h1 h2 h3 h4 g ["/f"] "/out"
  exact ⟨res, r1, r2, by rw [r4, h5]; rfl⟩

end Corgi.Walk

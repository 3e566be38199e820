import Verif.Common.Forall2
import Verif.Walker.Model
import Verif.CalDB.Props
import Verif.Data.Autoload
import Verif.BadPix.BadPix

/-!
# A recipe without input files: `bp_map.json` (C197)

`walk_corgidrp([], "", outputdir, template)` with the template `bp_map.json`: `autogen_recipe` has no first frame (walker.py 120-122),
`run_recipe` starts with the empty list (372-373), the step makes a bad pixel map of the newest dark and the newest flat of the
database.  The database lookup, the files on disk, the step and the registration of the result are the models of C03, C40 and C01.

Simplifications:
* a file on disk is its class and headers (`Entry`) and its image; a class that finds another DATATYPE in the file raises ValueError
  (data.py 676-679, 718-721), a file that is missing or a row without a path raises something that is not a ValueError (`other`);
* `header` stands for the headers and the file name of the new map (data.py 955-992; names and headers are C19 and C57);
* the other step functions are a parameter;
* the recipe is not written into headers and files (Record.lean).  With an empty list that would be one more AttributeError
  (walker.py 421-422), after the one of the lookup.
-/

noncomputable section

namespace Corgi.NoInput

open Corgi.CalDB Corgi.BadPix
open Corgi.Walker (Recipe Step Env St Settings Ev runStep runSteps runRecipe autogen autogenGuess fillStep fillOne fillAndSet setDarkDir
  stepArgs loadCalibs jitNow fillsNow applyConfig mentions getKey)

abbrev WErr := Walker.Err

/-! ## Model -/

/-- A file on disk, or the image it is read into. -/
structure File where
  entry : Entry
  im : Im

/-- `curr_dataset` in `run_recipe`: the empty list (walker.py 373) or an image. -/
inductive Dat
  | nothing
  | image (f : File)

structure Disk where
  csv : Table
  files : String → Option File

/-- What is left open: headers and name of a new map, and the other step functions. -/
structure Rest where
  header : Entry → Entry → Entry
  others : String → Option (Disk → Dat → List (Option File) → List (String × String) → Except WErr Dat)

/-- `datatypes[n](path)` (walker.py 427-429, caldb.py 328). -/
def loadAs (w : Disk) (n p : String) : Except WErr File :=
  match w.files p with
  | none => .error .other
  | some f => if Autoload.datatypes n = some f.entry.cls then .ok f else .error .valueError

/-- The end of `get_calib` (caldb.py 328) and `best_cal_file.filepath` (walker.py 211), from the selected row on. -/
def fileOf (w : Disk) (n : String) : Except CalDB.Err Row → Except WErr String
  | .error .valueError => .error .valueError
  | .error _ => .error .keyError
  | .ok r =>
    match r.path with
    | none => .error .other
    | some p => (loadAs w n p).map fun _ => p

/-- `get_calib(frame, data.datatypes[n])` for a frame or `None` (walker.py 206-211). -/
def lookupFrame (w : Disk) (frame : Option Entry) (n : String) : Except WErr String :=
  match Autoload.datatypes n with
  | none => .error .keyError
  | some c => fileOf w n (getCalib (load w.csv) frame c)

/-- The lookup of `run_recipe` with just-in-time calibrations (walker.py 409-418): the reference is the current data, and the empty
list is not `None`: after the test of the class (caldb.py 273-276) `entry.filepath` raises AttributeError (caldb.py 134). -/
def lookupData (w : Disk) : Dat → String → Except WErr String
  | .image f, n => lookupFrame w (some f.entry) n
  | .nothing, n =>
    match Autoload.datatypes n with
    | none => .error .keyError
    | some c =>
      match label c with
      | none => .error .valueError
      | some _ => .error .attributeError

/-- The map of a dark and a flat of the same shape (bad_pixel_calibration.py 34-56). -/
def mapFile (P : Rest) (d f : File) : File := ⟨P.header d.entry f.entry,
  ⟨d.im.rows, d.im.cols, fun r c => some (badMap 5 (4 / 5) 32 d.im f.im (r, c) : ℝ)⟩⟩

/-- `create_bad_pixel_map` with the default thresholds (bad_pixel_calibration.py 5-58). The first argument is ignored. Masks of
different shape raise IndexError (42), a missing calibration has no `data` (31-32). -/
def makeMap (P : Rest) (args : List (Option File)) : Except WErr Dat :=
  match args with
  | [some dark, some flat] =>
    if flat.im.rows = dark.im.rows ∧ flat.im.cols = dark.im.cols then
      .ok (.image (mapFile P dark flat))
    else .error .other
  | [_, _] => .error .attributeError
  | _ => .error .other

/-- `save_data` (walker.py 305-344) without a suffix: the empty list has no `save` (337); an image is written to its path and, if it
is a calibration, registered (339-344). -/
def saveData (w : Disk) : Dat → Except WErr Disk
  | .nothing => .error .attributeError
  | .image f =>
    let files := Function.update w.files f.entry.absPath (some f)
    if (label f.entry.cls).isSome then
      match createEntry ⟨load w.csv, w.csv⟩ f.entry true with
      | .ok s => .ok ⟨s.disk, files⟩
      | .error _ => .error .keyError
    else .ok ⟨w.csv, files⟩

/-- The outside of `run_recipe`. -/
def env (P : Rest) : Env Dat File Disk where
  func := fun n => if n = "create_bad_pixel_map" then some fun _ _ args _ => makeMap P args else P.others n
  lookup := lookupData
  load := loadAs
  save := fun w d _ _ => saveData w d

/-- `bp_map.json` -/
def bpMap : Recipe :=
  ⟨"bp_map", true, [("track_individual_errors", false)], [], "",
    [⟨"create_bad_pixel_map", some [("Dark", some "AUTOMATIC"), ("FlatField", some "AUTOMATIC")], false, none⟩,
     ⟨"save", none, false, none⟩]⟩

/-- `walk_corgidrp` with an empty file list and a template (walker.py 65-104). -/
def walk (P : Rest) (g : Settings) (w : Disk) (out : String) (t : Recipe) : Except WErr (St Dat File Disk × Option WErr) :=
  (autogen (lookupFrame w none) g [] out t).map fun r => runRecipe (env P) g w .nothing r.1

/-! ## Specification -/

/-- The most recently created product of the type `n` in the database, the one registered first among equals, is the file at `p`. -/
structure Newest (w : Disk) (n p : String) (f : File) : Prop where
  row : ∃ r, FirstBest (load w.csv) (fun q => q.type = some n) (fun a b => b.dateCreated < a.dateCreated) r ∧ r.path = some p
  file : w.files p = some f
  cls : TypeName f.entry.cls n

/-- Nothing of the type `n` is registered. -/
def Absent (w : Disk) (n : String) : Prop := ¬ ∃ q ∈ load w.csv, q.type = some n

/-- `m` is the map of the dark `d` and the flat `f`: 8 at pixels above the mean of the dark by more than five standard deviations,
4 at pixels below 80 % of the mean of the flat around them, their sum where both hold. -/
structure MapOf (d f m : Im) : Prop where
  shape : m.rows = d.rows ∧ m.cols = d.cols
  px : ∀ vd vf, Finite d vd → Finite f vf → ∀ r < d.rows, ∀ c < d.cols, ∃ x : ℕ, m.px r c = some (x : ℝ) ∧
    ∀ b, x.testBit b = true ↔ (b = 3 ∧ IsHot 5 d vd r c) ∨ (b = 2 ∧ IsDead (4 / 5) 32 f vf r c)

/-! ## Proofs -/

private theorem of_label {c c' : Cls} {n : String} (h : TypeName c n) (h' : TypeName c' n) : c = c' := by
  have h1 := typeName_iff.1 h
  rw [← typeName_iff.1 h'] at h1
  clear h h'
  cases c <;> cases c' <;> first | rfl | (exact absurd h1 (by decide +kernel))

theorem newest_iff (w : Disk) {n : String} (hn : n = "Dark" ∨ n = "FlatField") (p : String) :
    lookupFrame w none n = .ok p ↔ ∃ f, Newest w n p f := by
  obtain ⟨c, hc, ht, hu⟩ : ∃ c, Autoload.datatypes n = some c ∧ TypeName c n ∧ ∀ c', TypeName c' n → c' = c := by
    rcases hn with rfl | rfl
    · exact ⟨.dark, rfl, .dark, fun c' h => of_label h .dark⟩
    · exact ⟨.flat, rfl, .flat, fun c' h => of_label h .flat⟩
  have h3 := (C03_get_calib_none (load w.csv) c n ht).1
  unfold lookupFrame
  rw [hc]
  dsimp only
  constructor
  · intro h
    cases hg : getCalib (load w.csv) none c with
    | error e => rw [hg] at h; cases e <;> simp [fileOf] at h
    | ok r =>
      rw [hg] at h
      unfold fileOf loadAs at h
      dsimp only at h
      cases hp : r.path with
      | none => rw [hp] at h; simp at h
      | some q =>
        rw [hp] at h
        dsimp only at h
        cases hf : w.files q with
        | none => rw [hf] at h; simp [Except.map] at h
        | some f =>
          rw [hf] at h
          dsimp only at h
          split at h
          · rename_i hcl
            simp only [Except.map, Except.ok.injEq] at h
            subst h
            rw [hc, Option.some.injEq] at hcl
            exact ⟨f, ⟨r, (h3 r).1 hg, hp⟩, hf, hcl ▸ ht⟩
          · simp [Except.map] at h
  · rintro ⟨f, ⟨r, hr, hp⟩, hf, hcl⟩
    rw [(h3 r).2 hr]
    unfold fileOf loadAs
    dsimp only
    rw [hp]
    dsimp only
    rw [hf]
    dsimp only
    rw [hc, if_pos (by rw [hu _ hcl])]
    rfl

theorem absent_lookup (w : Disk) {n : String} (hn : n = "Dark" ∨ n = "FlatField") (h : Absent w n) :
    lookupFrame w none n = .error .valueError := by
  obtain ⟨c, hc, ht⟩ : ∃ c, Autoload.datatypes n = some c ∧ TypeName c n := by
    rcases hn with rfl | rfl
    · exact ⟨.dark, rfl, .dark⟩
    · exact ⟨.flat, rfl, .flat⟩
  unfold lookupFrame
  rw [hc]
  dsimp only
  rw [((C03_get_calib_none (load w.csv) c n ht).2).2 h]
  rfl

theorem newest_load {w : Disk} {n p : String} {f : File} (h : Newest w n p f) (hn : n = "Dark" ∨ n = "FlatField") :
    loadAs w n p = .ok f := by
  unfold loadAs
  rw [h.file]
  dsimp only
  have : Autoload.datatypes n = some f.entry.cls := by
    have := h.cls
    rcases hn with rfl | rfl
    · rw [of_label this .dark]; rfl
    · rw [of_label this .flat]; rfl
  rw [if_pos this]

private theorem auto_auto : mentions "AUTOMATIC" "AUTOMATIC" = true := by decide +kernel
private theorem auto_opt : mentions "OPTIONAL" "AUTOMATIC" = false := by decide +kernel
private theorem not_save : ("create_bad_pixel_map".toLower == "save") = false := by decide +kernel
private theorem is_save : ("save".toLower == "save") = true := by decide +kernel
private theorem not_dark : ("create_bad_pixel_map".toLower == "dark_subtraction") = false := by decide +kernel
private theorem not_dark' : ("save".toLower == "dark_subtraction") = false := by decide +kernel

private theorem jit_cfg (g : Settings) : jitNow bpMap.drpconfig (applyConfig bpMap.drpconfig g) = g "jit_calib_id" := by
  have h : getKey bpMap.drpconfig "jit_calib_id" = none := by decide +kernel
  unfold jitNow
  rw [h]
  simp [applyConfig, bpMap, Function.update]

private theorem skip_cfg (g : Settings) : applyConfig bpMap.drpconfig g "skip_missing_cal_steps" = g "skip_missing_cal_steps" := by
  simp [applyConfig, bpMap, Function.update]

private theorem fills_cfg (g : Settings) : fillsNow bpMap.drpconfig g = !g "jit_calib_id" := by
  have h : getKey bpMap.drpconfig "jit_calib_id" = none := by decide +kernel
  unfold fillsNow
  rw [h]

private theorem autogen_steps (L : String → Except WErr String) (g : Settings) (out : String) :
    (autogen L g [] out bpMap).map Prod.fst =
      ((if g "jit_calib_id" then .ok ⟨"create_bad_pixel_map", some [("Dark", some "AUTOMATIC"), ("FlatField", some "AUTOMATIC")], false, none⟩
        else fillStep L (g "skip_missing_cal_steps")
          ⟨"create_bad_pixel_map", some [("Dark", some "AUTOMATIC"), ("FlatField", some "AUTOMATIC")], false, none⟩).map
        fun s : Step => (⟨"bp_map", false, [("track_individual_errors", false)], [], out, [s, ⟨"save", none, false, none⟩]⟩ : Recipe)) := by
  have h1 : ∀ s : Step, s.name = "create_bad_pixel_map" → setDarkDir out s = .ok s := by
    intro s hs
    unfold setDarkDir
    rw [hs, not_dark]
    rfl
  have h2 : fillAndSet L bpMap.drpconfig g out ⟨"save", none, false, none⟩ = .ok ⟨"save", none, false, none⟩ := by
    have hd : setDarkDir out ⟨"save", none, false, none⟩ = .ok ⟨"save", none, false, none⟩ := by
      unfold setDarkDir
      simp only [not_dark', Bool.false_eq_true, if_false]
    unfold fillAndSet
    cases fillsNow bpMap.drpconfig g <;> exact hd
  have h3 : ∀ s : Step, s.name = "create_bad_pixel_map" → fillAndSet L bpMap.drpconfig g out s =
      if g "jit_calib_id" then .ok s else fillStep L (g "skip_missing_cal_steps") s := by
    intro s hs
    unfold fillAndSet
    rw [fills_cfg]
    cases g "jit_calib_id"
    · simp only [Bool.not_false, if_true, bind, Except.bind, Bool.false_eq_true, if_false]
      cases hf : fillStep L (g "skip_missing_cal_steps") s with
      | error e => rfl
      | ok s' =>
        dsimp only
        apply h1
        unfold fillStep at hf
        split at hf
        · cases hf; exact hs
        · simp only [bind, Except.bind, pure, Except.pure] at hf
          split at hf
          · cases hf
          · cases hf; exact hs
    · simp only [Bool.not_true, Bool.false_eq_true, if_false, if_true, bind, Except.bind, pure, Except.pure]
      exact h1 s hs
  unfold autogen
  rw [show bpMap.steps = [⟨"create_bad_pixel_map", some [("Dark", some "AUTOMATIC"), ("FlatField", some "AUTOMATIC")], false, none⟩,
    ⟨"save", none, false, none⟩] from rfl]
  simp only [List.mapM_cons, List.mapM_nil, h3 ⟨"create_bad_pixel_map", _, _, _⟩ rfl, h2, bind, Except.bind, pure, Except.pure]
  split
  · rename_i e he
    split at he
    · rename_i e' he'; rw [he']; cases he; rfl
    · cases he
  · rename_i v hv
    split at hv
    · cases hv
    · rename_i s' he'; rw [he']; cases hv; rfl

/-- The recipe that is run. -/
private def ran (out : String) (s : Step) : Recipe :=
  ⟨"bp_map", false, [("track_individual_errors", false)], [], out, [s, ⟨"save", none, false, none⟩]⟩

/-- The first step with these calibrations. -/
private def stepOf (cs : List (String × Option String)) (skip : Bool) : Step := ⟨"create_bad_pixel_map", some cs, skip, none⟩

private def autos : List (String × Option String) := [("Dark", some "AUTOMATIC"), ("FlatField", some "AUTOMATIC")]

private theorem walk_eq (P : Rest) (g : Settings) (w : Disk) (out : String) :
    walk P g w out bpMap = (if g "jit_calib_id" then .ok (stepOf autos false)
      else fillStep (lookupFrame w none) (g "skip_missing_cal_steps") (stepOf autos false)).map
        fun s => runRecipe (env P) g w .nothing (ran out s) := by
  have h := autogen_steps (lookupFrame w none) g out
  unfold walk
  have e : ∀ x : Except WErr (Recipe × Recipe), x.map (fun r => runRecipe (env P) g w .nothing r.1) =
      (x.map Prod.fst).map fun r => runRecipe (env P) g w .nothing r := by intro x; cases x <;> rfl
  rw [e, h]
  unfold stepOf autos
  generalize (if g "jit_calib_id" then _ else _ : Except WErr Step) = y
  cases y <;> rfl

private def start (g : Settings) (w : Disk) : St Dat File Disk :=
  { settings := applyConfig bpMap.drpconfig g, world := w, data := .nothing, trace := [] }

private theorem run_eq (P : Rest) (g : Settings) (w : Disk) (out : String) (s : Step) :
    runRecipe (env P) g w .nothing (ran out s) = runSteps (env P) bpMap.drpconfig out (start g w) [s, ⟨"save", none, false, none⟩] := rfl

private theorem save_step (P : Rest) (cfg : List (String × Bool)) (out : String) (st : St Dat File Disk) :
    runSteps (env P) cfg out st [⟨"save", none, false, none⟩] =
      match saveData st.world st.data with
      | .ok w => ({ st with world := w, trace := st.trace ++ [.saved st.data ""] }, none)
      | .error e => (st, some e) := by
  unfold runSteps runStep
  simp only [is_save, if_true]
  have : (env P).save st.world st.data out ((Option.bind (none : Option (List (String × String))) fun kw => getKey kw "suffix").getD "") =
    saveData st.world st.data := rfl
  rw [this]
  cases saveData st.world st.data <;> rfl

private theorem fill_autos (L : String → Except WErr String) (sk : Bool) :
    fillStep L sk (stepOf autos false) = ((fillOne L sk ("Dark", some "AUTOMATIC")).bind fun a =>
      (fillOne L sk ("FlatField", some "AUTOMATIC")).map fun b => stepOf [a.1, b.1] (a.2 || b.2)) := by
  unfold fillStep stepOf autos
  simp only [List.mapM_cons, List.mapM_nil, bind, Except.bind, pure, Except.pure]
  cases fillOne L sk ("Dark", some "AUTOMATIC") with
  | error e => rfl
  | ok a =>
    dsimp only
    cases fillOne L sk ("FlatField", some "AUTOMATIC") with
    | error e => rfl
    | ok b => simp [Except.map]

private theorem fill_one (L : String → Except WErr String) (sk : Bool) (n : String) :
    fillOne L sk (n, some "AUTOMATIC") = match L n with
      | .ok p => .ok ((n, some p), false)
      | .error .valueError => if sk then .ok ((n, none), true) else .error .valueError
      | .error e => .error e := by
  unfold fillOne
  simp only [auto_auto, if_true, auto_opt, Bool.false_eq_true, if_false]
  cases L n with
  | ok p => rfl
  | error e => cases e <;> rfl

/-- A step with the calibrations `p` and `q` when nothing is resolved just in time. -/
private theorem make_step (P : Rest) {g : Settings} (hj : g "jit_calib_id" = false) (w : Disk) (out p q : String) :
    runRecipe (env P) g w .nothing (ran out (stepOf [("Dark", some p), ("FlatField", some q)] false)) =
      match loadAs w "Dark" p, loadAs w "FlatField" q with
      | .ok d, .ok f =>
        (match makeMap P [some d, some f] with
         | .ok m => runSteps (env P) bpMap.drpconfig out
            { start g w with data := m, trace := [.called "create_bad_pixel_map" .nothing [some d, some f]] } [⟨"save", none, false, none⟩]
         | .error e => ({ start g w with trace := [.called "create_bad_pixel_map" .nothing [some d, some f]] }, some e))
      | .error e, _ => (start g w, some e)
      | .ok _, .error e => (start g w, some e) := by
  have ha : stepArgs (env P) bpMap.drpconfig (start g w) (stepOf [("Dark", some p), ("FlatField", some q)] false) =
      (loadAs w "Dark" p).bind fun d => (loadAs w "FlatField" q).map fun f => [some d, some f] := by
    unfold stepArgs stepOf
    dsimp only
    rw [show (start g w).settings = applyConfig bpMap.drpconfig g from rfl, jit_cfg, hj]
    simp only [Bool.false_eq_true, if_false, bind, Except.bind, pure, Except.pure, Option.getD_some]
    unfold loadCalibs
    simp only [List.mapM_cons, List.mapM_nil, bind, Except.bind, pure, Except.pure]
    rw [show (env P).load (start g w).world "Dark" p = loadAs w "Dark" p from rfl,
      show (env P).load (start g w).world "FlatField" q = loadAs w "FlatField" q from rfl]
    cases loadAs w "Dark" p with
    | error e => rfl
    | ok d =>
      cases loadAs w "FlatField" q with
      | error e => rfl
      | ok f => rfl
  rw [run_eq]
  unfold runSteps runStep
  rw [ha]
  rw [show (stepOf [("Dark", some p), ("FlatField", some q)] false).name = "create_bad_pixel_map" from rfl, not_save]
  simp only [Bool.false_eq_true, if_false]
  rw [show (env P).func "create_bad_pixel_map" = some fun _ _ args _ => makeMap P args from rfl]
  rw [show (stepOf [("Dark", some p), ("FlatField", some q)] false).skip = false from rfl]
  simp only [Bool.false_eq_true, if_false]
  cases loadAs w "Dark" p with
  | error e => rfl
  | ok d =>
    cases loadAs w "FlatField" q with
    | error e => rfl
    | ok f =>
      simp only [Except.bind, Except.map]
      cases makeMap P [some d, some f] with
      | error e => rfl
      | ok m => rfl

/-- **C197** With just-in-time calibrations no recipe step without data finds its calibrations: the empty list is passed to the
database in place of `None`, for every database and whatever may be skipped. -/
theorem C197_jit_step (P : Rest) (cfg : List (String × Bool)) (out : String) (st : St Dat File Disk) (s : Step) {n v : String}
    {c : Cls} {l : List (String × Option String)} (hd : st.data = .nothing) (hj : jitNow cfg st.settings = true)
    (hn : s.name.toLower ≠ "save") (hf : (env P).func s.name ≠ none) (hs : s.skip = false) (hc : s.calibs = some ((n, some v) :: l))
    (hv : mentions "AUTOMATIC" v = true) (hk : Autoload.datatypes n = some c) (ht : ∃ t, TypeName c t) :
    runStep (env P) cfg out st s = (st, some .attributeError) := by
  obtain ⟨t, ht⟩ := ht
  have hl : lookupData st.world .nothing n = .error .attributeError := by
    unfold lookupData
    dsimp only
    rw [hk]
    dsimp only
    rw [typeName_iff.1 ht]
  have ha : stepArgs (env P) cfg st s = .error .attributeError := by
    unfold stepArgs
    rw [hc]
    dsimp only
    rw [hj]
    simp only [if_true, bind, Except.bind]
    unfold fillStep
    rw [hc]
    simp only [List.mapM_cons, bind, Except.bind]
    unfold fillOne
    rw [show (env P).lookup st.world st.data = lookupData st.world st.data from rfl, hd]
    simp only [hv, if_true, hl]
  unfold runStep
  rw [ha]
  have hn' : (s.name.toLower == "save") = false := by simpa using hn
  rw [hn', hs]
  simp only [Bool.false_eq_true, if_false]
  cases h : (env P).func s.name with
  | none => exact absurd h hf
  | some f => rfl

/-- **C197** With just-in-time calibrations the walk ends with AttributeError before anything is done, whatever the database holds. -/
theorem C197_jit (P : Rest) {g : Settings} (hj : g "jit_calib_id" = true) (w : Disk) (out : String) :
    ∃ st, walk P g w out bpMap = .ok (st, some .attributeError) ∧ st.trace = [] ∧ st.world = w := by
  refine ⟨start g w, ?_, rfl, rfl⟩
  rw [walk_eq, hj]
  simp only [if_true, Except.map]
  rw [run_eq]
  have := C197_jit_step P bpMap.drpconfig out (start g w) (stepOf autos false) (n := "Dark") (v := "AUTOMATIC") (c := .dark)
    (l := [("FlatField", some "AUTOMATIC")]) rfl ((jit_cfg g).trans hj) (by decide +kernel) (by simp [env, stepOf]) rfl rfl auto_auto rfl
    ⟨_, .dark⟩
  unfold runSteps
  rw [this]

private theorem run_skipped (P : Rest) (g : Settings) (w : Disk) (out : String) (cs : List (String × Option String)) :
    runRecipe (env P) g w .nothing (ran out (stepOf cs true)) = (start g w, some .attributeError) := by
  rw [run_eq]
  unfold runSteps runStep
  rw [show (stepOf cs true).name = "create_bad_pixel_map" from rfl, not_save]
  simp only [Bool.false_eq_true, if_false]
  rw [show (env P).func "create_bad_pixel_map" = some fun _ _ args _ => makeMap P args from rfl]
  rw [show (stepOf cs true).skip = true from rfl]
  simp only [if_true]
  rw [save_step]
  rfl

/-- **C197** Without a dark or without a flat in the database no map is made: the walk ends with ValueError before the recipe is
run, or, if steps may be skipped, with AttributeError where the result is saved. -/
theorem C197_absent (P : Rest) {g : Settings} (hj : g "jit_calib_id" = false) (w : Disk) (out : String)
    (h : (Absent w "Dark" ∧ ((∃ p f, Newest w "FlatField" p f) ∨ Absent w "FlatField")) ∨
      ((∃ p f, Newest w "Dark" p f) ∧ Absent w "FlatField")) :
    if g "skip_missing_cal_steps" then
      ∃ st, walk P g w out bpMap = .ok (st, some .attributeError) ∧ st.trace = [] ∧ st.world = w
    else walk P g w out bpMap = .error .valueError := by
  have key := run_skipped P g w out
  rw [walk_eq, hj]
  simp only [Bool.false_eq_true, if_false]
  rw [fill_autos, fill_one, fill_one]
  rcases h with ⟨h1, h2 | h2⟩ | ⟨h1, h2⟩
  · obtain ⟨p, f, h2⟩ := h2
    rw [absent_lookup w (.inl rfl) h1, (newest_iff w (.inr rfl) p).2 ⟨f, h2⟩]
    cases g "skip_missing_cal_steps"
    · rfl
    · exact ⟨start g w, by simp only [if_true, Except.bind, Except.map, Bool.true_or, key], rfl, rfl⟩
  · rw [absent_lookup w (.inl rfl) h1, absent_lookup w (.inr rfl) h2]
    cases g "skip_missing_cal_steps"
    · rfl
    · exact ⟨start g w, by simp only [if_true, Except.bind, Except.map, Bool.true_or, key], rfl, rfl⟩
  · obtain ⟨p, f, h1⟩ := h1
    rw [absent_lookup w (.inr rfl) h2, (newest_iff w (.inl rfl) p).2 ⟨f, h1⟩]
    cases g "skip_missing_cal_steps"
    · rfl
    · exact ⟨start g w, by simp only [if_true, Except.bind, Except.map, Bool.or_true, key], rfl, rfl⟩

/-- **C197, exactly.** The walk ends without exception if and only if calibrations are looked up when the recipe is made, the most
recently created dark and the most recently created flat are on disk and have the same shape, and the map can be registered. The step
is then called once, with these two files, and the map of C40 is saved. -/
theorem C197_made (P : Rest) (g : Settings) (w : Disk) (out : String) (st : St Dat File Disk) :
    walk P g w out bpMap = .ok (st, none) ↔
      g "jit_calib_id" = false ∧ ∃ p q d f m, Newest w "Dark" p d ∧ Newest w "FlatField" q f ∧
        (f.im.rows = d.im.rows ∧ f.im.cols = d.im.cols) ∧ m = mapFile P d f ∧
        saveData w (.image m) = .ok st.world ∧ st.settings = applyConfig bpMap.drpconfig g ∧ st.data = .image m ∧
        st.trace = [.called "create_bad_pixel_map" .nothing [some d, some f], .saved (.image m) ""] := by
  constructor
  · intro h
    cases hj : g "jit_calib_id" with
    | true =>
      obtain ⟨st', h', -, -⟩ := C197_jit P hj w out
      rw [h'] at h
      simp at h
    | false =>
      refine ⟨rfl, ?_⟩
      rw [walk_eq, hj] at h
      simp only [Bool.false_eq_true, if_false] at h
      rw [fill_autos, fill_one, fill_one] at h
      have hsk : ∀ cs, (Except.ok (runRecipe (env P) g w .nothing (ran out (stepOf cs true))) : Except WErr _) ≠ .ok (st, none) := by
        intro cs
        rw [run_skipped]
        simp
      cases h1 : lookupFrame w none "Dark" with
      | error e =>
        exfalso
        rw [h1] at h
        cases h2 : lookupFrame w none "FlatField" with
        | error e' =>
          rw [h2] at h
          revert h hsk
          cases e <;> cases e' <;> cases g "skip_missing_cal_steps" <;>
            (simp [Except.bind, Except.map]; try exact fun h => h _)
        | ok q =>
          rw [h2] at h
          revert h hsk
          cases e <;> cases g "skip_missing_cal_steps" <;>
            (simp [Except.bind, Except.map]; try exact fun h => h _)
      | ok p =>
        rw [h1] at h
        obtain ⟨d, hd⟩ := (newest_iff w (.inl rfl) p).1 h1
        cases h2 : lookupFrame w none "FlatField" with
        | error e' =>
          exfalso
          rw [h2] at h
          revert h hsk
          cases e' <;> cases g "skip_missing_cal_steps" <;>
            (simp [Except.bind, Except.map]; try exact fun h => h _)
        | ok q =>
          rw [h2] at h
          obtain ⟨f, hf⟩ := (newest_iff w (.inr rfl) q).1 h2
          simp only [Except.bind, Except.map, Bool.or_self, Except.ok.injEq] at h
          rw [make_step P hj, newest_load hd (.inl rfl), newest_load hf (.inr rfl)] at h
          dsimp only at h
          unfold makeMap at h
          dsimp only at h
          split at h
          · rename_i m hm
            split at hm
            · rename_i hsh
              cases hm
              rw [save_step] at h
              dsimp only at h
              rw [show (start g w).world = w from rfl] at h
              cases hs : saveData w (.image (mapFile P d f)) with
              | error e => rw [hs] at h; simp at h
              | ok w' =>
                rw [hs] at h
                simp only [Prod.mk.injEq, and_true] at h
                subst h
                exact ⟨p, q, d, f, _, hd, hf, hsh, rfl, hs, rfl, rfl, rfl⟩
            · cases hm
          · simp at h
  · rintro ⟨hj, p, q, d, f, m, hd, hf, hsh, rfl, hs, h1, h2, h3⟩
    rw [walk_eq, hj]
    simp only [Bool.false_eq_true, if_false]
    rw [fill_autos, fill_one, fill_one, (newest_iff w (.inl rfl) p).2 ⟨d, hd⟩, (newest_iff w (.inr rfl) q).2 ⟨f, hf⟩]
    simp only [Except.bind, Except.map, Bool.or_self, Except.ok.injEq]
    rw [make_step P hj, newest_load hd (.inl rfl), newest_load hf (.inr rfl)]
    dsimp only
    rw [show makeMap P [some d, some f] = .ok (.image (mapFile P d f)) by unfold makeMap; exact if_pos hsh]
    dsimp only
    rw [save_step]
    dsimp only
    rw [show (start g w).world = w from rfl, hs]
    dsimp only
    cases st
    dsimp only at h1 h2 h3
    subst h1 h2 h3
    rfl

/-- **C197** What the saved map says. -/
theorem C197_values (P : Rest) {d f : File} (hs : f.im.rows = d.im.rows ∧ f.im.cols = d.im.cols) : MapOf d.im f.im (mapFile P d f).im :=
  ⟨⟨rfl, rfl⟩, fun _ _ hd hf _ hr _ hc => ⟨_, rfl, C40_map hd hf 5 (4 / 5) (by norm_num) hr hc hs⟩⟩

/-- Two rows of the same file, type and date of creation. -/
def Same (a b : Row) : Prop := a.path = b.path ∧ a.type = b.type ∧ a.dateCreated = b.dateCreated

private theorem first_same {l l' : Table} (h : List.Forall₂ Same l l') {n p : String}
    (hr : ∃ r, FirstBest l (fun q => q.type = some n) (fun a b => b.dateCreated < a.dateCreated) r ∧ r.path = some p) :
    ∃ r, FirstBest l' (fun q => q.type = some n) (fun a b => b.dateCreated < a.dateCreated) r ∧ r.path = some p := by
  obtain ⟨r, ⟨a, b, rfl, ht, h1, h2⟩, hp⟩ := hr
  obtain ⟨a', r', b', rfl, ha, hr, hb⟩ := forall₂_split h
  refine ⟨r', ⟨a', b', rfl, hr.2.1.symm.trans ht, fun q hq hn => ?_, fun q hq hn => ?_⟩, hr.1.symm.trans hp⟩
  · obtain ⟨x, hx, hs⟩ := forall₂_right ha hq
    have := h1 x hx (hs.2.1.trans hn)
    dsimp only at this ⊢
    rwa [← hs.2.2, ← hr.2.2]
  · obtain ⟨x, hx, hs⟩ := forall₂_right hb hq
    have := h2 x hx (hs.2.1.trans hn)
    dsimp only at this ⊢
    rwa [← hs.2.2, ← hr.2.2]

/-- **C197** A dark or flat of any exposure time, gain or date of observation is taken: only the type, the date of creation and the
order of registration matter. -/
theorem C197_blind {w w' : Disk} (hf : w'.files = w.files) (h : List.Forall₂ Same w.csv w'.csv) (n p : String) (f : File) :
    Newest w n p f ↔ Newest w' n p f := by
  have hl : List.Forall₂ Same (load w.csv) (load w'.csv) := by
    unfold load
    rw [List.forall₂_map_left_iff, List.forall₂_map_right_iff]
    refine h.imp fun a b hs => ⟨?_, ?_, hs.2.2⟩
    · exact congrArg reloadStr hs.1
    · exact congrArg reloadStr hs.2.1
  have hl' : List.Forall₂ Same (load w'.csv) (load w.csv) := (hl.flip).imp fun a b hs => ⟨hs.1.symm, hs.2.1.symm, hs.2.2.symm⟩
  exact ⟨fun x => ⟨first_same hl x.row, hf ▸ x.file, x.cls⟩, fun x => ⟨first_same hl' x.row, hf ▸ x.file, x.cls⟩⟩

/-- **C197** What saving a map leaves behind: the file at its path, every other file as it was, and one row of the database that describes the
map, with the rows of the other files as they were read. -/
theorem C197_saved {w w' : Disk} {m : File} (h : saveData w (.image m) = .ok w') (hc : (label m.entry.cls).isSome) (he : PlainEntry m.entry)
    (hn : NoDupPaths (load w.csv)) (hp : ∀ r ∈ load w.csv, PlainRow r) :
    w'.files m.entry.absPath = some m ∧ (∀ p, p ≠ m.entry.absPath → w'.files p = w.files p) ∧
      (∃ r, Describes r m.entry ∧ rowsOf w'.csv m.entry.absPath = [r]) ∧
      others w'.csv m.entry.absPath = others (load w.csv) m.entry.absPath := by
  unfold saveData at h
  dsimp only at h
  rw [if_pos hc] at h
  cases hs : createEntry ⟨load w.csv, w.csv⟩ m.entry true with
  | error e => rw [hs] at h; cases h
  | ok s =>
    rw [hs] at h
    cases h
    obtain ⟨h1, h2, -, h4⟩ := (C01_create_effect ⟨load w.csv, w.csv⟩ m.entry true he (load w.csv) rfl hn hp).2 s hs
    simp only [if_true] at h4
    refine ⟨Function.update_self .., fun p hne => Function.update_of_ne hne .., ?_, ?_⟩
    · rw [h4]; exact h1
    · rw [h4]; exact h2

/-- **C197** Without a template the name `dataset` is unbound (walker.py 130). -/
theorem C197_guess (L : String → Except WErr String) (g : Settings) (ts : Except WErr (List Recipe)) (out : String) :
    autogenGuess L g ts [] out = .error .unboundLocal := rfl

/-! A database with two darks of different exposure times and a flat. -/

private def flatRow : Row := { exRow "/f" 11 1 7 with type := some "FlatField" }
private def table : Table := [exRow "/a" 10 2 5, exRow "/d" 9 60 8, flatRow]
private def one (v : ℝ) : Im := ⟨1, 1, fun _ _ => some v⟩
private def darkFile : File := ⟨exDark "/d" 9 60 8, one 0⟩
private def flatFile : File := ⟨{ exDark "/f" 11 1 7 with cls := .flat }, one 1⟩
private def disk : Disk := ⟨table, fun p => if p = "/d" then some darkFile else if p = "/f" then some flatFile else none⟩
private def rest : Rest := ⟨fun _ _ => { exDark "/m" 9 60 12 with cls := .badpix }, fun _ => none⟩

example : ∃ st, walk rest (fun _ => false) disk "" bpMap = .ok (st, none) := by
  have hl : load disk.csv = table := by decide +kernel
  obtain ⟨w', hw⟩ : ∃ w', saveData disk (.image (mapFile rest darkFile flatFile)) = .ok w' := by
    unfold saveData
    dsimp only
    rw [if_pos (by rfl)]
    cases h : createEntry ⟨load disk.csv, disk.csv⟩ (mapFile rest darkFile flatFile).entry true with
    | ok s => exact ⟨_, rfl⟩
    | error e =>
      exfalso
      revert h
      show createEntry ⟨load table, table⟩ { exDark "/m" 9 60 12 with cls := .badpix } true = .error e → False
      intro h
      have : (createEntry ⟨load table, table⟩ { exDark "/m" 9 60 12 with cls := .badpix } true).toOption.isSome = true := by decide +kernel
      rw [h] at this
      simp [Except.toOption] at this
  exact ⟨⟨_, w', _, _⟩, (C197_made rest (fun _ => false) disk "" _).2 ⟨rfl, "/d", "/f", darkFile, flatFile, _,
    ⟨⟨exRow "/d" 9 60 8, ⟨[exRow "/a" 10 2 5], [flatRow], hl, rfl, by norm_num [exRow], by simp [exRow, flatRow]⟩, rfl⟩, rfl, .dark⟩,
    ⟨⟨flatRow, ⟨[exRow "/a" 10 2 5, exRow "/d" 9 60 8], [], hl, rfl, by simp [exRow], by simp⟩, rfl⟩, rfl, .flat⟩,
    ⟨rfl, rfl⟩, rfl, hw, rfl, rfl, rfl⟩⟩

example : Absent ⟨[exRow "/a" 10 2 5], fun _ => none⟩ "FlatField" := by
  show ¬ ∃ q ∈ load [exRow "/a" 10 2 5], q.type = some "FlatField"
  decide +kernel

end Corgi.NoInput

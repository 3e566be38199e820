import Mathlib.Data.List.Basic
import Mathlib.Logic.Function.Basic

/-!
# Model of `corgidrp/walker.py`

Recipes are the JSON objects of `recipe_templates/`.  The step functions, the calibration database
lookup, the loading of calibration files and the writing of outputs are parameters (`Env`).
-/

namespace Corgi.Walker

/-- Exceptions that can surface in walker.py. -/
inductive Err
  | keyError | valueError | notImplemented | attributeError | unboundLocal | other
  deriving DecidableEq, Repr

/-! ### guess_template -/

/-- The header values of the first frame that `guess_template` reads, and `nconf`, the number of
distinct (EXPTIME, EMGAIN_C, KGAINPAR) combinations in the dataset (walker.py 256, 270; an error if
a frame lacks one of the keywords). `none` = keyword missing. -/
structure Header where
  datalvl : Option String
  vistype : Option String
  ispc : Option Bool
  fsmlos : Option Int
  nconf : Except Err ℕ

/-- `hdr[key]`. -/
def need {α : Type} : Option α → Except Err α
  | some a => .ok a
  | none => .error .keyError

/-- `s[:3] == "ENG"` (walker.py 247). -/
def startsENG (s : String) : Bool := s.toList.take 3 == "ENG".toList

/-- `guess_template` (walker.py 230-302).  A single file name is a one-element list. -/
def guessTemplate (h : Header) : Except Err (List String) := do
  let lvl ← need h.datalvl
  if lvl == "L1" then
    match h.vistype with
    | none => pure ["l1_to_l2b.json"]
    | some v =>
      if startsENG v then pure ["l1_to_l2a_eng.json"]
      else if v == "BORESITE" then pure ["l1_to_boresight.json"]
      else if v == "FFIELD" then pure ["l1_flat_and_bp.json"]
      else if v == "DARK" then do
        let n ← h.nconf
        let pc ← need h.ispc
        if pc then pure ["l1_to_l2b_pc_dark.json"]
        else if n > 1 then pure ["l1_to_l2a_noisemap.json"]
        else pure ["build_trad_dark_image.json"]
      else if v == "PUPILIMG" then pure ["l1_to_l2a_nonlin.json", "l1_to_kgain.json"]
      else pure ["l1_to_l2a_basic.json"]
  else if lvl == "L2a" then do
    let v ← need h.vistype
    if v == "DARK" then do
      let n ← h.nconf
      let pc ← need h.ispc
      if pc then pure ["l2a_to_l2b_pc_dark.json"]
      else if n > 1 then pure ["l2a_to_l2a_noisemap.json"]
      else pure ["l2a_build_trad_dark_image.json"]
    else do
      let pc ← need h.ispc
      if pc then pure ["l2a_to_l2b_pc.json"] else pure ["l2a_to_l2b.json"]
  else if lvl == "L2b" then do
    let v ← need h.vistype
    if v == "ABSFLXFT" || v == "ABSFLXBT" then pure ["l2b_to_fluxcal_factor.json"]
    else if v == "CORETPUT" then pure ["l2b_to_corethroughput.json"]
    else pure ["l2b_to_l3.json"]
  else if lvl == "L3" then do
    let f ← need h.fsmlos
    if f == 1 then pure ["l3_to_l4.json"] else pure ["l3_to_l4_nopsfsub.json"]
  else .error .notImplemented

/-! ### Recipes -/

/-- One step of a recipe.  `calibs` in dictionary order, a value `none` is the JSON `null` written
by the walker; keyword values are kept as text. -/
structure Step where
  name : String
  calibs : Option (List (String × Option String))
  skip : Bool
  keywords : Option (List (String × String))
  deriving DecidableEq, Repr

/-- A recipe or template. `drpconfig` values are all booleans in the shipped templates. -/
structure Recipe where
  name : String
  template : Bool
  drpconfig : List (String × Bool)
  inputs : List String
  outputdir : String
  steps : List Step
  deriving DecidableEq, Repr

/-- `w in s.upper()` for an upper-case word `w` (walker.py 205, 213). `String.toUpper` upper-cases
ASCII letters only, python's all letters; the difference needs non-ASCII text in a recipe. -/
def mentions (w s : String) : Bool :=
  s.toUpper.toList.tails.any fun t => w.toList.isPrefixOf t

/-- One calibration entry of a step in `_fill_in_calib_files` (walker.py 202-226): the new value and
whether the step gets marked to be skipped. `lookup` is `get_calib(...).filepath` for the class
`data.datatypes[calib]`, whose `KeyError` (206) is not caught. A value that is already `None` has no
`upper()` (205): `AttributeError`. -/
def fillOne (lookup : String → Except Err String) (skipMissing : Bool) (c : String × Option String) :
    Except Err ((String × Option String) × Bool) :=
  match c.2 with
  | none => .error .attributeError
  | some v =>
    if mentions "AUTOMATIC" v then
      match lookup c.1 with
      | .ok p => .ok ((c.1, some p), false)
      | .error .valueError =>
        if mentions "OPTIONAL" v then .ok ((c.1, none), false)
        else if skipMissing then .ok ((c.1, none), true)
        else .error .valueError
      | .error e => .error e
    else .ok (c, false)

/-- `_fill_in_calib_files` (walker.py 183-228). The step is modified in place in python; here the
modified step is returned.  Partial modifications before an exception are not modelled. -/
def fillStep (lookup : String → Except Err String) (skipMissing : Bool) (s : Step) :
    Except Err Step :=
  match s.calibs with
  | none => .ok s
  | some cs => do
    let r ← cs.mapM (fillOne lookup skipMissing)
    pure { s with calibs := some (r.map Prod.fst), skip := s.skip || r.any Prod.snd }

/-- `d[k]` on an association list. -/
def getKey {β : Type} (d : List (String × β)) (k : String) : Option β :=
  (d.find? fun p => p.1 == k).map Prod.snd

/-- `d[k] = v` for a key that is present. -/
def setKey {β : Type} (d : List (String × β)) (k : String) (v : β) : List (String × β) :=
  d.map fun p => if p.1 == k then (k, v) else p

/-- Pipeline settings: the module attributes of `corgidrp` (`__init__.py` 75-79). -/
abbrev Settings := String → Bool

/-- Whether `autogen_recipe` resolves calibrations now (walker.py 166, 168). -/
def fillsNow (cfg : List (String × Bool)) (g : Settings) : Bool :=
  match getKey cfg "jit_calib_id" with
  | some b => !b
  | none => !g "jit_calib_id"

/-- The dark subtraction output directory (walker.py 171-173). -/
def setDarkDir (outputdir : String) (s : Step) : Except Err Step :=
  if s.name.toLower == "dark_subtraction" then
    match s.keywords with
    | none => .error .keyError
    | some kw =>
      match getKey kw "outputdir" with
      | none => .error .keyError
      | some v =>
        if v.toUpper == "AUTOMATIC" then
          .ok { s with keywords := some (setKey kw "outputdir" outputdir) }
        else .ok s
  else .ok s

/-- Body of the step loop of `autogen_recipe` (walker.py 163-173). -/
def fillAndSet (lookup : String → Except Err String) (cfg : List (String × Bool)) (g : Settings)
    (outputdir : String) (s : Step) : Except Err Step := do
  let s ← if fillsNow cfg g then fillStep lookup (g "skip_missing_cal_steps") s else pure s
  setDarkDir outputdir s

/-- `autogen_recipe` for one template (walker.py 148-175).  Result: the recipe, and the template
object after the call.  `template.copy()` (151) is a shallow copy: the lists `inputs` and `steps`
and the step dictionaries are the same objects in both, while `template` and `outputdir` are only
assigned in the copy. -/
def autogen (lookup : String → Except Err String) (g : Settings) (filelist : List String)
    (outputdir : String) (t : Recipe) : Except Err (Recipe × Recipe) := do
  let inputs := t.inputs ++ filelist
  let steps ← t.steps.mapM (fillAndSet lookup t.drpconfig g outputdir)
  let t' := { t with inputs := inputs, steps := steps }
  pure ({ t' with template := false, outputdir := outputdir }, t')

/-- `autogen_recipe` without a template (walker.py 120-146): the templates come from `guess`
(`guess_template` followed by loading the JSON files). With an empty file list `dataset` is
unbound (130). -/
def autogenGuess (lookup : String → Except Err String) (g : Settings) (guess : Except Err (List Recipe))
    (filelist : List String) (outputdir : String) : Except Err (List Recipe) :=
  if filelist.isEmpty then .error .unboundLocal
  else do
    let ts ← guess
    let rs ← ts.mapM (autogen lookup g filelist outputdir)
    pure (rs.map Prod.fst)

/-! ### run_recipe -/

/-- The outside of `run_recipe`: `D` is the data passed from step to step (a dataset or an image),
`C` a loaded calibration file, `W` the rest of the world (disk and calibration database). -/
structure Env (D C W : Type) where
  /-- `all_steps` (walker.py 25-61): `none` is the `KeyError` for an unknown name -/
  func : String → Option (W → D → List (Option C) → List (String × String) → Except Err D)
  /-- `get_calib(ref, datatypes[calib]).filepath` -/
  lookup : W → D → String → Except Err String
  /-- `datatypes[calib](path)` -/
  load : W → String → String → Except Err C
  /-- `save_data(data, outputdir, suffix)` (walker.py 305-344) -/
  save : W → D → String → String → Except Err W

/-- Something `run_recipe` did. -/
inductive Ev (D C : Type)
  /-- the step function `name` was called on `input` with these calibrations -/
  | called (name : String) (input : D) (calibs : List (Option C))
  /-- `save_data` was called and succeeded -/
  | saved (d : D) (suffix : String)
  deriving DecidableEq, Repr

/-- State of a run: the settings, the outside, the current data and what has been executed. -/
structure St (D C W : Type) where
  settings : Settings
  world : W
  data : D
  trace : List (Ev D C)

variable {D C W : Type}

/-- Configure the pipeline (walker.py 361-363). -/
def applyConfig (cfg : List (String × Bool)) (g : Settings) : Settings :=
  cfg.foldl (fun g kv => Function.update g kv.1 kv.2) g

/-- Whether calibrations are resolved right before the step (walker.py 409). -/
def jitNow (cfg : List (String × Bool)) (g : Settings) : Bool :=
  match getKey cfg "jit_calib_id" with
  | some b => b
  | none => g "jit_calib_id"

/-- Loading the calibrations of a step (walker.py 426-432). -/
def loadCalibs (env : Env D C W) (w : W) (cs : List (String × Option String)) :
    Except Err (List (Option C)) :=
  cs.mapM fun c => match c.2 with
    | some p => (env.load w c.1 p).map some
    | none => .ok none

/-- The positional calibration arguments of a step (walker.py 405-432), after resolving them just
in time if that is on. -/
def stepArgs (env : Env D C W) (cfg : List (String × Bool)) (st : St D C W) (s : Step) :
    Except Err (List (Option C)) :=
  match s.calibs with
  | none => .ok []
  | some _ => do
    let s' ← if jitNow cfg st.settings then
        fillStep (env.lookup st.world st.data) (st.settings "skip_missing_cal_steps") s
      else pure s
    loadCalibs env st.world (s'.calibs.getD [])

/-- One iteration of the loop of `run_recipe` (walker.py 385-441). An exception ends the run; the
state reached is kept. -/
def runStep (env : Env D C W) (cfg : List (String × Bool)) (outputdir : String) (st : St D C W)
    (s : Step) : St D C W × Option Err :=
  if s.name.toLower == "save" then
    let suffix := (s.keywords.bind fun kw => getKey kw "suffix").getD ""
    match env.save st.world st.data outputdir suffix with
    | .ok w => ({ st with world := w, trace := st.trace ++ [.saved st.data suffix] }, none)
    | .error e => (st, some e)
  else
    match env.func s.name with
    | none => (st, some .keyError)
    | some f =>
      if s.skip then (st, none)
      else
        match stepArgs env cfg st s with
        | .error e => (st, some e)
        | .ok args =>
          match f st.world st.data args (s.keywords.getD []) with
          | .ok d => ({ st with data := d, trace := st.trace ++ [.called s.name st.data args] }, none)
          | .error e => ({ st with trace := st.trace ++ [.called s.name st.data args] }, some e)

/-- The loop of `run_recipe`. -/
def runSteps (env : Env D C W) (cfg : List (String × Bool)) (outputdir : String) :
    St D C W → List Step → St D C W × Option Err
  | st, [] => (st, none)
  | st, s :: rest =>
    match runStep env cfg outputdir st s with
    | (st', none) => runSteps env cfg outputdir st' rest
    | (st', some e) => (st', some e)

/-- `run_recipe` (walker.py 348-441). `d` is the dataset read from `recipe["inputs"]` (or the empty
list); writing the recipe into the headers (370-371, 421-422) and to disk (376-380) is in `Record.lean`. -/
def runRecipe (env : Env D C W) (g : Settings) (w : W) (d : D) (r : Recipe) : St D C W × Option Err :=
  runSteps env r.drpconfig r.outputdir
    { settings := applyConfig r.drpconfig g, world := w, data := d, trace := [] } r.steps

end Corgi.Walker

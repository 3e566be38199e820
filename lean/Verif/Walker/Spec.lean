import Verif.Walker.Model

/-!
# Expectations on recipe selection, generation and execution
-/

namespace Corgi.Walker

/-- The documented recipe of a dataset (comments in walker.py 242-297), one constructor per row.
Visit types whose name starts with `ENG` are engineering visits. -/
inductive Documented (h : Header) : List String → Prop
  | l1_nonflight : h.datalvl = some "L1" → h.vistype = none → Documented h ["l1_to_l2b.json"]
  | l1_eng {rest : List Char} {v} : h.datalvl = some "L1" → h.vistype = some v →
      v.toList = 'E' :: 'N' :: 'G' :: rest → Documented h ["l1_to_l2a_eng.json"]
  | l1_boresight : h.datalvl = some "L1" → h.vistype = some "BORESITE" →
      Documented h ["l1_to_boresight.json"]
  | l1_flat : h.datalvl = some "L1" → h.vistype = some "FFIELD" → Documented h ["l1_flat_and_bp.json"]
  | l1_dark_pc {n} : h.datalvl = some "L1" → h.vistype = some "DARK" → h.nconf = .ok n →
      h.ispc = some true → Documented h ["l1_to_l2b_pc_dark.json"]
  | l1_noisemap {n} : h.datalvl = some "L1" → h.vistype = some "DARK" → h.nconf = .ok n → 2 ≤ n →
      h.ispc = some false → Documented h ["l1_to_l2a_noisemap.json"]
  | l1_dark {n} : h.datalvl = some "L1" → h.vistype = some "DARK" → h.nconf = .ok n → n ≤ 1 →
      h.ispc = some false → Documented h ["build_trad_dark_image.json"]
  | l1_pupil : h.datalvl = some "L1" → h.vistype = some "PUPILIMG" →
      Documented h ["l1_to_l2a_nonlin.json", "l1_to_kgain.json"]
  | l1_science {v} : h.datalvl = some "L1" → h.vistype = some v →
      (∀ rest, v.toList ≠ 'E' :: 'N' :: 'G' :: rest) →
      v ∉ ["BORESITE", "FFIELD", "DARK", "PUPILIMG"] → Documented h ["l1_to_l2a_basic.json"]
  | l2a_dark_pc {n} : h.datalvl = some "L2a" → h.vistype = some "DARK" → h.nconf = .ok n →
      h.ispc = some true → Documented h ["l2a_to_l2b_pc_dark.json"]
  | l2a_noisemap {n} : h.datalvl = some "L2a" → h.vistype = some "DARK" → h.nconf = .ok n → 2 ≤ n →
      h.ispc = some false → Documented h ["l2a_to_l2a_noisemap.json"]
  | l2a_dark {n} : h.datalvl = some "L2a" → h.vistype = some "DARK" → h.nconf = .ok n → n ≤ 1 →
      h.ispc = some false → Documented h ["l2a_build_trad_dark_image.json"]
  | l2a_pc {v} : h.datalvl = some "L2a" → h.vistype = some v → v ≠ "DARK" → h.ispc = some true →
      Documented h ["l2a_to_l2b_pc.json"]
  | l2a_analog {v} : h.datalvl = some "L2a" → h.vistype = some v → v ≠ "DARK" → h.ispc = some false →
      Documented h ["l2a_to_l2b.json"]
  | l2b_flux {v} : h.datalvl = some "L2b" → h.vistype = some v → v ∈ ["ABSFLXFT", "ABSFLXBT"] →
      Documented h ["l2b_to_fluxcal_factor.json"]
  | l2b_ct : h.datalvl = some "L2b" → h.vistype = some "CORETPUT" →
      Documented h ["l2b_to_corethroughput.json"]
  | l2b_science {v} : h.datalvl = some "L2b" → h.vistype = some v →
      v ∉ ["ABSFLXFT", "ABSFLXBT", "CORETPUT"] → Documented h ["l2b_to_l3.json"]
  | l3_coron : h.datalvl = some "L3" → h.fsmlos = some 1 → Documented h ["l3_to_l4.json"]
  | l3_noncoron {f} : h.datalvl = some "L3" → h.fsmlos = some f → f ≠ 1 →
      Documented h ["l3_to_l4_nopsfsub.json"]

/-- A calibration entry to be resolved: its text contains the word, in any case. -/
def Word (w s : String) : Prop := ∃ a b, s.toUpper.toList = a ++ w.toList ++ b

/-- What a template entry `c` may become in the recipe: `c'`, and whether its step must be skipped. -/
inductive Resolved (lookup : String → Except Err String) (skipMissing : Bool) :
    String × Option String → String × Option String → Bool → Prop
  /-- an explicit path is untouched -/
  | explicit {k v} : ¬ Word "AUTOMATIC" v → Resolved lookup skipMissing (k, some v) (k, some v) false
  /-- an automatic one becomes the file the database selects -/
  | found {k v p} : Word "AUTOMATIC" v → lookup k = .ok p →
      Resolved lookup skipMissing (k, some v) (k, some p) false
  /-- a missing optional one becomes none -/
  | optional {k v} : Word "AUTOMATIC" v → lookup k = .error .valueError → Word "OPTIONAL" v →
      Resolved lookup skipMissing (k, some v) (k, none) false
  /-- a missing required one becomes none and the step is skipped, if so configured -/
  | skipped {k v} : Word "AUTOMATIC" v → lookup k = .error .valueError → ¬ Word "OPTIONAL" v →
      skipMissing = true → Resolved lookup skipMissing (k, some v) (k, none) true

/-- The steps that have an effect: `save` instructions and steps not marked to be skipped. -/
def Active (s : Step) : Prop := s.name.toLower = "save" ∨ s.skip = false

instance (s : Step) : Decidable (Active s) := inferInstanceAs (Decidable (_ ∨ _))

/-- Name under which an active step shows up in the trace. -/
def Ev.Matches {D C : Type} (s : Step) : Ev D C → Prop
  | .called n _ _ => n = s.name ∧ s.name.toLower ≠ "save" ∧ s.skip = false
  | .saved _ suf => s.name.toLower = "save" ∧
      suf = ((s.keywords.bind fun kw => (kw.find? fun p => p.1 == "suffix").map Prod.snd).getD "")

/-- The data going into an event. -/
def Ev.input {D C : Type} : Ev D C → D
  | .called _ d _ => d
  | .saved d _ => d

/-- The resolution of calibrations is put off to the run: the recipe says so, or it says nothing and
the global setting does. -/
def Deferred (cfg : List (String × Bool)) (g : Settings) : Prop :=
  ("jit_calib_id", true) ∈ cfg ∨
    ((∀ b, ("jit_calib_id", b) ∉ cfg) ∧ g "jit_calib_id" = true)

/-- What a template step `s` may become in the recipe. -/
structure StepFilled (lookup : String → Except Err String) (skipMissing : Bool) (deferred : Prop)
    (outputdir : String) (s s' : Step) : Prop where
  name : s'.name = s.name
  /-- nothing is resolved yet -/
  untouched : deferred ∨ s.calibs = none → s'.calibs = s.calibs ∧ s'.skip = s.skip
  /-- every calibration is resolved, in order, and the step is skipped iff it was or must be -/
  resolved : ¬ deferred → ∀ cs, s.calibs = some cs →
    ∃ r : List ((String × Option String) × Bool),
      List.Forall₂ (fun c x => Resolved lookup skipMissing c x.1 x.2) cs r ∧
      s'.calibs = some (r.map Prod.fst) ∧
      (s'.skip = true ↔ s.skip = true ∨ ∃ x ∈ r, x.2 = true)
  /-- keywords stay -/
  keywords : s.name.toLower ≠ "dark_subtraction" → s'.keywords = s.keywords
  /-- except for the output directory of the dark subtraction -/
  darkdir : s.name.toLower = "dark_subtraction" → ∃ kw v, s.keywords = some kw ∧
    ("outputdir", v) ∈ kw ∧ s'.keywords = some (kw.map fun p =>
      if p.1 = "outputdir" ∧ p.2.toUpper = "AUTOMATIC" then (p.1, outputdir) else p)

/-- What the recipe generated from the template `t` must be. -/
structure Generated (lookup : String → Except Err String) (g : Settings) (files : List String)
    (outputdir : String) (t r : Recipe) : Prop where
  name : r.name = t.name
  template : r.template = false
  drpconfig : r.drpconfig = t.drpconfig
  inputs : r.inputs = t.inputs ++ files
  outdir : r.outputdir = outputdir
  steps : List.Forall₂ (StepFilled lookup (g "skip_missing_cal_steps") (Deferred t.drpconfig g)
    outputdir) t.steps r.steps

/-- JSON objects have no repeated keys. -/
structure WellFormed (t : Recipe) : Prop where
  config : (t.drpconfig.map Prod.fst).Nodup
  keywords : ∀ s ∈ t.steps, ∀ kw, s.keywords = some kw → (kw.map Prod.fst).Nodup

/-- The data flow of a run: starting from `d`, each event of a step gets the data the previous ones
left, a save leaves it as it is, a step function replaces it with its result. -/
def Flows {D C W : Type} (env : Env D C W) : D → List (Step × Ev D C) → D → Prop
  | d, [], d' => d' = d
  | d, (_, .saved x _) :: r, d' => x = d ∧ Flows env d r d'
  | d, (s, .called n x args) :: r, d' => x = d ∧ ∃ f w d1, env.func n = some f ∧
      f w x args (s.keywords.getD []) = .ok d1 ∧ Flows env d1 r d'

end Corgi.Walker

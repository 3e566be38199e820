import Mathlib.Data.List.Basic
import Mathlib.Tactic.Tauto

/-!
# The configuration folder (`corgidrp/__init__.py` 9-79): model and C124

`~/.corgidrp` is absent, a file (the legacy layout), or a folder with or without the default-calibration folder and the
configuration file. `configparser` refuses to set, and to read, a value with a lone `%`; a value is taken to be fine when
it has no `%` at all, and the doubled form is not modelled.
-/

namespace Corgi.Config

/-- A configuration file: `none` for an option (or its section) that is not there. -/
structure Cfg where
  caldb : Option String
  calibs : Option String
  track : Option String
  skip : Option String
  jit : Option String
  deriving DecidableEq, Repr

inductive Home
  | absent
  | file (c : Cfg)
  | dir (cals : Bool) (cfg : Option Cfg)
  deriving DecidableEq, Repr

inductive Err | keyError | valueError | interpolation
  deriving DecidableEq, Repr

def clean (s : String) : Bool := !s.toList.contains '%'

/-- Line 39 -/
def caldbPath (root : String) : String := root ++ "/corgidrp_caldb.csv"

/-- Line 30 -/
def calibsPath (root : String) : String := root ++ "/default_calibs"

/-- Lines 37-48: the file to be written, `old` being the legacy settings. -/
def newCfg (root : String) (old : Option Cfg) : Except Err Cfg :=
  if !clean (caldbPath root) then .error .valueError
  else if !clean (calibsPath root) then .error .valueError
  else
    let c : Cfg := ⟨some (caldbPath root), some (calibsPath root), some "False", some "False", some "False"⟩
    match old with
    | none => .ok c
    | some o => match o.caldb with
      | none => .error .keyError
      | some p => if !clean p then .error .interpolation else .ok { c with caldb := some p }

/-- Lines 18-23: the legacy settings, and what is left after the legacy file is removed. -/
def retire : Home → Home × Option Cfg
  | .file c => (.absent, some c)
  | h => (h, none)

/-- Lines 26-32 -/
def mkdirs : Home → Home
  | .dir _ cfg => .dir true cfg
  | _ => .dir true none

/-- `create_config_dir`, lines 10-53: what is left in the home directory, and the outcome. -/
def create (root : String) (h : Home) : Home × Except Err Unit :=
  let (h1, old) := retire h
  match mkdirs h1 with
  | .dir cals (some c) => (.dir cals (some c), .ok ())
  | h2 => match newCfg root old with
    | .error e => (h2, .error e)
    | .ok c => (.dir true (some c), .ok ())

structure Settings where
  caldb : Option String
  calibs : Option String
  track : Bool
  skip : Bool
  jit : Bool
  deriving DecidableEq, Repr

def get (x : Option String) : Except Err (Option String) :=
  match x with
  | none => .ok none
  | some s => if clean s then .ok (some s) else .error .interpolation

/-- `.lower()`, here of ASCII letters -/
def lower (s : String) : String := String.ofList (s.toList.map Char.toLower)

/-- Lines 68 and 73-75 -/
def boolOf (x : Option String) : Except Err Bool := do
  let s ← get x
  match lower (s.getD "false") with
  | "true" => .ok true
  | "false" => .ok false
  | _ => .error .keyError

/-- A missing file reads as an empty one. -/
def cfgOf : Home → Cfg
  | .dir _ (some c) => c
  | _ => ⟨none, none, none, none, none⟩

/-- `update_pipeline_settings`, lines 56-75 -/
def update (h : Home) : Except Err Settings := do
  let c := cfgOf h
  let caldb ← get c.caldb
  let calibs ← get c.calibs
  let track ← boolOf c.track
  let skip ← boolOf c.skip
  let jit ← boolOf c.jit
  pure ⟨caldb, calibs, track, skip, jit⟩

/-! ## Specification -/

/-- The folder is set up. -/
def Ready (h : Home) : Prop := ∃ c, h = .dir true (some c)

/-- The settings the user has made. -/
def userCfg : Home → Option Cfg
  | .file c => some c
  | .dir _ cfg => cfg
  | .absent => none

/-- A path that `configparser` takes. -/
def NoPercent (s : String) : Prop := '%' ∉ s.toList

theorem clean_iff {s : String} : clean s = true ↔ NoPercent s := by
  simp [clean, NoPercent]

theorem clean_caldb {root : String} : clean (caldbPath root) = true ↔ NoPercent root := by
  rw [clean_iff]
  unfold NoPercent caldbPath
  simp [String.toList_append]

theorem clean_calibs {root : String} : clean (calibsPath root) = true ↔ NoPercent root := by
  rw [clean_iff]
  unfold NoPercent calibsPath
  simp [String.toList_append]

/-! ## C124 -/

/-- Once there is a configuration file it is never touched again. -/
theorem C124_keeps {root : String} {cals : Bool} {c : Cfg} :
    create root (.dir cals (some c)) = (.dir true (some c), .ok ()) := rfl

/-- A second call changes nothing. -/
theorem C124_idempotent {root : String} {h : Home} (hok : (create root h).2 = .ok ()) :
    Ready (create root h).1 ∧ create root (create root h).1 = ((create root h).1, .ok ()) := by
  have hr : Ready (create root h).1 := by
    unfold create at hok ⊢
    rcases h with _ | c | ⟨cals, _ | c⟩ <;> simp only [retire, mkdirs] at hok ⊢
    all_goals first
      | exact ⟨_, rfl⟩
      | (split at hok
         · cases hok
         · exact ⟨_, rfl⟩)
  refine ⟨hr, ?_⟩
  obtain ⟨c, hc⟩ := hr
  rw [hc]
  rfl

/-- A first set-up succeeds exactly when the path of the home directory has no `%`, and the settings are then the
defaults. -/
theorem C124_fresh {root : String} {s : Settings} :
    ((create root .absent).2 = .ok () ∧ update (create root .absent).1 = .ok s) ↔
      NoPercent root ∧ s = ⟨some (caldbPath root), some (calibsPath root), false, false, false⟩ := by
  by_cases hp : NoPercent root
  · have h1 := clean_caldb.2 hp
    have h2 := clean_calibs.2 hp
    have hc : create root .absent = (.dir true (some ⟨some (caldbPath root), some (calibsPath root), some "False",
        some "False", some "False"⟩), .ok ()) := by
      simp [create, retire, mkdirs, newCfg, h1, h2]
    have hb : boolOf (some "False") = .ok false := by decide
    rw [hc]
    simp only [update, cfgOf, get, h1, h2, if_true, hb, bind, Except.bind, pure, Except.pure, true_and, hp,
      Except.ok.injEq]
    exact eq_comm
  · have h1 : clean (caldbPath root) = false := by
      rw [← Bool.not_eq_true, clean_caldb]; exact hp
    have hc : create root .absent = (.dir true none, .error .valueError) := by
      simp [create, retire, mkdirs, newCfg, h1]
    rw [hc]
    simp [hp]

/-- Under a home directory with a `%` in its path the package cannot be imported, and the folder is left without a
configuration file. -/
theorem C124_violated_percent {root : String} {h : Home} (hu : userCfg h = none) (hp : ¬ NoPercent root) :
    create root h = (.dir true none, .error .valueError) := by
  have h1 : clean (caldbPath root) = false := by
    rw [← Bool.not_eq_true, clean_caldb]; exact hp
  rcases h with _ | c | ⟨cals, _ | c⟩
  · simp [create, retire, mkdirs, newCfg, h1]
  · cases hu
  · simp [create, retire, mkdirs, newCfg, h1]
  · cases hu

/-- From the legacy layout the path of the database is kept, and nothing else is. -/
theorem C124_legacy_partial {root p : String} {c : Cfg} (hr : NoPercent root) (hp : NoPercent p)
    (hc : c.caldb = some p) : create root (.file c) =
      (.dir true (some ⟨some p, some (calibsPath root), some "False", some "False", some "False"⟩), .ok ()) := by
  simp [create, retire, mkdirs, newCfg, clean_caldb.2 hr, clean_calibs.2 hr, clean_iff.2 hp, hc]

/-- A legacy setting that is not the database path is lost. -/
theorem C124_violated_legacy : ∃ root c s, (create root (.file c)).2 = .ok () ∧
    update (create root (.file c)).1 = .ok s ∧ c.track = some "True" ∧ s.track = false ∧
    c.calibs = some "/data/cals" ∧ s.calibs ≠ some "/data/cals" :=
  ⟨"/home/.corgidrp", ⟨some "/data/db.csv", some "/data/cals", some "True", none, none⟩, _, by decide, rfl, rfl, by decide,
    rfl, by decide⟩

/-- A legacy file without a database path raises after the file was removed: its settings are gone, and the next call
makes the defaults. -/
theorem C124_violated_lost {root : String} {c : Cfg} (hr : NoPercent root) (hc : c.caldb = none) :
    create root (.file c) = (.dir true none, .error .keyError) ∧
    create root (create root (.file c)).1 =
      (.dir true (some ⟨some (caldbPath root), some (calibsPath root), some "False", some "False", some "False"⟩),
        .ok ()) := by
  have h1 : create root (.file c) = (.dir true none, .error .keyError) := by
    simp [create, retire, mkdirs, newCfg, clean_caldb.2 hr, clean_calibs.2 hr, hc]
  rw [h1]
  exact ⟨rfl, by simp [create, retire, mkdirs, newCfg, clean_caldb.2 hr, clean_calibs.2 hr]⟩

/-- A truth value is read exactly when the text is some spelling of true or false, or missing. -/
theorem C124_bool {x : Option String} {b : Bool} : boolOf x = .ok b ↔
    (x = none ∧ b = false) ∨ ∃ s, x = some s ∧ NoPercent s ∧ lower s = if b then "true" else "false" := by
  rcases x with _ | s
  · have : boolOf none = .ok false := by decide
    rw [this]
    simp [eq_comm]
  · unfold boolOf get
    by_cases hc : clean s = true
    · simp only [hc, if_true, bind, Except.bind, Option.getD_some, reduceCtorEq, false_and, false_or,
        Option.some.injEq, exists_eq_left', clean_iff.1 hc, true_and]
      split
      · rename_i h
        rw [h]
        cases b <;> simp
      · rename_i h
        rw [h]
        cases b <;> simp
      · rename_i h1 h2
        constructor
        · intro h; cases h
        · intro h
          cases b
          · exact absurd h h2
          · exact absurd h h1
    · have hn : ¬ NoPercent s := fun h => hc (clean_iff.2 h)
      simp only [hc]
      simp [bind, Except.bind, hn]

/-- The other spellings of truth values in such files are refused, with a `KeyError`. -/
theorem C124_violated_bool : ∀ s ∈ ["yes", "no", "on", "off", "1", "0"], boolOf (some s) = .error .keyError := by
  decide

/-- Settings are read exactly when the paths are clean and the three truth values are read; without a file all are the
fallbacks, with no database path. -/
theorem C124_update {h : Home} {s : Settings} : update h = .ok s ↔
    get (cfgOf h).caldb = .ok s.caldb ∧ get (cfgOf h).calibs = .ok s.calibs ∧ boolOf (cfgOf h).track = .ok s.track ∧
      boolOf (cfgOf h).skip = .ok s.skip ∧ boolOf (cfgOf h).jit = .ok s.jit := by
  unfold update
  obtain ⟨a, b, c, d, e⟩ := s
  dsimp only
  generalize get (cfgOf h).caldb = x1
  generalize get (cfgOf h).calibs = x2
  generalize boolOf (cfgOf h).track = x3
  generalize boolOf (cfgOf h).skip = x4
  generalize boolOf (cfgOf h).jit = x5
  cases x1 <;> cases x2 <;> cases x3 <;> cases x4 <;> cases x5 <;> simp [bind, Except.bind, pure, Except.pure]

theorem C124_no_file : update .absent = .ok ⟨none, none, false, false, false⟩ := by decide

example : NoPercent "/home/u/.corgidrp" ∧ ¬ NoPercent "/home/50%/.corgidrp" := by
  unfold NoPercent; decide

example : boolOf (some "TRUE") = .ok true ∧ boolOf (some "False") = .ok false := by decide

end Corgi.Config

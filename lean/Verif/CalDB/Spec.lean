import Verif.CalDB.Model

/-!
# What a user expects of the calibration database

Stated over the rows only; nothing here calls the functions under study.
-/

namespace Corgi.CalDB

/-- A path as `os.path.abspath` returns it. -/
def AbsPath (s : String) : Prop := s.toList.head? = some '/'

instance (s : String) : Decidable (AbsPath s) := inferInstanceAs (Decidable (_ = _))

/-- The rows of a path. -/
def rowsOf (db : Table) (p : String) : List Row := db.filter fun r => r.path = some p

/-- The rows of all other paths, in table order. -/
def others (db : Table) (p : String) : List Row := db.filter fun r => ¬ r.path = some p

/-- No path is registered twice. -/
def NoDupPaths (db : Table) : Prop := (db.map Row.path).Nodup

/-- Documented database name of a class; only calibration classes have one. -/
inductive TypeName : Cls → String → Prop
  | dark : TypeName .dark "Dark"
  | nonlin : TypeName .nonlin "NonLinearityCalibration"
  | kgain : TypeName .kgain "KGain"
  | badpix : TypeName .badpix "BadPixelMap"
  | noisemaps : TypeName .noisemaps "DetectorNoiseMaps"
  | flat : TypeName .flat "FlatField"
  | detparams : TypeName .detparams "DetectorParams"
  | astrom : TypeName .astrom "AstrometricCalibration"
  | trap : TypeName .trap "TrapCalibration"
  | fluxcal : TypeName .fluxcal "FluxcalFactor"
  | fpamfsam : TypeName .fpamfsam "FpamFsamCal"
  | corethroughput : TypeName .corethroughput "CoreThroughputCalibration"
  | ndfilter : TypeName .ndfilter "NDFilterSweetSpot"

/-- `r` carries exactly the current values of the product `e`. -/
structure Describes (r : Row) (e : Entry) : Prop where
  path : r.path = some e.absPath
  type : ∃ t, r.type = some t ∧ TypeName e.cls t
  mjd : e.sctsrt = some r.mjd
  exptime : e.exptime = some r.exptime
  filesUsed : e.drpnfile = some r.filesUsed ∨ (e.drpnfile = none ∧ r.filesUsed = 0)
  dateCreated : e.drpctime = some r.dateCreated ∨ (e.drpctime = none ∧ r.dateCreated = -1)
  hash : r.hash = some e.hash
  version : e.drpversn = none ∧ r.version = some "" ∨ e.drpversn ≠ none ∧ r.version = e.drpversn
  obsnum : e.obsnum = some r.obsnum
  /-- the last axis length, and the one before it, 0 if there is none -/
  naxis : (e.shape = [r.naxis1] ∧ r.naxis2 = 0) ∨
    ∃ front, e.shape = front ++ [r.naxis2, r.naxis1]
  opmode : e.opmode ≠ none ∧ r.opmode = e.opmode
  emgain : e.emgain = some r.emgain
  excamt : e.excamt = some r.excamt

/-- No cell outside the path column looks like an absolute path: the usual situation (hashes are
digits, versions and modes are words). -/
def PlainRow (r : Row) : Prop :=
  ∀ c ∈ [r.type, r.hash, r.version, r.opmode], ∀ s, c = some s → ¬ AbsPath s

/-- A product from which plain rows are made. -/
structure PlainEntry (e : Entry) : Prop where
  path : AbsPath e.absPath
  hash : ¬ AbsPath e.hash
  version : ∀ s, e.drpversn = some s → ¬ AbsPath s
  opmode : ∀ s, e.opmode = some s → ¬ AbsPath s

/-- The rows of a table have absolute paths. -/
def AbsRows (db : Table) : Prop := ∀ r ∈ db, ∃ p, r.path = some p ∧ AbsPath p

/-- The entry an operation is about. -/
def Op.entry? : Op → Option Entry
  | .create e _ => some e
  | .remove e _ => some e
  | .reload => none

/-! The abstract database: a finite map from paths to rows. -/

/-- Abstract database. -/
abbrev Map := String → Option Row

/-- The map a table stands for. -/
def toMap (db : Table) : Map := fun p => db.find? fun r => r.path = some p

/-- One call on the abstract database. -/
inductive MapStep : Map → Op → Map → Prop
  /-- registering sets the value of that one path -/
  | create {m e r} : Describes r e → MapStep m (.create e true)
      (Function.update m e.absPath (some (reloadRow r)))
  /-- a product without the needed headers, or not a calibration, is refused -/
  | createRefused {m e} : (¬ ∃ r, Describes r e) → MapStep m (.create e true) m
  /-- removing clears the value of that one path -/
  | remove {m e r} : Describes r e → MapStep m (.remove e true) (Function.update m e.absPath none)
  | removeRefused {m e} : (¬ ∃ r, Describes r e) → MapStep m (.remove e true) m
  | reload {m} : MapStep m .reload m

/-- A sequence of calls on the abstract database. -/
inductive MapRun : Map → List Op → Map → Prop
  | nil {m} : MapRun m [] m
  | cons {m op m' ops m''} : MapStep m op m' → MapRun m' ops m'' → MapRun m (op :: ops) m''

/-- Rows eligible for a science frame: right type and, for darks, the same exposure time. -/
def Eligible (r : Row) (t : String) (exptime : Option ℚ) : Prop :=
  r.type = some t ∧ (t = "Dark" → ∃ x, r.exptime = some x ∧ exptime = some x)

/-- `r` is the first row of `db` (in registration order) among those satisfying `P` for which
`better` never prefers another one. -/
def FirstBest (db : Table) (P : Row → Prop) (better : Row → Row → Prop) (r : Row) : Prop :=
  ∃ pre post, db = pre ++ r :: post ∧ P r ∧
    (∀ q ∈ pre, P q → better r q) ∧ (∀ q ∈ post, P q → ¬ better q r)

/-! Schedules of several processes registering one product each. -/

/-- Each process `i < n` loads once, then saves once, and no other process saves in between. -/
def Serialized (n : ℕ) (evs : List Ev) : Prop :=
  (∀ i, i < n → Ev.save i ∈ evs) ∧
  (∀ i, Ev.load i ∈ evs ∨ Ev.save i ∈ evs → i < n) ∧
  ∀ a b i, evs = a ++ Ev.save i :: b →
    ∃ a₁ a₂, a = a₁ ++ Ev.load i :: a₂ ∧ ∀ j, Ev.save j ∉ a₂

/-- Each process `i < n` loads exactly once and later saves exactly once. -/
def Schedule (n : ℕ) (evs : List Ev) : Prop :=
  (∀ i, evs.filter (fun e => e = .load i ∨ e = .save i) = if i < n then [.load i, .save i] else [])

end Corgi.CalDB

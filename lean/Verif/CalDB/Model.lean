import Verif.Common.ArgMin
import Mathlib.Algebra.Order.Ring.Rat
import Mathlib.Algebra.Order.Group.Unbundled.Abs
import Mathlib.Algebra.Order.Group.Abs

/-!
# Model of `corgidrp/caldb.py`

The pandas table is a list of rows.  A row has the fourteen columns of `column_dtypes`
(caldb.py 11-26).  Floats are rationals; a cell that pandas shows as NaN is `none` where the
column may hold one.  Integer columns never hold NaN.
-/

namespace Corgi.CalDB

/-- The data classes of `data.py` that matter to the database: the thirteen keys of `labels`
(caldb.py 30-43) and any other class (`image`). -/
inductive Cls
  | dark | nonlin | kgain | badpix | noisemaps | flat | detparams | astrom | trap | fluxcal
  | fpamfsam | corethroughput | ndfilter | image
  deriving DecidableEq, Repr

/-- `labels` (caldb.py 30-43); `none` is the `KeyError`. -/
def label : Cls → Option String
  | .dark => some "Dark"
  | .nonlin => some "NonLinearityCalibration"
  | .kgain => some "KGain"
  | .badpix => some "BadPixelMap"
  | .noisemaps => some "DetectorNoiseMaps"
  | .flat => some "FlatField"
  | .detparams => some "DetectorParams"
  | .astrom => some "AstrometricCalibration"
  | .trap => some "TrapCalibration"
  | .fluxcal => some "FluxcalFactor"
  | .fpamfsam => some "FpamFsamCal"
  | .corethroughput => some "CoreThroughputCalibration"
  | .ndfilter => some "NDFilterSweetSpot"
  | .image => none

/-- One row of the database: the columns of `column_dtypes` (caldb.py 11-26), in order.
String columns other than the path may be NaN after a reload (`none`). -/
structure Row where
  path : Option String
  type : Option String
  mjd : ℚ
  exptime : Option ℚ
  filesUsed : ℤ
  dateCreated : ℚ
  hash : Option String
  version : Option String
  obsnum : ℤ
  naxis1 : ℕ
  naxis2 : ℕ
  opmode : Option String
  emgain : Option ℚ
  excamt : Option ℚ
  deriving DecidableEq, Repr

/-- The table `CalDB._db`. -/
abbrev Table := List Row

/-- What the database reads from a data product (caldb.py 134-193).  Header values that must be
present are `Option`s, `none` = keyword missing (`KeyError`).  `absPath` is
`os.path.abspath(entry.filepath)`, `hash` is `entry.get_hash()`; dates are already in MJD.
A keyword `EXPTIME`, `EMGAIN_C` or `EXCAMT` may be present with no value (`some none`). -/
structure Entry where
  cls : Cls
  absPath : String
  sctsrt : Option ℚ
  exptime : Option (Option ℚ)
  drpnfile : Option ℤ
  drpctime : Option ℚ
  drpversn : Option String
  obsnum : Option ℤ
  hash : String
  shape : List ℕ
  opmode : Option String
  emgain : Option (Option ℚ)
  excamt : Option (Option ℚ)
  deriving DecidableEq, Repr

/-- Exceptions raised in caldb.py. -/
inductive Err
  | keyError | valueError | indexError
  deriving DecidableEq, Repr

/-- `d[key]` on a header: `KeyError` when missing. -/
def need {α : Type} : Option α → Except Err α
  | some a => .ok a
  | none => .error .keyError

/-- The `naxis1`, `naxis2` computation, caldb.py 165-171 (`shape[-1]` of a 0-d array is an
`IndexError`). -/
def naxes (shape : List ℕ) : Except Err (ℕ × ℕ) :=
  match shape.reverse with
  | [] => .error .indexError
  | [n1] => .ok (n1, 0)
  | n1 :: n2 :: _ => .ok (n1, n2)

/-- `_get_values_from_entry` for a product that is not `None` (caldb.py 134-199), with the
standard column list (columns 11-13 are copied from the header, 192-193).  The case
`entry is None` (114-132) is only used by `get_calib`, see there. -/
def valuesFromEntry (e : Entry) (isCalib : Bool) : Except Err Row := do
  let ty ← if isCalib then need (label e.cls) else pure "Sci"
  let mjd ← need e.sctsrt
  let exptime ← need e.exptime
  let obsnum ← need e.obsnum
  let (n1, n2) ← naxes e.shape
  let opmode ← need e.opmode
  let emgain ← need e.emgain
  let excamt ← need e.excamt
  pure
    { path := some e.absPath, type := some ty, mjd := mjd, exptime := exptime,
      filesUsed := e.drpnfile.getD 0, dateCreated := e.drpctime.getD (-1),
      hash := some e.hash, version := some (e.drpversn.getD ""), obsnum := obsnum,
      naxis1 := n1, naxis2 := n2, opmode := some opmode, emgain := emgain, excamt := excamt }

/-- The strings `pandas.read_csv` turns into NaN by default. -/
def naStrings : List String :=
  ["", "#N/A", "#N/A N/A", "#NA", "-1.#IND", "-1.#QNAN", "-NaN", "-nan", "1.#IND", "1.#QNAN",
   "<NA>", "N/A", "NA", "NULL", "NaN", "None", "n/a", "nan", "null"]

/-- A string cell after a write/read cycle through the CSV file. -/
def reloadStr : Option String → Option String
  | some s => if s ∈ naStrings then none else some s
  | none => none

/-- A row after a write/read cycle through the CSV file (`save` then `load`, caldb.py 84-94):
only string cells pandas takes for missing values change. -/
def reloadRow (r : Row) : Row :=
  { r with path := reloadStr r.path, type := reloadStr r.type, hash := reloadStr r.hash,
           version := reloadStr r.version, opmode := reloadStr r.opmode }

/-- `CalDB.load` (caldb.py 84-88) of what was saved as `disk`. -/
def load (disk : Table) : Table := disk.map reloadRow

/-- `p in self._db.values` (caldb.py 216, 247): elementwise `==` of the string `p` with every cell
of the table; only string cells can be equal to it. -/
def inValues (p : String) (db : Table) : Bool :=
  db.any fun r =>
    r.path == some p || r.type == some p || r.hash == some p || r.version == some p
      || r.opmode == some p

/-- caldb.py 216-227: update the rows whose `Filepath` equals the new row's, or append. The cases
`len(self._db) == 0` (225) and `pd.concat` (227) both give the old rows followed by the new one. -/
def upsert (db : Table) (p : String) (new : Row) : Table :=
  if inValues p db then db.map fun r => if r.path = some p then new else r
  else db ++ [new]

/-- A `CalDB` object together with the CSV file it works on. -/
structure Store where
  mem : Table
  disk : Table
  deriving DecidableEq, Repr

/-- `CalDB.create_entry` (caldb.py 201-231). An exception in `_get_values_from_entry` happens
before anything is changed. -/
def createEntry (s : Store) (e : Entry) (toDisk : Bool) : Except Err Store := do
  let new ← valuesFromEntry e true
  let db := if toDisk then load s.disk else s.mem
  let db := upsert db e.absPath new
  pure { mem := db, disk := if toDisk then db else s.disk }

/-- `CalDB.remove_entry` (caldb.py 233-258). On the `ValueError` the reloaded table stays in
memory, so the resulting store is returned along with the outcome. -/
def removeEntry (s : Store) (e : Entry) (toDisk : Bool) : Store × Except Err Unit :=
  match valuesFromEntry e true with
  | .error x => (s, .error x)
  | .ok _ =>
    let db := if toDisk then load s.disk else s.mem
    if inValues e.absPath db then
      let db := db.filter fun r => !(r.path == some e.absPath)
      ({ mem := db, disk := if toDisk then db else s.disk }, .ok ())
    else
      ({ mem := db, disk := s.disk }, .error .valueError)

/-- `np.abs(options["MJD"] - mjd).argmin()` then `iloc[i, 0]` (caldb.py 315-316, 324-325). -/
def closest (mjd : ℚ) (options : Table) : Option Row :=
  (argmin (options.map fun r => |r.mjd - mjd|)).bind fun i => options[i]?

/-- `options["Date Created"].argmax()` then `iloc[i, 0]` (caldb.py 299-300). -/
def newest (options : Table) : Option Row :=
  (argmax (options.map fun r => r.dateCreated)).bind fun i => options[i]?

/-- `calibdf["EXPTIME"] == frame_dict["EXPTIME"]` (caldb.py 306) on floats: NaN/None equal nothing. -/
def sameExptime (a b : Option ℚ) : Bool :=
  match a, b with
  | some x, some y => x == y
  | _, _ => false

/-- The row selected by `CalDB.get_calib` (caldb.py 260-325) from a loaded table. `frame = none`
is the python `None`.  Line 328 then loads the file of that row from disk, which is not modelled. -/
def getCalib (db : Table) (frame : Option Entry) (cls : Cls) : Except Err Row := do
  let lab ← match label cls with
    | some l => pure l
    | none => .error .valueError
  match frame with
  | none =>
    let calibdf := db.filter fun r => r.type == some lab
    match newest calibdf with
    | some r => pure r
    | none => .error .valueError
  | some f =>
    let fr ← valuesFromEntry f false
    let calibdf := db.filter fun r => r.type == some lab
    if lab == "Dark" then
      let options := calibdf.filter fun r => sameExptime r.exptime fr.exptime
      match closest fr.mjd options with
      | some r => pure r
      | none => .error .valueError
    else
      match closest fr.mjd calibdf with
      | some r => pure r
      | none => .error .valueError

/-- `CalDB.get_calib` with its `to_disk` argument (caldb.py 283-284). -/
def getCalibStore (s : Store) (frame : Option Entry) (cls : Cls) (toDisk : Bool) : Except Err Row :=
  getCalib (if toDisk then load s.disk else s.mem) frame cls

/-- `scan_dir_for_new_entries` (caldb.py 330-361): `frames` are the autoloaded `.fits` files in walk
order; the ones of a calibration class are registered one after the other. -/
def scanDir (s : Store) (frames : List Entry) (toDisk : Bool) : Except Err Store :=
  (frames.filter fun e => (label e.cls).isSome).foldlM (fun s e => createEntry s e toDisk) s

/-- One call on the database by a user. -/
inductive Op
  | create (e : Entry) (toDisk : Bool)
  | remove (e : Entry) (toDisk : Bool)
  | reload
  deriving Repr

/-- The store after one call (exceptions leave the store as described above). -/
def step (s : Store) : Op → Store
  | .create e d => match createEntry s e d with
    | .ok s' => s'
    | .error _ => s
  | .remove e d => (removeEntry s e d).1
  | .reload => { s with mem := load s.disk }

/-- The store after a sequence of calls. -/
def run (s : Store) (ops : List Op) : Store := ops.foldl step s

/-! ### Several processes on one CSV file (C04)

`create_entry(to_disk=True)` touches the file twice: `load` (caldb.py 213) and `save` (231); what
is between is local to the process.  There is no lock (docstring, 49-50). -/

/-- A file access by process `i`. -/
inductive Ev
  | load (i : ℕ)
  | save (i : ℕ)
  deriving DecidableEq, Repr

/-- The shared file and each process's `_db`. -/
structure World where
  disk : Table
  mem : ℕ → Table

/-- Effect of one file access when process `i` is registering a product with path `path i` and
row `row i`.  After its load the process computes `upsert`, which it saves later. -/
def World.step (path : ℕ → String) (row : ℕ → Row) (w : World) : Ev → World
  | .load i => { w with mem := Function.update w.mem i (CalDB.load w.disk) }
  | .save i =>
    let db := upsert (w.mem i) (path i) (row i)
    { disk := db, mem := Function.update w.mem i db }

/-- The world after a schedule. -/
def World.run (path : ℕ → String) (row : ℕ → Row) (w : World) (evs : List Ev) : World :=
  evs.foldl (World.step path row) w

end Corgi.CalDB

import Mathlib.Analysis.Real.Pi.Bounds
import Verif.Common.Nan
import Verif.Dataset.Model
import Verif.Provenance.Model

/-!
# Model of `combine.py`

`P` indexes the pixels of a frame, `L` is the number of error layers. Values are `Option ℝ` (`none` = NaN).
-/

noncomputable section

namespace Corgi.Comb
open Corgi.Nan

/-- One frame's arrays. -/
structure Img (P : Type) (L : ℕ) where
  data : P → Option ℝ
  err : Fin L → P → Option ℝ
  dq : P → ℕ

variable {P : Type} {L : ℕ}

/-- `collapse` after the test. -/
inductive Collapse
  | mean | median
  deriving DecidableEq, Repr

/-- Flagged samples are replaced by NaN (combine.py 26-28). -/
def masked (q : ℕ) (v : Option ℝ) : Option ℝ := if 0 < q then none else v

/-- The samples of the data at a pixel. -/
def samples (fs : List (Img P L)) (p : P) : List (Option ℝ) := fs.map fun f => masked (f.dq p) (f.data p)

/-- The squared samples of an error layer at a pixel. -/
def errSq (fs : List (Img P L)) (l : Fin L) (p : P) : List (Option ℝ) :=
  fs.map fun f => (masked (f.dq p) (f.err l p)).map (· ^ 2)

/-- `n_samples` (combine.py 30-32). -/
def nSamples (fs : List (Img P L)) (p : P) : ℕ :=
  (fs.map fun f => if 0 < f.dq p then 0 else 1).sum

/-- `combine_images`, combine.py 8-49. (The arguments are also overwritten with NaN; the only caller hands
over copies.) -/
def combineImages (c : Collapse) (scaling : Bool) (fs : List (Img P L)) : Img P L :=
  let tot : ℝ := fs.length
  let dataC : P → Option ℝ := fun p =>
    match c with
    | .mean => nanmean (samples fs p)
    | .median => nanmedian (samples fs p)
  let errC : Fin L → P → Option ℝ := fun l p =>
    (nanmean (errSq fs l p)).map fun v =>
      match c with
      | .mean => Real.sqrt v / Real.sqrt (nSamples fs p)
      | .median => Real.sqrt v / Real.sqrt (nSamples fs p) * Real.sqrt (Real.pi / 2)
  let dataS := if scaling then fun p => (dataC p).map (· * tot) else dataC
  let errS := if scaling then fun l p => (errC l p).map (· * tot) else errC
  { data := dataS
    err := errS
    dq := fun p =>
      let q := (fs.map (·.dq p)).foldl (· ||| ·) 0
      if 0 < q ∧ dataS p ≠ none then 0 else q }

/-- An image: arrays, headers, provenance keywords, file name. -/
structure Frame (P : Type) (L : ℕ) where
  img : Img P L
  pri : DS.Hdr
  ext : DS.Hdr
  errh : DS.Hdr
  dqh : DS.Hdr
  prov : Prov.Hdr
  filename : String

inductive Err
  | valueError | zeroDivisionError | keyError
  deriving DecidableEq, Repr

/-- `hdr[key] = v` -/
def setCard (h : DS.Hdr) (k v : String) : DS.Hdr := { h with card := Function.update h.card k (some v) }

/-- `if not key in hdr: hdr[key] = v` -/
def setDefault (h : DS.Hdr) (k v : String) : DS.Hdr := if (h.card k).isSome then h else setCard h k v

/-- The image constructor's changes to the headers (data.py 387-427), for a number of layers that agrees
with the tracking setting (no layers dropped). `env` is version, time and tracking setting as text. -/
structure Env where
  version : String
  now : String
  tracking : String

def mkImage (env : Env) (i : Img P L) (pri ext errh dqh : DS.Hdr) (prov : Prov.Hdr) : Frame P L :=
  { img := i
    pri := setCard pri "ORIGIN" "DRP"
    ext := setDefault (setDefault (setDefault (setCard (setCard ext "DRPVERSN" env.version) "DRPCTIME" env.now)
      "DESMEAR" "F") "CTI_CORR" "F") "IS_BAD" "F"
    errh := setCard (setCard errh "EXTNAME" "ERR") "TRK_ERRS" env.tracking
    dqh := setCard dqh "EXTNAME" "DQ"
    prov := prov
    filename := "" }

/-- `collapse.lower()` compared with the two names (combine.py 77). -/
def parseCollapse (s : String) : Option Collapse :=
  if s.toLower = "mean" then some .mean else if s.toLower = "median" then some .median else none

/-- Build the frame of one group (combine.py 83-105). `g` is the group, not empty. -/
def combineGroup (env : Env) (order : List String → List String) (c : Collapse) (scaling : Bool) (k : ℕ)
    (first last : Frame P L) (g : List (Frame P L)) : Except Err (Frame P L) :=
  let i := combineImages c scaling (g.map (·.img))
  let ext := setCard first.ext "NUM_FR" (toString k)
  let new := mkImage env i first.pri ext first.errh first.dqh first.prov
  match Prov.record order first.prov (g.map fun f => ⟨f.filename, f.prov⟩) with
  | .error .keyError => .error .keyError
  | .ok pr => .ok { new with filename := last.filename, prov := pr }

/-- The loop over the groups (combine.py 80-105): group `i` is `frames[k*i : k*(i+1)]`. -/
def combineLoop (env : Env) (order : List String → List String) (c : Collapse) (scaling : Bool) (k : ℕ)
    (fs : List (Frame P L)) (groups : List ℕ) : Except Err (List (Frame P L)) :=
  groups.mapM fun i =>
    match fs[k * i]?, fs[k * (i + 1) - 1]? with
    | some first, some last => combineGroup env order c scaling k first last ((fs.drop (k * i)).take k)
    | _, _ => .error .valueError  -- not reached for the groups in range

/-- `combine_subexposures`, combine.py 53-108. A negative group size makes no groups, and an empty dataset
is a `ValueError`; group size 0 (also the default for an empty input) is a `ZeroDivisionError`. -/
def combineSub (env : Env) (order : List String → List String) (num : Option ℤ) (collapse : String)
    (scaling : Bool) (fs : List (Frame P L)) : Except Err (List (Frame P L)) :=
  let k : ℤ := num.getD fs.length
  if k = 0 then .error .zeroDivisionError
  else if (fs.length : ℤ) % k ≠ 0 then .error .valueError
  else match parseCollapse collapse with
    | none => .error .valueError
    | some c =>
      if k < 0 then .error .valueError
      else match combineLoop env order c scaling k.toNat fs (List.range (fs.length / k.toNat)) with
        | .error e => .error e
        | .ok [] => .error .valueError
        | .ok new => .ok (new.map fun f =>
          { f with ext := { f.ext with history := f.ext.history ++
            ["Combine_subexposures: combined every " ++ toString k ++ " frames by " ++ collapse] } })

/-- What `combine_subexposures` does to the objects of its input: headers and arrays are copied, but the
file names of each group are read through `input_dataset[a:b]` (combine.py 104), which builds a dataset
from the group's frames. -/
def inputEffect {V : Type} (k : ℕ) (h : DS.Heap V) (ds : DS.Dataset) :
    Except DS.Err (DS.Heap V × List DS.Dataset) :=
  DS.selectAll h ds ((List.range (ds.frames.length / k)).map fun i => List.range' (k * i) k)

end Corgi.Comb

import Verif.Common.Except
import Mathlib.Data.Finset.Basic
import Mathlib.Logic.Function.Basic

/-!
# Model of `Image._record_parent_filenames`

Header keywords: `FILE0`, `FILE1`, ... and `DRPNFILE` are kept apart from the others, which the function
does not touch. A python `set` is a collection without repetition whose iteration order is arbitrary.
-/

namespace Corgi.Prov

inductive Err
  | keyError
  deriving DecidableEq, Repr

/-- The extension header as the function sees it. -/
structure Hdr where
  /-- `FILE{i}` -/
  file : ℕ → Option String
  /-- `DRPNFILE` -/
  nfile : Option ℕ

/-- An input image. -/
structure Img where
  filename : String
  hdr : Hdr

/-- `ext_hdr['FILE{j}']`: an absent keyword is a `KeyError`. -/
def Hdr.get (h : Hdr) (j : ℕ) : Except Err String :=
  match h.file j with
  | some f => .ok f
  | none => .error .keyError

/-- The names one input adds to the set, in order: its own and `FILE0` .. `FILE{DRPNFILE-1}`
(data.py 481-486). -/
def names (i : Img) : Except Err (List String) :=
  match i.hdr.nfile with
  | none => .ok [i.filename]
  | some n => do
    let fs ← (List.range n).mapM i.hdr.get
    return i.filename :: fs

/-- `Image._record_parent_filenames`, data.py 468-490. `order` lists the elements of the set of the given
names in iteration order. -/
def record (order : List String → List String) (h : Hdr) (inputs : List Img) : Except Err Hdr := do
  let nss ← inputs.mapM names
  let fs := order nss.flatten
  return { file := fun i => if h' : i < fs.length then some fs[i] else h.file i, nfile := some fs.length }

end Corgi.Prov

import Verif.Dataset.Model

/-!
# Model of the data-level upgrades
-/

namespace Corgi.Levels
open Corgi.DS

/-- `s.replace(old, new, 1)` on characters: replace the first occurrence (used with `old ≠ ""`). -/
def replace1 (old new : List Char) : List Char → List Char
  | [] => []
  | c :: cs => if old.isPrefixOf (c :: cs) then new ++ (c :: cs).drop old.length
    else c :: replace1 old new cs

/-- `s.replace(old, new, 1)` on strings. -/
def pyReplace1 (old new s : String) : String := String.ofList (replace1 old.toList new.toList s.toList)

/-- The five upgrade functions. -/
inductive Up
  | l2a | l2b | l3 | l4 | tda
  deriving DecidableEq, Repr

/-- DATALVL required (l1_to_l2a.py 347, l2a_to_l2b.py 441, l2b_to_l3.py 126, l3_to_l4.py 767, l4_to_tda.py
411). -/
def Up.src : Up → String
  | .l2a => "L1" | .l2b => "L2a" | .l3 => "L2b" | .l4 => "L3" | .tda => "L4"

/-- DATALVL set (l1_to_l2a.py 356, l2a_to_l2b.py 450, l2b_to_l3.py 135, l3_to_l4.py 776, l4_to_tda.py
420). -/
def Up.dst : Up → String
  | .l2a => "L2a" | .l2b => "L2b" | .l3 => "L3" | .l4 => "L4" | .tda => "TDA"

/-- The renaming (l1_to_l2a.py 359, l2a_to_l2b.py 453, l2b_to_l3.py 138, l3_to_l4.py 784, l4_to_tda.py
423). -/
def Up.rename : Up → String → String
  | .l2a => pyReplace1 "_L1_" "_L2a"
  | .l2b => pyReplace1 "_L2a" "_L2b"
  | .l3 => pyReplace1 "_L2b" "_L3_"
  | .l4 => pyReplace1 "_L3_" "_L4_"
  | .tda => pyReplace1 "_L4_" "_TDA_"

/-- Further keywords set: only `update_to_l4` (l3_to_l4.py 777-781). -/
def Up.cards (ct flux : String) : Up → List (String × String)
  | .l4 => [("CTCALFN", ct), ("FLXCALFN", flux)]
  | _ => []

variable {V : Type}

/-- One upgrade, with flux calibration present (the case of a `None` flux calibration is
`Corgi.DS.upgradeL4`). `env` gives version, time stamp and calibration names. -/
def Up.run (version now ct flux : String) (u : Up) (h : Heap V) (ds : Dataset) :
    Except Err (Heap V × Dataset) :=
  upgrade version now u.src u.dst (u.cards ct flux) u.rename h ds

/-- Several upgrades, each applied to the result of the one before. -/
def runAll (version now ct flux : String) : List Up → Heap V → Dataset → Except Err (Heap V × Dataset)
  | [], h, ds => .ok (h, ds)
  | u :: us, h, ds =>
    match u.run version now ct flux h ds with
    | .error e => .error e
    | .ok (h1, d1) => runAll version now ct flux us h1 d1

end Corgi.Levels

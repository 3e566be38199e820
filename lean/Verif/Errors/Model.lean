import Mathlib.Analysis.SpecialFunctions.Sqrt
import Verif.Common.Except

/-!
# Model of the error extension of an image

`Image.err` is a stack of layers; the first is the total uncertainty, the others (kept only when
`track_individual_errors` is set) the individual terms. Uncertainties are real numbers; NaN, infinities and
rounding are not modelled here.
-/

noncomputable section

namespace Corgi.Errs

/-- An array: shape and value at each index tuple. -/
structure Arr where
  shape : List ℕ
  val : List ℕ → ℝ

/-- `a.ndim` -/
def Arr.ndim (a : Arr) : ℕ := a.shape.length

/-- The part of `Image` the error functions use. -/
structure Img where
  /-- `data.shape` -/
  shape : List ℕ
  /-- `err`, along its first axis -/
  layers : List (List ℕ → ℝ)
  /-- `err_hdr["Layer_k"]` -/
  names : ℕ → Option String
  /-- HISTORY entries of `err_hdr` -/
  history : List String

inductive Err
  | valueError | indexError | keyError
  deriving DecidableEq, Repr

/-- The tail of the image constructor, data.py 406-413: without tracking, the keywords of the individual
layers are deleted (`KeyError` if one is absent) and only the first layer is kept. -/
def construct (track : Bool) (i : Img) : Except Err Img :=
  if !track && 1 < i.layers.length then
    if (List.range (i.layers.length - 1)).all (fun k => (i.names (k + 2)).isSome) then
      .ok { i with
        layers := i.layers.take 1
        names := fun k => if 2 ≤ k ∧ k < i.layers.length + 1 then none else i.names k }
    else .error .keyError
  else .ok i

/-- `Image.add_error_term`, data.py 528-560. `err[0]` on an empty stack is an `IndexError`. -/
def addError (track : Bool) (e : Arr) (name : String) (i : Img) : Except Err Img :=
  if ¬ (e.ndim = 2 ∨ e.ndim = 3) ∨ e.shape ≠ i.shape then .error .valueError
  else match i.layers with
    | [] => .error .indexError
    | l0 :: ls =>
      let l0' := fun p => Real.sqrt (l0 p ^ 2 + e.val p ^ 2)
      let names1 := Function.update i.names 1 (some "combined_error")
      let hist := i.history ++ ["Added error term: " ++ name]
      if track then
        let layers := (l0' :: ls) ++ [e.val]
        .ok { i with
          layers := layers
          names := Function.update names1 layers.length (some name)
          history := hist }
      else .ok { i with layers := l0' :: ls, names := names1, history := hist }

/-- `Image.rescale_error`, data.py 562-583. -/
def rescale (e : Arr) (name : String) (i : Img) : Except Err Img :=
  if e.ndim ≠ 2 ∨ e.shape ≠ i.shape then .error .valueError
  else .ok { i with
    layers := i.layers.map (fun l p => l p * e.val p)
    names := Function.update i.names 1 (some "combined_error")
    history := i.history ++ ["Errors rescaled by: " ++ name] }

/-- One call of either. -/
inductive Op
  | add (e : Arr) (name : String)
  | scale (e : Arr) (name : String)

def Op.run (track : Bool) (i : Img) : Op → Except Err Img
  | .add e n => addError track e n i
  | .scale e n => rescale e n i

/-- A sequence of calls on the same image. -/
def runOps (track : Bool) (i : Img) (ops : List Op) : Except Err Img :=
  ops.foldlM (Op.run track) i

/-- A sequence of `add_error_term` calls. -/
def addAll (track : Bool) (i : Img) (ts : List (Arr × String)) : Except Err Img :=
  ts.foldlM (fun i t => addError track t.1 t.2 i) i

/-- The argument of `Dataset.add_error_term`: an array of the shape of the stack of frames, of the shape of
one frame, or of another rank. -/
inductive DArg
  | perFrame (es : List Arr)
  | same (e : Arr)
  | other

/-- `frame.add_error_term(input_error[i], err_name)` over the frames in turn; `input_error[i]` beyond the
first axis is an `IndexError`. -/
def addPerFrame (track : Bool) (name : String) : List Arr → List Img → Except Err (List Img)
  | _, [] => .ok []
  | [], _ :: _ => .error .indexError
  | e :: es, i :: is => do
    let i' ← addError track e name i
    let is' ← addPerFrame track name es is
    return i' :: is'

/-- `Dataset.add_error_term`, data.py 150-173: per frame, then all the error stacks are put into one array,
a `ValueError` if their numbers of layers differ. -/
def addDataset (track : Bool) (a : DArg) (name : String) (is : List Img) : Except Err (List Img) := do
  let is' ← match a with
    | .perFrame es => addPerFrame track name es is
    | .same e => is.mapM (addError track e name)
    | .other => .error .valueError
  match is' with
  | [] => return []
  | i0 :: _ =>
    if is'.all (fun i => i.layers.length = i0.layers.length) then return is' else .error .valueError

end Corgi.Errs

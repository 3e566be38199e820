import Verif.Dataset.Model

/-!
# Expectations on datasets: views, isolation, observation
-/

namespace Corgi.DS

variable {V : Type}

/-- Which array of a frame. -/
inductive Kind
  | data | err | dq
  deriving DecidableEq, Repr

/-- The array of that kind in an image. -/
def Frame.addr (f : Frame) : Kind → ℕ
  | .data => f.data
  | .err => f.err
  | .dq => f.dq

/-- The cube of that kind. -/
def Dataset.cube (d : Dataset) : Kind → List ℕ
  | .data => d.allData
  | .err => d.allErr
  | .dq => d.allDq

/-- `dataset[i].data[p]` etc.; `none` if there is no frame `i`. -/
def readFrame (h : Heap V) (d : Dataset) (k : Kind) (i : ℕ) (p : List ℕ) : Option V :=
  d.frames[i]?.map fun f => (h.mem ((h.frm f).addr k)).val p

/-- `dataset.all_data[i][p]` etc. -/
def readCube (h : Heap V) (d : Dataset) (k : Kind) (i : ℕ) (p : List ℕ) : Option V :=
  (d.cube k)[i]?.map fun a => (h.mem a).val p

/-- A pixel assignment, through a frame or through a cube. -/
inductive PixOp (V : Type)
  | frame (k : Kind) (i : ℕ) (p : List ℕ) (v : V)
  | cube (k : Kind) (i : ℕ) (p : List ℕ) (v : V)

/-- Perform it on the heap (nothing happens for an index out of range: python raises). -/
def PixOp.run (d : Dataset) (h : Heap V) : PixOp V → Heap V
  | .frame k i p v => match d.frames[i]? with
    | some f => h.setPix ((h.frm f).addr k) p v
    | none => h
  | .cube k i p v => match (d.cube k)[i]? with
    | some a => h.setPix a p v
    | none => h

/-- What the user expects: one array of pixels per kind and frame, whichever way it is written. -/
def PixOp.expect (σ : Kind → ℕ → List ℕ → V) : PixOp V → (Kind → ℕ → List ℕ → V)
  | .frame k i p v => fun k' i' p' => if k' = k ∧ i' = i ∧ p' = p then v else σ k' i' p'
  | .cube k i p v => fun k' i' p' => if k' = k ∧ i' = i ∧ p' = p then v else σ k' i' p'

/-- Frames are views of the cubes. -/
structure Linked (h : Heap V) (d : Dataset) : Prop where
  len : ∀ k, (d.cube k).length = d.frames.length
  link : ∀ (k : Kind) (i f : ℕ), d.frames[i]? = some f → (d.cube k)[i]? = some ((h.frm f).addr k)

/-- No two planes of a dataset are the same array. -/
def Separate (d : Dataset) : Prop :=
  ∀ (k : Kind) (i : ℕ) (k' : Kind) (i' a : ℕ), (d.cube k)[i]? = some a → (d.cube k')[i']? = some a → k = k' ∧ i = i'

/-- All references of the dataset are to existing objects. -/
structure Valid (h : Heap V) (d : Dataset) : Prop where
  frame : ∀ f ∈ d.frames, f < h.nfrm
  plane : ∀ f ∈ d.frames, ∀ k, (h.frm f).addr k < h.nmem
  header : ∀ f ∈ d.frames, (h.frm f).pri < h.nhdr ∧ (h.frm f).ext < h.nhdr ∧
    (h.frm f).errh < h.nhdr ∧ (h.frm f).dqh < h.nhdr
  cubes : ∀ k, ∀ a ∈ d.cube k, a < h.nmem

/-- What can be observed of a frame: its arrays, headers and file name. -/
structure FrameView (V : Type) where
  data : Plane V
  err : Plane V
  dq : Plane V
  pri : Hdr
  ext : Hdr
  errh : Hdr
  dqh : Hdr
  filename : String

/-- Observe frame `f`. -/
def viewFrame (h : Heap V) (f : ℕ) : FrameView V :=
  let r := h.frm f
  { data := h.mem r.data, err := h.mem r.err, dq := h.mem r.dq, pri := h.hdr r.pri,
    ext := h.hdr r.ext, errh := h.hdr r.errh, dqh := h.hdr r.dqh, filename := r.filename }

/-- Observe a dataset: its frames and its three cubes. -/
def view (h : Heap V) (d : Dataset) : List (FrameView V) × List (Plane V) × List (Plane V) × List (Plane V) :=
  (d.frames.map (viewFrame h), d.allData.map h.mem, d.allErr.map h.mem, d.allDq.map h.mem)

/-- The pixel part of the observation. -/
def pixelView (h : Heap V) (d : Dataset) :
    List (Plane V × Plane V × Plane V) × List (Plane V) × List (Plane V) × List (Plane V) :=
  (d.frames.map fun f => ((viewFrame h f).data, (viewFrame h f).err, (viewFrame h f).dq),
    d.allData.map h.mem, d.allErr.map h.mem, d.allDq.map h.mem)

/-- Which header of a frame. -/
inductive HKind
  | pri | ext | errh | dqh
  deriving DecidableEq, Repr

/-- The header of that kind. -/
def Frame.hdrAddr (f : Frame) : HKind → ℕ
  | .pri => f.pri
  | .ext => f.ext
  | .errh => f.errh
  | .dqh => f.dqh

/-- Anything a processing step does to datasets it owns. `j` selects one of the datasets at hand;
selecting and copying add a dataset. New error arrays are created by the step. -/
inductive Op (V : Type)
  | pixel (j : ℕ) (o : PixOp V)
  | card (j : ℕ) (k : HKind) (i : ℕ) (key value : String)
  | history (j : ℕ) (k : HKind) (i : ℕ) (entry : String)
  | rename (j : ℕ) (i : ℕ) (name : String)
  | update (j : ℕ) (entry : String) (newData newErr newDq : Option (List (Plane V)))
      (entries : List (String × String))
  | newErr (j : ℕ) (ps : List (Plane V))
  | select (j : ℕ) (idx : List ℕ)
  | copy (j : ℕ) (version now : String) (copyData : Bool)

/-- Perform an operation on the heap and the list of datasets at hand. Operations that raise leave the
list alone. -/
def Op.run (s : Heap V × List Dataset) : Op V → Heap V × List Dataset
  | .pixel j o => match s.2[j]? with
    | some d => (o.run d s.1, s.2)
    | none => s
  | .card j k i key value => match s.2[j]? with
    | some d => match d.frames[i]? with
      | some f => (s.1.setKey ((s.1.frm f).hdrAddr k) key value, s.2)
      | none => s
    | none => s
  | .history j k i entry => match s.2[j]? with
    | some d => match d.frames[i]? with
      | some f => (s.1.addHistory ((s.1.frm f).hdrAddr k) entry, s.2)
      | none => s
    | none => s
  | .rename j i name => match s.2[j]? with
    | some d => match d.frames[i]? with
      | some f => ({ s.1 with frm := Function.update s.1.frm f { s.1.frm f with filename := name } }, s.2)
      | none => s
    | none => s
  | .update j entry nd ne nq entries => match s.2[j]? with
    | some d =>
      let h1 := s.1.alloc (ne.getD [])
      let r := Corgi.DS.update h1 d entry nd (ne.map fun ps => List.range' s.1.nmem ps.length) nq entries
      (r.1, s.2.set j r.2.1)
    | none => s
  | .newErr j ps => match s.2[j]? with
    | some d =>
      let as := List.range' s.1.nmem ps.length
      let h1 := s.1.alloc ps
      ({ h1 with frm := pointErr h1.frm d.frames as }, s.2.set j { d with allErr := as })
    | none => s
  | .select j idx => match s.2[j]? with
    | some d => match Corgi.DS.select s.1 d idx with
      | .ok (h, d') => (h, s.2 ++ [d'])
      | .error _ => s
    | none => s
  | .copy j version now c => match s.2[j]? with
    | some d => match copyDataset version now c s.1 d with
      | .ok (h, d') => (h, s.2 ++ [d'])
      | .error _ => s
    | none => s

end Corgi.DS

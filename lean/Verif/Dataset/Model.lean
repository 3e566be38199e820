import Mathlib.Data.List.Basic
import Mathlib.Data.List.Sort
import Mathlib.Logic.Function.Basic

/-!
# Model of `corgidrp.data.Dataset` and the object structure of `Image`

Python objects that can be aliased live in a heap.  The unit of pixel storage is a *plane*: the
array of one frame (2-d data or dq, 3-d err).  A cube (`all_data`, `all_err`, `all_dq`) is the list of
the addresses of its planes, since `cube[i]` is a numpy view of the i-th plane.  Headers and `Image`
objects have addresses too.  Not modelled: the list of further HDUs, dtypes, single-image views
obtained by the caller through other numpy slicing.
-/

namespace Corgi.DS

/-- Exceptions. -/
inductive Err
  | valueError | keyError | indexError | attributeError
  deriving DecidableEq, Repr

/-- One frame's array: shape and pixel values. -/
structure Plane (V : Type) where
  shape : List ℕ
  val : List ℕ → V

/-- A FITS header: keyword values, and the HISTORY cards in order. Values are kept as text. -/
structure Hdr where
  card : String → Option String
  history : List String

/-- An `Image` object: references to its arrays and headers, and its file name. -/
structure Frame where
  data : ℕ
  err : ℕ
  dq : ℕ
  pri : ℕ
  ext : ℕ
  errh : ℕ
  dqh : ℕ
  filename : String
  deriving DecidableEq, Repr

/-- The heap; `nmem`, `nhdr`, `nfrm` are the next unused addresses. -/
structure Heap (V : Type) where
  mem : ℕ → Plane V
  nmem : ℕ
  hdr : ℕ → Hdr
  nhdr : ℕ
  frm : ℕ → Frame
  nfrm : ℕ

/-- A `Dataset` object: references to frames, and the planes of the three cubes. -/
structure Dataset where
  frames : List ℕ
  allData : List ℕ
  allErr : List ℕ
  allDq : List ℕ
  deriving DecidableEq, Repr

variable {V : Type}

/-- Allocate new arrays with the given contents; the addresses are `nmem, nmem+1, …`. -/
def Heap.alloc (h : Heap V) (ps : List (Plane V)) : Heap V :=
  { h with
    mem := fun a => if h.nmem ≤ a then (ps[a - h.nmem]?).getD (h.mem a) else h.mem a
    nmem := h.nmem + ps.length }

/-- `frame.data = d; frame.err = e; frame.dq = q` for each frame in turn (data.py 58-61). -/
def pointTo (m : ℕ → Frame) : List ℕ → List ℕ → List ℕ → List ℕ → (ℕ → Frame)
  | f :: fs, d :: ds, e :: es, q :: qs =>
    pointTo (Function.update m f { m f with data := d, err := e, dq := q }) fs ds es qs
  | _, _, _, _ => m

/-- `frame.err = e` for each frame in turn (data.py 116-117, 172-173, 197-198). -/
def pointErr (m : ℕ → Frame) : List ℕ → List ℕ → (ℕ → Frame)
  | f :: fs, e :: es => pointErr (Function.update m f { m f with err := e }) fs es
  | _, _ => m

/-- All shapes are equal (`np.array` of arrays of different shapes raises `ValueError`). -/
def sameShape (ps : List (Plane V)) : Bool :=
  match ps with
  | [] => true
  | p :: rest => rest.all fun q => q.shape == p.shape

/-- The three arrays of frame `f`. -/
def Heap.dataOf (h : Heap V) (f : ℕ) : Plane V := h.mem (h.frm f).data
/-- see `dataOf` -/
def Heap.errOf (h : Heap V) (f : ℕ) : Plane V := h.mem (h.frm f).err
/-- see `dataOf` -/
def Heap.dqOf (h : Heap V) (f : ℕ) : Plane V := h.mem (h.frm f).dq

/-- `Dataset(frames)` (data.py 30-61) for a list of `Image` objects. The three cubes are allocated one
after the other, then each frame is pointed at its planes. -/
def mkDataset (h : Heap V) (fs : List ℕ) : Except Err (Heap V × Dataset) :=
  let n := fs.length
  let pd := fs.map h.dataOf
  let pe := fs.map h.errOf
  let pq := fs.map h.dqOf
  if fs = [] then .error .valueError
  else if !(sameShape pd && sameShape pe && sameShape pq) then .error .valueError
  else
    let das := List.range' h.nmem n
    let eas := List.range' (h.nmem + n) n
    let qas := List.range' (h.nmem + n + n) n
    let h1 := h.alloc (pd ++ pe ++ pq)
    .ok ({ h1 with frm := pointTo h1.frm fs das eas qas },
         { frames := fs, allData := das, allErr := eas, allDq := qas })

/-- `dataset[indices]` for a slice or index array (data.py 66-72): a new `Dataset` of the *same*
`Image` objects. An index out of range raises `IndexError`. -/
def select (h : Heap V) (ds : Dataset) (idx : List ℕ) : Except Err (Heap V × Dataset) :=
  match idx.mapM (fun i => ds.frames[i]?) with
  | none => .error .indexError
  | some fs => mkDataset h fs

/-- Assign one pixel of an array. -/
def Heap.setPix (h : Heap V) (a : ℕ) (p : List ℕ) (v : V) : Heap V :=
  let new : Plane V := { h.mem a with val := Function.update (h.mem a).val p v }
  { h with mem := Function.update h.mem a new }

/-- `cube[:] = new` plane by plane (data.py 111, 121): contents are replaced, the array stays. -/
def Heap.fill (h : Heap V) : List ℕ → List (Plane V) → Heap V
  | a :: as, p :: ps => ({ h with mem := Function.update h.mem a p }).fill as ps
  | _, _ => h

/-- `hdr[key] = value` -/
def Heap.setKey (h : Heap V) (a : ℕ) (key value : String) : Heap V :=
  let new : Hdr := { h.hdr a with card := Function.update (h.hdr a).card key (some value) }
  { h with hdr := Function.update h.hdr a new }

/-- `hdr['HISTORY'] = entry`: astropy appends a card. -/
def Heap.addHistory (h : Heap V) (a : ℕ) (entry : String) : Heap V :=
  let new : Hdr := { h.hdr a with history := (h.hdr a).history ++ [entry] }
  { h with hdr := Function.update h.hdr a new }

/-- The header part of `update_after_processing_step` for one frame (data.py 125-129). -/
def updateHdr (entry : String) (entries : List (String × String)) (h : Heap V) (f : ℕ) : Heap V :=
  entries.foldl (fun h kv =>
    (h.setKey (h.frm f).ext kv.1 kv.2).setKey (h.frm f).errh kv.1 kv.2)
    (h.addHistory (h.frm f).ext entry)

/-- `new.shape == cube.shape`: as many frames, all of the cube's frame shape. (A numpy array has one
frame shape.) -/
def shapeOk (h : Heap V) (cube : List ℕ) (new : List (Plane V)) : Bool :=
  cube.length == new.length &&
    (cube.zip new).all fun ap => (h.mem ap.1).shape == ap.2.shape

/-- Last two dimensions. -/
def lastTwo (s : List ℕ) : List ℕ := s.drop (s.length - 2)

/-- The test on `new_all_err` (data.py 113): as many frames, and the last two dimensions agree. -/
def errShapeOk (h : Heap V) (cube new : List ℕ) : Bool :=
  cube.length == new.length &&
    (cube.zip new).all fun ap => lastTwo (h.mem ap.1).shape == lastTwo (h.mem ap.2).shape

/-- Overwrite the contents of a cube if new arrays are given (data.py 108-111 and 118-121); `none` is
the `ValueError` for a wrong shape. -/
def putCube (h : Heap V) (cube : List ℕ) : Option (List (Plane V)) → Option (Heap V)
  | none => some h
  | some new => if shapeOk h cube new then some (h.fill cube new) else none

/-- Replace the error cube if a new array is given (data.py 112-117). -/
def putErr (h : Heap V) (ds : Dataset) : Option (List ℕ) → Option (Heap V × Dataset)
  | none => some (h, ds)
  | some new =>
    if errShapeOk h ds.allErr new then
      some ({ h with frm := pointErr h.frm ds.frames new }, { ds with allErr := new })
    else none

/-- `update_after_processing_step` (data.py 96-129). `newErr` is given by its address because the array
passed in *becomes* the dataset's error cube; data and dq are copied. The heap and dataset are
returned even when an exception is raised: assignments made before stay. -/
def update (h : Heap V) (ds : Dataset) (entry : String) (newData : Option (List (Plane V)))
    (newErr : Option (List ℕ)) (newDq : Option (List (Plane V)))
    (entries : List (String × String)) : Heap V × Dataset × Option Err :=
  match putCube h ds.allData newData with
  | none => (h, ds, some .valueError)
  | some h1 =>
    match putErr h1 ds newErr with
    | none => (h1, ds, some .valueError)
    | some (h2, ds2) =>
      match putCube h2 ds2.allDq newDq with
      | none => (h2, ds2, some .valueError)
      | some h3 => (ds2.frames.foldl (updateHdr entry entries) h3, ds2, none)

/-- `Image.copy` (data.py 492-516). `copyData`: everything is duplicated; otherwise a new `Image` object
that shares arrays and headers. The version and time stamps are then written. -/
def copyImage (version now : String) (copyData : Bool) (h : Heap V) (f : ℕ) : Heap V × ℕ :=
  let fr := h.frm f
  let h' : Heap V :=
    if copyData then
      let h1 := h.alloc [h.mem fr.data, h.mem fr.err, h.mem fr.dq]
      { h1 with
        hdr := fun a =>
          if a = h.nhdr then h.hdr fr.pri else if a = h.nhdr + 1 then h.hdr fr.ext
          else if a = h.nhdr + 2 then h.hdr fr.errh else if a = h.nhdr + 3 then h.hdr fr.dqh
          else h.hdr a
        nhdr := h.nhdr + 4
        frm := Function.update h.frm h.nfrm
          { data := h.nmem, err := h.nmem + 1, dq := h.nmem + 2, pri := h.nhdr, ext := h.nhdr + 1,
            errh := h.nhdr + 2, dqh := h.nhdr + 3, filename := fr.filename }
        nfrm := h.nfrm + 1 }
    else { h with frm := Function.update h.frm h.nfrm fr, nfrm := h.nfrm + 1 }
  let h'' := (h'.setKey (h'.frm h.nfrm).ext "DRPVERSN" version)
  (h''.setKey (h''.frm h.nfrm).ext "DRPCTIME" now, h.nfrm)

/-- Copy frames one after the other (data.py 145). -/
def copyFrames (version now : String) (copyData : Bool) (h : Heap V) : List ℕ → Heap V × List ℕ
  | [] => (h, [])
  | f :: fs =>
    let (h1, f') := copyImage version now copyData h f
    let (h2, fs') := copyFrames version now copyData h1 fs
    (h2, f' :: fs')

/-- `Dataset.copy` (data.py 132-148). The time stamp is the same for all frames here. -/
def copyDataset (version now : String) (copyData : Bool) (h : Heap V) (ds : Dataset) :
    Except Err (Heap V × Dataset) :=
  let (h1, fs) := copyFrames version now copyData h ds.frames
  mkDataset h1 fs

/-! ### split_dataset -/

section Split
variable {K : Type} [LinearOrder K]

/-- The distinct keys of `pandas.groupby` in sorted order, missing values dropped. `keys[i]` is the
combination of keyword values of frame `i`, `none` if one of them is missing (NaN). -/
def groupKeys (keys : List (Option K)) : List K :=
  (keys.filterMap id).dedup.insertionSort (· ≤ ·)

/-- `grouped.indices[k]`: the positions of the frames with that key, ascending. -/
def indicesOf (keys : List (Option K)) (k : K) : List ℕ :=
  (List.range keys.length).filter fun i => keys[i]? = some (some k)

/-- Build the sub-datasets one after the other (data.py 241-244). -/
def selectAll (h : Heap V) (ds : Dataset) : List (List ℕ) → Except Err (Heap V × List Dataset)
  | [] => .ok (h, [])
  | idx :: rest =>
    match select h ds idx with
    | .error e => .error e
    | .ok (h1, d) =>
      match selectAll h1 ds rest with
      | .error e => .error e
      | .ok (h2, ds') => .ok (h2, d :: ds')

/-- `split_dataset` (data.py 200-246). `keyOf` reads the keyword combination from a frame's headers
(`.error` if a keyword is absent). Without keywords: `ValueError`. -/
def splitDataset (h : Heap V) (ds : Dataset) (noKeywords : Bool)
    (keyOf : Heap V → ℕ → Except Err (Option K)) : Except Err (Heap V × List Dataset × List K) :=
  if noKeywords then .error .valueError
  else
    match ds.frames.mapM (keyOf h) with
    | .error e => .error e
    | .ok keys =>
      let ks := groupKeys keys
      match selectAll h ds (ks.map (indicesOf keys)) with
      | .error e => .error e
      | .ok (h', subs) => .ok (h', subs, ks)

end Split

/-! ### Level upgrades on the heap -/

/-- The loop body of the `update_to_…` functions for one frame: set DATALVL and the further keywords,
rename (l1_to_l2a.py 354-359, l3_to_l4.py 774-784). -/
def upgradeFrame (toLvl : String) (cards : List (String × String)) (rename : String → String)
    (h : Heap V) (f : ℕ) : Heap V :=
  let h := ((("DATALVL", toLvl) :: cards)).foldl (fun h kv => h.setKey (h.frm f).ext kv.1 kv.2) h
  let new : Frame := { h.frm f with filename := rename (h.frm f).filename }
  { h with frm := Function.update h.frm f new }

/-- `update_to_l2a`, `update_to_l2b`, `update_to_l3`, `update_to_tda` and the normal course of
`update_to_l4` (l1_to_l2a.py 333-364, l2a_to_l2b.py 427-458, l2b_to_l3.py 112-143, l4_to_tda.py 397-428,
l3_to_l4.py 751-789) on the objects: check DATALVL of every frame (a missing DATALVL raises too, in
python with `KeyError`), copy without data, set the headers, rename, add the history line. `cards` are
the further keywords that `update_to_l4` sets; `rename` is the replacement in the file name. -/
def upgrade (version now fromLvl toLvl : String) (cards : List (String × String))
    (rename : String → String) (h : Heap V) (ds : Dataset) :
    Except Err (Heap V × Dataset) :=
  if ds.frames.all (fun f => (h.hdr (h.frm f).ext).card "DATALVL" == some fromLvl) then
    match copyDataset version now false h ds with
    | .error e => .error e
    | .ok (h1, ds1) =>
      let h2 := ds1.frames.foldl (upgradeFrame toLvl cards rename) h1
      let r := update h2 ds1 ("Updated Data Level to " ++ toLvl) none none none []
      .ok (r.1, r.2.1)
  else .error .valueError

/-- `update_to_l4` (l3_to_l4.py 751-789). `ct` and `flux` are the base names of the calibration files,
`none` for a calibration that is `None`. With `flux = None` the attribute access on line 781 raises in the
first pass of the loop, after DATALVL and CTCALFN of the first frame have been set. The heap is returned
also in that case. -/
def upgradeL4 (version now : String) (rename : String → String) (ct flux : Option String) (h : Heap V)
    (ds : Dataset) : Heap V × Except Err Dataset :=
  match flux with
  | some fx =>
    match upgrade version now "L3" "L4" [("CTCALFN", ct.getD ""), ("FLXCALFN", fx)] rename h ds with
    | .ok (h', d') => (h', .ok d')
    | .error e => (h, .error e)
  | none =>
    if ds.frames.all (fun f => (h.hdr (h.frm f).ext).card "DATALVL" == some "L3") then
      match copyDataset version now false h ds with
      | .error e => (h, .error e)
      | .ok (h1, ds1) =>
        match ds1.frames with
        | [] => (h1, .ok ds1)
        | f :: _ =>
          let h2 := h1.setKey (h1.frm f).ext "DATALVL" "L4"
          (h2.setKey (h2.frm f).ext "CTCALFN" (ct.getD ""), .error .attributeError)
    else (h, .error .valueError)

end Corgi.DS

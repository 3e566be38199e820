import Verif.CalDB.Model
import Verif.Common.Except

/-!
# `autoload` (data.py 2549-2596) and the directory scan (caldb.py 330-361): model and C45

A FITS file is the DATATYPE card of its first extension, the number of axes, and the outcome of the other checks of the
class constructors.
-/

namespace Corgi.Autoload

open Corgi.CalDB (Cls label)

structure File where
  dtype : Option String
  ndim : ℕ
  /-- the checks of the constructor other than the one of DATATYPE pass -/
  body : Cls → Bool

inductive Err
  | keyError | valueError | unboundLocal
  deriving DecidableEq, Repr

/-- The keys of `datatypes` (data.py 2549-2562). -/
def datatypes : String → Option Cls
  | "Image" => some .image
  | "Dark" => some .dark
  | "NonLinearityCalibration" => some .nonlin
  | "KGain" => some .kgain
  | "BadPixelMap" => some .badpix
  | "DetectorNoiseMaps" => some .noisemaps
  | "FlatField" => some .flat
  | "DetectorParams" => some .detparams
  | "AstrometricCalibration" => some .astrom
  | "TrapCalibration" => some .trap
  | "FluxcalFactor" => some .fluxcal
  | "FpamFsamCal" => some .fpamfsam
  | "CoreThroughputCalibration" => some .corethroughput
  | "NDFilterSweetSpot" => some .ndfilter
  | _ => none

/-- The DATATYPE a constructor writes into a new product and demands of a file (data.py 642/678, 701/720, 796/815,
890/902, 965/989, 1038/1068, 1212/1146, 1273/1290, 1322/1341, 1421/1394, 1519/1481, 1621/1643, 2475/2485). `Image` has none. -/
def written : Cls → Option String
  | .image => none
  | .dark => some "Dark"
  | .nonlin => some "NonLinearityCalibration"
  | .kgain => some "KGain"
  | .badpix => some "BadPixelMap"
  | .noisemaps => some "DetectorNoiseMaps"
  | .flat => some "FlatField"
  | .detparams => some "DetectorParams"
  | .astrom => some "AstrometricCalibration"
  | .trap => some "TrapCalibration"
  | .fluxcal => some "FluxcalFactor"
  | .fpamfsam => some "FpamFsamCal"
  | .corethroughput => some "CoreThroughputCalibration"
  | .ndfilter => some "NDFilterSweetSpotDataset"

/-- `data_class(filepath)` -/
def construct (c : Cls) (f : File) : Except Err Cls :=
  if (written c).isSome ∧ f.dtype ≠ written c then .error .valueError
  else if f.body c then .ok c else .error .valueError

/-- `autoload`; the message of line 2588 reads the unset variable `dtype` -/
def autoload (f : File) : Except Err Cls := match f.dtype with
  | some d => match datatypes d with
    | some c => construct c f
    | none => .error .keyError
  | none => if f.ndim = 2 then construct .image f else .error .unboundLocal

/-- caldb.py 341-356: the frames to be registered -/
def scan (files : List File) : Except Err (List Cls) := match files.mapM autoload with
  | .ok cs => .ok (cs.filter fun c => (label c).isSome)
  | .error e => .error e

/-! ## Specification -/

/-- `f` is what saving a valid product of class `c` leaves on disk. -/
def Saved (c : Cls) (f : File) : Prop := (written c = none ∨ f.dtype = written c) ∧ f.body c = true

/-! ## C45 -/

/-- **C45 (partial)** Saved products of every calibration class other than the ND filter one are reloaded as that class. -/
theorem C45_partial {c : Cls} {f : File} (h : Saved c f) (hc : c ≠ .ndfilter) (hi : c ≠ .image) : autoload f = .ok c := by
  obtain ⟨h1, h2⟩ := h
  have hw : f.dtype = written c := h1.resolve_left (by cases c <;> simp_all [written])
  cases c <;> first
    | exact absurd rfl hc
    | exact absurd rfl hi
    | (rw [written] at hw; simp [autoload, hw, datatypes, construct, written, h2])

/-- A 2-D image without the keyword is an Image. -/
theorem C45_image {f : File} (h : f.dtype = none) (hn : f.ndim = 2) (hb : f.body .image = true) : autoload f = .ok .image := by
  simp [autoload, h, hn, construct, written, hb]

/-- **C45 (false)** A saved ND filter product cannot be reloaded: KeyError. -/
theorem C45_violated {f : File} (h : Saved .ndfilter f) : autoload f = .error .keyError := by
  obtain ⟨h1, _⟩ := h
  have hw : f.dtype = some "NDFilterSweetSpotDataset" := h1.resolve_left (by simp [written])
  simp [autoload, hw, datatypes]

/-- No file at all is loaded as an ND filter product. -/
theorem C45_nd_never (f : File) : autoload f ≠ .ok .ndfilter := by
  intro h
  unfold autoload at h
  cases hd : f.dtype with
  | none =>
    rw [hd] at h
    simp only [construct] at h
    split_ifs at h ; cases h
  | some d =>
    rw [hd] at h
    dsimp only at h
    cases hc : datatypes d with
    | none => rw [hc] at h; cases h
    | some c =>
      rw [hc] at h
      dsimp only [construct] at h
      split_ifs at h with h1 h2
      have : c = .ndfilter := by cases h; rfl
      subst this
      rw [hd] at h1
      have h3 : d = "NDFilterSweetSpotDataset" := by
        by_contra hne
        exact h1 ⟨rfl, fun h4 => hne (Option.some.inj h4)⟩
      subst h3
      cases hc

/-- **C45** What is loaded has the DATATYPE of its class. -/
theorem C45_sound {f : File} {c : Cls} (h : autoload f = .ok c) (hi : c ≠ .image) : f.dtype = written c ∧ f.body c = true := by
  have key : ∀ c', construct c' f = .ok c → f.dtype = written c ∧ f.body c = true := by
    intro c' h'
    unfold construct at h'
    split_ifs at h' with h1 h2
    cases h'
    refine ⟨?_, h2⟩
    by_contra hne
    exact h1 ⟨by cases c <;> simp_all [written], hne⟩
  unfold autoload at h
  cases hd : f.dtype with
  | none =>
    rw [hd] at h
    dsimp only at h
    split_ifs at h
    rw [← hd]; exact key _ h
  | some d =>
    rw [hd] at h
    dsimp only at h
    cases hc : datatypes d with
    | none => rw [hc] at h; cases h
    | some c' => rw [hc] at h; rw [← hd]; exact key _ h

/-- **C45** Data of another dimension without the keyword: the intended message is never shown (UnboundLocalError). -/
theorem C45_unbound {f : File} (h : f.dtype = none) (hn : f.ndim ≠ 2) : autoload f = .error .unboundLocal := by
  simp [autoload, h, hn]

/-- **C45** The scan registers the calibrations among the files, if all files can be loaded … -/
theorem C45_scan {files : List File} {r : List Cls} (h : scan files = .ok r) :
    ∃ cs, List.Forall₂ (fun f c => autoload f = .ok c) files cs ∧ r = cs.filter fun c => (label c).isSome := by
  unfold scan at h
  cases hm : files.mapM autoload with
  | error e => rw [hm] at h; cases h
  | ok cs => rw [hm] at h; cases h; exact ⟨cs, mapM_ok_iff.1 hm, rfl⟩

/-- … and nothing if one file of the folder tree cannot. -/
theorem C45_scan_fails_iff {files : List File} : (∃ e, scan files = .error e) ↔ ∃ f ∈ files, ∃ e, autoload f = .error e := by
  unfold scan
  cases hm : files.mapM autoload with
  | error e =>
    obtain ⟨pre, a, post, rfl, _, ha⟩ := mapM_error_iff.1 hm
    exact iff_of_true ⟨e, rfl⟩ ⟨a, by simp, e, ha⟩
  | ok cs =>
    refine iff_of_false (by rintro ⟨e, he⟩; cases he) ?_
    rintro ⟨f, hf, e, he⟩
    obtain ⟨y, hy⟩ := mapM_ok_exists.1 ⟨cs, hm⟩ f hf
    rw [hy] at he; cases he

/-- **C45 (false)** One ND filter product in the folder tree and no calibration is registered. -/
theorem C45_scan_violated {files : List File} {f : File} (hf : f ∈ files) (h : Saved .ndfilter f) :
    ∃ e, scan files = .error e :=
  C45_scan_fails_iff.2 ⟨f, hf, _, C45_violated h⟩

/-- The database and the loader agree on the names of all classes but the ND filter one (which the database calls
NDFilterSweetSpot). -/
theorem C45_labels (c : Cls) : label c = written c ↔ c ≠ .ndfilter := by cases c <;> simp [label, written]

/-! ## Non-vacuity -/

example : autoload ⟨some "KGain", 1, fun _ => true⟩ = .ok .kgain := by decide
example : autoload ⟨some "NDFilterSweetSpotDataset", 2, fun _ => true⟩ = .error .keyError := by decide
example : autoload ⟨some "NDFilterSweetSpot", 2, fun _ => true⟩ = .error .valueError := by decide
example : scan [⟨some "Dark", 2, fun _ => true⟩, ⟨none, 2, fun _ => true⟩, ⟨some "KGain", 1, fun _ => true⟩] =
    .ok [.dark, .kgain] := by decide
example : scan [⟨some "Dark", 2, fun _ => true⟩, ⟨some "NDFilterSweetSpotDataset", 2, fun _ => true⟩] = .error .keyError := by
  decide

end Corgi.Autoload

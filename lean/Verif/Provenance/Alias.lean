import Mathlib.Data.List.Basic
import Mathlib.Data.Rat.Defs
import Mathlib.Logic.Function.Basic

/-!
# Do calibration products leave their input frames alone?

`Image.__init__` keeps the header objects it is given (`/repo/corgidrp/data.py` 345-346) and writes
into them (389-390); the calibration classes then write `DATATYPE`, `DATALVL`, `HISTORY` and the
parent file names into `self.ext_hdr`.  Whether the input frame sees these writes depends on the
caller handing over the frame's own header or a copy.

Headers are objects: a heap maps references to their cards.  The primary header is treated like the
extension header; `HISTORY` cards are not modelled.
-/

namespace Corgi.Alias

/-- Cards of one header. -/
abbrev Hdr := String → Option String

/-- Header objects by reference; `next` is the first unused reference. -/
structure Heap where
  hdr : ℕ → Hdr
  next : ℕ

def write (h : Heap) (r : ℕ) (c : String × String) : Heap :=
  { h with hdr := Function.update h.hdr r (Function.update (h.hdr r) c.1 (some c.2)) }

def writeAll (h : Heap) (r : ℕ) (cs : List (String × String)) : Heap :=
  cs.foldl (fun h c => write h r c) h

/-- `Header.copy()`. -/
def copyHdr (h : Heap) (r : ℕ) : Heap × ℕ :=
  (⟨Function.update h.hdr h.next (h.hdr r), h.next + 1⟩, h.next)

/-- The functions that create calibration products. -/
inductive Creator
  | flatfield | onskyFlat | tradDark | synthDark | noiseMaps | badPixelMap | kgain | nonlin
  | fluxcalAper | fluxcalGauss | ndSweetSpot | astrom | trapCal | coreThroughput
  deriving DecidableEq

/-- Is the header (or the whole dataset) copied before it is handed to the product?
flat.py 33-34; flat.py 233-234, 258; darks.py 248-255; darks.py 802 (`noisemaps.copy()`);
darks.py 440, 749; bad_pixel_calibration.py 48-56; calibrate_kgain.py 775-792;
calibrate_nonlin.py 825-830; fluxcal.py 503-504; fluxcal.py 601-602; nd_filter_calibration.py
332-348; astrom.py 1153; pump_trap_calibration.py 3292-3297; corethroughput.py 358, 407. -/
def copies : Creator → Bool
  | .flatfield => true
  | .onskyFlat => false
  | .tradDark => false
  | .synthDark => true
  | .noiseMaps => true
  | .badPixelMap => true
  | .kgain => false
  | .nonlin => false
  | .fluxcalAper => false
  | .fluxcalGauss => false
  | .ndSweetSpot => false
  | .astrom => false
  | .trapCal => false
  | .coreThroughput => true

/-- `DATATYPE` of the product (the classes in data.py). -/
def dataType : Creator → String
  | .flatfield => "FlatField"
  | .onskyFlat => "FlatField"
  | .tradDark => "Dark"
  | .synthDark => "Dark"
  | .noiseMaps => "DetectorNoiseMaps"
  | .badPixelMap => "BadPixelMap"
  | .kgain => "KGain"
  | .nonlin => "NonLinearityCalibration"
  | .fluxcalAper => "FluxcalFactor"
  | .fluxcalGauss => "FluxcalFactor"
  | .ndSweetSpot => "NDFilterSweetSpotDataset"
  | .astrom => "AstrometricCalibration"
  | .trapCal => "TrapCalibration"
  | .coreThroughput => "CoreThroughputCalibration"

/-- Creation of a product from the input header `src`: `extra` are further cards the creator writes
(units, gains, read noise, parents, …) before the class stamps type and level. Returns the product's
header reference. -/
def create (h : Heap) (c : Creator) (src : ℕ) (extra : List (String × String)) : Heap × ℕ :=
  let hr := if copies c then copyHdr h src else (h, src)
  (writeAll hr.1 hr.2 (extra ++ [("DATATYPE", dataType c), ("DATALVL", "CAL")]), hr.2)

/-! ## Proofs -/

theorem write_other (h : Heap) (r s : ℕ) (c : String × String) (hs : s ≠ r) :
    (write h r c).hdr s = h.hdr s := by
  simp [write, Function.update_of_ne hs]

theorem writeAll_other (cs : List (String × String)) : ∀ (h : Heap) (r s : ℕ), s ≠ r →
    (writeAll h r cs).hdr s = h.hdr s := by
  induction cs with
  | nil => intro h r s _; rfl
  | cons c cs ih =>
    intro h r s hs
    show (writeAll (write h r c) r cs).hdr s = h.hdr s
    rw [ih _ _ _ hs, write_other _ _ _ _ hs]

theorem writeAll_append (h : Heap) (r : ℕ) (a b : List (String × String)) :
    writeAll h r (a ++ b) = writeAll (writeAll h r a) r b := by
  simp [writeAll]

theorem writeAll_stamp (h : Heap) (r : ℕ) (a : List (String × String)) (t : String) :
    (writeAll h r (a ++ [("DATATYPE", t), ("DATALVL", "CAL")])).hdr r "DATATYPE" = some t ∧
    (writeAll h r (a ++ [("DATATYPE", t), ("DATALVL", "CAL")])).hdr r "DATALVL" = some "CAL" := by
  rw [writeAll_append]
  generalize writeAll h r a = g
  simp [writeAll, write, Function.update]

/-- **C78.** Every product ends up stamped with its own type and the calibration level. -/
theorem C78_product (h : Heap) (c : Creator) (src : ℕ) (extra : List (String × String)) :
    (create h c src extra).1.hdr (create h c src extra).2 "DATATYPE" = some (dataType c) ∧
    (create h c src extra).1.hdr (create h c src extra).2 "DATALVL" = some "CAL" := by
  unfold create
  exact writeAll_stamp _ _ _ _

/-- **C78 (partial).** A creator that copies leaves every existing header as it was, and no later
write to the product reaches an input. -/
theorem C78_copy_partial (h : Heap) (c : Creator) (src : ℕ) (extra later : List (String × String))
    (hc : copies c = true) {r : ℕ} (hr : r < h.next) :
    (create h c src extra).1.hdr r = h.hdr r ∧
    (writeAll (create h c src extra).1 (create h c src extra).2 later).hdr r = h.hdr r := by
  have h1 : (create h c src extra).2 = h.next := by simp [create, hc, copyHdr]
  have hne : r ≠ h.next := by omega
  have h2 : (create h c src extra).1.hdr r = h.hdr r := by
    unfold create
    rw [if_pos hc]
    dsimp only
    rw [writeAll_other _ _ _ _ (by simpa [copyHdr] using hne)]
    simp [copyHdr, Function.update_of_ne hne]
  refine ⟨h2, ?_⟩
  rw [writeAll_other _ _ _ _ (by rw [h1]; exact hne), h2]

/-- **C78.** Other frames than the one whose header is used are never touched. -/
theorem C78_other (h : Heap) (c : Creator) (src : ℕ) (extra : List (String × String)) {r : ℕ}
    (hr : r < h.next) (hne : r ≠ src) : (create h c src extra).1.hdr r = h.hdr r := by
  by_cases hc : copies c = true
  · exact (C78_copy_partial h c src extra [] hc hr).1
  · unfold create
    rw [if_neg hc]
    exact writeAll_other _ _ _ _ hne

/-- **C78, violated.** With every other creator the input frame itself turns into a calibration
product: its type and level are overwritten, whatever they were. -/
theorem C78_violated_input (h : Heap) (c : Creator) (src : ℕ) (extra : List (String × String))
    (hc : copies c = false) :
    (create h c src extra).1.hdr src "DATATYPE" = some (dataType c) ∧
    (create h c src extra).1.hdr src "DATALVL" = some "CAL" := by
  have := C78_product h c src extra
  have h1 : (create h c src extra).2 = src := by simp [create, hc]
  rwa [h1] at this

/-- **C78, violated.** Later changes of the product (a unit, a background level) also appear in the
input. -/
theorem C78_violated_later (h : Heap) (c : Creator) (src : ℕ) (extra : List (String × String))
    (hc : copies c = false) (k v : String) :
    (write (create h c src extra).1 (create h c src extra).2 (k, v)).hdr src k = some v := by
  have h1 : (create h c src extra).2 = src := by simp [create, hc]
  rw [h1]
  simp [write]

/-- **C78, violated.** Two products made from the same frame share one header: making the second
turns the first into the second's type. -/
theorem C78_violated_first_product (h : Heap) (c d : Creator) (src : ℕ)
    (e₁ e₂ : List (String × String)) (hc : copies c = false) (hd : copies d = false) :
    let p := create h c src e₁
    (create p.1 d src e₂).1.hdr p.2 "DATATYPE" = some (dataType d) := by
  have h1 : (create h c src e₁).2 = src := by simp [create, hc]
  dsimp only
  rw [h1]
  exact (C78_violated_input _ d src e₂ hd).1

/-- **C78.** Only the two flats, the two darks and the two flux calibrations share a type. -/
theorem C78_types (c d : Creator) (h : dataType c = dataType d) :
    c = d ∨ (c = .flatfield ∧ d = .onskyFlat) ∨ (c = .onskyFlat ∧ d = .flatfield) ∨
      (c = .tradDark ∧ d = .synthDark) ∨ (c = .synthDark ∧ d = .tradDark) ∨
      (c = .fluxcalAper ∧ d = .fluxcalGauss) ∨ (c = .fluxcalGauss ∧ d = .fluxcalAper) := by
  revert h
  cases c <;> cases d <;> decide

/-- The creators concerned. -/
theorem C78_which (c : Creator) : copies c = false ↔
    c = .onskyFlat ∨ c = .tradDark ∨ c = .kgain ∨ c = .nonlin ∨ c = .fluxcalAper ∨
      c = .fluxcalGauss ∨ c = .ndSweetSpot ∨ c = .astrom ∨ c = .trapCal := by
  cases c <;> decide

/-- Non-vacuous: a science frame whose header is used for a K-gain product stops being one. -/
example : ∃ h : Heap, h.hdr 0 "DATALVL" = some "L2a" ∧
    (create h .kgain 0 []).1.hdr 0 "DATALVL" = some "CAL" :=
  ⟨⟨fun _ k => if k = "DATALVL" then some "L2a" else none, 1⟩, by simp,
    (C78_violated_input _ .kgain 0 [] rfl).2⟩

example : ∃ h : Heap, h.hdr 0 "DATALVL" = some "L2a" ∧
    (create h .flatfield 0 []).1.hdr 0 "DATALVL" = some "L2a" :=
  ⟨⟨fun _ k => if k = "DATALVL" then some "L2a" else none, 1⟩, by simp, by
    rw [(C78_copy_partial _ .flatfield 0 [] [] rfl (by simp)).1]
    simp⟩

/-! ## In-place sky subtraction of the on-sky flat (flat.py 232-249) -/

/-- Frame data by reference; `planet_image -= level` changes the caller's array. -/
def skySubtract (d : ℕ → List ℚ) (level : List ℚ → ℚ) (refs : List ℕ) : ℕ → List ℚ :=
  refs.foldl (fun d r => Function.update d r ((d r).map (· - level (d r)))) d

theorem skySubtract_other (level : List ℚ → ℚ) : ∀ (refs : List ℕ) (d : ℕ → List ℚ) (r : ℕ),
    r ∉ refs → skySubtract d level refs r = d r := by
  intro refs
  induction refs with
  | nil => intro d r _; rfl
  | cons a refs ih =>
    intro d r hr
    show skySubtract (Function.update d a _) level refs r = d r
    rw [ih _ _ (fun h => hr (by simp [h])), Function.update_of_ne (fun h => hr (by simp [h]))]

/-- **C78, violated.** After making an on-sky flat, the input frames have lost their sky level. -/
theorem C78_violated_sky (d : ℕ → List ℚ) (level : List ℚ → ℚ) (refs : List ℕ) (hn : refs.Nodup)
    {r : ℕ} (hr : r ∈ refs) : skySubtract d level refs r = (d r).map (· - level (d r)) := by
  induction refs generalizing d with
  | nil => simp at hr
  | cons a refs ih =>
    have hna := (List.nodup_cons.1 hn).1
    show skySubtract (Function.update d a _) level refs r = _
    by_cases h : r = a
    · subst h
      rw [skySubtract_other _ _ _ _ hna, Function.update_self]
    · have hr' : r ∈ refs := by
        rcases List.mem_cons.1 hr with h' | h'
        · exact absurd h' h
        · exact h'
      rw [ih _ (List.nodup_cons.1 hn).2 hr', Function.update_of_ne h]

end Corgi.Alias

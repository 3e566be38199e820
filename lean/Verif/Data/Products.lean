import Verif.Provenance.Props
import Verif.Data.Names

/-!
# Bookkeeping of new calibration products

What the constructors of the calibration classes (data.py) do when data and headers are passed in: the check
that there are inputs, the record of the input files in the header, and the default file name.

Simplifications: the data have the shape the class asks for, the headers have the keywords quoted in the
HISTORY text, and of the header only the record of the parents is kept.
-/

namespace Corgi.Products
open Corgi.Prov Corgi.Names

inductive Error
  | valueError | typeError | keyError | unboundLocal | indexError
  deriving DecidableEq, Repr

/-- What the constructor leaves behind: the record in the header and the file name. -/
structure Product where
  hdr : Hdr
  filename : List Char

/-- `self._record_parent_filenames(inputs)`, data.py 468-490. -/
def recordParents (order : List String → List String) (h : Hdr) (is : List Img) : Except Error Hdr :=
  match record order h is with
  | .ok r => .ok r
  | .error _ => .error .keyError

/-- Classes that record the inputs only if the header has no record yet: Dark (data.py 648) and
DetectorNoiseMaps (1044). -/
def keepsRecord : Kind → Bool
  | .dark | .dnm => true
  | _ => false

/-- With `input_dataset` given. The name is made from the last input (Dark data.py 648-661, FlatField 705-711,
NonLinearityCalibration 799-809, KGain 886-888, BadPixelMap 968-977, DetectorNoiseMaps 1044-1057,
AstrometricCalibration 1276-1284, TrapCalibration 1325-1334, FluxcalFactor 1416-1435,
CoreThroughputCalibration 1624-1634, NDFilterSweetSpotDataset 2470-2471). -/
def fromInputs (order : List String → List String) (k : Kind) (h : Hdr) (is : List Img) :
    Except Error Product := do
  let r ← if keepsRecord k && h.nfile.isSome then .ok h else recordParents order h is
  match is.getLast? with
  | none => .error .indexError
  | some i => .ok { hdr := r, filename := default k i.filename.toList }

/-- With `input_dataset=None`: Dark data.py 639-641 and 663, FlatField 698-700, NonLinearityCalibration 789-794,
KGain 878-883, BadPixelMap 962-968, DetectorNoiseMaps 1034-1036 and 1054-1057, AstrometricCalibration 1271-1272,
TrapCalibration 1318-1321, FluxcalFactor 1407-1413 and 1434, CoreThroughputCalibration 1614-1619,
NDFilterSweetSpotDataset 2469. -/
def fromHeader (k : Kind) (h : Hdr) : Except Error Product :=
  match k with
  | .flat | .nonlin | .ast | .trap | .ct => .error .valueError
  | .ndf => .ok { hdr := h, filename := [] }
  | .dark =>
    if h.nfile = none then .error .valueError else .ok { hdr := h, filename := "DRK_CAL.fits".toList }
  | .kgain => if h.nfile = none then .error .valueError else .ok { hdr := h, filename := [] }
  | .bpm => if h.nfile = none then .error .valueError else .error .typeError
  | .flux => if h.nfile = none then .error .valueError else .error .unboundLocal
  | .dnm =>
    if h.nfile = none then .error .valueError
    else match h.file 0 with
      | none => .error .keyError
      | some f => .ok { hdr := h, filename := default .dnm f.toList }

/-- The constructor called with data and headers. -/
def construct (order : List String → List String) (k : Kind) (h : Hdr) : Option (List Img) → Except Error Product
  | none => fromHeader k h
  | some is => fromInputs order k h is

/-- `save()` without arguments: data.py 449-450. -/
def save (p : Product) : Except Error (List Char) :=
  if p.filename.length = 0 then .error .valueError else .ok p.filename

/-! ## Spec -/

/-- The record lists the inputs and what they were made from, and nothing else. -/
def Documented (is : List Img) (r : Hdr) : Prop :=
  ∀ x, Recorded r x ↔ ∃ i ∈ is, x = i.filename ∨ Recorded i.hdr x

/-! ## C127 -/

theorem recordParents_ok {order : List String → List String} {h r : Hdr} {is : List Img} :
    recordParents order h is = .ok r ↔ record order h is = .ok r := by
  unfold recordParents
  cases hr : record order h is with
  | ok r' => simp
  | error e => simp

theorem fromInputs_ok {order : List String → List String} {k : Kind} {h : Hdr} {is : List Img} {p : Product} :
    fromInputs order k h is = .ok p ↔
      (if keepsRecord k = true ∧ h.nfile ≠ none then p.hdr = h else record order h is = .ok p.hdr) ∧
      ∃ i, is.getLast? = some i ∧ p.filename = default k i.filename.toList := by
  unfold fromInputs
  have hn : h.nfile.isSome = true ↔ h.nfile ≠ none := by rw [Option.isSome_iff_ne_none]
  by_cases hc : keepsRecord k = true ∧ h.nfile ≠ none
  · have hb : (keepsRecord k && h.nfile.isSome) = true := by rw [Bool.and_eq_true, hn]; exact hc
    rw [if_pos hc, if_pos hb]
    simp only [bind, Except.bind]
    cases hl : is.getLast? with
    | none => simp
    | some i =>
      constructor
      · intro he
        have he := Except.ok.inj he
        subst he
        exact ⟨rfl, i, rfl, rfl⟩
      · rintro ⟨h1, i', hi, h2⟩
        have hi := Option.some.inj hi
        subst hi
        dsimp only
        rw [← h1, ← h2]
  · have hb : ¬ (keepsRecord k && h.nfile.isSome) = true := by rw [Bool.and_eq_true, hn]; exact hc
    rw [if_neg hc, if_neg hb]
    cases hr : recordParents order h is with
    | error e =>
      simp only [bind, Except.bind]
      constructor
      · intro he; cases he
      · rintro ⟨h1, -⟩
        rw [recordParents_ok.mpr h1] at hr
        cases hr
    | ok r =>
      have hr' := recordParents_ok.mp hr
      simp only [bind, Except.bind]
      rw [hr']
      cases hl : is.getLast? with
      | none => simp
      | some i =>
        constructor
        · intro he
          have he := Except.ok.inj he
          subst he
          exact ⟨rfl, i, rfl, rfl⟩
        · rintro ⟨h1, i', hi, h2⟩
          have hi := Option.some.inj hi
          subst hi
          have h1 := Except.ok.inj h1
          dsimp only
          rw [h1, ← h2]

/-- **C127** With inputs, the product documents them and their parents, if its header had no record before or
the class is not Dark or DetectorNoiseMaps. -/
theorem C127_recorded_partial {order : List String → List String} (ho : SetOrder order) {k : Kind} {h : Hdr}
    {is : List Img} {p : Product} (hp : construct order k h (some is) = .ok p)
    (hk : h.nfile = none ∨ (k ≠ .dark ∧ k ≠ .dnm)) :
    Documented is p.hdr ∧ Complete p.hdr ∧ Distinct p.hdr := by
  have h1 := (fromInputs_ok.mp hp).1
  rw [if_neg] at h1
  · exact C18_recorded ho h1
  · rintro ⟨h2, h3⟩
    rcases hk with hk | hk
    · exact h3 hk
    · cases k <;> simp [keepsRecord] at h2 hk

/-- **C127** The default name depends on the last input only. -/
theorem C127_name {order : List String → List String} {k : Kind} {h : Hdr} {is : List Img} {p : Product}
    (hp : construct order k h (some is) = .ok p) :
    ∃ i, is.getLast? = some i ∧ p.filename = default k i.filename.toList := (fromInputs_ok.mp hp).2

/-- **C127** With inputs, the construction succeeds exactly if there is at least one and, where they are
recorded, the records of all of them are complete. -/
theorem C127_succeeds_iff (order : List String → List String) (k : Kind) (h : Hdr) (is : List Img) :
    (∃ p, construct order k h (some is) = .ok p) ↔
      is ≠ [] ∧ ((h.nfile = none ∨ (k ≠ .dark ∧ k ≠ .dnm)) → ∀ i ∈ is, Complete i.hdr) := by
  have hc : (h.nfile = none ∨ (k ≠ .dark ∧ k ≠ .dnm)) ↔ ¬ (keepsRecord k = true ∧ h.nfile ≠ none) := by
    cases k <;> simp [keepsRecord]
  rw [hc]
  constructor
  · rintro ⟨p, hp⟩
    obtain ⟨h1, i, hi, -⟩ := fromInputs_ok.mp hp
    refine ⟨?_, ?_⟩
    · rintro rfl
      simp at hi
    · intro hk
      rw [if_neg hk] at h1
      exact (C18_succeeds_iff order h is).mp ⟨_, h1⟩
  · rintro ⟨h1, h2⟩
    have hl : is.getLast? = some (is.getLast h1) := List.getLast?_eq_some_getLast h1
    by_cases hk : keepsRecord k = true ∧ h.nfile ≠ none
    · exact ⟨⟨h, _⟩, fromInputs_ok.mpr ⟨by rw [if_pos hk], _, hl, rfl⟩⟩
    · obtain ⟨r, hr⟩ := (C18_succeeds_iff order h is).mpr (h2 hk)
      exact ⟨⟨r, _⟩, fromInputs_ok.mpr ⟨by rw [if_neg hk]; exact hr, _, hl, rfl⟩⟩

/-- **C127** Violated: a Dark or DetectorNoiseMaps whose header has a record already keeps that record; the
inputs given are not looked at. -/
theorem C127_violated_kept {order : List String → List String} {k : Kind} (hk : k = .dark ∨ k = .dnm) {h : Hdr}
    (hn : h.nfile ≠ none) {is : List Img} {p : Product} (hp : construct order k h (some is) = .ok p) :
    p.hdr = h := by
  have h1 := (fromInputs_ok.mp hp).1
  rwa [if_pos] at h1
  exact ⟨by rcases hk with rfl | rfl <;> rfl, hn⟩

/-- **C127** Violated: the dark synthesized from a noise map (darks.py 853-869: the header of the noise map is
used, the noise map is the only input) lists the frames of the noise map, but not the noise map. -/
theorem C127_violated_synthesized {order : List String → List String} (ho : SetOrder order) {h : Hdr}
    (hn : h.nfile = none) {is : List Img} {m d : Product} (hm : construct order .dnm h (some is) = .ok m)
    (hd : construct order .dark m.hdr (some [⟨String.ofList m.filename, m.hdr⟩]) = .ok d) :
    Documented is d.hdr ∧
    (Documented [⟨String.ofList m.filename, m.hdr⟩] d.hdr ↔
      ∃ i ∈ is, String.ofList m.filename = i.filename ∨ Recorded i.hdr (String.ofList m.filename)) := by
  have h1 := (C127_recorded_partial ho hm (Or.inl hn)).1
  have hr : record order h is = .ok m.hdr := by
    have := (fromInputs_ok.mp hm).1
    rwa [if_neg (fun hc => hc.2 hn)] at this
  have h2 : m.hdr.nfile ≠ none := by
    unfold record at hr
    cases hm : is.mapM names with
    | error e => rw [hm] at hr; cases hr
    | ok nss =>
      rw [hm] at hr
      have := Except.ok.inj hr
      rw [← this]
      simp
  have h3 := C127_violated_kept (Or.inl rfl) h2 hd
  rw [h3]
  refine ⟨h1, ?_⟩
  rw [← h1 (String.ofList m.filename)]
  constructor
  · intro h4
    exact (h4 _).mpr ⟨_, List.mem_singleton_self _, Or.inl rfl⟩
  · intro h4 x
    constructor
    · exact fun hx => ⟨_, List.mem_singleton_self _, Or.inr hx⟩
    · rintro ⟨i, hi, hx⟩
      rw [List.mem_singleton] at hi
      subst hi
      rcases hx with rfl | hx
      · exact h4
      · exact hx

/-- **C127** Without inputs: which products can be made. -/
theorem C127_no_inputs_iff (order : List String → List String) (k : Kind) (h : Hdr) :
    (∃ p, construct order k h none = .ok p) ↔
      k = .ndf ∨ (h.nfile ≠ none ∧ (k = .dark ∨ k = .kgain ∨ (k = .dnm ∧ h.file 0 ≠ none))) := by
  unfold construct fromHeader
  by_cases hn : h.nfile = none
  · cases k <;> simp [hn]
  · cases k
    case dnm =>
      cases hf : h.file 0 <;> simp [hn]
    all_goals simp [hn]

/-- **C127** A product made without inputs keeps the record it had. -/
theorem C127_no_inputs_record {order : List String → List String} {k : Kind} {h : Hdr} {p : Product}
    (hp : construct order k h none = .ok p) : p.hdr = h := by
  unfold construct fromHeader at hp
  by_cases hn : h.nfile = none
  · cases k <;> simp [hn] at hp
    rw [← hp]
  · cases k
    case dnm =>
      cases hf : h.file 0 <;> simp [hn, hf] at hp
      rw [← hp]
    all_goals simp [hn] at hp
    all_goals rw [← hp]

/-- **C127** A dark made without inputs has a fixed name, a k-gain has none and cannot be saved. -/
theorem C127_no_inputs_name {order : List String → List String} {h : Hdr} (hn : h.nfile ≠ none) :
    (∃ p, construct order .dark h none = .ok p ∧ p.filename = "DRK_CAL.fits".toList) ∧
    (∃ p, construct order .kgain h none = .ok p ∧ save p = .error .valueError) :=
  ⟨⟨_, if_neg hn, rfl⟩, ⟨_, if_neg hn, rfl⟩⟩

/-- **C127** Violated: without inputs but with a record in the header, the refusal is not the announced
`ValueError` but an accident: exactly for bad pixel maps (`None` is iterated), flux calibrations (an unset
variable) and noise maps whose record has no `FILE0`. -/
theorem C127_violated_accident (order : List String → List String) (k : Kind) (h : Hdr) (e : Error) :
    (construct order k h none = .error e ∧ e ≠ .valueError) ↔ h.nfile ≠ none ∧
      ((k = .bpm ∧ e = .typeError) ∨ (k = .flux ∧ e = .unboundLocal) ∨
        (k = .dnm ∧ h.file 0 = none ∧ e = .keyError)) := by
  unfold construct fromHeader
  by_cases hn : h.nfile = none
  · cases k <;> simp [hn] <;> intro h1 <;> simp [← h1]
  · cases k
    case dnm =>
      cases hf : h.file 0 with
      | none => cases e <;> simp [hn]
      | some f => cases e <;> simp [hn]
    all_goals cases e <;> simp [hn]

/-- **C127** Violated: a k-gain or neutral density calibration made without inputs has no name, so saving
it fails; an ND calibration needs no record at all. -/
theorem C127_violated_nameless (order : List String → List String) (h : Hdr) :
    (h.nfile ≠ none → ∃ p, construct order .kgain h none = .ok p ∧ save p = .error .valueError) ∧
    (∃ p, construct order .ndf h none = .ok p ∧ save p = .error .valueError ∧ p.hdr = h) := by
  refine ⟨fun hn => ⟨⟨h, []⟩, ?_, rfl⟩, ⟨h, []⟩, rfl, rfl, rfl⟩
  unfold construct fromHeader
  simp [hn]

/-- A dark from two frames. -/
example : (construct List.dedup .dark ⟨fun _ => none, none⟩
    (some [⟨"a_L2a.fits", ⟨fun _ => none, none⟩⟩, ⟨"b_L2a.fits", ⟨fun _ => none, none⟩⟩])).map
      (fun p => (p.hdr.nfile, p.hdr.file 0, p.hdr.file 1, p.filename)) =
    .ok (some 2, some "a_L2a.fits", some "b_L2a.fits", "b_DRK_CAL.fits".toList) := by
  decide +kernel

/-- A dark made with the header of an earlier product: the inputs are not recorded. -/
example : (construct List.dedup .dark ⟨fun i => if i = 0 then some "old.fits" else none, some 1⟩
    (some [⟨"a_L2a.fits", ⟨fun _ => none, none⟩⟩, ⟨"b_L2a.fits", ⟨fun _ => none, none⟩⟩])).map
      (fun p => (p.hdr.nfile, p.hdr.file 0, p.filename)) =
    .ok (some 1, some "old.fits", "b_DRK_CAL.fits".toList) := by
  decide +kernel

end Corgi.Products

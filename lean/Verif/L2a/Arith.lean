import Verif.Errors.Props
import Verif.Darks.Lsq
import Verif.L2a.Dq
import Verif.Common.Forall2
import Mathlib.Tactic.FieldSimp

/-!
# Arithmetic steps of L2a to L3: model, C39, C46, C55, C56, C58

`add_photon_noise`, `dark_subtraction`, `flat_division`, `convert_to_electrons`, `em_gain_division` (l2a_to_l2b.py) and
`divide_by_exptime` (l2b_to_l3.py). Pixel values are reals: the statements are about pixels with finite values; every
operation is pixel by pixel, so other pixels do not matter. Error layers are those of `Verif.Errors.Model`. All functions
work on a deep copy. The synthesized dark is also saved to disk (line 84): left out.
-/

noncomputable section

namespace Corgi.Arith

open Real

abbrev Ix := List ℕ

/-- What the steps use of a frame. -/
structure Fr where
  data : Ix → ℝ
  img : Errs.Img
  dq : Ix → ℕ
  exptime : ℝ
  emC : ℝ
  emA : ℝ
  emM : Option ℝ
  kgain : ℝ
  bunit : String

/-- A master dark, given or synthesized. -/
structure DarkCal where
  pcStat : Option String
  exptime : ℝ
  emC : ℝ
  kgain : ℝ
  shape : List ℕ
  data : Ix → ℝ
  err : Ix → ℝ
  dq : Ix → ℕ

structure Flat where
  shape : List ℕ
  data : Ix → ℝ
  err : Ix → ℝ

inductive Err
  | mixed | pcDark | other | shape | gain
  deriving DecidableEq, Repr

def ofErrs {α : Type} : Except Errs.Err α → Except Err α
  | .ok a => .ok a
  | .error _ => .error .shape

/-! ## Model -/

/-- lines 98-114: the subtraction itself, for one frame -/
def subFrame (track : Bool) (d : DarkCal) (f : Fr) : Except Err Fr :=
  match ofErrs (Errs.addError track ⟨d.shape, d.err⟩ "dark_error" f.img) with
  | .error e => .error e
  | .ok i => .ok { f with data := fun p => f.data p - d.data p, img := i, dq := fun p => f.dq p ||| d.dq p,
                          bunit := "Photoelectrons" }

/-- lines 61-63 -/
def uniform (fs : List Fr) : Bool := match fs with
  | [] => true
  | f :: _ => fs.all fun g => decide ((g.exptime, g.emC, g.kgain) = (f.exptime, f.emC, f.kgain))

/-- `dark_subtraction`, lines 44-116, with a `Dark` -/
def darkSub (track : Bool) (d : DarkCal) (fs : List Fr) : Except Err (List Fr) :=
  match fs with
  | [] => .error .other
  | f :: _ =>
    if uniform fs = false then .error .mixed
    else if d.pcStat ≠ none ∧ d.pcStat ≠ some "analog master dark" then .error .pcDark
    else if (d.exptime, d.emC, d.kgain) ≠ (f.exptime, f.emC, f.kgain) then .error .mixed
    else fs.mapM (subFrame track d)

/-- The gain of a frame: measured, applied if positive, commanded (lines 306-313; darks.py 810-817). -/
def emGain (f : Fr) : ℝ := match f.emM with
  | some g => g
  | none => if 0 < f.emA then f.emA else f.emC

/-- The noise maps, with errors and flags, all of the shape of the frames. -/
structure Maps where
  shape : List ℕ
  F : Ix → ℝ
  C : Ix → ℝ
  D : Ix → ℝ
  eF : Ix → ℝ
  eC : Ix → ℝ
  eD : Ix → ℝ
  qF : Ix → ℕ
  qC : Ix → ℕ
  qD : Ix → ℕ

open Classical in
/-- `build_synthesized_dark`, darks.py 806-871: with the gain and time of the first frame -/
def synthDark (m : Maps) (f : Fr) : Except Err DarkCal :=
  if (∃ p, m.D p < 0) ∨ (∃ p, m.C p < 0) ∨ emGain f < 1 then .error .gain
  else .ok { pcStat := none, exptime := f.exptime, emC := emGain f, kgain := f.kgain, shape := m.shape,
             data := fun p => m.F p / emGain f + f.exptime * m.D p + m.C p,
             err := fun p => Darks.synthErr (m.eF p) (m.eC p) (m.eD p) (emGain f) f.exptime,
             dq := fun p => Darks.synthDq (m.qF p) (m.qD p) (m.qC p) }

/-- `dark_subtraction` with `DetectorNoiseMaps` -/
def darkSubMaps (track : Bool) (m : Maps) (fs : List Fr) : Except Err (List Fr) :=
  match fs with
  | [] => .error .other
  | f :: _ =>
    if uniform fs = false then .error .mixed
    else match synthDark m f with
      | .error e => .error e
      | .ok d => fs.mapM (subFrame track d)

open Classical in
/-- `flat_division`, lines 118-155, for one frame. `junk` are the values of `1/0` and `0/0`, which are not numbers. -/
def flatFrame (track : Bool) (junk : Ix → ℝ) (F : Flat) (f : Fr) : Except Err Fr :=
  let inv : Ix → ℝ := fun p => if F.data p = 0 then junk p else 1 / F.data p
  match ofErrs (Errs.rescale ⟨F.shape, inv⟩ "FlatField" f.img) with
  | .error e => .error e
  | .ok i1 =>
    match ofErrs (Errs.addError track ⟨F.shape, fun p => if F.data p = 0 then junk p
        else f.data p * F.err p / F.data p ^ 2⟩ "FlatField_error" i1) with
    | .error e => .error e
    | .ok i2 => .ok { f with data := fun p => if F.data p = 0 then junk p else f.data p / F.data p, img := i2,
                             dq := fun p => if F.data p = 0 then f.dq p ||| 4 else f.dq p }

def flatDiv (track : Bool) (junk : Ix → ℝ) (F : Flat) (fs : List Fr) : Except Err (List Fr) :=
  fs.mapM (flatFrame track junk F)

/-- `convert_to_electrons`, lines 256-286, for one frame: the first error layer is computed, the other layers are those
of `np.zeros_like`. -/
def toElectrons (k ek : ℝ) (f : Fr) : Fr :=
  { f with data := fun p => f.data p * k,
           img := { f.img with layers := match f.img.layers with
                      | [] => []
                      | l :: ls => (fun p => sqrt ((k * l p) ^ 2 + (f.data p * ek) ^ 2)) :: ls.map fun _ _ => 0 },
           bunit := "detected EM electrons", kgain := k }

/-- `em_gain_division`, lines 288-327, for one frame -/
def emDiv (f : Fr) : Fr :=
  { f with data := fun p => f.data p / emGain f,
           img := { f.img with layers := f.img.layers.map fun l p => l p / emGain f },
           bunit := "detected electrons" }

/-- `divide_by_exptime`, l2b_to_l3.py 73-110, for one frame -/
def expDiv (f : Fr) : Except Err Fr :=
  match ofErrs (Errs.rescale ⟨f.img.shape, fun _ => 1 / f.exptime⟩ "normalized by the exposure time" f.img) with
  | .error e => .error e
  | .ok i => .ok { f with data := fun p => f.data p / f.exptime, img := i, bunit := "photoelectrons/s" }

open Classical in
/-- `add_photon_noise`, lines 8-42, for one pixel: data, total error (`none` = NaN). -/
def photNoise (g d : ℝ) (e : Option ℝ) : Option ℝ := do
  let e ← e
  if d < 0 then none
  else
    let ph := if 1 < g then sqrt d * sqrt 2 else sqrt d
    return sqrt (e ^ 2 + ph ^ 2)

/-! ## C39 -/

/-- A frame of one pixel and a measured gain. -/
def sample (gm : Option ℝ) (v : ℝ) : Fr :=
  { data := fun _ => v, img := ⟨[1, 1], [fun _ => 0], fun _ => none, []⟩, dq := fun _ => 0, exptime := 1, emC := 100,
    emA := 100, emM := gm, kgain := 8, bunit := "" }

open Errs (total individual)

theorem ofErrs_ok {α : Type} {x : Except Errs.Err α} {a : α} (h : ofErrs x = .ok a) : x = .ok a := by
  cases x with
  | error e => cases h
  | ok b => cases h; rfl

theorem subFrame_ok {track : Bool} {d : DarkCal} {f g : Fr} (h : subFrame track d f = .ok g) :
    ∃ i, Errs.addError track ⟨d.shape, d.err⟩ "dark_error" f.img = .ok i ∧
      g = { f with data := fun p => f.data p - d.data p, img := i, dq := fun p => f.dq p ||| d.dq p,
                   bunit := "Photoelectrons" } := by
  unfold subFrame at h
  cases hi : ofErrs (Errs.addError track ⟨d.shape, d.err⟩ "dark_error" f.img) with
  | error e => rw [hi] at h; cases h
  | ok i => rw [hi] at h; cases h; exact ⟨i, ofErrs_ok hi, rfl⟩

/-- What dark subtraction does to a frame. -/
def DarkSubtracted (d : DarkCal) (f g : Fr) : Prop :=
  (∀ p, g.data p + d.data p = f.data p) ∧ (∀ p b, (g.dq p).testBit b = ((f.dq p).testBit b || (d.dq p).testBit b)) ∧
    (∀ p, total g.img p = sqrt (total f.img p ^ 2 + d.err p ^ 2)) ∧ g.bunit = "Photoelectrons" ∧
    d.shape = f.img.shape ∧ g.exptime = f.exptime ∧ g.emC = f.emC ∧ g.kgain = f.kgain

theorem subFrame_spec {track : Bool} {d : DarkCal} {f g : Fr} (h : subFrame track d f = .ok g) : DarkSubtracted d f g := by
  obtain ⟨i, hi, rfl⟩ := subFrame_ok h
  have hfit := (Errs.addError_ok_iff track ⟨d.shape, d.err⟩ "dark_error" f.img).1 ⟨i, hi⟩
  refine ⟨fun p => by simp, fun p b => by simp, fun p => ?_, rfl, hfit.1.2, rfl, rfl, rfl⟩
  exact (Errs.addError_effect hi).2.2.2.1 p

theorem uniform_iff (f : Fr) (fs : List Fr) : uniform (f :: fs) = true ↔
    ∀ g ∈ f :: fs, g.exptime = f.exptime ∧ g.emC = f.emC ∧ g.kgain = f.kgain := by
  simp only [uniform, List.all_eq_true, decide_eq_true_eq, Prod.mk.injEq]

/-- **C39** Dark subtraction with a master dark: every frame is the output plus the dark, flags are the union, errors
add in quadrature, and the dark had the exposure time, gain and k gain of every frame. -/
theorem C39_dark {track : Bool} {d : DarkCal} {fs out : List Fr} (h : darkSub track d fs = .ok out) :
    List.Forall₂ (DarkSubtracted d) fs out ∧
      (∀ f ∈ fs, d.exptime = f.exptime ∧ d.emC = f.emC ∧ d.kgain = f.kgain) ∧
      (d.pcStat = none ∨ d.pcStat = some "analog master dark") := by
  cases fs with
  | nil => cases h
  | cons f fs =>
    unfold darkSub at h
    rcases ite_eq_iff.1 h with ⟨_, h⟩ | ⟨h1, h⟩
    · cases h
    rcases ite_eq_iff.1 h with ⟨_, h⟩ | ⟨h2, h⟩
    · cases h
    rcases ite_eq_iff.1 h with ⟨_, h⟩ | ⟨h3, h⟩
    · cases h
    rw [Bool.not_eq_false, uniform_iff] at h1
    rw [not_not, Prod.mk.injEq, Prod.mk.injEq] at h3
    refine ⟨(mapM_ok_iff.1 h).imp fun _ _ hh => subFrame_spec hh, fun g hg => ?_, by tauto⟩
    obtain ⟨a, b, c⟩ := h1 g hg
    rw [a, b, c]
    exact h3

/-- **C39** A master dark that differs in exposure time, gain or k gain from a frame, or is photon-counted, is rejected;
otherwise the call succeeds when the shapes fit. -/
theorem C39_dark_accepts_iff (track : Bool) (d : DarkCal) (fs : List Fr) (hne : fs ≠ [])
    (hs : ∀ f ∈ fs, Errs.Fits f.img ⟨d.shape, d.err⟩ ∧ f.img.layers ≠ []) :
    (∃ out, darkSub track d fs = .ok out) ↔
      (∀ f ∈ fs, d.exptime = f.exptime ∧ d.emC = f.emC ∧ d.kgain = f.kgain) ∧
      (d.pcStat = none ∨ d.pcStat = some "analog master dark") := by
  constructor
  · rintro ⟨out, h⟩
    exact (C39_dark h).2
  · rintro ⟨h1, h2⟩
    cases fs with
    | nil => exact absurd rfl hne
    | cons f fs =>
      have hf := h1 f (by simp)
      unfold darkSub
      dsimp only
      rw [if_neg, if_neg (by tauto), if_neg]
      · apply mapM_ok_exists.2
        intro g hg
        obtain ⟨i, hi⟩ := (Errs.addError_ok_iff track ⟨d.shape, d.err⟩ "dark_error" g.img).2 (hs g hg)
        unfold subFrame
        rw [hi]
        exact ⟨_, rfl⟩
      · rw [not_not, hf.1, hf.2.1, hf.2.2]
      · rw [Bool.not_eq_false, uniform_iff]
        intro g hg
        have := h1 g hg
        exact ⟨this.1.symm.trans hf.1, this.2.1.symm.trans hf.2.1, this.2.2.symm.trans hf.2.2⟩

/-- What flat division does to a frame. -/
def FlatDivided (F : Flat) (f g : Fr) : Prop :=
  (∀ p, F.data p ≠ 0 → g.data p * F.data p = f.data p) ∧
    (∀ p b, (g.dq p).testBit b = ((f.dq p).testBit b || (decide (F.data p = 0) && decide (b = 2)))) ∧
    (∀ p, F.data p ≠ 0 → total g.img p =
      sqrt ((total f.img p / F.data p) ^ 2 + (f.data p * F.err p / F.data p ^ 2) ^ 2)) ∧
    F.shape = f.img.shape

theorem testBit_four (b : ℕ) : (4 : ℕ).testBit b = decide (b = 2) := by
  rw [show (4 : ℕ) = 2 ^ 2 from rfl, Nat.testBit_two_pow]
  simp [eq_comm]

/-- **C39** Flat division. -/
theorem C39_flat {track : Bool} {junk : Ix → ℝ} {F : Flat} {fs out : List Fr} (h : flatDiv track junk F fs = .ok out) :
    List.Forall₂ (FlatDivided F) fs out := by
  refine (mapM_ok_iff.1 h).imp fun f g hg => ?_
  unfold flatFrame at hg
  dsimp only at hg
  cases h1 : ofErrs (Errs.rescale ⟨F.shape, fun p => if F.data p = 0 then junk p else 1 / F.data p⟩ "FlatField" f.img) with
  | error e => rw [h1] at hg; cases hg
  | ok i1 =>
    rw [h1] at hg
    dsimp only at hg
    cases h2 : ofErrs (Errs.addError track ⟨F.shape, fun p => if F.data p = 0 then junk p
        else f.data p * F.err p / F.data p ^ 2⟩ "FlatField_error" i1) with
    | error e => rw [h2] at hg; cases hg
    | ok i2 =>
      rw [h2] at hg
      cases hg
      obtain ⟨s1, t1, _⟩ := Errs.rescale_effect (ofErrs_ok h1)
      have e2 := Errs.addError_effect (ofErrs_ok h2)
      have hfit := ((Errs.addError_ok_iff _ _ _ _).1 ⟨i2, ofErrs_ok h2⟩).1.2
      refine ⟨fun p hp => ?_, fun p b => ?_, fun p hp => ?_, hfit.trans s1⟩
      · simp only [hp, if_false]; field_simp
      · by_cases hp : F.data p = 0
        · simp [hp, testBit_four]
        · simp [hp]
      · rw [e2.2.2.2.1, t1]
        simp only [hp, if_false]
        congr 2
        rw [mul_one_div]

/-- **C39** It succeeds when the shapes fit (two-dimensional data). -/
theorem C39_flat_accepts_iff (track : Bool) (junk : Ix → ℝ) (F : Flat) (fs : List Fr) (hl : ∀ f ∈ fs, f.img.layers ≠ []) :
    (∃ out, flatDiv track junk F fs = .ok out) ↔ ∀ f ∈ fs, F.shape.length = 2 ∧ F.shape = f.img.shape := by
  have hframe : ∀ f : Fr, f.img.layers ≠ [] →
      ((∃ g, flatFrame track junk F f = .ok g) ↔ F.shape.length = 2 ∧ F.shape = f.img.shape) := by
    intro f hf
    unfold flatFrame
    dsimp only
    by_cases hs : F.shape.length = 2 ∧ F.shape = f.img.shape
    · have hr : ∃ i1, Errs.rescale ⟨F.shape, fun p => if F.data p = 0 then junk p else 1 / F.data p⟩ "FlatField" f.img =
          .ok i1 ∧ i1.shape = f.img.shape ∧ i1.layers ≠ [] := by
        unfold Errs.rescale Errs.Arr.ndim
        rw [if_neg (by simp only [not_or, not_not]; exact hs)]
        exact ⟨_, rfl, rfl, by simpa using hf⟩
      obtain ⟨i1, hi1, hsh, hl1⟩ := hr
      obtain ⟨i2, hi2⟩ := (Errs.addError_ok_iff track ⟨F.shape, fun p => if F.data p = 0 then junk p
        else f.data p * F.err p / F.data p ^ 2⟩ "FlatField_error" i1).2 ⟨⟨Or.inl hs.1, hs.2.trans hsh.symm⟩, hl1⟩
      rw [hi1]
      simp only [ofErrs]
      rw [hi2]
      exact ⟨fun _ => hs, fun _ => ⟨_, rfl⟩⟩
    · refine ⟨?_, fun h => absurd h hs⟩
      rintro ⟨g, hg⟩
      unfold Errs.rescale Errs.Arr.ndim at hg
      rw [if_pos (by simp only; tauto)] at hg
      simp only [ofErrs] at hg
      cases hg
  constructor
  · rintro ⟨out, h⟩ f hf
    obtain ⟨g, _, hg⟩ := forall₂_left (mapM_ok_iff.1 h) hf
    exact (hframe f (hl f hf)).1 ⟨g, hg⟩
  · intro h
    exact mapM_ok_exists.2 fun f hf => (hframe f (hl f hf)).2 (h f hf)

/-- **C39** The relative variance of the output is the sum of those of the frame and of the flat. -/
theorem C39_flat_relative {F : Flat} {f g : Fr} (h : FlatDivided F f g) (p : Ix) (hF : F.data p ≠ 0) (hd : f.data p ≠ 0) :
    (total g.img p / g.data p) ^ 2 = (total f.img p / f.data p) ^ 2 + (F.err p / F.data p) ^ 2 := by
  obtain ⟨h1, _, h3, _⟩ := h
  have hg : g.data p = f.data p / F.data p := by rw [eq_div_iff hF]; exact h1 p hF
  rw [div_pow, h3 p hF, sq_sqrt (by positivity), hg]
  field_simp

/-- Not vacuous: a matching dark and a flat with a zero. -/
example : ∃ out, darkSub true ⟨some "analog master dark", 1, 100, 8, [1, 1], fun _ => 2, fun _ => 1, fun _ => 1⟩
    [sample none 5, sample (some 90) 6] = .ok out :=
  (C39_dark_accepts_iff _ _ _ (by simp) (by intro f hf; fin_cases hf <;> simp [sample, Errs.Fits])).2
    ⟨by intro f hf; fin_cases hf <;> simp [sample], Or.inr rfl⟩

example : ∃ out, flatDiv true (fun _ => 0) ⟨[1, 1], fun _ => 0, fun _ => 1⟩ [sample none 5] = .ok out :=
  (C39_flat_accepts_iff _ _ _ _ (by intro f hf; fin_cases hf; simp [sample])).2
    (by intro f hf; fin_cases hf; simp [sample])

/-! ## C58: the synthesized dark -/

theorem darkSubMaps_ok {track : Bool} {m : Maps} {fs out : List Fr} (h : darkSubMaps track m fs = .ok out) :
    ∃ f l d, fs = f :: l ∧ (∀ g ∈ fs, g.exptime = f.exptime ∧ g.emC = f.emC ∧ g.kgain = f.kgain) ∧
      synthDark m f = .ok d ∧ List.Forall₂ (DarkSubtracted d) fs out := by
  cases fs with
  | nil => cases h
  | cons f l =>
    unfold darkSubMaps at h
    rcases ite_eq_iff.1 h with ⟨_, h⟩ | ⟨h1, h⟩
    · cases h
    rw [Bool.not_eq_false, uniform_iff] at h1
    cases hd : synthDark m f with
    | error e => rw [hd] at h; cases h
    | ok d =>
      rw [hd] at h
      exact ⟨f, l, d, rfl, h1, hd, (mapM_ok_iff.1 h).imp fun _ _ hh => subFrame_spec hh⟩

/-- The dark expected for a frame of gain `g` and time `t`. -/
def Maps.dark (m : Maps) (g t : ℝ) (p : Ix) : ℝ := m.F p / g + t * m.D p + m.C p

theorem synthDark_ok {m : Maps} {f : Fr} {d : DarkCal} (h : synthDark m f = .ok d) :
    (∀ p, d.data p = m.dark (emGain f) f.exptime p) ∧ 1 ≤ emGain f ∧ (∀ p, 0 ≤ m.D p ∧ 0 ≤ m.C p) ∧ d.shape = m.shape ∧
      (∀ p, d.err p = sqrt (m.eF p ^ 2 / emGain f ^ 2 + f.exptime ^ 2 * m.eD p ^ 2 + m.eC p ^ 2)) ∧
      ∀ p, d.dq p = (m.qF p ||| m.qD p) ||| m.qC p := by
  unfold synthDark at h
  split_ifs at h with h1
  cases h
  simp only [not_or, not_exists, not_lt] at h1
  exact ⟨fun p => rfl, h1.2.2, fun p => ⟨h1.1 p, h1.2.1 p⟩, rfl, fun p => rfl, fun p => rfl⟩

/-- **C58** Every frame is corrected with the dark of the *first* frame's gain. -/
theorem C58_first_gain {track : Bool} {m : Maps} {fs out : List Fr} (h : darkSubMaps track m fs = .ok out) :
    ∃ f l, fs = f :: l ∧ List.Forall₂ (fun f' g => ∀ p, g.data p + m.dark (emGain f) f'.exptime p = f'.data p) fs out := by
  obtain ⟨f, l, d, hfs, hu, hd, hall⟩ := darkSubMaps_ok h
  refine ⟨f, l, hfs, ?_⟩
  rw [List.forall₂_iff_zip] at hall ⊢
  refine ⟨hall.1, fun {a b} hab p => ?_⟩
  have := (hall.2 hab).1 p
  rw [(synthDark_ok hd).1 p, ← (hu a (List.of_mem_zip hab).1).1] at this
  exact this

/-- **C58** Correct for every frame when all have the gain of the first. -/
theorem C58_same_gain_partial {track : Bool} {m : Maps} {fs out : List Fr} (h : darkSubMaps track m fs = .ok out)
    (hg : ∀ f ∈ fs, ∀ f' ∈ fs, emGain f = emGain f') :
    List.Forall₂ (fun f g => ∀ p, g.data p + m.dark (emGain f) f.exptime p = f.data p) fs out := by
  obtain ⟨f, l, hfs, hall⟩ := C58_first_gain h
  rw [List.forall₂_iff_zip] at hall ⊢
  refine ⟨hall.1, fun {a b} hab p => ?_⟩
  rw [hg a (List.of_mem_zip hab).1 f (by rw [hfs]; simp)]
  exact hall.2 hab p

/-- **C58** is violated: two frames of the same commanded gain with measured gains 100 and 200 pass the checks, the
second gets the dark of gain 100. -/
theorem C58_violated : ∃ (m : Maps) (out : List Fr), darkSubMaps false m [sample (some 100) 5, sample (some 200) 5] = .ok out ∧
    ∃ g ∈ out, ∃ p, g.data p + m.dark 200 1 p ≠ 5 ∧ out[1]? = some g := by
  set m : Maps := ⟨[1, 1], fun _ => 200, fun _ => 0, fun _ => 0, fun _ => 0, fun _ => 0, fun _ => 0, fun _ => 0, fun _ => 0,
    fun _ => 0⟩ with hm
  have hg : emGain (sample (some 100) 5) = 100 := rfl
  have hd : ∃ d, synthDark m (sample (some 100) 5) = .ok d := by
    unfold synthDark
    rw [if_neg (by rw [hg]; simp [hm])]
    exact ⟨_, rfl⟩
  obtain ⟨d, hd⟩ := hd
  have hsub : ∀ f ∈ [sample (some 100) 5, sample (some 200) 5], ∃ g, subFrame false d f = .ok g := by
    intro f hf
    obtain ⟨i, hi⟩ := (Errs.addError_ok_iff false ⟨d.shape, d.err⟩ "dark_error" f.img).2 (by
      rw [(synthDark_ok hd).2.2.2.1]
      fin_cases hf <;> simp [Errs.Fits, sample, hm])
    unfold subFrame
    rw [hi]
    exact ⟨_, rfl⟩
  obtain ⟨out, hout⟩ := mapM_ok_exists.2 hsub
  have hok : darkSubMaps false m [sample (some 100) 5, sample (some 200) 5] = .ok out := by
    unfold darkSubMaps
    dsimp only
    rw [if_neg (by rw [Bool.not_eq_false, uniform_iff]; intro g hg; fin_cases hg <;> simp [sample]), hd]
    exact hout
  refine ⟨m, out, hok, ?_⟩
  obtain ⟨f, l, hfs, hall⟩ := C58_first_gain hok
  cases hfs
  cases hall with
  | cons a hall =>
  cases hall with
  | cons b hall =>
  cases hall
  rename_i g0 g1
  refine ⟨g1, by simp, [], ?_, by simp⟩
  have := b []
  rw [hg] at this
  simp only [Maps.dark, hm, sample] at this ⊢
  intro h
  norm_num at this h
  linarith

/-! ## C46: conversions -/

/-- Data and all errors multiplied by a factor. -/
def Scaled (c : ℝ) (f g : Fr) : Prop := (∀ p, g.data p = c * f.data p) ∧ (∀ p, total g.img p = c * total f.img p) ∧ g.dq = f.dq

/-- **C46** `convert_to_electrons` with an exact gain multiplies data and total error by the gain. -/
theorem C46_electrons (k : ℝ) (hk : 0 < k) (f : Fr) (he : ∀ p, 0 ≤ total f.img p) : Scaled k f (toElectrons k 0 f) := by
  refine ⟨fun p => by simp [toElectrons, mul_comm], fun p => ?_, rfl⟩
  have := he p
  unfold toElectrons
  cases hl : f.img.layers with
  | nil => simp [total, hl]
  | cons l ls =>
    simp only [total, hl, List.head?_cons, Option.map_some, Option.getD_some] at this ⊢
    rw [mul_zero, zero_pow (two_ne_zero), add_zero, sqrt_sq (by positivity)]

/-- In general: the total error is that of a product. -/
theorem C46_electrons_error (k ek : ℝ) (f : Fr) (hl : f.img.layers ≠ []) (p : Ix) :
    total (toElectrons k ek f).img p = sqrt ((k * total f.img p) ^ 2 + (f.data p * ek) ^ 2) := by
  unfold toElectrons
  cases h : f.img.layers with
  | nil => exact absurd h hl
  | cons l ls => simp [total, h]

/-- C46: the gain that is divided out is the measured one, else the applied one if positive, else the commanded one. -/
theorem C46_gain (f : Fr) : (∀ g, f.emM = some g → emGain f = g) ∧ (f.emM = none → 0 < f.emA → emGain f = f.emA) ∧
    (f.emM = none → f.emA ≤ 0 → emGain f = f.emC) := by
  unfold emGain
  refine ⟨fun g h => by rw [h], fun h h0 => ?_, fun h h0 => ?_⟩
  · rw [h]; exact if_pos h0
  · rw [h]; exact if_neg (not_lt.2 h0)

/-- **C46** `em_gain_division` divides data and error by the gain. -/
theorem C46_em (f : Fr) : Scaled (1 / emGain f) f (emDiv f) := by
  refine ⟨fun p => by simp only [emDiv]; ring, fun p => ?_, rfl⟩
  unfold emDiv
  cases hl : f.img.layers with
  | nil => simp [total, hl]
  | cons l ls => simp only [total, hl, List.map_cons, List.head?_cons, Option.map_some, Option.getD_some]; ring

/-- **C46** `divide_by_exptime` divides by the exposure time. -/
theorem C46_exptime {f g : Fr} (h : expDiv f = .ok g) : Scaled (1 / f.exptime) f g := by
  unfold expDiv at h
  cases hi : ofErrs (Errs.rescale ⟨f.img.shape, fun _ => 1 / f.exptime⟩ "normalized by the exposure time" f.img) with
  | error e => rw [hi] at h; cases h
  | ok i =>
    rw [hi] at h
    cases h
    refine ⟨fun p => by ring, fun p => ?_, rfl⟩
    rw [(Errs.rescale_effect (ofErrs_ok hi)).2.1 p, mul_comm]

/-- `divide_by_exptime` accepts two-dimensional frames only. -/
theorem C46_exptime_accepts_iff (f : Fr) : (∃ g, expDiv f = .ok g) ↔ f.img.shape.length = 2 := by
  unfold expDiv Errs.rescale Errs.Arr.ndim
  by_cases h : f.img.shape.length = 2
  · rw [if_neg (by simp [h])]
    exact ⟨fun _ => h, fun _ => ⟨_, rfl⟩⟩
  · rw [if_pos (Or.inl h)]
    simp [ofErrs, h]

/-- **C46** The signal-to-noise ratio is unchanged by a positive factor. -/
theorem C46_snr {c : ℝ} (hc : 0 < c) {f g : Fr} (h : Scaled c f g) (p : Ix) :
    g.data p / total g.img p = f.data p / total f.img p := by
  rw [h.1, h.2.1, mul_div_mul_left _ _ hc.ne']

/-- What is observed of a frame after the steps. -/
def Same (f g : Fr) : Prop :=
  f.data = g.data ∧ f.img.layers = g.img.layers ∧ f.dq = g.dq ∧ f.exptime = g.exptime ∧ f.emC = g.emC ∧ f.emA = g.emA ∧
    f.emM = g.emM ∧ f.kgain = g.kgain

/-- **C46** Conversion and division by the EM gain commute, also with an uncertain k gain. -/
theorem C46_electrons_em (k ek : ℝ) (f : Fr) (hg : 0 < emGain f) :
    Same (emDiv (toElectrons k ek f)) (toElectrons k ek (emDiv f)) := by
  refine ⟨?_, ?_, rfl, rfl, rfl, rfl, rfl, rfl⟩
  · funext p
    show f.data p * k / emGain f = f.data p / emGain f * k
    ring
  · show (toElectrons k ek f).img.layers.map (fun l p => l p / emGain f) = _
    unfold toElectrons emDiv
    cases hl : f.img.layers with
    | nil => rfl
    | cons l ls =>
      simp only [List.map_cons, List.map_map, List.cons.injEq]
      constructor
      · funext p
        rw [show (k * (l p / emGain f)) ^ 2 + (f.data p / emGain f * ek) ^ 2 =
          ((k * l p) ^ 2 + (f.data p * ek) ^ 2) / emGain f ^ 2 by ring, sqrt_div (by positivity), sqrt_sq hg.le]
      · apply List.map_congr_left
        intro l' _
        funext p
        simp

theorem expDiv_eq {f g : Fr} (h : expDiv f = .ok g) : g.data = (fun p => f.data p / f.exptime) ∧
    g.img.layers = f.img.layers.map (fun l p => l p * (1 / f.exptime)) ∧ g.dq = f.dq ∧ g.exptime = f.exptime ∧ g.emC = f.emC ∧
    g.emA = f.emA ∧ g.emM = f.emM ∧ g.kgain = f.kgain ∧ g.img.shape = f.img.shape := by
  unfold expDiv Errs.rescale at h
  split_ifs at h with hs
  · cases h
  · cases h
    exact ⟨rfl, rfl, rfl, rfl, rfl, rfl, rfl, rfl, rfl⟩

/-- **C46** Division by the exposure time commutes with both. -/
theorem C46_em_exptime {f g g' : Fr} (h : expDiv f = .ok g) (h' : expDiv (emDiv f) = .ok g') : Same (emDiv g) g' := by
  obtain ⟨a1, a2, a3, a4, a5, a6, a7, a8, _⟩ := expDiv_eq h
  obtain ⟨b1, b2, b3, b4, b5, b6, b7, b8, _⟩ := expDiv_eq h'
  have hg : emGain g = emGain f := by unfold emGain; rw [a5, a6, a7]
  refine ⟨?_, ?_, ?_, ?_, ?_, ?_, ?_, ?_⟩
  · rw [b1]; funext p
    show g.data p / emGain g = f.data p / emGain f / f.exptime
    rw [a1, hg]; ring
  · rw [b2]
    show g.img.layers.map (fun l p => l p / emGain g) = (f.img.layers.map fun l p => l p / emGain f).map _
    rw [a2, hg, List.map_map, List.map_map]
    apply List.map_congr_left
    intro l _; funext p
    simp only [Function.comp]
    show l p * (1 / f.exptime) / emGain f = l p / emGain f * (1 / f.exptime)
    ring
  · rw [b3]; exact a3
  · rw [b4]; exact a4
  · rw [b5]; exact a5
  · rw [b6]; exact a6
  · rw [b7]; exact a7
  · rw [b8]; exact a8

theorem C46_electrons_exptime {k ek : ℝ} {f g g' : Fr} (ht : 0 < f.exptime) (h : expDiv f = .ok g)
    (h' : expDiv (toElectrons k ek f) = .ok g') : Same (toElectrons k ek g) g' := by
  obtain ⟨a1, a2, a3, a4, a5, a6, a7, a8, _⟩ := expDiv_eq h
  obtain ⟨b1, b2, b3, b4, b5, b6, b7, b8, _⟩ := expDiv_eq h'
  refine ⟨?_, ?_, ?_, ?_, ?_, ?_, ?_, ?_⟩
  · rw [b1]; funext p
    show g.data p * k = f.data p * k / f.exptime
    rw [a1]; ring
  · rw [b2]
    unfold toElectrons
    simp only
    rw [a2, a1]
    cases hl : f.img.layers with
    | nil => rfl
    | cons l ls =>
      simp only [List.map_cons, List.map_map, List.cons.injEq]
      constructor
      · funext p
        rw [show (k * (l p * (1 / f.exptime))) ^ 2 + (f.data p / f.exptime * ek) ^ 2 =
          ((k * l p) ^ 2 + (f.data p * ek) ^ 2) / f.exptime ^ 2 by ring, sqrt_div (by positivity), sqrt_sq ht.le]
        ring
      · apply List.map_congr_left
        intro l' _
        funext p
        simp
  · rw [b3]; exact a3
  · rw [b4]; exact a4
  · rw [b5]; exact a5
  · rw [b6]; exact a6
  · rw [b7]; exact a7
  · rw [b8]; rfl

/-- Not vacuous. -/
example : ∃ g, expDiv (sample none 5) = .ok g := (C46_exptime_accepts_iff _).2 rfl
example : emGain (sample none 5) = 100 := by simp [emGain, sample]

/-! ## C56: individual layers -/

/-- **C56** is violated: with tracking on, `convert_to_electrons` sets all individual error layers to zero; the names
stay. -/
theorem C56_violated (k ek : ℝ) (f : Fr) : ∀ l ∈ individual (toElectrons k ek f).img, ∀ p, l p = 0 := by
  intro l hl p
  unfold toElectrons at hl
  cases h : f.img.layers with
  | nil => simp [individual, h] at hl
  | cons a ls =>
    simp only [individual, h, List.tail_cons, List.mem_map] at hl
    obtain ⟨_, _, rfl⟩ := hl
    rfl

/-- Number and names of the layers are kept. -/
theorem C56_names_partial (k ek : ℝ) (f : Fr) : (toElectrons k ek f).img.names = f.img.names ∧
    (toElectrons k ek f).img.layers.length = f.img.layers.length := by
  refine ⟨rfl, ?_⟩
  unfold toElectrons
  cases h : f.img.layers <;> simp

/-- The variance that the individual layers do not explain: all of it after the conversion. -/
theorem C56_unexplained (k : ℝ) (f : Fr) (p : Ix) :
    Errs.unexplained (toElectrons k 0 f).img p = k ^ 2 * total f.img p ^ 2 := by
  have h0 : ((individual (toElectrons k 0 f).img).map fun l => l p ^ 2).sum = 0 := by
    apply List.sum_eq_zero
    intro x hx
    obtain ⟨l, hl, rfl⟩ := List.mem_map.1 hx
    rw [C56_violated k 0 f l hl p]; norm_num
  unfold Errs.unexplained
  rw [h0, sub_zero]
  by_cases hl : f.img.layers = []
  · simp [toElectrons, total, hl]
  · rw [C46_electrons_error k 0 f hl, sq_sqrt (by positivity)]; ring

/-- The other two conversions keep the accounting. -/
theorem C56_em_partial (f : Fr) (p : Ix) :
    Errs.unexplained (emDiv f).img p = Errs.unexplained f.img p / emGain f ^ 2 := by
  unfold Errs.unexplained
  rw [(C46_em f).2.1 p]
  have : ((individual (emDiv f).img).map fun l => l p ^ 2) =
      ((individual f.img).map fun l => l p ^ 2).map fun x => x * (1 / emGain f ^ 2) := by
    unfold individual emDiv
    rw [← List.map_tail, List.map_map, List.map_map]
    apply List.map_congr_left
    intro l _
    simp only [Function.comp]
    rw [div_pow]; ring
  rw [this, List.sum_map_mul_right]
  simp only [List.map_id']
  ring

/-! ## C55: photon noise -/

/-- **C55** For data that are not negative: the photon variance, doubled with EM gain, is added. -/
theorem C55_partial (g d e : ℝ) (hd : 0 ≤ d) :
    photNoise g d (some e) = some (sqrt (e ^ 2 + (if 1 < g then 2 else 1) * d)) := by
  unfold photNoise
  simp only [bind, Option.bind, pure, if_neg (not_lt.2 hd)]
  congr 3
  split_ifs
  · rw [mul_pow, sq_sqrt hd, sq_sqrt (by norm_num)]; ring
  · rw [sq_sqrt hd, one_mul]

/-- **C55** is violated: a pixel with a negative value, as bias subtraction gives for half of the dark pixels, loses its
error for good. -/
theorem C55_violated (g d : ℝ) (e : Option ℝ) (hd : d < 0) : photNoise g d e = none := by
  unfold photNoise
  cases e with
  | none => rfl
  | some e => simp only [bind, Option.bind, if_pos hd]

/-- Whatever terms are added later. -/
theorem C55_stays (g : ℝ) (l : List ℝ) : l.foldl (fun e d => photNoise g d e) none = none := by
  induction l with
  | nil => rfl
  | cons d l ih => exact ih

end Corgi.Arith

import Verif.Common.Except
import Verif.Psf.Northup

/-!
# `do_psf_subtraction` (l3_to_l4.py 402-643): model and C99

pyklip's result (data and header) is an input of the model. A header maps keywords to values of an arbitrary type.
Cropping is C52, the masking of flagged pixels `nan_flags`; here are the choice of frames and mode, and the assembly of
the product.
-/

namespace Corgi.PsfSub

inductive Err
  | noCt | noScience | badMode
  deriving DecidableEq

structure Frame where
  psfref : ℤ
  id : ℕ
  deriving DecidableEq

/-- lines 470-489 -/
def select (frames : List Frame) (refs : Option (List Frame)) : Except Err (List Frame × Option (List Frame)) :=
  match refs with
  | some r => if frames = [] then .error .noScience else .ok (frames, some r)
  | none =>
    let sci := frames.filter fun f => decide (f.psfref = 0)
    let ref := frames.filter fun f => decide (f.psfref = 1)
    if sci = [] then .error .noScience else .ok (sci, if ref = [] then none else some ref)

/-- lines 491-501 -/
def chooseMode (mode : Option String) (nSci : ℕ) (hasRef : Bool) : Except Err String :=
  match mode with
  | none => .ok (if hasRef && nSci == 1 then "RDI" else if hasRef then "ADI+RDI" else "ADI")
  | some m => if m ∈ ["RDI", "ADI+RDI", "ADI"] then .ok m else .error .badMode

/-- lines 464-501: frames, references and mode given to pyklip -/
def plan (frames : List Frame) (refs : Option (List Frame)) (mode : Option String) (thrupt core ct : Bool) :
    Except Err (List Frame × Option (List Frame) × String) :=
  if (thrupt || core) && !ct then .error .noCt
  else match select frames refs with
    | .error e => .error e
    | .ok (sci, ref) => match chooseMode mode sci.length ref.isSome with
      | .error e => .error e
      | .ok m => .ok (sci, ref, m)

/-! ## Which frames are used -/

/-- **C99.** Without a reference dataset the frames are divided by PSFREF, in order; there must be a science frame. -/
theorem C99_divided (frames : List Frame) (sci : List Frame) (ref : Option (List Frame)) :
    select frames none = .ok (sci, ref) ↔
      (∃ f ∈ frames, f.psfref = 0) ∧ sci.Sublist frames ∧ (∀ f, f ∈ sci ↔ f ∈ frames ∧ f.psfref = 0) ∧
      sci = frames.filter (fun f => f.psfref = 0) ∧
      (ref = none ∧ (∀ f ∈ frames, f.psfref ≠ 1) ∨
        ∃ r, ref = some r ∧ r = frames.filter (fun f => f.psfref = 1) ∧ r ≠ []) := by
  unfold select
  dsimp only
  have hs : frames.filter (fun f => decide (f.psfref = 0)) = [] ↔ ¬ ∃ f ∈ frames, f.psfref = 0 := by
    simp [List.filter_eq_nil_iff]
  have hr : frames.filter (fun f => decide (f.psfref = 1)) = [] ↔ ∀ f ∈ frames, f.psfref ≠ 1 := by
    simp [List.filter_eq_nil_iff]
  constructor
  · intro h
    by_cases h0 : frames.filter (fun f => decide (f.psfref = 0)) = []
    · rw [if_pos h0] at h; cases h
    · rw [if_neg h0] at h
      injection h with h
      obtain ⟨rfl, rfl⟩ := Prod.mk.inj h
      refine ⟨by_contra fun hc => h0 (hs.2 hc), List.filter_sublist, fun f => by simp, rfl, ?_⟩
      by_cases h1 : frames.filter (fun f => decide (f.psfref = 1)) = []
      · left; rw [if_pos h1]; exact ⟨rfl, hr.1 h1⟩
      · right; rw [if_neg h1]; exact ⟨_, rfl, rfl, h1⟩
  · rintro ⟨h0, -, -, rfl, h⟩
    rw [if_neg fun hc => hs.1 hc h0]
    rcases h with ⟨rfl, h1⟩ | ⟨r, rfl, rfl, h1⟩
    · rw [if_pos (hr.2 h1)]
    · rw [if_neg h1]

/-- **C99.** The mode is the one asked for; otherwise RDI for one science frame with references, ADI+RDI for several, ADI
without references. Nothing else is returned. -/
theorem C99_mode (mode : Option String) (n : ℕ) (hasRef : Bool) (m : String) :
    chooseMode mode n hasRef = .ok m ↔
      (mode = some m ∧ (m = "RDI" ∨ m = "ADI+RDI" ∨ m = "ADI")) ∨
      (mode = none ∧ ((hasRef = true ∧ n = 1 ∧ m = "RDI") ∨ (hasRef = true ∧ n ≠ 1 ∧ m = "ADI+RDI") ∨
        (hasRef = false ∧ m = "ADI"))) := by
  unfold chooseMode
  cases mode with
  | none =>
    cases hasRef with
    | false => simp [eq_comm]
    | true =>
      by_cases h : n = 1
      · subst h
        constructor
        · intro h; right; cases h; simp
        · rintro (⟨h, -⟩ | h)
          · cases h
          · simp at h; simp [h]
      · constructor
        · intro h'; right; simp [h] at h' ⊢; exact h'.symm
        · rintro (⟨h, -⟩ | h')
          · cases h
          · simp [h] at h' ⊢; exact h'.symm
  | some s =>
    simp only [List.mem_cons, List.not_mem_nil, or_false, Option.some.injEq, reduceCtorEq, false_and]
    split_ifs with h
    · simp only [Except.ok.injEq]
      constructor
      · rintro rfl; exact ⟨rfl, h⟩
      · rintro ⟨rfl, -⟩; rfl
    · simp only [false_iff, not_and]
      rintro rfl; exact h

/-- **C99.** The core-throughput calibration is required exactly if something is to be measured with it. -/
theorem C99_calibration (frames : List Frame) (refs : Option (List Frame)) (mode : Option String) (thrupt core ct : Bool) :
    plan frames refs mode thrupt core ct = .error .noCt ↔ (thrupt = true ∨ core = true) ∧ ct = false := by
  unfold plan
  constructor
  · intro h
    by_cases hc : ((thrupt || core) && !ct) = true
    · simpa using hc
    · rw [if_neg hc] at h
      exfalso
      have hs : ∀ e, select frames refs = .error e → e = .noScience := by
        intro e he
        unfold select at he
        cases refs <;> simp only at he <;> split_ifs at he <;> cases he <;> rfl
      have hm : ∀ n b e, chooseMode mode n b = .error e → e = .badMode := by
        intro n b e he
        unfold chooseMode at he
        cases mode <;> simp only at he
        · cases he
        · split_ifs at he; cases he; rfl
      cases hse : select frames refs with
      | error e =>
        rw [hse] at h; dsimp only at h
        have := hs e hse; subst this; cases h
      | ok p =>
        rw [hse] at h; dsimp only at h
        cases hmo : chooseMode mode p.1.length p.2.isSome with
        | error e =>
          rw [hmo] at h; dsimp only at h
          have := hm _ _ e hmo; subst this; cases h
        | ok m => rw [hmo] at h; cases h
  · rintro ⟨h1, h2⟩
    rw [if_pos (by simpa [h2] using h1)]

/-- **C99, violated.** With an explicit reference dataset the reference frames of the input are treated as science. -/
theorem C99_violated_given (frames r : List Frame) (hne : frames ≠ []) (mode : Option String) (m : String)
    (hm : chooseMode mode frames.length true = .ok m) :
    plan frames (some r) mode false false false = .ok (frames, some r, m) := by
  unfold plan select
  simp [hne, hm]

/-- **C99, violated.** Frames whose PSFREF is neither 0 nor 1 are dropped without notice. -/
theorem C99_violated_dropped (frames : List Frame) (f : Frame) (h0 : f.psfref ≠ 0) (h1 : f.psfref ≠ 1) :
    select (frames ++ [f]) none = select frames none := by
  unfold select
  simp [List.filter_append, h0, h1]

/-- **C99, violated.** A single frame without references: ADI is chosen although nothing is left to build a PSF from; and
RDI is accepted without references. -/
theorem C99_violated_library (f : Frame) (hf : f.psfref = 0) :
    plan [f] none none false false false = .ok ([f], none, "ADI") ∧
    plan [f] none (some "RDI") false false false = .ok ([f], none, "RDI") := by
  simp [plan, select, chooseMode, hf]

example : plan [⟨1, 0⟩, ⟨0, 1⟩, ⟨0, 2⟩] none none false false false = .ok ([⟨0, 1⟩, ⟨0, 2⟩], some [⟨1, 0⟩], "ADI+RDI") := by decide +kernel

/-! ## Pixels of the product -/

structure Pix where
  data : Option ℚ
  err : Option ℚ
  dq : ℕ
  deriving DecidableEq

/-- lines 539-575: errors and flags of zeros, then `flag_nans(1)` and `nan_flags(threshold=1)` -/
def product (v : Option ℚ) : Pix :=
  let p : Pix := ⟨v, some 0, 0⟩
  let p := if p.data.isNone then { p with dq := p.dq ||| 1 } else p
  if 1 ≤ p.dq then { p with data := none, err := none } else p

/-- **C99.** Data are pyklip's; a pixel is flagged exactly if it is not a number, and then its error is not one either. -/
theorem C99_pixel (v : Option ℚ) :
    (product v).data = v ∧ ((product v).dq = 1 ↔ v = none) ∧ ((product v).dq = 0 ↔ v ≠ none) ∧
    ((product v).err = none ↔ v = none) := by
  cases v <;> simp [product]

/-- **C99, violated.** Every valid pixel of the product has error zero. -/
theorem C99_violated_err (v : ℚ) : (product (some v)).err = some 0 := by simp [product]

/-! ## Header of the product -/

/-- lines 543-557 -/
def header {V : Type} (first pyklip : String → Option V) : String → Option V :=
  let merged := fun k => if k ∈ ["PSFCENTX", "PSFCENTY", "CREATOR", "CTYPE3"] then first k else (pyklip k).or (first k)
  Function.update (Function.update merged "STARLOCX" (pyklip "PSFCENTX")) "STARLOCY" (pyklip "PSFCENTY")

/-- **C99.** The star position is pyklip's centre; other cards are pyklip's where it has them, else those of the first
science frame. -/
theorem C99_header {V : Type} (first pyklip : String → Option V) (k : String) :
    header first pyklip "STARLOCX" = pyklip "PSFCENTX" ∧ header first pyklip "STARLOCY" = pyklip "PSFCENTY" ∧
    (k ∉ ["STARLOCX", "STARLOCY", "PSFCENTX", "PSFCENTY", "CREATOR", "CTYPE3"] → ∀ v,
      (header first pyklip k = some v ↔ pyklip k = some v ∨ (pyklip k = none ∧ first k = some v))) ∧
    (k ∈ ["PSFCENTX", "PSFCENTY", "CREATOR", "CTYPE3"] → header first pyklip k = first k) := by
  refine ⟨?_, ?_, ?_, ?_⟩
  · simp [header, Function.update]
  · simp [header]
  · intro hk v
    simp only [List.mem_cons, List.not_mem_nil, or_false, not_or] at hk
    simp only [header, Function.update, hk, List.mem_cons, List.not_mem_nil, or_false]
    simp
  · intro hk
    simp only [List.mem_cons, List.not_mem_nil, or_false] at hk
    rcases hk with rfl | rfl | rfl | rfl <;> simp [header, Function.update]

/-- The files a header names: `FILE0` to `FILE{n-1}`, `n` being `DRPNFILE` (as written for every other product). -/
def parents (h : String → Option (ℕ ⊕ String)) : Option (List (Option (ℕ ⊕ String))) :=
  match h "DRPNFILE" with
  | some (.inl n) => some ((List.range n).map fun i => h s!"FILE{i}")
  | _ => none

/-- **C99, violated.** pyklip's count replaces that of the first frame but its names go to other cards (`FILE_0`, ...):
the header of the product claims two parents, names the first frame's, and has no second. -/
theorem C99_violated_parents :
    let first : String → Option (ℕ ⊕ String) := fun k =>
      if k = "DRPNFILE" then some (.inl 1) else if k = "FILE0" then some (.inr "raw0.fits") else none
    let pyklip : String → Option (ℕ ⊕ String) := fun k =>
      if k = "DRPNFILE" then some (.inl 2) else if k = "FILE_0" then some (.inr "a.fits_INT1.fits")
      else if k = "FILE_1" then some (.inr "b.fits_INT1.fits") else none
    parents (header first pyklip) = some [some (.inr "raw0.fits"), none] := by decide +kernel

/-! ## Astrometry of the product -/

open Corgi.Sky Corgi.Northup in
/-- CRPIX is moved to the star (pyklip's centre plus one), CD and CRVAL are those of the first frame. -/
noncomputable def productWcs (w : Wcs) (center : ℝ × ℝ) : Wcs :=
  { w with crpix1 := center.1 + 1, crpix2 := center.2 + 1 }

open Corgi.Sky Corgi.Northup Real in
/-- **C99, violated.** pyklip turns the frames by ROLL so that north is up, but the header keeps the matrix of the first
frame: with equal scales and a detector without north angle, one pixel up is a step to the north in the header exactly if
the first frame was not rolled. -/
theorem C99_violated_cd (rows cols : ℕ) (a : Astrom) (p : Pointing) (center : ℝ × ℝ) (hs : 0 < a.scaleX)
    (he : a.scaleX = a.scaleY) (hn : a.northangle = 0) (c r : ℝ) :
    let w := productWcs (createWcs rows cols a p) center
    rot (p.roll * π / 180) (sin (p.roll * π / 180), cos (p.roll * π / 180)) = (0, 1) ∧
    (plane w c (r + 1) = ((plane w c r).1, (plane w c r).2 + deg a.scaleX) ↔ cos (p.roll * π / 180) = 1) := by
  dsimp only
  have e : vertAng a p = p.roll * π / 180 := by unfold vertAng; rw [hn, zero_add]
  have h1 := sin_sq_add_cos_sq (p.roll * π / 180)
  constructor
  · simp only [rot]
    apply Prod.ext <;> dsimp only
    · ring
    · linear_combination h1
  · simp only [productWcs, plane, createWcs, e, Prod.mk.injEq, deg, ← he]
    constructor
    · rintro ⟨-, h⟩
      have : a.scaleX * (cos (p.roll * π / 180) - 1) = 0 := by linear_combination 3600000 * h
      have := (mul_eq_zero.1 this).resolve_left hs.ne'
      linarith
    · intro h
      rw [h] at h1
      have h0 : sin (p.roll * π / 180) = 0 := pow_eq_zero_iff two_ne_zero |>.1 (by linarith)
      rw [h, h0]
      constructor <;> ring

open Corgi.Sky in
/-- **C99, violated.** The star's sky position becomes CRVAL: right exactly if the star was on the reference pixel. -/
theorem C99_violated_crpix (w : Wcs) (star center : ℝ × ℝ) (hd : w.cd11 * w.cd22 - w.cd12 * w.cd21 ≠ 0) :
    plane (productWcs w center) center.1 center.2 = plane w star.1 star.2 ↔
      star = (w.crpix1 - 1, w.crpix2 - 1) := by
  have z : plane (productWcs w center) center.1 center.2 = (0, 0) := by
    simp only [plane, productWcs]; apply Prod.ext <;> dsimp only <;> ring
  rw [z]
  constructor
  · intro h
    have a := congrArg Prod.fst h
    have b := congrArg Prod.snd h
    simp only [plane] at a b
    have k1 : (w.cd11 * w.cd22 - w.cd12 * w.cd21) * (star.1 + 1 - w.crpix1) = 0 := by
      linear_combination w.cd12 * b - w.cd22 * a
    have k2 : (w.cd11 * w.cd22 - w.cd12 * w.cd21) * (star.2 + 1 - w.crpix2) = 0 := by
      linear_combination w.cd21 * a - w.cd11 * b
    apply Prod.ext <;> dsimp only
    · linarith [(mul_eq_zero.1 k1).resolve_left hd]
    · linarith [(mul_eq_zero.1 k2).resolve_left hd]
  · intro h
    rw [h]; simp only [plane]
    apply Prod.ext <;> dsimp only <;> ring

end Corgi.PsfSub

import Verif.Common.Except
import Mathlib.Data.List.Sort
import Mathlib.Data.Rat.Defs
import Mathlib.Algebra.Order.Field.Rat
import Mathlib.Analysis.SpecialFunctions.Trigonometric.Basic
import Mathlib.Tactic.FieldSimp
import Mathlib.Tactic.Ring
import Mathlib.Tactic.Linarith

/-!
# `PyKLIPDataset` (data.py 1999-2408): model and C98

Images have an arbitrary type; pyklip's `align_and_scale(image, new_center, old_center)` is an arbitrary function.
Cubes have at least one integration. `frame.filename` is the name without directories.
-/

namespace Corgi.Pyklip

inductive Err
  | empty | telescope | instrument | ndim | filter | shape | scale
  deriving DecidableEq

structure Frame (I : Type) where
  telescop : Option String
  instrume : String
  cfam : String
  ndim : ℕ
  /-- the integrations (one for two-dimensional data) -/
  ints : List I
  rows : ℕ
  cols : ℕ
  /-- mas per pixel -/
  pltscale : ℚ
  star : ℚ × ℚ
  roll : ℚ
  filename : String

variable {I : Type}

/-- `wave_hlc`, in nm (line 2048). -/
def wave (cfam : String) : Option ℚ := if cfam = "1F" then some 575 else none

/-- Checks of one science frame (lines 2186-2217). -/
def checkFrame (f : Frame I) : Except Err Unit :=
  if f.telescop.any (· ≠ "ROMAN") then .error .telescope
  else if f.instrume ≠ "CGI" then .error .instrument
  else if f.ndim ≠ 2 ∧ f.ndim ≠ 3 then .error .ndim
  else if (wave f.cfam).isNone then .error .filter
  else .ok ()

/-- `[STARLOCX, STARLOCY] * NINTS` (line 2205). -/
def flatCenters (f : Frame I) : List ℚ := (List.replicate f.ints.length [f.star.1, f.star.2]).flatten

/-- `reshape(-1, 2)` -/
def pairUp : List ℚ → List (ℚ × ℚ)
  | a :: b :: r => (a, b) :: pairUp r
  | _ => []

/-- line 2210 -/
def names (f : Frame I) : List String :=
  (List.range f.ints.length).map fun j => f.filename ++ "_INT" ++ toString (j + 1)

/-- The middle of the array as (x, y) (lines 2248-2249). -/
def middle (rows cols : ℕ) : ℚ × ℚ := (((cols : ℚ) - 1) / 2, ((rows : ℚ) - 1) / 2)

/-- line 2201; called arcsec there -/
def pixScale (f : Frame I) : ℚ := f.pltscale * 1000

structure Data (I : Type) where
  input : List I
  centers : List (ℚ × ℚ)
  filenames : List String
  pas : List ℚ
  wvs : List ℚ
  pixscale : ℚ
  deriving DecidableEq

/-- The science half of `readdata` (lines 2140-2264). -/
def readSci (align : I → ℚ × ℚ → ℚ × ℚ → I) (frames : List (Frame I)) : Except Err (Data I) :=
  match frames with
  | [] => .error .empty
  | f₀ :: rest =>
    match (f₀ :: rest).mapM checkFrame with
    | .error e => .error e
    | .ok _ =>
      if rest.any fun f => f.rows ≠ f₀.rows ∨ f.cols ≠ f₀.cols then .error .shape
      else if rest.any fun f => pixScale f ≠ pixScale f₀ then .error .scale
      else
        let last := (f₀ :: rest).getLast (by simp)
        let newC := middle last.rows last.cols
        let input := (f₀ :: rest).flatMap fun f => f.ints
        let centers := pairUp ((f₀ :: rest).flatMap flatCenters)
        .ok { input := List.zipWith (fun im c => align im newC c) input centers
              centers := centers.map fun _ => newC
              filenames := (f₀ :: rest).flatMap names
              pas := (f₀ :: rest).flatMap fun f => List.replicate f.ints.length f.roll
              wvs := (f₀ :: rest).flatMap fun f => List.replicate f.ints.length ((wave f.cfam).getD 0)
              pixscale := pixScale f₀ }

/-- The reference library (lines 2267-2322): images and names, the references before the science frames. -/
def readRefs (align : I → ℚ × ℚ → ℚ × ℚ → I) (frames : List (Frame I)) (sci : Data I) (rows cols : ℕ) :
    Except Err (List I × List String) :=
  match frames with
  | [] => .error .empty
  | f₀ :: rest =>
    if (f₀ :: rest).any fun f => f.ndim ≠ 2 ∧ f.ndim ≠ 3 then .error .ndim
    else if (f₀ :: rest).any fun f => f.rows ≠ rows ∨ f.cols ≠ cols then .error .shape
    else
      let last := (f₀ :: rest).getLast (by simp)
      let newC := middle last.rows last.cols
      let input := (f₀ :: rest).flatMap fun f => f.ints
      let centers := pairUp ((f₀ :: rest).flatMap flatCenters)
      .ok (List.zipWith (fun im c => align im newC c) input centers ++ sci.input, (f₀ :: rest).flatMap names ++ sci.filenames)

/-! ## Every integration keeps its frame's metadata -/

/-- Spec: a frame that can be used. -/
structure Usable (f : Frame I) : Prop where
  tel : f.telescop = none ∨ f.telescop = some "ROMAN"
  inst : f.instrume = "CGI"
  dim : f.ndim = 2 ∨ f.ndim = 3
  filt : f.cfam = "1F"

theorem checkFrame_ok (f : Frame I) : checkFrame f = .ok () ↔ Usable f := by
  unfold checkFrame
  constructor
  · intro h
    split_ifs at h with h1 h2 h3 h4
    · refine ⟨?_, by simpa using h2, by omega, ?_⟩
      · cases ht : f.telescop with
        | none => exact Or.inl rfl
        | some s => rw [ht] at h1; simp at h1; right; rw [h1]
      · unfold wave at h4
        by_contra hc
        rw [if_neg hc] at h4
        simp at h4
  · rintro ⟨h1, h2, h3, h4⟩
    rw [if_neg, if_neg (by simpa using h2), if_neg (by omega), if_neg]
    · simp [wave, h4]
    · rcases h1 with h | h <;> simp [h]

theorem mapM_check (l : List (Frame I)) : (∃ u, l.mapM checkFrame = .ok u) ↔ ∀ f ∈ l, Usable f := by
  induction l with
  | nil => simp [pure, Except.pure]
  | cons f l ih =>
    rw [List.mapM_cons]
    constructor
    · rintro ⟨u, hu⟩ g hg
      cases hc : checkFrame f with
      | error e => rw [hc] at hu; simp [bind, Except.bind] at hu
      | ok x =>
        rw [hc] at hu
        simp only [bind, Except.bind] at hu
        cases hl : l.mapM checkFrame with
        | error e => rw [hl] at hu; simp at hu
        | ok y =>
          rcases List.mem_cons.1 hg with rfl | hg
          · exact (checkFrame_ok _).1 hc
          · exact (ih.1 ⟨y, hl⟩) g hg
    · intro h
      obtain ⟨u, hu⟩ := ih.2 fun g hg => h g (List.mem_cons_of_mem _ hg)
      have := (checkFrame_ok f).2 (h f List.mem_cons_self)
      exact ⟨() :: u, by rw [this, hu]; rfl⟩

theorem pairUp_append (n : ℕ) (p : ℚ × ℚ) (r : List ℚ) :
    pairUp ((List.replicate n [p.1, p.2]).flatten ++ r) = List.replicate n p ++ pairUp r := by
  induction n with
  | zero => simp
  | succ n ih => simp only [List.replicate_succ, List.flatten_cons, List.cons_append, List.nil_append, pairUp, ih]

/-- The reshaped centres: each frame's star, once per integration. -/
theorem centers_eq (frames : List (Frame I)) :
    pairUp (frames.flatMap flatCenters) = frames.flatMap fun f => List.replicate f.ints.length f.star := by
  induction frames with
  | nil => rfl
  | cons f l ih => rw [List.flatMap_cons, List.flatMap_cons, ← ih]; exact pairUp_append _ _ _

theorem flatMap_at {A B : Type} (g : A → List B) (n : A → ℕ) (hg : ∀ a, (g a).length = n a) (pre : List A) (a : A)
    (post : List A) (j : ℕ) (hj : j < n a) :
    ((pre ++ a :: post).flatMap g)[(pre.map n).sum + j]? = (g a)[j]? := by
  induction pre with
  | nil =>
    rw [List.nil_append, List.flatMap_cons, List.map_nil, List.sum_nil, Nat.zero_add,
      List.getElem?_append_left (by rw [hg]; exact hj)]
  | cons b pre ih =>
    rw [List.cons_append, List.flatMap_cons, List.map_cons, List.sum_cons,
      List.getElem?_append_right (by rw [hg]; omega), hg, ← ih]
    congr 1; omega

theorem names_length (f : Frame I) : (names f).length = f.ints.length := by simp [names]

/-- **C98.** The science frames are read exactly if there is one, all can be used and they share shape and pixel scale. -/
theorem C98_accepts (align : I → ℚ × ℚ → ℚ × ℚ → I) (frames : List (Frame I)) :
    (∃ d, readSci align frames = .ok d) ↔ frames ≠ [] ∧ (∀ f ∈ frames, Usable f) ∧
      ∀ f ∈ frames, ∀ g ∈ frames, f.rows = g.rows ∧ f.cols = g.cols ∧ f.pltscale = g.pltscale := by
  cases frames with
  | nil => simp [readSci]
  | cons f₀ rest =>
    rw [← mapM_check]
    simp only [readSci]
    constructor
    · rintro ⟨d, hd⟩
      cases hm : (f₀ :: rest).mapM checkFrame with
      | error e => rw [hm] at hd; cases hd
      | ok u =>
        rw [hm] at hd
        dsimp only at hd
        by_cases h1 : (rest.any fun f => decide (f.rows ≠ f₀.rows ∨ f.cols ≠ f₀.cols)) = true
        · rw [if_pos h1] at hd; cases hd
        · rw [if_neg h1] at hd
          by_cases h2 : (rest.any fun f => decide (pixScale f ≠ pixScale f₀)) = true
          · rw [if_pos h2] at hd; cases hd
          · simp only [List.any_eq_true, decide_eq_true_eq, not_exists, not_and, not_or, not_not] at h1 h2
            have key : ∀ f ∈ f₀ :: rest, f.rows = f₀.rows ∧ f.cols = f₀.cols ∧ f.pltscale = f₀.pltscale := by
              intro f hf
              rcases List.mem_cons.1 hf with rfl | hf
              · exact ⟨rfl, rfl, rfl⟩
              · refine ⟨(h1 f hf).1, (h1 f hf).2, ?_⟩
                have := h2 f hf
                unfold pixScale at this
                linarith
            refine ⟨by simp, ⟨u, rfl⟩, fun f hf g hg => ?_⟩
            have a := key f hf
            have b := key g hg
            exact ⟨a.1.trans b.1.symm, a.2.1.trans b.2.1.symm, a.2.2.trans b.2.2.symm⟩
    · rintro ⟨-, ⟨u, hu⟩, h⟩
      rw [hu]
      dsimp only
      rw [if_neg, if_neg]
      · exact ⟨_, rfl⟩
      · simp only [List.any_eq_true, decide_eq_true_eq, not_exists, not_and, not_not]
        intro f hf
        unfold pixScale
        rw [(h f (List.mem_cons_of_mem _ hf) f₀ List.mem_cons_self).2.2]
      · simp only [List.any_eq_true, decide_eq_true_eq, not_exists, not_and, not_or, not_not]
        intro f hf
        have := h f (List.mem_cons_of_mem _ hf) f₀ List.mem_cons_self
        exact ⟨this.1, this.2.1⟩

/-- **C98.** Integration `j` of a frame is found at the same place of every list: its image is recentred from its own star
to the middle of the array, and it has its own name, roll angle and wavelength. -/
theorem C98_aligned (align : I → ℚ × ℚ → ℚ × ℚ → I) (pre : List (Frame I)) (f : Frame I) (post : List (Frame I))
    (d : Data I) (hd : readSci align (pre ++ f :: post) = .ok d) (j : ℕ) (im : I) (hj : f.ints[j]? = some im) :
    let k := (pre.map fun g => g.ints.length).sum + j
    d.input[k]? = some (align im (middle f.rows f.cols) f.star) ∧ d.centers[k]? = some (middle f.rows f.cols) ∧
    d.filenames[k]? = some (f.filename ++ "_INT" ++ toString (j + 1)) ∧ d.pas[k]? = some f.roll ∧
    d.wvs[k]? = some 575 := by
  have hc := (C98_accepts align (pre ++ f :: post)).1 ⟨d, hd⟩
  obtain ⟨hne, hu, hs⟩ := hc
  have hjl : j < f.ints.length := by
    rw [List.getElem?_eq_some_iff] at hj; exact hj.1
  generalize hfr : pre ++ f :: post = frames at *
  have hf : f ∈ frames := by rw [← hfr]; simp
  cases frames with
  | nil => exact absurd rfl hne
  | cons f₀ rest =>
    simp only [readSci] at hd
    obtain ⟨u, hmu⟩ := (mapM_check (f₀ :: rest)).2 hu
    rw [hmu] at hd
    dsimp only at hd
    rw [if_neg, if_neg] at hd
    · injection hd with hd
      have hlast := hs ((f₀ :: rest).getLast (by simp)) (List.getLast_mem _) f hf
      rw [hlast.1, hlast.2.1] at hd
      subst hd
      dsimp only
      have e1 : ((f₀ :: rest).flatMap fun g => g.ints)[(pre.map fun g => g.ints.length).sum + j]? = some im := by
        rw [← hfr, flatMap_at (fun g : Frame I => g.ints) (fun g => g.ints.length) (fun _ => rfl) pre f post j hjl, hj]
      have e2 : (pairUp ((f₀ :: rest).flatMap flatCenters))[(pre.map fun g => g.ints.length).sum + j]? = some f.star := by
        rw [centers_eq, ← hfr, flatMap_at (fun g : Frame I => List.replicate g.ints.length g.star)
          (fun g => g.ints.length) (fun _ => by simp) pre f post j hjl, List.getElem?_replicate, if_pos hjl]
      refine ⟨?_, ?_, ?_, ?_, ?_⟩
      · rw [List.getElem?_zipWith, e1, e2]
      · rw [List.getElem?_map, e2]; rfl
      · rw [← hfr, flatMap_at names (fun g => g.ints.length) names_length pre f post j hjl]
        unfold names
        rw [List.getElem?_map, List.getElem?_range hjl]; rfl
      · rw [← hfr, flatMap_at (fun g : Frame I => List.replicate g.ints.length g.roll) (fun g => g.ints.length)
          (fun _ => by simp) pre f post j hjl, List.getElem?_replicate, if_pos hjl]
      · rw [← hfr, flatMap_at (fun g : Frame I => List.replicate g.ints.length ((wave g.cfam).getD 0))
          (fun g => g.ints.length) (fun _ => by simp) pre f post j hjl, List.getElem?_replicate, if_pos hjl]
        have : f.cfam = "1F" := (hu f hf).filt
        simp [wave, this]
    · simp only [List.any_eq_true, decide_eq_true_eq, not_exists, not_and, not_not]
      intro g hg
      unfold pixScale
      rw [(hs g (List.mem_cons_of_mem _ hg) f₀ List.mem_cons_self).2.2]
    · simp only [List.any_eq_true, decide_eq_true_eq, not_exists, not_and, not_or, not_not]
      intro g hg
      have := hs g (List.mem_cons_of_mem _ hg) f₀ List.mem_cons_self
      exact ⟨this.1, this.2.1⟩

/-- **C98.** Nothing is added: every list has as many entries as there are integrations. -/
theorem C98_counts (align : I → ℚ × ℚ → ℚ × ℚ → I) (frames : List (Frame I)) (d : Data I)
    (hd : readSci align frames = .ok d) :
    let n := (frames.map fun g => g.ints.length).sum
    d.input.length = n ∧ d.centers.length = n ∧ d.filenames.length = n ∧ d.pas.length = n ∧ d.wvs.length = n := by
  cases frames with
  | nil => cases hd
  | cons f₀ rest =>
    simp only [readSci] at hd
    split at hd
    · cases hd
    · split_ifs at hd
      injection hd with hd
      subst hd
      dsimp only
      rw [centers_eq]
      simp [List.length_flatMap, names]

/-! ## The reference library -/

/-- **C98 (partial).** References of the right shape: the library holds the references, each recentred from its own star to
the middle, then the science frames, with their names at the same places. -/
theorem C98_library_partial (align : I → ℚ × ℚ → ℚ × ℚ → I) (frames : List (Frame I)) (sci : Data I) (rows cols : ℕ)
    (hne : frames ≠ []) (hdim : ∀ f ∈ frames, f.ndim = 2 ∨ f.ndim = 3)
    (hshape : ∀ f ∈ frames, f.rows = rows ∧ f.cols = cols) :
    readRefs align frames sci rows cols =
      .ok ((frames.flatMap fun f => f.ints.map fun im => align im (middle rows cols) f.star) ++ sci.input,
        frames.flatMap names ++ sci.filenames) := by
  cases frames with
  | nil => exact absurd rfl hne
  | cons f₀ rest =>
    simp only [readRefs]
    rw [if_neg, if_neg]
    · have hl := hshape _ (List.getLast_mem (l := f₀ :: rest) (by simp))
      rw [hl.1, hl.2, centers_eq]
      congr 2
      congr 1
      generalize f₀ :: rest = l
      induction l with
      | nil => rfl
      | cons g l ih =>
        rw [List.flatMap_cons, List.flatMap_cons, List.flatMap_cons, List.zipWith_append (by simp), ih]
        congr 1
        generalize g.ints = is
        induction is with
        | nil => rfl
        | cons i is ih2 =>
          simp only [List.length_cons, List.replicate_succ, List.zipWith_cons_cons, List.map_cons, ih2]
    · simp only [List.any_eq_true, decide_eq_true_eq, not_exists, not_and, not_or, not_not]
      exact hshape
    · simp only [List.any_eq_true, decide_eq_true_eq, not_exists, not_and, not_not]
      intro f hf h2
      rcases hdim f hf with h | h <;> omega

/-- **C98, violated.** References are taken whatever their telescope, instrument, filter and pixel scale are: these have no
influence, although such science frames are refused. -/
theorem C98_violated_references (align : I → ℚ × ℚ → ℚ × ℚ → I) (f : Frame I) (sci : Data I) (tel : Option String)
    (inst cfam : String) (s : ℚ) :
    readRefs align [{ f with telescop := tel, instrume := inst, cfam := cfam, pltscale := s }] sci f.rows f.cols =
      readRefs align [f] sci f.rows f.cols := rfl

/-- A good frame of one pixel. -/
def frame0 : Frame ℚ := ⟨some "ROMAN", "CGI", "1F", 2, [7], 1, 1, 218 / 10, (0, 0), 30, "a.fits"⟩

example : readSci (fun im _ _ => im) [frame0, { frame0 with pltscale := 20 }] = .error .scale ∧
    readSci (fun im _ _ => im) [{ frame0 with cfam := "4F" }] = .error .filter ∧
    readRefs (fun im _ _ => im) [{ frame0 with pltscale := 20, cfam := "4F" }] ⟨[7], [(0, 0)], ["b"], [0], [575], 21800⟩ 1 1 =
      .ok ([7, 7], ["a.fits_INT1", "b"]) := by decide +kernel

/-- **C98.** The middle, as x and y, has as many pixels on either side. -/
theorem C98_middle (rows cols : ℕ) : (middle rows cols).1 = ((cols : ℚ) - 1) - (middle rows cols).1 ∧
    (middle rows cols).2 = ((rows : ℚ) - 1) - (middle rows cols).2 := by
  unfold middle; constructor <;> ring

/-! ## Inner working angle -/

/-- line 2244: wavelength in m, pixel scale as computed in line 2201 -/
noncomputable def iwa (wv pixscale : ℝ) : ℝ := wv / (13 / 2) * 180 / Real.pi * 3600 / pixscale

/-- Spec: λ/D in pixels for the diameter in m and the pixel scale in mas. -/
noncomputable def lamOverD (wv diam mas : ℝ) : ℝ := wv / diam * (180 / Real.pi) * 3600 / (mas / 1000)

/-- **C98, violated.** The inner working angle is a million times too small, besides using a mirror of 6.5 m instead of
2.36 m. -/
theorem C98_violated_iwa (wv mas : ℝ) (hm : mas ≠ 0) :
    iwa wv (mas * 1000) = lamOverD wv (13 / 2) mas / 10 ^ 6 ∧
    iwa wv (mas * 1000) = lamOverD wv (236 / 100) mas * (236 / 650) / 10 ^ 6 := by
  have := Real.pi_ne_zero
  unfold iwa lamOverD
  constructor <;> field_simp <;> ring

/-- **C98, violated.** So for every accepted dataset the scale, called arcsec, is a million times the scale of its frames. -/
theorem C98_violated_scale {align : I → ℚ × ℚ → ℚ × ℚ → I} {frames : List (Frame I)} {d : Data I} (hd : readSci align frames = .ok d)
    {f : Frame I} (hf : f ∈ frames) : d.pixscale = f.pltscale / 1000 * 10 ^ 6 := by
  have hs := ((C98_accepts align frames).1 ⟨d, hd⟩).2.2
  cases frames with
  | nil => cases hf
  | cons f₀ rest =>
    rw [(hs f hf f₀ List.mem_cons_self).2.2]
    simp only [readSci] at hd
    split at hd
    · cases hd
    · split at hd
      · cases hd
      · split at hd
        · cases hd
        · injection hd with hd
          subst hd
          dsimp only [pixScale]
          ring

/-! ## CD matrix from PC and CDELT (line 2226) -/

structure Mat where
  m11 : ℚ
  m12 : ℚ
  m21 : ℚ
  m22 : ℚ
  deriving DecidableEq

/-- numpy's `pc * cdelt`: the vector runs along the columns -/
def cdOf (pc : Mat) (cdelt : ℚ × ℚ) : Mat := ⟨pc.m11 * cdelt.1, pc.m12 * cdelt.2, pc.m21 * cdelt.1, pc.m22 * cdelt.2⟩

/-- Spec (FITS WCS paper I): `CDi_j = CDELTi PCi_j`. -/
def cdSpec (pc : Mat) (cdelt : ℚ × ℚ) : Mat := ⟨cdelt.1 * pc.m11, cdelt.1 * pc.m12, cdelt.2 * pc.m21, cdelt.2 * pc.m22⟩

/-- **C98, violated.** The matrix is right exactly for equal scales or without rotation; the usual `CDELT1 < 0 < CDELT2`
of a rotated frame gives a wrong one. -/
theorem C98_violated_cd (pc : Mat) (cdelt : ℚ × ℚ) :
    cdOf pc cdelt = cdSpec pc cdelt ↔ (cdelt.1 = cdelt.2 ∨ (pc.m12 = 0 ∧ pc.m21 = 0)) := by
  simp only [cdOf, cdSpec, Mat.mk.injEq]
  constructor
  · rintro ⟨-, h2, h3, -⟩
    by_cases h : cdelt.1 = cdelt.2
    · exact Or.inl h
    · right
      have hd : cdelt.2 - cdelt.1 ≠ 0 := fun e => h (by linarith)
      constructor
      · exact (mul_eq_zero.1 (show pc.m12 * (cdelt.2 - cdelt.1) = 0 by linarith)).resolve_right hd
      · exact (mul_eq_zero.1 (show pc.m21 * (cdelt.2 - cdelt.1) = 0 by linarith)).resolve_right hd
  · rintro (h | ⟨h, h'⟩)
    · rw [h]; exact ⟨by ring, by ring, by ring, by ring⟩
    · rw [h, h']; exact ⟨by ring, by ring, by ring, by ring⟩

/-! ## Files recorded by `savedata` (lines 2360-2370) -/

/-- `np.unique` -/
def unique (l : List String) : List String := List.insertionSort (· ≤ ·) l.dedup

/-- `DRPNFILE` and the values of the cards `FILE_0`, `FILE_1`, ... -/
def savedFiles (filenames : List String) : ℕ × List String :=
  ((unique filenames).length, ((unique filenames).take 1000).map (· ++ ".fits"))

theorem mem_unique (l : List String) (s : String) : s ∈ unique l ↔ s ∈ l := by
  unfold unique; rw [List.mem_insertionSort, List.mem_dedup]

/-- **C98 (partial).** Frames of one integration with different names: the count is right. -/
theorem C98_count_partial (align : I → ℚ × ℚ → ℚ × ℚ → I) (frames : List (Frame I)) (d : Data I)
    (hd : readSci align frames = .ok d) (h1 : ∀ f ∈ frames, f.ints.length = 1) (hn : (frames.map (·.filename)).Nodup) :
    (savedFiles d.filenames).1 = frames.length := by
  have hf : d.filenames = frames.map fun f => f.filename ++ "_INT1" := by
    cases frames with
    | nil => cases hd
    | cons f₀ rest =>
      simp only [readSci] at hd
      split at hd
      · cases hd
      · split_ifs at hd
        injection hd with hd
        subst hd
        dsimp only
        generalize f₀ :: rest = l at h1
        clear hn
        induction l with
        | nil => rfl
        | cons g l ih =>
          rw [List.flatMap_cons, List.map_cons, ih fun f hf => h1 f (List.mem_cons_of_mem _ hf)]
          have : names g = [g.filename ++ "_INT1"] := by
            unfold names
            rw [h1 g List.mem_cons_self]
            simp [String.append_assoc]
            rfl
          rw [this]; rfl
  unfold savedFiles unique
  rw [List.length_insertionSort, hf, List.Nodup.dedup, List.length_map]
  have : (frames.map fun f => f.filename ++ "_INT1") = (frames.map (·.filename)).map (· ++ "_INT1") := by simp
  rw [this]
  refine hn.map fun a b hab => ?_
  have := congrArg String.toList hab
  exact String.ext (by simpa [String.toList_append] using this)

/-- **C98, violated.** The recorded names are not names of files: a frame's own name is not among them, for any name and
number of integrations. -/
theorem C98_violated_names (f : Frame I) : f.filename ∉ (savedFiles (names f)).2 := by
  unfold savedFiles
  dsimp only
  intro h
  obtain ⟨s, hs, he⟩ := List.mem_map.1 h
  have hs' := (mem_unique _ _).1 (List.mem_of_mem_take hs)
  unfold names at hs'
  obtain ⟨j, -, rfl⟩ := List.mem_map.1 hs'
  have := congrArg (fun t => t.toList.length) he
  simp only [String.toList_append, List.length_append] at this
  have h5 : (".fits" : String).toList.length = 5 := by decide
  omega

/-- **C98, violated.** For cubes the integrations are counted as raw files. -/
theorem C98_violated_count :
    (savedFiles (names { frame0 with ndim := 3, ints := [7, 8, 9] })).1 = 3 := by decide +kernel

/-- **C98.** At most a thousand files are listed, all if there are no more. -/
theorem C98_listed (filenames : List String) :
    (savedFiles filenames).2.length = min 1000 (savedFiles filenames).1 := by
  simp [savedFiles]

end Corgi.Pyklip

import Verif.L4.Crop
import Mathlib.Analysis.SpecialFunctions.Trigonometric.Basic
import Mathlib.Tactic.LinearCombination

/-!
# `create_wcs` (l2b_to_l3.py 7-71): model, C53 and C54

Reals for floats. The WCS is evaluated as the FITS standard says: pixel coordinates count from 1, the intermediate world
coordinates are `CD (p - CRPIX)`; the projection about CRVAL is a function of these.
-/

noncomputable section

namespace Corgi.Sky

open Real

structure Wcs where
  cd11 : ℝ
  cd12 : ℝ
  cd21 : ℝ
  cd22 : ℝ
  crpix1 : ℝ
  crpix2 : ℝ
  crval1 : ℝ
  crval2 : ℝ
  pltscale : ℝ

structure Astrom where
  northangle : ℝ
  scaleX : ℝ
  scaleY : ℝ
  raOffset : ℝ
  decOffset : ℝ

structure Pointing where
  ra : ℝ
  dec : ℝ
  roll : ℝ

/-- line 35 -/
def vertAng (a : Astrom) (p : Pointing) : ℝ := (a.northangle + p.roll) * π / 180

/-- lines 28-60 for one image of the given shape -/
def createWcs (rows cols : ℕ) (a : Astrom) (p : Pointing) : Wcs :=
  let t := vertAng a p
  let sx := a.scaleX * (1 / 1000) / 3600
  let sy := a.scaleY * (1 / 1000) / 3600
  { cd11 := -cos t * sx
    cd12 := sin t * sx
    cd21 := sin t * sy
    cd22 := cos t * sy
    crpix1 := (((cols : ℤ) - 1) / 2 : ℤ)
    crpix2 := (((rows : ℤ) - 1) / 2 : ℤ)
    crval1 := p.ra - a.raOffset
    crval2 := p.dec - a.decOffset
    pltscale := (a.scaleX + a.scaleY) / 2 }

/-! ## Specification (FITS WCS paper I) -/

/-- Intermediate world coordinates, in degrees, of the pixel with the indices (column, row), counted from 0. -/
def plane (w : Wcs) (c r : ℝ) : ℝ × ℝ :=
  (w.cd11 * (c + 1 - w.crpix1) + w.cd12 * (r + 1 - w.crpix2), w.cd21 * (c + 1 - w.crpix1) + w.cd22 * (r + 1 - w.crpix2))

/-- degrees per pixel of a scale in mas per pixel -/
def deg (s : ℝ) : ℝ := s / 3600000

/-! ## Proofs -/

/-- **C54** Orientation and handedness: the determinant is minus the product of the scales (east is left of north). -/
theorem C54_det (rows cols : ℕ) (a : Astrom) (p : Pointing) :
    (createWcs rows cols a p).cd11 * (createWcs rows cols a p).cd22 -
      (createWcs rows cols a p).cd12 * (createWcs rows cols a p).cd21 = -(deg a.scaleX * deg a.scaleY) := by
  simp only [createWcs, deg]
  have := sin_sq_add_cos_sq (vertAng a p)
  linear_combination (-(a.scaleX / 3600000 * (a.scaleY / 3600000))) * this

/-- **C54** North is at the angle northangle + roll from the y axis towards the x axis: a step of one pixel into that
direction changes the declination by the scale and not the right ascension. -/
theorem C54_north (rows cols : ℕ) (a : Astrom) (p : Pointing) (c r : ℝ) :
    let w := createWcs rows cols a p
    let t := (a.northangle + p.roll) * (π / 180)
    plane w (c + sin t) (r + cos t) = ((plane w c r).1, (plane w c r).2 + deg a.scaleY) := by
  have e : (a.northangle + p.roll) * (π / 180) = vertAng a p := by unfold vertAng; ring
  simp only [e]
  simp only [createWcs, plane, deg, Prod.mk.injEq]
  have := sin_sq_add_cos_sq (vertAng a p)
  constructor
  · ring
  · linear_combination (a.scaleY / 3600000) * this

/-- **C54** The sky position written for the reference pixel, moved by the calibrated offset, is the pointing; the plate
scale is half way between the scales of the axes. -/
theorem C54_header (rows cols : ℕ) (a : Astrom) (p : Pointing) :
    let w := createWcs rows cols a p
    (w.crval1 + a.raOffset, w.crval2 + a.decOffset) = (p.ra, p.dec) ∧ w.pltscale - a.scaleX = a.scaleY - w.pltscale := by
  simp only [createWcs, Prod.mk.injEq]
  refine ⟨⟨by ring, by ring⟩, by ring⟩

example : (createWcs 3 3 ⟨0, 20, 24, 1, -1⟩ ⟨10, 5, 0⟩).crval1 = 9 ∧ (createWcs 3 3 ⟨0, 20, 24, 1, -1⟩ ⟨10, 5, 0⟩).crval2 = 6 ∧
    (createWcs 3 3 ⟨0, 20, 24, 1, -1⟩ ⟨10, 5, 0⟩).pltscale = 22 := by
  simp only [createWcs]; norm_num

/-- Change of the plane coordinates by one pixel along x, squared. -/
theorem scale_x (rows cols : ℕ) (a : Astrom) (p : Pointing) (c r : ℝ) :
    let w := createWcs rows cols a p
    ((plane w (c + 1) r).1 - (plane w c r).1) ^ 2 + ((plane w (c + 1) r).2 - (plane w c r).2) ^ 2 =
      (cos (vertAng a p) * deg a.scaleX) ^ 2 + (sin (vertAng a p) * deg a.scaleY) ^ 2 := by
  simp only [createWcs, plane, deg]
  ring

/-- **C54** With equal scales one pixel along each axis is the scale on the sky, in every orientation. -/
theorem C54_scale_partial (rows cols : ℕ) (a : Astrom) (p : Pointing) (h : a.scaleX = a.scaleY) (c r : ℝ) :
    let w := createWcs rows cols a p
    ((plane w (c + 1) r).1 - (plane w c r).1) ^ 2 + ((plane w (c + 1) r).2 - (plane w c r).2) ^ 2 = deg a.scaleX ^ 2 ∧
    ((plane w c (r + 1)).1 - (plane w c r).1) ^ 2 + ((plane w c (r + 1)).2 - (plane w c r).2) ^ 2 = deg a.scaleY ^ 2 := by
  have := sin_sq_add_cos_sq (vertAng a p)
  constructor
  · rw [scale_x, ← h]
    linear_combination (deg a.scaleX ^ 2) * this
  · simp only [createWcs, plane, deg, h]
    linear_combination ((a.scaleY / 3600000) ^ 2) * this

/-- **C54** is violated for different scales: one pixel along x is the scale of x exactly when the image is not rotated
(or the scales agree). -/
theorem C54_scale_iff (rows cols : ℕ) (a : Astrom) (p : Pointing) (hx : 0 ≤ a.scaleX) (hy : 0 ≤ a.scaleY) (c r : ℝ) :
    let w := createWcs rows cols a p
    ((plane w (c + 1) r).1 - (plane w c r).1) ^ 2 + ((plane w (c + 1) r).2 - (plane w c r).2) ^ 2 = deg a.scaleX ^ 2 ↔
      sin (vertAng a p) = 0 ∨ a.scaleX = a.scaleY := by
  simp only [scale_x]
  have h1 := sin_sq_add_cos_sq (vertAng a p)
  have e : (cos (vertAng a p) * deg a.scaleX) ^ 2 + (sin (vertAng a p) * deg a.scaleY) ^ 2 - deg a.scaleX ^ 2 =
      sin (vertAng a p) ^ 2 * ((a.scaleY - a.scaleX) * (a.scaleY + a.scaleX)) / 3600000 ^ 2 := by
    unfold deg
    linear_combination (a.scaleX / 3600000) ^ 2 * h1
  rw [← sub_eq_zero, e, div_eq_zero_iff]
  constructor
  · rintro (h | h)
    · rcases mul_eq_zero.1 h with h | h
      · exact Or.inl (pow_eq_zero_iff (two_ne_zero) |>.1 h)
      · rcases mul_eq_zero.1 h with h | h <;> right <;> linarith
    · norm_num at h
  · rintro (h | h)
    · left; rw [h]; simp
    · left; rw [h]; simp

theorem C54_scale_violated : ∃ (a : Astrom) (p : Pointing), 0 < a.scaleX ∧ 0 < a.scaleY ∧ ∀ rows cols c r,
    let w := createWcs rows cols a p
    ((plane w (c + 1) r).1 - (plane w c r).1) ^ 2 + ((plane w (c + 1) r).2 - (plane w c r).2) ^ 2 ≠ deg a.scaleX ^ 2 := by
  refine ⟨⟨90, 22, 21, 0, 0⟩, ⟨0, 0, 0⟩, by norm_num, by norm_num, fun rows cols c r => ?_⟩
  intro w h
  rcases (C54_scale_iff rows cols _ _ (by norm_num) (by norm_num) c r).1 h with h | h
  · have : vertAng ⟨90, 22, 21, 0, 0⟩ ⟨0, 0, 0⟩ = π / 2 := by unfold vertAng; ring
    rw [this, sin_pi_div_two] at h
    norm_num at h
  · norm_num at h

/-- **C54** The target is at the pixel *before* the one that the code calls the centre: CRPIX counts from 1. -/
theorem C54_centre_violated (rows cols : ℕ) (a : Astrom) (p : Pointing) (hx : a.scaleX ≠ 0) (hy : a.scaleY ≠ 0) :
    let w := createWcs rows cols a p
    let cx : ℝ := (((cols : ℤ) - 1) / 2 : ℤ)
    let cy : ℝ := (((rows : ℤ) - 1) / 2 : ℤ)
    plane w (cx - 1) (cy - 1) = (0, 0) ∧ plane w cx cy ≠ (0, 0) := by
  intro w cx cy
  have w1 : w.crpix1 = cx := rfl
  have w2 : w.crpix2 = cy := rfl
  refine ⟨by simp [plane, w1, w2], ?_⟩
  intro h
  simp only [plane, w1, w2, Prod.mk.injEq, add_sub_cancel_left, mul_one] at h
  have hd : w.cd11 * w.cd22 - w.cd12 * w.cd21 = -(deg a.scaleX * deg a.scaleY) := C54_det rows cols a p
  obtain ⟨h1, h2⟩ := h
  have : deg a.scaleX * deg a.scaleY = 0 := by linear_combination hd - w.cd22 * h1 + w.cd12 * h2
  rcases mul_eq_zero.1 this with h | h <;> rw [deg, div_eq_zero_iff] at h <;> rcases h with h | h
  · exact hx h
  · norm_num at h
  · exact hy h
  · norm_num at h

/-- **C53** The WCS of a frame that was cropped after `create_wcs` still belongs to the uncropped frame: it gives the
right coordinates iff nothing was cut off at the left and below. -/
theorem C53_crop_wcs_iff {α β γ : Type} {x y w h : ℕ} {f g : Crop.Frame α β γ Wcs} (hc : Crop.Cropped x y w h f g)
    (a : Astrom) (p : Pointing) (hx : a.scaleX ≠ 0) (hy : a.scaleY ≠ 0)
    (hf : f.hdr.ext = createWcs f.data.rows f.data.cols a p) :
    (∀ r c : ℕ, plane g.hdr.ext c r = plane f.hdr.ext ((x + c : ℕ) : ℝ) ((y + r : ℕ) : ℝ)) ↔ x = 0 ∧ y = 0 := by
  rw [hc.rest.2.2.1]
  constructor
  · intro hh
    have h0 := hh 0 0
    simp only [plane, Prod.mk.injEq, Nat.add_zero, Nat.cast_zero] at h0
    obtain ⟨h1, h2⟩ := h0
    have e1 : f.hdr.ext.cd11 * x + f.hdr.ext.cd12 * y = 0 := by linear_combination -h1
    have e2 : f.hdr.ext.cd21 * x + f.hdr.ext.cd22 * y = 0 := by linear_combination -h2
    have hd := C54_det f.data.rows f.data.cols a p
    rw [← hf] at hd
    have hd0 : f.hdr.ext.cd11 * f.hdr.ext.cd22 - f.hdr.ext.cd12 * f.hdr.ext.cd21 ≠ 0 := by
      rw [hd]
      have : deg a.scaleX ≠ 0 ∧ deg a.scaleY ≠ 0 := ⟨div_ne_zero hx (by norm_num), div_ne_zero hy (by norm_num)⟩
      exact neg_ne_zero.2 (mul_ne_zero this.1 this.2)
    have x0 : (f.hdr.ext.cd11 * f.hdr.ext.cd22 - f.hdr.ext.cd12 * f.hdr.ext.cd21) * (x : ℝ) = 0 := by
      linear_combination f.hdr.ext.cd22 * e1 - f.hdr.ext.cd12 * e2
    have y0 : (f.hdr.ext.cd11 * f.hdr.ext.cd22 - f.hdr.ext.cd12 * f.hdr.ext.cd21) * (y : ℝ) = 0 := by
      linear_combination f.hdr.ext.cd11 * e2 - f.hdr.ext.cd21 * e1
    exact ⟨by exact_mod_cast (mul_eq_zero.1 x0).resolve_left hd0, by exact_mod_cast (mul_eq_zero.1 y0).resolve_left hd0⟩
  · rintro ⟨rfl, rfl⟩ r c
    simp

/-- A frame as it comes from `create_wcs`. -/
def withWcs (a : Astrom) (p : Pointing) : Crop.Frame ℕ ℕ ℕ Wcs :=
  { name := "a", ndim := 2,
    hdr := { lsam := some "NFOV", starX := some (99 / 2), starY := some (99 / 2), detX := none, detY := none, cr1 := none,
             cr2 := none, naxis1 := 100, naxis2 := 100, ext := createWcs 100 100 a p },
    data := ⟨100, 100, fun r c => 1000 * r + c⟩, err := ⟨100, 100, fun _ _ => 0⟩, dq := ⟨100, 100, fun _ _ => 0⟩ }

/-- **C53** is violated: a crop of the default size after `create_wcs` gives wrong coordinates. -/
theorem C53_violated (a : Astrom) (p : Pointing) (hx : a.scaleX ≠ 0) (hy : a.scaleY ≠ 0) :
    ∃ g, Crop.crop [withWcs a p] .default .default = .ok [g] ∧ Crop.Cropped 20 20 60 60 (withWcs a p) g ∧
      ∃ r c : ℕ, plane g.hdr.ext c r ≠ plane (withWcs a p).hdr.ext ((20 + c : ℕ) : ℝ) ((20 + r : ℕ) : ℝ) := by
  have hr : Crop.roundCenter (99 / 2, 99 / 2) = (((49 : ℤ) : ℚ) + 1 / 2, ((49 : ℤ) : ℚ) + 1 / 2) := by decide +kernel
  obtain ⟨g, hg⟩ := Crop.cropFrame_succeeds (a := 49) (b := 49) (k := 30) (l := 30) (f := withWcs a p)
    (by simp [Crop.Wf, withWcs]) (by norm_num) (by norm_num) (by simp [withWcs]) (by simp [withWcs])
  obtain ⟨x, y, hx', hy', hcr⟩ := Crop.cropFrame_ok (k := 30) (l := 30) hg
  obtain rfl : x = 20 := by push_cast at hx'; omega
  obtain rfl : y = 20 := by push_cast at hy'; omega
  refine ⟨g, ?_, hcr, ?_⟩
  · unfold Crop.crop
    rw [if_neg (by simp [Crop.evenOk])]
    have h1 : Crop.resolveSize (withWcs a p).hdr .default = .ok (60, 60) := rfl
    have h2 : Crop.resolveCenter (withWcs a p).hdr .default = .ok (99 / 2, 99 / 2) := rfl
    simp only [Crop.cropLoop, h1, h2, hr]
    rw [show ((60 : ℤ), (60 : ℤ)) = (2 * 30, 2 * 30) by norm_num, hg]
    rfl
  · by_contra hcon
    push Not at hcon
    have := (C53_crop_wcs_iff hcr a p hx hy rfl).1 hcon
    omega

/-- **C53** What holds: CRPIX of the primary header, STARLOC and DETPIX0 are moved (`C38_crop`); the WCS of
`create_wcs` is kept as it is. -/
theorem C53_kept_partial {α β γ : Type} {ds out : List (Crop.Frame α β γ Wcs)} {s : Crop.Size} {c : Crop.Center}
    (h : Crop.crop ds s c = .ok out) (hp : Crop.Positive s) :
    List.Forall₂ (fun f g => g.hdr.ext = f.hdr.ext) ds out := by
  obtain ⟨f, fs, _, x, y, w, hh, _, hall, _⟩ := Crop.C38_crop h hp
  exact hall.imp fun _ _ hc => hc.rest.2.2.1

end Corgi.Sky

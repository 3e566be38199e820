import Verif.L3.Wcs
import Mathlib.Analysis.SpecialFunctions.Complex.Arg

/-!
# `northup` (l3_to_l4.py 645-743): model and C97

Images are followed by where their content goes: `dataTo` for the data (pyklip's `rotate`, counterclockwise about the
given centre as the HISTORY card says), `dqTo` for the flags (scipy's `rotate`, about the middle of the array
`(n - 1) / 2`, in the same sense as the comment in line 720 says). Interpolation and the rounding of order-0 splines are
left out. Coordinates are (x, y), pixel centres at integers from 0. `arctan2(y, x)` is `Complex.arg ⟨x, y⟩`.
pyklip keeps the WCS consistent with the rotated image: `CD' = CD R(-θ)` (trusted); it leaves CRPIX alone.
-/

noncomputable section

namespace Corgi.Northup

open Real Corgi.Sky

/-- counterclockwise rotation, y up -/
def rot (t : ℝ) (v : ℝ × ℝ) : ℝ × ℝ := (cos t * v.1 - sin t * v.2, sin t * v.1 + cos t * v.2)

/-- Where pyklip's `rotate(img, angle, c)` moves the content at `p` (line 699). -/
def dataTo (t : ℝ) (c p : ℝ × ℝ) : ℝ × ℝ := c + rot t (p - c)

/-- scipy's `rotate` with `reshape=False` on an array with the given numbers of columns and rows. -/
def scipyTo (cols rows : ℝ) (t : ℝ) (p : ℝ × ℝ) : ℝ × ℝ := dataTo t ((cols - 1) / 2, (rows - 1) / 2) p

/-- Lines 722-740: where the flag at `p` goes. -/
def dqTo (cols rows : ℕ) (t : ℝ) (c p : ℝ × ℝ) : ℝ × ℝ :=
  open Classical in
  if c.1 ≠ cols / 2 ∨ c.2 ≠ rows / 2 then
    let xshift := c.1 - cols / 2
    let yshift := c.2 - rows / 2
    let padx : ℝ := (⌈|xshift|⌉₊ : ℕ)
    let pady : ℝ := (⌈|yshift|⌉₊ : ℕ)
    let shifted := p + (padx, pady) + (-xshift, -yshift)
    let turned := scipyTo (cols + 2 * padx) (rows + 2 * pady) t shifted
    turned + (xshift, yshift) - (padx, pady)
  else scipyTo cols rows t p

inductive Center
  | image
  | starloc
  | at (x y : ℝ)

inductive Err
  | tooManyAxes
  | noAttribute
  deriving DecidableEq

structure Hdr where
  w : Wcs
  star : Option (ℝ × ℝ)
  roll : ℝ

/-- line 674 -/
def imageCenter (cols rows : ℕ) : ℝ × ℝ := ((((cols : ℤ) - 1) / 2 : ℤ), (((rows : ℤ) - 1) / 2 : ℤ))

/-- lines 673-683 -/
def center (cols rows : ℕ) (h : Hdr) : Center → ℝ × ℝ
  | .image => imageCenter cols rows
  | .starloc => h.star.getD (imageCenter cols rows)
  | .at x y => (x, y)

/-- line 690, in radians -/
def wcsAngle (w : Wcs) : ℝ := -Complex.arg ⟨w.cd22, -w.cd12⟩

/-- pyklip's update of the WCS -/
def turnCd (t : ℝ) (w : Wcs) : Wcs :=
  { w with
    cd11 := w.cd11 * cos t - w.cd12 * sin t
    cd12 := w.cd11 * sin t + w.cd12 * cos t
    cd21 := w.cd21 * cos t - w.cd22 * sin t
    cd22 := w.cd21 * sin t + w.cd22 * cos t }

/-- What becomes of one frame. -/
structure Out where
  hdr : Hdr
  data : ℝ × ℝ → ℝ × ℝ
  dq : ℝ × ℝ → ℝ × ℝ
  errLayers : ℕ

/-- One turn of the loop. `isTrue` is `use_wcs is True`, `truthy` is `bool(use_wcs)`; `shape` is the shape of the data. -/
def northup (shape : List ℕ) (h : Hdr) (_errLayers : ℕ) (isTrue truthy : Bool) (rc : Center) : Except Err Out :=
  match shape with
  | [rows, cols] =>
    let c := center cols rows h rc
    let t := if isTrue then wcsAngle h.w else h.roll * π / 180
    if truthy && !isTrue then .error .noAttribute
    else
      .ok { hdr := if isTrue then { h with w := turnCd t h.w } else h
            data := dataTo t c
            dq := dqTo cols rows t c
            errLayers := 1 }
  | _ => .error .tooManyAxes

/-! ## Rotations -/

theorem rot_zero_iff (t : ℝ) (v : ℝ × ℝ) : rot t v = v ↔ v = (0, 0) ∨ cos t = 1 := by
  have h1 := sin_sq_add_cos_sq t
  constructor
  · intro h
    by_cases hc : cos t = 1
    · exact Or.inr hc
    · left
      have a := congrArg Prod.fst h
      have b := congrArg Prod.snd h
      simp only [rot] at a b
      have hc' : (1 - cos t) ≠ 0 := fun e => hc (by linarith)
      have h2 : 2 * (1 - cos t) * v.1 = 0 := by
        linear_combination (cos t - 1) * a + sin t * b - v.1 * h1
      have h3 : 2 * (1 - cos t) * v.2 = 0 := by
        linear_combination (cos t - 1) * b - sin t * a - v.2 * h1
      apply Prod.ext
      · simpa [hc'] using h2
      · simpa [hc'] using h3
  · rintro (h | h)
    · rw [h]; simp [rot]
    · have : sin t = 0 := by
        rw [h] at h1
        have : sin t ^ 2 = 0 := by linarith
        exact pow_eq_zero_iff two_ne_zero |>.1 this
      simp [rot, h, this]

/-! ## The sense of the rotation -/

/-- The angle computed from the CD matrix of `create_wcs`. -/
theorem wcsAngle_spec (rows cols : ℕ) (a : Astrom) (p : Pointing) (hx : 0 < a.scaleX) (hy : 0 < a.scaleY) :
    ∃ n : ℝ, 0 < n ∧ n * cos (wcsAngle (createWcs rows cols a p)) = cos (vertAng a p) * a.scaleY ∧
      n * sin (wcsAngle (createWcs rows cols a p)) = sin (vertAng a p) * a.scaleX := by
  set t := vertAng a p with ht
  set z : ℂ := ⟨(createWcs rows cols a p).cd22, -(createWcs rows cols a p).cd12⟩ with hz
  have hre : z.re = cos t * (a.scaleY * (1 / 1000) / 3600) := rfl
  have him : z.im = -(sin t * (a.scaleX * (1 / 1000) / 3600)) := rfl
  have hne : z ≠ 0 := by
    intro h
    have h0 : z.re = 0 := by rw [h]; rfl
    have h1 : z.im = 0 := by rw [h]; rfl
    rw [hre] at h0
    rw [him] at h1
    have c0 : cos t = 0 := by
      rcases mul_eq_zero.1 h0 with h | h
      · exact h
      · exfalso; linarith
    have s0 : sin t = 0 := by
      rcases mul_eq_zero.1 (neg_eq_zero.1 h1) with h | h
      · exact h
      · exfalso; linarith
    have := sin_sq_add_cos_sq t
    rw [c0, s0] at this
    norm_num at this
  refine ⟨3600000 * ‖z‖, by positivity, ?_, ?_⟩
  · rw [wcsAngle, cos_neg, Complex.cos_arg hne]
    have : ‖z‖ ≠ 0 := norm_ne_zero_iff.2 hne
    rw [hre]; field_simp; ring
  · rw [wcsAngle, sin_neg, Complex.sin_arg]
    change 3600000 * ‖z‖ * -(z.im / ‖z‖) = _
    have : ‖z‖ ≠ 0 := norm_ne_zero_iff.2 hne
    rw [him]; field_simp; ring

/-- **C97 (partial).** With equal plate scales the direction of north, `(sin, cos)` of northangle + roll (C54), is turned
to straight up, and east, at right angles, to the left; the header says the same. -/
theorem C97_north_partial (rows cols : ℕ) (a : Astrom) (p : Pointing) (hx : 0 < a.scaleX) (he : a.scaleX = a.scaleY) :
    let w := createWcs rows cols a p
    let t := (a.northangle + p.roll) * (π / 180)
    rot (wcsAngle w) (sin t, cos t) = (0, 1) ∧ rot (wcsAngle w) (-cos t, sin t) = (-1, 0) ∧
    (turnCd (wcsAngle w) w).cd11 = -deg a.scaleX ∧ (turnCd (wcsAngle w) w).cd12 = 0 ∧
    (turnCd (wcsAngle w) w).cd21 = 0 ∧ (turnCd (wcsAngle w) w).cd22 = deg a.scaleX := by
  obtain ⟨n, hn, hc, hs⟩ := wcsAngle_spec rows cols a p hx (he ▸ hx)
  dsimp only
  have e : (a.northangle + p.roll) * (π / 180) = vertAng a p := by unfold vertAng; ring
  rw [e]
  set w := createWcs rows cols a p with hw
  set t := vertAng a p with ht
  have h1 := sin_sq_add_cos_sq t
  have h2 := sin_sq_add_cos_sq (wcsAngle w)
  rw [← he] at hc
  have hn2 : n ^ 2 = a.scaleX ^ 2 := by
    have : (n * cos (wcsAngle w)) ^ 2 + (n * sin (wcsAngle w)) ^ 2 = a.scaleX ^ 2 := by
      rw [hc, hs]; linear_combination a.scaleX ^ 2 * h1
    linear_combination this - n ^ 2 * h2
  have hnx : n = a.scaleX := by
    rcases sq_eq_sq_iff_eq_or_eq_neg.1 hn2 with h | h
    · exact h
    · linarith
  rw [hnx] at hc hs
  have hc' : cos (wcsAngle w) = cos t := by
    have := hx.ne'
    apply mul_left_cancel₀ this; linarith
  have hs' : sin (wcsAngle w) = sin t := by
    have := hx.ne'
    apply mul_left_cancel₀ this; linarith
  have w11 : w.cd11 = -cos t * (a.scaleX * (1 / 1000) / 3600) := rfl
  have w12 : w.cd12 = sin t * (a.scaleX * (1 / 1000) / 3600) := rfl
  have w21 : w.cd21 = sin t * (a.scaleX * (1 / 1000) / 3600) := by rw [he]; rfl
  have w22 : w.cd22 = cos t * (a.scaleX * (1 / 1000) / 3600) := by rw [he]; rfl
  refine ⟨?_, ?_, ?_, ?_, ?_, ?_⟩
  · simp only [rot, hc', hs']
    apply Prod.ext <;> dsimp only
    · ring
    · linear_combination h1
  · simp only [rot, hc', hs']
    apply Prod.ext <;> dsimp only
    · linear_combination -h1
    · ring
  · simp only [turnCd, hc', hs', w11, w12, deg]
    linear_combination (-(a.scaleX / 3600000)) * h1
  · simp only [turnCd, hc', hs', w11, w12]; ring
  · simp only [turnCd, hc', hs', w21, w22]; ring
  · simp only [turnCd, hc', hs', w21, w22, deg]
    linear_combination (a.scaleX / 3600000) * h1

/-- **C97, violated.** With different plate scales north is not up unless the image is turned by a multiple of 90
degrees: the angle is taken from one column of the CD matrix. -/
theorem C97_violated_scales (rows cols : ℕ) (a : Astrom) (p : Pointing) (hx : 0 < a.scaleX) (hy : 0 < a.scaleY) :
    let t := (a.northangle + p.roll) * (π / 180)
    (rot (wcsAngle (createWcs rows cols a p)) (sin t, cos t)).1 = 0 ↔ sin t = 0 ∨ cos t = 0 ∨ a.scaleX = a.scaleY := by
  obtain ⟨n, hn, hc, hs⟩ := wcsAngle_spec rows cols a p hx hy
  dsimp only
  have e : (a.northangle + p.roll) * (π / 180) = vertAng a p := by unfold vertAng; ring
  rw [e]
  set w := createWcs rows cols a p with hw
  set t := vertAng a p with ht
  have k : n * (rot (wcsAngle w) (sin t, cos t)).1 = sin t * cos t * (a.scaleY - a.scaleX) := by
    simp only [rot]
    linear_combination sin t * hc - cos t * hs
  constructor
  · intro h
    rw [h, mul_zero] at k
    rcases mul_eq_zero.1 k.symm with h | h
    · rcases mul_eq_zero.1 h with h | h
      · exact Or.inl h
      · exact Or.inr (Or.inl h)
    · right; right; linarith
  · intro h
    have : sin t * cos t * (a.scaleY - a.scaleX) = 0 := by
      rcases h with h | h | h
      · rw [h]; ring
      · rw [h]; ring
      · rw [h]; ring
    rw [this] at k
    exact (mul_eq_zero.1 k).resolve_left hn.ne'

/-- **C97.** Without WCS the data are turned by `ROLL`; north is then up exactly if the detector's north angle is a whole
number of turns. -/
theorem C97_roll (northangle roll : ℝ) :
    rot (roll * π / 180) (sin ((northangle + roll) * (π / 180)), cos ((northangle + roll) * (π / 180))) = (0, 1) ↔
      cos (northangle * (π / 180)) = 1 := by
  have e : northangle * (π / 180) = (northangle + roll) * (π / 180) - roll * π / 180 := by ring
  have a : (rot (roll * π / 180) (sin ((northangle + roll) * (π / 180)), cos ((northangle + roll) * (π / 180)))).1 =
      sin (northangle * (π / 180)) := by
    rw [e, sin_sub]; simp only [rot]; ring
  have b : (rot (roll * π / 180) (sin ((northangle + roll) * (π / 180)), cos ((northangle + roll) * (π / 180)))).2 =
      cos (northangle * (π / 180)) := by
    rw [e, cos_sub]; simp only [rot]; ring
  constructor
  · intro h
    rw [← b, h]
  · intro h
    have h1 := sin_sq_add_cos_sq (northangle * (π / 180))
    rw [h] at h1
    have : sin (northangle * (π / 180)) = 0 := pow_eq_zero_iff two_ne_zero |>.1 (by linarith)
    apply Prod.ext
    · rw [a, this]
    · rw [b, h]

/-! ## Flags -/

/-- **C97.** The flags are turned by the same angle as the data, but about the point half a pixel to the left of and below
the centre of the data, for every frame size and centre. -/
theorem C97_dq_centre (cols rows : ℕ) (t : ℝ) (c p : ℝ × ℝ) :
    dqTo cols rows t c p = dataTo t (c - (1 / 2, 1 / 2)) p := by
  unfold dqTo
  split_ifs with h
  · simp only [scipyTo, dataTo, rot]
    apply Prod.ext <;> simp only [Prod.fst_add, Prod.snd_add, Prod.fst_sub, Prod.snd_sub] <;> ring
  · push Not at h
    have : ((((cols : ℝ) - 1) / 2, ((rows : ℝ) - 1) / 2) : ℝ × ℝ) = c - (1 / 2, 1 / 2) := by
      apply Prod.ext <;> simp only [Prod.fst_sub, Prod.snd_sub, h.1, h.2] <;> ring
    rw [scipyTo, this]

/-- **C97, violated.** A flag stays with its pixel only if nothing is turned. -/
theorem C97_violated_dq (cols rows : ℕ) (t : ℝ) (c p : ℝ × ℝ) :
    dqTo cols rows t c p = dataTo t c p ↔ cos t = 1 := by
  have k : dqTo cols rows t c p - dataTo t c p = rot t (1 / 2, 1 / 2) - (1 / 2, 1 / 2) := by
    rw [C97_dq_centre]
    simp only [dataTo, rot]
    apply Prod.ext <;> simp only [Prod.fst_add, Prod.snd_add, Prod.fst_sub, Prod.snd_sub] <;> ring
  rw [← sub_eq_zero, k, sub_eq_zero, rot_zero_iff]
  constructor
  · rintro (h | h)
    · have := congrArg Prod.fst h
      norm_num at this
    · exact h
  · exact Or.inr

/-- **C97, violated.** Turned upside down, every flag lands one pixel to the left of and below its pixel. -/
theorem C97_violated_half_turn (cols rows : ℕ) (c p : ℝ × ℝ) :
    dqTo cols rows π c p = dataTo π c p - (1, 1) := by
  rw [C97_dq_centre]
  simp only [dataTo, rot, cos_pi, sin_pi]
  apply Prod.ext <;> simp only [Prod.fst_add, Prod.snd_add, Prod.fst_sub, Prod.snd_sub] <;> ring

/-! ## Positions in the header -/

/-- **C97 (partial).** Turned about the star, the star's position stays right. -/
theorem C97_star_partial (rows cols : ℕ) (h : Hdr) (n : ℕ) (isTrue : Bool) (s : ℝ × ℝ) (hs : h.star = some s) (o : Out)
    (ho : northup [rows, cols] h n isTrue isTrue .starloc = .ok o) :
    ∃ s', o.hdr.star = some s' ∧ o.data s = s' := by
  cases isTrue <;> simp [northup] at ho <;> subst ho <;>
    exact ⟨s, by simpa using hs, by simp [center, hs, dataTo, rot]⟩

/-- **C97, violated.** Turned about another point the header keeps the old star position: right exactly if the star is at
the centre of the rotation or nothing is turned. -/
theorem C97_violated_star (rows cols : ℕ) (h : Hdr) (n : ℕ) (rc : Center) (s : ℝ × ℝ)
    (hs : h.star = some s) : ∃ o, northup [rows, cols] h n true true rc = .ok o ∧ o.hdr.star = some s ∧
      (o.data s = s ↔ s = center cols rows h rc ∨ cos (wcsAngle h.w) = 1) := by
  refine ⟨_, rfl, ?_, ?_⟩
  · simpa using hs
  · simp only [if_true, dataTo]
    rw [add_comm, ← eq_sub_iff_add_eq, rot_zero_iff]
    constructor
    · rintro (h | h)
      · exact Or.inl (sub_eq_zero.1 h)
      · exact Or.inr h
    · rintro (h | h)
      · exact Or.inl (sub_eq_zero.2 h)
      · exact Or.inr h

/-- The WCS of the rotated frame, at the place where a pixel went. -/
theorem plane_turned (t : ℝ) (c : ℝ × ℝ) (w : Wcs) (p : ℝ × ℝ) :
    let q := dataTo t c p
    let u := (w.crpix1 - 1, w.crpix2 - 1)
    let v := (rot t (u - c) - (u - c))
    (plane (turnCd t w) q.1 q.2).1 - (plane w p.1 p.2).1 =
      (turnCd t w).cd11 * v.1 + (turnCd t w).cd12 * v.2 ∧
    (plane (turnCd t w) q.1 q.2).2 - (plane w p.1 p.2).2 =
      (turnCd t w).cd21 * v.1 + (turnCd t w).cd22 * v.2 := by
  have h1 := sin_sq_add_cos_sq t
  simp only [plane, turnCd, dataTo, rot, Prod.fst_add, Prod.snd_add, Prod.fst_sub, Prod.snd_sub]
  constructor
  · linear_combination (w.cd11 * (p.1 + 1 - w.crpix1) + w.cd12 * (p.2 + 1 - w.crpix2)) * h1
  · linear_combination (w.cd21 * (p.1 + 1 - w.crpix1) + w.cd22 * (p.2 + 1 - w.crpix2)) * h1

/-- **C97, violated.** CRPIX stays: a pixel keeps its sky position exactly if the rotation is about the reference pixel or
nothing is turned, for every invertible CD matrix. -/
theorem C97_violated_wcs (rows cols : ℕ) (h : Hdr) (n : ℕ) (rc : Center) (p : ℝ × ℝ)
    (hd : h.w.cd11 * h.w.cd22 - h.w.cd12 * h.w.cd21 ≠ 0) :
    ∃ o, northup [rows, cols] h n true true rc = .ok o ∧
      (plane o.hdr.w (o.data p).1 (o.data p).2 = plane h.w p.1 p.2 ↔
        center cols rows h rc = (h.w.crpix1 - 1, h.w.crpix2 - 1) ∨ cos (wcsAngle h.w) = 1) := by
  refine ⟨_, rfl, ?_⟩
  simp only [if_true]
  set t := wcsAngle h.w with ht
  set c := center cols rows h rc with hc
  set u : ℝ × ℝ := (h.w.crpix1 - 1, h.w.crpix2 - 1) with hu
  set v : ℝ × ℝ := rot t (u - c) - (u - c) with hv
  have k := plane_turned t c h.w p
  dsimp only at k
  rw [← hu, ← hv] at k
  have h1 := sin_sq_add_cos_sq t
  have hdet : (turnCd t h.w).cd11 * (turnCd t h.w).cd22 - (turnCd t h.w).cd12 * (turnCd t h.w).cd21 ≠ 0 := by
    intro e
    apply hd
    simp only [turnCd] at e
    linear_combination e - (h.w.cd11 * h.w.cd22 - h.w.cd12 * h.w.cd21) * h1
  have step : plane (turnCd t h.w) (dataTo t c p).1 (dataTo t c p).2 = plane h.w p.1 p.2 ↔ v = (0, 0) := by
    constructor
    · intro e
      rw [e] at k
      have k1 := k.1
      have k2 := k.2
      rw [sub_self] at k1 k2
      apply Prod.ext <;> dsimp only
      · apply (mul_eq_zero.1 (show ((turnCd t h.w).cd11 * (turnCd t h.w).cd22 - (turnCd t h.w).cd12 * (turnCd t h.w).cd21) *
          v.1 = 0 by linear_combination (turnCd t h.w).cd12 * k2 - (turnCd t h.w).cd22 * k1)).resolve_left hdet
      · apply (mul_eq_zero.1 (show ((turnCd t h.w).cd11 * (turnCd t h.w).cd22 - (turnCd t h.w).cd12 * (turnCd t h.w).cd21) *
          v.2 = 0 by linear_combination (turnCd t h.w).cd21 * k1 - (turnCd t h.w).cd11 * k2)).resolve_left hdet
    · intro e
      rw [e] at k
      simp only [mul_zero, add_zero] at k
      exact Prod.ext (sub_eq_zero.1 k.1) (sub_eq_zero.1 k.2)
  rw [step, hv]
  have z : ((0 : ℝ), (0 : ℝ)) = (0 : ℝ × ℝ) := rfl
  rw [z, sub_eq_zero, rot_zero_iff, z, sub_eq_zero]
  constructor
  · rintro (h | h)
    · exact Or.inl h.symm
    · exact Or.inr h
  · rintro (h | h)
    · exact Or.inl h.symm
    · exact Or.inr h

/-- **C97, violated.** For frames whose WCS comes from `create_wcs` the default centre is never the reference pixel. -/
theorem C97_violated_default (rows cols : ℕ) (a : Astrom) (p : Pointing) (s : Option (ℝ × ℝ)) (r : ℝ) :
    center cols rows ⟨createWcs rows cols a p, s, r⟩ .image ≠
      ((createWcs rows cols a p).crpix1 - 1, (createWcs rows cols a p).crpix2 - 1) := by
  intro h
  have := congrArg Prod.fst h
  simp only [center, imageCenter, createWcs] at this
  linarith

/-- **C97.** The default centre is the middle pixel for odd sizes, the one before the middle for even sizes. -/
theorem C97_image_centre (c r : ℕ) : imageCenter (2 * c + 1) (2 * r + 1) = ((c : ℝ), (r : ℝ)) ∧
    imageCenter (2 * c + 2) (2 * r + 2) = ((c : ℝ), (r : ℝ)) := by
  have h1 : ∀ n : ℕ, (((2 * n + 1 : ℕ) : ℤ) - 1) / 2 = n := by intro n; omega
  have h2 : ∀ n : ℕ, (((2 * n + 2 : ℕ) : ℤ) - 1) / 2 = n := by intro n; omega
  unfold imageCenter
  rw [h1, h1, h2, h2]
  simp

/-! ## Shapes and arguments -/

/-- **C97, violated.** All error layers but the first are dropped. -/
theorem C97_violated_layers (rows cols : ℕ) (h : Hdr) (n : ℕ) (isTrue truthy : Bool) (rc : Center) (o : Out)
    (ho : northup [rows, cols] h n isTrue truthy rc = .ok o) : o.errLayers = 1 := by
  simp only [northup] at ho
  split_ifs at ho <;> cases ho <;> rfl

/-- **C97, violated.** PSF-subtracted cubes are not accepted; only two-dimensional data are. -/
theorem C97_violated_cube (shape : List ℕ) (h : Hdr) (n : ℕ) (isTrue truthy : Bool) (rc : Center) :
    (∃ o, northup shape h n isTrue truthy rc = .ok o) ↔ shape.length = 2 ∧ (truthy = true → isTrue = true) := by
  match shape with
  | [] => simp [northup]
  | [a] => simp [northup]
  | [a, b] => cases isTrue <;> cases truthy <;> simp [northup]
  | a :: b :: c :: l => simp [northup]

/-- **C97, violated.** `use_wcs=1` (any true value that is not `True`) fails. -/
theorem C97_violated_truthy (rows cols : ℕ) (h : Hdr) (n : ℕ) (rc : Center) :
    northup [rows, cols] h n false true rc = .error .noAttribute := rfl

example : dqTo 4 4 π (1, 1) (2, 1) = (-1, 0) := by
  rw [C97_violated_half_turn]; simp [dataTo, rot]; norm_num

end Corgi.Northup

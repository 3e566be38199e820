import Verif.Common.Round
import Verif.Astrom.Angles
import Mathlib.Analysis.SpecialFunctions.Log.Base
import Mathlib.Analysis.SpecialFunctions.Pow.Real

/-!
# `measure_companions.py`: model and C102

Reals for floats. The Gaussian fits give peak and width; their values are inputs of the model.
-/

namespace Corgi.Companions

noncomputable section

open Real

/-- Result of a Gaussian fit. -/
structure Fit where
  peak : ℝ
  fwhm : ℝ

/-- Total counts of a fit up to a common factor. -/
def Fit.flux (f : Fit) : ℝ := f.peak * f.fwhm ^ 2

/-- lines 71-73: `od` is what `interpolate_od` returns -/
def ndCorrect (peak : ℝ) (od : Option ℝ) : ℝ :=
  match od with
  | none => peak
  | some od => peak / od

/-- line 86: factor from the brightest calibration PSF to the host star -/
def hostToCt (host ct : Fit) : ℝ := (host.peak * host.fwhm ^ 2) / (ct.peak * ct.fwhm ^ 2)

/-- line 156: flux ratio for `thrp_corr == "L4"`; `thr` is the interpolated throughput, `atPlanet` the fit to the scaled PSF
at the place of the companion -/
def ratioL4 (comp : Fit) (thr : ℝ) (atPlanet : Fit) : ℝ := comp.peak / thr / atPlanet.peak

/-- line 212 -/
def magFromHost (hostMag ratio : ℝ) : ℝ := hostMag - 5 / 2 * logb 10 ratio

/-- line 217; `none` (a missing card) gives a `TypeError` -/
def magFromZp (counts : ℝ) (zp : Option ℝ) : Option ℝ := zp.map fun z => -(5 / 2) * logb 10 counts + z

/-! ## Neutral density filter -/

/-- Spec: the star without the filter, whose transmission is `10 ^ -od` (nd_filter_calibration.py 221). -/
def unfiltered (peak od : ℝ) : ℝ := peak / 10 ^ (-od)

/-- **C102.** Without a filter nothing is changed. -/
theorem C102_no_filter (peak : ℝ) : ndCorrect peak none = peak := rfl

/-- **C102, violated.** The peak is divided by the optical density instead of the transmission: for densities of one and
more the host comes out too faint by at least a factor of ten, so that all companions come out too bright. -/
theorem C102_violated_od (peak od : ℝ) (hp : 0 < peak) (ho : 1 ≤ od) :
    ndCorrect peak (some od) * 10 ≤ unfiltered peak od := by
  have h1 : (10 : ℝ) ≤ 10 ^ od := by
    calc (10 : ℝ) = 10 ^ (1 : ℝ) := (rpow_one _).symm
      _ ≤ 10 ^ od := rpow_le_rpow_of_exponent_le (by norm_num) ho
  unfold ndCorrect unfiltered
  dsimp only
  rw [rpow_neg (by norm_num), div_inv_eq_mul]
  have h2 : peak / od ≤ peak := div_le_self hp.le ho
  nlinarith

/-! ## Flux ratio -/

/-- Spec: host and companion are seen through the same optics. `h` is the flux of the host without the mask in units of the
brightest calibration PSF; `psf` is the calibration PSF at the place of the companion, so that the host would have the peak
`h * psf.peak` there, the companion of flux ratio `ρ` the peak `ρ * h * psf.peak`; PSF subtraction keeps the fraction `t` of
its counts and changes its width to `w`. -/
structure Scene where
  host : Fit
  ct : Fit
  psf : Fit
  rho : ℝ
  t : ℝ
  w : ℝ
  host_pos : 0 < host.peak ∧ 0 < host.fwhm
  ct_pos : 0 < ct.peak ∧ 0 < ct.fwhm
  psf_pos : 0 < psf.peak ∧ 0 < psf.fwhm
  t_pos : 0 < t
  w_pos : 0 < w

/-- Peak of the companion after PSF subtraction: the counts are `t` times those of the unsubtracted companion. -/
def Scene.compPeak (s : Scene) : ℝ :=
  s.t * (s.rho * (s.host.flux / s.ct.flux) * s.psf.peak * s.psf.fwhm ^ 2) / s.w ^ 2

def Scene.comp (s : Scene) : Fit := ⟨s.compPeak, s.w⟩

/-- The fit to the scaled PSF at the place of the companion (lines 121-129; the fit is linear in the scale). -/
def Scene.atPlanet (s : Scene) : Fit := ⟨s.psf.peak * hostToCt s.host s.ct, s.psf.fwhm⟩

theorem Scene.comp_flux (s : Scene) :
    s.comp.flux = s.t * s.rho * (s.host.flux / s.ct.flux * s.psf.flux) := by
  have := s.w_pos.ne'
  simp only [Scene.comp, Scene.compPeak, Fit.flux]
  field_simp

/-- **C102.** What is reported: the true ratio times the square of the ratio of the widths before and after PSF
subtraction. -/
theorem C102_reported (s : Scene) :
    ratioL4 s.comp s.t s.atPlanet = s.rho * (s.psf.fwhm / s.w) ^ 2 := by
  have h1 := s.host_pos
  have h2 := s.ct_pos
  have h3 := s.psf_pos
  have h4 := s.t_pos.ne'
  have h5 := s.w_pos.ne'
  have := h1.1.ne'; have := h1.2.ne'; have := h2.1.ne'; have := h2.2.ne'; have := h3.1.ne'; have := h3.2.ne'
  simp only [ratioL4, Scene.comp, Scene.compPeak, Scene.atPlanet, hostToCt, Fit.flux]
  field_simp

/-- **C102, violated.** The throughput is one of counts (peak times squared width, C101), but only the peak is corrected:
the ratio is right exactly if PSF subtraction keeps the width. -/
theorem C102_violated_width (s : Scene) (hr : s.rho ≠ 0) :
    ratioL4 s.comp s.t s.atPlanet = s.rho ↔ s.w = s.psf.fwhm := by
  rw [C102_reported]
  have h3 := s.psf_pos.2
  have h5 := s.w_pos
  constructor
  · intro h
    have h1 : (s.psf.fwhm / s.w) ^ 2 = 1 := by
      apply mul_left_cancel₀ hr; rw [h, mul_one]
    have h2 : s.psf.fwhm / s.w = 1 := by
      rcases sq_eq_one_iff.1 h1 with h | h
      · exact h
      · have := div_pos h3 h5; linarith
    rw [div_eq_one_iff_eq h5.ne'] at h2
    exact h2.symm
  · intro h
    rw [h, div_self h3.ne', one_pow, mul_one]

/-- **C102 (partial).** With the width kept, the true ratio is found for every throughput, host and calibration star. -/
theorem C102_ratio_partial (s : Scene) (hw : s.w = s.psf.fwhm) : ratioL4 s.comp s.t s.atPlanet = s.rho := by
  rw [C102_reported, hw, div_self s.psf_pos.2.ne', one_pow, mul_one]

/-! ## Magnitudes -/

/-- **C102.** The magnitude difference stands for the flux ratio: `10 ^ (0.4 Δm) = ratio`. -/
theorem C102_magnitude (hostMag ratio : ℝ) (hr : 0 < ratio) :
    10 ^ ((2 / 5) * (hostMag - magFromHost hostMag ratio)) = ratio := by
  have e : (2 / 5 : ℝ) * (hostMag - magFromHost hostMag ratio) = logb 10 ratio := by unfold magFromHost; ring
  rw [e, rpow_logb (by norm_num) (by norm_num) hr]

/-- **C102.** Fainter companions have larger magnitudes. -/
theorem C102_fainter (hostMag a b : ℝ) (ha : 0 < a) (hab : a < b) : magFromHost hostMag b < magFromHost hostMag a := by
  have := logb_lt_logb (by norm_num : (1 : ℝ) < 10) ha hab
  unfold magFromHost; linarith

/-- **C102.** With a zero point the magnitude is the one whose counts they are: `counts = 10 ^ (2/5 (zp - mag))`. -/
theorem C102_zero_point (counts zp m : ℝ) (hc : 0 < counts) :
    magFromZp counts (some zp) = some m ↔ (10 : ℝ) ^ ((2 / 5) * (zp - m)) = counts := by
  unfold magFromZp
  rw [Option.map_some, Option.some.injEq]
  constructor
  · rintro rfl
    have e : (2 / 5 : ℝ) * (zp - (-(5 / 2) * logb 10 counts + zp)) = logb 10 counts := by ring
    rw [e, rpow_logb (by norm_num) (by norm_num) hc]
  · intro h
    rw [← h, logb_rpow (by norm_num) (by norm_num)]
    ring

/-- Cards written into the extension header on the way from the frame to the `FluxcalFactor`: fluxcal.py 482-513 and
581-611 (`BUNIT`, `LOCBACK`, `HISTORY`), `Image.__init__` (data.py 390-424), `_record_parent_filenames` (data.py 488-490,
`FILE0`... for `n` parents), `FluxcalFactor.__init__` (data.py 1397-1429). -/
def fluxcalWritten (n : ℕ) : List String :=
  ["BUNIT", "LOCBACK", "HISTORY", "DRPVERSN", "DRPCTIME", "DESMEAR", "CTI_CORR", "IS_BAD", "DRPNFILE", "DATATYPE", "DATALVL"] ++
    (List.range n).map fun i => "FILE" ++ toString i

/-- The header of the factor is that of the frame (`ext_hdr=image.ext_hdr`) with these cards. -/
def fluxcalCards (frame : List String) (n : ℕ) : List String := frame ++ fluxcalWritten n

/-- **C102, violated.** The path without calspec entry needs the card `ZP`, which making the factor never writes: a frame
without `ZP` gives no magnitude (`None` is added to a number). -/
theorem C102_violated_zero_point (frame : List String) (n : ℕ) (value : String → ℝ) (counts : ℝ) (hf : "ZP" ∉ frame) :
    magFromZp counts (if "ZP" ∈ fluxcalCards frame n then some (value "ZP") else none) = none := by
  have : "ZP" ∉ fluxcalCards frame n := by
    unfold fluxcalCards fluxcalWritten
    rw [List.mem_append, List.mem_append]
    rintro (h | h | h)
    · exact hf h
    · revert h; decide
    · obtain ⟨i, _, hi⟩ := List.mem_map.1 h
      have := congrArg (fun t : String => t.toList.head?) hi
      simp [String.toList_append] at this
  rw [if_neg this]; rfl

/-! ## Positions -/

/-- lines 100-101 -/
def fromPolar (star : ℝ × ℝ) (sep pa : ℝ) : ℝ × ℝ :=
  (star.1 + sep * cos ((pa + 90) * π / 180), star.2 + sep * sin ((pa + 90) * π / 180))

/-- **C102.** Given locations are understood as everywhere else: separation, and position angle counterclockwise from up. -/
theorem C102_place (star : ℝ × ℝ) (sep pa : ℝ) : fromPolar star sep pa = Astrom.seppa2xy sep pa star.1 star.2 := by
  have e : (pa + 90) * π / 180 = pa * π / 180 + π / 2 := by ring
  unfold fromPolar Astrom.seppa2xy Astrom.seppa2dxdy
  rw [e, cos_add_pi_div_two, sin_add_pi_div_two]
  apply Prod.ext <;> dsimp only <;> ring

end

/-- `parse_companions` (lines 237-254): cards as keyword and comma-separated parts (numbers). -/
def parse (hdr : List (String × List ℚ)) : List (String × ℚ × ℚ) :=
  hdr.filterMap fun kv =>
    if kv.1.startsWith "SNYX" then
      match kv.2 with
      | _ :: y :: x :: _ => some (kv.1, x, y)
      | _ => none
    else none

/-- **C102.** Exactly the detections are read, with y before x, in the order of the header. -/
theorem C102_parse (hdr : List (String × List ℚ)) (k : String) (x y : ℚ) :
    (k, x, y) ∈ parse hdr ↔ k.startsWith "SNYX" = true ∧ ∃ sn rest, (k, sn :: y :: x :: rest) ∈ hdr := by
  unfold parse
  rw [List.mem_filterMap]
  constructor
  · rintro ⟨⟨k', l⟩, hm, h⟩
    dsimp only at h
    by_cases hk : k'.startsWith "SNYX" = true
    · rw [if_pos hk] at h
      match l, h, hm with
      | sn :: y' :: x' :: rest, h, hm =>
        simp only [Option.some.injEq, Prod.mk.injEq] at h
        obtain ⟨rfl, rfl, rfl⟩ := h
        exact ⟨hk, sn, rest, hm⟩
      | [], h, _ => cases h
      | [_], h, _ => cases h
      | [_, _], h, _ => cases h
    · rw [if_neg hk] at h; cases h
  · rintro ⟨hk, sn, rest, hm⟩
    exact ⟨_, hm, by simp only [hk, if_true]⟩

example : parse [("SNYX000", [12, 30, 40]), ("NAXIS", [2]), ("SNYX001", [5, 7])] = [("SNYX000", 40, 30)] := by decide +kernel

/-- `update_companion_location_in_cropped_image` (lines 467-494), (x, y); Python's `round`. -/
def moved (rnd : ℚ → ℤ) (comp oldHost newHost : ℚ × ℚ) : ℤ × ℤ :=
  (rnd (comp.1 - oldHost.1 + newHost.1), rnd (comp.2 - oldHost.2 + newHost.2))

/-- **C102.** A companion keeps its place relative to the host to half a pixel; exactly if the coordinates are whole. -/
theorem C102_moved (rnd : ℚ → ℤ) (hr : ∀ q, |q - rnd q| ≤ 1 / 2) (comp oldHost newHost : ℚ × ℚ) :
    let m := moved rnd comp oldHost newHost
    |((m.1 : ℚ) - newHost.1) - (comp.1 - oldHost.1)| ≤ 1 / 2 ∧ |((m.2 : ℚ) - newHost.2) - (comp.2 - oldHost.2)| ≤ 1 / 2 ∧
    (∀ a b : ℤ, comp.1 - oldHost.1 + newHost.1 = a → comp.2 - oldHost.2 + newHost.2 = b → m = (a, b)) := by
  dsimp only
  have key : ∀ z : ℤ, rnd (z : ℚ) = z := by
    intro z
    have := hr z
    rw [abs_le] at this
    have h1 : ((rnd (z : ℚ) : ℤ) : ℚ) < z + 1 := by linarith
    have h2 : (z : ℚ) < rnd (z : ℚ) + 1 := by linarith
    have h1' : rnd (z : ℚ) < z + 1 := by exact_mod_cast h1
    have h2' : z < rnd (z : ℚ) + 1 := by exact_mod_cast h2
    omega
  refine ⟨?_, ?_, fun a b ha hb => ?_⟩
  · have := hr (comp.1 - oldHost.1 + newHost.1)
    rw [abs_sub_comm] at this
    refine le_trans (le_of_eq ?_) this
    congr 1; simp only [moved]; ring
  · have := hr (comp.2 - oldHost.2 + newHost.2)
    rw [abs_sub_comm] at this
    refine le_trans (le_of_eq ?_) this
    congr 1; simp only [moved]; ring
  · unfold moved; rw [ha, hb, key, key]

/-- `klip_thru_data[kl_mode_idx, closest_idx, 0]` in `forward_model_psf` (line 445): row `i` of the table, whose first row
holds the separations. -/
def fmThroughput (table : List (List ℚ)) (kl : ℕ) (sepIdx : ℕ) : Option ℚ := (table[kl]?).bind (·[sepIdx]?)

/-- Row of a KL mode as used by `measure_companions` (lines 147-149). -/
def l4Throughput (table : List (List ℚ)) (kl : ℕ) (sepIdx : ℕ) : Option ℚ := ((table.drop 1)[kl]?).bind (·[sepIdx]?)

/-- **C102, violated.** Indices that count from the front are off by one in `forward_model_psf`: the first KL mode gives the
separation itself. -/
theorem C102_violated_fm_row (seps : List ℚ) (rows : List (List ℚ)) (i k : ℕ) :
    fmThroughput (seps :: rows) 0 i = seps[i]? ∧ fmThroughput (seps :: rows) (k + 1) i = l4Throughput (seps :: rows) k i := by
  simp [fmThroughput, l4Throughput]

end Corgi.Companions

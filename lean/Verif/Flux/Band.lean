import Verif.Flux.Simpson
import Mathlib.Analysis.SpecialFunctions.Log.Base
import Mathlib.Analysis.SpecialFunctions.Log.Deriv
import Mathlib.Data.String.Basic

/-!
# Filter bands, reference spectra and colour correction

`/repo/corgidrp/fluxcal.py:64-274,412-517` and the users of these functions in `/repo/corgidrp/l4_to_tda.py:15-174,320-394`.
Wavelength grids are lists; arrays over the grid are functions of the wavelength.
-/

noncomputable section

namespace Corgi.Flux

/-! ## Model -/

/-- Python's `a in b` for strings. -/
def isSub (a b : String) : Bool := b.toList.tails.any fun t => a.toList.isPrefixOf t

/-- `get_filter_name` (fluxcal.py:64-83): the first directory entry that contains the keyword; none: ValueError. The
directory listing has no specified order. -/
def filterName (listing : List String) (cfam : String) : Option String := (listing.filter (isSub cfam)).head?

/-- `/repo/corgidrp/data/filter_curves`. -/
def shippedFilters : List (String × String) :=
  [("1F", "transmission_ID-01_1F_v0.csv"), ("2F", "transmission_ID-02_2F_v0.csv"), ("3F", "transmission_ID-03_3F_v0.csv"),
   ("4F", "transmission_ID-04_4F_v0.csv"), ("1A", "transmission_ID-05_1A_v0.csv"), ("1B", "transmission_ID-06_1B_v0.csv"),
   ("1C", "transmission_ID-07_1C_v0.csv"), ("2A", "transmission_ID-08_2A_v0.csv"), ("2B", "transmission_ID-09_2B_v0.csv"),
   ("2C", "transmission_ID-10_2C_v0.csv"), ("3A", "transmission_ID-11_3A_v0.csv"), ("3B", "transmission_ID-12_3B_v0.csv"),
   ("3D", "transmission_ID-14_3D_v0.csv"), ("3E", "transmission_ID-15_3E_v0.csv"), ("4A", "transmission_ID-16_4A_v0.csv"),
   ("4B", "transmission_ID-17_4B_v0.csv"), ("4C", "transmission_ID-18_4C_v0.csv"), ("3C", "transmission_ID-21_3C_v0.csv"),
   ("3G", "transmission_ID-22_3G_v0.csv")]

def shippedListing : List String := ["imaging_lens_v0.txt", "pupil_lens_v0.txt"] ++ shippedFilters.map Prod.snd

/-- `calculate_band_flux` (fluxcal.py:126-143). -/
def bandFlux (g : List ℝ) (T F : ℝ → ℝ) : ℝ :=
  simpson g (fun w => F w * T w * w) / simpson g (fun w => T w * w)

/-- `calculate_effective_lambda` (fluxcal.py:145-162). -/
def effLambda (g : List ℝ) (T F : ℝ → ℝ) : ℝ :=
  simpson g (fun w => F w * T w * w ^ 2) / simpson g (fun w => F w * T w * w)

/-- `calculate_pivot_lambda` (fluxcal.py:164-179). -/
def pivot (g : List ℝ) (T : ℝ → ℝ) : ℝ :=
  Real.sqrt (simpson g (fun w => T w * w) / simpson g (fun w => T w / w))

/-- `calculate_flux_ref` (fluxcal.py:181-195). -/
def fluxRef (g : List ℝ) (F : ℝ → ℝ) (w : ℝ) : Option ℝ := interp (g.map fun x => (x, F x)) w

/-- `calculate_vega_mag` (fluxcal.py:197-219). -/
def vegaMag (g : List ℝ) (T vega : ℝ → ℝ) (flux : ℝ) : ℝ := -2.5 * Real.logb 10 (flux / bandFlux g T vega)

/-- `compute_color_cor` (fluxcal.py:222-254). -/
def colorCor (g : List ℝ) (T ref : ℝ → ℝ) (w : ℝ) (src : ℝ → ℝ) : Option ℝ := do
  let s ← fluxRef g src w
  let r ← fluxRef g ref w
  return simpson g (fun x => x * T x * src x / s) / simpson g (fun x => x * T x * ref x / r)

/-- `calculate_band_irradiance` (fluxcal.py:256-272). -/
def irradiance (g : List ℝ) (T F : ℝ → ℝ) : ℝ := simpson g (fun w => F w * T w)

/-- `determine_app_mag` (l4_to_tda.py:73-77). -/
def appMag (g : List ℝ) (T vega src : ℝ → ℝ) (scale : ℝ) : ℝ :=
  -2.5 * Real.logb 10 (irradiance g T (fun w => src w * scale) / irradiance g T vega)

/-- `read_cal_spec` (fluxcal.py:101-124): the spectrum samples inside the filter range, interpolated at the wavelengths of the
grid. -/
def readCalSpec (spec : List (ℝ × ℝ)) (g : List ℝ) : Option (List ℝ) := open Classical in
  let kept := spec.filter fun p => decide (p.1 ≤ g.getLast?.getD 0 ∧ g.head?.getD 0 ≤ p.1)
  g.mapM (interp kept)

/-- The detected electrons per second of a star: the detector counts photons, so the spectrum is weighted with `T·λ`; `A`
collects aperture, gain and Planck's constant. The quadrature of the code is used as the integral. -/
def electrons (A : ℝ) (g : List ℝ) (T F : ℝ → ℝ) : ℝ := A * simpson g (fun w => F w * T w * w)

/-- `calibrate_fluxcal_aper` (fluxcal.py:480-498): band flux of the reference over the detected electrons, with its error. -/
def fluxcal (band ap apErr : ℝ) : ℝ × ℝ := (band / ap, band / ap ^ 2 * apErr)

/-- `determine_flux` (l4_to_tda.py:337-343,375-388) after the photometry: `phot` are (sum, error) per frame. -/
structure FluxOut where
  flux : ℝ
  fluxErr : ℝ
  mag : ℝ
  magErr : ℝ

def determineFlux (g : List ℝ) (T vega : ℝ → ℝ) (fac facErr : ℝ) (colCor : Option ℝ) (phot : List (ℝ × ℝ)) : FluxOut :=
  let k := colCor.getD 1
  let factor := fac / k
  let factorErr := facErr / k
  let ap := (phot.map Prod.fst).sum / phot.length
  let apErr := (phot.map Prod.snd).sum / phot.length
  let flux := ap * factor
  let fluxErr := Real.sqrt (apErr ^ 2 * factor ^ 2 + factorErr ^ 2 * ap ^ 2)
  { flux := flux, fluxErr := fluxErr, mag := vegaMag g T vega flux, magErr := 2.5 / Real.log 10 * fluxErr / flux }

/-! ## C66: photometric integrals -/

/-- A filter band: uniform grid of positive wavelengths, positive transmission. -/
structure Band (g : List ℝ) (T : ℝ → ℝ) : Prop where
  uniform : ∃ h, Uniform h g
  len : 2 ≤ g.length
  pos : ∀ w ∈ g, 0 < w
  trans : ∀ w ∈ g, 0 < T w

theorem Band.den_pos {g : List ℝ} {T : ℝ → ℝ} (b : Band g T) : 0 < simpson g (fun w => T w * w) := by
  obtain ⟨h, hu⟩ := b.uniform
  exact simpson_pos hu b.len fun w hw => mul_pos (b.trans w hw) (b.pos w hw)

theorem Band.flux_pos {g : List ℝ} {T F : ℝ → ℝ} (b : Band g T) (hF : ∀ w ∈ g, 0 < F w) :
    0 < simpson g (fun w => F w * T w * w) := by
  obtain ⟨h, hu⟩ := b.uniform
  exact simpson_pos hu b.len fun w hw => mul_pos (mul_pos (hF w hw) (b.trans w hw)) (b.pos w hw)

theorem Band.irr_pos {g : List ℝ} {T F : ℝ → ℝ} (b : Band g T) (hF : ∀ w ∈ g, 0 < F w) : 0 < irradiance g T F := by
  obtain ⟨h, hu⟩ := b.uniform
  exact simpson_pos hu b.len fun w hw => mul_pos (hF w hw) (b.trans w hw)

/-- C66: a flat spectrum has its own value as band flux, for any grid. -/
theorem C66_constant {g : List ℝ} {T : ℝ → ℝ} (c : ℝ) (h0 : simpson g (fun w => T w * w) ≠ 0) : bandFlux g T (fun _ => c) = c := by
  unfold bandFlux
  rw [simpson_congr (f' := fun w => c * (T w * w)) g (fun w _ => by ring), simpson_smul]
  field_simp

/-- C66: the band flux is linear in the spectrum. -/
theorem C66_linear (g : List ℝ) (T F F' : ℝ → ℝ) (k : ℝ) :
    bandFlux g T (fun w => F w + F' w) = bandFlux g T F + bandFlux g T F' ∧ bandFlux g T (fun w => k * F w) = k * bandFlux g T F := by
  unfold bandFlux
  constructor
  · rw [simpson_congr (f' := fun w => F w * T w * w + F' w * T w * w) g (fun w _ => by ring), simpson_add, add_div]
  · rw [simpson_congr (f' := fun w => k * (F w * T w * w)) g (fun w _ => by ring), simpson_smul, mul_div_assoc]

/-- C66: the band flux lies between the extremes of the spectrum. -/
theorem C66_between {g : List ℝ} {T F : ℝ → ℝ} (b : Band g T) {lo hi : ℝ} (h : ∀ w ∈ g, lo ≤ F w ∧ F w ≤ hi) :
    lo ≤ bandFlux g T F ∧ bandFlux g T F ≤ hi := by
  have hd := b.den_pos
  obtain ⟨s, hu⟩ := b.uniform
  unfold bandFlux
  rw [le_div_iff₀ hd, div_le_iff₀ hd, ← simpson_smul, ← simpson_smul]
  constructor
  · refine simpson_mono hu fun w hw => ?_
    have := mul_pos (b.trans w hw) (b.pos w hw)
    nlinarith [(h w hw).1]
  · refine simpson_mono hu fun w hw => ?_
    have := mul_pos (b.trans w hw) (b.pos w hw)
    nlinarith [(h w hw).2]

/-- C66: the effective wavelength lies in the band and does not depend on the brightness. -/
theorem C66_effective {g : List ℝ} {T F : ℝ → ℝ} (b : Band g T) (hF : ∀ w ∈ g, 0 < F w) {lo hi : ℝ} (h : ∀ w ∈ g, lo ≤ w ∧ w ≤ hi) :
    (lo ≤ effLambda g T F ∧ effLambda g T F ≤ hi) ∧ ∀ k : ℝ, k ≠ 0 → effLambda g T (fun w => k * F w) = effLambda g T F := by
  have hd := b.flux_pos hF
  obtain ⟨s, hu⟩ := b.uniform
  unfold effLambda
  refine ⟨?_, fun k hk => ?_⟩
  · rw [le_div_iff₀ hd, div_le_iff₀ hd, ← simpson_smul, ← simpson_smul]
    constructor
    · refine simpson_mono hu fun w hw => ?_
      have := mul_pos (mul_pos (hF w hw) (b.trans w hw)) (b.pos w hw)
      nlinarith [(h w hw).1]
    · refine simpson_mono hu fun w hw => ?_
      have := mul_pos (mul_pos (hF w hw) (b.trans w hw)) (b.pos w hw)
      nlinarith [(h w hw).2]
  · rw [simpson_congr (f' := fun w => k * (F w * T w * w ^ 2)) g (fun w _ => by ring),
      simpson_congr (f := fun w => k * F w * T w * w) (f' := fun w => k * (F w * T w * w)) g (fun w _ => by ring), simpson_smul, simpson_smul,
      mul_div_mul_left _ _ hk]

/-- C66: the pivot wavelength lies in the band and does not depend on the scale of the transmission. -/
theorem C66_pivot {g : List ℝ} {T : ℝ → ℝ} (b : Band g T) {lo hi : ℝ} (hlo : 0 ≤ lo) (h : ∀ w ∈ g, lo ≤ w ∧ w ≤ hi) :
    (lo ≤ pivot g T ∧ pivot g T ≤ hi) ∧ ∀ k : ℝ, k ≠ 0 → pivot g (fun w => k * T w) = pivot g T := by
  obtain ⟨s, hu⟩ := b.uniform
  have hd : 0 < simpson g (fun w => T w / w) := simpson_pos hu b.len fun w hw => div_pos (b.trans w hw) (b.pos w hw)
  have hhi : 0 ≤ hi := by
    obtain ⟨w, hw⟩ : ∃ w, w ∈ g := by
      cases g with
      | nil => exact absurd b.len (by simp)
      | cons a r => exact ⟨a, by simp⟩
    linarith [(h w hw).1, (h w hw).2]
  unfold pivot
  refine ⟨⟨?_, ?_⟩, fun k hk => ?_⟩
  · apply Real.le_sqrt_of_sq_le
    rw [le_div_iff₀ hd, ← simpson_smul]
    refine simpson_mono hu fun w hw => ?_
    have hw0 := b.pos w hw
    have ht := b.trans w hw
    rw [← mul_div_assoc, div_le_iff₀ hw0]
    have : lo ^ 2 ≤ w ^ 2 := by nlinarith [(h w hw).1]
    nlinarith
  · rw [Real.sqrt_le_left hhi, div_le_iff₀ hd, ← simpson_smul]
    refine simpson_mono hu fun w hw => ?_
    have hw0 := b.pos w hw
    have ht := b.trans w hw
    rw [← mul_div_assoc, le_div_iff₀ hw0]
    have : w ^ 2 ≤ hi ^ 2 := by nlinarith [(h w hw).2]
    nlinarith
  · rw [simpson_congr (f' := fun w => k * (T w * w)) g (fun w _ => by ring),
      simpson_congr (f := fun w => k * T w / w) (f' := fun w => k * (T w / w)) g (fun w _ => by ring), simpson_smul, simpson_smul,
      mul_div_mul_left _ _ hk]

/-- C66: Vega has magnitude 0, five magnitudes are a factor of 100, and fainter is larger. -/
theorem C66_magnitude {g : List ℝ} {T vega : ℝ → ℝ} (b : Band g T) (hv : ∀ w ∈ g, 0 < vega w) :
    vegaMag g T vega (bandFlux g T vega) = 0 ∧
      (∀ f : ℝ, 0 < f → vegaMag g T vega (f / 100) = vegaMag g T vega f + 5) ∧
      ∀ f f' : ℝ, 0 < f → f < f' → vegaMag g T vega f' < vegaMag g T vega f := by
  have hb : 0 < bandFlux g T vega := div_pos (b.flux_pos hv) b.den_pos
  unfold vegaMag
  refine ⟨by rw [div_self hb.ne']; simp, fun f hf => ?_, fun f f' h0 h1 => ?_⟩
  · have e : f / 100 / bandFlux g T vega = f / bandFlux g T vega * (10 ^ (2 : ℕ))⁻¹ := by
      field_simp; norm_num
    rw [e, Real.logb_mul (div_pos hf hb).ne' (by norm_num), Real.logb_inv, Real.logb_pow, Real.logb_self_eq_one (by norm_num)]
    norm_num; ring
  · have : Real.logb 10 (f / bandFlux g T vega) < Real.logb 10 (f' / bandFlux g T vega) :=
      Real.logb_lt_logb (by norm_num) (div_pos h0 hb) (by gcongr)
    linarith

/-- C66: without the positivity that the uniform grid gives (`simpson` has negative weights on other grids), the bounds
fail. -/
theorem C66_uniform_needed : ∃ (g : List ℝ) (T F : ℝ → ℝ), g.IsChain (· < ·) ∧ (∀ w ∈ g, 0 < w) ∧ (∀ w ∈ g, 0 < T w) ∧
    (∀ w ∈ g, 1 ≤ F w ∧ F w ≤ 2) ∧ 2 < bandFlux g T F := by
  refine ⟨[1, 2, 11], fun w => if w = 1 then 1 else 1 / 100, fun w => if w = 1 then 2 else 1, by norm_num [List.isChain_cons_cons], ?_, ?_, ?_, ?_⟩
  · intro w hw; simp at hw; rcases hw with rfl | rfl | rfl <;> norm_num
  · intro w hw; simp at hw; rcases hw with rfl | rfl | rfl <;> norm_num
  · intro w hw; simp at hw; rcases hw with rfl | rfl | rfl <;> norm_num
  · simp [bandFlux, simpson, tri]; norm_num

/-- C66: every shipped band name finds its own file, in whatever order the directory is listed. -/
theorem C66_filter {listing : List String} (hl : listing.Perm shippedListing) {k f : String} (h : (k, f) ∈ shippedFilters) :
    filterName listing k = some f := by
  have hu : ∀ p ∈ shippedFilters, shippedListing.filter (isSub p.1) = [p.2] := by decide +kernel
  have := hl.filter (isSub k)
  rw [hu (k, f) h] at this
  unfold filterName
  rw [List.perm_singleton.1 this]; rfl

/-- C66: the file found always contains the keyword in its name; a keyword that several names contain gets a file that
depends on the order of the listing. -/
theorem C66_filter_sound {listing : List String} {k f : String} (h : filterName listing k = some f) : f ∈ listing ∧ isSub k f = true := by
  have := List.mem_of_mem_head? (Option.mem_def.2 h)
  exact List.mem_filter.1 this

theorem C66_filter_order : filterName shippedListing "3" = some "transmission_ID-03_3F_v0.csv" ∧
    filterName shippedListing.reverse "3" = some "transmission_ID-22_3G_v0.csv" ∧
    filterName shippedListing "" = some "imaging_lens_v0.txt" := by decide +kernel

/-! ## C67: colour correction -/

theorem fluxRef_some {g : List ℝ} (h : g ≠ []) (F : ℝ → ℝ) (w : ℝ) : ∃ v, fluxRef g F w = some v := by
  cases hv : fluxRef g F w with
  | some v => exact ⟨v, rfl⟩
  | none => exact absurd (List.map_eq_nil_iff.1 ((interp_none_iff _ _).1 hv)) h

theorem fluxRef_smul (g : List ℝ) (F : ℝ → ℝ) (k w : ℝ) : fluxRef g (fun x => k * F x) w = (fluxRef g F w).map (k * ·) := by
  unfold fluxRef
  rw [← interp_smul, List.map_map]; rfl

theorem map_sorted {h : ℝ} {g : List ℝ} (hu : Uniform h g) (F : ℝ → ℝ) : Sorted (g.map fun x => (x, F x)) := by
  have hc : g.IsChain (· < ·) := hu.2.imp (fun a b e => by rw [e]; linarith [hu.1])
  exact List.pairwise_map.2 hc.pairwise

/-- The colour correction in terms of the integrals. -/
theorem colorCor_eq {g : List ℝ} {T ref src : ℝ → ℝ} {w s r : ℝ} (hs : fluxRef g src w = some s) (hr : fluxRef g ref w = some r) :
    colorCor g T ref w src = some (simpson g (fun x => src x * T x * x) / s / (simpson g (fun x => ref x * T x * x) / r)) := by
  unfold colorCor
  rw [hs, hr]
  show some _ = _
  rw [simpson_congr (f' := fun x => s⁻¹ * (src x * T x * x)) g (fun x _ => by ring),
    simpson_congr (f := fun x => x * T x * ref x / r) (f' := fun x => r⁻¹ * (ref x * T x * x)) g (fun x _ => by ring), simpson_smul, simpson_smul]
  congr 1; ring

/-- C67: spectra of the same shape need no correction. -/
theorem C67_same_shape {g : List ℝ} {T ref : ℝ → ℝ} (b : Band g T) (hp : ∀ w ∈ g, 0 < ref w) {k : ℝ} (hk : 0 < k) (w : ℝ) :
    colorCor g T ref w (fun x => k * ref x) = some 1 := by
  have hg : g ≠ [] := by rintro rfl; exact absurd b.len (by simp)
  obtain ⟨r, hr⟩ := fluxRef_some hg ref w
  obtain ⟨s, hu⟩ := b.uniform
  have hi := b.flux_pos hp
  have hr0 : 0 < r := by
    obtain ⟨m, hm, hmin⟩ : ∃ m ∈ g, ∀ x ∈ g, ref m ≤ ref x := by
      have hne : g.toFinset.Nonempty := by
        obtain ⟨a, ha⟩ := List.exists_mem_of_ne_nil g hg
        exact ⟨a, List.mem_toFinset.2 ha⟩
      obtain ⟨m, hm, hmin⟩ := Finset.exists_min_image g.toFinset ref hne
      exact ⟨m, List.mem_toFinset.1 hm, fun x hx => hmin x (List.mem_toFinset.2 hx)⟩
    obtain ⟨M, hM, hmax⟩ : ∃ m ∈ g, ∀ x ∈ g, ref x ≤ ref m := by
      have hne : g.toFinset.Nonempty := by
        obtain ⟨a, ha⟩ := List.exists_mem_of_ne_nil g hg
        exact ⟨a, List.mem_toFinset.2 ha⟩
      obtain ⟨m, hm, hmin⟩ := Finset.exists_max_image g.toFinset ref hne
      exact ⟨m, List.mem_toFinset.1 hm, fun x hx => hmin x (List.mem_toFinset.2 hx)⟩
    have := (interp_bounds (lo := ref m) (hi := ref M) (map_sorted hu ref) (fun p hp => by
      obtain ⟨x, hx, rfl⟩ := List.mem_map.1 hp; exact ⟨hmin x hx, hmax x hx⟩) hr).1
    exact lt_of_lt_of_le (hp m hm) this
  rw [colorCor_eq (s := k * r) (r := r) (by rw [fluxRef_smul, hr]; rfl) hr]
  rw [simpson_congr (f' := fun x => k * (ref x * T x * x)) g (fun x _ => by ring), simpson_smul]
  congr 1
  field_simp

/-- C67: corrections compose: reference to intermediate times intermediate to source is reference to source. -/
theorem C67_chain {g : List ℝ} {T ref mid src : ℝ → ℝ} {w k₁ k₂ k₃ m : ℝ} (hm : fluxRef g mid w = some m) (hm0 : m ≠ 0)
    (hi : simpson g (fun x => mid x * T x * x) ≠ 0) (h1 : colorCor g T ref w mid = some k₁) (h2 : colorCor g T mid w src = some k₂)
    (h3 : colorCor g T ref w src = some k₃) : k₃ = k₁ * k₂ := by
  have hg : g ≠ [] := by rintro rfl; cases hm
  obtain ⟨r, hr⟩ := fluxRef_some hg ref w
  obtain ⟨s, hs⟩ := fluxRef_some hg src w
  rw [colorCor_eq hm hr] at h1
  rw [colorCor_eq hs hm] at h2
  rw [colorCor_eq hs hr] at h3
  cases h1; cases h2; cases h3
  field_simp

/-- Spec: the factor from the reference star, then the source's flux as `determine_flux` writes it. -/
def calibrated (A : ℝ) (g : List ℝ) (T ref src : ℝ → ℝ) (k : ℝ) : ℝ :=
  electrons A g T src * ((fluxcal (bandFlux g T ref) (electrons A g T ref) 0).1 / k)

/-- C67: without colour correction the calibrated flux is exactly the band flux of the source. -/
theorem C67_band {A : ℝ} {g : List ℝ} {T ref src : ℝ → ℝ} (hA : A ≠ 0) (hr : simpson g (fun x => ref x * T x * x) ≠ 0) :
    calibrated A g T ref src 1 = bandFlux g T src := by
  unfold calibrated electrons fluxcal bandFlux
  field_simp

/-- C67: with the colour correction it is the flux density at the reference wavelength times the ratio of the reference
star's band flux to its flux density there. -/
theorem C67_partial {A : ℝ} {g : List ℝ} {T ref src : ℝ → ℝ} {w s r k : ℝ} (hA : A ≠ 0) (hr0 : simpson g (fun x => ref x * T x * x) ≠ 0)
    (hs0 : simpson g (fun x => src x * T x * x) ≠ 0) (hs : fluxRef g src w = some s) (hr : fluxRef g ref w = some r) (hsn : s ≠ 0) (hrn : r ≠ 0)
    (hk : colorCor g T ref w src = some k) : calibrated A g T ref src k = s * (bandFlux g T ref / r) := by
  rw [colorCor_eq hs hr] at hk
  cases hk
  unfold calibrated electrons fluxcal bandFlux
  field_simp

/-- C67: so it is the flux density at the reference wavelength exactly when the calibration star's band flux is. -/
theorem C67_right_iff {A : ℝ} {g : List ℝ} {T ref src : ℝ → ℝ} {w s r k : ℝ} (hA : A ≠ 0) (hr0 : simpson g (fun x => ref x * T x * x) ≠ 0)
    (hs0 : simpson g (fun x => src x * T x * x) ≠ 0) (hs : fluxRef g src w = some s) (hr : fluxRef g ref w = some r) (hsn : s ≠ 0) (hrn : r ≠ 0)
    (hk : colorCor g T ref w src = some k) : calibrated A g T ref src k = s ↔ bandFlux g T ref = r := by
  rw [C67_partial hA hr0 hs0 hs hr hsn hrn hk]
  constructor
  · intro h
    have : bandFlux g T ref / r = 1 := by
      have h' : s * (bandFlux g T ref / r) = s * 1 := by rw [h, mul_one]
      exact mul_left_cancel₀ hsn h'
    rwa [div_eq_one_iff_eq hrn] at this
  · intro h; rw [h, div_self hrn, mul_one]

/-- C67 as stated (the calibrated and corrected flux is the flux density of the source at the pivot wavelength) fails: three
wavelengths, flat filter, the source being the calibration star itself. -/
theorem C67_violated : ∃ (g : List ℝ) (T ref : ℝ → ℝ) (k s : ℝ), Band g T ∧ (∀ w ∈ g, 0 < ref w) ∧
    colorCor g T ref (pivot g T) ref = some k ∧ fluxRef g ref (pivot g T) = some s ∧ calibrated 1 g T ref ref k ≠ s := by
  have hb : Band [1, 2, 3] (fun _ => 1) := ⟨⟨1, by norm_num, by norm_num [List.isChain_cons_cons]⟩, by simp,
    by intro w hw; simp at hw; rcases hw with rfl | rfl | rfl <;> norm_num, fun _ _ => by norm_num⟩
  have hpos : ∀ w ∈ ([1, 2, 3] : List ℝ), 0 < (fun w : ℝ => w ^ 2) w := by
    intro w hw; simp at hw; rcases hw with rfl | rfl | rfl <;> norm_num
  have hpv : pivot [1, 2, 3] (fun _ => 1) ≤ 2 := by
    unfold pivot
    rw [Real.sqrt_le_left (by norm_num)]
    simp [simpson, tri]; norm_num
  obtain ⟨s, hs⟩ := fluxRef_some (g := [1, 2, 3]) (by simp) (fun w : ℝ => w ^ 2) (pivot [1, 2, 3] fun _ => 1)
  have hk := C67_same_shape hb hpos one_pos (pivot [1, 2, 3] fun _ => 1)
  simp only [one_mul] at hk
  refine ⟨[1, 2, 3], fun _ => 1, fun w => w ^ 2, 1, s, hb, hpos, hk, hs, ?_⟩
  rw [C67_band one_ne_zero (hb.flux_pos hpos).ne']
  have hb5 : bandFlux [1, 2, 3] (fun _ => 1) (fun w => w ^ 2) = 5 := by simp [bandFlux, simpson, tri]; norm_num
  have hs4 : s ≤ 4 := by
    unfold fluxRef at hs
    simp only [List.map_cons, List.map_nil] at hs
    rw [interp] at hs
    split_ifs at hs with h1
    · cases hs; norm_num
    · cases hs
      dsimp only at h1 ⊢
      norm_num
      linarith
  rw [hb5]; linarith

/-! ## C68: the two apparent magnitudes -/

/-- C68: `determine_flux` and `determine_app_mag` write the same APP_MAG for a perfectly calibrated star exactly when the
ratio to Vega is the same photon weighted and energy weighted. -/
theorem C68_agree_iff {g : List ℝ} {T vega src : ℝ → ℝ} (b : Band g T) (hv : ∀ w ∈ g, 0 < vega w) (hs : ∀ w ∈ g, 0 < src w) :
    vegaMag g T vega (bandFlux g T src) = appMag g T vega src 1 ↔
      bandFlux g T src / bandFlux g T vega = irradiance g T src / irradiance g T vega := by
  have h1 : 0 < bandFlux g T src / bandFlux g T vega := div_pos (div_pos (b.flux_pos hs) b.den_pos) (div_pos (b.flux_pos hv) b.den_pos)
  have h2 : 0 < irradiance g T src / irradiance g T vega := div_pos (b.irr_pos hs) (b.irr_pos hv)
  unfold vegaMag appMag
  simp only [mul_one]
  constructor
  · intro h
    have hl : Real.logb 10 (bandFlux g T src / bandFlux g T vega) = Real.logb 10 (irradiance g T src / irradiance g T vega) := by linarith
    exact Real.logb_injOn_pos (by norm_num) (Set.mem_Ioi.2 h1) (Set.mem_Ioi.2 h2) hl
  · intro h; rw [h]

/-- C68 as stated (always the same) fails. -/
theorem C68_violated : ∃ (g : List ℝ) (T vega src : ℝ → ℝ), Band g T ∧ (∀ w ∈ g, 0 < vega w) ∧ (∀ w ∈ g, 0 < src w) ∧
    vegaMag g T vega (bandFlux g T src) ≠ appMag g T vega src 1 := by
  have hb : Band [1, 2, 3] (fun _ => 1) := ⟨⟨1, by norm_num, by norm_num [List.isChain_cons_cons]⟩, by simp,
    by intro w hw; simp at hw; rcases hw with rfl | rfl | rfl <;> norm_num, fun _ _ => by norm_num⟩
  have hpos : ∀ w ∈ ([1, 2, 3] : List ℝ), 0 < (fun w : ℝ => w ^ 2) w := by
    intro w hw; simp at hw; rcases hw with rfl | rfl | rfl <;> norm_num
  refine ⟨[1, 2, 3], fun _ => 1, fun _ => 1, fun w => w ^ 2, hb, fun _ _ => by norm_num, hpos, ?_⟩
  rw [Ne, C68_agree_iff hb (fun _ _ => by norm_num) hpos]
  simp [bandFlux, irradiance, simpson, tri]; norm_num

/-- C68: for sources of Vega's shape they agree, with any scale. -/
theorem C68_partial {g : List ℝ} {T vega : ℝ → ℝ} (b : Band g T) (hv : ∀ w ∈ g, 0 < vega w) {k : ℝ} :
    vegaMag g T vega (bandFlux g T fun w => k * vega w) = -2.5 * Real.logb 10 k ∧ appMag g T vega vega k = -2.5 * Real.logb 10 k := by
  have hb : bandFlux g T vega ≠ 0 := (div_pos (b.flux_pos hv) b.den_pos).ne'
  have hi : irradiance g T vega ≠ 0 := (b.irr_pos hv).ne'
  unfold vegaMag appMag
  rw [(C66_linear g T vega vega k).2]
  have e : irradiance g T (fun w => vega w * k) = k * irradiance g T vega := by
    unfold irradiance
    rw [← simpson_smul]; exact simpson_congr g fun w _ => by ring
  rw [e, mul_div_assoc, mul_div_assoc, div_self hb, div_self hi, mul_one]
  exact ⟨rfl, rfl⟩

/-! ## C69: reference spectra on the filter grid -/

theorem filter_between {l₁ l₂ : List (ℝ × ℝ)} {p q : ℝ × ℝ} (f : ℝ × ℝ → Bool) (hp : f p = true) (hq : f q = true) :
    (l₁ ++ p :: q :: l₂).filter f = l₁.filter f ++ p :: q :: l₂.filter f := by
  rw [List.filter_append, List.filter_cons_of_pos hp, List.filter_cons_of_pos hq]

/-- C69: between two samples of the spectrum that both lie in the filter range, the result is the straight line between
them, as without cropping. -/
theorem C69_partial {spec l₁ l₂ : List (ℝ × ℝ)} {p q : ℝ × ℝ} (hspec : spec = l₁ ++ p :: q :: l₂) (hs : Sorted spec) {lo hi w : ℝ}
    (hp : lo ≤ p.1) (hq : q.1 ≤ hi) (h1 : p.1 ≤ w) (h2 : w ≤ q.1) :
    interp (spec.filter fun p => decide (p.1 ≤ hi ∧ lo ≤ p.1)) w = some (p.2 + (q.2 - p.2) * (w - p.1) / (q.1 - p.1)) ∧
      interp spec w = interp (spec.filter fun p => decide (p.1 ≤ hi ∧ lo ≤ p.1)) w := by
  subst hspec
  have hf : interp ((l₁ ++ p :: q :: l₂).filter fun p => decide (p.1 ≤ hi ∧ lo ≤ p.1)) w =
      some (p.2 + (q.2 - p.2) * (w - p.1) / (q.1 - p.1)) := by
    have hs' : Sorted ((l₁ ++ p :: q :: l₂).filter fun p => decide (p.1 ≤ hi ∧ lo ≤ p.1)) := List.Pairwise.filter _ hs
    rw [filter_between _ (by simp; constructor <;> linarith) (by simp; constructor <;> linarith)] at hs' ⊢
    exact interp_between hs' h1 h2
  exact ⟨hf, by rw [hf, interp_between hs h1 h2]⟩

/-- C69: at the edges the first sample in the range is repeated, whatever the spectrum does there. -/
theorem C69_edge {spec kept : List (ℝ × ℝ)} {p : ℝ × ℝ} {lo hi w : ℝ}
    (hk : spec.filter (fun p => decide (p.1 ≤ hi ∧ lo ≤ p.1)) = p :: kept) (h : w ≤ p.1) :
    interp (spec.filter fun p => decide (p.1 ≤ hi ∧ lo ≤ p.1)) w = some p.2 := by
  rw [hk]; exact interp_left h

/-- C69: the step fails exactly when the grid is not empty and no sample of the spectrum is in the range. -/
theorem C69_fails_iff (spec : List (ℝ × ℝ)) (g : List ℝ) : readCalSpec spec g = none ↔
    g ≠ [] ∧ ∀ p ∈ spec, ¬(p.1 ≤ g.getLast?.getD 0 ∧ g.head?.getD 0 ≤ p.1) := by
  have key : ∀ (kept : List (ℝ × ℝ)) (g : List ℝ), g.mapM (interp kept) = none ↔ g ≠ [] ∧ kept = [] := by
    intro kept g
    induction g with
    | nil => simp
    | cons a g ih =>
      rw [List.mapM_cons]
      cases h : interp kept a with
      | none => simp [(interp_none_iff _ _).1 h]
      | some v =>
        have hk : kept ≠ [] := fun e => by rw [e] at h; cases h
        cases hg : g.mapM (interp kept) with
        | none => exact absurd (ih.1 hg).2 hk
        | some vs => simp [hk]
  unfold readCalSpec
  dsimp only
  rw [key, List.filter_eq_nil_iff]
  simp

/-- C69 as stated (the spectrum's linear interpolation at every wavelength of the grid) fails: a straight line sampled every
10 Å becomes constant on a filter from 5 to 15 Å. -/
theorem C69_violated : ∃ (spec : List (ℝ × ℝ)) (g : List ℝ), Sorted spec ∧ (∀ p ∈ spec, p.2 = p.1) ∧
    readCalSpec spec g = some [10, 10, 10] ∧ g.mapM (interp spec) = some [5, 10, 15] := by
  refine ⟨[(0, 0), (10, 10), (20, 20)], [5, 10, 15], ?_, ?_, ?_, ?_⟩
  · unfold Sorted; norm_num
  · simp
  · unfold readCalSpec
    have hf : ([(0, 0), (10, 10), (20, 20)] : List (ℝ × ℝ)).filter (fun p => decide (p.1 ≤ ([5, 10, 15] : List ℝ).getLast?.getD 0 ∧
        ([5, 10, 15] : List ℝ).head?.getD 0 ≤ p.1)) = [(10, 10)] := by
      norm_num [List.filter_cons]
    dsimp only
    rw [hf]
    rfl
  · simp [interp]; norm_num

/-! ## C70: errors of the calibrated flux -/

/-- C70: the error of the calibration factor is first order error propagation. -/
theorem C70_factor {band ap : ℝ} (hap : ap ≠ 0) (hb : 0 ≤ band) (e : ℝ) :
    (fluxcal band ap e).2 = |deriv (fun x => band / x) ap| * e ∧ (fluxcal band ap e).1 * ap = band := by
  have hd : HasDerivAt (fun x : ℝ => band / x) (-(band / ap ^ 2)) ap := by
    have := (hasDerivAt_inv hap).const_mul band
    simp only [div_eq_mul_inv]
    have e : -(band * (ap ^ 2)⁻¹) = band * -(ap ^ 2)⁻¹ := by ring
    rw [e]; exact this
  rw [hd.deriv, abs_neg, abs_of_nonneg (by positivity)]
  exact ⟨rfl, by unfold fluxcal; field_simp⟩

/-- C70: the magnitude error is first order error propagation for a positive flux. -/
theorem C70_mag {g : List ℝ} {T vega : ℝ → ℝ} {fac facErr : ℝ} {k : Option ℝ} {phot : List (ℝ × ℝ)} (hv : bandFlux g T vega ≠ 0)
    (hf : 0 < (determineFlux g T vega fac facErr k phot).flux) :
    (determineFlux g T vega fac facErr k phot).magErr =
      |deriv (vegaMag g T vega) (determineFlux g T vega fac facErr k phot).flux| * (determineFlux g T vega fac facErr k phot).fluxErr := by
  set o := determineFlux g T vega fac facErr k phot with ho
  have hm : o.magErr = 2.5 / Real.log 10 * o.fluxErr / o.flux := rfl
  have hl : 0 < Real.log 10 := Real.log_pos (by norm_num)
  have hd : HasDerivAt (vegaMag g T vega) (-(2.5 / (Real.log 10 * o.flux))) o.flux := by
    have h1 : HasDerivAt (fun f : ℝ => f / bandFlux g T vega) (1 / bandFlux g T vega) o.flux := (hasDerivAt_id _).div_const _
    have h2 := (h1.log (div_ne_zero hf.ne' hv)).div_const (Real.log 10)
    have h3 := h2.const_mul (-2.5)
    unfold vegaMag Real.logb
    have e : -(2.5 / (Real.log 10 * o.flux)) = -2.5 * (1 / bandFlux g T vega / (o.flux / bandFlux g T vega) / Real.log 10) := by
      have := hf.ne'; have := hl.ne'
      field_simp
    rw [e]; exact h3
  rw [hd.deriv, hm, abs_neg, abs_of_nonneg (by positivity)]
  field_simp

/-- C70: the flux is mean times factor over colour correction, its error the two contributions in quadrature. -/
theorem C70_value (g : List ℝ) (T vega : ℝ → ℝ) (fac facErr : ℝ) (k : Option ℝ) (phot : List (ℝ × ℝ)) :
    (determineFlux g T vega fac facErr k phot).flux = (phot.map Prod.fst).sum / phot.length * (fac / k.getD 1) ∧
      (determineFlux g T vega fac facErr k phot).fluxErr ^ 2 =
        (((phot.map Prod.snd).sum / phot.length) * (fac / k.getD 1)) ^ 2 + (facErr / k.getD 1 * ((phot.map Prod.fst).sum / phot.length)) ^ 2 := by
  refine ⟨rfl, ?_⟩
  show Real.sqrt _ ^ 2 = _
  rw [Real.sq_sqrt (by positivity)]; ring

/-- The standard error of the mean of independent measurements with errors `e`. -/
def meanErr (e : List ℝ) : ℝ := Real.sqrt (e.map (· ^ 2)).sum / e.length

theorem sum_sq_le : ∀ {e : List ℝ}, (∀ x ∈ e, 0 ≤ x) → (e.map (· ^ 2)).sum ≤ e.sum ^ 2
  | [], _ => by simp
  | a :: e, h => by
    have ih := sum_sq_le (e := e) fun x hx => h x (by simp [hx])
    have h0 : 0 ≤ e.sum := List.sum_nonneg fun x hx => h x (by simp [hx])
    have ha := h a (by simp)
    simp only [List.map_cons, List.sum_cons]
    nlinarith

/-- C70: the averaged photometry error is never smaller than the standard error of the mean. -/
theorem C70_conservative {e : List ℝ} (h : ∀ x ∈ e, 0 ≤ x) : meanErr e ≤ e.sum / e.length := by
  unfold meanErr
  have h0 : 0 ≤ e.sum := List.sum_nonneg h
  have : Real.sqrt (e.map (· ^ 2)).sum ≤ e.sum := by
    rw [Real.sqrt_le_left h0]; exact sum_sq_le h
  gcongr

/-- C70 as stated (FLUXERR is the error of the mean flux of the frames) fails: with `n` equal frames and an exact factor it
is `√n` times too large, and does not fall with `n`. -/
theorem C70_violated (g : List ℝ) (T vega : ℝ → ℝ) {fac s e : ℝ} (hf : 0 < fac) (he : 0 < e) {n : ℕ} (hn : 1 < n) :
    let o := determineFlux g T vega fac 0 none (List.replicate n (s, e))
    o.fluxErr = fac * e ∧ o.fluxErr = Real.sqrt n * (fac * meanErr (List.replicate n e)) ∧ fac * meanErr (List.replicate n e) < o.fluxErr := by
  have hn0 : (0 : ℝ) < n := by exact_mod_cast (by omega : 0 < n)
  have h1 : (determineFlux g T vega fac 0 none (List.replicate n (s, e))).fluxErr = fac * e := by
    show Real.sqrt _ = _
    simp only [List.map_replicate, List.sum_replicate, List.length_replicate, Option.getD_none, div_one, nsmul_eq_mul]
    have : (↑n * e / ↑n) ^ 2 * fac ^ 2 + 0 ^ 2 * (↑n * s / ↑n) ^ 2 = (fac * e) ^ 2 := by field_simp; ring
    rw [this, Real.sqrt_sq (by positivity)]
  have h2 : meanErr (List.replicate n e) = e / Real.sqrt n := by
    unfold meanErr
    simp only [List.map_replicate, List.sum_replicate, List.length_replicate, nsmul_eq_mul]
    rw [Real.sqrt_mul hn0.le, Real.sqrt_sq he.le]
    have hs := Real.sqrt_pos.2 hn0
    rw [div_eq_div_iff hn0.ne' hs.ne']
    nlinarith [Real.mul_self_sqrt hn0.le]
  have hs1 : 1 < Real.sqrt n := by
    rw [Real.lt_sqrt (by norm_num)]
    have : (1 : ℝ) < n := by exact_mod_cast hn
    simpa using this
  refine ⟨h1, ?_, ?_⟩
  · rw [h1, h2]; field_simp
  · rw [h1, h2]
    have : e / Real.sqrt n < e := by rw [div_lt_iff₀ (by linarith)]; nlinarith
    nlinarith

/-- C70: a negative measured flux gets a negative magnitude error. -/
theorem C70_negative (g : List ℝ) (T vega : ℝ → ℝ) (fac facErr : ℝ) (k : Option ℝ) (phot : List (ℝ × ℝ))
    (hf : (determineFlux g T vega fac facErr k phot).flux < 0) (he : 0 < (determineFlux g T vega fac facErr k phot).fluxErr) :
    (determineFlux g T vega fac facErr k phot).magErr < 0 := by
  show 2.5 / Real.log 10 * (determineFlux g T vega fac facErr k phot).fluxErr / (determineFlux g T vega fac facErr k phot).flux < 0
  have hl : 0 < Real.log 10 := Real.log_pos (by norm_num)
  exact div_neg_of_pos_of_neg (by positivity) hf

/-! ## Non-vacuity -/

example : Band [1, 2, 3, 4] (fun _ => 1 / 2) := ⟨⟨1, by norm_num, by norm_num [List.isChain_cons_cons]⟩, by simp,
  by intro w hw; simp at hw; rcases hw with rfl | rfl | rfl | rfl <;> norm_num, fun _ _ => by norm_num⟩

example : bandFlux [1, 2, 3] (fun _ => 1) (fun w => w) = 13 / 6 := by simp [bandFlux, simpson, tri]; norm_num

/-- The even grid of four points is exact as well: the integral of `w²` from 1 to 4 is 21. -/
example : irradiance [1, 2, 3, 4] (fun _ => 1) (fun w => w ^ 2) = 21 := by simp [irradiance, simpson, tri, corr]; norm_num

example : simpson [0, 1] (fun w => w) = 1 / 2 := by simp [simpson]

example : (determineFlux [1, 2, 3] (fun _ => 1) (fun _ => 1) 2 0 (some 4) [(6, 1), (10, 1)]).flux = 4 := by
  rw [(C70_value _ _ _ _ _ _ _).1]; norm_num


end Corgi.Flux

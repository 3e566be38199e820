import Verif.EndToEnd.L2b
import Verif.Tda.Phot

/-!
# From raw counts of a standard star and of a target to the flux and magnitude of the target (C154)

The recipes `l1_to_l2b.json` (model in `EndToEnd.L2b`), then `divide_by_exptime` (l2b_to_l3.py 73-110); for the standard star
`calibrate_fluxcal_aper` (fluxcal.py 412-517), for the target `determine_flux` (l4_to_tda.py 320-394) with aperture photometry
(fluxcal.py 275-343). The pixels under the aperture, with weights, and the flagged pixels are inputs; the local background is an
input, too. The detector adds no noise.
-/

noncomputable section

namespace Corgi.EndToEnd

open Corgi.Det Corgi.Arith Corgi.Tda Corgi.Flux

/-! ## Model -/

/-- Settings of one run of the recipe from L1 to L2b, and its frames. -/
structure Run where
  track : Bool
  junk : Ix → ℝ
  tab : NonLin.Table ℝ
  off : ℝ
  offErr : ℝ
  k : ℝ
  ek : ℝ
  rowread : ℝ
  maps : Maps
  flat : Flat
  xs : List Raw

/-- L1 to L2b, then the division by the exposure time. -/
def Run.rates (R : Run) : Except String (List Fr) :=
  match recipe R.track R.junk R.tab R.off R.offErr R.k R.ek R.rowread R.maps R.flat R.xs with
  | .error _ => .error "l1_to_l2b"
  | .ok out =>
    match out.mapM expDiv with
    | .error _ => .error "divide_by_exptime"
    | .ok fs => .ok fs

/-- The settings of the photometry: pixels under the aperture with their weights, flagged pixels, enclosed energy, local
background. -/
structure Aper where
  pix : List ((ℕ × ℕ) × ℝ)
  bad : ℕ × ℕ → Bool
  fee : ℝ
  back : Option ℝ

/-- Sum and error of `aper_phot` on a frame. -/
def photOf (a : Aper) (f : Fr) : Except String (ℝ × ℝ) :=
  match aperPhot a.fee a.back (a.pix.map fun q =>
      ⟨q.2, f.data [q.1.1, q.1.2], (f.img.layers.head?.getD fun _ => 0) [q.1.1, q.1.2], a.bad q.1⟩) with
  | .error e => .error e
  | .ok (s :: e :: _) => .ok (s, e)
  | .ok _ => .error "ValueError: not enough values to unpack"

/-- `calibrate_fluxcal_aper` (fluxcal.py 450-455, 478-498): only the first frame is used. -/
def factorOf (band : ℝ) (a : Aper) (fs : List Fr) : Except String (ℝ × ℝ) :=
  match fs with
  | [] => .error "IndexError"
  | f :: _ =>
    match photOf a f with
    | .error e => .error e
    | .ok s => .ok (fluxcal band s.1 s.2)

/-- `determine_flux` (l4_to_tda.py 336-388) with aperture photometry: all frames are used. -/
def fluxOf (g : List ℝ) (T vega : ℝ → ℝ) (fac : ℝ × ℝ) (colCor : Option ℝ) (a : Aper) (fs : List Fr) : Except String FluxOut :=
  match fs.mapM (photOf a) with
  | .error e => .error e
  | .ok l => .ok (determineFlux g T vega fac.1 fac.2 colCor l)

/-- The flux of the target with the factor of the standard star, from the raw frames of both. -/
def measure (std tgt : Run) (g : List ℝ) (T vega ref : ℝ → ℝ) (colCor : Option ℝ) (a b : Aper) : Except String FluxOut :=
  match std.rates with
  | .error e => .error e
  | .ok fs =>
    match factorOf (bandFlux g T ref) a fs with
    | .error e => .error e
    | .ok fac =>
      match tgt.rates with
      | .error e => .error e
      | .ok gs => fluxOf g T vega fac colCor b gs

/-! ## Specification -/

/-- The scene: a star of `rate` electrons per second with the image `psf`, on a uniform sky, for the time of the exposure. -/
def starScene (t rate sky : ℝ) (psf : ℕ → ℕ → ℝ) (r c : ℕ) : ℝ := (rate * psf r c + sky) * t

/-- The frames of the run are exposures of the scene by a detector that its calibrations describe. -/
structure Run.Observes (R : Run) (d : Detector) (s : ℕ → ℕ → ℝ) : Prop where
  sound : Sound d
  table : NonLin.Good R.tab
  cal : Calibrated d R.k R.rowread R.maps R.flat
  some : R.xs ≠ []
  header : ∀ x ∈ R.xs, Header d x.fr
  gain : ∀ x ∈ R.xs, ∀ y ∈ R.xs, x.fr.emC = y.fr.emC
  exposed : ∀ x ∈ R.xs, Exposes d R.tab R.off s x.l1

/-- The part of the star's light that is measured. -/
def Aper.light (a : Aper) (psf : ℕ → ℕ → ℝ) : ℝ :=
  ((a.pix.filter fun q => !a.bad q.1).map fun q => q.2 * psf q.1.1 q.1.2).sum

/-- The photometry fits the frames of the detector: possible enclosed energy, unflagged pixels on the detector and sensitive, the
background is the one of the sky. -/
structure Aper.Fits (a : Aper) (d : Detector) (sky : ℝ) : Prop where
  fee : 0 < a.fee ∧ a.fee ≤ 1
  pix : ∀ q ∈ a.pix, a.bad q.1 = false → q.1.1 < 1024 ∧ q.1.2 < 1024 ∧ d.flat q.1.1 q.1.2 ≠ 0
  back : a.back.getD 0 = sky

/-! ## Theorems -/

/-- The frames of the run as rates. -/
theorem Run.Observes.rates {R : Run} {d : Detector} {s : ℕ → ℕ → ℝ} (h : R.Observes d s) :
    ∃ fs, R.rates = .ok fs ∧ fs ≠ [] ∧ ∀ f ∈ fs, ∀ r c, r < 1024 → c < 1024 → d.flat r c ≠ 0 → f.data [r, c] = s r c / d.exptime := by
  obtain ⟨hs, ht, hc, hne, hh, hg, hx⟩ := h
  have hf : List.Forall₂ (fun s (x : Raw) => Exposes d R.tab R.off s x.l1) (R.xs.map fun _ => s) R.xs := by
    rw [List.forall₂_map_left_iff]
    exact List.forall₂_same.2 hx
  obtain ⟨out, rates, ho, hr, hp⟩ := C144_rate hs ht R.track R.junk R.offErr R.ek hc hne hh hg hf
  refine ⟨rates, ?_, ?_, ?_⟩
  · unfold Run.rates
    rw [ho]
    dsimp only
    rw [hr]
  · rintro rfl
    rw [List.forall₂_nil_right_iff, List.map_eq_nil_iff] at hp
    exact hne hp
  · intro f hf' r c hr' hc' hfl
    obtain ⟨s', hs', h1⟩ := forall₂_left hp.flip hf'
    rw [List.mem_map] at hs'
    obtain ⟨_, _, rfl⟩ := hs'
    exact h1 r c hr' hc' hfl

/-- The photometry of a frame of the scene: the light under the aperture over the enclosed energy. -/
theorem photOf_star {a : Aper} {d : Detector} {rate sky : ℝ} {psf : ℕ → ℕ → ℝ} (ha : a.Fits d sky) (ht : d.exptime ≠ 0) {f : Fr}
    (hf : ∀ r c, r < 1024 → c < 1024 → d.flat r c ≠ 0 → f.data [r, c] = starScene d.exptime rate sky psf r c / d.exptime) :
    ∃ e, photOf a f = .ok (rate * a.light psf / a.fee, e) := by
  unfold photOf
  rw [aperPhot_ok ha.fee]
  dsimp only
  suffices h : ((((a.pix.map fun q => (⟨q.2, f.data [q.1.1, q.1.2], (f.img.layers.head?.getD fun _ => 0) [q.1.1, q.1.2],
      a.bad q.1⟩ : Pix)).filter fun p => !p.bad).map fun p => p.weight * (p.val - a.back.getD 0)).sum) = rate * a.light psf by
    rw [h]
    exact ⟨_, rfl⟩
  rw [ha.back, List.filter_map, List.map_map]
  unfold Aper.light
  have hall : ∀ q ∈ a.pix.filter (fun q => !a.bad q.1), f.data [q.1.1, q.1.2] - sky = rate * psf q.1.1 q.1.2 := by
    intro q hq
    rw [List.mem_filter] at hq
    obtain ⟨h1, h2, h3⟩ := ha.pix q hq.1 (by simpa using hq.2)
    rw [hf _ _ h1 h2 h3]
    unfold starScene
    field_simp
    ring
  rw [← List.sum_map_mul_left]
  congr 1
  have : (fun q : (ℕ × ℕ) × ℝ => !a.bad q.1) = ((fun p : Pix => !p.bad) ∘ fun q : (ℕ × ℕ) × ℝ =>
      (⟨q.2, f.data [q.1.1, q.1.2], (f.img.layers.head?.getD fun _ => 0) [q.1.1, q.1.2], a.bad q.1⟩ : Pix)) := rfl
  rw [← this]
  apply List.map_congr_left
  intro q hq
  simp only [Function.comp_apply]
  rw [hall q hq]
  ring

theorem mean_const {l : List (ℝ × ℝ)} {v : ℝ} (hl : l ≠ []) (h : ∀ p ∈ l, p.1 = v) : (l.map Prod.fst).sum / l.length = v := by
  have hm : l.map Prod.fst = List.replicate l.length v := by
    rw [List.eq_replicate_iff]
    refine ⟨by simp, ?_⟩
    intro w hw
    rw [List.mem_map] at hw
    obtain ⟨p, hp, rfl⟩ := hw
    exact h p hp
  have hn : (l.length : ℝ) ≠ 0 := by
    rw [Nat.cast_ne_zero]
    exact fun h0 => hl (List.length_eq_zero_iff.1 h0)
  rw [hm, List.sum_replicate, nsmul_eq_mul, mul_div_cancel_left₀ _ hn]

/-- **C154.** The measured flux from raw counts, in general: exposure times, gains, bias, dark, flat, smear and sky drop out. `A₁`
and `A₂` are the efficiencies of telescope and detector in the two observations; they and the measured part of the light enter by
their ratio only. -/
theorem C154_flux {std tgt : Run} {d₁ d₂ : Detector} {g : List ℝ} {T vega ref src : ℝ → ℝ} {A₁ A₂ sky₁ sky₂ : ℝ}
    {psf₁ psf₂ : ℕ → ℕ → ℝ} {a b : Aper} (colCor : Option ℝ)
    (h₁ : std.Observes d₁ (starScene d₁.exptime (electrons A₁ g T ref) sky₁ psf₁))
    (h₂ : tgt.Observes d₂ (starScene d₂.exptime (electrons A₂ g T src) sky₂ psf₂))
    (ha : a.Fits d₁ sky₁) (hb : b.Fits d₂ sky₂) (t₁ : d₁.exptime ≠ 0) (t₂ : d₂.exptime ≠ 0)
    (href : simpson g (fun x => ref x * T x * x) ≠ 0) (hA : A₁ ≠ 0) (hL : a.light psf₁ ≠ 0) :
    ∃ o, measure std tgt g T vega ref colCor a b = .ok o ∧
      o.flux = bandFlux g T src * ((A₂ * (b.light psf₂ / b.fee)) / (A₁ * (a.light psf₁ / a.fee))) / colCor.getD 1 ∧
      o.mag = vegaMag g T vega o.flux := by
  obtain ⟨fs, hr1, hne1, hd1⟩ := h₁.rates
  obtain ⟨gs, hr2, hne2, hd2⟩ := h₂.rates
  cases fs with
  | nil => exact absurd rfl hne1
  | cons f fs =>
    obtain ⟨e, hph⟩ := photOf_star (rate := electrons A₁ g T ref) (psf := psf₁) ha t₁ (hd1 f (by simp))
    have hmap : ∃ l, gs.mapM (photOf b) = .ok l :=
      mapM_ok_exists.2 fun x hx => by
        obtain ⟨e', he'⟩ := photOf_star (rate := electrons A₂ g T src) (psf := psf₂) hb t₂ (hd2 x hx)
        exact ⟨_, he'⟩
    obtain ⟨l, hl⟩ := hmap
    have hq := mapM_ok_iff.1 hl
    have hval : ∀ p ∈ l, p.1 = electrons A₂ g T src * b.light psf₂ / b.fee := by
      intro p hp
      obtain ⟨x, hx, hxp⟩ := forall₂_left hq.flip hp
      obtain ⟨e', he'⟩ := photOf_star (rate := electrons A₂ g T src) (psf := psf₂) hb t₂ (hd2 x hx)
      rw [he'] at hxp
      injection hxp with hxp
      rw [← hxp]
    have hlne : l ≠ [] := by
      rintro rfl
      rw [List.forall₂_nil_right_iff] at hq
      exact hne2 hq
    refine ⟨determineFlux g T vega (fluxcal (bandFlux g T ref) (electrons A₁ g T ref * a.light psf₁ / a.fee) e).1
      (fluxcal (bandFlux g T ref) (electrons A₁ g T ref * a.light psf₁ / a.fee) e).2 colCor l, ?_, ?_, rfl⟩
    · unfold measure
      rw [hr1]
      dsimp only
      unfold factorOf
      dsimp only
      rw [hph]
      dsimp only
      rw [hr2]
      dsimp only
      unfold fluxOf
      rw [hl]
    · show (l.map Prod.fst).sum / l.length * ((bandFlux g T ref / (electrons A₁ g T ref * a.light psf₁ / a.fee)) / colCor.getD 1) = _
      rw [mean_const hlne hval]
      unfold electrons bandFlux
      have hfee := ha.fee.1.ne'
      have hfee2 := hb.fee.1.ne'
      field_simp

/-- **C154.** With the same efficiency, star image, pixels and enclosed energy for both stars, the flux is exactly the band flux of
the target and the magnitude its Vega magnitude, whatever the other settings of the two observations: an enclosed energy that is
wrong for both cancels. -/
theorem C154_right {std tgt : Run} {d₁ d₂ : Detector} {g : List ℝ} {T vega ref src : ℝ → ℝ} {A sky₁ sky₂ : ℝ}
    {psf : ℕ → ℕ → ℝ} {a b : Aper}
    (h₁ : std.Observes d₁ (starScene d₁.exptime (electrons A g T ref) sky₁ psf))
    (h₂ : tgt.Observes d₂ (starScene d₂.exptime (electrons A g T src) sky₂ psf))
    (ha : a.Fits d₁ sky₁) (hb : b.Fits d₂ sky₂) (t₁ : d₁.exptime ≠ 0) (t₂ : d₂.exptime ≠ 0)
    (href : simpson g (fun x => ref x * T x * x) ≠ 0) (hA : A ≠ 0) (hl : a.light psf ≠ 0) (hpix : a.light psf = b.light psf)
    (hfee : a.fee = b.fee) :
    ∃ o, measure std tgt g T vega ref none a b = .ok o ∧ o.flux = bandFlux g T src ∧
      o.mag = -2.5 * Real.logb 10 (bandFlux g T src / bandFlux g T vega) := by
  obtain ⟨o, h1, h2, h3⟩ := C154_flux (vega := vega) none h₁ h₂ ha hb t₁ t₂ href hA hl
  have hflux : o.flux = bandFlux g T src := by
    rw [h2, ← hpix, ← hfee, div_self (mul_ne_zero hA (div_ne_zero hl ha.fee.1.ne'))]
    simp
  refine ⟨o, h1, hflux, ?_⟩
  rw [h3, hflux]
  rfl

/-- **C154.** In general the flux is right exactly if efficiency times measured part of the light, corrected for the enclosed energy,
is the same in both observations: a standard star behind a neutral density filter, or a target behind a coronagraph, is not
recognised. -/
theorem C154_right_iff {std tgt : Run} {d₁ d₂ : Detector} {g : List ℝ} {T vega ref src : ℝ → ℝ} {A₁ A₂ sky₁ sky₂ : ℝ}
    {psf₁ psf₂ : ℕ → ℕ → ℝ} {a b : Aper} {o : FluxOut}
    (h₁ : std.Observes d₁ (starScene d₁.exptime (electrons A₁ g T ref) sky₁ psf₁))
    (h₂ : tgt.Observes d₂ (starScene d₂.exptime (electrons A₂ g T src) sky₂ psf₂))
    (ha : a.Fits d₁ sky₁) (hb : b.Fits d₂ sky₂) (t₁ : d₁.exptime ≠ 0) (t₂ : d₂.exptime ≠ 0)
    (href : simpson g (fun x => ref x * T x * x) ≠ 0) (hsrc : bandFlux g T src ≠ 0) (hA : A₁ ≠ 0) (hl : a.light psf₁ ≠ 0)
    (h : measure std tgt g T vega ref none a b = .ok o) :
    o.flux = bandFlux g T src ↔ A₂ * (b.light psf₂ / b.fee) = A₁ * (a.light psf₁ / a.fee) := by
  obtain ⟨o', h1, h2, -⟩ := C154_flux (vega := vega) none h₁ h₂ ha hb t₁ t₂ href hA hl
  rw [h] at h1
  injection h1 with h1
  subst h1
  have hne := mul_ne_zero hA (div_ne_zero hl ha.fee.1.ne')
  rw [h2]
  simp only [Option.getD_none, div_one]
  rw [mul_eq_left₀ hsrc, div_eq_one_iff_eq hne]

/-- **C154, violated.** A standard star observed with a neutral density filter of transmission `τ` (as bright standards are) and a
target without it: the flux is too high by `1/τ`, for every pair of observations, without an error. -/
theorem C154_violated_nd {std tgt : Run} {d₁ d₂ : Detector} {g : List ℝ} {T vega ref src : ℝ → ℝ} {A τ sky₁ sky₂ : ℝ}
    {psf : ℕ → ℕ → ℝ} {a b : Aper}
    (h₁ : std.Observes d₁ (starScene d₁.exptime (electrons (τ * A) g T ref) sky₁ psf))
    (h₂ : tgt.Observes d₂ (starScene d₂.exptime (electrons A g T src) sky₂ psf))
    (ha : a.Fits d₁ sky₁) (hb : b.Fits d₂ sky₂) (t₁ : d₁.exptime ≠ 0) (t₂ : d₂.exptime ≠ 0)
    (href : simpson g (fun x => ref x * T x * x) ≠ 0) (hA : A ≠ 0) (hτ : τ ≠ 0) (hl : a.light psf ≠ 0) (hpix : a.light psf = b.light psf)
    (hfee : a.fee = b.fee) :
    ∃ o, measure std tgt g T vega ref none a b = .ok o ∧ o.flux = bandFlux g T src / τ := by
  obtain ⟨o, h1, h2, -⟩ := C154_flux (vega := vega) none h₁ h₂ ha hb t₁ t₂ href (mul_ne_zero hτ hA) hl
  refine ⟨o, h1, ?_⟩
  have hf := ha.fee.1.ne'
  rw [h2, ← hpix, ← hfee]
  simp only [Option.getD_none, div_one]
  field_simp

/-- **C154.** With the colour correction of the target in its header, the flux is its flux density at the reference wavelength,
times the ratio of band flux to flux density of the standard star. -/
theorem C154_color {std tgt : Run} {d₁ d₂ : Detector} {g : List ℝ} {T vega ref src : ℝ → ℝ} {A sky₁ sky₂ w k r s : ℝ}
    {psf : ℕ → ℕ → ℝ} {a b : Aper}
    (h₁ : std.Observes d₁ (starScene d₁.exptime (electrons A g T ref) sky₁ psf))
    (h₂ : tgt.Observes d₂ (starScene d₂.exptime (electrons A g T src) sky₂ psf))
    (ha : a.Fits d₁ sky₁) (hb : b.Fits d₂ sky₂) (t₁ : d₁.exptime ≠ 0) (t₂ : d₂.exptime ≠ 0)
    (href : simpson g (fun x => ref x * T x * x) ≠ 0) (hsrc : simpson g (fun x => src x * T x * x) ≠ 0)
    (hs : fluxRef g src w = some s) (hr : fluxRef g ref w = some r) (hsn : s ≠ 0) (hrn : r ≠ 0)
    (hk : colorCor g T ref w src = some k) (hA : A ≠ 0) (hl : a.light psf ≠ 0) (hpix : a.light psf = b.light psf)
    (hfee : a.fee = b.fee) :
    ∃ o, measure std tgt g T vega ref (some k) a b = .ok o ∧ o.flux = s * (bandFlux g T ref / r) := by
  obtain ⟨o, h1, h2, -⟩ := C154_flux (vega := vega) (some k) h₁ h₂ ha hb t₁ t₂ href hA hl
  refine ⟨o, h1, ?_⟩
  rw [h2, ← hpix, ← hfee, div_self (mul_ne_zero hA (div_ne_zero hl ha.fee.1.ne'))]
  rw [colorCor_eq hs hr] at hk
  cases hk
  unfold bandFlux
  simp only [Option.getD_some]
  field_simp

/-! ## Non-vacuity -/

/-- A detector with all effects, exposed for `t` seconds at gain `G`. -/
def exDetector (t G : ℝ) : Detector := ⟨fun _ _ => 1 / 2, 1 / 1000, t, fun _ _ => 1, fun _ _ => 2, fun _ _ => 3, G, 8⟩

/-- A run of `n` frames of the scene with this detector and its calibrations. -/
def exRun (t G : ℝ) (n : ℕ) (s : ℕ → ℕ → ℝ) : Run :=
  ⟨false, fun _ => 0, linear, 0, 0, 8, 0, 1 / 1000,
    ⟨[1024, 1024], fun _ => 3, fun _ => 2, fun _ => 1, fun _ => 0, fun _ => 0, fun _ => 0, fun _ => 0, fun _ => 0, fun _ => 0⟩,
    ⟨[1024, 1024], fun _ => 1 / 2, fun _ => 0⟩,
    List.replicate n ⟨expose (exDetector t G) (fun r => r) 0 s,
      ⟨fun _ => 0, ⟨[1024, 1024], [fun _ => 0], fun _ => none, []⟩, fun _ => 0, t, G, G, none, 8, "DN"⟩⟩⟩

theorem exRun_observes {t G : ℝ} (ht : 0 < t) (hG : 1 ≤ G) {n : ℕ} (hn : n ≠ 0) (s : ℕ → ℕ → ℝ) :
    (exRun t G n s).Observes (exDetector t G) s := by
  have hG0 : 0 < G := by linarith
  refine ⟨⟨by norm_num [exDetector], hG, ?_⟩, linear_good, ?_, ?_, ?_, ?_, ?_⟩
  · show (1 : ℝ) + 1 / 1000 / t ≠ 0
    positivity
  · exact ⟨rfl, rfl, ⟨rfl, rfl⟩, fun _ _ _ _ => rfl, fun _ _ _ _ => rfl, fun _ _ _ _ => rfl, fun _ _ _ _ => rfl,
      fun _ => by norm_num [exRun], fun _ => by norm_num [exRun]⟩
  · simp [exRun, hn]
  · intro x hx
    rw [List.eq_of_mem_replicate hx]
    exact ⟨by simp [emGain, exDetector], rfl, rfl, by simp⟩
  · intro x hx y hy
    rw [List.eq_of_mem_replicate hx, List.eq_of_mem_replicate hy]
  · intro x hx
    rw [List.eq_of_mem_replicate hx]
    exact C144_exposes _ _ _ _

/-- A standard star and a target that is four times as bright, with other exposure times, gains, skies and numbers of frames: the
flux of the target comes out. -/
example : ∃ o, measure (exRun 1 1 1 (starScene 1 (electrons 5 [1, 2, 3] (fun _ => 1) fun _ => 1) 1 fun r _ => if r < 2 then 1 else 0))
      (exRun 100 30 7 (starScene 100 (electrons 5 [1, 2, 3] (fun _ => 1) fun _ => 4) 2 fun r _ => if r < 2 then 1 else 0))
      [1, 2, 3] (fun _ => 1) (fun _ => 1) (fun _ => 1) none
      ⟨[((0, 0), 1), ((1, 0), 1 / 2), ((2, 5), 1)], fun p => p.1 == 2, 1 / 2, some 1⟩
      ⟨[((0, 0), 1), ((1, 0), 1 / 2)], fun _ => false, 1 / 2, some 2⟩ = .ok o ∧
    o.flux = bandFlux [1, 2, 3] (fun _ => 1) (fun _ => 4) := by
  obtain ⟨o, h1, h2, -⟩ := C154_right (vega := fun _ => 1) (exRun_observes (t := 1) (G := 1) one_pos le_rfl (n := 1) one_ne_zero _)
    (exRun_observes (t := 100) (G := 30) (by norm_num) (by norm_num) (n := 7) (by norm_num)
      (starScene 100 (electrons 5 [1, 2, 3] (fun _ => 1) fun _ => 4) 2 fun r _ => if r < 2 then 1 else 0))
    (a := ⟨[((0, 0), 1), ((1, 0), 1 / 2), ((2, 5), 1)], fun p => p.1 == 2, 1 / 2, some 1⟩)
    (b := ⟨[((0, 0), 1), ((1, 0), 1 / 2)], fun _ => false, 1 / 2, some 2⟩) (sky₁ := 1) (A := 5) (ref := fun _ => 1)
    (psf := fun r _ => if r < 2 then 1 else 0)
    ⟨by norm_num, fun q hq hb => by
      simp only [List.mem_cons, List.not_mem_nil, or_false] at hq
      rcases hq with rfl | rfl | rfl <;> norm_num [exDetector], rfl⟩
    ⟨by norm_num, fun q hq hb => by
      simp only [List.mem_cons, List.not_mem_nil, or_false] at hq
      rcases hq with rfl | rfl <;> norm_num [exDetector], rfl⟩
    (by norm_num [exDetector]) (by norm_num [exDetector]) (by norm_num [simpson, tri]) (by norm_num)
    (by simp [Aper.light]; norm_num) (by simp [Aper.light]) rfl
  exact ⟨o, h1, h2⟩

end Corgi.EndToEnd

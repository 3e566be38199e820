import Verif.Flux.Band

/-!
# Aperture photometry, flux conversion, zero point

`/repo/corgidrp/fluxcal.py:275-344` (`aper_phot`), `/repo/corgidrp/l4_to_tda.py:138-174` (`convert_to_flux`) and `496-537`
(`calculate_zero_point`).

The pixels under the aperture are a list with their overlap weights (photutils, trusted: sum of weight times value and square
root of the sum of weight times variance over the unmasked pixels). The local background is one number computed from the
annulus; it is a parameter.
-/

noncomputable section

namespace Corgi.Tda

open Corgi.Flux

structure Pix where
  weight : ℝ
  val : ℝ
  err : ℝ
  bad : Bool

/-- The part of `aper_phot` (fluxcal.py:302-303, 321-344) after the centring: `back` is the local background, if requested. -/
def aperPhot (fee : ℝ) (back : Option ℝ) (l : List Pix) : Except String (List ℝ) := open Classical in
  if fee ≤ 0 ∨ 1 < fee then .error "ValueError: frac_enc_energy"
  else
    let good := l.filter fun p => !p.bad
    let flux := (good.map fun p => p.weight * (p.val - back.getD 0)).sum / fee
    let err := Real.sqrt (good.map fun p => p.weight * p.err ^ 2).sum / fee
    .ok (flux :: err :: back.toList)

/-- `convert_to_flux` (l4_to_tda.py:152-168) for one pixel; the factors are already divided by the colour correction. The
errors are combined by `rescale_error` and `add_error_term`. -/
def convert (fac facErr : ℝ) (p : Pix) : Pix :=
  { p with val := p.val * fac, err := Real.sqrt ((p.err * fac) ^ 2 + (p.val * facErr) ^ 2) }

/-- `calculate_zero_point` (l4_to_tda.py:528-535): `phot` is what `aper_phot` returned, the logarithm is taken of the whole
tuple. -/
def zeroPoint (mag : ℝ) (phot : List ℝ) : List ℝ := phot.map fun c => mag + 2.5 * Real.logb 10 c

/-- The keyword arguments of the call of `aper_phot` in `calculate_zero_point` (l4_to_tda.py:534): a name given twice is a
TypeError. -/
def zeroPointCall (kwargs : List String) : Except String Unit :=
  if "encircled_radius" ∈ kwargs ∨ "centering_initial_guess" ∈ kwargs then .error "TypeError: multiple values" else .ok ()

/-! ## C71: converting and measuring commute -/

/-- C71: the photometry is refused exactly for an impossible enclosed energy. -/
theorem C71_refused_iff (fee : ℝ) (back : Option ℝ) (l : List Pix) :
    (∃ r, aperPhot fee back l = .ok r) ↔ 0 < fee ∧ fee ≤ 1 := by
  unfold aperPhot
  split_ifs with h
  · constructor
    · rintro ⟨r, hr⟩; cases hr
    · rintro ⟨h1, h2⟩; rcases h with h | h <;> linarith
  · push Not at h
    exact ⟨fun _ => ⟨h.1, h.2⟩, fun _ => ⟨_, rfl⟩⟩

theorem aperPhot_ok {fee : ℝ} (h : 0 < fee ∧ fee ≤ 1) (back : Option ℝ) (l : List Pix) : aperPhot fee back l =
    .ok (((l.filter fun p => !p.bad).map fun p => p.weight * (p.val - back.getD 0)).sum / fee ::
      Real.sqrt ((l.filter fun p => !p.bad).map fun p => p.weight * p.err ^ 2).sum / fee :: back.toList) := by
  unfold aperPhot
  rw [if_neg]
  push Not
  exact h

theorem filter_convert (fac facErr : ℝ) (l : List Pix) :
    (l.map (convert fac facErr)).filter (fun p => !p.bad) = (l.filter fun p => !p.bad).map (convert fac facErr) := by
  rw [List.filter_map]; rfl

/-- C71: the flux of the converted image (with the converted background) is the converted flux. -/
theorem C71_flux {fee fac facErr : ℝ} (h : 0 < fee ∧ fee ≤ 1) (back : Option ℝ) (l : List Pix) {r r' : List ℝ}
    (h1 : aperPhot fee back l = .ok r) (h2 : aperPhot fee (back.map (· * fac)) (l.map (convert fac facErr)) = .ok r') :
    r'.head? = r.head?.map (· * fac) := by
  rw [aperPhot_ok h] at h1 h2
  cases h1; cases h2
  simp only [List.head?_cons, Option.map_some, filter_convert, List.map_map]
  congr 1
  rw [div_mul_eq_mul_div]
  congr 1
  induction l.filter fun p => !p.bad with
  | nil => simp
  | cons p l ih =>
    simp only [List.map_cons, List.sum_cons, Function.comp_apply]
    rw [ih]
    cases back <;> simp [convert] <;> ring

/-- C71: masked pixels do not contribute. -/
theorem C71_masked (fee : ℝ) (back : Option ℝ) (l : List Pix) : aperPhot fee back l = aperPhot fee back (l.filter fun p => !p.bad) := by
  unfold aperPhot
  simp only [List.filter_filter, Bool.and_self]

theorem sum_weighted_nonneg {l : List Pix} (hw : ∀ p ∈ l, 0 ≤ p.weight) : 0 ≤ (l.map fun p => p.weight * p.err ^ 2).sum := by
  refine List.sum_nonneg fun x hx => ?_
  obtain ⟨p, hp, rfl⟩ := List.mem_map.1 hx
  exact mul_nonneg (hw p hp) (sq_nonneg _)

/-- C71: the error of the flux of the converted image: the factor's error enters as independent from pixel to pixel. -/
theorem C71_error {fee fac facErr : ℝ} (h : 0 < fee ∧ fee ≤ 1) (l : List Pix) (hw : ∀ p ∈ l, 0 ≤ p.weight) {f e : ℝ}
    (h2 : aperPhot fee none (l.map (convert fac facErr)) = .ok [f, e]) :
    e ^ 2 = (fac ^ 2 * ((l.filter fun p => !p.bad).map fun p => p.weight * p.err ^ 2).sum +
      facErr ^ 2 * ((l.filter fun p => !p.bad).map fun p => p.weight * p.val ^ 2).sum) / fee ^ 2 := by
  rw [aperPhot_ok h] at h2
  cases h2
  have hw' : ∀ p ∈ (l.map (convert fac facErr)).filter (fun p => !p.bad), 0 ≤ p.weight := by
    intro p hp
    obtain ⟨q, hq, rfl⟩ := List.mem_map.1 (List.mem_filter.1 hp).1
    exact hw q hq
  rw [div_pow, Real.sq_sqrt (sum_weighted_nonneg hw')]
  congr 1
  rw [filter_convert, List.map_map]
  induction l.filter fun p => !p.bad with
  | nil => simp
  | cons p l ih =>
    simp only [List.map_cons, List.sum_cons, Function.comp_apply]
    rw [ih]
    have : (convert fac facErr p).err ^ 2 = (p.err * fac) ^ 2 + (p.val * facErr) ^ 2 := by
      show Real.sqrt _ ^ 2 = _
      rw [Real.sq_sqrt (by positivity)]
    rw [this]
    show p.weight * _ + _ = _
    ring

/-- C71 as stated (the same flux *and* error either way) fails: two bright pixels, no photometric error. Converting the image
first gives an error of √2 times the factor's error, converting the sum gives twice. -/
theorem C71_violated : ∃ (l : List Pix) (s e f' e' : ℝ), aperPhot 1 none l = .ok [s, e] ∧
    aperPhot 1 none (l.map (convert 1 1)) = .ok [f', e'] ∧
    (determineFlux [1, 2, 3] (fun _ => 1) (fun _ => 1) 1 1 none [(s, e)]).flux = f' ∧
    (determineFlux [1, 2, 3] (fun _ => 1) (fun _ => 1) 1 1 none [(s, e)]).fluxErr ^ 2 = 4 ∧ e' ^ 2 = 2 := by
  set l : List Pix := [⟨1, 1, 0, false⟩, ⟨1, 1, 0, false⟩] with hl
  have hfee : (0 : ℝ) < 1 ∧ (1 : ℝ) ≤ 1 := by norm_num
  have h1 := aperPhot_ok hfee none l
  have h2 := aperPhot_ok hfee none (l.map (convert 1 1))
  refine ⟨l, _, _, _, _, h1, h2, ?_, ?_, ?_⟩
  · rw [(C70_value _ _ _ _ _ _ _).1]
    simp [hl, convert]
  · rw [(C70_value _ _ _ _ _ _ _).2]
    simp [hl]; norm_num
  · rw [C71_error hfee l (by simp [hl]) h2]
    simp [hl]; norm_num

/-- C71: with an exact factor the errors agree too. -/
theorem C71_partial {fee fac : ℝ} (hfac : 0 ≤ fac) (h : 0 < fee ∧ fee ≤ 1) (l : List Pix) (hw : ∀ p ∈ l, 0 ≤ p.weight) {s e f' e' : ℝ}
    (h1 : aperPhot fee none l = .ok [s, e]) (h2 : aperPhot fee none (l.map (convert fac 0)) = .ok [f', e']) :
    f' = s * fac ∧ e' = e * fac := by
  constructor
  · have := C71_flux h none l h1 h2
    simpa using this
  · have hsq := C71_error h l hw h2
    rw [aperPhot_ok h] at h1 h2
    cases h1; cases h2
    refine (sq_eq_sq₀ (by have := h.1; positivity) (by have := h.1; positivity)).1 ?_
    rw [hsq]
    have hnn : 0 ≤ ((l.filter fun p => !p.bad).map fun p => p.weight * p.err ^ 2).sum :=
      sum_weighted_nonneg fun p hp => hw p (List.mem_filter.1 hp).1
    rw [mul_pow, div_pow, Real.sq_sqrt hnn]
    ring

/-! ## C72: zero point -/

/-- C72: the first element is the zero point: the measured counts have the star's magnitude under it. -/
theorem C72_value {mag fee : ℝ} {back : Option ℝ} {l : List Pix} {r : List ℝ} (h : aperPhot fee back l = .ok r) :
    ∃ s z, r.head? = some s ∧ (zeroPoint mag r).head? = some z ∧ mag = z - 2.5 * Real.logb 10 s := by
  have hf := (C71_refused_iff fee back l).1 ⟨r, h⟩
  rw [aperPhot_ok hf] at h
  cases h
  exact ⟨_, _, rfl, rfl, by ring⟩

/-- C72 as stated (the result is one number) fails: it always has at least two. -/
theorem C72_violated {mag fee : ℝ} {back : Option ℝ} {l : List Pix} {r : List ℝ} (h : aperPhot fee back l = .ok r) :
    (zeroPoint mag r).length = 2 + back.toList.length ∧ ∀ z, zeroPoint mag r ≠ [z] := by
  have hf := (C71_refused_iff fee back l).1 ⟨r, h⟩
  rw [aperPhot_ok hf] at h
  cases h
  constructor
  · simp [zeroPoint]; omega
  · intro z hz
    have := congrArg List.length hz
    simp [zeroPoint] at this

/-- C72: the documented aperture keywords that the call fixes itself make it fail. -/
theorem C72_kwargs_iff (k : List String) : (∃ u, zeroPointCall k = .ok u) ↔ "encircled_radius" ∉ k ∧ "centering_initial_guess" ∉ k := by
  unfold zeroPointCall
  split_ifs with h
  · constructor
    · rintro ⟨u, hu⟩; cases hu
    · rintro ⟨h1, h2⟩; rcases h with h | h <;> contradiction
  · push Not at h
    exact ⟨fun _ => h, fun _ => ⟨(), rfl⟩⟩

example : aperPhot 1 (some 1) [⟨1, 3, 2, false⟩, ⟨1, 100, 2, true⟩] = .ok [2, 2, 1] := by
  rw [aperPhot_ok (by norm_num)]
  norm_num
  rw [show (4 : ℝ) = 2 ^ 2 by norm_num, Real.sqrt_sq (by norm_num)]

end Corgi.Tda

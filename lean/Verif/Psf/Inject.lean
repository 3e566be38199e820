import Verif.Common.ArgMin
import Verif.Astrom.Angles
import Verif.Psf.Northup

/-!
# Injection of fake PSFs (klip_fm.py 12-155): model and C100

Reals for floats. Positions are (x, y) with pixel centres at integers from 0 unless said otherwise. pyklip's
`inject_planet` puts the model at `(r cos θ, r sin θ)` from the centre for `thetas=[θ]` (trusted).
-/

noncomputable section

namespace Corgi.Inject

open Real Corgi.Astrom

/-- `get_closest_psf` (klip_fm.py 34-44): the index of the PSF; `excam` are the calibrated positions. -/
def closest (excam : List (ℝ × ℝ)) (cen d : ℝ × ℝ) : Option ℕ :=
  argmin (excam.map fun p => sqrt ((p.1 - 1 / 2 - cen.1 - d.1) ^ 2 + (p.2 - 1 / 2 - cen.2 - d.2) ^ 2))

/-- `peak_count` scaling (klip_fm.py 76-77) -/
def scale (amp peak v : ℝ) : ℝ := v * (amp / peak)

/-- The offset from the star at which the source goes into a frame (klip_fm.py 66-68); `roll` in degrees. -/
def offset (sep pa roll : ℝ) : ℝ × ℝ := seppa2dxdy sep (pa - roll)

/-- The offset used by `inject_planet`: angle `rel_pa + 90` from the x axis (klip_fm.py 87). -/
def planetOffset (sep pa roll : ℝ) : ℝ × ℝ :=
  (sep * cos ((pa - roll + 90) * π / 180), sep * sin ((pa - roll + 90) * π / 180))

/-! ## The closest PSF -/

/-- **C100.** The first PSF is taken whose calibrated position, corrected by half a pixel, is nearest to the source. -/
theorem C100_closest (excam : List (ℝ × ℝ)) (cen d : ℝ × ℝ) (k : ℕ) :
    closest excam cen d = some k ↔
      IsFirstMin (excam.map fun p => len (p - (1 / 2, 1 / 2) - (cen + d))) k := by
  have e : (excam.map fun p => sqrt ((p.1 - 1 / 2 - cen.1 - d.1) ^ 2 + (p.2 - 1 / 2 - cen.2 - d.2) ^ 2)) =
      excam.map fun p => len (p - (1 / 2, 1 / 2) - (cen + d)) := by
    apply List.map_congr_left
    intro p _
    simp only [len, Prod.fst_sub, Prod.snd_sub, Prod.fst_add, Prod.snd_add]
    congr 2 <;> ring
  unfold closest
  rw [e]
  exact argmin_eq_some_iff

/-- **C100.** There is one unless the calibration is empty. -/
theorem C100_exists (excam : List (ℝ × ℝ)) (cen d : ℝ × ℝ) : (closest excam cen d).isSome ↔ excam ≠ [] := by
  unfold closest
  cases excam <;> simp [argmin]

/-- **C100, violated.** STARLOC counts from the corner of the cropped frame, the calibration from that of the detector:
cropping at `corner` chooses as if all calibrated PSFs had moved by `corner`. -/
theorem C100_violated_crop (excam : List (ℝ × ℝ)) (star corner d : ℝ × ℝ) :
    closest excam (star - corner) d = closest (excam.map (· + corner)) star d := by
  unfold closest
  rw [List.map_map]
  congr 1
  apply List.map_congr_left
  intro p _
  simp only [Function.comp, Prod.fst_sub, Prod.snd_sub, Prod.fst_add, Prod.snd_add]
  congr 2 <;> ring

theorem closest_pair (p q cen d : ℝ × ℝ) :
    closest [p, q] cen d = some (if (q.1 - 1 / 2 - cen.1 - d.1) ^ 2 + (q.2 - 1 / 2 - cen.2 - d.2) ^ 2 <
      (p.1 - 1 / 2 - cen.1 - d.1) ^ 2 + (p.2 - 1 / 2 - cen.2 - d.2) ^ 2 then 1 else 0) := by
  have e : ∀ a b : ℝ, 0 ≤ a → (sqrt a < sqrt b ↔ a < b) := fun a b ha => Real.sqrt_lt_sqrt_iff ha
  unfold closest
  simp only [List.map_cons, List.map_nil, argmin, argminAux]
  congr 1
  exact if_congr (e _ _ (by positivity)) rfl rfl

/-- A source exactly on the first PSF: the full frame gives it, the frame cropped to 60 pixels the other, 36 pixels off. -/
theorem C100_violated_crop_witness :
    closest [(517 + 1 / 2, 512 + 1 / 2), (481 + 1 / 2, 512 + 1 / 2)] (512, 512) (5, 0) = some 0 ∧
    closest [(517 + 1 / 2, 512 + 1 / 2), (481 + 1 / 2, 512 + 1 / 2)] ((512, 512) - (482, 482)) (5, 0) = some 1 := by
  rw [closest_pair, closest_pair]
  constructor <;> norm_num

/-- **C100, violated.** The positions in the calibration are centroids, that is they count from pixel centres already
(C79): a source 0.3 pixels from the first PSF and 0.7 from the second gets the second. -/
theorem C100_violated_half_pixel :
    len ((10, 10) - ((10, 10) + ((3 : ℝ) / 10, 0))) < len ((11, 10) - ((10, 10) + ((3 : ℝ) / 10, 0))) ∧
    closest [(10, 10), (11, 10)] (10, 10) (3 / 10, 0) = some 1 := by
  constructor
  · unfold len
    apply Real.sqrt_lt_sqrt (by positivity)
    norm_num
  · rw [closest_pair]; norm_num

/-! ## Amplitude and place -/

/-- **C100 (partial).** The peak pixel of the injected model has the requested amplitude, if the model has a positive
peak. -/
theorem C100_peak_partial (model : List ℝ) (peak amp : ℝ) (h : IsGreatest {v | v ∈ model} peak) (hp : 0 < peak)
    (ha : 0 ≤ amp) : IsGreatest {v | v ∈ model.map (scale amp peak)} amp := by
  constructor
  · refine List.mem_map.2 ⟨peak, h.1, ?_⟩
    unfold scale
    field_simp
  · rintro v hv
    obtain ⟨u, hu, rfl⟩ := List.mem_map.1 hv
    have := h.2 hu
    unfold scale
    rw [mul_div_assoc', div_le_iff₀ hp]
    nlinarith

/-- **C100.** The offset used to choose the PSF is that used to inject it. -/
theorem C100_place (sep pa roll : ℝ) : planetOffset sep pa roll = offset sep pa roll := by
  have e : (pa - roll + 90) * π / 180 = (pa - roll) * π / 180 + π / 2 := by ring
  unfold planetOffset offset seppa2dxdy
  rw [e, cos_add_pi_div_two, sin_add_pi_div_two]
  apply Prod.ext <;> dsimp only
  ring

/-- **C100.** Turned by the roll angle, as pyklip does, the source is at the requested position angle: where the
recovery looks for it, in the frame of every roll. -/
theorem C100_recovered (sep pa roll : ℝ) (c : ℝ × ℝ) :
    c + Northup.rot (roll * π / 180) (offset sep pa roll) = seppa2xy sep pa c.1 c.2 := by
  have e : pa * π / 180 = (pa - roll) * π / 180 + roll * π / 180 := by ring
  unfold seppa2xy seppa2dxdy offset Northup.rot
  rw [e, sin_add, cos_add]
  unfold seppa2dxdy
  apply Prod.ext <;> simp only [Prod.fst_add, Prod.snd_add] <;> ring

/-- On the sky of a frame with WCS from `create_wcs` and equal scales, the source is `sep` pixels away at the position
angle `pa` plus the detector's north angle. -/
theorem C100_sky (rows cols : ℕ) (a : Sky.Astrom) (p : Sky.Pointing) (he : a.scaleX = a.scaleY) (star : ℝ × ℝ)
    (sep pa : ℝ) :
    let w := Sky.createWcs rows cols a p
    let s := star + offset sep pa p.roll
    Sky.plane w s.1 s.2 - Sky.plane w star.1 star.2 =
      (Sky.deg a.scaleX * sep * sin ((pa + a.northangle) * π / 180),
       Sky.deg a.scaleX * sep * cos ((pa + a.northangle) * π / 180)) := by
  have e : (pa + a.northangle) * π / 180 = (pa - p.roll) * π / 180 + Sky.vertAng a p := by unfold Sky.vertAng; ring
  dsimp only
  rw [e, sin_add, cos_add]
  simp only [offset, seppa2dxdy, Sky.plane, Sky.createWcs, Sky.deg, ← he]
  apply Prod.ext <;> simp only [Prod.fst_sub, Prod.snd_sub, Prod.fst_add, Prod.snd_add] <;> ring

/-- **C100, violated.** The position angle on the sky is the requested one exactly if the north angle is a whole number of
turns. -/
theorem C100_violated_northangle (rows cols : ℕ) (a : Sky.Astrom) (p : Sky.Pointing) (hs : 0 < a.scaleX)
    (he : a.scaleX = a.scaleY) (star : ℝ × ℝ) (sep pa : ℝ) (hsep : 0 < sep) :
    let w := Sky.createWcs rows cols a p
    let s := star + offset sep pa p.roll
    Sky.plane w s.1 s.2 - Sky.plane w star.1 star.2 =
      (Sky.deg a.scaleX * sep * sin (pa * π / 180), Sky.deg a.scaleX * sep * cos (pa * π / 180)) ↔
    cos (a.northangle * π / 180) = 1 := by
  have k := C100_sky rows cols a p he star sep pa
  dsimp only at k ⊢
  rw [k]
  have hk : Sky.deg a.scaleX * sep ≠ 0 := by unfold Sky.deg; positivity
  have e : (pa + a.northangle) * π / 180 = pa * π / 180 + a.northangle * π / 180 := by ring
  rw [e, sin_add, cos_add]
  have h1 := sin_sq_add_cos_sq (pa * π / 180)
  have h2 := sin_sq_add_cos_sq (a.northangle * π / 180)
  constructor
  · intro h
    have x := mul_left_cancel₀ hk (congrArg Prod.fst h)
    have y := mul_left_cancel₀ hk (congrArg Prod.snd h)
    linear_combination sin (pa * π / 180) * x + cos (pa * π / 180) * y + (1 - cos (a.northangle * π / 180)) * h1
  · intro h
    rw [h] at h2
    have h0 : sin (a.northangle * π / 180) = 0 := pow_eq_zero_iff two_ne_zero |>.1 (by linarith)
    rw [h, h0]
    simp

/-! ## `measure_noise` -/

/-- Distance of two points. -/
def dist2 (p q : ℝ × ℝ) : ℝ := sqrt ((p.2 - q.2) ^ 2 + (p.1 - q.1) ^ 2)

open Classical in
/-- One pixel after the masks of the annulus and of the candidates (klip_fm.py 124-137); `none` is NaN. -/
def masked (star : ℝ × ℝ) (sep hw : ℝ) (cands : List (ℝ × ℝ)) (p : ℝ × ℝ) (v : Option ℝ) : Option ℝ :=
  cands.foldl (fun v c => if 5 * hw < dist2 p (seppa2xy c.1 c.2 star.1 star.2) then v else none)
    (if dist2 p star < sep + hw ∧ sep - hw < dist2 p star then v else none)

/-- The values `nanstd` sees: `pixels` are the positions and values of one slice. -/
def used (star : ℝ × ℝ) (sep hw : ℝ) (cands : List (ℝ × ℝ)) (pixels : List ((ℝ × ℝ) × Option ℝ)) : List ℝ :=
  pixels.filterMap fun pv => masked star sep hw cands pv.1 pv.2

theorem fold_some {A : Type} (P : A → Prop) [DecidablePred P] (l : List A) (v : Option ℝ) (x : ℝ) :
    l.foldl (fun v c => if P c then v else none) v = some x ↔ v = some x ∧ ∀ c ∈ l, P c := by
  induction l generalizing v with
  | nil => simp
  | cons c l ih =>
    rw [List.foldl_cons, ih]
    by_cases h : P c
    · simp [h]
    · simp [h]

/-- **C100.** The noise is taken from the valid pixels strictly within `hw` of the separation and more than `5 hw` away
from every candidate, and no others. -/
theorem C100_annulus (star : ℝ × ℝ) (sep hw : ℝ) (cands : List (ℝ × ℝ)) (p : ℝ × ℝ) (v : Option ℝ) (x : ℝ) :
    masked star sep hw cands p v = some x ↔
      v = some x ∧ |dist2 p star - sep| < hw ∧ ∀ c ∈ cands, 5 * hw < dist2 p (seppa2xy c.1 c.2 star.1 star.2) := by
  unfold masked
  rw [fold_some (fun c : ℝ × ℝ => 5 * hw < dist2 p (seppa2xy c.1 c.2 star.1 star.2))]
  rw [abs_lt]
  constructor
  · rintro ⟨h, h'⟩
    split_ifs at h with h0
    exact ⟨h, ⟨by linarith, by linarith⟩, h'⟩
  · rintro ⟨h, ⟨h1, h2⟩, h'⟩
    rw [if_pos ⟨by linarith, by linarith⟩]
    exact ⟨h, h'⟩

/-- **C100.** In order, with multiplicity. -/
theorem C100_used (star : ℝ × ℝ) (sep hw : ℝ) (cands : List (ℝ × ℝ)) (pixels : List ((ℝ × ℝ) × Option ℝ)) (x : ℝ) :
    x ∈ used star sep hw cands pixels ↔ ∃ pv ∈ pixels, pv.2 = some x ∧ |dist2 pv.1 star - sep| < hw ∧
      ∀ c ∈ cands, 5 * hw < dist2 pv.1 (seppa2xy c.1 c.2 star.1 star.2) := by
  unfold used
  rw [List.mem_filterMap]
  constructor
  · rintro ⟨pv, h, hm⟩; exact ⟨pv, h, (C100_annulus _ _ _ _ _ _ _).1 hm⟩
  · rintro ⟨pv, h, hm⟩; exact ⟨pv, h, (C100_annulus _ _ _ _ _ _ _).2 hm⟩

theorem dist2_norm (p q : ℝ × ℝ) : dist2 p q = ‖(⟨p.1 - q.1, p.2 - q.2⟩ : ℂ)‖ := by
  rw [Complex.norm_def, Complex.normSq_mk, dist2]
  congr 1; ring

theorem dist2_triangle (p q r : ℝ × ℝ) : dist2 p r ≤ dist2 p q + dist2 q r := by
  rw [dist2_norm, dist2_norm, dist2_norm]
  refine le_trans (le_of_eq ?_) (norm_add_le _ _)
  congr 1
  apply Complex.ext <;> simp

/-- **C100, violated.** A candidate close to the star leaves no pixel of the inner annuli: the noise, and with it the
injected sources, are not numbers. -/
theorem C100_violated_masked (star : ℝ × ℝ) (sep hw cs cpa : ℝ) (hcs : 0 ≤ cs) (h : sep + hw + cs ≤ 5 * hw)
    (pixels : List ((ℝ × ℝ) × Option ℝ)) : used star sep hw [(cs, cpa)] pixels = [] := by
  rw [List.eq_nil_iff_forall_not_mem]
  intro x hx
  obtain ⟨pv, -, -, h1, h2⟩ := (C100_used _ _ _ _ _ _).1 hx
  have h2 := h2 _ List.mem_cons_self
  dsimp only at h2
  have h3 := dist2_triangle pv.1 star (seppa2xy cs cpa star.1 star.2)
  have h4 : dist2 star (seppa2xy cs cpa star.1 star.2) = cs := by
    refine Eq.trans ?_ (len_seppa cs cpa hcs)
    unfold dist2 len seppa2xy
    dsimp only
    congr 1; ring
  rw [abs_lt] at h1
  linarith

example : used (0, 0) 5 1 [] [((5, 0), some 3), ((4, 0), some 7), ((0, 5), none)] = [3] := by
  have a : masked (0, 0) 5 1 [] (5, 0) (some 3) = some 3 := by
    rw [C100_annulus]
    refine ⟨rfl, ?_, by simp⟩
    have : dist2 (5, 0) (0, 0) = 5 := by
      unfold dist2
      rw [show ((0 : ℝ) - 0) ^ 2 + (5 - 0) ^ 2 = 5 ^ 2 by norm_num, Real.sqrt_sq (by norm_num)]
    rw [this]; norm_num
  have b : masked (0, 0) 5 1 [] (4, 0) (some 7) = none := by
    rw [Option.eq_none_iff_forall_not_mem]
    intro x hx
    have := (C100_annulus _ _ _ _ _ _ _).1 (Option.mem_def.1 hx)
    have h4 : dist2 (4, 0) (0, 0) = 4 := by
      unfold dist2
      rw [show ((0 : ℝ) - 0) ^ 2 + (4 - 0) ^ 2 = 4 ^ 2 by norm_num, Real.sqrt_sq (by norm_num)]
    rw [h4] at this
    norm_num at this
  have c : masked (0, 0) 5 1 [] (0, 5) none = none := by
    unfold masked; simp
  simp [used, a, b, c]

end Corgi.Inject

import Verif.Astrom.Scale
import Verif.Psf.Northup

/-!
# From a calibration field to position angles: composition and C158

`boresight_calibration` (astrom.py 1094-1133, plate scale and north angle: C155), `create_wcs` (l2b_to_l3.py 28-60, C54) and
`northup` (l3_to_l4.py 645-743, C97) run one after the other. `create_wcs` adds the ROLL of a frame to the north angle (line 35):
by this convention a frame taken at a roll shows the sky turned by the angle of the detector plus the roll. `astrom.py` does not
read ROLL.
-/

noncomputable section

namespace Corgi.SkyToImage

open Real Corgi.Astrom Corgi.Sky Corgi.Northup

/-! ## Model -/

/-- astrom.py 1129-1133: means over the frames of the calibration, `none` for NaN. The scales of both axes are the same number
(1118); the offsets are inputs. -/
def average (frames : List (ℝ × ℝ)) (raOff decOff : ℝ) : Option Sky.Astrom :=
  (meanOrNan (frames.map (·.1))).bind fun k => (meanOrNan (frames.map (·.2))).map fun n => ⟨n, k, k, raOff, decOff⟩

/-- `create_wcs` and `northup` of a frame with its star in the header. -/
def toNorth (rows cols : ℕ) (a : Sky.Astrom) (p : Pointing) (star : ℝ × ℝ) (useWcs : Bool) (rc : Center) : Except Northup.Err Out :=
  northup [rows, cols] ⟨createWcs rows cols a p, some star, p.roll⟩ 1 useWcs useWcs rc

/-! ## Specification -/

/-- Where a frame taken at the given roll shows an object at a separation (mas) and position angle from the star. -/
def shown (k θ roll : ℝ) (star : ℝ × ℝ) (sep pa : ℝ) : ℝ × ℝ := seppa2xy (sep / k) (pa - (θ + roll)) star.1 star.2

/-- Separation and position angle as offset on the sky, in degrees, first to the east, then to the north. -/
def offset (sep pa : ℝ) : ℝ × ℝ := (deg sep * sin (pa * π / 180), deg sep * cos (pa * π / 180))

/-- The angle is a whole number of turns. -/
def Turns (x : ℝ) : Prop := cos (x * π / 180) = 1

/-! ## Proofs -/

theorem rot_seppa (t d pa : ℝ) : rot (t * π / 180) (seppa2dxdy d pa) = seppa2dxdy d (pa + t) := by
  unfold rot seppa2dxdy
  rw [show (pa + t) * π / 180 = pa * π / 180 + t * π / 180 by ring, Real.sin_add, Real.cos_add]
  apply Prod.ext <;> dsimp only <;> ring

theorem dataTo_seppa (t d pa : ℝ) (c : ℝ × ℝ) : dataTo (t * π / 180) c (seppa2xy d pa c.1 c.2) = seppa2xy d (pa + t) c.1 c.2 := by
  unfold dataTo
  rw [show seppa2xy d pa c.1 c.2 - c = seppa2dxdy d pa by
    apply Prod.ext <;> simp [seppa2xy], rot_seppa]
  apply Prod.ext <;> simp [seppa2xy, add_comm]

theorem dataTo_congr {t u : ℝ} (hc : cos t = cos u) (hs : sin t = sin u) : dataTo t = dataTo u := by
  funext c p
  simp [dataTo, rot, hc, hs]

/-- With equal scales the angle of `northup` is that of `create_wcs`. -/
theorem wcsAngle_eq (rows cols : ℕ) (a : Sky.Astrom) (p : Pointing) (hx : 0 < a.scaleX) (he : a.scaleX = a.scaleY) :
    cos (wcsAngle (createWcs rows cols a p)) = cos (vertAng a p) ∧ sin (wcsAngle (createWcs rows cols a p)) = sin (vertAng a p) := by
  have h := C97_north_partial rows cols a p hx he
  dsimp only at h
  rw [show (a.northangle + p.roll) * (π / 180) = vertAng a p by unfold vertAng; ring] at h
  have h1 := sin_sq_add_cos_sq (vertAng a p)
  have a1 := congrArg Prod.fst h.1
  have a2 := congrArg Prod.snd h.1
  simp only [rot] at a1 a2
  constructor
  · linear_combination cos (vertAng a p) * a2 + sin (vertAng a p) * a1 - cos (wcsAngle (createWcs rows cols a p)) * h1
  · linear_combination sin (vertAng a p) * a2 - cos (vertAng a p) * a1 - sin (wcsAngle (createWcs rows cols a p)) * h1

theorem seppa_congr {d a b : ℝ} (h : Turns (a - b)) (cx cy : ℝ) : seppa2xy d a cx cy = seppa2xy d b cx cy := by
  unfold Turns at h
  have h1 := sin_sq_add_cos_sq ((a - b) * π / 180)
  have hs : sin ((a - b) * π / 180) = 0 := by
    rw [h] at h1
    exact pow_eq_zero_iff two_ne_zero |>.1 (by linarith)
  unfold seppa2xy seppa2dxdy
  rw [show a * π / 180 = b * π / 180 + (a - b) * π / 180 by ring, Real.sin_add, Real.cos_add, h, hs]
  simp

theorem seppa_inj {d a b cx cy : ℝ} (hd : d ≠ 0) : seppa2xy d a cx cy = seppa2xy d b cx cy ↔ Turns (a - b) := by
  refine ⟨fun h => ?_, fun h => seppa_congr h cx cy⟩
  have h1 := congrArg Prod.fst h
  have h2 := congrArg Prod.snd h
  simp only [seppa2xy, seppa2dxdy, add_left_inj, neg_mul, neg_inj] at h1 h2
  have h1 := mul_left_cancel₀ hd h1
  have h2 := mul_left_cancel₀ hd h2
  unfold Turns
  rw [show (a - b) * π / 180 = a * π / 180 - b * π / 180 by ring, Real.cos_sub, h1, h2]
  have := sin_sq_add_cos_sq (b * π / 180)
  linarith

/-- **C158.** Turned about the star, an object is found at its separation and at its position angle plus the error of the north
angle, whatever the roll of the frame. -/
theorem C158_found {rows cols : ℕ} {a : Sky.Astrom} {p : Pointing} (hx : 0 < a.scaleX) (he : a.scaleX = a.scaleY) (k θ sep pa : ℝ)
    (star : ℝ × ℝ) : ∃ o, toNorth rows cols a p star true .starloc = .ok o ∧ o.hdr.star = some star ∧
      o.data (shown k θ p.roll star sep pa) = seppa2xy (sep / k) (pa + (a.northangle - θ)) star.1 star.2 := by
  refine ⟨_, rfl, rfl, ?_⟩
  obtain ⟨hc, hs⟩ := wcsAngle_eq rows cols a p hx he
  simp only [if_true, center, Option.getD_some]
  rw [dataTo_congr hc hs]
  unfold vertAng shown
  rw [dataTo_seppa]
  congr 1
  ring

/-- **C158.** So it is found at the place that separation and position angle say exactly if the north angle is that of the detector, up
to whole turns. -/
theorem C158_right_iff {rows cols : ℕ} {a : Sky.Astrom} {p : Pointing} (hx : 0 < a.scaleX) (he : a.scaleX = a.scaleY) {k θ sep pa : ℝ}
    (hk : k ≠ 0) (hsep : sep ≠ 0) (star : ℝ × ℝ) : ∃ o, toNorth rows cols a p star true .starloc = .ok o ∧
      (o.data (shown k θ p.roll star sep pa) = seppa2xy (sep / k) pa star.1 star.2 ↔ Turns (a.northangle - θ)) := by
  obtain ⟨o, h1, -, h3⟩ := C158_found (rows := rows) (cols := cols) hx he k θ sep pa star (p := p)
  refine ⟨o, h1, ?_⟩
  rw [h3, seppa_inj (div_ne_zero hsep hk), add_sub_cancel_left]

/-- **C158.** Measured in the result with `angle_between`, and with the plate scale in the header: separation and position angle. -/
theorem C158_measured {rows cols : ℕ} {a : Sky.Astrom} {p : Pointing} (he : a.scaleX = a.scaleY) {θ sep pa : ℝ} (hk : 0 < a.scaleX)
    (hθ : Turns (a.northangle - θ)) (hsep : 0 < sep) (hpa : 0 < pa ∧ pa ≤ 360) (star : ℝ × ℝ) :
    ∃ o, toNorth rows cols a p star true .starloc = .ok o ∧
      angleBetween star (o.data (shown a.scaleX θ p.roll star sep pa)) = some pa ∧
      o.hdr.w.pltscale * len ((o.data (shown a.scaleX θ p.roll star sep pa)).1 - star.1,
        (o.data (shown a.scaleX θ p.roll star sep pa)).2 - star.2) = sep := by
  obtain ⟨o, h1, h2⟩ := C158_right_iff (rows := rows) (cols := cols) (p := p) (θ := θ) (pa := pa) hk he hk.ne' hsep.ne' star
  refine ⟨o, h1, ?_⟩
  rw [h2.2 hθ]
  refine ⟨C86_inverse _ _ _ _ (div_pos hsep hk) hpa, ?_⟩
  have hw : o.hdr.w.pltscale = a.scaleX := by
    cases h1
    simp only [if_true, turnCd, createWcs]
    rw [← he]
    ring
  rw [hw]
  simp only [seppa2xy, add_sub_cancel_right]
  rw [len_seppa _ _ (div_pos hsep hk).le]
  field_simp

/-- **C158.** The WCS of `create_wcs` gives the offset from the star on the sky, with the same error of the position angle. -/
theorem C158_wcs {rows cols : ℕ} {a : Sky.Astrom} {p : Pointing} (he : a.scaleX = a.scaleY) (hk : a.scaleX ≠ 0) (θ sep pa : ℝ)
    (star : ℝ × ℝ) :
    let w := createWcs rows cols a p
    let q := shown a.scaleX θ p.roll star sep pa
    plane w q.1 q.2 - plane w star.1 star.2 = offset sep (pa + (a.northangle - θ)) := by
  simp only
  have e : (pa + (a.northangle - θ)) * π / 180 = (pa - (θ + p.roll)) * π / 180 + vertAng a p := by unfold vertAng; ring
  unfold offset shown
  rw [e, Real.sin_add, Real.cos_add]
  simp only [plane, createWcs, seppa2xy, seppa2dxdy, deg, ← he]
  apply Prod.ext <;> simp only [Prod.fst_sub, Prod.snd_sub] <;> field_simp <;> ring

/-- **C158.** The result of `northup` says the same. -/
theorem C158_wcs_north {rows cols : ℕ} {a : Sky.Astrom} {p : Pointing} (he : a.scaleX = a.scaleY) (hk : 0 < a.scaleX) (θ sep pa : ℝ)
    (star : ℝ × ℝ) (rc : Center) : ∃ o, toNorth rows cols a p star true rc = .ok o ∧
      plane o.hdr.w (o.data (shown a.scaleX θ p.roll star sep pa)).1 (o.data (shown a.scaleX θ p.roll star sep pa)).2
        - plane o.hdr.w (o.data star).1 (o.data star).2 = offset sep (pa + (a.northangle - θ)) := by
  refine ⟨_, rfl, ?_⟩
  rw [← C158_wcs (rows := rows) (cols := cols) he hk.ne']
  simp only [if_true]
  have h1 := plane_turned (wcsAngle (createWcs rows cols a p)) (center cols rows ⟨createWcs rows cols a p, some star, p.roll⟩ rc)
    (createWcs rows cols a p) (shown a.scaleX θ p.roll star sep pa)
  have h2 := plane_turned (wcsAngle (createWcs rows cols a p)) (center cols rows ⟨createWcs rows cols a p, some star, p.roll⟩ rc)
    (createWcs rows cols a p) star
  dsimp only at h1 h2
  apply Prod.ext <;> simp only [Prod.fst_sub, Prod.snd_sub]
  · linarith [h1.1, h2.1]
  · linarith [h1.2, h2.2]

/-! ## The calibration -/

/-- Frames of a calibration field, all of scale `k`, taken at the given rolls. -/
def measured (k θ : ℝ) (rolls : List ℝ) : List (ℝ × ℝ) := rolls.map fun r => (k, θ + r)

theorem sum_shift (θ : ℝ) (rolls : List ℝ) : (rolls.map fun r => θ + r).sum = rolls.length * θ + rolls.sum := by
  induction rolls with
  | nil => simp
  | cons r rs ih =>
    simp only [List.map_cons, List.sum_cons, ih, List.length_cons]
    push_cast
    ring

/-- **C158.** The averaged calibration has the scale, and the angle of the detector plus the mean of the rolls. -/
theorem C158_average {k θ : ℝ} {rolls : List ℝ} (hne : rolls ≠ []) (ra dec : ℝ) :
    average (measured k θ rolls) ra dec = some ⟨θ + rolls.sum / rolls.length, k, k, ra, dec⟩ := by
  have hl : (rolls.length : ℝ) ≠ 0 := by
    rw [Nat.cast_ne_zero]
    exact fun h => hne (List.length_eq_zero_iff.1 h)
  unfold average measured
  simp only [List.map_map, Function.comp_def]
  rw [meanOrNan_const hne fun _ _ => rfl]
  unfold meanOrNan
  rw [if_neg (by simpa using hne), sum_shift, List.length_map]
  simp only [Option.bind_some, Option.map_some]
  congr 2
  field_simp

/-- One frame of a calibration field: its roll, the stars and what is measured of them. -/
structure Field where
  roll : ℝ
  target : ℝ × ℝ
  dist : Star → ℝ
  sep : Star → Star → ℝ
  off : Star → Star → ℝ × ℝ
  rand : List ℕ
  stars : List Star

/-- astrom.py 1115 for one frame. -/
def Field.result (rows cols : ℕ) (radius : ℝ) (f : Field) : Option (ℝ × ℝ) :=
  (scaleAndNorth f.sep f.off f.rand rows cols f.target radius f.stars).1.bind fun k =>
    (scaleAndNorth f.sep f.off f.rand rows cols f.target radius f.stars).2.map fun n => (k, n)

/-- The frame shows the sky at scale `k`, turned by the angle of the detector plus the roll, with enough stars (C155). -/
structure Good (k θ : ℝ) (rows cols : ℕ) (radius : ℝ) (f : Field) : Prop where
  pictures : Pictures k (θ + f.roll) (((refPoint rows cols).1 : ℝ), ((refPoint rows cols).2 : ℝ)) f.dist f.sep f.off f.stars
  small : -90 < θ + f.roll ∧ θ + f.roll < 90
  two : 2 ≤ (used rows cols radius f.stars).length
  apart : (used rows cols radius f.stars).Pairwise fun s t => f.sep s t ≠ 0
  away : ∀ s ∈ (used rows cols radius f.stars).eraseP (fun s => decide (s.ra = f.target.1 ∧ s.dec = f.target.2)), 0 < f.dist s
  drawn : Drawn (pairsOf (used rows cols radius f.stars)).length f.rand

theorem good_result {k θ : ℝ} (hk : 0 < k) {rows cols : ℕ} {radius : ℝ} {f : Field} (h : Good k θ rows cols radius f) :
    f.result rows cols radius = some (k, θ + f.roll) := by
  unfold Field.result
  rw [C155_field h.pictures hk h.small h.two h.apart h.away h.drawn]
  rfl

/-- **C158.** From the calibration frames to the object: it is found at its position angle plus the mean roll of the calibration
frames. -/
theorem C158_end_to_end {k θ : ℝ} (hk : 0 < k) {rows₀ cols₀ : ℕ} {radius : ℝ} {fields : List Field} (hne : fields ≠ [])
    (h : ∀ f ∈ fields, Good k θ rows₀ cols₀ radius f) (ra dec : ℝ) (rows cols : ℕ) (p : Pointing) (star : ℝ × ℝ) :
    ∃ l a o, fields.mapM (Field.result rows₀ cols₀ radius) = some l ∧ average l ra dec = some a ∧
      toNorth rows cols a p star true .starloc = .ok o ∧ ∀ sep pa, o.data (shown k θ p.roll star sep pa) =
        seppa2xy (sep / k) (pa + (fields.map (·.roll)).sum / fields.length) star.1 star.2 := by
  have h1 : fields.mapM (Field.result rows₀ cols₀ radius) = some (measured k θ (fields.map (·.roll))) := by
    rw [mapM_some_of (g := fun f => (k, θ + f.roll)) fun f hf => good_result hk (h f hf)]
    simp [measured, Function.comp_def]
  have h2 := C158_average (k := k) (θ := θ) (rolls := fields.map (·.roll)) (by simpa using hne) ra dec
  refine ⟨_, _, _, h1, h2, rfl, fun sep pa => ?_⟩
  obtain ⟨o, h3, -, h4⟩ := C158_found (rows := rows) (cols := cols)
    (a := ⟨θ + (fields.map (·.roll)).sum / (fields.map (·.roll)).length, k, k, ra, dec⟩) (p := p) hk rfl k θ sep pa star
  cases h3
  rw [h4]
  simp only [List.length_map, add_sub_cancel_left]

/-- **C158, violated.** The roll of the calibration frames is not taken out: every object is at its place exactly if their mean roll is a
whole number of turns. -/
theorem C158_violated_roll {k θ : ℝ} (hk : 0 < k) {rows₀ cols₀ : ℕ} {radius : ℝ} {fields : List Field} (hne : fields ≠ [])
    (h : ∀ f ∈ fields, Good k θ rows₀ cols₀ radius f) (ra dec : ℝ) (rows cols : ℕ) (p : Pointing) (star : ℝ × ℝ) :
    ∃ l a o, fields.mapM (Field.result rows₀ cols₀ radius) = some l ∧ average l ra dec = some a ∧
      toNorth rows cols a p star true .starloc = .ok o ∧
      ((∀ sep pa, o.data (shown k θ p.roll star sep pa) = seppa2xy (sep / k) pa star.1 star.2) ↔
        Turns ((fields.map (·.roll)).sum / fields.length)) := by
  obtain ⟨l, a, o, h1, h2, h3, h4⟩ := C158_end_to_end hk hne h ra dec rows cols p star
  refine ⟨l, a, o, h1, h2, h3, fun hh => ?_, fun ht sep pa => ?_⟩
  · have h5 := hh k 0
    rw [h4, seppa_inj (by rw [div_self hk.ne']; exact one_ne_zero)] at h5
    simpa using h5
  · rw [h4]
    apply seppa_congr
    rwa [add_sub_cancel_left]

/-- **C158, violated.** Even a frame of the calibration itself, taken at a roll, gets a wrong WCS: the offsets from its star are right
exactly if its roll is a whole number of turns. -/
theorem C158_violated_self {k θ : ℝ} (hk : 0 < k) (roll ra dec ra₀ dec₀ : ℝ) (rows cols : ℕ) (star : ℝ × ℝ) :
    ∃ a, average (measured k θ [roll]) ra dec = some a ∧
      ((∀ sep pa, plane (createWcs rows cols a ⟨ra₀, dec₀, roll⟩) (shown k θ roll star sep pa).1 (shown k θ roll star sep pa).2
        - plane (createWcs rows cols a ⟨ra₀, dec₀, roll⟩) star.1 star.2 = offset sep pa) ↔ Turns roll) := by
  refine ⟨_, C158_average (by simp) ra dec, ?_⟩
  have hw := fun sep pa => C158_wcs (rows := rows) (cols := cols)
    (a := ⟨θ + [roll].sum / [roll].length, k, k, ra, dec⟩) (p := ⟨ra₀, dec₀, roll⟩) rfl hk.ne' θ sep pa star
  simp only [List.sum_cons, List.sum_nil, add_zero, List.length_cons, List.length_nil, zero_add, Nat.cast_one, div_one,
    add_sub_cancel_left] at hw ⊢
  simp only [hw]
  constructor
  · intro h
    have h1 := congrArg Prod.snd (h 3600000 0)
    simp only [offset, deg] at h1
    unfold Turns
    norm_num at h1
    exact h1
  · intro h sep pa
    have h1 := sin_sq_add_cos_sq (roll * π / 180)
    unfold Turns at h
    have hs : sin (roll * π / 180) = 0 := by
      rw [h] at h1
      exact pow_eq_zero_iff two_ne_zero |>.1 (by linarith)
    unfold offset
    rw [show (pa + roll) * π / 180 = pa * π / 180 + roll * π / 180 by ring, Real.sin_add, Real.cos_add, h, hs]
    simp

/-! ## The options of `northup` -/

/-- **C158, violated.** Turned about another point (the default is the middle of the image) the object is at the place that the star of the
header, its separation and its position angle say exactly if the star is the centre of the rotation or nothing is turned. -/
theorem C158_violated_centre {rows cols : ℕ} {a : Sky.Astrom} {p : Pointing} (hx : 0 < a.scaleX) (he : a.scaleX = a.scaleY) {θ : ℝ}
    (hθ : Turns (a.northangle - θ)) (k sep pa : ℝ) (star : ℝ × ℝ) (rc : Center) :
    ∃ o, toNorth rows cols a p star true rc = .ok o ∧ o.hdr.star = some star ∧
      (o.data (shown k θ p.roll star sep pa) = seppa2xy (sep / k) pa star.1 star.2 ↔
        star = center cols rows ⟨createWcs rows cols a p, some star, p.roll⟩ rc ∨ Turns (a.northangle + p.roll)) := by
  obtain ⟨o, h1, h2, h3⟩ := C97_violated_star rows cols ⟨createWcs rows cols a p, some star, p.roll⟩ 1 rc star rfl
  obtain ⟨hc, hs⟩ := wcsAngle_eq rows cols a p hx he
  refine ⟨o, h1, h2, ?_⟩
  dsimp only at h3
  rw [hc] at h3
  unfold Turns
  rw [show (a.northangle + p.roll) * π / 180 = vertAng a p from rfl, ← h3]
  obtain ⟨o', g1, -, g3⟩ := C158_found (rows := rows) (cols := cols) (p := p) hx he k θ sep pa star
  rw [seppa_congr (b := pa) (by rwa [add_sub_cancel_left])] at g3
  cases h1
  cases g1
  rw [← g3]
  simp only [if_true, center, Option.getD_some]
  have key : ∀ (t : ℝ) (c q : ℝ × ℝ), dataTo t c q - dataTo t star q = dataTo t c star - star := by
    intro t c q
    simp only [dataTo, rot]
    apply Prod.ext <;> simp only [Prod.fst_add, Prod.snd_add, Prod.fst_sub, Prod.snd_sub] <;> ring
  rw [← sub_eq_zero, key, sub_eq_zero]

/-- **C158, violated.** Without WCS the angle of the detector stays in every position angle. -/
theorem C158_violated_no_wcs {rows cols : ℕ} {a : Sky.Astrom} {p : Pointing} {k θ sep pa : ℝ} (hk : k ≠ 0) (hsep : sep ≠ 0)
    (star : ℝ × ℝ) : ∃ o, toNorth rows cols a p star false .starloc = .ok o ∧
      o.data (shown k θ p.roll star sep pa) = seppa2xy (sep / k) (pa - θ) star.1 star.2 ∧
      (o.data (shown k θ p.roll star sep pa) = seppa2xy (sep / k) pa star.1 star.2 ↔ Turns θ) := by
  have h : dataTo (p.roll * π / 180) star (shown k θ p.roll star sep pa) = seppa2xy (sep / k) (pa - θ) star.1 star.2 := by
    unfold shown
    rw [dataTo_seppa]
    congr 1
    ring
  refine ⟨_, rfl, ?_, ?_⟩
  · simpa [center] using h
  · simp only [Bool.false_eq_true, if_false, center, Option.getD_some]
    rw [h, seppa_inj (div_ne_zero hsep hk), show pa - θ - pa = -θ by ring]
    unfold Turns
    rw [show -θ * π / 180 = -(θ * π / 180) by ring, Real.cos_neg]

/-! ## Non-vacuity -/

/-- The field of `Astrom.exStars`, with the detector at 32 degrees and a roll of 13 degrees. -/
def exField : Field :=
  { roll := 13, target := (10, 20), dist := exDist, sep := fun s t => polarDist (exDist s, s.pa) (exDist t, t.pa)
    off := fun s t => (t.fit.1 - s.fit.1, t.fit.2 - s.fit.2), rand := List.replicate 200 0, stars := exStars }

theorem exField_good : Good 20 32 201 201 0.9 exField := by
  have hu : used 201 201 0.9 exStars = exStars := by
    unfold used
    rw [List.filter_eq_self]
    intro s hs
    simp only [exStars, List.mem_cons, List.not_mem_nil, or_false] at hs
    rcases hs with rfl | rfl | rfl <;> norm_num
  have hc : ∀ x y z w : ℝ, polarDist (x, y) (z, w) = sqrt (x ^ 2 + z ^ 2 - 2 * x * z * cos ((y - w) * π / 180)) := fun _ _ _ _ => rfl
  refine ⟨⟨?_, fun _ _ _ _ => rfl, fun _ _ _ _ => rfl⟩, ⟨by norm_num [exField], by norm_num [exField]⟩, ?_, ?_, ?_, ?_⟩
  · intro s hs
    simp only [exField, exStars, List.mem_cons, List.not_mem_nil, or_false] at hs
    rcases hs with rfl | rfl | rfl <;> norm_num [exDist, exField, refPoint]
  · simp only [exField]
    rw [hu]
    simp [exStars]
  · simp only [exField]
    rw [hu]
    have h90 : cos ((0 - 90) * π / 180) = 0 := by
      rw [show ((0 : ℝ) - 90) * π / 180 = -(π / 2) by ring, Real.cos_neg, Real.cos_pi_div_two]
    simp only [exStars, List.pairwise_cons, List.mem_cons, List.not_mem_nil, or_false, List.Pairwise.nil, and_true,
      forall_eq_or_imp, forall_eq, hc, exDist]
    norm_num
    rw [show (-(90 * π) / 180 : ℝ) = (0 - 90) * π / 180 by ring, h90]
    norm_num
  · simp only [exField]
    rw [hu]
    intro s hs
    simp [exStars] at hs
    rcases hs with rfl | rfl <;> norm_num [exDist]
  · simp only [exField]
    rw [hu]
    exact ⟨List.length_replicate, fun i hi => by rw [List.eq_of_mem_replicate hi]; simp [exStars, pairsOf]⟩

/-- With this calibration every object is found 13 degrees off. -/
example (p : Pointing) (star : ℝ × ℝ) : ∃ l a o, [exField].mapM (Field.result 201 201 0.9) = some l ∧ average l 0 0 = some a ∧
    toNorth 100 100 a p star true .starloc = .ok o ∧ ∀ sep pa, o.data (shown 20 32 p.roll star sep pa) =
      seppa2xy (sep / 20) (pa + 13) star.1 star.2 := by
  have := C158_end_to_end (k := 20) (θ := 32) (by norm_num) (fields := [exField]) (by simp)
    (by simpa using exField_good) 0 0 100 100 p star
  simpa [exField] using this

example : Turns 360 ∧ ¬ Turns 90 := by
  constructor
  · unfold Turns
    rw [show (360 : ℝ) * π / 180 = 2 * π by ring, Real.cos_two_pi]
  · unfold Turns
    rw [show (90 : ℝ) * π / 180 = π / 2 by ring, Real.cos_pi_div_two]
    norm_num

end Corgi.SkyToImage

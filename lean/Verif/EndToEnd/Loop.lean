import Verif.EndToEnd.Offset

/-!
# From raw darks and raw science frames to the scene: C188

The recipe `l1_to_l2a_noisemap.json` on raw frames without light: `prescan_biassub` with `return_full_frame` and no noise maps (l1_to_l2a.py
6-157), `correct_nonlinearity` (288-331), `convert_to_electrons` (l2a_to_l2b.py 256-286) and `calibrate_darks_lsq` (darks.py 440-753), made of the
models of the single steps. Its product is then used by the science recipe of `Verif/EndToEnd/L2b.lean`: the maps by `dark_subtraction`,
the card `B_O` by `prescan_biassub`.

Not modelled: how `split_dataset` forms the sub-stacks (C15), the errors and flags of the maps, which are any, and the read noise estimate (C48).
The flags of the dark frames after `detect_cosmic_rays` are any. Frames have no NaN. The telemetry row is the last (data.py 1107-1108).
-/

noncomputable section

namespace Corgi.Loop

open Corgi.Det Corgi.Arith Corgi.EndToEnd

/-! ## Model -/

/-- A dark frame, and where it is flagged when the noise maps are made. -/
structure Unlit where
  raw : Raw
  bad : ℕ → ℕ → Bool

/-- The steps before `calibrate_darks` for one frame. -/
def mapFrame (tab : NonLin.Table ℝ) (k : ℝ) (x : Raw) : Except EndToEnd.Err (Img ℝ) :=
  match prescanBiasSub detectorAreas detectorAreas 0 0 .full x.l1 with
  | .error _ => .error .bias
  | .ok o =>
    match NonLin.correctFrame (some tab) none ⟨hdr x.fr, ravel o.data, ravel o.dq⟩ with
    | .error _ => .error .nonlin
    | .ok f => .ok ⟨o.data.nr, o.data.nc, fun r c => unravel o.data.nc f.data [r, c] * k⟩

/-- darks.py 473-483: gain, exposure time and k-gain of the first frame of a sub-stack; the last is that of `convert_to_electrons`. -/
def setting (k : ℝ) (st : List Unlit) : Darks.Setting :=
  match st with
  | [] => ⟨0, 0, 0⟩
  | x :: _ => ⟨emGain x.raw.fr, x.raw.fr.exptime, k⟩

/-- darks.py 500: mean of a pixel of a sub-stack. -/
def stackMean (ims : List (Img ℝ × (ℕ → ℕ → Bool))) (r c : ℕ) : Option ℝ :=
  Darks.combIm false (ims.map fun q => (some (q.1.px r c), if q.2 r c then 1 else 0))

/-- The means of all sub-stacks at a pixel. -/
def means (L : List Darks.Setting) (imgs : List (List (Img ℝ × (ℕ → ℕ → Bool)))) (r c : ℕ) (i : Fin L.length) : ℝ :=
  ((imgs[(i : ℕ)]?).bind fun ims => stackMean ims r c).getD 0

/-- A map of the image area (darks.py 841-845), from the maps of the pixels. -/
def area (pick : Darks.Maps → Option ℝ) (L : List Darks.Setting) (y : ℕ → ℕ → Fin L.length → ℝ) : Ix → ℝ
  | [r, c] =>
    match Darks.noiseMaps L false true (y (13 + r) (1088 + c)) with
    | .ok m => (pick m).getD 0
    | .error _ => 0
  | _ => 0

/-- The recipe: the noise maps in the image area and `B_O`. Whether the fit works does not depend on the pixel, so one pixel is tried. -/
def calibrate (tab : NonLin.Table ℝ) (k : ℝ) (rest : Maps) (sts : List (List Unlit)) : Except Unit (Maps × Option ℝ) :=
  match sts.mapM fun st => st.mapM fun x => (mapFrame tab k x.raw).map fun im => (im, x.bad) with
  | .error _ => .error ()
  | .ok imgs =>
    if sts.any fun st => decide (some st.length ≠ sts.head?.map List.length) then .error ()
    else
      let L := sts.map (setting k)
      let y := means L imgs
      match Darks.noiseMaps L false true (y 0 0),
        Offset.biasOffset L ((Darks.positions 1200 1088).map fun p => if p.1 = 1199 then none else some (y p.1 p.2)) with
      | .ok _, .ok b => .ok ({ rest with shape := [1024, 1024], F := area (·.F) L y, C := area (·.C) L y, D := area (·.D) L y }, b)
      | _, _ => .error ()

/-! ## Specification -/

/-- Noise of the prescan, as in the image: fixed pattern, clock-induced charge and dark current of every pixel. -/
structure Pre where
  F : ℕ → ℕ → ℝ
  C : ℕ → ℕ → ℝ
  D : ℕ → ℕ → ℝ

/-- `x` is a raw frame without light: as `Exposes`, with the gain and the exposure time of its own headers, and with noise in the prescan. -/
structure Dark (d : Detector) (tab : NonLin.Table ℝ) (off : ℝ) (P : Pre) (x : Raw) : Prop where
  mode : x.l1.arrtype = some "SCI"
  size : x.l1.data.nr = 1200 ∧ x.l1.data.nc = 2200
  sizeDq : x.l1.dq.nr = 1200 ∧ x.l1.dq.nc = 2200
  sizeErr : ∀ e ∈ x.l1.err, e.nr = 1200 ∧ e.nc = 2200
  pixels : ∃ b : ℕ → ℝ, (∀ r c, 800 ≤ c → c < 1000 → x.l1.data.px r c = some (b r + off)) ∧
    (∀ r c, r < 1199 → c < 1088 → ∃ v, x.l1.data.px r c = some (v + b r + off) ∧
      v * NonLin.relgain tab (emGain x.fr) v * d.kgain = P.F r c + emGain x.fr * P.C r c + emGain x.fr * x.fr.exptime * P.D r c) ∧
    ∀ r c, r < 1024 → c < 1024 → ∃ v, x.l1.data.px (13 + r) (1088 + c) = some (v + b (13 + r)) ∧
      v * NonLin.relgain tab (emGain x.fr) v =
        ({ d with gain := emGain x.fr, exptime := x.fr.exptime } : Detector).counts (fun _ _ => 0) r c

/-- A sub-stack of darks: frames of one gain and one exposure time, of which some frame is not flagged at each pixel. -/
structure Stack (d : Detector) (tab : NonLin.Table ℝ) (off : ℝ) (P : Pre) (st : List Unlit) : Prop where
  darks : ∀ x ∈ st, Dark d tab off P x.raw
  same : ∀ x ∈ st, ∀ y ∈ st, emGain x.raw.fr = emGain y.raw.fr ∧ x.raw.fr.exptime = y.raw.fr.exptime
  clear : ∀ r c, ∃ x ∈ st, x.bad r c = false

/-! ## One frame -/

theorem mapFrame_ok {d : Detector} {tab : NonLin.Table ℝ} (ht : NonLin.Good tab) {P : Pre} {x : Raw} (h : Dark d tab 0 P x) :
    ∃ im, mapFrame tab d.kgain x = .ok im ∧
      (∀ r c, r < 1199 → c < 1088 → im.px r c = P.F r c + emGain x.fr * P.C r c + emGain x.fr * x.fr.exptime * P.D r c) ∧
      ∀ r c, r < 1024 → c < 1024 → im.px (13 + r) (1088 + c) =
        ({ d with gain := emGain x.fr, exptime := x.fr.exptime } : Detector).counts (fun _ _ => 0) r c * d.kgain := by
  have H : Ready detectorAreas x.l1 "SCI" geomSci sciPrescan 800 1000 :=
    { mode := h.mode, known := by decide, geom := by decide +kernel, size := h.size, sizeDq := h.sizeDq, sizeErr := h.sizeErr,
      prescan := by decide +kernel, inside := by decide, start := rfl, stop := rfl }
  obtain ⟨o, ho, hb⟩ := C26_full (glob := detectorAreas) 0 0 H (by decide) (by decide) ⟨rfl, rfl⟩
  have hn := NonLin.C32_step tab ht none ⟨hdr x.fr, ravel o.data, ravel o.dq⟩ _ (hdr_gain x.fr)
  have s1 : o.data.nr = 1200 := hb.shape.1
  have s2 : o.data.nc = 2200 := hb.shape.2.1
  obtain ⟨b, h1, h2, h3⟩ := h.pixels
  unfold mapFrame
  rw [ho]
  dsimp only
  rw [hn]
  refine ⟨_, rfl, fun r c hr hc => ?_, fun r c hr hc => ?_⟩
  · dsimp only
    obtain ⟨v, hv, he⟩ := h2 r c hr hc
    rw [unravel_map (by rw [s1]; omega) (by rw [s2]; omega),
      hb.data r c (show r < 1200 by omega) (show c < 2200 by omega), Nat.zero_add, Nat.zero_add, rowBias_const (h1 r), hv, ← he]
    simp [Det.sub]
  · dsimp only
    obtain ⟨v, hv, he⟩ := h3 r c hr hc
    rw [unravel_map (by rw [s1]; omega) (by rw [s2]; omega),
      hb.data (13 + r) (1088 + c) (show 13 + r < 1200 by omega) (show 1088 + c < 2200 by omega), Nat.zero_add, Nat.zero_add,
      rowBias_const (h1 (13 + r)), hv, ← he]
    simp [Det.sub]

/-! ## One sub-stack -/

theorem stackMean_const {ims : List (Img ℝ × (ℕ → ℕ → Bool))} {r c : ℕ} {V : ℝ} (hV : ∀ q ∈ ims, q.1.px r c = V)
    (hc : ∃ q ∈ ims, q.2 r c = false) : stackMean ims r c = some V := by
  have hg : Darks.good (ims.map fun q => (some (q.1.px r c), if q.2 r c then 1 else 0)) =
      (List.replicate (Darks.good (ims.map fun q => (some (q.1.px r c), if q.2 r c then 1 else 0))).length V).map some := by
    rw [List.map_replicate]
    refine List.eq_replicate_iff.2 ⟨rfl, fun v hv => ?_⟩
    unfold Darks.good at hv
    obtain ⟨w, hw, rfl⟩ := List.mem_map.1 hv
    obtain ⟨q, hq, rfl⟩ := List.mem_map.1 (List.mem_filter.1 hw).1
    dsimp only
    rw [hV q hq]
  obtain ⟨q, hq, hqc⟩ := hc
  have hmem : some V ∈ Darks.good (ims.map fun q => (some (q.1.px r c), if q.2 r c then 1 else 0)) := by
    unfold Darks.good
    refine List.mem_map.2 ⟨(some (q.1.px r c), 0), List.mem_filter.2 ⟨List.mem_map.2 ⟨q, hq, by simp [hqc]⟩, by simp⟩, ?_⟩
    dsimp only
    rw [hV q hq]
  have hne : (Darks.good (ims.map fun q => (some (q.1.px r c), if q.2 r c then 1 else 0))).length ≠ 0 := by
    intro h0
    rw [List.length_eq_zero_iff] at h0
    rw [h0] at hmem
    cases hmem
  unfold stackMean
  rw [(Darks.C34_mean _ _ hg).1 (by
    intro h0
    exact hne (by simpa using congrArg List.length h0))]
  unfold Nan.mean
  rw [List.sum_replicate, List.length_replicate, nsmul_eq_mul]
  rw [mul_div_cancel_left₀ _ (Nat.cast_ne_zero.2 hne)]

theorem setting_of {d : Detector} {tab : NonLin.Table ℝ} {off : ℝ} {P : Pre} {st : List Unlit} (h : Stack d tab off P st) (k : ℝ) :
    ∀ x ∈ st, setting k st = ⟨emGain x.raw.fr, x.raw.fr.exptime, k⟩ := by
  intro x hx
  cases st with
  | nil => cases hx
  | cons y ys =>
    obtain ⟨e1, e2⟩ := h.same y List.mem_cons_self x hx
    simp only [setting, e1, e2]

theorem stack_ok {d : Detector} (hk : d.kgain ≠ 0) {tab : NonLin.Table ℝ} (ht : NonLin.Good tab) {P : Pre} {st : List Unlit}
    (h : Stack d tab 0 P st) :
    ∃ ims, (st.mapM fun x => (mapFrame tab d.kgain x.raw).map fun im => (im, x.bad)) = .ok ims ∧
      (∀ r c, r < 1199 → c < 1088 → stackMean ims r c =
        some (P.F r c + (setting d.kgain st).g * P.C r c + (setting d.kgain st).g * (setting d.kgain st).t * P.D r c)) ∧
      ∀ r c, r < 1024 → c < 1024 → stackMean ims (13 + r) (1088 + c) =
        some (d.fpn r c + (setting d.kgain st).g * d.cic r c + (setting d.kgain st).g * (setting d.kgain st).t * d.dark r c) := by
  obtain ⟨ims, hims⟩ : ∃ ims, (st.mapM fun x => (mapFrame tab d.kgain x.raw).map fun im => (im, x.bad)) = .ok ims := mapM_ok_exists.2 fun x hx => by
    obtain ⟨im, him, -⟩ := mapFrame_ok ht (h.darks x hx)
    rw [him]
    exact ⟨_, rfl⟩
  have hF := mapM_ok_iff.1 hims
  have hq : ∀ q ∈ ims, ∃ x ∈ st, mapFrame tab d.kgain x.raw = .ok q.1 ∧ q.2 = x.bad := by
    intro q hq
    obtain ⟨x, hx, he⟩ := forall₂_right hF hq
    refine ⟨x, hx, ?_⟩
    cases hm : mapFrame tab d.kgain x.raw with
    | error e => rw [hm] at he; cases he
    | ok im =>
      rw [hm] at he
      cases he
      exact ⟨rfl, rfl⟩
  have hclear : ∀ r c, ∃ q ∈ ims, q.2 r c = false := by
    intro r c
    obtain ⟨x, hx, hb⟩ := h.clear r c
    obtain ⟨q, hq1, he⟩ := forall₂_left hF hx
    refine ⟨q, hq1, ?_⟩
    cases hm : mapFrame tab d.kgain x.raw with
    | error e => rw [hm] at he; cases he
    | ok im =>
      rw [hm] at he
      cases he
      exact hb
  refine ⟨ims, hims, fun r c hr hc => stackMean_const (fun q hqm => ?_) (hclear r c), fun r c hr hc => stackMean_const (fun q hqm => ?_) (hclear _ _)⟩
  · obtain ⟨x, hx, hm, -⟩ := hq q hqm
    obtain ⟨im, him, h1, -⟩ := mapFrame_ok ht (h.darks x hx)
    rw [hm] at him
    cases him
    rw [h1 r c hr hc, setting_of h d.kgain x hx]
  · obtain ⟨x, hx, hm, -⟩ := hq q hqm
    obtain ⟨im, him, -, h2⟩ := mapFrame_ok ht (h.darks x hx)
    rw [hm] at him
    cases him
    rw [h2 r c hr hc, setting_of h d.kgain x hx]
    unfold Detector.counts Detector.charge
    simp only [mul_zero, List.map_const', List.sum_replicate, smul_zero, zero_add]
    field_simp
    ring

/-! ## The noise maps -/

/-- **C188** The noise map recipe on raw darks gives the noise of the detector, and a bias offset of zero. -/
theorem C188_maps {d : Detector} (hk : d.kgain ≠ 0) (hpos : (∀ r c, 0 ≤ d.cic r c) ∧ ∀ r c, 0 ≤ d.dark r c) {tab : NonLin.Table ℝ}
    (ht : NonLin.Good tab) {P : Pre} (rest : Maps) {sts : List (List Unlit)} (hst : ∀ st ∈ sts, Stack d tab 0 P st)
    (hsize : ∀ st ∈ sts, ∀ st' ∈ sts, st.length = st'.length) (hcheck : Darks.checkStacks (sts.map (setting d.kgain)) = .ok ())
    (hid : Darks.Identifiable (sts.map (setting d.kgain))) :
    ∃ m, calibrate tab d.kgain rest sts = .ok (m, some 0) ∧ m.shape = [1024, 1024] ∧
      (∀ r c, r < 1024 → c < 1024 → m.F [r, c] = d.fpn r c ∧ m.C [r, c] = d.cic r c ∧ m.D [r, c] = d.dark r c) ∧
      (∀ p, 0 ≤ m.C p) ∧ ∀ p, 0 ≤ m.D p := by
  obtain ⟨imgs, himgs⟩ : ∃ imgs, (sts.mapM fun st => st.mapM fun x => (mapFrame tab d.kgain x.raw).map fun im => (im, x.bad)) = .ok imgs :=
    mapM_ok_exists.2 fun st h => by
      obtain ⟨ims, h1, -⟩ := stack_ok hk ht (hst st h)
      exact ⟨ims, h1⟩
  have hF := mapM_ok_iff.1 himgs
  have hlen := hF.length_eq
  rw [List.forall₂_iff_get] at hF
  have hat : ∀ i : Fin (sts.map (setting d.kgain)).length, ∃ h1 : (i : ℕ) < sts.length, ∃ h2 : (i : ℕ) < imgs.length,
      (sts[(i : ℕ)].mapM fun x => (mapFrame tab d.kgain x.raw).map fun im => (im, x.bad)) = .ok imgs[(i : ℕ)] ∧
      (sts.map (setting d.kgain)).get i = setting d.kgain sts[(i : ℕ)] := by
    intro i
    have h1 : (i : ℕ) < sts.length := by simpa using i.2
    refine ⟨h1, by omega, hF.2 i h1 (by omega), by simp⟩
  have hpre : ∀ r c, r < 1199 → c < 1088 →
      means (sts.map (setting d.kgain)) imgs r c = Offset.model (sts.map (setting d.kgain)) (P.F r c) (P.C r c) (P.D r c) := by
    intro r c hr hc
    funext i
    obtain ⟨h1, h2, he, hs⟩ := hat i
    obtain ⟨ims, e1, e2, -⟩ := stack_ok hk ht (hst _ (List.getElem_mem h1))
    rw [he] at e1
    cases e1
    unfold means Offset.model
    rw [List.getElem?_eq_getElem h2, hs]
    simp only [Option.bind_some]
    rw [e2 r c hr hc]
    rfl
  have him : ∀ r c, r < 1024 → c < 1024 → ∀ i, means (sts.map (setting d.kgain)) imgs (13 + r) (1088 + c) i =
      d.fpn r c + ((sts.map (setting d.kgain)).get i).g * d.cic r c +
        ((sts.map (setting d.kgain)).get i).g * ((sts.map (setting d.kgain)).get i).t * d.dark r c := by
    intro r c hr hc i
    obtain ⟨h1, h2, he, hs⟩ := hat i
    obtain ⟨ims, e1, -, e2⟩ := stack_ok hk ht (hst _ (List.getElem_mem h1))
    rw [he] at e1
    cases e1
    unfold means
    rw [List.getElem?_eq_getElem h2, hs]
    simp only [Option.bind_some]
    rw [e2 r c hr hc]
    rfl
  have hmaps : ∀ y, ∃ p : Fin 3 → ℝ, Darks.noiseMaps (sts.map (setting d.kgain)) false true y = .ok ⟨some (p 0), some (max (p 1) 0), some (max (p 2) 0)⟩ := by
    intro y
    obtain ⟨p, hp⟩ := (Darks.fit_ok_iff _ y).2 hid
    refine ⟨p, ?_⟩
    unfold Darks.noiseMaps
    rw [hcheck, hp]
    rfl
  have hoff : Offset.biasOffset (sts.map (setting d.kgain)) ((Darks.positions 1200 1088).map fun p =>
      if p.1 = 1199 then none else some (means (sts.map (setting d.kgain)) imgs p.1 p.2)) = .ok (some 0) := by
    refine Offset.C183_zero hid (fun y hy => ?_) ⟨_, List.mem_map.2 ⟨(0, 0), Darks.mem_positions.2 ⟨by norm_num, by norm_num⟩, rfl⟩, by simp⟩
    obtain ⟨p, hp, rfl⟩ := List.mem_map.1 hy
    obtain ⟨p1, p2⟩ := Darks.mem_positions.1 hp
    by_cases h : p.1 = 1199
    · left
      rw [if_pos h]
    · right
      refine ⟨P.F p.1 p.2, P.C p.1 p.2, P.D p.1 p.2, ?_⟩
      rw [if_neg h, hpre p.1 p.2 (by omega) p2]
  unfold calibrate
  rw [himgs]
  dsimp only
  rw [if_neg (by
    simp only [List.any_eq_true, decide_eq_true_eq, not_exists, not_and, not_not]
    intro st hs
    cases sts with
    | nil => cases hs
    | cons s ss => simp only [List.head?_cons, Option.map_some, Option.some.injEq]; exact hsize st hs s List.mem_cons_self)]
  obtain ⟨p0, hp0⟩ := hmaps (means (sts.map (setting d.kgain)) imgs 0 0)
  rw [hp0, hoff]
  refine ⟨_, rfl, rfl, fun r c hr hc => ?_, fun p => ?_, fun p => ?_⟩
  · have := (Darks.C33_roundtrip hcheck hid true _ _ _ _ (hpos.1 r c) (hpos.2 r c) (by simp) (him r c hr hc)).1
    simp only [area, this, Option.getD_some, and_self]
  all_goals
    dsimp only
    unfold area
    split
    · split
      · rename_i m hm
        obtain ⟨p, hp⟩ := hmaps (means (sts.map (setting d.kgain)) imgs (13 + _) (1088 + _))
        rw [hm] at hp
        cases hp
        exact le_max_right _ _
      · exact le_refl _
    · exact le_refl _

/-! ## The loop -/

/-- **C188** Noise maps made of raw darks and used, with their bias offset, on raw science frames of any gain and exposure time return the scene. -/
theorem C188_loop {d : Detector} (hs : Sound d) (hpos : (∀ r c, 0 ≤ d.cic r c) ∧ ∀ r c, 0 ≤ d.dark r c) {tab : NonLin.Table ℝ} (ht : NonLin.Good tab)
    {P : Pre} (rest : Maps) {sts : List (List Unlit)} (hst : ∀ st ∈ sts, Stack d tab 0 P st)
    (hsize : ∀ st ∈ sts, ∀ st' ∈ sts, st.length = st'.length) (hcheck : Darks.checkStacks (sts.map (setting d.kgain)) = .ok ())
    (hid : Darks.Identifiable (sts.map (setting d.kgain)))
    (track : Bool) (junk : Ix → ℝ) (offErr ek : ℝ) {F : Flat} (hF : F.shape = [1024, 1024])
    (hflat : ∀ r c, r < 1024 → c < 1024 → F.data [r, c] = d.flat r c) {ss : List (ℕ → ℕ → ℝ)} {xs : List Raw} (hne : xs ≠ [])
    (hh : ∀ x ∈ xs, Header d x.fr) (hem : ∀ x ∈ xs, ∀ y ∈ xs, x.fr.emC = y.fr.emC)
    (hx : List.Forall₂ (fun s (x : Raw) => Exposes d tab 0 s x.l1) ss xs) :
    ∃ m b out, calibrate tab d.kgain rest sts = .ok (m, some b) ∧
      recipe track junk tab b offErr d.kgain ek d.rowread m F xs = .ok out ∧
      List.Forall₂ (fun s (g : Fr) => ∀ r c, r < 1024 → c < 1024 → d.flat r c ≠ 0 → g.data [r, c] = s r c) ss out := by
  obtain ⟨m, h1, h2, h3, h4, h5⟩ := C188_maps hs.kgain hpos ht rest hst hsize hcheck hid
  obtain ⟨out, ho, hout⟩ := C144_scene hs ht track junk offErr ek (off := 0) (k := d.kgain) (rowread := d.rowread) (m := m) (F := F)
    ⟨rfl, rfl, ⟨h2, hF⟩, fun r c hr hc => (h3 r c hr hc).1, fun r c hr hc => (h3 r c hr hc).2.1, fun r c hr hc => (h3 r c hr hc).2.2,
      hflat, h4, h5⟩ hne hh hem hx
  exact ⟨m, 0, out, h1, ho, hout⟩

/-- The detector of which the offset of the prescan is part of the fixed pattern. -/
def absorbed (d : Detector) (off : ℝ) : Detector := { d with fpn := fun r c => d.fpn r c - d.kgain * off }

theorem absorbed_counts {d : Detector} (hk : d.kgain ≠ 0) (off : ℝ) (s : ℕ → ℕ → ℝ) (r c : ℕ) :
    (absorbed d off).counts s r c = d.counts s r c - off := by
  unfold Detector.counts Detector.charge absorbed
  field_simp
  ring

theorem absorb_exposes {d : Detector} (hk : d.kgain ≠ 0) {tab : NonLin.Table ℝ} (hl : ∀ g v, NonLin.relgain tab g v = 1) {off : ℝ}
    {s : ℕ → ℕ → ℝ} {x : L1} (h : Exposes d tab off s x) : Exposes (absorbed d off) tab 0 s x := by
  obtain ⟨b, h1, h2⟩ := h.pixels
  refine ⟨h.mode, h.size, h.sizeDq, h.sizeErr, fun r => b r + off, fun r c h3 h4 => by rw [h1 r c h3 h4, add_zero], fun r c hr hc => ?_⟩
  obtain ⟨v, hv, he⟩ := h2 r c hr hc
  refine ⟨v - off, by rw [hv]; congr 1; ring, ?_⟩
  rw [absorbed_counts hk, ← he, hl, hl]
  ring

theorem absorb_dark {d : Detector} (hk : d.kgain ≠ 0) {tab : NonLin.Table ℝ} (hl : ∀ g v, NonLin.relgain tab g v = 1) {off : ℝ} {P : Pre} {x : Raw}
    (h : Dark d tab off P x) : Dark (absorbed d off) tab 0 P x := by
  obtain ⟨b, h1, h2, h3⟩ := h.pixels
  refine ⟨h.mode, h.size, h.sizeDq, h.sizeErr, fun r => b r + off, fun r c h4 h5 => by rw [h1 r c h4 h5, add_zero], fun r c hr hc => ?_,
    fun r c hr hc => ?_⟩
  · obtain ⟨v, hv, he⟩ := h2 r c hr hc
    exact ⟨v, by rw [hv]; congr 1; ring, he⟩
  · obtain ⟨v, hv, he⟩ := h3 r c hr hc
    refine ⟨v - off, by rw [hv]; congr 1; ring, ?_⟩
    have : ({ absorbed d off with gain := emGain x.fr, exptime := x.fr.exptime } : Detector) =
        absorbed { d with gain := emGain x.fr, exptime := x.fr.exptime } off := rfl
    rw [this, absorbed_counts (d := { d with gain := emGain x.fr, exptime := x.fr.exptime }) hk, ← he, hl, hl]
    ring

/-- **C188** With a linear response the loop returns the scene whatever the offset between prescan and image is, although no step is told the
offset: it goes to the map of the fixed pattern. -/
theorem C188_any_offset {d : Detector} (hs : Sound d) (hpos : (∀ r c, 0 ≤ d.cic r c) ∧ ∀ r c, 0 ≤ d.dark r c) {tab : NonLin.Table ℝ}
    (ht : NonLin.Good tab) (hl : ∀ g v, NonLin.relgain tab g v = 1) {off : ℝ}
    {P : Pre} (rest : Maps) {sts : List (List Unlit)} (hst : ∀ st ∈ sts, Stack d tab off P st)
    (hsize : ∀ st ∈ sts, ∀ st' ∈ sts, st.length = st'.length) (hcheck : Darks.checkStacks (sts.map (setting d.kgain)) = .ok ())
    (hid : Darks.Identifiable (sts.map (setting d.kgain)))
    (track : Bool) (junk : Ix → ℝ) (offErr ek : ℝ) {F : Flat} (hF : F.shape = [1024, 1024])
    (hflat : ∀ r c, r < 1024 → c < 1024 → F.data [r, c] = d.flat r c) {ss : List (ℕ → ℕ → ℝ)} {xs : List Raw} (hne : xs ≠ [])
    (hh : ∀ x ∈ xs, Header d x.fr) (hem : ∀ x ∈ xs, ∀ y ∈ xs, x.fr.emC = y.fr.emC)
    (hx : List.Forall₂ (fun s (x : Raw) => Exposes d tab off s x.l1) ss xs) :
    ∃ m out, calibrate tab d.kgain rest sts = .ok (m, some 0) ∧
      (∀ r c, r < 1024 → c < 1024 → m.F [r, c] = d.fpn r c - d.kgain * off) ∧
      recipe track junk tab 0 offErr d.kgain ek d.rowread m F xs = .ok out ∧
      List.Forall₂ (fun s (g : Fr) => ∀ r c, r < 1024 → c < 1024 → d.flat r c ≠ 0 → g.data [r, c] = s r c) ss out := by
  have hs' : Sound (absorbed d off) := ⟨hs.kgain, hs.gain, hs.time⟩
  have hst' : ∀ st ∈ sts, Stack (absorbed d off) tab 0 P st := fun st h =>
    ⟨fun x hx => absorb_dark hs.kgain hl ((hst st h).darks x hx), (hst st h).same, (hst st h).clear⟩
  obtain ⟨m, h1, h2, h3, h4, h5⟩ := C188_maps (d := absorbed d off) hs.kgain hpos ht rest hst' hsize hcheck hid
  obtain ⟨out, ho, hout⟩ := C144_scene hs' ht track junk offErr ek (off := 0) (k := d.kgain) (rowread := d.rowread) (m := m) (F := F)
    ⟨rfl, rfl, ⟨h2, hF⟩, fun r c hr hc => (h3 r c hr hc).1, fun r c hr hc => (h3 r c hr hc).2.1, fun r c hr hc => (h3 r c hr hc).2.2,
      hflat, h4, h5⟩ hne (fun x hx => ⟨(hh x hx).gain, (hh x hx).exptime, (hh x hx).shape, (hh x hx).layers⟩) hem
      (hx.imp fun s x h => absorb_exposes hs.kgain hl h)
  exact ⟨m, out, h1, fun r c hr hc => (h3 r c hr hc).1, ho, hout⟩

/-! ## Non-vacuity -/

/-- Headers of a frame. -/
def card (k g t : ℝ) : Fr := ⟨fun _ => 0, ⟨[1024, 1024], [fun _ => 0], fun _ => none, []⟩, fun _ => 0, t, g, g, none, k, "DN"⟩

theorem card_gain (k g t : ℝ) : emGain (card k g t) = g := by
  unfold emGain card
  split <;> simp_all

/-- Gains and exposure times of four sub-stacks. -/
def four : List (ℝ × ℝ) := [(1, 1), (1, 2), (2, 1), (2, 2)]

/-- Sub-stacks of one frame each. -/
def stackOf (k : ℝ) (l1 : ℝ → ℝ → L1) : List (List Unlit) := four.map fun q => [⟨⟨l1 q.1 q.2, card k q.1 q.2⟩, fun _ _ => false⟩]

theorem stackOf_ok {d : Detector} (hk : 0 < d.kgain) {tab : NonLin.Table ℝ} {off : ℝ} {P : Pre} {l1 : ℝ → ℝ → L1}
    (h : ∀ g t, Dark d tab off P ⟨l1 g t, card d.kgain g t⟩) :
    (∀ st ∈ stackOf d.kgain l1, Stack d tab off P st) ∧ (∀ st ∈ stackOf d.kgain l1, ∀ st' ∈ stackOf d.kgain l1, st.length = st'.length) ∧
    Darks.checkStacks ((stackOf d.kgain l1).map (setting d.kgain)) = .ok () ∧ Darks.Identifiable ((stackOf d.kgain l1).map (setting d.kgain)) := by
  have hset : (stackOf d.kgain l1).map (setting d.kgain) = [⟨1, 1, d.kgain⟩, ⟨1, 2, d.kgain⟩, ⟨2, 1, d.kgain⟩, ⟨2, 2, d.kgain⟩] := by
    simp only [stackOf, four, List.map_cons, List.map_nil, setting, card_gain]
    rfl
  refine ⟨fun st hst => ?_, fun st hst st' hst' => ?_, ?_, ?_⟩
  · obtain ⟨q, -, rfl⟩ := List.mem_map.1 hst
    refine ⟨fun x hx => ?_, by simp, fun r c => ⟨_, List.mem_singleton_self _, rfl⟩⟩
    rw [List.mem_singleton] at hx
    subst hx
    exact h q.1 q.2
  · obtain ⟨q, -, rfl⟩ := List.mem_map.1 hst
    obtain ⟨q', -, rfl⟩ := List.mem_map.1 hst'
    rfl
  · rw [hset, Darks.C33_checks]
    refine ⟨by simp, ⟨_, List.mem_cons_self, ⟨2, 2, d.kgain⟩, by simp, by norm_num⟩, ⟨_, List.mem_cons_self, ⟨2, 2, d.kgain⟩, by simp, by norm_num⟩, ?_, ?_⟩
    · simp [hk]
    · simp
  · rw [hset]
    intro u v w h
    have h1 := h ⟨1, 1, d.kgain⟩ (by simp)
    have h2 := h ⟨1, 2, d.kgain⟩ (by simp)
    have h3 := h ⟨2, 1, d.kgain⟩ (by simp)
    dsimp only at h1 h2 h3
    refine ⟨by linarith, by linarith, by linarith⟩

/-- The darks of any detector with a linear response, any biases of the rows and any offset. -/
example (d : Detector) (b : ℕ → ℝ) (off g t : ℝ) :
    Dark d linear off ⟨fun _ _ => 0, fun _ _ => 0, fun _ _ => 0⟩
      ⟨expose { d with gain := g, exptime := t } b off (fun _ _ => 0), card d.kgain g t⟩ := by
  have h := C144_exposes { d with gain := g, exptime := t } b off (fun _ _ => 0)
  refine ⟨h.mode, h.size, h.sizeDq, h.sizeErr, b, fun r c _ h2 => ?_, fun r c _ hc => ⟨0, ?_, by simp⟩, fun r c _ _ =>
    ⟨_, ?_, by rw [linear_relgain, mul_one, card_gain]⟩⟩
  · show (if c < 1088 then _ else _) = _
    rw [if_pos (by omega)]
  · show (if c < 1088 then _ else _) = _
    rw [if_pos hc, zero_add]
  · show (if 1088 + c < 1088 then _ else _) = _
    rw [if_neg (by omega), Nat.add_sub_cancel_left, Nat.add_sub_cancel_left]
    rfl

/-! ## A response that is not linear -/

/-- A response whose correction grows with the signal. -/
def curved : NonLin.Table ℝ := ⟨[1, 2], [(0, [1, 1]), (1000, [2, 2])]⟩

theorem curved_good : NonLin.Good curved := by
  refine ⟨by simp [curved], by simp [curved, NonLin.Table.counts], by simp [curved], by simp [curved], ?_⟩
  intro j hj
  have hj' : j < 2 := hj
  interval_cases j <;> simp [curved, NonLin.Table.column]

theorem curved_relgain (g : ℝ) {v : ℝ} (h0 : 0 ≤ v) (h1 : v < 1000) : NonLin.relgain curved g v = 1 + v / 1000 := by
  have hc : curved.counts.zip (NonLin.curve curved g) = [(0, 1), (1000, 2)] := by
    rw [NonLin.curve_eq curved g curved_good.counts_inc]
    simp [curved, NonLin.interp]
  unfold NonLin.relgain
  rw [hc]
  simp only [NonLin.interp, if_pos h1]
  split
  · rw [show v = 0 by linarith]
    norm_num
  · rw [sub_zero, sub_zero]
    ring

/-- A detector without noise; and the one that the pipeline sees when the prescan is a count below the image. -/
def quiet (f : ℝ) : Detector := ⟨fun _ _ => 1, 0, 1, fun _ _ => 0, fun _ _ => 0, fun _ _ => f, 1, 1⟩

theorem quiet_counts (f g t s : ℝ) (r c : ℕ) :
    ({ quiet f with gain := g, exptime := t } : Detector).counts (fun _ _ => s) r c = g * s + f := by
  simp [Detector.counts, Detector.charge, quiet]

/-- A frame with `v` in the image and -1 in the prescan. -/
def flatL1 (v : ℝ) : L1 := ⟨some "SCI", ⟨1200, 2200, fun _ j => if j < 1088 then some (-1) else some v⟩, [], ⟨1200, 2200, fun _ _ => 0⟩⟩

theorem flat_pre (v : ℝ) {r c : ℕ} (h : c < 1088) : (flatL1 v).data.px r c = some (-1) := by
  simp only [flatL1]
  rw [if_pos h]

theorem flat_img (v : ℝ) {r c : ℕ} : (flatL1 v).data.px r (1088 + c) = some v := by
  simp only [flatL1]
  rw [if_neg (by omega)]

def none3 : Pre := ⟨fun _ _ => 0, fun _ _ => 0, fun _ _ => 0⟩

/-- **C188** With a response that is not linear the loop does not return the scene when the prescan has an offset: a uniform scene of 750 electrons
becomes 751. All hypotheses of `C188_any_offset` hold, except for the table. -/
theorem C188_violated_curved : ∃ (sts : List (List Unlit)) (x : Raw) (m : Maps) (out : List Fr), Sound (quiet 0) ∧ NonLin.Good curved ∧
    (∀ st ∈ sts, Stack (quiet 0) curved (-1) none3 st) ∧ (∀ st ∈ sts, ∀ st' ∈ sts, st.length = st'.length) ∧
    Darks.checkStacks (sts.map (setting 1)) = .ok () ∧ Darks.Identifiable (sts.map (setting 1)) ∧ Header (quiet 0) x.fr ∧
    Exposes (quiet 0) curved (-1) (fun _ _ => 750) x.l1 ∧
    calibrate curved 1 ⟨[], fun _ => 0, fun _ => 0, fun _ => 0, fun _ => 0, fun _ => 0, fun _ => 0, fun _ => 0, fun _ => 0, fun _ => 0⟩ sts = .ok (m, some 0) ∧
    recipe false (fun _ => 0) curved 0 0 1 0 0 m ⟨[1024, 1024], fun _ => 1, fun _ => 0⟩ [x] = .ok out ∧
    out.length = 1 ∧ ∀ g ∈ out, ∀ r c, r < 1024 → c < 1024 → g.data [r, c] = 751 := by
  have hs : ∀ f, Sound (quiet f) := fun f => ⟨by norm_num [quiet], by norm_num [quiet], by norm_num [quiet]⟩
  have hdark : ∀ g t, Dark (quiet 0) curved (-1) none3 ⟨flatL1 0, card (quiet 0).kgain g t⟩ := fun g t =>
    ⟨rfl, ⟨rfl, rfl⟩, ⟨rfl, rfl⟩, by simp [flatL1], fun _ => 0, fun r c _ h => by rw [flat_pre 0 (by omega)]; norm_num,
      fun r c _ h => ⟨0, by rw [flat_pre 0 h]; norm_num, by simp [none3]⟩,
      fun r c _ _ => ⟨0, by rw [flat_img]; norm_num, by rw [quiet_counts]; norm_num⟩⟩
  have hdark' : ∀ g t, Dark (quiet (1001 / 1000)) curved 0 none3 ⟨flatL1 0, card (quiet 0).kgain g t⟩ := fun g t =>
    ⟨rfl, ⟨rfl, rfl⟩, ⟨rfl, rfl⟩, by simp [flatL1], fun _ => -1, fun r c _ h => by rw [flat_pre 0 (by omega)]; norm_num,
      fun r c _ h => ⟨0, by rw [flat_pre 0 h]; norm_num, by simp [none3]⟩,
      fun r c _ _ => ⟨1, by rw [flat_img]; norm_num, by rw [quiet_counts, curved_relgain _ (by norm_num) (by norm_num)]; norm_num⟩⟩
  obtain ⟨h1, h2, h3, h4⟩ := stackOf_ok (d := quiet 0) (by norm_num [quiet]) hdark
  obtain ⟨h1', -, -, -⟩ := stackOf_ok (d := quiet (1001 / 1000)) (by norm_num [quiet]) hdark'
  have hx : Exposes (quiet 0) curved (-1) (fun _ _ => 750) (flatL1 500) :=
    ⟨rfl, ⟨rfl, rfl⟩, ⟨rfl, rfl⟩, by simp [flatL1], fun _ => 0, fun r c _ h => by rw [flat_pre _ (by omega)]; norm_num,
      fun r c _ _ => ⟨500, by rw [flat_img]; norm_num, by
        rw [curved_relgain _ (by norm_num) (by norm_num)]
        have := quiet_counts 0 1 1 750 r c
        rw [show (quiet 0).counts (fun _ _ => 750) r c = 1 * 750 + 0 from this]
        norm_num⟩⟩
  have hx' : Exposes (quiet (1001 / 1000)) curved 0 (fun _ _ => 751) (flatL1 500) :=
    ⟨rfl, ⟨rfl, rfl⟩, ⟨rfl, rfl⟩, by simp [flatL1], fun _ => -1, fun r c _ h => by rw [flat_pre _ (by omega)]; norm_num,
      fun r c _ _ => ⟨501, by rw [flat_img]; norm_num, by
        rw [curved_relgain _ (by norm_num) (by norm_num)]
        have := quiet_counts (1001 / 1000) 1 1 751 r c
        rw [show (quiet (1001 / 1000)).counts (fun _ _ => 751) r c = 1 * 751 + 1001 / 1000 from this]
        norm_num⟩⟩
  have hh : ∀ f, Header (quiet f) (card 1 1 1) := fun f => ⟨card_gain 1 1 1, rfl, rfl, by simp [card]⟩
  obtain ⟨m, b, out, e1, e2, e3⟩ := C188_loop (hs (1001 / 1000)) ⟨fun _ _ => le_refl _, fun _ _ => le_refl _⟩ curved_good
    ⟨[], fun _ => 0, fun _ => 0, fun _ => 0, fun _ => 0, fun _ => 0, fun _ => 0, fun _ => 0, fun _ => 0, fun _ => 0⟩ h1' h2 h3 h4
    false (fun _ => 0) 0 0 (F := ⟨[1024, 1024], fun _ => 1, fun _ => 0⟩) rfl (fun _ _ _ _ => rfl) (xs := [⟨flatL1 500, card 1 1 1⟩]) (by simp)
    (by simpa using hh _) (by simp) (.cons hx' .nil)
  obtain ⟨m', e1', -⟩ := C188_maps (d := quiet (1001 / 1000)) (by norm_num [quiet]) ⟨fun _ _ => le_refl _, fun _ _ => le_refl _⟩ curved_good
    ⟨[], fun _ => 0, fun _ => 0, fun _ => 0, fun _ => 0, fun _ => 0, fun _ => 0, fun _ => 0, fun _ => 0, fun _ => 0⟩ h1' h2 h3 h4
  rw [e1] at e1'
  cases e1'
  refine ⟨_, ⟨flatL1 500, card 1 1 1⟩, m, out, hs 0, curved_good, h1, h2, h3, h4, hh 0, hx, e1, e2, by simpa using e3.length_eq.symm, fun g hg r c hr hc => ?_⟩
  obtain ⟨s, hs', hv⟩ := forall₂_right e3 hg
  obtain rfl : s = fun _ _ => 751 := by simpa using hs'
  exact hv r c hr hc (by norm_num [quiet])

end Corgi.Loop

import Verif.Detector.Plateau
import Verif.EndToEnd.Digit

/-!
# Saturated pixels from L1 to L2b: C187

The detector of `Verif/EndToEnd/L2b.lean` with a linear response, whose pixels cannot hold more than `cap` counts. The recipe is
that of `C144`; the flags are those of `detect_cosmic_rays` (`Verif/Detector/Plateau.lean`) on the frames without bias.
-/

noncomputable section

namespace Corgi.Clip

open Corgi.Det Corgi.Arith Corgi.EndToEnd Corgi.Flagged Corgi.Cone Corgi.Digit

/-! ## Model: bias and cosmic rays -/

/-- The frame that `detect_cosmic_rays` gets from `prescan_biassub` (no NaN: the frames below have none). -/
def shot (x : Raw) (o : BiasSub) : Cr.Shot ℝ :=
  ⟨hdr x.fr, x.l1.arrtype.getD "", ⟨o.data.nr, o.data.nc, fun r c => (o.data.px r c).getD 0⟩, fun r c => x.fr.dq [r, c]⟩

/-- `prescan_biassub` (l1_to_l2a.py 6-157) and `detect_cosmic_rays` (160-286) on a dataset. -/
def biasAndRays (p : Cr.Par) (w : Cr.Wells ℝ) (off offErr : ℝ) (xs : List Raw) : Except Unit (List (Cr.Shot ℝ)) :=
  match xs.mapM (fun x => (prescanBiasSub detectorAreas detectorAreas off offErr .image x.l1).map (shot x)) with
  | .error _ => .error ()
  | .ok zs =>
    match Cr.detectCosmics detectorAreas false p w zs with
    | .error _ => .error ()
    | .ok out => .ok out

/-! ## Specification -/

/-- `x` is a raw frame of the scene by a detector whose pixels hold at most `cap` counts. -/
structure Clipped (d : Detector) (cap off : ℝ) (s : ℕ → ℕ → ℝ) (x : L1) : Prop where
  mode : x.arrtype = some "SCI"
  size : x.data.nr = 1200 ∧ x.data.nc = 2200
  sizeDq : x.dq.nr = 1200 ∧ x.dq.nc = 2200
  sizeErr : ∀ e ∈ x.err, e.nr = 1200 ∧ e.nc = 2200
  pixels : ∃ b : ℕ → ℝ, (∀ r c, 800 ≤ c → c < 1000 → x.data.px r c = some (b r + off)) ∧
    ∀ r c, r < 1024 → c < 1024 → x.data.px (13 + r) (1088 + c) = some (min (d.counts s r c) cap + b (13 + r))

/-- The counts that a pixel lost. -/
def lost (d : Detector) (cap : ℝ) (s : ℕ → ℕ → ℝ) (r c : ℕ) : ℝ := max (d.counts s r c - cap) 0

theorem science {d : Detector} {cap off : ℝ} {s : ℕ → ℕ → ℝ} {x : L1} (h : Clipped d cap off s x) : Science x := ⟨h.mode, h.size, h.sizeDq, h.sizeErr⟩

/-! ## The frame that would have been -/

def whole (d : Detector) (b : ℕ → ℝ) (s : ℕ → ℕ → ℝ) (y : L1) : L1 :=
  { y with data := { y.data with px := fun i j => if 13 ≤ i ∧ 1088 ≤ j then some (d.counts s (i - 13) (j - 1088) + b i) else y.data.px i j } }

theorem unclip {d : Detector} {cap off : ℝ} {tab : NonLin.Table ℝ} (hl : ∀ v, NonLin.relgain tab d.gain v = 1) {s : ℕ → ℕ → ℝ} {y : Raw}
    (h : Clipped d cap off s y.l1) (hg : emGain y.fr = d.gain) :
    ∃ x : Raw, Exposes d tab off s x.l1 ∧ y.fr = x.fr ∧
      ∀ r c, r < 1024 → c < 1024 → counts tab off y r c - counts tab off x r c = -lost d cap s r c := by
  obtain ⟨b, h1, h2⟩ := h.pixels
  let x : Raw := ⟨whole d b s y.l1, y.fr⟩
  have hpre : ∀ r c, 800 ≤ c → c < 1000 → x.l1.data.px r c = some (b r + off) := by
    intro r c h3 h4
    show (if 13 ≤ r ∧ 1088 ≤ c then _ else _) = _
    rw [if_neg (by omega)]
    exact h1 r c h3 h4
  have hpx : ∀ r c, x.l1.data.px (13 + r) (1088 + c) = some (d.counts s r c + b (13 + r)) := by
    intro r c
    show (if 13 ≤ 13 + r ∧ 1088 ≤ 1088 + c then _ else _) = _
    rw [if_pos ⟨by omega, by omega⟩, Nat.add_sub_cancel_left, Nat.add_sub_cancel_left]
  refine ⟨x, ⟨h.mode, h.size, h.sizeDq, h.sizeErr, b, hpre, fun r c _ _ => ⟨_, hpx r c, by rw [hl, mul_one]⟩⟩, rfl, fun r c hr hc => ?_⟩
  unfold counts
  rw [hpx r c, h2 r c hr hc, rowBias_const (hpre (13 + r)), rowBias_const (h1 (13 + r)), hg]
  simp only [Det.sub, Option.map_some, Option.getD_some, hl, mul_one, add_sub_cancel_right]
  unfold lost
  rcases le_total (d.counts s r c) cap with h3 | h3
  · rw [min_eq_left h3, max_eq_right (by linarith)]
    ring
  · rw [min_eq_right h3, max_eq_left (by linarith)]
    ring

/-- A dataset compared with exposures of scenes that have the same headers. -/
theorem against {d : Detector} (hs : Sound d) {tab : NonLin.Table ℝ} (ht : NonLin.Good tab) (track : Bool)
    (junk : Ix → ℝ) {off k rowread : ℝ} (offErr ek : ℝ) {m : Maps} {F : Flat} (hc : Calibrated d k rowread m F)
    {ss : List (ℕ → ℕ → ℝ)} {xs ys : List Raw} (hne : ys ≠ []) (hh : ∀ y ∈ ys, Header d y.fr)
    (hem : ∀ x ∈ ys, ∀ y ∈ ys, x.fr.emC = y.fr.emC) (hyS : ∀ y ∈ ys, Science y.l1)
    (h1 : List.Forall₂ (fun (s : ℕ → ℕ → ℝ) (x : Raw) => Exposes d tab off s x.l1) ss xs)
    (hfr : List.Forall₂ (fun x y : Raw => y.fr = x.fr) xs ys) :
    ∃ out, recipe track junk tab off offErr k ek rowread m F ys = .ok out ∧ out.length = ss.length ∧
      ∀ i (h : i < ss.length) (hx : i < xs.length) (hy : i < ys.length) (ho : i < out.length) r c, r < 1024 → c < 1024 → d.flat r c ≠ 0 →
        out[i].data [r, c] - ss[i] r c = d.kgain / d.gain / d.flat r c *
          leak (d.rowread / d.exptime) (fun j => counts tab off ys[i] j c - counts tab off xs[i] j c) r := by
  have hne' : xs ≠ [] := by
    rintro rfl
    cases hfr
    exact hne rfl
  have hhx : ∀ x ∈ xs, Header d x.fr := fun x hx => by
    obtain ⟨y, hy1, e⟩ := forall₂_left hfr hx
    rw [← e]
    exact hh y hy1
  have hex : ∀ x ∈ xs, ∀ z ∈ xs, x.fr.emC = z.fr.emC := fun x hx z hz => by
    obtain ⟨y, hy1, e⟩ := forall₂_left hfr hx
    obtain ⟨w, hw1, e'⟩ := forall₂_left hfr hz
    rw [← e, ← e']
    exact hem y hy1 w hw1
  obtain ⟨o, ho, hscene⟩ := C144_scene hs ht track junk offErr ek hc hne' hhx hex h1
  have hxS : ∀ x ∈ xs, Science x.l1 := fun x hx => by
    obtain ⟨s, -, he⟩ := forall₂_right h1 hx
    exact ⟨he.mode, he.size, he.sizeDq, he.sizeErr⟩
  obtain ⟨out, ho', -⟩ := C184_cone ht hxS hyS hfr ho
  have hst := runs ht hxS hyS hfr ho ho'
  have l1 : xs.length = o.length := (recipe_px ht hxS ho).choose_spec.choose_spec.2.2.length_eq
  have l2 : ys.length = out.length := (recipe_px ht hyS ho').choose_spec.choose_spec.2.2.length_eq
  have l3 := hfr.length_eq
  have l4 := h1.length_eq
  refine ⟨out, ho', by omega, fun i hi hix hiy hio r c hr hc' hn => ?_⟩
  rw [List.forall₂_iff_get] at hscene hst
  have e := (hst.2 i (by rw [List.length_zip]; omega) (by rw [List.length_zip]; omega)).2 r c hr hc'
  simp only [List.get_eq_getElem, List.getElem_zip] at e
  have e2 := hscene.2 i hi (by omega) r c hr hc' hn
  simp only [List.get_eq_getElem] at e2
  have e4 := hhx xs[i] (List.getElem_mem hix)
  have e5 := e (by rw [hc.flat r c hr hc']; exact hn)
  rw [e2, e4.gain, e4.exptime, hc.flat r c hr hc', hc.kgain, hc.rowread] at e5
  rw [← hc.kgain, ← hc.rowread] at e5 ⊢
  exact e5

/-! ## C187: values -/

/-- **C187** The value of every pixel of L2b when pixels of the detector are full: the lost counts of the pixel itself are missing, and those of
the earlier rows of its column make it too large. -/
theorem C187_value {d : Detector} (hs : Sound d) {tab : NonLin.Table ℝ} (ht : NonLin.Good tab) (hl : ∀ v, NonLin.relgain tab d.gain v = 1)
    (track : Bool) (junk : Ix → ℝ) {off k rowread : ℝ} (offErr ek : ℝ) {m : Maps} {F : Flat} (hc : Calibrated d k rowread m F) {cap : ℝ}
    {ss : List (ℕ → ℕ → ℝ)} {ys : List Raw} (hne : ys ≠ []) (hh : ∀ y ∈ ys, Header d y.fr) (hem : ∀ x ∈ ys, ∀ y ∈ ys, x.fr.emC = y.fr.emC)
    (hy : List.Forall₂ (fun s (y : Raw) => Clipped d cap off s y.l1) ss ys) :
    ∃ out, recipe track junk tab off offErr k ek rowread m F ys = .ok out ∧
      List.Forall₂ (fun s (g : Fr) => ∀ r c, r < 1024 → c < 1024 → d.flat r c ≠ 0 →
        g.data [r, c] = s r c + d.kgain / d.gain / d.flat r c *
          (d.rowread / d.exptime * ∑ i ∈ Finset.range r, ((1 + d.rowread / d.exptime)⁻¹) ^ (r + 1 - i) * lost d cap s i c
            - (1 + d.rowread / d.exptime)⁻¹ * lost d cap s r c)) ss out := by
  obtain ⟨xs, h1, h2⟩ : ∃ xs : List Raw, List.Forall₂ (fun (s : ℕ → ℕ → ℝ) (x : Raw) => Exposes d tab off s x.l1) ss xs ∧
      List.Forall₂ (fun (q : (ℕ → ℕ → ℝ) × Raw) (y : Raw) => y.fr = q.2.fr ∧
        ∀ r c, r < 1024 → c < 1024 → counts tab off y r c - counts tab off q.2 r c = -lost d cap q.1 r c) (ss.zip xs) ys := by
    clear hne hem
    induction hy with
    | nil => exact ⟨[], .nil, .nil⟩
    | cons a b ih =>
      obtain ⟨x, h1, h2, h3⟩ := unclip hl a (hh _ List.mem_cons_self).gain
      obtain ⟨xs, h4, h5⟩ := ih fun y hy => hh y (List.mem_cons_of_mem _ hy)
      exact ⟨x :: xs, .cons h1 h4, .cons ⟨h2, h3⟩ h5⟩
  have l1 := h1.length_eq
  have l2 := h2.length_eq
  rw [List.length_zip] at l2
  rw [List.forall₂_iff_get] at h2
  have hfr : List.Forall₂ (fun x y : Raw => y.fr = x.fr) xs ys := List.forall₂_iff_get.2 ⟨by omega, fun i hx hy => by
    have := (h2.2 i (by rw [List.length_zip]; omega) hy).1
    simpa only [List.get_eq_getElem, List.getElem_zip] using this⟩
  obtain ⟨out, ho, hlen, hval⟩ := against hs ht track junk offErr ek hc hne hh hem (fun y hyy => by
    obtain ⟨s, -, hsy⟩ := forall₂_right hy hyy
    exact science hsy) h1 hfr
  refine ⟨out, ho, List.forall₂_iff_get.2 ⟨hlen.symm, fun i hi hio r c hr hc' hn => ?_⟩⟩
  have e := hval i hi (by omega) (by omega) hio r c hr hc' hn
  have e2 := (h2.2 i (by rw [List.length_zip]; omega) (by omega)).2
  simp only [List.get_eq_getElem, List.getElem_zip] at e2 ⊢
  have hsum : ∑ j ∈ Finset.range r, ((1 + d.rowread / d.exptime)⁻¹) ^ (r + 1 - j) * (counts tab off ys[i] j c - counts tab off xs[i] j c) =
      -∑ j ∈ Finset.range r, ((1 + d.rowread / d.exptime)⁻¹) ^ (r + 1 - j) * lost d cap ss[i] j c := by
    rw [← Finset.sum_neg_distrib]
    refine Finset.sum_congr rfl fun j hj => ?_
    rw [e2 j c ((Finset.mem_range.1 hj).trans hr) hc', mul_neg]
  rw [leak_row _ hs.time, hsum, e2 r c hr hc'] at e
  linear_combination e

/-- **C187** A pixel that is not full is never too small, and it is too large exactly when an earlier pixel of its column is full, for a detector
that is read out in the light. -/
theorem C187_behind {d : Detector} {cap : ℝ} {s : ℕ → ℕ → ℝ} {g : ℝ} {r c : ℕ} (hk : 0 < d.kgain / d.gain / d.flat r c) (hρ : 0 < d.rowread / d.exptime)
    (hg : g = s r c + d.kgain / d.gain / d.flat r c *
      (d.rowread / d.exptime * ∑ i ∈ Finset.range r, ((1 + d.rowread / d.exptime)⁻¹) ^ (r + 1 - i) * lost d cap s i c
        - (1 + d.rowread / d.exptime)⁻¹ * lost d cap s r c)) (h0 : lost d cap s r c = 0) :
    s r c ≤ g ∧ (s r c < g ↔ ∃ i, i < r ∧ cap < d.counts s i c) := by
  have hq : 0 < (1 + d.rowread / d.exptime)⁻¹ := inv_pos.2 (by linarith)
  have hterm : ∀ i ∈ Finset.range r, 0 ≤ ((1 + d.rowread / d.exptime)⁻¹) ^ (r + 1 - i) * lost d cap s i c := fun i _ =>
    mul_nonneg (pow_pos hq _).le (le_max_right _ _)
  have hsum := Finset.sum_nonneg hterm
  rw [h0, mul_zero, sub_zero] at hg
  have hp := mul_nonneg hk.le (mul_nonneg hρ.le hsum)
  refine ⟨by linarith, fun hlt => ?_, ?_⟩
  · by_contra hno
    push Not at hno
    have : ∑ i ∈ Finset.range r, ((1 + d.rowread / d.exptime)⁻¹) ^ (r + 1 - i) * lost d cap s i c = 0 := Finset.sum_eq_zero fun i hi => by
      unfold lost
      rw [max_eq_right (by linarith [hno i (Finset.mem_range.1 hi)]), mul_zero]
    rw [this, mul_zero, mul_zero, add_zero] at hg
    linarith
  · rintro ⟨i, hi, hlt⟩
    have hl : 0 < lost d cap s i c := lt_max_of_lt_left (by linarith)
    have : 0 < ∑ i ∈ Finset.range r, ((1 + d.rowread / d.exptime)⁻¹) ^ (r + 1 - i) * lost d cap s i c :=
      Finset.sum_pos' hterm ⟨i, Finset.mem_range.2 hi, mul_pos (pow_pos hq _) hl⟩
    have := mul_pos hk (mul_pos hρ this)
    linarith

/-- **C187** A full pixel whose earlier pixels are not full is too small. -/
theorem C187_full {d : Detector} {cap : ℝ} {s : ℕ → ℕ → ℝ} {g : ℝ} {r c : ℕ} (hk : 0 < d.kgain / d.gain / d.flat r c) (hρ : 0 ≤ d.rowread / d.exptime)
    (hg : g = s r c + d.kgain / d.gain / d.flat r c *
      (d.rowread / d.exptime * ∑ i ∈ Finset.range r, ((1 + d.rowread / d.exptime)⁻¹) ^ (r + 1 - i) * lost d cap s i c
        - (1 + d.rowread / d.exptime)⁻¹ * lost d cap s r c)) (hfull : cap < d.counts s r c) (h0 : ∀ i, i < r → d.counts s i c ≤ cap) : g < s r c := by
  have hq : 0 < (1 + d.rowread / d.exptime)⁻¹ := inv_pos.2 (by linarith)
  have : ∑ i ∈ Finset.range r, ((1 + d.rowread / d.exptime)⁻¹) ^ (r + 1 - i) * lost d cap s i c = 0 := Finset.sum_eq_zero fun i hi => by
    unfold lost
    rw [max_eq_right (by linarith [h0 i (Finset.mem_range.1 hi)]), mul_zero]
  have hl : 0 < lost d cap s r c := lt_max_of_lt_left (by linarith)
  have := mul_pos hk (mul_pos hq hl)
  rw [‹∑ _ ∈ _, _ = _›, mul_zero, zero_sub, mul_neg] at hg
  linarith

/-! ## C187: flags -/

/-- `x` is a raw frame whose pixels are `e` above the bias. -/
structure Over (off : ℝ) (e : ℕ → ℕ → ℝ) (x : L1) : Prop extends Science x where
  pixels : ∃ b : ℕ → ℝ, (∀ r c, 800 ≤ c → c < 1000 → x.data.px r c = some (b r + off)) ∧
    ∀ r c, r < 1024 → c < 1024 → x.data.px (13 + r) (1088 + c) = some (e r c + b (13 + r))

theorem shot_px {off : ℝ} (offErr : ℝ) {e : ℕ → ℕ → ℝ} {y : Raw} (h : Over off e y.l1) :
    ∃ z, (prescanBiasSub detectorAreas detectorAreas off offErr .image y.l1).map (shot y) = .ok z ∧ z.hdr = hdr y.fr ∧ z.arrtype = "SCI" ∧
      (z.data.nr = 1024 ∧ z.data.nc = 1024) ∧ (∀ r c, z.dq r c = y.fr.dq [r, c]) ∧
      ∀ r c, r < 1024 → c < 1024 → z.data.px r c = e r c := by
  obtain ⟨o, ho, hb⟩ := C26_sci off offErr y.l1 h.mode h.size h.sizeDq h.sizeErr
  obtain ⟨b, h1, h2⟩ := h.pixels
  refine ⟨shot y o, by rw [ho]; rfl, rfl, by simp only [shot, h.mode, Option.getD_some], ⟨hb.shape.1, hb.shape.2.1⟩, fun r c => rfl,
    fun r c hr hc => ?_⟩
  simp only [shot]
  rw [hb.data r c hr hc, h2 r c hr hc, rowBias_const (h1 (13 + r))]
  simp [Det.sub]

/-- `z` is the frame without bias, with flags for the pixels that reach the saturation threshold of gain `g` and for those of the mask. -/
def MarkedBy (g : ℝ) (p : Cr.Par) (w : Cr.Wells ℝ) (e : ℕ → ℕ → ℝ) (y : Raw) (z : Cr.Shot ℝ) : Prop :=
  ∃ mask, Cr.flagCosmics detectorAreas "SCI" false p z.data (w.sat * (w.em / w.kgain)) (w.plat * (w.em / w.kgain)) = .ok mask ∧
    (z.data.nr = 1024 ∧ z.data.nc = 1024) ∧ (∀ r c, r < 1024 → c < 1024 → z.data.px r c = e r c) ∧
    ∀ r c, r < 1024 → c < 1024 → z.dq r c = y.fr.dq [r, c] |||
      (if Sat.threshold w.kgain w.pp w.em w.sat g ≤ e r c then 32 else 0) ||| (if mask r c then 128 else 0)

/-- The same for a frame whose pixels can be full. -/
def Marked (d : Detector) (cap : ℝ) (p : Cr.Par) (w : Cr.Wells ℝ) (s : ℕ → ℕ → ℝ) : Raw → Cr.Shot ℝ → Prop :=
  MarkedBy d.gain p w fun r c => min (d.counts s r c) cap

theorem flags_over {g off : ℝ} (offErr : ℝ) (p : Cr.Par) (w : Cr.Wells ℝ) (hw : 0 ≤ w.sat) {ss : List (ℕ → ℕ → ℝ)} {ys : List Raw}
    (hh : ∀ y ∈ ys, emGain y.fr = g ∧ y.fr.emM = none) (hy : List.Forall₂ (fun e (y : Raw) => Over off e y.l1) ss ys) :
    ∃ out, biasAndRays p w off offErr ys = .ok out ∧
      List.Forall₂ (fun (q : (ℕ → ℕ → ℝ) × Raw) (z : Cr.Shot ℝ) => MarkedBy g p w q.1 q.2 z) (ss.zip ys) out := by
  obtain ⟨zs, hzs, hz⟩ : ∃ zs, ys.mapM (fun x => (prescanBiasSub detectorAreas detectorAreas off offErr .image x.l1).map (shot x)) = .ok zs ∧
      List.Forall₂ (fun (q : (ℕ → ℕ → ℝ) × Raw) (z : Cr.Shot ℝ) => z.hdr = hdr q.2.fr ∧ z.arrtype = "SCI" ∧
        (z.data.nr = 1024 ∧ z.data.nc = 1024) ∧ (∀ r c, z.dq r c = q.2.fr.dq [r, c]) ∧
        ∀ r c, r < 1024 → c < 1024 → z.data.px r c = q.1 r c) (ss.zip ys) zs := by
    simp only [mapM_ok_iff]
    clear hh
    induction hy with
    | nil => exact ⟨[], .nil, .nil⟩
    | cons a b ih =>
      obtain ⟨z, h1, h2⟩ := shot_px offErr a
      obtain ⟨zs, h3, h4⟩ := ih
      exact ⟨z :: zs, .cons h1 h3, .cons h2 h4⟩
  have hg : ∀ z ∈ zs, Sat.Gain z.hdr g ∧ z.hdr.emgainM = none := by
    intro z hzm
    obtain ⟨q, hq, h1, -⟩ := forall₂_right hz hzm
    have hqm := (List.of_mem_zip (a := q.1) (b := q.2) hq).2
    obtain ⟨e1, e2⟩ := hh q.2 hqm
    rw [h1]
    refine ⟨?_, e2⟩
    have := hdr_gain q.2.fr
    rwa [e1] at this
  have hsat := Sat.C31_own_gain_partial w.kgain w.pp w.em w.sat (zs.map Cr.Shot.hdr) (fun _ => g) (by
    intro h hm
    obtain ⟨z, hzm, rfl⟩ := List.mem_map.1 hm
    exact (hg z hzm).1) (by
    intro h hm
    obtain ⟨z, hzm, rfl⟩ := List.mem_map.1 hm
    exact (hg z hzm).2)
  have hstep := Cr.C186_step detectorAreas p w hw (xs := zs)
  unfold biasAndRays
  rw [hzs]
  dsimp only
  cases hdc : Cr.detectCosmics detectorAreas false p w zs with
  | error e =>
    obtain ⟨e', rfl⟩ := hstep.1 e hdc
    unfold Cr.detectCosmics at hdc
    rw [hsat] at hdc
    dsimp only at hdc
    obtain ⟨ys', hys'⟩ : ∃ ys', (zs.zip ((zs.map Cr.Shot.hdr).map fun _ => Sat.threshold w.kgain w.pp w.em w.sat g)).mapM
        (fun q => Cr.flagShot detectorAreas false p w q.1 q.2) = .ok ys' := mapM_ok_exists.2 fun q _ => by
      obtain ⟨m, hm, -⟩ := Cr.C29_image detectorAreas q.1.arrtype p q.1.data (w.sat * (w.em / w.kgain)) (w.plat * (w.em / w.kgain))
      unfold Cr.flagShot
      rw [hm]
      exact ⟨_, rfl⟩
    rw [hys'] at hdc
    cases hdc
  | ok out =>
    refine ⟨out, rfl, ?_⟩
    obtain ⟨ts, hts, hF, hl⟩ := hstep.2 out hdc
    rw [hsat] at hts
    cases hts
    have hpair : List.Forall₂ (fun (z : Cr.Shot ℝ) (q : Cr.Shot ℝ × ℝ) => q = (z, Sat.threshold w.kgain w.pp w.em w.sat g)) zs
        (zs.zip ((zs.map Cr.Shot.hdr).map fun _ => Sat.threshold w.kgain w.pp w.em w.sat g)) := by
      clear hF hl hsat hg hz hzs hstep hdc
      induction zs with
      | nil => exact .nil
      | cons z zs ih => exact .cons rfl ih
    refine forall₂_trans ?_ hz (forall₂_trans (T := fun (z z' : Cr.Shot ℝ) => ∃ m,
      Cr.flagCosmics detectorAreas z.arrtype false p z.data (w.sat * (w.em / w.kgain)) (w.plat * (w.em / w.kgain)) = .ok m ∧
      z'.data = z.data ∧ ∀ r c, z'.dq r c = z.dq r c ||| (if Sat.threshold w.kgain w.pp w.em w.sat g ≤ z.data.px r c then 32 else 0) |||
        (if m r c then 128 else 0)) ?_ hpair hF)
    · rintro q z z' ⟨-, h2, h3, h4, h5⟩ ⟨m, h6, h7, h8⟩
      rw [h2] at h6
      refine ⟨m, by rw [h7]; exact h6, by rw [h7]; exact h3, fun r c hr hc => by rw [h7]; exact h5 r c hr hc, fun r c hr hc => ?_⟩
      rw [h8, h4, h5 r c hr hc]
    · rintro z q z' rfl ⟨m, h1, -, h3, -, h5⟩
      exact ⟨m, h1, h3, h5⟩

/-- **C187** The flags after the search for cosmic rays, exactly: 32 where the pixel, which may be full, reaches the saturation threshold of the
gain of the frame, and 128 where the mask is. -/
theorem C187_flags {d : Detector} {cap off : ℝ} (offErr : ℝ) (p : Cr.Par) (w : Cr.Wells ℝ) (hw : 0 ≤ w.sat) {ss : List (ℕ → ℕ → ℝ)} {ys : List Raw}
    (hh : ∀ y ∈ ys, emGain y.fr = d.gain ∧ y.fr.emM = none) (hy : List.Forall₂ (fun s (y : Raw) => Clipped d cap off s y.l1) ss ys) :
    ∃ out, biasAndRays p w off offErr ys = .ok out ∧
      List.Forall₂ (fun (q : (ℕ → ℕ → ℝ) × Raw) (z : Cr.Shot ℝ) => Marked d cap p w q.1 q.2 z) (ss.zip ys) out := by
  obtain ⟨out, h1, h2⟩ := flags_over (g := d.gain) offErr p w hw (ss := ss.map fun s r c => min (d.counts s r c) cap) hh
    (List.forall₂_map_left_iff.2 (hy.imp fun s y h => ⟨science h, h.pixels⟩))
  refine ⟨out, h1, ?_⟩
  rw [List.zip_map_left, List.forall₂_map_left_iff] at h2
  exact h2

/-- **C187** When the threshold is not above what a pixel can hold, every full pixel is flagged. -/
theorem C187_seen {d : Detector} {cap : ℝ} {p : Cr.Par} {w : Cr.Wells ℝ} {s : ℕ → ℕ → ℝ} {y : Raw} {z : Cr.Shot ℝ} (h : Marked d cap p w s y z)
    (hcap : Sat.threshold w.kgain w.pp w.em w.sat d.gain ≤ cap) {r c : ℕ} (hr : r < 1024) (hc : c < 1024) (hfull : cap < d.counts s r c) :
    z.dq r c ≠ 0 := by
  obtain ⟨mask, -, -, -, h4⟩ := h
  rw [h4 r c hr hc, if_pos (show Sat.threshold w.kgain w.pp w.em w.sat d.gain ≤ min (d.counts s r c) cap by rw [min_eq_right hfull.le]; exact hcap)]
  intro h0
  have := (Nat.or_eq_zero_iff.1 (Nat.or_eq_zero_iff.1 h0).1).2
  omega

theorem quiet {g : ℝ} {p : Cr.Par} {w : Cr.Wells ℝ} {e : ℕ → ℕ → ℝ} {y : Raw} {z : Cr.Shot ℝ} (h : MarkedBy g p w e y z)
    {r c : ℕ} (hr : r < 1024) (hc : c < 1024) (hlow : e r c < Sat.threshold w.kgain w.pp w.em w.sat g)
    (hrows : ∀ i j, i < 1024 → j < 1024 → i ≤ r + p.box → r ≤ i + p.box → e i j < w.sat * (w.em / w.kgain)) :
    z.dq r c = y.fr.dq [r, c] := by
  obtain ⟨mask, h1, ⟨n1, n2⟩, h3, h4⟩ := h
  have hm : mask r c = false := by
    obtain ⟨m, hm, hx⟩ := Cr.C29_image detectorAreas "SCI" p z.data (w.sat * (w.em / w.kgain)) (w.plat * (w.em / w.kgain))
    rw [h1] at hm
    cases hm
    rw [Bool.eq_false_iff]
    intro hh
    obtain ⟨i, b, hi, -, hst, hnear⟩ := (hx r c (by omega) (by omega)).1 hh
    obtain ⟨j, hj, hS⟩ := Cr.C29_prefilter_sound z.data _ _ p.filter i b hst
    rw [h3 i j (by omega) (by omega)] at hS
    exact absurd (hrows i j (by omega) (by omega) (by omega) (by omega)) (not_lt.2 hS)
  rw [h4 r c hr hc, if_neg (not_le.2 hlow), hm]
  simp

/-- **C187** A pixel below the threshold whose row, and the rows within the box, have no pixel above the threshold of the search keeps its flags. -/
theorem C187_quiet {d : Detector} {cap : ℝ} {p : Cr.Par} {w : Cr.Wells ℝ} {s : ℕ → ℕ → ℝ} {y : Raw} {z : Cr.Shot ℝ} (h : Marked d cap p w s y z)
    {r c : ℕ} (hr : r < 1024) (hc : c < 1024) (hlow : min (d.counts s r c) cap < Sat.threshold w.kgain w.pp w.em w.sat d.gain)
    (hrows : ∀ i j, i < 1024 → j < 1024 → i ≤ r + p.box → r ≤ i + p.box → min (d.counts s i j) cap < w.sat * (w.em / w.kgain)) :
    z.dq r c = y.fr.dq [r, c] :=
  quiet h hr hc hlow hrows

/-- **C187** When a pixel cannot hold as much as the threshold, nothing is flagged at all, however many pixels are full. -/
theorem C187_unseen {d : Detector} {cap : ℝ} {p : Cr.Par} {w : Cr.Wells ℝ} (hw : 0 ≤ w.sat) {s : ℕ → ℕ → ℝ} {y : Raw} {z : Cr.Shot ℝ}
    (h : Marked d cap p w s y z) (hcap : cap < Sat.threshold w.kgain w.pp w.em w.sat d.gain) {r c : ℕ} (hr : r < 1024) (hc : c < 1024) :
    z.dq r c = y.fr.dq [r, c] := by
  refine C187_quiet h hr hc ((min_le_right _ _).trans_lt hcap) fun i j _ _ _ _ => (min_le_right _ _).trans_lt (hcap.trans_le ?_)
  unfold Sat.threshold
  exact mul_le_mul_of_nonneg_left (min_le_right _ _) hw

/-! ## A star that fills one pixel -/

/-- A detector with one electron per count and a readout of a thousandth of the exposure. -/
def plain : Detector := ⟨fun _ _ => 1, 1, 1000, fun _ _ => 0, fun _ _ => 0, fun _ _ => 0, 1, 1⟩

/-- A thousand electrons in one pixel. -/
def star : ℕ → ℕ → ℝ := fun r c => if r = 5 ∧ c = 5 then 1000 else 0

theorem star_sum (c : ℕ) (n : ℕ) : ((List.range n).map fun i => star i c).sum = if 5 < n ∧ c = 5 then 1000 else 0 := by
  induction n with
  | zero => simp
  | succ n ih =>
    rw [List.range_succ, List.map_append, List.sum_append, ih]
    simp only [List.map_cons, List.map_nil, List.sum_cons, List.sum_nil, add_zero, star]
    by_cases hc : c = 5
    · rcases Nat.lt_trichotomy n 5 with h | h | h
      · rw [if_neg (by omega), if_neg (by omega), if_neg (by omega), add_zero]
      · rw [if_neg (by omega), if_pos ⟨h, hc⟩, if_pos ⟨by omega, hc⟩, zero_add]
      · rw [if_pos ⟨h, hc⟩, if_neg (by omega), if_pos ⟨by omega, hc⟩, add_zero]
    · rw [if_neg (by omega), if_neg (by omega), if_neg (by omega), add_zero]

theorem star_counts (r c : ℕ) : plain.counts star r c = star r c + if 5 ≤ r ∧ c = 5 then 1 else 0 := by
  simp only [Detector.counts, Detector.charge, plain, one_mul, zero_mul, add_zero, div_one, star_sum]
  by_cases h : 5 ≤ r ∧ c = 5
  · rw [if_pos (by omega), if_pos h]
    norm_num
  · rw [if_neg (by omega), if_neg h, mul_zero]

/-- The raw frame when a pixel holds 500 counts. -/
def starL1 : L1 := ⟨some "SCI", ⟨1200, 2200, fun i j => if j < 1088 then some 0 else some (min (plain.counts star (i - 13) (j - 1088)) 500)⟩, [],
  ⟨1200, 2200, fun _ _ => 0⟩⟩

theorem star_clipped : Clipped plain 500 0 star starL1 where
  mode := rfl
  size := ⟨rfl, rfl⟩
  sizeDq := ⟨rfl, rfl⟩
  sizeErr := by simp [starL1]
  pixels := ⟨fun _ => 0, fun r c _ h => by
    simp only [starL1]
    rw [if_pos (by omega), add_zero], fun r c _ _ => by
    simp only [starL1]
    rw [if_neg (by omega), Nat.add_sub_cancel_left, Nat.add_sub_cancel_left, add_zero]⟩

def starFr : Fr := ⟨fun _ => 0, ⟨[1024, 1024], [fun _ => 0], fun _ => none, []⟩, fun _ => 0, 1000, 1, 1, none, 1, "DN"⟩

def noMaps : Maps := ⟨[1024, 1024], fun _ => 0, fun _ => 0, fun _ => 0, fun _ => 0, fun _ => 0, fun _ => 0, fun _ => 0, fun _ => 0, fun _ => 0⟩

def noFlat : Flat := ⟨[1024, 1024], fun _ => 1, fun _ => 0⟩

theorem star_low {i j : ℕ} (h : ¬ (i = 5 ∧ j = 5)) : plain.counts star i j ≤ 1 := by
  rw [star_counts]
  unfold star
  rw [if_neg h]
  split <;> norm_num

/-- **C187** A star that fills one pixel, whose pixel is flagged: a pixel fifteen rows later is too large, without any flag. -/
theorem C187_silent : ∃ (w : Cr.Wells ℝ) (out : List Fr) (marked : List (Cr.Shot ℝ)),
    recipe false (fun _ => 0) linear 0 0 1 0 1 noMaps noFlat [⟨starL1, starFr⟩] = .ok out ∧
    biasAndRays ⟨1, 3, 10⟩ w 0 0 [⟨starL1, starFr⟩] = .ok marked ∧
    (∀ z ∈ marked, z.dq 5 5 ≠ 0 ∧ z.dq 20 5 = 0) ∧ marked.length = 1 ∧ out.length = 1 ∧ ∀ g ∈ out, star 20 5 < g.data [20, 5] := by
  have hs : Sound plain := ⟨by norm_num [plain], by norm_num [plain], by norm_num [plain]⟩
  have hh : Header plain starFr := ⟨by simp [emGain, starFr, plain], rfl, rfl, by simp [starFr]⟩
  have hc : Calibrated plain 1 1 noMaps noFlat := ⟨rfl, rfl, ⟨rfl, rfl⟩, fun _ _ _ _ => rfl, fun _ _ _ _ => rfl, fun _ _ _ _ => rfl,
    fun _ _ _ _ => rfl, fun _ => le_refl _, fun _ => le_refl _⟩
  have hF : List.Forall₂ (fun s (y : Raw) => Clipped plain 500 0 s y.l1) [star] [⟨starL1, starFr⟩] := .cons star_clipped .nil
  obtain ⟨out, ho, hout⟩ := C187_value hs linear_good (linear_relgain _) false (fun _ => 0) 0 0 hc (ys := [⟨starL1, starFr⟩]) (by simp)
    (by simpa using hh) (by simp) hF
  obtain ⟨marked, hm, hmk⟩ := C187_flags 0 ⟨1, 3, 10⟩ ⟨1, 1000, 600, 7 / 10, 7 / 10⟩ (by norm_num) (d := plain)
    (by simpa using ⟨hh.gain, rfl⟩) hF
  have hfull : (500 : ℝ) < plain.counts star 5 5 := by rw [star_counts]; norm_num [star]
  refine ⟨_, out, marked, ho, hm, fun z hz => ?_, by simpa using hmk.length_eq.symm, by simpa using hout.length_eq.symm, fun g hg => ?_⟩
  · obtain ⟨q, hq, hmark⟩ := forall₂_right hmk hz
    obtain rfl : q = (star, ⟨starL1, starFr⟩) := by simpa using hq
    refine ⟨C187_seen hmark (by norm_num [Sat.threshold, plain]) (by norm_num) (by norm_num) hfull, ?_⟩
    refine C187_quiet hmark (by norm_num) (by norm_num) ?_ fun i j _ _ h1 h2 => ?_
    · exact (min_le_left _ _).trans_lt ((star_low (by norm_num)).trans_lt (by norm_num [Sat.threshold, plain]))
    · dsimp only at h1 h2
      exact (min_le_left _ _).trans_lt ((star_low (by omega)).trans_lt (by norm_num))
  · obtain ⟨s, hs', hval⟩ := forall₂_right hout hg
    obtain rfl : s = star := by simpa using hs'
    have hlost : lost plain 500 star 20 5 = 0 := max_eq_right (by linarith [star_low (i := 20) (j := 5) (by norm_num)])
    exact (C187_behind (by norm_num [plain]) (by norm_num [plain]) (hval 20 5 (by norm_num) (by norm_num) (by norm_num [plain])) hlost).2.2
      ⟨5, by norm_num, hfull⟩

end Corgi.Clip

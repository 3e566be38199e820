import Verif.Detector.Prescan
import Verif.Detector.NonLin
import Verif.L2a.Arith
import Verif.L2a.Desmear
import Verif.Darks.Lsq

/-!
# From raw frames to L2b: the steps together (C144)

The steps of `l1_to_l2b.json` that change pixel values, in its order, made of the models of the single steps:
`prescan_biassub` (l1_to_l2a.py 6-157), `correct_nonlinearity` (l1_to_l2a.py 288-331), `convert_to_electrons`,
`em_gain_division`, `dark_subtraction` with noise maps, `desmear` and `flat_division` (l2a_to_l2b.py 256-286, 288-327,
45-115, 388-425, 118-155). The other steps of the
recipe (`detect_cosmic_rays`, `frame_select`, `add_photon_noise`, `cti_correction`, `correct_bad_pixels`, the updates of the
level) do not change the values of unflagged pixels of the frames that are kept: left out.

The specification is a model of the detector without noise; the theorem says that the recipe inverts it.
-/

noncomputable section

namespace Corgi.EndToEnd

open Corgi.Det Corgi.Arith

/-! ## Model -/

/-- A raw frame: the arrays, and what the later steps use of headers and errors. -/
structure Raw where
  l1 : L1
  fr : Fr

/-- The pixels of an image in the order of `ravel`, and a pixel of that order. -/
def ravel {α : Type} (a : Img α) : List α := (List.range (a.nr * a.nc)).map fun i => a.px (i / a.nc) (i % a.nc)

def unravel (nc : ℕ) (l : List (Option ℝ)) : Ix → ℝ
  | [r, c] => ((l[r * nc + c]?).join).getD 0
  | _ => 0

def hdr (f : Fr) : Sat.Hdr ℝ := ⟨f.emM, some f.emA, some f.emC⟩

/-- Any exception of a step. -/
inductive Err
  | bias | nonlin | l2b (e : Arith.Err)

/-- L1 to L2a for one frame, with the bias offset of the noise maps. -/
def l2a (tab : NonLin.Table ℝ) (off offErr : ℝ) (x : Raw) : Except Err Fr :=
  match prescanBiasSub detectorAreas detectorAreas off offErr .image x.l1 with
  | .error _ => .error .bias
  | .ok o =>
    match NonLin.correctFrame (some tab) none ⟨hdr x.fr, ravel o.data, ravel o.dq⟩ with
    | .error _ => .error .nonlin
    | .ok f => .ok { x.fr with data := unravel o.data.nc f.data }

/-- `desmear` for one frame of 1024 rows. -/
def desmearFr (rowread : ℝ) (f : Fr) : Fr :=
  { f with data := fun p => match p with
      | [r, c] => ((Desmear.desmearCol rowread f.exptime ((List.range 1024).map fun s => f.data [s, c]))[r]?).getD 0
      | p => f.data p }

/-- L2a to L2b for a dataset. -/
def l2b (track : Bool) (junk : Ix → ℝ) (k ek rowread : ℝ) (m : Maps) (F : Flat) (fs : List Fr) : Except Err (List Fr) :=
  match darkSubMaps track m ((fs.map (toElectrons k ek)).map emDiv) with
  | .error e => .error (.l2b e)
  | .ok gs =>
    match flatDiv track junk F (gs.map (desmearFr rowread)) with
    | .error e => .error (.l2b e)
    | .ok out => .ok out

def recipe (track : Bool) (junk : Ix → ℝ) (tab : NonLin.Table ℝ) (off offErr k ek rowread : ℝ) (m : Maps) (F : Flat)
    (xs : List Raw) : Except Err (List Fr) :=
  match xs.mapM (l2a tab off offErr) with
  | .error e => .error e
  | .ok fs => l2b track junk k ek rowread m F fs

/-! ## Specification: the detector -/

/-- What the detector does to the light: sensitivity of the pixels, light during the read-out, dark current and
clock-induced charge, gain and fixed pattern, conversion to counts. -/
structure Detector where
  flat : ℕ → ℕ → ℝ
  rowread : ℝ
  exptime : ℝ
  dark : ℕ → ℕ → ℝ
  cic : ℕ → ℕ → ℝ
  fpn : ℕ → ℕ → ℝ
  gain : ℝ
  kgain : ℝ

/-- Electrons in a pixel before the gain register, for a scene that gives `s r c` electrons to a pixel of sensitivity
one: on its way out the pixel also collects light in all rows up to its own. -/
def Detector.charge (d : Detector) (s : ℕ → ℕ → ℝ) (r c : ℕ) : ℝ :=
  d.flat r c * s r c + d.rowread / d.exptime * ((List.range (r + 1)).map fun i => d.flat i c * s i c).sum
    + d.dark r c * d.exptime + d.cic r c

/-- Counts of a linear amplifier. -/
def Detector.counts (d : Detector) (s : ℕ → ℕ → ℝ) (r c : ℕ) : ℝ :=
  (d.gain * d.charge s r c + d.fpn r c) / d.kgain

/-- `x` is a raw science frame of the scene: every row has a bias, which is seen in the prescan up to the offset, and the
non-linear response is the one that `tab` describes. -/
structure Exposes (d : Detector) (tab : NonLin.Table ℝ) (off : ℝ) (s : ℕ → ℕ → ℝ) (x : L1) : Prop where
  mode : x.arrtype = some "SCI"
  size : x.data.nr = 1200 ∧ x.data.nc = 2200
  sizeDq : x.dq.nr = 1200 ∧ x.dq.nc = 2200
  sizeErr : ∀ e ∈ x.err, e.nr = 1200 ∧ e.nc = 2200
  pixels : ∃ b : ℕ → ℝ, (∀ r c, 800 ≤ c → c < 1000 → x.data.px r c = some (b r + off)) ∧
    ∀ r c, r < 1024 → c < 1024 → ∃ v, x.data.px (13 + r) (1088 + c) = some (v + b (13 + r)) ∧
      v * NonLin.relgain tab d.gain v = d.counts s r c

/-- The headers of a frame agree with the detector. -/
structure Header (d : Detector) (f : Fr) : Prop where
  gain : emGain f = d.gain
  exptime : f.exptime = d.exptime
  shape : f.img.shape = [1024, 1024]
  layers : f.img.layers ≠ []

/-- The calibrations agree with the detector. -/
structure Calibrated (d : Detector) (k rowread : ℝ) (m : Maps) (F : Flat) : Prop where
  kgain : k = d.kgain
  rowread : rowread = d.rowread
  shape : m.shape = [1024, 1024] ∧ F.shape = [1024, 1024]
  fpn : ∀ r c, r < 1024 → c < 1024 → m.F [r, c] = d.fpn r c
  cic : ∀ r c, r < 1024 → c < 1024 → m.C [r, c] = d.cic r c
  dark : ∀ r c, r < 1024 → c < 1024 → m.D [r, c] = d.dark r c
  flat : ∀ r c, r < 1024 → c < 1024 → F.data [r, c] = d.flat r c
  pos : (∀ p, 0 ≤ m.C p) ∧ ∀ p, 0 ≤ m.D p

/-- A detector that can be inverted at all. -/
structure Sound (d : Detector) : Prop where
  kgain : d.kgain ≠ 0
  gain : 1 ≤ d.gain
  time : 1 + d.rowread / d.exptime ≠ 0

/-! ## The steps -/

theorem rowBias_const {x : L1} {b off : ℝ} {r : ℕ} (h : ∀ c, 800 ≤ c → c < 1000 → x.data.px r c = some (b + off)) :
    rowBias x sciPrescan 800 1000 off r = some b := by
  have hl : (List.range' (sciPrescan.c0 + 800) (1000 - 800)).map (x.data.px r) = (List.replicate 200 (b + off)).map some := by
    rw [List.map_replicate]
    refine List.eq_replicate_iff.2 ⟨by simp, fun v hv => ?_⟩
    obtain ⟨c, hc, rfl⟩ := List.mem_map.1 hv
    rw [List.mem_range'_1] at hc
    have h0 : sciPrescan.c0 = 0 := rfl
    exact h c (by omega) (by omega)
  unfold rowBias
  rw [hl]
  have hv : ∀ l : List ℝ, allVals (l.map some) = some l := by
    intro l
    unfold allVals
    induction l with
    | nil => rfl
    | cons a l ih => rw [List.map_cons, List.mapM_cons, ih]; rfl
  have hm : npMedian ((List.replicate 200 (b + off)).map some) = some (b + off) := by
    unfold npMedian
    rw [hv, show List.replicate 200 (b + off) = (b + off) :: List.replicate 199 (b + off) from rfl]
    dsimp only
    rw [show (b + off) :: List.replicate 199 (b + off) = List.replicate 200 (b + off) from rfl,
      median_const 200 _ (by norm_num)]
  rw [hm]
  simp

theorem hdr_gain (f : Fr) : Sat.Gain (hdr f) (emGain f) := by
  unfold Sat.Gain hdr emGain
  cases f.emM with
  | some g => left; rfl
  | none =>
    right
    refine ⟨rfl, f.emA, rfl, ?_⟩
    by_cases h : 0 < f.emA
    · left; exact ⟨h, by simp [h]⟩
    · right; exact ⟨h, by simp [h]⟩

theorem unravel_map {a : Img (Option ℝ)} {g : Option ℝ → Option ℝ} {r c : ℕ} (hr : r < a.nr) (hc : c < a.nc) :
    unravel a.nc ((ravel a).map g) [r, c] = (g (a.px r c)).getD 0 := by
  have hi : r * a.nc + c < a.nr * a.nc := by
    calc r * a.nc + c < r * a.nc + a.nc := by omega
      _ = (r + 1) * a.nc := by ring
      _ ≤ a.nr * a.nc := Nat.mul_le_mul_right _ hr
  have h1 : (r * a.nc + c) / a.nc = r := by
    rw [Nat.mul_comm, Nat.mul_add_div (by omega), Nat.div_eq_of_lt hc, Nat.add_zero]
  have h2 : (r * a.nc + c) % a.nc = c := by
    rw [Nat.mul_comm, Nat.mul_add_mod, Nat.mod_eq_of_lt hc]
  show (((List.map g (ravel a))[r * a.nc + c]?).join).getD 0 = _
  unfold ravel
  rw [List.getElem?_map, List.getElem?_map, List.getElem?_range hi]
  simp only [Option.map_some, Option.join_some, h1, h2]

/-- **C144.** L1 to L2a gives the counts of the linear amplifier. -/
theorem C144_l2a {d : Detector} {tab : NonLin.Table ℝ} (ht : NonLin.Good tab) {off : ℝ} (offErr : ℝ) {s : ℕ → ℕ → ℝ} {x : Raw}
    (hx : Exposes d tab off s x.l1) (hg : emGain x.fr = d.gain) :
    ∃ f, l2a tab off offErr x = .ok f ∧ (∀ r c, r < 1024 → c < 1024 → f.data [r, c] = d.counts s r c) ∧
      f = { x.fr with data := f.data } := by
  obtain ⟨o, ho, hb⟩ := C26_sci off offErr x.l1 hx.mode hx.size hx.sizeDq hx.sizeErr
  have hn := NonLin.C32_step tab ht none ⟨hdr x.fr, ravel o.data, ravel o.dq⟩ _ (hdr_gain x.fr)
  unfold l2a
  rw [ho]
  dsimp only
  rw [hn]
  refine ⟨_, rfl, fun r c hr hc => ?_, rfl⟩
  dsimp only
  rw [unravel_map (by rw [hb.shape.1]; exact hr) (by rw [hb.shape.2.1]; exact hc), hb.data r c hr hc]
  obtain ⟨b, hpre, himg⟩ := hx.pixels
  obtain ⟨v, hv, hl⟩ := himg r c hr hc
  rw [hv, rowBias_const (hpre (13 + r)), ← hl, ← hg]
  simp [sub]

/-- The frame after the gain division. -/
theorem C144_electrons {d : Detector} (hs : Sound d) {s : ℕ → ℕ → ℝ} {f : Fr} (ek : ℝ) (hg : emGain f = d.gain)
    {r c : ℕ} (h : f.data [r, c] = d.counts s r c) :
    (emDiv (toElectrons d.kgain ek f)).data [r, c] = d.charge s r c + d.fpn r c / d.gain := by
  have e : emGain (toElectrons d.kgain ek f) = d.gain := hg
  show f.data [r, c] * d.kgain / emGain (toElectrons d.kgain ek f) = _
  rw [e, h]
  unfold Detector.counts
  have := hs.kgain
  have : d.gain ≠ 0 := by have := hs.gain; intro h0; rw [h0] at this; norm_num at this
  field_simp

theorem desmear_column {rr te : ℝ} (h : 1 + rr / te ≠ 0) (t : ℕ → ℝ) {n r : ℕ} (hr : r < n) :
    ((Desmear.desmearCol rr te ((List.range n).map fun i =>
      t i + rr / te * ((List.range (i + 1)).map t).sum))[r]?).getD 0 = t r := by
  have hobs : (List.range n).map (fun i => t i + rr / te * ((List.range (i + 1)).map t).sum)
      = Desmear.observe (rr / te) ((List.range n).map t) := by
    unfold Desmear.observe
    rw [List.length_map, List.length_range]
    refine List.map_congr_left fun i hi => ?_
    have hi' : i < n := List.mem_range.1 hi
    have hget : ∀ j, j < n → (((List.range n).map t)[j]?).getD 0 = t j := by
      intro j hj
      rw [List.getElem?_map, List.getElem?_range hj]
      rfl
    rw [hget i hi']
    congr 3
    refine List.map_congr_left fun j hj => ?_
    have hj' : j < i + 1 := List.mem_range.1 hj
    exact (hget j (by omega)).symm
  rw [hobs, Desmear.C25_inverse rr te h, List.getElem?_map, List.getElem?_range hr]
  rfl

/-- Desmearing a frame whose charge is free of dark signal. -/
theorem C144_desmear {d : Detector} (hs : Sound d) {s : ℕ → ℕ → ℝ} {f : Fr} (ht : f.exptime = d.exptime) {c : ℕ}
    (h : ∀ i, i < 1024 → f.data [i, c] =
      d.flat i c * s i c + d.rowread / d.exptime * ((List.range (i + 1)).map fun j => d.flat j c * s j c).sum)
    {r : ℕ} (hr : r < 1024) : (desmearFr d.rowread f).data [r, c] = d.flat r c * s r c := by
  have e : (List.range 1024).map (fun i => f.data [i, c]) = (List.range 1024).map fun i =>
      d.flat i c * s i c + d.rowread / d.exptime * ((List.range (i + 1)).map fun j => d.flat j c * s j c).sum :=
    List.map_congr_left fun i hi => h i (List.mem_range.1 hi)
  unfold desmearFr
  dsimp only
  rw [ht, e]
  exact desmear_column hs.time (fun i => d.flat i c * s i c) hr

/-! ## The recipe -/

theorem darkSubMaps_exists {track : Bool} {m : Maps} {f : Fr} {fs : List Fr}
    (hu : ∀ g ∈ f :: fs, g.exptime = f.exptime ∧ g.emC = f.emC ∧ g.kgain = f.kgain)
    (hp : (∀ p, 0 ≤ m.C p) ∧ ∀ p, 0 ≤ m.D p) (hg : 1 ≤ emGain f)
    (hl : ∀ g ∈ f :: fs, g.img.shape = m.shape ∧ g.img.layers ≠ []) (h2 : m.shape.length = 2) :
    ∃ out, darkSubMaps track m (f :: fs) = .ok out := by
  unfold darkSubMaps
  dsimp only
  rw [if_neg (by rw [Bool.not_eq_false, uniform_iff]; exact hu)]
  have hd : ∃ d, synthDark m f = .ok d ∧ d.shape = m.shape := by
    unfold synthDark
    rw [if_neg (by
      rintro (⟨p, h⟩ | ⟨p, h⟩ | h)
      · exact absurd (hp.2 p) (not_le.2 h)
      · exact absurd (hp.1 p) (not_le.2 h)
      · exact absurd hg (not_le.2 h))]
    exact ⟨_, rfl, rfl⟩
  obtain ⟨d, hd, hsh⟩ := hd
  rw [hd]
  refine mapM_ok_exists.2 fun g hgm => ?_
  obtain ⟨i, hi⟩ := (Errs.addError_ok_iff track ⟨d.shape, d.err⟩ "dark_error" g.img).2
    ⟨⟨Or.inl (by show d.shape.length = 2; rw [hsh]; exact h2), by show d.shape = _; rw [hsh, (hl g hgm).1]⟩, (hl g hgm).2⟩
  unfold subFrame
  rw [hi]
  exact ⟨_, rfl⟩

theorem subFrame_keeps {track : Bool} {d : DarkCal} {f g : Fr} (h : subFrame track d f = .ok g) :
    g.img.shape = f.img.shape ∧ g.img.layers ≠ [] := by
  obtain ⟨i, hi, rfl⟩ := subFrame_ok h
  obtain ⟨h1, h2, -⟩ := Errs.addError_effect hi
  exact ⟨h1, h2⟩

theorem darkSubMaps_keeps {track : Bool} {m : Maps} {fs out : List Fr} (h : darkSubMaps track m fs = .ok out) :
    List.Forall₂ (fun f g => g.img.shape = f.img.shape ∧ g.img.layers ≠ [] ∧ g.exptime = f.exptime) fs out := by
  cases fs with
  | nil => cases h
  | cons f l =>
    unfold darkSubMaps at h
    rcases ite_eq_iff.1 h with ⟨_, h⟩ | ⟨h1, h⟩
    · cases h
    cases hd : synthDark m f with
    | error e => rw [hd] at h; cases h
    | ok d =>
      rw [hd] at h
      refine (mapM_ok_iff.1 h).imp fun a b hab => ?_
      obtain ⟨h2, h3⟩ := subFrame_keeps hab
      exact ⟨h2, h3, (subFrame_spec hab).2.2.2.2.2.1⟩

/-- **C144.** From L2a frames with the counts of the detector, `l2b` gives the scene. -/
theorem C144_l2b {d : Detector} (hs : Sound d) (track : Bool) (junk : Ix → ℝ) {k rowread : ℝ} (ek : ℝ) {m : Maps} {F : Flat}
    (hc : Calibrated d k rowread m F) {ss : List (ℕ → ℕ → ℝ)} {fs : List Fr} (hne : fs ≠ [])
    (hh : ∀ f ∈ fs, Header d f) (hem : ∀ f ∈ fs, ∀ g ∈ fs, f.emC = g.emC)
    (hd : List.Forall₂ (fun s (f : Fr) => ∀ r c, r < 1024 → c < 1024 → f.data [r, c] = d.counts s r c) ss fs) :
    ∃ out, l2b track junk k ek rowread m F fs = .ok out ∧
      List.Forall₂ (fun s (g : Fr) => (∀ r c, r < 1024 → c < 1024 → d.flat r c ≠ 0 → g.data [r, c] = s r c) ∧
        g.exptime = d.exptime ∧ g.img.shape = [1024, 1024]) ss out := by
  have hk := hc.kgain
  have hrr := hc.rowread
  subst hk hrr
  set es := (fs.map (toElectrons d.kgain ek)).map emDiv with hes
  have hmem : ∀ e ∈ es, ∃ f ∈ fs, e = emDiv (toElectrons d.kgain ek f) := by
    intro e he
    rw [hes, List.map_map] at he
    obtain ⟨f, hf, rfl⟩ := List.mem_map.1 he
    exact ⟨f, hf, rfl⟩
  have hgain : ∀ e ∈ es, emGain e = d.gain := by
    intro e he
    obtain ⟨f, hf, rfl⟩ := hmem e he
    exact (hh f hf).gain
  have hlay : ∀ e ∈ es, e.img.shape = [1024, 1024] ∧ e.img.layers ≠ [] ∧ e.exptime = d.exptime := by
    intro e he
    obtain ⟨f, hf, rfl⟩ := hmem e he
    refine ⟨(hh f hf).shape, ?_, (hh f hf).exptime⟩
    have hl := (hh f hf).layers
    show (List.map _ (match f.img.layers with
      | [] => []
      | l :: ls => _)) ≠ []
    cases hfl : f.img.layers with
    | nil => exact absurd hfl hl
    | cons l ls => simp
  have hex : ∃ gs, darkSubMaps track m es = .ok gs := by
    cases hesl : es with
    | nil =>
      rw [hes, List.map_eq_nil_iff, List.map_eq_nil_iff] at hesl
      exact absurd hesl hne
    | cons e l =>
      rw [hesl] at hmem hgain hlay
      refine darkSubMaps_exists ?_ hc.pos ?_ ?_ ?_
      · intro g hg
        obtain ⟨f, hf, rfl⟩ := hmem g hg
        obtain ⟨f', hf', he⟩ := hmem e (by simp)
        refine ⟨?_, ?_, ?_⟩
        · rw [(hlay e (by simp)).2.2, (hlay _ hg).2.2]
        · rw [he]; exact hem f hf f' hf'
        · rw [he]; rfl
      · rw [hgain e (by simp)]; exact hs.gain
      · intro g hg
        rw [hc.shape.1]
        exact ⟨(hlay g hg).1, (hlay g hg).2.1⟩
      · rw [hc.shape.1]; rfl
  obtain ⟨gs, hgs⟩ := hex
  have hsub := C58_same_gain_partial hgs fun f hf f' hf' => by rw [hgain f hf, hgain f' hf']
  have hkeep := darkSubMaps_keeps hgs
  -- the frames after dark subtraction
  have hA : List.Forall₂ (fun s (g : Fr) => (∀ r c, r < 1024 → c < 1024 → g.data [r, c] =
      d.flat r c * s r c + d.rowread / d.exptime * ((List.range (r + 1)).map fun j => d.flat j c * s j c).sum) ∧
        g.exptime = d.exptime ∧ g.img.shape = [1024, 1024] ∧ g.img.layers ≠ []) ss gs := by
    rw [List.forall₂_iff_get] at hd hsub hkeep ⊢
    have hlen : es.length = fs.length := by rw [hes]; simp
    refine ⟨by rw [hd.1, ← hlen, hsub.1], fun i h1 h2 => ?_⟩
    have hif : i < fs.length := by rw [← hd.1]; exact h1
    have hie : i < es.length := by rw [hlen]; exact hif
    have hm : es.get ⟨i, hie⟩ ∈ es := List.get_mem _ _
    have hm' : fs.get ⟨i, hif⟩ ∈ fs := List.get_mem _ _
    have hee : es.get ⟨i, hie⟩ = emDiv (toElectrons d.kgain ek (fs.get ⟨i, hif⟩)) := by simp [hes]
    obtain ⟨k1, k2, k3⟩ := hkeep.2 i hie h2
    refine ⟨fun r c hr hcc => ?_, k3.trans (hlay _ hm).2.2, k1.trans (hlay _ hm).1, k2⟩
    have e1 := hsub.2 i hie h2 [r, c]
    rw [hgain _ hm, (hlay _ hm).2.2] at e1
    have e2 := C144_electrons hs ek (hh _ hm').gain (hd.2 i h1 hif r c hr hcc)
    rw [hee, e2] at e1
    unfold Maps.dark Detector.charge at e1
    rw [hc.fpn r c hr hcc, hc.dark r c hr hcc, hc.cic r c hr hcc] at e1
    linarith
  have hflat : ∃ out, flatDiv track junk F (gs.map (desmearFr d.rowread)) = .ok out := by
    refine (C39_flat_accepts_iff track junk F _ ?_).2 ?_
    · intro f hf
      obtain ⟨g, hg, rfl⟩ := List.mem_map.1 hf
      obtain ⟨s, _, hsg⟩ := forall₂_left hA.flip hg
      exact hsg.2.2.2
    · intro f hf
      obtain ⟨g, hg, rfl⟩ := List.mem_map.1 hf
      obtain ⟨s, _, hsg⟩ := forall₂_left hA.flip hg
      exact ⟨by rw [hc.shape.2]; rfl, by rw [hc.shape.2]; exact hsg.2.2.1.symm⟩
  obtain ⟨out, hout⟩ := hflat
  refine ⟨out, ?_, ?_⟩
  · unfold l2b
    rw [← hes, hgs]
    dsimp only
    rw [hout]
  · have hdiv := C39_flat hout
    have hmap := mapM_ok_iff.1 hout
    rw [List.forall₂_iff_get] at hA hdiv hmap ⊢
    refine ⟨by rw [hA.1, ← hdiv.1, List.length_map], fun i h1 h2 => ?_⟩
    have hig : i < gs.length := by rw [← hA.1]; exact h1
    have him : i < (gs.map (desmearFr d.rowread)).length := by rw [List.length_map]; exact hig
    obtain ⟨a1, a2, a3, a4⟩ := hA.2 i h1 hig
    obtain ⟨b1, b2, b3, b4⟩ := hdiv.2 i him h2
    have hgm : (gs.map (desmearFr d.rowread)).get ⟨i, him⟩ = desmearFr d.rowread (gs.get ⟨i, hig⟩) := by simp
    rw [hgm] at b1 b4
    have hres := hmap.2 i him h2
    rw [hgm] at hres
    unfold flatFrame at hres
    dsimp only at hres
    refine ⟨fun r c hr hcc hf0 => ?_, ?_, ?_⟩
    · have e1 := b1 [r, c] (by rw [hc.flat r c hr hcc]; exact hf0)
      rw [C144_desmear hs a2 (fun j hj => a1 j c hj hcc) hr, hc.flat r c hr hcc, mul_comm] at e1
      exact mul_left_cancel₀ hf0 e1
    · split at hres
      · cases hres
      · split at hres
        · cases hres
        · have := Except.ok.inj hres
          rw [← this]
          exact a2
    · split at hres
      · cases hres
      · rename_i i1 h1'
        split at hres
        · cases hres
        · rename_i i2 h2'
          have := Except.ok.inj hres
          rw [← this]
          show i2.shape = _
          rw [(Errs.addError_effect (ofErrs_ok h2')).1, (Errs.rescale_effect (ofErrs_ok h1')).1]
          exact a3

/-- `C144_scene`, and what `divide_by_exptime` needs. -/
theorem C144_full {d : Detector} (hs : Sound d) {tab : NonLin.Table ℝ} (ht : NonLin.Good tab) (track : Bool)
    (junk : Ix → ℝ) {off k rowread : ℝ} (offErr ek : ℝ) {m : Maps} {F : Flat} (hc : Calibrated d k rowread m F)
    {ss : List (ℕ → ℕ → ℝ)} {xs : List Raw} (hne : xs ≠ []) (hh : ∀ x ∈ xs, Header d x.fr)
    (hem : ∀ x ∈ xs, ∀ y ∈ xs, x.fr.emC = y.fr.emC)
    (hx : List.Forall₂ (fun s (x : Raw) => Exposes d tab off s x.l1) ss xs) :
    ∃ out, recipe track junk tab off offErr k ek rowread m F xs = .ok out ∧
      List.Forall₂ (fun s (g : Fr) => (∀ r c, r < 1024 → c < 1024 → d.flat r c ≠ 0 → g.data [r, c] = s r c) ∧
        g.exptime = d.exptime ∧ g.img.shape = [1024, 1024]) ss out := by
  have hm : ∃ fs, xs.mapM (l2a tab off offErr) = .ok fs := by
    refine mapM_ok_exists.2 fun x hxm => ?_
    obtain ⟨s, _, hsx⟩ := forall₂_left hx.flip hxm
    obtain ⟨f, hf, _⟩ := C144_l2a ht offErr hsx (hh x hxm).gain
    exact ⟨f, hf⟩
  obtain ⟨fs, hfs⟩ := hm
  have hff := mapM_ok_iff.1 hfs
  have hall : ∀ f ∈ fs, ∃ x ∈ xs, l2a tab off offErr x = .ok f := by
    intro f hf
    obtain ⟨x, hx1, hx2⟩ := forall₂_left hff.flip hf
    exact ⟨x, hx1, hx2⟩
  have hsame : ∀ {x : Raw} {f : Fr}, x ∈ xs → l2a tab off offErr x = .ok f → f = { x.fr with data := f.data } := by
    intro x f hxm hf
    obtain ⟨s, _, hsx⟩ := forall₂_left hx.flip hxm
    obtain ⟨f', hf', _, h3⟩ := C144_l2a ht offErr hsx (hh x hxm).gain
    rw [hf] at hf'
    have := Except.ok.inj hf'
    subst this
    exact h3
  have hH : ∀ f ∈ fs, Header d f := by
    intro f hf
    obtain ⟨x, hxm, hxf⟩ := hall f hf
    have e := hsame hxm hxf
    have hx' := hh x hxm
    rw [e]
    exact ⟨hx'.gain, hx'.exptime, hx'.shape, hx'.layers⟩
  have hE : ∀ f ∈ fs, ∀ g ∈ fs, f.emC = g.emC := by
    intro f hf g hg
    obtain ⟨x, hxm, hxf⟩ := hall f hf
    obtain ⟨y, hym, hyf⟩ := hall g hg
    rw [hsame hxm hxf, hsame hym hyf]
    exact hem x hxm y hym
  have hD : List.Forall₂ (fun s (f : Fr) => ∀ r c, r < 1024 → c < 1024 → f.data [r, c] = d.counts s r c) ss fs := by
    rw [List.forall₂_iff_get] at hx hff ⊢
    refine ⟨hx.1.trans hff.1, fun i h1 h2 => ?_⟩
    have hix : i < xs.length := by rw [hff.1]; exact h2
    obtain ⟨f, hf, hv, _⟩ := C144_l2a ht offErr (hx.2 i h1 hix) (hh _ (List.get_mem _ _)).gain
    have := hff.2 i hix h2
    rw [hf] at this
    rw [← Except.ok.inj this]
    exact hv
  have hfne : fs ≠ [] := by
    intro h0
    have := hff.length_eq
    rw [h0] at this
    exact hne (List.eq_nil_of_length_eq_zero this)
  obtain ⟨out, ho, hp⟩ := C144_l2b hs track junk ek hc hfne hH hE hD
  refine ⟨out, ?_, hp⟩
  unfold recipe
  rw [hfs]
  exact ho

/-- **C144.** On frames without noise, taken by a detector that the calibrations describe, the recipe from L1 to L2b succeeds
and gives the scene in every pixel that sees light. -/
theorem C144_scene {d : Detector} (hs : Sound d) {tab : NonLin.Table ℝ} (ht : NonLin.Good tab) (track : Bool)
    (junk : Ix → ℝ) {off k rowread : ℝ} (offErr ek : ℝ) {m : Maps} {F : Flat} (hc : Calibrated d k rowread m F)
    {ss : List (ℕ → ℕ → ℝ)} {xs : List Raw} (hne : xs ≠ []) (hh : ∀ x ∈ xs, Header d x.fr)
    (hem : ∀ x ∈ xs, ∀ y ∈ xs, x.fr.emC = y.fr.emC)
    (hx : List.Forall₂ (fun s (x : Raw) => Exposes d tab off s x.l1) ss xs) :
    ∃ out, recipe track junk tab off offErr k ek rowread m F xs = .ok out ∧
      List.Forall₂ (fun s (g : Fr) => ∀ r c, r < 1024 → c < 1024 → d.flat r c ≠ 0 → g.data [r, c] = s r c) ss out := by
  obtain ⟨out, ho, hp⟩ := C144_full hs ht track junk offErr ek hc hne hh hem hx
  exact ⟨out, ho, hp.imp fun s g h => h.1⟩

/-- **C144.** Dividing by the exposure time afterwards (`divide_by_exptime`) gives the rate. -/
theorem C144_rate {d : Detector} (hs : Sound d) {tab : NonLin.Table ℝ} (ht : NonLin.Good tab) (track : Bool)
    (junk : Ix → ℝ) {off k rowread : ℝ} (offErr ek : ℝ) {m : Maps} {F : Flat} (hc : Calibrated d k rowread m F)
    {ss : List (ℕ → ℕ → ℝ)} {xs : List Raw} (hne : xs ≠ []) (hh : ∀ x ∈ xs, Header d x.fr)
    (hem : ∀ x ∈ xs, ∀ y ∈ xs, x.fr.emC = y.fr.emC)
    (hx : List.Forall₂ (fun s (x : Raw) => Exposes d tab off s x.l1) ss xs) :
    ∃ out rates, recipe track junk tab off offErr k ek rowread m F xs = .ok out ∧ out.mapM expDiv = .ok rates ∧
      List.Forall₂ (fun s (g : Fr) => ∀ r c, r < 1024 → c < 1024 → d.flat r c ≠ 0 → g.data [r, c] = s r c / d.exptime)
        ss rates := by
  obtain ⟨out, ho, hp⟩ := C144_full hs ht track junk offErr ek hc hne hh hem hx
  have hr : ∃ rates, out.mapM expDiv = .ok rates := by
    refine mapM_ok_exists.2 fun g hg => ?_
    obtain ⟨s, _, _, _, h3⟩ := forall₂_left hp.flip hg
    exact (C46_exptime_accepts_iff g).2 (by rw [h3]; rfl)
  obtain ⟨rates, hr⟩ := hr
  refine ⟨out, rates, ho, hr, ?_⟩
  have hq := mapM_ok_iff.1 hr
  rw [List.forall₂_iff_get] at hp hq ⊢
  refine ⟨hp.1.trans hq.1, fun i h1 h2 r c hrr hcc hf => ?_⟩
  have hi : i < out.length := by rw [hq.1]; exact h2
  obtain ⟨p1, p2, _⟩ := hp.2 i h1 hi
  rw [(expDiv_eq (hq.2 i hi h2)).1]
  dsimp only
  rw [p1 r c hrr hcc hf, p2]

/-- **C144.** The noise maps that `calibrate_darks_lsq` makes of frames without light, taken by the same detector at other
gains and exposure times, are those that `Calibrated` asks for. -/
theorem C144_maps (d : Detector) (hk : d.kgain ≠ 0) {L : List Darks.Setting} (hl : Darks.checkStacks L = .ok ())
    (hid : Darks.Identifiable L) {r c : ℕ} (hC : 0 ≤ d.cic r c) (hD : 0 ≤ d.dark r c) :
    Darks.noiseMaps L false true
        (fun i => d.kgain * ({ d with gain := (L.get i).g, exptime := (L.get i).t } : Detector).counts (fun _ _ => 0) r c)
      = .ok ⟨some (d.fpn r c), some (d.cic r c), some (d.dark r c)⟩ := by
  refine (Darks.C33_roundtrip hl hid true _ _ _ _ hC hD (by simp) fun i => ?_).1
  unfold Detector.counts Detector.charge
  simp only [mul_zero, List.map_const', List.sum_replicate, smul_zero, zero_add]
  field_simp
  ring

/-! ## The order of the steps -/

/-- **C144.** The order of the last two steps matters: a column of two pixels of sensitivities 1 and 2 and a scene of one
electron each; divided by the flat before it is desmeared, it does not give the scene. -/
theorem C144_order : ∃ (rr te : ℝ) (flat s : List ℝ), 1 + rr / te ≠ 0 ∧ (∀ v ∈ flat, v ≠ 0) ∧
    List.zipWith (· / ·) (Desmear.desmearCol rr te (Desmear.observe (rr / te) (List.zipWith (· * ·) flat s))) flat = s ∧
    Desmear.desmearCol rr te (List.zipWith (· / ·) (Desmear.observe (rr / te) (List.zipWith (· * ·) flat s)) flat) ≠ s := by
  refine ⟨1, 1, [1, 2], [1, 1], by norm_num, by simp, ?_, ?_⟩
  · rw [Desmear.C25_inverse 1 1 (by norm_num)]
    norm_num
  · intro h
    have h1 := congrArg (fun l => (l[1]?).getD 0) h
    norm_num [Desmear.desmearCol, Desmear.observe, Desmear.smear, List.range_succ, List.range_zero] at h1

/-! ## Non-vacuity -/

/-- The table of a linear amplifier. -/
def linear : NonLin.Table ℝ := ⟨[1, 2], [(0, [1, 1]), (1, [1, 1])]⟩

theorem linear_good : NonLin.Good linear := by
  refine ⟨by simp [linear], by simp [linear, NonLin.Table.counts], by simp [linear], by simp [linear], ?_⟩
  intro j hj
  have hj' : j < 2 := hj
  interval_cases j <;> simp [linear, NonLin.Table.column]

theorem linear_relgain (g v : ℝ) : NonLin.relgain linear g v = 1 := by
  have hb : ∀ c, NonLin.bilinear linear g c = 1 := by
    intro c
    simp only [NonLin.bilinear, linear, List.map_cons, List.map_nil, List.zip_cons_cons, List.zip_nil_right,
      NonLin.interp, sub_self, zero_mul, add_zero, ite_self]
  unfold NonLin.relgain NonLin.curve
  rw [show NonLin.bilinear linear g = fun _ => 1 from funext hb]
  simp [linear, NonLin.Table.counts, NonLin.interp]

/-- Any scene can be exposed, with any bias of the rows. -/
def expose (d : Detector) (b : ℕ → ℝ) (off : ℝ) (s : ℕ → ℕ → ℝ) : L1 :=
  ⟨some "SCI", ⟨1200, 2200, fun r c => if c < 1088 then some (b r + off) else some (d.counts s (r - 13) (c - 1088) + b r)⟩,
    [], ⟨1200, 2200, fun _ _ => 0⟩⟩

theorem C144_exposes (d : Detector) (b : ℕ → ℝ) (off : ℝ) (s : ℕ → ℕ → ℝ) : Exposes d linear off s (expose d b off s) := by
  refine ⟨rfl, ⟨rfl, rfl⟩, ⟨rfl, rfl⟩, by simp [expose], b, fun r c _ h => ?_, fun r c _ _ => ⟨d.counts s r c, ?_, ?_⟩⟩
  · show (if c < 1088 then _ else _) = _
    rw [if_pos (by omega)]
  · show (if 1088 + c < 1088 then _ else _) = _
    rw [if_neg (by omega), Nat.add_sub_cancel_left, Nat.add_sub_cancel_left]
  · rw [linear_relgain, mul_one]

/-- A detector with all effects, its calibrations and a header. -/
example : ∃ (d : Detector) (m : Maps) (F : Flat) (f : Fr), Sound d ∧ Calibrated d 8 (1 / 1000) m F ∧ Header d f ∧
    d.flat 0 0 ≠ 1 ∧ d.dark 0 0 ≠ 0 ∧ d.fpn 0 0 ≠ 0 ∧ d.cic 0 0 ≠ 0 :=
  ⟨⟨fun _ _ => 1 / 2, 1 / 1000, 10, fun _ _ => 1, fun _ _ => 2, fun _ _ => 3, 100, 8⟩,
    ⟨[1024, 1024], fun _ => 3, fun _ => 2, fun _ => 1, fun _ => 0, fun _ => 0, fun _ => 0, fun _ => 0, fun _ => 0, fun _ => 0⟩,
    ⟨[1024, 1024], fun _ => 1 / 2, fun _ => 0⟩,
    ⟨fun _ => 0, ⟨[1024, 1024], [fun _ => 0], fun _ => none, []⟩, fun _ => 0, 10, 100, 100, none, 8, "DN"⟩,
    ⟨by norm_num, by norm_num, by norm_num⟩,
    ⟨rfl, rfl, ⟨rfl, rfl⟩, fun _ _ _ _ => rfl, fun _ _ _ _ => rfl, fun _ _ _ _ => rfl, fun _ _ _ _ => rfl,
      fun _ => by norm_num, fun _ => by norm_num⟩,
    ⟨by simp [emGain], rfl, rfl, by simp⟩, by norm_num, by norm_num, by norm_num, by norm_num⟩

end Corgi.EndToEnd

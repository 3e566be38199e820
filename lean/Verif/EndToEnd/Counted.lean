import Verif.EndToEnd.L2b
import Verif.PhotonCount.PcDark
import Verif.PhotonCount.Limit

/-!
# Photon counting from raw frames and raw darks to the scene (C190)

The recipes `l1_to_l2b_pc_dark.json` and `l1_to_l2b_pc.json` (`/repo/corgidrp/recipe_templates`): every raw frame goes through
`prescan_biassub` and `correct_nonlinearity` (model `EndToEnd.l2a`) and `convert_to_electrons` (model `Arith.toElectrons`), a stack of
them through `get_pc_mean` (model `Pc.getPcMean`, photon_counting.py 64-335); the darks end there, the light frames get the master dark
subtracted, then `desmear` and `flat_division`. As in `EndToEnd.l2b` the steps that leave the values of unflagged pixels alone are left
out; what `detect_cosmic_rays` does is in the flags of the shots, which `get_pc_mean` masks. No frame is rejected by `frame_select`.
No mask file is given, `bin_size` is not set.
-/

noncomputable section

namespace Corgi.Counted

open Corgi.Det Corgi.Arith Corgi.EndToEnd Real Filter Topology

/-! ## Model -/

/-- A raw frame with what only `get_pc_mean` reads: file name, RN, VISTYPE, ISPC and the flags of the pixels. -/
structure Shot where
  raw : Raw
  name : String
  rn : ℝ
  vistype : String
  ispc : Option Bool
  dq : ℕ → ℕ → ℕ

/-- The frame in electrons as `get_pc_mean` sees it; pixel `p` is that of row `p / 1024` and column `p % 1024`. -/
def pcFrame (x : Shot) (f : Fr) : Pc.Frame :=
  { name := x.name
    hdr := { exptime := f.exptime, emC := f.emC, kgain := f.kgain, rn := x.rn, emA := f.emA, emM := f.emM, vistype := x.vistype,
             ispc := x.ispc }
    data := fun p => some (f.data [p / 1024, p % 1024])
    err := fun p => f.img.layers.head?.map fun l => l [p / 1024, p % 1024]
    dq := fun p => x.dq (p / 1024) (p % 1024) }

inductive Err
  | l1 (e : EndToEnd.Err) | pc (e : Pc.Err) | kind | empty | flat (e : Arith.Err)

/-- The steps up to `convert_to_electrons`. -/
def electrons (tab : NonLin.Table ℝ) (off offErr k ek : ℝ) (xs : List Shot) : Except Err (List Fr) :=
  match xs.mapM fun x => l2a tab off offErr x.raw with
  | .error e => .error (.l1 e)
  | .ok fs => .ok (fs.map (toElectrons k ek))

/-- The settings of `get_pc_mean`: T_factor and the largest mean come from DetectorParams, the rest are its defaults. -/
def params (T emax : ℝ) (niter npix : ℕ) (mode : String) (dark : Option Pc.MasterDark) : Pc.Params :=
  { tFactor := T, ecountMax := emax, niter := niter, npix := npix, considered := fun _ => true, safemode := true, mode := mode,
    dark := dark }

/-- `l1_to_l2b_pc_dark.json` -/
def darkRecipe (T emax : ℝ) (niter : ℕ) (tab : NonLin.Table ℝ) (off offErr k ek : ℝ) (xs : List Shot) :
    Except Err Pc.MasterDark :=
  match electrons tab off offErr k ek xs with
  | .error e => .error e
  | .ok fs =>
    match Pc.getPcMean (params T emax niter (1024 * 1024) "darks" none) none (List.zipWith pcFrame xs fs) with
    | .error e => .error (.pc e)
    | .ok o =>
      match Pc.masterDark o with
      | none => .error .kind
      | some d => .ok d

/-- lines 303-318 of photon_counting.py: the image of a bin has the headers of the last frame. (A NaN would be 0 here; the theorems
are about pixels that have a value.) -/
def pcImage (f : Fr) (s : Pc.Slice) : Fr :=
  { f with
    data := fun p => match p with
      | [r, c] => (s.mean (r * 1024 + c)).getD 0
      | _ => 0
    img := { f.img with shape := [1024, 1024], layers := [fun p => match p with
      | [r, c] => (s.err (r * 1024 + c)).getD 0
      | _ => 0] }
    dq := fun p => match p with
      | [r, c] => s.dq (r * 1024 + c)
      | _ => 0 }

/-- `l1_to_l2b_pc.json` -/
def lightRecipe (T emax : ℝ) (niter : ℕ) (tab : NonLin.Table ℝ) (off offErr k ek rowread : ℝ) (track : Bool) (junk : Ix → ℝ) (F : Flat)
    (d : Pc.MasterDark) (xs : List Shot) : Except Err (List Fr) :=
  match electrons tab off offErr k ek xs with
  | .error e => .error e
  | .ok fs =>
    match Pc.getPcMean (params T emax niter (1024 * 1024) "illuminated" (some d)) none (List.zipWith pcFrame xs fs) with
    | .error e => .error (.pc e)
    | .ok (.dark _ _ _ _) => .error .kind
    | .ok (.illuminated out) =>
      match fs.getLast? with
      | none => .error .empty
      | some f =>
        match flatDiv track junk F ((out.map (pcImage f)).map (desmearFr rowread)) with
        | .error e => .error (.flat e)
        | .ok gs => .ok gs

/-! ## Specification -/

/-- `x` is a raw science frame in which the register gave `e r c` electrons to the pixels: every row has a bias that is seen in the
prescan up to the offset, the response is the one that `tab` describes, a count is `k` electrons. -/
structure Registers (tab : NonLin.Table ℝ) (off k g : ℝ) (e : ℕ → ℕ → ℝ) (x : L1) : Prop where
  mode : x.arrtype = some "SCI"
  size : x.data.nr = 1200 ∧ x.data.nc = 2200
  sizeDq : x.dq.nr = 1200 ∧ x.dq.nc = 2200
  sizeErr : ∀ e ∈ x.err, e.nr = 1200 ∧ e.nc = 2200
  pixels : ∃ b : ℕ → ℝ, (∀ r c, 800 ≤ c → c < 1000 → x.data.px r c = some (b r + off)) ∧
    ∀ r c, r < 1024 → c < 1024 → ∃ v, x.data.px (13 + r) (1088 + c) = some (v + b (13 + r)) ∧
      v * NonLin.relgain tab g v * k = e r c

/-- What was registered, with the frame. -/
abbrev Seen := (ℕ → ℕ → ℝ) × Shot

/-- The error of a pixel in electrons, from the first error of the raw frame and that of the K gain. -/
def sigma (k ek : ℝ) (y : Seen) (r c : ℕ) : ℝ :=
  match y.2.raw.fr.img.layers with
  | [] => 0
  | l :: _ => sqrt ((k * l [r, c]) ^ 2 + (y.1 r c / k * ek) ^ 2)

/-- Frames in which the pixel is not flagged. -/
def valid (L : List Seen) (r c : ℕ) : ℕ := (L.filter fun y => decide (y.2.dq r c = 0)).length

open Classical in
/-- Of those, the ones with more electrons than `t`, when `b` errors are added. -/
def hits (t k ek b : ℝ) (L : List Seen) (r c : ℕ) : ℕ :=
  (L.filter fun y => decide (y.2.dq r c = 0 ∧ t < y.1 r c + b * sigma k ek y r c)).length

/-- The settings that two stacks have in common. -/
structure Setting where
  exptime : ℝ
  emC : ℝ
  gain : ℝ
  rn : ℝ

/-- A stack of frames of one kind that can be counted: same settings; every pixel is valid in some frame; the corrected fraction of
detections is at most the limit `lim` of the correction or at least 1 (also with the errors added and subtracted, see C150); the mean is
at most the allowed one. -/
structure Stack (tab : NonLin.Table ℝ) (off k ek T emax lim : ℝ) (w : Setting) (vis : String) (L : List Seen) : Prop where
  ne : L ≠ []
  shows : ∀ y ∈ L, Registers tab off k w.gain y.1 y.2.raw.l1
  setting : ∀ y ∈ L, y.2.raw.fr.exptime = w.exptime ∧ y.2.raw.fr.emC = w.emC ∧ emGain y.2.raw.fr = w.gain ∧ y.2.rn = w.rn
  kind : ∀ y ∈ L, y.2.vistype = vis ∧ y.2.ispc ≠ some false ∧ y.2.raw.fr.img.layers ≠ []
  valid : ∀ r c, r < 1024 → c < 1024 → valid L r c ≠ 0
  few : ∀ b ∈ ([0, 1, -1] : List ℝ), ∀ r c, r < 1024 → c < 1024 →
    (hits (T * w.rn) k ek b L r c : ℝ) / Counted.valid L r c * exp (T * w.rn / w.gain) ≤ lim ∨
      1 ≤ (hits (T * w.rn) k ek b L r c : ℝ) / Counted.valid L r c * exp (T * w.rn / w.gain)
  mean : ((List.range (1024 * 1024)).map fun p => (L.map fun y => y.1 (p / 1024) (p % 1024)).sum).sum
    ≤ emax * w.gain * ((1024 * 1024 : ℕ) * L.length)

/-- The flux `S` (electrons per frame before the register) explains the detections of the stack: their number is the number of valid
frames times the probability of a detection given at most three electrons. -/
def Explains (t k ek g : ℝ) (S : ℕ → ℕ → ℝ) (L : List Seen) : Prop :=
  ∀ r c, r < 1024 → c < 1024 → 0 ≤ S r c ∧ (hits t k ek 0 L r c : ℝ) = valid L r c * Pc.efficiency (t / g) (S r c)

/-- The light of the scene in a pixel: with its sensitivity, and what it collects while the frame is shifted out. -/
def light (flat : ℕ → ℕ → ℝ) (rho : ℝ) (s : ℕ → ℕ → ℝ) (r c : ℕ) : ℝ :=
  flat r c * s r c + rho * ((List.range (r + 1)).map fun i => flat i c * s i c).sum

/-! ## Raw frames to electrons -/

/-- The frame in electrons. -/
structure Made (k ek : ℝ) (y : Seen) (f : Fr) : Prop where
  data : ∀ r c, r < 1024 → c < 1024 → f.data [r, c] = y.1 r c
  err : ∀ r c, r < 1024 → c < 1024 → (f.img.layers.head?.map fun l => l [r, c]) = some (sigma k ek y r c)
  exptime : f.exptime = y.2.raw.fr.exptime
  emC : f.emC = y.2.raw.fr.emC
  gain : emGain f = emGain y.2.raw.fr
  kgain : f.kgain = k

theorem l2a_counts {tab : NonLin.Table ℝ} (ht : NonLin.Good tab) {off k g : ℝ} (offErr : ℝ) {e : ℕ → ℕ → ℝ} {x : Raw}
    (hx : Registers tab off k g e x.l1) (hg : emGain x.fr = g) :
    ∃ f, l2a tab off offErr x = .ok f ∧ (∀ r c, r < 1024 → c < 1024 → f.data [r, c] * k = e r c) ∧
      f = { x.fr with data := f.data } := by
  obtain ⟨o, ho, hb⟩ := C26_sci off offErr x.l1 hx.mode hx.size hx.sizeDq hx.sizeErr
  have hn := NonLin.C32_step tab ht none ⟨hdr x.fr, ravel o.data, ravel o.dq⟩ _ (hdr_gain x.fr)
  unfold l2a
  rw [ho]
  dsimp only
  rw [hn]
  refine ⟨_, rfl, fun r c hr hc => ?_, rfl⟩
  dsimp only
  rw [unravel_map (by rw [hb.shape.1]; exact hr) (by rw [hb.shape.2.1]; exact hc), hb.data r c hr hc]
  obtain ⟨b, hpre, himg⟩ := hx.pixels
  obtain ⟨v, hv, hl⟩ := himg r c hr hc
  rw [hv, rowBias_const (hpre (13 + r)), ← hl, ← hg]
  simp [sub]

theorem made {tab : NonLin.Table ℝ} (ht : NonLin.Good tab) {off k g : ℝ} (hk : k ≠ 0) (offErr ek : ℝ) {y : Seen}
    (hx : Registers tab off k g y.1 y.2.raw.l1) (hg : emGain y.2.raw.fr = g) (hl : y.2.raw.fr.img.layers ≠ []) :
    ∃ f, l2a tab off offErr y.2.raw = .ok f ∧ Made k ek y (toElectrons k ek f) := by
  obtain ⟨f, h1, h2, h3⟩ := l2a_counts ht offErr hx hg
  refine ⟨f, h1, ⟨h2, fun r c hr hc => ?_, ?_, ?_, ?_, rfl⟩⟩
  · have h4 : f.img.layers = y.2.raw.fr.img.layers := by rw [h3]
    have h5 : f.data [r, c] = y.1 r c / k := by rw [eq_div_iff hk]; exact h2 r c hr hc
    unfold toElectrons sigma
    dsimp only
    rw [h4]
    cases hc : y.2.raw.fr.img.layers with
    | nil => exact absurd hc hl
    | cons l ls => simp [h5]
  · show f.exptime = _
    rw [h3]
  · show f.emC = _
    rw [h3]
  · show emGain f = _
    rw [h3]
    rfl

theorem electrons_made {tab : NonLin.Table ℝ} (ht : NonLin.Good tab) {off k g : ℝ} (hk : k ≠ 0) (offErr ek : ℝ) {L : List Seen}
    (hx : ∀ y ∈ L, Registers tab off k g y.1 y.2.raw.l1) (hg : ∀ y ∈ L, emGain y.2.raw.fr = g)
    (hl : ∀ y ∈ L, y.2.raw.fr.img.layers ≠ []) :
    ∃ fs, electrons tab off offErr k ek (L.map Prod.snd) = .ok fs ∧ List.Forall₂ (Made k ek) L fs := by
  have key : ∃ fs, (L.map Prod.snd).mapM (fun x => l2a tab off offErr x.raw) = .ok fs ∧
      List.Forall₂ (fun y f => Made k ek y (toElectrons k ek f)) L fs := by
    induction L with
    | nil => exact ⟨[], rfl, .nil⟩
    | cons y L ih =>
      obtain ⟨f, h1, h2⟩ := made ht hk offErr ek (hx y List.mem_cons_self) (hg y List.mem_cons_self) (hl y List.mem_cons_self)
      obtain ⟨fs, h3, h4⟩ := ih (fun z hz => hx z (List.mem_cons_of_mem _ hz)) (fun z hz => hg z (List.mem_cons_of_mem _ hz))
        (fun z hz => hl z (List.mem_cons_of_mem _ hz))
      refine ⟨f :: fs, ?_, .cons h2 h4⟩
      rw [List.map_cons, List.mapM_cons, h1, h3]
      rfl
  obtain ⟨fs, h1, h2⟩ := key
  unfold electrons
  rw [h1]
  refine ⟨_, rfl, ?_⟩
  rw [List.forall₂_map_right_iff]
  exact h2

/-! ## The frames of `get_pc_mean` -/

theorem pix {r c : ℕ} (hc : c < 1024) : (r * 1024 + c) / 1024 = r ∧ (r * 1024 + c) % 1024 = c := by omega

/-- What `get_pc_mean` has of a frame. -/
structure Seeing (k ek : ℝ) (y : Seen) (f : Pc.Frame) : Prop where
  data : ∀ r c, r < 1024 → c < 1024 → f.data (r * 1024 + c) = some (y.1 r c)
  err : ∀ r c, r < 1024 → c < 1024 → f.err (r * 1024 + c) = some (sigma k ek y r c)
  dq : ∀ r c, c < 1024 → f.dq (r * 1024 + c) = y.2.dq r c
  hdr : f.hdr.exptime = y.2.raw.fr.exptime ∧ f.hdr.emC = y.2.raw.fr.emC ∧ f.hdr.kgain = k ∧ f.hdr.rn = y.2.rn ∧
    Pc.emGain f.hdr = emGain y.2.raw.fr ∧ f.hdr.vistype = y.2.vistype ∧ f.hdr.ispc = y.2.ispc
  name : f.name = y.2.name

theorem seeing {k ek : ℝ} {L : List Seen} {fs : List Fr} (h : List.Forall₂ (Made k ek) L fs) :
    List.Forall₂ (Seeing k ek) L (List.zipWith pcFrame (L.map Prod.snd) fs) := by
  induction h with
  | nil => exact .nil
  | cons h _ ih =>
    rename_i y f L fs _
    refine .cons ⟨?_, ?_, ?_, ⟨h.exptime, h.emC, h.kgain, rfl, h.gain, rfl, rfl⟩, rfl⟩ ih
    · intro r c hr hc
      obtain ⟨h1, h2⟩ := pix (r := r) hc
      simp only [pcFrame, h1, h2]
      rw [h.data r c hr hc]
    · intro r c hr hc
      obtain ⟨h1, h2⟩ := pix (r := r) hc
      simp only [pcFrame, h1, h2]
      exact h.err r c hr hc
    · intro r c hc
      obtain ⟨h1, h2⟩ := pix (r := r) hc
      simp only [pcFrame, h1, h2]

theorem filter_length {α β : Type} {R : α → β → Prop} {p : α → Bool} {q : β → Bool} {l : List α} {m : List β}
    (h : List.Forall₂ R l m) (hpq : ∀ a b, R a b → p a = q b) : (l.filter p).length = (m.filter q).length := by
  induction h with
  | nil => rfl
  | cons h _ ih =>
    rename_i a b l m _
    rw [List.filter_cons, List.filter_cons, hpq a b h]
    split
    · rw [List.length_cons, List.length_cons, ih]
    · exact ih

theorem nframes_eq {k ek : ℝ} {L : List Seen} {fs : List Pc.Frame} (h : List.Forall₂ (Seeing k ek) L fs) {r c : ℕ} (hc : c < 1024) :
    Pc.nframes fs (r * 1024 + c) = valid L r c := by
  rw [Pc.nansum_boolMap]
  unfold valid
  refine (filter_length h fun y f hy => ?_).symm
  rw [hy.dq r c hc]

theorem coadd_eq {k ek t : ℝ} {L : List Seen} {fs : List Pc.Frame} (h : List.Forall₂ (Seeing k ek) L fs) {r c : ℕ} (hr : r < 1024)
    (hc : c < 1024) :
    Pc.coadd t Pc.Frame.data fs (r * 1024 + c) = hits t k ek 0 L r c ∧
    Pc.coadd t Pc.plus fs (r * 1024 + c) = hits t k ek 1 L r c ∧
    Pc.coadd t Pc.minus fs (r * 1024 + c) = hits t k ek (-1) L r c := by
  classical
  refine ⟨?_, ?_, ?_⟩ <;> rw [Pc.C35_coadd] <;> unfold hits <;> refine (filter_length h fun y f hy => ?_).symm <;>
    rw [hy.dq r c hc] <;> congr 1
  · rw [hy.data r c hr hc]
    simp
  · unfold Pc.plus
    rw [hy.data r c hr hc, hy.err r c hr hc]
    simp
  · unfold Pc.minus
    rw [hy.data r c hr hc, hy.err r c hr hc]
    simp [← sub_eq_add_neg]

/-! ## The call succeeds -/

theorem corr_exists {P : Pc.Params} {t g lim : ℝ} {fs : List Pc.Frame} {v : Pc.Frame → ℕ → Option ℝ} (ht : 0 < t) (hg : 0 < g)
    (htg : t ≤ g) (hlim : Pc.Limit t g lim) (hc : ∃ p < P.npix, P.considered p = true)
    (h : ∀ p < P.npix, (Pc.coadd t v fs p : ℝ) / Pc.nframes fs p * exp (t / g) ≤ lim ∨
      1 ≤ (Pc.coadd t v fs p : ℝ) / Pc.nframes fs p * exp (t / g)) : ∃ m, Pc.corr P t g fs v = .ok m := by
  have := (Pc.C150_image_iff ht hg htg hlim
    (px := (List.range P.npix).map fun p => (Pc.coadd t v fs p, Pc.nframes fs p, P.considered p)) (by
      obtain ⟨p, hp, hcp⟩ := hc
      exact ⟨_, List.mem_map.2 ⟨p, List.mem_range.2 hp, rfl⟩, hcp⟩) (by
      intro q hq
      obtain ⟨p, _, rfl⟩ := List.mem_map.1 hq
      exact Pc.C35_le t v fs p)).2 (by
      intro q hq _ _
      obtain ⟨p, hp, rfl⟩ := List.mem_map.1 hq
      exact h p (List.mem_range.1 hp)) P.niter
  obtain ⟨out, ho⟩ := this
  unfold Pc.corr
  rw [ho]
  exact ⟨_, rfl⟩

theorem pcBin_exists {P : Pc.Params} (hd : P.dark = none) {i : ℕ} {f0 : Pc.Frame} {l : List Pc.Frame} {lim : ℝ}
    (hsame : ∀ f ∈ f0 :: l, f.hdr.exptime = f0.hdr.exptime ∧ f.hdr.emC = f0.hdr.emC ∧ f.hdr.kgain = f0.hdr.kgain ∧
      f.hdr.rn = f0.hdr.rn ∧ f.hdr.vistype = f0.hdr.vistype)
    (hmode : P.mode = if f0.hdr.vistype = "DARK" then "darks" else "illuminated") (hpc : f0.hdr.ispc ≠ some false)
    (hT : 0 < P.tFactor) (hrn : 0 < f0.hdr.rn) (htg : P.tFactor * f0.hdr.rn < Pc.emGain f0.hdr)
    (hlim : Pc.Limit (P.tFactor * f0.hdr.rn) (Pc.emGain f0.hdr) lim) (hc : ∃ p < P.npix, P.considered p = true)
    (hmean : (((((List.range P.npix).filter P.considered).flatMap fun p => (f0 :: l).filterMap fun f => f.data p).map
      (· / Pc.emGain f0.hdr)).sum / (((List.range P.npix).filter P.considered).flatMap fun p =>
        (f0 :: l).filterMap fun f => f.data p).length ≤ P.ecountMax))
    (h : ∀ v ∈ [Pc.Frame.data, Pc.plus, Pc.minus], ∀ p < P.npix, (Pc.coadd (P.tFactor * f0.hdr.rn) v (f0 :: l) p : ℝ) /
      Pc.nframes (f0 :: l) p * exp (P.tFactor * f0.hdr.rn / Pc.emGain f0.hdr) ≤ lim ∨
      1 ≤ (Pc.coadd (P.tFactor * f0.hdr.rn) v (f0 :: l) p : ℝ) / Pc.nframes (f0 :: l) p *
        exp (P.tFactor * f0.hdr.rn / Pc.emGain f0.hdr)) :
    ∃ s, Pc.pcBin P i (f0 :: l) = .ok s := by
  have ht : 0 < P.tFactor * f0.hdr.rn := mul_pos hT hrn
  have hg : 0 < Pc.emGain f0.hdr := ht.trans htg
  obtain ⟨m, hm⟩ := corr_exists (v := Pc.Frame.data) ht hg htg.le hlim hc (h _ (by simp))
  obtain ⟨up, hup⟩ := corr_exists (v := Pc.plus) ht hg htg.le hlim hc (h _ (by simp))
  obtain ⟨low, hlow⟩ := corr_exists (v := Pc.minus) ht hg htg.le hlim hc (h _ (by simp))
  unfold Pc.pcBin
  dsimp only
  rw [if_neg, if_neg, if_neg, if_neg, if_neg, if_neg hpc, if_neg (not_lt.2 ht.le), if_neg, if_neg, if_neg (not_le.2 hrn), hm]
  · dsimp only
    rw [hup]
    dsimp only
    rw [hlow]
    dsimp only
    unfold Pc.pcFinish
    rw [hd]
    exact ⟨_, rfl⟩
  · rintro ⟨_, h1, _⟩
    exact absurd hmean (not_le.2 h1)
  · rintro ⟨h1, _⟩
    exact absurd htg (not_lt.2 h1)
  · rintro ⟨h1, h2⟩
    rw [if_neg h1] at hmode
    exact h2 hmode
  · rintro ⟨_, h2⟩
    rw [hd] at h2
    cases h2
  · rintro ⟨h1, h2⟩
    rw [if_pos h1] at hmode
    exact h2 hmode
  · rw [List.any_eq_true]
    rintro ⟨f, hf, h1⟩
    exact (of_decide_eq_true h1) (hsame f hf).2.2.2.2
  · rw [List.any_eq_true]
    rintro ⟨f, hf, h1⟩
    obtain ⟨a, b, c, d, _⟩ := hsame f hf
    exact (of_decide_eq_true h1) (by rw [a, b, c, d])

/-- One bin with all frames. -/
theorem getPcMean_one {P : Pc.Params} {fs : List Pc.Frame} {s : Pc.Slice} (hn : 1 ≤ P.niter) (hne : fs ≠ [])
    (h : Pc.pcBin P 0 fs = .ok s) :
    Pc.getPcMean P none fs = .ok (if s.vistype ≠ "DARK" then .illuminated [s]
      else .dark [s] s.thresh s.numFr (fs.map Pc.Frame.name)) := by
  have hl : 0 < fs.length := List.length_pos_of_ne_nil hne
  have hb : Pc.binFrames fs.length 0 fs = fs := by
    unfold Pc.binFrames
    simp
  unfold Pc.getPcMean
  rw [if_neg (by omega)]
  dsimp only [Option.getD_none]
  rw [if_neg (by omega), if_neg (by omega), Int.toNat_natCast, Nat.div_self hl]
  rw [List.range_one, List.mapM_cons, List.mapM_nil, hb, h]
  simp only [Bind.bind, Except.bind, pure, Except.pure, List.getLast?_singleton, Nat.div_one, one_mul, List.take_length]
  split <;> rfl

theorem mean_ok {k ek g emax : ℝ} (hg : 0 < g) {L : List Seen} (hne : L ≠ []) {fs : List Pc.Frame} (h : List.Forall₂ (Seeing k ek) L fs)
    {n : ℕ} (hn : 0 < n) (hn' : n ≤ 1024 * 1024)
    (hm : ((List.range n).map fun p => (L.map fun y => y.1 (p / 1024) (p % 1024)).sum).sum ≤ emax * g * (n * L.length)) :
    (((((List.range n).filter fun _ => true).flatMap fun p => fs.filterMap fun f => f.data p).map (· / g)).sum /
      (((List.range n).filter fun _ => true).flatMap fun p => fs.filterMap fun f => f.data p).length ≤ emax) := by
  have e1 : ∀ p < n, (fs.filterMap fun f => f.data p) = L.map fun y => y.1 (p / 1024) (p % 1024) := by
    intro p hp
    have hp' : p / 1024 * 1024 + p % 1024 = p := by omega
    clear hm hne
    induction h with
    | nil => rfl
    | cons h _ ih =>
      rename_i y f L fs _
      rw [List.filterMap_cons, List.map_cons, ih]
      have := h.data (p / 1024) (p % 1024) (by omega) (by omega)
      rw [hp'] at this
      rw [this]
  rw [List.filter_true]
  have e2 : ((List.range n).flatMap fun p => fs.filterMap fun f => f.data p) =
      (List.range n).flatMap fun p => L.map fun y => y.1 (p / 1024) (p % 1024) := by
    rw [List.flatMap_def, List.flatMap_def]
    congr 1
    exact List.map_congr_left fun p hp => e1 p (List.mem_range.1 hp)
  rw [e2]
  have e3 : ((List.range n).flatMap fun p => L.map fun y => y.1 (p / 1024) (p % 1024)).length = n * L.length := by
    rw [List.length_flatMap]
    simp
  have e4 : (((List.range n).flatMap fun p => L.map fun y => y.1 (p / 1024) (p % 1024)).map (· / g)).sum =
      ((List.range n).map fun p => (L.map fun y => y.1 (p / 1024) (p % 1024)).sum).sum / g := by
    generalize List.range n = I
    have hs : ∀ l : List ℝ, (l.map (· / g)).sum = l.sum / g := by
      intro l
      induction l with
      | nil => simp
      | cons a l ih => rw [List.map_cons, List.sum_cons, ih, List.sum_cons, add_div]
    rw [hs]
    congr 1
    induction I with
    | nil => rfl
    | cons p I ih => rw [List.flatMap_cons, List.sum_append, List.map_cons, List.sum_cons, ih]
  have hL : (0 : ℝ) < n * L.length := by
    have := List.length_pos_of_ne_nil hne
    positivity
  rw [e3, e4]
  push_cast
  rw [div_le_iff₀ hL, div_le_iff₀ hg]
  linarith

theorem pixels_all {Q : ℕ → Prop} (h : ∀ r c, r < 1024 → c < 1024 → Q (r * 1024 + c)) : ∀ p < 1024 * 1024, Q p := by
  intro p hp
  have := h (p / 1024) (p % 1024) (by omega) (by omega)
  rwa [show p / 1024 * 1024 + p % 1024 = p by omega] at this

theorem some_pixel : ∃ p, p < 1024 * 1024 ∧ (fun _ : ℕ => true) p = true := ⟨0, by omega, rfl⟩

/-- A stack is turned into electrons and counted, whatever the number of iterations. -/
theorem stack_bin {tab : NonLin.Table ℝ} (ht : NonLin.Good tab) {off k ek T emax lim : ℝ} (offErr : ℝ) (hk : k ≠ 0) {w : Setting}
    {vis mode : String} {L : List Seen} (hL : Stack tab off k ek T emax lim w vis L)
    (hmode : mode = if vis = "DARK" then "darks" else "illuminated") (hT : 0 < T) (hrn : 0 < w.rn) (htg : T * w.rn < w.gain)
    (hlim : Pc.Limit (T * w.rn) w.gain lim) :
    ∃ fs ps, electrons tab off offErr k ek (L.map Prod.snd) = .ok fs ∧ ps = List.zipWith pcFrame (L.map Prod.snd) fs ∧
      List.Forall₂ (Made k ek) L fs ∧ List.Forall₂ (Seeing k ek) L ps ∧ ps ≠ [] ∧ ps.length = L.length ∧
      (∃ f0, ps.head? = some f0 ∧ f0.hdr.rn = w.rn ∧ Pc.emGain f0.hdr = w.gain) ∧
      ∀ j, ∃ s, Pc.pcBin (params T emax (j + 1) (1024 * 1024) mode none) 0 ps = .ok s ∧ s.vistype = vis ∧ s.thresh = T * w.rn ∧
        s.numFr = L.length := by
  obtain ⟨fs, hfs, hmade⟩ := electrons_made ht hk offErr ek hL.shows (fun y hy => (hL.setting y hy).2.2.1)
    (fun y hy => (hL.kind y hy).2.2)
  have hsee := seeing hmade
  obtain ⟨ps, hps⟩ : ∃ ps, ps = List.zipWith pcFrame (L.map Prod.snd) fs := ⟨_, rfl⟩
  rw [← hps] at hsee
  have hlen : ps.length = L.length := hsee.length_eq.symm
  have hhdr : ∀ f ∈ ps, f.hdr.exptime = w.exptime ∧ f.hdr.emC = w.emC ∧ f.hdr.kgain = k ∧ f.hdr.rn = w.rn ∧
      Pc.emGain f.hdr = w.gain ∧ f.hdr.vistype = vis ∧ f.hdr.ispc ≠ some false := by
    intro f hf
    obtain ⟨y, hy, h⟩ := forall₂_right hsee hf
    obtain ⟨a1, a2, a3, a4, a5, a6, a7⟩ := h.hdr
    obtain ⟨b1, b2, b3, b4⟩ := hL.setting y hy
    obtain ⟨c1, c2, -⟩ := hL.kind y hy
    exact ⟨a1.trans b1, a2.trans b2, a3, a4.trans b4, a5.trans b3, a6.trans c1, by rw [a7]; exact c2⟩
  cases ps with
  | nil => exact absurd (List.length_eq_zero_iff.1 hlen.symm) hL.ne
  | cons f0 l =>
    obtain ⟨d1, d2, d3, d4, d5, d6, d7⟩ := hhdr f0 List.mem_cons_self
    refine ⟨fs, f0 :: l, hfs, hps, hmade, hsee, List.cons_ne_nil _ _, hlen, ⟨f0, rfl, d4, d5⟩, fun j => ?_⟩
    have hcount : ∀ v ∈ [Pc.Frame.data, Pc.plus, Pc.minus], ∀ p < 1024 * 1024, (Pc.coadd (T * w.rn) v (f0 :: l) p : ℝ) /
        Pc.nframes (f0 :: l) p * exp (T * w.rn / w.gain) ≤ lim ∨
        1 ≤ (Pc.coadd (T * w.rn) v (f0 :: l) p : ℝ) / Pc.nframes (f0 :: l) p * exp (T * w.rn / w.gain) := by
      intro v hv
      apply pixels_all
      intro r c hr hc
      obtain ⟨e1, e2, e3⟩ := coadd_eq (t := T * w.rn) hsee hr hc
      rw [nframes_eq hsee hc]
      simp only [List.mem_cons, List.not_mem_nil, or_false] at hv
      rcases hv with rfl | rfl | rfl
      · rw [e1]; exact hL.few 0 (by simp) r c hr hc
      · rw [e2]; exact hL.few 1 (by simp) r c hr hc
      · rw [e3]; exact hL.few (-1) (by simp) r c hr hc
    have hbin : ∃ s, Pc.pcBin (params T emax (j + 1) (1024 * 1024) mode none) 0 (f0 :: l) = .ok s := by
      refine pcBin_exists (lim := lim) rfl ?_ ?_ d7 hT (by rw [d4]; exact hrn) ?_ ?_ some_pixel ?_ ?_
      · intro f hf
        obtain ⟨g1, g2, g3, g4, g5, g6, -⟩ := hhdr f hf
        exact ⟨g1.trans d1.symm, g2.trans d2.symm, g3.trans d3.symm, g4.trans d4.symm, g6.trans d6.symm⟩
      · rw [d6]; exact hmode
      · rw [d4, d5]; exact htg
      · rw [d4, d5]; exact hlim
      · rw [d5]
        refine mean_ok (n := 1024 * 1024) ((mul_pos hT hrn).trans htg) hL.ne hsee (by norm_num) le_rfl ?_
        exact hL.mean
      · rw [d4, d5]; exact hcount
    obtain ⟨s, hs⟩ := hbin
    obtain ⟨f0', l', m, up, low, hfs', _, _, _, _, _, _, _, _, _, g1, g2, g3, _⟩ := Pc.pcBin_ok hs
    obtain ⟨rfl, rfl⟩ := List.cons.inj hfs'
    refine ⟨s, hs, g3.trans d6, ?_, g2.trans hlen⟩
    rw [g1, d4]
    rfl

/-! ## Both recipes -/

/-- Everything that two stacks of the same threshold give. -/
theorem run {tab : NonLin.Table ℝ} (ht : NonLin.Good tab) {off k ek T emax lim limd rowread : ℝ} (offErr : ℝ) (hk : k ≠ 0)
    {w wd : Setting} {vis : String} {L Ld : List Seen} (hL : Stack tab off k ek T emax lim w vis L) (hvis : vis ≠ "DARK")
    (hD : Stack tab off k ek T emax limd wd "DARK" Ld) (hrnd : wd.rn = w.rn) (hn : L.length ≤ Ld.length)
    (hT : 0 < T) (hrn : 0 < w.rn) (htg : T * w.rn < w.gain) (htgd : T * w.rn < wd.gain)
    (hlim : Pc.Limit (T * w.rn) w.gain lim) (hlimd : Pc.Limit (T * w.rn) wd.gain limd)
    (track : Bool) (junk : Ix → ℝ) {F : Flat} {flat : ℕ → ℕ → ℝ} (hshape : F.shape = [1024, 1024])
    (hF : ∀ r c, r < 1024 → c < 1024 → F.data [r, c] = flat r c) :
    ∃ (ps pd : List Pc.Frame) (s0 sd s : ℕ → Pc.Slice) (names : List String) (d : ℕ → Pc.MasterDark) (g : ℕ → Fr),
      List.Forall₂ (Seeing k ek) L ps ∧ List.Forall₂ (Seeing k ek) Ld pd ∧ pd.length = Ld.length ∧
      (∃ f0, ps.head? = some f0 ∧ f0.hdr.rn = w.rn ∧ Pc.emGain f0.hdr = w.gain) ∧
      (∃ f0, pd.head? = some f0 ∧ f0.hdr.rn = w.rn ∧ Pc.emGain f0.hdr = wd.gain) ∧
      ∀ j, Pc.pcBin (params T emax (j + 1) (1024 * 1024) "illuminated" none) 0 ps = .ok (s0 j) ∧ (s0 j).vistype ≠ "DARK" ∧
        Pc.pcBin (params T emax (j + 1) (1024 * 1024) "darks" none) 0 pd = .ok (sd j) ∧
        Pc.getPcMean (params T emax (j + 1) (1024 * 1024) "darks" none) none pd =
          .ok (.dark [sd j] (T * w.rn) Ld.length names) ∧
        Pc.masterDark (.dark [sd j] (T * w.rn) Ld.length names) = some (d j) ∧
        Pc.pcBin (params T emax (j + 1) (1024 * 1024) "illuminated" (some (d j))) 0 ps = .ok (s j) ∧
        darkRecipe T emax (j + 1) tab off offErr k ek (Ld.map Prod.snd) = .ok (d j) ∧
        lightRecipe T emax (j + 1) tab off offErr k ek rowread track junk F (d j) (L.map Prod.snd) = .ok [g j] ∧
        (∀ r c, r < 1024 → c < 1024 → (g j).dq [r, c] = if flat r c = 0 then 4 else 0) ∧
        ∀ r c, r < 1024 → c < 1024 → flat r c ≠ 0 → (g j).data [r, c] =
          ((Desmear.desmearCol rowread w.exptime ((List.range 1024).map fun i => ((s j).mean (i * 1024 + c)).getD 0))[r]?).getD 0
            / flat r c := by
  obtain ⟨fs, ps, h1, h2, h3, h4, h5, h6, h7, h8⟩ := stack_bin ht offErr hk hL (mode := "illuminated")
    (by rw [if_neg hvis]) hT hrn htg hlim
  obtain ⟨fd, pd, k1, k2, k3, k4, k5, k6, k7, k8⟩ := stack_bin ht offErr hk hD (mode := "darks") rfl hT
    (by rw [hrnd]; exact hrn) (by rw [hrnd]; exact htgd) (by rw [hrnd]; exact hlimd)
  rw [hrnd] at k7 k8
  choose s0 a1 a2 a3 a4 using h8
  choose sd b1 b2 b3 b4 using k8
  have hdk : ∀ j, Pc.getPcMean (params T emax (j + 1) (1024 * 1024) "darks" none) none pd =
      .ok (.dark [sd j] (T * w.rn) Ld.length (pd.map Pc.Frame.name)) := by
    intro j
    rw [getPcMean_one (Nat.le_add_left 1 j) k5 (b1 j), if_neg (by rw [b2 j]; simp), b3, b4]
  have hs : ∀ j, ∃ s, Pc.pcBin (params T emax (j + 1) (1024 * 1024) "illuminated"
      (some ⟨some "photon-counted master dark", some (T * w.rn), Ld.length, [sd j].map fun s => (s.mean, s.err, s.dq)⟩)) 0 ps =
        .ok s := by
    intro j
    exact (Pc.C151_accepted_iff (P := params T emax (j + 1) (1024 * 1024) "illuminated" none) (hdk j) rfl (a1 j)
      (by rw [a2]; exact hvis)).2 ⟨a3 j, by rw [h6]; exact hn⟩
  choose s hs using hs
  obtain ⟨f, hf⟩ : ∃ f, fs.getLast? = some f := by
    have : fs ≠ [] := by
      rintro rfl
      have := h3.length_eq
      exact hL.ne (List.length_eq_zero_iff.1 this)
    exact ⟨_, List.getLast?_eq_some_getLast this⟩
  have hfe : f.exptime = w.exptime := by
    obtain ⟨y, hy, hm⟩ := forall₂_right h3 (List.mem_of_getLast? hf)
    exact hm.exptime.trans (hL.setting y hy).1
  have hg : ∀ j, ∃ g, flatDiv track junk F [desmearFr rowread (pcImage f (s j))] = .ok [g] := by
    intro j
    obtain ⟨out, ho⟩ := (C39_flat_accepts_iff track junk F [desmearFr rowread (pcImage f (s j))] (by
      intro x hx
      rw [List.mem_singleton.1 hx]
      exact List.cons_ne_nil _ _)).2 (by
      intro x hx
      rw [List.mem_singleton.1 hx, hshape]
      exact ⟨rfl, rfl⟩)
    have hl := (mapM_ok_iff.1 ho).length_eq
    obtain ⟨g, rfl⟩ := List.length_eq_one_iff.1 hl.symm
    exact ⟨g, ho⟩
  choose g hg using hg
  refine ⟨ps, pd, s0, sd, s, pd.map Pc.Frame.name, _, g, h4, k4, k6, h7, k7, fun j =>
    ⟨a1 j, by rw [a2]; exact hvis, b1 j, hdk j, rfl, hs j, ?_, ?_, ?_, ?_⟩⟩
  · unfold darkRecipe
    rw [k1]
    dsimp only
    rw [← k2, hdk j]
    rfl
  · have hv : (s j).vistype ≠ "DARK" := by
      obtain ⟨f0, l, m, up, low, hfs, _, hmd, _, _, _, _, _, _, _, g1, g2, g3, _⟩ := Pc.pcBin_ok (hs j)
      intro h
      rw [g3] at h
      rw [if_pos h] at hmd
      exact absurd hmd (show ¬ ("illuminated" = "darks") by decide)
    unfold lightRecipe
    rw [h1]
    dsimp only
    rw [← h2, getPcMean_one (Nat.le_add_left 1 j) h5 (hs j), if_pos hv]
    dsimp only
    rw [hf]
    show (match flatDiv track junk F [desmearFr rowread (pcImage f (s j))] with
      | .error e => Except.error (Err.flat e)
      | .ok gs => .ok gs) = _
    rw [hg j]
  · intro r c hr hc
    have h := C39_flat (hg j)
    rw [List.forall₂_cons] at h
    have hdq : (s j).dq (r * 1024 + c) = 0 := by
      obtain ⟨f0, l, m, up, low, _, _, _, _, _, _, _, _, _, _, _, _, _, _, _, a⟩ := Pc.pcBin_ok (hs j)
      obtain ⟨-, sl, hsl, -, -, hq⟩ := a _ rfl
      obtain ⟨e0, l', m', up', low', _, _, _, _, _, _, _, _, _, _, _, _, _, _, b, _⟩ := Pc.pcBin_ok (b1 j)
      have hsl' : sl = ((sd j).mean, (sd j).err, (sd j).dq) := by
        simpa using hsl.symm
      rw [hq, hsl']
      dsimp only
      rw [(b rfl).2.2, nframes_eq h4 hc, nframes_eq k4 hc, if_neg (hL.valid r c hr hc), if_neg (hD.valid r c hr hc)]
      rfl
    refine Nat.eq_of_testBit_eq fun b => ?_
    rw [h.1.2.1 [r, c] b]
    have : (desmearFr rowread (pcImage f (s j))).dq [r, c] = 0 := hdq
    rw [this, hF r c hr hc, Nat.zero_testBit, Bool.false_or]
    by_cases hfl : flat r c = 0
    · rw [if_pos hfl, testBit_four]
      simp [hfl]
    · rw [if_neg hfl]
      simp [hfl]
  · intro r c hr hc hfl
    have h := C39_flat (hg j)
    rw [List.forall₂_cons] at h
    have h1 := h.1.1 [r, c] (by rw [hF r c hr hc]; exact hfl)
    rw [hF r c hr hc] at h1
    rw [eq_div_iff hfl, h1]
    unfold desmearFr
    dsimp only [pcImage]
    rw [hfe]

theorem tendsto_total {f : ℕ → ℕ → ℝ} {a : ℕ → ℝ} {n : ℕ} (h : ∀ i < n, Tendsto (fun j => f j i) atTop (𝓝 (a i))) :
    Tendsto (fun j => Desmear.total (f j) n) atTop (𝓝 (Desmear.total a n)) := by
  induction n with
  | zero => exact tendsto_const_nhds
  | succ n ih => exact (ih fun i hi => h i (by omega)).add (h n (by omega))

theorem tendsto_desmear (rr te : ℝ) {u : ℕ → ℕ → ℝ} {a : ℕ → ℝ} {n r : ℕ} (hr : r < n)
    (h : ∀ i < n, Tendsto (fun j => u j i) atTop (𝓝 (a i))) :
    Tendsto (fun j => ((Desmear.desmearCol rr te ((List.range n).map (u j)))[r]?).getD 0) atTop
      (𝓝 (((Desmear.desmearCol rr te ((List.range n).map a))[r]?).getD 0)) := by
  have hget : ∀ (b : ℕ → ℝ) (i : ℕ), i < n → (((List.range n).map b)[i]?).getD 0 = b i := by
    intro b i hi
    rw [List.getElem?_map, List.getElem?_range hi]
    rfl
  have e : ∀ b : ℕ → ℝ, ((Desmear.desmearCol rr te ((List.range n).map b))[r]?).getD 0 = b r -
      Desmear.total (fun s => rr / te * (1 + rr / te) ^ (((s : ℤ) + 1) - ((r : ℤ) + 1) - 1) *
        (((List.range n).map b)[s]?).getD 0) (r + 1) := by
    intro b
    rw [Desmear.getD_desmear _ _ _ _ (by simpa using hr), hget b r hr]
    unfold Desmear.smear
    rw [Desmear.foldl_range fun (s : ℕ) => rr / te * (1 + rr / te) ^ (((s : ℤ) + 1) - ((r : ℤ) + 1) - 1) *
        (((List.range n).map b)[s]?).getD 0]
  simp only [e]
  refine (h r hr).sub (tendsto_total fun i hi => ?_)
  have hi' : i < n := by omega
  rw [hget a i hi']
  refine Tendsto.const_mul _ ?_
  simp only [hget _ i hi']
  exact h i hi'

theorem smear_zero (rho : ℝ) {col : ℕ → ℝ} {r : ℕ} (h : ∀ i, i ≤ r → col i = 0) : Desmear.smear rho col r = 0 := by
  unfold Desmear.smear
  rw [Desmear.foldl_range fun (s : ℕ) => rho * (1 + rho) ^ (((s : ℤ) + 1) - ((r : ℤ) + 1) - 1) * col s]
  have : ∀ n, n ≤ r + 1 →
      Desmear.total (fun (s : ℕ) => rho * (1 + rho) ^ (((s : ℤ) + 1) - ((r : ℤ) + 1) - 1) * col s) n = 0 := by
    intro n
    induction n with
    | zero => intro _; rfl
    | succ n ih =>
      intro hn
      unfold Desmear.total
      rw [ih (by omega), h n (by omega)]
      ring
  exact this (r + 1) le_rfl

/-! ## C190 -/

theorem explains_root {t k ek g : ℝ} (hg : g ≠ 0) {S : ℕ → ℕ → ℝ} {L : List Seen} {ps : List Pc.Frame} (h : Explains t k ek g S L)
    (hs : List.Forall₂ (Seeing k ek) L ps) {r c : ℕ} (hr : r < 1024) (hc : c < 1024) :
    Pc.calcFunc (Pc.coadd t Pc.Frame.data ps (r * 1024 + c)) (Pc.nframes ps (r * 1024 + c)) t g (S r c) = 0 := by
  rw [(coadd_eq hs hr hc).1, nframes_eq hs hc]
  unfold Pc.calcFunc
  rw [Pc.C36_efficiency hg, (h r c hr hc).2, sub_self]

/-- **C190.** Raw light frames and raw darks of the same threshold, at least as many darks as light frames: both recipes succeed for every
number of iterations, and with it the product tends to the scene in every pixel that sees light, if the light of the scene and the dark
signal together explain the detections in the light frames and the dark signal alone those in the darks. Exposure time and gain of the
darks may be others. -/
theorem C190_scene {tab : NonLin.Table ℝ} (ht : NonLin.Good tab) {off k ek T emax lim limd rowread : ℝ} (offErr : ℝ) (hk : k ≠ 0)
    {w wd : Setting} {vis : String} {L Ld : List Seen} (hL : Stack tab off k ek T emax lim w vis L) (hvis : vis ≠ "DARK")
    (hD : Stack tab off k ek T emax limd wd "DARK" Ld) (hrnd : wd.rn = w.rn) (hn : L.length ≤ Ld.length)
    (hT : 0 < T) (hrn : 0 < w.rn) (htg : T * w.rn < w.gain) (htgd : T * w.rn < wd.gain)
    (hlim : Pc.Limit (T * w.rn) w.gain lim) (hlimd : Pc.Limit (T * w.rn) wd.gain limd)
    (track : Bool) (junk : Ix → ℝ) {F : Flat} {flat s D : ℕ → ℕ → ℝ} (hshape : F.shape = [1024, 1024])
    (hF : ∀ r c, r < 1024 → c < 1024 → F.data [r, c] = flat r c) (hrho : 1 + rowread / w.exptime ≠ 0)
    (hpos : ∀ r c, r < 1024 → c < 1024 → 0 ≤ light flat (rowread / w.exptime) s r c)
    (hS : Explains (T * w.rn) k ek w.gain (fun r c => light flat (rowread / w.exptime) s r c + D r c) L)
    (hDx : Explains (T * w.rn) k ek wd.gain D Ld) :
    ∃ (d : ℕ → Pc.MasterDark) (g : ℕ → Fr), (∀ j, darkRecipe T emax (j + 1) tab off offErr k ek (Ld.map Prod.snd) = .ok (d j) ∧
        lightRecipe T emax (j + 1) tab off offErr k ek rowread track junk F (d j) (L.map Prod.snd) = .ok [g j]) ∧
      ∀ r c, r < 1024 → c < 1024 → flat r c ≠ 0 → Tendsto (fun j => (g j).data [r, c]) atTop (𝓝 (s r c)) := by
  obtain ⟨ps, pd, s0, sd, sl, names, d, g, h1, h2, h3, ⟨f0, h4, h5, h6⟩, ⟨e0, k4, k5, k6⟩, hj⟩ := run (rowread := rowread) ht offErr hk hL
    hvis hD hrnd hn hT hrn htg htgd hlim hlimd track junk hshape hF
  refine ⟨d, g, fun j => ⟨(hj j).2.2.2.2.2.2.1, (hj j).2.2.2.2.2.2.2.1⟩, fun r c hr hc hfl => ?_⟩
  have htp : 0 < T * w.rn := mul_pos hT hrn
  have hgp : 0 < w.gain := htp.trans htg
  have hgd : 0 < wd.gain := htp.trans htgd
  have hbin : Pc.binFrames Ld.length (0 % 1) pd = pd := by
    unfold Pc.binFrames
    simp [← h3]
  have hpix : ∀ i < 1024, Tendsto (fun j => ((sl j).mean (i * 1024 + c)).getD 0) atTop
      (𝓝 (light flat (rowread / w.exptime) s i c)) := by
    intro i hi
    have hp : i * 1024 + c < 1024 * 1024 := by omega
    obtain ⟨u, hu, hlimu⟩ := Pc.C151_limit (P := fun j => params T emax (j + 1) (1024 * 1024) "illuminated" none)
      (Pd := fun j => params T emax (j + 1) (1024 * 1024) "darks" none) (bin := none) (ds := pd) (fs := ps)
      (out := fun j => [sd j]) (t := T * w.rn) (nf := Ld.length) (i := 0) (ps := names) (d := d) (s0 := s0) (s := sl) (f0 := f0)
      (e0 := e0) (p := i * 1024 + c) (S := light flat (rowread / w.exptime) s i c + D i c) (D := D i c) (nd := 1)
      (fun _ => rfl) (fun _ => rfl) rfl rfl (fun j => (hj j).2.2.2.1) (fun _ => rfl) (fun j => (hj j).2.2.2.2.1)
      (fun j => (hj j).1) (fun j => (hj j).2.1) (fun j => (hj j).2.2.2.2.2.1) hp rfl hp rfl h4 (by rw [h6]; exact hgp)
      (by rw [nframes_eq h1 hc]; exact hL.valid i c hi hc) (hS i c hi hc).1
      (by rw [h5, h6]; exact explains_root hgp.ne' hS h1 hi hc) (by rw [hbin]; exact k4) (by rw [k6]; exact hgd)
      (by rw [hbin, nframes_eq h2 hc]; exact hD.valid i c hi hc) (hDx i c hi hc).1
      (by rw [hbin, k5, k6]; exact explains_root hgd.ne' hDx h2 hi hc)
    rw [add_sub_cancel_right, max_eq_left (hpos i c hi hc)] at hlimu
    refine hlimu.congr fun j => ?_
    rw [hu j]
    rfl
  have hcol := (tendsto_desmear rowread w.exptime hr hpix).div_const (flat r c)
  have hinv := desmear_column hrho (fun i => flat i c * s i c) hr
  unfold light at hcol
  rw [hinv, mul_div_cancel_left₀ _ hfl] at hcol
  refine hcol.congr fun j => ?_
  rw [(hj j).2.2.2.2.2.2.2.2.2 r c hr hc hfl]

/-- **C190, the limit.** Where light frames and darks of the same gain have the same numbers of valid frames and of detections - as where the
fixed pattern alone is above the threshold - in a pixel and in those below it in its column, the product is 0, whatever the scene. -/
theorem C190_blind {tab : NonLin.Table ℝ} (ht : NonLin.Good tab) {off k ek T emax lim limd rowread : ℝ} (offErr : ℝ) (hk : k ≠ 0)
    {w wd : Setting} {vis : String} {L Ld : List Seen} (hL : Stack tab off k ek T emax lim w vis L) (hvis : vis ≠ "DARK")
    (hD : Stack tab off k ek T emax limd wd "DARK" Ld) (hrnd : wd.rn = w.rn) (hgain : wd.gain = w.gain) (hn : L.length ≤ Ld.length)
    (hT : 0 < T) (hrn : 0 < w.rn) (htg : T * w.rn < w.gain) (hlim : Pc.Limit (T * w.rn) w.gain lim)
    (hlimd : Pc.Limit (T * w.rn) w.gain limd)
    (track : Bool) (junk : Ix → ℝ) {F : Flat} {flat : ℕ → ℕ → ℝ} (hshape : F.shape = [1024, 1024])
    (hF : ∀ r c, r < 1024 → c < 1024 → F.data [r, c] = flat r c) :
    ∃ (d : ℕ → Pc.MasterDark) (g : ℕ → Fr), (∀ j, darkRecipe T emax (j + 1) tab off offErr k ek (Ld.map Prod.snd) = .ok (d j) ∧
        lightRecipe T emax (j + 1) tab off offErr k ek rowread track junk F (d j) (L.map Prod.snd) = .ok [g j]) ∧
      ∀ r c, r < 1024 → c < 1024 → flat r c ≠ 0 →
        (∀ i ≤ r, valid L i c = valid Ld i c ∧ hits (T * w.rn) k ek 0 L i c = hits (T * w.rn) k ek 0 Ld i c) →
        ∀ j, (g j).data [r, c] = 0 := by
  obtain ⟨ps, pd, s0, sd, sl, names, d, g, h1, h2, h3, ⟨f0, h4, h5, h6⟩, ⟨e0, k4, k5, k6⟩, hj⟩ := run (rowread := rowread) ht offErr hk hL
    hvis hD hrnd hn hT hrn htg (by rw [hgain]; exact htg) hlim (by rw [hgain]; exact hlimd) track junk hshape hF
  refine ⟨d, g, fun j => ⟨(hj j).2.2.2.2.2.2.1, (hj j).2.2.2.2.2.2.2.1⟩, fun r c hr hc hfl heq j => ?_⟩
  obtain ⟨q1, q2, q3, q4, q5, q6, -, -, -, q7⟩ := hj j
  have hzero : ∀ i, i ≤ r → ((sl j).mean (i * 1024 + c)).getD 0 = 0 := by
    intro i hi
    have hp : i * 1024 + c < 1024 * 1024 := by omega
    obtain ⟨sd', hsd', hm⟩ := Pc.C151_subtract (P := params T emax (j + 1) (1024 * 1024) "illuminated" none) q4 q5 q1 q2 q6
    obtain rfl : sd j = sd' := by
      simpa [Pc.darkOf] using hsd'
    have hmean : (s0 j).mean (i * 1024 + c) = (sd j).mean (i * 1024 + c) := by
      obtain ⟨f0', l', m, up, low, hfs, _, _, _, _, _, _, hmm, _, _, _, _, _, _, g5, _⟩ := Pc.pcBin_ok q1
      obtain ⟨e0', l'', m', up', low', hfs', _, _, _, _, _, _, hmm', _, _, _, _, _, _, g5', _⟩ := Pc.pcBin_ok q3
      obtain rfl : f0' = f0 := by
        rw [hfs] at h4
        exact Option.some.inj h4
      obtain rfl : e0' = e0 := by
        rw [hfs'] at k4
        exact Option.some.inj k4
      rw [(g5 rfl).1, (g5' rfl).1, (Pc.corr_val hmm hp).1, (Pc.corr_val hmm' hp).1]
      rw [h5, h6, k5, k6, hgain]
      have hi' : i < 1024 := by omega
      show Option.map _ (if (Pc.newtonLoop (Pc.coadd (T * w.rn) _ ps _) _ _ _ _).masked = true then _ else _) =
        Option.map _ (if (Pc.newtonLoop (Pc.coadd (T * w.rn) _ pd _) _ _ _ _).masked = true then _ else _)
      simp only [params]
      rw [(coadd_eq h1 hi' hc).1, (coadd_eq h2 hi' hc).1, nframes_eq h1 hc, nframes_eq h2 hc, (heq i hi).1, (heq i hi).2]
      rfl
    rw [hm, hmean]
    cases (sd j).mean (i * 1024 + c) with
    | none => rfl
    | some x => simp
  rw [q7 r c hr hc hfl, div_eq_zero_iff]
  left
  rw [Desmear.getD_desmear _ _ _ _ (by simpa using hr)]
  have hget : ∀ i, i ≤ r → (((List.range 1024).map fun i => ((sl j).mean (i * 1024 + c)).getD 0)[i]?).getD 0 = 0 := by
    intro i hi
    rw [List.getElem?_map, List.getElem?_range (by omega)]
    exact hzero i hi
  rw [hget r le_rfl, smear_zero _ hget, sub_zero]

/-! ## Non-vacuity -/

/-- The frames of C144 register their counts. -/
theorem registers_of_exposes {d : Detector} {tab : NonLin.Table ℝ} {off k : ℝ} {s : ℕ → ℕ → ℝ} {x : L1} (h : Exposes d tab off s x) :
    Registers tab off k d.gain (fun r c => d.counts s r c * k) x := by
  refine ⟨h.mode, h.size, h.sizeDq, h.sizeErr, ?_⟩
  obtain ⟨b, h1, h2⟩ := h.pixels
  refine ⟨b, h1, fun r c hr hc => ?_⟩
  obtain ⟨v, h3, h4⟩ := h2 r c hr hc
  exact ⟨v, h3, by rw [h4]⟩

/-- A detector whose pixels register 100 times the scene. -/
def exDetector : Detector := ⟨fun _ _ => 1, 0, 1, fun _ _ => 0, fun _ _ => 0, fun _ _ => 0, 100, 1⟩

theorem ex_counts (v : ℝ) (r c : ℕ) : exDetector.counts (fun _ _ => v) r c * 1 = 100 * v := by
  unfold Detector.counts Detector.charge exDetector
  simp

/-- A shot with `v` electrons in every pixel. -/
def exShot (vis : String) (v : ℝ) : Seen :=
  (fun r c => exDetector.counts (fun _ _ => v / 100) r c * 1,
    ⟨⟨expose exDetector (fun _ => 0) 0 fun _ _ => v / 100, ⟨fun _ => 0, ⟨[1024, 1024], [fun _ => 0], fun _ => none, []⟩, fun _ => 0, 1,
      100, 100, none, 1, ""⟩⟩, "", 1, vis, some true, fun _ _ => 0⟩)

theorem ex_value (vis : String) (v : ℝ) (r c : ℕ) : (exShot vis v).1 r c = v := by
  show exDetector.counts (fun _ _ => v / 100) r c * 1 = v
  rw [ex_counts]
  ring

theorem ex_sigma (vis : String) (v : ℝ) (r c : ℕ) : sigma 1 0 (exShot vis v) r c = 0 := by
  unfold sigma exShot
  simp

theorem ex_valid (vis : String) (l : List ℝ) (r c : ℕ) : valid (l.map (exShot vis)) r c = l.length := by
  unfold valid
  rw [List.filter_eq_self.2, List.length_map]
  intro y hy
  obtain ⟨v, _, rfl⟩ := List.mem_map.1 hy
  rfl

theorem ex_hits (vis : String) (l : List ℝ) (b : ℝ) (r c : ℕ) :
    hits 1 1 0 b (l.map (exShot vis)) r c = (l.filter fun v => decide (1 < v)).length := by
  classical
  unfold hits
  rw [List.filter_map, List.length_map]
  congr 1
  apply List.filter_congr
  intro v _
  rw [Bool.eq_iff_iff]
  simp only [Function.comp, decide_eq_true_eq, ex_value, ex_sigma, mul_zero, add_zero]
  exact ⟨fun h => h.2, fun h => ⟨rfl, h⟩⟩

theorem ex_fraction : (1 : ℝ) / 2 * exp (1 * 1 / 100) ≤ 1 - exp (-2) := by
  have h1 : exp (1 * 1 / 100 : ℝ) ≤ 100 / 99 := by
    have h := one_sub_le_exp_neg (1 / 100 : ℝ)
    rw [exp_neg, le_inv_comm₀ (by norm_num) (exp_pos _)] at h
    calc exp (1 * 1 / 100 : ℝ) = exp (1 / 100) := by norm_num
      _ ≤ _ := h
      _ ≤ _ := by norm_num
  have h2 : exp (-2 : ℝ) ≤ 1 / 3 := by
    have h := add_one_le_exp (2 : ℝ)
    rw [exp_neg, inv_eq_one_div]
    exact one_div_le_one_div_of_le (by norm_num) (by linarith)
  linarith

theorem ex_sum (l : List ℝ) (vis : String) (n : ℕ) :
    ((List.range n).map fun p => ((l.map (exShot vis)).map fun y => y.1 (p / 1024) (p % 1024)).sum).sum = n * l.sum := by
  have : ∀ p, ((l.map (exShot vis)).map fun y => y.1 (p / 1024) (p % 1024)).sum = l.sum := by
    intro p
    rw [List.map_map]
    congr 1
    conv_rhs => rw [← List.map_id l]
    apply List.map_congr_left
    intro v _
    exact ex_value vis v _ _
  simp only [this]
  simp

theorem ex_stack (vis : String) {l : List ℝ} (hne : l ≠ []) (hsum : l.sum ≤ 2) {lim : ℝ} (hl : 1 - exp (-2) ≤ lim)
    (h : ((l.filter fun v => decide (1 < v)).length : ℝ) / l.length ≤ 1 / 2) :
    Stack linear 0 1 0 1 1 lim ⟨1, 100, 100, 1⟩ vis (l.map (exShot vis)) := by
  refine ⟨by simpa using hne, ?_, ?_, ?_, ?_, ?_, ?_⟩
  · intro y hy
    obtain ⟨v, _, rfl⟩ := List.mem_map.1 hy
    exact registers_of_exposes (C144_exposes exDetector (fun _ => 0) 0 fun _ _ => v / 100)
  · intro y hy
    obtain ⟨v, _, rfl⟩ := List.mem_map.1 hy
    refine ⟨rfl, rfl, ?_, rfl⟩
    simp [exShot, emGain]
  · intro y hy
    obtain ⟨v, _, rfl⟩ := List.mem_map.1 hy
    exact ⟨rfl, by simp [exShot], by simp [exShot]⟩
  · intro r c _ _
    rw [ex_valid]
    simpa using hne
  · intro b _ r c _ _
    left
    rw [show (1 : ℝ) * (1 : ℝ) = 1 by norm_num, ex_hits, ex_valid]
    have h2 := ex_fraction
    rw [show (1 : ℝ) * 1 = 1 by norm_num] at h2
    calc _ ≤ 1 / 2 * exp ((1 : ℝ) / 100) := mul_le_mul_of_nonneg_right h (exp_pos _).le
      _ ≤ _ := h2.trans hl
  · rw [ex_sum, List.length_map]
    have h1 : (1 : ℝ) ≤ l.length := by exact_mod_cast List.length_pos_of_ne_nil hne
    have h2 : (0 : ℝ) ≤ (1024 * 1024 : ℕ) := Nat.cast_nonneg _
    nlinarith

/-- Two light frames, one of them with detections everywhere, and two darks without: the recipes give, in the limit, the flux that is seen
in every second frame, and it is not 0. -/
example : ∃ (S : ℝ) (d : ℕ → Pc.MasterDark) (g : ℕ → Fr), S ≠ 0 ∧
    (∀ j, darkRecipe 1 1 (j + 1) linear 0 0 1 0 (([0, 0].map (exShot "DARK")).map Prod.snd) = .ok (d j) ∧
      lightRecipe 1 1 (j + 1) linear 0 0 1 0 0 true (fun _ => 0) ⟨[1024, 1024], fun _ => 1, fun _ => 0⟩ (d j)
        (([2, 0].map (exShot "SCI")).map Prod.snd) = .ok [g j]) ∧
    ∀ r c, r < 1024 → c < 1024 → Tendsto (fun j => (g j).data [r, c]) atTop (𝓝 S) := by
  obtain ⟨lim, hl, -, hlim⟩ := Pc.C150_limit (t := 1 * 1) (g := 100) (by norm_num) (by norm_num) (by norm_num)
  obtain ⟨S, hS, hroot⟩ := (Pc.C36_exists_iff (nobs := 1) (nfr := 2) (t := 1 * 1) (g := 100) (by norm_num) (by norm_num)
    (by norm_num)).2 ⟨by norm_num, by
      unfold Pc.cap
      have h := one_sub_le_exp_neg (1 * 1 / 100 : ℝ)
      nlinarith⟩
  have hz : Pc.calcFunc 0 2 (1 * 1) 100 0 = 0 := by
    unfold Pc.calcFunc Pc.eps Pc.num
    simp
  have heff : ∀ {nobs nfr l : ℝ}, Pc.calcFunc nobs nfr (1 * 1) 100 l = 0 → nobs = nfr * Pc.efficiency (1 * 1 / 100) l := by
    intro nobs nfr l h
    unfold Pc.calcFunc at h
    rw [Pc.C36_efficiency (by norm_num)] at h
    linarith
  obtain ⟨d, g, h1, h2⟩ := C190_scene (T := 1) (emax := 1) (w := ⟨1, 100, 100, 1⟩) (wd := ⟨1, 100, 100, 1⟩) (vis := "SCI")
    (L := [2, 0].map (exShot "SCI")) (Ld := [0, 0].map (exShot "DARK")) (rowread := 0) (flat := fun _ _ => 1) (s := fun _ _ => S)
    (D := fun _ _ => 0) (F := ⟨[1024, 1024], fun _ => 1, fun _ => 0⟩) linear_good 0 one_ne_zero
    (ex_stack "SCI" (by simp) (by norm_num) hl (by norm_num [List.filter_cons])) (by decide)
    (ex_stack "DARK" (by simp) (by norm_num) hl (by norm_num [List.filter_cons])) rfl (by simp) one_pos one_pos
    (by norm_num) (by norm_num) hlim hlim true (fun _ => 0) rfl (fun _ _ _ _ => rfl) (by norm_num)
    (by intro r c _ _; simpa [light] using hS)
    (by
      intro r c _ _
      refine ⟨by simpa [light] using hS, ?_⟩
      rw [show (1 : ℝ) * (1 : ℝ) = 1 by norm_num, ex_hits, ex_valid]
      have := heff hroot
      rw [show (1 : ℝ) * (1 : ℝ) = 1 by norm_num] at this
      norm_num [List.filter_cons, light]
      exact this)
    (by
      intro r c _ _
      refine ⟨le_rfl, ?_⟩
      rw [show (1 : ℝ) * (1 : ℝ) = 1 by norm_num, ex_hits, ex_valid]
      have := heff hz
      rw [show (1 : ℝ) * (1 : ℝ) = 1 by norm_num] at this
      norm_num [List.filter_cons]
      linarith)
  refine ⟨S, d, g, ?_, h1, fun r c hr hc => h2 r c hr hc one_ne_zero⟩
  rintro rfl
  unfold Pc.calcFunc Pc.eps Pc.num at hroot
  simp at hroot

end Corgi.Counted

import Verif.EndToEnd.Counted
import Verif.PhotonCount.Accuracy

/-!
# How near the photon counting recipes come with the default number of iterations (C191)

C190 is about the limit of many iterations. Here the number of iterations is given (the recipes use the default 2, photon_counting.py 65),
and the distance of the product from the scene is bounded.
-/

noncomputable section

namespace Corgi.Counted

open Corgi.Det Corgi.Arith Corgi.EndToEnd Real Filter Topology

/-- A bin without dark: a considered pixel is below the flux that explains its counts by at most a power of it. -/
theorem bin_near {P : Pc.Params} {i k : ℕ} {fs : List Pc.Frame} {s : Pc.Slice} {f0 : Pc.Frame} {p : ℕ} {S : ℝ}
    (hP : P.niter = k + 1) (hdark : P.dark = none) (hsafe : P.safemode = true)
    (h : Pc.pcBin P i fs = .ok s) (hf0 : fs.head? = some f0) (hp : p < P.npix) (hg : 0 < Pc.emGain f0.hdr) (hS : 0 ≤ S)
    (hS1 : S ≤ 2 / 5)
    (hroot : Pc.calcFunc (Pc.coadd (P.tFactor * f0.hdr.rn) Pc.Frame.data fs p) (Pc.nframes fs p) (P.tFactor * f0.hdr.rn)
      (Pc.emGain f0.hdr) S = 0) (hn : Pc.nframes fs p ≠ 0) :
    ∃ u, s.mean p = some u ∧ 0 ≤ u ∧ u ≤ S ∧ S - u ≤ S ^ 2 ^ (k + 2) := by
  obtain ⟨f0', l', m, up, low, hfs, _, _, _, ht, _, hsf, hm, _, _, _, _, _, _, g5, _⟩ := Pc.pcBin_ok h
  obtain rfl : f0' = f0 := by
    rw [hfs] at hf0
    exact Option.some.inj hf0
  have htg := hsf hsafe
  have hn' : (0 : ℝ) < Pc.nframes fs p := by exact_mod_cast Nat.pos_of_ne_zero hn
  rw [(g5 hdark).1 p, (Pc.corr_val hm hp).1, hP]
  by_cases ho : Pc.coadd (P.tFactor * f0'.hdr.rn) Pc.Frame.data fs p = 0
  · have hS0 : S = 0 := by
      rw [ho] at hroot
      refine Pc.C36_unique hn' ht hg hS le_rfl hroot ?_
      unfold Pc.calcFunc Pc.eps Pc.num
      simp
    rw [ho, Pc.newtonLoop_zero hn, hS0]
    exact ⟨0, by simp, le_rfl, le_rfl, by simp⟩
  · obtain ⟨v, h1, h2, h3, h4⟩ := Pc.C191_rate ho hn ht hg htg.le hS hS1 hroot k
    rw [h1]
    exact ⟨v, by simp [h2], h2, h3, h4⟩

/-! ## Smear correction of nearly the same column -/

theorem weights (rho : ℝ) (h : 0 ≤ rho) (r : ℕ) : ∀ n, Desmear.total (fun (s : ℕ) => rho * (1 + rho) ^ (((s : ℤ) + 1) - ((r : ℤ) + 1) - 1)) n =
    (1 + rho) ^ ((n : ℤ) - r - 1) - (1 + rho) ^ (-(r : ℤ) - 1) := by
  have h0 : (1 + rho : ℝ) ≠ 0 := by positivity
  intro n
  induction n with
  | zero => simp [Desmear.total]
  | succ n ih =>
    unfold Desmear.total
    rw [ih]
    have e1 : ((n : ℤ) + 1) - ((r : ℤ) + 1) - 1 = (n : ℤ) - r - 1 := by ring
    have e2 : (((n + 1 : ℕ) : ℤ)) - r - 1 = ((n : ℤ) - r - 1) + 1 := by push_cast; ring
    rw [e1, e2, zpow_add₀ h0, zpow_one]
    ring

theorem total_near {w f a : ℕ → ℝ} (e : ℝ) (hw : ∀ i, 0 ≤ w i) : ∀ {n : ℕ}, (∀ i < n, |f i - a i| ≤ e) →
    |Desmear.total (fun i => w i * f i) n - Desmear.total (fun i => w i * a i) n| ≤ Desmear.total w n * e := by
  intro n
  induction n with
  | zero => intro _; simp [Desmear.total]
  | succ n ih =>
    intro h
    have h1 := ih fun i hi => h i (by omega)
    have h2 := h n (by omega)
    unfold Desmear.total
    have h3 : |w n * f n - w n * a n| ≤ w n * e := by
      rw [← mul_sub, abs_mul, abs_of_nonneg (hw n)]
      exact mul_le_mul_of_nonneg_left h2 (hw n)
    rw [abs_le] at *
    constructor <;> nlinarith [h1.1, h1.2, h3.1, h3.2]

/-- The smear correction at most doubles the distance of two columns. -/
theorem desmear_near {rr te e : ℝ} (hrho : 0 ≤ rr / te) {u a : ℕ → ℝ} {n r : ℕ} (hr : r < n) (h : ∀ i < n, |u i - a i| ≤ e) :
    |((Desmear.desmearCol rr te ((List.range n).map u))[r]?).getD 0 -
      ((Desmear.desmearCol rr te ((List.range n).map a))[r]?).getD 0| ≤ 2 * e := by
  have hget : ∀ (b : ℕ → ℝ) (i : ℕ), i < n → (((List.range n).map b)[i]?).getD 0 = b i := by
    intro b i hi
    rw [List.getElem?_map, List.getElem?_range hi]
    rfl
  have he : ∀ b : ℕ → ℝ, ((Desmear.desmearCol rr te ((List.range n).map b))[r]?).getD 0 = b r -
      Desmear.total (fun s => rr / te * (1 + rr / te) ^ (((s : ℤ) + 1) - ((r : ℤ) + 1) - 1) *
        (((List.range n).map b)[s]?).getD 0) (r + 1) := by
    intro b
    rw [Desmear.getD_desmear _ _ _ _ (by simpa using hr), hget b r hr]
    unfold Desmear.smear
    rw [Desmear.foldl_range fun (s : ℕ) => rr / te * (1 + rr / te) ^ (((s : ℤ) + 1) - ((r : ℤ) + 1) - 1) *
        (((List.range n).map b)[s]?).getD 0]
  have h0 : 0 ≤ e := (abs_nonneg _).trans (h r hr)
  have h1 := h r hr
  have hp : 0 < 1 + rr / te := by positivity
  have h2 := total_near (w := fun (s : ℕ) => rr / te * (1 + rr / te) ^ (((s : ℤ) + 1) - ((r : ℤ) + 1) - 1))
    (f := fun s => (((List.range n).map u)[s]?).getD 0) (a := fun s => (((List.range n).map a)[s]?).getD 0) e
    (fun i => mul_nonneg hrho (zpow_nonneg hp.le _)) (n := r + 1) (fun i hi => by
      rw [hget u i (by omega), hget a i (by omega)]
      exact h i (by omega))
  rw [weights _ hrho] at h2
  have e1 : (((r + 1 : ℕ) : ℤ)) - r - 1 = 0 := by push_cast; ring
  rw [e1, zpow_zero] at h2
  have h3 := zpow_pos hp (-(r : ℤ) - 1)
  have h4 : (1 - (1 + rr / te) ^ (-(r : ℤ) - 1)) * e ≤ e := by nlinarith
  rw [he, he]
  rw [abs_le] at *
  constructor <;> linarith [h1.1, h1.2, h2.1, h2.2]

/-! ## C191 -/

/-- **C191.** Raw light frames and raw darks as in C190, fluxes of at most `M` of at most 0.4 electrons per pixel and frame: if the flux that
explains the light frames minus the flux that explains the darks is the light of the scene up to `δ`, then the product with `j + 1`
iterations is the scene up to twice `δ + M ^ 2 ^ (j + 2)` over the flat. -/
theorem C191_product {tab : NonLin.Table ℝ} (ht : NonLin.Good tab) {off k ek T emax lim limd rowread : ℝ} (offErr : ℝ) (hk : k ≠ 0)
    {w wd : Setting} {vis : String} {L Ld : List Seen} (hL : Stack tab off k ek T emax lim w vis L) (hvis : vis ≠ "DARK")
    (hD : Stack tab off k ek T emax limd wd "DARK" Ld) (hrnd : wd.rn = w.rn) (hn : L.length ≤ Ld.length)
    (hT : 0 < T) (hrn : 0 < w.rn) (htg : T * w.rn < w.gain) (htgd : T * w.rn < wd.gain)
    (hlim : Pc.Limit (T * w.rn) w.gain lim) (hlimd : Pc.Limit (T * w.rn) wd.gain limd)
    (track : Bool) (junk : Ix → ℝ) {F : Flat} {flat s S D : ℕ → ℕ → ℝ} (hshape : F.shape = [1024, 1024])
    (hF : ∀ r c, r < 1024 → c < 1024 → F.data [r, c] = flat r c) (hrho : 0 ≤ rowread / w.exptime)
    (hpos : ∀ r c, r < 1024 → c < 1024 → 0 ≤ light flat (rowread / w.exptime) s r c)
    (hS : Explains (T * w.rn) k ek w.gain S L) (hDx : Explains (T * w.rn) k ek wd.gain D Ld) {M δ : ℝ} (hM : M ≤ 2 / 5)
    (hSM : ∀ r c, r < 1024 → c < 1024 → S r c ≤ M ∧ D r c ≤ M)
    (hδ : ∀ r c, r < 1024 → c < 1024 → |S r c - D r c - light flat (rowread / w.exptime) s r c| ≤ δ) :
    ∃ (d : ℕ → Pc.MasterDark) (g : ℕ → Fr), ∀ j, darkRecipe T emax (j + 1) tab off offErr k ek (Ld.map Prod.snd) = .ok (d j) ∧
      lightRecipe T emax (j + 1) tab off offErr k ek rowread track junk F (d j) (L.map Prod.snd) = .ok [g j] ∧
      ∀ r c, r < 1024 → c < 1024 → flat r c ≠ 0 → |(g j).data [r, c] - s r c| ≤ 2 * (δ + M ^ 2 ^ (j + 2)) / |flat r c| := by
  obtain ⟨ps, pd, s0, sd, sl, names, d, g, h1, h2, h3, ⟨f0, h4, h5, h6⟩, ⟨e0, k4, k5, k6⟩, hj⟩ := run (rowread := rowread) ht offErr hk hL
    hvis hD hrnd hn hT hrn htg htgd hlim hlimd track junk hshape hF
  refine ⟨d, g, fun j => ⟨(hj j).2.2.2.2.2.2.1, (hj j).2.2.2.2.2.2.2.1, fun r c hr hc hfl => ?_⟩⟩
  have htp : 0 < T * w.rn := mul_pos hT hrn
  have hgp : 0 < w.gain := htp.trans htg
  have hgd : 0 < wd.gain := htp.trans htgd
  obtain ⟨q1, q2, q3, q4, q5, q6, -, -, -, q7⟩ := hj j
  have hpix : ∀ i < 1024, |((sl j).mean (i * 1024 + c)).getD 0 - light flat (rowread / w.exptime) s i c| ≤ δ + M ^ 2 ^ (j + 2) := by
    intro i hi
    have hp : i * 1024 + c < 1024 * 1024 := by omega
    obtain ⟨sd', hsd', hm⟩ := Pc.C151_subtract (P := params T emax (j + 1) (1024 * 1024) "illuminated" none) q4 q5 q1 q2 q6
    obtain rfl : sd j = sd' := by
      simpa [Pc.darkOf] using hsd'
    obtain ⟨u, a1, a2, a3, a4⟩ := bin_near (P := params T emax (j + 1) (1024 * 1024) "illuminated" none) rfl rfl rfl q1 h4 hp
      (by rw [h6]; exact hgp) (hS i c hi hc).1 ((hSM i c hi hc).1.trans hM)
      (by rw [h5, h6]; exact explains_root hgp.ne' hS h1 hi hc) (by rw [nframes_eq h1 hc]; exact hL.valid i c hi hc)
    obtain ⟨v, b1, b2, b3, b4⟩ := bin_near (P := params T emax (j + 1) (1024 * 1024) "darks" none) rfl rfl rfl q3 k4 hp
      (by rw [k6]; exact hgd) (hDx i c hi hc).1 ((hSM i c hi hc).2.trans hM)
      (by rw [k5, k6]; exact explains_root hgd.ne' hDx h2 hi hc) (by rw [nframes_eq h2 hc]; exact hD.valid i c hi hc)
    have c1 : S i c ^ 2 ^ (j + 2) ≤ M ^ 2 ^ (j + 2) := pow_le_pow_left₀ (hS i c hi hc).1 (hSM i c hi hc).1 _
    have c2 : D i c ^ 2 ^ (j + 2) ≤ M ^ 2 ^ (j + 2) := pow_le_pow_left₀ (hDx i c hi hc).1 (hSM i c hi hc).2 _
    have c3 := hδ i c hi hc
    have c4 := hpos i c hi hc
    rw [hm, a1, b1]
    show |max (u - v) 0 - _| ≤ _
    rw [abs_le] at *
    rcases max_choice (u - v) 0 with e | e
    · rw [e]
      constructor <;> linarith [c3.1, c3.2]
    · have e' : u - v ≤ 0 := by
        rw [← e]
        exact le_max_left _ _
      rw [e]
      constructor <;> linarith [c3.1, c3.2]
  have hcol := desmear_near hrho hr hpix
  have hinv := desmear_column (show 1 + rowread / w.exptime ≠ 0 by positivity) (fun i => flat i c * s i c) hr
  unfold light at hcol
  rw [hinv] at hcol
  rw [q7 r c hr hc hfl]
  have e : ∀ x, x / flat r c - s r c = (x - flat r c * s r c) / flat r c := by
    intro x
    field_simp
  rw [e, abs_div]
  exact div_le_div_of_nonneg_right hcol (abs_nonneg _)

/-- The numbers of detections are the expected ones for Poisson distributed numbers of electrons of means `S`. -/
def Expected (t k ek g : ℝ) (S : ℕ → ℕ → ℝ) (L : List Seen) : Prop :=
  ∀ r c, r < 1024 → c < 1024 → 0 ≤ S r c ∧ (hits t k ek 0 L r c : ℝ) = valid L r c * Pc.detect (t / g) (S r c)

theorem detect_none {x : ℝ} : Pc.detect x 0 = 0 := by
  unfold Pc.detect
  have h : ∀ k, Pc.poisson 0 k * Pc.tail k x = 0 := by
    intro k
    cases k with
    | zero => simp [Pc.tail]
    | succ k => simp [Pc.poisson]
  simp [h]

/-- What the model of at most three electrons makes of the expected number of detections. -/
theorem near_root {t g l : ℝ} (ht : 0 ≤ t) (hg : 0 < g) (htg : t ≤ g) (hl : 0 ≤ l) (hl1 : l ≤ 1 / 10) :
    ∃ s, l ≤ s ∧ s ≤ l + 1 / 10000 ∧ Pc.efficiency (t / g) s = Pc.detect (t / g) l := by
  rcases hl.eq_or_lt with rfl | hl
  · refine ⟨0, le_rfl, by norm_num, ?_⟩
    rw [detect_none, ← Pc.C36_efficiency hg.ne']
    unfold Pc.eps Pc.num
    simp
  · obtain ⟨s, h1, h2, h3, -⟩ := Pc.C163_root (nfr := 1) ht hg htg hl (by linarith) one_pos
    obtain ⟨-, h4⟩ := Pc.C163_default ht hg htg hl hl1 one_pos (hl.le.trans h1.le) h3
    refine ⟨s, h1.le, by linarith, ?_⟩
    unfold Pc.calcFunc at h3
    rw [Pc.C36_efficiency hg.ne'] at h3
    linarith

/-- **C191, with the number of iterations of the recipes.** Light of the scene and dark signal together at most 0.1 electrons per pixel and
frame, and as many detections as expected for Poisson distributed electrons: the product is the scene up to 0.00021 electrons over the flat,
in which the Newton steps have a part of less than 0.0000001. -/
theorem C191_default {tab : NonLin.Table ℝ} (ht : NonLin.Good tab) {off k ek T emax lim limd rowread : ℝ} (offErr : ℝ) (hk : k ≠ 0)
    {w wd : Setting} {vis : String} {L Ld : List Seen} (hL : Stack tab off k ek T emax lim w vis L) (hvis : vis ≠ "DARK")
    (hD : Stack tab off k ek T emax limd wd "DARK" Ld) (hrnd : wd.rn = w.rn) (hn : L.length ≤ Ld.length)
    (hT : 0 < T) (hrn : 0 < w.rn) (htg : T * w.rn < w.gain) (htgd : T * w.rn < wd.gain)
    (hlim : Pc.Limit (T * w.rn) w.gain lim) (hlimd : Pc.Limit (T * w.rn) wd.gain limd)
    (track : Bool) (junk : Ix → ℝ) {F : Flat} {flat s D : ℕ → ℕ → ℝ} (hshape : F.shape = [1024, 1024])
    (hF : ∀ r c, r < 1024 → c < 1024 → F.data [r, c] = flat r c) (hrho : 0 ≤ rowread / w.exptime)
    (hpos : ∀ r c, r < 1024 → c < 1024 → 0 ≤ light flat (rowread / w.exptime) s r c)
    (hfew : ∀ r c, r < 1024 → c < 1024 → light flat (rowread / w.exptime) s r c + D r c ≤ 1 / 10)
    (hS : Expected (T * w.rn) k ek w.gain (fun r c => light flat (rowread / w.exptime) s r c + D r c) L)
    (hDx : Expected (T * w.rn) k ek wd.gain D Ld) :
    ∃ d g, darkRecipe T emax 2 tab off offErr k ek (Ld.map Prod.snd) = .ok d ∧
      lightRecipe T emax 2 tab off offErr k ek rowread track junk F d (L.map Prod.snd) = .ok [g] ∧
      ∀ r c, r < 1024 → c < 1024 → flat r c ≠ 0 → |g.data [r, c] - s r c| ≤ 21 / 100000 / |flat r c| := by
  have htp : 0 < T * w.rn := mul_pos hT hrn
  have hgp : 0 < w.gain := htp.trans htg
  have hgd : 0 < wd.gain := htp.trans htgd
  have hSr : ∀ r c, ∃ x, r < 1024 → c < 1024 → light flat (rowread / w.exptime) s r c + D r c ≤ x ∧
      x ≤ light flat (rowread / w.exptime) s r c + D r c + 1 / 10000 ∧
      Pc.efficiency (T * w.rn / w.gain) x = Pc.detect (T * w.rn / w.gain) (light flat (rowread / w.exptime) s r c + D r c) := by
    intro r c
    by_cases h : r < 1024 ∧ c < 1024
    · obtain ⟨x, hx⟩ := near_root htp.le hgp htg.le (hS r c h.1 h.2).1 (hfew r c h.1 h.2)
      exact ⟨x, fun _ _ => hx⟩
    · exact ⟨0, fun h1 h2 => absurd ⟨h1, h2⟩ h⟩
  have hDr : ∀ r c, ∃ x, r < 1024 → c < 1024 → D r c ≤ x ∧ x ≤ D r c + 1 / 10000 ∧
      Pc.efficiency (T * w.rn / wd.gain) x = Pc.detect (T * w.rn / wd.gain) (D r c) := by
    intro r c
    by_cases h : r < 1024 ∧ c < 1024
    · obtain ⟨x, hx⟩ := near_root htp.le hgd htgd.le (hDx r c h.1 h.2).1 (by linarith [hfew r c h.1 h.2, hpos r c h.1 h.2])
      exact ⟨x, fun _ _ => hx⟩
    · exact ⟨0, fun h1 h2 => absurd ⟨h1, h2⟩ h⟩
  choose S' hS' using hSr
  choose D' hD' using hDr
  obtain ⟨d, g, h⟩ := C191_product (S := S') (D := D') (s := s) (flat := flat) (rowread := rowread) (M := 1001 / 10000)
    (δ := 1 / 10000) ht offErr hk hL hvis hD hrnd hn hT hrn htg htgd hlim hlimd track junk hshape hF hrho hpos
    (fun r c hr hc => ⟨(hS r c hr hc).1.trans (hS' r c hr hc).1, by rw [(hS r c hr hc).2, (hS' r c hr hc).2.2]⟩)
    (fun r c hr hc => ⟨(hDx r c hr hc).1.trans (hD' r c hr hc).1, by rw [(hDx r c hr hc).2, (hD' r c hr hc).2.2]⟩)
    (by norm_num) (fun r c hr hc => by
      have a := hfew r c hr hc
      have b := (hS' r c hr hc).2.1
      have e := (hD' r c hr hc).2.1
      have p := hpos r c hr hc
      constructor <;> linarith) (fun r c hr hc => by
      have a := hS' r c hr hc
      have b := hD' r c hr hc
      rw [abs_le]
      constructor <;> linarith [a.1, a.2.1, b.1, b.2.1])
  obtain ⟨h1, h2, h3⟩ := h 1
  refine ⟨d 1, g 1, h1, h2, fun r c hr hc hfl => (h3 r c hr hc hfl).trans ?_⟩
  apply div_le_div_of_nonneg_right _ (abs_nonneg _)
  norm_num

/-! ## Non-vacuity -/

/-- Five light frames, one of them with detections everywhere, and five darks without: with two iterations the product is within 0.0014 of
the flux that is seen in every fifth frame, which is not 0. -/
example : ∃ (S : ℝ) (d : Pc.MasterDark) (g : Fr), 0 < S ∧
    darkRecipe 1 1 2 linear 0 0 1 0 (([0, 0, 0, 0, 0].map (exShot "DARK")).map Prod.snd) = .ok d ∧
    lightRecipe 1 1 2 linear 0 0 1 0 0 true (fun _ => 0) ⟨[1024, 1024], fun _ => 1, fun _ => 0⟩ d
      (([2, 0, 0, 0, 0].map (exShot "SCI")).map Prod.snd) = .ok [g] ∧
    ∀ r c, r < 1024 → c < 1024 → |g.data [r, c] - S| ≤ 14 / 10000 := by
  obtain ⟨lim, hl, -, hlim⟩ := Pc.C150_limit (t := 1 * 1) (g := 100) (by norm_num) (by norm_num) (by norm_num)
  have hexp := one_sub_le_exp_neg (1 * 1 / 100 : ℝ)
  obtain ⟨S, hS, hroot⟩ := (Pc.C36_exists_iff (nobs := 1) (nfr := 5) (t := 1 * 1) (g := 100) (by norm_num) (by norm_num)
    (by norm_num)).2 ⟨by norm_num, by
      unfold Pc.cap
      nlinarith⟩
  have hz : Pc.calcFunc 0 5 (1 * 1) 100 0 = 0 := by
    unfold Pc.calcFunc Pc.eps Pc.num
    simp
  have hS1 : S ≤ 2 / 5 := by
    by_contra hc
    have h1 := Pc.func_lt (nobs := 1) (nfr := 5) (t := 1 * 1) (g := 100) (l := 2 / 5) (s := S) (by norm_num) (by norm_num)
      (by norm_num) (by norm_num) (not_le.1 hc) hroot
    unfold Pc.calcFunc at h1
    rw [Pc.eps_eq (by norm_num)] at h1
    unfold Pc.nx Pc.den at h1
    norm_num at h1 hexp
    nlinarith
  have heff : ∀ {nobs nfr l : ℝ}, Pc.calcFunc nobs nfr (1 * 1) 100 l = 0 → nobs = nfr * Pc.efficiency (1 * 1 / 100) l := by
    intro nobs nfr l h
    unfold Pc.calcFunc at h
    rw [Pc.C36_efficiency (by norm_num)] at h
    linarith
  obtain ⟨d, g, h⟩ := C191_product (T := 1) (emax := 1) (w := ⟨1, 100, 100, 1⟩) (wd := ⟨1, 100, 100, 1⟩) (vis := "SCI")
    (L := [2, 0, 0, 0, 0].map (exShot "SCI")) (Ld := [0, 0, 0, 0, 0].map (exShot "DARK")) (rowread := 0) (flat := fun _ _ => 1)
    (s := fun _ _ => S) (S := fun _ _ => S) (D := fun _ _ => 0) (M := 2 / 5) (δ := 0)
    (F := ⟨[1024, 1024], fun _ => 1, fun _ => 0⟩) linear_good 0 one_ne_zero
    (ex_stack "SCI" (by simp) (by norm_num) hl (by norm_num [List.filter_cons])) (by decide)
    (ex_stack "DARK" (by simp) (by norm_num) hl (by norm_num [List.filter_cons])) rfl (by simp) one_pos one_pos
    (by norm_num) (by norm_num) hlim hlim true (fun _ => 0) rfl (fun _ _ _ _ => rfl) (by norm_num)
    (by intro r c _ _; simpa [light] using hS)
    (by
      intro r c _ _
      refine ⟨hS, ?_⟩
      rw [show (1 : ℝ) * (1 : ℝ) = 1 by norm_num, ex_hits, ex_valid]
      have := heff hroot
      rw [show (1 : ℝ) * (1 : ℝ) = 1 by norm_num] at this
      norm_num [List.filter_cons]
      exact this)
    (by
      intro r c _ _
      refine ⟨le_rfl, ?_⟩
      rw [show (1 : ℝ) * (1 : ℝ) = 1 by norm_num, ex_hits, ex_valid]
      have := heff hz
      rw [show (1 : ℝ) * (1 : ℝ) = 1 by norm_num] at this
      norm_num [List.filter_cons]
      linarith)
    le_rfl (fun _ _ _ _ => ⟨hS1, by norm_num⟩) (fun _ _ _ _ => by simp [light])
  obtain ⟨h1, h2, h3⟩ := h 1
  refine ⟨S, d 1, g 1, lt_of_le_of_ne hS ?_, h1, h2, fun r c hr hc => (h3 r c hr hc one_ne_zero).trans ?_⟩
  · rintro rfl
    unfold Pc.calcFunc Pc.eps Pc.num at hroot
    simp at hroot
  · norm_num

/-- The probability of a detection has every small value. -/
theorem detect_onto {x y : ℝ} (hx : 0 ≤ x) (h0 : 0 ≤ y) (h1 : y ≤ Pc.detect x (1 / 10)) : ∃ l, 0 ≤ l ∧ l ≤ 1 / 10 ∧ Pc.detect x l = y := by
  have hu : Summable fun k : ℕ => (1 / 10 : ℝ) ^ k / (k.factorial : ℝ) := Real.summable_pow_div_factorial (1 / 10)
  have hc : ContinuousOn (fun l => ∑' k, Pc.poisson l k * Pc.tail k x) (Set.Icc 0 (1 / 10)) := by
    refine continuousOn_tsum (fun k => ?_) hu fun k l hl => ?_
    · unfold Pc.poisson
      fun_prop
    · have hp := Pc.poisson_nonneg hl.1 k
      have ht := Pc.tail_nonneg hx k
      rw [Real.norm_of_nonneg (mul_nonneg hp ht)]
      refine (mul_le_of_le_one_right hp (Pc.tail_le_one hx k)).trans ?_
      unfold Pc.poisson
      have e1 : exp (-l) ≤ 1 := exp_le_one_iff.2 (by linarith [hl.1])
      have e2 : l ^ k ≤ (1 / 10) ^ k := pow_le_pow_left₀ hl.1 hl.2 k
      have e3 := pow_nonneg hl.1 k
      apply div_le_div_of_nonneg_right _ (Nat.cast_nonneg _)
      nlinarith [exp_pos (-l)]
  obtain ⟨l, hl, he⟩ := intermediate_value_Icc (by norm_num) hc ⟨(detect_none (x := x)).le.trans h0, h1⟩
  exact ⟨l, hl.1, hl.2, he⟩

/-- Twenty light frames, one of them with detections everywhere, and twenty darks without: the product is within 0.00021 of the mean number
of electrons for which one detection in twenty frames is expected. -/
example : ∃ (S : ℝ) (d : Pc.MasterDark) (g : Fr), 0 < S ∧ Pc.detect (1 * 1 / 100) S = 1 / 20 ∧
    darkRecipe 1 1 2 linear 0 0 1 0 (((List.replicate 20 0).map (exShot "DARK")).map Prod.snd) = .ok d ∧
    lightRecipe 1 1 2 linear 0 0 1 0 0 true (fun _ => 0) ⟨[1024, 1024], fun _ => 1, fun _ => 0⟩ d
      (((2 :: List.replicate 19 0).map (exShot "SCI")).map Prod.snd) = .ok [g] ∧
    ∀ r c, r < 1024 → c < 1024 → |g.data [r, c] - S| ≤ 21 / 100000 := by
  obtain ⟨lim, hl, -, hlim⟩ := Pc.C150_limit (t := 1 * 1) (g := 100) (by norm_num) (by norm_num) (by norm_num)
  have hexp := one_sub_le_exp_neg (1 * 1 / 100 : ℝ)
  obtain ⟨S, hS, hS1, hroot⟩ := detect_onto (x := 1 * 1 / 100) (y := 1 / 20) (by norm_num) (by norm_num) (by
    refine le_trans ?_ (Pc.C163_probability (t := 1 * 1) (g := 100) (l := 1 / 10) (by norm_num) (by norm_num) (by norm_num)).1.le
    rw [Pc.eps_eq (by norm_num)]
    unfold Pc.nx Pc.den
    norm_num at hexp ⊢
    linarith)
  have hcount : ∀ l : List ℝ, (∀ v ∈ l, v = 0) → (l.filter fun v => decide (1 < v)).length = 0 := by
    intro l h
    rw [List.length_eq_zero_iff, List.filter_eq_nil_iff]
    intro v hv
    rw [h v hv]
    norm_num
  have hone : ((2 :: List.replicate 19 (0 : ℝ)).filter fun v => decide (1 < v)).length = 1 := by
    rw [List.filter_cons, if_pos (by norm_num), List.length_cons, hcount _ fun v hv => (List.mem_replicate.1 hv).2]
  have hzero : ((List.replicate 20 (0 : ℝ)).filter fun v => decide (1 < v)).length = 0 :=
    hcount _ fun v hv => (List.mem_replicate.1 hv).2
  obtain ⟨d, g, h1, h2, h3⟩ := C191_default (T := 1) (emax := 1) (w := ⟨1, 100, 100, 1⟩) (wd := ⟨1, 100, 100, 1⟩) (vis := "SCI")
    (L := (2 :: List.replicate 19 0).map (exShot "SCI")) (Ld := (List.replicate 20 0).map (exShot "DARK")) (rowread := 0)
    (flat := fun _ _ => 1) (s := fun _ _ => S) (D := fun _ _ => 0)
    (F := ⟨[1024, 1024], fun _ => 1, fun _ => 0⟩) linear_good 0 one_ne_zero
    (ex_stack "SCI" (by simp) (by simp) hl (by rw [hone]; norm_num)) (by decide)
    (ex_stack "DARK" (by simp) (by simp) hl (by rw [hzero]; norm_num)) rfl (by simp) one_pos one_pos
    (by norm_num) (by norm_num) hlim hlim true (fun _ => 0) rfl (fun _ _ _ _ => rfl) (by norm_num)
    (by intro r c _ _; simpa [light] using hS)
    (by intro r c _ _; simpa [light] using hS1)
    (by
      intro r c _ _
      refine ⟨by simpa [light] using hS, ?_⟩
      rw [show (1 : ℝ) * (1 : ℝ) = 1 by norm_num, ex_hits, ex_valid, hone]
      rw [show (1 : ℝ) * (1 : ℝ) = 1 by norm_num] at hroot
      norm_num [light] at hroot ⊢
      rw [hroot]
      norm_num)
    (by
      intro r c _ _
      refine ⟨le_rfl, ?_⟩
      rw [show (1 : ℝ) * (1 : ℝ) = 1 by norm_num, ex_hits, ex_valid, hzero, detect_none]
      simp)
  refine ⟨S, d, g, lt_of_le_of_ne hS ?_, hroot, h1, h2, fun r c hr hc => (h3 r c hr hc one_ne_zero).trans (by norm_num)⟩
  rintro rfl
  rw [detect_none] at hroot
  norm_num at hroot

end Corgi.Counted

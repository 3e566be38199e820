import Verif.PhotonCount.Converge

/-!
# Photon-counted images and photon-counted master darks together (C151)

The output of `get_pc_mean` for dark frames (`/repo/corgidrp/photon_counting.py` 327-335) as the `pc_master_dark` of
`get_pc_mean` for light frames (lines 276-302), as in the recipes `l1_to_l2b_pc_dark.json`, `l2a_to_l2b_pc_dark.json` and
`l2a_to_l2b_pc.json` of `/repo/corgidrp/recipe_templates`.
-/

noncomputable section

namespace Corgi.Pc

open Real Filter Topology

/-- lines 327-334: the master dark as `get_pc_mean` reads it -/
def masterDark : Output → Option MasterDark
  | .illuminated _ => none
  | .dark out t nf _ =>
      some ⟨some "photon-counted master dark", some t, nf, out.map fun s => (s.mean, s.err, s.dq)⟩

/-- The dark that a light bin with number `i` gets: bin `i` modulo the number of dark bins. -/
def darkOf (out : List Slice) (i : ℕ) : Option Slice := out[i % out.length]?

theorem getPcMean_dark {P : Params} {bin : Option ℤ} {ds : List Frame} {out : List Slice} {t : ℝ} {nf : ℕ} {ps : List String}
    (h : getPcMean P bin ds = .ok (.dark out t nf ps)) :
    out ≠ [] ∧ P.dark = none ∧ ∀ i s, out[i]? = some s → pcBin P i (binFrames nf i ds) = .ok s := by
  obtain ⟨b, k, hb, hbe, hk, hkp, out', hlen, hall, hpar, hcase⟩ := C37_bins h
  rcases hcase with ⟨hc, _⟩ | ⟨t', hc, hm, s, hs, _⟩
  · cases hc
  · simp only [Output.dark.injEq] at hc
    obtain ⟨rfl, rfl, rfl, rfl⟩ := hc
    refine ⟨?_, ?_, fun i s hi => (hall i s hi).1⟩
    · rintro rfl
      simp at hlen
      omega
    · have h0 : out[0]? = some out[0] := List.getElem?_eq_getElem (by omega)
      obtain ⟨h1, -, -, h4⟩ := hall 0 _ h0
      obtain ⟨f0, l, m, up, low, hfs, hsame, hmode, hdk, _, _, _, _, _, _, g1, g2, g3, g4, _⟩ := pcBin_ok h1
      exact hdk (g3 ▸ h4.2 hm)

theorem darkOf_some {out : List Slice} (h : out ≠ []) (i : ℕ) : ∃ s, darkOf out i = some s := by
  have : i % out.length < out.length := Nat.mod_lt _ (List.length_pos_of_ne_nil h)
  exact ⟨_, List.getElem?_eq_getElem this⟩

/-- Everything before the dark subtraction does not depend on the dark. -/
theorem pcBin_with {P : Params} {i : ℕ} {fs : List Frame} {s0 : Slice} {d : MasterDark}
    (h0 : pcBin { P with dark := none } i fs = .ok s0) (hv : s0.vistype ≠ "DARK") :
    ∃ f0 l m up low, fs = f0 :: l ∧ s0.thresh = P.tFactor * f0.hdr.rn ∧
      corr P (P.tFactor * f0.hdr.rn) (emGain f0.hdr) fs Frame.data = .ok m ∧ (∀ p, s0.mean p = (m p).map fun x => max x 0) ∧
      pcBin { P with dark := some d } i fs =
        pcFinish { P with dark := some d } i fs f0.hdr.vistype (P.tFactor * f0.hdr.rn) (emGain f0.hdr) m up low := by
  obtain ⟨f0', l', m', up', low', hfs', _, _, _, _, _, _, hm', _, _, g1, g2, g3, g4, g5, _⟩ := pcBin_ok h0
  subst hfs'
  have h := h0
  unfold pcBin at h
  dsimp only at h
  rcases ite_eq_iff.1 h with ⟨_, h⟩ | ⟨h1, h⟩
  · cases h
  rcases ite_eq_iff.1 h with ⟨_, h⟩ | ⟨h2, h⟩
  · cases h
  rcases ite_eq_iff.1 h with ⟨_, h⟩ | ⟨h3, h⟩
  · cases h
  rcases ite_eq_iff.1 h with ⟨_, h⟩ | ⟨h4, h⟩
  · cases h
  rcases ite_eq_iff.1 h with ⟨_, h⟩ | ⟨h5, h⟩
  · cases h
  rcases ite_eq_iff.1 h with ⟨_, h⟩ | ⟨h6, h⟩
  · cases h
  rcases ite_eq_iff.1 h with ⟨_, h⟩ | ⟨h7, h⟩
  · cases h
  rcases ite_eq_iff.1 h with ⟨_, h⟩ | ⟨h8, h⟩
  · cases h
  rcases ite_eq_iff.1 h with ⟨_, h⟩ | ⟨h9, h⟩
  · cases h
  rcases ite_eq_iff.1 h with ⟨_, h⟩ | ⟨h10, h⟩
  · cases h
  have hc : ∀ v, corr { P with dark := none } (P.tFactor * f0'.hdr.rn) (emGain f0'.hdr) (f0' :: l') v =
      corr { P with dark := some d } (P.tFactor * f0'.hdr.rn) (emGain f0'.hdr) (f0' :: l') v := fun _ => rfl
  rw [hc, hc, hc] at h
  cases hm : corr { P with dark := some d } (P.tFactor * f0'.hdr.rn) (emGain f0'.hdr) (f0' :: l') Frame.data with
  | error e => rw [hm] at h; cases h
  | ok m =>
  cases hu : corr { P with dark := some d } (P.tFactor * f0'.hdr.rn) (emGain f0'.hdr) (f0' :: l') plus with
  | error e => rw [hm, hu] at h; cases h
  | ok up =>
  cases hl : corr { P with dark := some d } (P.tFactor * f0'.hdr.rn) (emGain f0'.hdr) (f0' :: l') minus with
  | error e => rw [hm, hu, hl] at h; cases h
  | ok low =>
  have hmm : m' = m := by
    have : (Except.ok m' : Except Err _) = .ok m := hm'.symm.trans hm
    cases this; rfl
  refine ⟨f0', l', m, up, low, rfl, g1, hm, ?_, ?_⟩
  · intro p
    rw [(g5 rfl).1, hmm]
  · unfold pcBin
    dsimp only
    rw [if_neg h1, if_neg h2, if_neg h3, if_neg (fun h => hv (g3.trans h.1)), if_neg h5, if_neg h6, if_neg h7, if_neg h8,
      if_neg h9, if_neg h10, hm]
    dsimp only
    rw [hu]
    dsimp only
    rw [hl]

/-- **C151.** A master dark made by `get_pc_mean` is accepted for a bin of light frames exactly if it has the threshold of the
light frames and was made of at least as many frames. -/
theorem C151_accepted_iff {P Pd : Params} {bin : Option ℤ} {ds : List Frame} {out : List Slice} {t : ℝ} {nf : ℕ}
    {ps : List String} {d : MasterDark} (hdark : getPcMean Pd bin ds = .ok (.dark out t nf ps))
    (hd : masterDark (.dark out t nf ps) = some d) {i : ℕ} {fs : List Frame} {s0 : Slice}
    (h0 : pcBin { P with dark := none } i fs = .ok s0) (hv : s0.vistype ≠ "DARK") :
    (∃ s, pcBin { P with dark := some d } i fs = .ok s) ↔ s0.thresh = t ∧ fs.length ≤ nf := by
  obtain ⟨f0, l, m, up, low, hfs, ht, hm, hmean, hp⟩ := pcBin_with (d := d) h0 hv
  obtain ⟨hne, -, -⟩ := getPcMean_dark hdark
  have hd' := Option.some.inj hd
  subst hd'
  rw [hp]
  unfold pcFinish checkDark
  dsimp only
  rw [if_neg (by simp)]
  constructor
  · rintro ⟨s, h⟩
    by_cases h1 : t ≠ P.tFactor * f0.hdr.rn
    · rw [if_pos h1] at h
      cases h
    · rw [if_neg h1] at h
      by_cases h2 : nf < fs.length
      · rw [if_pos h2] at h
        cases h
      · exact ⟨ht.trans (not_not.1 h1).symm, not_lt.1 h2⟩
  · rintro ⟨h1, h2⟩
    rw [if_neg (not_not.2 (h1.symm.trans ht)), if_neg (not_lt.2 h2)]
    dsimp only
    obtain ⟨s, hs⟩ := darkOf_some hne i
    unfold darkOf at hs
    rw [List.length_map, List.getElem?_map, hs]
    exact ⟨_, rfl⟩

/-- **C151.** The result is the light image minus the dark bin of the same number (counted round), negative values set to 0. -/
theorem C151_subtract {P Pd : Params} {bin : Option ℤ} {ds : List Frame} {out : List Slice} {t : ℝ} {nf : ℕ}
    {ps : List String} {d : MasterDark} (hdark : getPcMean Pd bin ds = .ok (.dark out t nf ps))
    (hd : masterDark (.dark out t nf ps) = some d) {i : ℕ} {fs : List Frame} {s0 s : Slice}
    (h0 : pcBin { P with dark := none } i fs = .ok s0) (hv : s0.vistype ≠ "DARK")
    (h : pcBin { P with dark := some d } i fs = .ok s) :
    ∃ sd, darkOf out i = some sd ∧ ∀ p, s.mean p = do return max ((← s0.mean p) - (← sd.mean p)) 0 := by
  obtain ⟨f0, l, m, up, low, hfs, ht, hm, hmean, hp⟩ := pcBin_with (d := d) h0 hv
  obtain ⟨hne, hnone, hall⟩ := getPcMean_dark hdark
  obtain ⟨sd, hsd⟩ := darkOf_some hne i
  refine ⟨sd, hsd, fun p => ?_⟩
  obtain ⟨f0', l', m', up', low', hfs', _, _, _, _, _, _, hm', _, _, g1, g2, g3, g4, _, g6⟩ := pcBin_ok h
  obtain ⟨hc, sl, hsl, e1, -, -⟩ := g6 d rfl
  have hf : f0' = f0 := by
    rw [hfs] at hfs'
    exact (List.cons.inj hfs').1.symm
  subst hf
  have hmm : m' = m := by
    have : (Except.ok m' : Except Err _) = .ok m := hm'.symm.trans hm
    cases this; rfl
  have hd' := Option.some.inj hd
  subst hd'
  have hsl' : sl.1 = sd.mean := by
    unfold darkOf at hsd
    dsimp only at hsl
    rw [List.length_map, List.getElem?_map, hsd] at hsl
    rw [← Option.some.inj hsl]
  rw [e1, hmm, hmean, hsl']
  obtain ⟨fd, ld, md, ud, lod, _, _, _, _, _, _, _, _, _, _, _, _, _, _, q5, _⟩ := pcBin_ok (hall _ sd hsd)
  rw [(q5 hnone).1]
  cases m p with
  | none => rfl
  | some x =>
    cases md p with
    | none => rfl
    | some y =>
      show some (max (x - max y 0) 0) = some (max (max x 0 - max y 0) 0)
      congr 1
      rcases le_total x 0 with hx | hx
      · rw [max_eq_right hx, max_eq_right (by have := le_max_right y 0; linarith),
          max_eq_right (by have := le_max_right y 0; linarith)]
      · rw [max_eq_left hx]

/-- **C151.** Subtracting a dark never makes a value larger, and its error never smaller than the difference: the clipped value
is not below the difference. -/
theorem C151_clip {P Pd : Params} {bin : Option ℤ} {ds : List Frame} {out : List Slice} {t : ℝ} {nf : ℕ}
    {ps : List String} {d : MasterDark} (hdark : getPcMean Pd bin ds = .ok (.dark out t nf ps))
    (hd : masterDark (.dark out t nf ps) = some d) {i : ℕ} {fs : List Frame} {s0 s : Slice}
    (h0 : pcBin { P with dark := none } i fs = .ok s0) (hv : s0.vistype ≠ "DARK")
    (h : pcBin { P with dark := some d } i fs = .ok s) {p : ℕ} {x : ℝ} (hx : s.mean p = some x) :
    ∃ sd a b, darkOf out i = some sd ∧ s0.mean p = some a ∧ sd.mean p = some b ∧ a - b ≤ x ∧ x ≤ a ∧ (a < b → x = 0) := by
  obtain ⟨sd, hsd, hmean⟩ := C151_subtract hdark hd h0 hv h
  rw [hmean] at hx
  obtain ⟨hne, hnone, hall⟩ := getPcMean_dark hdark
  obtain ⟨fd, ld, md, ud, lod, _, _, _, _, _, _, _, _, _, _, _, _, _, _, q5, _⟩ := pcBin_ok (hall _ sd hsd)
  obtain ⟨f0, l, m, up, low, _, _, _, _, _, _, _, _, _, _, _, _, _, _, r5, _⟩ := pcBin_ok h0
  cases ha : s0.mean p with
  | none => rw [ha] at hx; cases hx
  | some a =>
    cases hb : sd.mean p with
    | none => rw [ha, hb] at hx; cases hx
    | some b =>
      rw [ha, hb] at hx
      have hx' : max (a - b) 0 = x := Option.some.inj hx
      have hb0 : 0 ≤ b := by
        rw [(q5 hnone).1] at hb
        obtain ⟨y, _, rfl⟩ := Option.map_eq_some_iff.1 hb
        exact le_max_right _ _
      have ha0 : 0 ≤ a := by
        rw [(r5 rfl).1] at ha
        obtain ⟨y, _, rfl⟩ := Option.map_eq_some_iff.1 ha
        exact le_max_right _ _
      refine ⟨sd, a, b, hsd, rfl, hb, hx' ▸ le_max_left _ _, hx' ▸ max_le (by linarith) ha0, fun hab => ?_⟩
      rw [← hx', max_eq_right (by linarith)]

/-! ## The limit of many iterations -/

/-- The value of a pixel after the photometric correction. -/
theorem corr_val {P : Params} {t g : ℝ} {fs : List Frame} {v : Frame → ℕ → Option ℝ} {m : ℕ → Option ℝ} {p : ℕ}
    (h : corr P t g fs v = .ok m) (hp : p < P.npix) :
    m p = (if (newtonLoop (coadd t v fs p) (nframes fs p) t g P.niter).masked then some 0 else
      (newtonLoop (coadd t v fs p) (nframes fs p) t g P.niter).data) ∧
    (P.considered p = true → ∀ x, (newtonLoop (coadd t v fs p) (nframes fs p) t g P.niter).data = some x → 0 ≤ x) := by
  classical
  unfold corr corrPhotonCount at h
  simp only [Bind.bind, Except.bind, pure, Except.pure] at h
  split at h
  · cases h
  · rename_i l hl
    split at hl
    · cases hl
    · split at hl
      · cases hl
      · rename_i hneg
        simp only [Except.ok.injEq] at hl h
        subst h
        rw [← hl]
        refine ⟨?_, ?_⟩
        · simp only [List.map_map, List.getElem?_map, List.getElem?_range hp, Option.map_some, Function.comp, Option.getD_some]
        · intro hc x hx
          by_contra hlt
          apply hneg
          rw [List.any_eq_true]
          refine ⟨(newtonLoop (coadd t v fs p) (nframes fs p) t g P.niter, P.considered p), ?_, ?_⟩
          · rw [List.map_map, List.mem_map]
            exact ⟨p, List.mem_range.2 hp, rfl⟩
          · simp [hc, hx, not_le.1 hlt]

/-- A bin without dark: for more and more iterations a considered pixel tends to the flux that explains its counts. -/
theorem bin_limit {P : ℕ → Params} {i : ℕ} {fs : List Frame} {s : ℕ → Slice} {f0 : Frame} {p : ℕ} {S : ℝ}
    (hP : ∀ k, P k = { P 0 with niter := k + 1 }) (hdark : (P 0).dark = none) (hsafe : (P 0).safemode = true)
    (h : ∀ k, pcBin (P k) i fs = .ok (s k)) (hf0 : fs.head? = some f0) (hp : p < (P 0).npix)
    (hc : (P 0).considered p = true) (hg : 0 < emGain f0.hdr) (hS : 0 ≤ S)
    (hroot : calcFunc (coadd ((P 0).tFactor * f0.hdr.rn) Frame.data fs p) (nframes fs p) ((P 0).tFactor * f0.hdr.rn)
      (emGain f0.hdr) S = 0) (hn : nframes fs p ≠ 0) :
    ∃ u : ℕ → ℝ, (∀ k, (s k).mean p = some (u k) ∧ 0 ≤ u k ∧ u k ≤ S) ∧ Tendsto u atTop (𝓝 S) := by
  have data : ∀ k, ∃ m, (s k).mean p = (m p).map (fun x => max x 0) ∧ 0 ≤ (P 0).tFactor * f0.hdr.rn ∧
      (P 0).tFactor * f0.hdr.rn < emGain f0.hdr ∧
      corr (P k) ((P 0).tFactor * f0.hdr.rn) (emGain f0.hdr) fs Frame.data = .ok m := by
    intro k
    obtain ⟨f0', l', m, up, low, hfs, _, _, _, ht, _, hsf, hm, _, _, _, _, _, _, g5, _⟩ := pcBin_ok (h k)
    have hff : f0' = f0 := by
      rw [hfs] at hf0
      exact Option.some.inj hf0
    subst hff
    have e1 : (P k).tFactor = (P 0).tFactor := by rw [hP k]
    have e2 : (P k).dark = none := by rw [hP k]; exact hdark
    have e3 : (P k).safemode = true := by rw [hP k]; exact hsafe
    rw [e1] at hm ht
    have hsf' := hsf e3
    rw [e1] at hsf'
    exact ⟨m, (g5 e2).1 p, ht, hsf', hm⟩
  obtain ⟨m0, -, ht, htg, hm0⟩ := data 0
  have hn' : (0 : ℝ) < nframes fs p := by exact_mod_cast Nat.pos_of_ne_zero hn
  by_cases ho : coadd ((P 0).tFactor * f0.hdr.rn) Frame.data fs p = 0
  · -- no detections
    have hS0 : S = 0 := by
      rw [ho] at hroot
      refine C36_unique hn' ht hg hS le_rfl hroot ?_
      unfold calcFunc eps num
      simp
    refine ⟨fun _ => 0, fun k => ?_, by rw [hS0]; exact tendsto_const_nhds⟩
    obtain ⟨m, hm, -, -, hk⟩ := data k
    have e : (P k).npix = (P 0).npix := by rw [hP k]
    have hz := corr_zero hk (by rw [hP k]; exact Nat.le_add_left ..) (e ▸ hp) ho
    refine ⟨by rw [hm, hz]; simp, le_rfl, hS⟩
  · obtain ⟨hv0, hnn0⟩ := corr_val hm0 hp
    have hniter : (P 0).niter = 1 := by rw [hP 0]
    rw [hniter] at hv0 hnn0
    obtain ⟨a, ha, ha0, _⟩ := C150_start (nobs := coadd ((P 0).tFactor * f0.hdr.rn) Frame.data fs p) hn
      ((P 0).tFactor * f0.hdr.rn) (emGain f0.hdr)
    have h1 := loop_eq ho hn ht hg ha 1 fun j hj => by
      rw [show j = 0 by omega]
      exact ha0
    have hl0 := hnn0 hc _ (by rw [h1])
    obtain ⟨u, hu, -, hlim⟩ := C150_converges ho hn ht hg htg.le hS hroot h1 hl0
    refine ⟨u, fun k => ⟨?_, (hu k).2⟩, hlim⟩
    obtain ⟨m, hm, -, -, hk⟩ := data k
    have e : (P k).npix = (P 0).npix := by rw [hP k]
    have e4 : (P k).niter = k + 1 := by rw [hP k]
    have hv := (corr_val hk (e ▸ hp)).1
    rw [e4, (hu k).1] at hv
    rw [hm, hv]
    simp [(hu k).2.1]

/-- **C151.** With the number of iterations the dark-subtracted pixel tends to the flux that explains the light counts minus the
flux that explains the dark counts, or to 0 if that is negative. -/
theorem C151_limit {P Pd : ℕ → Params} {bin : Option ℤ} {ds fs : List Frame} {out : ℕ → List Slice} {t : ℝ} {nf i : ℕ}
    {ps : List String} {d : ℕ → MasterDark} {s0 s : ℕ → Slice} {f0 e0 : Frame} {p : ℕ} {S D : ℝ} {nd : ℕ}
    (hP : ∀ k, P k = { P 0 with niter := k + 1 }) (hPd : ∀ k, Pd k = { Pd 0 with niter := k + 1 })
    (hsafe : (P 0).safemode = true) (hsafed : (Pd 0).safemode = true)
    (hdark : ∀ k, getPcMean (Pd k) bin ds = .ok (.dark (out k) t nf ps)) (hlen : ∀ k, (out k).length = nd)
    (hd : ∀ k, masterDark (.dark (out k) t nf ps) = some (d k))
    (h0 : ∀ k, pcBin { P k with dark := none } i fs = .ok (s0 k)) (hv : ∀ k, (s0 k).vistype ≠ "DARK")
    (h : ∀ k, pcBin { P k with dark := some (d k) } i fs = .ok (s k))
    (hp : p < (P 0).npix) (hc : (P 0).considered p = true) (hpd : p < (Pd 0).npix) (hcd : (Pd 0).considered p = true)
    (hf0 : fs.head? = some f0) (hg : 0 < emGain f0.hdr) (hn : nframes fs p ≠ 0) (hS : 0 ≤ S)
    (hroot : calcFunc (coadd ((P 0).tFactor * f0.hdr.rn) Frame.data fs p) (nframes fs p) ((P 0).tFactor * f0.hdr.rn)
      (emGain f0.hdr) S = 0)
    (he0 : (binFrames nf (i % nd) ds).head? = some e0) (hge : 0 < emGain e0.hdr)
    (hne : nframes (binFrames nf (i % nd) ds) p ≠ 0) (hD : 0 ≤ D)
    (hrootd : calcFunc (coadd ((Pd 0).tFactor * e0.hdr.rn) Frame.data (binFrames nf (i % nd) ds) p)
      (nframes (binFrames nf (i % nd) ds) p) ((Pd 0).tFactor * e0.hdr.rn) (emGain e0.hdr) D = 0) :
    ∃ u : ℕ → ℝ, (∀ k, (s k).mean p = some (u k)) ∧ Tendsto u atTop (𝓝 (max (S - D) 0)) := by
  obtain ⟨ul, hul, hliml⟩ := bin_limit (P := fun k => { P k with dark := none }) (s := s0)
    (fun k => by simp only [hP k]) rfl hsafe h0 hf0 hp hc hg hS hroot hn
  have hsub := fun k => C151_subtract (hdark k) (hd k) (h0 k) (hv k) (h k)
  choose sd hsd hmean using hsub
  obtain ⟨ud, hud, hlimd⟩ := bin_limit (P := Pd) (s := sd) (i := i % nd) hPd (getPcMean_dark (hdark 0)).2.1 hsafed
    (fun k => (getPcMean_dark (hdark k)).2.2 _ _ (by
      have := hsd k
      unfold darkOf at this
      rwa [hlen k] at this)) he0 hpd hcd hge hD hrootd hne
  refine ⟨fun k => max (ul k - ud k) 0, fun k => ?_, (hliml.sub hlimd).max tendsto_const_nhds⟩
  rw [hmean k, (hul k).1, (hud k).1]
  rfl

/-! ## Settings of the dark frames -/

/-- A frame with another exposure time and conversion gain in its header. -/
def withTime (e k : ℝ) (f : Frame) : Frame := { f with hdr := { f.hdr with exptime := e, kgain := k } }

theorem nframes_withTime (e k : ℝ) (fs : List Frame) : nframes (fs.map (withTime e k)) = nframes fs := by
  funext p
  unfold nframes
  rw [List.map_map]
  rfl

theorem coadd_withTime (e k t : ℝ) (v : Frame → ℕ → Option ℝ) (hv : ∀ f, v (withTime e k f) = v f) (fs : List Frame) :
    coadd t v (fs.map (withTime e k)) = coadd t v fs := by
  funext p
  unfold coadd
  rw [List.map_map]
  congr 1
  apply List.map_congr_left
  intro f _
  simp only [Function.comp, hv]
  rfl

theorem corr_withTime (P : Params) (e k t g : ℝ) (v : Frame → ℕ → Option ℝ) (hv : ∀ f, v (withTime e k f) = v f)
    (fs : List Frame) : corr P t g (fs.map (withTime e k)) v = corr P t g fs v := by
  unfold corr
  rw [coadd_withTime e k t v hv, nframes_withTime]

theorem pcFinish_withTime (P : Params) (e k t g : ℝ) (i : ℕ) (vis : String) (m up low : ℕ → Option ℝ) (fs : List Frame) :
    pcFinish P i (fs.map (withTime e k)) vis t g m up low = pcFinish P i fs vis t g m up low := by
  have hn : (fs.map (withTime e k)).map Frame.name = fs.map Frame.name := by
    rw [List.map_map]
    rfl
  unfold pcFinish
  rw [nframes_withTime, hn, List.length_map]

theorem pcBin_withTime (P : Params) (e k : ℝ) (i : ℕ) {fs : List Frame}
    (hc : ∀ f ∈ fs, ∀ f' ∈ fs, f.hdr.exptime = f'.hdr.exptime ∧ f.hdr.kgain = f'.hdr.kgain) :
    pcBin P i (fs.map (withTime e k)) = pcBin P i fs := by
  classical
  cases fs with
  | nil => rfl
  | cons f0 l =>
    have hany : (((f0 :: l).map (withTime e k)).any fun f => decide ((f.hdr.exptime, f.hdr.emC, f.hdr.kgain, f.hdr.rn) ≠
        ((withTime e k f0).hdr.exptime, (withTime e k f0).hdr.emC, (withTime e k f0).hdr.kgain, (withTime e k f0).hdr.rn))) =
        (f0 :: l).any fun f => decide ((f.hdr.exptime, f.hdr.emC, f.hdr.kgain, f.hdr.rn) ≠
          (f0.hdr.exptime, f0.hdr.emC, f0.hdr.kgain, f0.hdr.rn)) := by
      rw [Bool.eq_iff_iff, List.any_eq_true, List.any_eq_true]
      simp only [List.mem_map, exists_exists_and_eq_and, decide_eq_true_eq]
      refine exists_congr fun f => and_congr_right fun hf => not_congr ?_
      obtain ⟨h1, h2⟩ := hc f hf f0 List.mem_cons_self
      simp only [Prod.mk.injEq, withTime, h1, h2, true_and]
    have hvis : (((f0 :: l).map (withTime e k)).any fun f => decide (f.hdr.vistype ≠ (withTime e k f0).hdr.vistype)) =
        (f0 :: l).any fun f => decide (f.hdr.vistype ≠ f0.hdr.vistype) := by
      rw [List.any_map]
      rfl
    have hvals : (((List.range P.npix).filter P.considered).flatMap fun p =>
        ((f0 :: l).map (withTime e k)).filterMap fun f => f.data p) =
        ((List.range P.npix).filter P.considered).flatMap fun p => (f0 :: l).filterMap fun f => f.data p := by
      congr 1
      funext p
      rw [List.filterMap_map]
      rfl
    have c1 := corr_withTime P e k (P.tFactor * f0.hdr.rn) (emGain f0.hdr) Frame.data (fun _ => rfl) (f0 :: l)
    have c2 := corr_withTime P e k (P.tFactor * f0.hdr.rn) (emGain f0.hdr) plus (fun _ => rfl) (f0 :: l)
    have c3 := corr_withTime P e k (P.tFactor * f0.hdr.rn) (emGain f0.hdr) minus (fun _ => rfl) (f0 :: l)
    have c4 := fun m up low => pcFinish_withTime P e k (P.tFactor * f0.hdr.rn) (emGain f0.hdr) i f0.hdr.vistype m up low (f0 :: l)
    rw [List.map_cons] at hany hvis hvals c1 c2 c3 c4 ⊢
    unfold pcBin
    dsimp only
    rw [hany, hvis, hvals]
    show (if _ then _ else if _ then _ else if _ then _ else if _ then _ else if _ then _ else if _ then _ else
      if _ then _ else if _ then _ else if _ then _ else if _ then _ else
        match corr P (P.tFactor * f0.hdr.rn) (emGain f0.hdr) (withTime e k f0 :: List.map (withTime e k) l) Frame.data with
        | .error er => _
        | .ok m =>
          match corr P (P.tFactor * f0.hdr.rn) (emGain f0.hdr) (withTime e k f0 :: List.map (withTime e k) l) plus with
          | .error er => _
          | .ok up =>
            match corr P (P.tFactor * f0.hdr.rn) (emGain f0.hdr) (withTime e k f0 :: List.map (withTime e k) l) minus with
            | .error er => _
            | .ok low => pcFinish P i (withTime e k f0 :: List.map (withTime e k) l) f0.hdr.vistype (P.tFactor * f0.hdr.rn)
                (emGain f0.hdr) m up low) = _
    rw [c1, c2, c3]
    simp only [c4]
    rfl

/-- **C151 is violated**: the master dark has no trace of the exposure time and of the conversion gain of the dark frames, so
darks of every exposure time are accepted for light frames of any other. -/
theorem C151_violated_settings (P : Params) (bin : Option ℤ) {ds : List Frame} (e k : ℝ)
    (hc : ∀ f ∈ ds, ∀ f' ∈ ds, f.hdr.exptime = f'.hdr.exptime ∧ f.hdr.kgain = f'.hdr.kgain) :
    getPcMean P bin (ds.map (withTime e k)) = getPcMean P bin ds := by
  have hbin : ∀ b i, pcBin P i (binFrames b i (ds.map (withTime e k))) = pcBin P i (binFrames b i ds) := by
    intro b i
    have : binFrames b i (ds.map (withTime e k)) = (binFrames b i ds).map (withTime e k) := by
      unfold binFrames
      rw [List.map_take, List.map_drop]
    rw [this]
    refine pcBin_withTime P e k i fun f hf f' hf' => hc f ?_ f' ?_
    · exact List.mem_of_mem_drop (List.mem_of_mem_take hf)
    · exact List.mem_of_mem_drop (List.mem_of_mem_take hf')
  have hnames : ∀ n, ((ds.map (withTime e k)).take n).map Frame.name = (ds.take n).map Frame.name := by
    intro n
    rw [← List.map_take, List.map_map]
    rfl
  unfold getPcMean
  simp only [hbin, hnames, List.length_map]

/-- **C151.** What this does to the result: with a dark current `r` per unit of time, light frames of exposure `T` and darks of
exposure `T'`, the limit of the result is the flux only if the exposures are the same. -/
theorem C151_violated_time {u : ℕ → ℝ} {s r T T' : ℝ} (hs : 0 < s) (hr : 0 < r)
    (hlim : Tendsto u atTop (𝓝 (max ((s + r * T) - r * T') 0))) : Tendsto u atTop (𝓝 s) ↔ T = T' := by
  constructor
  · intro h
    have h1 := tendsto_nhds_unique hlim h
    have h2 : s + r * T - r * T' = s := by
      rcases max_choice (s + r * T - r * T') 0 with h3 | h3
      · rw [← h3, h1]
      · rw [h3] at h1
        exact absurd h1 hs.ne
    have h3 : r * T = r * T' := by linarith
    exact mul_left_cancel₀ hr.ne' h3
  · rintro rfl
    rwa [add_sub_cancel_right, max_eq_left hs.le] at hlim

/-! ## Non-vacuity -/

/-- Two blank darks of 1 s give a master dark that is used for two blank light frames of 100 s. -/
theorem exPair : ∃ out t nf ps d s0 s, getPcMean darkParams (some 2) [blank "a" "DARK" 1 100, blank "b" "DARK" 1 100] =
      .ok (.dark out t nf ps) ∧ masterDark (.dark out t nf ps) = some d ∧
    pcBin { darkParams with mode := "illuminated", dark := none } 0 [blank "c" "SCI" 100 100, blank "d" "SCI" 100 100] = .ok s0 ∧
    s0.vistype ≠ "DARK" ∧
    pcBin { darkParams with mode := "illuminated", dark := some d } 0 [blank "c" "SCI" 100 100, blank "d" "SCI" 100 100] =
      .ok s := by
  obtain ⟨sd, hsd⟩ := pcBin_blank 0 (fs := [blank "a" "DARK" 1 100, blank "b" "DARK" 1 100]) 1 100 (by norm_num)
    (by norm_num) (by simp) (by
      intro f hf
      rcases List.mem_pair.1 hf with rfl | rfl
      · exact ⟨_, rfl⟩
      · exact ⟨_, rfl⟩)
  have hv : sd.vistype = "DARK" ∧ sd.thresh = 500 ∧ sd.numFr = 2 := by
    obtain ⟨f0, l, m, up, low, hfs, _, _, _, _, _, _, _, _, _, g1, g2, g3, g4, _⟩ := pcBin_ok hsd
    have := (List.cons.inj hfs).1
    subst this
    refine ⟨g3, ?_, g2⟩
    rw [g1]
    norm_num [darkParams, blank]
  have hdark : getPcMean darkParams (some 2) [blank "a" "DARK" 1 100, blank "b" "DARK" 1 100] =
      .ok (.dark [sd] sd.thresh sd.numFr ["a", "b"]) := by
    unfold getPcMean
    rw [if_neg (by simp [darkParams])]
    simp only [Option.getD_some, List.length_cons, List.length_nil]
    rw [if_neg (by norm_num), if_neg (by norm_num)]
    have : (List.range ((0 + 1 + 1) / (2 : ℤ).toNat)) = [0] := by decide
    rw [this]
    simp only [List.mapM_cons, List.mapM_nil]
    rw [show binFrames (2 : ℤ).toNat 0 [blank "a" "DARK" 1 100, blank "b" "DARK" 1 100] =
      [blank "a" "DARK" 1 100, blank "b" "DARK" 1 100] from rfl, hsd]
    simp only [Bind.bind, Except.bind, pure, Except.pure, List.getLast?_singleton]
    rw [if_neg (by rw [hv.1]; simp)]
    rfl
  obtain ⟨s0, hs0⟩ := pcBin_blank_vis "SCI" 0 (fs := [blank "c" "SCI" 100 100, blank "d" "SCI" 100 100]) 100 100 (by norm_num)
    (by norm_num) (by simp) (by
      intro f hf
      rcases List.mem_pair.1 hf with rfl | rfl
      · exact ⟨_, rfl⟩
      · exact ⟨_, rfl⟩)
  have hv0 : s0.vistype = "SCI" ∧ s0.thresh = 500 := by
    obtain ⟨f0, l, m, up, low, hfs, _, _, _, _, _, _, _, _, _, g1, g2, g3, g4, _⟩ := pcBin_ok hs0
    have := (List.cons.inj hfs).1
    subst this
    refine ⟨g3, ?_⟩
    rw [g1]
    norm_num [darkParams, blank]
  rw [if_neg (by decide)] at hs0
  obtain ⟨s, hs⟩ := (C151_accepted_iff (P := { darkParams with mode := "illuminated" }) hdark rfl hs0
    (by rw [hv0.1]; decide)).2 ⟨hv0.2.trans hv.2.1.symm, by rw [hv.2.2]; rfl⟩
  exact ⟨_, _, _, _, _, s0, s, hdark, rfl, hs0, by rw [hv0.1]; decide, hs⟩

end Corgi.Pc

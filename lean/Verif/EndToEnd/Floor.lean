import Verif.EndToEnd.Many

/-!
# The error of a photon counted pixel for many random frames (C193)

`get_pc_mean` takes the error of a pixel from three corrections: of the counts, of the counts with the errors of the frames added, and of
those with the errors subtracted (photon_counting.py 241-268), and adds the variance of the counts. Here the random raw frames of C192.
-/

noncomputable section

namespace Corgi.Counted

open Corgi.Det Corgi.Arith Corgi.EndToEnd Real Filter Topology MeasureTheory ProbabilityTheory

variable {Ω : Type} [MeasurableSpace Ω] {μ : Measure Ω} [IsProbabilityMeasure μ]

/-! ## Specification -/

/-- In every pixel, given that it is not flagged, the probability of exceeding the threshold when `b` errors are added is that of the
flux `S` (given at most three electrons). -/
def ChanceWith (t b k ek g : ℝ) (S : ℕ → ℕ → ℝ) (y : ℕ → Ω → Seen) (μ : Measure Ω) : Prop :=
  ∀ r c, r < 1024 → c < 1024 → 0 ≤ S r c ∧ μ.real {ω | pixel k ek r c (y 0 ω) ∈ Hit t b} =
    μ.real {ω | pixel k ek r c (y 0 ω) ∈ Good} * Pc.efficiency (t / g) (S r c)

/-! ## The variance term -/

theorem var_bound (T : ℝ) {g : ℝ} (hg : 0 < g) (hT : 0 ≤ T) : ∃ C, ∀ L, 0 ≤ L → ∀ n : ℕ, n ≠ 0 → 0 ≤ Pc.varL23 g L T n ∧
    Pc.varL23 g L T n ≤ C / n := by
  have hc : ContinuousOn (fun e : ℝ => (sqrt (1 * e * (1 - e))) ^ 2 *
      (exp (T / g) / 1 + 2 * ((exp ((2 * T) / g) * (g - T)) / (2 * g * 1 ^ 2)) * (1 * e) +
        3 * ((exp ((3 * T) / g) * (4 * g ^ 2 - 8 * g * T + 5 * T ^ 2)) / (12 * g ^ 2 * 1 ^ 3)) * (1 * e) ^ 2) ^ 2) (Set.Icc 0 1) := by
    fun_prop
  obtain ⟨C, hC⟩ := isCompact_Icc.exists_bound_of_continuousOn hc
  refine ⟨C, fun L hL n hn => ?_⟩
  obtain ⟨b0, b1, b2⟩ := Pc.C36_bounds hT hg hL
  rw [Pc.varL23_scale hg hT hL hn]
  have h1 := hC (Pc.eps T g L) ⟨b0, b1.le.trans b2⟩
  have h0 : 0 ≤ Pc.varL23 g L T 1 := by
    unfold Pc.varL23
    positivity
  rw [Real.norm_eq_abs] at h1
  have h2 : Pc.varL23 g L T 1 ≤ C := by
    unfold Pc.varL23
    rw [Pc.C36_same_efficiency hg.ne']
    exact (le_abs_self _).trans h1
  exact ⟨by positivity, div_le_div_of_nonneg_right h2 (Nat.cast_nonneg _)⟩

/-! ## One bin -/

/-- One of the three corrections. -/
theorem corr_near {P : Pc.Params} {k : ℕ} {fs : List Pc.Frame} {v : Pc.Frame → ℕ → Option ℝ} {m : ℕ → Option ℝ} {t g : ℝ} {p : ℕ} {S : ℝ}
    (hP : P.niter = k + 1) (h : Pc.corr P t g fs v = .ok m) (hp : p < P.npix) (ht : 0 ≤ t) (hg : 0 < g) (htg : t ≤ g) (hS : 0 ≤ S)
    (hS1 : S ≤ 2 / 5) (hroot : Pc.calcFunc (Pc.coadd t v fs p) (Pc.nframes fs p) t g S = 0) (hn : Pc.nframes fs p ≠ 0) :
    ∃ u, m p = some u ∧ 0 ≤ u ∧ u ≤ S ∧ S - u ≤ S ^ 2 ^ (k + 2) := by
  have hn' : (0 : ℝ) < Pc.nframes fs p := by exact_mod_cast Nat.pos_of_ne_zero hn
  rw [(Pc.corr_val h hp).1, hP]
  by_cases ho : Pc.coadd t v fs p = 0
  · have hS0 : S = 0 := by
      rw [ho] at hroot
      refine Pc.C36_unique hn' ht hg hS le_rfl hroot ?_
      unfold Pc.calcFunc Pc.eps Pc.num
      simp
    rw [ho, Pc.newtonLoop_zero hn, hS0]
    exact ⟨0, by simp, le_rfl, le_rfl, by simp⟩
  · obtain ⟨u, h1, h2, h3, h4⟩ := Pc.C191_rate ho hn ht hg htg hS hS1 hroot k
    rw [h1]
    exact ⟨u, by simp, h2, h3, h4⟩

/-- The error of a pixel of a bin without dark. -/
theorem bin_err {P : Pc.Params} {i k : ℕ} {fs : List Pc.Frame} {s : Pc.Slice} {f0 : Pc.Frame} {p : ℕ} {S U W S0 U0 W0 M C η : ℝ}
    (hP : P.niter = k + 1) (hdark : P.dark = none) (hsafe : P.safemode = true)
    (h : Pc.pcBin P i fs = .ok s) (hf0 : fs.head? = some f0) (hp : p < P.npix) (hg : 0 < Pc.emGain f0.hdr)
    (hS : 0 ≤ S ∧ S ≤ M) (hU : 0 ≤ U ∧ U ≤ M) (hW : 0 ≤ W ∧ W ≤ M) (hM : M ≤ 2 / 5)
    (hC : ∀ L, 0 ≤ L → ∀ n : ℕ, n ≠ 0 → 0 ≤ Pc.varL23 (Pc.emGain f0.hdr) L (P.tFactor * f0.hdr.rn) n ∧
      Pc.varL23 (Pc.emGain f0.hdr) L (P.tFactor * f0.hdr.rn) n ≤ C / n)
    (rS : Pc.calcFunc (Pc.coadd (P.tFactor * f0.hdr.rn) Pc.Frame.data fs p) (Pc.nframes fs p) (P.tFactor * f0.hdr.rn)
      (Pc.emGain f0.hdr) S = 0)
    (rU : Pc.calcFunc (Pc.coadd (P.tFactor * f0.hdr.rn) Pc.plus fs p) (Pc.nframes fs p) (P.tFactor * f0.hdr.rn)
      (Pc.emGain f0.hdr) U = 0)
    (rW : Pc.calcFunc (Pc.coadd (P.tFactor * f0.hdr.rn) Pc.minus fs p) (Pc.nframes fs p) (P.tFactor * f0.hdr.rn)
      (Pc.emGain f0.hdr) W = 0) (nS : |S - S0| ≤ η)
    (nU : |U - U0| ≤ η) (nW : |W - W0| ≤ η) (hord : S0 ≤ U0) (hn : Pc.nframes fs p ≠ 0) :
    ∃ e, s.err p = some e ∧ |e - max (U0 - S0) (S0 - W0)| ≤ M ^ 2 ^ (k + 2) + C / Pc.nframes fs p + 2 * η := by
  obtain ⟨f0', l', m, up, low, hfs, _, _, _, ht, _, hsf, hm, hup, hlow, _, _, _, _, g5, _⟩ := Pc.pcBin_ok h
  obtain rfl : f0' = f0 := by
    rw [hfs] at hf0
    exact Option.some.inj hf0
  have htg := (hsf hsafe).le
  obtain ⟨a, a1, a2, a3, a4⟩ := corr_near hP hm hp ht hg htg hS.1 (hS.2.trans hM) rS hn
  obtain ⟨b, b1, b2, b3, b4⟩ := corr_near hP hup hp ht hg htg hU.1 (hU.2.trans hM) rU hn
  obtain ⟨d, d1, d2, d3, d4⟩ := corr_near hP hlow hp ht hg htg hW.1 (hW.2.trans hM) rW hn
  obtain ⟨v0, v1⟩ := hC a a2 _ hn
  have pS : S ^ 2 ^ (k + 2) ≤ M ^ 2 ^ (k + 2) := pow_le_pow_left₀ hS.1 hS.2 _
  have pU : U ^ 2 ^ (k + 2) ≤ M ^ 2 ^ (k + 2) := pow_le_pow_left₀ hU.1 hU.2 _
  have pW : W ^ 2 ^ (k + 2) ≤ M ^ 2 ^ (k + 2) := pow_le_pow_left₀ hW.1 hW.2 _
  set var := Pc.varL23 (Pc.emGain f0'.hdr) a (P.tFactor * f0'.hdr.rn) (Pc.nframes fs p) with hvar
  have herr : s.err p = some |max ((b + var) - a) (a - (d - var))| := by
    rw [(g5 hdark).2.1 p, a1, b1, d1]
    unfold Pc.pcErr
    simp only [Option.bind_eq_bind, Option.bind_some, hn, if_false, zero_pow two_ne_zero, add_zero,
      Real.sqrt_sq_eq_abs]
    rfl
  refine ⟨_, herr, ?_⟩
  have hfl : 0 ≤ max (U0 - S0) (S0 - W0) := le_max_of_le_left (by linarith)
  rw [abs_le] at nS nU nW
  obtain ⟨nS1, nS2⟩ := nS
  obtain ⟨nU1, nU2⟩ := nU
  obtain ⟨nW1, nW2⟩ := nW
  have key : |max ((b + var) - a) (a - (d - var)) - max (U0 - S0) (S0 - W0)| ≤ M ^ 2 ^ (k + 2) + C / Pc.nframes fs p + 2 * η := by
    refine (abs_max_sub_max_le_max _ _ _ _).trans (max_le ?_ ?_) <;> rw [abs_le] <;> constructor <;> linarith
  have h1 := abs_abs_sub_abs_le (max ((b + var) - a) (a - (d - var))) (max (U0 - S0) (S0 - W0))
  rw [abs_of_nonneg hfl] at h1
  exact h1.trans key

/-! ## Many frames -/

section
variable {tab : NonLin.Table ℝ} {off k ek T emax : ℝ} {w : Setting} {vis : String} {y : ℕ → Ω → Seen}

/-- Almost surely, for enough frames there is a flux near `S` that explains the detections with `b` errors added exactly. -/
theorem root_eventually (h : Shots tab off k ek T emax w vis y μ) {t b g η : ℝ} (ht : 0 ≤ t) (hg : 0 < g) (hη : 0 < η) {S : ℕ → ℕ → ℝ}
    (hS : ChanceWith t b k ek g S y μ) :
    ∀ᵐ ω ∂μ, ∀ᶠ n in atTop, ∀ r c, r < 1024 → c < 1024 → ∃ s', 0 ≤ s' ∧ |s' - S r c| ≤ η ∧
      Pc.calcFunc (hits t k ek b (first y n ω) r c) (valid (first y n ω) r c) t g s' = 0 := by
  have hv := all_pixels (P := fun r c n ω => valid (first y n ω) r c ≠ 0) fun r c hr hc => valid_eventually h hr hc
  have hr := all_pixels (μ := μ) (P := fun r c n ω => ∃ s', 0 ≤ s' ∧ |s' - S r c| ≤ η ∧ Pc.efficiency (t / g) s' =
      (hits t k ek b (first y n ω) r c : ℝ) / valid (first y n ω) r c) (by
    intro r c hr hc
    filter_upwards [fraction_limit h hr hc t b] with ω hω
    rw [(hS r c hr hc).2, mul_div_cancel_left₀ _ (h.good r c hr hc).ne'] at hω
    exact roots ht hg (hS r c hr hc).1 hη (fun n => by positivity) hω)
  filter_upwards [hv, hr] with ω h1 h2
  filter_upwards [h1, h2] with n a1 a2 r c hr hc
  obtain ⟨x, x0, x1, x2⟩ := a2 r c hr hc
  refine ⟨x, x0, x1, ?_⟩
  have hv' : (valid (first y n ω) r c : ℝ) ≠ 0 := by exact_mod_cast a1 r c hr hc
  rw [← Pc.C36_efficiency hg.ne'] at x2
  unfold Pc.calcFunc
  rw [x2]
  field_simp
  simp

omit [IsProbabilityMeasure μ] in
theorem sigma_nonneg (z : Seen) (r c : ℕ) : 0 ≤ sigma k ek z r c := by
  unfold sigma
  split
  · exact le_rfl
  · exact Real.sqrt_nonneg _

theorem order (h : Shots tab off k ek T emax w vis y μ) {t g : ℝ} (ht : 0 ≤ t) (hg : 0 < g) {S U : ℕ → ℕ → ℝ}
    (hS : ChanceWith t 0 k ek g S y μ) (hU : ChanceWith t 1 k ek g U y μ) {r c : ℕ} (hr : r < 1024) (hc : c < 1024) :
    S r c ≤ U r c := by
  obtain ⟨s0, s1⟩ := hS r c hr hc
  obtain ⟨u0, u1⟩ := hU r c hr hc
  by_contra hlt
  push Not at hlt
  have h1 := Pc.eps_strictMono ht hg u0 hlt
  rw [Pc.C36_efficiency hg.ne', Pc.C36_efficiency hg.ne'] at h1
  have h2 : μ.real {ω | pixel k ek r c (y 0 ω) ∈ Hit t 0} ≤ μ.real {ω | pixel k ek r c (y 0 ω) ∈ Hit t 1} := by
    refine measureReal_mono ?_
    intro ω hω
    obtain ⟨a1, a2⟩ := hω
    refine ⟨a1, ?_⟩
    have := sigma_nonneg (k := k) (ek := ek) (y 0 ω) r c
    dsimp only [pixel] at a2 ⊢
    linarith
  rw [s1, u1] at h2
  exact absurd (le_of_mul_le_mul_left h2 (h.good r c hr hc)) (not_le.2 h1)

theorem valid_many (h : Shots tab off k ek T emax w vis y μ) (C : ℝ) {ε : ℝ} (hε : 0 < ε) :
    ∀ᵐ ω ∂μ, ∀ᶠ n in atTop, ∀ r c, r < 1024 → c < 1024 → C / valid (first y n ω) r c ≤ ε := by
  refine all_pixels (P := fun r c n ω => C / valid (first y n ω) r c ≤ ε) fun r c hr hc => ?_
  filter_upwards [valid_limit h hr hc] with ω h1
  have h2 : Tendsto (fun n : ℕ => (valid (first y n ω) r c : ℝ)) atTop atTop := by
    have h3 := h1.pos_mul_atTop (h.good r c hr hc) (tendsto_natCast_atTop_atTop (R := ℝ))
    refine h3.congr' ?_
    filter_upwards [eventually_gt_atTop 0] with n hn
    have : (n : ℝ) ≠ 0 := by exact_mod_cast hn.ne'
    field_simp
  exact ((tendsto_const_nhds.div_atTop h2).eventually_lt_const hε).mono fun n hn => hn.le

end

/-! ## C193 -/

/-- **C193.** Random raw darks: `S` is the flux whose probability of a detection the pixel has, `U` that with the error of each frame added,
`W` that with it subtracted, all at most `M`. Almost surely, for enough darks, the recipe gives a photon counted master dark of one image,
whose error in every pixel is the larger of `U - S` and `S - W` up to `M ^ 2 ^ (j + 2) + ε` with `j + 1` iterations, for any `ε`: it has a
floor that more frames do not lower. -/
theorem C193_floor {tab : NonLin.Table ℝ} (ht : NonLin.Good tab) {off k ek T emax : ℝ} (offErr : ℝ) (hk : k ≠ 0)
    {w : Setting} {y : ℕ → Ω → Seen} (hy : Shots tab off k ek T emax w "DARK" y μ)
    (hT : 0 < T) (hrn : 0 < w.rn) (htg : T * w.rn < w.gain) {S U W : ℕ → ℕ → ℝ}
    (hS : ChanceWith (T * w.rn) 0 k ek w.gain S y μ) (hU : ChanceWith (T * w.rn) 1 k ek w.gain U y μ)
    (hW : ChanceWith (T * w.rn) (-1) k ek w.gain W y μ) {M ε : ℝ} (hM : M < 2 / 5)
    (hSM : ∀ r c, r < 1024 → c < 1024 → S r c ≤ M ∧ U r c ≤ M ∧ W r c ≤ M) (hε : 0 < ε) (j : ℕ) :
    ∀ᵐ ω ∂μ, ∀ᶠ n in atTop, ∃ d m e q,
      darkRecipe T emax (j + 1) tab off offErr k ek ((first y n ω).map Prod.snd) = .ok d ∧ d.slices = [(m, e, q)] ∧
      ∀ r c, r < 1024 → c < 1024 → ∃ x, e (r * 1024 + c) = some x ∧
        |x - max (U r c - S r c) (S r c - W r c)| ≤ M ^ 2 ^ (j + 2) + ε := by
  have htp : 0 < T * w.rn := mul_pos hT hrn
  have hgp : 0 < w.gain := htp.trans htg
  obtain ⟨lim, hl, -, hlim⟩ := Pc.C150_limit htp hgp htg.le
  obtain ⟨C, hC⟩ := var_bound (T * w.rn) hgp htp.le
  obtain ⟨η, hη, hη1, hη2⟩ : ∃ η, 0 < η ∧ M + η ≤ 2 / 5 ∧ 2 * η + (M + η) ^ 2 ^ (j + 2) ≤ M ^ 2 ^ (j + 2) + ε / 2 := by
    have hc : Tendsto (fun η : ℝ => 2 * η + (M + η) ^ 2 ^ (j + 2)) (𝓝[>] 0) (𝓝 (2 * 0 + (M + 0) ^ 2 ^ (j + 2))) :=
      (Continuous.tendsto (by fun_prop) 0).mono_left nhdsWithin_le_nhds
    have h1 := hc.eventually_lt_const (show 2 * 0 + (M + 0) ^ 2 ^ (j + 2) < M ^ 2 ^ (j + 2) + ε / 2 by
      rw [mul_zero, zero_add, add_zero]
      linarith)
    have h2 : ∀ᶠ η : ℝ in 𝓝[>] 0, η < 2 / 5 - M := nhdsWithin_le_nhds (Iio_mem_nhds (by linarith))
    obtain ⟨η, ⟨a1, a2⟩, a3⟩ := ((h1.and h2).and self_mem_nhdsWithin).exists
    exact ⟨η, a3, by linarith, a1.le⟩
  filter_upwards [stack_eventually hy hl, root_eventually hy htp.le hgp hη hS, root_eventually hy htp.le hgp hη hU,
    root_eventually hy htp.le hgp hη hW, valid_many hy C (half_pos hε)] with ω h1 h2 h3 h4 h5
  filter_upwards [h1, h2, h3, h4, h5] with n a1 a2 a3 a4 a5
  obtain ⟨fd, pd, k1, k2, k3, k4, k5, k6, ⟨f0, k7, k8, k9⟩, k10⟩ := stack_bin ht offErr hk a1 (mode := "darks") rfl hT hrn htg hlim
  obtain ⟨s, b1, b2, b3, b4⟩ := k10 j
  have hdk : Pc.getPcMean (params T emax (j + 1) (1024 * 1024) "darks" none) none pd =
      .ok (.dark [s] (T * w.rn) (first y n ω).length (pd.map Pc.Frame.name)) := by
    rw [getPcMean_one (Nat.le_add_left 1 j) k5 b1, if_neg (by rw [b2]; simp), b3, b4]
  refine ⟨⟨some "photon-counted master dark", some (T * w.rn), (first y n ω).length, [s].map fun s => (s.mean, s.err, s.dq)⟩,
    s.mean, s.err, s.dq, ?_, rfl, fun r c hr hc => ?_⟩
  · unfold darkRecipe
    rw [k1]
    dsimp only
    rw [← k2, hdk]
    rfl
  · obtain ⟨S', c1, c2, c3⟩ := a2 r c hr hc
    obtain ⟨U', d1, d2, d3⟩ := a3 r c hr hc
    obtain ⟨W', e1, e2, e3⟩ := a4 r c hr hc
    obtain ⟨q1, q2, q3⟩ := hSM r c hr hc
    have hv := a1.valid r c hr hc
    obtain ⟨x, x1, x2⟩ := bin_err (k := j) (M := M + η) (C := C) (η := η) (S := S') (U := U') (W := W') (S0 := S r c) (U0 := U r c)
      (W0 := W r c) rfl rfl rfl b1 k7 (p := r * 1024 + c) (by show _ < 1024 * 1024; omega) (by rw [k9]; exact hgp)
      ⟨c1, by linarith [(abs_le.1 c2).2]⟩ ⟨d1, by linarith [(abs_le.1 d2).2]⟩ ⟨e1, by linarith [(abs_le.1 e2).2]⟩ hη1
      (by rw [k8, k9]; exact hC)
      (by rw [k8, k9, nframes_eq k4 hc]; show Pc.calcFunc (Pc.coadd (T * w.rn) _ _ _) _ (T * w.rn) _ _ = 0
          rw [(coadd_eq k4 hr hc).1]; exact c3)
      (by rw [k8, k9, nframes_eq k4 hc]; show Pc.calcFunc (Pc.coadd (T * w.rn) _ _ _) _ (T * w.rn) _ _ = 0
          rw [(coadd_eq k4 hr hc).2.1]; exact d3)
      (by rw [k8, k9, nframes_eq k4 hc]; show Pc.calcFunc (Pc.coadd (T * w.rn) _ _ _) _ (T * w.rn) _ _ = 0
          rw [(coadd_eq k4 hr hc).2.2]; exact e3)
      c2 d2 e2 (order hy htp.le hgp hS hU hr hc) (by rw [nframes_eq k4 hc]; exact hv)
    rw [nframes_eq k4 hc] at x2
    exact ⟨x, x1, x2.trans (by linarith [a5 r c hr hc])⟩

/-! ## Non-vacuity -/

/-- Darks with 0.7 electrons once in twenty frames, a threshold of one electron, an error of the K gain as large as the K gain: there is never
a detection, but the error of the master dark is for any number of frames, from some number on, more than 0.04 electrons. -/
example : ∀ᵐ ω ∂throws, ∀ᶠ n in atTop, ∃ d m e q,
    darkRecipe 1 1 2 linear 0 0 1 1 ((first (exShots "DARK" fun x => if x then 7 / 10 else 0) n ω).map Prod.snd) = .ok d ∧
    d.slices = [(m, e, q)] ∧ ∀ r c, r < 1024 → c < 1024 → ∃ x, e (r * 1024 + c) = some x ∧ 4 / 100 < x := by
  have hexp := one_sub_le_exp_neg (1 * 1 / 100 : ℝ)
  have hlt : exp (-(1 / 100) : ℝ) < 1 := by
    rw [exp_lt_one_iff]
    norm_num
  have p0 : coin20.real {x | (1 : ℝ) < (if x then 7 / 10 else 0) + 0 * |(if x then 7 / 10 else 0) * 1|} = 0 := by
    have : {x : Bool | (1 : ℝ) < (if x then 7 / 10 else 0) + 0 * |(if x then 7 / 10 else 0) * 1|} = ∅ := by
      ext x
      cases x <;> norm_num
    rw [this]
    simp
  have p1 : coin20.real {x | (1 : ℝ) < (if x then 7 / 10 else 0) + 1 * |(if x then 7 / 10 else 0) * 1|} = 1 / 20 := by
    have : {x : Bool | (1 : ℝ) < (if x then 7 / 10 else 0) + 1 * |(if x then 7 / 10 else 0) * 1|} = {true} := by
      ext x
      cases x <;> norm_num [abs_of_pos]
    rw [this]
    simp [coin20, Measure.real]
  have p2 : coin20.real {x | (1 : ℝ) < (if x then 7 / 10 else 0) + -1 * |(if x then 7 / 10 else 0) * 1|} = 0 := by
    have : {x : Bool | (1 : ℝ) < (if x then 7 / 10 else 0) + -1 * |(if x then 7 / 10 else 0) * 1|} = ∅ := by
      ext x
      cases x <;> norm_num [abs_of_pos]
    rw [this]
    simp
  have e0 : Pc.efficiency (1 * 1 / 100) 0 = 0 := by
    rw [← Pc.C36_efficiency (by norm_num : (100 : ℝ) ≠ 0)]
    unfold Pc.eps Pc.num
    simp
  obtain ⟨U, hU, hroot⟩ : ∃ U ∈ Set.Icc (45 / 1000 : ℝ) (1 / 10), Pc.eps (1 * 1) 100 U = 1 / 20 := by
    refine intermediate_value_Icc (by norm_num) ((Pc.eps_continuousOn (1 * 1) (by norm_num)).mono fun x hx => ?_) ⟨?_, ?_⟩
    · exact le_trans (by norm_num) hx.1
    all_goals
      rw [Pc.eps_eq (by norm_num)]
      unfold Pc.nx Pc.den
      norm_num at hexp ⊢
      linarith
  have hx : ∀ r c, r < 1024 → c < 1024 → 4 / 100 + (1 / 10) ^ 2 ^ (1 + 2) + 1 / 1000 < max (U - 0) (0 - 0) := by
    intro r c _ _
    refine lt_max_of_lt_left ?_
    have := hU.1
    norm_num at this ⊢
    linarith
  have h := C193_floor (μ := throws) (T := 1) (emax := 1) (ek := 1) (k := 1) (off := 0) (w := ⟨1, 100, 100, 1⟩)
    (y := exShots "DARK" fun x => if x then 7 / 10 else 0) (S := fun _ _ => 0) (U := fun _ _ => U) (W := fun _ _ => 0) (M := 1 / 10)
    (ε := 1 / 1000) linear_good 0 one_ne_zero
    (ex_shots "DARK" (v := fun x => if x then 7 / 10 else 0) (by intro x; cases x <;> norm_num [abs_of_pos]) (by
      intro b hb
      simp only [List.mem_cons, List.not_mem_nil, or_false] at hb
      rcases hb with rfl | rfl | rfl
      · exact p0.le.trans (by norm_num)
      · exact p1.le
      · exact p2.le.trans (by norm_num)))
    one_pos one_pos (by norm_num)
    (fun r c _ _ => ⟨le_rfl, by rw [ex_good, ex_hit, p0]; simp only [e0, mul_zero]⟩)
    (fun r c _ _ => ⟨le_trans (by norm_num) hU.1, by
      rw [ex_good, ex_hit, p1, one_mul, ← hroot, Pc.C36_efficiency (by norm_num : (100 : ℝ) ≠ 0)]⟩)
    (fun r c _ _ => ⟨le_rfl, by rw [ex_good, ex_hit, p2]; simp only [e0, mul_zero]⟩)
    (by norm_num) (fun r c _ _ => ⟨by norm_num, hU.2, by norm_num⟩) (by norm_num) 1
  filter_upwards [h] with ω hω
  filter_upwards [hω] with n hn
  obtain ⟨d, m, e, q, h1, h2, h3⟩ := hn
  refine ⟨d, m, e, q, h1, h2, fun r c hr hc => ?_⟩
  obtain ⟨x, x1, x2⟩ := h3 r c hr hc
  refine ⟨x, x1, ?_⟩
  have := hx r c hr hc
  have := (abs_le.1 x2).1
  linarith

end Corgi.Counted

import Verif.EndToEnd.Floor

/-!
# The error of photon counted light frames with a photon counted dark (C204)

`get_pc_mean` adds the error of the master dark in quadrature to that of the light frames (photon_counting.py 291-302). Here the random raw frames
of C192 and C193: both errors have a floor.
-/

noncomputable section

namespace Corgi.Counted

open Corgi.Det Corgi.Arith Corgi.EndToEnd Real Filter Topology MeasureTheory ProbabilityTheory

variable {Ω : Type} [MeasurableSpace Ω] {μ : Measure Ω} [IsProbabilityMeasure μ]

/-! ## Quadrature -/

theorem quad_le (a b c d : ℝ) : sqrt (a ^ 2 + b ^ 2) ≤ sqrt (c ^ 2 + d ^ 2) + (|a - c| + |b - d|) := by
  have h1 : |c| ≤ sqrt (c ^ 2 + d ^ 2) := by
    rw [← Real.sqrt_sq_eq_abs]
    exact Real.sqrt_le_sqrt (by nlinarith [sq_nonneg d])
  have h2 : |d| ≤ sqrt (c ^ 2 + d ^ 2) := by
    rw [← Real.sqrt_sq_eq_abs]
    exact Real.sqrt_le_sqrt (by nlinarith [sq_nonneg c])
  have hN := Real.sq_sqrt (show 0 ≤ c ^ 2 + d ^ 2 by positivity)
  refine Real.sqrt_le_iff.2 ⟨by positivity, ?_⟩
  generalize sqrt (c ^ 2 + d ^ 2) = N at h1 h2 hN ⊢
  have e1 : c * (a - c) ≤ N * |a - c| := (le_abs_self _).trans (by rw [abs_mul]; exact mul_le_mul_of_nonneg_right h1 (abs_nonneg _))
  have e2 : d * (b - d) ≤ N * |b - d| := (le_abs_self _).trans (by rw [abs_mul]; exact mul_le_mul_of_nonneg_right h2 (abs_nonneg _))
  have e3 : 0 ≤ |a - c| * |b - d| := by positivity
  have e4 := sq_abs (a - c)
  have e5 := sq_abs (b - d)
  nlinarith

theorem quad_near (a b c d : ℝ) : |sqrt (a ^ 2 + b ^ 2) - sqrt (c ^ 2 + d ^ 2)| ≤ |a - c| + |b - d| := by
  have h1 := quad_le a b c d
  have h2 := quad_le c d a b
  rw [abs_sub_comm c, abs_sub_comm d] at h2
  rw [abs_le]
  constructor <;> linarith

/-- The error of a bin with a dark, from those of the bin without dark and of the dark. -/
theorem err_with {P : Pc.Params} {i : ℕ} {fs : List Pc.Frame} {s0 s : Pc.Slice} {d : Pc.MasterDark} {sl : (ℕ → Option ℝ) × (ℕ → Option ℝ) × (ℕ → ℕ)}
    (h0 : Pc.pcBin { P with dark := none } i fs = .ok s0) (h : Pc.pcBin { P with dark := some d } i fs = .ok s)
    (hsl : d.slices[i % d.slices.length]? = some sl) {p : ℕ} {a b : ℝ} (ha : s0.err p = some a) (hb : sl.2.1 p = some b) :
    s.err p = some (sqrt (a ^ 2 + b ^ 2)) := by
  obtain ⟨f0, l, m, up, low, hfs, _, _, _, _, _, _, hm, hu, hw, _, _, _, _, g5, _⟩ := Pc.pcBin_ok h0
  obtain ⟨f0', l', m', up', low', hfs', _, _, _, _, _, _, hm', hu', hw', _, _, _, _, _, g6⟩ := Pc.pcBin_ok h
  obtain ⟨-, sl', hsl', -, g7, -⟩ := g6 d rfl
  cases hsl.symm.trans hsl'
  cases hfs.symm.trans hfs'
  obtain rfl : m = m' := by
    have : (Except.ok m : Except Pc.Err _) = .ok m' := hm.symm.trans hm'
    cases this; rfl
  obtain rfl : up = up' := by
    have : (Except.ok up : Except Pc.Err _) = .ok up' := hu.symm.trans hu'
    cases this; rfl
  obtain rfl : low = low' := by
    have : (Except.ok low : Except Pc.Err _) = .ok low' := hw.symm.trans hw'
    cases this; rfl
  have h1 := (g5 rfl).2.1 p
  rw [ha] at h1
  obtain ⟨z, hz, rfl⟩ := Option.map_eq_some_iff.1 h1.symm
  rw [g7 p, hb]
  dsimp only at hz ⊢
  rw [hz]
  show some _ = some _
  rw [Real.sq_sqrt (by positivity), zero_pow two_ne_zero, add_zero]

/-! ## Many frames -/

section
variable {tab : NonLin.Table ℝ} {off k ek T emax : ℝ} {w : Setting} {vis : String} {y : ℕ → Ω → Seen}

/-- What is needed of a list of frames: every pixel has fluxes near the given ones that explain the three numbers of detections, and enough valid
frames. -/
structure Explained (t k ek g η C ε : ℝ) (S U W : ℕ → ℕ → ℝ) (L : List Seen) : Prop where
  mid : ∀ r c, r < 1024 → c < 1024 → ∃ s', 0 ≤ s' ∧ |s' - S r c| ≤ η ∧ Pc.calcFunc (hits t k ek 0 L r c) (valid L r c) t g s' = 0
  up : ∀ r c, r < 1024 → c < 1024 → ∃ s', 0 ≤ s' ∧ |s' - U r c| ≤ η ∧ Pc.calcFunc (hits t k ek 1 L r c) (valid L r c) t g s' = 0
  low : ∀ r c, r < 1024 → c < 1024 → ∃ s', 0 ≤ s' ∧ |s' - W r c| ≤ η ∧ Pc.calcFunc (hits t k ek (-1) L r c) (valid L r c) t g s' = 0
  many : ∀ r c, r < 1024 → c < 1024 → C / valid L r c ≤ ε

theorem explained_eventually (h : Shots tab off k ek T emax w vis y μ) {t g η : ℝ} (ht : 0 ≤ t) (hg : 0 < g) (hη : 0 < η) {S U W : ℕ → ℕ → ℝ}
    (hS : ChanceWith t 0 k ek g S y μ) (hU : ChanceWith t 1 k ek g U y μ) (hW : ChanceWith t (-1) k ek g W y μ) (C : ℝ) {ε : ℝ} (hε : 0 < ε) :
    ∀ᵐ ω ∂μ, ∀ᶠ n in atTop, Explained t k ek g η C ε S U W (first y n ω) := by
  filter_upwards [root_eventually h ht hg hη hS, root_eventually h ht hg hη hU, root_eventually h ht hg hη hW, valid_many h C hε] with ω h1 h2 h3 h4
  filter_upwards [h1, h2, h3, h4] with n a1 a2 a3 a4
  exact ⟨a1, a2, a3, a4⟩

/-- The error of a bin without dark for such a list. -/
theorem stack_err {L : List Seen} {ps : List Pc.Frame} {f0 : Pc.Frame} {s : Pc.Slice} {j : ℕ} {mode : String} {t g η C ε M : ℝ} {S U W : ℕ → ℕ → ℝ}
    (hb : Pc.pcBin (params T emax (j + 1) (1024 * 1024) mode none) 0 ps = .ok s) (hsee : List.Forall₂ (Seeing k ek) L ps)
    (h7 : ps.head? = some f0) (h8 : T * f0.hdr.rn = t) (h9 : Pc.emGain f0.hdr = g) (hg : 0 < g) (hE : Explained t k ek g η C ε S U W L)
    (hη : M + η ≤ 2 / 5) (hC : ∀ L, 0 ≤ L → ∀ n : ℕ, n ≠ 0 → 0 ≤ Pc.varL23 g L t n ∧ Pc.varL23 g L t n ≤ C / n)
    {r c : ℕ} (hr : r < 1024) (hc : c < 1024) (hM : S r c ≤ M ∧ U r c ≤ M ∧ W r c ≤ M) (hord : S r c ≤ U r c) (hv : valid L r c ≠ 0) :
    ∃ x, s.err (r * 1024 + c) = some x ∧ |x - max (U r c - S r c) (S r c - W r c)| ≤ (M + η) ^ 2 ^ (j + 2) + ε + 2 * η := by
  obtain ⟨S', c1, c2, c3⟩ := hE.mid r c hr hc
  obtain ⟨U', d1, d2, d3⟩ := hE.up r c hr hc
  obtain ⟨W', e1, e2, e3⟩ := hE.low r c hr hc
  obtain ⟨q1, q2, q3⟩ := hM
  subst h8 h9
  obtain ⟨x, x1, x2⟩ := bin_err (k := j) (M := M + η) (C := C) (η := η) (S := S') (U := U') (W := W') (S0 := S r c) (U0 := U r c)
    (W0 := W r c) rfl rfl rfl hb h7 (p := r * 1024 + c) (by show _ < 1024 * 1024; omega) hg
    ⟨c1, by linarith [(abs_le.1 c2).2]⟩ ⟨d1, by linarith [(abs_le.1 d2).2]⟩ ⟨e1, by linarith [(abs_le.1 e2).2]⟩ hη hC
    (by rw [nframes_eq hsee hc]; show Pc.calcFunc (Pc.coadd (T * f0.hdr.rn) _ _ _) _ (T * f0.hdr.rn) _ _ = 0
        rw [(coadd_eq hsee hr hc).1]; exact c3)
    (by rw [nframes_eq hsee hc]; show Pc.calcFunc (Pc.coadd (T * f0.hdr.rn) _ _ _) _ (T * f0.hdr.rn) _ _ = 0
        rw [(coadd_eq hsee hr hc).2.1]; exact d3)
    (by rw [nframes_eq hsee hc]; show Pc.calcFunc (Pc.coadd (T * f0.hdr.rn) _ _ _) _ (T * f0.hdr.rn) _ _ = 0
        rw [(coadd_eq hsee hr hc).2.2]; exact e3)
    c2 d2 e2 hord (by rw [nframes_eq hsee hc]; exact hv)
  rw [nframes_eq hsee hc] at x2
  exact ⟨x, x1, x2.trans (by linarith [hE.many r c hr hc])⟩

end

/-! ## C204 -/

/-- **C204.** Random raw light frames and random raw darks of the same threshold: `S`, `U`, `W` are the fluxes of the light frames and `D`, `V`, `X`
those of the darks (as they are, with the error of each frame added, with it subtracted), all at most `M`. Almost surely, for enough light frames and
at least as many darks, the master dark is made and the light frames are counted with it, and the error of every pixel is the square root of the sum
of squares of the two floors, up to `2 (M ^ 2 ^ (j + 2) + ε)`. -/
theorem C204_floor {tab : NonLin.Table ℝ} (ht : NonLin.Good tab) {off k ek T emax : ℝ} (offErr : ℝ) (hk : k ≠ 0)
    {w wd : Setting} {vis : String} {y yd : ℕ → Ω → Seen} (hy : Shots tab off k ek T emax w vis y μ) (hvis : vis ≠ "DARK")
    (hd : Shots tab off k ek T emax wd "DARK" yd μ) (hrnd : wd.rn = w.rn) {nd : ℕ → ℕ} (hn : ∀ n, n ≤ nd n)
    (hT : 0 < T) (hrn : 0 < w.rn) (htg : T * w.rn < w.gain) (htgd : T * w.rn < wd.gain) {S U W D V X : ℕ → ℕ → ℝ}
    (hS : ChanceWith (T * w.rn) 0 k ek w.gain S y μ) (hU : ChanceWith (T * w.rn) 1 k ek w.gain U y μ)
    (hW : ChanceWith (T * w.rn) (-1) k ek w.gain W y μ)
    (hD : ChanceWith (T * w.rn) 0 k ek wd.gain D yd μ) (hV : ChanceWith (T * w.rn) 1 k ek wd.gain V yd μ)
    (hX : ChanceWith (T * w.rn) (-1) k ek wd.gain X yd μ) {M ε : ℝ} (hM : M < 2 / 5)
    (hSM : ∀ r c, r < 1024 → c < 1024 → S r c ≤ M ∧ U r c ≤ M ∧ W r c ≤ M)
    (hDM : ∀ r c, r < 1024 → c < 1024 → D r c ≤ M ∧ V r c ≤ M ∧ X r c ≤ M) (hε : 0 < ε) (j : ℕ) :
    ∀ᵐ ω ∂μ, ∀ᶠ n in atTop, ∃ d fs s,
      darkRecipe T emax (j + 1) tab off offErr k ek ((first yd (nd n) ω).map Prod.snd) = .ok d ∧
      electrons tab off offErr k ek ((first y n ω).map Prod.snd) = .ok fs ∧
      Pc.getPcMean (params T emax (j + 1) (1024 * 1024) "illuminated" (some d)) none (List.zipWith pcFrame ((first y n ω).map Prod.snd) fs) =
        .ok (.illuminated [s]) ∧
      ∀ r c, r < 1024 → c < 1024 → ∃ x, s.err (r * 1024 + c) = some x ∧
        |x - sqrt (max (U r c - S r c) (S r c - W r c) ^ 2 + max (V r c - D r c) (D r c - X r c) ^ 2)| ≤ 2 * (M ^ 2 ^ (j + 2) + ε) := by
  have htp : 0 < T * w.rn := mul_pos hT hrn
  have hgp : 0 < w.gain := htp.trans htg
  have hgd : 0 < wd.gain := htp.trans htgd
  obtain ⟨lim, hl, -, hlim⟩ := Pc.C150_limit htp hgp htg.le
  obtain ⟨limd, hld, -, hlimd⟩ := Pc.C150_limit htp hgd htgd.le
  obtain ⟨C, hC⟩ := var_bound (T * w.rn) hgp htp.le
  obtain ⟨C', hC'⟩ := var_bound (T * w.rn) hgd htp.le
  obtain ⟨η, hη, hη1, hη2⟩ : ∃ η, 0 < η ∧ M + η ≤ 2 / 5 ∧ 2 * η + (M + η) ^ 2 ^ (j + 2) ≤ M ^ 2 ^ (j + 2) + ε / 2 := by
    have hc : Tendsto (fun η : ℝ => 2 * η + (M + η) ^ 2 ^ (j + 2)) (𝓝[>] 0) (𝓝 (2 * 0 + (M + 0) ^ 2 ^ (j + 2))) :=
      (Continuous.tendsto (by fun_prop) 0).mono_left nhdsWithin_le_nhds
    have h1 := hc.eventually_lt_const (show 2 * 0 + (M + 0) ^ 2 ^ (j + 2) < M ^ 2 ^ (j + 2) + ε / 2 by
      rw [mul_zero, zero_add, add_zero]
      linarith)
    have h2 : ∀ᶠ η : ℝ in 𝓝[>] 0, η < 2 / 5 - M := nhdsWithin_le_nhds (Iio_mem_nhds (by linarith))
    obtain ⟨η, ⟨a1, a2⟩, a3⟩ := ((h1.and h2).and self_mem_nhdsWithin).exists
    exact ⟨η, a3, by linarith, a1.le⟩
  have hnd : Tendsto nd atTop atTop := tendsto_atTop_mono hn tendsto_id
  filter_upwards [stack_eventually hy hl, stack_eventually hd hld, explained_eventually hy htp.le hgp hη hS hU hW C (half_pos hε),
    explained_eventually hd htp.le hgd hη hD hV hX C' (half_pos hε)] with ω h1 h2 h3 h4
  filter_upwards [h1, hnd.eventually h2, h3, hnd.eventually h4] with n a1 a2 a3 a4
  obtain ⟨fs, ps, e1, e2, e3, e4, e5, e6, ⟨f0, e7, e8, e9⟩, e10⟩ := stack_bin ht offErr hk a1 (mode := "illuminated") (by rw [if_neg hvis]) hT hrn htg hlim
  obtain ⟨fd, pd, k1, k2, k3, k4, k5, k6, ⟨g0, k7, k8, k9⟩, k10⟩ := stack_bin ht offErr hk a2 (mode := "darks") rfl hT
    (by rw [hrnd]; exact hrn) (by rw [hrnd]; exact htgd) (by rw [hrnd]; exact hlimd)
  rw [hrnd] at k8 k10
  obtain ⟨s0, p1, p2, p3, p4⟩ := e10 j
  obtain ⟨sd, q1, q2, q3, q4⟩ := k10 j
  have hdk : Pc.getPcMean (params T emax (j + 1) (1024 * 1024) "darks" none) none pd =
      .ok (.dark [sd] (T * w.rn) (first yd (nd n) ω).length (pd.map Pc.Frame.name)) := by
    rw [getPcMean_one (Nat.le_add_left 1 j) k5 q1, if_neg (by rw [q2]; simp), q3, q4]
  have hex : ∃ s, Pc.pcBin (params T emax (j + 1) (1024 * 1024) "illuminated" (some ⟨some "photon-counted master dark", some (T * w.rn),
      (first yd (nd n) ω).length, [sd].map fun s => (s.mean, s.err, s.dq)⟩)) 0 ps = .ok s :=
    (Pc.C151_accepted_iff (P := params T emax (j + 1) (1024 * 1024) "illuminated" none) hdk rfl p1
      (by rw [p2]; exact hvis)).2 ⟨p3, by rw [e6]; simpa [first] using hn n⟩
  obtain ⟨s, hs⟩ := hex
  have hsv : s.vistype ≠ "DARK" := by
    obtain ⟨x0, xl, _, _, _, hx, _, _, _, _, _, _, _, _, _, _, _, g3, _⟩ := Pc.pcBin_ok hs
    obtain ⟨z0, zl, _, _, _, hz, _, _, _, _, _, _, _, _, _, _, _, z3, _⟩ := Pc.pcBin_ok p1
    rw [hx] at hz
    rw [g3, (List.cons.inj hz).1, ← z3, p2]
    exact hvis
  refine ⟨⟨some "photon-counted master dark", some (T * w.rn), (first yd (nd n) ω).length, [sd].map fun s => (s.mean, s.err, s.dq)⟩, fs, s, ?_, e1, ?_,
    fun r c hr hc => ?_⟩
  · unfold darkRecipe
    rw [k1]
    dsimp only
    rw [← k2, hdk]
    rfl
  · rw [← e2]
    rw [getPcMean_one (Nat.le_add_left 1 j) e5 hs, if_pos hsv]
  · obtain ⟨x, x1, x2⟩ := stack_err p1 e4 e7 (by rw [e8]) e9 hgp a3 hη1 hC hr hc (hSM r c hr hc) (order hy htp.le hgp hS hU hr hc)
      (a1.valid r c hr hc)
    obtain ⟨z, z1, z2⟩ := stack_err q1 k4 k7 (by rw [k8]) k9 hgd a4 hη1 hC' hr hc (hDM r c hr hc) (order hd htp.le hgd hD hV hr hc)
      (a2.valid r c hr hc)
    refine ⟨_, err_with (P := params T emax (j + 1) (1024 * 1024) "illuminated" none) p1 hs rfl x1 z1, (quad_near _ _ _ _).trans ?_⟩
    linarith

/-! ## Non-vacuity -/

/-- Light frames and darks with 0.7 electrons once in twenty frames, as in the example of C193: there is never a detection, but the error of the
counted light frames stays above 0.06 electrons. -/
example : ∀ᵐ ω ∂throws, ∀ᶠ n in atTop, ∃ d fs s,
    darkRecipe 1 1 2 linear 0 0 1 1 ((first (exShots "DARK" fun x => if x then 7 / 10 else 0) n ω).map Prod.snd) = .ok d ∧
    electrons linear 0 0 1 1 ((first (exShots "TDEMO" fun x => if x then 7 / 10 else 0) n ω).map Prod.snd) = .ok fs ∧
    Pc.getPcMean (params 1 1 2 (1024 * 1024) "illuminated" (some d)) none
      (List.zipWith pcFrame ((first (exShots "TDEMO" fun x => if x then 7 / 10 else 0) n ω).map Prod.snd) fs) = .ok (.illuminated [s]) ∧
    ∀ r c, r < 1024 → c < 1024 → ∃ x, s.err (r * 1024 + c) = some x ∧ 6 / 100 < x := by
  have hexp := one_sub_le_exp_neg (1 * 1 / 100 : ℝ)
  have hlt : exp (-(1 / 100) : ℝ) < 1 := by
    rw [exp_lt_one_iff]
    norm_num
  have p0 : coin20.real {x | (1 : ℝ) < (if x then 7 / 10 else 0) + 0 * |(if x then 7 / 10 else 0) * 1|} = 0 := by
    have : {x : Bool | (1 : ℝ) < (if x then 7 / 10 else 0) + 0 * |(if x then 7 / 10 else 0) * 1|} = ∅ := by
      ext x
      cases x <;> norm_num
    rw [this]
    simp
  have p1 : coin20.real {x | (1 : ℝ) < (if x then 7 / 10 else 0) + 1 * |(if x then 7 / 10 else 0) * 1|} = 1 / 20 := by
    have : {x : Bool | (1 : ℝ) < (if x then 7 / 10 else 0) + 1 * |(if x then 7 / 10 else 0) * 1|} = {true} := by
      ext x
      cases x <;> norm_num [abs_of_pos]
    rw [this]
    simp [coin20, Measure.real]
  have p2 : coin20.real {x | (1 : ℝ) < (if x then 7 / 10 else 0) + -1 * |(if x then 7 / 10 else 0) * 1|} = 0 := by
    have : {x : Bool | (1 : ℝ) < (if x then 7 / 10 else 0) + -1 * |(if x then 7 / 10 else 0) * 1|} = ∅ := by
      ext x
      cases x <;> norm_num [abs_of_pos]
    rw [this]
    simp
  have e0 : Pc.efficiency (1 * 1 / 100) 0 = 0 := by
    rw [← Pc.C36_efficiency (by norm_num : (100 : ℝ) ≠ 0)]
    unfold Pc.eps Pc.num
    simp
  obtain ⟨U, hU, hroot⟩ : ∃ U ∈ Set.Icc (45 / 1000 : ℝ) (1 / 10), Pc.eps (1 * 1) 100 U = 1 / 20 := by
    refine intermediate_value_Icc (by norm_num) ((Pc.eps_continuousOn (1 * 1) (by norm_num)).mono fun x hx => ?_) ⟨?_, ?_⟩
    · exact le_trans (by norm_num) hx.1
    all_goals
      rw [Pc.eps_eq (by norm_num)]
      unfold Pc.nx Pc.den
      norm_num at hexp ⊢
      linarith
  have hs : ∀ vis, Shots linear 0 1 1 1 1 ⟨1, 100, 100, 1⟩ vis (exShots vis fun x => if x then 7 / 10 else 0) throws := fun vis =>
    ex_shots vis (v := fun x => if x then 7 / 10 else 0) (by intro x; cases x <;> norm_num [abs_of_pos]) (by
      intro b hb
      simp only [List.mem_cons, List.not_mem_nil, or_false] at hb
      rcases hb with rfl | rfl | rfl
      · exact p0.le.trans (by norm_num)
      · exact p1.le
      · exact p2.le.trans (by norm_num))
  have c0 : ∀ vis, ChanceWith (1 * 1) 0 1 1 100 (fun _ _ => 0) (exShots vis fun x => if x then 7 / 10 else 0) throws := fun vis r c _ _ =>
    ⟨le_rfl, by rw [ex_good, ex_hit, p0]; simp only [e0, mul_zero]⟩
  have c1 : ∀ vis, ChanceWith (1 * 1) 1 1 1 100 (fun _ _ => U) (exShots vis fun x => if x then 7 / 10 else 0) throws := fun vis r c _ _ =>
    ⟨le_trans (by norm_num) hU.1, by
      rw [ex_good, ex_hit, p1, one_mul, ← hroot, Pc.C36_efficiency (by norm_num : (100 : ℝ) ≠ 0)]⟩
  have c2 : ∀ vis, ChanceWith (1 * 1) (-1) 1 1 100 (fun _ _ => 0) (exShots vis fun x => if x then 7 / 10 else 0) throws := fun vis r c _ _ =>
    ⟨le_rfl, by rw [ex_good, ex_hit, p2]; simp only [e0, mul_zero]⟩
  have h := C204_floor (μ := throws) (T := 1) (emax := 1) (ek := 1) (k := 1) (off := 0) (w := ⟨1, 100, 100, 1⟩) (wd := ⟨1, 100, 100, 1⟩)
    (M := 1 / 10) (ε := 1 / 1000) (nd := id) linear_good 0 one_ne_zero (hs "TDEMO") (by decide) (hs "DARK") rfl (fun n => le_rfl) one_pos one_pos
    (by norm_num) (by norm_num) (c0 _) (c1 _) (c2 _) (c0 _) (c1 _) (c2 _) (by norm_num)
    (fun r c _ _ => ⟨by norm_num, hU.2, by norm_num⟩) (fun r c _ _ => ⟨by norm_num, hU.2, by norm_num⟩) (by norm_num) 1
  filter_upwards [h] with ω hω
  filter_upwards [hω] with n hn
  obtain ⟨d, fs, s, h1, h2, h3, h4⟩ := hn
  refine ⟨d, fs, s, h1, h2, h3, fun r c hr hc => ?_⟩
  obtain ⟨x, x1, x2⟩ := h4 r c hr hc
  refine ⟨x, x1, ?_⟩
  have h5 : (63 / 1000 : ℝ) ≤ sqrt (max (U - 0) (0 - 0) ^ 2 + max (U - 0) (0 - 0) ^ 2) := by
    refine Real.le_sqrt_of_sq_le ?_
    have : (45 / 1000 : ℝ) ≤ max (U - 0) (0 - 0) := le_max_of_le_left (by linarith [hU.1])
    nlinarith
  have h6 := (abs_le.1 x2).1
  norm_num at h5 h6 ⊢
  linarith

end Corgi.Counted

import Verif.EndToEnd.Accurate
import Mathlib.Probability.StrongLaw
import Mathlib.Probability.Independence.InfinitePi

/-!
# Photon counting of many random frames (C192)

C190 and C191 are about given stacks. Here the raw light frames and the raw darks are random: independent and alike within each sequence,
pixel by pixel. Nothing is assumed about the relation of the pixels of a frame to each other.
-/

noncomputable section

namespace Corgi.Counted

open Corgi.Det Corgi.Arith Corgi.EndToEnd Real Filter Topology MeasureTheory ProbabilityTheory

variable {Ω : Type} [MeasurableSpace Ω] {μ : Measure Ω} [IsProbabilityMeasure μ]

/-! ## Specification -/

/-- What the stack has of a pixel: electrons, their error, flags. -/
def pixel (k ek : ℝ) (r c : ℕ) (y : Seen) : ℝ × ℝ × ℕ := (y.1 r c, sigma k ek y r c, y.2.dq r c)

/-- A pixel that is not flagged and has more electrons than `t` when `b` errors are added. -/
def Hit (t b : ℝ) : Set (ℝ × ℝ × ℕ) := {z | z.2.2 = 0 ∧ t < z.1 + b * z.2.1}

/-- A pixel that is not flagged. -/
def Good : Set (ℝ × ℝ × ℕ) := {z | z.2.2 = 0}

/-- A sequence of random frames of one kind and one setting: in every pixel independent and alike. The probabilities of a detection (also
with the errors added and subtracted) are below the limit that the correction has in any case, the mean is below the allowed one. -/
structure Shots (tab : NonLin.Table ℝ) (off k ek T emax : ℝ) (w : Setting) (vis : String) (y : ℕ → Ω → Seen) (μ : Measure Ω) : Prop where
  shows : ∀ i ω, Registers tab off k w.gain (y i ω).1 (y i ω).2.raw.l1
  setting : ∀ i ω, (y i ω).2.raw.fr.exptime = w.exptime ∧ (y i ω).2.raw.fr.emC = w.emC ∧ emGain (y i ω).2.raw.fr = w.gain ∧
    (y i ω).2.rn = w.rn
  kind : ∀ i ω, (y i ω).2.vistype = vis ∧ (y i ω).2.ispc ≠ some false ∧ (y i ω).2.raw.fr.img.layers ≠ []
  indep : ∀ r c, r < 1024 → c < 1024 → ∀ i j, i ≠ j →
    IndepFun (fun ω => pixel k ek r c (y i ω)) (fun ω => pixel k ek r c (y j ω)) μ
  ident : ∀ r c, r < 1024 → c < 1024 → ∀ i, IdentDistrib (fun ω => pixel k ek r c (y i ω)) (fun ω => pixel k ek r c (y 0 ω)) μ μ
  integ : ∀ r c, r < 1024 → c < 1024 → Integrable (fun ω => (y 0 ω).1 r c) μ
  good : ∀ r c, r < 1024 → c < 1024 → 0 < μ.real {ω | pixel k ek r c (y 0 ω) ∈ Good}
  few : ∀ b ∈ ([0, 1, -1] : List ℝ), ∀ r c, r < 1024 → c < 1024 →
    μ.real {ω | pixel k ek r c (y 0 ω) ∈ Hit (T * w.rn) b} / μ.real {ω | pixel k ek r c (y 0 ω) ∈ Good} * exp (T * w.rn / w.gain)
      < 1 - exp (-2)
  mean : ((List.range (1024 * 1024)).map fun p => ∫ ω, (y 0 ω).1 (p / 1024) (p % 1024) ∂μ).sum < emax * w.gain * (1024 * 1024 : ℕ)

/-- The first `n` frames. -/
def first (y : ℕ → Ω → Seen) (n : ℕ) (ω : Ω) : List Seen := (List.range n).map fun i => y i ω

/-- In every pixel, given that it is not flagged, the probability of a detection is `pr` of the flux `S`. -/
def Chance (t k ek : ℝ) (pr : ℝ → ℝ) (S : ℕ → ℕ → ℝ) (y : ℕ → Ω → Seen) (μ : Measure Ω) : Prop :=
  ∀ r c, r < 1024 → c < 1024 → 0 ≤ S r c ∧ μ.real {ω | pixel k ek r c (y 0 ω) ∈ Hit t 0} =
    μ.real {ω | pixel k ek r c (y 0 ω) ∈ Good} * pr (S r c)

/-! ## Frequencies -/

theorem hit_measurable (t b : ℝ) : MeasurableSet (Hit t b) := by
  have h1 : MeasurableSet {z : ℝ × ℝ × ℕ | z.2.2 = 0} := measurableSet_eq_fun (by fun_prop) (by fun_prop)
  have h2 : MeasurableSet {z : ℝ × ℝ × ℕ | t < z.1 + b * z.2.1} := measurableSet_lt (by fun_prop) (by fun_prop)
  exact h1.inter h2

theorem good_measurable : MeasurableSet Good := by
  unfold Good
  exact measurableSet_eq_fun (by fun_prop) (by fun_prop)

theorem count_eq {α : Type} (p : α → Bool) (f : ℕ → α) (n : ℕ) :
    ((((List.range n).map f).filter p).length : ℝ) = ∑ i ∈ Finset.range n, if p (f i) then 1 else 0 := by
  induction n with
  | zero => simp
  | succ n ih =>
    rw [List.range_succ, List.map_append, List.filter_append, List.length_append, Nat.cast_add, ih, Finset.sum_range_succ]
    congr 1
    rw [List.map_singleton, List.filter_singleton]
    cases p (f n) <;> simp

/-- The strong law for the frequency of a set. -/
theorem frequency {β : Type} [MeasurableSpace β] {Z : ℕ → Ω → β} (hi : ∀ i j, i ≠ j → IndepFun (Z i) (Z j) μ)
    (hd : ∀ i, IdentDistrib (Z i) (Z 0) μ μ) {A : Set β} (hA : MeasurableSet A) :
    ∀ᵐ ω ∂μ, Tendsto (fun n : ℕ => (∑ i ∈ Finset.range n, A.indicator (fun _ => (1 : ℝ)) (Z i ω)) / n) atTop
      (𝓝 (μ.real {ω | Z 0 ω ∈ A})) := by
  have hm : Measurable (A.indicator fun _ => (1 : ℝ)) := measurable_const.indicator hA
  have hint : Integrable (fun ω => A.indicator (fun _ => (1 : ℝ)) (Z 0 ω)) μ := by
    refine Integrable.of_bound (C := 1) (hm.comp_aemeasurable (hd 0).aemeasurable_fst).aestronglyMeasurable (.of_forall fun ω => ?_)
    by_cases h : Z 0 ω ∈ A <;> simp [h]
  have h := strong_law_ae_real (fun i ω => A.indicator (fun _ => (1 : ℝ)) (Z i ω)) hint
    (fun i j hij => (hi i j hij).comp hm hm) (fun i => (hd i).comp hm)
  have e : ∫ ω, A.indicator (fun _ => (1 : ℝ)) (Z 0 ω) ∂μ = μ.real {ω | Z 0 ω ∈ A} := by
    have h0 := (hd 0).aemeasurable_fst
    have : ∫ z, A.indicator (fun _ => (1 : ℝ)) z ∂(μ.map (Z 0)) = ∫ ω, A.indicator (fun _ => (1 : ℝ)) (Z 0 ω) ∂μ :=
      integral_map h0 hm.aestronglyMeasurable
    rw [← this, integral_indicator_const _ hA, smul_eq_mul, mul_one, Measure.real, Measure.map_apply_of_aemeasurable h0 hA]
    rfl
  rw [e] at h
  exact h

section
variable {tab : NonLin.Table ℝ} {off k ek T emax : ℝ} {w : Setting} {vis : String} {y : ℕ → Ω → Seen}

theorem hits_limit (h : Shots tab off k ek T emax w vis y μ) {r c : ℕ} (hr : r < 1024) (hc : c < 1024) (t b : ℝ) :
    ∀ᵐ ω ∂μ, Tendsto (fun n : ℕ => (hits t k ek b (first y n ω) r c : ℝ) / n) atTop
      (𝓝 (μ.real {ω | pixel k ek r c (y 0 ω) ∈ Hit t b})) := by
  filter_upwards [frequency (h.indep r c hr hc) (h.ident r c hr hc) (hit_measurable t b)] with ω hω
  classical
  refine hω.congr fun n => ?_
  unfold hits first
  rw [count_eq]
  congr 1
  refine Finset.sum_congr rfl fun i _ => ?_
  rw [Set.indicator_apply]
  unfold Hit pixel
  simp only [Set.mem_ofPred_eq, decide_eq_true_eq]
  congr

theorem valid_limit (h : Shots tab off k ek T emax w vis y μ) {r c : ℕ} (hr : r < 1024) (hc : c < 1024) :
    ∀ᵐ ω ∂μ, Tendsto (fun n : ℕ => (valid (first y n ω) r c : ℝ) / n) atTop (𝓝 (μ.real {ω | pixel k ek r c (y 0 ω) ∈ Good})) := by
  filter_upwards [frequency (h.indep r c hr hc) (h.ident r c hr hc) good_measurable] with ω hω
  classical
  refine hω.congr fun n => ?_
  unfold valid first
  rw [count_eq]
  congr 1
  refine Finset.sum_congr rfl fun i _ => ?_
  rw [Set.indicator_apply]
  unfold Good pixel
  simp only [Set.mem_ofPred_eq, decide_eq_true_eq]
  congr

/-- The fraction of the valid frames in which the pixel is detected. -/
theorem fraction_limit (h : Shots tab off k ek T emax w vis y μ) {r c : ℕ} (hr : r < 1024) (hc : c < 1024) (t b : ℝ) :
    ∀ᵐ ω ∂μ, Tendsto (fun n : ℕ => (hits t k ek b (first y n ω) r c : ℝ) / valid (first y n ω) r c) atTop
      (𝓝 (μ.real {ω | pixel k ek r c (y 0 ω) ∈ Hit t b} / μ.real {ω | pixel k ek r c (y 0 ω) ∈ Good})) := by
  filter_upwards [hits_limit h hr hc t b, valid_limit h hr hc] with ω h1 h2
  refine (h1.div h2 (h.good r c hr hc).ne').congr' ?_
  filter_upwards [eventually_gt_atTop 0] with n hn
  have hn' : (n : ℝ) ≠ 0 := by exact_mod_cast hn.ne'
  exact div_div_div_cancel_right₀ hn' _ _

theorem valid_eventually (h : Shots tab off k ek T emax w vis y μ) {r c : ℕ} (hr : r < 1024) (hc : c < 1024) :
    ∀ᵐ ω ∂μ, ∀ᶠ n in atTop, valid (first y n ω) r c ≠ 0 := by
  filter_upwards [valid_limit h hr hc] with ω h1
  filter_upwards [h1.eventually_ne (h.good r c hr hc).ne'] with n hn h0
  rw [h0] at hn
  simp at hn

omit [IsProbabilityMeasure μ] in
theorem mean_limit (h : Shots tab off k ek T emax w vis y μ) {r c : ℕ} (hr : r < 1024) (hc : c < 1024) :
    ∀ᵐ ω ∂μ, Tendsto (fun n : ℕ => ((first y n ω).map fun x => x.1 r c).sum / n) atTop (𝓝 (∫ ω, (y 0 ω).1 r c ∂μ)) := by
  have h1 := strong_law_ae_real (fun i ω => (y i ω).1 r c) (h.integ r c hr hc)
    (fun i j hij => (h.indep r c hr hc i j hij).comp (φ := Prod.fst) (ψ := Prod.fst) measurable_fst measurable_fst)
    (fun i => (h.ident r c hr hc i).comp (u := Prod.fst) measurable_fst)
  filter_upwards [h1] with ω hω
  refine hω.congr fun n => ?_
  congr 1
  unfold first
  rw [List.map_map]
  induction n with
  | zero => simp
  | succ n ih =>
    rw [List.range_succ, List.map_append, List.sum_append, Finset.sum_range_succ, ih]
    simp

theorem tendsto_sum {f : ℕ → ℕ → ℝ} {a : ℕ → ℝ} (m : ℕ) (h : ∀ p < m, Tendsto (fun n => f n p) atTop (𝓝 (a p))) :
    Tendsto (fun n => ((List.range m).map (f n)).sum) atTop (𝓝 ((List.range m).map a).sum) := by
  induction m with
  | zero => simp
  | succ m ih =>
    simp only [List.range_succ, List.map_append, List.sum_append, List.map_singleton, List.sum_singleton]
    exact (ih fun p hp => h p (by omega)).add (h m (by omega))

theorem sum_div (f : ℕ → ℝ) (d : ℝ) (m : ℕ) : ((List.range m).map fun p => f p / d).sum = ((List.range m).map f).sum / d := by
  induction m with
  | zero => simp
  | succ m ih =>
    simp only [List.range_succ, List.map_append, List.sum_append, List.map_singleton, List.sum_singleton]
    rw [ih, add_div]

omit [IsProbabilityMeasure μ] in
/-- For all pixels together. -/
theorem all_pixels {P : ℕ → ℕ → ℕ → Ω → Prop} (h : ∀ r c, r < 1024 → c < 1024 → ∀ᵐ ω ∂μ, ∀ᶠ n in atTop, P r c n ω) :
    ∀ᵐ ω ∂μ, ∀ᶠ n in atTop, ∀ r c, r < 1024 → c < 1024 → P r c n ω := by
  have h1 : ∀ᵐ ω ∂μ, ∀ r c, r < 1024 → c < 1024 → ∀ᶠ n in atTop, P r c n ω := by
    rw [ae_all_iff]
    intro r
    rw [ae_all_iff]
    intro c
    by_cases hr : r < 1024
    · by_cases hc : c < 1024
      · filter_upwards [h r c hr hc] with ω hω _ _
        exact hω
      · exact .of_forall fun ω _ hc' => absurd hc' hc
    · exact .of_forall fun ω hr' => absurd hr' hr
  filter_upwards [h1] with ω hω
  have h2 := ((Set.finite_Iio 1024).eventually_all (p := fun r n => ∀ c ∈ Set.Iio 1024, P r c n ω) (l := atTop)).2 fun r hr =>
    ((Set.finite_Iio 1024).eventually_all (p := fun c n => P r c n ω) (l := atTop)).2 fun c hc => hω r c hr hc
  filter_upwards [h2] with n hn r c hr hc
  exact hn r hr c hc

/-- Almost surely the first frames are a stack that can be counted, if they are enough. -/
theorem stack_eventually (h : Shots tab off k ek T emax w vis y μ) {lim : ℝ} (hlim : 1 - exp (-2) ≤ lim) :
    ∀ᵐ ω ∂μ, ∀ᶠ n in atTop, Stack tab off k ek T emax lim w vis (first y n ω) := by
  have hv := all_pixels (P := fun r c n ω => valid (first y n ω) r c ≠ 0) fun r c hr hc => valid_eventually h hr hc
  have hf := all_pixels (μ := μ) (P := fun r c n ω => ∀ b ∈ ([0, 1, -1] : List ℝ), (hits (T * w.rn) k ek b (first y n ω) r c : ℝ) /
      valid (first y n ω) r c * exp (T * w.rn / w.gain) ≤ lim) (by
    intro r c hr hc
    have one : ∀ b ∈ ([0, 1, -1] : List ℝ), ∀ᵐ ω ∂μ, ∀ᶠ n in atTop, (hits (T * w.rn) k ek b (first y n ω) r c : ℝ) /
        valid (first y n ω) r c * exp (T * w.rn / w.gain) ≤ lim := by
      intro b hb
      filter_upwards [fraction_limit h hr hc (T * w.rn) b] with ω hω
      filter_upwards [(hω.mul_const (exp (T * w.rn / w.gain))).eventually_lt_const (h.few b hb r c hr hc)] with n hn
      exact hn.le.trans hlim
    filter_upwards [one 0 (by simp), one 1 (by simp), one (-1) (by simp)] with ω h0 h1 h2
    filter_upwards [h0, h1, h2] with n a0 a1 a2 b hb
    simp only [List.mem_cons, List.not_mem_nil, or_false] at hb
    rcases hb with rfl | rfl | rfl
    · exact a0
    · exact a1
    · exact a2)
  have hm : ∀ᵐ ω ∂μ, ∀ r c, r < 1024 → c < 1024 → Tendsto (fun n : ℕ => ((first y n ω).map fun x => x.1 r c).sum / n) atTop
      (𝓝 (∫ ω, (y 0 ω).1 r c ∂μ)) := by
    rw [ae_all_iff]
    intro r
    rw [ae_all_iff]
    intro c
    by_cases hr : r < 1024
    · by_cases hc : c < 1024
      · filter_upwards [mean_limit h hr hc] with ω hω _ _
        exact hω
      · exact .of_forall fun ω _ hc' => absurd hc' hc
    · exact .of_forall fun ω hr' => absurd hr' hr
  filter_upwards [hv, hf, hm] with ω h1 h2 h3
  have h4 := tendsto_sum (f := fun n p => ((first y n ω).map fun x => x.1 (p / 1024) (p % 1024)).sum / n)
    (a := fun p => ∫ ω, (y 0 ω).1 (p / 1024) (p % 1024) ∂μ) (1024 * 1024) fun p hp => h3 _ _ (by omega) (by omega)
  filter_upwards [h1, h2, h4.eventually_lt_const h.mean, eventually_gt_atTop 0] with n a1 a2 a3 hn
  have hn' : (0 : ℝ) < n := by exact_mod_cast hn
  have mem : ∀ x ∈ first y n ω, ∃ i, x = y i ω := by
    intro x hx
    obtain ⟨i, _, rfl⟩ := List.mem_map.1 hx
    exact ⟨i, rfl⟩
  refine ⟨?_, ?_, ?_, ?_, a1, fun b hb r c hr hc => .inl (a2 r c hr hc b hb), ?_⟩
  · intro h0
    have : (first y n ω).length = 0 := by rw [h0]; rfl
    simp [first] at this
    omega
  · intro x hx
    obtain ⟨i, rfl⟩ := mem x hx
    exact h.shows i ω
  · intro x hx
    obtain ⟨i, rfl⟩ := mem x hx
    exact h.setting i ω
  · intro x hx
    obtain ⟨i, rfl⟩ := mem x hx
    exact h.kind i ω
  · rw [sum_div, div_lt_iff₀ hn'] at a3
    refine a3.le.trans (le_of_eq ?_)
    simp [first]
    ring

/-! ## The fluxes that explain the frames -/

theorem roots {t g s η : ℝ} (ht : 0 ≤ t) (hg : 0 < g) (hs : 0 ≤ s) (hη : 0 < η) {q : ℕ → ℝ} (hq : ∀ n, 0 ≤ q n)
    (h : Tendsto q atTop (𝓝 (Pc.efficiency (t / g) s))) :
    ∀ᶠ n in atTop, ∃ s', 0 ≤ s' ∧ |s' - s| ≤ η ∧ Pc.efficiency (t / g) s' = q n := by
  simp only [← Pc.C36_efficiency hg.ne'] at h ⊢
  have hup := Pc.eps_strictMono ht hg hs (show s < s + η by linarith)
  have h1 := h.eventually_lt_const hup
  have h2 : ∀ᶠ n in atTop, Pc.eps t g (max 0 (s - η)) ≤ q n := by
    rcases max_choice 0 (s - η) with e | e
    · rw [e]
      refine .of_forall fun n => ?_
      have : Pc.eps t g 0 = 0 := by
        unfold Pc.eps Pc.num
        simp
      rw [this]
      exact hq n
    · have h0 : 0 ≤ s - η := by
        rw [← e]
        exact le_max_left _ _
      rw [e]
      exact (h.eventually_const_lt (Pc.eps_strictMono ht hg h0 (show s - η < s by linarith))).mono fun n hn => hn.le
  filter_upwards [h1, h2] with n a1 a2
  have hle : max 0 (s - η) ≤ s + η := max_le (by linarith) (by linarith)
  have hc : ContinuousOn (Pc.eps t g) (Set.Icc (max 0 (s - η)) (s + η)) :=
    (Pc.eps_continuousOn t hg).mono fun x hx => (le_max_left 0 (s - η)).trans hx.1
  obtain ⟨x, hx, he⟩ := intermediate_value_Icc hle hc ⟨a2, a1.le⟩
  refine ⟨x, (le_max_left _ _).trans hx.1, ?_, he⟩
  rw [abs_le]
  constructor <;> linarith [(le_max_right 0 (s - η)).trans hx.1, hx.2]

/-- Almost surely, for enough frames there is a flux near `S` that explains the detections exactly. -/
theorem explains_eventually (h : Shots tab off k ek T emax w vis y μ) {t g η : ℝ} (ht : 0 ≤ t) (hg : 0 < g) (hη : 0 < η) {S : ℕ → ℕ → ℝ}
    (hS : Chance t k ek (Pc.efficiency (t / g)) S y μ) :
    ∀ᵐ ω ∂μ, ∀ᶠ n in atTop, ∃ S', Explains t k ek g S' (first y n ω) ∧
      ∀ r c, r < 1024 → c < 1024 → |S' r c - S r c| ≤ η := by
  have hv := all_pixels (P := fun r c n ω => valid (first y n ω) r c ≠ 0) fun r c hr hc => valid_eventually h hr hc
  have hr := all_pixels (μ := μ) (P := fun r c n ω => ∃ s', 0 ≤ s' ∧ |s' - S r c| ≤ η ∧ Pc.efficiency (t / g) s' =
      (hits t k ek 0 (first y n ω) r c : ℝ) / valid (first y n ω) r c) (by
    intro r c hr hc
    filter_upwards [fraction_limit h hr hc t 0] with ω hω
    rw [(hS r c hr hc).2, mul_div_cancel_left₀ _ (h.good r c hr hc).ne'] at hω
    exact roots ht hg (hS r c hr hc).1 hη (fun n => by positivity) hω)
  filter_upwards [hv, hr] with ω h1 h2
  filter_upwards [h1, h2] with n a1 a2
  have : ∀ r c, ∃ s', r < 1024 → c < 1024 → 0 ≤ s' ∧ |s' - S r c| ≤ η ∧ Pc.efficiency (t / g) s' =
      (hits t k ek 0 (first y n ω) r c : ℝ) / valid (first y n ω) r c := by
    intro r c
    by_cases hrc : r < 1024 ∧ c < 1024
    · obtain ⟨x, hx⟩ := a2 r c hrc.1 hrc.2
      exact ⟨x, fun _ _ => hx⟩
    · exact ⟨0, fun b1 b2 => absurd ⟨b1, b2⟩ hrc⟩
  choose S' hS' using this
  refine ⟨S', fun r c hr hc => ⟨(hS' r c hr hc).1, ?_⟩, fun r c hr hc => (hS' r c hr hc).2.1⟩
  rw [(hS' r c hr hc).2.2]
  have hv' : (valid (first y n ω) r c : ℝ) ≠ 0 := by exact_mod_cast a1 r c hr hc
  field_simp

end

/-! ## C192 -/

/-- **C192.** Random raw light frames and random raw darks of the same threshold, with probabilities of a detection (given that the pixel is
not flagged) that are those of fluxes `S` and `D` of at most `M`: if `S - D` is the light of the scene up to `δ`, then almost surely, for
enough light frames and at least as many darks, both recipes succeed, and with `j + 1` iterations the product is the scene up to
twice `δ + M ^ 2 ^ (j + 2) + ε` over the flat, for any `ε`. -/
theorem C192_product {tab : NonLin.Table ℝ} (ht : NonLin.Good tab) {off k ek T emax rowread : ℝ} (offErr : ℝ) (hk : k ≠ 0)
    {w wd : Setting} {vis : String} {y yd : ℕ → Ω → Seen} (hy : Shots tab off k ek T emax w vis y μ) (hvis : vis ≠ "DARK")
    (hd : Shots tab off k ek T emax wd "DARK" yd μ) (hrnd : wd.rn = w.rn) {nd : ℕ → ℕ} (hn : ∀ n, n ≤ nd n)
    (hT : 0 < T) (hrn : 0 < w.rn) (htg : T * w.rn < w.gain) (htgd : T * w.rn < wd.gain)
    (track : Bool) (junk : Ix → ℝ) {F : Flat} {flat s S D : ℕ → ℕ → ℝ} (hshape : F.shape = [1024, 1024])
    (hF : ∀ r c, r < 1024 → c < 1024 → F.data [r, c] = flat r c) (hrho : 0 ≤ rowread / w.exptime)
    (hpos : ∀ r c, r < 1024 → c < 1024 → 0 ≤ light flat (rowread / w.exptime) s r c)
    (hS : Chance (T * w.rn) k ek (Pc.efficiency (T * w.rn / w.gain)) S y μ)
    (hDx : Chance (T * w.rn) k ek (Pc.efficiency (T * w.rn / wd.gain)) D yd μ) {M δ ε : ℝ} (hM : M < 2 / 5)
    (hSM : ∀ r c, r < 1024 → c < 1024 → S r c ≤ M ∧ D r c ≤ M)
    (hδ : ∀ r c, r < 1024 → c < 1024 → |S r c - D r c - light flat (rowread / w.exptime) s r c| ≤ δ) (hε : 0 < ε) (j : ℕ) :
    ∀ᵐ ω ∂μ, ∀ᶠ n in atTop, ∃ d g,
      darkRecipe T emax (j + 1) tab off offErr k ek ((first yd (nd n) ω).map Prod.snd) = .ok d ∧
      lightRecipe T emax (j + 1) tab off offErr k ek rowread track junk F d ((first y n ω).map Prod.snd) = .ok [g] ∧
      ∀ r c, r < 1024 → c < 1024 → flat r c ≠ 0 → |g.data [r, c] - s r c| ≤ 2 * (δ + M ^ 2 ^ (j + 2) + ε) / |flat r c| := by
  have htp : 0 < T * w.rn := mul_pos hT hrn
  have hgp : 0 < w.gain := htp.trans htg
  have hgd : 0 < wd.gain := htp.trans htgd
  obtain ⟨lim, hl, -, hlim⟩ := Pc.C150_limit htp hgp htg.le
  obtain ⟨limd, hld, -, hlimd⟩ := Pc.C150_limit htp hgd htgd.le
  obtain ⟨η, hη, hη1, hη2⟩ : ∃ η, 0 < η ∧ M + η ≤ 2 / 5 ∧ 2 * η + (M + η) ^ 2 ^ (j + 2) ≤ M ^ 2 ^ (j + 2) + ε := by
    have hc : Tendsto (fun η : ℝ => 2 * η + (M + η) ^ 2 ^ (j + 2)) (𝓝[>] 0) (𝓝 (2 * 0 + (M + 0) ^ 2 ^ (j + 2))) :=
      (Continuous.tendsto (by fun_prop) 0).mono_left nhdsWithin_le_nhds
    have h1 := hc.eventually_lt_const (show 2 * 0 + (M + 0) ^ 2 ^ (j + 2) < M ^ 2 ^ (j + 2) + ε by
      rw [mul_zero, zero_add, add_zero]
      linarith)
    have h2 : ∀ᶠ η : ℝ in 𝓝[>] 0, η < 2 / 5 - M := nhdsWithin_le_nhds (Iio_mem_nhds (by linarith))
    obtain ⟨η, ⟨a1, a2⟩, a3⟩ := ((h1.and h2).and self_mem_nhdsWithin).exists
    exact ⟨η, a3, by linarith, a1.le⟩
  have hnd : Tendsto nd atTop atTop := tendsto_atTop_mono hn tendsto_id
  filter_upwards [stack_eventually hy hl, stack_eventually hd hld, explains_eventually hy htp.le hgp hη hS,
    explains_eventually hd htp.le hgd hη hDx] with ω h1 h2 h3 h4
  filter_upwards [h1, hnd.eventually h2, h3, hnd.eventually h4] with n a1 a2 a3 a4
  obtain ⟨S', b1, b2⟩ := a3
  obtain ⟨D', b3, b4⟩ := a4
  obtain ⟨d, g, h⟩ := C191_product (S := S') (D := D') (s := s) (flat := flat) (rowread := rowread) (M := M + η) (δ := δ + 2 * η)
    ht offErr hk a1 hvis a2 hrnd (by simpa [first] using hn n) hT hrn htg htgd hlim hlimd track junk hshape hF hrho hpos b1 b3 hη1
    (fun r c hr hc => by
      have c1 := abs_le.1 (b2 r c hr hc)
      have c2 := abs_le.1 (b4 r c hr hc)
      have c3 := hSM r c hr hc
      constructor <;> linarith [c1.2, c2.2, c3.1, c3.2])
    (fun r c hr hc => by
      have c1 := abs_le.1 (b2 r c hr hc)
      have c2 := abs_le.1 (b4 r c hr hc)
      have c3 := abs_le.1 (hδ r c hr hc)
      rw [abs_le]
      constructor <;> linarith [c1.1, c1.2, c2.1, c2.2, c3.1, c3.2])
  obtain ⟨e1, e2, e3⟩ := h j
  refine ⟨d j, g j, e1, e2, fun r c hr hc hfl => (e3 r c hr hc hfl).trans ?_⟩
  apply div_le_div_of_nonneg_right _ (abs_nonneg _)
  linarith

/-- **C192, with the number of iterations of the recipes.** Random raw light frames and random raw darks with the probabilities of Poisson
distributed electrons, light of the scene and dark signal together at most 0.1 electrons per pixel and frame: almost surely, for enough
light frames and at least as many darks, the product is the scene up to 0.00021 electrons over the flat. -/
theorem C192_default {tab : NonLin.Table ℝ} (ht : NonLin.Good tab) {off k ek T emax rowread : ℝ} (offErr : ℝ) (hk : k ≠ 0)
    {w wd : Setting} {vis : String} {y yd : ℕ → Ω → Seen} (hy : Shots tab off k ek T emax w vis y μ) (hvis : vis ≠ "DARK")
    (hd : Shots tab off k ek T emax wd "DARK" yd μ) (hrnd : wd.rn = w.rn) {nd : ℕ → ℕ} (hn : ∀ n, n ≤ nd n)
    (hT : 0 < T) (hrn : 0 < w.rn) (htg : T * w.rn < w.gain) (htgd : T * w.rn < wd.gain)
    (track : Bool) (junk : Ix → ℝ) {F : Flat} {flat s D : ℕ → ℕ → ℝ} (hshape : F.shape = [1024, 1024])
    (hF : ∀ r c, r < 1024 → c < 1024 → F.data [r, c] = flat r c) (hrho : 0 ≤ rowread / w.exptime)
    (hpos : ∀ r c, r < 1024 → c < 1024 → 0 ≤ light flat (rowread / w.exptime) s r c)
    (hfew : ∀ r c, r < 1024 → c < 1024 → light flat (rowread / w.exptime) s r c + D r c ≤ 1 / 10)
    (hS : Chance (T * w.rn) k ek (Pc.detect (T * w.rn / w.gain)) (fun r c => light flat (rowread / w.exptime) s r c + D r c) y μ)
    (hDx : Chance (T * w.rn) k ek (Pc.detect (T * w.rn / wd.gain)) D yd μ) :
    ∀ᵐ ω ∂μ, ∀ᶠ n in atTop, ∃ d g,
      darkRecipe T emax 2 tab off offErr k ek ((first yd (nd n) ω).map Prod.snd) = .ok d ∧
      lightRecipe T emax 2 tab off offErr k ek rowread track junk F d ((first y n ω).map Prod.snd) = .ok [g] ∧
      ∀ r c, r < 1024 → c < 1024 → flat r c ≠ 0 → |g.data [r, c] - s r c| ≤ 21 / 100000 / |flat r c| := by
  have htp : 0 < T * w.rn := mul_pos hT hrn
  have hgp : 0 < w.gain := htp.trans htg
  have hgd : 0 < wd.gain := htp.trans htgd
  have hSr : ∀ r c, ∃ x, r < 1024 → c < 1024 → light flat (rowread / w.exptime) s r c + D r c ≤ x ∧
      x ≤ light flat (rowread / w.exptime) s r c + D r c + 1 / 10000 ∧
      Pc.efficiency (T * w.rn / w.gain) x = Pc.detect (T * w.rn / w.gain) (light flat (rowread / w.exptime) s r c + D r c) := by
    intro r c
    by_cases h : r < 1024 ∧ c < 1024
    · obtain ⟨x, hx⟩ := near_root htp.le hgp htg.le (hS r c h.1 h.2).1 (hfew r c h.1 h.2)
      exact ⟨x, fun _ _ => hx⟩
    · exact ⟨0, fun h1 h2 => absurd ⟨h1, h2⟩ h⟩
  have hDr : ∀ r c, ∃ x, r < 1024 → c < 1024 → D r c ≤ x ∧ x ≤ D r c + 1 / 10000 ∧
      Pc.efficiency (T * w.rn / wd.gain) x = Pc.detect (T * w.rn / wd.gain) (D r c) := by
    intro r c
    by_cases h : r < 1024 ∧ c < 1024
    · obtain ⟨x, hx⟩ := near_root htp.le hgd htgd.le (hDx r c h.1 h.2).1 (by linarith [hfew r c h.1 h.2, hpos r c h.1 h.2])
      exact ⟨x, fun _ _ => hx⟩
    · exact ⟨0, fun h1 h2 => absurd ⟨h1, h2⟩ h⟩
  choose S' hS' using hSr
  choose D' hD' using hDr
  have h := C192_product (S := S') (D := D') (s := s) (flat := flat) (rowread := rowread) (M := 1001 / 10000) (δ := 1 / 10000)
    (ε := 1 / 1000000) ht offErr hk hy hvis hd hrnd hn hT hrn htg htgd track junk hshape hF hrho hpos
    (fun r c hr hc => ⟨(hS r c hr hc).1.trans (hS' r c hr hc).1, by rw [(hS r c hr hc).2, (hS' r c hr hc).2.2]⟩)
    (fun r c hr hc => ⟨(hDx r c hr hc).1.trans (hD' r c hr hc).1, by rw [(hDx r c hr hc).2, (hD' r c hr hc).2.2]⟩)
    (by norm_num) (fun r c hr hc => by
      have a := hfew r c hr hc
      have b := (hS' r c hr hc).2.1
      have e := (hD' r c hr hc).2.1
      have p := hpos r c hr hc
      constructor <;> linarith) (fun r c hr hc => by
      have a := hS' r c hr hc
      have b := hD' r c hr hc
      rw [abs_le]
      constructor <;> linarith [a.1, a.2.1, b.1, b.2.1]) (by norm_num) 1
  filter_upwards [h] with ω hω
  filter_upwards [hω] with n hn
  obtain ⟨d, g, h1, h2, h3⟩ := hn
  refine ⟨d, g, h1, h2, fun r c hr hc hfl => (h3 r c hr hc hfl).trans ?_⟩
  apply div_le_div_of_nonneg_right _ (abs_nonneg _)
  norm_num

/-! ## Non-vacuity -/

/-- A coin that shows `true` once in twenty throws. -/
def coin20 : Measure Bool := (ENNReal.ofReal (1 / 20)) • Measure.dirac true + (ENNReal.ofReal (19 / 20)) • Measure.dirac false

instance : IsProbabilityMeasure coin20 := ⟨by
  simp only [coin20, Measure.add_apply, Measure.smul_apply, measure_univ, smul_eq_mul, mul_one]
  rw [← ENNReal.ofReal_add (by norm_num) (by norm_num)]
  norm_num⟩

/-- Throws without end. -/
def throws : Measure (ℕ → Bool) := Measure.infinitePi fun _ => coin20

instance : IsProbabilityMeasure throws := by
  unfold throws
  infer_instance

/-- Frames with `v true` or `v false` electrons in all pixels. -/
def exShots (vis : String) (v : Bool → ℝ) (i : ℕ) (ω : ℕ → Bool) : Seen := exShot vis (v (ω i))

theorem ex_pixel (vis : String) (v : Bool → ℝ) (ek : ℝ) (i r c : ℕ) (ω : ℕ → Bool) :
    pixel 1 ek r c (exShots vis v i ω) = (v (ω i), |v (ω i) * ek|, 0) := by
  unfold pixel exShots
  have : sigma 1 ek (exShot vis (v (ω i))) r c = |v (ω i) * ek| := by
    have h := ex_value vis (v (ω i)) r c
    unfold sigma
    rw [h]
    simp [exShot, Real.sqrt_sq_eq_abs]
  rw [ex_value, this]
  rfl

theorem ex_good (vis : String) (v : Bool → ℝ) (ek : ℝ) (r c : ℕ) : throws.real {ω | pixel 1 ek r c (exShots vis v 0 ω) ∈ Good} = 1 := by
  have : {ω | pixel 1 ek r c (exShots vis v 0 ω) ∈ Good} = Set.univ := by
    ext ω
    rw [Set.mem_ofPred_eq, ex_pixel]
    simp [Good]
  rw [this]
  simp

theorem ex_hit (vis : String) (v : Bool → ℝ) (ek b : ℝ) (r c : ℕ) :
    throws.real {ω | pixel 1 ek r c (exShots vis v 0 ω) ∈ Hit (1 * 1) b} = coin20.real {x | 1 < v x + b * |v x * ek|} := by
  have : {ω | pixel 1 ek r c (exShots vis v 0 ω) ∈ Hit (1 * 1) b} = (fun ω : ℕ → Bool => ω 0) ⁻¹' {x | 1 < v x + b * |v x * ek|} := by
    ext ω
    rw [Set.mem_ofPred_eq, ex_pixel]
    simp [Hit]
  rw [this, ← Measure.infinitePi_map_eval (fun _ : ℕ => coin20) 0, Measure.real, Measure.real,
    Measure.map_apply (measurable_pi_apply 0) (Set.Finite.measurableSet (Set.toFinite _))]
  rfl

theorem ex_shots (vis : String) {v : Bool → ℝ} (hv : ∀ x, |v x| ≤ 2) {ek : ℝ}
    (h : ∀ b ∈ ([0, 1, -1] : List ℝ), coin20.real {x | 1 < v x + b * |v x * ek|} ≤ 1 / 20) :
    Shots linear 0 1 ek 1 1 ⟨1, 100, 100, 1⟩ vis (exShots vis v) throws := by
  have hm : Measurable fun x : Bool => ((v x, |v x * ek|, 0) : ℝ × ℝ × ℕ) := measurable_of_finite _
  refine ⟨fun i ω => registers_of_exposes (C144_exposes exDetector (fun _ => 0) 0 fun _ _ => v (ω i) / 100), ?_, ?_, ?_, ?_, ?_, ?_, ?_, ?_⟩
  · intro i ω
    refine ⟨rfl, rfl, ?_, rfl⟩
    simp [exShots, exShot, emGain]
  · intro i ω
    exact ⟨rfl, by simp [exShots, exShot], by simp [exShots, exShot]⟩
  · intro r c _ _ i j hij
    simp only [ex_pixel]
    exact (iIndepFun_infinitePi (P := fun _ : ℕ => coin20) (X := fun _ x => ((v x, |v x * ek|, 0) : ℝ × ℝ × ℕ)) fun _ => hm).indepFun hij
  · intro r c _ _ i
    simp only [ex_pixel]
    have e : ∀ i : ℕ, Measure.map (fun ω : ℕ → Bool => ((v (ω i), |v (ω i) * ek|, 0) : ℝ × ℝ × ℕ)) throws = Measure.map (fun x => (v x, |v x * ek|, 0)) coin20 := by
      intro i
      rw [← Measure.infinitePi_map_eval (fun _ : ℕ => coin20) i, Measure.map_map hm (measurable_pi_apply i)]
      rfl
    exact ⟨(hm.comp (measurable_pi_apply i)).aemeasurable, (hm.comp (measurable_pi_apply 0)).aemeasurable, by rw [e i, e 0]⟩
  · intro r c _ _
    refine Integrable.of_bound (C := 2) ?_ (.of_forall fun ω => ?_)
    · have : (fun ω => (exShots vis v 0 ω).1 r c) = fun ω => v (ω 0) := by
        funext ω
        exact ex_value _ _ _ _
      rw [this]
      exact ((measurable_of_finite v).comp (measurable_pi_apply 0)).aestronglyMeasurable
    · unfold exShots
      rw [ex_value]
      exact hv _
  · intro r c _ _
    rw [ex_good]
    exact one_pos
  · intro b hb r c _ _
    have h := h b hb
    rw [ex_good]
    show throws.real {ω | pixel 1 ek r c (exShots vis v 0 ω) ∈ Hit (1 * 1) b} / 1 * exp (1 * 1 / 100) < _
    rw [ex_hit, div_one]
    refine lt_of_lt_of_le ?_ ex_fraction
    exact mul_lt_mul_of_pos_right (by linarith) (exp_pos _)
  · have e : ∀ r c, ∫ ω, (exShots vis v 0 ω).1 r c ∂throws ≤ 2 := by
      intro r c
      have h1 : ‖∫ ω, (exShots vis v 0 ω).1 r c ∂throws‖ ≤ 2 * throws.real Set.univ := by
        refine norm_integral_le_of_norm_le_const (.of_forall fun ω => ?_)
        unfold exShots
        rw [ex_value]
        exact hv _
      rw [Real.norm_eq_abs, probReal_univ, mul_one] at h1
      exact (le_abs_self _).trans h1
    have h2 : ∀ m : ℕ, ((List.range m).map fun p => ∫ ω, (exShots vis v 0 ω).1 (p / 1024) (p % 1024) ∂throws).sum ≤ 2 * m := by
      intro m
      induction m with
      | zero => simp
      | succ m ih =>
        rw [List.range_succ, List.map_append, List.sum_append, List.map_singleton, List.sum_singleton]
        push_cast
        linarith [e (m / 1024) (m % 1024)]
    refine (h2 (1024 * 1024)).trans_lt ?_
    norm_num

theorem coin20_true : coin20.real {x | (1 : ℝ) < if x then 2 else 0} = 1 / 20 := by
  have : {x : Bool | (1 : ℝ) < if x then 2 else 0} = {true} := by
    ext x
    cases x <;> norm_num
  rw [this]
  simp [coin20, Measure.real]

/-- Light frames with detections once in twenty frames, darks without: almost surely the recipes give in the end the mean number of electrons
for which that is the probability of a detection, up to 0.00021. -/
example : ∃ S : ℝ, 0 < S ∧ ∀ᵐ ω ∂throws, ∀ᶠ n in atTop, ∃ d g,
    darkRecipe 1 1 2 linear 0 0 1 0 ((first (exShots "DARK" fun _ => 0) n ω).map Prod.snd) = .ok d ∧
    lightRecipe 1 1 2 linear 0 0 1 0 0 true (fun _ => 0) ⟨[1024, 1024], fun _ => 1, fun _ => 0⟩ d
      ((first (exShots "SCI" fun x => if x then 2 else 0) n ω).map Prod.snd) = .ok [g] ∧
    ∀ r c, r < 1024 → c < 1024 → |g.data [r, c] - S| ≤ 21 / 100000 := by
  have hexp := one_sub_le_exp_neg (1 * 1 / 100 : ℝ)
  obtain ⟨S, hS, hS1, hroot⟩ := detect_onto (x := 1 * 1 / 100) (y := 1 / 20) (by norm_num) (by norm_num) (by
    refine le_trans ?_ (Pc.C163_probability (t := 1 * 1) (g := 100) (l := 1 / 10) (by norm_num) (by norm_num) (by norm_num)).1.le
    rw [Pc.eps_eq (by norm_num)]
    unfold Pc.nx Pc.den
    norm_num at hexp ⊢
    linarith)
  refine ⟨S, lt_of_le_of_ne hS ?_, ?_⟩
  · rintro rfl
    rw [detect_none] at hroot
    norm_num at hroot
  have h := C192_default (ek := 0) (T := 1) (emax := 1) (w := ⟨1, 100, 100, 1⟩) (wd := ⟨1, 100, 100, 1⟩) (vis := "SCI") (rowread := 0)
    (flat := fun _ _ => 1) (s := fun _ _ => S) (D := fun _ _ => 0) (F := ⟨[1024, 1024], fun _ => 1, fun _ => 0⟩) (nd := id)
    linear_good 0 one_ne_zero
    (ex_shots "SCI" (v := fun x => if x then 2 else 0) (by intro x; cases x <;> norm_num) fun b _ => by
      simp only [mul_zero, abs_zero, add_zero]
      exact coin20_true.le) (by decide)
    (ex_shots "DARK" (v := fun _ => 0) (by intro x; norm_num) (by norm_num)) rfl (fun n => le_rfl) one_pos one_pos
    (by norm_num) (by norm_num) true (fun _ => 0) rfl (fun _ _ _ _ => rfl) (by norm_num)
    (by intro r c _ _; simpa [light] using hS)
    (by intro r c _ _; simpa [light] using hS1)
    (by
      intro r c _ _
      refine ⟨by simpa [light] using hS, ?_⟩
      rw [ex_good, ex_hit]
      simp only [mul_zero, abs_zero, add_zero]
      rw [coin20_true, one_mul]
      simp only [light]
      norm_num at hroot ⊢
      exact hroot.symm)
    (by
      intro r c _ _
      refine ⟨le_rfl, ?_⟩
      rw [ex_good, ex_hit, detect_none]
      norm_num)
  filter_upwards [h] with ω hω
  filter_upwards [hω] with n hn
  obtain ⟨d, g, h1, h2, h3⟩ := hn
  exact ⟨d, g, h1, h2, fun r c hr hc => (h3 r c hr hc one_ne_zero).trans (by norm_num)⟩

end Corgi.Counted

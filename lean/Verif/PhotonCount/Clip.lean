import Verif.PhotonCount.PcDark
import Mathlib.Probability.StrongLaw
import Mathlib.Probability.Distributions.Uniform
import Mathlib.Probability.ProbabilityMassFunction.Integrals

/-!
# Negative values set to zero after the dark subtraction (photon_counting.py 299-301): C203

`get_pc_mean` for light frames with a photon-counted master dark, as in C151. The light frames are random: bin after bin, or observation after
observation, with one dark. The values of a pixel are averaged.
-/

noncomputable section

namespace Corgi.Pc

open MeasureTheory ProbabilityTheory Filter Topology

variable {Ω : Type*} [MeasurableSpace Ω] {μ : Measure Ω}

/-! ## Specification -/

/-- Random light frames of many observations, counted without dark (`s0`) and with one master dark (`s`). The counted light `L` of pixel `p` is
independent and alike from one observation to the other. -/
structure Counted (P Pd : Params) (bin : Option ℤ) (ds : List Frame) (out : List Slice) (t : ℝ) (nf i p : ℕ) (fs : ℕ → Ω → List Frame)
    (s0 s : ℕ → Ω → Slice) (L : ℕ → Ω → ℝ) (b : ℝ) (μ : Measure Ω) : Prop where
  dark : ∃ ps d, getPcMean Pd bin ds = .ok (.dark out t nf ps) ∧ masterDark (.dark out t nf ps) = some d ∧
    ∀ k ω, pcBin { P with dark := some d } i (fs k ω) = .ok (s k ω)
  light : ∀ k ω, pcBin { P with dark := none } i (fs k ω) = .ok (s0 k ω) ∧ (s0 k ω).vistype ≠ "DARK"
  value : ∀ k ω, (s0 k ω).mean p = some (L k ω)
  level : ∃ sd, darkOf out i = some sd ∧ sd.mean p = some b
  integ : Integrable (L 0) μ
  indep : ∀ j k, j ≠ k → IndepFun (L j) (L k) μ
  alike : ∀ k, IdentDistrib (L k) (L 0) μ μ

/-- The value of a pixel of the product. -/
def pxOf (s : Slice) (p : ℕ) : ℝ := (s.mean p).getD 0

/-! ## C203 -/

private theorem parts (a b : ℝ) : max (a - b) 0 = a - b + max (b - a) 0 := by
  rcases le_total a b with h | h
  · rw [max_eq_right (by linarith), max_eq_left (by linarith)]; ring
  · rw [max_eq_left (by linarith), max_eq_right (by linarith)]; ring

private theorem parts_abs (a b : ℝ) : max (a - b) 0 = (|a - b| + (a - b)) / 2 := by
  rcases le_total a b with h | h
  · rw [max_eq_right (by linarith), abs_of_nonpos (by linarith)]; ring
  · rw [max_eq_left (by linarith), abs_of_nonneg (by linarith)]; ring

/-- **C203** The expected value of a difference that is set to zero where it is negative: too large by the expected negative part. -/
theorem C203_expected [IsProbabilityMeasure μ] {L : Ω → ℝ} (hL : Integrable L μ) (b : ℝ) :
    ∫ ω, max (L ω - b) 0 ∂μ = (∫ ω, L ω ∂μ) - b + ∫ ω, max (b - L ω) 0 ∂μ ∧
      (∫ ω, max (L ω - b) 0 ∂μ = (∫ ω, L ω ∂μ) - b ↔ ∀ᵐ ω ∂μ, b ≤ L ω) ∧ (∫ ω, L ω ∂μ) - b ≤ ∫ ω, max (L ω - b) 0 ∂μ := by
  have hs : Integrable (fun ω => L ω - b) μ := hL.sub (integrable_const b)
  have hn : Integrable (fun ω => max (b - L ω) 0) μ := ((integrable_const b).sub hL).pos_part
  have e : ∫ ω, max (L ω - b) 0 ∂μ = (∫ ω, L ω ∂μ) - b + ∫ ω, max (b - L ω) 0 ∂μ := by
    rw [show (fun ω => max (L ω - b) 0) = fun ω => (L ω - b) + max (b - L ω) 0 from funext fun ω => parts _ _]
    rw [integral_add hs hn, integral_sub hL (integrable_const b), integral_const]
    simp
  have h0 : 0 ≤ ∫ ω, max (b - L ω) 0 ∂μ := integral_nonneg fun ω => le_max_right _ _
  refine ⟨e, ?_, by rw [e]; linarith⟩
  have hz := integral_eq_zero_iff_of_nonneg (μ := μ) (f := fun ω => max (b - L ω) 0) (fun ω => le_max_right _ _) hn
  rw [e]
  constructor
  · intro h
    filter_upwards [hz.1 (by linarith)] with ω hω
    have : b - L ω ≤ 0 := max_eq_right_iff.1 hω
    linarith
  · intro h
    rw [hz.2 (by filter_upwards [h] with ω hω; exact max_eq_right (by linarith)), add_zero]

/-- **C203** If there is no light but the dark signal, the expected value is half the mean deviation, and not 0 unless the counts do not vary. -/
theorem C203_blank [IsProbabilityMeasure μ] {L : Ω → ℝ} (hL : Integrable L μ) {b : ℝ} (hb : ∫ ω, L ω ∂μ = b) :
    ∫ ω, max (L ω - b) 0 ∂μ = (∫ ω, |L ω - b| ∂μ) / 2 ∧ (∫ ω, max (L ω - b) 0 ∂μ = 0 ↔ ∀ᵐ ω ∂μ, L ω = b) := by
  have hs : Integrable (fun ω => L ω - b) μ := hL.sub (integrable_const b)
  have e : ∫ ω, max (L ω - b) 0 ∂μ = (∫ ω, |L ω - b| ∂μ) / 2 := by
    simp only [parts_abs]
    rw [integral_div, integral_add hs.abs hs, integral_sub hL (integrable_const b), hb, integral_const]
    simp
  refine ⟨e, ?_⟩
  have hz := integral_eq_zero_iff_of_nonneg (μ := μ) (f := fun ω => |L ω - b|) (fun ω => abs_nonneg _) hs.abs
  rw [e, div_eq_zero_iff, or_iff_left two_ne_zero, hz]
  refine eventually_congr (.of_forall fun ω => ?_)
  show |L ω - b| = 0 ↔ _
  rw [abs_eq_zero, sub_eq_zero]

section
variable {P Pd : Params} {bin : Option ℤ} {ds : List Frame} {out : List Slice} {t : ℝ} {nf i p : ℕ} {fs : ℕ → Ω → List Frame}
  {s0 s : ℕ → Ω → Slice} {L : ℕ → Ω → ℝ} {b : ℝ}

/-- The product, in terms of the counted light. -/
theorem pxOf_eq (h : Counted P Pd bin ds out t nf i p fs s0 s L b μ) (k : ℕ) (ω : Ω) :
    (s k ω).mean p = some (max (L k ω - b) 0) := by
  obtain ⟨ps, d, h1, h2, h3⟩ := h.dark
  obtain ⟨h4, h5⟩ := h.light k ω
  obtain ⟨sd, hsd, hm⟩ := C151_subtract h1 h2 h4 h5 (h3 k ω)
  obtain ⟨sd', hsd', hb⟩ := h.level
  cases hsd.symm.trans hsd'
  rw [hm, h.value, hb]
  rfl

/-- **C203** Averaging does not help: almost surely the mean of the products tends to the expected light minus the dark plus the expected negative
part, and this is the expected difference exactly if the counted light is almost surely not below the dark. -/
theorem C203_average [IsProbabilityMeasure μ] (h : Counted P Pd bin ds out t nf i p fs s0 s L b μ) :
    (∀ᵐ ω ∂μ, Tendsto (fun n : ℕ => (∑ k ∈ Finset.range n, pxOf (s k ω) p) / n) atTop
      (𝓝 ((∫ ω, L 0 ω ∂μ) - b + ∫ ω, max (b - L 0 ω) 0 ∂μ))) ∧
    ((∀ᵐ ω ∂μ, Tendsto (fun n : ℕ => (∑ k ∈ Finset.range n, pxOf (s k ω) p) / n) atTop (𝓝 ((∫ ω, L 0 ω ∂μ) - b))) ↔
      ∀ᵐ ω ∂μ, b ≤ L 0 ω) := by
  have hg : Measurable fun x : ℝ => max (x - b) 0 := (measurable_id.sub_const b).max measurable_const
  have hint : Integrable (fun ω => max (L 0 ω - b) 0) μ := (h.integ.sub (integrable_const b)).pos_part
  have law := strong_law_ae_real (fun k ω => max (L k ω - b) 0) hint (fun j k hjk => (h.indep j k hjk).comp hg hg) fun k => (h.alike k).comp hg
  obtain ⟨e1, e2, -⟩ := C203_expected h.integ b
  have hpx : ∀ k ω, pxOf (s k ω) p = max (L k ω - b) 0 := fun k ω => by
    unfold pxOf
    rw [pxOf_eq h]
    rfl
  simp only [hpx]
  rw [← e1]
  refine ⟨law, ?_⟩
  rw [← e2]
  constructor
  · intro h'
    obtain ⟨ω, h1, h2⟩ := (law.and h').exists
    exact tendsto_nhds_unique h1 h2
  · intro he
    rw [← he]
    exact law

/-- **C203** A field without light: the mean of the products tends to half the mean deviation of the counts, which is positive unless they do not
vary. -/
theorem C203_empty_field [IsProbabilityMeasure μ] (h : Counted P Pd bin ds out t nf i p fs s0 s L b μ) (hb : ∫ ω, L 0 ω ∂μ = b)
    (hv : ¬ ∀ᵐ ω ∂μ, L 0 ω = b) :
    0 < (∫ ω, |L 0 ω - b| ∂μ) / 2 ∧
    ∀ᵐ ω ∂μ, Tendsto (fun n : ℕ => (∑ k ∈ Finset.range n, pxOf (s k ω) p) / n) atTop (𝓝 ((∫ ω, |L 0 ω - b| ∂μ) / 2)) := by
  obtain ⟨e, hz⟩ := C203_blank h.integ hb
  have h1 := (C203_average h).1
  rw [← (C203_expected h.integ b).1, e] at h1
  refine ⟨lt_of_le_of_ne (by positivity) fun h0 => hv (hz.1 (e.trans h0.symm)), h1⟩

end

/-! ## Not vacuous -/

/-- Light that is 1 or 3 with equal probability, over a dark of 2: the expected product is 1/2. -/
example : ∃ (μ : Measure Bool) (_ : IsProbabilityMeasure μ), ∃ L : Bool → ℝ, Integrable L μ ∧ ∫ ω, L ω ∂μ = 2 ∧
    ∫ ω, max (L ω - 2) 0 ∂μ = 1 / 2 := by
  let μ : Measure Bool := (PMF.uniformOfFintype Bool).toMeasure
  refine ⟨μ, inferInstance, fun ω => if ω then 1 else 3, .of_finite, ?_, ?_⟩
  · rw [PMF.integral_eq_sum]
    simp
    norm_num
  · rw [PMF.integral_eq_sum]
    simp
    norm_num

theorem blank_mean {P : Params} {i : ℕ} {fs : List Frame} {s : Slice} (h : pcBin P i fs = .ok s) (hd : P.dark = none) (hn : 1 ≤ P.niter)
    (hp : 0 < P.npix) (hb : ∀ f ∈ fs, f.data 0 = some 0 ∧ f.dq 0 = 0) : s.mean 0 = some 0 := by
  obtain ⟨f0, l, m, up, low, hfs, _, _, _, ht, _, _, hm, _, _, _, _, _, _, g5, _⟩ := pcBin_ok h
  rw [(g5 hd).1, corr_zero hm hn hp ?_]
  · simp
  · unfold coadd
    rw [List.map_congr_left (g := fun _ => some 0) fun f hf => ?_]
    · induction fs <;> simp [nansum]
    · rw [(hb f hf).1, (hb f hf).2]
      simp [boolMap, photonCount, not_lt.2 ht]

/-- Blank frames, counted again and again. -/
example : ∃ P Pd bin ds out t nf i p, ∃ fs : ℕ → Unit → List Frame, ∃ s0 s L b, Counted P Pd bin ds out t nf i p fs s0 s L b (Measure.dirac ()) := by
  obtain ⟨out, t, nf, ps, d, s0, s, h1, h2, h3, h4, h5⟩ := exPair
  obtain ⟨hne, -, hall⟩ := getPcMean_dark h1
  obtain ⟨sd, hsd⟩ := darkOf_some hne 0
  have hm0 : s0.mean 0 = some 0 := blank_mean h3 rfl (by decide) (by decide) (by
    intro f hf
    rcases List.mem_pair.1 hf with rfl | rfl <;> exact ⟨rfl, rfl⟩)
  have hmd : sd.mean 0 = some 0 := blank_mean (hall _ _ hsd) rfl (by decide) (by decide) (by
    intro f hf
    have := List.mem_of_mem_drop (List.mem_of_mem_take hf)
    rcases List.mem_pair.1 this with rfl | rfl <;> exact ⟨rfl, rfl⟩)
  exact ⟨{ darkParams with mode := "illuminated" }, _, _, _, out, t, nf, 0, 0, fun _ _ => [blank "c" "SCI" 100 100, blank "d" "SCI" 100 100], fun _ _ => s0, fun _ _ => s, fun _ _ => 0, 0, ⟨ps, d, h1, h2, fun _ _ => h5⟩, fun _ _ => ⟨h3, h4⟩,
    fun _ _ => hm0, ⟨sd, hsd, hmd⟩, integrable_const 0, fun _ _ _ => indepFun_const_left 0 _, fun _ => .refl aemeasurable_const⟩

end Corgi.Pc

import Verif.EndToEnd.Flagged
import Verif.Prob.Aper

/-!
# Are the pixels of an L2b frame uncorrelated? (l1_to_l2a.py 104-118, l2a_to_l2b.py 388-425, fluxcal.py 328-339): C177

All that is done later with the errors of the pixels (sums in quadrature in apertures, C170, and in bins) takes the pixels of a frame for
uncorrelated. Here the raw pixels are random and uncorrelated, the biases of the rows are random (they are medians of prescan pixels) and
uncorrelated with the image and with each other, and the covariance of the pixels after the recipe of `L2b.lean` is computed. No new
definitions of the model. The calibrations and headers are fixed, the detector is linear (`counts_linear`).
-/

noncomputable section

namespace Corgi.ProbPixels

open MeasureTheory ProbabilityTheory
open Corgi.Det Corgi.Arith Corgi.EndToEnd Corgi.Flagged
open Corgi.ProbMaps (signs)

variable {Ω : Type*} {mΩ : MeasurableSpace Ω} {μ : Measure Ω}

/-! ## Spec -/

/-- Raw pixels `N r c` of variance `v r c` and biases `B r` of the rows of variance `b r`, all uncorrelated. -/
structure Noise (N : ℕ → ℕ → Ω → ℝ) (B : ℕ → Ω → ℝ) (v : ℕ → ℕ → ℝ) (b : ℕ → ℝ) (μ : Measure Ω) : Prop where
  lpN : ∀ r c, r < 1024 → c < 1024 → MemLp (N r c) 2 μ
  lpB : ∀ r, r < 1024 → MemLp (B r) 2 μ
  pixels : ∀ r c r' c', r < 1024 → c < 1024 → r' < 1024 → c' < 1024 → (r, c) ≠ (r', c') → cov[N r c, N r' c'; μ] = 0
  rows : ∀ r r', r < 1024 → r' < 1024 → r ≠ r' → cov[B r, B r'; μ] = 0
  mixed : ∀ r c r', r < 1024 → c < 1024 → r' < 1024 → cov[N r c, B r'; μ] = 0
  varN : ∀ r c, r < 1024 → c < 1024 → Var[N r c; μ] = v r c
  varB : ∀ r, r < 1024 → Var[B r; μ] = b r

/-- Random raw frames with the same headers. -/
structure Random (tab : NonLin.Table ℝ) (off : ℝ) (fr : Fr) (x : Ω → Raw) (N : ℕ → ℕ → Ω → ℝ) (B : ℕ → Ω → ℝ) (v : ℕ → ℕ → ℝ)
    (b : ℕ → ℝ) (μ : Measure Ω) : Prop extends Noise N B v b μ where
  science : ∀ ω, Science (x ω).l1
  header : ∀ ω, (x ω).fr = fr
  counts_eq : ∀ ω r c, r < 1024 → c < 1024 → counts tab off (x ω) r c = N r c ω - B r ω

/-- What row `s` contributes to row `r` of a desmeared column. -/
def weight (ρ : ℝ) (r s : ℕ) : ℝ := (if s = r then 1 else 0) - ρ * (1 + ρ) ^ ((s : ℤ) - r - 1)

/-- The covariance of two pixels, in electrons before the division by the flat. -/
def covPix (ρ : ℝ) (v : ℕ → ℕ → ℝ) (b : ℕ → ℝ) (r c r' c' : ℕ) : ℝ :=
  ∑ s ∈ Finset.range (min r r' + 1), weight ρ r s * weight ρ r' s * (b s + if c = c' then v s c else 0)

/-! ## The recipe is linear in the raw pixels -/

/-- With a linear detector the counts are the raw pixel minus the bias of its row. -/
theorem counts_linear {tab : NonLin.Table ℝ} {off : ℝ} {x : Raw} (ht : ∀ g w, NonLin.relgain tab g w = 1) {r c : ℕ} {p q : ℝ}
    (hp : x.l1.data.px (13 + r) (1088 + c) = some p) (hq : rowBias x.l1 sciPrescan 800 1000 off (13 + r) = some q) :
    counts tab off x r c = p - q := by
  unfold counts
  rw [hp, hq]
  simp [sub, ht]

theorem leak_weight (ρ : ℝ) (a : ℕ → ℝ) (r : ℕ) : leak ρ a r = ∑ s ∈ Finset.range (r + 1), weight ρ r s * a s := by
  unfold leak weight
  simp only [sub_mul, Finset.sum_sub_distrib, ite_mul, one_mul, zero_mul]
  rw [Finset.sum_ite_eq' (Finset.range (r + 1)) r fun s => a s, if_pos (Finset.mem_range.2 (by omega)), Finset.mul_sum]
  congr 1
  exact Finset.sum_congr rfl fun s _ => by ring

section
variable {track : Bool} {junk : Ix → ℝ} {tab : NonLin.Table ℝ} {off offErr k ek rowread : ℝ} {m : Maps} {F : Flat} {fr : Fr}
  {x : Ω → Raw} {out : Ω → Fr} {N : ℕ → ℕ → Ω → ℝ} {B : ℕ → Ω → ℝ} {v : ℕ → ℕ → ℝ} {b : ℕ → ℝ}

/-- A pixel of the output: a combination of the raw pixels of its column and of the biases, up to a constant. -/
theorem out_eq (ht : NonLin.Good tab) (hx : Random tab off fr x N B v b μ)
    (hr : ∀ ω, recipe track junk tab off offErr k ek rowread m F [x ω] = .ok [out ω]) :
    ∃ d : ℕ → ℕ → ℝ, ∀ ω r c, r < 1024 → c < 1024 → F.data [r, c] ≠ 0 → (out ω).data [r, c] = k / emGain fr / F.data [r, c] *
      (∑ s ∈ Finset.range (r + 1), weight (rowread / fr.exptime) r s * (N s c ω - B s ω)) - d r c := by
  by_cases hΩ : Nonempty Ω
  · obtain ⟨ω0⟩ := hΩ
    obtain ⟨z0, d, hz0, hd, -⟩ := recipe_px ht (fun z hz => by rw [List.mem_singleton.1 hz]; exact hx.science ω0) (hr ω0)
    cases hz0
    rw [hx.header] at hd
    refine ⟨fun r c => leak (rowread / fr.exptime) (fun s => d.data [s, c]) r / F.data [r, c], fun ω r c hrr hcc hF => ?_⟩
    obtain ⟨z, d', hz, hd', h⟩ := recipe_px ht (fun z hz => by rw [List.mem_singleton.1 hz]; exact hx.science ω) (hr ω)
    cases hz
    rw [hx.header, hd] at hd'
    cases hd'
    cases h with
    | cons h1 _ =>
      rw [h1.1 r c hrr hcc hF, hx.header, leak_sub]
      have e : leak (rowread / fr.exptime) (fun s => counts tab off (x ω) s c * k / emGain fr) r = k / emGain fr *
          ∑ s ∈ Finset.range (r + 1), weight (rowread / fr.exptime) r s * (N s c ω - B s ω) := by
        have : (fun s => counts tab off (x ω) s c * k / emGain fr) = fun s => k / emGain fr * counts tab off (x ω) s c := by
          funext s; ring
        rw [this, leak_mul, leak_weight]
        congr 1
        refine Finset.sum_congr rfl fun s hs => ?_
        rw [hx.counts_eq ω s c (by have := Finset.mem_range.1 hs; omega) hcc]
      rw [e]
      ring
  · exact ⟨fun _ _ => 0, fun ω => absurd ⟨ω⟩ hΩ⟩

theorem lp_counts (hN : Noise N B v b μ) {r c : ℕ} (hr : r < 1024) (hc : c < 1024) : MemLp (fun ω => N r c ω - B r ω) 2 μ :=
  (hN.lpN r c hr hc).sub (hN.lpB r hr)

variable [IsProbabilityMeasure μ]

theorem cov_counts (hN : Noise N B v b μ) {r c r' c' : ℕ} (hr : r < 1024) (hc : c < 1024) (hr' : r' < 1024) (hc' : c' < 1024) :
    cov[fun ω => N r c ω - B r ω, fun ω => N r' c' ω - B r' ω; μ] = if r = r' then b r + if c = c' then v r c else 0 else 0 := by
  rw [covariance_fun_sub_fun_sub (hN.lpN r c hr hc) (hN.lpB r hr) (hN.lpN r' c' hr' hc') (hN.lpB r' hr'), hN.mixed r c r' hr hc hr',
    covariance_comm (B r), hN.mixed r' c' r hr' hc' hr]
  by_cases h : r = r'
  · subst h
    rw [if_pos rfl, covariance_self (hN.lpB r hr).aestronglyMeasurable.aemeasurable, hN.varB r hr]
    by_cases h2 : c = c'
    · subst h2
      rw [if_pos rfl, covariance_self (hN.lpN r c hr hc).aestronglyMeasurable.aemeasurable, hN.varN r c hr hc]
      ring
    · rw [if_neg h2, hN.pixels r c r c' hr hc hr hc' (by simp [h2])]
      ring
  · rw [if_neg h, hN.rows r r' hr hr' h, hN.pixels r c r' c' hr hc hr' hc' (by simp [h])]
    ring

theorem cov_sums (hN : Noise N B v b μ) (ρ : ℝ) {r c r' c' : ℕ} (hr : r < 1024) (hc : c < 1024) (hr' : r' < 1024) (hc' : c' < 1024) :
    cov[fun ω => ∑ s ∈ Finset.range (r + 1), weight ρ r s * (N s c ω - B s ω),
      fun ω => ∑ s ∈ Finset.range (r' + 1), weight ρ r' s * (N s c' ω - B s ω); μ] = covPix ρ v b r c r' c' := by
  rw [covariance_fun_sum_fun_sum' (fun s hs => (lp_counts hN (by have := Finset.mem_range.1 hs; omega) hc).const_mul _)
    (fun s hs => (lp_counts hN (by have := Finset.mem_range.1 hs; omega) hc').const_mul _)]
  have h1 : ∀ s ∈ Finset.range (r + 1), ∑ t ∈ Finset.range (r' + 1),
      cov[fun ω => weight ρ r s * (N s c ω - B s ω), fun ω => weight ρ r' t * (N t c' ω - B t ω); μ] =
      if s ∈ Finset.range (r' + 1) then weight ρ r s * weight ρ r' s * (b s + if c = c' then v s c else 0) else 0 := by
    intro s hs
    have hs' := Finset.mem_range.1 hs
    rw [← Finset.sum_ite_eq (Finset.range (r' + 1)) s
      fun t => weight ρ r s * weight ρ r' t * (b s + if c = c' then v s c else 0)]
    refine Finset.sum_congr rfl fun t htm => ?_
    have ht' := Finset.mem_range.1 htm
    rw [covariance_const_mul_left, covariance_const_mul_right, cov_counts hN (by omega) hc (by omega) hc']
    split_ifs <;> ring
  rw [Finset.sum_congr rfl h1, ← Finset.sum_filter]
  unfold covPix
  refine Finset.sum_congr ?_ fun _ _ => rfl
  ext s
  simp only [Finset.mem_filter, Finset.mem_range]
  omega

omit [IsProbabilityMeasure μ] in
theorem lp_sums (hN : Noise N B v b μ) (ρ : ℝ) {r c : ℕ} (hr : r < 1024) (hc : c < 1024) :
    MemLp (fun ω => ∑ s ∈ Finset.range (r + 1), weight ρ r s * (N s c ω - B s ω)) 2 μ :=
  memLp_finsetSum _ fun s hs => (lp_counts hN (by have := Finset.mem_range.1 hs; omega) hc).const_mul _

theorem lp_out (ht : NonLin.Good tab) (hx : Random tab off fr x N B v b μ)
    (hr : ∀ ω, recipe track junk tab off offErr k ek rowread m F [x ω] = .ok [out ω]) {r c : ℕ} (hrr : r < 1024) (hcc : c < 1024)
    (hF : F.data [r, c] ≠ 0) : MemLp (fun ω => (out ω).data [r, c]) 2 μ := by
  obtain ⟨d, hd⟩ := out_eq ht hx hr
  rw [funext fun ω => hd ω r c hrr hcc hF]
  exact ((lp_sums hx.toNoise _ hrr hcc).const_mul _).sub (memLp_const _)

/-! ## C177: the covariance -/

/-- **C177** The covariance of any two pixels of an L2b frame, exactly. -/
theorem C177_covariance (ht : NonLin.Good tab) (hx : Random tab off fr x N B v b μ)
    (hr : ∀ ω, recipe track junk tab off offErr k ek rowread m F [x ω] = .ok [out ω]) {r c r' c' : ℕ}
    (hrr : r < 1024) (hcc : c < 1024) (hrr' : r' < 1024) (hcc' : c' < 1024) (hF : F.data [r, c] ≠ 0) (hF' : F.data [r', c'] ≠ 0) :
    cov[fun ω => (out ω).data [r, c], fun ω => (out ω).data [r', c']; μ] =
      (k / emGain fr) ^ 2 / (F.data [r, c] * F.data [r', c']) * covPix (rowread / fr.exptime) v b r c r' c' := by
  obtain ⟨d, hd⟩ := out_eq ht hx hr
  have i1 := ((lp_sums hx.toNoise (rowread / fr.exptime) hrr hcc).const_mul (k / emGain fr / F.data [r, c])).integrable (by norm_num)
  have i2 := ((lp_sums hx.toNoise (rowread / fr.exptime) hrr' hcc').const_mul (k / emGain fr / F.data [r', c'])).integrable (by norm_num)
  rw [funext fun ω => hd ω r c hrr hcc hF, funext fun ω => hd ω r' c' hrr' hcc' hF', covariance_sub_const_left i1,
    covariance_sub_const_right i2, covariance_const_mul_left, covariance_const_mul_right, cov_sums hx.toNoise _ hrr hcc hrr' hcc']
  field_simp

/-- **C177** The variance of a pixel: noise of the raw pixels of its column up to its row, and of the biases of these rows. -/
theorem C177_variance (ht : NonLin.Good tab) (hx : Random tab off fr x N B v b μ)
    (hr : ∀ ω, recipe track junk tab off offErr k ek rowread m F [x ω] = .ok [out ω]) {r c : ℕ}
    (hrr : r < 1024) (hcc : c < 1024) (hF : F.data [r, c] ≠ 0) :
    Var[fun ω => (out ω).data [r, c]; μ] = (k / emGain fr / F.data [r, c]) ^ 2 *
      ∑ s ∈ Finset.range (r + 1), weight (rowread / fr.exptime) r s ^ 2 * (b s + v s c) := by
  rw [← covariance_self (lp_out ht hx hr hrr hcc hF).aestronglyMeasurable.aemeasurable,
    C177_covariance ht hx hr hrr hcc hrr hcc hF hF]
  unfold covPix
  rw [min_self]
  simp only [if_true]
  rw [← pow_two, ← div_pow]
  congr 1
  exact Finset.sum_congr rfl fun s _ => by ring

/-! ## When it is zero -/

theorem weight_zero (r s : ℕ) : weight 0 r s = if s = r then 1 else 0 := by simp [weight]

/-- Without light during the read-out: only pixels of one row are correlated, by the noise of its bias. -/
theorem covPix_zero (v : ℕ → ℕ → ℝ) (b : ℕ → ℝ) (r c r' c' : ℕ) :
    covPix 0 v b r c r' c' = if r = r' then b r + if c = c' then v r c else 0 else 0 := by
  unfold covPix
  simp only [weight_zero]
  by_cases h : r = r'
  · subst h
    rw [if_pos rfl, min_self, Finset.sum_eq_single r]
    · simp
    · intro s _ hs
      simp [hs]
    · intro hn
      exact absurd (Finset.mem_range.2 (by omega)) hn
  · rw [if_neg h]
    refine Finset.sum_eq_zero fun s _ => ?_
    by_cases h1 : s = r
    · have : s ≠ r' := by omega
      simp [this]
    · simp [h1]

/-- **C177** The part that holds: pixels of different rows are uncorrelated if desmearing does nothing. -/
theorem C177_rows_partial (ht : NonLin.Good tab) (hx : Random tab off fr x N B v b μ)
    (hr : ∀ ω, recipe track junk tab off offErr k ek 0 m F [x ω] = .ok [out ω]) {r c r' c' : ℕ} (hne : r ≠ r')
    (hrr : r < 1024) (hcc : c < 1024) (hrr' : r' < 1024) (hcc' : c' < 1024) (hF : F.data [r, c] ≠ 0) (hF' : F.data [r', c'] ≠ 0) :
    cov[fun ω => (out ω).data [r, c], fun ω => (out ω).data [r', c']; μ] = 0 := by
  rw [C177_covariance ht hx hr hrr hcc hrr' hcc' hF hF', zero_div, covPix_zero, if_neg hne, mul_zero]

theorem weight_self (ρ : ℝ) (h : 1 + ρ ≠ 0) (r : ℕ) : weight ρ r r = 1 / (1 + ρ) := by
  unfold weight
  rw [if_pos rfl, sub_self, zero_sub, zpow_neg_one]
  field_simp
  ring

omit [IsProbabilityMeasure μ] in
theorem noise_nonneg (hN : Noise N B v b μ) {s : ℕ} (hs : s < 1024) : 0 ≤ b s := by
  rw [← hN.varB s hs]
  exact variance_nonneg _ _

/-- **C177, violated.** Two pixels of one row: the covariance is positive as soon as the bias of the row is noisy. -/
theorem C177_violated_row (ht : NonLin.Good tab) (hx : Random tab off fr x N B v b μ)
    (hr : ∀ ω, recipe track junk tab off offErr k ek rowread m F [x ω] = .ok [out ω]) {r c c' : ℕ} (hne : c ≠ c')
    (hrr : r < 1024) (hcc : c < 1024) (hcc' : c' < 1024) (hF : 0 < F.data [r, c]) (hF' : 0 < F.data [r, c'])
    (hk : k ≠ 0) (hg : emGain fr ≠ 0) (hρ : 1 + rowread / fr.exptime ≠ 0) (hb : 0 < b r) :
    0 < cov[fun ω => (out ω).data [r, c], fun ω => (out ω).data [r, c']; μ] := by
  rw [C177_covariance ht hx hr hrr hcc hrr hcc' hF.ne' hF'.ne']
  have hp : 0 < covPix (rowread / fr.exptime) v b r c r c' := by
    unfold covPix
    rw [min_self, Finset.sum_range_succ, weight_self _ hρ]
    have h1 : 0 ≤ ∑ s ∈ Finset.range r, weight (rowread / fr.exptime) r s * weight (rowread / fr.exptime) r s *
        (b s + if c = c' then v s c else 0) := by
      refine Finset.sum_nonneg fun s hs => mul_nonneg (mul_self_nonneg _) ?_
      rw [if_neg hne, add_zero]
      exact noise_nonneg hx.toNoise (by have := Finset.mem_range.1 hs; omega)
    have h2 : 0 < 1 / (1 + rowread / fr.exptime) * (1 / (1 + rowread / fr.exptime)) * (b r + if c = c' then v r c else 0) := by
      rw [if_neg hne, add_zero]
      exact mul_pos (mul_self_pos.2 (one_div_ne_zero hρ)) hb
    linarith
  have hq : 0 < (k / emGain fr) ^ 2 := pow_pos_of_ne (div_ne_zero hk hg)
  positivity
where
  pow_pos_of_ne {a : ℝ} (h : a ≠ 0) : 0 < a ^ 2 := by positivity

/-- **C177, violated.** Two pixels of one column: desmearing takes a part of the first row from every other, so with light during the
read-out they are anticorrelated. -/
theorem C177_violated_column (ht : NonLin.Good tab) (hx : Random tab off fr x N B v b μ)
    (hr : ∀ ω, recipe track junk tab off offErr k ek rowread m F [x ω] = .ok [out ω]) {r c : ℕ} (h0 : 0 < r)
    (hrr : r < 1024) (hcc : c < 1024) (hF : F.data [0, c] ≠ 0) (hF' : F.data [r, c] ≠ 0) (hρ : 0 < rowread / fr.exptime) :
    cov[fun ω => (out ω).data [0, c], fun ω => (out ω).data [r, c]; μ] = - ((k / emGain fr) ^ 2 / (F.data [0, c] * F.data [r, c]) *
      (rowread / fr.exptime / (1 + rowread / fr.exptime) ^ (r + 2) * (b 0 + v 0 c))) := by
  rw [C177_covariance ht hx hr (by omega) hcc hrr hcc hF hF']
  unfold covPix
  rw [Nat.min_eq_left (Nat.zero_le r), Finset.sum_range_one, weight_self _ (by positivity), if_pos rfl]
  have : weight (rowread / fr.exptime) r 0 = - (rowread / fr.exptime / (1 + rowread / fr.exptime) ^ (r + 1)) := by
    unfold weight
    rw [if_neg (by omega), zero_sub]
    have e : ((0 : ℕ) : ℤ) - r - 1 = -((r + 1 : ℕ) : ℤ) := by push_cast; ring
    rw [e, zpow_neg, zpow_natCast]
    ring
  rw [this, pow_succ _ (r + 1)]
  field_simp

/-- **C177** The error desmearing leaves in place (it does not touch the error map, C147): against the standard deviation of the pixel, exactly.
It is too small behind a noisy part of the column and too large otherwise. -/
theorem C177_error_iff (ht : NonLin.Good tab) (hx : Random tab off fr x N B v b μ)
    (hr : ∀ ω, recipe track junk tab off offErr k ek rowread m F [x ω] = .ok [out ω]) {r c : ℕ}
    (hrr : r < 1024) (hcc : c < 1024) (hF : F.data [r, c] ≠ 0) (hk : k ≠ 0) (hg : emGain fr ≠ 0) (hρ : 1 + rowread / fr.exptime ≠ 0) :
    (k / emGain fr / F.data [r, c]) ^ 2 * (b r + v r c) < Var[fun ω => (out ω).data [r, c]; μ] ↔
      (1 - (1 / (1 + rowread / fr.exptime)) ^ 2) * (b r + v r c) <
        ∑ s ∈ Finset.range r, (rowread / fr.exptime * (1 + rowread / fr.exptime) ^ ((s : ℤ) - r - 1)) ^ 2 * (b s + v s c) := by
  have hq : 0 < (k / emGain fr / F.data [r, c]) ^ 2 := by
    have := div_ne_zero (div_ne_zero hk hg) hF
    positivity
  rw [C177_variance ht hx hr hrr hcc hF, mul_lt_mul_iff_right₀ hq, Finset.sum_range_succ, weight_self _ hρ]
  have e : ∑ s ∈ Finset.range r, weight (rowread / fr.exptime) r s ^ 2 * (b s + v s c) =
      ∑ s ∈ Finset.range r, (rowread / fr.exptime * (1 + rowread / fr.exptime) ^ ((s : ℤ) - r - 1)) ^ 2 * (b s + v s c) := by
    refine Finset.sum_congr rfl fun s hs => ?_
    unfold weight
    rw [if_neg (by have := Finset.mem_range.1 hs; omega), zero_sub, neg_sq]
  rw [e]
  constructor <;> intro h <;> nlinarith

/-! ## C177: apertures -/

/-- **C177** The variance of the flux in an aperture of whole pixels, with errors that are the standard deviations of the single pixels:
the square of the reported error and the covariances of all pairs. -/
theorem C177_aperture (ht : NonLin.Good tab) (hx : Random tab off fr x N B v b μ)
    (hr : ∀ ω, recipe track junk tab off offErr k ek rowread m F [x ω] = .ok [out ω]) {n : ℕ} {a : ProbAper.Aperture n} {p : Fin n → ℕ × ℕ}
    (hp : ∀ i, (p i).1 < 1024 ∧ (p i).2 < 1024) (hF : ∀ i, F.data [(p i).1, (p i).2] ≠ 0) (hw : ∀ i, a.w i = 1)
    (hbad : ∀ i, a.bad i = false) (he : ∀ i, a.e i ^ 2 = Var[fun ω => (out ω).data [(p i).1, (p i).2]; μ]) (y : Fin n → ℝ) :
    Var[fun ω => ProbAper.flux 1 none a fun i => (out ω).data [(p i).1, (p i).2]; μ] = ProbAper.fluxErr 1 none a y ^ 2 +
      ∑ i, ∑ j ∈ Finset.univ.filter (· ≠ i), (k / emGain fr) ^ 2 / (F.data [(p i).1, (p i).2] * F.data [(p j).1, (p j).2]) *
        covPix (rowread / fr.exptime) v b (p i).1 (p i).2 (p j).1 (p j).2 := by
  have hl : ∀ i, MemLp (fun ω => (out ω).data [(p i).1, (p i).2]) 2 μ := fun i => lp_out ht hx hr (hp i).1 (hp i).2 (hF i)
  have hgood : ProbAper.good a = Finset.univ := by ext i; simp [ProbAper.good, hbad]
  have hflux : ∀ z : Fin n → ℝ, ProbAper.flux 1 none a z = ∑ i, z i := by
    intro z
    rw [ProbAper.flux_none (by norm_num), div_one]
    exact Finset.sum_congr rfl fun i _ => by simp [ProbAper.eff, hbad, hw]
  rw [funext fun ω => hflux _, ProbAper.fluxErr_sq (by norm_num) none (fun i => by rw [hw]; norm_num), hgood]
  rw [← covariance_self (memLp_finsetSum _ fun i _ => hl i).aestronglyMeasurable.aemeasurable,
    covariance_fun_sum_fun_sum hl hl, one_pow, div_one, ← Finset.sum_add_distrib]
  refine Finset.sum_congr rfl fun i _ => ?_
  rw [hw, one_mul, he, ← covariance_self (hl i).aestronglyMeasurable.aemeasurable,
    ← Finset.sum_filter_add_sum_filter_not Finset.univ (· ≠ i), add_comm]
  congr 1
  · have : (Finset.univ.filter fun j => ¬ j ≠ i) = {i} := by ext j; simp
    rw [this, Finset.sum_singleton]
  · exact Finset.sum_congr rfl fun j _ => C177_covariance ht hx hr (hp i).1 (hp i).2 (hp j).1 (hp j).2 (hF i) (hF j)

/-- **C177, violated.** `n` pixels of one row, without desmearing and with a flat of one: the noise of the bias adds up `n` times, not `√n`
times. -/
theorem C177_violated_aperture (ht : NonLin.Good tab) (hx : Random tab off fr x N B v b μ)
    (hr : ∀ ω, recipe track junk tab off offErr k ek 0 m F [x ω] = .ok [out ω]) {n : ℕ} {a : ProbAper.Aperture n} {r : ℕ} {p : Fin n → ℕ}
    (hrr : r < 1024) (hp : ∀ i, p i < 1024) (hinj : Function.Injective p) (hF : ∀ i, F.data [r, p i] = 1) (hw : ∀ i, a.w i = 1)
    (hbad : ∀ i, a.bad i = false) (he : ∀ i, a.e i ^ 2 = Var[fun ω => (out ω).data [r, p i]; μ]) (y : Fin n → ℝ) :
    Var[fun ω => ProbAper.flux 1 none a fun i => (out ω).data [r, p i]; μ] =
        ProbAper.fluxErr 1 none a y ^ 2 + n * (n - 1) * ((k / emGain fr) ^ 2 * b r) ∧
      ProbAper.fluxErr 1 none a y ^ 2 = (k / emGain fr) ^ 2 * (∑ i, v r (p i) + n * b r) := by
  constructor
  · rw [C177_aperture ht hx hr (p := fun i => (r, p i)) (fun i => ⟨hrr, hp i⟩) (fun i => by rw [hF]; norm_num) hw hbad he y]
    congr 1
    have h1 : ∀ i : Fin n, ∑ j ∈ Finset.univ.filter (· ≠ i), (k / emGain fr) ^ 2 / (F.data [r, p i] * F.data [r, p j]) *
        covPix (0 / fr.exptime) v b r (p i) r (p j) = (n - 1) * ((k / emGain fr) ^ 2 * b r) := by
      intro i
      rw [Finset.sum_congr rfl fun j hj => show _ = (k / emGain fr) ^ 2 * b r by
        have hj' := (Finset.mem_filter.1 hj).2
        rw [hF, hF, zero_div, covPix_zero, if_pos rfl, if_neg fun e => hj' (hinj e).symm]
        ring]
      rw [Finset.sum_const, Finset.filter_ne', Finset.card_erase_of_mem (Finset.mem_univ i), Finset.card_univ, Fintype.card_fin,
        nsmul_eq_mul, Nat.cast_sub (by have := i.2; omega), Nat.cast_one]
    rw [Finset.sum_congr rfl fun i _ => h1 i, Finset.sum_const, Finset.card_univ, Fintype.card_fin, nsmul_eq_mul]
    ring
  · rw [ProbAper.fluxErr_sq (by norm_num) none (fun i => by rw [hw]; norm_num), one_pow, div_one]
    have hgood : ProbAper.good a = Finset.univ := by ext i; simp [ProbAper.good, hbad]
    rw [hgood]
    have h1 : ∀ i : Fin n, a.w i * a.e i ^ 2 = (k / emGain fr) ^ 2 * (v r (p i) + b r) := by
      intro i
      have hn : F.data [r, p i] ≠ 0 := by rw [hF]; norm_num
      rw [hw, he, ← covariance_self (lp_out ht hx hr hrr (hp i) hn).aestronglyMeasurable.aemeasurable,
        C177_covariance ht hx hr hrr (hp i) hrr (hp i) hn hn, zero_div, covPix_zero, if_pos rfl, if_pos rfl, hF]
      ring
    rw [Finset.sum_congr rfl fun i _ => h1 i, ← Finset.mul_sum, Finset.sum_add_distrib]
    simp

end

/-! ## Not vacuous -/

/-- Any variances are possible. -/
theorem noise_exists (v : ℕ → ℕ → ℝ) (b : ℕ → ℝ) (hv : ∀ r c, 0 ≤ v r c) (hb : ∀ r, 0 ≤ b r) :
    ∃ (n : ℕ) (N : ℕ → ℕ → (Fin n → Bool) → ℝ) (B : ℕ → (Fin n → Bool) → ℝ), Noise N B v b (signs n) := by
  let n := 1024 * 1024 + 1024
  let a : ProbAper.Aperture n := ⟨fun _ => 1, fun i => Real.sqrt (if i.1 < 1024 * 1024 then v (i.1 / 1024) (i.1 % 1024)
    else b (i.1 - 1024 * 1024)), fun _ => false⟩
  obtain ⟨hf, -⟩ := ProbAper.frame_exists (fun _ : Fin n => 0) a
  have hN : ∀ {r c : ℕ}, r < 1024 → c < 1024 → r * 1024 + c < n := fun {r c} h1 h2 => by show _ < 1024 * 1024 + 1024; omega
  have hB : ∀ {r : ℕ}, r < 1024 → 1024 * 1024 + r < n := fun {r} h1 => by show _ < 1024 * 1024 + 1024; omega
  let S := ProbAper.sample (fun _ : Fin n => 0) a
  let N : ℕ → ℕ → (Fin n → Bool) → ℝ := fun r c => if h : r * 1024 + c < n then S ⟨r * 1024 + c, h⟩ else 0
  let B : ℕ → (Fin n → Bool) → ℝ := fun r => if h : 1024 * 1024 + r < n then S ⟨1024 * 1024 + r, h⟩ else 0
  have eN : ∀ {r c : ℕ} (h1 : r < 1024) (h2 : c < 1024), N r c = S ⟨r * 1024 + c, hN h1 h2⟩ := fun h1 h2 => dif_pos (hN h1 h2)
  have eB : ∀ {r : ℕ} (h1 : r < 1024), B r = S ⟨1024 * 1024 + r, hB h1⟩ := fun h1 => dif_pos (hB h1)
  refine ⟨n, N, B, ⟨?_, ?_, ?_, ?_, ?_, ?_, ?_⟩⟩
  · intro r c h1 h2; rw [eN h1 h2]; exact hf.lp _
  · intro r h1; rw [eB h1]; exact hf.lp _
  · intro r c r' c' h1 h2 h3 h4 hne
    rw [eN h1 h2, eN h3 h4]
    refine hf.uncorrelated _ _ fun e => hne ?_
    have := Fin.mk.inj e
    rw [Prod.mk.injEq]
    omega
  · intro r r' h1 h2 hne
    rw [eB h1, eB h2]
    refine hf.uncorrelated _ _ fun e => hne ?_
    have := Fin.mk.inj e
    omega
  · intro r c r' h1 h2 h3
    rw [eN h1 h2, eB h3]
    refine hf.uncorrelated _ _ fun e => ?_
    have := Fin.mk.inj e
    omega
  · intro r c h1 h2
    rw [eN h1 h2]
    refine (hf.var_eq _).trans ?_
    show Real.sqrt (if r * 1024 + c < 1024 * 1024 then v ((r * 1024 + c) / 1024) ((r * 1024 + c) % 1024) else _) ^ 2 = _
    rw [if_pos (by omega), show (r * 1024 + c) / 1024 = r by omega, show (r * 1024 + c) % 1024 = c by omega, Real.sq_sqrt (hv r c)]
  · intro r h1
    rw [eB h1]
    refine (hf.var_eq _).trans ?_
    show Real.sqrt (if 1024 * 1024 + r < 1024 * 1024 then _ else b (1024 * 1024 + r - 1024 * 1024)) ^ 2 = _
    rw [if_neg (by omega), Nat.add_sub_cancel_left, Real.sq_sqrt (hb r)]

/-- Every column of charges is the column of some scene (sums of the scene, row after row). -/
def sums (ρ : ℝ) (t : ℕ → ℝ) : ℕ → ℝ
  | 0 => 0
  | r + 1 => sums ρ t r + (t r - ρ * sums ρ t r) / (1 + ρ)

theorem sums_spec {ρ : ℝ} (h : 1 + ρ ≠ 0) (t : ℕ → ℝ) (r : ℕ) :
    (sums ρ t (r + 1) - sums ρ t r) + ρ * ((List.range (r + 1)).map fun i => sums ρ t (i + 1) - sums ρ t i).sum = t r := by
  have hs : ∀ n, ((List.range n).map fun i => sums ρ t (i + 1) - sums ρ t i).sum = sums ρ t n := by
    intro n
    induction n with
    | zero => rfl
    | succ n ih => rw [List.range_succ, List.map_append, List.sum_append, ih]; simp
  rw [hs]
  show sums ρ t r + (t r - ρ * sums ρ t r) / (1 + ρ) - sums ρ t r + ρ * (sums ρ t r + (t r - ρ * sums ρ t r) / (1 + ρ)) = t r
  field_simp
  ring

/-- All hypotheses together, for any variances: random frames of a linear detector with light during the read-out, and a recipe that runs. -/
example (v : ℕ → ℕ → ℝ) (b : ℕ → ℝ) (hv : ∀ r c, 0 ≤ v r c) (hb : ∀ r, 0 ≤ b r) (off : ℝ) :
    ∃ (n : ℕ) (N : ℕ → ℕ → (Fin n → Bool) → ℝ) (B : ℕ → (Fin n → Bool) → ℝ) (fr : Fr) (x : (Fin n → Bool) → Raw)
      (out : (Fin n → Bool) → Fr) (m : Maps) (F : Flat), NonLin.Good linear ∧ Random linear off fr x N B v b (signs n) ∧
      (∀ ω, recipe true (fun _ => 0) linear off 0 1 0 1 m F [x ω] = .ok [out ω]) ∧ (∀ p, F.data p = 1) ∧ emGain fr = 1 ∧
      fr.exptime = 10 := by
  obtain ⟨n, N, B, h⟩ := noise_exists v b hv hb
  let d : Detector := ⟨fun _ _ => 1, 1, 10, fun _ _ => 0, fun _ _ => 0, fun _ _ => 0, 1, 1⟩
  let m : Maps := ⟨[1024, 1024], fun _ => 0, fun _ => 0, fun _ => 0, fun _ => 0, fun _ => 0, fun _ => 0, fun _ => 0, fun _ => 0, fun _ => 0⟩
  let F : Flat := ⟨[1024, 1024], fun _ => 1, fun _ => 0⟩
  let fr : Fr := ⟨fun _ => 0, ⟨[1024, 1024], [fun _ => 0], fun _ => none, []⟩, fun _ => 0, 10, 1, 1, none, 1, "DN"⟩
  let l : (Fin n → Bool) → L1 := fun ω => ⟨some "SCI", ⟨1200, 2200, fun r c =>
    if c < 1088 then some (B (r - 13) ω + off) else some (N (r - 13) (c - 1088) ω)⟩, [], ⟨1200, 2200, fun _ _ => 0⟩⟩
  let s : (Fin n → Bool) → ℕ → ℕ → ℝ := fun ω r c => sums (1 / 10) (fun i => N i c ω - B i ω) (r + 1) - sums (1 / 10) (fun i => N i c ω - B i ω) r
  have hs : ∀ ω r c, d.counts (s ω) r c = N r c ω - B r ω := by
    intro ω r c
    have := sums_spec (ρ := 1 / 10) (by norm_num) (fun i => N i c ω - B i ω) r
    simp only [Detector.counts, Detector.charge, d, s, one_mul, zero_mul, add_zero, div_one]
    exact this
  have hpre : ∀ ω r c, 800 ≤ c → c < 1000 → (l ω).data.px r c = some (B (r - 13) ω + off) :=
    fun ω r c _ h2 => if_pos (by omega)
  have himg : ∀ ω r c, (l ω).data.px (13 + r) (1088 + c) = some (N r c ω) := by
    intro ω r c
    show (if 1088 + c < 1088 then _ else some (N (13 + r - 13) (1088 + c - 1088) ω)) = _
    rw [if_neg (by omega), Nat.add_sub_cancel_left, Nat.add_sub_cancel_left]
  have hx : ∀ ω, Exposes d linear off (s ω) (l ω) := fun ω =>
    ⟨rfl, ⟨rfl, rfl⟩, ⟨rfl, rfl⟩, by simp [l], fun r => B (r - 13) ω, hpre ω, fun r c _ _ => ⟨N r c ω - B r ω, by
      rw [himg]; dsimp only; rw [Nat.add_sub_cancel_left, sub_add_cancel], by rw [linear_relgain, mul_one, hs]⟩⟩
  have hcal : Calibrated d 1 1 m F := ⟨rfl, rfl, ⟨rfl, rfl⟩, fun _ _ _ _ => rfl, fun _ _ _ _ => rfl, fun _ _ _ _ => rfl,
    fun _ _ _ _ => rfl, fun _ => le_rfl, fun _ => le_rfl⟩
  have hg : emGain fr = 1 := by simp [fr, emGain]
  have hrun : ∀ ω, ∃ o, recipe true (fun _ => 0) linear off 0 1 0 1 m F [⟨l ω, fr⟩] = .ok [o] := by
    intro ω
    obtain ⟨out, h1, h2⟩ := C144_full (d := d) ⟨by norm_num [d], by norm_num [d], by norm_num [d]⟩ linear_good true (fun _ => 0) 0 0 hcal
      (ss := [s ω]) (xs := [⟨l ω, fr⟩]) (by simp) (fun x hx => by
        rw [List.mem_singleton.1 hx]
        exact ⟨hg, rfl, rfl, by simp [fr]⟩) (fun x hx y hy => by
        rw [List.mem_singleton.1 hx, List.mem_singleton.1 hy]) (.cons (hx ω) .nil)
    cases h2 with
    | cons a b => cases b; exact ⟨_, h1⟩
  choose out hout using hrun
  refine ⟨n, N, B, fr, fun ω => ⟨l ω, fr⟩, out, m, F, linear_good, ⟨h, fun ω => ⟨rfl, ⟨rfl, rfl⟩, ⟨rfl, rfl⟩, by simp [l]⟩,
    fun _ => rfl, fun ω r c _ _ => ?_⟩, hout, fun _ => rfl, hg, rfl⟩
  have hbias := rowBias_const (x := l ω) (r := 13 + r) (hpre ω (13 + r))
  rw [Nat.add_sub_cancel_left] at hbias
  exact counts_linear linear_relgain (himg ω r c) hbias

end Corgi.ProbPixels

import Verif.PhotonCount.PcMean
import Mathlib.Topology.Order.MonotoneConvergence
import Mathlib.Topology.Algebra.Order.LiminfLimsup

/-!
# Convergence of the photometric correction (C150)

The iteration of `lam_newton_fit` (`/repo/corgidrp/photon_counting.py` 395-428, model `newtonLoop` in
`Verif.PhotonCount.Newton`) as a sequence in the number of iterations `niter`, for thresholds up to the gain, which
`get_pc_mean` requires in its safe mode (lines 211-217). The detection probability is then a concave function of the flux.
-/

noncomputable section

namespace Corgi.Pc

open Real Filter Topology

/-! ## Concavity -/

/-- Twice the remainder of the tangent, over the square of the difference; `y = 1 - x`. -/
def qx (x y l m : ℝ) : ℝ :=
  108 * y + 18 * (y * (3 + x) + 1) * m + 36 * m ^ 2 + 36 * (y * (3 + x) + 1) * l + 36 * (3 + x * y) * l * m +
    (36 + 36 * x) * l * m ^ 2 + 18 * (7 + x * y) * l ^ 2 + (72 + 81 * x + 9 * x * y) * l ^ 2 * m +
    (18 + 36 * x + 9 * x ^ 2) * l ^ 2 * m ^ 2 + (36 + 36 * x) * l ^ 3 + (12 + 48 * x + 6 * x ^ 2) * l ^ 3 * m +
    (12 * x + 6 * x ^ 2) * l ^ 3 * m ^ 2 + (6 + 6 * x + 3 * x ^ 2) * l ^ 4 + (6 * x + 3 * x ^ 2) * l ^ 4 * m +
    3 / 2 * x ^ 2 * l ^ 4 * m ^ 2

theorem qx_eq (x l m : ℝ) :
    nx x l * den l * den m + wx x l * (m - l) * den m - nx x m * den l ^ 2 = (m - l) ^ 2 * qx x (1 - x) l m := by
  unfold nx den wx qx
  ring

theorem qx_pos {x l m : ℝ} (h0 : 0 ≤ x) (h1 : x ≤ 1) (hl : 0 ≤ l) (hm : 0 ≤ m) (hne : m ≠ l) : 0 < qx x (1 - x) l m := by
  have hy : 0 ≤ 1 - x := by linarith
  generalize 1 - x = y at hy
  have h : 18 * m + 36 * l ≤ qx x y l m := by
    have : 0 ≤ qx x y l m - (18 * m + 36 * l) := by
      have e : qx x y l m - (18 * m + 36 * l) = 108 * y + 18 * (y * (3 + x)) * m + 36 * m ^ 2 + 36 * (y * (3 + x)) * l +
          36 * (3 + x * y) * l * m +
          (36 + 36 * x) * l * m ^ 2 + 18 * (7 + x * y) * l ^ 2 + (72 + 81 * x + 9 * x * y) * l ^ 2 * m +
          (18 + 36 * x + 9 * x ^ 2) * l ^ 2 * m ^ 2 + (36 + 36 * x) * l ^ 3 + (12 + 48 * x + 6 * x ^ 2) * l ^ 3 * m +
          (12 * x + 6 * x ^ 2) * l ^ 3 * m ^ 2 + (6 + 6 * x + 3 * x ^ 2) * l ^ 4 + (6 * x + 3 * x ^ 2) * l ^ 4 * m +
          3 / 2 * x ^ 2 * l ^ 4 * m ^ 2 := by
        unfold qx
        ring
      rw [e]
      positivity
    linarith
  rcases hl.lt_or_eq with h2 | h2
  · linarith
  · rcases hm.lt_or_eq with h3 | h3
    · linarith
    · exact absurd (h3.symm.trans h2) hne

/-- **C150.** Up to a threshold of one gain the detection probability lies below all its tangents. -/
theorem C150_concave {nobs nfr t g l m : ℝ} (hn : 0 < nfr) (ht : 0 ≤ t) (hg : 0 < g) (htg : t ≤ g) (hl : 0 ≤ l) (hm : 0 ≤ m)
    (hne : m ≠ l) : calcFunc nobs nfr t g m < calcFunc nobs nfr t g l + calcDfunc nfr t g l * (m - l) := by
  have hx0 : 0 ≤ t / g := div_nonneg ht hg.le
  have hx1 : t / g ≤ 1 := (div_le_one hg).2 htg
  have hq := qx_pos hx0 hx1 hl hm hne
  have hdl := den_pos hl
  have hdm := den_pos hm
  have hE := exp_pos (-(t / g))
  unfold calcFunc
  rw [eps_eq hg.ne', eps_eq hg.ne', dfunc_eq nfr t hg.ne' hdl.ne']
  have hsq : 0 < (m - l) ^ 2 := by
    have := sub_ne_zero.2 hne
    positivity
  have key : nfr * (exp (-(t / g)) * nx (t / g) l / den l) - nobs + nfr * exp (-(t / g)) * wx (t / g) l / den l ^ 2 * (m - l) -
      (nfr * (exp (-(t / g)) * nx (t / g) m / den m) - nobs) =
      nfr * exp (-(t / g)) * ((m - l) ^ 2 * qx (t / g) (1 - t / g) l m) / (den l ^ 2 * den m) := by
    rw [← qx_eq]
    field_simp
    ring
  have hpos : 0 < nfr * exp (-(t / g)) * ((m - l) ^ 2 * qx (t / g) (1 - t / g) l m) / (den l ^ 2 * den m) := by positivity
  linarith

/-- The derivative falls. -/
theorem dfunc_anti {nfr t g l m : ℝ} (hn : 0 < nfr) (ht : 0 ≤ t) (hg : 0 < g) (htg : t ≤ g) (hl : 0 ≤ l) (h : l ≤ m) :
    calcDfunc nfr t g m ≤ calcDfunc nfr t g l := by
  rcases h.lt_or_eq with h | rfl
  · have h1 := C150_concave (nobs := 0) hn ht hg htg hl (hl.trans h.le) h.ne'
    have h2 := C150_concave (nobs := 0) hn ht hg htg (hl.trans h.le) hl h.ne
    by_contra hc
    have := mul_lt_mul_of_pos_right (not_le.1 hc) (sub_pos.2 h)
    nlinarith
  · exact le_rfl

/-! ## One step -/

/-- Spec: a step of Newton's method. -/
def newton (nobs nfr t g l : ℝ) : ℝ := l - calcFunc nobs nfr t g l / calcDfunc nfr t g l

/-- **C150.** A step from anywhere ends at or below the solution, and at it only from it. -/
theorem C150_step_below {nobs nfr t g l s : ℝ} (hn : 0 < nfr) (ht : 0 ≤ t) (hg : 0 < g) (htg : t ≤ g) (hl : 0 ≤ l) (hs : 0 ≤ s)
    (hroot : calcFunc nobs nfr t g s = 0) : newton nobs nfr t g l ≤ s ∧ (newton nobs nfr t g l = s ↔ l = s) := by
  have hd := C36_dfunc_pos hn ht hg hl
  by_cases hne : l = s
  · subst hne
    unfold newton
    rw [hroot]
    simp
  · have h := C150_concave (nobs := nobs) hn ht hg htg hl hs (fun h => hne h.symm)
    rw [hroot] at h
    have h1 : newton nobs nfr t g l < s := by
      have : -(calcFunc nobs nfr t g l / calcDfunc nfr t g l) < s - l := by
        rw [← neg_div, div_lt_iff₀ hd]
        linarith
      unfold newton
      linarith
    exact ⟨h1.le, fun h => absurd h h1.ne, fun h => absurd h hne⟩

/-- **C150.** A step goes up exactly where the detection probability is too small. -/
theorem C150_step_up_iff {nobs nfr t g l : ℝ} (hn : 0 < nfr) (ht : 0 ≤ t) (hg : 0 < g) (hl : 0 ≤ l) :
    l < newton nobs nfr t g l ↔ calcFunc nobs nfr t g l < 0 := by
  have hd := C36_dfunc_pos hn ht hg hl
  unfold newton
  have h : calcFunc nobs nfr t g l / calcDfunc nfr t g l < 0 ↔ calcFunc nobs nfr t g l < 0 := by
    rw [div_lt_iff₀ hd, zero_mul]
  rw [← h]
  constructor <;> intro h <;> linarith

theorem func_lt {nobs nfr t g l s : ℝ} (hn : 0 < nfr) (ht : 0 ≤ t) (hg : 0 < g) (hl : 0 ≤ l) (h : l < s)
    (hroot : calcFunc nobs nfr t g s = 0) : calcFunc nobs nfr t g l < 0 := by
  rw [← hroot]
  unfold calcFunc
  have := mul_lt_mul_of_pos_left (eps_strictMono ht hg hl h) hn
  linarith

/-! ## The sequence -/

/-- From a point where the detection probability is not too large the sequence rises. -/
theorem iter_mono {nobs nfr t g l : ℝ} (hn : 0 < nfr) (ht : 0 ≤ t) (hg : 0 < g) (hl : 0 ≤ l)
    (hf : ∀ k, 0 ≤ (newton nobs nfr t g)^[k] l → calcFunc nobs nfr t g ((newton nobs nfr t g)^[k] l) ≤ 0) :
    (∀ k, 0 ≤ (newton nobs nfr t g)^[k] l) ∧ Monotone fun k => (newton nobs nfr t g)^[k] l := by
  have step : ∀ k, 0 ≤ (newton nobs nfr t g)^[k] l → (newton nobs nfr t g)^[k] l ≤ (newton nobs nfr t g)^[k + 1] l := by
    intro k hk
    rw [Function.iterate_succ_apply']
    have hd := C36_dfunc_pos hn ht hg hk
    have := div_nonpos_of_nonpos_of_nonneg (hf k hk) hd.le
    show _ ≤ _ - _
    linarith
  have pos : ∀ k, 0 ≤ (newton nobs nfr t g)^[k] l := by
    intro k
    induction k with
    | zero => exact hl
    | succ k ih => exact ih.trans (step k ih)
  exact ⟨pos, monotone_nat_of_le_succ fun k => step k (pos k)⟩

/-- A limit is a solution. -/
theorem iter_limit {nobs nfr t g l L : ℝ} (hn : 0 < nfr) (ht : 0 ≤ t) (hg : 0 < g) (htg : t ≤ g)
    (hpos : ∀ k, 0 ≤ (newton nobs nfr t g)^[k] l)
    (hf : ∀ k, calcFunc nobs nfr t g ((newton nobs nfr t g)^[k] l) ≤ 0)
    (hL : Tendsto (fun k => (newton nobs nfr t g)^[k] l) atTop (𝓝 L)) : 0 ≤ L ∧ calcFunc nobs nfr t g L = 0 := by
  have hL0 : 0 ≤ L := ge_of_tendsto' hL hpos
  refine ⟨hL0, ?_⟩
  have hcont : Tendsto (fun k => calcFunc nobs nfr t g ((newton nobs nfr t g)^[k] l)) atTop (𝓝 (calcFunc nobs nfr t g L)) :=
    ((C36_derivative nobs nfr t hg.ne' (den_pos hL0).ne').continuousAt.tendsto).comp hL
  have hdiff : Tendsto (fun k => calcDfunc nfr t g 0 * ((newton nobs nfr t g)^[k + 1] l - (newton nobs nfr t g)^[k] l))
      atTop (𝓝 0) := by
    have h1 := (hL.comp (tendsto_add_atTop_nat 1)).sub hL
    rw [sub_self] at h1
    have h2 := h1.const_mul (calcDfunc nfr t g 0)
    rw [mul_zero] at h2
    exact h2
  have hle : ∀ k, -calcFunc nobs nfr t g ((newton nobs nfr t g)^[k] l) ≤
      calcDfunc nfr t g 0 * ((newton nobs nfr t g)^[k + 1] l - (newton nobs nfr t g)^[k] l) := by
    intro k
    have hd := C36_dfunc_pos hn ht hg (hpos k)
    have ha := dfunc_anti hn ht hg htg le_rfl (hpos k)
    have e : (newton nobs nfr t g)^[k + 1] l - (newton nobs nfr t g)^[k] l =
        -calcFunc nobs nfr t g ((newton nobs nfr t g)^[k] l) / calcDfunc nfr t g ((newton nobs nfr t g)^[k] l) := by
      rw [Function.iterate_succ_apply']
      show (_ - _) - _ = _
      rw [neg_div]
      ring
    rw [e, mul_div_assoc', le_div_iff₀ hd]
    have := mul_le_mul_of_nonneg_right ha (neg_nonneg.2 (hf k))
    linarith
  have h0 : Tendsto (fun k => -calcFunc nobs nfr t g ((newton nobs nfr t g)^[k] l)) atTop (𝓝 0) :=
    squeeze_zero (fun k => neg_nonneg.2 (hf k)) hle hdiff
  have := tendsto_nhds_unique hcont.neg h0
  linarith

/-- From between 0 and the solution the sequence rises to the solution. -/
theorem iter_root {nobs nfr t g l s : ℝ} (hn : 0 < nfr) (ht : 0 ≤ t) (hg : 0 < g) (htg : t ≤ g) (hl : 0 ≤ l) (hls : l ≤ s)
    (hroot : calcFunc nobs nfr t g s = 0) :
    (∀ k, 0 ≤ (newton nobs nfr t g)^[k] l ∧ (newton nobs nfr t g)^[k] l ≤ s) ∧
      (Monotone fun k => (newton nobs nfr t g)^[k] l) ∧ Tendsto (fun k => (newton nobs nfr t g)^[k] l) atTop (𝓝 s) := by
  have hs : 0 ≤ s := hl.trans hls
  have hfs : ∀ a, 0 ≤ a → a ≤ s → calcFunc nobs nfr t g a ≤ 0 := by
    intro a ha has
    rcases has.lt_or_eq with h | h
    · exact (func_lt hn ht hg ha h hroot).le
    · rw [h, hroot]
  have both : ∀ k, 0 ≤ (newton nobs nfr t g)^[k] l ∧ (newton nobs nfr t g)^[k] l ≤ s := by
    intro k
    induction k with
    | zero => exact ⟨hl, hls⟩
    | succ k ih =>
      rw [Function.iterate_succ_apply']
      refine ⟨?_, (C150_step_below hn ht hg htg ih.1 hs hroot).1⟩
      have hd := C36_dfunc_pos hn ht hg ih.1
      have := div_nonpos_of_nonpos_of_nonneg (hfs _ ih.1 ih.2) hd.le
      show 0 ≤ _ - _
      linarith [ih.1]
  have hm := (iter_mono hn ht hg hl fun k _ => hfs _ (both k).1 (both k).2).2
  refine ⟨both, hm, ?_⟩
  rcases tendsto_atTop_of_monotone hm with h | ⟨L, h⟩
  · exfalso
    obtain ⟨k, hk⟩ := (h.eventually (eventually_gt_atTop s)).exists
    exact absurd (both k).2 (not_le.2 hk)
  · obtain ⟨hL0, hL⟩ := iter_limit hn ht hg htg (fun k => (both k).1) (fun k => hfs _ (both k).1 (both k).2) h
    rwa [C36_unique hn ht hg hL0 hs hL hroot] at h

/-! ## The start -/

/-- **C150.** The start is not negative, and zero exactly without counts. -/
theorem C150_start {nobs nfr : ℕ} (hn : nfr ≠ 0) (t g : ℝ) :
    ∃ l, lamApprox nobs nfr t g = some l ∧ 0 ≤ l ∧ (l = 0 ↔ nobs = 0) := by
  have hn' : (0 : ℝ) < nfr := by exact_mod_cast Nat.pos_of_ne_zero hn
  unfold lamApprox
  rw [if_neg hn]
  dsimp only
  refine ⟨_, rfl, ?_⟩
  have hE := exp_pos (t / g)
  have hf : (0 : ℝ) ≤ (nobs : ℝ) / nfr * exp (t / g) := by positivity
  have hz : (nobs : ℝ) / nfr * exp (t / g) = 0 ↔ nobs = 0 := by
    rw [mul_eq_zero, div_eq_zero_iff, Nat.cast_eq_zero]
    exact ⟨fun h => (h.resolve_right hE.ne').resolve_right hn'.ne', fun h => Or.inl (Or.inl h)⟩
  by_cases h : 0 < 1 - (nobs : ℝ) / nfr * exp (t / g)
  · rw [if_pos h]
    refine ⟨by
      have := log_nonpos h.le (by linarith)
      linarith, ?_⟩
    rw [neg_eq_zero, ← hz]
    constructor
    · intro hl
      have := eq_one_of_pos_of_log_eq_zero h hl
      linarith
    · intro h0
      rw [h0]
      simp
  · rw [if_neg h]
    refine ⟨by positivity, ?_⟩
    rw [div_eq_zero_iff, Nat.cast_eq_zero]
    exact ⟨fun h => h.resolve_right hn'.ne', Or.inl⟩

/-- The loop is Newton's method as long as it stays at fluxes that are not negative. -/
theorem loop_eq {nobs nfr : ℕ} {t g l : ℝ} (ho : nobs ≠ 0) (hn : nfr ≠ 0) (ht : 0 ≤ t) (hg : 0 < g)
    (hl : lamApprox nobs nfr t g = some l) :
    ∀ k, (∀ j < k, 0 ≤ (newton nobs nfr t g)^[j] l) →
      newtonLoop nobs nfr t g k = ⟨some ((newton nobs nfr t g)^[k] l), false⟩ := by
  have hn' : (0 : ℝ) < nfr := by exact_mod_cast Nat.pos_of_ne_zero hn
  obtain ⟨l', hl', _, hz⟩ := C150_start (nobs := nobs) hn t g
  rw [hl] at hl'
  have hll := Option.some.inj hl'
  subst hll
  have hl0 : l ≠ 0 := fun h => ho (hz.1 h)
  intro k
  induction k with
  | zero =>
    intro _
    unfold newtonLoop
    rw [hl]
    simp [hl0]
  | succ k ih =>
    intro hk
    have h1 := ih fun j hj => hk j (by omega)
    have h2 := hk k (by omega)
    have hd := C36_dfunc_pos hn' ht hg h2
    unfold newtonLoop at h1 ⊢
    rw [Function.iterate_succ_apply', h1, Function.iterate_succ_apply']
    unfold newtonStep
    rw [if_neg (by simp [ho])]
    dsimp only
    rw [if_neg (by
      rintro (h | h)
      · exact (den_pos h2).ne' h
      · exact hd.ne' h)]
    rfl

/-! ## Convergence -/

/-- **C150.** If the first iteration gives a flux that is not negative, further iterations raise it towards the one flux that
explains the counts, which they do not exceed. -/
theorem C150_converges {nobs nfr : ℕ} {t g s l : ℝ} (ho : nobs ≠ 0) (hn : nfr ≠ 0) (ht : 0 ≤ t) (hg : 0 < g) (htg : t ≤ g)
    (hs : 0 ≤ s) (hroot : calcFunc nobs nfr t g s = 0)
    (h1 : newtonLoop nobs nfr t g 1 = ⟨some l, false⟩) (hl : 0 ≤ l) :
    ∃ u : ℕ → ℝ, (∀ k, newtonLoop nobs nfr t g (k + 1) = ⟨some (u k), false⟩ ∧ 0 ≤ u k ∧ u k ≤ s) ∧ Monotone u ∧
      Tendsto u atTop (𝓝 s) := by
  have hn' : (0 : ℝ) < nfr := by exact_mod_cast Nat.pos_of_ne_zero hn
  obtain ⟨a, ha, ha0, _⟩ := C150_start (nobs := nobs) hn t g
  have e1 := loop_eq ho hn ht hg ha 1 fun j hj => by
    rw [show j = 0 by omega]
    exact ha0
  rw [h1] at e1
  have hla : l = newton nobs nfr t g a := Option.some.inj (Elem.mk.inj e1).1
  have hls : l ≤ s := hla ▸ (C150_step_below hn' ht hg htg ha0 hs hroot).1
  obtain ⟨both, hm, hlim⟩ := iter_root hn' ht hg htg hl hls hroot
  have shift : ∀ k, (newton nobs nfr t g)^[k + 1] a = (newton nobs nfr t g)^[k] l := by
    intro k
    rw [Function.iterate_succ_apply, hla]
  refine ⟨fun k => (newton nobs nfr t g)^[k] l, fun k => ⟨?_, both k⟩, hm, hlim⟩
  rw [loop_eq ho hn ht hg ha (k + 1) fun j hj => by
    cases j with
    | zero => exact ha0
    | succ j =>
      rw [shift]
      exact (both j).1, shift]

/-- **C150.** No number of iterations reaches the flux that explains the counts, unless the start was it: the corrected mean is
too small. -/
theorem C150_violated_below {nobs nfr : ℕ} {t g s l : ℝ} (ho : nobs ≠ 0) (hn : nfr ≠ 0) (ht : 0 ≤ t) (hg : 0 < g) (htg : t ≤ g)
    (hs : 0 ≤ s) (hroot : calcFunc nobs nfr t g s = 0) (hstart : lamApprox nobs nfr t g ≠ some s)
    (h1 : newtonLoop nobs nfr t g 1 = ⟨some l, false⟩) (hl : 0 ≤ l) (k : ℕ) :
    ∃ v, newtonLoop nobs nfr t g (k + 1) = ⟨some v, false⟩ ∧ v < s := by
  have hn' : (0 : ℝ) < nfr := by exact_mod_cast Nat.pos_of_ne_zero hn
  obtain ⟨u, hu, -, -⟩ := C150_converges ho hn ht hg htg hs hroot h1 hl
  refine ⟨u k, (hu k).1, lt_of_le_of_ne (hu k).2.2 ?_⟩
  obtain ⟨a, ha, ha0, _⟩ := C150_start (nobs := nobs) hn t g
  have hne : a ≠ s := fun h => hstart (h ▸ ha)
  have step : ∀ b v, 0 ≤ b → b ≠ s → newton nobs nfr t g b = v → v ≠ s := by
    intro b v hb hbs hv hvs
    exact hbs (((C150_step_below hn' ht hg htg hb hs hroot).2).1 (hv.trans hvs))
  have pos : ∀ j, 0 ≤ (newton nobs nfr t g)^[j] a := by
    have hp : ∀ j, (∀ i < j, 0 ≤ (newton nobs nfr t g)^[i] a) → 0 ≤ (newton nobs nfr t g)^[j] a := by
      intro j hj
      cases j with
      | zero => exact ha0
      | succ j =>
        have e := loop_eq ho hn ht hg ha (j + 1) hj
        rw [(hu j).1] at e
        rw [← Option.some.inj (Elem.mk.inj e).1]
        exact (hu j).2.1
    intro j
    induction j using Nat.strong_induction_on with
    | _ j ih => exact hp j ih
  have ne : ∀ j, (newton nobs nfr t g)^[j] a ≠ s := by
    intro j
    induction j with
    | zero => exact hne
    | succ j ih => exact step _ _ (pos j) ih (Function.iterate_succ_apply' ..).symm
  have e := loop_eq ho hn ht hg ha (k + 1) fun j _ => pos j
  rw [(hu k).1] at e
  rw [Option.some.inj (Elem.mk.inj e).1]
  exact ne (k + 1)

/-- **C150 is violated**: for a pixel that no flux explains, the result grows with the number of iterations without bound, and
no error is raised. -/
theorem C150_violated_saturated {nobs nfr : ℕ} {t g : ℝ} (ho : nobs ≠ 0) (hn : nfr ≠ 0) (ht : 0 ≤ t) (hg : 0 < g) (htg : t ≤ g)
    (hsat : ¬ ∃ s, 0 ≤ s ∧ calcFunc nobs nfr t g s = 0) :
    ∃ u : ℕ → ℝ, (∀ k, newtonLoop nobs nfr t g k = ⟨some (u k), false⟩ ∧ 0 ≤ u k) ∧ StrictMono u ∧ Tendsto u atTop atTop := by
  have hn' : (0 : ℝ) < nfr := by exact_mod_cast Nat.pos_of_ne_zero hn
  obtain ⟨a, ha, ha0, _⟩ := C150_start (nobs := nobs) hn t g
  have hcap : cap (t / g) ≤ (nobs : ℝ) / nfr := by
    by_contra h
    exact hsat ((C36_exists_iff hn' ht hg).2 ⟨by positivity, not_le.1 h⟩)
  have hneg : ∀ l, 0 ≤ l → calcFunc nobs nfr t g l < 0 := by
    intro l hl
    have h1 := (C36_bounds ht hg hl).2.1
    unfold calcFunc
    have h2 : eps t g l < nobs / nfr := h1.trans_le hcap
    rw [lt_div_iff₀ hn'] at h2
    linarith
  obtain ⟨pos, hm⟩ := iter_mono hn' ht hg ha0 fun k hk => (hneg _ hk).le
  refine ⟨fun k => (newton nobs nfr t g)^[k] a, fun k => ⟨loop_eq ho hn ht hg ha k fun j _ => pos j, pos k⟩, ?_, ?_⟩
  · refine strictMono_nat_of_lt_succ fun k => ?_
    rw [Function.iterate_succ_apply']
    exact (C150_step_up_iff hn' ht hg (pos k)).2 (hneg _ (pos k))
  · rcases tendsto_atTop_of_monotone hm with h | ⟨L, h⟩
    · exact h
    · exact absurd ⟨L, iter_limit hn' ht hg htg pos (fun k => (hneg _ (pos k)).le) h⟩ hsat

/-! ## When the first iteration is good -/

theorem first_poly {x l : ℝ} (h0 : 0 ≤ x) (hl : 0 ≤ l) (hl2 : l ≤ 2) :
    (1 + l) * (nx x l * den l - l * wx x l) ≤ l * den l ^ 2 := by
  have e : l * den l ^ 2 - (1 + l) * (nx x l * den l - l * wx x l) = 36 * l + (54 + 18 * x) * l ^ 2 +
      (30 + 30 * x + 6 * x ^ 2) * l ^ 3 + (3 + 9 * x + 9 * x ^ 2) * l ^ 4 - (6 + 9 * x - 3 * x ^ 2) * l ^ 5 -
      (1 + 7 * x + x ^ 2 / 2) * l ^ 6 - (x + x ^ 2 / 2) * l ^ 7 := by
    unfold nx den wx
    ring
  have p5 : 0 ≤ l ^ 5 := by positivity
  have k4 : l ^ 5 ≤ 2 * l ^ 4 := by
    have : 0 ≤ l ^ 4 * (2 - l) := mul_nonneg (by positivity) (by linarith)
    nlinarith
  have k3 : l ^ 5 ≤ 4 * l ^ 3 := by
    have : 0 ≤ l ^ 3 * (2 - l) := mul_nonneg (by positivity) (by linarith)
    nlinarith
  have k2 : l ^ 5 ≤ 8 * l ^ 2 := by
    have : 0 ≤ l ^ 2 * (2 - l) := mul_nonneg (by positivity) (by linarith)
    nlinarith
  have k1 : l ^ 5 ≤ 16 * l := by
    have : 0 ≤ l * (2 - l) := mul_nonneg (by positivity) (by linarith)
    nlinarith
  have k6 : l ^ 6 ≤ 2 * l ^ 5 := by
    have : 0 ≤ l ^ 5 * (2 - l) := mul_nonneg (by positivity) (by linarith)
    nlinarith
  have k7 : l ^ 7 ≤ 4 * l ^ 5 := by
    have : 0 ≤ l ^ 6 * (2 - l) := mul_nonneg (by positivity) (by linarith)
    nlinarith
  have c2 := mul_le_mul_of_nonneg_left k2 (by positivity : 0 ≤ 54 + 18 * x)
  have c3 := mul_le_mul_of_nonneg_left k3 (by positivity : 0 ≤ 30 + 30 * x + 6 * x ^ 2)
  have c4 := mul_le_mul_of_nonneg_left k4 (by positivity : 0 ≤ 3 + 9 * x + 9 * x ^ 2)
  have c6 := mul_le_mul_of_nonneg_left k6 (by positivity : 0 ≤ 1 + 7 * x + x ^ 2 / 2)
  have c7 := mul_le_mul_of_nonneg_left k7 (by positivity : 0 ≤ x + x ^ 2 / 2)
  have c5 : 0 ≤ (10 - 51 / 4 * x + 6 * x ^ 2) * l ^ 5 := mul_nonneg (by nlinarith [sq_nonneg (x - 17 / 16)]) p5
  linarith

/-- **C150.** If the fraction of detections, corrected for the threshold, is at most `1 - exp (-2)` (86 per cent), the first
iteration gives a flux that is not negative. -/
theorem C150_first {nobs nfr : ℕ} {t g : ℝ} (ho : nobs ≠ 0) (hn : nfr ≠ 0) (ht : 0 ≤ t) (hg : 0 < g) (htg : t ≤ g)
    (hf : (nobs : ℝ) / nfr * exp (t / g) ≤ 1 - exp (-2)) :
    ∃ l, newtonLoop nobs nfr t g 1 = ⟨some l, false⟩ ∧ 0 ≤ l := by
  have hn' : (0 : ℝ) < nfr := by exact_mod_cast Nat.pos_of_ne_zero hn
  have hx0 : 0 ≤ t / g := div_nonneg ht hg.le
  have hx1 : t / g ≤ 1 := (div_le_one hg).2 htg
  have hE := exp_pos (t / g)
  have h2 := exp_pos (-2 : ℝ)
  obtain ⟨a, ha, ha0, _⟩ := C150_start (nobs := nobs) hn t g
  have hinit : 0 < 1 - (nobs : ℝ) / nfr * exp (t / g) := by linarith
  have hae : a = -log (1 - (nobs : ℝ) / nfr * exp (t / g)) := by
    unfold lamApprox at ha
    rw [if_neg hn] at ha
    dsimp only at ha
    rw [if_pos hinit] at ha
    exact (Option.some.inj ha).symm
  have hexp : exp (-a) = 1 - (nobs : ℝ) / nfr * exp (t / g) := by rw [hae, neg_neg, exp_log hinit]
  have ha2 : a ≤ 2 := by
    have : exp (-2) ≤ exp (-a) := by rw [hexp]; linarith
    have := exp_le_exp.1 this
    linarith
  refine ⟨newton nobs nfr t g a, loop_eq ho hn ht hg ha 1 fun j hj => by
    rw [show j = 0 by omega]
    exact ha0, ?_⟩
  have hd := C36_dfunc_pos hn' ht hg ha0
  have hdl := den_pos ha0
  unfold newton
  rw [sub_nonneg, div_le_iff₀ hd]
  unfold calcFunc
  rw [eps_eq hg.ne', dfunc_eq _ _ hg.ne' hdl.ne']
  -- the counts in terms of the start
  have hno : (nobs : ℝ) = nfr * exp (-(t / g)) * (1 - exp (-a)) := by
    rw [hexp, exp_neg]
    field_simp
    ring
  have hfrac : a / (1 + a) ≤ 1 - exp (-a) := by
    rw [exp_neg, div_le_iff₀ (by linarith)]
    have h3 : 1 + a ≤ exp a := by linarith [add_one_le_exp a]
    have h4 : (exp a)⁻¹ * (1 + a) ≤ 1 := by
      rw [inv_mul_le_iff₀ (exp_pos a), mul_one]
      exact h3
    nlinarith
  have hpoly := first_poly hx0 ha0 ha2
  have hK : 0 < (nfr : ℝ) * exp (-(t / g)) := mul_pos hn' (exp_pos _)
  have key : nx (t / g) a / den a - a * wx (t / g) a / den a ^ 2 ≤ 1 - exp (-a) := by
    refine le_trans ?_ hfrac
    have e : nx (t / g) a / den a - a * wx (t / g) a / den a ^ 2 = (nx (t / g) a * den a - a * wx (t / g) a) / den a ^ 2 := by
      field_simp
    rw [e, div_le_div_iff₀ (by positivity) (by linarith)]
    linarith
  have := mul_le_mul_of_nonneg_left key hK.le
  rw [hno]
  have e1 : (nfr : ℝ) * (exp (-(t / g)) * nx (t / g) a / den a) = nfr * exp (-(t / g)) * (nx (t / g) a / den a) := by ring
  have e2 : a * ((nfr : ℝ) * exp (-(t / g)) * wx (t / g) a / den a ^ 2) =
      nfr * exp (-(t / g)) * (a * wx (t / g) a / den a ^ 2) := by ring
  rw [e1, e2]
  linarith

/-- **C150.** Hence an image of such pixels is corrected without an error for every number of iterations, and every corrected
pixel is not negative. -/
theorem C150_image_low {px : List (ℕ × ℕ × Bool)} {t g : ℝ} (ht : 0 ≤ t) (hg : 0 < g) (htg : t ≤ g) {niter : ℕ}
    (hpx : ∃ p ∈ px, p.2.2 = true)
    (hlow : ∀ p ∈ px, p.2.1 ≠ 0 ∧ (p.1 : ℝ) / p.2.1 * exp (t / g) ≤ 1 - exp (-2)) :
    ∃ out, corrPhotonCount px t g niter = .ok out ∧ ∀ v ∈ out, ∃ x, v = some x ∧ 0 ≤ x := by
  classical
  have val : ∀ p ∈ px, ∃ x b, newtonLoop p.1 p.2.1 t g niter = ⟨some x, b⟩ ∧ 0 ≤ x := by
    intro p hp
    have hn := (hlow p hp).1
    by_cases ho : p.1 = 0
    · rw [ho, newtonLoop_zero hn]
      exact ⟨0, true, rfl, le_rfl⟩
    · have hn' : (0 : ℝ) < p.2.1 := by exact_mod_cast Nat.pos_of_ne_zero hn
      cases niter with
      | zero =>
        obtain ⟨a, ha, ha0, _⟩ := C150_start (nobs := p.1) hn t g
        exact ⟨a, false, loop_eq ho hn ht hg ha 0 (by simp), ha0⟩
      | succ k =>
        obtain ⟨l, h1, hl⟩ := C150_first ho hn ht hg htg (hlow p hp).2
        by_cases hs : ∃ s, 0 ≤ s ∧ calcFunc p.1 p.2.1 t g s = 0
        · obtain ⟨s, hs0, hs⟩ := hs
          obtain ⟨u, hu, -, -⟩ := C150_converges ho hn ht hg htg hs0 hs h1 hl
          exact ⟨u k, false, (hu k).1, (hu k).2.1⟩
        · obtain ⟨u, hu, -, -⟩ := C150_violated_saturated ho hn ht hg htg hs
          exact ⟨u (k + 1), false, (hu (k + 1)).1, (hu (k + 1)).2⟩
  unfold corrPhotonCount
  dsimp only
  rw [if_neg, if_neg]
  · refine ⟨_, rfl, fun v hv => ?_⟩
    rw [List.map_map] at hv
    obtain ⟨p, hp, rfl⟩ := List.mem_map.1 hv
    obtain ⟨x, b, e, hx⟩ := val p hp
    simp only [Function.comp, e]
    cases b with
    | true => exact ⟨0, rfl, le_rfl⟩
    | false => exact ⟨x, rfl, hx⟩
  · rw [Bool.not_eq_true, List.any_eq_false]
    intro q hq
    obtain ⟨p, hp, rfl⟩ := List.mem_map.1 hq
    obtain ⟨x, b, e, hx⟩ := val p hp
    dsimp only
    rw [e]
    simp [not_lt.2 hx]
  · rw [Bool.not_eq_true, List.all_eq_false]
    obtain ⟨p, hp, hc⟩ := hpx
    exact ⟨_, List.mem_map.2 ⟨p, hp, rfl⟩, by simp [hc]⟩

/-! ## Non-vacuity -/

/-- One detection in ten frames, threshold zero: the result rises to the flux that explains it. -/
example : ∃ s, 0 ≤ s ∧ calcFunc (1 : ℕ) (10 : ℕ) 0 100 s = 0 ∧ ∃ u : ℕ → ℝ,
    (∀ k, newtonLoop 1 10 0 100 (k + 1) = ⟨some (u k), false⟩) ∧ Tendsto u atTop (𝓝 s) := by
  obtain ⟨s, hs, hroot⟩ := (C36_exists_iff (nobs := (1 : ℕ)) (nfr := (10 : ℕ)) (t := 0) (g := 100) (by norm_num) le_rfl
    (by norm_num)).2 ⟨by norm_num, by
      unfold cap
      norm_num⟩
  have h2 : exp (-2 : ℝ) ≤ 1 / 2 := by
    rw [exp_neg, inv_le_comm₀ (exp_pos _) (by norm_num)]
    have := add_one_le_exp (2 : ℝ)
    norm_num at this ⊢
    linarith
  obtain ⟨l, h1, hl⟩ := C150_first (nobs := 1) (nfr := 10) (t := 0) (g := 100) (by norm_num) (by norm_num) le_rfl
    (by norm_num) (by norm_num) (by
      rw [zero_div, exp_zero]
      norm_num
      linarith)
  obtain ⟨u, hu, -, hlim⟩ := C150_converges (by norm_num) (by norm_num) le_rfl (by norm_num) (by norm_num) hs hroot h1 hl
  exact ⟨s, hs, hroot, u, fun k => (hu k).1, hlim⟩

/-- A pixel that is lit in every frame. -/
example : ∃ u : ℕ → ℝ, (∀ k, newtonLoop 10 10 50 100 k = ⟨some (u k), false⟩) ∧ Tendsto u atTop atTop := by
  obtain ⟨u, hu, -, h⟩ := C150_violated_saturated (nobs := 10) (nfr := 10) (t := 50) (g := 100) (by norm_num) (by norm_num)
    (by norm_num) (by norm_num) (by norm_num) (C36_saturated (by norm_num) (by norm_num) (by norm_num))
  exact ⟨u, fun k => (hu k).1, h⟩

end Corgi.Pc

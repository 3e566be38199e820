import Mathlib.Analysis.Calculus.Deriv.MeanValue
import Verif.PhotonCount.Converge

/-!
# The first iteration of the photometric correction (photon_counting.py 361-428): exact limit (C150)

No new definitions of the model: the loop of `Newton.lean`, started by `calc_lam_approx`. The first step is not negative exactly if the
tangent at the start meets the axis above zero. `tang` is the height of that tangent at zero, `gap` compares it with the counts.
-/

noncomputable section

namespace Corgi.Pc

open Real Filter Topology

/-- Numerator of `tang`. -/
def hx (x l : ℝ) : ℝ := nx x l * den l - l * wx x l

/-- Height at zero of the tangent at `l`, over that of one electron. -/
def tang (x l : ℝ) : ℝ := hx x l / den l ^ 2

/-- `exp l · (1 - tang)`, which is at least 1 exactly if the first step from `l` is not negative. -/
def gap (x l : ℝ) : ℝ := exp l * (1 - tang x l)

/-- Numerator of the derivative of `gap`. -/
def slope (x l : ℝ) : ℝ :=
  216 + (432 + 216 * x) * l + (432 + 324 * x + 108 * x ^ 2) * l ^ 2 + (180 + 72 * x + 144 * x ^ 2) * l ^ 3 +
    (90 - 216 * x + 72 * x ^ 2) * l ^ 4 + (54 - 180 * x) * l ^ 5 + (24 - 75 * x - 6 * x ^ 2) * l ^ 6 -
    (27 * x + 3 * x ^ 2) * l ^ 7 - (9 * x + 3 / 2 * x ^ 2) * l ^ 8 - (x + x ^ 2 / 2) * l ^ 9

/-- `l · slope' - 6 · slope` -/
def drop (x l : ℝ) : ℝ :=
  -(6 * 216) - 5 * (432 + 216 * x) * l - 4 * (432 + 324 * x + 108 * x ^ 2) * l ^ 2 - 3 * (180 + 72 * x + 144 * x ^ 2) * l ^ 3 -
    2 * (90 - 216 * x + 72 * x ^ 2) * l ^ 4 - (54 - 180 * x) * l ^ 5 -
    (27 * x + 3 * x ^ 2) * l ^ 7 - 2 * (9 * x + 3 / 2 * x ^ 2) * l ^ 8 - 3 * (x + x ^ 2 / 2) * l ^ 9

theorem drop_neg {x l : ℝ} (h0 : 0 ≤ x) (h1 : x ≤ 1) (hl : 0 ≤ l) : drop x l < 0 := by
  have p3 : 0 ≤ l ^ 3 := by positivity
  have p4 : 0 ≤ l ^ 4 := by positivity
  have c4 : -(2 * (90 - 216 * x + 72 * x ^ 2)) * l ^ 4 ≤ 108 * l ^ 4 := by
    apply mul_le_mul_of_nonneg_right _ p4
    nlinarith [mul_nonneg (sub_nonneg.2 h1) (by linarith : 0 ≤ 2 - x)]
  have d4 : 108 * l ^ 4 ≤ 54 * l ^ 3 + 54 * l ^ 5 := by
    have : 0 ≤ l ^ 3 * (l - 1) ^ 2 := by positivity
    nlinarith
  have d5 : 180 * x * l ^ 5 ≤ 486 * l ^ 3 + 27 * x * l ^ 7 := by
    have h2 : 0 ≤ l ^ 3 * (18 * (l ^ 2 - 18 / 5) ^ 2) := by positivity
    have h3 : 0 ≤ l ^ 3 * (27 - 27 * x) := mul_nonneg p3 (by linarith)
    have h4 : 0 ≤ x * (l ^ 3 * (27 * (l ^ 2 - 10 / 3) ^ 2)) := by positivity
    have h5 : x * (27 * (10 / 3) ^ 2 * l ^ 3) ≤ 486 * l ^ 3 := by
      have := mul_le_mul_of_nonneg_right h1 (by positivity : 0 ≤ 27 * (10 / 3) ^ 2 * l ^ 3)
      nlinarith
    nlinarith
  have q1 : 0 ≤ (432 + 216 * x) * l := by positivity
  have q2 : 0 ≤ (432 + 324 * x + 108 * x ^ 2) * l ^ 2 := by positivity
  have q3 : 0 ≤ (72 * x + 144 * x ^ 2) * l ^ 3 := by positivity
  have q7 : 0 ≤ x ^ 2 * l ^ 7 := by positivity
  have q8 : 0 ≤ (9 * x + 3 / 2 * x ^ 2) * l ^ 8 := by positivity
  have q9 : 0 ≤ (x + x ^ 2 / 2) * l ^ 9 := by positivity
  unfold drop
  linarith

theorem slope_hasDeriv (x l : ℝ) : ∃ s, HasDerivAt (slope x) s l ∧ l * s - 6 * slope x l = drop x l := by
  have h : HasDerivAt (slope x) ((432 + 216 * x) * (1 : ℝ) + (432 + 324 * x + 108 * x ^ 2) * (2 * l ^ 1) +
      (180 + 72 * x + 144 * x ^ 2) * (3 * l ^ 2) + (90 - 216 * x + 72 * x ^ 2) * (4 * l ^ 3) + (54 - 180 * x) * (5 * l ^ 4) +
      (24 - 75 * x - 6 * x ^ 2) * (6 * l ^ 5) - (27 * x + 3 * x ^ 2) * (7 * l ^ 6) - (9 * x + 3 / 2 * x ^ 2) * (8 * l ^ 7) -
      (x + x ^ 2 / 2) * (9 * l ^ 8)) l := by
    have hp : ∀ n : ℕ, HasDerivAt (fun l : ℝ => l ^ n) (n * l ^ (n - 1)) l := fun n => hasDerivAt_pow n l
    have := ((((((((((hasDerivAt_id l).const_mul (432 + 216 * x)).const_add 216).add
      ((hp 2).const_mul (432 + 324 * x + 108 * x ^ 2))).add ((hp 3).const_mul (180 + 72 * x + 144 * x ^ 2))).add
      ((hp 4).const_mul (90 - 216 * x + 72 * x ^ 2))).add ((hp 5).const_mul (54 - 180 * x))).add
      ((hp 6).const_mul (24 - 75 * x - 6 * x ^ 2))).sub ((hp 7).const_mul (27 * x + 3 * x ^ 2))).sub
      ((hp 8).const_mul (9 * x + 3 / 2 * x ^ 2))).sub ((hp 9).const_mul (x + x ^ 2 / 2))
    exact HasDerivAt.congr_deriv this (by norm_num)
  refine ⟨_, h, ?_⟩
  unfold slope drop
  ring

/-- Once negative, `slope` stays negative. -/
theorem slope_neg {x c l : ℝ} (h0 : 0 ≤ x) (h1 : x ≤ 1) (hc : 0 < c) (hs : slope x c < 0) (hl : c ≤ l) : slope x l < 0 := by
  have anti : AntitoneOn (fun l => slope x l / l ^ 6) (Set.Ici c) := by
    have hd : ∀ m, c ≤ m → HasDerivAt (fun l => slope x l / l ^ 6) (drop x m / m ^ 7) m := by
      intro m hm
      have hm0 : m ≠ 0 := (hc.trans_le hm).ne'
      obtain ⟨s, h2, h3⟩ := slope_hasDeriv x m
      have h4 := h2.div (hasDerivAt_pow 6 m) (pow_ne_zero 6 hm0)
      refine HasDerivAt.congr_deriv h4 ?_
      rw [← h3]
      field_simp
      push_cast
      ring
    apply antitoneOn_of_deriv_nonpos (convex_Ici c)
    · intro m hm
      have h := hd m hm
      exact h.continuousAt.continuousWithinAt
    · intro m hm
      rw [interior_Ici] at hm
      have h := hd m (le_of_lt hm)
      exact h.differentiableAt.differentiableWithinAt
    · intro m hm
      rw [interior_Ici] at hm
      have h := hd m (le_of_lt hm)
      rw [h.deriv]
      have hm0 : 0 < m := hc.trans hm
      exact div_nonpos_of_nonpos_of_nonneg (drop_neg h0 h1 hm0.le).le (by positivity)
  have h2 := anti (Set.mem_Ici.2 le_rfl) (Set.mem_Ici.2 hl) hl
  dsimp only at h2
  have hl0 : 0 < l := hc.trans_le hl
  have h3 : slope x l / l ^ 6 < 0 := lt_of_le_of_lt h2 (div_neg_of_neg_of_pos hs (by positivity))
  by_contra h4
  exact absurd h3 (not_lt.2 (div_nonneg (not_lt.1 h4) (by positivity)))

theorem gap_hasDeriv {x l : ℝ} (hl : 0 ≤ l) : HasDerivAt (gap x) (exp l * (slope x l / den l ^ 3)) l := by
  have hd := den_pos hl
  have e : hx x = fun l => (18 - 18 * x) * l ^ 2 + (24 - 12 * x - 6 * x ^ 2) * l ^ 3 + (21 + 3 * x - 3 * x ^ 2) * l ^ 4 +
      (6 + 6 * x) * l ^ 5 + (1 + x + x ^ 2 / 2) * l ^ 6 := by
    funext l
    unfold hx nx den wx
    ring
  have eh : HasDerivAt (hx x) ((18 - 18 * x) * (2 * l) + (24 - 12 * x - 6 * x ^ 2) * (3 * l ^ 2) +
      (21 + 3 * x - 3 * x ^ 2) * (4 * l ^ 3) + (6 + 6 * x) * (5 * l ^ 4) + (1 + x + x ^ 2 / 2) * (6 * l ^ 5)) l := by
    rw [e]
    have hp : ∀ n : ℕ, HasDerivAt (fun l : ℝ => l ^ n) (n * l ^ (n - 1)) l := fun n => hasDerivAt_pow n l
    have := (((((hp 2).const_mul (18 - 18 * x)).add ((hp 3).const_mul (24 - 12 * x - 6 * x ^ 2))).add
      ((hp 4).const_mul (21 + 3 * x - 3 * x ^ 2))).add ((hp 5).const_mul (6 + 6 * x))).add
      ((hp 6).const_mul (1 + x + x ^ 2 / 2))
    exact HasDerivAt.congr_deriv this (by norm_num)
  have ed : HasDerivAt den (6 + 6 * l + 3 * l ^ 2) l := by
    have hp : ∀ n : ℕ, HasDerivAt (fun l : ℝ => l ^ n) (n * l ^ (n - 1)) l := fun n => hasDerivAt_pow n l
    have h2 : den = fun l => 6 + 6 * l + 3 * l ^ 2 + l ^ 3 := by
      funext l
      unfold den
      ring
    rw [h2]
    have := ((((hasDerivAt_id l).const_mul 6).const_add 6).add ((hp 2).const_mul 3)).add (hp 3)
    exact HasDerivAt.congr_deriv this (by norm_num; ring)
  have et := eh.div (ed.pow 2) (pow_ne_zero 2 hd.ne')
  have eg := (Real.hasDerivAt_exp l).mul (et.const_sub 1)
  refine HasDerivAt.congr_deriv eg ?_
  simp only [Pi.div_apply, Pi.pow_apply]
  rw [e]
  dsimp only
  rw [show exp l * (slope x l / den l ^ 3) = exp l * slope x l / den l ^ 3 by ring]
  have hdd : den l ≠ 0 := hd.ne'
  field_simp
  unfold slope den
  push_cast
  ring

theorem gap_zero (x : ℝ) : gap x 0 = 1 := by
  unfold gap tang hx nx den
  simp

/-- Once below 1, `gap` stays below 1. -/
theorem gap_down {x l m : ℝ} (h0 : 0 ≤ x) (h1 : x ≤ 1) (hl : 0 < l) (h : gap x l < 1) (hm : l ≤ m) : gap x m < 1 := by
  obtain ⟨c, hc, he⟩ := exists_hasDerivAt_eq_slope (gap x) (fun l => exp l * (slope x l / den l ^ 3)) hl
    (fun y hy => (gap_hasDeriv hy.1).continuousAt.continuousWithinAt) fun y hy => gap_hasDeriv hy.1.le
  have hneg : slope x c < 0 := by
    have h2 : exp c * (slope x c / den c ^ 3) < 0 := by
      rw [he, gap_zero, sub_zero]
      exact div_neg_of_neg_of_pos (by linarith) hl
    by_contra h3
    have := den_pos hc.1.le
    have := div_nonneg (not_lt.1 h3) (by positivity : 0 ≤ den c ^ 3)
    exact absurd h2 (not_lt.2 (mul_nonneg (exp_pos c).le this))
  have anti : AntitoneOn (gap x) (Set.Ici c) := by
    have pos : ∀ y, c ≤ y → 0 ≤ y := fun y hy => hc.1.le.trans hy
    apply antitoneOn_of_deriv_nonpos (convex_Ici c)
    · intro y hy
      exact (gap_hasDeriv (pos y hy)).continuousAt.continuousWithinAt
    · intro y hy
      rw [interior_Ici] at hy
      exact (gap_hasDeriv (pos y (le_of_lt hy))).differentiableAt.differentiableWithinAt
    · intro y hy
      rw [interior_Ici] at hy
      rw [(gap_hasDeriv (pos y (le_of_lt hy))).deriv]
      have h2 := slope_neg h0 h1 hc.1 hneg (le_of_lt hy)
      have := den_pos (pos y (le_of_lt hy))
      exact mul_nonpos_of_nonneg_of_nonpos (exp_pos y).le (div_nonpos_of_nonpos_of_nonneg h2.le (by positivity))
  exact lt_of_le_of_lt (anti (Set.mem_Ici.2 hc.2.le) (Set.mem_Ici.2 (hc.2.le.trans hm)) hm) h

/-- For small starts it is at least 1. -/
theorem gap_small {x l : ℝ} (h0 : 0 ≤ x) (hl : 0 ≤ l) (hl2 : l ≤ 2) : 1 ≤ gap x l := by
  have hd := den_pos hl
  have hp := first_poly h0 hl hl2
  have ht : tang x l ≤ l / (1 + l) := by
    unfold tang hx
    rw [div_le_div_iff₀ (by positivity) (by linarith)]
    linarith
  have he : 1 + l ≤ exp l := by linarith [add_one_le_exp l]
  have h3 : 1 / (1 + l) ≤ 1 - tang x l := by
    have : 1 / (1 + l) = 1 - l / (1 + l) := by
      have : 1 + l ≠ 0 := by linarith
      field_simp
      ring
    linarith
  unfold gap
  calc (1 : ℝ) = (1 + l) * (1 / (1 + l)) := by
        have : 1 + l ≠ 0 := by linarith
        field_simp
    _ ≤ exp l * (1 - tang x l) := mul_le_mul he h3 (by positivity) (exp_pos l).le

/-- With a threshold it falls below 1. -/
theorem gap_large {x : ℝ} (h0 : 0 < x) (h1 : x ≤ 1) : ∃ l, 0 < l ∧ gap x l < 1 := by
  refine ⟨1000 / x, by positivity, ?_⟩
  set l := 1000 / x with hlx
  have hl : 0 < l := by positivity
  have hxl : x * l = 1000 := by rw [hlx]; field_simp
  have hl1 : 1000 ≤ l := by
    rw [hlx, le_div_iff₀ h0]
    linarith
  have hd := den_pos hl.le
  have ht : 1 ≤ tang x l := by
    unfold tang
    rw [le_div_iff₀ (by positivity), one_mul]
    have e : hx x l - den l ^ 2 = (x + x ^ 2 / 2) * l ^ 6 + 6 * x * l ^ 5 + (3 * x - 3 * x ^ 2 ) * l ^ 4 + 0 * l ^ 5
        - (24 + 12 * x + 6 * x ^ 2) * l ^ 3 - (54 + 18 * x) * l ^ 2 - 72 * l - 36 := by
      unfold hx nx den wx
      ring
    have a6 : x * l ^ 6 = 1000 * l ^ 5 := by rw [← hxl]; ring
    have b3 : l ^ 3 ≤ l ^ 5 := pow_le_pow_right₀ (by linarith) (by norm_num)
    have b2 : l ^ 2 ≤ l ^ 5 := pow_le_pow_right₀ (by linarith) (by norm_num)
    have b1 : l ≤ l ^ 5 := by simpa using pow_le_pow_right₀ (by linarith : 1 ≤ l) (by norm_num : 1 ≤ 5)
    have b0 : 1 ≤ l ^ 5 := one_le_pow₀ (by linarith)
    have c3 : (24 + 12 * x + 6 * x ^ 2) * l ^ 3 ≤ 42 * l ^ 3 := by
      apply mul_le_mul_of_nonneg_right _ (by positivity)
      nlinarith
    have c2 : (54 + 18 * x) * l ^ 2 ≤ 72 * l ^ 2 := by
      apply mul_le_mul_of_nonneg_right _ (by positivity)
      linarith
    have c4 : 0 ≤ (3 * x - 3 * x ^ 2) * l ^ 4 := by
      apply mul_nonneg _ (by positivity)
      nlinarith
    have c5 : 0 ≤ 6 * x * l ^ 5 := by positivity
    have c6 : 0 ≤ x ^ 2 / 2 * l ^ 6 := by positivity
    nlinarith
  unfold gap
  have : exp l * (1 - tang x l) ≤ 0 := mul_nonpos_of_nonneg_of_nonpos (exp_pos l).le (by linarith)
  linarith

/-- There is one limit: `gap` is at least 1 exactly up to it. -/
theorem gap_limit {x : ℝ} (h0 : 0 < x) (h1 : x ≤ 1) : ∃ L, 2 ≤ L ∧ ∀ l, 0 ≤ l → (1 ≤ gap x l ↔ l ≤ L) := by
  set S : Set ℝ := {l | 0 < l ∧ gap x l < 1} with hS
  have hne : S.Nonempty := by
    obtain ⟨l, h⟩ := gap_large h0 h1
    exact ⟨l, h⟩
  have hlow : ∀ l ∈ S, 2 ≤ l := by
    intro l hl
    by_contra h
    exact absurd hl.2 (not_lt.2 (gap_small h0.le hl.1.le (not_le.1 h).le))
  have hbdd : BddBelow S := ⟨2, hlow⟩
  have hL2 : 2 ≤ sInf S := le_csInf hne hlow
  refine ⟨sInf S, hL2, fun l hl => ⟨fun h => ?_, fun h => ?_⟩⟩
  · by_contra hlt
    obtain ⟨m, hm, hml⟩ := exists_lt_of_csInf_lt hne (not_le.1 hlt)
    exact absurd (gap_down h0.le h1 hm.1 hm.2 hml.le) (not_lt.2 h)
  · by_contra hlt
    have hlt := not_le.1 hlt
    have hl0 : l ≠ 0 := by
      rintro rfl
      rw [gap_zero] at hlt
      exact lt_irrefl _ hlt
    have hlpos : 0 < l := lt_of_le_of_ne hl (Ne.symm hl0)
    have hlS : l ∈ S := ⟨hlpos, hlt⟩
    -- points a little below are also below 1
    have hc := (gap_hasDeriv (x := x) hl).continuousAt
    have hev : ∀ᶠ m in 𝓝 l, gap x m < 1 ∧ 0 < m :=
      (hc.eventually (gt_mem_nhds hlt)).and (lt_mem_nhds hlpos)
    obtain ⟨ε, hε, hball⟩ := Metric.eventually_nhds_iff.1 hev
    have hm := hball (y := l - ε / 2) (by rw [Real.dist_eq]; rw [abs_of_nonpos] <;> linarith)
    have : sInf S ≤ l - ε / 2 := csInf_le hbdd ⟨hm.2, hm.1⟩
    linarith

/-! ## The first iteration -/

/-- The first step from `a`. -/
theorem newton_nonneg_iff {nobs nfr t g a : ℝ} (hn : 0 < nfr) (ht : 0 ≤ t) (hg : 0 < g) (ha : 0 ≤ a) :
    0 ≤ newton nobs nfr t g a ↔ tang (t / g) a ≤ nobs / nfr * exp (t / g) := by
  have hd := C36_dfunc_pos hn ht hg ha
  have hdl := den_pos ha
  have hE := exp_pos (t / g)
  unfold newton
  rw [sub_nonneg, div_le_iff₀ hd]
  unfold calcFunc
  rw [eps_eq hg.ne', dfunc_eq _ _ hg.ne' hdl.ne']
  have hK : 0 < nfr * exp (-(t / g)) := mul_pos hn (exp_pos _)
  have e1 : nfr * (exp (-(t / g)) * nx (t / g) a / den a) - nobs - a * (nfr * exp (-(t / g)) * wx (t / g) a / den a ^ 2) =
      nfr * exp (-(t / g)) * (tang (t / g) a - nobs / nfr * exp (t / g)) := by
    unfold tang hx
    rw [exp_neg]
    field_simp
    ring
  constructor
  · intro h
    have h2 : nfr * exp (-(t / g)) * (tang (t / g) a - nobs / nfr * exp (t / g)) ≤ 0 := by linarith
    have h3 := nonpos_of_mul_nonpos_right h2 hK
    linarith
  · intro h
    have := mul_nonpos_of_nonneg_of_nonpos hK.le (by linarith : tang (t / g) a - nobs / nfr * exp (t / g) ≤ 0)
    linarith

/-- The limit `c` divides the pixels: their first iteration is not negative exactly if the corrected fraction of detections is at
most `c`, or is at least 1 (where another start is used). -/
def Limit (t g c : ℝ) : Prop :=
  ∀ nobs nfr : ℕ, nobs ≠ 0 → nobs ≤ nfr →
    ((∃ l, newtonLoop nobs nfr t g 1 = ⟨some l, false⟩ ∧ 0 ≤ l) ↔
      (nobs : ℝ) / nfr * exp (t / g) ≤ c ∨ 1 ≤ (nobs : ℝ) / nfr * exp (t / g))

/-- **C150.** The exact limit: for every threshold up to the gain there is one, it lies between 86 and 100 per cent. -/
theorem C150_limit {t g : ℝ} (ht : 0 < t) (hg : 0 < g) (htg : t ≤ g) : ∃ c, 1 - exp (-2) ≤ c ∧ c < 1 ∧ Limit t g c := by
  have hx0 : 0 < t / g := div_pos ht hg
  have hx1 : t / g ≤ 1 := (div_le_one hg).2 htg
  obtain ⟨L, hL2, hL⟩ := gap_limit hx0 hx1
  refine ⟨1 - exp (-L), ?_, ?_, ?_⟩
  · have : exp (-L) ≤ exp (-2) := exp_le_exp.2 (by linarith)
    linarith
  · have := exp_pos (-L)
    linarith
  · intro nobs nfr ho hle
    have hn : nfr ≠ 0 := by omega
    have hn' : (0 : ℝ) < nfr := by exact_mod_cast Nat.pos_of_ne_zero hn
    have hE := exp_pos (t / g)
    obtain ⟨a, ha, ha0, _⟩ := C150_start (nobs := nobs) hn t g
    have hone := loop_eq ho hn ht.le hg ha 1 fun j hj => by
      rw [show j = 0 by omega]
      exact ha0
    rw [Function.iterate_one] at hone
    have hfirst : (∃ l, newtonLoop nobs nfr t g 1 = ⟨some l, false⟩ ∧ 0 ≤ l) ↔
        tang (t / g) a ≤ (nobs : ℝ) / nfr * exp (t / g) := by
      rw [← newton_nonneg_iff hn' ht.le hg ha0, hone]
      constructor
      · rintro ⟨l, h1, h2⟩
        simp only [Elem.mk.injEq, Option.some.injEq, and_true] at h1
        rwa [h1]
      · exact fun h => ⟨_, rfl, h⟩
    rw [hfirst]
    unfold lamApprox at ha
    rw [if_neg hn] at ha
    dsimp only at ha
    by_cases hinit : 0 < 1 - (nobs : ℝ) / nfr * exp (t / g)
    · rw [if_pos hinit] at ha
      have hexp : exp (-a) = 1 - (nobs : ℝ) / nfr * exp (t / g) := by
        rw [← Option.some.inj ha, neg_neg, exp_log hinit]
      have h3 : tang (t / g) a ≤ (nobs : ℝ) / nfr * exp (t / g) ↔ 1 ≤ gap (t / g) a := by
        unfold gap
        have e2 : (nobs : ℝ) / nfr * exp (t / g) = 1 - exp (-a) := by linarith
        rw [e2, exp_neg]
        have hEa := exp_pos a
        constructor
        · intro h
          have h5 := mul_le_mul_of_nonneg_left (by linarith : (exp a)⁻¹ ≤ 1 - tang (t / g) a) hEa.le
          rwa [mul_inv_cancel₀ hEa.ne'] at h5
        · intro h
          have h5 := (inv_le_iff_one_le_mul₀' hEa).2 h
          linarith
      rw [h3, hL a ha0]
      constructor
      · intro h
        left
        have : exp (-L) ≤ exp (-a) := exp_le_exp.2 (by linarith)
        linarith
      · rintro (h | h)
        · have : exp (-L) ≤ exp (-a) := by rw [hexp]; linarith
          have := exp_le_exp.1 this
          linarith
        · linarith
    · rw [if_neg hinit] at ha
      have hau : 1 ≤ (nobs : ℝ) / nfr * exp (t / g) := by linarith
      have ha1 : a ≤ 1 := by
        rw [← Option.some.inj ha, div_le_one hn']
        exact_mod_cast hle
      have h3 := first_poly hx0.le ha0 (by linarith)
      have ht' : tang (t / g) a ≤ 1 := by
        have hd := den_pos ha0
        unfold tang hx
        rw [div_le_one (by positivity)]
        have h6 : a * den a ^ 2 ≤ (1 + a) * den a ^ 2 := by
          apply mul_le_mul_of_nonneg_right _ (by positivity)
          linarith
        have h7 := h3.trans h6
        exact le_of_mul_le_mul_left h7 (by linarith)
      exact ⟨fun _ => Or.inr hau, fun _ => ht'.trans hau⟩

/-- **C150.** Without a threshold no first iteration is negative. -/
theorem C150_no_threshold {nobs nfr : ℕ} {g : ℝ} (ho : nobs ≠ 0) (hle : nobs ≤ nfr) (hg : 0 < g) :
    ∃ l, newtonLoop nobs nfr 0 g 1 = ⟨some l, false⟩ ∧ 0 ≤ l := by
  have hn : nfr ≠ 0 := by omega
  have hn' : (0 : ℝ) < nfr := by exact_mod_cast Nat.pos_of_ne_zero hn
  obtain ⟨a, ha, ha0, _⟩ := C150_start (nobs := nobs) hn 0 g
  have hone := loop_eq ho hn le_rfl hg ha 1 fun j hj => by
    rw [show j = 0 by omega]
    exact ha0
  refine ⟨_, hone, ?_⟩
  rw [Function.iterate_one, newton_nonneg_iff hn' le_rfl hg ha0]
  have hd := den_pos ha0
  have hu : (nobs : ℝ) / nfr ≤ 1 := by
    rw [div_le_one hn']
    exact_mod_cast hle
  simp only [zero_div, exp_zero, mul_one]
  -- without threshold the tangent is below the truncated exponential
  have e : tang 0 a = 1 - 6 * (den a + a * (6 + 6 * a + 3 * a ^ 2)) / den a ^ 2 := by
    unfold tang hx
    rw [div_eq_iff (by positivity)]
    field_simp
    unfold nx wx den
    ring
  unfold lamApprox at ha
  rw [if_neg hn] at ha
  simp only [zero_div, exp_zero, mul_one] at ha
  by_cases hinit : 0 < 1 - (nobs : ℝ) / nfr
  · rw [if_pos hinit] at ha
    have hexp : exp (-a) = 1 - (nobs : ℝ) / nfr := by
      rw [← Option.some.inj ha, neg_neg, exp_log hinit]
    have h4 : den a / 6 ≤ exp a := by
      have := Real.sum_le_exp_of_nonneg ha0 4
      simp only [Finset.sum_range_succ, Finset.sum_range_zero, Nat.factorial] at this
      unfold den
      push_cast at this
      linarith
    have h5 : exp (-a) ≤ 6 / den a := by
      rw [exp_neg, inv_le_comm₀ (exp_pos a) (by positivity), inv_div]
      exact h4
    have h6 : 6 / den a ≤ 6 * (den a + a * (6 + 6 * a + 3 * a ^ 2)) / den a ^ 2 := by
      rw [div_le_div_iff₀ hd (by positivity)]
      have : 0 ≤ a * (6 + 6 * a + 3 * a ^ 2) * den a := by positivity
      nlinarith
    rw [e]
    linarith
  · rw [e]
    have : 0 ≤ 6 * (den a + a * (6 + 6 * a + 3 * a ^ 2)) / den a ^ 2 := by positivity
    linarith

/-- **C150.** An image is corrected without an error, whatever the number of iterations, exactly if every pixel that counts has no
detection, or a corrected fraction up to the limit, or one of at least 1. -/
theorem C150_image_iff {t g c : ℝ} (ht : 0 < t) (hg : 0 < g) (htg : t ≤ g) (hc : Limit t g c) {px : List (ℕ × ℕ × Bool)}
    (hpx : ∃ p ∈ px, p.2.2 = true) (hcnt : ∀ p ∈ px, p.1 ≤ p.2.1) :
    (∀ niter, ∃ out, corrPhotonCount px t g niter = .ok out) ↔ ∀ p ∈ px, p.2.2 = true → p.1 ≠ 0 →
      (p.1 : ℝ) / p.2.1 * exp (t / g) ≤ c ∨ 1 ≤ (p.1 : ℝ) / p.2.1 * exp (t / g) := by
  classical
  have hval : ∀ niter, (px.map fun p => (newtonLoop p.1 p.2.1 t g niter, p.2.2)).all (fun e => !e.2) = false := by
    intro niter
    rw [List.all_eq_false]
    obtain ⟨p, hp, h⟩ := hpx
    exact ⟨_, List.mem_map.2 ⟨p, hp, rfl⟩, by simp [h]⟩
  constructor
  · intro h p hp hcons ho
    obtain ⟨out, h1⟩ := h 1
    have hn : p.2.1 ≠ 0 := by
      have := hcnt p hp
      omega
    have hn' : (0 : ℝ) < p.2.1 := by exact_mod_cast Nat.pos_of_ne_zero hn
    rw [← hc p.1 p.2.1 ho (hcnt p hp)]
    obtain ⟨a, ha, ha0, _⟩ := C150_start (nobs := p.1) hn t g
    have hone := loop_eq ho hn ht.le hg ha 1 fun j hj => by
      rw [show j = 0 by omega]
      exact ha0
    refine ⟨_, hone, ?_⟩
    by_contra hneg
    unfold corrPhotonCount at h1
    dsimp only at h1
    rw [if_neg (by rw [hval 1]; simp), if_pos] at h1
    · cases h1
    · rw [List.any_eq_true]
      refine ⟨_, List.mem_map.2 ⟨p, hp, rfl⟩, ?_⟩
      dsimp only
      rw [hone, hcons]
      simpa using hneg
  · intro h niter
    unfold corrPhotonCount
    dsimp only
    rw [if_neg (by rw [hval niter]; simp), if_neg]
    · exact ⟨_, rfl⟩
    · rw [Bool.not_eq_true, List.any_eq_false]
      intro q hq
      obtain ⟨p, hp, rfl⟩ := List.mem_map.1 hq
      dsimp only
      cases hcons : p.2.2 with
      | false => simp
      | true =>
        by_cases hn : p.2.1 = 0
        · have ho : p.1 = 0 := by
            have := hcnt p hp
            omega
          have hnone : ∀ k, (newtonLoop p.1 p.2.1 t g k).data = none := by
            intro k
            rw [ho, hn]
            unfold newtonLoop
            rw [C36_no_frames]
            have hstep : ∀ q : Elem, q.data = none → (newtonStep 0 0 t g q).data = none := by
              intro q hq
              unfold newtonStep
              simp [hq]
            induction k with
            | zero => rfl
            | succ k ih =>
              rw [Function.iterate_succ_apply']
              exact hstep _ ih
          rw [hnone niter]
          simp
        · by_cases ho : p.1 = 0
          · rw [ho, newtonLoop_zero hn]
            simp
          · have hx : ∃ x, newtonLoop p.1 p.2.1 t g niter = ⟨some x, false⟩ ∧ 0 ≤ x := by
              cases niter with
              | zero =>
                obtain ⟨a, ha, ha0, _⟩ := C150_start (nobs := p.1) hn t g
                exact ⟨a, loop_eq ho hn ht.le hg ha 0 (by simp), ha0⟩
              | succ k =>
                obtain ⟨l, h1, hl⟩ := (hc p.1 p.2.1 ho (hcnt p hp)).2 (h p hp hcons ho)
                by_cases hs : ∃ s, 0 ≤ s ∧ calcFunc p.1 p.2.1 t g s = 0
                · obtain ⟨s, hs0, hs⟩ := hs
                  obtain ⟨u, hu, -, -⟩ := C150_converges ho hn ht.le hg htg hs0 hs h1 hl
                  exact ⟨u k, (hu k).1, (hu k).2.1⟩
                · obtain ⟨u, hu, -, -⟩ := C150_violated_saturated ho hn ht.le hg htg hs
                  exact ⟨u (k + 1), (hu (k + 1)).1, (hu (k + 1)).2⟩
            obtain ⟨x, e, hx⟩ := hx
            rw [e]
            simp [not_lt.2 hx]

/-- **C150, violated.** Between the limit and 1 the first iteration is negative although a flux explains the counts: one iteration raises
an error. -/
theorem C150_violated_between {t g c : ℝ} (ht : 0 < t) (hg : 0 < g) (hc : Limit t g c) {nobs nfr : ℕ} (ho : nobs ≠ 0)
    (hle : nobs ≤ nfr) (h1 : c < (nobs : ℝ) / nfr * exp (t / g)) (h2 : (nobs : ℝ) / nfr * exp (t / g) < 1) :
    (∃ s, 0 ≤ s ∧ calcFunc nobs nfr t g s = 0) ∧ corrPhotonCount [(nobs, nfr, true)] t g 1 = .error .negative := by
  classical
  have hn : nfr ≠ 0 := by omega
  have hn' : (0 : ℝ) < nfr := by exact_mod_cast Nat.pos_of_ne_zero hn
  have hE := exp_pos (t / g)
  constructor
  · rw [C36_exists_iff hn' ht.le hg]
    refine ⟨by positivity, ?_⟩
    unfold cap
    rw [exp_neg, ← div_eq_inv_mul, lt_div_iff₀ hE]
    have : 0 < t / g := div_pos ht hg
    nlinarith [sq_nonneg (t / g)]
  · obtain ⟨a, ha, ha0, _⟩ := C150_start (nobs := nobs) hn t g
    have hone := loop_eq ho hn ht.le hg ha 1 fun j hj => by
      rw [show j = 0 by omega]
      exact ha0
    have hneg : ¬ 0 ≤ (newton nobs nfr t g)^[1] a := by
      intro h
      rcases (hc nobs nfr ho hle).1 ⟨_, hone, h⟩ with h | h <;> linarith
    unfold corrPhotonCount
    simp only [List.map_cons, List.map_nil, hone]
    simpa using hneg

/-- **C150, violated.** Whatever the threshold, there are such counts. -/
theorem C150_violated_exists {t g : ℝ} (ht : 0 < t) (hg : 0 < g) (htg : t ≤ g) :
    ∃ nobs nfr : ℕ, nobs ≠ 0 ∧ nobs ≤ nfr ∧ (∃ s, 0 ≤ s ∧ calcFunc nobs nfr t g s = 0) ∧
      corrPhotonCount [(nobs, nfr, true)] t g 1 = .error .negative := by
  obtain ⟨c, hc0, hc1, hc⟩ := C150_limit ht hg htg
  have hE := exp_pos (t / g)
  have hE1 : 1 ≤ exp (t / g) := one_le_exp (div_pos ht hg).le
  have h2 : exp (-2) < 1 := by
    rw [exp_lt_one_iff]
    norm_num
  have hcpos : 0 < c := by linarith
  obtain ⟨q, hq1, hq2⟩ := exists_rat_btwn (div_lt_div_of_pos_right hc1 hE)
  have hq0 : (0 : ℝ) < q := lt_trans (by positivity) hq1
  have hq0' : 0 < q := by exact_mod_cast hq0
  have hnum : 0 < q.num := Rat.num_pos.2 hq0'
  have hcast : ((q.num.toNat : ℕ) : ℝ) / (q.den : ℕ) = q := by
    have h3 : ((q.num.toNat : ℕ) : ℝ) = (q.num : ℝ) := by
      have : ((q.num.toNat : ℕ) : ℤ) = q.num := Int.toNat_of_nonneg hnum.le
      exact_mod_cast congrArg (fun z : ℤ => (z : ℝ)) this
    rw [h3]
    exact (Rat.cast_def q).symm
  have hden : (0 : ℝ) < q.den := by exact_mod_cast q.den_pos
  have hle : q.num.toNat ≤ q.den := by
    have h4 : ((q.num.toNat : ℕ) : ℝ) / (q.den : ℕ) ≤ 1 := by
      rw [hcast]
      exact (hq2.le).trans (by rw [div_le_one hE]; exact hE1)
    rw [div_le_one hden] at h4
    exact_mod_cast h4
  have ho : q.num.toNat ≠ 0 := by omega
  refine ⟨q.num.toNat, q.den, ho, hle, C150_violated_between ht hg hc ho hle ?_ ?_⟩
  · rw [hcast]
    exact (div_lt_iff₀ hE).1 hq1
  · rw [hcast]
    exact (lt_div_iff₀ hE).1 hq2

/-- The limit exists for a threshold of half the gain. -/
example : ∃ c, Limit (1 / 2) 1 c := by
  obtain ⟨c, -, -, h⟩ := C150_limit (t := 1 / 2) (g := 1) (by norm_num) (by norm_num) (by norm_num)
  exact ⟨c, h⟩

end Corgi.Pc

import Verif.PhotonCount.Limit
import Verif.PhotonCount.Truncation

/-!
# How near a few iterations of the photometric correction come (C191)

`lam_newton_fit` (`/repo/corgidrp/photon_counting.py` 395-428, model `newtonLoop`) starts from `calc_lam_approx` (lines 361-392) and makes
`niter` steps of Newton's method, 2 by default (lines 65, 337). For fluxes up to 0.4 electrons per pixel and frame the distance from the
flux that explains the counts is bounded here for every number of steps.
-/

noncomputable section

namespace Corgi.Pc

open Real

/-! ## One step -/

/-- What a step leaves of the distance: its square times a factor. -/
theorem step_error {nobs nfr t g l s : ℝ} (hn : 0 < nfr) (ht : 0 ≤ t) (hg : 0 < g) (hl : 0 ≤ l) (hs : 0 ≤ s)
    (hroot : calcFunc nobs nfr t g s = 0) :
    s - newton nobs nfr t g l = (s - l) ^ 2 * (qx (t / g) (1 - t / g) l s / (den s * wx (t / g) l)) := by
  have hx : 0 ≤ t / g := div_nonneg ht hg.le
  have hdl := den_pos hl
  have hds := den_pos hs
  have hE := exp_pos (-(t / g))
  have hw : 0 < wx (t / g) l := by unfold wx; positivity
  have e1 : nobs = nfr * (exp (-(t / g)) * nx (t / g) s / den s) := by
    unfold calcFunc at hroot
    rw [eps_eq hg.ne'] at hroot
    linarith
  unfold newton calcFunc
  rw [eps_eq hg.ne', dfunc_eq nfr t hg.ne' hdl.ne', e1]
  have e2 := qx_eq (t / g) l s
  have e3 : (s - l) ^ 2 * (qx (t / g) (1 - t / g) l s / (den s * wx (t / g) l)) =
      (nx (t / g) l * den l * den s + wx (t / g) l * (s - l) * den s - nx (t / g) s * den l ^ 2) / (den s * wx (t / g) l) := by
    rw [e2]
    ring
  rw [e3]
  field_simp
  ring

/-- The factor is at most 1 for a step from at most one electron. -/
theorem factor_le {x l m : ℝ} (h0 : 0 ≤ x) (h1 : x ≤ 1) (hl : 0 ≤ l) (hl1 : l ≤ 1) (hm : 0 ≤ m) :
    qx x (1 - x) l m / (den m * wx x l) ≤ 1 := by
  have hd := den_pos hm
  have hw : 0 < wx x l := by unfold wx; positivity
  rw [div_le_one (mul_pos hd hw)]
  have hy : 0 ≤ 1 - x := by linarith
  have hz : 0 ≤ 1 - l := by linarith
  have l2 : l ^ 2 ≤ l := by nlinarith
  have l3 : l ^ 3 ≤ l := by nlinarith [mul_nonneg hl hl]
  have l4 : l ^ 4 ≤ l := by nlinarith [mul_nonneg hl hl, mul_nonneg (mul_nonneg hl hl) hl]
  have key : den m * wx x l - qx x (1 - x) l m =
      (108 + 144 * m + 72 * m ^ 2 + 36 * m ^ 3 + 12 * l + 96 * l * m + 72 * l * m ^ 2 + 36 * l * m ^ 3 + 36 * l ^ 2 * m +
        36 * l ^ 2 * m ^ 2 + 18 * l ^ 2 * m ^ 3 + 108 * x + 36 * x * m + 282 * x * l + 174 * x * l * m + 72 * x * l * m ^ 2 +
        36 * x * l * m ^ 3 + 198 * x * l ^ 2 + 126 * x * l ^ 2 * m + 72 * x * l ^ 2 * m ^ 2 + 36 * x * l ^ 2 * m ^ 3 +
        36 * x * l ^ 3 + 24 * x * l ^ 3 * m + 24 * x * l ^ 3 * m ^ 2 + 12 * x * l ^ 3 * m ^ 3 + 18 * x ^ 2 * m + 36 * x ^ 2 * l +
        36 * x ^ 2 * l * m + 72 * x ^ 2 * l ^ 2 + 63 * x ^ 2 * l ^ 2 * m + 18 * x ^ 2 * l ^ 2 * m ^ 2 + 9 * x ^ 2 * l ^ 2 * m ^ 3 +
        36 * x ^ 2 * l ^ 3 + 30 * x ^ 2 * l ^ 3 * m + 12 * x ^ 2 * l ^ 3 * m ^ 2 + 6 * x ^ 2 * l ^ 3 * m ^ 3 + 6 * x ^ 2 * l ^ 4 +
        6 * x ^ 2 * l ^ 4 * m + 3 * x ^ 2 * l ^ 4 * m ^ 2 + (3/2) * x ^ 2 * l ^ 4 * m ^ 3) +
        (18 * (l - l ^ 2) + (36 + 12 * m) * (l - l ^ 3) + (6 + 6 * x + 6 * x * m) * (l - l ^ 4)) := by
    unfold den wx qx
    ring
  have p1 : 0 ≤ 108 + 144 * m + 72 * m ^ 2 + 36 * m ^ 3 + 12 * l + 96 * l * m + 72 * l * m ^ 2 + 36 * l * m ^ 3 + 36 * l ^ 2 * m +
        36 * l ^ 2 * m ^ 2 + 18 * l ^ 2 * m ^ 3 + 108 * x + 36 * x * m + 282 * x * l + 174 * x * l * m + 72 * x * l * m ^ 2 +
        36 * x * l * m ^ 3 + 198 * x * l ^ 2 + 126 * x * l ^ 2 * m + 72 * x * l ^ 2 * m ^ 2 + 36 * x * l ^ 2 * m ^ 3 +
        36 * x * l ^ 3 + 24 * x * l ^ 3 * m + 24 * x * l ^ 3 * m ^ 2 + 12 * x * l ^ 3 * m ^ 3 + 18 * x ^ 2 * m + 36 * x ^ 2 * l +
        36 * x ^ 2 * l * m + 72 * x ^ 2 * l ^ 2 + 63 * x ^ 2 * l ^ 2 * m + 18 * x ^ 2 * l ^ 2 * m ^ 2 + 9 * x ^ 2 * l ^ 2 * m ^ 3 +
        36 * x ^ 2 * l ^ 3 + 30 * x ^ 2 * l ^ 3 * m + 12 * x ^ 2 * l ^ 3 * m ^ 2 + 6 * x ^ 2 * l ^ 3 * m ^ 3 + 6 * x ^ 2 * l ^ 4 +
        6 * x ^ 2 * l ^ 4 * m + 3 * x ^ 2 * l ^ 4 * m ^ 2 + (3/2) * x ^ 2 * l ^ 4 * m ^ 3 := by
    positivity
  have p2 : 0 ≤ 18 * (l - l ^ 2) + (36 + 12 * m) * (l - l ^ 3) + (6 + 6 * x + 6 * x * m) * (l - l ^ 4) := by
    have a2 : 0 ≤ l - l ^ 2 := by linarith
    have a3 : 0 ≤ l - l ^ 3 := by linarith
    have a4 : 0 ≤ l - l ^ 4 := by linarith
    positivity
  linarith

/-- A step from at most one electron leaves at most the square of the distance, on the lower side. -/
theorem step_le {nobs nfr t g l s : ℝ} (hn : 0 < nfr) (ht : 0 ≤ t) (hg : 0 < g) (htg : t ≤ g) (hl : 0 ≤ l) (hl1 : l ≤ 1) (hs : 0 ≤ s)
    (hroot : calcFunc nobs nfr t g s = 0) : newton nobs nfr t g l ≤ s ∧ s - newton nobs nfr t g l ≤ (s - l) ^ 2 := by
  refine ⟨(C150_step_below hn ht hg htg hl hs hroot).1, ?_⟩
  rw [step_error hn ht hg hl hs hroot]
  have h := factor_le (div_nonneg ht hg.le) ((div_le_one hg).2 htg) hl hl1 hs
  nlinarith [sq_nonneg (s - l)]

/-! ## The first guess -/

/-- The first guess is nearer to the solution than the square of the solution. -/
theorem start_near {nobs nfr : ℕ} {t g a s : ℝ} (hn : nfr ≠ 0) (ht : 0 ≤ t) (hg : 0 < g) (htg : t ≤ g) (hs : 0 ≤ s) (hs1 : s ≤ 2 / 5)
    (hroot : calcFunc nobs nfr t g s = 0) (ha : lamApprox nobs nfr t g = some a) : s - s ^ 2 ≤ a ∧ a ≤ s + s ^ 2 := by
  have hn' : (0 : ℝ) < nfr := by exact_mod_cast Nat.pos_of_ne_zero hn
  have hx0 : 0 ≤ t / g := div_nonneg ht hg.le
  have hx1 : t / g ≤ 1 := (div_le_one hg).2 htg
  have hd := den_pos hs
  have hE := exp_pos (t / g)
  have hu : (nobs : ℝ) / nfr * exp (t / g) = nx (t / g) s / den s := by
    unfold calcFunc at hroot
    rw [eps_eq hg.ne'] at hroot
    have e1 : (nobs : ℝ) = nfr * (exp (-(t / g)) * nx (t / g) s / den s) := by linarith
    rw [e1, exp_neg]
    field_simp
  have hup : nx (t / g) s / den s ≤ (s + s ^ 2) - (s + s ^ 2) ^ 2 / 2 := by
    rw [div_le_iff₀ hd]
    have hx2 : (t / g) ^ 2 ≤ 1 := pow_le_one₀ hx0 hx1
    have hs2 := sq_nonneg s
    have hs3 : 0 ≤ s ^ 3 := by positivity
    have q3 : s ^ 3 ≤ 2 / 5 * s ^ 2 := by nlinarith
    have q4 : s ^ 4 ≤ 2 / 5 * s ^ 3 := by nlinarith
    have q5 : s ^ 5 ≤ 2 / 5 * s ^ 4 := by nlinarith [pow_nonneg hs 4]
    have q6 : s ^ 6 ≤ 2 / 5 * s ^ 5 := by nlinarith [pow_nonneg hs 5]
    have q7 : s ^ 7 ≤ 2 / 5 * s ^ 6 := by nlinarith [pow_nonneg hs 6]
    have h1 : nx (t / g) s ≤ 6 * s + 6 * s ^ 2 + 5 / 2 * s ^ 3 := by
      unfold nx
      nlinarith
    have h2 : (s + s ^ 2 - (s + s ^ 2) ^ 2 / 2) * den s - (6 * s + 6 * s ^ 2 + 5 / 2 * s ^ 3) =
        3 * s ^ 2 - 5 / 2 * s ^ 3 - 13 / 2 * s ^ 4 - 11 / 2 * s ^ 5 - 5 / 2 * s ^ 6 - 1 / 2 * s ^ 7 := by
      unfold den
      ring
    linarith
  have hlo : s - s ^ 2 ≤ nx (t / g) s / den s := by
    rw [le_div_iff₀ hd]
    have h1 : nx (t / g) s - (s - s ^ 2) * den s =
        3 * (1 + t / g) * s ^ 2 + (4 + t / g + (t / g) ^ 2 / 2) * s ^ 3 + 2 * s ^ 4 + s ^ 5 := by
      unfold nx den
      ring
    have h2 : 0 ≤ 3 * (1 + t / g) * s ^ 2 + (4 + t / g + (t / g) ^ 2 / 2) * s ^ 3 + 2 * s ^ 4 + s ^ 5 := by positivity
    linarith
  have hy : 0 ≤ s + s ^ 2 := by positivity
  have hexp : exp (-(s + s ^ 2)) ≤ 1 - (s + s ^ 2) + (s + s ^ 2) ^ 2 / 2 := by
    have h1 := quadratic_le_exp_of_nonneg hy
    rw [exp_neg, inv_le_iff_one_le_mul₀ (exp_pos _)]
    have h2 : 0 < 1 - (s + s ^ 2) + (s + s ^ 2) ^ 2 / 2 := by nlinarith [sq_nonneg (s + s ^ 2 - 1)]
    nlinarith [mul_le_mul_of_nonneg_left h1 h2.le, sq_nonneg ((s + s ^ 2) ^ 2)]
  have hpos : 0 < 1 - (nobs : ℝ) / nfr * exp (t / g) := by
    rw [hu]
    have := exp_pos (-(s + s ^ 2))
    linarith
  have hval : exp (-a) = 1 - (nobs : ℝ) / nfr * exp (t / g) := by
    unfold lamApprox at ha
    rw [if_neg hn] at ha
    dsimp only at ha
    rw [if_pos hpos, Option.some.injEq] at ha
    rw [← ha, neg_neg, exp_log hpos]
  rw [hu] at hval
  constructor
  · have h1 := add_one_le_exp (-a)
    linarith
  · have h1 : exp (-(s + s ^ 2)) ≤ exp (-a) := by linarith
    have h2 := exp_le_exp.1 h1
    linarith

/-! ## Every number of steps -/

/-- **C191.** If some flux `s` of at most 0.4 electrons explains the counts of a pixel, then the correction makes every number of steps
without a negative value, every value after the first step is at or below `s`, and the distance after `k` steps is at most `s` to the power
`2 ^ (k + 1)`. -/
theorem C191_rate {nobs nfr : ℕ} {t g s : ℝ} (ho : nobs ≠ 0) (hn : nfr ≠ 0) (ht : 0 ≤ t) (hg : 0 < g) (htg : t ≤ g) (hs : 0 ≤ s)
    (hs1 : s ≤ 2 / 5) (hroot : calcFunc nobs nfr t g s = 0) (k : ℕ) :
    ∃ v, newtonLoop nobs nfr t g (k + 1) = ⟨some v, false⟩ ∧ 0 ≤ v ∧ v ≤ s ∧ s - v ≤ s ^ 2 ^ (k + 2) := by
  have hn' : (0 : ℝ) < nfr := by exact_mod_cast Nat.pos_of_ne_zero hn
  obtain ⟨a, ha, ha0, _⟩ := C150_start (nobs := nobs) hn t g
  obtain ⟨h1, h2⟩ := start_near hn ht hg htg hs hs1 hroot ha
  have ha1 : a ≤ 1 := by nlinarith
  have small : ∀ j : ℕ, s ^ 2 ^ (j + 2) ≤ s := by
    intro j
    have : s ^ 2 ^ (j + 2) ≤ s ^ 1 := pow_le_pow_of_le_one hs (by linarith) Nat.one_le_two_pow
    simpa using this
  have all : ∀ j, 0 ≤ (newton nobs nfr t g)^[j + 1] a ∧ (newton nobs nfr t g)^[j + 1] a ≤ s ∧
      s - (newton nobs nfr t g)^[j + 1] a ≤ s ^ 2 ^ (j + 2) := by
    intro j
    induction j with
    | zero =>
      rw [Function.iterate_one]
      obtain ⟨h3, h4⟩ := step_le hn' ht hg htg ha0 ha1 hs hroot
      have h5 : (s - a) ^ 2 ≤ (s ^ 2) ^ 2 := sq_le_sq' (by linarith) (by linarith)
      have h6 : (s ^ 2) ^ 2 = s ^ 2 ^ (0 + 2) := by ring
      have := small 0
      refine ⟨?_, h3, ?_⟩ <;> linarith
    | succ j ih =>
      obtain ⟨i0, i1, i2⟩ := ih
      rw [Function.iterate_succ_apply']
      obtain ⟨h3, h4⟩ := step_le hn' ht hg htg i0 (by linarith) hs hroot
      have h5 : (s - (newton nobs nfr t g)^[j + 1] a) ^ 2 ≤ (s ^ 2 ^ (j + 2)) ^ 2 := pow_le_pow_left₀ (by linarith) i2 2
      have h6 : (s ^ 2 ^ (j + 2)) ^ 2 = s ^ 2 ^ (j + 1 + 2) := by
        rw [← pow_mul]
        ring_nf
      have := small (j + 1)
      refine ⟨?_, h3, ?_⟩ <;> linarith
  refine ⟨_, loop_eq ho hn ht hg ha (k + 1) ?_, all k⟩
  intro j _
  rcases j with _ | j
  · exact ha0
  · exact (all j).1

end Corgi.Pc

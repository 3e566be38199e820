import Verif.StarCenter.Fit
import Mathlib.Analysis.InnerProductSpace.PiL2
import Mathlib.Analysis.InnerProductSpace.Projection.Basic

/-!
# The energy in the regions of interest

The sum that the search for the star maximises, `/repo/corgidrp/star_center.py` 443-483 (with the sign
reversed) and 723-756, and least squares without the assumption that the energy is a paraboloid.

The image is a function of row and column with real values; frames have at least two rows and columns
(`circle` fails for one column). `np.linalg.lstsq` is any function that minimises the sum of squares.
-/

namespace Corgi.StarCenter

open Finset Real

noncomputable section

/-- The positions of the regions of interest: two for each angle (star_center.py 446-460, 723-737). -/
def centres (angles : List ℝ) (sep x y : ℝ) : List (ℝ × ℝ) :=
  angles.flatMap fun a => [(pair a sep x y).1, (pair a sep x y).2]

/-- `roi_mask[row, col]` (star_center.py 445-477, 722-754). -/
def roiMask (nx ny : ℕ) (r : ℝ) (nsub : ℕ) (cs : List (ℝ × ℝ)) (row col : ℕ) : ℝ :=
  (cs.map fun c => (circle nx ny r c.1 c.2 nsub row col).getD 0).sum

/-- `np.sum(roi_mask * spotArray)` (star_center.py 481, 756). -/
def energy (nx ny : ℕ) (img : ℕ → ℕ → ℝ) (r : ℝ) (nsub : ℕ) (angles : List ℝ) (sep x y : ℝ) : ℝ :=
  ∑ p ∈ range ny ×ˢ range nx, roiMask nx ny r nsub (centres angles sep x y) p.1 p.2 * img p.1 p.2

/-- `_roi_mask_for_spots(...)[0]` (star_center.py 481), which `_cost_func_spots` (503-505) passes on: the cost that is minimised. -/
def cost (nx ny : ℕ) (img : ℕ → ℕ → ℝ) (r : ℝ) (nsub : ℕ) (angles : List ℝ) (sep x y : ℝ) : ℝ :=
  -energy nx ny img r nsub angles sep x y

theorem roiMask_eq {nx ny nsub : ℕ} (hx : 2 ≤ nx) (hy : 2 ≤ ny) (hs : 0 < nsub) (r : ℝ)
    (cs : List (ℝ × ℝ)) (row col : ℕ) :
    roiMask nx ny r nsub cs row col = (cs.map fun c =>
      fraction r ((col : ℝ) - (nx / 2 : ℕ) - c.1) ((row : ℝ) - (ny / 2 : ℕ) - c.2) nsub).sum := by
  unfold roiMask
  congr 1
  apply List.map_congr_left
  intro c _
  rw [(C94_circle nx ny r c.1 c.2 nsub row col hx hy hs).1]
  rfl

/-! ## Regions that do not overlap -/

theorem sum_le_one {α : Type} {P : α → Prop} [DecidablePred P] {l : List α}
    (h : l.Pairwise fun a b => ¬ (P a ∧ P b)) : (l.map fun a => if P a then (1 : ℝ) else 0).sum ≤ 1 := by
  induction l with
  | nil => simp
  | cons a l ih =>
    rw [List.pairwise_cons] at h
    rw [List.map_cons, List.sum_cons]
    by_cases ha : P a
    · have h0 : (l.map fun a => if P a then (1 : ℝ) else 0).sum = 0 := by
        apply List.sum_eq_zero
        intro v hv
        rw [List.mem_map] at hv
        obtain ⟨b, hb, rfl⟩ := hv
        rw [if_neg fun hb' => h.1 b hb ⟨ha, hb'⟩]
      rw [if_pos ha, h0, add_zero]
    · rw [if_neg ha, zero_add]
      exact ih h.2

theorem sum_swap {α β : Type} (s : Finset α) (l : List β) (f : β → α → ℝ) :
    (l.map fun b => ∑ a ∈ s, f b a).sum = ∑ a ∈ s, (l.map fun b => f b a).sum := by
  induction l with
  | nil => simp
  | cons b l ih => simp only [List.map_cons, List.sum_cons, ih, Finset.sum_add_distrib]

theorem fraction_sum (r x y : ℝ) (n : ℕ) : fraction r x y n =
    (∑ ij ∈ range n ×ˢ range n, if inside r x y n ij then (1 : ℝ) else 0) / ((n : ℝ) * n) := by
  unfold fraction
  rw [Finset.card_filter]
  push_cast
  rfl

/-- Spec: two regions of radius `r` have no common point. -/
def Apart (r : ℝ) (c d : ℝ × ℝ) : Prop := 2 * r < sqrt ((c.1 - d.1) ^ 2 + (c.2 - d.2) ^ 2)

theorem not_both {r : ℝ} {c d : ℝ × ℝ} (h : Apart r c d) (x y : ℝ) (n : ℕ) (ij : ℕ × ℕ) :
    ¬ (inside r (x - c.1) (y - c.2) n ij ∧ inside r (x - d.1) (y - d.2) n ij) := by
  rintro ⟨h1, h2⟩
  unfold inside at h1 h2
  unfold Apart at h
  have h3 := hyp_add (-(sub n ij.1 + (x - c.1))) (-(sub n ij.2 + (y - c.2))) (sub n ij.1 + (x - d.1))
    (sub n ij.2 + (y - d.2))
  rw [neg_sq, neg_sq] at h3
  have e1 : -(sub n ij.1 + (x - c.1)) + (sub n ij.1 + (x - d.1)) = c.1 - d.1 := by ring
  have e2 : -(sub n ij.2 + (y - c.2)) + (sub n ij.2 + (y - d.2)) = c.2 - d.2 := by ring
  rw [e1, e2] at h3
  linarith

/-- **C153.** If the regions of interest do not overlap, all mask values lie between 0 and 1. -/
theorem C153_mask {nx ny nsub : ℕ} (hx : 2 ≤ nx) (hy : 2 ≤ ny) (hs : 0 < nsub) (r : ℝ)
    (cs : List (ℝ × ℝ)) (hap : cs.Pairwise (Apart r)) (row col : ℕ) :
    0 ≤ roiMask nx ny r nsub cs row col ∧ roiMask nx ny r nsub cs row col ≤ 1 := by
  rw [roiMask_eq hx hy hs]
  constructor
  · apply List.sum_nonneg
    intro v hv
    rw [List.mem_map] at hv
    obtain ⟨c, _, rfl⟩ := hv
    exact (fraction_range _ _ _ _).1
  · have hn : (0 : ℝ) < nsub := by exact_mod_cast hs
    simp only [fraction_sum, div_eq_mul_inv]
    rw [List.sum_map_mul_right, ← div_eq_mul_inv, div_le_one (by positivity), sum_swap]
    calc _ ≤ ∑ ij ∈ range nsub ×ˢ range nsub, (1 : ℝ) := by
            apply Finset.sum_le_sum
            intro ij _
            exact sum_le_one (P := fun c : ℝ × ℝ => inside r ((col : ℝ) - (nx / 2 : ℕ) - c.1)
              ((row : ℝ) - (ny / 2 : ℕ) - c.2) nsub ij) (hap.imp fun h => not_both h _ _ _ _)
      _ = (nsub : ℝ) * nsub := by simp

/-- **C153.** For an image without negative pixels whose light lies within the regions around the
star, no other place and no other separation without overlapping regions has more energy (and the
cost is not smaller). -/
theorem C153_greatest {nx ny nsub : ℕ} (hx : 2 ≤ nx) (hy : 2 ≤ ny) (hs : 0 < nsub) (r : ℝ)
    (img : ℕ → ℕ → ℝ) (angles : List ℝ) {sep x y sep' x' y' : ℝ}
    (hpos : ∀ row < ny, ∀ col < nx, 0 ≤ img row col)
    (hin : ∀ row < ny, ∀ col < nx, img row col ≠ 0 →
      1 ≤ roiMask nx ny r nsub (centres angles sep x y) row col)
    (hap : (centres angles sep' x' y').Pairwise (Apart r)) :
    energy nx ny img r nsub angles sep' x' y' ≤ energy nx ny img r nsub angles sep x y ∧
    cost nx ny img r nsub angles sep x y ≤ cost nx ny img r nsub angles sep' x' y' := by
  have h : energy nx ny img r nsub angles sep' x' y' ≤ energy nx ny img r nsub angles sep x y := by
    unfold energy
    apply Finset.sum_le_sum
    rintro ⟨row, col⟩ hp
    rw [mem_product, mem_range, mem_range] at hp
    dsimp only at hp ⊢
    by_cases h0 : img row col = 0
    · rw [h0, mul_zero, mul_zero]
    · apply mul_le_mul_of_nonneg_right _ (hpos _ hp.1 _ hp.2)
      exact (C153_mask hx hy hs r _ hap row col).2.trans (hin _ hp.1 _ hp.2 h0)
  exact ⟨h, neg_le_neg h⟩

/-! ## Symmetric images -/

/-- Spec: the image looks the same after a turn by 180 degrees about the point `(A/2, B/2)`. -/
def Symmetric (nx ny : ℕ) (img : ℕ → ℕ → ℝ) (A B : ℕ) : Prop :=
  ∀ row < ny, ∀ col < nx, img row col ≠ 0 →
    col ≤ A ∧ A - col < nx ∧ row ≤ B ∧ B - row < ny ∧ img (B - row) (A - col) = img row col

theorem sum_pairs (angles : List ℝ) (sep x y : ℝ) (f : ℝ × ℝ → ℝ) :
    ((centres angles sep x y).map f).sum
      = (angles.map fun a => f (pair a sep x y).1 + f (pair a sep x y).2).sum := by
  unfold centres
  induction angles with
  | nil => simp
  | cons a l ih =>
    rw [List.flatMap_cons, List.map_append, List.sum_append, ih, List.map_cons, List.sum_cons]
    simp

/-- **C153.** The energy of a symmetric image is symmetric about the star, whatever the spots look
like, and for whole, half and other subpixel offsets. -/
theorem C153_symmetric {nx ny nsub : ℕ} (hx : 2 ≤ nx) (hy : 2 ≤ ny) (hs : 0 < nsub) (r : ℝ)
    (img : ℕ → ℕ → ℝ) (angles : List ℝ) (sep : ℝ) {A B : ℕ} (hsym : Symmetric nx ny img A B)
    {x y : ℝ} (hA : x + (nx / 2 : ℕ) = A / 2) (hB : y + (ny / 2 : ℕ) = B / 2) (u v : ℝ) :
    energy nx ny img r nsub angles sep (x + u) (y + v)
      = energy nx ny img r nsub angles sep (x - u) (y - v) := by
  have nz : ∀ z w : ℝ, energy nx ny img r nsub angles sep z w
      = ∑ p ∈ (range ny ×ˢ range nx).filter (fun p => img p.1 p.2 ≠ 0),
        roiMask nx ny r nsub (centres angles sep z w) p.1 p.2 * img p.1 p.2 := by
    intro z w
    unfold energy
    rw [Finset.sum_filter_of_ne]
    intro p _ hne h0
    exact hne (by rw [h0, mul_zero])
  rw [nz, nz]
  have mem : ∀ p ∈ (range ny ×ˢ range nx).filter (fun p => img p.1 p.2 ≠ 0),
      (B - p.1, A - p.2) ∈ (range ny ×ˢ range nx).filter (fun p => img p.1 p.2 ≠ 0) ∧
      p.1 ≤ B ∧ p.2 ≤ A ∧ img (B - p.1) (A - p.2) = img p.1 p.2 := by
    intro p hp
    rw [mem_filter, mem_product, mem_range, mem_range] at hp
    obtain ⟨h1, h2, h3, h4, h5⟩ := hsym _ hp.1.1 _ hp.1.2 hp.2
    refine ⟨?_, h3, h1, h5⟩
    rw [mem_filter, mem_product, mem_range, mem_range]
    exact ⟨⟨h4, h2⟩, by dsimp only; rw [h5]; exact hp.2⟩
  apply Finset.sum_nbij' (fun p => (B - p.1, A - p.2)) (fun p => (B - p.1, A - p.2))
  · exact fun p hp => (mem p hp).1
  · exact fun p hp => (mem p hp).1
  · intro p hp
    obtain ⟨_, h1, h2, _⟩ := mem p hp
    apply Prod.ext <;> dsimp only <;> omega
  · intro p hp
    obtain ⟨_, h1, h2, _⟩ := mem p hp
    apply Prod.ext <;> dsimp only <;> omega
  · intro p hp
    obtain ⟨_, h1, h2, h3⟩ := mem p hp
    dsimp only
    rw [h3]
    congr 1
    rw [roiMask_eq hx hy hs, roiMask_eq hx hy hs, sum_pairs, sum_pairs]
    congr 1
    apply List.map_congr_left
    intro a _
    rw [add_comm]
    have ex : ((A - p.2 : ℕ) : ℝ) = 2 * (x + (nx / 2 : ℕ)) - p.2 := by
      rw [Nat.cast_sub h2, hA]; ring
    have ey : ((B - p.1 : ℕ) : ℝ) = 2 * (y + (ny / 2 : ℕ)) - p.1 := by
      rw [Nat.cast_sub h1, hB]; ring
    rw [ex, ey]
    unfold pair
    dsimp only
    rw [cos_add_pi, sin_add_pi]
    congr 1
    · rw [← C94_symmetric]
      congr 1 <;> ring
    · rw [← C94_symmetric]
      congr 1 <;> ring

/-! ## Least squares -/

/-- Sum of the squared residuals. -/
def sse (p : Pbl) (l : List (ℝ × ℝ × ℝ)) : ℝ := (l.map fun t => (p.eval t.1 t.2.1 - t.2.2) ^ 2).sum

/-- Spec of `np.linalg.lstsq`: no other coefficients have a smaller sum of squares. -/
def LeastSquares (fit : List (ℝ × ℝ × ℝ) → Pbl) : Prop := ∀ l q, sse (fit l) l ≤ sse q l

theorem sse_nonneg (p : Pbl) (l : List (ℝ × ℝ × ℝ)) : 0 ≤ sse p l := by
  unfold sse
  apply List.sum_nonneg
  intro v hv
  rw [List.mem_map] at hv
  obtain ⟨t, _, rfl⟩ := hv
  positivity

/-- The mean of two paraboloids. -/
def Pbl.mid (p q : Pbl) : Pbl :=
  ⟨(p.a + q.a) / 2, (p.b + q.b) / 2, (p.c + q.c) / 2, (p.d + q.d) / 2, (p.e + q.e) / 2, (p.f + q.f) / 2⟩

theorem sse_mid (p q : Pbl) (l : List (ℝ × ℝ × ℝ)) :
    sse (p.mid q) l + (l.map fun t => ((p.eval t.1 t.2.1 - q.eval t.1 t.2.1) / 2) ^ 2).sum
      = (sse p l + sse q l) / 2 := by
  induction l with
  | nil => simp [sse]
  | cons t l ih =>
    unfold sse at ih ⊢
    simp only [List.map_cons, List.sum_cons]
    have : ((p.mid q).eval t.1 t.2.1 - t.2.2) ^ 2 + ((p.eval t.1 t.2.1 - q.eval t.1 t.2.1) / 2) ^ 2
        = ((p.eval t.1 t.2.1 - t.2.2) ^ 2 + (q.eval t.1 t.2.1 - t.2.2) ^ 2) / 2 := by
      simp only [Pbl.mid, Pbl.eval]; ring
    linarith

theorem agree_of_min {p q : Pbl} {l : List (ℝ × ℝ × ℝ)} (hp : ∀ s, sse p l ≤ sse s l)
    (hq : sse q l ≤ sse p l) : ∀ t ∈ l, p.eval t.1 t.2.1 = q.eval t.1 t.2.1 := by
  have h := sse_mid p q l
  have h1 := hp (p.mid q)
  have h0 : (l.map fun t => ((p.eval t.1 t.2.1 - q.eval t.1 t.2.1) / 2) ^ 2).sum ≤ 0 := by linarith
  have hall : ∀ (l : List (ℝ × ℝ × ℝ)) (f : ℝ × ℝ × ℝ → ℝ), (l.map fun t => (f t) ^ 2).sum ≤ 0 →
      ∀ t ∈ l, f t = 0 := by
    intro l f
    induction l with
    | nil => simp
    | cons s l ih =>
      intro h t ht
      rw [List.map_cons, List.sum_cons] at h
      have hn : 0 ≤ (l.map fun t => (f t) ^ 2).sum := by
        apply List.sum_nonneg
        intro v hv
        rw [List.mem_map] at hv
        obtain ⟨t, _, rfl⟩ := hv
        positivity
      have hs := sq_nonneg (f s)
      rcases List.mem_cons.1 ht with rfl | ht
      · exact pow_eq_zero_iff (two_ne_zero) |>.1 (by linarith)
      · exact ih (by linarith) t ht
  intro t ht
  have := hall l _ h0 t ht
  linarith

/-- Least squares reproduces exact data, so that all results for exact data apply. -/
theorem LeastSquares.reproduces {fit : List (ℝ × ℝ × ℝ) → Pbl} (hf : LeastSquares fit) :
    Reproduces2 fit := by
  intro l q hq t ht
  have h0 : sse q l = 0 := by
    unfold sse
    apply List.sum_eq_zero
    intro v hv
    rw [List.mem_map] at hv
    obtain ⟨s, hs, rfl⟩ := hv
    rw [hq s hs, sub_self]
    norm_num
  have := agree_of_min (hf l) (q := q) (by rw [h0]; exact sse_nonneg _ _) t ht
  rw [this, ← hq t ht]

/-- The paraboloid turned by 180 degrees about `(X, Y)`. -/
def Pbl.turn (p : Pbl) (X Y : ℝ) : Pbl :=
  ⟨p.a, p.b, p.c, -(4 * p.a * X) - 2 * p.b * Y - p.d, -(4 * p.c * Y) - 2 * p.b * X - p.e,
   p.eval (2 * X) (2 * Y)⟩

theorem turn_eval (p : Pbl) (X Y x y : ℝ) : (p.turn X Y).eval x y = p.eval (2 * X - x) (2 * Y - y) := by
  simp only [Pbl.turn, Pbl.eval]; ring

theorem sum_grid (xs ys : List ℝ) (c : ℝ → ℝ → ℝ) (f : ℝ × ℝ × ℝ → ℝ) :
    ((grid xs ys c).map f).sum = (ys.map fun y => (xs.map fun x => f (x, y, c x y)).sum).sum := by
  unfold grid
  induction ys with
  | nil => simp
  | cons y ys ih =>
    rw [List.flatMap_cons, List.map_append, List.sum_append, ih, List.map_cons, List.sum_cons,
      List.map_map]
    rfl

theorem sum_steps (n : ℕ) (step est : ℝ) (f : ℝ → ℝ) : ((steps n step est).map f).sum
    = ∑ k ∈ range n, f ((k : ℝ) * step - ((n : ℝ) - 1) / 2 * step + est) := by
  unfold steps
  rw [List.map_map]
  induction n generalizing f with
  | zero => simp
  | succ n _ =>
    rw [Finset.sum_range]
    rw [← List.sum_ofFn]
    congr 1
    rw [List.ofFn_eq_map]
    rw [← List.map_coe_finRange_eq_range, List.map_map]
    rfl

/-- The samples along one axis lie symmetrically about the estimate. -/
theorem sum_steps_turn (n : ℕ) (step est : ℝ) (f : ℝ → ℝ) :
    ((steps n step est).map fun x => f (2 * est - x)).sum = ((steps n step est).map f).sum := by
  rw [sum_steps, sum_steps, ← Finset.sum_range_reflect]
  apply Finset.sum_congr rfl
  intro k hk
  rw [mem_range] at hk
  congr 1
  have : ((n - 1 - k : ℕ) : ℝ) = (n : ℝ) - 1 - k := by
    rw [Nat.cast_sub (by omega), Nat.cast_sub (by omega)]
    push_cast
    ring
  rw [this]
  ring

theorem sse_turn (p : Pbl) (n : ℕ) (step : ℝ) (est : ℝ × ℝ) {c : ℝ → ℝ → ℝ}
    (hc : ∀ x y, c (2 * est.1 - x) (2 * est.2 - y) = c x y) :
    sse (p.turn est.1 est.2) (grid (steps n step est.1) (steps n step est.2) c)
      = sse p (grid (steps n step est.1) (steps n step est.2) c) := by
  unfold sse
  rw [sum_grid, sum_grid]
  rw [← sum_steps_turn n step est.2
    fun y => ((steps n step est.1).map fun x => (p.eval x y - c x y) ^ 2).sum]
  congr 1
  apply List.map_congr_left
  intro y _
  dsimp only
  rw [← sum_steps_turn n step est.1 fun x => (p.eval x (2 * est.2 - y) - c x (2 * est.2 - y)) ^ 2]
  congr 1
  apply List.map_congr_left
  intro x _
  rw [turn_eval, hc]

theorem grid_map (xs ys : List ℝ) (c : ℝ → ℝ → ℝ) (m : ℝ) :
    ((grid xs ys c).map fun t => (t.1, t.2.1, t.2.2 / m)) = grid xs ys fun x y => c x y / m := by
  unfold grid
  rw [List.map_flatMap]
  simp only [List.map_map]
  rfl

/-- One turn of the loop, for any cost that is symmetric about the current estimate: the estimate
does not move (or the fit fails). -/
theorem starStep_symmetric {res : ℝ} (hr : 0 < res) {fit : List (ℝ × ℝ × ℝ) → Pbl}
    (hf : LeastSquares fit) {n : ℕ} (hn : 3 ≤ n) {step : ℝ} (hs : step ≠ 0) (g est : ℝ × ℝ)
    {c : ℝ → ℝ → ℝ} (hc : ∀ u v, c (g.1 + est.1 + u) (g.2 + est.2 + v) = c (g.1 + est.1 - u) (g.2 + est.2 - v))
    {o : ℝ × ℝ} (h : starStep res fit c n step g est = .ok o) : o = est := by
  unfold starStep at h
  obtain ⟨m, hm, hm0, hst⟩ := C95_stationary hr h
  rw [grid_map] at hst
  set c' : ℝ → ℝ → ℝ := fun x y => c (g.1 + x) (g.2 + y) / m with hc'
  set l := grid (steps n step est.1) (steps n step est.2) c' with hl
  have hcs : ∀ x y, c' (2 * est.1 - x) (2 * est.2 - y) = c' x y := by
    intro x y
    have := hc (est.1 - x) (est.2 - y)
    rw [hc']
    dsimp only
    rw [show g.1 + (2 * est.1 - x) = g.1 + est.1 + (est.1 - x) by ring,
      show g.2 + (2 * est.2 - y) = g.2 + est.2 + (est.2 - y) by ring, this]
    congr 2 <;> ring
  have hag := agree_of_min (hf l) (q := (fit l).turn est.1 est.2) (le_of_eq (sse_turn _ n step est hcs))
  have hun := pbl_unique (steps_three hn hs est.1) (steps_three hn hs est.2)
    (p := fit l) (q := (fit l).turn est.1 est.2) (by
      intro x hx y hy
      exact hag (x, y, c' x y) (mem_grid.2 ⟨hx, hy, rfl⟩))
  have hst' : (fit l).Stationary est.1 est.2 := by
    have h4 := hun.2.2.2.1
    have h5 := hun.2.2.2.2
    simp only [Pbl.turn] at h4 h5
    unfold Pbl.Stationary
    constructor <;> linarith
  have hd : (fit l).b * (fit l).b - 4 * (fit l).a * (fit l).c ≠ 0 := by
    unfold findOptimum2 at h
    rw [hm] at h
    dsimp only at h
    rw [grid_map, if_neg hm0] at h
    intro h0
    rw [if_pos (Or.inl (by rw [h0, abs_zero]; linarith))] at h
    cases h
  have := stationary_unique hd hst hst'
  exact Prod.ext this.1 this.2

/-- **C153.** Started at the star, the search returns the star for every symmetric image: no assumption
about the shape of the spots, the radius of the regions or the form of the energy is needed, only that
the fits succeed. -/
theorem C153_star {nx ny nsub : ℕ} (hx : 2 ≤ nx) (hy : 2 ≤ ny) (hsub : 0 < nsub) (r : ℝ)
    (img : ℕ → ℕ → ℝ) (angles : List ℝ) (sep : ℝ) {A B : ℕ} (hsym : Symmetric nx ny img A B)
    {x y : ℝ} (hA : x + (nx / 2 : ℕ) = A / 2) (hB : y + (ny / 2 : ℕ) = B / 2)
    {res : ℝ} (hr : 0 < res) {fit : List (ℝ × ℝ × ℝ) → Pbl} (hf : LeastSquares fit) {n : ℕ}
    (hn : 3 ≤ n) {step : ℝ} (hs : step ≠ 0) (nIter : ℕ) {o : ℝ × ℝ}
    (h : starLocation res fit (energy nx ny img r nsub angles sep) n step nIter (x, y) = .ok o) :
    o = (x, y) := by
  have loop : ∀ k (e : ℝ × ℝ), e = (0, 0) → ∀ o', starLoop res fit (energy nx ny img r nsub angles sep)
      n step (x, y) k e = .ok o' → o' = (0, 0) := by
    intro k
    induction k with
    | zero =>
      intro e he o' h
      injection h with h
      rw [← h, he]
    | succ k ih =>
      intro e he o' h
      rw [starLoop] at h
      cases hst : starStep res fit (energy nx ny img r nsub angles sep) n step (x, y) e with
      | error err => rw [hst] at h; cases h
      | ok e' =>
        rw [hst] at h
        dsimp only at h
        have := starStep_symmetric hr hf hn hs (x, y) e (by
          intro u v
          rw [he]
          dsimp only
          rw [add_zero, add_zero]
          exact C153_symmetric hx hy hsub r img angles sep hsym hA hB u v) hst
        exact ih e' (this.trans he) o' h
  unfold starLocation at h
  cases hl : starLoop res fit (energy nx ny img r nsub angles sep) n step (x, y) nIter (0, 0) with
  | error err => rw [hl] at h; cases h
  | ok e =>
    rw [hl] at h
    dsimp only at h
    have he := loop nIter (0, 0) rfl e hl
    injection h with h
    rw [← h, he]
    dsimp only
    rw [zero_add, zero_add]

/-- **C153.** The angles 0 and 180 degrees describe the same pair: giving both doubles the energy
everywhere. -/
theorem C153_doubled (nx ny : ℕ) (img : ℕ → ℕ → ℝ) (r : ℝ) (nsub : ℕ) (sep x y : ℝ) :
    energy nx ny img r nsub [0, 180] sep x y = 2 * energy nx ny img r nsub [0] sep x y := by
  unfold energy
  rw [Finset.mul_sum]
  apply Finset.sum_congr rfl
  intro p _
  have e1 : (180 : ℝ) * π / 180 = π := by ring
  have e0 : (0 : ℝ) * π / 180 = 0 := by ring
  unfold roiMask
  rw [sum_pairs, sum_pairs]
  unfold pair
  simp only [List.map_cons, List.map_nil, List.sum_cons, List.sum_nil, e1, e0, add_zero, cos_add_pi,
    sin_add_pi, cos_pi, sin_pi, cos_zero, sin_zero, neg_neg, neg_zero]
  ring

/-! ## Where it fails -/

theorem maxOf_const {v : ℝ} : ∀ {l : List ℝ}, l ≠ [] → (∀ w ∈ l, w = v) → maxOf l = some v := by
  have fold : ∀ (l : List ℝ), (∀ w ∈ l, w = v) → l.foldl max v = v := by
    intro l
    induction l with
    | nil => intro _; rfl
    | cons w l ih =>
      intro h
      rw [List.foldl_cons, h w (by simp), max_self]
      exact ih fun w hw => h w (by simp [hw])
  intro l hne h
  cases l with
  | nil => exact absurd rfl hne
  | cons w l =>
    unfold maxOf
    dsimp only
    rw [h w (by simp), fold l fun w hw => h w (by simp [hw])]

/-- One turn on a plateau: the fit has no quadratic part, and the search fails. -/
theorem starStep_plateau {res : ℝ} (hr : 0 < res) {fit : List (ℝ × ℝ × ℝ) → Pbl}
    (hf : LeastSquares fit) {n : ℕ} (hn : 3 ≤ n) {step : ℝ} (hs : step ≠ 0) (g est : ℝ × ℝ)
    {c : ℝ → ℝ → ℝ} {v : ℝ} (hv : v ≠ 0)
    (hc : ∀ x ∈ steps n step est.1, ∀ y ∈ steps n step est.2, c (g.1 + x) (g.2 + y) = v) :
    starStep res fit c n step g est = .error .flat := by
  obtain ⟨x₁, hx₁, -⟩ := steps_three hn hs est.1
  obtain ⟨y₁, hy₁, -⟩ := steps_three hn hs est.2
  have hm : maxOf ((grid (steps n step est.1) (steps n step est.2)
      fun x y => c (g.1 + x) (g.2 + y)).map fun t => t.2.2) = some v := by
    apply maxOf_const
    · intro h0
      rw [List.map_eq_nil_iff] at h0
      have := (mem_grid (t := (x₁, y₁, c (g.1 + x₁) (g.2 + y₁)))
        (cost := fun x y => c (g.1 + x) (g.2 + y))).2 ⟨hx₁, hy₁, rfl⟩
      rw [h0] at this
      cases this
    · intro w hw
      rw [List.mem_map] at hw
      obtain ⟨t, ht, rfl⟩ := hw
      obtain ⟨h1, h2, h3⟩ := mem_grid.1 ht
      rw [h3]
      exact hc _ h1 _ h2
  unfold starStep findOptimum2
  rw [hm]
  dsimp only
  rw [if_neg hv, grid_map]
  set l := grid (steps n step est.1) (steps n step est.2) fun x y => c (g.1 + x) (g.2 + y) / v with hl
  have hrep := hf.reproduces l ⟨0, 0, 0, 0, 0, 1⟩ (by
    intro t ht
    obtain ⟨h1, h2, h3⟩ := mem_grid.1 ht
    rw [h3, hc _ h1 _ h2, div_self hv]
    simp [Pbl.eval])
  have hun := pbl_unique (steps_three hn hs est.1) (steps_three hn hs est.2)
    (p := fit l) (q := ⟨0, 0, 0, 0, 0, 1⟩) (by
      intro x hx y hy
      have := hrep (x, y, c (g.1 + x) (g.2 + y) / v) (mem_grid.2 ⟨hx, hy, rfl⟩)
      rw [this]
      dsimp only
      rw [hc _ hx _ hy, div_self hv]
      simp [Pbl.eval])
  rw [if_pos]
  left
  rw [hun.1, hun.2.1, hun.2.2.1]
  norm_num
  exact hr

/-- **C153, violated.** Spots that stay inside the regions for all offsets tried give the same energy
everywhere, and the search ends with an error although the star is at the guess. -/
theorem C153_violated_sharp {nx ny nsub : ℕ} (r : ℝ) (img : ℕ → ℕ → ℝ) (angles : List ℝ) (sep : ℝ)
    {res : ℝ} (hr : 0 < res) {fit : List (ℝ × ℝ × ℝ) → Pbl} (hf : LeastSquares fit) {n : ℕ}
    (hn : 3 ≤ n) {step : ℝ} (hs : step ≠ 0) (g : ℝ × ℝ) (k : ℕ)
    (hsum : ∑ p ∈ range ny ×ˢ range nx, img p.1 p.2 ≠ 0)
    (hin : ∀ x ∈ steps n step 0, ∀ y ∈ steps n step 0, ∀ row < ny, ∀ col < nx, img row col ≠ 0 →
      roiMask nx ny r nsub (centres angles sep (g.1 + x) (g.2 + y)) row col = 1) :
    starLocation res fit (energy nx ny img r nsub angles sep) n step (k + 1) g = .error .flat := by
  have hstep := starStep_plateau hr hf hn hs g (0, 0) (c := energy nx ny img r nsub angles sep) hsum (by
    intro x hx y hy
    unfold energy
    apply Finset.sum_congr rfl
    rintro ⟨row, col⟩ hp
    rw [mem_product, mem_range, mem_range] at hp
    dsimp only at hp ⊢
    by_cases h0 : img row col = 0
    · rw [h0, mul_zero]
    · rw [hin x hx y hy row hp.1 col hp.2 h0, one_mul])
  unfold starLocation
  rw [starLoop, hstep]

/-! ## Small regions, one pixel wide -/

theorem int_inside (i j : ℤ) : sqrt ((i : ℝ) ^ 2 + (j : ℝ) ^ 2) ≤ 1 / 2 ↔ i = 0 ∧ j = 0 := by
  constructor
  · intro h
    rw [Real.sqrt_le_left (by norm_num)] at h
    have h2 : 4 * (i ^ 2 + j ^ 2) ≤ 1 := by
      have : (4 : ℝ) * ((i : ℝ) ^ 2 + (j : ℝ) ^ 2) ≤ 1 := by linarith
      exact_mod_cast this
    constructor
    · by_contra hi
      have : 1 ≤ i ^ 2 := by
        have := sq_nonneg i
        have h3 : i ^ 2 ≠ 0 := pow_ne_zero 2 hi
        omega
      have := sq_nonneg j
      omega
    · by_contra hj
      have : 1 ≤ j ^ 2 := by
        have := sq_nonneg j
        have h3 : j ^ 2 ≠ 0 := pow_ne_zero 2 hj
        omega
      have := sq_nonneg i
      omega
  · rintro ⟨rfl, rfl⟩
    simp

theorem sum_point {nx ny : ℕ} (img : ℕ → ℕ → ℝ) {R C : ℕ} (hR : R < ny) (hC : C < nx) :
    (∑ p ∈ range ny ×ˢ range nx, fraction (1 / 2) ((p.2 : ℝ) - C) ((p.1 : ℝ) - R) 1 * img p.1 p.2)
      = img R C := by
  have : ∀ p ∈ range ny ×ˢ range nx, fraction (1 / 2) ((p.2 : ℝ) - C) ((p.1 : ℝ) - R) 1 * img p.1 p.2
      = if p = (R, C) then img R C else 0 := by
    intro p _
    rw [C94_edge]
    have h := int_inside ((p.2 : ℤ) - C) ((p.1 : ℤ) - R)
    push_cast at h
    by_cases hp : p = (R, C)
    · rw [if_pos (h.2 (by rw [hp]; simp)), if_pos hp, hp, one_mul]
    · rw [if_neg, if_neg hp, zero_mul]
      rw [h]
      rintro ⟨h1, h2⟩
      exact hp (Prod.ext (by dsimp only; omega) (by dsimp only; omega))
  rw [Finset.sum_congr rfl this, Finset.sum_ite_eq', if_pos]
  rw [mem_product, mem_range, mem_range]
  exact ⟨hR, hC⟩

/-- One pair along the rows, at whole pixels: the energy is the sum of two pixels. -/
theorem energy_point {nx ny : ℕ} (hx : 2 ≤ nx) (hy : 2 ≤ ny) (img : ℕ → ℕ → ℝ) {sep x y : ℝ}
    {R C D : ℕ} (hR : R < ny) (hC : C < nx) (hD : D < nx) (eR : (R : ℝ) = y + (ny / 2 : ℕ))
    (eC : (C : ℝ) = x + sep + (nx / 2 : ℕ)) (eD : (D : ℝ) = x - sep + (nx / 2 : ℕ)) :
    energy nx ny img (1 / 2) 1 [0] sep x y = img R C + img R D := by
  rw [← sum_point img hR hC, ← sum_point img hR hD, ← Finset.sum_add_distrib]
  unfold energy
  apply Finset.sum_congr rfl
  intro p _
  rw [roiMask_eq hx hy one_pos, sum_pairs]
  unfold pair
  simp only [List.map_cons, List.map_nil, List.sum_cons, List.sum_nil, add_zero, cos_add_pi,
    sin_add_pi, cos_zero, sin_zero, neg_zero, zero_mul, zero_div, zero_add, one_mul]
  rw [← add_mul, eR, eC, eD]
  congr 2
  · congr 1 <;> ring
  · congr 1 <;> ring

/-- **C153, violated.** Regions that overlap count their light twice: with two spots of unequal
brightness, both regions on the brighter one have more energy than the true geometry, although all
light lies in the regions around the star. -/
theorem C153_violated_overlap : ∃ img : ℕ → ℕ → ℝ, (∀ row col, 0 ≤ img row col) ∧
    (∀ row < 5, ∀ col < 5, img row col ≠ 0 → 1 ≤ roiMask 5 5 (1 / 2) 1 (centres [0] 1 0 0) row col) ∧
    energy 5 5 img (1 / 2) 1 [0] 1 0 0 < energy 5 5 img (1 / 2) 1 [0] 0 1 0 ∧
    ∃ row col, 1 < roiMask 5 5 (1 / 2) 1 (centres [0] 0 1 0) row col := by
  have mask : ∀ sep x row col, roiMask 5 5 (1 / 2) 1 (centres [0] sep x 0) row col
      = fraction (1 / 2) ((col : ℝ) - 2 - (sep + x)) ((row : ℝ) - 2) 1
        + fraction (1 / 2) ((col : ℝ) - 2 - (-sep + x)) ((row : ℝ) - 2) 1 := by
    intro sep x row col
    rw [roiMask_eq (by norm_num) (by norm_num) one_pos, sum_pairs]
    unfold pair
    simp
  have f0 : fraction (1 / 2) 0 0 1 = 1 := by rw [C94_edge]; simp
  refine ⟨fun row col => if row = 2 then (if col = 1 then 1 else if col = 3 then 3 else 0) else 0, ?_, ?_, ?_, ?_⟩
  · intro row col
    dsimp only
    split_ifs <;> norm_num
  · intro row _ col _ h
    dsimp only at h
    rw [mask]
    split_ifs at h with h1 h2 h3
    · subst h1 h2
      have e : ((1 : ℕ) : ℝ) - 2 - (-1 + 0) = 0 := by norm_num
      have e' : ((2 : ℕ) : ℝ) - 2 = 0 := by norm_num
      rw [e, e', f0]
      have := (fraction_range (1 / 2) (((1 : ℕ) : ℝ) - 2 - (1 + 0)) 0 1).1
      linarith
    · subst h1 h3
      have e : ((3 : ℕ) : ℝ) - 2 - (1 + 0) = 0 := by norm_num
      have e' : ((2 : ℕ) : ℝ) - 2 = 0 := by norm_num
      rw [e, e', f0]
      have := (fraction_range (1 / 2) (((3 : ℕ) : ℝ) - 2 - (-1 + 0)) 0 1).1
      linarith
    · exact absurd rfl h
    · exact absurd rfl h
  · rw [energy_point (by norm_num) (by norm_num) _ (R := 2) (C := 3) (D := 1) (by norm_num) (by norm_num)
        (by norm_num) (by norm_num) (by norm_num) (by norm_num),
      energy_point (by norm_num) (by norm_num) _ (R := 2) (C := 3) (D := 3) (by norm_num) (by norm_num)
        (by norm_num) (by norm_num) (by norm_num) (by norm_num)]
    norm_num
  · refine ⟨2, 3, ?_⟩
    rw [mask]
    have e : ((3 : ℕ) : ℝ) - 2 - (0 + 1) = 0 := by norm_num
    have e2 : ((3 : ℕ) : ℝ) - 2 - (-0 + 1) = 0 := by norm_num
    have e' : ((2 : ℕ) : ℝ) - 2 = 0 := by norm_num
    rw [e, e2, e', f0]
    norm_num

/-! ## Non-vacuity -/

/-- Least squares exists: the projection on the space of sampled paraboloids. -/
theorem exists_leastSquares : ∃ fit, LeastSquares fit := by
  suffices h : ∀ l : List (ℝ × ℝ × ℝ), ∃ p : Pbl, ∀ q, sse p l ≤ sse q l from
    ⟨fun l => (h l).choose, fun l => (h l).choose_spec⟩
  intro l
  let E := EuclideanSpace ℝ (Fin l.length)
  let S : Submodule ℝ E :=
    { carrier := {v | ∃ p : Pbl, ∀ i : Fin l.length, v i = p.eval (l.get i).1 (l.get i).2.1}
      add_mem' := by
        rintro v w ⟨p, hp⟩ ⟨q, hq⟩
        refine ⟨⟨p.a + q.a, p.b + q.b, p.c + q.c, p.d + q.d, p.e + q.e, p.f + q.f⟩, fun i => ?_⟩
        rw [PiLp.add_apply, hp, hq]
        simp only [Pbl.eval]
        ring
      zero_mem' := ⟨⟨0, 0, 0, 0, 0, 0⟩, fun i => by simp [Pbl.eval]⟩
      smul_mem' := by
        rintro c v ⟨p, hp⟩
        refine ⟨⟨c * p.a, c * p.b, c * p.c, c * p.d, c * p.e, c * p.f⟩, fun i => ?_⟩
        rw [PiLp.smul_apply, hp, smul_eq_mul]
        simp only [Pbl.eval]
        ring }
  let b : E := WithLp.toLp 2 fun i => (l.get i).2.2
  have hsse : ∀ (p : Pbl) (v : E), (∀ i : Fin l.length, v i = p.eval (l.get i).1 (l.get i).2.1) →
      ‖b - v‖ ^ 2 = sse p l := by
    intro p v hv
    rw [EuclideanSpace.norm_sq_eq]
    unfold sse
    have : l.map (fun t => (p.eval t.1 t.2.1 - t.2.2) ^ 2)
        = List.ofFn fun i : Fin l.length => (p.eval (l.get i).1 (l.get i).2.1 - (l.get i).2.2) ^ 2 := by
      apply List.ext_getElem (by simp)
      intro i h1 h2
      simp
    rw [this, List.sum_ofFn]
    apply Finset.sum_congr rfl
    intro i _
    rw [PiLp.sub_apply, hv, Real.norm_eq_abs, sq_abs]
    show ((l.get i).2.2 - _) ^ 2 = _
    ring
  obtain ⟨p, hp⟩ := S.starProjection_apply_mem b
  refine ⟨p, fun q => ?_⟩
  let w : E := WithLp.toLp 2 fun i => q.eval (l.get i).1 (l.get i).2.1
  have hw : w ∈ S := ⟨q, fun i => rfl⟩
  rw [← hsse p _ hp, ← hsse q w fun i => rfl]
  have hmin := S.starProjection_minimal b
  have hle : ‖b - S.starProjection b‖ ≤ ‖b - w‖ := by
    rw [hmin]
    exact ciInf_le ⟨0, by rintro _ ⟨z, rfl⟩; exact norm_nonneg _⟩ (⟨w, hw⟩ : S)
  exact pow_le_pow_left₀ (norm_nonneg _) hle 2

/-- Two spots of three by three pixels, two pixels left and right of the centre of nine by nine. -/
def twoSpots (row col : ℕ) : ℤ :=
  if 3 ≤ row ∧ row ≤ 5 then
    if 1 ≤ col ∧ col ≤ 3 then 3 - ((col : ℤ) - 2) ^ 2 - ((row : ℤ) - 4) ^ 2
    else if 5 ≤ col ∧ col ≤ 7 then 3 - ((col : ℤ) - 6) ^ 2 - ((row : ℤ) - 4) ^ 2
    else 0
  else 0

theorem twoSpots_symmetric : Symmetric 9 9 (fun row col => (twoSpots row col : ℝ)) 8 8 := by
  have h : ∀ row < 9, ∀ col < 9, twoSpots row col ≠ 0 → col ≤ 8 ∧ 8 - col < 9 ∧ row ≤ 8 ∧ 8 - row < 9 ∧
      twoSpots (8 - row) (8 - col) = twoSpots row col := by decide +kernel
  intro row hr col hc h0
  obtain ⟨h1, h2, h3, h4, h5⟩ := h row hr col hc (by intro h; exact h0 (by dsimp only; rw [h, Int.cast_zero]))
  exact ⟨h1, h2, h3, h4, by dsimp only; rw [h5]⟩

/-- The hypotheses of `C153_star` can be met, and the search succeeds. -/
example : ∃ fit, LeastSquares fit ∧ Symmetric 9 9 (fun row col => (twoSpots row col : ℝ)) 8 8 ∧
    starLocation (1 / 1000) fit (energy 9 9 (fun row col => (twoSpots row col : ℝ)) (1 / 2) 1 [0] 2) 3 1 6
      (0, 0) = .ok (0, 0) := by
  obtain ⟨fit, hf⟩ := exists_leastSquares
  refine ⟨fit, hf, twoSpots_symmetric, ?_⟩
  have s3 : ∀ e : ℝ, steps 3 1 e = [-1 + e, 0 + e, 1 + e] := by
    intro e; simp [steps, List.range_succ]; norm_num
  have hen : ∀ i ∈ ([-1, 0, 1] : List ℤ), ∀ j ∈ ([-1, 0, 1] : List ℤ),
      energy 9 9 (fun row col => (twoSpots row col : ℝ)) (1 / 2) 1 [0] 2 i j
        = (Pbl.mk (-2) 0 (-2) 0 0 6).eval i j := by
    intro i hi j hj
    have hi' : i = -1 ∨ i = 0 ∨ i = 1 := by simpa using hi
    have hj' : j = -1 ∨ j = 0 ∨ j = 1 := by simpa using hj
    have hib : -1 ≤ i ∧ i ≤ 1 := by omega
    have hjb : -1 ≤ j ∧ j ≤ 1 := by omega
    have cast : ∀ k : ℤ, 0 ≤ k → ((k.toNat : ℕ) : ℝ) = (k : ℝ) := by
      intro k hk
      have : ((k.toNat : ℕ) : ℤ) = k := Int.toNat_of_nonneg hk
      exact_mod_cast this
    rw [energy_point (by norm_num) (by norm_num) _ (R := (j + 4).toNat) (C := (i + 6).toNat)
      (D := (i + 2).toNat) (by omega) (by omega) (by omega)
      (by rw [cast _ (by omega)]; push_cast; rfl) (by rw [cast _ (by omega)]; push_cast; ring)
      (by rw [cast _ (by omega)]; push_cast; ring)]
    have hv : twoSpots (j + 4).toNat (i + 6).toNat + twoSpots (j + 4).toNat (i + 2).toNat
        = -2 * i ^ 2 + -2 * j ^ 2 + 6 := by
      rcases hi' with rfl | rfl | rfl <;> rcases hj' with rfl | rfl | rfl <;> decide +kernel
    have hv' : (twoSpots (j + 4).toNat (i + 6).toNat : ℝ) + twoSpots (j + 4).toNat (i + 2).toNat
        = -2 * i ^ 2 + -2 * j ^ 2 + 6 := by exact_mod_cast hv
    rw [hv']
    simp only [Pbl.eval]
    ring
  have hgrid : grid (steps 3 1 0) (steps 3 1 0)
        (fun x y => energy 9 9 (fun row col => (twoSpots row col : ℝ)) (1 / 2) 1 [0] 2 (0 + x) (0 + y))
      = grid (steps 3 1 0) (steps 3 1 0) (Pbl.mk (-2) 0 (-2) 0 0 6).eval := by
    rw [s3]
    have := fun i hi j hj => hen i hi j hj
    simp only [List.mem_cons, List.not_mem_nil, or_false, forall_eq_or_imp, forall_eq] at this
    push_cast at this
    simp only [grid, List.flatMap_cons, List.flatMap_nil, List.map_cons, List.map_nil, zero_add, add_zero,
      this]
  have hstep : starStep (1 / 1000) fit (energy 9 9 (fun row col => (twoSpots row col : ℝ)) (1 / 2) 1 [0] 2)
      3 1 (0, 0) (0, 0) = .ok (0, 0) := by
    unfold starStep
    dsimp only
    rw [hgrid]
    refine C95_exact2_partial (by norm_num) hf.reproduces _ _ _ (steps_three (le_refl 3) one_ne_zero 0)
      (steps_three (le_refl 3) one_ne_zero 0) (m := 6) ?_ (by norm_num) (by norm_num [abs_of_pos])
      (by norm_num [abs_of_pos]) ?_
    · rw [s3]
      simp [grid, maxOf, Pbl.eval]
    · unfold Pbl.Stationary; norm_num
  unfold starLocation
  simp only [starLoop, hstep, add_zero]

/-- The hypotheses of `C153_violated_sharp` can be met: two spots of one pixel, regions of radius 3/2,
offsets of one pixel. -/
example : ∃ (fit : List (ℝ × ℝ × ℝ) → Pbl) (img : ℕ → ℕ → ℝ), LeastSquares fit ∧
    starLocation (1 / 1000) fit (energy 9 9 img (3 / 2) 1 [0] 2) 3 1 6 (0, 0) = .error .flat := by
  obtain ⟨fit, hf⟩ := exists_leastSquares
  refine ⟨fit, fun row col => if row = 4 ∧ (col = 2 ∨ col = 6) then 1 else 0, hf, ?_⟩
  apply C153_violated_sharp (3 / 2) _ _ _ (by norm_num) hf (le_refl 3) one_ne_zero
  · simp
    exact ⟨2, by norm_num, fun h => absurd rfl h⟩
  · have s3 : steps 3 1 0 = [-1, 0, 1] := by
      simp [steps, List.range_succ]; norm_num
    rw [s3]
    intro x hx y hy row _ col _ h
    have hx' : x = -1 ∨ x = 0 ∨ x = 1 := by simpa using hx
    have hy' : y = -1 ∨ y = 0 ∨ y = 1 := by simpa using hy
    have hrc : row = 4 ∧ (col = 2 ∨ col = 6) := by
      by_contra hn
      exact h (if_neg hn)
    have yes : ∀ a b : ℝ, a ^ 2 + b ^ 2 ≤ 9 / 4 → fraction (3 / 2) a b 1 = 1 := by
      intro a b hab
      rw [C94_edge, if_pos]
      rw [Real.sqrt_le_left (by norm_num)]
      linarith
    have no : ∀ a b : ℝ, 9 / 4 < a ^ 2 + b ^ 2 → fraction (3 / 2) a b 1 = 0 := by
      intro a b hab
      rw [C94_edge, if_neg]
      rw [Real.sqrt_le_left (by norm_num)]
      linarith
    rw [roiMask_eq (by norm_num) (by norm_num) one_pos, sum_pairs]
    unfold pair
    simp only [List.map_cons, List.map_nil, List.sum_cons, List.sum_nil, add_zero, cos_add_pi,
      sin_add_pi, cos_zero, sin_zero, neg_zero, zero_mul, zero_div, zero_add, one_mul]
    obtain ⟨rfl, rfl | rfl⟩ := hrc
    · rw [no, yes, zero_add] <;>
      rcases hx' with rfl | rfl | rfl <;> rcases hy' with rfl | rfl | rfl <;> norm_num
    · rw [yes, no, add_zero] <;>
      rcases hx' with rfl | rfl | rfl <;> rcases hy' with rfl | rfl | rfl <;> norm_num

/-- Regions of radius 1/2 at separation 2 do not overlap. -/
example : (centres [0] 2 0 0).Pairwise (Apart (1 / 2)) := by
  have : (2 : ℝ) * (1 / 2) < sqrt ((2 - -2) ^ 2 + 0) := by
    rw [show ((2 : ℝ) - -2) ^ 2 + 0 = 4 ^ 2 by norm_num, Real.sqrt_sq (by norm_num)]
    norm_num
  simpa [centres, pair, Apart] using this

end

end Corgi.StarCenter

import Verif.StarCenter.Circle
import Mathlib.Tactic.LinearCombination
import Mathlib.Tactic.NormNum

/-!
# Quadratic fits and the search for the star

`find_optimum_1d`, `find_optimum_2d`, `calc_star_location_from_spots`, `calc_spot_separation` and
`star_center_from_satellite_spots` of `/repo/corgidrp/star_center.py` 260-386, 617-1036.

`np.polyfit` and `np.linalg.lstsq` are abstract: of least squares only its consequence is used that
data lying exactly on a parabola (paraboloid) are reproduced. Division by a zero maximum (numpy:
NaN, and the solver raises) is an error. The sum over the image is an abstract cost of the offset.
-/

namespace Corgi.StarCenter

open Real

noncomputable section

inductive FitErr
  | lengths | singular | flat
  deriving DecidableEq

/-- `np.max`. -/
def maxOf : List ℝ → Option ℝ
  | [] => none
  | v :: vs => some (vs.foldl max v)

/-! ## One dimension -/

/-- Coefficients `p0 x² + p1 x + p2`. -/
structure Par where
  a : ℝ
  b : ℝ
  c : ℝ

def Par.eval (p : Par) (x : ℝ) : ℝ := p.a * x ^ 2 + p.b * x + p.c

/-- What is used of `polyfit`: exact data are reproduced. -/
def Reproduces1 (fit : List (ℝ × ℝ) → Par) : Prop :=
  ∀ (l : List (ℝ × ℝ)) (q : Par), (∀ xv ∈ l, xv.2 = q.eval xv.1) → ∀ xv ∈ l, (fit l).eval xv.1 = xv.2

/-- `find_optimum_1d` (star_center.py 260-294); `eps` is the machine epsilon. -/
def findOptimum1 (eps : ℝ) (fit : List (ℝ × ℝ) → Par) (xs vs : List ℝ) : Except FitErr ℝ :=
  if xs.length ≠ vs.length then .error .lengths
  else match maxOf vs with
    | none => .error .singular
    | some m =>
      if m = 0 then .error .singular
      else
        let p := fit (xs.zip (vs.map (· / m)))
        if |p.a| < eps then .error .flat else .ok (-p.b / (2 * p.a))

/-- Spec: `x` is where the parabola has slope zero. -/
def Par.Vertex (p : Par) (x : ℝ) : Prop := 2 * p.a * x + p.b = 0

/-- Two parabolas that agree at three points are equal. -/
theorem par_unique {p q : Par} {x y z : ℝ} (hxy : x ≠ y) (hxz : x ≠ z) (hyz : y ≠ z)
    (h1 : p.eval x = q.eval x) (h2 : p.eval y = q.eval y) (h3 : p.eval z = q.eval z) :
    p.a = q.a ∧ p.b = q.b := by
  unfold Par.eval at h1 h2 h3
  have e1 : (x - y) * ((p.a - q.a) * (x + y) + (p.b - q.b)) = 0 := by linear_combination h1 - h2
  have e2 : (x - z) * ((p.a - q.a) * (x + z) + (p.b - q.b)) = 0 := by linear_combination h1 - h3
  have f1 := (mul_eq_zero.1 e1).resolve_left (sub_ne_zero.2 hxy)
  have f2 := (mul_eq_zero.1 e2).resolve_left (sub_ne_zero.2 hxz)
  have e3 : (y - z) * (p.a - q.a) = 0 := by linear_combination f1 - f2
  have f3 := (mul_eq_zero.1 e3).resolve_left (sub_ne_zero.2 hyz)
  refine ⟨by linarith, ?_⟩
  rw [f3] at f1
  linarith

/-- **C95.** Whatever the data, a returned position is where the fitted parabola has slope zero. -/
theorem C95_vertex {eps : ℝ} (he : 0 < eps) {fit : List (ℝ × ℝ) → Par} {xs vs : List ℝ} {x : ℝ}
    (h : findOptimum1 eps fit xs vs = .ok x) :
    ∃ m, maxOf vs = some m ∧ m ≠ 0 ∧ (fit (xs.zip (vs.map (· / m)))).Vertex x := by
  unfold findOptimum1 at h
  split_ifs at h with h0
  cases hm : maxOf vs with
  | none => rw [hm] at h; cases h
  | some m =>
    rw [hm] at h
    dsimp only at h
    split_ifs at h with h1 h2
    injection h with h
    refine ⟨m, rfl, h1, ?_⟩
    have ha : (fit (xs.zip (vs.map (· / m)))).a ≠ 0 := by
      intro h3; rw [h3, abs_zero] at h2; exact h2 he
    unfold Par.Vertex
    rw [← h]
    field_simp
    ring

theorem zip_map_div (q : Par) (m : ℝ) (xs : List ℝ) :
    ∀ xv ∈ xs.zip ((xs.map q.eval).map (· / m)), xv.1 ∈ xs ∧ xv.2 = q.eval xv.1 / m := by
  induction xs with
  | nil => simp
  | cons x xs ih =>
    intro xv h
    rw [List.map_cons, List.map_cons, List.zip_cons_cons, List.mem_cons] at h
    rcases h with rfl | h
    · exact ⟨List.mem_cons_self, rfl⟩
    · exact ⟨List.mem_cons_of_mem _ (ih xv h).1, (ih xv h).2⟩

theorem mem_zip_map_div (q : Par) (m : ℝ) (xs : List ℝ) {x : ℝ} (hx : x ∈ xs) :
    (x, q.eval x / m) ∈ xs.zip ((xs.map q.eval).map (· / m)) := by
  induction xs with
  | nil => simp at hx
  | cons y xs ih =>
    rw [List.map_cons, List.map_cons, List.zip_cons_cons, List.mem_cons]
    rcases List.mem_cons.1 hx with rfl | h
    · left; rfl
    · right; exact ih h

/-- **C95 (partial).** Data on a parabola, at three or more different places: the vertex is returned
exactly, provided that the largest value is not zero and the curvature relative to it is at least
`eps`. -/
theorem C95_exact1_partial {eps : ℝ} {fit : List (ℝ × ℝ) → Par} (hf : Reproduces1 fit) (q : Par)
    (xs : List ℝ) {x y z m : ℝ} (hx : x ∈ xs) (hy : y ∈ xs) (hz : z ∈ xs) (hxy : x ≠ y) (hxz : x ≠ z)
    (hyz : y ≠ z) (hm : maxOf (xs.map q.eval) = some m) (h0 : m ≠ 0) (ha : q.a ≠ 0)
    (he : eps ≤ |q.a / m|) :
    findOptimum1 eps fit xs (xs.map q.eval) = .ok (-q.b / (2 * q.a)) := by
  let q' : Par := ⟨q.a / m, q.b / m, q.c / m⟩
  have hev : ∀ t, q'.eval t = q.eval t / m := by
    intro t; simp only [Par.eval, q']; ring
  have hrep := hf (xs.zip ((xs.map q.eval).map (· / m))) q' (by
    intro xv h; rw [hev]; exact (zip_map_div q m xs xv h).2)
  have at' : ∀ t ∈ xs, (fit (xs.zip ((xs.map q.eval).map (· / m)))).eval t = q'.eval t := by
    intro t ht
    rw [hev]; exact hrep _ (mem_zip_map_div q m xs ht)
  obtain ⟨h1, h2⟩ := par_unique hxy hxz hyz (at' x hx) (at' y hy) (at' z hz)
  unfold findOptimum1
  rw [if_neg (by simp), hm]
  dsimp only
  rw [if_neg h0, h1, h2, if_neg (not_lt.2 he)]
  congr 1
  simp only [q']
  field_simp

/-- A solver exists. -/
theorem exists_fit1 : ∃ fit, Reproduces1 fit := by
  classical
  refine ⟨fun l => if h : ∃ q : Par, ∀ xv ∈ l, xv.2 = q.eval xv.1 then h.choose else ⟨0, 0, 0⟩, ?_⟩
  intro l q hq xv hxv
  have h : ∃ q : Par, ∀ xv ∈ l, xv.2 = q.eval xv.1 := ⟨q, hq⟩
  dsimp only
  rw [dif_pos h]
  exact (h.choose_spec xv hxv).symm

/-- **C95.** Positions and values must be equally many. -/
theorem C95_lengths (eps : ℝ) (fit : List (ℝ × ℝ) → Par) (xs vs : List ℝ) :
    findOptimum1 eps fit xs vs = .error .lengths ↔ xs.length ≠ vs.length := by
  unfold findOptimum1
  by_cases h : xs.length ≠ vs.length
  · simp [h]
  · rw [if_neg h]
    simp only [h, iff_false]
    cases maxOf vs with
    | none => simp
    | some m =>
      dsimp only
      split_ifs <;> simp

/-- **C95, violated.** The result need not be a maximum: for `x²` at -1, 0, 1 it is the place of the
smallest value. -/
theorem C95_violated_minimum {fit : List (ℝ × ℝ) → Par} (hf : Reproduces1 fit) :
    findOptimum1 (1 / 1000) fit [-1, 0, 1] ([-1, 0, 1].map (Par.mk 1 0 0).eval) = .ok 0 := by
  have := C95_exact1_partial (eps := 1 / 1000) hf ⟨1, 0, 0⟩ [-1, 0, 1] (x := -1) (y := 0) (z := 1)
    (m := 1) (by simp) (by simp) (by simp) (by norm_num) (by norm_num) (by norm_num)
    (by simp [maxOf, Par.eval]) one_ne_zero one_ne_zero (by norm_num)
  rw [this]
  norm_num

/-- **C95, violated.** Nor need it lie in the searched interval. -/
theorem C95_violated_outside {fit : List (ℝ × ℝ) → Par} (hf : Reproduces1 fit) :
    findOptimum1 (1 / 1000) fit [1, 2, 3] ([1, 2, 3].map (Par.mk 1 0 0).eval) = .ok 0 := by
  have := C95_exact1_partial (eps := 1 / 1000) hf ⟨1, 0, 0⟩ [1, 2, 3] (x := 1) (y := 2) (z := 3)
    (m := 9) (by simp) (by simp) (by simp) (by norm_num) (by norm_num) (by norm_num)
    (by simp [maxOf, Par.eval]; norm_num) (by norm_num) one_ne_zero (by norm_num [abs_of_pos])
  rw [this]
  norm_num

/-- **C95, violated.** A cost whose largest value is zero fails, although a parabola is well
defined: `-x²` at -1, 0, 1. -/
theorem C95_violated_zero (eps : ℝ) (fit : List (ℝ × ℝ) → Par) :
    findOptimum1 eps fit [-1, 0, 1] ([-1, 0, 1].map (Par.mk (-1) 0 0).eval) = .error .singular := by
  unfold findOptimum1
  simp [maxOf, Par.eval]

/-! ## Two dimensions -/

/-- `a x² + b x y + c y² + d x + e y + f`. -/
structure Pbl where
  a : ℝ
  b : ℝ
  c : ℝ
  d : ℝ
  e : ℝ
  f : ℝ

def Pbl.eval (p : Pbl) (x y : ℝ) : ℝ :=
  p.a * x ^ 2 + p.b * (x * y) + p.c * y ^ 2 + p.d * x + p.e * y + p.f

/-- Spec: both partial derivatives vanish. -/
def Pbl.Stationary (p : Pbl) (x y : ℝ) : Prop :=
  2 * p.a * x + p.b * y + p.d = 0 ∧ p.b * x + 2 * p.c * y + p.e = 0

def Reproduces2 (fit : List (ℝ × ℝ × ℝ) → Pbl) : Prop :=
  ∀ (l : List (ℝ × ℝ × ℝ)) (q : Pbl), (∀ t ∈ l, t.2.2 = q.eval t.1 t.2.1) →
    ∀ t ∈ l, (fit l).eval t.1 t.2.1 = t.2.2

/-- The samples `(x, y, cost)` in the order of the matrix (star_center.py 719-756). -/
def grid (xs ys : List ℝ) (cost : ℝ → ℝ → ℝ) : List (ℝ × ℝ × ℝ) :=
  ys.flatMap fun y => xs.map fun x => (x, y, cost x y)

/-- `find_optimum_2d` (star_center.py 297-386) for a mask of ones; `res` is the resolution of the
floating-point type. -/
def findOptimum2 (res : ℝ) (fit : List (ℝ × ℝ × ℝ) → Pbl) (l : List (ℝ × ℝ × ℝ)) :
    Except FitErr (ℝ × ℝ) :=
  match maxOf (l.map fun t => t.2.2) with
  | none => .error .singular
  | some m =>
    if m = 0 then .error .singular
    else
      let p := fit (l.map fun t => (t.1, t.2.1, t.2.2 / m))
      if |p.b * p.b - 4 * p.a * p.c| < 4 * res ∨ |2 * p.c| < 2 * res then .error .flat
      else
        let x := (2 * p.c * p.d - p.e * p.b) / (p.b * p.b - 4 * p.a * p.c)
        .ok (x, -(p.b * x + p.e) / (2 * p.c))

/-- **C95.** Whatever the data, a returned position is a stationary point of the fitted
paraboloid. -/
theorem C95_stationary {res : ℝ} (hr : 0 < res) {fit : List (ℝ × ℝ × ℝ) → Pbl}
    {l : List (ℝ × ℝ × ℝ)} {xy : ℝ × ℝ} (h : findOptimum2 res fit l = .ok xy) :
    ∃ m, maxOf (l.map fun t => t.2.2) = some m ∧ m ≠ 0 ∧
      (fit (l.map fun t => (t.1, t.2.1, t.2.2 / m))).Stationary xy.1 xy.2 := by
  unfold findOptimum2 at h
  cases hm : maxOf (l.map fun t => t.2.2) with
  | none => rw [hm] at h; cases h
  | some m =>
    rw [hm] at h
    dsimp only at h
    split_ifs at h with h1 h2
    refine ⟨m, rfl, h1, ?_⟩
    generalize fit (l.map fun t => (t.1, t.2.1, t.2.2 / m)) = p at h h2
    push Not at h2
    have hd : p.b * p.b - 4 * p.a * p.c ≠ 0 := by
      intro h3; rw [h3, abs_zero] at h2; linarith [h2.1]
    have hc : p.c ≠ 0 := by
      intro h3
      have h4 := h2.2
      rw [h3, mul_zero, abs_zero] at h4; linarith
    injection h with h
    subst h
    unfold Pbl.Stationary
    dsimp only
    set X := (2 * p.c * p.d - p.e * p.b) / (p.b * p.b - 4 * p.a * p.c) with hX
    have hXm : X * (p.b * p.b - 4 * p.a * p.c) = 2 * p.c * p.d - p.e * p.b := by
      rw [hX]; exact div_mul_cancel₀ _ hd
    set Y := -(p.b * X + p.e) / (2 * p.c) with hY
    have hYm : Y * (2 * p.c) = -(p.b * X + p.e) := by
      rw [hY]; exact div_mul_cancel₀ _ (by simpa using hc)
    refine ⟨?_, by linarith⟩
    have : p.c * (2 * p.a * X + p.b * Y + p.d) = 0 := by
      linear_combination (-1 / 2) * hXm + (p.b / 2) * hYm
    exact (mul_eq_zero.1 this).resolve_left hc

/-- A stationary point is unique when the discriminant is not zero. -/
theorem stationary_unique {p : Pbl} (hd : p.b * p.b - 4 * p.a * p.c ≠ 0) {x y x' y' : ℝ}
    (h : p.Stationary x y) (h' : p.Stationary x' y') : x = x' ∧ y = y' := by
  unfold Pbl.Stationary at h h'
  have e1 : (p.b * p.b - 4 * p.a * p.c) * (x - x') = 0 := by
    linear_combination p.b * (h.2 - h'.2) - 2 * p.c * (h.1 - h'.1)
  have e2 : (p.b * p.b - 4 * p.a * p.c) * (y - y') = 0 := by
    linear_combination p.b * (h.1 - h'.1) - 2 * p.a * (h.2 - h'.2)
  have f1 := (mul_eq_zero.1 e1).resolve_left hd
  have f2 := (mul_eq_zero.1 e2).resolve_left hd
  exact ⟨by linarith, by linarith⟩

/-- Three different numbers in a list. -/
def Three (l : List ℝ) : Prop := ∃ x ∈ l, ∃ y ∈ l, ∃ z ∈ l, x ≠ y ∧ x ≠ z ∧ y ≠ z

/-- Paraboloids that agree on a 3x3 grid have the same derivatives. -/
theorem pbl_unique {p q : Pbl} {xs ys : List ℝ} (hx : Three xs) (hy : Three ys)
    (h : ∀ x ∈ xs, ∀ y ∈ ys, p.eval x y = q.eval x y) :
    p.a = q.a ∧ p.b = q.b ∧ p.c = q.c ∧ p.d = q.d ∧ p.e = q.e := by
  obtain ⟨x1, m1, x2, m2, x3, m3, a12, a13, a23⟩ := hx
  obtain ⟨y1, n1, y2, n2, y3, n3, b12, b13, b23⟩ := hy
  -- along each row a parabola in x
  have row : ∀ y ∈ ys, p.a = q.a ∧ p.b * y + p.d = q.b * y + q.d := by
    intro y hy
    have e : ∀ (r : Pbl) (t : ℝ), (Par.mk r.a (r.b * y + r.d) (r.c * y ^ 2 + r.e * y + r.f)).eval t
        = r.eval t y := by
      intro r t; simp only [Par.eval, Pbl.eval]; ring
    have := par_unique (p := ⟨p.a, p.b * y + p.d, p.c * y ^ 2 + p.e * y + p.f⟩)
      (q := ⟨q.a, q.b * y + q.d, q.c * y ^ 2 + q.e * y + q.f⟩) a12 a13 a23
      (by rw [e, e]; exact h _ m1 _ hy) (by rw [e, e]; exact h _ m2 _ hy)
      (by rw [e, e]; exact h _ m3 _ hy)
    exact this
  have col : p.c = q.c ∧ p.b * x1 + p.e = q.b * x1 + q.e := by
    have e : ∀ (r : Pbl) (t : ℝ), (Par.mk r.c (r.b * x1 + r.e) (r.a * x1 ^ 2 + r.d * x1 + r.f)).eval t
        = r.eval x1 t := by
      intro r t; simp only [Par.eval, Pbl.eval]; ring
    have := par_unique (p := ⟨p.c, p.b * x1 + p.e, p.a * x1 ^ 2 + p.d * x1 + p.f⟩)
      (q := ⟨q.c, q.b * x1 + q.e, q.a * x1 ^ 2 + q.d * x1 + q.f⟩) b12 b13 b23
      (by rw [e, e]; exact h _ m1 _ n1) (by rw [e, e]; exact h _ m1 _ n2)
      (by rw [e, e]; exact h _ m1 _ n3)
    exact this
  have r1 := row y1 n1
  have r2 := row y2 n2
  have hb : p.b = q.b := by
    have : (y1 - y2) * (p.b - q.b) = 0 := by linear_combination r1.2 - r2.2
    have := (mul_eq_zero.1 this).resolve_left (sub_ne_zero.2 b12)
    linarith
  refine ⟨r1.1, hb, col.1, ?_, ?_⟩
  · have := r1.2; rw [hb] at this; linarith
  · have := col.2; rw [hb] at this; linarith

theorem mem_grid {xs ys : List ℝ} {cost : ℝ → ℝ → ℝ} {t : ℝ × ℝ × ℝ} :
    t ∈ grid xs ys cost ↔ t.1 ∈ xs ∧ t.2.1 ∈ ys ∧ t.2.2 = cost t.1 t.2.1 := by
  unfold grid
  rw [List.mem_flatMap]
  constructor
  · rintro ⟨y, hy, h⟩
    rw [List.mem_map] at h
    obtain ⟨x, hx, rfl⟩ := h
    exact ⟨hx, hy, rfl⟩
  · rintro ⟨hx, hy, h⟩
    refine ⟨t.2.1, hy, ?_⟩
    rw [List.mem_map]
    exact ⟨t.1, hx, by rw [← h]⟩

/-- **C95 (partial).** A paraboloid sampled on at least three different columns and rows: its
stationary point is returned exactly, when the largest sample is not zero and the tests for a
missing quadratic part pass. -/
theorem C95_exact2_partial {res : ℝ} (hr : 0 < res) {fit : List (ℝ × ℝ × ℝ) → Pbl}
    (hf : Reproduces2 fit) (q : Pbl) (xs ys : List ℝ) (hx : Three xs) (hy : Three ys) {m : ℝ}
    (hm : maxOf ((grid xs ys q.eval).map fun t => t.2.2) = some m) (h0 : m ≠ 0)
    (hd : 4 * res ≤ |(q.b * q.b - 4 * q.a * q.c) / m ^ 2|) (hc : 2 * res ≤ |2 * (q.c / m)|)
    {x y : ℝ} (hs : q.Stationary x y) :
    findOptimum2 res fit (grid xs ys q.eval) = .ok (x, y) := by
  let q' : Pbl := ⟨q.a / m, q.b / m, q.c / m, q.d / m, q.e / m, q.f / m⟩
  have hev : ∀ s t, q'.eval s t = q.eval s t / m := by
    intro s t; simp only [Pbl.eval, q']; ring
  set l := (grid xs ys q.eval).map fun t => (t.1, t.2.1, t.2.2 / m) with hl
  have hrep := hf l q' (by
    intro t ht
    rw [hl, List.mem_map] at ht
    obtain ⟨s, hs', rfl⟩ := ht
    rw [hev, (mem_grid.1 hs').2.2])
  have hag : ∀ s ∈ xs, ∀ t ∈ ys, (fit l).eval s t = q'.eval s t := by
    intro s hs' t ht
    have := hrep (s, t, q.eval s t / m) (by
      rw [hl, List.mem_map]
      exact ⟨(s, t, q.eval s t), mem_grid.2 ⟨hs', ht, rfl⟩, rfl⟩)
    rw [hev]; exact this
  obtain ⟨ea, eb, ec, ed, ee⟩ := pbl_unique hx hy hag
  have hdisc : (fit l).b * (fit l).b - 4 * (fit l).a * (fit l).c
      = (q.b * q.b - 4 * q.a * q.c) / m ^ 2 := by
    rw [ea, eb, ec]; simp only [q']; field_simp
  have hne : (fit l).b * (fit l).b - 4 * (fit l).a * (fit l).c ≠ 0 := by
    intro h; rw [hdisc] at h; rw [h, abs_zero] at hd; linarith
  have hok : ∃ xy, findOptimum2 res fit (grid xs ys q.eval) = .ok xy := by
    unfold findOptimum2
    rw [hm]
    dsimp only
    rw [if_neg h0, if_neg]
    · exact ⟨_, rfl⟩
    · push Not
      rw [← hl, hdisc]
      refine ⟨hd, ?_⟩
      rw [ec]; exact hc
  obtain ⟨xy, hxy⟩ := hok
  obtain ⟨m', hm', -, hst⟩ := C95_stationary hr hxy
  rw [hm] at hm'
  injection hm' with hm'
  subst hm'
  rw [← hl] at hst
  have hst' : (fit l).Stationary x y := by
    unfold Pbl.Stationary at hs ⊢
    rw [ea, eb, ec, ed, ee]
    simp only [q']
    constructor
    · have := hs.1; field_simp; linarith
    · have := hs.2; field_simp; linarith
  have := stationary_unique hne hst hst'
  rw [hxy]
  congr 1
  exact Prod.ext this.1 this.2

theorem exists_fit2 : ∃ fit, Reproduces2 fit := by
  classical
  refine ⟨fun l => if h : ∃ q : Pbl, ∀ t ∈ l, t.2.2 = q.eval t.1 t.2.1 then h.choose
    else ⟨0, 0, 0, 0, 0, 0⟩, ?_⟩
  intro l q hq t ht
  have h : ∃ q : Pbl, ∀ t ∈ l, t.2.2 = q.eval t.1 t.2.1 := ⟨q, hq⟩
  dsimp only
  rw [dif_pos h]
  exact (h.choose_spec t ht).symm

theorem three_ex : Three [-1, 0, 1] :=
  ⟨-1, by simp, 0, by simp, 1, by simp, by norm_num, by norm_num, by norm_num⟩

/-- **C95, violated.** A saddle point is accepted as the place of the largest energy:
`x² - y²`. -/
theorem C95_violated_saddle {fit : List (ℝ × ℝ × ℝ) → Pbl} (hf : Reproduces2 fit) :
    findOptimum2 (1 / 1000) fit (grid [-1, 0, 1] [-1, 0, 1] (Pbl.mk 1 0 (-1) 0 0 0).eval)
      = .ok (0, 0) := by
  apply C95_exact2_partial (by norm_num) hf _ _ _ three_ex three_ex (m := 1)
  · simp [grid, maxOf, Pbl.eval]
  · norm_num
  · norm_num
  · norm_num
  · unfold Pbl.Stationary; norm_num

/-! ## The iterated searches -/

/-- `np.arange(n) * step - (n - 1)/2 * step + est`. -/
def steps (n : ℕ) (step est : ℝ) : List ℝ :=
  (List.range n).map fun k : ℕ => (k : ℝ) * step - ((n : ℝ) - 1) / 2 * step + est

/-- One turn of the loop of `calc_star_location_from_spots`: `cost` depends on the offset from the
image centre, `g` is the guess, `est` the estimate relative to it. -/
def starStep (res : ℝ) (fit : List (ℝ × ℝ × ℝ) → Pbl) (cost : ℝ → ℝ → ℝ) (n : ℕ) (step : ℝ)
    (g est : ℝ × ℝ) : Except FitErr (ℝ × ℝ) :=
  findOptimum2 res fit
    (grid (steps n step est.1) (steps n step est.2) fun x y => cost (g.1 + x) (g.2 + y))

def starLoop (res : ℝ) (fit : List (ℝ × ℝ × ℝ) → Pbl) (cost : ℝ → ℝ → ℝ) (n : ℕ) (step : ℝ)
    (g : ℝ × ℝ) : ℕ → ℝ × ℝ → Except FitErr (ℝ × ℝ)
  | 0, est => .ok est
  | k + 1, est =>
    match starStep res fit cost n step g est with
    | .error e => .error e
    | .ok est' => starLoop res fit cost n step g k est'

/-- `calc_star_location_from_spots` (star_center.py 706-763). -/
def starLocation (res : ℝ) (fit : List (ℝ × ℝ × ℝ) → Pbl) (cost : ℝ → ℝ → ℝ) (n : ℕ) (step : ℝ)
    (nIter : ℕ) (g : ℝ × ℝ) : Except FitErr (ℝ × ℝ) :=
  match starLoop res fit cost n step g nIter (0, 0) with
  | .error e => .error e
  | .ok est => .ok (est.1 + g.1, est.2 + g.2)

theorem steps_three {n : ℕ} (hn : 3 ≤ n) {step : ℝ} (hs : step ≠ 0) (est : ℝ) :
    Three (steps n step est) := by
  have mem : ∀ k, k < n → (k : ℝ) * step - ((n : ℝ) - 1) / 2 * step + est ∈ steps n step est := by
    intro k hk
    unfold steps
    rw [List.mem_map]
    exact ⟨k, List.mem_range.2 hk, rfl⟩
  refine ⟨_, mem 0 (by omega), _, mem 1 (by omega), _, mem 2 (by omega), ?_, ?_, ?_⟩
  all_goals
    intro h
    apply hs
    push_cast at h
    linarith

/-- Moving the origin of a paraboloid. -/
def Pbl.shift (p : Pbl) (gx gy : ℝ) : Pbl :=
  ⟨p.a, p.b, p.c, 2 * p.a * gx + p.b * gy + p.d, p.b * gx + 2 * p.c * gy + p.e, p.eval gx gy⟩

theorem shift_eval (p : Pbl) (gx gy x y : ℝ) : (p.shift gx gy).eval x y = p.eval (gx + x) (gy + y) := by
  simp only [Pbl.shift, Pbl.eval]; ring

/-- The samples of one turn pass the tests of `find_optimum_2d`. -/
def GridOk (res : ℝ) (q : Pbl) (n : ℕ) (step : ℝ) (g est : ℝ × ℝ) : Prop :=
  ∃ m, maxOf ((grid (steps n step est.1) (steps n step est.2)
      (q.shift g.1 g.2).eval).map fun t => t.2.2) = some m ∧ m ≠ 0 ∧
    4 * res ≤ |(q.b * q.b - 4 * q.a * q.c) / m ^ 2| ∧ 2 * res ≤ |2 * (q.c / m)|

theorem starStep_exact {res : ℝ} (hr : 0 < res) {fit : List (ℝ × ℝ × ℝ) → Pbl}
    (hf : Reproduces2 fit) (q : Pbl) {n : ℕ} (hn : 3 ≤ n) {step : ℝ} (hs : step ≠ 0)
    (g est : ℝ × ℝ) (hok : GridOk res q n step g est) {x y : ℝ} (hst : q.Stationary x y) :
    starStep res fit q.eval n step g est = .ok (x - g.1, y - g.2) := by
  obtain ⟨m, hm, h0, hd, hc⟩ := hok
  unfold starStep
  have : (fun x y => q.eval (g.1 + x) (g.2 + y)) = (q.shift g.1 g.2).eval := by
    funext x y; exact (shift_eval q _ _ _ _).symm
  rw [this]
  refine C95_exact2_partial hr hf _ _ _ (steps_three hn hs _) (steps_three hn hs _) hm h0 hd hc ?_
  unfold Pbl.Stationary at hst ⊢
  simp only [Pbl.shift]
  constructor
  · linear_combination hst.1
  · linear_combination hst.2

/-- **C95 (partial).** If the energy is a paraboloid of the offset, the stationary point is found from
every guess, for any number of steps from three and any number of iterations from one. -/
theorem C95_star_partial {res : ℝ} (hr : 0 < res) {fit : List (ℝ × ℝ × ℝ) → Pbl}
    (hf : Reproduces2 fit) (q : Pbl) {n : ℕ} (hn : 3 ≤ n) {step : ℝ} (hs : step ≠ 0) (g : ℝ × ℝ)
    {x y : ℝ} (hst : q.Stationary x y) (k : ℕ) (hfirst : GridOk res q n step g (0, 0))
    (hlater : GridOk res q n step g (x - g.1, y - g.2)) :
    starLocation res fit q.eval n step (k + 1) g = .ok (x, y) := by
  have loop : ∀ j, starLoop res fit q.eval n step g j (x - g.1, y - g.2) = .ok (x - g.1, y - g.2) := by
    intro j
    induction j with
    | zero => rfl
    | succ j ih =>
      rw [starLoop, starStep_exact hr hf q hn hs g _ hlater hst]
      exact ih
  unfold starLocation
  rw [starLoop, starStep_exact hr hf q hn hs g _ hfirst hst]
  dsimp only
  rw [loop]
  dsimp only
  congr 1
  apply Prod.ext <;> dsimp only <;> ring

/-- **C95.** Without iterations the guess is returned. -/
theorem C95_no_iteration (res : ℝ) (fit : List (ℝ × ℝ × ℝ) → Pbl) (cost : ℝ → ℝ → ℝ) (n : ℕ)
    (step : ℝ) (g : ℝ × ℝ) : starLocation res fit cost n step 0 g = .ok g := by
  unfold starLocation starLoop
  simp

/-- Non-vacuous: `10 - (x - 0.5)² - y²` seen from the guess 0. -/
example : ∃ fit, Reproduces2 fit ∧
    starLocation (1 / 1000) fit (Pbl.mk (-1) 0 (-1) 1 0 (39 / 4)).eval 3 1 6 (0, 0)
      = .ok (1 / 2, 0) := by
  obtain ⟨fit, hf⟩ := exists_fit2
  refine ⟨fit, hf, ?_⟩
  have s3 : ∀ e : ℝ, steps 3 1 e = [-1 + e, 0 + e, 1 + e] := by
    intro e; simp [steps, List.range_succ]; norm_num
  refine C95_star_partial (by norm_num) hf _ (le_refl 3) one_ne_zero _ ?_ 5 ?_ ?_
  · unfold Pbl.Stationary; norm_num
  · refine ⟨39 / 4, ?_, by norm_num, by norm_num [abs_of_pos], by norm_num [abs_of_neg]⟩
    rw [s3]
    simp [grid, maxOf, Pbl.eval, Pbl.shift]
    norm_num
  · refine ⟨10, ?_, by norm_num, by norm_num [abs_of_pos], by norm_num [abs_of_neg]⟩
    rw [s3, s3]
    simp [grid, maxOf, Pbl.eval, Pbl.shift]
    norm_num

/-- Index of the first largest value (`np.argmax`). -/
def argMaxFrom : List ℝ → ℕ → ℕ → ℝ → ℕ
  | [], _, best, _ => best
  | v :: vs, i, best, b => if b < v then argMaxFrom vs (i + 1) i v else argMaxFrom vs (i + 1) best b

/-- `spotSepVec[np.argmax(costFuncVec)]`. -/
def argMaxAt (xs : List ℝ) (cost : ℝ → ℝ) : ℝ :=
  match xs with
  | [] => 0
  | x :: xs' => (x :: xs').getD (argMaxFrom (xs'.map cost) 1 0 (cost x)) 0

/-- One turn of `calc_spot_separation`; `first` is `iter_ == 0 and nIter > 1`. -/
def sepStep (eps : ℝ) (fit : List (ℝ × ℝ) → Par) (cost : ℝ → ℝ) (n : ℕ) (step : ℝ) (first : Bool)
    (est : ℝ) : Except FitErr ℝ :=
  if first then .ok (argMaxAt (steps n step est) cost)
  else findOptimum1 eps fit (steps n step est) ((steps n step est).map cost)

def sepLoop (eps : ℝ) (fit : List (ℝ × ℝ) → Par) (cost : ℝ → ℝ) (n : ℕ) (step : ℝ) :
    ℕ → ℝ → Except FitErr ℝ
  | 0, est => .ok est
  | k + 1, est =>
    match sepStep eps fit cost n step false est with
    | .error e => .error e
    | .ok est' => sepLoop eps fit cost n step k est'

/-- `calc_spot_separation` (star_center.py 848-903). -/
def separation (eps : ℝ) (fit : List (ℝ × ℝ) → Par) (cost : ℝ → ℝ) (n : ℕ) (step : ℝ) (nIter : ℕ)
    (guess : ℝ) : Except FitErr ℝ :=
  if 1 < nIter then
    match sepStep eps fit cost n step true guess with
    | .error e => .error e
    | .ok est => sepLoop eps fit cost n step (nIter - 1) est
  else sepLoop eps fit cost n step nIter guess

/-- The samples of one turn pass the test of `find_optimum_1d`. -/
def LineOk (eps : ℝ) (q : Par) (n : ℕ) (step est : ℝ) : Prop :=
  ∃ m, maxOf ((steps n step est).map q.eval) = some m ∧ m ≠ 0 ∧ eps ≤ |q.a / m|

theorem sepStep_exact {eps : ℝ} {fit : List (ℝ × ℝ) → Par} (hf : Reproduces1 fit) (q : Par)
    (ha : q.a ≠ 0) {n : ℕ} (hn : 3 ≤ n) {step : ℝ} (hs : step ≠ 0) (est : ℝ)
    (hok : LineOk eps q n step est) :
    sepStep eps fit q.eval n step false est = .ok (-q.b / (2 * q.a)) := by
  obtain ⟨m, hm, h0, he⟩ := hok
  obtain ⟨x, hx, y, hy, z, hz, hxy, hxz, hyz⟩ := steps_three hn hs est
  unfold sepStep
  rw [if_neg (by simp)]
  exact C95_exact1_partial hf q _ hx hy hz hxy hxz hyz hm h0 ha he

/-- The estimate with which the quadratic fits start: the best sample of the first turn, or the guess
if there is only one turn. -/
def sepStart (cost : ℝ → ℝ) (n : ℕ) (step : ℝ) (nIter : ℕ) (guess : ℝ) : ℝ :=
  if 1 < nIter then argMaxAt (steps n step guess) cost else guess

/-- **C95 (partial).** If the energy is a parabola of the separation, its vertex is found. -/
theorem C95_separation_partial {eps : ℝ} {fit : List (ℝ × ℝ) → Par} (hf : Reproduces1 fit) (q : Par)
    (ha : q.a ≠ 0) {n : ℕ} (hn : 3 ≤ n) {step : ℝ} (hs : step ≠ 0) (guess : ℝ) (nIter : ℕ)
    (hi : 1 ≤ nIter) (hfirst : LineOk eps q n step (sepStart q.eval n step nIter guess))
    (hlater : LineOk eps q n step (-q.b / (2 * q.a))) :
    separation eps fit q.eval n step nIter guess = .ok (-q.b / (2 * q.a)) := by
  have loop : ∀ k, sepLoop eps fit q.eval n step k (-q.b / (2 * q.a)) = .ok (-q.b / (2 * q.a)) := by
    intro k
    induction k with
    | zero => rfl
    | succ k ih =>
      rw [sepLoop, sepStep_exact hf q ha hn hs _ hlater]
      exact ih
  unfold separation
  unfold sepStart at hfirst
  split_ifs at hfirst ⊢ with h
  · unfold sepStep
    rw [if_pos rfl]
    dsimp only
    obtain ⟨k, hk⟩ : ∃ k, nIter - 1 = k + 1 := ⟨nIter - 2, by omega⟩
    rw [hk, sepLoop, sepStep_exact hf q ha hn hs _ hfirst]
    exact loop k
  · obtain rfl : nIter = 1 := by omega
    rw [sepLoop, sepStep_exact hf q ha hn hs _ hfirst]
    exact loop 0

theorem argMaxFrom_spec (vs : List ℝ) : ∀ (pre : List ℝ) (best : ℕ) (b : ℝ), pre[best]? = some b →
    (∀ (j : ℕ) (w : ℝ), pre[j]? = some w → w ≤ b ∧ (j < best → w < b)) →
    ∃ v, (pre ++ vs)[argMaxFrom vs pre.length best b]? = some v ∧
      ∀ (j : ℕ) (w : ℝ), (pre ++ vs)[j]? = some w →
        w ≤ v ∧ (j < argMaxFrom vs pre.length best b → w < v) := by
  induction vs with
  | nil =>
    intro pre best b hb hall
    rw [List.append_nil]
    exact ⟨b, hb, hall⟩
  | cons v vs ih =>
    intro pre best b hb hall
    have happ : pre ++ v :: vs = (pre ++ [v]) ++ vs := by simp
    have hlen : (pre ++ [v]).length = pre.length + 1 := by simp
    have hlt : best < pre.length := by
      rw [List.getElem?_eq_some_iff] at hb; exact hb.1
    have get : ∀ (j : ℕ) (w : ℝ), (pre ++ [v])[j]? = some w →
        pre[j]? = some w ∨ (j = pre.length ∧ w = v) := by
      intro j w hj
      rw [List.getElem?_append] at hj
      split_ifs at hj with h
      · exact Or.inl hj
      · right
        obtain ⟨hlt', he⟩ := List.getElem?_eq_some_iff.1 hj
        simp at hlt' he
        exact ⟨by omega, he.symm⟩
    rw [argMaxFrom, happ]
    split_ifs with hc
    · rw [← hlen]
      apply ih (pre ++ [v]) pre.length v (by simp)
      intro j w hj
      rcases get j w hj with h | ⟨rfl, rfl⟩
      · have := (hall j w h).1
        exact ⟨by linarith, fun _ => by linarith⟩
      · exact ⟨le_refl _, fun h => absurd h (lt_irrefl _)⟩
    · rw [← hlen]
      apply ih (pre ++ [v]) best b (by rw [List.getElem?_append_left hlt]; exact hb)
      intro j w hj
      rcases get j w hj with h | ⟨rfl, rfl⟩
      · exact hall j w h
      · exact ⟨not_lt.1 hc, fun h => absurd h (by omega)⟩

/-- **C95.** The first turn takes a sampled separation of largest energy. -/
theorem C95_first_turn (xs : List ℝ) (cost : ℝ → ℝ) (hne : xs ≠ []) :
    argMaxAt xs cost ∈ xs ∧ ∀ x ∈ xs, cost x ≤ cost (argMaxAt xs cost) := by
  cases xs with
  | nil => exact absurd rfl hne
  | cons x xs =>
    obtain ⟨v, hv, hall⟩ := argMaxFrom_spec (xs.map cost) [cost x] 0 (cost x) rfl (by
      intro j w hj
      cases j with
      | zero => simp at hj; exact ⟨by rw [hj], fun h => absurd h (lt_irrefl 0)⟩
      | succ j => simp at hj)
    have happ : [cost x] ++ xs.map cost = (x :: xs).map cost := rfl
    rw [happ] at hv hall
    rw [List.length_singleton] at hv hall
    rw [List.getElem?_map, Option.map_eq_some_iff] at hv
    obtain ⟨y, hy, hyv⟩ := hv
    have hat : argMaxAt (x :: xs) cost = y := by
      unfold argMaxAt
      dsimp only
      rw [List.getD_eq_getElem?_getD, hy]
      rfl
    rw [hat]
    refine ⟨List.mem_of_getElem? hy, ?_⟩
    intro z hz
    obtain ⟨j, hj⟩ := List.mem_iff_getElem?.1 hz
    rw [hyv]
    exact (hall j (cost z) (by rw [List.getElem?_map, hj]; rfl)).1

/-- Non-vacuous: `10 - (s - 15)²`, started at the vertex. -/
example : ∃ fit, Reproduces1 fit ∧
    separation (1 / 1000) fit (Par.mk (-1) 30 (-215)).eval 3 1 1 15 = .ok 15 := by
  obtain ⟨fit, hf⟩ := exists_fit1
  refine ⟨fit, hf, ?_⟩
  have s3 : steps 3 1 (15 : ℝ) = [14, 15, 16] := by
    simp [steps, List.range_succ]; norm_num
  have hok : LineOk (1 / 1000) (Par.mk (-1) 30 (-215)) 3 1 15 := by
    refine ⟨10, ?_, by norm_num, by norm_num [abs_of_neg]⟩
    rw [s3]
    simp [maxOf, Par.eval]
    norm_num
  have h15 : (15 : ℝ) = -30 / (2 * (-1)) := by norm_num
  have hok' : LineOk (1 / 1000) (Par.mk (-1) 30 (-215)) 3 1
      (sepStart (Par.mk (-1) 30 (-215)).eval 3 1 1 15) := hok
  have := C95_separation_partial hf (Par.mk (-1) 30 (-215)) (by norm_num) (le_refl 3) one_ne_zero 15 1
    (le_refl 1) hok' (by rw [← h15]; exact hok)
  rw [this, ← h15]

/-! ## Assembly (star_center.py 980-1036) -/

/-- What `star_center_from_satellite_spots` returns, given the estimated offset and separation: the
star and the spot positions. -/
def assemble (rows cols : ℕ) (off : ℝ × ℝ) (sep theta : ℝ) (angles : List ℝ) :
    (ℝ × ℝ) × List (ℝ × ℝ) :=
  ((off.1 + (cols / 2 : ℕ), off.2 + (rows / 2 : ℕ)),
   angles.flatMap fun a =>
    [(pair (a + theta) sep off.1 off.2).1, (pair (a + theta) sep off.1 off.2).2])

/-- The offset guess from the absolute guess (star_center.py 987-991). -/
def offsetGuess (rows cols : ℕ) (g : ℝ × ℝ) : ℝ × ℝ := (g.1 - (cols / 2 : ℕ), g.2 - (rows / 2 : ℕ))

/-- **C95.** Absolute positions are converted back consistently: an unchanged guess is returned, and
the mask of `circle` at the estimated offset is centred on the returned star. -/
theorem C95_absolute (rows cols : ℕ) (hc : 2 ≤ cols) (hr : 2 ≤ rows) (g : ℝ × ℝ) (sep theta : ℝ)
    (angles : List ℝ) (off : ℝ × ℝ) (row col : ℕ) :
    (assemble rows cols (offsetGuess rows cols g) sep theta angles).1 = g ∧
    coord cols col off.1 = col - (assemble rows cols off sep theta angles).1.1 ∧
    coord rows row off.2 = row - (assemble rows cols off sep theta angles).1.2 := by
  refine ⟨?_, ?_, ?_⟩
  · unfold assemble offsetGuess; dsimp only; apply Prod.ext <;> dsimp only <;> ring
  · rw [C94_centre _ _ _ hc]; unfold assemble; dsimp only; ring
  · rw [C94_centre _ _ _ hr]; unfold assemble; dsimp only; ring

/-- **C95, violated.** The returned spot positions are offsets from the image centre, the star is
absolute: the star is not midway between its spots on any image of two or more columns. -/
theorem C95_violated_spots (rows cols : ℕ) (hc : 2 ≤ cols) (off : ℝ × ℝ) (sep theta a : ℝ) :
    ∃ p q, (assemble rows cols off sep theta [a]).2 = [p, q] ∧
      (p.1 + q.1) / 2 ≠ (assemble rows cols off sep theta [a]).1.1 := by
  refine ⟨_, _, rfl, ?_⟩
  have := (C94_pair (a + theta) sep off.1 off.2).1
  rw [this]
  unfold assemble
  dsimp only
  intro h
  have h2 : ((cols / 2 : ℕ) : ℝ) = 0 := by linarith
  have h3 : cols / 2 = 0 := by exact_mod_cast h2
  omega

/-- The whole routine: `energy theta x y` and `energy1 x y` stand for the sums over the image with the
masks; the masks of the fit are made without the rotation (star_center.py 724, 861). -/
def starCenter (res : ℝ) (fit : List (ℝ × ℝ × ℝ) → Pbl) (energy : ℝ → ℝ → ℝ → ℝ) (rows cols n : ℕ)
    (step : ℝ) (nIter : ℕ) (guess : ℝ × ℝ) (_theta : ℝ) : Except FitErr (ℝ × ℝ) :=
  match starLocation res fit (energy 0) n step nIter (offsetGuess rows cols guess) with
  | .error e => .error e
  | .ok off => .ok (off.1 + (cols / 2 : ℕ), off.2 + (rows / 2 : ℕ))

/-- **C95 (partial).** If the energy of the masks that are not rotated is a paraboloid of the offset, the whole routine returns its
stationary point, counted from the corner of the image, whatever the energy of rotated masks. -/
theorem C95_center_partial {res : ℝ} (hr : 0 < res) {fit : List (ℝ × ℝ × ℝ) → Pbl} (hf : Reproduces2 fit) (q : Pbl) {n : ℕ} (hn : 3 ≤ n)
    {step : ℝ} (hs : step ≠ 0) (rows cols : ℕ) (guess : ℝ × ℝ) {x y : ℝ} (hst : q.Stationary x y) (k : ℕ)
    (energy : ℝ → ℝ → ℝ → ℝ) (he : energy 0 = q.eval) (θ : ℝ)
    (hfirst : GridOk res q n step (guess.1 - (cols / 2 : ℕ), guess.2 - (rows / 2 : ℕ)) (0, 0))
    (hlater : GridOk res q n step (guess.1 - (cols / 2 : ℕ), guess.2 - (rows / 2 : ℕ))
      (x - (guess.1 - (cols / 2 : ℕ)), y - (guess.2 - (rows / 2 : ℕ)))) :
    starCenter res fit energy rows cols n step (k + 1) guess θ = .ok (x + (cols / 2 : ℕ), y + (rows / 2 : ℕ)) := by
  unfold starCenter
  rw [he, offsetGuess, C95_star_partial hr hf q hn hs _ hst k hfirst hlater]

/-- **C95, violated.** `thetaOffsetGuess` has no influence on the star position, although spots that
are rotated on the detector need rotated masks. -/
theorem C95_violated_theta (res : ℝ) (fit : List (ℝ × ℝ × ℝ) → Pbl) (energy : ℝ → ℝ → ℝ → ℝ)
    (rows cols n : ℕ) (step : ℝ) (nIter : ℕ) (guess : ℝ × ℝ) (θ θ' : ℝ) :
    starCenter res fit energy rows cols n step nIter guess θ
      = starCenter res fit energy rows cols n step nIter guess θ' := rfl

end

end Corgi.StarCenter

import Mathlib.Algebra.Order.Ring.Rat
import Mathlib.Algebra.Order.Field.Basic
import Mathlib.Data.List.Sort
import Mathlib.Data.List.Range
import Mathlib.Tactic.Linarith
import Mathlib.Tactic.FieldSimp
import Mathlib.Tactic.Ring
import Mathlib.Tactic.NormNum
import Verif.Detector.NonLin

/-!
# The table of the non-linearity calibration (calibrate_nonlin.py 326-334, 699-734, 763-776, 804-830): model and C108

Rationals for floats. `lowess` is a parameter: from points in ascending order of the signal it makes smoothed relative gains
in this order (statsmodels returns sorted results by default). `np.polyfit` is a parameter too (`line`).
-/

namespace Corgi.NonlinTable

open Corgi.NonLin (Table Good Rect)

/-! ## The points that are fitted (lines 698-712) -/

/-- `l[a:b]` -/
def slice {α : Type} (a b : ℤ) (l : List α) : List α :=
  let n : ℤ := l.length
  let lim (i : ℤ) : ℕ := (if i < 0 then max 0 (i + n) else min i n).toNat
  (l.take (lim b)).drop (lim a)

def fitPoints {α : Type} (rms low upp : ℚ) (cut1 cut2 : ℤ × ℤ) (l : List α) : List α :=
  if rms < low then l else if low ≤ rms ∧ rms < upp then slice cut1.1 cut1.2 l else slice cut2.1 cut2.2 l

/-- **C108.** Good data are fitted completely; with the default limits (2, -2) and (1, -3) for worse data, two points at each
end, or the first and the last three, are left out. -/
theorem C108_fit_points {α : Type} (rms low upp : ℚ) (l : List α) (hlu : low < upp) (hl : 5 ≤ l.length) :
    (rms < low → fitPoints rms low upp (2, -2) (1, -3) l = l) ∧
    (low ≤ rms → rms < upp → fitPoints rms low upp (2, -2) (1, -3) l = (l.take (l.length - 2)).drop 2) ∧
    (upp ≤ rms → fitPoints rms low upp (2, -2) (1, -3) l = (l.take (l.length - 3)).drop 1) := by
  unfold fitPoints
  refine ⟨fun h => if_pos h, fun h1 h2 => ?_, fun h => ?_⟩
  · rw [if_neg (not_lt.2 h1), if_pos ⟨h1, h2⟩]
    unfold slice
    dsimp only
    congr 1 <;> [skip; congr 1] <;> simp <;> omega
  · rw [if_neg (by linarith), if_neg (by rintro ⟨-, h'⟩; linarith)]
    unfold slice
    dsimp only
    congr 1 <;> [skip; congr 1] <;> simp <;> omega

/-! ## Smoothing and interpolation (lines 729-734, 766-769) -/

def line (p q : ℚ × ℚ) (x : ℚ) : ℚ := p.2 + (q.2 - p.2) * ((x - p.1) / (q.1 - p.1))

/-- Linear `interp1d` with `fill_value='extrapolate'`, for points in ascending order. -/
def interpE : List (ℚ × ℚ) → ℚ → ℚ
  | [], _ => 0
  | [p], _ => p.2
  | [p, q], x => line p q x
  | p :: q :: r :: l, x => if x ≤ q.1 then line p q x else interpE (q :: r :: l) x

def sortPts (l : List (ℚ × ℚ)) : List (ℚ × ℚ) := l.insertionSort fun a b => a.1 ≤ b.1

/-- `interp_func`. `pts`: signal and relative gain, in ascending order of exposure time. The signals in this order are joined
with smoothed gains in ascending order of the signal; `interp1d` then sorts the pairs. -/
def curve (lowess : List (ℚ × ℚ) → List ℚ) (pts : List (ℚ × ℚ)) : ℚ → ℚ :=
  interpE (sortPts ((pts.map Prod.fst).zip (lowess (sortPts pts))))

theorem interpE_at : ∀ (l : List (ℚ × ℚ)), (l.map Prod.fst).Pairwise (· < ·) → ∀ p ∈ l, interpE l p.1 = p.2 := by
  intro l
  induction l with
  | nil => intro _ p hp; cases hp
  | cons a l ih =>
    intro hs p hp
    match l, ih, hs, hp with
    | [], _, _, hp => simp at hp; rw [hp]; rfl
    | [q], _, hs, hp =>
      have hlt : a.1 < q.1 := by simpa using hs
      have hne : q.1 - a.1 ≠ 0 := by intro h; linarith
      simp only [List.mem_cons, List.not_mem_nil, or_false] at hp
      rcases hp with rfl | rfl
      · simp [interpE, line]
      · simp only [interpE, line]; rw [div_self hne]; ring
    | q :: r :: l, ih, hs, hp =>
      rw [List.map_cons, List.pairwise_cons] at hs
      have hlt : a.1 < q.1 := hs.1 _ (by simp)
      have hne : q.1 - a.1 ≠ 0 := by intro h; linarith
      rcases List.mem_cons.1 hp with rfl | hp
      · simp [interpE, line, hlt.le]
      · rcases List.mem_cons.1 hp with rfl | hp'
        · simp only [interpE, le_refl, if_true, line]; rw [div_self hne]; ring
        · have hq : q.1 < p.1 := by
            have := hs.2
            rw [List.map_cons, List.pairwise_cons] at this
            exact this.1 _ (List.mem_map.2 ⟨p, hp', rfl⟩)
          rw [interpE, if_neg (not_le.2 hq)]
          exact ih hs.2 p hp

theorem sortPts_eq (l : List (ℚ × ℚ)) (h : (l.map Prod.fst).Pairwise (· < ·)) : sortPts l = l := by
  unfold sortPts
  apply List.Pairwise.insertionSort_eq
  exact (List.pairwise_map.1 h).imp fun hab => hab.le

/-- **C108 (partial).** If the signal increases with the exposure time, the curve passes through the smoothed gains at their
signals. -/
theorem C108_pairing_partial (lowess : List (ℚ × ℚ) → List ℚ) (pts : List (ℚ × ℚ))
    (hs : (pts.map Prod.fst).Pairwise (· < ·)) (hl : (lowess pts).length = pts.length) (i : ℕ) (s g : ℚ)
    (h1 : (pts.map Prod.fst)[i]? = some s) (h2 : (lowess pts)[i]? = some g) : curve lowess pts s = g := by
  unfold curve
  rw [sortPts_eq pts hs]
  have e : ((pts.map Prod.fst).zip (lowess pts)).map Prod.fst = pts.map Prod.fst :=
    List.map_fst_zip (by simp [hl])
  rw [sortPts_eq _ (by rw [e]; exact hs)]
  apply interpE_at _ (by rw [e]; exact hs) (s, g)
  apply List.mem_of_getElem? (i := i)
  rw [List.getElem?_zip_eq_some]
  exact ⟨h1, h2⟩

/-- **C108, violated.** If a longer exposure gives a smaller signal, gains are attributed to the wrong signals: with two
points and no smoothing, each signal gets the gain of the other. -/
theorem C108_violated_order (s1 s2 g1 g2 : ℚ) (h : s2 < s1) :
    curve (List.map Prod.snd) [(s1, g1), (s2, g2)] s1 = g2 ∧ curve (List.map Prod.snd) [(s1, g1), (s2, g2)] s2 = g1 := by
  have e1 : sortPts [(s1, g1), (s2, g2)] = [(s2, g2), (s1, g1)] := by
    simp [sortPts, List.insertionSort, List.orderedInsert, not_le.2 h]
  have e2 : sortPts [(s1, g2), (s2, g1)] = [(s2, g1), (s1, g2)] := by
    simp [sortPts, List.insertionSort, List.orderedInsert, not_le.2 h]
  have e3 : curve (List.map Prod.snd) [(s1, g1), (s2, g2)] = interpE [(s2, g1), (s1, g2)] := by
    unfold curve
    rw [e1]
    show interpE (sortPts [(s1, g2), (s2, g1)]) = _
    rw [e2]
  rw [e3]
  have hp : ([(s2, g1), (s1, g2)].map Prod.fst).Pairwise (· < ·) := by simpa using h
  exact ⟨interpE_at _ hp (s1, g2) (by simp), interpE_at _ hp (s2, g1) (by simp)⟩

/-! ## Columns (lines 763-776, 804-807) -/

/-- `mean_linspace` -/
def grid : List ℚ := (List.range 700).map fun i : ℕ => 20 + (i : ℚ) * ((14000 - 20) / 699)

/-- One column; `none`: `norm_val` is not in the grid (IndexError). -/
def column (c : ℚ → ℚ) (norm : ℚ) : Option (List ℚ) :=
  if norm ∈ grid then some (grid.map fun x => 1 / (c x / c norm)) else none

theorem mem_grid (x : ℚ) : x ∈ grid ↔ ∃ k : ℕ, 1 ≤ k ∧ k ≤ 700 ∧ x = 20 * k := by
  unfold grid
  rw [List.mem_map]
  constructor
  · rintro ⟨i, hi, rfl⟩
    rw [List.mem_range] at hi
    exact ⟨i + 1, by omega, by omega, by push_cast; ring⟩
  · rintro ⟨k, h1, h2, rfl⟩
    refine ⟨k - 1, List.mem_range.2 (by omega), ?_⟩
    rw [Nat.cast_sub h1]; push_cast; ring

theorem grid_sorted : grid.Pairwise (· < ·) := by
  unfold grid
  rw [List.pairwise_map]
  refine List.pairwise_lt_range.imp ?_
  intro a b h
  have : (a : ℚ) < b := by exact_mod_cast h
  norm_num
  linarith

/-- **C108, violated.** A value of `norm_val` which passes the checks (a positive multiple of 20) works exactly if it is at
most 14000. -/
theorem C108_violated_norm (c : ℚ → ℚ) (k : ℕ) (hk : 1 ≤ k) : (∃ col, column c (20 * k) = some col) ↔ k ≤ 700 := by
  unfold column
  constructor
  · rintro ⟨col, h⟩
    by_cases hm : (20 * k : ℚ) ∈ grid
    · obtain ⟨j, -, h2, h3⟩ := (mem_grid _).1 hm
      have : (k : ℚ) = j := by linarith
      have : k = j := by exact_mod_cast this
      omega
    · rw [if_neg hm] at h; cases h
  · intro h
    exact ⟨_, if_pos ((mem_grid _).2 ⟨k, hk, h, rfl⟩)⟩

/-- **C108.** Entry `i` of a column belongs to 20(i + 1) DN and is the gain at `norm_val` over the gain there. -/
theorem C108_column (c : ℚ → ℚ) (norm : ℚ) (col : List ℚ) (h : column c norm = some col) :
    norm ∈ grid ∧ col.length = 700 ∧ ∀ i : ℕ, i < 700 → col[i]? = some (c norm / c (20 * (i + 1))) := by
  unfold column at h
  by_cases hm : norm ∈ grid
  · rw [if_pos hm] at h
    have h' := Option.some.inj h
    subst h'
    refine ⟨hm, by rw [List.length_map]; unfold grid; rw [List.length_map, List.length_range], fun i hi => ?_⟩
    unfold grid
    rw [List.getElem?_map, List.getElem?_map, List.getElem?_range hi]
    simp only [Option.map_some, Option.some.injEq]
    have e : (20 + (i : ℚ) * ((14000 - 20) / 699)) = 20 * (i + 1) := by ring
    rw [e, one_div_div]
  · rw [if_neg hm] at h; cases h

/-! ## The table (lines 809-822) -/

/-- Rows of the array after lines 810-815: DN value and one entry for each gain. -/
def rows (minW maxW : ℚ) (cs : List (ℚ → ℚ)) (norm : ℚ) : List (ℚ × List ℚ) :=
  ((grid.map fun x => (x, cs.map fun c => 1 / (c x / c norm))).filter fun r => decide (minW ≤ r.1)).filter
    fun r => decide (r.1 ≤ maxW)

/-- `reshape(n, w)` -/
def reshape {α : Type} (w : ℕ) : ℕ → List α → List (List α)
  | 0, _ => []
  | n + 1, l => l.take w :: reshape w n (l.drop w)

/-- Lines 819-822; `np.insert` without axis flattens. -/
def array (gains : List ℚ) (rs : List (ℚ × List ℚ)) : List (List (Option ℚ)) :=
  let head := none :: gains.map some
  reshape head.length (rs.length + 1) (head ++ rs.flatMap fun r => some r.1 :: r.2.map some)

/-- The whole: `none` if `norm_val` is not in the grid. -/
def table (minW maxW norm : ℚ) (gains : List ℚ) (cs : List (ℚ → ℚ)) : Option (List (List (Option ℚ))) :=
  if norm ∈ grid then some (array gains (rows minW maxW cs norm)) else none

theorem reshape_flatten {α : Type} (w : ℕ) : ∀ (ls : List (List α)), (∀ l ∈ ls, l.length = w) →
    reshape w ls.length ls.flatten = ls := by
  intro ls
  induction ls with
  | nil => intro _; rfl
  | cons l ls ih =>
    intro h
    have hl := h l List.mem_cons_self
    rw [List.length_cons, List.flatten_cons, reshape, List.take_left' hl, List.drop_left' hl,
      ih fun l hl => h l (List.mem_cons_of_mem _ hl)]

/-- **C108.** Row 0 of the array holds NaN and the gains, every other row a DN value and its entries, one for each gain. -/
theorem C108_layout (gains : List ℚ) (rs : List (ℚ × List ℚ)) (h : ∀ r ∈ rs, r.2.length = gains.length) :
    array gains rs = (none :: gains.map some) :: rs.map fun r => some r.1 :: r.2.map some := by
  unfold array
  dsimp only
  have := reshape_flatten (none :: gains.map some : List (Option ℚ)).length
    ((none :: gains.map some) :: rs.map fun r => some r.1 :: r.2.map some) (by
      intro l hl
      rcases List.mem_cons.1 hl with rfl | hl
      · rfl
      · obtain ⟨r, hr, rfl⟩ := List.mem_map.1 hl
        simp [h r hr])
  rw [List.flatten_cons, ← List.flatMap_def] at this
  simpa using this

theorem rows_length (minW maxW : ℚ) (cs : List (ℚ → ℚ)) (norm : ℚ) (r : ℚ × List ℚ) (h : r ∈ rows minW maxW cs norm) :
    r.2.length = cs.length := by
  unfold rows at h
  obtain ⟨x, -, rfl⟩ := List.mem_map.1 (List.mem_filter.1 (List.mem_filter.1 h).1).1
  simp

/-- **C108.** The rows are those of the multiples of 20 DN between the limits, up to 14000; the entries are the inverse of
the gain relative to that at `norm_val`. -/
theorem C108_rows (minW maxW : ℚ) (cs : List (ℚ → ℚ)) (norm : ℚ) (r : ℚ × List ℚ) :
    r ∈ rows minW maxW cs norm ↔ (∃ k : ℕ, 1 ≤ k ∧ k ≤ 700 ∧ r.1 = 20 * k) ∧ minW ≤ r.1 ∧ r.1 ≤ maxW ∧
      r.2 = cs.map fun c => c norm / c r.1 := by
  unfold rows
  rw [List.mem_filter, List.mem_filter, List.mem_map, decide_eq_true_iff, decide_eq_true_iff, ← mem_grid]
  constructor
  · rintro ⟨⟨⟨x, hx, rfl⟩, h1⟩, h2⟩
    exact ⟨hx, h1, h2, by simp⟩
  · rintro ⟨h1, h2, h3, h4⟩
    exact ⟨⟨⟨r.1, h1, by rw [Prod.ext_iff]; exact ⟨rfl, by rw [h4]; simp⟩⟩, h2⟩, h3⟩

/-- **C108.** They are in ascending order. -/
theorem C108_ascending (minW maxW : ℚ) (cs : List (ℚ → ℚ)) (norm : ℚ) :
    ((rows minW maxW cs norm).map Prod.fst).Pairwise (· < ·) := by
  rw [List.pairwise_map]
  unfold rows
  apply List.Pairwise.filter
  apply List.Pairwise.filter
  rw [List.pairwise_map]
  exact grid_sorted

/-- **C108, violated.** Documented are values from `min_write` through `max_write`: neither need be among the rows, and
nothing above 14000 ever is. -/
theorem C108_violated_limits (minW maxW : ℚ) (cs : List (ℚ → ℚ)) (norm : ℚ) :
    ((∀ k : ℕ, minW ≠ 20 * k) → ∀ r ∈ rows minW maxW cs norm, r.1 ≠ minW) ∧
    ((∀ k : ℕ, maxW ≠ 20 * k) → ∀ r ∈ rows minW maxW cs norm, r.1 ≠ maxW) ∧
    ∀ r ∈ rows minW maxW cs norm, r.1 ≤ 14000 := by
  refine ⟨fun h r hr e => ?_, fun h r hr e => ?_, fun r hr => ?_⟩
  · obtain ⟨⟨k, -, -, hk⟩, -⟩ := (C108_rows ..).1 hr
    exact h k (by rw [← e, hk])
  · obtain ⟨⟨k, -, -, hk⟩, -⟩ := (C108_rows ..).1 hr
    exact h k (by rw [← e, hk])
  · obtain ⟨⟨k, -, h2, hk⟩, -⟩ := (C108_rows ..).1 hr
    rw [hk]
    have : (k : ℚ) ≤ 700 := by exact_mod_cast h2
    linarith

/-- **C108.** At `norm_val` all entries are one. -/
theorem C108_norm (minW maxW : ℚ) (cs : List (ℚ → ℚ)) (norm : ℚ) (hn : norm ∈ grid) (h1 : minW ≤ norm) (h2 : norm ≤ maxW)
    (h0 : ∀ c ∈ cs, c norm ≠ 0) : (norm, cs.map fun _ => (1 : ℚ)) ∈ rows minW maxW cs norm := by
  rw [C108_rows]
  refine ⟨(mem_grid _).1 hn, h1, h2, List.map_congr_left fun c hc => ?_⟩
  exact (div_self (h0 c hc)).symm

/-- The calibration as `get_relgains` reads it (C32). -/
def asTable (minW maxW norm : ℚ) (gains : List ℚ) (cs : List (ℚ → ℚ)) : Table ℚ := ⟨gains, rows minW maxW cs norm⟩

/-- **C108.** The table made is one that the correction accepts (C32) exactly if there are at least two gains, in strictly
increasing order, and at least two rows. The other conditions always hold. -/
theorem C108_usable (minW maxW norm : ℚ) (gains : List ℚ) (cs : List (ℚ → ℚ)) (hn : norm ∈ grid) (h1 : minW ≤ norm)
    (h2 : norm ≤ maxW) (h0 : ∀ c ∈ cs, c norm ≠ 0) (hl : cs.length = gains.length) :
    Rect (asTable minW maxW norm gains cs) ∧ (Good (asTable minW maxW norm gains cs) ↔
      gains.Pairwise (· < ·) ∧ 2 ≤ gains.length ∧ 2 ≤ (rows minW maxW cs norm).length) := by
  have a1 := rows_length minW maxW cs norm
  have a2 := C108_ascending minW maxW cs norm
  have a3 := C108_norm minW maxW cs norm hn h1 h2 h0
  unfold asTable
  generalize rows minW maxW cs norm = rs at a1 a2 a3
  refine ⟨fun r hr => (a1 r hr).trans hl, ⟨fun h => ⟨h.gains_inc, h.two_gains, h.two_counts⟩, fun h =>
    ⟨h.1, a2, h.2.1, h.2.2, fun j hj => ?_⟩⟩⟩
  have hm : (1 : ℚ) ∈ (Table.mk gains rs).column j := by
    unfold Table.column
    rw [List.mem_filterMap]
    refine ⟨_, a3, ?_⟩
    have hj' : j < cs.length := by rw [hl]; exact hj
    rw [List.getElem?_map, List.getElem?_eq_getElem hj']; rfl
  exact ⟨⟨1, hm, le_rfl⟩, ⟨1, hm, le_rfl⟩⟩

/-- **C108, violated.** A calibration with one gain is made without complaint, and refused when it is used. -/
theorem C108_violated_single (minW maxW norm g : ℚ) (c : ℚ → ℚ) (hn : norm ∈ grid) (frame : List (Option ℚ)) (em : ℚ) :
    (∃ a, table minW maxW norm [g] [c] = some a) ∧
      ∀ r, NonLin.relgains frame em (some (asTable minW maxW norm [g] [c])) ≠ .ok r := by
  refine ⟨⟨_, if_pos hn⟩, fun r h => ?_⟩
  have := (NonLin.C32_accepts_iff frame em (asTable minW maxW norm [g] [c])).1 ⟨r, h⟩
  have h2 := this.two_gains
  simp [asTable] at h2

/-- **C108.** What the table is for: where a measured signal is a DN value of the table and nothing is smoothed, signal times
entry is the fitted value, times one factor common to the column. -/
theorem C108_corrects (pts : List (ℚ × ℚ)) (hs : (pts.map Prod.fst).Pairwise (· < ·)) (hpos : ∀ p ∈ pts, 0 < p.1 ∧ 0 < p.2)
    (norm : ℚ) (p : ℚ × ℚ) (hp : p ∈ pts) :
    let c := curve (List.map Prod.snd) (pts.map fun p => (p.1, p.1 / p.2))
    p.1 * (1 / (c p.1 / c norm)) = c norm * p.2 := by
  dsimp only
  have hfst : (pts.map fun p => (p.1, p.1 / p.2)).map Prod.fst = pts.map Prod.fst := by rw [List.map_map]; rfl
  obtain ⟨i, hi⟩ := List.mem_iff_getElem?.1 hp
  have := C108_pairing_partial (List.map Prod.snd) (pts.map fun p => (p.1, p.1 / p.2)) (by rw [hfst]; exact hs) (by simp)
    i p.1 (p.1 / p.2) (by rw [hfst, List.getElem?_map, hi]; rfl)
    (by rw [List.getElem?_map, List.getElem?_map, hi]; rfl)
  rw [this]
  obtain ⟨h1, h2⟩ := hpos p hp
  field_simp

/-! ## Examples -/

example : (table 50 100 60 [1, 10] [fun x => x, fun x => 2 * x]) =
    some [[none, some 1, some 10], [some 60, some 1, some 1], [some 80, some (3 / 4), some (3 / 4)],
      [some 100, some (3 / 5), some (3 / 5)]] := by decide +kernel

example : (60 : ℚ) ∈ grid := (mem_grid _).2 ⟨3, by norm_num⟩

end Corgi.NonlinTable

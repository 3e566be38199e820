import Mathlib.Algebra.BigOperators.Field
import Mathlib.Algebra.BigOperators.Fin
import Mathlib.Algebra.Order.BigOperators.Group.Finset
import Mathlib.Data.Real.Basic
import Mathlib.Data.Fintype.Basic
import Mathlib.Tactic.Linarith
import Mathlib.Tactic.LinearCombination
import Mathlib.Tactic.Ring
import Mathlib.Tactic.FieldSimp
import Mathlib.Tactic.NormNum
import Mathlib.Tactic.FinCases

/-!
# Optical density between the measured points

* `NDFilterSweetSpotDataset.interpolate_od` (`/repo/corgidrp/data.py` 2488-2502), used in
  `/repo/corgidrp/l4_to_tda.py` 290 and `/repo/corgidrp/measure_companions.py` 72,
* `interpolate_od` and `group_by_keyword` (`/repo/corgidrp/nd_filter_calibration.py` 33-65, 68-95),
* the split into bright and dim stars (436-452 of that file).

Simplifications: real numbers for floats. The triangulation (Qhull) is a parameter with the
properties of one (`Triangulation`); rounding at the edges of triangles is not modelled. `none` is
NaN.
-/

namespace Corgi.NdInterp

open Finset

noncomputable section

variable {n : ℕ}

/-- The measured points: optical density and position (data.py 2463-2465). -/
structure Spots (n : ℕ) where
  od : Fin n → ℝ
  x : Fin n → ℝ
  y : Fin n → ℝ

/-- `w` writes the position `q` as a weighted mean of the points of `T`. -/
structure Weights (s : Spots n) (T : Finset (Fin n)) (q : ℝ × ℝ) (w : Fin n → ℝ) : Prop where
  zero : ∀ i, i ∉ T → w i = 0
  nonneg : ∀ i, 0 ≤ w i
  sum : ∑ i, w i = 1
  x : ∑ i, w i * s.x i = q.1
  y : ∑ i, w i * s.y i = q.2

/-- A list of triangles that is a triangulation of the points: no triangle is flat, two triangles
meet in common corners and edges only, and together they fill the convex hull. -/
structure Triangulation (s : Spots n) (ts : List (Finset (Fin n))) : Prop where
  flat : ∀ T ∈ ts, ∀ d : Fin n → ℝ, (∀ i, i ∉ T → d i = 0) → ∑ i, d i = 0 →
    ∑ i, d i * s.x i = 0 → ∑ i, d i * s.y i = 0 → d = 0
  meet : ∀ T ∈ ts, ∀ T' ∈ ts, ∀ q w w', Weights s T q w → Weights s T' q w' →
    ∃ u, Weights s (T ∩ T') q u
  fill : ∀ q w, Weights s univ q w → ∃ T ∈ ts, ∃ w', Weights s T q w'

open Classical in
/-- `LinearNDInterpolator(points, od)(x, y)` (data.py 2500-2502): the weighted mean of the optical
densities at the corners of a triangle with the position in it, NaN if there is none. The argument
`method` is not looked at. -/
def interp (s : Spots n) (ts : List (Finset (Fin n))) (_method : String) (q : ℝ × ℝ) : Option ℝ :=
  if h : ∃ w, ∃ T ∈ ts, Weights s T q w then some (∑ i, h.choose i * s.od i) else none

/-- Spec: a value at the nearest point. -/
def Nearest (s : Spots n) (q : ℝ × ℝ) (v : ℝ) : Prop :=
  ∃ i, v = s.od i ∧ ∀ j, (s.x i - q.1) ^ 2 + (s.y i - q.2) ^ 2 ≤ (s.x j - q.1) ^ 2 + (s.y j - q.2) ^ 2

theorem Weights.mono {s : Spots n} {T T' : Finset (Fin n)} {q : ℝ × ℝ} {w : Fin n → ℝ}
    (h : Weights s T q w) (hs : T ⊆ T') : Weights s T' q w :=
  ⟨fun i hi => h.zero i fun hc => hi (hs hc), h.nonneg, h.sum, h.x, h.y⟩

theorem Triangulation.unique {s : Spots n} {ts : List (Finset (Fin n))} (ht : Triangulation s ts)
    {T : Finset (Fin n)} (hT : T ∈ ts) {q : ℝ × ℝ} {w u : Fin n → ℝ} (hw : Weights s T q w)
    (hu : Weights s T q u) : w = u := by
  have := ht.flat T hT (w - u)
    (fun i hi => by rw [Pi.sub_apply, hw.zero i hi, hu.zero i hi, sub_zero])
    (by simp only [Pi.sub_apply, Finset.sum_sub_distrib, hw.sum, hu.sum, sub_self])
    (by simp only [Pi.sub_apply, sub_mul, Finset.sum_sub_distrib, hw.x, hu.x, sub_self])
    (by simp only [Pi.sub_apply, sub_mul, Finset.sum_sub_distrib, hw.y, hu.y, sub_self])
  exact sub_eq_zero.1 this

/-- **C139.** The value does not depend on which triangle is found: it is the weighted mean for
every triangle with the position in it. -/
theorem C139_value {s : Spots n} {ts : List (Finset (Fin n))} (ht : Triangulation s ts)
    (m : String) {T : Finset (Fin n)} (hT : T ∈ ts) {q : ℝ × ℝ} {w : Fin n → ℝ}
    (hw : Weights s T q w) : interp s ts m q = some (∑ i, w i * s.od i) := by
  have h : ∃ w, ∃ T ∈ ts, Weights s T q w := ⟨w, T, hT, hw⟩
  unfold interp
  rw [dif_pos h]
  obtain ⟨T', hT', hw'⟩ := h.choose_spec
  obtain ⟨u, hu⟩ := ht.meet T hT T' hT' q w _ hw hw'
  rw [ht.unique hT hw (hu.mono Finset.inter_subset_left),
    ht.unique hT' hw' (hu.mono Finset.inter_subset_right)]

/-- **C139.** There is a value exactly inside the convex hull of the measured points. -/
theorem C139_finite_iff {s : Spots n} {ts : List (Finset (Fin n))} (ht : Triangulation s ts)
    (m : String) (q : ℝ × ℝ) : (interp s ts m q).isSome = true ↔ ∃ w, Weights s univ q w := by
  unfold interp
  constructor
  · intro h
    by_cases hc : ∃ w, ∃ T ∈ ts, Weights s T q w
    · obtain ⟨w, T, -, hw⟩ := hc
      exact ⟨w, hw.mono (Finset.subset_univ _)⟩
    · rw [dif_neg hc] at h; cases h
  · rintro ⟨w, hw⟩
    obtain ⟨T, hT, w', hw'⟩ := ht.fill q w hw
    rw [dif_pos ⟨w', T, hT, hw'⟩]
    rfl

/-- **C139.** At a measured point that is a corner the measured value comes back. -/
theorem C139_measured {s : Spots n} {ts : List (Finset (Fin n))} (ht : Triangulation s ts)
    (m : String) {T : Finset (Fin n)} (hT : T ∈ ts) {i : Fin n} (hi : i ∈ T) :
    interp s ts m (s.x i, s.y i) = some (s.od i) := by
  have hw : Weights s T (s.x i, s.y i) (fun j => if j = i then 1 else 0) :=
    ⟨fun j hj => if_neg (by rintro rfl; exact hj hi),
      fun j => by split_ifs <;> norm_num, by simp, by simp, by simp⟩
  rw [C139_value ht m hT hw]
  simp

/-- **C139.** A density that varies linearly over the filter is given exactly. -/
theorem C139_linear {s : Spots n} {ts : List (Finset (Fin n))} (ht : Triangulation s ts)
    (m : String) {a b c : ℝ} (hl : ∀ i, s.od i = a + b * s.x i + c * s.y i) {q : ℝ × ℝ} {v : ℝ}
    (hv : interp s ts m q = some v) : v = a + b * q.1 + c * q.2 := by
  have h : (interp s ts m q).isSome = true := by rw [hv]; rfl
  obtain ⟨w₀, hw₀⟩ := (C139_finite_iff ht m q).1 h
  obtain ⟨T, hT, w, hw⟩ := ht.fill q w₀ hw₀
  rw [C139_value ht m hT hw] at hv
  have := Option.some.inj hv
  subst this
  have e : ∀ i, w i * s.od i = a * w i + b * (w i * s.x i) + c * (w i * s.y i) := by
    intro i; rw [hl i]; ring
  simp only [e, Finset.sum_add_distrib, ← Finset.mul_sum, hw.sum, hw.x, hw.y]
  ring

/-- **C139.** The value lies between those of the corners. -/
theorem C139_between {s : Spots n} {ts : List (Finset (Fin n))} (ht : Triangulation s ts)
    (m : String) {T : Finset (Fin n)} (hT : T ∈ ts) {q : ℝ × ℝ} {w : Fin n → ℝ}
    (hw : Weights s T q w) {lo hi : ℝ} (h : ∀ i ∈ T, lo ≤ s.od i ∧ s.od i ≤ hi) :
    ∃ v, interp s ts m q = some v ∧ lo ≤ v ∧ v ≤ hi := by
  refine ⟨_, C139_value ht m hT hw, ?_, ?_⟩
  · calc lo = ∑ i, w i * lo := by rw [← Finset.sum_mul, hw.sum, one_mul]
      _ ≤ ∑ i, w i * s.od i := by
        apply Finset.sum_le_sum
        intro i _
        by_cases hi : i ∈ T
        · exact mul_le_mul_of_nonneg_left (h i hi).1 (hw.nonneg i)
        · rw [hw.zero i hi, zero_mul, zero_mul]
  · calc ∑ i, w i * s.od i ≤ ∑ i, w i * hi := by
          apply Finset.sum_le_sum
          intro i _
          by_cases hi : i ∈ T
          · exact mul_le_mul_of_nonneg_left (h i hi).2 (hw.nonneg i)
          · rw [hw.zero i hi, zero_mul, zero_mul]
      _ = hi := by rw [← Finset.sum_mul, hw.sum, one_mul]

/-- **C139.** The argument for the method has no effect. -/
theorem C139_method_ignored (s : Spots n) (ts : List (Finset (Fin n))) (m m' : String) (q : ℝ × ℝ) :
    interp s ts m q = interp s ts m' q := rfl

/-- **C139, violated.** Points measured along a line (in particular fewer than three points) have no
triangle, so that the interpolator cannot be made: Qhull raises, although the calibration with these
points was accepted. -/
theorem C139_violated_line {s : Spots n} {a b c : ℝ} (h0 : a ≠ 0 ∨ b ≠ 0)
    (hl : ∀ i, a * s.x i + b * s.y i = c) {ts : List (Finset (Fin n))} (ht : Triangulation s ts) :
    ∀ T ∈ ts, T.card ≠ 3 := by
  intro T hT hc
  obtain ⟨i, j, k, hij, hik, hjk, rfl⟩ := Finset.card_eq_three.1 hc
  have hne : a ^ 2 + b ^ 2 ≠ 0 := by
    rcases h0 with h | h <;> positivity
  obtain ⟨t, htd⟩ : ∃ t : Fin n → ℝ, t = fun l => a * s.y l - b * s.x l := ⟨_, rfl⟩
  have hx : ∀ l, s.x l = (a * c - b * t l) / (a ^ 2 + b ^ 2) := by
    intro l
    rw [eq_div_iff hne, htd, ← hl l]
    ring
  have hy : ∀ l, s.y l = (b * c + a * t l) / (a ^ 2 + b ^ 2) := by
    intro l
    rw [eq_div_iff hne, htd, ← hl l]
    ring
  have key : ∀ di dj dk : ℝ, di + dj + dk = 0 → di * t i + dj * t j + dk * t k = 0 →
      di = 0 ∧ dj = 0 ∧ dk = 0 := by
    intro di dj dk h1 h2
    have hs : ∀ g : Fin n → ℝ,
        ∑ l, (if l = i then di else if l = j then dj else if l = k then dk else 0) * g l
          = di * g i + dj * g j + dk * g k := by
      intro g
      have e : ∀ l, (if l = i then di else if l = j then dj else if l = k then dk else 0) * g l
          = (if l = i then di * g i else 0) + (if l = j then dj * g j else 0)
            + (if l = k then dk * g k else 0) := by
        intro l
        by_cases e1 : l = i
        · subst e1; simp [hij, hik]
        · by_cases e2 : l = j
          · subst e2; simp [e1, hjk]
          · by_cases e3 : l = k
            · subst e3; simp [e1, e2]
            · simp [e1, e2, e3]
      simp only [e, Finset.sum_add_distrib, Finset.sum_ite_eq', Finset.mem_univ, if_true]
    have hz := ht.flat _ hT
      (fun l => if l = i then di else if l = j then dj else if l = k then dk else 0)
      (by
        intro l hlm
        simp only [Finset.mem_insert, Finset.mem_singleton, not_or] at hlm
        simp [hlm.1, hlm.2.1, hlm.2.2])
      (by simpa using (hs fun _ => 1).trans (by linarith))
      (by
        rw [hs, hx, hx, hx]
        field_simp
        linear_combination a * c * h1 - b * h2)
      (by
        rw [hs, hy, hy, hy]
        field_simp
        linear_combination b * c * h1 + a * h2)
    have zi := congrFun hz i
    have zj := congrFun hz j
    have zk := congrFun hz k
    simp only [if_true, if_neg hij.symm, if_neg hik.symm, if_neg hjk.symm, Pi.zero_apply] at zi zj zk
    exact ⟨zi, zj, zk⟩
  have h1 := key (t j - t k) (t k - t i) (t i - t j) (by ring) (by ring)
  have h2 := key 1 (-1) 0 (by ring) (by linarith [h1.2.2])
  exact one_ne_zero h2.1

/-- Three points of a raster. -/
def tri : Spots 3 := ⟨![2, 2, 5], ![0, 3, 0], ![0, 0, 3]⟩

theorem tri_ok : Triangulation tri [univ] where
  flat := by
    intro T hT d _ h1 h2 h3
    simp only [Fin.sum_univ_three, tri, Matrix.cons_val_zero, Matrix.cons_val_one,
      Matrix.cons_val] at h1 h2 h3
    funext i
    fin_cases i
    · show d 0 = 0; linarith
    · show d 1 = 0; linarith
    · show d 2 = 0; linarith
  meet := by
    intro T hT T' hT' q w w' hw _
    rw [List.mem_singleton] at hT hT'
    subst hT; subst hT'
    exact ⟨w, hw.mono (by simp)⟩
  fill := fun q w hw => ⟨univ, by simp, w, hw⟩

/-- **C139, violated.** The documented method is "nearest"; the value at a position one pixel from the
first point is not the one measured there. -/
theorem C139_violated_nearest : ∃ v, interp tri [univ] "nearest" (0, 1) = some v ∧ ¬ Nearest tri (0, 1) v := by
  have hw : Weights tri univ (0, 1) ![2 / 3, 0, 1 / 3] := by
    constructor
    · intro i hi; exact absurd (Finset.mem_univ i) hi
    · intro i; fin_cases i <;> norm_num
    · simp [Fin.sum_univ_three]; norm_num
    · simp [Fin.sum_univ_three, tri]
    · simp [Fin.sum_univ_three, tri]
  refine ⟨_, C139_value tri_ok _ (by simp) hw, ?_⟩
  rintro ⟨i, hi, -⟩
  fin_cases i <;> (simp [Fin.sum_univ_three, tri] at hi; norm_num at hi)

/-- **C139, violated.** A star outside the raster has no density, and everything computed from it is
NaN without a message, though the nearest point would give a value. -/
theorem C139_violated_outside : interp tri [univ] "nearest" (-1, 0) = none ∧ Nearest tri (-1, 0) 2 := by
  constructor
  · rw [← Option.not_isSome_iff_eq_none]
    rw [C139_finite_iff tri_ok]
    rintro ⟨w, hw⟩
    have hx := hw.x
    have h0 := hw.nonneg 1
    simp only [Fin.sum_univ_three, tri, Matrix.cons_val_zero, Matrix.cons_val_one,
      Matrix.cons_val] at hx
    linarith
  · refine ⟨0, rfl, fun j => ?_⟩
    fin_cases j <;> (simp [tri]; try norm_num)

end

/-! ## The query -/

/-- A coordinate of a query: a number or an array of a length. -/
inductive Coord
  | scalar
  | array (k : ℕ)
deriving DecidableEq

/-- What comes back: a number, an array, or an exception. -/
inductive Reply
  | number
  | arr (k : ℕ)
  | raises
deriving DecidableEq

/-- Rows of `np.column_stack`; a number counts as one row. -/
def Coord.rows : Coord → ℕ
  | .scalar => 1
  | .array k => k

/-- `interpolate_od` (nd_filter_calibration.py 88-95): columns of different length do not stack, and
`float` takes arrays of one element only. -/
def query (x y : Coord) : Reply :=
  match x, y with
  | .scalar, .scalar => .number
  | x, y =>
    if x.rows ≠ y.rows then .raises
    else match x with
      | .scalar => if y.rows = 1 then .number else .raises
      | .array k => .arr k

/-- **C139.** What can be asked: two numbers or two columns of one length. -/
theorem C139_query_iff (x y : Coord) : query x y ≠ .raises ↔ x.rows = y.rows := by
  cases x with
  | scalar => cases y with
    | scalar => simp [query, Coord.rows]
    | array k =>
      unfold query
      by_cases h : (1 : ℕ) = k
      · subst h; simp [Coord.rows]
      · simp [Coord.rows, h]
  | array j => cases y with
    | scalar =>
      unfold query
      by_cases h : j = 1 <;> simp [Coord.rows, h]
    | array k =>
      unfold query
      by_cases h : j = k <;> simp [Coord.rows, h]

/-- **C139, violated.** "A float for a single query point": an array for `x` and a number for `y` of one
point gives an array, the other way round a number. -/
theorem C139_violated_single : query (.array 1) .scalar = .arr 1 ∧ query .scalar (.array 1) = .number := by
  decide

/-! ## Bright and dim stars -/

/-- A frame: the names of the two alignment mechanisms, if in the header. -/
structure Frame where
  fpam : Option String
  fsam : Option String

/-- The groups of a keyword (33-65) as far as the split needs them; `none`: KeyError. The order of the
groups is that of the sorted names; here only which frames are where matters. -/
def names (key : Frame → Option String) (fs : List Frame) : Option (List (Frame × String)) :=
  fs.mapM fun f => (key f).map fun k => (f, k)

/-- Lines 439-452: FPAMNAME, or FSAMNAME after any exception; frames whose name starts with ND are
bright. -/
def splitStars (fs : List Frame) : Option (List Frame × List Frame) :=
  match (names Frame.fpam fs).orElse fun _ => names Frame.fsam fs with
  | none => none
  | some l =>
    some ((l.filter fun p => p.2.startsWith "ND").map Prod.fst,
      (l.filter fun p => !p.2.startsWith "ND").map Prod.fst)

theorem names_some {key : Frame → Option String} : ∀ {fs : List Frame}, (∀ f ∈ fs, (key f).isSome = true) →
    names key fs = some (fs.map fun f => (f, (key f).getD ""))
  | [], _ => rfl
  | f :: fs, h => by
    obtain ⟨k, hk⟩ := Option.isSome_iff_exists.1 (h f (by simp))
    have ih := names_some (fs := fs) fun g hg => h g (List.mem_cons_of_mem _ hg)
    unfold names at ih ⊢
    rw [List.mapM_cons, ih, hk]
    simp [hk]

theorem names_none {key : Frame → Option String} : ∀ {fs : List Frame}, (∃ f ∈ fs, key f = none) →
    names key fs = none
  | [], h => by obtain ⟨f, hf, _⟩ := h; cases hf
  | g :: fs, h => by
    unfold names
    rw [List.mapM_cons]
    by_cases hg : key g = none
    · rw [hg]; rfl
    · obtain ⟨f, hf, hk⟩ := h
      have hfs : f ∈ fs := by
        rcases List.mem_cons.1 hf with rfl | h
        · exact absurd hk hg
        · exact h
      have ih := names_none (key := key) (fs := fs) ⟨f, hfs, hk⟩
      unfold names at ih
      rw [ih]
      cases key g <;> rfl

/-- **C139 (partial).** If every frame has an FPAMNAME, the bright stars are exactly the frames with
one that starts with ND, and no frame is lost. -/
theorem C139_split_partial {fs : List Frame} (h : ∀ f ∈ fs, f.fpam.isSome = true) :
    ∃ b d, splitStars fs = some (b, d) ∧
      (∀ f, f ∈ b ↔ f ∈ fs ∧ ∃ k, f.fpam = some k ∧ k.startsWith "ND" = true) ∧
      (∀ f, f ∈ d ↔ f ∈ fs ∧ ∃ k, f.fpam = some k ∧ k.startsWith "ND" = false) ∧
      b.length + d.length = fs.length := by
  unfold splitStars
  rw [names_some h]
  refine ⟨_, _, rfl, ?_, ?_, ?_⟩
  · intro f
    simp only [List.mem_map, List.mem_filter]
    constructor
    · rintro ⟨⟨g, k⟩, ⟨⟨f', hf', he⟩, hs⟩, rfl⟩
      obtain ⟨rfl, rfl⟩ := Prod.mk.inj he
      obtain ⟨k, hk⟩ := Option.isSome_iff_exists.1 (h f' hf')
      rw [hk] at hs
      exact ⟨hf', k, hk, hs⟩
    · rintro ⟨hf, k, hk, hs⟩
      exact ⟨(f, k), ⟨⟨f, hf, by rw [hk]; rfl⟩, hs⟩, rfl⟩
  · intro f
    simp only [List.mem_map, List.mem_filter]
    constructor
    · rintro ⟨⟨g, k⟩, ⟨⟨f', hf', he⟩, hs⟩, rfl⟩
      obtain ⟨rfl, rfl⟩ := Prod.mk.inj he
      obtain ⟨k, hk⟩ := Option.isSome_iff_exists.1 (h f' hf')
      rw [hk] at hs
      exact ⟨hf', k, hk, by simpa using hs⟩
    · rintro ⟨hf, k, hk, hs⟩
      exact ⟨(f, k), ⟨⟨f, hf, by rw [hk]; rfl⟩, by rw [hs]; rfl⟩, rfl⟩
  · rw [List.length_map, List.length_map]
    have := List.length_eq_length_filter_add (l := fs.map fun f => (f, f.fpam.getD ""))
      fun p => p.2.startsWith "ND"
    rw [List.length_map] at this
    omega

/-- **C139, violated.** One frame without FPAMNAME and the names of the FSAM decide for all: a star
behind the ND filter becomes a dim star. -/
theorem C139_violated_fallback {f g : Frame} {l : String} (hg : g.fpam = none) (hf : f.fsam = some l)
    (hl : l.startsWith "ND" = false) {k : String} (hgk : g.fsam = some k) :
    ∃ b d, splitStars [f, g] = some (b, d) ∧ f ∈ d ∧ (k.startsWith "ND" = false → f ∉ b) := by
  unfold splitStars
  rw [names_none (key := Frame.fpam) ⟨g, by simp, hg⟩,
    names_some (key := Frame.fsam) (fs := [f, g]) (by simp [hf, hgk])]
  refine ⟨_, _, rfl, ?_, ?_⟩
  · simp [hf, hl]
  · intro hk
    simp [hf, hgk, hl, hk]

example : ∃ b d, splitStars [⟨some "ND225", some "OPEN"⟩, ⟨none, some "OPEN"⟩] = some (b, d) ∧
    (⟨some "ND225", some "OPEN"⟩ : Frame) ∈ d := by
  obtain ⟨b, d, h1, h2, -⟩ := C139_violated_fallback (f := ⟨some "ND225", some "OPEN"⟩)
    (g := ⟨none, some "OPEN"⟩) (l := "OPEN") rfl rfl (by decide +kernel) (k := "OPEN") rfl
  exact ⟨b, d, h1, h2⟩

end Corgi.NdInterp

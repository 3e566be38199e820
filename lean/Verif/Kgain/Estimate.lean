import Mathlib.Analysis.SpecialFunctions.Pow.Real
import Mathlib.Analysis.SpecialFunctions.Log.Base
import Mathlib.Analysis.SpecialFunctions.Sqrt
import Mathlib.Analysis.Complex.Norm
import Mathlib.Algebra.Order.Floor.Ring
import Mathlib.Tactic.Linarith
import Verif.Common.ArgMin

/-!
# Gain and read noise in `calibrate_kgain` (calibrate_kgain.py 230-272, 554-562, 636-648, 676-680, 700-787): model and C105

Reals for floats.
-/

noncomputable section

namespace Corgi.KgainEst

open Real

/-- `np.mean` -/
def mean (l : List ℝ) : ℝ := l.sum / l.length

/-- `np.std` -/
def std (l : List ℝ) : ℝ := sqrt ((l.map fun x => (x - mean l) ^ 2).sum / l.length)

/-! ## `sigma_clip` (lines 247-272) -/

open Classical in
/-- line 266 -/
def outliers (s : ℝ) (l : List ℝ) : List Bool := l.map fun x => decide (s * std l < |x - mean l|)

open Classical in
def keep (s : ℝ) (l : List ℝ) : List ℝ := l.filter fun x => !decide (s * std l < |x - mean l|)

/-- The loop: data and mask of the last round (`none`: never assigned). -/
def clipLoop (s : ℝ) : ℕ → List ℝ → Option (List Bool) → List ℝ × Option (List Bool)
  | 0, l, m => (l, m)
  | n + 1, l, _ =>
    if (outliers s l).any id then clipLoop s n (keep s l) (some (outliers s l)) else (l, some (outliers s l))

def sigmaClip (s : ℝ) (n : ℕ) (l : List ℝ) : List ℝ × Option (List Bool) := clipLoop s n l none

theorem keep_sublist (s : ℝ) (l : List ℝ) : (keep s l).Sublist l := List.filter_sublist

theorem any_outliers (s : ℝ) (l : List ℝ) : (outliers s l).any id = true ↔ ∃ x ∈ l, s * std l < |x - mean l| := by
  unfold outliers
  simp [List.any_eq_true]

theorem keep_length (s : ℝ) (l : List ℝ) (h : (outliers s l).any id = true) : (keep s l).length < l.length := by
  obtain ⟨x, hx, h⟩ := (any_outliers s l).1 h
  exact List.length_filter_lt_length_iff_exists.2 ⟨x, hx, by simp [h]⟩

/-- Sum of squares of the deviations. -/
theorem std_sq (l : List ℝ) (hl : l ≠ []) : (l.map fun x => (x - mean l) ^ 2).sum = l.length * std l ^ 2 := by
  have hn : (0 : ℝ) < l.length := by exact_mod_cast List.length_pos_iff.2 hl
  have h0 : 0 ≤ (l.map fun x => (x - mean l) ^ 2).sum :=
    List.sum_nonneg fun y hy => by obtain ⟨x, _, rfl⟩ := List.mem_map.1 hy; positivity
  unfold std
  rw [sq_sqrt (by positivity)]
  field_simp

theorem sum_filter_le (p : ℝ → Bool) (f : ℝ → ℝ) (c : ℝ) (l : List ℝ) (hf : ∀ x, 0 ≤ f x) (hc : ∀ x ∈ l, p x = true → c ≤ f x) :
    ((l.filter p).length : ℝ) * c ≤ (l.map f).sum := by
  induction l with
  | nil => simp
  | cons x xs ih =>
    have := ih fun y hy => hc y (List.mem_cons_of_mem _ hy)
    by_cases hp : p x = true
    · rw [List.filter_cons_of_pos hp]
      have := hc x List.mem_cons_self hp
      simp only [List.length_cons, Nat.cast_add, Nat.cast_one, List.map_cons, List.sum_cons]
      linarith
    · rw [List.filter_cons_of_neg hp, List.map_cons, List.sum_cons]
      linarith [hf x]

/-- **C105.** One round takes away at most the fraction `1 / s²` of the data. -/
theorem C105_chebyshev (s : ℝ) (hs : 0 < s) (l : List ℝ) :
    ((l.length : ℝ) - (keep s l).length) * s ^ 2 ≤ l.length := by
  classical
  rcases eq_or_ne l [] with rfl | hl
  · simp [keep]
  have hlen : ((l.length : ℝ) - (keep s l).length) = (l.filter fun x => decide (s * std l < |x - mean l|)).length := by
    have h := List.length_eq_length_filter_add (l := l) (fun x => decide (s * std l < |x - mean l|))
    have h' : (l.length : ℝ) = ((l.filter fun x => decide (s * std l < |x - mean l|)).length : ℝ) + ((keep s l).length : ℝ) := by
      unfold keep; exact_mod_cast h
    linarith
  rw [hlen]
  have hsd : 0 ≤ std l := sqrt_nonneg _
  rcases hsd.eq_or_lt with h0 | h0
  · have hz : (l.filter fun x => decide (s * std l < |x - mean l|)) = [] := by
      apply List.filter_eq_nil_iff.2
      intro x hx
      have hsum := std_sq l hl
      rw [← h0] at hsum ⊢
      simp only [ne_eq, OfNat.ofNat_ne_zero, not_false_eq_true, zero_pow, mul_zero] at hsum
      have hx0 : (x - mean l) ^ 2 ≤ 0 := by
        rw [← hsum]
        exact List.single_le_sum (fun y hy => by obtain ⟨z, _, rfl⟩ := List.mem_map.1 hy; positivity) _
          (List.mem_map.2 ⟨x, hx, rfl⟩)
      have : x - mean l = 0 := by nlinarith
      simp [this]
    rw [hz]; simp
  · have h1 := sum_filter_le (fun x => decide (s * std l < |x - mean l|)) (fun x => (x - mean l) ^ 2) ((s * std l) ^ 2) l
      (fun x => by positivity) (fun x _ hx => by
        have hx' : s * std l < |x - mean l| := by simpa using hx
        rw [← sq_abs (x - mean l)]
        exact pow_le_pow_left₀ (by positivity) hx'.le 2)
    rw [std_sq l hl, mul_pow] at h1
    have hp : 0 < std l ^ 2 := by positivity
    have h2 : ((l.filter fun x => decide (s * std l < |x - mean l|)).length : ℝ) * s ^ 2 * std l ^ 2 ≤ l.length * std l ^ 2 := by
      linarith
    exact le_of_mul_le_mul_right h2 hp

/-- **C105.** Clipping never empties the data. -/
theorem keep_ne_nil (s : ℝ) (hs : 1 < s) (l : List ℝ) (hl : l ≠ []) : keep s l ≠ [] := by
  intro h
  have := C105_chebyshev s (by linarith) l
  rw [h] at this
  have hn : (0 : ℝ) < l.length := by exact_mod_cast List.length_pos_iff.2 hl
  simp only [List.length_nil, Nat.cast_zero, sub_zero] at this
  have h2 : 1 < s ^ 2 := by nlinarith
  nlinarith

/-- **C105.** What is left is part of the data, in order, and not empty. -/
theorem C105_clip (s : ℝ) (hs : 1 < s) (n : ℕ) (l : List ℝ) :
    (sigmaClip s n l).1.Sublist l ∧ (l ≠ [] → (sigmaClip s n l).1 ≠ []) := by
  unfold sigmaClip
  generalize (none : Option (List Bool)) = m
  induction n generalizing l m with
  | zero => exact ⟨List.Sublist.refl _, id⟩
  | succ n ih =>
    unfold clipLoop
    split_ifs with h
    · obtain ⟨h1, h2⟩ := ih (keep s l) (some (outliers s l))
      exact ⟨h1.trans (keep_sublist s l), fun hl => h2 (keep_ne_nil s hs l hl)⟩
    · exact ⟨List.Sublist.refl _, id⟩

/-- **C105.** With enough rounds nothing more is to be clipped; data without outliers are unchanged. -/
theorem C105_clip_done (s : ℝ) (l : List ℝ) :
    (∀ n, l.length < n → ∀ x ∈ (sigmaClip s n l).1, |x - mean (sigmaClip s n l).1| ≤ s * std (sigmaClip s n l).1) ∧
    (∀ n, (∀ x ∈ l, |x - mean l| ≤ s * std l) → (sigmaClip s n l).1 = l) := by
  constructor
  · intro n hn
    unfold sigmaClip
    generalize (none : Option (List Bool)) = m
    induction n generalizing l m with
    | zero => omega
    | succ n ih =>
      unfold clipLoop
      split_ifs with h
      · exact ih (keep s l) (by have := keep_length s l h; omega) _
      · intro x hx
        by_contra hc
        exact h ((any_outliers s l).2 ⟨x, hx, not_le.1 hc⟩)
  · intro n h
    unfold sigmaClip
    cases n with
    | zero => rfl
    | succ n =>
      unfold clipLoop
      rw [if_neg]
      intro hc
      obtain ⟨x, hx, h'⟩ := (any_outliers s l).1 hc
      exact absurd (h x hx) (not_le.2 h')

theorem mask_length (s : ℝ) (n : ℕ) (l : List ℝ) (m : List Bool) (hm : m.length = l.length ∨ 0 < n) :
    ∃ m', (clipLoop s n l (some m)).2 = some m' ∧ m'.length ≤ l.length := by
  induction n generalizing l m with
  | zero => exact ⟨m, rfl, by rcases hm with h | h <;> omega⟩
  | succ n ih =>
    unfold clipLoop
    split_ifs with h
    · cases n with
      | zero => exact ⟨_, rfl, by simp [outliers]⟩
      | succ n =>
        obtain ⟨m', h1, h2⟩ := ih (keep s l) (outliers s l) (Or.inr (by omega))
        exact ⟨m', h1, h2.trans (keep_length s l h).le⟩
    · exact ⟨_, rfl, by simp [outliers]⟩

/-- **C105, violated.** The mask belongs to the last round, not to the data: whenever something is clipped (and a second
round follows) it is shorter than the data; without rounds there is none. -/
theorem C105_violated_mask (s : ℝ) (n : ℕ) (l : List ℝ) :
    ((outliers s l).any id = true → ∃ m, (sigmaClip s (n + 2) l).2 = some m ∧ m.length < l.length) ∧
    (sigmaClip s 0 l).2 = none := by
  refine ⟨fun h => ?_, rfl⟩
  unfold sigmaClip clipLoop
  rw [if_pos h]
  obtain ⟨m, h1, h2⟩ := mask_length s (n + 1) (keep s l) (outliers s l) (Or.inr (by omega))
  exact ⟨m, h1, lt_of_le_of_lt h2 (keep_length s l h)⟩

/-! ## `calculate_mode` (lines 230-245) -/

/-- Limits of `np.histogram`: smallest and largest value, half a unit to both sides if they agree. -/
def limits (x : ℝ) (xs : List ℝ) : ℝ × ℝ :=
  open Classical in
  let lo := xs.foldl min x
  let hi := xs.foldl max x
  if lo = hi then (lo - 1 / 2, hi + 1 / 2) else (lo, hi)

/-- Bin of a value among ten; the last one is closed. -/
def bin (lo hi v : ℝ) : ℤ := min 9 ⌊(v - lo) / (hi - lo) * 10⌋

def counts (lo hi : ℝ) (l : List ℝ) : List ℕ :=
  (List.range 10).map fun k : ℕ => (l.filter fun v => decide (bin lo hi v = (k : ℤ))).length

/-- Centre of bin `k`. -/
def centre (lo hi : ℝ) (k : ℕ) : ℝ := lo + ((k : ℝ) + 1 / 2) * ((hi - lo) / 10)

/-- The centre of the first bin with most values; `none` for an empty array (`np.histogram` then has no limits of its own). -/
def mode : List ℝ → Option ℝ
  | [] => none
  | x :: xs =>
    let lim := limits x xs
    (argmax (counts lim.1 lim.2 (x :: xs))).map (centre lim.1 lim.2)

theorem foldl_min_le (xs : List ℝ) : ∀ x, xs.foldl min x ≤ x ∧ ∀ y ∈ xs, xs.foldl min x ≤ y := by
  induction xs with
  | nil => intro x; simp
  | cons y ys ih =>
    intro x
    obtain ⟨h1, h2⟩ := ih (min x y)
    refine ⟨h1.trans (min_le_left _ _), fun z hz => ?_⟩
    rcases List.mem_cons.1 hz with rfl | hz
    · exact h1.trans (min_le_right _ _)
    · exact h2 z hz

theorem le_foldl_max (xs : List ℝ) : ∀ x, x ≤ xs.foldl max x ∧ ∀ y ∈ xs, y ≤ xs.foldl max x := by
  induction xs with
  | nil => intro x; simp
  | cons y ys ih =>
    intro x
    obtain ⟨h1, h2⟩ := ih (max x y)
    refine ⟨(le_max_left _ _).trans h1, fun z hz => ?_⟩
    rcases List.mem_cons.1 hz with rfl | hz
    · exact (le_max_right _ _).trans h1
    · exact h2 z hz

theorem limits_spec (x : ℝ) (xs : List ℝ) :
    (limits x xs).1 < (limits x xs).2 ∧ ∀ y ∈ x :: xs, (limits x xs).1 ≤ y ∧ y ≤ (limits x xs).2 := by
  have h1 := foldl_min_le xs x
  have h2 := le_foldl_max xs x
  have hb : ∀ y ∈ x :: xs, xs.foldl min x ≤ y ∧ y ≤ xs.foldl max x := by
    intro y hy
    rcases List.mem_cons.1 hy with rfl | hy
    · exact ⟨h1.1, h2.1⟩
    · exact ⟨h1.2 y hy, h2.2 y hy⟩
  unfold limits
  dsimp only
  split_ifs with h
  · refine ⟨by dsimp only; rw [h]; linarith, fun y hy => ?_⟩
    have := hb y hy
    constructor <;> dsimp only <;> linarith
  · exact ⟨lt_of_le_of_ne (h1.1.trans h2.1) h, hb⟩

theorem bin_range (lo hi v : ℝ) (h : lo < hi) (hv : lo ≤ v ∧ v ≤ hi) :
    ∃ k : ℕ, k < 10 ∧ bin lo hi v = k ∧ |centre lo hi k - v| ≤ (hi - lo) / 20 := by
  have hd : 0 < hi - lo := by linarith
  obtain ⟨q, hq⟩ : ∃ q, q = (v - lo) / (hi - lo) * 10 := ⟨_, rfl⟩
  have hv' : v = lo + q * ((hi - lo) / 10) := by rw [hq]; field_simp; ring
  have q0 : 0 ≤ q := by rw [hq]; exact mul_nonneg (div_nonneg (by linarith) hd.le) (by norm_num)
  have q1 : q ≤ 10 := by
    have : (v - lo) / (hi - lo) ≤ 1 := by rw [div_le_one hd]; linarith
    rw [hq]; linarith
  have key : ∀ k : ℕ, (k : ℝ) ≤ q → q ≤ k + 1 → |centre lo hi k - v| ≤ (hi - lo) / 20 := by
    intro k h1 h2
    have e : centre lo hi k - v = ((k : ℝ) + 1 / 2 - q) * ((hi - lo) / 10) := by rw [hv']; unfold centre; ring
    rw [e, abs_mul, abs_of_pos (show 0 < (hi - lo) / 10 by positivity)]
    have : |(k : ℝ) + 1 / 2 - q| ≤ 1 / 2 := by rw [abs_le]; constructor <;> linarith
    nlinarith
  unfold bin
  rw [← hq]
  rcases lt_or_ge q 10 with hlt | hge
  · have f0 : 0 ≤ ⌊q⌋ := Int.floor_nonneg.2 q0
    have f1 : ⌊q⌋ < 10 := Int.floor_lt.2 (by exact_mod_cast hlt)
    have hc : ((⌊q⌋.toNat : ℕ) : ℤ) = ⌊q⌋ := Int.toNat_of_nonneg f0
    have hcr : ((⌊q⌋.toNat : ℕ) : ℝ) = (⌊q⌋ : ℝ) := by rw [← Int.cast_natCast, hc]
    refine ⟨⌊q⌋.toNat, by omega, by omega, key _ ?_ ?_⟩
    · rw [hcr]; exact Int.floor_le q
    · rw [hcr]; exact (Int.lt_floor_add_one q).le
  · have : q = 10 := le_antisymm q1 hge
    refine ⟨9, by norm_num, ?_, key 9 (by rw [this]; norm_num) (by rw [this]; norm_num)⟩
    rw [this]
    have : ⌊(10 : ℝ)⌋ = 10 := by exact_mod_cast Int.floor_intCast (R := ℝ) 10
    rw [this]; norm_num

/-- **C105.** There is a mode for all data, and it is within half a bin, a twentieth of the range, of one of the values. -/
theorem C105_mode (x : ℝ) (xs : List ℝ) :
    ∃ m, mode (x :: xs) = some m ∧ ∃ y ∈ x :: xs, |m - y| ≤ ((limits x xs).2 - (limits x xs).1) / 20 := by
  obtain ⟨hlt, hb⟩ := limits_spec x xs
  generalize hl : limits x xs = lim at *
  obtain ⟨k, hk⟩ := argmax_exists (xs := counts lim.1 lim.2 (x :: xs)) (by simp [counts])
  refine ⟨centre lim.1 lim.2 k, by unfold mode; dsimp only; rw [hl, hk]; rfl, ?_⟩
  obtain ⟨c, hc, hmax, -⟩ := argmax_isFirstMax hk
  have hkl : k < 10 := by
    have := (List.getElem?_eq_some_iff.1 hc).1
    simpa [counts] using this
  have hcv : c = ((x :: xs).filter fun v => decide (bin lim.1 lim.2 v = (k : ℤ))).length := by
    unfold counts at hc
    rw [List.getElem?_map, List.getElem?_range hkl] at hc
    simpa using hc.symm
  have hpos : 0 < c := by
    obtain ⟨j, hj, hbj, -⟩ := bin_range lim.1 lim.2 x hlt (hb x List.mem_cons_self)
    have hm := hmax ((x :: xs).filter fun v => decide (bin lim.1 lim.2 v = (j : ℤ))).length
      (List.mem_map.2 ⟨j, List.mem_range.2 hj, rfl⟩)
    refine lt_of_lt_of_le (List.length_pos_iff.2 ?_) hm
    exact List.ne_nil_of_mem (List.mem_filter.2 ⟨List.mem_cons_self, by simpa using hbj⟩)
  rw [hcv] at hpos
  obtain ⟨y, hy⟩ := List.exists_mem_of_length_pos hpos
  obtain ⟨hy1, hy2⟩ := List.mem_filter.1 hy
  refine ⟨y, hy1, ?_⟩
  obtain ⟨j, hj, hbj, hd⟩ := bin_range lim.1 lim.2 y hlt (hb y hy1)
  have : j = k := by
    have h2 : bin lim.1 lim.2 y = (k : ℤ) := by simpa using hy2
    rw [hbj] at h2; exact_mod_cast h2
  rwa [this] at hd

/-- **C105, violated.** Perfect data: if all values agree the result is larger by 0.05. -/
theorem C105_violated_constant (v : ℝ) (n : ℕ) : mode (List.replicate (n + 1) v) = some (v + 1 / 20) := by
  have hmin : ∀ n, (List.replicate n v).foldl min v = v := by
    intro n; induction n with
    | zero => rfl
    | succ n ih => rw [List.replicate_succ, List.foldl_cons, min_self, ih]
  have hmax : ∀ n, (List.replicate n v).foldl max v = v := by
    intro n; induction n with
    | zero => rfl
    | succ n ih => rw [List.replicate_succ, List.foldl_cons, max_self, ih]
  rw [List.replicate_succ]
  unfold mode
  have hlim : limits v (List.replicate n v) = (v - 1 / 2, v + 1 / 2) := by
    unfold limits; rw [hmin, hmax]; simp
  dsimp only
  rw [hlim]
  dsimp only
  have hbin : bin (v - 1 / 2) (v + 1 / 2) v = 5 := by
    unfold bin
    have : (v - (v - 1 / 2)) / (v + 1 / 2 - (v - 1 / 2)) * 10 = ((5 : ℤ) : ℝ) := by norm_num
    rw [this, Int.floor_intCast]; norm_num
  have hcount : ∀ k : ℕ, ((v :: List.replicate n v).filter fun w => decide (bin (v - 1 / 2) (v + 1 / 2) w = (k : ℤ))).length =
      if k = 5 then n + 1 else 0 := by
    intro k
    rw [← List.replicate_succ, List.filter_replicate]
    rw [hbin]
    by_cases hk : k = 5
    · subst hk; simp
    · have : ¬ ((5 : ℤ) = (k : ℤ)) := by intro e; apply hk; omega
      simp [hk, this]
  have hc : counts (v - 1 / 2) (v + 1 / 2) (v :: List.replicate n v) = (List.range 10).map fun k => if k = 5 then n + 1 else 0 := by
    unfold counts
    exact List.map_congr_left fun k _ => hcount k
  rw [hc]
  have ha : argmax ((List.range 10).map fun k => if k = 5 then n + 1 else 0) = some 5 := by
    rw [argmax_eq_some_iff]
    refine ⟨n + 1, by simp [List.range, List.range.loop], fun y hy => ?_, fun j y hj hy => ?_⟩
    · obtain ⟨k, _, rfl⟩ := List.mem_map.1 hy
      split_ifs <;> omega
    · rw [List.getElem?_map, List.getElem?_range (by omega)] at hy
      simp only [Option.map_some, Option.some.injEq] at hy
      rw [if_neg (by omega)] at hy
      omega
  rw [ha]
  simp only [Option.map_some, Option.some.injEq]
  unfold centre
  norm_num
  ring

/-! ## Shot noise and gain -/

/-- lines 554-564: the square root is taken of a complex number, then the absolute value -/
def shot (total rn : ℝ) : ℝ := sqrt |total ^ 2 - rn ^ 2|

/-- Justification: the absolute value of either complex root. -/
theorem C105_root (total rn : ℝ) (w : ℂ) (h : w ^ 2 = ((total ^ 2 - rn ^ 2 : ℝ) : ℂ)) : ‖w‖ = shot total rn := by
  have : ‖w‖ ^ 2 = |total ^ 2 - rn ^ 2| := by
    rw [← norm_pow, h, Complex.norm_real, Real.norm_eq_abs]
  unfold shot
  rw [← this, sqrt_sq (norm_nonneg w)]

/-- **C105 (partial).** Noise above the read noise: shot and read noise add up to it in quadrature. -/
theorem C105_shot_partial (total rn : ℝ) (h : |rn| ≤ |total|) : shot total rn ^ 2 + rn ^ 2 = total ^ 2 := by
  have : 0 ≤ total ^ 2 - rn ^ 2 := by have := sq_le_sq.2 h; linarith
  unfold shot
  rw [abs_of_nonneg this, sq_sqrt this]; ring

/-- **C105, violated.** Noise below the read noise gives a shot noise that grows when the noise falls; without any noise it
is the read noise. -/
theorem C105_violated_shot (a b rn : ℝ) (ha : 0 ≤ a) (hab : a < b) (hb : b ≤ rn) :
    shot b rn < shot a rn ∧ shot 0 rn = rn := by
  have hrn : 0 ≤ rn := by linarith
  constructor
  · unfold shot
    have h1 : b ^ 2 - rn ^ 2 ≤ 0 := by nlinarith
    have h2 : a ^ 2 - rn ^ 2 ≤ 0 := by nlinarith
    rw [abs_of_nonpos h1, abs_of_nonpos h2]
    apply sqrt_lt_sqrt (by linarith)
    nlinarith
  · unfold shot
    rw [show (0 : ℝ) ^ 2 - rn ^ 2 = -(rn ^ 2) by ring, abs_neg, abs_of_nonneg (by positivity), sqrt_sq hrn]

/-- line 647, from mean and shot noise in DN via their logarithms -/
def kgain (avg dev : ℝ) : ℝ := 10 ^ logb 10 avg / (10 ^ logb 10 dev) ^ 2

/-- **C105.** Photon statistics: `N` electrons with mean and variance `mu` make `N / K` DN, of mean `mu / K` and standard
deviation `sqrt mu / K`; the gain found is `K`. -/
theorem C105_gain (mu K : ℝ) (hm : 0 < mu) (hK : 0 < K) : kgain (mu / K) (sqrt mu / K) = K := by
  unfold kgain
  rw [rpow_logb (by norm_num) (by norm_num) (by positivity), rpow_logb (by norm_num) (by norm_num) (by positivity),
    div_pow, sq_sqrt hm.le]
  field_simp

/-- **C105.** With read noise, measured on the difference of two frames: total variance of the difference
`2 (mu / K² + rn²)`, divided by two. -/
theorem C105_gain_total (mu K rn : ℝ) (hm : 0 < mu) (hK : 0 < K) :
    kgain (mu / K) (shot (sqrt (2 * (mu / K ^ 2 + rn ^ 2)) / sqrt 2) rn) = K := by
  have e : shot (sqrt (2 * (mu / K ^ 2 + rn ^ 2)) / sqrt 2) rn = sqrt mu / K := by
    unfold shot
    rw [div_pow, sq_sqrt (by positivity), sq_sqrt (by norm_num)]
    have : 2 * (mu / K ^ 2 + rn ^ 2) / 2 - rn ^ 2 = mu / K ^ 2 := by ring
    rw [this, abs_of_pos (by positivity), sqrt_div' _ (by positivity), sqrt_sq hK.le]
  rw [e, C105_gain mu K hm hK]

/-! ## Read noise of the header (lines 523, 703-704, 778-785) -/

/-- `rn_gauss` is assigned anew for each sub-stack: the value after the loop. -/
def rnGauss (sets : List (List ℝ)) : List ℝ := sets.foldl (fun _ s => s) []

def rnCard (sets : List (List ℝ)) (k : ℝ) : ℝ := mean (rnGauss sets) * k

/-- **C105, violated.** The read noise, and its error, come from the last sub-stack alone. -/
theorem C105_violated_read_noise (sets sets' : List (List ℝ)) (last : List ℝ) (k : ℝ) :
    rnCard (sets ++ [last]) k = mean last * k ∧ rnCard (sets ++ [last]) k = rnCard (sets' ++ [last]) k := by
  unfold rnCard rnGauss
  simp

/-- line 784 -/
def rnErr (k rn kErr rnErr : ℝ) : ℝ := sqrt ((k * rnErr) ^ 2 + (rn * kErr) ^ 2)

/-- **C105.** Relative errors add in quadrature. -/
theorem C105_error (k rn dk dr : ℝ) (hk : k ≠ 0) (hr : rn ≠ 0) :
    (rnErr k rn dk dr / (rn * k)) ^ 2 = (dr / rn) ^ 2 + (dk / k) ^ 2 := by
  unfold rnErr
  rw [div_pow, sq_sqrt (by positivity)]
  field_simp

/-- Non-vacuity: an outlier among eleven values. -/
example : (outliers (5 / 2) (10 :: List.replicate 10 0)).any id = true := by
  rw [any_outliers]
  refine ⟨10, by simp, ?_⟩
  have hm : mean (10 :: List.replicate 10 0) = 10 / 11 := by simp [mean]
  have hs : std (10 :: List.replicate 10 0) ^ 2 = 1000 / 121 := by
    unfold std
    rw [hm, sq_sqrt (by simp; positivity)]
    simp; norm_num
  rw [hm]
  have h0 : 0 ≤ std (10 :: List.replicate 10 0) := sqrt_nonneg _
  rw [abs_of_pos (by norm_num)]
  nlinarith

end Corgi.KgainEst

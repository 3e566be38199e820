import Mathlib.Data.List.Range
import Mathlib.Data.List.Sort
import Mathlib.Data.Nat.Sqrt
import Mathlib.Tactic.Linarith
import Verif.Common.Nan

/-!
# Illumination correction of trap-pumped frames (pump_trap_calibration.py 187-260, 2386-2399): model and C110

An image is a function of row and column with its two dimensions. `med` stands for `np.median` of a non-empty list;
it is `Nan.median` where its value matters.
-/

namespace Corgi.TrapIllum

/-- `np.arange(0, stop, b)` -/
def arange (stop b : ℕ) : List ℕ := (List.range ((stop + b - 1) / b)).map (· * b)

/-- Lines 228-234: `row_bins`, and `col_bins` of lines 237-241. -/
def edges (n b : ℕ) : List ℕ :=
  let a := if n % b = 0 then arange (n + 1) b else arange n b
  a.dropLast ++ [n]

def bins (n b : ℕ) : List (ℕ × ℕ) := (edges n b).zip (edges n b).tail

/-- The slice of lines 250-251, flattened. -/
def block (img : ℕ → ℕ → ℝ) (R C : ℕ × ℕ) : List ℝ :=
  (List.range' R.1 (R.2 - R.1)).flatMap fun r => (List.range' C.1 (C.2 - C.1)).map (img r)

def inside (x : ℕ) (e : ℕ × ℕ) : Bool := decide (e.1 ≤ x ∧ x < e.2)

/-- Lines 250-255. -/
def assign (med : List ℝ → ℝ) (img : ℕ → ℕ → ℝ) (acc : ℕ → ℕ → ℝ) (p : (ℕ × ℕ) × (ℕ × ℕ)) : ℕ → ℕ → ℝ :=
  fun r c => if inside r p.1 && inside c p.2 then img r c - med (block img p.1 p.2) else acc r c

/-- Lines 246-255: the corrected image starts as zeros. -/
def binned (med : List ℝ → ℝ) (img : ℕ → ℕ → ℝ) (m n b : ℕ) : ℕ → ℕ → ℝ :=
  ((bins m b).flatMap fun R => (bins n b).map fun C => (R, C)).foldl (assign med img) fun _ _ => 0

/-- Lines 222-224. -/
def flat (med : List ℝ → ℝ) (img : ℕ → ℕ → ℝ) (m n : ℕ) : ℕ → ℕ → ℝ := fun r c => img r c - med (block img (0, m) (0, n))

/-- `illumination_correction`; `binsize` positive where given (lines 217-218). -/
def correct (med : List ℝ → ℝ) (img : ℕ → ℕ → ℝ) (m n : ℕ) (binsize : Option ℕ) (illCorr : Bool) :
    (ℕ → ℕ → ℝ) × (ℕ → ℕ → ℝ) :=
  let cor := match illCorr, binsize with
    | true, some b => binned med img m n b
    | _, _ => flat med img m n
  (cor, fun r c => img r c - cor r c)

/-- Lines 2388-2394 of `tpump_analysis`. -/
def chosen (m n : ℕ) (binSize : Option ℕ) : ℕ :=
  match binSize with
  | some b => min (min m n) b
  | none => Nat.sqrt (min m n)

/-! ## Bins -/

theorem edges_eq {n b : ℕ} (hb : 0 < b) : edges n b = (List.range (n / b)).map (· * b) ++ [n] := by
  have key : ∀ stop, (stop + b - 1) / b = n / b + 1 →
      (arange stop b).dropLast = (List.range (n / b)).map (· * b) := by
    intro stop h
    unfold arange
    rw [h, List.range_succ, List.map_append, List.map_singleton, List.dropLast_concat]
  unfold edges
  split
  · rename_i h
    dsimp only
    rw [key (n + 1)]
    rw [show n + 1 + b - 1 = n + b by omega, Nat.add_div_right _ hb]
  · rename_i h
    dsimp only
    rw [key n]
    have h1 := Nat.div_add_mod n b
    have h2 := Nat.mod_lt n hb
    rw [Nat.div_eq_iff hb, Nat.add_mul, mul_comm (n / b) b]
    omega

/-- Bin `i`: `b` pixels, the last one up to the border. -/
def bin (n b i : ℕ) : ℕ × ℕ := (i * b, if i + 1 = n / b then n else (i + 1) * b)

theorem bins_eq {n b : ℕ} (hb : 0 < b) : bins n b = (List.range (n / b)).map (bin n b) := by
  unfold bins
  rw [edges_eq hb]
  apply List.ext_getElem
  · simp
  · intro i h1 h2
    have hi : i < n / b := by simpa using h2
    simp only [List.getElem_zip, List.getElem_tail, List.getElem_map, List.getElem_range, bin, Prod.mk.injEq]
    refine ⟨by rw [List.getElem_append_left (by simpa using hi)]; simp, ?_⟩
    split
    · rename_i h
      rw [List.getElem_append_right (by simp; omega)]
      simp
    · rename_i h
      rw [List.getElem_append_left (by simp; omega)]
      simp

/-- Index of the bin of a pixel. -/
def cell (n b x : ℕ) : ℕ := min (x / b) (n / b - 1)

theorem inside_bin {n b x i : ℕ} (hb : 0 < b) (hx : x < n) (hi : i < n / b) :
    inside x (bin n b i) = true ↔ cell n b x = i := by
  unfold inside bin cell
  have h1 := Nat.div_add_mod n b
  have h2 := Nat.mod_lt n hb
  have h3 := Nat.div_add_mod x b
  have h4 := Nat.mod_lt x hb
  have hle : x / b ≤ n / b := Nat.div_le_div_right hx.le
  simp only [decide_eq_true_eq]
  by_cases hl : i + 1 = n / b
  · rw [if_pos hl]
    constructor
    · rintro ⟨h, -⟩
      have : i ≤ x / b := (Nat.le_div_iff_mul_le hb).2 h
      omega
    · intro h
      refine ⟨?_, hx⟩
      have : i ≤ x / b := by omega
      exact (Nat.le_div_iff_mul_le hb).1 this
  · rw [if_neg hl, ← Nat.le_div_iff_mul_le hb, ← Nat.div_lt_iff_lt_mul hb]
    omega

theorem bin_le {n b i : ℕ} (hi : i < n / b) : (bin n b i).2 ≤ n := by
  unfold bin
  dsimp only
  split
  · exact le_rfl
  · exact le_trans (Nat.mul_le_mul_right b hi) (Nat.div_mul_le_self n b)

theorem cell_lt {n b x : ℕ} (hb : 0 < b) (hn : b ≤ n) : cell n b x < n / b := by
  have : 0 < n / b := Nat.div_pos hn hb
  unfold cell; omega

/-- The pixels of a bin are those of the same cell. -/
theorem range_bin {n b i : ℕ} (hb : 0 < b) (hi : i < n / b) :
    List.range' (bin n b i).1 ((bin n b i).2 - (bin n b i).1) =
      (List.range n).filter fun x => decide (cell n b x = i) := by
  apply List.Perm.eq_of_pairwise' (r := (· < ·))
  · exact List.pairwise_lt_range'
  · exact List.pairwise_lt_range.filter _
  · rw [List.perm_ext_iff_of_nodup List.nodup_range' (List.nodup_range.filter _)]
    intro x
    simp only [List.mem_range'_1, List.mem_filter, List.mem_range, decide_eq_true_eq]
    have hle := bin_le (b := b) hi
    constructor
    · rintro ⟨h1, h2⟩
      have hx : x < (bin n b i).2 := by omega
      have hxn : x < n := lt_of_lt_of_le hx hle
      exact ⟨hxn, (inside_bin hb hxn hi).1 (by unfold inside; simp [h1, hx])⟩
    · rintro ⟨h1, h2⟩
      have := (inside_bin hb h1 hi).2 h2
      unfold inside at this
      simp only [decide_eq_true_eq] at this
      omega

/-! ## Values of the neighbourhood -/

/-- Values of the pixels in the square of `(r, c)`, row by row. -/
def square (img : ℕ → ℕ → ℝ) (m n b r c : ℕ) : List ℝ :=
  ((List.range m).filter fun r' => decide (cell m b r' = cell m b r)).flatMap fun r' =>
    ((List.range n).filter fun c' => decide (cell n b c' = cell n b c)).map (img r')

theorem foldl_ite {α β : Type} (P : α → Bool) (v : α → β) :
    ∀ (l : List α) (a : β) (x : α), x ∈ l → P x = true → (∀ y ∈ l, P y = true → y = x) →
      l.foldl (fun a y => if P y then v y else a) a = v x := by
  intro l
  induction l using List.reverseRecOn with
  | nil => intro a x hx; simp at hx
  | append_singleton l y ih =>
    intro a x hx hP hu
    rw [List.foldl_append, List.foldl_cons, List.foldl_nil]
    by_cases hy : P y = true
    · rw [if_pos hy, hu y (by simp) hy]
    · rw [if_neg hy]
      apply ih a x _ hP (fun z hz => hu z (by simp [hz]))
      rcases List.mem_append.1 hx with h | h
      · exact h
      · simp at h; rw [h] at hP; exact absurd hP hy

theorem foldl_assign (med : List ℝ → ℝ) (img : ℕ → ℕ → ℝ) (r c : ℕ) :
    ∀ (l : List ((ℕ × ℕ) × (ℕ × ℕ))) (acc : ℕ → ℕ → ℝ), l.foldl (assign med img) acc r c =
      l.foldl (fun a p => if inside r p.1 && inside c p.2 then img r c - med (block img p.1 p.2) else a) (acc r c) := by
  intro l
  induction l with
  | nil => intro acc; rfl
  | cons p l ih => intro acc; rw [List.foldl_cons, List.foldl_cons, ih]; rfl

/-- Where the bin is not larger than either side of the image, the median of the square around each pixel is
subtracted. The last square of each row and column takes the remainder. -/
theorem C110_square_partial (med : List ℝ → ℝ) (img : ℕ → ℕ → ℝ) {m n b r c : ℕ} (hb : 0 < b) (hm : b ≤ m) (hn : b ≤ n)
    (hr : r < m) (hc : c < n) :
    (correct med img m n (some b) true).1 r c = img r c - med (square img m n b r c) ∧
    (correct med img m n (some b) true).2 r c = med (square img m n b r c) := by
  have h1 : (correct med img m n (some b) true).1 r c = img r c - med (square img m n b r c) := by
    show binned med img m n b r c = _
    unfold binned
    rw [foldl_assign, bins_eq hb, bins_eq hb]
    have hcr := cell_lt (x := r) hb hm
    have hcc := cell_lt (x := c) hb hn
    rw [foldl_ite (fun p : (ℕ × ℕ) × (ℕ × ℕ) => inside r p.1 && inside c p.2)
      (fun p => img r c - med (block img p.1 p.2)) _ _ (bin m b (cell m b r), bin n b (cell n b c))]
    · dsimp only
      congr 2
      unfold block square
      rw [range_bin hb hcr, range_bin hb hcc]
    · simp only [List.mem_flatMap, List.mem_map, List.mem_range]
      exact ⟨_, ⟨_, hcr, rfl⟩, _, ⟨_, hcc, rfl⟩, rfl⟩
    · simp only [Bool.and_eq_true]
      exact ⟨(inside_bin hb hr hcr).2 rfl, (inside_bin hb hc hcc).2 rfl⟩
    · simp only [List.mem_flatMap, List.mem_map, List.mem_range, Bool.and_eq_true]
      rintro y ⟨_, ⟨i, hi, rfl⟩, _, ⟨j, hj, rfl⟩, rfl⟩ ⟨h1, h2⟩
      rw [(inside_bin hb hr hi).1 h1, (inside_bin hb hc hj).1 h2]
  refine ⟨h1, ?_⟩
  show img r c - (correct med img m n (some b) true).1 r c = _
  rw [h1]; ring

/-- The square of a pixel contains it; its sides are at least `b` and less than `2 * b`. -/
theorem C110_side {n b x : ℕ} (hb : 0 < b) (hn : b ≤ n) (hx : x < n) :
    let s := (List.range n).filter fun y => decide (cell n b y = cell n b x)
    x ∈ s ∧ b ≤ s.length ∧ s.length < 2 * b := by
  dsimp only
  have hc := cell_lt (x := x) hb hn
  refine ⟨by simp [hx], ?_⟩
  rw [← range_bin hb hc, List.length_range']
  generalize cell n b x = i at hc
  unfold bin
  dsimp only
  have h1 := Nat.div_add_mod n b
  have h2 := Nat.mod_lt n hb
  split
  · rename_i h
    have : n / b * b = i * b + b := by rw [← h]; ring
    rw [mul_comm] at this
    omega
  · have : (i + 1) * b = i * b + b := by ring
    omega

/-- Where the bin is larger than a side of the image there are no bins: the image is lost, the whole of it is
reported as illumination. -/
theorem C110_violated_wide (med : List ℝ → ℝ) (img : ℕ → ℕ → ℝ) {m n b : ℕ} (h : m < b ∨ n < b) (r c : ℕ) :
    (correct med img m n (some b) true).1 r c = 0 ∧ (correct med img m n (some b) true).2 r c = img r c := by
  have hb : 0 < b := by omega
  have h1 : (correct med img m n (some b) true).1 r c = 0 := by
    show binned med img m n b r c = 0
    unfold binned
    rw [foldl_assign, bins_eq hb, bins_eq hb]
    rcases h with h | h
    · rw [Nat.div_eq_of_lt h]; rfl
    · rw [Nat.div_eq_of_lt h]
      have : ∀ l : List (ℕ × ℕ), (l.flatMap fun R => ((List.range 0).map (bin n b)).map fun C => (R, C)) = [] := by
        intro l; simp
      rw [this]; rfl
  refine ⟨h1, ?_⟩
  show img r c - (correct med img m n (some b) true).1 r c = _
  rw [h1, sub_zero]

/-- Without correction, or without a bin size, the median of the whole image is subtracted. -/
theorem C110_whole (med : List ℝ → ℝ) (img : ℕ → ℕ → ℝ) (m n : ℕ) (binsize : Option ℕ) (ill : Bool)
    (h : ill = false ∨ binsize = none) (r c : ℕ) :
    let all := (List.range m).flatMap fun r' => (List.range n).map (img r')
    (correct med img m n binsize ill).1 r c = img r c - med all ∧ (correct med img m n binsize ill).2 r c = med all := by
  have e : (correct med img m n binsize ill).1 = flat med img m n := by
    unfold correct
    rcases h with rfl | rfl
    · rfl
    · cases ill <;> rfl
  have e2 : block img (0, m) (0, n) = (List.range m).flatMap fun r' => (List.range n).map (img r') := by
    unfold block; simp [List.range_eq_range']
  dsimp only
  rw [← e2]
  refine ⟨by rw [e]; rfl, ?_⟩
  show img r c - (correct med img m n binsize ill).1 r c = _
  rw [e]; unfold flat; ring

/-- The two images returned add up to the input. -/
theorem C110_sum (med : List ℝ → ℝ) (img : ℕ → ℕ → ℝ) (m n : ℕ) (binsize : Option ℕ) (ill : Bool) (r c : ℕ) :
    (correct med img m n binsize ill).1 r c + (correct med img m n binsize ill).2 r c = img r c := by
  show _ + (img r c - (correct med img m n binsize ill).1 r c) = _
  ring

/-- `tpump_analysis` never asks for a bin larger than the image. -/
theorem C110_chosen {m n : ℕ} (hm : 0 < m) (hn : 0 < n) (binSize : Option ℕ) (h : binSize ≠ some 0) :
    0 < chosen m n binSize ∧ chosen m n binSize ≤ m ∧ chosen m n binSize ≤ n := by
  unfold chosen
  cases binSize with
  | none =>
    dsimp only
    have h1 : 0 < Nat.sqrt (min m n) := Nat.sqrt_pos.2 (by omega)
    have h2 := Nat.sqrt_le_self (min m n)
    omega
  | some b =>
    dsimp only
    have : b ≠ 0 := fun hh => h (by rw [hh])
    omega

/-! ## Median of the corrected square -/

theorem sort_sub (l : List ℝ) (a : ℝ) :
    (l.map (· - a)).insertionSort (· ≤ ·) = (l.insertionSort (· ≤ ·)).map (· - a) := by
  apply List.Perm.eq_of_pairwise' (r := (· ≤ ·))
  · exact List.pairwise_insertionSort (· ≤ ·) _
  · rw [List.pairwise_map]
    exact (List.pairwise_insertionSort (· ≤ ·) l).imp (fun h => by linarith)
  · exact (List.perm_insertionSort _ _).trans ((List.perm_insertionSort _ l).symm.map _)

theorem median_sub {l : List ℝ} (h : l ≠ []) (a : ℝ) : Nan.median (l.map (· - a)) = Nan.median l - a := by
  unfold Nan.median
  rw [sort_sub]
  dsimp only
  have hlen : 0 < (l.insertionSort (· ≤ ·)).length := by
    rw [List.length_insertionSort]; exact List.length_pos_iff.2 h
  generalize l.insertionSort (· ≤ ·) = s at *
  rw [List.length_map]
  have g : ∀ k, k < s.length → ((s.map (· - a))[k]?).getD 0 = (s[k]?).getD 0 - a := by
    intro k hk
    simp [hk]
  split
  · rw [g _ (by omega)]
  · rw [g _ (by omega), g _ (by omega)]; ring

/-- After the correction every square has median zero. -/
theorem C110_zero (img : ℕ → ℕ → ℝ) {m n b r c : ℕ} (hb : 0 < b) (hm : b ≤ m) (hn : b ≤ n) (hr : r < m) (hc : c < n) :
    Nan.median (square (correct Nan.median img m n (some b) true).1 m n b r c) = 0 := by
  have e : square (correct Nan.median img m n (some b) true).1 m n b r c =
      (square img m n b r c).map (· - Nan.median (square img m n b r c)) := by
    generalize hv : Nan.median (square img m n b r c) = v
    unfold square
    rw [List.map_flatMap]
    apply List.flatMap_congr
    intro r' hr'
    rw [List.map_map]
    apply List.map_congr_left
    intro c' hc'
    simp only [List.mem_filter, List.mem_range, decide_eq_true_eq] at hr' hc'
    rw [(C110_square_partial Nan.median img hb hm hn hr'.1 hc'.1).1]
    have : square img m n b r' c' = square img m n b r c := by
      unfold square; rw [hr'.2, hc'.2]
    rw [this, hv]; rfl
  rw [e, median_sub, sub_self]
  intro h0
  have : img r c ∈ square img m n b r c := by
    unfold square
    simp only [List.mem_flatMap, List.mem_map, List.mem_filter, List.mem_range, decide_eq_true_eq]
    exact ⟨r, ⟨hr, rfl⟩, c, ⟨hc, rfl⟩, rfl⟩
  rw [h0] at this; simp at this

example : edges 10 4 = [0, 4, 10] ∧ edges 8 4 = [0, 4, 8] ∧ edges 3 4 = [3] ∧ bins 10 4 = [(0, 4), (4, 10)] := by decide

example : (correct (fun l => l.headD 0) (fun r c => r + c) 10 10 (some 4) true).1 9 3 = 8 := by
  rw [(C110_square_partial _ _ (by norm_num) (by norm_num) (by norm_num) (by norm_num) (by norm_num)).1]
  have : square (fun r c : ℕ => (r : ℝ) + c) 10 10 4 9 3 = 4 :: (square (fun r c : ℕ => (r : ℝ) + c) 10 10 4 9 3).tail := by
    have h1 : (List.range 10).filter (fun r' => decide (cell 10 4 r' = cell 10 4 9)) = [4, 5, 6, 7, 8, 9] := by decide
    have h2 : (List.range 10).filter (fun r' => decide (cell 10 4 r' = cell 10 4 3)) = [0, 1, 2, 3] := by decide
    unfold square
    rw [h1, h2]
    simp
  rw [this]
  norm_num

end Corgi.TrapIllum

import Mathlib.Data.List.Range
import Mathlib.Data.List.Nodup
import Mathlib.Algebra.Order.Ring.Rat
import Mathlib.Algebra.Order.Field.Basic
import Mathlib.Data.Rat.Floor
import Mathlib.Algebra.Order.Floor.Ring
import Mathlib.Tactic.Linarith
import Mathlib.Tactic.FieldSimp
import Mathlib.Tactic.Ring
import Mathlib.Tactic.NormNum

/-!
# Photon transfer curve of `calibrate_kgain` (calibrate_kgain.py 78-130, 371-404, 489-515, 566-627): model and C104

Rationals for floats; `none` for NaN.
-/

namespace Corgi.Ptc

/-! ## Which frames are used (lines 495-514) -/

/-- `index_offsets` -/
def offsets (n : ℕ) : List ℕ := [2, 3, 1, 4, 5] ++ if 5 < n then List.range' 4 (n - 1 - 4) else []

/-- `index_pairs` -/
def pairs (n : ℕ) : List (ℕ × ℕ) :=
  [(0, 1), (0, 2), (1, 2), (2, 3), (3, 4)] ++ if 5 < n then (List.range' 4 (n - 1 - 4)).map fun i => (i, i + 1) else []

/-- Indices into a sub-stack of `n` frames. -/
def used (n : ℕ) : List ℕ := (offsets n).map fun o => n - o

theorem mem_offsets (n o : ℕ) : o ∈ offsets n ↔ (1 ≤ o ∧ o ≤ 5) ∨ (4 ≤ o ∧ o + 1 < n) := by
  unfold offsets
  rw [List.mem_append]
  have h1 : o ∈ [2, 3, 1, 4, 5] ↔ 1 ≤ o ∧ o ≤ 5 := by simp; omega
  rw [h1]
  split_ifs with h
  · rw [List.mem_range'_1]; omega
  · simp only [List.not_mem_nil, or_false]; omega

/-- **C104.** As many differences as frames: means and deviations have the same shape. -/
theorem C104_lengths (n : ℕ) (h : 5 ≤ n) : (offsets n).length = n ∧ (pairs n).length = n := by
  unfold offsets pairs
  split_ifs with h5
  · simp; omega
  · simp; omega

/-- **C104.** All indices are inside the sub-stack. -/
theorem C104_inside (n : ℕ) (h : 5 ≤ n) (i : ℕ) (hi : i ∈ used n) : i < n := by
  obtain ⟨o, ho, rfl⟩ := List.mem_map.1 hi
  rw [mem_offsets] at ho
  omega

theorem offsets_get (n i : ℕ) (h5 : 5 ≤ i) (hn : i < n) : (offsets n)[i]? = some (i - 1) := by
  unfold offsets
  rw [if_pos (by omega), List.getElem?_append_right (by simpa using h5)]
  simp only [List.length_cons, List.length_nil]
  rw [List.getElem?_range' (by omega)]
  simp; omega

/-- **C104.** Every difference is one of two different frames. -/
theorem C104_differences (n : ℕ) (p : ℕ × ℕ) (hp : p ∈ pairs n) :
    ∃ a b, (offsets n)[p.1]? = some a ∧ (offsets n)[p.2]? = some b ∧ a ≠ b := by
  have h0 : (offsets n)[0]? = some 2 := rfl
  have h1 : (offsets n)[1]? = some 3 := rfl
  have h2 : (offsets n)[2]? = some 1 := rfl
  have h3 : (offsets n)[3]? = some 4 := rfl
  have h4 : (offsets n)[4]? = some 5 := rfl
  unfold pairs at hp
  rw [List.mem_append] at hp
  rcases hp with hp | hp
  · simp only [List.mem_cons, List.not_mem_nil, or_false] at hp
    rcases hp with rfl | rfl | rfl | rfl | rfl
    · exact ⟨_, _, h0, h1, by decide⟩
    · exact ⟨_, _, h0, h2, by decide⟩
    · exact ⟨_, _, h1, h2, by decide⟩
    · exact ⟨_, _, h2, h3, by decide⟩
    · exact ⟨_, _, h3, h4, by decide⟩
  · by_cases h5 : 5 < n
    · rw [if_pos h5] at hp
      obtain ⟨i, hi, rfl⟩ := List.mem_map.1 hp
      rw [List.mem_range'_1] at hi
      by_cases hi4 : i = 4
      · subst hi4
        exact ⟨5, 4, h4, offsets_get n 5 (by omega) (by omega), by decide⟩
      · exact ⟨i - 1, i + 1 - 1, offsets_get n i (by omega) (by omega), offsets_get n (i + 1) (by omega) (by omega), by omega⟩
    · rw [if_neg h5] at hp; cases hp

/-- **C104 (partial).** Sub-stacks of five frames: each frame is used exactly once. -/
theorem C104_five_partial : (used 5).Perm [0, 1, 2, 3, 4] := by decide

/-- **C104, violated.** In larger sub-stacks the first frame is never used, and from seven frames on neither is the second;
others are used twice. -/
theorem C104_violated_frames (n : ℕ) (h : 6 ≤ n) :
    0 ∉ used n ∧ (7 ≤ n → 1 ∉ used n) ∧ ¬ (used n).Nodup := by
  have e : ∀ i, i < n → (i ∈ used n ↔ n - i ∈ offsets n) := by
    intro i hi
    unfold used
    rw [List.mem_map]
    constructor
    · rintro ⟨o, ho, rfl⟩
      have := (mem_offsets n o).1 ho
      have e2 : n - (n - o) = o := by omega
      rw [e2]; exact ho
    · intro ho
      exact ⟨n - i, ho, by omega⟩
  refine ⟨?_, ?_, ?_⟩
  · rw [e 0 (by omega), mem_offsets]; omega
  · intro h7; rw [e 1 (by omega), mem_offsets]; omega
  · intro hn
    have h3 : (used n)[3]? = some (n - 4) := rfl
    have h5 : (used n)[5]? = some (n - 4) := by
      unfold used; rw [List.getElem?_map, offsets_get n 5 (by omega) (by omega)]; rfl
    have hl : (used n).length = n := by unfold used; rw [List.length_map]; exact (C104_lengths n (by omega)).1
    have := (List.getElem?_inj (by omega) hn).1 (h3.trans h5.symm)
    omega

/-! ## Bins of the mean frame: `ptc_bin2` (lines 96-130) -/

/-- `len(np.arange(1, rows + 1, binwidth))` -/
def edges (rows bw : ℕ) : ℕ := (rows + bw - 1) / bw

/-- Width of a bin in DN (lines 107-108). -/
def width (rows cols bw : ℕ) (maxDN : ℚ) : ℚ := maxDN / ((edges rows bw : ℚ) * (edges cols bw : ℚ))

/-- The pixels of the frame whose mean value is in bin `k`, counted from 1 (lines 117-120). -/
def inBin (d : ℚ) (k : ℕ) (pix : List (ℚ × ℚ)) : List ℚ :=
  (pix.filter fun p => decide ((k : ℚ) * d ≤ p.1 ∧ p.1 < (k : ℚ) * d + d)).map Prod.snd

/-- Number of the bin stored at `(m, n)`; `none` for entries that are never written. -/
def binAt (rows cols bw m n : ℕ) : Option ℕ :=
  if m < edges rows bw - 1 ∧ n < edges cols bw - 1 then some (m * (edges cols bw - 1) + n + 1) else none

/-- Entry `(m, n)`: statistics of the pixels in the bin, zero without pixels. `pix` are mean and value of each pixel. -/
def entry (stat : List ℚ → ℚ) (rows cols bw : ℕ) (maxDN : ℚ) (pix : List (ℚ × ℚ)) (m n : ℕ) : ℚ :=
  match binAt rows cols bw m n with
  | none => 0
  | some k =>
    let l := inBin (width rows cols bw maxDN) k pix
    if l = [] then 0 else stat l

theorem edges_eq (rows bw : ℕ) (hb : 0 < bw) : edges rows bw = rows / bw + if bw ∣ rows then 0 else 1 := by
  unfold edges
  obtain ⟨q, r, hr, e⟩ : ∃ q r, r < bw ∧ rows = bw * q + r := ⟨rows / bw, rows % bw, Nat.mod_lt _ hb, (Nat.div_add_mod _ _).symm⟩
  subst e
  rw [Nat.mul_add_div hb, Nat.div_eq_of_lt hr, add_zero]
  by_cases h : r = 0
  · subst h
    rw [if_pos (by simp), add_zero, add_zero]
    have : bw * q + bw - 1 = bw * q + (bw - 1) := by omega
    rw [this, Nat.mul_add_div hb, Nat.div_eq_of_lt (by omega), add_zero]
  · have hnd : ¬ bw ∣ bw * q + r := by
      intro hd
      have := (Nat.dvd_add_right (Nat.dvd_mul_right bw q)).1 hd
      exact h (Nat.eq_zero_of_dvd_of_lt this hr)
    rw [if_neg hnd]
    have : bw * q + r + bw - 1 = bw * (q + 1) + (r - 1) := by rw [Nat.mul_succ]; omega
    rw [this, Nat.mul_add_div hb, Nat.div_eq_of_lt (by omega), add_zero]

/-- **C104.** Every written entry is inside the arrays of `rows // binwidth` by `cols // binwidth`. -/
theorem C104_written (rows cols bw m n k : ℕ) (hb : 0 < bw) (h : binAt rows cols bw m n = some k) :
    m < rows / bw ∧ n < cols / bw := by
  unfold binAt at h
  by_cases hc : m < edges rows bw - 1 ∧ n < edges cols bw - 1
  · have h1 := edges_eq rows bw hb
    have h2 := edges_eq cols bw hb
    split_ifs at h1 h2 <;> omega
  · rw [if_neg hc] at h; cases h

/-- **C104, violated.** If the width divides the region the last row and column are never filled. -/
theorem C104_violated_last_row (stat : List ℚ → ℚ) (rows cols bw : ℕ) (maxDN : ℚ) (pix : List (ℚ × ℚ)) (hb : 0 < bw)
    (i : ℕ) : (bw ∣ rows → entry stat rows cols bw maxDN pix (rows / bw - 1) i = 0) ∧
      (bw ∣ cols → entry stat rows cols bw maxDN pix i (cols / bw - 1) = 0) := by
  constructor
  · intro h
    have h1 := edges_eq rows bw hb
    rw [if_pos h] at h1
    unfold entry binAt
    rw [if_neg (by omega)]
  · intro h
    have h1 := edges_eq cols bw hb
    rw [if_pos h] at h1
    unfold entry binAt
    rw [if_neg (by omega)]

/-- **C104.** Different entries belong to different bins, and the bins do not overlap: no pixel is used twice. -/
theorem C104_disjoint (rows cols bw m n m' n' k k' : ℕ) (d v : ℚ) (hd : 0 < d)
    (h : binAt rows cols bw m n = some k) (h' : binAt rows cols bw m' n' = some k')
    (hv : (k : ℚ) * d ≤ v ∧ v < (k : ℚ) * d + d) (hv' : (k' : ℚ) * d ≤ v ∧ v < (k' : ℚ) * d + d) : m = m' ∧ n = n' := by
  have hk : k = k' := by
    have h1 : (k : ℚ) < k' + 1 := by
      by_contra hc; push Not at hc
      have := mul_le_mul_of_nonneg_right hc hd.le
      linarith [hv.1, hv'.2]
    have h2 : (k' : ℚ) < k + 1 := by
      by_contra hc; push Not at hc
      have := mul_le_mul_of_nonneg_right hc hd.le
      linarith [hv'.1, hv.2]
    have h1' : k < k' + 1 := by exact_mod_cast h1
    have h2' : k' < k + 1 := by exact_mod_cast h2
    omega
  unfold binAt at h h'
  by_cases hc : m < edges rows bw - 1 ∧ n < edges cols bw - 1
  · rw [if_pos hc] at h
    by_cases hc' : m' < edges rows bw - 1 ∧ n' < edges cols bw - 1
    · rw [if_pos hc'] at h'
      cases h; cases h'
      generalize edges cols bw - 1 = w at *
      have hw : 0 < w := by omega
      have e : m * w + n = m' * w + n' := by omega
      have q : (m * w + n) / w = (m' * w + n') / w := by rw [e]
      rw [Nat.mul_comm m w, Nat.mul_comm m' w, Nat.mul_add_div hw, Nat.mul_add_div hw, Nat.div_eq_of_lt hc.2,
        Nat.div_eq_of_lt hc'.2, add_zero, add_zero] at q
      subst q
      exact ⟨rfl, by omega⟩
    · rw [if_neg hc'] at h'; cases h'
  · rw [if_neg hc] at h; cases h

/-- **C104.** The pixels used are exactly those between one bin width and one bin width more than the number of bins. -/
theorem C104_covered (rows cols bw : ℕ) (d v : ℚ) (hd : 0 < d) :
    (∃ m n k, binAt rows cols bw m n = some k ∧ (k : ℚ) * d ≤ v ∧ v < (k : ℚ) * d + d) ↔
      d ≤ v ∧ v < (((edges rows bw - 1) * (edges cols bw - 1) : ℕ) : ℚ) * d + d := by
  generalize hR : edges rows bw - 1 = R
  generalize hC : edges cols bw - 1 = C
  have hbin : ∀ m n, binAt rows cols bw m n = if m < R ∧ n < C then some (m * C + n + 1) else none := by
    intro m n; unfold binAt; rw [hR, hC]
  constructor
  · rintro ⟨m, n, k, h, h1, h2⟩
    rw [hbin] at h
    by_cases hc : m < R ∧ n < C
    · rw [if_pos hc] at h; cases h
      have hk : m * C + n + 1 ≤ R * C := by
        have : (m + 1) * C ≤ R * C := Nat.mul_le_mul_right _ hc.1
        rw [Nat.succ_mul] at this; omega
      have hk' : ((m * C + n + 1 : ℕ) : ℚ) ≤ ((R * C : ℕ) : ℚ) := by exact_mod_cast hk
      have hk1 : (1 : ℚ) ≤ ((m * C + n + 1 : ℕ) : ℚ) := by exact_mod_cast Nat.le_add_left 1 _
      have := mul_le_mul_of_nonneg_right hk' hd.le
      have := mul_le_mul_of_nonneg_right hk1 hd.le
      constructor <;> linarith
    · rw [if_neg hc] at h; cases h
  · rintro ⟨h1, h2⟩
    have hq : 1 ≤ v / d := by rw [le_div_iff₀ hd]; linarith
    obtain ⟨k, hk⟩ : ∃ k : ℕ, (k : ℤ) = ⌊v / d⌋ := ⟨⌊v / d⌋.toNat, Int.toNat_of_nonneg (Int.floor_nonneg.2 (by linarith))⟩
    have hkq : ((k : ℕ) : ℚ) = ((⌊v / d⌋ : ℤ) : ℚ) := by rw [← hk]; simp
    have f1 : (k : ℚ) * d ≤ v := by rw [hkq]; exact (le_div_iff₀ hd).1 (Int.floor_le _)
    have f2 : v < (k : ℚ) * d + d := by
      have := (div_lt_iff₀ hd).1 (Int.lt_floor_add_one (v / d)); rw [hkq]; linarith
    have k1 : 1 ≤ k := by
      have : (1 : ℤ) ≤ ⌊v / d⌋ := Int.le_floor.2 (by exact_mod_cast hq)
      omega
    have k2 : k ≤ R * C := by
      by_contra hc
      push Not at hc
      have : ((R * C : ℕ) : ℚ) + 1 ≤ k := by exact_mod_cast hc
      have := mul_le_mul_of_nonneg_right this hd.le
      linarith
    have hC0 : 0 < C := by
      rcases Nat.eq_zero_or_pos C with e | e
      · rw [e, Nat.mul_zero] at k2; omega
      · exact e
    refine ⟨(k - 1) / C, (k - 1) % C, k, ?_, f1, f2⟩
    have hm : (k - 1) / C < R := (Nat.div_lt_iff_lt_mul hC0).2 (by omega)
    rw [hbin, if_pos ⟨hm, Nat.mod_lt _ hC0⟩]
    have := Nat.div_add_mod (k - 1) C
    rw [Nat.mul_comm] at this
    congr 1; omega

/-- **C104, violated.** The maximum DN is not the limit: with the default region, width and maximum, only signals from 73 to
below 11195 DN are used instead of all below 13000. -/
theorem C104_violated_max (v : ℚ) :
    (∃ m n k, binAt 991 801 68 m n = some k ∧ (k : ℚ) * width 991 801 68 13000 ≤ v ∧
      v < (k : ℚ) * width 991 801 68 13000 + width 991 801 68 13000) ↔ 650 / 9 ≤ v ∧ v < 100750 / 9 := by
  have hw : width 991 801 68 13000 = 650 / 9 := by norm_num [width, edges]
  rw [hw, C104_covered _ _ _ _ _ (by norm_num)]
  norm_num [edges]

/-- **C104.** The statistics of an entry are those of the values (not of the means) of all pixels with a mean in the bin,
its lower limit included; entries without pixels are zero whatever the statistics. -/
theorem C104_entry (rows cols bw m n k : ℕ) (maxDN : ℚ) (pix : List (ℚ × ℚ)) (h : binAt rows cols bw m n = some k) :
    entry List.sum rows cols bw maxDN pix m n = (pix.map fun p =>
      if (k : ℚ) * width rows cols bw maxDN ≤ p.1 ∧ p.1 < (k : ℚ) * width rows cols bw maxDN + width rows cols bw maxDN
      then p.2 else 0).sum ∧
    ∀ stat, (∀ p ∈ pix, ¬ ((k : ℚ) * width rows cols bw maxDN ≤ p.1 ∧
      p.1 < (k : ℚ) * width rows cols bw maxDN + width rows cols bw maxDN)) → entry stat rows cols bw maxDN pix m n = 0 := by
  generalize hd : width rows cols bw maxDN = d
  constructor
  · have : entry List.sum rows cols bw maxDN pix m n = (inBin d k pix).sum := by
      unfold entry; rw [h]; dsimp only; rw [hd]
      split_ifs with he
      · rw [he]; rfl
      · rfl
    rw [this]
    clear this
    unfold inBin
    induction pix with
    | nil => rfl
    | cons p l ih =>
      by_cases hp : (k : ℚ) * d ≤ p.1 ∧ p.1 < (k : ℚ) * d + d
      · rw [List.filter_cons_of_pos (by simpa using hp), List.map_cons, List.sum_cons, ih, List.map_cons, List.sum_cons,
          if_pos hp]
      · rw [List.filter_cons_of_neg (by simpa using hp), ih, List.map_cons, List.sum_cons, if_neg hp, zero_add]
  · intro stat hno
    unfold entry; rw [h]; dsimp only; rw [hd]
    have he : inBin d k pix = [] := by
      unfold inBin
      rw [List.filter_eq_nil_iff.2 fun p hp => by simpa using hno p hp]; rfl
    rw [if_pos he]

/-! ## Bins of the curve (lines 570-594) -/

/-- `np.linspace(lo, hi, N)` -/
def lin (N : ℕ) (lo hi : ℚ) (i : ℕ) : ℚ := lo + (i : ℚ) * ((hi - lo) / ((N : ℚ) - 1))

/-- `signal_bins`: a zero before the others. -/
def edge (N : ℕ) (lo hi : ℚ) : ℕ → ℚ
  | 0 => 0
  | i + 1 => lin N lo hi i

/-- Value `v` is in bin `b`, `1 ≤ b ≤ N`. -/
def inSignalBin (N : ℕ) (lo hi : ℚ) (b : ℕ) (v : ℚ) : Prop := edge N lo hi (b - 1) < v ∧ v < edge N lo hi b

theorem lin_mono (N : ℕ) (lo hi : ℚ) (hN : 2 ≤ N) (h : lo < hi) (i j : ℕ) : lin N lo hi i < lin N lo hi j ↔ i < j := by
  have hn : (0 : ℚ) < (N : ℚ) - 1 := by have : (2 : ℚ) ≤ N := by exact_mod_cast hN
                                        linarith
  have hs : 0 < (hi - lo) / ((N : ℚ) - 1) := div_pos (by linarith) hn
  unfold lin
  rw [add_lt_add_iff_left, mul_lt_mul_iff_left₀ hs, Nat.cast_lt]

theorem lin_last (N : ℕ) (lo hi : ℚ) (hN : 2 ≤ N) : lin N lo hi (N - 1) = hi := by
  have hn : (N : ℚ) - 1 ≠ 0 := by have : (2 : ℚ) ≤ N := by exact_mod_cast hN
                                  intro e; linarith
  unfold lin
  rw [Nat.cast_sub (by omega), Nat.cast_one]
  field_simp; ring

/-- **C104.** A mean value is in a bin exactly if it is not one of the edges; the bin is unique. -/
theorem C104_signal_bins (N : ℕ) (lo hi v : ℚ) (hN : 2 ≤ N) (h : lo < hi) (hv : lo ≤ v ∧ v ≤ hi) :
    ((∃ b, 1 ≤ b ∧ b ≤ N ∧ inSignalBin N lo hi b v) ↔ ∀ i, i < N → v ≠ lin N lo hi i) ∧
    ∀ b c, 1 ≤ b → 1 ≤ c → inSignalBin N lo hi b v → inSignalBin N lo hi c v → b = c := by
  have hmono := lin_mono N lo hi hN h
  have h0 : lin N lo hi 0 = lo := by simp [lin]
  have shape : ∀ b, 1 ≤ b → inSignalBin N lo hi b v → ∃ j, b = j + 2 ∧ lin N lo hi j < v ∧ v < lin N lo hi (j + 1) := by
    intro b hb hin
    match b, hb, hin with
    | 1, _, hin =>
      have h' : v < lin N lo hi 0 := hin.2
      rw [h0] at h'
      exact absurd h' (not_lt.2 hv.1)
    | j + 2, _, hin => exact ⟨j, rfl, hin.1, hin.2⟩
  have no : ∀ i j, lin N lo hi j < lin N lo hi i → lin N lo hi i < lin N lo hi (j + 1) → False := by
    intro i j h1 h2
    rw [hmono] at h1 h2; omega
  refine ⟨⟨?_, ?_⟩, ?_⟩
  · rintro ⟨b, hb, hbN, hin⟩ i hi' rfl
    obtain ⟨j, rfl, h1, h2⟩ := shape b hb hin
    exact no i j h1 h2
  · intro hne
    classical
    have hex : ∃ j, v < lin N lo hi j := by
      refine ⟨N, lt_of_le_of_lt hv.2 ?_⟩
      rw [← lin_last N lo hi hN]
      have := (hmono (N - 1) N).2 (by omega)
      rwa [lin_last N lo hi hN] at this ⊢
    have hlt := Nat.find_spec hex
    have hmin := fun j hj => Nat.find_min hex (m := j) hj
    generalize Nat.find hex = j at hlt hmin
    match j, hlt, hmin with
    | 0, hlt, _ => rw [h0] at hlt; exact absurd hlt (not_lt.2 hv.1)
    | j + 1, hlt, hmin =>
      have hle : lin N lo hi j ≤ v := not_lt.1 (hmin j (by omega))
      have hjN : j < N - 1 ∨ v = hi := by
        by_contra hc
        push Not at hc
        have : lin N lo hi (N - 1) ≤ lin N lo hi j := by
          by_contra hcc; push Not at hcc; rw [hmono] at hcc; omega
        rw [lin_last N lo hi hN] at this
        exact hc.2 (le_antisymm hv.2 (this.trans hle))
      rcases hjN with hjN | hjN
      · have hne' := hne j (by omega)
        exact ⟨j + 2, by omega, by omega, lt_of_le_of_ne hle (Ne.symm hne'), hlt⟩
      · exact absurd (hjN.trans (lin_last N lo hi hN).symm) (hne (N - 1) (by omega))
  · intro b c hb hc h1 h2
    obtain ⟨i, rfl, a1, a2⟩ := shape b hb h1
    obtain ⟨j, rfl, b1, b2⟩ := shape c hc h2
    have c1 := (hmono i (j + 1)).1 (a1.trans b2)
    have c2 := (hmono j (i + 1)).1 (b1.trans a2)
    omega

/-- **C104.** The first bin holds what is positive and below the smallest mean value: nothing. -/
theorem C104_first_bin (N : ℕ) (lo hi v : ℚ) : inSignalBin N lo hi 1 v ↔ 0 < v ∧ v < lo := by
  unfold inSignalBin edge lin
  simp

/-- **C104, violated.** The smallest and the largest mean value are in no bin, whatever the data. -/
theorem C104_violated_extremes (N : ℕ) (lo hi : ℚ) (hN : 2 ≤ N) (h : lo < hi) (b : ℕ) (hb : 1 ≤ b) (hbN : b ≤ N) :
    ¬ inSignalBin N lo hi b lo ∧ ¬ inSignalBin N lo hi b hi := by
  constructor
  · intro hin
    exact (C104_signal_bins N lo hi lo hN h ⟨le_rfl, h.le⟩).1.1 ⟨b, hb, hbN, hin⟩ 0 (by omega) (by simp [lin])
  · intro hin
    exact (C104_signal_bins N lo hi hi hN h ⟨h.le, le_rfl⟩).1.1 ⟨b, hb, hbN, hin⟩ (N - 1) (by omega) (lin_last N lo hi hN).symm

/-! ## The part of the curve that is fitted (lines 614-627) -/

/-- `avg` are the compiled means, `none` for empty bins. Returns the indices used; `none` if there is none above the minimum
or none below the maximum (`ValueError`). -/
def window (minVal maxVal : ℚ) (avg : List (Option ℚ)) : Option (List ℕ) :=
  let above := (List.range avg.length).filter fun i => (avg.getD i none).any (minVal < ·)
  let below := (List.range avg.length).filter fun i => (avg.getD i none).any (· < maxVal)
  match above.head?, below.getLast? with
  | some lo, some hi => some ((List.range avg.length).filter fun i => decide (lo ≤ i ∧ i < hi) && (avg.getD i none).isSome)
  | _, _ => none

/-- Spec: bin `i` has the mean `a`. -/
def Mean (avg : List (Option ℚ)) (i : ℕ) (a : ℚ) : Prop := avg[i]? = some (some a)

theorem getD_any (avg : List (Option ℚ)) (i : ℕ) (p : ℚ → Bool) (hi : i < avg.length) :
    (avg.getD i none).any p = true ↔ ∃ a, Mean avg i a ∧ p a = true := by
  unfold Mean
  rw [List.getD_eq_getElem?_getD, List.getElem?_eq_getElem hi]
  cases avg[i] <;> simp

/-- The window, with its first and last index. -/
theorem window_spec (minVal maxVal : ℚ) (avg : List (Option ℚ)) (l : List ℕ) (h : window minVal maxVal avg = some l) :
    ∃ lo hi, (∃ a, Mean avg lo a ∧ minVal < a) ∧ (∀ i a, Mean avg i a → minVal < a → lo ≤ i) ∧
      (∃ a, Mean avg hi a ∧ a < maxVal) ∧ (∀ i a, Mean avg i a → a < maxVal → i ≤ hi) ∧
      ∀ i, i ∈ l ↔ lo ≤ i ∧ i < hi ∧ ∃ a, Mean avg i a := by
  have lt : ∀ {i a}, Mean avg i a → i < avg.length := fun {i a} h => (List.getElem?_eq_some_iff.1 h).1
  unfold window at h
  dsimp only at h
  split at h
  · rename_i lo hi hlo hhi
    cases h
    have mlo := List.mem_filter.1 (List.mem_of_mem_head? hlo)
    have mhi := List.mem_filter.1 (List.mem_of_getLast? hhi)
    refine ⟨lo, hi, ?_, ?_, ?_, ?_, ?_⟩
    · obtain ⟨a, h1, h2⟩ := (getD_any avg lo _ (List.mem_range.1 mlo.1)).1 mlo.2
      exact ⟨a, h1, by simpa using h2⟩
    · intro i a hi' ha
      have hmem : i ∈ (List.range avg.length).filter fun i => (avg.getD i none).any (minVal < ·) :=
        List.mem_filter.2 ⟨List.mem_range.2 (lt hi'), (getD_any avg i _ (lt hi')).2 ⟨a, hi', by simpa using ha⟩⟩
      have hs : ((List.range avg.length).filter fun i => (avg.getD i none).any (minVal < ·)).Pairwise (· < ·) :=
        (List.pairwise_lt_range).filter _
      revert hlo hmem hs
      generalize ((List.range avg.length).filter fun i => (avg.getD i none).any (minVal < ·)) = q
      intro hlo hmem hs
      cases q with
      | nil => cases hmem
      | cons x xs =>
        simp only [List.head?_cons, Option.some.injEq] at hlo
        subst hlo
        rcases List.mem_cons.1 hmem with rfl | hm
        · exact le_rfl
        · exact ((List.pairwise_cons.1 hs).1 i hm).le
    · obtain ⟨a, h1, h2⟩ := (getD_any avg hi _ (List.mem_range.1 mhi.1)).1 mhi.2
      exact ⟨a, h1, by simpa using h2⟩
    · intro i a hi' ha
      have hmem : i ∈ (List.range avg.length).filter fun i => (avg.getD i none).any (· < maxVal) :=
        List.mem_filter.2 ⟨List.mem_range.2 (lt hi'), (getD_any avg i _ (lt hi')).2 ⟨a, hi', by simpa using ha⟩⟩
      have hs : ((List.range avg.length).filter fun i => (avg.getD i none).any (· < maxVal)).Pairwise (· < ·) :=
        (List.pairwise_lt_range).filter _
      revert hhi hmem hs
      generalize ((List.range avg.length).filter fun i => (avg.getD i none).any (· < maxVal)) = q
      intro hhi hmem hs
      obtain ⟨ys, rfl⟩ := List.getLast?_eq_some_iff.1 hhi
      rcases List.mem_append.1 hmem with hm | hm
      · exact ((List.pairwise_append.1 hs).2.2 i hm hi (by simp)).le
      · exact (List.mem_singleton.1 hm).le
    · intro i
      rw [List.mem_filter, List.mem_range, Bool.and_eq_true, decide_eq_true_eq]
      constructor
      · rintro ⟨h1, ⟨h2, h3⟩, h4⟩
        refine ⟨h2, h3, ?_⟩
        rw [List.getD_eq_getElem?_getD, List.getElem?_eq_getElem h1] at h4
        obtain ⟨a, ha⟩ := Option.isSome_iff_exists.1 h4
        exact ⟨a, by unfold Mean; rw [List.getElem?_eq_getElem h1]; simpa using ha⟩
      · rintro ⟨h1, h2, a, ha⟩
        refine ⟨lt ha, ⟨h1, h2⟩, ?_⟩
        unfold Mean at ha
        rw [List.getD_eq_getElem?_getD, ha]; rfl
  · cases h

/-- **C104.** Means grow with the bins, so every bin that is used has a mean inside the limits. -/
theorem C104_window (minVal maxVal : ℚ) (avg : List (Option ℚ)) (l : List ℕ) (h : window minVal maxVal avg = some l)
    (hm : ∀ i j a b, i < j → Mean avg i a → Mean avg j b → a < b) (i : ℕ) (hi : i ∈ l) :
    ∃ a, Mean avg i a ∧ minVal < a ∧ a < maxVal := by
  obtain ⟨lo, hi', ⟨x, hx, hx'⟩, _, ⟨y, hy, hy'⟩, _, hl⟩ := window_spec minVal maxVal avg l h
  obtain ⟨h1, h2, a, ha⟩ := (hl i).1 hi
  refine ⟨a, ha, ?_, (hm i hi' a y h2 ha hy).trans hy'⟩
  rcases Nat.eq_or_lt_of_le h1 with e | e
  · subst e
    have : x = a := by
      unfold Mean at hx ha; rw [hx] at ha; simpa using ha
    rwa [← this]
  · exact hx'.trans (hm lo i x a e hx ha)

/-- **C104, violated.** Of the bins inside the limits exactly one, that with the largest mean, is left out (the slice ends
before `upper_bound`). -/
theorem C104_violated_upper (minVal maxVal : ℚ) (avg : List (Option ℚ)) (l : List ℕ) (h : window minVal maxVal avg = some l)
    (hm : ∀ i j a b, i < j → Mean avg i a → Mean avg j b → a < b) (i : ℕ) (a : ℚ) (hi : Mean avg i a)
    (h1 : minVal < a) (h2 : a < maxVal) :
    i ∉ l ↔ ∀ j b, Mean avg j b → b < maxVal → b ≤ a := by
  obtain ⟨lo, hi', _, hlo, ⟨y, hy, hy'⟩, hhi, hl⟩ := window_spec minVal maxVal avg l h
  have le1 := hlo i a hi h1
  have le2 := hhi i a hi h2
  rw [hl]
  constructor
  · intro hn j b hj hb
    have e : i = hi' := by
      by_contra hne
      exact hn ⟨le1, by omega, a, hi⟩
    subst e
    rcases Nat.eq_or_lt_of_le (hhi j b hj hb) with e | e
    · subst e
      have : b = a := by unfold Mean at hj hi; rw [hj] at hi; simpa using hi
      exact this.le
    · exact (hm j i b a e hj hi).le
  · rintro hall ⟨_, hlt, _⟩
    have := hm i hi' a y hlt hi hy
    exact absurd (hall hi' y hy hy') (not_le.2 this)

example : window 800 3000 [none, some 500, some 900, none, some 2000, some 2900, some 3500] = some [2, 4] := by decide +kernel

/-! ## Checks of the dimensions (lines 372-380, 396-404) -/

/-- Nested lists. -/
inductive Nest
  | num
  | list (l : List Nest)

/-- `tmp[i]`; `none` raises. -/
def Nest.get : Nest → ℕ → Option Nest
  | .num, _ => none
  | .list l, i => l[i]?

/-- The loop `for idx in range(n)` with its bare `except: pass`: the last `idx`. -/
def lastIdx (tmp : Nest) (n : ℕ) : Option ℕ :=
  ((List.range n).foldl (fun (s : Nest × Option ℕ) idx => (((s.1.get idx).getD s.1), some idx)) (tmp, none)).2

/-- **C104, violated.** The checks that the stacks are 4-D and 3-D accept everything, numbers included. -/
theorem C104_violated_dimensions (tmp : Nest) : lastIdx tmp 4 = some 3 ∧ lastIdx tmp 3 = some 2 := ⟨rfl, rfl⟩

end Corgi.Ptc

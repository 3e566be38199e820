import Verif.Psf.Inject
import Mathlib.Data.List.Sort
import Mathlib.Analysis.SpecialFunctions.Gaussian.GaussianIntegral

/-!
# `meas_klip_thrupt` (klip_fm.py 157-518): model and C101

The injections, the cut-outs around them, and the table of throughputs. `pyklip`, the Gaussian fits and the median are
inputs of the model.
-/

namespace Corgi.Thrupt

/-! ## Where sources are injected (lines 248-295) -/

section Injections

variable {L : Type} [DecidableEq L]

/-- One frame: `locs` in order; `first` is `i == 0`. Returns the locations skipped so far and those injected. -/
def injectFrame (tooClose : L → Bool) (first : Bool) : List L → List L → List L × List L
  | skipped, [] => (skipped, [])
  | skipped, l :: ls =>
    if l ∈ skipped then injectFrame tooClose first skipped ls
    else if first && tooClose l then injectFrame tooClose first (skipped ++ [l]) ls
    else
      let r := injectFrame tooClose first skipped ls
      (r.1, l :: r.2)

/-- All frames, the first one with `i == 0`. -/
def injectAll (tooClose : L → Bool) (locs : List L) : ℕ → List (List L)
  | 0 => []
  | n + 1 =>
    let r := injectFrame tooClose true [] locs
    r.2 :: (List.replicate n (injectFrame tooClose false r.1 locs).2)

theorem injectFrame_first (tooClose : L → Bool) (locs : List L) : ∀ skipped, (∀ l ∈ skipped, tooClose l = true) →
    (∀ l, l ∈ (injectFrame tooClose true skipped locs).1 ↔ l ∈ skipped ∨ (l ∈ locs ∧ tooClose l = true)) ∧
    (injectFrame tooClose true skipped locs).2 = locs.filter fun l => !tooClose l := by
  induction locs with
  | nil => intro skipped _; simp [injectFrame]
  | cons a ls ih =>
    intro skipped hs
    unfold injectFrame
    by_cases h : a ∈ skipped
    · rw [if_pos h]
      have hc := hs a h
      refine ⟨fun l => ?_, ?_⟩
      · rw [(ih skipped hs).1]
        constructor
        · rintro (h | h)
          · exact Or.inl h
          · exact Or.inr ⟨List.mem_cons_of_mem _ h.1, h.2⟩
        · rintro (h' | ⟨h', h2⟩)
          · exact Or.inl h'
          · rcases List.mem_cons.1 h' with rfl | h'
            · exact Or.inl h
            · exact Or.inr ⟨h', h2⟩
      · rw [(ih skipped hs).2, List.filter_cons_of_neg (by simp [hc])]
    · rw [if_neg h]
      by_cases hc : tooClose a = true
      · rw [if_pos (by simp [hc])]
        have hs' : ∀ l ∈ skipped ++ [a], tooClose l = true := by
          intro l hl
          rcases List.mem_append.1 hl with hl | hl
          · exact hs l hl
          · rw [List.mem_singleton.1 hl]; exact hc
        refine ⟨fun l => ?_, ?_⟩
        · rw [(ih _ hs').1]
          simp only [List.mem_append, List.mem_cons, List.not_mem_nil, or_false]
          constructor
          · rintro ((h | rfl) | h)
            · exact Or.inl h
            · exact Or.inr ⟨Or.inl rfl, hc⟩
            · exact Or.inr ⟨Or.inr h.1, h.2⟩
          · rintro (h | ⟨rfl | h, h2⟩)
            · exact Or.inl (Or.inl h)
            · exact Or.inl (Or.inr rfl)
            · exact Or.inr ⟨h, h2⟩
        · rw [(ih _ hs').2, List.filter_cons_of_neg (by simp [hc])]
      · rw [if_neg (by simp [hc])]
        dsimp only
        refine ⟨fun l => ?_, ?_⟩
        · rw [(ih skipped hs).1]
          constructor
          · rintro (h | h)
            · exact Or.inl h
            · exact Or.inr ⟨List.mem_cons_of_mem _ h.1, h.2⟩
          · rintro (h' | ⟨h', h2⟩)
            · exact Or.inl h'
            · rcases List.mem_cons.1 h' with rfl | h'
              · exact absurd h2 hc
              · exact Or.inr ⟨h', h2⟩
        · rw [(ih skipped hs).2, List.filter_cons_of_pos (by simp [hc])]

theorem injectFrame_later (tooClose : L → Bool) (locs : List L) : ∀ skipped,
    (injectFrame tooClose false skipped locs).2 = locs.filter fun l => decide (l ∉ skipped) := by
  induction locs with
  | nil => intro _; rfl
  | cons a ls ih =>
    intro skipped
    unfold injectFrame
    by_cases h : a ∈ skipped
    · rw [if_pos h, ih, List.filter_cons_of_neg (by simp [h])]
    · rw [if_neg h, if_neg (by simp)]
      dsimp only
      rw [ih, List.filter_cons_of_pos (by simp [h])]

/-- **C101.** Every frame receives the same sources, in the same order: all locations of the grid that are not too close to
a candidate. -/
theorem C101_injected (tooClose : L → Bool) (locs : List L) (n : ℕ) :
    injectAll tooClose locs n = List.replicate n (locs.filter fun l => !tooClose l) := by
  cases n with
  | zero => rfl
  | succ n =>
    have h := injectFrame_first tooClose locs [] (by simp)
    unfold injectAll
    dsimp only
    rw [h.2, injectFrame_later, List.replicate_succ]
    congr 2
    apply List.filter_congr
    intro l hl
    have := h.1 l
    by_cases hc : tooClose l = true
    · simp [hc, this, hl]
    · simp [hc, this]

end Injections

noncomputable section

open Real Corgi.Astrom

/-- The grid of locations (lines 255-265): separation, position angle; each separation turns the angles by a third of the
step. `m` is Python's `% 360`. -/
def locations (m : ℝ → ℝ) (seps pas : List ℝ) : List (ℝ × ℝ) :=
  seps.zipIdx.flatMap fun si : ℝ × ℕ => pas.map fun pa => (si.1, m (pa + (si.2 : ℝ) * (360 / (pas.length : ℝ) / 3)))

open Classical in
/-- lines 270-281, for one or more rolls (which have no influence) -/
def near (cands : List (ℝ × ℝ)) (res : ℝ) (l : ℝ × ℝ) : Bool := cands.any fun c => decide (polarDist c l < res)

/-- **C101.** All injected sources are at least one resolution element away from every candidate, whatever their angles
(distance in the plane). -/
theorem C101_away (cands locs : List (ℝ × ℝ)) (res : ℝ) (n : ℕ) (frame : List (ℝ × ℝ)) (l c : ℝ × ℝ)
    (hf : frame ∈ @injectAll _ (Classical.decEq _) (near cands res) locs n) (hl : l ∈ frame) (hc : c ∈ cands) :
    res ≤ len (seppa2dxdy c.1 c.2 - seppa2dxdy l.1 l.2) := by
  let _ : DecidableEq (ℝ × ℝ) := Classical.decEq _
  rw [C101_injected] at hf
  rw [List.eq_of_mem_replicate hf, List.mem_filter] at hl
  have := hl.2
  simp only [near, Bool.not_eq_true', List.any_eq_false, decide_eq_true_eq, not_lt] at this
  have h := this c hc
  have e := C86_distance c.1 c.2 l.1 l.2
  refine h.trans (le_of_eq ?_)
  exact e

theorem locations_length (m : ℝ → ℝ) (seps pas : List ℝ) :
    (locations m seps pas).length = seps.length * pas.length := by
  unfold locations
  rw [List.length_flatMap]
  have : (seps.zipIdx.map fun si : ℝ × ℕ => (pas.map fun pa => (si.1, m (pa + (si.2 : ℝ) * (360 / (pas.length : ℝ) / 3)))).length) =
      seps.zipIdx.map fun _ => pas.length := by
    apply List.map_congr_left; intro a _; rw [List.length_map]
  rw [this, List.map_const', List.sum_replicate, List.length_zipIdx, smul_eq_mul]

/-- **C101.** Source `j` of separation `i`. -/
theorem C101_grid (m : ℝ → ℝ) (seps pas : List ℝ) (l : ℝ × ℝ) :
    l ∈ locations m seps pas ↔ ∃ (i : ℕ) (s pa : ℝ), seps[i]? = some s ∧ pa ∈ pas ∧
      l = (s, m (pa + (i : ℝ) * (120 / (pas.length : ℝ)))) := by
  unfold locations
  rw [List.mem_flatMap]
  constructor
  · rintro ⟨⟨s, i⟩, hsi, hl⟩
    obtain ⟨pa, hpa, rfl⟩ := List.mem_map.1 hl
    refine ⟨i, s, pa, List.mem_zipIdx_iff_getElem?.1 hsi, hpa, ?_⟩
    congr 3; ring
  · rintro ⟨i, s, pa, hs, hpa, rfl⟩
    refine ⟨(s, i), List.mem_zipIdx_iff_getElem?.2 hs, List.mem_map.2 ⟨pa, hpa, ?_⟩⟩
    congr 3; ring

/-- The default angles (line 227) -/
def defaultPas (n : ℕ) : List ℝ := (List.range n).map fun k : ℕ => (k : ℝ) * (360 / n)

/-- **C101, violated.** The documentation promises 0, 90, 180, 270; there are five, 72 degrees apart. -/
theorem C101_violated_default_pas : defaultPas 5 = [0, 72, 144, 216, 288] := by
  simp only [defaultPas, List.range, List.range.loop, List.map_cons, List.map_nil]
  norm_num

/-! ## Counts of a Gaussian -/

/-- lines 466-467 -/
def counts (peak fwhm : ℝ) : ℝ := π * peak * fwhm ^ 2 / 4 / log 2

/-- Spec: the round Gaussian with the given peak and full width at half maximum. -/
def gaussian (peak fwhm x y : ℝ) : ℝ := peak * exp (-(4 * log 2 / fwhm ^ 2) * x ^ 2) * exp (-(4 * log 2 / fwhm ^ 2) * y ^ 2)

theorem gaussian_half (peak fwhm : ℝ) (hw : fwhm ≠ 0) : gaussian peak fwhm 0 0 = peak ∧
    gaussian peak fwhm (fwhm / 2) 0 = peak / 2 := by
  unfold gaussian
  constructor
  · simp
  · have e : -(4 * log 2 / fwhm ^ 2) * (fwhm / 2) ^ 2 = -log 2 := by field_simp; ring
    rw [e, exp_neg, exp_log (by norm_num)]
    simp; ring

/-- **C101.** The counts are the integral over the fitted Gaussian. -/
theorem C101_counts (peak fwhm : ℝ) (hw : 0 < fwhm) :
    ∫ y : ℝ, ∫ x : ℝ, gaussian peak fwhm x y = counts peak fwhm := by
  have hl : 0 < log 2 := log_pos (by norm_num)
  have inner : ∀ y : ℝ, ∫ x : ℝ, gaussian peak fwhm x y =
      (peak * √(π / (4 * log 2 / fwhm ^ 2))) * exp (-(4 * log 2 / fwhm ^ 2) * y ^ 2) := by
    intro y
    unfold gaussian
    rw [MeasureTheory.integral_mul_const, MeasureTheory.integral_const_mul, integral_gaussian]
  simp only [inner]
  rw [MeasureTheory.integral_const_mul, integral_gaussian, mul_assoc, Real.mul_self_sqrt (by positivity)]
  unfold counts
  field_simp

/-- **C101.** The throughput does not depend on the amplitude of the injected source: a recovered source that is `f` times
the injected one gives `f`. -/
theorem C101_ratio (peak fwhm f : ℝ) (hp : peak ≠ 0) (hw : fwhm ≠ 0) :
    counts (f * peak) fwhm / counts peak fwhm = f := by
  have hl : log 2 ≠ 0 := (log_pos (by norm_num)).ne'
  have := pi_ne_zero
  unfold counts
  field_simp

end

/-! ## Cut-outs, along one axis (lines 397-430) -/

/-- Bounds along one axis: start and end in the cut-out, start and end in the data; `N` pixels of data, a cut-out of
`size`, the centre `c`. -/
def bounds (N size c : ℤ) : (ℤ × ℤ) × (ℤ × ℤ) :=
  let ds := c - size / 2
  let de := ds + size
  let lo := if ds < 0 then (-ds, 0) else (0, ds)
  let hi := if N ≤ de then (size - (de - N), N) else (size, de)
  ((lo.1, hi.1), (lo.2, hi.2))

/-- Python's slice `a[i:j]` of a sequence of length `n`, as a half-open interval of indices. -/
def pySlice (n i j : ℤ) : ℤ × ℤ :=
  let clamp := fun k : ℤ => if k < 0 then max 0 (k + n) else min k n
  (clamp i, clamp j)

/-- The assignment `cutout[s] = data[t]`: the filled cut-out, `none` if the lengths differ. NaN where nothing is filled. -/
def cut {V : Type} (N size c : ℤ) (data : ℤ → V) : Option (ℤ → Option V) :=
  let b := bounds N size c
  let s := pySlice size b.1.1 b.1.2
  let t := pySlice N b.2.1 b.2.2
  if max 0 (s.2 - s.1) = max 0 (t.2 - t.1) then
    some fun k => if s.1 ≤ k ∧ k < s.2 then some (data (t.1 + (k - s.1))) else none
  else none

/-- **C101.** For a centre on the frame the cut-out is the data around it, and NaN beyond the edges: pixel `k` is pixel
`c + k - h` of the data, also if the frame is smaller than the cut-out. -/
theorem C101_cutout {V : Type} (N h c : ℤ) (hh : 0 ≤ h) (hc : 0 ≤ c) (hN : c < N) (data : ℤ → V) :
    ∃ out, cut N (2 * h + 1) c data = some out ∧ ∀ k, 0 ≤ k → k < 2 * h + 1 →
      out k = if 0 ≤ c + k - h ∧ c + k - h < N then some (data (c + k - h)) else none := by
  have hhalf : (2 * h + 1) / 2 = h := by omega
  have hb : ∀ A B : ℤ × ℤ, (pySlice (2 * h + 1) (bounds N (2 * h + 1) c).1.1 (bounds N (2 * h + 1) c).1.2) = A →
      (pySlice N (bounds N (2 * h + 1) c).2.1 (bounds N (2 * h + 1) c).2.2) = B →
      A = (max 0 (h - c), min (2 * h + 1) (N + h - c)) ∧ B = (max 0 (c - h), min N (c + h + 1)) := by
    rintro A B rfl rfl
    simp only [bounds, pySlice, hhalf]
    split_ifs <;> constructor <;> apply Prod.ext <;> dsimp only <;> omega
  obtain ⟨h1, h2⟩ := hb _ _ rfl rfl
  unfold cut
  dsimp only
  rw [h1, h2]
  dsimp only
  rw [if_pos (by omega)]
  refine ⟨_, rfl, fun k hk0 hk1 => ?_⟩
  by_cases hin : 0 ≤ c + k - h ∧ c + k - h < N
  · rw [if_pos hin, if_pos (by omega)]
    congr 2; omega
  · rw [if_neg hin, if_neg (by omega)]

/-- **C101, violated.** A location beyond the edge by more than the half width fails instead of giving no measurement. -/
theorem C101_violated_outside : cut 10 5 13 (fun k => k) = none ∧ (cut 10 5 12 (fun k => k)).isSome = true := by
  decide +kernel

/-- **C101.** `astype(int)` truncates: the source is up to a whole pixel to the right of the centre of the cut-out, never to
the left. -/
theorem C101_truncated (x : ℚ) (hx : 0 ≤ x) : 0 ≤ x - ⌊x⌋ ∧ x - ⌊x⌋ < 1 ∧ 0 ≤ ⌊x⌋ :=
  ⟨sub_nonneg.2 (Int.floor_le x), by linarith [Int.lt_floor_add_one x], Int.floor_nonneg.2 hx⟩

/-! ## The padded model (lines 380-392) -/

/-- Slice lengths along rows and columns when the starts are unpacked in the order (x, y) from (rows, columns). -/
def padSlices (my mx : ℕ) : ℕ × ℕ :=
  let y1 := mx - mx / 2
  let x1 := my - my / 2
  (min (y1 + mx) (2 * my + 1) - min y1 (2 * my + 1), min (x1 + my) (2 * mx + 1) - min x1 (2 * mx + 1))

/-- numpy accepts the assignment of a `my` by `mx` model. -/
def padOk (my mx : ℕ) : Prop :=
  ((padSlices my mx).1 = my ∨ my = 1) ∧ ((padSlices my mx).2 = mx ∨ mx = 1)

/-- **C101.** The slices in general: rows start and extend by the columns of the model, columns by its rows. -/
theorem C101_slices (my mx : ℕ) :
    padSlices my mx = (min mx (2 * my + 1 - (mx - mx / 2)), min my (2 * mx + 1 - (my - my / 2))) := by
  unfold padSlices
  apply Prod.ext <;> dsimp only <;> omega

/-- **C101 (partial).** Square models fit, and the middle pixel of an odd one is the middle of the padded array. -/
theorem C101_pad_partial (m k : ℕ) : padOk m m ∧ padSlices m m = (m, m) ∧
    (m = 2 * k + 1 → (m - m / 2) + k = (2 * m + 1) / 2) := by
  refine ⟨⟨Or.inl ?_, Or.inl ?_⟩, ?_, ?_⟩
  · simp only [padSlices]; omega
  · simp only [padSlices]; omega
  · simp only [padSlices]; apply Prod.ext <;> dsimp only <;> omega
  · intro h; omega

/-- **C101, violated.** Every model that is not square fails. -/
theorem C101_violated_pad (my mx : ℕ) (hy : 2 ≤ my) (hx : 2 ≤ mx) (hne : my ≠ mx) : ¬ padOk my mx := by
  simp only [padOk, padSlices]
  omega

/-! ## The table (lines 500-516) -/

section Table

variable {A V : Type} [LinearOrder A]

/-- `np.unique` -/
def unique (l : List A) : List A := List.insertionSort (· ≤ ·) l.dedup

/-- The medians in the order of the separations that occur; `inj` are the separations of the injected sources with their
measured values. -/
def medians (med : List V → V) (inj : List (A × V)) : List V :=
  (unique (inj.map Prod.fst)).map fun s => med ((inj.filter fun p => decide (p.1 = s)).map Prod.snd)

/-- One row of the table: the values for the separations, by position; `none` is an `IndexError`. -/
def row (med : List V → V) (inj : List (A × V)) (seps : List A) : Option (List (A × V)) :=
  (seps.zipIdx.mapM fun si => ((medians med inj)[si.2]?).map fun v => (si.1, v))

/-- The value that belongs to a separation. -/
def belongs (med : List V → V) (inj : List (A × V)) (s : A) : V :=
  med ((inj.filter fun p => decide (p.1 = s)).map Prod.snd)

theorem unique_mem (l : List A) (a : A) : a ∈ unique l ↔ a ∈ l := by
  unfold unique; rw [List.mem_insertionSort, List.mem_dedup]

theorem unique_nodup (l : List A) : (unique l).Nodup :=
  (List.perm_insertionSort (· ≤ ·) l.dedup).nodup_iff.2 (List.nodup_dedup l)

theorem unique_sorted (l : List A) : (unique l).Pairwise (· ≤ ·) := by
  unfold unique
  exact List.pairwise_insertionSort (· ≤ ·) l.dedup

theorem mapM_option {B C : Type} (f : B → Option C) : ∀ (l : List B) (out : List C),
    l.mapM f = some out ↔ List.Forall₂ (fun b c => f b = some c) l out := by
  intro l
  induction l with
  | nil => intro out; cases out <;> simp
  | cons b l ih =>
    intro out
    rw [List.mapM_cons]
    cases hb : f b with
    | none =>
      constructor
      · intro h; cases h
      · intro h; cases h with | cons h _ => rw [hb] at h; cases h
    | some c =>
      cases hl : l.mapM f with
      | none =>
        constructor
        · intro h; cases h
        · intro h; cases h with
          | cons h h' => rw [← ih] at h'; rw [hl] at h'; cases h'
      | some out' =>
        constructor
        · intro h
          have h : some (c :: out') = some out := h
          injection h with h
          subst h
          exact List.Forall₂.cons hb ((ih _).1 hl)
        · intro h
          cases h with
          | cons h h' =>
            rw [hb] at h; injection h with h; subst h
            rw [← ih, hl] at h'; injection h' with h'; subst h'
            rfl

/-- **C101 (partial).** Increasing separations with at least one source each: every throughput stands beside the separation
it was measured at. -/
theorem C101_table_partial (med : List V → V) (inj : List (A × V)) (seps : List A) (hs : seps.Pairwise (· < ·))
    (hin : ∀ s, s ∈ seps ↔ s ∈ inj.map Prod.fst) :
    row med inj seps = some (seps.map fun s => (s, belongs med inj s)) := by
  have hu : unique (inj.map Prod.fst) = seps := by
    apply List.Perm.eq_of_pairwise (le := (· ≤ ·)) (fun a b _ _ h1 h2 => le_antisymm h1 h2) (unique_sorted _)
      (hs.imp fun h => h.le)
    rw [List.perm_ext_iff_of_nodup (unique_nodup _) (hs.imp fun h => h.ne)]
    intro a
    rw [unique_mem, hin]
  unfold row medians
  rw [hu, mapM_option]
  rw [List.forall₂_iff_get]
  refine ⟨by simp, fun i h1 h2 => ?_⟩
  simp only [List.get_eq_getElem, List.getElem_zipIdx, Nat.zero_add, List.getElem_map, belongs]
  rw [List.getElem?_map]
  have : i < seps.length := by simpa using h1
  rw [List.getElem?_eq_getElem this]
  rfl

/-- **C101, violated.** If some separation lost all its sources to a candidate, or occurs twice, the table cannot be
built. -/
theorem C101_violated_missing (med : List V → V) (inj : List (A × V)) (seps : List A)
    (hsub : ∀ s ∈ inj.map Prod.fst, s ∈ seps) (h : ¬ seps.Nodup ∨ ∃ s ∈ seps, s ∉ inj.map Prod.fst) :
    row med inj seps = none := by
  have hlen : (unique (inj.map Prod.fst)).length < seps.length := by
    have e : (unique (inj.map Prod.fst)).length = (unique (inj.map Prod.fst)).toFinset.card :=
      (List.toFinset_card_of_nodup (unique_nodup _)).symm
    have hs : (unique (inj.map Prod.fst)).toFinset ⊆ seps.toFinset := by
      intro a ha
      rw [List.mem_toFinset, unique_mem] at ha
      exact List.mem_toFinset.2 (hsub a ha)
    have hle : seps.toFinset.card ≤ seps.length := List.toFinset_card_le _
    rw [e]
    rcases h with h | ⟨s, h1, h2⟩
    · have h3 : seps.toFinset.card < seps.length := by
        refine lt_of_le_of_ne hle fun he => h ?_
        exact Multiset.coe_nodup.1 (Multiset.toFinset_card_eq_card_iff_nodup.1 he)
      exact lt_of_le_of_lt (Finset.card_le_card hs) h3
    · refine lt_of_lt_of_le (Finset.card_lt_card ⟨hs, fun hc => ?_⟩) hle
      have := hc (List.mem_toFinset.2 h1)
      rw [List.mem_toFinset, unique_mem] at this
      exact h2 this
  cases hr : row med inj seps with
  | none => rfl
  | some out =>
    exfalso
    unfold row at hr
    rw [mapM_option, List.forall₂_iff_get] at hr
    have hi : (unique (inj.map Prod.fst)).length < seps.zipIdx.length := by simpa using hlen
    have := hr.2 _ hi (hr.1 ▸ hi)
    simp only [List.get_eq_getElem, List.getElem_zipIdx, Nat.zero_add] at this
    rw [List.getElem?_eq_none (by simp [medians])] at this
    cases this

end Table

/-- **C101, violated.** Separations in another order: the throughputs are attributed to the wrong separations (measured: 30
at separation 3, 10 at separation 1). -/
theorem C101_violated_order :
    row (fun l : List ℚ => l.headD 0) [(3, 30), (1, 10)] ([3, 1] : List ℚ) = some [(3, 10), (1, 30)] := by decide +kernel

example : row (fun l : List ℚ => l.headD 0) [(1, 10), (3, 30)] ([1, 3] : List ℚ) = some [(1, 10), (3, 30)] := by decide +kernel

end Corgi.Thrupt

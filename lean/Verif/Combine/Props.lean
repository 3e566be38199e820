import Verif.Combine.Model
import Verif.Provenance.Props
import Verif.Dataset.Split

/-!
# C20, C21, C22: combination of frames
-/

noncomputable section

namespace Corgi.Comb
open Corgi.Nan

variable {P : Type} {L : ℕ}

/-! ### specification -/

/-- The good values of the data at a pixel: unflagged and not NaN. -/
def goodValues (fs : List (Img P L)) (p : P) : List ℝ :=
  (fs.filter fun f => f.dq p = 0).filterMap fun f => f.data p

/-- The unflagged frames at a pixel. -/
def unflagged (fs : List (Img P L)) (p : P) : List (Img P L) := fs.filter fun f => f.dq p = 0

/-- The standard error of the mean of values with the given uncertainties. -/
def standardError (es : List ℝ) : ℝ := Real.sqrt (es.map (· ^ 2)).sum / es.length

/-- OR of all flags. -/
def allFlags (fs : List (Img P L)) (p : P) : ℕ := (fs.map (·.dq p)).foldl (· ||| ·) 0

/-! ### C20 -/

theorem vals_samples (fs : List (Img P L)) (p : P) : vals (samples fs p) = goodValues fs p := by
  unfold vals samples goodValues
  induction fs with
  | nil => rfl
  | cons f fs ih =>
    rw [List.map_cons]
    by_cases h : f.dq p = 0
    · rw [List.filter_cons_of_pos (by simpa using h)]
      have : masked (f.dq p) (f.data p) = f.data p := by simp [masked, h]
      rw [this]
      cases hd : f.data p with
      | none => rw [List.filterMap_cons_none (by rfl), List.filterMap_cons_none (f := fun f : Img P L => f.data p) hd, ih]
      | some v => rw [List.filterMap_cons_some (b := v) (by rfl), List.filterMap_cons_some (f := fun f : Img P L => f.data p) hd, ih]
    · rw [List.filter_cons_of_neg (by simpa using h)]
      have : masked (f.dq p) (f.data p) = none := by simp [masked, Nat.pos_of_ne_zero h]
      rw [this, List.filterMap_cons_none (by rfl), ih]

/-- The factor applied with scaling on. -/
def scaleFactor (scaling : Bool) (fs : List (Img P L)) : ℝ := if scaling then fs.length else 1

theorem combine_data (c : Collapse) (scaling : Bool) (fs : List (Img P L)) (p : P) :
    (combineImages c scaling fs).data p =
      if goodValues fs p = [] then none
      else some ((match c with
        | .mean => mean (goodValues fs p)
        | .median => median (goodValues fs p)) * scaleFactor scaling fs) := by
  unfold combineImages scaleFactor
  by_cases h : goodValues fs p = [] <;> cases c <;> cases scaling <;>
    simp [nanmean, nanmedian, vals_samples, h]

/-- **C20** The mean combination is the mean of exactly the unflagged, non-NaN samples (times the number of
frames with scaling on), and NaN exactly if there is none. -/
theorem C20_mean (scaling : Bool) (fs : List (Img P L)) (p : P) :
    (goodValues fs p ≠ [] → (combineImages .mean scaling fs).data p =
      some ((goodValues fs p).sum / (goodValues fs p).length * if scaling then (fs.length : ℝ) else 1)) ∧
    ((combineImages .mean scaling fs).data p = none ↔
      ∀ f ∈ fs, f.dq p = 0 → f.data p = none) := by
  rw [combine_data]
  constructor
  · intro h
    rw [if_neg h]; rfl
  · have : goodValues fs p = [] ↔ ∀ f ∈ fs, f.dq p = 0 → f.data p = none := by
      unfold goodValues
      rw [List.filterMap_eq_nil_iff]
      constructor
      · intro h f hf h0
        exact h f (List.mem_filter.2 ⟨hf, by simpa using h0⟩)
      · intro h f hf
        obtain ⟨h1, h2⟩ := List.mem_filter.1 hf
        exact h f h1 (by simpa using h2)
    rw [← this]
    split <;> simp_all

/-- **C20** The median combination: NaN in the same cases, otherwise a value with at least half of the good
samples on either side. -/
theorem C20_median (fs : List (Img P L)) (p : P) (h : goodValues fs p ≠ []) :
    ∃ m, (∀ scaling, (combineImages .median scaling fs).data p =
        some (m * if scaling then (fs.length : ℝ) else 1)) ∧
      (goodValues fs p).length ≤ 2 * (goodValues fs p).countP (fun x => decide (x ≤ m)) ∧
      (goodValues fs p).length ≤ 2 * (goodValues fs p).countP (fun x => decide (m ≤ x)) := by
  obtain ⟨h1, h2⟩ := median_spec _ h
  refine ⟨_, ?_, h1, h2⟩
  intro scaling
  rw [combine_data, if_neg h]; rfl

/-- **C20** Both are NaN at the same pixels. -/
theorem C20_nan_iff (c : Collapse) (scaling : Bool) (fs : List (Img P L)) (p : P) :
    (combineImages c scaling fs).data p = none ↔ goodValues fs p = [] := by
  rw [combine_data]
  split <;> simp_all

theorem combine_dq (c : Collapse) (scaling : Bool) (fs : List (Img P L)) (p : P) :
    (combineImages c scaling fs).dq p =
      if 0 < allFlags fs p ∧ (combineImages c scaling fs).data p ≠ none then 0 else allFlags fs p := rfl

/-- **C20** A combined flag is set only where the combined value is NaN, and is then the OR of all. -/
theorem C20_flags (c : Collapse) (scaling : Bool) (fs : List (Img P L)) (p : P) :
    ((combineImages c scaling fs).dq p ≠ 0 → (combineImages c scaling fs).data p = none) ∧
    ((combineImages c scaling fs).data p = none → (combineImages c scaling fs).dq p = allFlags fs p) := by
  rw [combine_dq]
  constructor
  · intro h
    by_contra hn
    apply h
    split
    · rfl
    · rename_i h2
      have := not_and.1 h2
      by_contra h0
      exact this (Nat.pos_of_ne_zero h0) hn
  · intro h
    rw [if_neg (fun h2 => h2.2 h)]

theorem foldl_or_testBit (l : List ℕ) (a b : ℕ) :
    (l.foldl (· ||| ·) a).testBit b = (a.testBit b || l.any (·.testBit b)) := by
  induction l generalizing a with
  | nil => simp
  | cons x xs ih => simp [ih, Bool.or_assoc]

/-- **C20** A bit of the OR is set exactly if it is set in one of the frames. -/
theorem C20_flag_bits (fs : List (Img P L)) (p : P) (b : ℕ) :
    (allFlags fs p).testBit b = true ↔ ∃ f ∈ fs, (f.dq p).testBit b = true := by
  unfold allFlags
  rw [foldl_or_testBit]
  simp

/-- **C20** The order of the frames does not matter. -/
theorem C20_order (c : Collapse) (scaling : Bool) {fs fs' : List (Img P L)} (h : fs.Perm fs') (p : P) :
    (combineImages c scaling fs).data p = (combineImages c scaling fs').data p ∧
    (combineImages c scaling fs).dq p = (combineImages c scaling fs').dq p := by
  have hg : (goodValues fs p).Perm (goodValues fs' p) := (h.filter _).filterMap _
  have hd : (combineImages c scaling fs).data p = (combineImages c scaling fs').data p := by
    rw [combine_data, combine_data]
    have hs : scaleFactor scaling fs = scaleFactor scaling fs' := by
      unfold scaleFactor; rw [h.length_eq]
    by_cases h0 : goodValues fs p = []
    · rw [if_pos h0, if_pos (by rw [h0] at hg; exact hg.symm.eq_nil)]
    · rw [if_neg h0, if_neg (fun h1 => h0 (by rw [h1] at hg; exact hg.eq_nil))]
      rw [hs]
      cases c
      · simp only [mean_perm hg]
      · simp only [median_perm hg]
  have hf : allFlags fs p = allFlags fs' p := by
    apply Nat.eq_of_testBit_eq
    intro b
    rw [Bool.eq_iff_iff, C20_flag_bits, C20_flag_bits]
    exact ⟨fun ⟨f, hf, hb⟩ => ⟨f, h.mem_iff.1 hf, hb⟩, fun ⟨f, hf, hb⟩ => ⟨f, h.mem_iff.2 hf, hb⟩⟩
  refine ⟨hd, ?_⟩
  rw [combine_dq, combine_dq, hf, hd]

/-- **C20** Flagged samples have no influence on the combined value: replace their data by anything. -/
theorem C20_flagged_ignored (c : Collapse) (scaling : Bool) (fs fs' : List (Img P L)) (p : P)
    (h : List.Forall₂ (fun f f' => f.dq p = f'.dq p ∧ (f.dq p = 0 → f.data p = f'.data p)) fs fs') :
    (combineImages c scaling fs).data p = (combineImages c scaling fs').data p := by
  have hg : goodValues fs p = goodValues fs' p := by
    rw [← vals_samples, ← vals_samples]
    unfold samples
    congr 1
    induction h with
    | nil => rfl
    | cons h _ ih =>
      rw [List.map_cons, List.map_cons, ih]
      congr 1
      unfold masked
      rw [← h.1]
      split
      · rfl
      · exact h.2 (by omega)
  rw [combine_data, combine_data, hg]
  unfold scaleFactor
  rw [h.length_eq]

/-! ### C21 -/

theorem nSamples_eq (fs : List (Img P L)) (p : P) : nSamples fs p = (unflagged fs p).length := by
  unfold nSamples unflagged
  induction fs with
  | nil => rfl
  | cons f fs ih =>
    rw [List.map_cons, List.sum_cons, ih]
    by_cases h : f.dq p = 0
    · rw [List.filter_cons_of_pos (by simpa using h)]; simp [h]; omega
    · rw [List.filter_cons_of_neg (by simpa using h)]; simp [Nat.pos_of_ne_zero h]

/-- The non-NaN uncertainties of the unflagged samples. -/
def goodErrs (fs : List (Img P L)) (l : Fin L) (p : P) : List ℝ :=
  (unflagged fs p).filterMap fun f => f.err l p

theorem vals_errSq (fs : List (Img P L)) (l : Fin L) (p : P) :
    vals (errSq fs l p) = (goodErrs fs l p).map (· ^ 2) := by
  unfold vals errSq goodErrs unflagged
  induction fs with
  | nil => rfl
  | cons f fs ih =>
    rw [List.map_cons]
    by_cases h : f.dq p = 0
    · rw [List.filter_cons_of_pos (by simpa using h)]
      have : masked (f.dq p) (f.err l p) = f.err l p := by simp [masked, h]
      rw [this]
      cases hd : f.err l p with
      | none => rw [List.filterMap_cons_none (by rfl), List.filterMap_cons_none (f := fun f : Img P L => f.err l p) hd, ih]
      | some v =>
        rw [List.filterMap_cons_some (b := v ^ 2) (by rfl), List.filterMap_cons_some (f := fun f : Img P L => f.err l p) hd, List.map_cons, ih]
    · rw [List.filter_cons_of_neg (by simpa using h)]
      have : masked (f.dq p) (f.err l p) = none := by simp [masked, Nat.pos_of_ne_zero h]
      rw [this, Option.map_none, List.filterMap_cons_none (by rfl), ih]

/-- What is returned, in all cases. -/
theorem combine_err (c : Collapse) (scaling : Bool) (fs : List (Img P L)) (l : Fin L) (p : P) :
    (combineImages c scaling fs).err l p =
      if goodErrs fs l p = [] then none
      else some (Real.sqrt (((goodErrs fs l p).map (· ^ 2)).sum / (goodErrs fs l p).length) /
        Real.sqrt (unflagged fs p).length * (match c with | .mean => 1 | .median => Real.sqrt (Real.pi / 2)) *
        scaleFactor scaling fs) := by
  unfold combineImages scaleFactor
  rw [← nSamples_eq]
  by_cases h : goodErrs fs l p = [] <;> cases c <;> cases scaling <;>
    simp [nanmean, vals_errSq, h, mean]

theorem sqrt_div_sqrt (s : ℝ) (hs : 0 ≤ s) (n : ℕ) : Real.sqrt (s / n) / Real.sqrt n = Real.sqrt s / n := by
  rw [Real.sqrt_div hs, div_div, Real.mul_self_sqrt (by positivity)]

theorem sum_sq_nonneg (es : List ℝ) : 0 ≤ (es.map (· ^ 2)).sum := by
  apply List.sum_nonneg
  intro x hx
  obtain ⟨e, _, rfl⟩ := List.mem_map.1 hx
  positivity

/-- **C21, part** Where no unflagged sample has a NaN uncertainty the returned error is the standard error
of the mean of the unflagged samples, (times √(π/2) for the median), times the number of frames with scaling
on. (Missing: unflagged NaN samples, see `C21_exact` and `C21_violated`.) -/
theorem C21_standard_error_partial (scaling : Bool) (fs : List (Img P L)) (l : Fin L) (p : P)
    (hne : unflagged fs p ≠ []) (h : ∀ f ∈ unflagged fs p, f.err l p ≠ none) :
    (combineImages .mean scaling fs).err l p =
      some (standardError (goodErrs fs l p) * if scaling then (fs.length : ℝ) else 1) ∧
    (combineImages .median scaling fs).err l p =
      some (standardError (goodErrs fs l p) * Real.sqrt (Real.pi / 2) *
        if scaling then (fs.length : ℝ) else 1) ∧
    (goodErrs fs l p).length = (unflagged fs p).length := by
  have hlen : (goodErrs fs l p).length = (unflagged fs p).length := by
    unfold goodErrs
    have : ∀ gs : List (Img P L), (∀ f ∈ gs, f.err l p ≠ none) →
        (gs.filterMap fun f => f.err l p).length = gs.length := by
      intro gs
      induction gs with
      | nil => simp
      | cons f gs ih =>
        intro hgs
        simp only [List.forall_mem_cons] at hgs
        obtain ⟨v, hv⟩ := Option.ne_none_iff_exists'.1 hgs.1
        rw [List.filterMap_cons_some (f := fun f : Img P L => f.err l p) hv, List.length_cons, List.length_cons, ih hgs.2]
    exact this _ h
  have hne' : goodErrs fs l p ≠ [] := by
    intro h0
    rw [h0] at hlen
    exact hne (List.length_eq_zero_iff.1 hlen.symm)
  refine ⟨?_, ?_, hlen⟩
  · rw [combine_err, if_neg hne', ← hlen, sqrt_div_sqrt _ (sum_sq_nonneg _)]
    simp [standardError, scaleFactor]
  · rw [combine_err, if_neg hne', ← hlen, sqrt_div_sqrt _ (sum_sq_nonneg _)]
    simp [standardError, scaleFactor]

/-- **C21** In general the returned error is the standard error of the non-NaN uncertainties times
`√(n_err / n_unflagged)`: too small exactly if some unflagged sample is NaN (and the error is not 0). -/
theorem C21_exact (fs : List (Img P L)) (l : Fin L) (p : P) (h : goodErrs fs l p ≠ []) :
    ∃ r, (combineImages .mean false fs).err l p = some r ∧
      r = standardError (goodErrs fs l p) *
        Real.sqrt ((goodErrs fs l p).length / (unflagged fs p).length) ∧
      r ≤ standardError (goodErrs fs l p) ∧
      (0 < standardError (goodErrs fs l p) →
        (r < standardError (goodErrs fs l p) ↔ ∃ f ∈ unflagged fs p, f.err l p = none)) := by
  have hle : (goodErrs fs l p).length ≤ (unflagged fs p).length := List.length_filterMap_le _ _
  have hpos := List.length_pos_of_ne_nil h
  have hlt : (goodErrs fs l p).length < (unflagged fs p).length ↔ ∃ f ∈ unflagged fs p, f.err l p = none := by
    constructor
    · intro hl
      by_contra hall
      push Not at hall
      have := (C21_standard_error_partial false fs l p (by
        intro h0; rw [h0] at hle; simp at hle; exact h (by simpa using hle)) hall).2.2
      omega
    · rintro ⟨f, hf, he⟩
      have : ∀ gs : List (Img P L), f ∈ gs → (gs.filterMap fun f => f.err l p).length < gs.length := by
        intro gs
        induction gs with
        | nil => simp
        | cons g gs ih =>
          intro hg
          rcases List.mem_cons.1 hg with rfl | hg
          · rw [List.filterMap_cons_none (f := fun f : Img P L => f.err l p) he, List.length_cons]
            have := List.length_filterMap_le (fun f : Img P L => f.err l p) gs
            omega
          · have := ih hg
            cases hgv : g.err l p with
            | none => rw [List.filterMap_cons_none (f := fun f : Img P L => f.err l p) hgv, List.length_cons]; omega
            | some v => rw [List.filterMap_cons_some (f := fun f : Img P L => f.err l p) hgv, List.length_cons, List.length_cons]; omega
      exact this _ hf
  set n : ℝ := ((goodErrs fs l p).length : ℝ) with hn
  set m : ℝ := ((unflagged fs p).length : ℝ) with hm
  have hn0 : 0 < n := by rw [hn]; exact_mod_cast hpos
  have hnm : n ≤ m := by rw [hn, hm]; exact_mod_cast hle
  have hm0 : 0 < m := lt_of_lt_of_le hn0 hnm
  have hse : 0 ≤ standardError (goodErrs fs l p) := by unfold standardError; positivity
  have hq1 : Real.sqrt (n / m) ≤ 1 := by
    rw [Real.sqrt_le_one]; rw [div_le_one hm0]; exact hnm
  refine ⟨_, ?_, rfl, ?_, ?_⟩
  · rw [combine_err, if_neg h]
    congr 1
    simp only [scaleFactor, Bool.false_eq_true, if_false, mul_one]
    unfold standardError
    rw [← hn, ← hm, Real.sqrt_div (sum_sq_nonneg _), Real.sqrt_div hn0.le, div_div, div_mul_div_comm,
      div_eq_div_iff (by positivity) (by positivity)]
    have : Real.sqrt n * Real.sqrt n = n := Real.mul_self_sqrt hn0.le
    calc _ = Real.sqrt ((goodErrs fs l p).map (· ^ 2)).sum * Real.sqrt m * n := by ring
      _ = Real.sqrt ((goodErrs fs l p).map (· ^ 2)).sum * Real.sqrt m * (Real.sqrt n * Real.sqrt n) := by
        rw [this]
      _ = _ := by ring
  · calc _ ≤ standardError (goodErrs fs l p) * 1 := mul_le_mul_of_nonneg_left hq1 hse
      _ = _ := mul_one _
  · intro hs
    rw [← hlt]
    constructor
    · intro hr
      by_contra hnl
      have he : n = m := by
        rw [hn, hm]; congr 1; omega
      rw [he, div_self hm0.ne', Real.sqrt_one, mul_one] at hr
      exact lt_irrefl _ hr
    · intro hl
      have : n < m := by rw [hn, hm]; exact_mod_cast hl
      have : Real.sqrt (n / m) < 1 := by
        rw [Real.sqrt_lt' one_pos, one_pow, div_lt_one hm0]; exact this
      calc _ < standardError (goodErrs fs l p) * 1 := mul_lt_mul_of_pos_left this hs
        _ = _ := mul_one _

/-- Two unflagged samples of uncertainty 1, the second NaN. -/
def exNan : List (Img Unit 1) :=
  [⟨fun _ => some 5, fun _ _ => some 1, fun _ => 0⟩, ⟨fun _ => none, fun _ _ => none, fun _ => 0⟩]

/-- **C21** is violated for unflagged NaN: the combined value is the single value 5 with uncertainty 1, but
the returned uncertainty is smaller. -/
theorem C21_violated : (combineImages .mean false exNan).data () = some 5 ∧
    goodErrs exNan 0 () = [1] ∧ standardError [1] = 1 ∧
    ∃ r, (combineImages .mean false exNan).err 0 () = some r ∧ r < 1 := by
  have hu : unflagged exNan () = exNan := rfl
  have hg : goodErrs exNan 0 () = [1] := rfl
  have hgv : goodValues exNan () = [5] := rfl
  have hse : standardError [1] = 1 := by simp [standardError]
  refine ⟨?_, hg, hse, ?_⟩
  · rw [combine_data, if_neg (by rw [hgv]; simp), hgv]
    simp [mean, scaleFactor]
  · obtain ⟨r, h1, _, _, h4⟩ := C21_exact exNan 0 () (by rw [hg]; simp)
    rw [hg, hse] at h4
    refine ⟨r, h1, (h4 one_pos).2 ⟨⟨fun _ => none, fun _ _ => none, fun _ => 0⟩, ?_, ?_⟩⟩
    · rw [hu]; simp [exNan]
    · rfl

/-- Not vacuous: two good samples. -/
example : unflagged ([⟨fun _ => some 5, fun _ _ => some 3, fun _ => 0⟩,
      ⟨fun _ => some 7, fun _ _ => some 4, fun _ => 0⟩] : List (Img Unit 1)) () ≠ [] ∧
    standardError [3, 4] = 5 / 2 := by
  refine ⟨by simp [unflagged], ?_⟩
  have : (([3, 4] : List ℝ).map (· ^ 2)).sum = 5 ^ 2 := by norm_num
  unfold standardError
  rw [this, Real.sqrt_sq (by norm_num)]
  norm_num

/-! ### C22 -/

/-- Group `i` of `k` consecutive frames. -/
def group {α : Type} (k i : ℕ) (fs : List α) : List α := (fs.drop (k * i)).take k

theorem group_get {α : Type} (k i : ℕ) (fs : List α) (j : ℕ) :
    (group k i fs)[j]? = if j < k then fs[k * i + j]? else none := by
  unfold group
  rw [List.getElem?_take]
  split <;> simp [List.getElem?_drop]

theorem combineLoop_ok {env : Env} {order : List String → List String} {c : Collapse} {scaling : Bool}
    {k : ℕ} {fs : List (Frame P L)} {gs : List ℕ} {r : List (Frame P L)}
    (h : combineLoop env order c scaling k fs gs = .ok r) :
    List.Forall₂ (fun i f => ∃ first last, fs[k * i]? = some first ∧ fs[k * (i + 1) - 1]? = some last ∧
      combineGroup env order c scaling k first last (group k i fs) = .ok f) gs r := by
  have := mapM_ok_iff.1 h
  refine this.imp ?_
  intro i f hf
  cases h1 : fs[k * i]? with
  | none => rw [h1] at hf; cases hf
  | some first =>
    cases h2 : fs[k * (i + 1) - 1]? with
    | none => rw [h1, h2] at hf; cases hf
    | some last =>
      rw [h1, h2] at hf
      exact ⟨first, last, rfl, rfl, hf⟩

/-- **C22** When it succeeds: the group size is positive and divides the number of frames, the collapse is
mean or median. -/
theorem C22_success {env : Env} {order : List String → List String} {num : Option ℤ} {collapse : String}
    {scaling : Bool} {fs r : List (Frame P L)} (h : combineSub env order num collapse scaling fs = .ok r) :
    ∃ (k : ℕ) (c : Collapse), (k : ℤ) = num.getD fs.length ∧ 0 < k ∧ k ∣ fs.length ∧ fs ≠ [] ∧
      parseCollapse collapse = some c ∧ ∃ r0, combineLoop env order c scaling k fs
        (List.range (fs.length / k)) = .ok r0 ∧ r = r0.map (fun f =>
          { f with ext := { f.ext with history := f.ext.history ++
            ["Combine_subexposures: combined every " ++ toString (k : ℤ) ++ " frames by " ++ collapse] } }) := by
  unfold combineSub at h
  simp only at h
  generalize num.getD (fs.length : ℤ) = z at h
  split at h
  · cases h
  · rename_i hz0
    split at h
    · cases h
    · rename_i hdiv
      split at h
      · cases h
      · rename_i c hc
        split at h
        · cases h
        · rename_i hneg
          obtain ⟨k, rfl⟩ := Int.eq_ofNat_of_zero_le (show 0 ≤ z by omega)
          simp only [Int.toNat_natCast] at h
          split at h
          · cases h
          · cases h
          · rename_i r0 hnil hr0
            simp only [Except.ok.injEq] at h
            have hk : 0 < k := by omega
            have hd : k ∣ fs.length := by
              have := not_not.1 hdiv
              exact_mod_cast Int.dvd_of_emod_eq_zero this
            refine ⟨k, c, rfl, hk, hd, ?_, hc, r0, hr0, h.symm⟩
            rintro rfl
            simp [combineLoop, pure, Except.pure] at hr0
            exact hnil hr0

/-- **C22** The two ways to combine are named `mean` and `median`, in capitals or not; every other name raises. -/
theorem C22_names (s : String) : (parseCollapse s = some .mean ↔ s.toLower = "mean") ∧ (parseCollapse s = some .median ↔ s.toLower = "median") ∧
    (parseCollapse s = none ↔ s.toLower ≠ "mean" ∧ s.toLower ≠ "median") := by
  unfold parseCollapse
  by_cases h1 : s.toLower = "mean"
  · simp [h1]
  · by_cases h2 : s.toLower = "median" <;> simp [h1, h2]

/-- **C22** There are n/k outputs; output `i` is built from the frames k·i .. k·(i+1)-1 only: pixels are
their combination, headers are those of the first with `NUM_FR` = k, the file name is that of the last and
the provenance lists the files of the group and their ancestors. -/
theorem C22_groups {env : Env} {order : List String → List String} (ho : Prov.SetOrder order)
    {num : Option ℤ} {collapse : String} {scaling : Bool} {fs r : List (Frame P L)}
    (h : combineSub env order num collapse scaling fs = .ok r) :
    ∃ (k : ℕ) (c : Collapse), (k : ℤ) = num.getD fs.length ∧ parseCollapse collapse = some c ∧
      r.length * k = fs.length ∧
      ∀ (i : ℕ) (f : Frame P L), r[i]? = some f →
        ∃ first last, fs[k * i]? = some first ∧ fs[k * i + (k - 1)]? = some last ∧
          f.img = combineImages c scaling ((group k i fs).map (·.img)) ∧
          f.filename = last.filename ∧
          f.ext.card "NUM_FR" = some (toString k) ∧
          (∀ key, key ∉ ["NUM_FR", "DRPVERSN", "DRPCTIME", "DESMEAR", "CTI_CORR", "IS_BAD"] →
            f.ext.card key = first.ext.card key) ∧
          (∀ key, key ≠ "ORIGIN" → f.pri.card key = first.pri.card key) ∧
          (∀ x, Prov.Recorded f.prov x ↔
            ∃ g ∈ group k i fs, x = g.filename ∨ Prov.Recorded g.prov x) := by
  obtain ⟨k, c, hk, hpos, hdvd, hne, hc, r0, hr0, rfl⟩ := C22_success h
  have hl := combineLoop_ok hr0
  have hlen : r0.length = fs.length / k := by simpa using hl.length_eq.symm
  refine ⟨k, c, hk, hc, ?_, ?_⟩
  · rw [List.length_map, hlen]; exact Nat.div_mul_cancel hdvd
  · intro i f hf
    rw [List.getElem?_map, Option.map_eq_some_iff] at hf
    obtain ⟨f0, hf0, rfl⟩ := hf
    obtain ⟨hi, he⟩ := List.getElem?_eq_some_iff.1 hf0
    have hg := hl.get (i := i) (by simp; omega) hi
    simp only [List.get_eq_getElem, List.getElem_range] at hg
    rw [he] at hg
    obtain ⟨first, last, h1, h2, h3⟩ := hg
    refine ⟨first, last, h1, ?_, ?_⟩
    · rw [← h2]; congr 1; rw [Nat.mul_add, Nat.mul_one]; omega
    · unfold combineGroup at h3
      simp only at h3
      split at h3
      · cases h3
      · rename_i pr hpr
        simp only [Except.ok.injEq] at h3
        subst h3
        have hset : ∀ (h : DS.Hdr) (a key v : String), key ≠ a →
            (setDefault h a v).card key = h.card key := by
          intro h a key v hk
          unfold setDefault setCard
          split
          · rfl
          · simp [Function.update_of_ne hk]
        refine ⟨rfl, rfl, ?_, ?_, ?_, ?_⟩
        · simp only [mkImage]
          rw [hset _ _ _ _ (by decide), hset _ _ _ _ (by decide), hset _ _ _ _ (by decide)]
          simp [setCard]
        · intro key hkey
          simp only [List.mem_cons, List.not_mem_nil, or_false, not_or] at hkey
          obtain ⟨k1, k2, k3, k4, k5, k6⟩ := hkey
          simp only [mkImage]
          rw [hset _ _ _ _ k6, hset _ _ _ _ k5, hset _ _ _ _ k4]
          simp [setCard, k1, k2, k3]
        · intro key hkey
          simp [mkImage, setCard, hkey]
        · intro x
          rw [(Prov.C18_recorded ho hpr).1]
          simp

/-- **C22** The stamps of the pipeline on every output: the origin, the version and the time of the run, the
names of the error and flag extensions, and the three state cards, kept when the first frame of the group has
them and `F` otherwise. -/
theorem C22_stamps {env : Env} {order : List String → List String} {c : Collapse} {scaling : Bool} {k : ℕ}
    {first last f : Frame P L} {g : List (Frame P L)}
    (h : combineGroup env order c scaling k first last g = .ok f) :
    f.pri.card "ORIGIN" = some "DRP" ∧
      f.ext.card "DRPVERSN" = some env.version ∧ f.ext.card "DRPCTIME" = some env.now ∧
      f.errh.card "EXTNAME" = some "ERR" ∧ f.errh.card "TRK_ERRS" = some env.tracking ∧
      f.dqh.card "EXTNAME" = some "DQ" ∧
      ∀ key ∈ ["DESMEAR", "CTI_CORR", "IS_BAD"],
        f.ext.card key = some ((first.ext.card key).getD "F") := by
  unfold combineGroup at h
  simp only at h
  split at h
  · cases h
  · simp only [Except.ok.injEq] at h
    subst h
    have hset : ∀ (h : DS.Hdr) (a key v : String), key ≠ a →
        (setDefault h a v).card key = h.card key := by
      intro h a key v hk
      unfold setDefault setCard
      split
      · rfl
      · simp [Function.update_of_ne hk]
    have hself : ∀ (h : DS.Hdr) (a v : String),
        (setDefault h a v).card a = some ((h.card a).getD v) := by
      intro h a v
      unfold setDefault setCard
      cases e : h.card a <;> simp [e]
    refine ⟨by simp [mkImage, setCard], ?_, ?_, by simp [mkImage, setCard], by simp [mkImage, setCard],
      by simp [mkImage, setCard], ?_⟩
    · simp only [mkImage]
      rw [hset _ _ _ _ (by decide), hset _ _ _ _ (by decide), hset _ _ _ _ (by decide)]
      simp [setCard]
    · simp only [mkImage]
      rw [hset _ _ _ _ (by decide), hset _ _ _ _ (by decide), hset _ _ _ _ (by decide)]
      simp [setCard]
    · intro key hkey
      simp only [List.mem_cons, List.not_mem_nil, or_false] at hkey
      simp only [mkImage]
      rcases hkey with rfl | rfl | rfl
      · rw [hset _ _ _ _ (by decide), hset _ _ _ _ (by decide), hself]
        simp [setCard]
      · rw [hset _ _ _ _ (by decide), hself, hset _ _ _ _ (by decide)]
        simp [setCard]
      · rw [hself, hset _ _ _ _ (by decide), hset _ _ _ _ (by decide)]
        simp [setCard]

/-- **C22** An output depends on its group only: datasets of the same length that agree on the frames of
group `i` give the same output `i`. -/
theorem C22_group_only {env : Env} {order : List String → List String} {num : Option ℤ}
    {collapse : String} {scaling : Bool} {fs fs' r r' : List (Frame P L)} (hlen : fs.length = fs'.length)
    (h : combineSub env order num collapse scaling fs = .ok r)
    (h' : combineSub env order num collapse scaling fs' = .ok r') {k : ℕ}
    (hk : (k : ℤ) = num.getD fs.length) {i : ℕ} (hi : i < r.length)
    (hag : group k i fs = group k i fs') : r[i]? = r'[i]? := by
  obtain ⟨k1, c1, hk1, hpos, hd1, _, hc1, r0, hr0, rfl⟩ := C22_success h
  obtain ⟨k2, c2, hk2, _, hd2, _, hc2, r0', hr0', rfl⟩ := C22_success h'
  have e1 : k1 = k := by omega
  have e2 : k2 = k := by rw [← hlen] at hk2; omega
  subst e1 e2
  rw [hc1] at hc2
  cases hc2
  have hl := combineLoop_ok hr0
  have hl' := combineLoop_ok hr0'
  have hn : r0.length = fs.length / k2 := by simpa using hl.length_eq.symm
  have hn' : r0'.length = fs'.length / k2 := by simpa using hl'.length_eq.symm
  have hi0 : i < r0.length := by simpa using hi
  have hi0' : i < r0'.length := by rw [hn', ← hlen, ← hn]; exact hi0
  have hg := hl.get (i := i) (by simp; omega) hi0
  have hg' := hl'.get (i := i) (by simp; omega) hi0'
  simp only [List.get_eq_getElem, List.getElem_range] at hg hg'
  obtain ⟨f, l, a1, a2, a3⟩ := hg
  obtain ⟨f', l', b1, b2, b3⟩ := hg'
  have ef : f = f' := by
    have g1 := group_get k2 i fs 0
    have g2 := group_get k2 i fs' 0
    rw [if_pos hpos, Nat.add_zero] at g1 g2
    rw [a1] at g1
    rw [b1] at g2
    rw [hag] at g1
    exact Option.some.inj (g1.symm.trans g2)
  have el : l = l' := by
    have g1 := group_get k2 i fs (k2 - 1)
    have g2 := group_get k2 i fs' (k2 - 1)
    have e : k2 * i + (k2 - 1) = k2 * (i + 1) - 1 := by rw [Nat.mul_add, Nat.mul_one]; omega
    rw [if_pos (by omega), e] at g1 g2
    rw [a2] at g1
    rw [b2] at g2
    rw [hag] at g1
    exact Option.some.inj (g1.symm.trans g2)
  subst ef el
  rw [hag] at a3
  rw [a3] at b3
  simp only [Except.ok.injEq] at b3
  rw [List.getElem?_map, List.getElem?_map, List.getElem?_eq_getElem hi0, List.getElem?_eq_getElem hi0', b3]

/-- **C22** Errors: group size 0 is a `ZeroDivisionError`; a size that does not divide the number of frames,
a negative size or another collapse is a `ValueError`. -/
theorem C22_errors (env : Env) (order : List String → List String) (num : Option ℤ) (collapse : String)
    (scaling : Bool) (fs : List (Frame P L)) :
    (num.getD fs.length = 0 → combineSub env order num collapse scaling fs = .error .zeroDivisionError) ∧
    (num.getD fs.length ≠ 0 → (¬ num.getD fs.length ∣ (fs.length : ℤ) ∨ parseCollapse collapse = none ∨
      num.getD fs.length < 0) → combineSub env order num collapse scaling fs = .error .valueError) := by
  constructor
  · intro h
    simp only [combineSub, h, if_true]
  · intro h0 h
    unfold combineSub
    simp only [if_neg h0]
    by_cases hd : (fs.length : ℤ) % num.getD fs.length ≠ 0
    · rw [if_pos hd]
    · rw [if_neg hd]
      rcases h with h | h | h
      · exact absurd (Int.dvd_of_emod_eq_zero (not_not.1 hd)) h
      · rw [h]
      · cases parseCollapse collapse with
        | none => rfl
        | some c => simp only [if_pos h]

/-- **C22** Otherwise it succeeds, provided the recorded ancestors of the frames are complete. -/
theorem C22_succeeds (env : Env) (order : List String → List String) (num : Option ℤ) (collapse : String)
    (scaling : Bool) (fs : List (Frame P L)) {k : ℕ} (hk : num.getD fs.length = k) (hpos : 0 < k)
    (hd : k ∣ fs.length) (hne : fs ≠ []) {c : Collapse} (hc : parseCollapse collapse = some c)
    (hp : ∀ f ∈ fs, Prov.Complete f.prov) : ∃ r, combineSub env order num collapse scaling fs = .ok r := by
  unfold combineSub
  simp only [hk]
  rw [if_neg (by omega), if_neg (by
    intro h; apply h
    exact Int.emod_eq_zero_of_dvd (by exact_mod_cast hd)), hc]
  simp only [Int.toNat_natCast]
  rw [if_neg (by omega)]
  have hloop : ∃ r, combineLoop env order c scaling k fs (List.range (fs.length / k)) = .ok r := by
    unfold combineLoop
    have hall : ∀ i ∈ List.range (fs.length / k), ∃ f, (fun i =>
        match fs[k * i]?, fs[k * (i + 1) - 1]? with
        | some first, some last => combineGroup env order c scaling k first last ((fs.drop (k * i)).take k)
        | _, _ => .error .valueError) i = .ok f := by
      intro i hi
      have hi' : i < fs.length / k := by simpa using hi
      have hlt : k * (i + 1) ≤ fs.length := by
        calc k * (i + 1) ≤ k * (fs.length / k) := Nat.mul_le_mul_left k hi'
          _ ≤ fs.length := Nat.mul_div_le _ _
      have hmul : k * (i + 1) = k * i + k := by ring
      have h1 : k * i < fs.length := by omega
      have h2 : k * (i + 1) - 1 < fs.length := by omega
      simp only [List.getElem?_eq_getElem h1, List.getElem?_eq_getElem h2]
      unfold combineGroup
      obtain ⟨pr, hpr⟩ := (Prov.C18_succeeds_iff order fs[k * i].prov
        (((fs.drop (k * i)).take k).map fun f => ⟨f.filename, f.prov⟩)).2 (by
          intro x hx
          obtain ⟨f, hf, rfl⟩ := List.mem_map.1 hx
          exact hp f (List.mem_of_mem_drop (List.mem_of_mem_take hf)))
      simp only [hpr]
      exact ⟨_, rfl⟩
    exact mapM_ok_exists.2 hall
  obtain ⟨r, hr⟩ := hloop
  rw [hr]
  have hrl : 0 < r.length := by
    have := (combineLoop_ok hr).length_eq
    simp at this
    rw [← this]
    exact Nat.div_pos (Nat.le_of_dvd (List.length_pos_of_ne_nil hne) hd) hpos
  cases r with
  | nil => simp at hrl
  | cons a as => exact ⟨_, rfl⟩

example : parseCollapse "Mean" = some .mean := by decide +kernel
example : parseCollapse "MEDIAN" = some .median := by decide +kernel
example : parseCollapse "sum" = none := by decide +kernel

/-! ### C22: the input -/

theorem groups_disjoint (k n : ℕ) :
    ((List.range n).map fun i => List.range' (k * i) k).Pairwise List.Disjoint := by
  rw [List.pairwise_map]
  apply List.Pairwise.imp _ List.pairwise_lt_range
  intro a b hab x hx hy
  rw [List.mem_range'] at hx hy
  obtain ⟨i, hi, rfl⟩ := hx
  obtain ⟨j, hj, he⟩ := hy
  have : k * (a + 1) ≤ k * b := Nat.mul_le_mul_left k hab
  rw [Nat.mul_add] at this
  omega

variable {V : Type}

/-- **C22** The contents of the input's frames are unchanged: pixels, headers, names; and so are its
cubes. -/
theorem C22_input_contents {k : ℕ} {h h' : DS.Heap V} {ds : DS.Dataset} {subs : List DS.Dataset}
    (hv : DS.Valid h ds) (hn : ds.frames.Nodup) (hk : inputEffect k h ds = .ok (h', subs)) :
    (∀ f ∈ ds.frames, DS.viewFrame h' f = DS.viewFrame h f) ∧
    ∀ kind, ∀ a ∈ ds.cube kind, h'.mem a = h.mem a := by
  obtain ⟨_, h2, h3, _⟩ := DS.selectAll_keep hn _ (by
    intro idx hidx
    obtain ⟨i, _, rfl⟩ := List.mem_map.1 hidx
    exact List.nodup_range') (groups_disjoint k _) hv.plane hk
  exact ⟨h2, fun kind a ha => h3 a (hv.cubes kind a ha)⟩

/-- **C22** Finding: but its frames are no longer connected to its cubes: an update of the input's data
afterwards is not seen by any of its frames. -/
theorem C22_input_disconnected {k : ℕ} {h h' h2 : DS.Heap V} {ds d2 : DS.Dataset} {subs : List DS.Dataset}
    (hs : DS.Separate ds) (hv : DS.Valid h ds) (hn : ds.frames.Nodup) (hpos : 0 < k)
    (hdvd : k ∣ ds.frames.length) (hk : inputEffect k h ds = .ok (h', subs)) {e : String}
    {nd : List (DS.Plane V)} {es : List (String × String)}
    (hu : DS.update h' ds e (some nd) none none es = (h2, d2, none)) {f : ℕ} (hf : f ∈ ds.frames) :
    h2.dataOf f = h.dataOf f := by
  obtain ⟨_, h3, _, _, _, h6, _⟩ := DS.selectAll_keep hn _ (by
    intro idx hidx
    obtain ⟨i, _, rfl⟩ := List.mem_map.1 hidx
    exact List.nodup_range') (groups_disjoint k _) hv.plane hk
  obtain ⟨_, u2, u3, u4⟩ := DS.update_data_effect hs hu
  have hdat : h'.dataOf f = h.dataOf f := congrArg DS.FrameView.data (h3 f hf)
  rw [← hdat]
  unfold DS.Heap.dataOf
  rw [u2, u3]
  intro hin
  have hlt := hv.cubes .data _ hin
  obtain ⟨i, hi, rfl⟩ := List.getElem_of_mem hf
  have := h6 i _ (List.getElem?_eq_getElem hi)
    ⟨List.range' (k * (i / k)) k, List.mem_map.2 ⟨i / k, by
      simp only [List.mem_range]; exact Nat.div_lt_div_of_lt_of_dvd hdvd hi, rfl⟩, by
      rw [List.mem_range']
      exact ⟨i % k, Nat.mod_lt _ hpos, by rw [Nat.one_mul]; exact (Nat.div_add_mod i k).symm⟩⟩ .data
  simp only [DS.Frame.addr] at this
  omega

/-- **C22** is violated as far as the input is concerned (the witness of C14: groups of one frame). -/
theorem C22_violated : ∃ (h h1 h2 : DS.Heap ℕ) (ds d2 : DS.Dataset) (subs : List DS.Dataset)
    (nd : List (DS.Plane ℕ)), DS.Linked h ds ∧ DS.Valid h ds ∧ inputEffect 2 h ds = .ok (h1, subs) ∧
    DS.update h1 ds "step" (some nd) none none [] = (h2, d2, none) ∧
    DS.readCube h2 ds .data 0 [0, 0] = some 99 ∧ DS.readFrame h2 ds .data 0 [0, 0] = some 10 := by
  obtain ⟨r, hk⟩ : ∃ r, inputEffect 2 DS.exMade.1 DS.exMade.2 = .ok r := ⟨_, rfl⟩
  have hk' := hk
  cases hk'
  refine ⟨DS.exMade.1, _, _, DS.exMade.2, _, _, [⟨[1, 1], fun _ => 99⟩, ⟨[1, 1], fun _ => 98⟩],
    DS.exMade_linked, DS.exMade_valid, hk, rfl, by decide +kernel, by decide +kernel⟩

end Corgi.Comb

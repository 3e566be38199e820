import Mathlib.Algebra.Order.Ring.Rat
import Mathlib.Algebra.Order.Field.Basic
import Mathlib.Algebra.Order.BigOperators.Group.List
import Mathlib.Tactic.Linarith
import Mathlib.Tactic.FieldSimp
import Mathlib.Tactic.Ring
import Mathlib.Tactic.NormNum
import Mathlib.Tactic.Positivity
import Verif.Common.ArgMin
import Verif.Common.Groups

/-!
# Signals of the non-linearity calibration (calibrate_nonlin.py 442-463, 505-683): model and C107

Rationals for floats. In the drift correction every frame has a signal, i.e. some illuminated pixel above background
(otherwise `nanmean` leaves it out and `mean` gives NaN). Times are seconds since the first frame of the sub-stack.
-/

namespace Corgi.NonlinDrift

open Corgi.Groups

def mean (l : List ℚ) : ℚ := l.sum / l.length

/-! ## The mask (lines 442-463) -/

/-- `hist` are left edges and counts of the bins. `none`: `argmax` of an empty array. -/
def threshold (minBin factor : ℚ) (hist : List (ℚ × ℕ)) : Option ℚ :=
  let above := hist.filter fun b => decide (minBin ≤ b.1)
  match argmax (above.map Prod.snd) with
  | none => none
  | some k =>
    match above[k]? with
    | none => none
    | some peak =>
      let within := hist.filter fun b => decide (minBin ≤ b.1 ∧ b.1 ≤ peak.1)
      match argmin (within.map Prod.snd) with
      | none => none
      | some j => (within[j]?).map fun b => factor * b.1

/-- Line 463. -/
def maskOf (minMask : ℚ) (frame : List ℚ) : List Bool := frame.map fun v => !decide (v < minMask)

/-- **C107.** The threshold is the edge of the emptiest bin between `min_bin` and the fullest bin above `min_bin`, times the
factor. -/
theorem C107_threshold (minBin factor : ℚ) (hist : List (ℚ × ℕ)) (t : ℚ) (h : threshold minBin factor hist = some t) :
    ∃ b ∈ hist, ∃ peak ∈ hist, t = factor * b.1 ∧ minBin ≤ b.1 ∧ b.1 ≤ peak.1 ∧
      (∀ c ∈ hist, minBin ≤ c.1 → c.2 ≤ peak.2) ∧ ∀ c ∈ hist, minBin ≤ c.1 → c.1 ≤ peak.1 → b.2 ≤ c.2 := by
  unfold threshold at h
  dsimp only at h
  split at h
  · cases h
  · rename_i k hk
    split at h
    · cases h
    · rename_i peak hp
      split at h
      · cases h
      · rename_i j hj
        obtain ⟨b, hb, rfl⟩ := Option.map_eq_some_iff.1 h
        obtain ⟨hb1, hb2⟩ := List.mem_filter.1 (List.mem_of_getElem? hb)
        obtain ⟨hp1, hp2⟩ := List.mem_filter.1 (List.mem_of_getElem? hp)
        simp only [decide_eq_true_iff] at hb2 hp2
        obtain ⟨m, hm, hmax, -⟩ := argmax_isFirstMax hk
        obtain ⟨m', hm', hmin, -⟩ := argmin_isFirstMin hj
        rw [List.getElem?_map, hp] at hm
        rw [List.getElem?_map, hb] at hm'
        cases hm; cases hm'
        refine ⟨b, hb1, peak, hp1, rfl, hb2.1, hb2.2, fun c hc h1 => ?_, fun c hc h1 h2 => ?_⟩
        · exact hmax _ (List.mem_map.2 ⟨c, List.mem_filter.2 ⟨hc, by simpa using h1⟩, rfl⟩)
        · exact hmin _ (List.mem_map.2 ⟨c, List.mem_filter.2 ⟨hc, by simpa using ⟨h1, h2⟩⟩, rfl⟩)

/-- **C107.** It exists exactly if some bin starts at or above `min_bin`. -/
theorem C107_threshold_exists (minBin factor : ℚ) (hist : List (ℚ × ℕ)) :
    (∃ t, threshold minBin factor hist = some t) ↔ ∃ b ∈ hist, minBin ≤ b.1 := by
  constructor
  · rintro ⟨t, h⟩
    obtain ⟨b, hb, -, -, -, hm, -⟩ := C107_threshold minBin factor hist t h
    exact ⟨b, hb, hm⟩
  · rintro ⟨b, hb, hm⟩
    have h1 : (hist.filter fun b => decide (minBin ≤ b.1)).map Prod.snd ≠ [] := by
      rw [Ne, List.map_eq_nil_iff]
      exact List.ne_nil_of_mem (List.mem_filter.2 ⟨hb, by simpa using hm⟩)
    obtain ⟨k, hk⟩ := argmax_exists h1
    obtain ⟨m, hm1, -, -⟩ := argmax_isFirstMax hk
    rw [List.getElem?_map] at hm1
    obtain ⟨peak, hp, -⟩ := Option.map_eq_some_iff.1 hm1
    obtain ⟨hp1, hp2⟩ := List.mem_filter.1 (List.mem_of_getElem? hp)
    simp only [decide_eq_true_iff] at hp2
    have h2 : (hist.filter fun b => decide (minBin ≤ b.1 ∧ b.1 ≤ peak.1)).map Prod.snd ≠ [] := by
      rw [Ne, List.map_eq_nil_iff]
      exact List.ne_nil_of_mem (List.mem_filter.2 ⟨hp1, by simpa using hp2⟩)
    obtain ⟨j, hj⟩ := argmin_exists h2
    obtain ⟨m', hm', -, -⟩ := argmin_isFirstMin hj
    rw [List.getElem?_map] at hm'
    obtain ⟨b', hb', -⟩ := Option.map_eq_some_iff.1 hm'
    refine ⟨factor * b'.1, ?_⟩
    unfold threshold
    simp only [hk, hp, hj, hb', Option.map_some]

/-- **C107.** A pixel is used exactly if its mean reaches the threshold. -/
theorem C107_mask (t : ℚ) (frame : List ℚ) (i : ℕ) (v : ℚ) (h : frame[i]? = some v) :
    (maskOf t frame)[i]? = some true ↔ t ≤ v := by
  unfold maskOf
  rw [List.getElem?_map, h]
  simp

/-! ## Signal of a frame (lines 556-582) -/

/-- Lines 562-566; `b1`, `b2` are the pixels of the background regions. -/
def background (b1 b2 : List ℚ) : ℚ := (mean b1 + mean b2) / 2

/-- Lines 571-576. -/
def signal (mask : List Bool) (back : ℚ) (pix : List ℚ) : Option ℚ :=
  let pos := (List.zipWith (fun p m => if m then p - back else 0) pix mask).filter (0 < ·)
  if pos = [] then none else some (mean pos)

/-- Spec: the background-subtracted values under the mask. -/
def masked (back : ℚ) : List (ℚ × Bool) → List ℚ
  | [] => []
  | (p, m) :: l => if m then (p - back) :: masked back l else masked back l

theorem zipWith_filter (back : ℚ) : ∀ (pix : List ℚ) (mask : List Bool),
    (List.zipWith (fun p m => if m then p - back else 0) pix mask).filter (0 < ·) =
      (masked back (pix.zip mask)).filter (0 < ·) := by
  intro pix
  induction pix with
  | nil => intro mask; rfl
  | cons p pix ih =>
    intro mask
    cases mask with
    | nil => rfl
    | cons m mask =>
      rw [List.zipWith_cons_cons, List.zip_cons_cons, masked]
      cases m with
      | true =>
        simp only [if_true]
        by_cases h : 0 < p - back
        · rw [List.filter_cons_of_pos (by simpa using h), List.filter_cons_of_pos (by simpa using h), ih]
        · rw [List.filter_cons_of_neg (by simpa using h), List.filter_cons_of_neg (by simpa using h), ih]
      | false =>
        simp only [Bool.false_eq_true, if_false]
        rw [List.filter_cons_of_neg (by simp), ih]

theorem pos_sum (l : List ℚ) : l.sum ≤ (l.filter (0 < ·)).sum ∧ 0 ≤ (l.filter (0 < ·)).sum ∧
    (l.filter (0 < ·) ≠ [] → 0 < (l.filter (0 < ·)).sum) := by
  induction l with
  | nil => simp
  | cons x l ih =>
    obtain ⟨i1, i2, i3⟩ := ih
    by_cases h : 0 < x
    · rw [List.filter_cons_of_pos (by simpa using h), List.sum_cons, List.sum_cons]
      exact ⟨by linarith, by linarith, fun _ => by linarith⟩
    · rw [List.filter_cons_of_neg (by simpa using h), List.sum_cons]
      push Not at h
      exact ⟨by linarith, i2, i3⟩

/-- **C107 (partial).** If all pixels under the mask are above the background, the signal is their mean above it. -/
theorem C107_signal_partial (mask : List Bool) (back : ℚ) (pix : List ℚ) (hp : ∀ v ∈ masked back (pix.zip mask), 0 < v)
    (hne : masked back (pix.zip mask) ≠ []) : signal mask back pix = some (mean (masked back (pix.zip mask))) := by
  unfold signal
  dsimp only
  rw [zipWith_filter, List.filter_eq_self.2 (fun v hv => by simpa using hp v hv), if_neg hne]

/-- **C107.** There is no signal exactly if no pixel under the mask is above the background. -/
theorem C107_signal_none (mask : List Bool) (back : ℚ) (pix : List ℚ) :
    signal mask back pix = none ↔ ∀ v ∈ masked back (pix.zip mask), v ≤ 0 := by
  unfold signal
  dsimp only
  rw [zipWith_filter]
  constructor
  · intro h v hv
    by_contra hc
    push Not at hc
    have : v ∈ (masked back (pix.zip mask)).filter (0 < ·) := List.mem_filter.2 ⟨hv, by simpa using hc⟩
    rw [if_neg (List.ne_nil_of_mem this)] at h
    cases h
  · intro h
    rw [if_pos (List.filter_eq_nil_iff.2 fun v hv => by simpa using h v hv)]

/-- **C107, violated.** The signal is biased: pixels at or below the background are left out, so it is always positive and
larger than the mean as soon as there is one. -/
theorem C107_violated_positive (mask : List Bool) (back : ℚ) (pix : List ℚ) (s : ℚ) (h : signal mask back pix = some s) :
    0 < s ∧ mean (masked back (pix.zip mask)) ≤ s ∧
    ((∃ v ∈ masked back (pix.zip mask), v ≤ 0) → mean (masked back (pix.zip mask)) < s) := by
  unfold signal at h
  dsimp only at h
  rw [zipWith_filter] at h
  revert h
  generalize masked back (pix.zip mask) = l
  intro h
  by_cases hne : l.filter (0 < ·) = []
  · rw [if_pos hne] at h; cases h
  · rw [if_neg hne] at h
    cases h
    obtain ⟨p1, -, p3⟩ := pos_sum l
    have hs := p3 hne
    have hle : (l.filter (0 < ·)).length ≤ l.length := List.length_filter_le _ _
    have hpos : 0 < (l.filter (0 < ·)).length := List.length_pos_iff.2 hne
    have q1 : (0 : ℚ) < ((l.filter (0 < ·)).length : ℚ) := by exact_mod_cast hpos
    have q2 : ((l.filter (0 < ·)).length : ℚ) ≤ (l.length : ℚ) := by exact_mod_cast hle
    have q3 : (0 : ℚ) < (l.length : ℚ) := lt_of_lt_of_le q1 q2
    have a1 : mean l ≤ (l.filter (0 < ·)).sum / l.length := div_le_div_of_nonneg_right p1 q3.le
    refine ⟨div_pos hs q1, ?_, ?_⟩
    · exact a1.trans (div_le_div_of_nonneg_left hs.le q1 q2)
    · rintro ⟨v, hv, hv0⟩
      have hlt : (l.filter (0 < ·)).length < l.length :=
        List.length_filter_lt_length_iff_exists.2 ⟨v, hv, by simpa using hv0⟩
      have q4 : ((l.filter (0 < ·)).length : ℚ) < (l.length : ℚ) := by exact_mod_cast hlt
      exact lt_of_le_of_lt a1 (div_lt_div_of_pos_left hs q1 q4)

/-! ## Frames of one gain -/

structure Shot where
  exp : ℚ
  time : ℚ
  sig : ℚ
  deriving DecidableEq, Repr

/-- `exposure_strings_list` -/
def exps (fs : List Shot) : List ℚ := uniq (fs.map Shot.exp)

/-- Frames of one exposure time. -/
def atExp (fs : List Shot) (e : ℚ) : List Shot := at' Shot.exp e fs

/-- `repeat_exp`, lines 508-512 -/
def repeatExp (fs : List Shot) : Option ℚ :=
  (argmax ((exps fs).map fun e => (atExp fs e).length)).bind fun k => (exps fs)[k]?

/-- **C107.** The repeated exposure is the shortest of those with most frames. -/
theorem C107_repeat (fs : List Shot) (r : ℚ) (h : repeatExp fs = some r) :
    r ∈ fs.map Shot.exp ∧ (∀ e, (atExp fs e).length ≤ (atExp fs r).length) ∧
    ∀ e ∈ fs.map Shot.exp, e < r → (atExp fs e).length < (atExp fs r).length := by
  unfold repeatExp at h
  obtain ⟨k, hk, hr⟩ := Option.bind_eq_some_iff.1 h
  obtain ⟨m, hm, hmax, hfirst⟩ := argmax_isFirstMax hk
  rw [List.getElem?_map, hr] at hm
  cases hm
  refine ⟨(mem_uniq _ _).1 (List.mem_of_getElem? hr), fun e => ?_, fun e he hlt => ?_⟩
  · by_cases he : e ∈ fs.map Shot.exp
    · exact hmax _ (List.mem_map.2 ⟨e, (mem_uniq _ _).2 he, rfl⟩)
    · have : atExp fs e = [] := by
        apply List.eq_nil_iff_forall_not_mem.2
        intro f hf
        obtain ⟨h1, h2⟩ := (mem_at _ _ _ _).1 hf
        exact he (List.mem_map.2 ⟨f, h1, h2⟩)
      rw [this]; exact Nat.zero_le _
  · obtain ⟨j, hj⟩ := List.mem_iff_getElem?.1 ((mem_uniq _ _).2 he)
    have hjk : j < k := by
      by_contra hc
      push Not at hc
      obtain ⟨h1, h1'⟩ := List.getElem?_eq_some_iff.1 hr
      obtain ⟨h2, h2'⟩ := List.getElem?_eq_some_iff.1 hj
      rcases Nat.lt_or_eq_of_le hc with hc | hc
      · have := List.pairwise_iff_getElem.1 (uniq_sorted (fs.map Shot.exp)) k j h1 h2 hc
        rw [h2'] at this
        have e1 : (uniq (fs.map Shot.exp))[k] = r := h1'
        rw [e1] at this
        linarith
      · subst hc
        have e1 : (uniq (fs.map Shot.exp))[k] = r := h1'
        rw [e1] at h2'
        linarith
    exact hfirst j _ hjk (by rw [List.getElem?_map]; unfold exps; rw [hj]; rfl)

/-! ## The two halves of the repeated exposure (lines 586-641, 656-663) -/

/-- `repeat1_mean_signal`: the first half of the frames. -/
def rep1 (s : List ℚ) : ℚ := mean (s.take (s.length / 2))

/-- `repeat2_mean_signal`: the loop starts at `first_half + 1` and appends to the list of the first half. -/
def rep2 (s : List ℚ) : ℚ := mean (s.take (s.length / 2) ++ s.drop (s.length / 2 + 1))

def time1 (t : List ℚ) : ℚ := mean (t.take (t.length / 2))

def time2 (t : List ℚ) : ℚ := mean (t.drop (t.length / 2))

/-- **C107, violated.** With two repeated frames, as documented for all gains but one, both signals are those of the first
frame: whatever the drift, none is found. -/
theorem C107_violated_pair (s : List ℚ) (h : s.length = 2) : rep2 s = rep1 s := by
  match s, h with
  | [a, b], _ => simp [rep1, rep2]

/-- **C107, violated.** In general the signal of the second half is mixed with that of the first, and one frame is lost. -/
theorem C107_violated_second (s : List ℚ) (h : 3 ≤ s.length) :
    rep2 s - rep1 s = ((s.length - s.length / 2 - 1 : ℕ) : ℚ) / ((s.length - 1 : ℕ) : ℚ) *
      (mean (s.drop (s.length / 2 + 1)) - rep1 s) := by
  unfold rep2 rep1 mean
  have l1 : (s.take (s.length / 2)).length = s.length / 2 := by rw [List.length_take]; omega
  have l2 : (s.drop (s.length / 2 + 1)).length = s.length - s.length / 2 - 1 := by rw [List.length_drop]; omega
  rw [List.sum_append, List.length_append, l1, l2]
  generalize (s.take (s.length / 2)).sum = A
  generalize (s.drop (s.length / 2 + 1)).sum = B
  have h1 : 1 ≤ s.length / 2 := by omega
  have h2 : 1 ≤ s.length - s.length / 2 - 1 := by omega
  have h3 : s.length - 1 = s.length / 2 + (s.length - s.length / 2 - 1) := by omega
  rw [h3]
  generalize s.length / 2 = x at *
  generalize s.length - x - 1 = y at *
  push_cast
  have hx : (x : ℚ) ≠ 0 := by have : x ≠ 0 := by omega
                              exact_mod_cast this
  have hy : (y : ℚ) ≠ 0 := by have : y ≠ 0 := by omega
                              exact_mod_cast this
  have hxy : (x : ℚ) + y ≠ 0 := by have : x + y ≠ 0 := by omega
                                   exact_mod_cast this
  field_simp
  ring

/-- **C107, violated.** At most half of a change of the signal is seen. -/
theorem C107_violated_half (s : List ℚ) (h : 3 ≤ s.length) :
    |rep2 s - rep1 s| ≤ |mean (s.drop (s.length / 2 + 1)) - rep1 s| / 2 := by
  rw [C107_violated_second s h, abs_mul, div_eq_mul_inv _ (2 : ℚ), mul_comm]
  apply mul_le_mul_of_nonneg_left _ (abs_nonneg _)
  have h1 : (0 : ℚ) < ((s.length - 1 : ℕ) : ℚ) := by
    have : 0 < s.length - 1 := by omega
    exact_mod_cast this
  rw [abs_of_nonneg (by positivity), div_le_iff₀ h1]
  have h2 : 2 * (s.length - s.length / 2 - 1) ≤ s.length - 1 := by omega
  have h3 : (2 : ℚ) * ((s.length - s.length / 2 - 1 : ℕ) : ℚ) ≤ ((s.length - 1 : ℕ) : ℚ) := by exact_mod_cast h2
  linarith

/-! ## The correction (lines 514-527, 651-683) -/

/-- `illum_slope` -/
def slope (l : List Shot) : ℚ := (rep2 (l.map Shot.sig) - rep1 (l.map Shot.sig)) / (time2 (l.map Shot.time) - time1 (l.map Shot.time))

/-- `illum_inter` -/
def inter (l : List Shot) : ℚ := rep1 (l.map Shot.sig) - slope l * time1 (l.map Shot.time)

/-- `illum_corr` of a group at time `g`; `g0` is the time of the first group. -/
def illum (k c g0 g : ℚ) : ℚ := ((g - g0) * k + c) / ((g0 - g0) * k + c)

/-- `group_mean_time` -/
def groupTime (fs : List Shot) (r e : ℚ) : ℚ :=
  if e ≠ r then mean ((atExp fs e).map Shot.time) else time1 ((atExp fs e).map Shot.time)

/-- `mean_signal` -/
def groupSignal (fs : List Shot) (r e : ℚ) : ℚ :=
  if e ≠ r then mean ((atExp fs e).map Shot.sig) else rep1 ((atExp fs e).map Shot.sig)

/-- Exposure times and corrected signals. -/
def corrected (fs : List Shot) : Option (List (ℚ × ℚ)) :=
  match repeatExp fs, exps fs with
  | some r, e0 :: es =>
    let l := atExp fs r
    some ((e0 :: es).map fun e =>
      (e, groupSignal fs r e / illum (slope l) (inter l) (groupTime fs r e0) (groupTime fs r e)))
  | _, _ => none

/-- **C107.** There is one corrected signal for each exposure time, in ascending order. -/
theorem C107_exposures (fs : List Shot) (r : List (ℚ × ℚ)) (h : corrected fs = some r) :
    r.map Prod.fst = exps fs ∧ (r.map Prod.fst).Pairwise (· < ·) := by
  have key : r.map Prod.fst = exps fs := by
    unfold corrected at h
    split at h
    · rename_i r' e0 es h1 h2
      cases h
      rw [h2, List.map_map]
      exact List.map_id _
    · cases h
  exact ⟨key, by rw [key]; exact uniq_sorted _⟩

/-- **C107, violated.** Where two frames are repeated the signals are not corrected at all. -/
theorem C107_violated_uncorrected (fs : List Shot) (e r : ℚ) (l : List (ℚ × ℚ)) (hr : repeatExp fs = some r)
    (h2 : (atExp fs r).length = 2) (h0 : groupSignal fs r r ≠ 0) (h : corrected fs = some l) (s : ℚ) (hs : (e, s) ∈ l) :
    s = groupSignal fs r e := by
  unfold corrected at h
  rw [hr] at h
  split at h
  · rename_i r' e0 es h1 h3
    cases h1
    cases h
    obtain ⟨e', -, he⟩ := List.mem_map.1 hs
    cases he
    have hs0 : slope (atExp fs r) = 0 := by
      unfold slope
      rw [C107_violated_pair _ (by simpa using h2), sub_self, zero_div]
    have hi : inter (atExp fs r) = groupSignal fs r r := by
      unfold inter groupSignal
      rw [hs0]; simp
    unfold illum
    rw [hs0, hi]
    simp [h0]
  · cases h

theorem mean_replicate (l : List ℚ) (c : ℚ) (h : ∀ x ∈ l, x = c) (hl : l ≠ []) : mean l = c := by
  rw [List.eq_replicate_of_mem h]
  unfold mean
  rw [List.sum_replicate, List.length_replicate, nsmul_eq_mul]
  have : (l.length : ℚ) ≠ 0 := by
    have := List.length_pos_iff.2 hl
    exact_mod_cast this.ne'
  field_simp

/-- **C107 (partial).** With a steady lamp and a detector in which the signal depends on the exposure time alone, the
corrected signals are the signals. -/
theorem C107_steady_partial (fs : List Shot) (r : ℚ) (F : ℚ → ℚ) (hF : ∀ f ∈ fs, f.sig = F f.exp) (hr : repeatExp fs = some r)
    (h2 : 2 ≤ (atExp fs r).length) (h0 : F r ≠ 0) (l : List (ℚ × ℚ)) (h : corrected fs = some l) (e s : ℚ)
    (hs : (e, s) ∈ l) : s = F e := by
  have hsig : ∀ e, ∀ x ∈ (atExp fs e).map Shot.sig, x = F e := by
    intro e x hx
    obtain ⟨f, hf, rfl⟩ := List.mem_map.1 hx
    obtain ⟨h1, h2⟩ := (mem_at _ _ _ _).1 hf
    rw [hF f h1]
    exact congrArg F h2
  have r1 : rep1 ((atExp fs r).map Shot.sig) = F r := by
    apply mean_replicate _ _ fun x hx => hsig r x (List.mem_of_mem_take hx)
    intro hn
    have := congrArg List.length hn
    simp only [List.length_take, List.length_map, List.length_nil] at this
    omega
  have r2 : rep2 ((atExp fs r).map Shot.sig) = F r := by
    apply mean_replicate
    · intro x hx
      rcases List.mem_append.1 hx with hx | hx
      · exact hsig r x (List.mem_of_mem_take hx)
      · exact hsig r x (List.mem_of_mem_drop hx)
    · intro hn
      have := congrArg List.length (List.append_eq_nil_iff.1 hn).1
      simp only [List.length_take, List.length_map, List.length_nil] at this
      omega
  have hs0 : slope (atExp fs r) = 0 := by unfold slope; rw [r1, r2, sub_self, zero_div]
  have hi : inter (atExp fs r) = F r := by unfold inter; rw [hs0, r1]; ring
  have hmem := C107_exposures fs l h
  unfold corrected at h
  rw [hr] at h
  split at h
  · rename_i r' e0 es h1 h3
    cases h1
    cases h
    obtain ⟨e', he', he⟩ := List.mem_map.1 hs
    cases he
    have hne : (atExp fs e).map Shot.sig ≠ [] := by
      rw [Ne, List.map_eq_nil_iff]
      apply at_ne_nil
      rw [← h3] at he'
      exact (mem_uniq _ _).1 he'
    have hg : groupSignal fs r e = F e := by
      unfold groupSignal
      split_ifs with hc
      · exact mean_replicate _ _ (hsig e) hne
      · push Not at hc
        rw [hc, r1]
    unfold illum
    rw [hg, hs0, hi]
    simp [h0]
  · cases h

/-- **C107, violated.** Even with the true brightness `c + k t` the correction is right only without drift, for the first
group itself, or if the first group has time zero: the intercept belongs to time zero, not to the first group. -/
theorem C107_violated_origin (k c g0 g : ℚ) (hc : c ≠ 0) (hg : c + k * g0 ≠ 0) :
    illum k c g0 g = (c + k * g) / (c + k * g0) ↔ k = 0 ∨ g = g0 ∨ g0 = 0 := by
  unfold illum
  rw [sub_self, zero_mul, zero_add, div_eq_div_iff hc hg]
  constructor
  · intro h
    have h1 : k ^ 2 * (g0 * (g - g0)) = 0 := by linarith
    rcases mul_eq_zero.1 h1 with h2 | h2
    · exact Or.inl (pow_eq_zero_iff (by norm_num) |>.1 h2)
    · rcases mul_eq_zero.1 h2 with h3 | h3
      · exact Or.inr (Or.inr h3)
      · exact Or.inr (Or.inl (by linarith))
  · rintro (rfl | rfl | rfl) <;> ring

/-- **C107.** A uniform background is found as such. -/
theorem C107_background (b1 b2 : List ℚ) (c : ℚ) (h1 : ∀ x ∈ b1, x = c) (h2 : ∀ x ∈ b2, x = c) (n1 : b1 ≠ []) (n2 : b2 ≠ []) :
    background b1 b2 = c := by
  unfold background
  rw [mean_replicate b1 c h1 n1, mean_replicate b2 c h2 n2]
  ring

/-- **C107.** The line passes through the two points of time and signal. -/
theorem C107_line (l : List Shot) (ht : time1 (l.map Shot.time) ≠ time2 (l.map Shot.time)) :
    inter l + slope l * time1 (l.map Shot.time) = rep1 (l.map Shot.sig) ∧
    inter l + slope l * time2 (l.map Shot.time) = rep2 (l.map Shot.sig) := by
  have hd : time2 (l.map Shot.time) - time1 (l.map Shot.time) ≠ 0 := sub_ne_zero.2 ht.symm
  refine ⟨by unfold inter; ring, ?_⟩
  have : slope l * (time2 (l.map Shot.time) - time1 (l.map Shot.time)) = rep2 (l.map Shot.sig) - rep1 (l.map Shot.sig) := by
    unfold slope
    rw [div_mul_cancel₀ _ hd]
  unfold inter
  linarith

theorem sum_le_length (l : List ℚ) (c : ℚ) (h : ∀ x ∈ l, x ≤ c) : l.sum ≤ c * l.length := by
  induction l with
  | nil => simp
  | cons x l ih =>
    rw [List.sum_cons, List.length_cons]
    push_cast
    have := ih fun y hy => h y (List.mem_cons_of_mem _ hy)
    have := h x List.mem_cons_self
    linarith

theorem length_lt_sum (l : List ℚ) (c : ℚ) (h : ∀ x ∈ l, c < x) (hl : l ≠ []) : c * l.length < l.sum := by
  induction l with
  | nil => exact absurd rfl hl
  | cons x l ih =>
    rw [List.sum_cons, List.length_cons]
    push_cast
    have hx := h x List.mem_cons_self
    by_cases hn : l = []
    · subst hn; simp; linarith
    · have := ih (fun y hy => h y (List.mem_cons_of_mem _ hy)) hn
      linarith

/-- **C107.** With at least two frames in order of time, the first time is before the second. -/
theorem C107_times (t : List ℚ) (hs : t.Pairwise (· < ·)) (h : 2 ≤ t.length) : time1 t < time2 t := by
  have h1 : 1 ≤ t.length / 2 := by omega
  obtain ⟨c, hc⟩ : ∃ c, t[t.length / 2 - 1]? = some c := ⟨_, List.getElem?_eq_getElem (by omega)⟩
  obtain ⟨hi, hc⟩ := List.getElem?_eq_some_iff.1 hc
  have a : ∀ x ∈ t.take (t.length / 2), x ≤ c := by
    intro x hx
    obtain ⟨j, hj, rfl⟩ := List.mem_iff_getElem.1 hx
    rw [List.getElem_take, ← hc]
    rw [List.length_take] at hj
    rcases Nat.lt_or_eq_of_le (show j ≤ t.length / 2 - 1 by omega) with hlt | heq
    · exact (List.pairwise_iff_getElem.1 hs _ _ _ _ hlt).le
    · simp only [heq, le_refl]
  have b : ∀ x ∈ t.drop (t.length / 2), c < x := by
    intro x hx
    obtain ⟨j, hj, rfl⟩ := List.mem_iff_getElem.1 hx
    rw [List.getElem_drop, ← hc]
    exact List.pairwise_iff_getElem.1 hs _ _ _ _ (by omega)
  have l1 : (0 : ℚ) < ((t.take (t.length / 2)).length : ℚ) := by
    have : 0 < (t.take (t.length / 2)).length := by rw [List.length_take]; omega
    exact_mod_cast this
  have l2' : 0 < (t.drop (t.length / 2)).length := by rw [List.length_drop]; omega
  have l2 : (0 : ℚ) < ((t.drop (t.length / 2)).length : ℚ) := by exact_mod_cast l2'
  unfold time1 time2 mean
  exact lt_of_le_of_lt ((div_le_iff₀ l1).2 (sum_le_length _ c a))
    ((lt_div_iff₀ l2).2 (length_lt_sum _ c b (List.length_pos_iff.1 l2')))

/-- **C107.** Time and signal of a group are the means over its frames; of the repeated exposure only the first half is used. -/
theorem C107_group (fs : List Shot) (r e : ℚ) (he : e ≠ r) :
    groupTime fs r e * (atExp fs e).length = ((atExp fs e).map Shot.time).sum ∧
    groupSignal fs r e * (atExp fs e).length = ((atExp fs e).map Shot.sig).sum ∧
    (2 ≤ (atExp fs r).length →
      groupTime fs r r * ((atExp fs r).length / 2 : ℕ) = (((atExp fs r).map Shot.time).take ((atExp fs r).length / 2)).sum ∧
      groupSignal fs r r * ((atExp fs r).length / 2 : ℕ) = (((atExp fs r).map Shot.sig).take ((atExp fs r).length / 2)).sum) := by
  have hm : ∀ l : List ℚ, mean l * l.length = l.sum := by
    intro l
    unfold mean
    by_cases hl : l = []
    · subst hl; simp
    · have := List.length_pos_iff.2 hl
      exact div_mul_cancel₀ _ (by exact_mod_cast this.ne')
  refine ⟨?_, ?_, fun _ => ⟨?_, ?_⟩⟩
  · unfold groupTime; rw [if_pos he]; simpa using hm ((atExp fs e).map Shot.time)
  · unfold groupSignal; rw [if_pos he]; simpa using hm ((atExp fs e).map Shot.sig)
  · unfold groupTime time1
    rw [if_neg (by simp)]
    have := hm (((atExp fs r).map Shot.time).take ((atExp fs r).length / 2))
    rw [List.length_take, List.length_map, min_eq_left (Nat.div_le_self _ _)] at this
    rw [List.length_map]
    exact this
  · unfold groupSignal rep1
    rw [if_neg (by simp)]
    have := hm (((atExp fs r).map Shot.sig).take ((atExp fs r).length / 2))
    rw [List.length_take, List.length_map, min_eq_left (Nat.div_le_self _ _)] at this
    rw [List.length_map]
    exact this

/-- **C107.** A corrected signal times the relative brightness is the signal of the group. -/
theorem C107_corrected (fs : List Shot) (l : List (ℚ × ℚ)) (h : corrected fs = some l) (e s : ℚ) (hs : (e, s) ∈ l) :
    ∃ r e0, repeatExp fs = some r ∧ (exps fs).head? = some e0 ∧
      let i := illum (slope (atExp fs r)) (inter (atExp fs r)) (groupTime fs r e0) (groupTime fs r e)
      (i ≠ 0 → s * i = groupSignal fs r e) := by
  unfold corrected at h
  split at h
  · rename_i r e0 es h1 h2
    cases h
    obtain ⟨e', -, he⟩ := List.mem_map.1 hs
    cases he
    refine ⟨r, e0, h1, by rw [h2]; rfl, ?_⟩
    dsimp only
    exact fun hi => div_mul_cancel₀ _ hi
  · cases h

/-! ## Examples -/

/-- A linear detector, 1000 DN per second, under a lamp fading by one per cent per second: exposures of 1, 2, 3 s and again of 1 s. -/
def fading : List Shot := [⟨1, 0, 1000⟩, ⟨2, 10, 1800⟩, ⟨3, 20, 2400⟩, ⟨1, 30, 700⟩]

example : repeatExp fading = some 1 := by decide +kernel

/-- The corrected signals are those measured, not 1000, 2000, 3000. -/
example : corrected fading = some [(1, 1000), (2, 1800), (3, 2400)] := by decide +kernel

example : threshold 10 2 [(0, 9), (10, 5), (20, 1), (30, 7), (40, 0)] = some 40 := by decide +kernel

example : signal [true, true, false, true] 10 [12, 16, 100, 4] = some 4 := by decide +kernel

end Corgi.NonlinDrift

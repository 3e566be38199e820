import Mathlib.Data.List.Sort
import Mathlib.Data.List.Dedup
import Mathlib.Data.Rat.Defs
import Mathlib.Algebra.Order.Ring.Rat
import Mathlib.Algebra.Order.Field.Basic
import Mathlib.Algebra.BigOperators.Group.List.Basic
import Mathlib.Tactic.Linarith
import Verif.Common.Except

/-!
# `kgain_dataset_2_list` (calibrate_kgain.py 796-915): model and C103

Frames carry the header cards that are read; `pix` stands for the array. Exposure times are floats (positive ones are
accepted). `split_dataset` by exposure time gives the groups in ascending order, each in the order of the dataset (C15).
-/

namespace Corgi.KgainData

structure Frame (A : Type) where
  exp : ℚ
  mn : Bool
  emC : ℚ
  emA : ℚ
  emM : Option ℚ
  date : String
  pix : A
  deriving DecidableEq

inductive Err
  | meanGain
  | expTime
  | emGain
  | noCal
  | sizes
  | dates
  | gains
  | actual
  deriving DecidableEq

variable {A : Type}

/-- `split_dataset(exthdr_keywords=['EXPTIME'])` -/
def groups (fs : List (Frame A)) : List (List (Frame A)) :=
  ((fs.map Frame.exp).dedup.insertionSort (· ≤ ·)).map fun e => fs.filter fun f => decide (f.exp = e)

/-- Checks of a frame (lines 848-868). -/
def checkFrame (f : Frame A) : Except Err Unit :=
  if f.mn then (if f.emC ≠ 1 then .error .meanGain else .ok ())
  else if f.exp ≤ 0 then .error .expTime
  else if f.emC < 1 then .error .emGain
  else .ok ()

def cal (g : List (Frame A)) : List (Frame A) := g.filter fun f => !f.mn

/-- Gains recorded for one group (lines 871-879): `record_gain` is only unset where `EMGAIN_M` is missing. -/
def gainsOf : Bool → List (Frame A) → List ℚ
  | _, [] => []
  | rec, f :: fs =>
    if rec then
      match f.emM with
      | some m => m :: gainsOf true fs
      | none => (if 0 < f.emA then f.emA else f.emC) :: gainsOf false fs
    else gainsOf false fs

/-- Python's `min` of a list. -/
def minOf : List ℕ → Option ℕ
  | [] => none
  | x :: xs => some (xs.foldl min x)

/-- `sub[idx_0:idx_0+len_sub]`, `k` times (lines 899-902). -/
def pieces (n : ℕ) : ℕ → List (Frame A) → List (List (Frame A))
  | 0, _ => []
  | k + 1, l => l.take n :: pieces n k (l.drop n)

/-- lines 892-902 -/
def resize (n : ℕ) (sub : List (Frame A)) : Except Err (List (List (Frame A))) :=
  if sub.length = n then .ok [sub]
  else if sub.length % n ≠ 0 then .error .sizes
  else .ok (pieces n (sub.length / n) sub)

structure Out (A : Type) where
  stack : List (List (Frame A))
  mean : List (Frame A)
  gain : ℚ

/-- lines 815-915 -/
def toList (fs : List (Frame A)) : Except Err (Out A) :=
  let gs := groups fs
  match gs.flatten.mapM checkFrame with
  | .error e => .error e
  | .ok _ =>
    let calGroups := gs.filter fun g => decide (cal g ≠ [])
    match minOf (calGroups.map List.length) with
    | none => .error .noCal
    | some n =>
      match (calGroups.map cal).mapM (resize n) with
      | .error e => .error e
      | .ok st =>
        let cs := gs.flatMap cal
        let gains := calGroups.flatMap fun g => gainsOf true (cal g)
        if ¬ (cs.map Frame.date).Nodup then .error .dates
        else if (cs.map Frame.emC).dedup.length ≠ 1 then .error .gains
        else if gains.any (· < 1) then .error .actual
        else .ok ⟨st.flatten, gs.flatMap fun g => g.filter (·.mn), gains.sum / gains.length⟩

/-! ## Groups -/

theorem mem_groups (fs g : List (Frame A)) :
    g ∈ groups fs ↔ ∃ e ∈ fs.map Frame.exp, g = fs.filter fun f => decide (f.exp = e) := by
  simp only [groups, List.mem_map, List.mem_insertionSort, List.mem_dedup]
  constructor
  · rintro ⟨e, h, rfl⟩; exact ⟨e, h, rfl⟩
  · rintro ⟨e, h, rfl⟩; exact ⟨e, h, rfl⟩

theorem perm_filters [DecidableEq (Frame A)] (fs : List (Frame A)) :
    ∀ es : List ℚ, es.Nodup → (es.map fun e => fs.filter fun f => decide (f.exp = e)).flatten.Perm
      (fs.filter fun f => decide (f.exp ∈ es)) := by
  intro es hes
  rw [List.perm_iff_count]
  intro a
  rw [List.count_flatten, List.map_map]
  have hc : ∀ e, (List.count a ∘ fun e => fs.filter fun f => decide (f.exp = e)) e = if a.exp = e then fs.count a else 0 := by
    intro e
    simp only [Function.comp]
    split_ifs with h
    · exact List.count_filter (by simpa using h)
    · exact List.count_eq_zero.2 (fun hm => h (by simpa using (List.mem_filter.1 hm).2))
  rw [List.map_congr_left fun e _ => hc e]
  have hr : List.count a (fs.filter fun f => decide (f.exp ∈ es)) = if a.exp ∈ es then fs.count a else 0 := by
    split_ifs with h
    · exact List.count_filter (by simpa using h)
    · exact List.count_eq_zero.2 (fun hm => h (by simpa using (List.mem_filter.1 hm).2))
  rw [hr]
  clear hr hc
  induction es with
  | nil => simp
  | cons e es ih =>
    rw [List.nodup_cons] at hes
    rw [List.map_cons, List.sum_cons, ih hes.2]
    by_cases h : a.exp = e
    · subst h; simp [hes.1]
    · simp [h]

theorem groups_perm (fs : List (Frame A)) : (groups fs).flatten.Perm fs := by
  classical
  have hp := (fs.map Frame.exp).dedup.perm_insertionSort (· ≤ ·)
  have h := perm_filters fs ((fs.map Frame.exp).dedup.insertionSort (· ≤ ·)) (hp.nodup_iff.2 (List.nodup_dedup _))
  refine h.trans (List.Perm.of_eq ?_)
  apply List.filter_eq_self.2
  intro f hf
  simpa [List.mem_insertionSort] using ⟨f, hf, rfl⟩

theorem pieces_spec (n : ℕ) : ∀ (k : ℕ) (l : List (Frame A)), l.length = n * k →
    (pieces n k l).flatten = l ∧ ∀ p ∈ pieces n k l, p.length = n := by
  intro k
  induction k with
  | zero => intro l h; simp [pieces, List.length_eq_zero_iff.1 (by simpa using h)]
  | succ k ih =>
    intro l h
    have h1 : (l.drop n).length = n * k := by rw [List.length_drop, h, Nat.mul_succ]; omega
    obtain ⟨i1, i2⟩ := ih _ h1
    refine ⟨?_, ?_⟩
    · rw [pieces, List.flatten_cons, i1, List.take_append_drop]
    · intro p hp
      rcases List.mem_cons.1 hp with rfl | hp
      · rw [List.length_take, h, Nat.mul_succ]; omega
      · exact i2 p hp

theorem resize_spec (n : ℕ) (sub : List (Frame A)) (st : List (List (Frame A))) (h : resize n sub = .ok st) :
    st.flatten = sub ∧ ∀ p ∈ st, p.length = n := by
  unfold resize at h
  by_cases h1 : sub.length = n
  · rw [if_pos h1] at h; cases h; simpa using h1
  · rw [if_neg h1] at h
    by_cases h2 : sub.length % n ≠ 0
    · rw [if_pos h2] at h; cases h
    · rw [if_neg h2] at h; cases h
      push Not at h2
      exact pieces_spec n _ sub (Nat.mul_div_cancel' (Nat.dvd_of_mod_eq_zero h2)).symm

/-- **C103.** A sub-stack can be cut exactly if its size is a multiple. -/
theorem C103_sizes (n : ℕ) (sub : List (Frame A)) : (∃ st, resize n sub = .ok st) ↔ n ∣ sub.length := by
  unfold resize
  by_cases h1 : sub.length = n
  · simp [h1]
  · by_cases h2 : sub.length % n ≠ 0
    · simp only [h1, if_false, h2, ne_eq, not_false_eq_true, if_true, Nat.dvd_iff_mod_eq_zero, iff_false, not_exists]
      intro st h; cases h
    · push Not at h2
      simp [h1, h2, Nat.dvd_iff_mod_eq_zero]

theorem flatMap_cal (gs : List (List (Frame A))) :
    ((gs.filter fun g => decide (cal g ≠ [])).map cal).flatten = gs.flatMap cal := by
  induction gs with
  | nil => rfl
  | cons g gs ih =>
    rw [List.flatMap_cons, ← ih]
    by_cases h : cal g = []
    · rw [List.filter_cons_of_neg (by simpa using h), h, List.nil_append]
    · rw [List.filter_cons_of_pos (by simpa using h), List.map_cons, List.flatten_cons]

theorem flatMap_filter (p : Frame A → Bool) (gs : List (List (Frame A))) :
    gs.flatMap (fun g => g.filter p) = gs.flatten.filter p := by
  induction gs with
  | nil => rfl
  | cons g gs ih => rw [List.flatMap_cons, ih, List.flatten_cons, List.filter_append]

theorem foldl_min_mem (xs : List ℕ) : ∀ x, xs.foldl min x ∈ x :: xs := by
  induction xs with
  | nil => intro x; simp
  | cons y ys ih =>
    intro x
    rw [List.foldl_cons]
    rcases List.mem_cons.1 (ih (min x y)) with h | h
    · rw [h]; rcases min_choice x y with e | e <;> rw [e] <;> simp
    · exact List.mem_cons_of_mem _ (List.mem_cons_of_mem _ h)

theorem minOf_mem {l : List ℕ} {n : ℕ} (h : minOf l = some n) : n ∈ l := by
  cases l with
  | nil => cases h
  | cons x xs => simp only [minOf, Option.some.injEq] at h; rw [← h]; exact foldl_min_mem xs x

theorem forall2_resize {n : ℕ} {subs : List (List (Frame A))} {st : List (List (List (Frame A)))}
    (h : List.Forall₂ (fun a b => resize n a = .ok b) subs st) :
    st.flatten.flatten = subs.flatten ∧ ∀ p ∈ st.flatten, p.length = n ∧ ∃ sub ∈ subs, ∀ f ∈ p, f ∈ sub := by
  induction h with
  | nil => simp
  | @cons a b l r hab _ ih =>
    obtain ⟨e, hl⟩ := resize_spec n a b hab
    refine ⟨by rw [List.flatten_cons, List.flatten_append, e, ih.1, List.flatten_cons], ?_⟩
    intro p hp
    rw [List.flatten_cons, List.mem_append] at hp
    rcases hp with hp | hp
    · exact ⟨hl p hp, a, List.mem_cons_self, fun f hf => by rw [← e]; exact List.mem_flatten.2 ⟨p, hp, hf⟩⟩
    · obtain ⟨h1, sub, h2, h3⟩ := ih.2 p hp
      exact ⟨h1, sub, List.mem_cons_of_mem _ h2, h3⟩

/-- What success means, step by step. -/
theorem toList_ok {fs : List (Frame A)} {o : Out A} (h : toList fs = .ok o) :
    (∀ f ∈ fs, checkFrame f = .ok ()) ∧ ∃ n st,
      minOf (((groups fs).filter fun g => decide (cal g ≠ [])).map List.length) = some n ∧
      List.Forall₂ (fun a b => resize n a = .ok b) (((groups fs).filter fun g => decide (cal g ≠ [])).map cal) st ∧
      (((groups fs).flatMap cal).map Frame.date).Nodup ∧ (((groups fs).flatMap cal).map Frame.emC).dedup.length = 1 ∧
      (∀ g ∈ ((groups fs).filter fun g => decide (cal g ≠ [])).flatMap (fun g => gainsOf true (cal g)), 1 ≤ g) ∧
      o = ⟨st.flatten, (groups fs).flatMap fun g => g.filter (·.mn),
        (((groups fs).filter fun g => decide (cal g ≠ [])).flatMap (fun g => gainsOf true (cal g))).sum /
        (((groups fs).filter fun g => decide (cal g ≠ [])).flatMap (fun g => gainsOf true (cal g))).length⟩ := by
  unfold toList at h
  dsimp only at h
  split at h
  · cases h
  · rename_i u hu
    split at h
    · cases h
    · rename_i n hn
      split at h
      · cases h
      · rename_i st hst
        by_cases h1 : (((groups fs).flatMap cal).map Frame.date).Nodup
        · rw [if_neg (not_not.2 h1)] at h
          by_cases h2 : (((groups fs).flatMap cal).map Frame.emC).dedup.length = 1
          · rw [if_neg (not_not.2 h2)] at h
            split at h
            · cases h
            · rename_i h3
              refine ⟨fun f hf => ?_, n, st, hn, mapM_ok_iff.1 hst, h1, h2, ?_, by cases h; rfl⟩
              · obtain ⟨y, hy⟩ := mapM_ok_exists.1 ⟨u, hu⟩ f ((groups_perm fs).mem_iff.2 hf)
                cases y; exact hy
              · intro g hg
                by_contra hc
                exact h3 (List.any_eq_true.2 ⟨g, hg, by simpa using hc⟩)
          · rw [if_pos h2] at h; cases h
        · rw [if_pos h1] at h; cases h

/-! ## The stacks -/

/-- **C103.** Every calibration frame is in the stacks exactly once, in ascending order of exposure time and otherwise in the
order of the dataset; all sub-stacks have the same positive number of frames, all with the same exposure time. -/
theorem C103_stack (fs : List (Frame A)) (o : Out A) (h : toList fs = .ok o) :
    o.stack.flatten = (groups fs).flatMap cal ∧ o.stack.flatten.Perm (fs.filter fun f => !f.mn) ∧
    (∃ n, 0 < n ∧ ∀ p ∈ o.stack, p.length = n) ∧ (∀ p ∈ o.stack, ∃ e, ∀ f ∈ p, f.exp = e) := by
  obtain ⟨_, n, st, hn, h2, -, -, -, rfl⟩ := toList_ok h
  obtain ⟨e, hp⟩ := forall2_resize h2
  rw [flatMap_cal] at e
  refine ⟨e, ?_, ⟨n, ?_, fun p hp' => (hp p hp').1⟩, fun p hp' => ?_⟩
  · rw [e]
    show ((groups fs).flatMap fun g => g.filter fun f => !f.mn).Perm _
    rw [flatMap_filter]
    exact (groups_perm fs).filter _
  · obtain ⟨g, hg, rfl⟩ := List.mem_map.1 (minOf_mem hn)
    have h3 : cal g ≠ [] := by simpa using (List.mem_filter.1 hg).2
    have h4 : g ≠ [] := fun e => h3 (by rw [e]; rfl)
    exact List.length_pos_iff.2 h4
  · obtain ⟨_, sub, hs, hf⟩ := hp p hp'
    obtain ⟨g, hg, rfl⟩ := List.mem_map.1 hs
    obtain ⟨e', _, rfl⟩ := (mem_groups fs g).1 (List.mem_filter.1 hg).1
    refine ⟨e', fun f hfp => ?_⟩
    have := (List.mem_filter.1 (List.mem_filter.1 (hf f hfp)).1).2
    simpa using this

/-- **C103.** The mean frames are the frames marked as such, and all have been taken with unit gain. -/
theorem C103_mean (fs : List (Frame A)) (o : Out A) (h : toList fs = .ok o) :
    o.mean.Perm (fs.filter (·.mn)) ∧ ∀ f ∈ o.mean, f.emC = 1 := by
  obtain ⟨hc, n, st, -, -, -, -, -, rfl⟩ := toList_ok h
  have hp : ((groups fs).flatMap fun g => g.filter (·.mn)).Perm (fs.filter (·.mn)) := by
    rw [flatMap_filter]; exact (groups_perm fs).filter _
  refine ⟨hp, fun f hf => ?_⟩
  obtain ⟨hf1, hf2⟩ := List.mem_filter.1 (hp.mem_iff.1 hf)
  have := hc f hf1
  unfold checkFrame at this
  rw [if_pos hf2] at this
  by_contra hne
  rw [if_pos hne] at this; cases this

/-- **C103.** Accepted data have positive exposure times, different dates and one commanded gain, of at least one. -/
theorem C103_checked (fs : List (Frame A)) (o : Out A) (h : toList fs = .ok o) :
    (∀ f ∈ fs, f.mn = false → 0 < f.exp ∧ 1 ≤ f.emC) ∧ ((fs.filter fun f => !f.mn).map Frame.date).Nodup ∧
    (∀ f ∈ fs, ∀ g ∈ fs, f.mn = false → g.mn = false → f.emC = g.emC) ∧ 1 ≤ o.gain := by
  have hperm := (C103_stack fs o h).2.1
  rw [(C103_stack fs o h).1] at hperm
  obtain ⟨hc, n, st, hn, -, hd, hg, hga, rfl⟩ := toList_ok h
  refine ⟨fun f hf hm => ?_, ((hperm.map Frame.date).nodup_iff).1 hd, fun f hf g hg' hm hm' => ?_, ?_⟩
  · have := hc f hf
    unfold checkFrame at this
    rw [if_neg (by simp [hm])] at this
    by_cases h1 : f.exp ≤ 0
    · rw [if_pos h1] at this; cases this
    · rw [if_neg h1] at this
      by_cases h2 : f.emC < 1
      · rw [if_pos h2] at this; cases this
      · exact ⟨not_le.1 h1, not_lt.1 h2⟩
  · obtain ⟨a, ha⟩ := List.length_eq_one_iff.1 hg
    have key : ∀ f ∈ fs, f.mn = false → f.emC = a := by
      intro f hf hm
      have : f.emC ∈ (((groups fs).flatMap cal).map Frame.emC).dedup :=
        List.mem_dedup.2 (List.mem_map.2 ⟨f, hperm.mem_iff.2 (List.mem_filter.2 ⟨hf, by simp [hm]⟩), rfl⟩)
      rw [ha] at this
      exact List.mem_singleton.1 this
    rw [key f hf hm, key g hg' hm']
  · obtain ⟨g, hgm, -⟩ := List.mem_map.1 (minOf_mem hn)
    have hne : ((groups fs).filter fun g => decide (cal g ≠ [])).flatMap (fun g => gainsOf true (cal g)) ≠ [] := by
      intro e
      have h1 : gainsOf true (cal g) = [] := List.flatMap_eq_nil_iff.1 e g hgm
      have h2 : cal g ≠ [] := by simpa using (List.mem_filter.1 hgm).2
      cases hcg : cal g with
      | nil => exact h2 hcg
      | cons f r =>
        rw [hcg] at h1
        cases hm : f.emM <;> simp [gainsOf, hm] at h1
    revert hga hne
    generalize ((groups fs).filter fun g => decide (cal g ≠ [])).flatMap (fun g => gainsOf true (cal g)) = l
    intro hga hne
    have hl : (0 : ℚ) < l.length := by exact_mod_cast List.length_pos_iff.2 hne
    rw [one_le_div hl]
    clear hne hl
    induction l with
    | nil => simp
    | cons x xs ih =>
      have := ih fun g hg => hga g (List.mem_cons_of_mem _ hg)
      have hx := hga x List.mem_cons_self
      simp only [List.sum_cons, List.length_cons, Nat.cast_add, Nat.cast_one]
      linarith

/-! ## What is wrong -/

/-- **C103, violated.** Mean frames count for the size of the sub-stacks: with a single exposure time, one mean frame among
the calibration frames suffices for the data to be refused. -/
theorem C103_violated_size (fs : List (Frame A)) (e : ℚ) (he : ∀ f ∈ fs, f.exp = e) (hm : ∃ f ∈ fs, f.mn = true)
    (o : Out A) : toList fs ≠ .ok o := by
  intro h
  obtain ⟨_, n, st, hn, h2, -, -, -, -⟩ := toList_ok h
  obtain ⟨g, hg, hgl⟩ := List.mem_map.1 (minOf_mem hn)
  obtain ⟨hg1, hg2⟩ := List.mem_filter.1 hg
  obtain ⟨e', he', rfl⟩ := (mem_groups fs g).1 hg1
  obtain ⟨f0, hf0, rfl⟩ := List.mem_map.1 he'
  have hall : (fs.filter fun f => decide (f.exp = f0.exp)) = fs :=
    List.filter_eq_self.2 fun f hf => by simp [he f hf, he f0 hf0]
  rw [hall] at hg hg2 hgl
  have hmem : cal fs ∈ ((groups fs).filter fun g => decide (cal g ≠ [])).map cal := List.mem_map.2 ⟨fs, hg, rfl⟩
  obtain ⟨r, hr⟩ : ∃ r, resize n (cal fs) = .ok r := by
    have := mapM_ok_exists.1 ⟨st, mapM_ok_iff.2 h2⟩
    exact this _ hmem
  have hd := (C103_sizes n (cal fs)).1 ⟨r, hr⟩
  have hpos : 0 < (cal fs).length := List.length_pos_iff.2 (by simpa using hg2)
  have hle := Nat.le_of_dvd hpos hd
  have hlt : (cal fs).length < fs.length := by
    obtain ⟨f, hf, hfm⟩ := hm
    exact List.length_filter_lt_length_iff_exists.2 ⟨f, hf, by simp [hfm]⟩
  omega

/-- **C103, violated.** Frames with a measured gain each add to the mean, other groups only once: the gain is then a mean
over frames, not over sub-stacks. -/
theorem C103_violated_gain (g : List (Frame A)) (m : ℚ) (c : ℚ) (hg : g ≠ []) :
    ((∀ f ∈ g, f.emM = some m) → gainsOf true g = List.replicate g.length m) ∧
    ((∀ f ∈ g, f.emM = none ∧ f.emA = c ∧ 0 < c) → gainsOf true g = [c]) := by
  constructor
  · intro h
    clear hg
    induction g with
    | nil => rfl
    | cons f fs ih =>
      have h1 := h f List.mem_cons_self
      simp only [gainsOf, h1, if_true, List.length_cons, List.replicate_succ]
      rw [ih fun f hf => h f (List.mem_cons_of_mem _ hf)]
  · intro h
    have off : ∀ l : List (Frame A), gainsOf false l = [] := by
      intro l; induction l with
      | nil => rfl
      | cons f fs ih => simp only [gainsOf]; simpa using ih
    cases g with
    | nil => exact absurd rfl hg
    | cons f fs =>
      obtain ⟨h1, h2, h3⟩ := h f List.mem_cons_self
      simp [gainsOf, h1, h2, h3, off]

/-- **C103.** Data are refused for want of calibration frames exactly if there are none. (The explicit check in line 890 is
never reached: `min` of the empty list fails two lines before.) -/
theorem C103_no_frames (fs : List (Frame A)) (hc : ∀ f ∈ fs, checkFrame f = .ok ()) :
    toList fs = .error .noCal ↔ ∀ f ∈ fs, f.mn = true := by
  have hm : ∃ u, (groups fs).flatten.mapM checkFrame = .ok u :=
    mapM_ok_exists.2 fun f hf => ⟨(), hc f ((groups_perm fs).mem_iff.1 hf)⟩
  obtain ⟨u, hu⟩ := hm
  have hnil : (groups fs).filter (fun g => decide (cal g ≠ [])) = [] ↔ ∀ f ∈ fs, f.mn = true := by
    rw [List.filter_eq_nil_iff]
    constructor
    · intro h f hf
      have h1 := h _ ((mem_groups fs _).2 ⟨f.exp, List.mem_map.2 ⟨f, hf, rfl⟩, rfl⟩)
      have h2 : cal (fs.filter fun f' => decide (f'.exp = f.exp)) = [] := by simpa using h1
      by_contra hne
      have : f ∈ cal (fs.filter fun f' => decide (f'.exp = f.exp)) :=
        List.mem_filter.2 ⟨List.mem_filter.2 ⟨hf, by simp⟩, by simpa using hne⟩
      rw [h2] at this; cases this
    · intro h g hg
      obtain ⟨e, _, rfl⟩ := (mem_groups fs g).1 hg
      have : cal (fs.filter fun f => decide (f.exp = e)) = [] := by
        apply List.filter_eq_nil_iff.2
        intro f hf
        simp [h f (List.mem_filter.1 hf).1]
      simp [this]
  rw [← hnil]
  unfold toList
  dsimp only
  rw [hu]
  dsimp only
  constructor
  · intro h
    by_contra hne
    cases hcg : (groups fs).filter (fun g => decide (cal g ≠ [])) with
    | nil => exact hne hcg
    | cons g gs =>
      rw [hcg] at h
      simp only [List.map_cons, minOf] at h
      split at h
      · rename_i e he
        obtain ⟨pre, a, post, -, -, ha⟩ := mapM_error_iff.1 he
        unfold resize at ha
        split at ha
        · cases ha
        · split at ha
          · cases ha; cases h
          · cases ha
      · split at h
        · cases h
        · split at h
          · cases h
          · split at h <;> cases h
  · intro h
    rw [h]; rfl

def fr (e : ℚ) (mn : Bool) (d : String) (id : ℕ) : Frame ℕ := ⟨e, mn, 1, 1, none, d, id⟩

def outOf : Except Err (Out ℕ) → Option (List (List ℕ) × List ℕ × ℚ)
  | .ok o => some (o.stack.map (·.map (·.pix)), o.mean.map (·.pix), o.gain)
  | .error _ => none

/-- Non-vacuity: a repeated exposure time is cut into two sub-stacks. -/
example : outOf (toList [fr 2 false "a" 0, fr 2 false "b" 1, fr 1 false "c" 2, fr 1 false "d" 3, fr 5 true "e" 4,
    fr 2 false "f" 5, fr 2 false "g" 6]) = some ([[2, 3], [0, 1], [5, 6]], [4], 1) := by decide +kernel

end Corgi.KgainData

import Mathlib.Data.List.Sort
import Mathlib.Data.List.Dedup
import Mathlib.Algebra.Order.Ring.Rat
import Mathlib.Algebra.Order.BigOperators.Group.List
import Mathlib.Tactic.Linarith
import Verif.Common.Except
import Verif.Common.Groups

/-!
# Data of the non-linearity calibration (calibrate_nonlin.py 241-322, 834-931): model and C106

Frames carry the cards that are read: EXPTIME and DATETIME have the right types, EMGAIN_A is present. `date` stands
for a valid DATETIME string and its time alike (python compares strings for uniqueness, times for order). Groups of `split_dataset` as in C15.
-/

namespace Corgi.NonlinData

open Corgi.Groups

inductive Kind
  | mean | cal | other
  deriving DecidableEq, Repr

structure Frame where
  kind : Kind
  exp : ℚ
  emC : ℚ
  emA : ℚ
  emM : Option ℚ
  date : ℚ
  pix : ℕ
  deriving DecidableEq, Repr

inductive Err
  | meanExp | meanGain | expTime | obsname
  | dates | noCal | commanded | actual | noMean
  | few | order | fewMean | minExp | repeated | gains
  deriving DecidableEq, Repr

/-- Lines 877-911: checks of one frame. The state is `exp_time_mean_frame`. -/
def step (st : Option ℚ) (f : Frame) : Except Err (Option ℚ) :=
  match f.kind with
  | .mean =>
    if f.exp ≠ st.getD f.exp then .error .meanExp
    else if f.emC ≠ 1 then .error .meanGain
    else .ok (some (st.getD f.exp))
  | .cal => if f.exp ≤ 0 then .error .expTime else .ok st
  | .other => .error .obsname

def checkAll : Option ℚ → List Frame → Except Err (Option ℚ)
  | st, [] => .ok st
  | st, f :: fs => match step st f with
    | .error e => .error e
    | .ok st' => checkAll st' fs

def cal (g : List Frame) : List Frame := g.filter fun f => decide (f.kind = .cal)

/-- Lines 901-909: `record_gain` is only unset where EMGAIN_M is missing. -/
def gainsOf : Bool → List Frame → List ℚ
  | _, [] => []
  | rec, f :: fs =>
    if rec then
      match f.emM with
      | some m => m :: gainsOf true fs
      | none => (if 0 < f.emA then f.emA else f.emC) :: gainsOf false fs
    else gainsOf false fs

structure Out where
  /-- the sub-subs, one for each commanded gain; python returns their concatenation and their lengths -/
  subs : List (List Frame)
  mean : List Frame
  gains : List ℚ
  deriving DecidableEq

/-- `nonlin_dataset_2_stack`, lines 854-931 -/
def toStack (fs : List Frame) : Except Err Out :=
  let gs := groups Frame.emC fs
  match checkAll none gs.flatten with
  | .error e => .error e
  | .ok _ =>
    let subs := (gs.map cal).filter fun g => decide (g ≠ [])
    let gains := subs.flatMap (gainsOf true)
    let mean := gs.flatten.filter fun f => decide (f.kind = .mean)
    if ¬ (subs.flatten.map Frame.date).Nodup then .error .dates
    else if subs = [] then .error .noCal
    else if fs.any fun f => decide (f.emC < 1) then .error .commanded
    else if gains.any (· < 1) then .error .actual
    else if mean = [] then .error .noMean
    else .ok ⟨subs, mean, gains⟩

/-- `u_counts` -/
def counts (g : List Frame) : List ℕ := (uniq (g.map Frame.exp)).map fun e => (at' Frame.exp e g).length

/-- Line 310. -/
def allSame (l : List ℕ) : Bool := match l with
  | [] => true
  | x :: _ => l.all (· = x)

/-- Line 284. -/
def ordered : List Frame → Bool
  | a :: b :: l => decide (a.date ≤ b.date) && ordered (b :: l)
  | _ => true

/-- Checks of `calibrate_nonlin`, lines 268-322. -/
def check (nCal nMean : ℕ) (minExp : ℚ) (o : Out) : Except Err Unit :=
  if o.subs.any fun g => decide (g.length < nCal) then .error .few
  else if o.subs.any fun g => !ordered g then .error .order
  else if o.mean.length < nMean then .error .fewMean
  else if o.subs.flatten.any fun f => decide (f.exp ≤ minExp) then .error .minExp
  else if o.subs.any fun g => allSame (counts g) then .error .repeated
  else if o.subs.length ≠ o.gains.length then .error .gains
  else .ok ()

/-- lines 241-322 -/
def load (nCal nMean : ℕ) (minExp : ℚ) (fs : List Frame) : Except Err Out :=
  match toStack fs with
  | .error e => .error e
  | .ok o => match check nCal nMean minExp o with
    | .error e => .error e
    | .ok _ => .ok o

/-! ## Checks of the frames -/

theorem checkAll_ok : ∀ (fs : List Frame) (st : Option ℚ), (∃ r, checkAll st fs = .ok r) ↔
    (∀ f ∈ fs, f.kind ≠ .other) ∧ (∀ f ∈ fs, f.kind = .cal → 0 < f.exp) ∧
    (∀ f ∈ fs, f.kind = .mean → f.emC = 1 ∧ (∀ e, st = some e → f.exp = e)) ∧
    (∀ f ∈ fs, ∀ g ∈ fs, f.kind = .mean → g.kind = .mean → f.exp = g.exp) := by
  intro fs
  induction fs with
  | nil => intro st; simp [checkAll]
  | cons f fs ih =>
    intro st
    unfold checkAll
    cases hk : f.kind with
    | other => simp [step, hk]
    | cal =>
      simp only [step, hk]
      by_cases h0 : f.exp ≤ 0
      · simp only [h0, if_true]
        constructor
        · rintro ⟨r, h⟩; cases h
        · rintro ⟨-, h, -⟩
          exact absurd (h f List.mem_cons_self hk) (not_lt.2 h0)
      · simp only [h0, if_false, ih st, List.forall_mem_cons, hk]
        simp [not_le.1 h0]
    | mean =>
      simp only [step, hk]
      by_cases h1 : f.exp = st.getD f.exp
      · by_cases h2 : f.emC = 1
        · simp only [← h1, ne_eq, not_true_eq_false, if_false, h2, ih (some f.exp), List.forall_mem_cons, hk]
          constructor
          · rintro ⟨a, b, c, d⟩
            refine ⟨⟨by simp, a⟩, ⟨by simp, b⟩, ⟨fun _ => ⟨trivial, fun e he => by subst he; simpa using h1⟩, fun g hg hm =>
              ⟨(c g hg hm).1, fun e he => ?_⟩⟩, ⟨by simp, fun g hg _ hm => ((c g hg hm).2 _ rfl).symm⟩,
              fun g hg => ⟨fun hm _ => (c g hg hm).2 _ rfl, fun g' hg' hm hm' => d g hg g' hg' hm hm'⟩⟩
            subst he
            rw [(c g hg hm).2 _ rfl]; simpa using h1
          · rintro ⟨⟨-, a⟩, ⟨-, b⟩, ⟨-, c⟩, ⟨-, d0⟩, d⟩
            exact ⟨a, b, fun g hg hm => ⟨(c g hg hm).1, fun e he => by cases he; exact (d0 g hg trivial hm).symm⟩,
              fun g hg g' hg' hm hm' => (d g hg).2 g' hg' hm hm'⟩
        · simp only [← h1, ne_eq, not_true_eq_false, if_false, h2, not_false_eq_true, if_true]
          constructor
          · rintro ⟨r, h⟩; cases h
          · rintro ⟨-, -, c, -⟩
            exact absurd (c f List.mem_cons_self hk).1 h2
      · simp only [ne_eq, h1, not_false_eq_true, if_true]
        constructor
        · rintro ⟨r, h⟩; cases h
        · rintro ⟨-, -, c, -⟩
          cases st with
          | none => exact absurd rfl h1
          | some e => exact absurd ((c f List.mem_cons_self hk).2 e rfl) h1

/-! ## Lists of sub-subs -/

theorem filter_ne_nil_flatten (gs : List (List Frame)) : (gs.filter fun g => decide (g ≠ [])).flatten = gs.flatten := by
  induction gs with
  | nil => rfl
  | cons g gs ih =>
    by_cases h : g = []
    · subst h; simpa using ih
    · rw [List.filter_cons_of_pos (by simpa using h), List.flatten_cons, List.flatten_cons, ih]

theorem map_filter_flatten (p : Frame → Bool) (gs : List (List Frame)) :
    (gs.map fun g => g.filter p).flatten = gs.flatten.filter p := by
  induction gs with
  | nil => rfl
  | cons g gs ih => rw [List.map_cons, List.flatten_cons, ih, List.flatten_cons, List.filter_append]

/-- The sub-subs. -/
def subsOf (fs : List Frame) : List (List Frame) := ((groups Frame.emC fs).map cal).filter fun g => decide (g ≠ [])

theorem subsOf_flatten (fs : List Frame) : (subsOf fs).flatten.Perm (fs.filter fun f => decide (f.kind = .cal)) := by
  unfold subsOf
  rw [filter_ne_nil_flatten]
  rw [show cal = fun g => g.filter fun f => decide (f.kind = .cal) from rfl, map_filter_flatten]
  exact (groups_perm Frame.emC fs).filter _

theorem mem_subsOf (fs g : List Frame) : g ∈ subsOf fs ↔
    ∃ f ∈ fs, f.kind = .cal ∧ g = fs.filter fun x => decide (x.kind = .cal) && decide (x.emC = f.emC) := by
  unfold subsOf
  have key : ∀ c : ℚ, cal (at' Frame.emC c fs) = fs.filter fun x => decide (x.kind = .cal) && decide (x.emC = c) := by
    intro c; unfold cal at'; rw [List.filter_filter]
  rw [List.mem_filter, List.mem_map]
  constructor
  · rintro ⟨⟨s, hs, rfl⟩, hne⟩
    obtain ⟨f, hf, rfl⟩ := (mem_groups _ _ _).1 hs
    have hne' : cal (at' Frame.emC f.emC fs) ≠ [] := by simpa using hne
    obtain ⟨x, hx⟩ := List.exists_mem_of_ne_nil _ hne'
    obtain ⟨hx1, hx2⟩ := List.mem_filter.1 hx
    obtain ⟨hx3, hx4⟩ := (mem_at _ _ _ _).1 hx1
    exact ⟨x, hx3, by simpa using hx2, by rw [key, hx4]⟩
  · rintro ⟨f, hf, hk, rfl⟩
    refine ⟨⟨_, (mem_groups _ _ _).2 ⟨f, hf, rfl⟩, key _⟩, ?_⟩
    rw [decide_eq_true_iff]
    exact List.ne_nil_of_mem (List.mem_filter.2 ⟨hf, by simp [hk]⟩)

/-- Sub-subs come in ascending order of the commanded gain. -/
theorem subsOf_sorted (fs : List Frame) :
    (subsOf fs).Pairwise fun g g' => ∀ f ∈ g, ∀ f' ∈ g', f.emC < f'.emC := by
  unfold subsOf groups
  rw [List.map_map]
  apply List.Pairwise.filter
  rw [List.pairwise_map]
  refine (uniq_sorted (fs.map Frame.emC)).imp ?_
  intro c c' h f hf f' hf'
  have h1 := ((mem_at _ _ _ _).1 (List.mem_filter.1 hf).1).2
  have h2 := ((mem_at _ _ _ _).1 (List.mem_filter.1 hf').1).2
  rw [h1, h2]; exact h

/-! ## What is accepted -/

/-- Specification: usable data. -/
structure Valid (fs : List Frame) : Prop where
  kinds : ∀ f ∈ fs, f.kind ≠ .other
  exp_pos : ∀ f ∈ fs, f.kind = .cal → 0 < f.exp
  mean_gain : ∀ f ∈ fs, f.kind = .mean → f.emC = 1
  mean_exp : ∀ f ∈ fs, ∀ g ∈ fs, f.kind = .mean → g.kind = .mean → f.exp = g.exp
  some_cal : ∃ f ∈ fs, f.kind = .cal
  some_mean : ∃ f ∈ fs, f.kind = .mean
  dates : ((fs.filter fun f => decide (f.kind = .cal)).map Frame.date).Nodup
  commanded : ∀ f ∈ fs, 1 ≤ f.emC

theorem toStack_ok (fs : List Frame) (o : Out) : toStack fs = .ok o ↔
    Valid fs ∧ (∀ x ∈ (subsOf fs).flatMap (gainsOf true), 1 ≤ x) ∧
    o = ⟨subsOf fs, (groups Frame.emC fs).flatten.filter fun f => decide (f.kind = .mean),
      (subsOf fs).flatMap (gainsOf true)⟩ := by
  have hp := groups_perm Frame.emC fs
  have hs := subsOf_flatten fs
  have hnil : subsOf fs = [] ↔ ¬ ∃ f ∈ fs, f.kind = .cal := by
    constructor
    · rintro h ⟨f, hf, hk⟩
      have := (mem_subsOf fs _).2 ⟨f, hf, hk, rfl⟩
      rw [h] at this; cases this
    · intro h
      rw [List.eq_nil_iff_forall_not_mem]
      intro g hg
      obtain ⟨f, hf, hk, -⟩ := (mem_subsOf fs g).1 hg
      exact h ⟨f, hf, hk⟩
  have hmean : (groups Frame.emC fs).flatten.filter (fun f => decide (f.kind = .mean)) = [] ↔
      ¬ ∃ f ∈ fs, f.kind = .mean := by
    rw [List.filter_eq_nil_iff]
    constructor
    · rintro h ⟨f, hf, hk⟩
      exact h f (hp.mem_iff.2 hf) (by simpa using hk)
    · intro h f hf
      rw [decide_eq_true_iff]
      exact fun hk => h ⟨f, hp.mem_iff.1 hf, hk⟩
  have hd : ((subsOf fs).flatten.map Frame.date).Nodup ↔ ((fs.filter fun f => decide (f.kind = .cal)).map Frame.date).Nodup :=
    (hs.map Frame.date).nodup_iff
  have hc : (∃ r, checkAll none (groups Frame.emC fs).flatten = .ok r) ↔ _ := checkAll_ok _ none
  simp only [hp.mem_iff] at hc
  unfold toStack
  show (match checkAll none (groups Frame.emC fs).flatten with
    | .error e => Except.error e
    | .ok _ =>
      if ¬ ((subsOf fs).flatten.map Frame.date).Nodup then .error Err.dates
      else if subsOf fs = [] then .error Err.noCal
      else if fs.any fun f : Frame => decide (f.emC < 1) then .error Err.commanded
      else if ((subsOf fs).flatMap (gainsOf true)).any (· < 1) then .error Err.actual
      else if (groups Frame.emC fs).flatten.filter (fun f : Frame => decide (f.kind = Kind.mean)) = [] then .error Err.noMean
      else .ok (Out.mk (subsOf fs) ((groups Frame.emC fs).flatten.filter fun f : Frame => decide (f.kind = Kind.mean)) ((subsOf fs).flatMap (gainsOf true)))) = .ok o ↔ _
  cases hca : checkAll none (groups Frame.emC fs).flatten with
  | error e =>
    rw [hca] at hc
    constructor
    · intro h; cases h
    · rintro ⟨v, -⟩
      obtain ⟨r, hr⟩ := hc.2 ⟨v.kinds, v.exp_pos, fun f hf hk => ⟨v.mean_gain f hf hk, by simp⟩, v.mean_exp⟩
      cases hr
  | ok r =>
    obtain ⟨c1, c2, c3, c4⟩ := hc.1 ⟨r, hca⟩
    simp only
    by_cases h1 : ((subsOf fs).flatten.map Frame.date).Nodup
    · rw [if_neg (not_not.2 h1)]
      by_cases h2 : subsOf fs = []
      · rw [if_pos h2]
        constructor
        · intro h; cases h
        · rintro ⟨v, -⟩; exact absurd v.some_cal (hnil.1 h2)
      · rw [if_neg h2]
        by_cases h3 : ∀ f ∈ fs, 1 ≤ f.emC
        · rw [if_neg (by simpa using h3)]
          by_cases h4 : ∀ x ∈ (subsOf fs).flatMap (gainsOf true), 1 ≤ x
          · rw [if_neg (by rw [List.any_eq_true]; rintro ⟨x, hx, hx1⟩; exact absurd (h4 x hx) (by simpa using hx1))]
            by_cases h5 : (groups Frame.emC fs).flatten.filter (fun f => decide (f.kind = .mean)) = []
            · rw [if_pos h5]
              constructor
              · intro h; cases h
              · rintro ⟨v, -⟩; exact absurd v.some_mean (hmean.1 h5)
            · rw [if_neg h5]
              constructor
              · intro h; cases h
                exact ⟨⟨c1, c2, fun f hf hk => (c3 f hf hk).1, c4, not_not.1 fun h => h2 (hnil.2 h),
                  not_not.1 fun h => h5 (hmean.2 h), hd.1 h1, h3⟩, h4, rfl⟩
              · rintro ⟨-, -, rfl⟩; rfl
          · rw [if_pos (by
              push Not at h4
              obtain ⟨x, hx, hx1⟩ := h4
              exact List.any_eq_true.2 ⟨x, hx, by simpa using hx1⟩)]
            constructor
            · intro h; cases h
            · rintro ⟨-, h, -⟩; exact absurd h h4
        · rw [if_pos (by
            push Not at h3
            obtain ⟨x, hx, hx1⟩ := h3
            exact List.any_eq_true.2 ⟨x, hx, by simpa using hx1⟩)]
          constructor
          · intro h; cases h
          · rintro ⟨v, -⟩; exact absurd v.commanded h3
    · rw [if_pos h1]
      constructor
      · intro h; cases h
      · rintro ⟨v, -⟩; exact absurd (hd.2 v.dates) h1

/-- **C106.** Data are accepted by `nonlin_dataset_2_stack` exactly if they are valid and the recorded gains are at least 1. -/
theorem C106_accepts (fs : List Frame) : (∃ o, toStack fs = .ok o) ↔
    Valid fs ∧ ∀ x ∈ (subsOf fs).flatMap (gainsOf true), 1 ≤ x := by
  constructor
  · rintro ⟨o, h⟩; exact ⟨((toStack_ok fs o).1 h).1, ((toStack_ok fs o).1 h).2.1⟩
  · rintro ⟨h1, h2⟩; exact ⟨_, (toStack_ok fs _).2 ⟨h1, h2, rfl⟩⟩

/-- **C106.** There is one sub-stack for each commanded gain, in ascending order, holding the calibration frames with this
gain in the order of the dataset; every calibration frame is in exactly one, no sub-stack is empty. -/
theorem C106_stacks (fs : List Frame) (o : Out) (h : toStack fs = .ok o) :
    o.subs.flatten.Perm (fs.filter fun f => decide (f.kind = .cal)) ∧
    (∀ g, g ∈ o.subs ↔ ∃ f ∈ fs, f.kind = .cal ∧
      g = fs.filter fun x => decide (x.kind = .cal) && decide (x.emC = f.emC)) ∧
    (o.subs.Pairwise fun g g' => ∀ f ∈ g, ∀ f' ∈ g', f.emC < f'.emC) ∧ (∀ g ∈ o.subs, g ≠ []) := by
  obtain ⟨-, -, rfl⟩ := (toStack_ok fs o).1 h
  exact ⟨subsOf_flatten fs, mem_subsOf fs, subsOf_sorted fs, fun g hg => by simpa using (List.mem_filter.1 hg).2⟩

/-- **C106.** The mean frames are those of the dataset; they have unit gain and one exposure time. -/
theorem C106_mean (fs : List Frame) (o : Out) (h : toStack fs = .ok o) :
    o.mean.Perm (fs.filter fun f => decide (f.kind = .mean)) ∧ o.mean ≠ [] ∧
    (∀ f ∈ o.mean, f.emC = 1) ∧ ∀ f ∈ o.mean, ∀ g ∈ o.mean, f.exp = g.exp := by
  obtain ⟨v, -, rfl⟩ := (toStack_ok fs o).1 h
  have hp : ((groups Frame.emC fs).flatten.filter fun f => decide (f.kind = .mean)).Perm _ :=
    (groups_perm Frame.emC fs).filter _
  have hm : ∀ f, f ∈ (groups Frame.emC fs).flatten.filter (fun f => decide (f.kind = .mean)) ↔ f ∈ fs ∧ f.kind = .mean := by
    intro f; rw [hp.mem_iff, List.mem_filter, decide_eq_true_iff]
  refine ⟨hp, ?_, fun f hf => v.mean_gain f ((hm f).1 hf).1 ((hm f).1 hf).2, fun f hf g hg =>
    v.mean_exp f ((hm f).1 hf).1 g ((hm g).1 hg).1 ((hm f).1 hf).2 ((hm g).1 hg).2⟩
  obtain ⟨f, hf, hk⟩ := v.some_mean
  exact List.ne_nil_of_mem ((hm f).2 ⟨hf, hk⟩)

/-! ## Recorded gains -/

theorem gainsOf_false (l : List Frame) : gainsOf false l = [] := by
  induction l with
  | nil => rfl
  | cons f fs ih => simp only [gainsOf]; simpa using ih

/-- Spec: the gain of a frame, measured, applied or commanded. -/
def gainOf (f : Frame) : ℚ := f.emM.getD (if 0 < f.emA then f.emA else f.emC)

/-- The gains recorded for a sub-stack: one for each leading frame with EMGAIN_M, and one for the first without. -/
theorem gainsOf_true (f : Frame) (g : List Frame) :
    gainsOf true (f :: g) = gainOf f :: (if f.emM.isSome then gainsOf true g else []) := by
  unfold gainOf
  cases h : f.emM with
  | some m => simp [gainsOf, h]
  | none => simp [gainsOf, h, gainsOf_false]

theorem gainsOf_length (g : List Frame) : (gainsOf true g).length = 1 ↔
    ∃ f r, g = f :: r ∧ (r = [] ∨ f.emM = none) := by
  cases g with
  | nil => simp [gainsOf]
  | cons f r =>
    rw [gainsOf_true]
    cases h : f.emM with
    | none => simp [h]
    | some m =>
      cases r with
      | nil => simp [h, gainsOf]
      | cons f' r' => rw [gainsOf_true]; simp [h]

theorem gainsOf_pos (g : List Frame) (h : g ≠ []) : 1 ≤ (gainsOf true g).length := by
  cases g with
  | nil => exact absurd rfl h
  | cons f r => rw [gainsOf_true]; simp

theorem gains_length (gs : List (List Frame)) (h : ∀ g ∈ gs, g ≠ []) :
    gs.length ≤ (gs.flatMap (gainsOf true)).length ∧
    (gs.length = (gs.flatMap (gainsOf true)).length ↔ ∀ g ∈ gs, (gainsOf true g).length = 1) := by
  induction gs with
  | nil => simp
  | cons g gs ih =>
    obtain ⟨i1, i2⟩ := ih fun g hg => h g (List.mem_cons_of_mem _ hg)
    have hg := gainsOf_pos g (h g List.mem_cons_self)
    rw [List.flatMap_cons, List.length_append, List.length_cons, List.forall_mem_cons]
    refine ⟨by omega, ?_⟩
    constructor
    · intro e
      exact ⟨by omega, i2.1 (by omega)⟩
    · rintro ⟨e1, e2⟩
      have := i2.2 e2
      omega

theorem check_ok (nCal nMean : ℕ) (minExp : ℚ) (o : Out) : check nCal nMean minExp o = .ok () ↔
    (∀ g ∈ o.subs, nCal ≤ g.length) ∧ (∀ g ∈ o.subs, ordered g = true) ∧ nMean ≤ o.mean.length ∧
    (∀ f ∈ o.subs.flatten, minExp < f.exp) ∧ (∀ g ∈ o.subs, allSame (counts g) = false) ∧
    o.subs.length = o.gains.length := by
  unfold check
  have e1 : (o.subs.any fun g => decide (g.length < nCal)) = true ↔ ¬ ∀ g ∈ o.subs, nCal ≤ g.length := by simp
  have e2 : (o.subs.any fun g => !ordered g) = true ↔ ¬ ∀ g ∈ o.subs, ordered g = true := by simp
  have e3 : (o.subs.flatten.any fun f => decide (f.exp ≤ minExp)) = true ↔ ¬ ∀ f ∈ o.subs.flatten, minExp < f.exp := by
    rw [List.any_eq_true]; push Not; simp
  have e4 : (o.subs.any fun g => allSame (counts g)) = true ↔ ¬ ∀ g ∈ o.subs, allSame (counts g) = false := by simp
  by_cases h1 : ∀ g ∈ o.subs, nCal ≤ g.length
  · rw [if_neg (by rw [e1]; exact not_not.2 h1)]
    by_cases h2 : ∀ g ∈ o.subs, ordered g = true
    · rw [if_neg (by rw [e2]; exact not_not.2 h2)]
      by_cases h3 : o.mean.length < nMean
      · rw [if_pos h3]
        constructor
        · intro h; cases h
        · rintro ⟨-, -, h, -⟩; omega
      · rw [if_neg h3]
        by_cases h4 : ∀ f ∈ o.subs.flatten, minExp < f.exp
        · rw [if_neg (by rw [e3]; exact not_not.2 h4)]
          by_cases h5 : ∀ g ∈ o.subs, allSame (counts g) = false
          · rw [if_neg (by rw [e4]; exact not_not.2 h5)]
            by_cases h6 : o.subs.length = o.gains.length
            · rw [if_neg (not_not.2 h6)]
              exact ⟨fun _ => ⟨h1, h2, not_lt.1 h3, h4, h5, h6⟩, fun _ => rfl⟩
            · rw [if_pos h6]
              exact ⟨fun h => (by cases h), fun h => absurd h.2.2.2.2.2 h6⟩
          · rw [if_pos (e4.2 h5)]
            exact ⟨fun h => (by cases h), fun h => absurd h.2.2.2.2.1 h5⟩
        · rw [if_pos (e3.2 h4)]
          exact ⟨fun h => (by cases h), fun h => absurd h.2.2.2.1 h4⟩
    · rw [if_pos (e2.2 h2)]
      exact ⟨fun h => (by cases h), fun h => absurd h.2.1 h2⟩
  · rw [if_pos (e1.2 h1)]
    exact ⟨fun h => (by cases h), fun h => absurd h.1 h1⟩

theorem load_ok (nCal nMean : ℕ) (minExp : ℚ) (fs : List Frame) (o : Out) : load nCal nMean minExp fs = .ok o ↔
    toStack fs = .ok o ∧ check nCal nMean minExp o = .ok () := by
  unfold load
  cases h : toStack fs with
  | error e => simp
  | ok o' =>
    simp only
    cases h' : check nCal nMean minExp o' with
    | error e =>
      simp only
      constructor
      · intro h; cases h
      · rintro ⟨h1, h2⟩; cases h1; rw [h'] at h2; cases h2
    | ok u =>
      cases u
      constructor
      · intro h1; cases h1; exact ⟨rfl, h'⟩
      · rintro ⟨h1, h2⟩; exact h1

/-- **C106, violated.** A measured gain makes the data unusable: with at least two frames required for each commanded gain,
data are refused as soon as the first calibration frame of one commanded gain has an EMGAIN_M. -/
theorem C106_violated_measured (nCal nMean : ℕ) (minExp : ℚ) (fs : List Frame) (hn : 2 ≤ nCal) (f : Frame) (r : List Frame)
    (hg : f :: r ∈ subsOf fs) (hm : f.emM ≠ none) (o : Out) : load nCal nMean minExp fs ≠ .ok o := by
  intro h
  obtain ⟨h1, h2⟩ := (load_ok ..).1 h
  obtain ⟨-, -, rfl⟩ := (toStack_ok fs o).1 h1
  obtain ⟨c1, -, -, -, -, c6⟩ := (check_ok ..).1 h2
  have hne : ∀ g ∈ subsOf fs, g ≠ [] := fun g hg => by simpa using (List.mem_filter.1 hg).2
  obtain ⟨f', r', e, hh⟩ := (gainsOf_length _).1 ((gains_length _ hne).2.1 c6 _ hg)
  cases e
  have := c1 _ hg
  rcases hh with rfl | hh
  · simp at this; omega
  · exact hm hh

/-- **C106 (partial).** If no calibration frame has an EMGAIN_M, there is exactly one gain for each sub-stack: that of its
first frame, applied if known and commanded otherwise. -/
theorem C106_gains_partial (fs : List Frame) (o : Out) (h : toStack fs = .ok o)
    (hm : ∀ f ∈ fs, f.kind = .cal → f.emM = none) :
    List.Forall₂ (fun g x => ∃ f, g.head? = some f ∧ x = if 0 < f.emA then f.emA else f.emC) o.subs o.gains := by
  have hstk := C106_stacks fs o h
  obtain ⟨-, -, rfl⟩ := (toStack_ok fs o).1 h
  have hnone : ∀ g ∈ subsOf fs, g ≠ [] ∧ ∀ f ∈ g, f.emM = none := by
    intro g hg
    refine ⟨hstk.2.2.2 g hg, fun f hf => ?_⟩
    obtain ⟨h1, h2⟩ := List.mem_filter.1 (hstk.1.mem_iff.1 (List.mem_flatten.2 ⟨g, hg, hf⟩))
    exact hm f h1 (by simpa using h2)
  show List.Forall₂ _ (subsOf fs) ((subsOf fs).flatMap (gainsOf true))
  revert hnone
  generalize subsOf fs = gs
  intro hnone
  induction gs with
  | nil => exact .nil
  | cons g gs ih =>
    obtain ⟨h1, h2⟩ := hnone g List.mem_cons_self
    cases g with
    | nil => exact absurd rfl h1
    | cons f r =>
      have hf := h2 f List.mem_cons_self
      rw [List.flatMap_cons, gainsOf_true, hf]
      exact .cons ⟨f, rfl, by simp [gainOf, hf]⟩ (ih fun g hg => hnone g (List.mem_cons_of_mem _ hg))

/-! ## Repeated exposures -/

theorem counts_pos (g : List Frame) : ∀ n ∈ counts g, 1 ≤ n := by
  intro n hn
  obtain ⟨e, he, rfl⟩ := List.mem_map.1 hn
  exact List.length_pos_iff.2 (at_ne_nil Frame.exp g e ((mem_uniq _ _).1 he))

/-- **C106.** Accepted sub-subs have an exposure time with at least two frames. -/
theorem C106_repeated (g : List Frame) (h : allSame (counts g) = false) :
    ∃ e, 2 ≤ (at' Frame.exp e g).length := by
  by_contra hc
  push Not at hc
  have h1 : ∀ n ∈ counts g, n = 1 := by
    intro n hn
    have := counts_pos g n hn
    obtain ⟨e, -, rfl⟩ := List.mem_map.1 hn
    have := hc e
    omega
  have : allSame (counts g) = true := by
    cases hl : counts g with
    | nil => rfl
    | cons x xs =>
      rw [hl] at h1
      unfold allSame
      rw [List.all_eq_true]
      intro y hy
      simp [h1 y hy, h1 x List.mem_cons_self]
  rw [this] at h; cases h

/-- **C106, violated.** The repeated exposure is not recognised where all exposures have the same number of frames: sets in
which every exposure is repeated, or with one exposure only, are refused for want of repeated exposures. -/
theorem C106_violated_repeated (nCal nMean : ℕ) (minExp : ℚ) (o : Out) (n : ℕ) (g : List Frame) (hg : g ∈ o.subs)
    (hn : ∀ f ∈ g, (at' Frame.exp f.exp g).length = n) : check nCal nMean minExp o ≠ .ok () := by
  intro h
  have h5 := ((check_ok ..).1 h).2.2.2.2.1 g hg
  have h1 : ∀ m ∈ counts g, m = n := by
    intro m hm
    obtain ⟨e, he, rfl⟩ := List.mem_map.1 hm
    obtain ⟨f, hf, rfl⟩ := List.mem_map.1 ((mem_uniq _ _).1 he)
    exact hn f hf
  cases hl : counts g with
  | nil => rw [hl] at h5; cases h5
  | cons x xs =>
    rw [hl] at h1 h5
    unfold allSame at h5
    rw [List.all_eq_false] at h5
    obtain ⟨y, hy, hy'⟩ := h5
    exact hy' (by simp [h1 y hy, h1 x List.mem_cons_self])

/-! ## Time order -/

theorem ordered_iff (g : List Frame) : ordered g = true ↔ g.Pairwise fun a b => a.date ≤ b.date := by
  induction g with
  | nil => simp [ordered]
  | cons a l ih =>
    cases l with
    | nil => simp [ordered]
    | cons b l =>
      rw [ordered, Bool.and_eq_true, ih, decide_eq_true_iff, List.pairwise_cons (l := b :: l)]
      constructor
      · rintro ⟨h1, h2⟩
        refine ⟨fun x hx => ?_, h2⟩
        rcases List.mem_cons.1 hx with rfl | hx
        · exact h1
        · exact h1.trans ((List.pairwise_cons.1 h2).1 x hx)
      · rintro ⟨h1, h2⟩
        exact ⟨h1 b List.mem_cons_self, h2⟩

/-- **C106.** Accepted sub-subs are in strictly increasing order of time, long enough, exposed for longer than the minimum,
and there are enough mean frames. -/
theorem C106_checked (nCal nMean : ℕ) (minExp : ℚ) (fs : List Frame) (o : Out) (h : load nCal nMean minExp fs = .ok o) :
    (∀ g ∈ o.subs, nCal ≤ g.length ∧ (g.Pairwise fun a b => a.date < b.date) ∧ ∀ f ∈ g, minExp < f.exp) ∧
    nMean ≤ o.mean.length ∧ o.gains.length = o.subs.length ∧ ∀ x ∈ o.gains, 1 ≤ x := by
  obtain ⟨h1, h2⟩ := (load_ok ..).1 h
  have hs := C106_stacks fs o h1
  obtain ⟨v, hv, e⟩ := (toStack_ok fs o).1 h1
  obtain ⟨c1, c2, c3, c4, -, c6⟩ := (check_ok ..).1 h2
  refine ⟨fun g hg => ⟨c1 g hg, ?_, fun f hf => c4 f (List.mem_flatten.2 ⟨g, hg, hf⟩)⟩, c3, c6.symm, by rw [e]; exact hv⟩
  have h3 := (ordered_iff g).1 (c2 g hg)
  have hnd : (o.subs.flatten.map Frame.date).Nodup := ((hs.1.map Frame.date).nodup_iff).2 v.dates
  have h4 : (g.map Frame.date).Nodup := by
    refine hnd.sublist (List.Sublist.map _ ?_)
    exact List.sublist_flatten_of_mem hg
  have h4' : g.Pairwise fun a b => a.date ≠ b.date := List.pairwise_map.1 h4
  exact h3.imp₂ (fun a b x y => lt_of_le_of_ne x y) h4'

/-! ## Examples -/

def fr (k : Kind) (e c d : ℚ) (m : Option ℚ) : Frame := ⟨k, e, c, 0, m, d, 0⟩

def good : List Frame := [fr .mean 5 1 0 none, fr .cal 2 10 9 none, fr .cal 1 1 1 none, fr .cal 2 1 2 none, fr .cal 1 1 3 none,
  fr .cal 3 10 11 none, fr .cal 2 10 12 none]

example : (load 2 1 0 good).toOption.map (fun o => (o.subs.map List.length, o.gains, o.mean.length)) =
    some ([3, 3], [1, 10], 1) := by decide +kernel

example : load 2 1 0 (good.map fun f => { f with emM := some 3 }) = .error .gains := by decide +kernel

example : load 2 1 0 (good ++ [fr .cal 2 1 4 none]) = .error .repeated := by decide +kernel

end Corgi.NonlinData

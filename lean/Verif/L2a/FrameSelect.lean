import Mathlib.Data.Rat.Defs
import Mathlib.Algebra.Order.Ring.Rat
import Mathlib.Data.Nat.Bitwise
import Mathlib.Tactic.Linarith
import Verif.Common.Except

/-!
# `frame_select` (l2a_to_l2b.py 157-254): model and C23

Header numbers and fractions are rationals. The text of the history message is kept as its parts: the
rejected frames with the list of reasons.
-/

namespace Corgi.FSel

inductive Err
  | keyError | valueError | zeroDivisionError
  deriving DecidableEq, Repr

/-- Selection parameters. -/
structure Params where
  bpixFrac : ℚ
  allowed : ℕ
  overexp : Bool
  ttRms : Option ℚ
  ttBias : Option ℚ
  discardBad : Bool
  deriving DecidableEq, Repr

/-- A frame: `pix` are the pixel arrays other than dq, the rest header keywords (`none` = absent).
`criteria` are the recorded FRMSEL01-06. -/
structure Frame (α : Type) where
  filename : String
  pix : α
  dq : List ℕ
  overexp : Option Bool
  z2var : Option ℚ
  z3var : Option ℚ
  z2res : Option ℚ
  z3res : Option ℚ
  isBad : Bool
  criteria : Option (ℚ × Bool × Option ℚ × Option ℚ)

/-- Reasons for rejection, in the order of the code. -/
inductive Reason
  | badPix | overexp | tipRms | tiltRms | tipBias | tiltBias
  deriving DecidableEq, Repr

/-- Bits added to `reject_flags`. -/
def Reason.flag : Reason → ℕ
  | .badPix => 1 | .overexp => 2 | .tipRms => 4 | .tiltRms => 8 | .tipBias => 16 | .tiltBias => 32

/-- `ext_hdr[key]` -/
def get {β : Type} : Option β → Except Err β
  | some v => .ok v
  | none => .error .keyError

variable {α : Type}

/-- lines 184-192: number of pixels with a flag outside `allowed_bpix` over the number of pixels. -/
def bpixReasons (p : Params) (f : Frame α) : Except Err (List Reason) :=
  if p.bpixFrac < 1 then
    if f.dq.length = 0 then .error .zeroDivisionError
    else
      let bad := (f.dq.filter fun q => Nat.ldiff q p.allowed > 0).length
      .ok (if (bad : ℚ) / f.dq.length > p.bpixFrac then [.badPix] else [])
  else .ok []

/-- lines 195-198 -/
def overexpReasons (p : Params) (f : Frame α) : Except Err (List Reason) :=
  if p.overexp then do
    let o ← get f.overexp
    return if o then [.overexp] else []
  else .ok []

/-- lines 201-209 and 213-221 -/
def ttReasons (thres : Option ℚ) (a b : Option ℚ) (ra rb : Reason) : Except Err (List Reason) :=
  match thres with
  | none => .ok []
  | some t => do
    let x ← get a
    let y ← get b
    return (if x > t then [ra] else []) ++ (if y > t then [rb] else [])

/-- All the tests on one frame. -/
def reasons (p : Params) (f : Frame α) : Except Err (List Reason) := do
  let r1 ← bpixReasons p f
  let r2 ← overexpReasons p f
  let r3 ← ttReasons p.ttRms f.z2var f.z3var .tipRms .tiltRms
  let r4 ← ttReasons p.ttBias f.z2res f.z3res .tipBias .tiltBias
  return r1 ++ r2 ++ r3 ++ r4

/-- The accumulated `reject_flags[i]`. -/
def flags (rs : List Reason) : ℕ := (rs.map Reason.flag).sum

/-- The header changes of one frame (lines 193-227). -/
def mark (p : Params) (f : Frame α) (rs : List Reason) : Frame α :=
  { f with
    criteria := some (p.bpixFrac, p.overexp, p.ttRms, p.ttBias)
    isBad := if flags rs > 0 then true else f.isBad }

/-- `frame_select`. Returns the frames and the reported rejections. -/
def frameSelect (p : Params) (fs : List (Frame α)) :
    Except Err (List (Frame α) × List (String × List Reason)) := do
  let rs ← fs.mapM (reasons p)
  let marked := List.zipWith (mark p) fs rs
  let good := (marked.zip rs).filter fun x => flags x.2 = 0
  let bad := (fs.zip rs).filter fun x => flags x.2 > 0
  if good.length = 0 then .error .valueError
  else
    let report := bad.map fun x => (x.1.filename, x.2)
    .ok (if p.discardBad then good.map Prod.fst else marked, report)

/-! ## Specification -/

/-- A pixel counts as bad: it has a flag that is not allowed. -/
def BadPixel (allowed q : ℕ) : Prop := ∃ b, q.testBit b = true ∧ allowed.testBit b = false

instance (allowed q : ℕ) : Decidable (BadPixel allowed q) :=
  decidable_of_iff (Nat.ldiff q allowed ≠ 0) (by
    unfold BadPixel
    constructor
    · intro h
      obtain ⟨b, hb⟩ := Nat.exists_testBit_of_ne_zero h
      rw [Nat.testBit_ldiff] at hb
      simp at hb
      exact ⟨b, hb.1, hb.2⟩
    · rintro ⟨b, h1, h2⟩ h0
      have : (Nat.ldiff q allowed).testBit b = true := by rw [Nat.testBit_ldiff, h1, h2]; rfl
      rw [h0] at this
      simp at this)

/-- What is wrong with a frame, for each reason. -/
def Violates (p : Params) (f : Frame α) : Reason → Prop
  | .badPix => p.bpixFrac < 1 ∧
      p.bpixFrac * f.dq.length < (f.dq.countP fun q => decide (BadPixel p.allowed q) : ℕ)
  | .overexp => p.overexp = true ∧ f.overexp = some true
  | .tipRms => ∃ t x, p.ttRms = some t ∧ f.z2var = some x ∧ t < x
  | .tiltRms => ∃ t x, p.ttRms = some t ∧ f.z3var = some x ∧ t < x
  | .tipBias => ∃ t x, p.ttBias = some t ∧ f.z2res = some x ∧ t < x
  | .tiltBias => ∃ t x, p.ttBias = some t ∧ f.z3res = some x ∧ t < x

/-- A good frame violates nothing. -/
def Good (p : Params) (f : Frame α) : Prop := ∀ r, ¬ Violates p f r

/-- The keywords the requested tests need are there (and the frame has pixels). -/
def Testable (p : Params) (f : Frame α) : Prop :=
  (p.bpixFrac < 1 → f.dq ≠ []) ∧ (p.overexp = true → f.overexp ≠ none) ∧
  (p.ttRms ≠ none → f.z2var ≠ none ∧ f.z3var ≠ none) ∧
  (p.ttBias ≠ none → f.z2res ≠ none ∧ f.z3res ≠ none)

/-! ## Proofs -/

theorem ldiff_pos (a q : ℕ) : Nat.ldiff q a > 0 ↔ BadPixel a q := by
  rw [gt_iff_lt, Nat.pos_iff_ne_zero]
  unfold BadPixel
  constructor
  · intro h
    obtain ⟨b, hb⟩ := Nat.exists_testBit_of_ne_zero h
    rw [Nat.testBit_ldiff] at hb
    simp at hb
    exact ⟨b, hb.1, hb.2⟩
  · rintro ⟨b, h1, h2⟩ h0
    have : (Nat.ldiff q a).testBit b = true := by rw [Nat.testBit_ldiff, h1, h2]; rfl
    rw [h0] at this
    simp at this

theorem bpix_ok (p : Params) (f : Frame α) (rs : List Reason) (h : bpixReasons p f = .ok rs) (r : Reason) :
    (r ∈ rs ↔ r = .badPix ∧ Violates p f .badPix) ∧ (p.bpixFrac < 1 → f.dq ≠ []) := by
  unfold bpixReasons at h
  by_cases h1 : p.bpixFrac < 1
  · rw [if_pos h1] at h
    by_cases h2 : f.dq.length = 0
    · rw [if_pos h2] at h; cases h
    · rw [if_neg h2] at h
      simp only [Except.ok.injEq] at h
      have hpos : (0 : ℚ) < f.dq.length := by
        have : 0 < f.dq.length := Nat.pos_of_ne_zero h2
        exact_mod_cast this
      have hcount : (f.dq.filter fun q => decide (Nat.ldiff q p.allowed > 0)).length =
          f.dq.countP fun q => decide (BadPixel p.allowed q) := by
        rw [List.countP_eq_length_filter]
        congr 2
        funext q
        simp only [ldiff_pos]
      rw [hcount] at h
      have hiff : (((f.dq.countP fun q => decide (BadPixel p.allowed q) : ℕ) : ℚ) / f.dq.length > p.bpixFrac) ↔
          Violates p f .badPix := by
        rw [gt_iff_lt, lt_div_iff₀ hpos]
        simp [Violates, h1]
      refine ⟨?_, fun _ h0 => h2 (by rw [h0]; rfl)⟩
      by_cases h3 : Violates p f .badPix
      · rw [if_pos (hiff.2 h3)] at h
        subst h; simp [h3]
      · rw [if_neg (fun h' => h3 (hiff.1 h'))] at h
        subst h; simp [h3]
  · rw [if_neg h1] at h
    simp only [Except.ok.injEq] at h
    subst h
    refine ⟨?_, fun h' => absurd h' h1⟩
    simp [Violates, h1]

theorem overexp_ok (p : Params) (f : Frame α) (rs : List Reason) (h : overexpReasons p f = .ok rs)
    (r : Reason) : (r ∈ rs ↔ r = .overexp ∧ Violates p f .overexp) ∧
      (p.overexp = true → f.overexp ≠ none) := by
  unfold overexpReasons at h
  cases hp : p.overexp
  · rw [hp] at h
    simp only [Bool.false_eq_true, if_false, Except.ok.injEq] at h
    subst h
    simp [Violates, hp]
  · rw [hp] at h
    simp only [if_true] at h
    cases ho : f.overexp with
    | none => rw [ho] at h; cases h
    | some o =>
      rw [ho] at h
      cases o <;> (simp [get, bind, Except.bind, pure, Except.pure] at h; subst h; simp [Violates, hp, ho])

theorem tt_ok (thres a b : Option ℚ) (ra rb : Reason) (rs : List Reason)
    (h : ttReasons thres a b ra rb = .ok rs) (r : Reason) :
    (r ∈ rs ↔ (r = ra ∧ ∃ t x, thres = some t ∧ a = some x ∧ t < x) ∨
      (r = rb ∧ ∃ t x, thres = some t ∧ b = some x ∧ t < x)) ∧
    (thres ≠ none → a ≠ none ∧ b ≠ none) := by
  unfold ttReasons at h
  cases thres with
  | none =>
    simp only [Except.ok.injEq] at h
    subst h
    simp
  | some t =>
    cases a with
    | none => simp [get, bind, Except.bind] at h
    | some x =>
      cases b with
      | none => simp [get, bind, Except.bind] at h
      | some y =>
        simp only [get, bind, Except.bind, pure, Except.pure, Except.ok.injEq] at h
        subst h
        by_cases h1 : x > t <;> by_cases h2 : y > t <;> simp_all <;> tauto

/-- The reasons found are exactly the violated criteria. -/
theorem reasons_ok {p : Params} {f : Frame α} {rs : List Reason} (h : reasons p f = .ok rs) :
    (∀ r, r ∈ rs ↔ Violates p f r) ∧ Testable p f := by
  unfold reasons at h
  cases h1 : bpixReasons p f with
  | error e => rw [h1] at h; cases h
  | ok r1 =>
  cases h2 : overexpReasons p f with
  | error e => rw [h1, h2] at h; cases h
  | ok r2 =>
  cases h3 : ttReasons p.ttRms f.z2var f.z3var .tipRms .tiltRms with
  | error e => rw [h1, h2, h3] at h; cases h
  | ok r3 =>
  cases h4 : ttReasons p.ttBias f.z2res f.z3res .tipBias .tiltBias with
  | error e => rw [h1, h2, h3, h4] at h; cases h
  | ok r4 =>
  rw [h1, h2, h3, h4] at h
  simp only [bind, Except.bind, pure, Except.pure, Except.ok.injEq] at h
  subst h
  refine ⟨?_, (bpix_ok p f r1 h1 .badPix).2, (overexp_ok p f r2 h2 .badPix).2,
    (tt_ok _ _ _ _ _ r3 h3 .badPix).2, (tt_ok _ _ _ _ _ r4 h4 .badPix).2⟩
  intro r
  rw [List.mem_append, List.mem_append, List.mem_append, (bpix_ok p f r1 h1 r).1,
    (overexp_ok p f r2 h2 r).1, (tt_ok _ _ _ _ _ r3 h3 r).1, (tt_ok _ _ _ _ _ r4 h4 r).1]
  cases r <;> simp [Violates]

theorem reasons_succeeds {p : Params} {f : Frame α} (ht : Testable p f) : ∃ rs, reasons p f = .ok rs := by
  obtain ⟨t1, t2, t3, t4⟩ := ht
  have e1 : ∃ r, bpixReasons p f = .ok r := by
    unfold bpixReasons
    by_cases h : p.bpixFrac < 1
    · rw [if_pos h, if_neg (by have := t1 h; intro h0; exact this (List.length_eq_zero_iff.1 h0))]
      exact ⟨_, rfl⟩
    · rw [if_neg h]; exact ⟨_, rfl⟩
  have e2 : ∃ r, overexpReasons p f = .ok r := by
    unfold overexpReasons
    cases hp : p.overexp
    · exact ⟨_, rfl⟩
    · obtain ⟨o, ho⟩ := Option.ne_none_iff_exists'.1 (t2 hp)
      rw [ho]; exact ⟨_, rfl⟩
  have e3 : ∀ (th a b : Option ℚ) (ra rb : Reason), (th ≠ none → a ≠ none ∧ b ≠ none) →
      ∃ r, ttReasons th a b ra rb = .ok r := by
    intro th a b ra rb h
    cases th with
    | none => exact ⟨_, rfl⟩
    | some t =>
      obtain ⟨ha, hb⟩ := h (by simp)
      obtain ⟨x, rfl⟩ := Option.ne_none_iff_exists'.1 ha
      obtain ⟨y, rfl⟩ := Option.ne_none_iff_exists'.1 hb
      exact ⟨_, rfl⟩
  obtain ⟨r1, h1⟩ := e1
  obtain ⟨r2, h2⟩ := e2
  obtain ⟨r3, h3⟩ := e3 _ _ _ .tipRms .tiltRms t3
  obtain ⟨r4, h4⟩ := e3 _ _ _ .tipBias .tiltBias t4
  unfold reasons
  rw [h1, h2, h3, h4]
  exact ⟨_, rfl⟩

theorem flags_pos (rs : List Reason) : flags rs > 0 ↔ rs ≠ [] := by
  unfold flags
  cases rs with
  | nil => simp
  | cons r rs => cases r <;> simp [Reason.flag]

/-- The frame as it is kept. -/
def recorded (p : Params) (f : Frame α) : Frame α :=
  { f with criteria := some (p.bpixFrac, p.overexp, p.ttRms, p.ttBias) }

theorem flags_zero {p : Params} {f : Frame α} {r : List Reason} (hr : reasons p f = .ok r) :
    flags r = 0 ↔ Good p f := by
  have h1 := (reasons_ok hr).1
  have h2 := flags_pos r
  unfold Good
  constructor
  · intro h0 x hx
    have : r = [] := by by_contra hne; have := h2.2 hne; omega
    have := (h1 x).2 hx
    simp_all
  · intro hg
    have : r = [] := List.eq_nil_iff_forall_not_mem.2 (fun x hx => hg x ((h1 x).1 hx))
    subst this; rfl

open Classical in
/-- `IS_BAD` set on the bad frames, kept where it was. -/
noncomputable def marked (p : Params) (f : Frame α) : Frame α :=
  { recorded p f with isBad := f.isBad || !decide (Good p f) }

theorem mark_eq {p : Params} {f : Frame α} {r : List Reason} (hr : reasons p f = .ok r) :
    mark p f r = marked p f := by
  have h1 := flags_zero hr
  unfold mark marked recorded
  by_cases hG : Good p f
  · have := h1.2 hG; simp [this, hG]
  · have : 0 < flags r := Nat.pos_of_ne_zero (fun h0 => hG (h1.1 h0))
    simp [this, hG]

theorem marked_good {p : Params} {f : Frame α} (hG : Good p f) : marked p f = recorded p f := by
  simp [marked, hG, recorded]

theorem zip_marked {p : Params} {fs : List (Frame α)} {rs : List (List Reason)}
    (hf : List.Forall₂ (fun f r => reasons p f = .ok r) fs rs) :
    List.zipWith (mark p) fs rs = fs.map (marked p) := by
  induction hf with
  | nil => rfl
  | cons hr _ ih => rw [List.zipWith_cons_cons, List.map_cons, ih, mark_eq hr]

open Classical in
theorem good_frames {p : Params} {fs : List (Frame α)} {rs : List (List Reason)}
    (hf : List.Forall₂ (fun f r => reasons p f = .ok r) fs rs) :
    ((((List.zipWith (mark p) fs rs).zip rs).filter fun x => decide (flags x.2 = 0)).map Prod.fst) =
      (fs.filter fun f => decide (Good p f)).map (recorded p) := by
  induction hf with
  | nil => rfl
  | @cons f r fs rs hr _ ih =>
    simp only [List.zipWith_cons_cons, List.zip_cons_cons]
    by_cases hG : Good p f
    · rw [List.filter_cons_of_pos (by simpa using (flags_zero hr).2 hG),
        List.filter_cons_of_pos (by simpa using hG), List.map_cons, List.map_cons, ih, mark_eq hr,
        marked_good hG]
    · rw [List.filter_cons_of_neg (by simpa using fun h => hG ((flags_zero hr).1 h)),
        List.filter_cons_of_neg (by simpa using hG), ih]

open Classical in
theorem bad_frames {p : Params} {fs : List (Frame α)} {rs : List (List Reason)}
    (hf : List.Forall₂ (fun f r => reasons p f = .ok r) fs rs) :
    List.Forall₂ (fun f x => x.1 = f.filename ∧ ∀ r, r ∈ x.2 ↔ Violates p f r)
      (fs.filter fun f => !decide (Good p f))
      (((fs.zip rs).filter fun x => decide (flags x.2 > 0)).map fun x => (x.1.filename, x.2)) := by
  induction hf with
  | nil => exact .nil
  | @cons f r fs rs hr _ ih =>
    simp only [List.zip_cons_cons]
    by_cases hG : Good p f
    · have h0 := (flags_zero hr).2 hG
      rw [List.filter_cons_of_neg (by simpa using hG), List.filter_cons_of_neg (by simp [h0])]
      exact ih
    · have h0 : 0 < flags r := Nat.pos_of_ne_zero (fun h0 => hG ((flags_zero hr).1 h0))
      rw [List.filter_cons_of_pos (by simpa using hG), List.filter_cons_of_pos (by simpa using h0),
        List.map_cons]
      exact .cons ⟨rfl, (reasons_ok hr).1⟩ ih

open Classical in
/-- **C23** Which frames come out, in which order, how changed, and what is reported: with `discard_bad` the
good frames in their order, changed only by the recorded criteria; otherwise all frames with `IS_BAD` set on
the bad ones (and kept on those that had it). The report lists the bad frames in order, each with exactly the
criteria it violates. -/
theorem C23_select {p : Params} {fs : List (Frame α)} {out : List (Frame α)}
    {report : List (String × List Reason)} (h : frameSelect p fs = .ok (out, report)) :
    (p.discardBad = true → out = (fs.filter fun f => decide (Good p f)).map (recorded p)) ∧
    (p.discardBad = false → out = fs.map fun f =>
      { recorded p f with isBad := f.isBad || !decide (Good p f) }) ∧
    List.Forall₂ (fun f x => x.1 = f.filename ∧ ∀ r, r ∈ x.2 ↔ Violates p f r)
      (fs.filter fun f => !decide (Good p f)) report := by
  unfold frameSelect at h
  cases hm : fs.mapM (reasons p) with
  | error e => rw [hm] at h; cases h
  | ok rs =>
    rw [hm] at h
    simp only [bind, Except.bind] at h
    have hf := mapM_ok_iff.1 hm
    split at h
    · cases h
    · simp only [Except.ok.injEq, Prod.mk.injEq] at h
      obtain ⟨rfl, rfl⟩ := h
      refine ⟨?_, ?_, bad_frames hf⟩
      · intro hd
        rw [hd]
        exact good_frames hf
      · intro hd
        rw [hd]
        exact zip_marked hf

/-- **C23** `frame_select` succeeds exactly when all frames can be tested and at least one is good. -/
theorem C23_succeeds_iff (p : Params) (fs : List (Frame α)) :
    (∃ r, frameSelect p fs = .ok r) ↔ (∀ f ∈ fs, Testable p f) ∧ ∃ f ∈ fs, Good p f := by
  unfold frameSelect
  cases hm : fs.mapM (reasons p) with
  | error e =>
    simp only [bind, Except.bind]
    constructor
    · rintro ⟨r, hr⟩; cases hr
    · rintro ⟨ht, _⟩
      obtain ⟨r, hr⟩ := mapM_ok_exists.2 (fun f hf => reasons_succeeds (ht f hf))
      rw [hm] at hr; cases hr
  | ok rs =>
    have hf := mapM_ok_iff.1 hm
    have hg := congrArg List.length (good_frames hf)
    rw [List.length_map, List.length_map] at hg
    simp only [bind, Except.bind]
    rw [hg]
    have hmem : (∃ f ∈ fs, Good p f) ↔ ¬ ((fs.filter fun f => @decide (Good p f) (Classical.propDecidable _)).length = 0) := by
      rw [List.length_eq_zero_iff, List.filter_eq_nil_iff]
      simp
    have htest : ∀ f ∈ fs, Testable p f := by
      intro f hf'
      obtain ⟨y, hy⟩ := (mapM_ok_exists.1 ⟨rs, hm⟩) f hf'
      exact (reasons_ok hy).2
    rw [hmem]
    constructor
    · rintro ⟨r, hr⟩
      split at hr
      · cases hr
      · rename_i h; exact ⟨htest, h⟩
    · rintro ⟨_, h⟩
      rw [if_neg h]
      exact ⟨_, rfl⟩

/-- **C23** `ValueError` exactly if all frames can be tested and none is good. -/
theorem C23_valueError_iff (p : Params) (fs : List (Frame α)) :
    frameSelect p fs = .error .valueError ↔ (∀ f ∈ fs, Testable p f) ∧ ∀ f ∈ fs, ¬ Good p f := by
  constructor
  · intro h
    have hno : ∀ f : Frame α, reasons p f ≠ .error .valueError := by
      intro f hf
      have g : ∀ {β : Type} (o : Option β), get o ≠ .error .valueError := by
        intro β o; cases o <;> simp [get]
      have n1 : bpixReasons p f ≠ .error .valueError := by
        unfold bpixReasons; split
        · split <;> simp
        · simp
      have n2 : overexpReasons p f ≠ .error .valueError := by
        unfold overexpReasons; split
        · cases f.overexp <;> simp [get, bind, Except.bind, pure, Except.pure]
        · simp
      have n3 : ∀ (th a b : Option ℚ) (ra rb : Reason), ttReasons th a b ra rb ≠ .error .valueError := by
        intro th a b ra rb
        unfold ttReasons
        cases th <;> cases a <;> cases b <;> simp [get, bind, Except.bind, pure, Except.pure]
      unfold reasons at hf
      cases h1 : bpixReasons p f with
      | error e => rw [h1] at hf; exact n1 (h1.trans (by simpa [bind, Except.bind] using hf))
      | ok r1 =>
      cases h2 : overexpReasons p f with
      | error e => rw [h1, h2] at hf; exact n2 (h2.trans (by simpa [bind, Except.bind] using hf))
      | ok r2 =>
      cases h3 : ttReasons p.ttRms f.z2var f.z3var .tipRms .tiltRms with
      | error e => rw [h1, h2, h3] at hf; exact n3 _ _ _ _ _ (h3.trans (by simpa [bind, Except.bind] using hf))
      | ok r3 =>
      cases h4 : ttReasons p.ttBias f.z2res f.z3res .tipBias .tiltBias with
      | error e =>
        rw [h1, h2, h3, h4] at hf; exact n3 _ _ _ _ _ (h4.trans (by simpa [bind, Except.bind] using hf))
      | ok r4 => rw [h1, h2, h3, h4] at hf; cases hf
    cases hm : fs.mapM (reasons p) with
    | error e =>
      obtain ⟨_, f, _, _, _, he⟩ := mapM_error_iff.1 hm
      have : e = .valueError := by
        unfold frameSelect at h
        rw [hm] at h
        simpa [bind, Except.bind] using h
      subst this
      exact absurd he (hno f)
    | ok rs =>
      have ht : ∀ f ∈ fs, Testable p f := by
        intro f hf'
        obtain ⟨y, hy⟩ := (mapM_ok_exists.1 ⟨rs, hm⟩) f hf'
        exact (reasons_ok hy).2
      refine ⟨ht, fun f hf hG => ?_⟩
      obtain ⟨r, hr⟩ := (C23_succeeds_iff p fs).2 ⟨ht, f, hf, hG⟩
      rw [h] at hr; cases hr
  · rintro ⟨ht, hG⟩
    obtain ⟨rs, hm⟩ := mapM_ok_exists.2 (fun f hf => reasons_succeeds (ht f hf))
    have hf := mapM_ok_iff.1 hm
    have hg := congrArg List.length (good_frames hf)
    rw [List.length_map, List.length_map] at hg
    unfold frameSelect
    rw [hm]
    simp only [bind, Except.bind]
    rw [hg, if_pos]
    rw [List.length_eq_zero_iff, List.filter_eq_nil_iff]
    intro f hf'
    simpa using hG f hf'

/-- **C23** Kept frames keep their pixels, flags and name; without any criterion nothing is rejected. -/
theorem C23_default_keeps_all (p : Params) (hp : ¬ p.bpixFrac < 1) (ho : p.overexp = false)
    (h1 : p.ttRms = none) (h2 : p.ttBias = none) (f : Frame α) : Good p f := by
  intro r
  cases r <;> simp [Violates, hp, ho, h1, h2]

/-- C23: the flag number identifies the reasons when each occurs at most once. -/
theorem C23_flags_identify : ∀ rs ∈ ([Reason.badPix, .overexp, .tipRms, .tiltRms, .tipBias, .tiltBias]).sublists,
    ∀ r : Reason, (flags rs &&& r.flag ≠ 0 ↔ r ∈ rs) := by
  intro rs hrs r
  revert rs
  cases r <;> decide +kernel

/-! ### findings -/

/-- A frame with the given tip/tilt bias. -/
def exFrame (z2res : ℚ) (bad : Bool) : Frame Unit :=
  ⟨"f", (), [0, 0], some false, some 0, some 0, some z2res, some 0, bad, none⟩

/-- Finding: the tip/tilt tests are one-sided. A frame whose bias is -1000 passes a limit of 5. -/
theorem C23_negative_bias_passes :
    frameSelect ⟨1, 0, false, none, some 5, true⟩ [exFrame (-1000) false] =
      .ok ([recorded ⟨1, 0, false, none, some 5, true⟩ (exFrame (-1000) false)], []) := by
  have : reasons ⟨1, 0, false, none, some 5, true⟩ (exFrame (-1000) false) = .ok [] := by decide +kernel
  unfold frameSelect
  rw [List.mapM_cons, this]
  rfl

/-- Finding: a frame marked bad earlier is neither discarded nor unmarked. -/
theorem C23_old_mark_stays :
    frameSelect ⟨1, 0, false, none, none, true⟩ [exFrame 0 true] =
      .ok ([recorded ⟨1, 0, false, none, none, true⟩ (exFrame 0 true)], []) ∧
    (recorded ⟨1, 0, false, none, none, true⟩ (exFrame 0 true)).isBad = true := by
  have : reasons ⟨1, 0, false, none, none, true⟩ (exFrame 0 true) = .ok [] := by decide +kernel
  refine ⟨?_, rfl⟩
  unfold frameSelect
  rw [List.mapM_cons, this]
  rfl

example : reasons ⟨1/4, 2, true, none, some 5, true⟩
    (⟨"f", (), [0, 2, 4, 6], some true, none, none, some 6, some 5, false, none⟩ : Frame Unit) =
      .ok [.badPix, .overexp, .tipBias] := by decide +kernel

end Corgi.FSel

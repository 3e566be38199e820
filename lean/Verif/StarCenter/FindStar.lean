import Mathlib.Logic.Function.Basic
import Mathlib.Data.List.Basic
import Mathlib.Data.Rat.Defs
import Mathlib.Tactic.Common

/-!
# `find_star`: frames, tuning parameters and their defaults

`/repo/corgidrp/l3_to_l4.py` 201-268 and `/repo/corgidrp/star_center.py` 95-179.

The module-level dictionary `satellite_spot_parameters_defaults` is part of the state: a call gets
the entry of its observing mode *by reference* and `update_parameters` writes into it. The routine
that locates the star is abstract; it sees the two lists of frames and the parameters.
-/

namespace Corgi.FindStar

/-- `section → parameter → value`. -/
abbrev Params (V : Type) := String → Option (String → Option V)

inductive Err
  | keyError | satspots | modes | emptyList | unknownMode
  deriving DecidableEq

/-- The inner loop of `update_parameters` (star_center.py 173-177): the sub-dictionary is changed key
by key; an unknown one stops with the earlier changes in place. -/
def updateSub {V : Type} (d : String → Option V) :
    List (String × V) → (String → Option V) × Option Err
  | [] => (d, none)
  | (k, v) :: rest =>
    if (d k).isNone then (d, some .keyError)
    else updateSub (Function.update d k (some v)) rest

/-- `update_parameters` (star_center.py 169-179): final state of the dictionary, and the error. -/
def update {V : Type} (p : Params V) :
    List (String × List (String × V)) → Params V × Option Err
  | [] => (p, none)
  | (s, kvs) :: rest =>
    match p s with
    | none => (p, some .keyError)
    | some d =>
      let r := updateSub d kvs
      match r.2 with
      | some e => (Function.update p s (some r.1), some e)
      | none => update (Function.update p s (some r.1)) rest

/-- Value of a parameter. -/
def get {V : Type} (p : Params V) (s k : String) : Option V := (p s).bind fun d => d k

/-! ## `update_parameters` -/

/-- Spec: the value a user's nested dictionary gives to a parameter (dictionary keys are unique, the
first entry counts). -/
def given {V : Type} (new : List (String × List (String × V))) (s k : String) : Option V :=
  (new.lookup s).bind fun kvs => kvs.lookup k

theorem updateSub_ok {V : Type} : ∀ (kvs : List (String × V)) (d : String → Option V),
    (kvs.map Prod.fst).Nodup →
    ((updateSub d kvs).2 = none ↔ ∀ kv ∈ kvs, (d kv.1).isSome) ∧
    ((updateSub d kvs).2 = none → ∀ k, (updateSub d kvs).1 k = (kvs.lookup k).or (d k)) := by
  intro kvs
  induction kvs with
  | nil => intro d _; simp [updateSub]
  | cons kv rest ih =>
    intro d hn
    obtain ⟨k₀, v₀⟩ := kv
    rw [List.map_cons, List.nodup_cons] at hn
    have hne : ∀ kv ∈ rest, kv.1 ≠ k₀ := by
      intro kv hkv he
      exact hn.1 (List.mem_map.2 ⟨kv, hkv, he⟩)
    rw [updateSub]
    split_ifs with h
    · refine ⟨⟨fun hh => by simp at hh, fun hh => ?_⟩, fun hh => by simp at hh⟩
      have := hh (k₀, v₀) List.mem_cons_self
      rw [Option.isNone_iff_eq_none] at h
      rw [h] at this; simp at this
    · obtain ⟨ih1, ih2⟩ := ih (Function.update d k₀ (some v₀)) hn.2
      constructor
      · rw [ih1]
        constructor
        · intro hh kv hkv
          rcases List.mem_cons.1 hkv with rfl | hkv
          · rw [Option.isNone_iff_eq_none] at h
            exact Option.isSome_iff_ne_none.2 h
          · have := hh kv hkv
            rwa [Function.update_of_ne (hne kv hkv)] at this
        · intro hh kv hkv
          rw [Function.update_of_ne (hne kv hkv)]
          exact hh kv (List.mem_cons_of_mem _ hkv)
      · intro hh k
        rw [ih2 hh k, List.lookup_cons]
        by_cases hk : k = k₀
        · subst hk
          rw [Function.update_self, beq_self_eq_true]
          have : rest.lookup k = none := by
            rw [List.lookup_eq_none_iff]
            intro p hp; simp; exact fun h => hne p hp h.symm
          rw [this]; rfl
        · rw [Function.update_of_ne hk]
          have : (k == k₀) = false := by simpa using hk
          rw [this]

theorem update_ok {V : Type} : ∀ (new : List (String × List (String × V))) (p : Params V),
    (new.map Prod.fst).Nodup → (∀ skv ∈ new, (skv.2.map Prod.fst).Nodup) →
    ((update p new).2 = none ↔ ∀ skv ∈ new, (p skv.1).isSome ∧ ∀ kv ∈ skv.2, (get p skv.1 kv.1).isSome) ∧
    ((update p new).2 = none → ∀ s k, get (update p new).1 s k = (given new s k).or (get p s k)) := by
  intro new
  induction new with
  | nil => intro p _ _; simp [update, given]
  | cons skv rest ih =>
    intro p hn hs
    obtain ⟨s₀, kvs⟩ := skv
    rw [List.map_cons, List.nodup_cons] at hn
    have hne : ∀ q ∈ rest, q.1 ≠ s₀ := by
      intro q hq he
      exact hn.1 (List.mem_map.2 ⟨q, hq, he⟩)
    rw [update]
    cases hp : p s₀ with
    | none =>
      dsimp only
      refine ⟨⟨fun h => by simp at h, fun h => ?_⟩, fun h => by simp at h⟩
      have := (h _ List.mem_cons_self).1
      rw [hp] at this; simp at this
    | some d =>
      dsimp only
      have hsub := updateSub_ok kvs d (hs _ List.mem_cons_self)
      have hgd : ∀ k, get p s₀ k = d k := by intro k; simp [get, hp]
      cases hr : (updateSub d kvs).2 with
      | some e =>
        dsimp only
        refine ⟨⟨fun h => by simp at h, fun h => ?_⟩, fun h => by simp at h⟩
        have := hsub.1.2 (fun kv hkv => by
          have := (h _ List.mem_cons_self).2 kv hkv
          rwa [hgd] at this)
        rw [hr] at this; simp at this
      | none =>
        dsimp only
        obtain ⟨ih1, ih2⟩ := ih (Function.update p s₀ (some (updateSub d kvs).1)) hn.2
          (fun q hq => hs q (List.mem_cons_of_mem _ hq))
        have hother : ∀ s, s ≠ s₀ → ∀ k,
            get (Function.update p s₀ (some (updateSub d kvs).1)) s k = get p s k := by
          intro s hsne k; unfold get; rw [Function.update_of_ne hsne]
        constructor
        · rw [ih1]
          constructor
          · intro hh q hq
            rcases List.mem_cons.1 hq with rfl | hq
            · refine ⟨by rw [hp]; rfl, ?_⟩
              intro kv hkv
              rw [hgd]
              exact hsub.1.1 hr kv hkv
            · have := hh q hq
              rw [Function.update_of_ne (hne q hq)] at this
              refine ⟨this.1, fun kv hkv => ?_⟩
              have h2 := this.2 kv hkv
              rwa [hother _ (hne q hq)] at h2
          · intro hh q hq
            have := hh q (List.mem_cons_of_mem _ hq)
            rw [Function.update_of_ne (hne q hq)]
            refine ⟨this.1, fun kv hkv => ?_⟩
            rw [hother _ (hne q hq)]
            exact this.2 kv hkv
        · intro hh s k
          rw [ih2 hh s k]
          by_cases hs0 : s = s₀
          · subst hs0
            have hl : rest.lookup s = none := by
              rw [List.lookup_eq_none_iff]
              intro q hq; simp; exact fun h => hne q hq h.symm
            unfold given
            rw [hl, List.lookup_cons, beq_self_eq_true]
            show (none : Option V).or (get (Function.update p s (some (updateSub d kvs).1)) s k)
              = (kvs.lookup k).or (get p s k)
            rw [hgd]
            unfold get
            rw [Function.update_self]
            show (updateSub d kvs).1 k = _
            exact hsub.2 hr k
          · rw [hother s hs0]
            congr 1
            unfold given
            rw [List.lookup_cons]
            have : (s == s₀) = false := by simpa using hs0
            rw [this]

/-- **C96.** `update_parameters` succeeds exactly if every given section and parameter is known; then
each parameter has the given value, or its previous one. -/
theorem C96_update {V : Type} (p : Params V) (new : List (String × List (String × V)))
    (hn : (new.map Prod.fst).Nodup) (hs : ∀ skv ∈ new, (skv.2.map Prod.fst).Nodup) :
    ((update p new).2 = none ↔ ∀ skv ∈ new, (p skv.1).isSome ∧ ∀ kv ∈ skv.2, (get p skv.1 kv.1).isSome) ∧
    ((update p new).2 = none → ∀ s k, get (update p new).1 s k = (given new s k).or (get p s k)) :=
  update_ok new p hn hs

/-- **C96.** No parameter is ever created or removed, even by a failing update. -/
theorem C96_keys {V : Type} (new : List (String × List (String × V))) : ∀ (p : Params V) (s k : String),
    (get (update p new).1 s k).isSome = (get p s k).isSome := by
  have hsub : ∀ (kvs : List (String × V)) (d : String → Option V) (k : String),
      ((updateSub d kvs).1 k).isSome = (d k).isSome := by
    intro kvs
    induction kvs with
    | nil => intro d k; rfl
    | cons kv rest ih =>
      intro d k
      obtain ⟨k₀, v₀⟩ := kv
      rw [updateSub]
      split_ifs with h
      · rfl
      · rw [ih]
        by_cases hk : k = k₀
        · subst hk
          rw [Function.update_self]
          rw [Option.isNone_iff_eq_none] at h
          exact (Option.isSome_iff_ne_none.2 h).symm
        · rw [Function.update_of_ne hk]
  induction new with
  | nil => intro p s k; rfl
  | cons skv rest ih =>
    intro p s k
    obtain ⟨s₀, kvs⟩ := skv
    have step : ∀ d, p s₀ = some d →
        (get (Function.update p s₀ (some (updateSub d kvs).1)) s k).isSome = (get p s k).isSome := by
      intro d hp
      unfold get
      by_cases h : s = s₀
      · subst h
        rw [Function.update_self, hp]
        exact hsub kvs d k
      · rw [Function.update_of_ne h]
    rw [update]
    cases hp : p s₀ with
    | none => rfl
    | some d =>
      dsimp only
      cases hr : (updateSub d kvs).2 with
      | some e => exact step d hp
      | none =>
        dsimp only
        rw [ih]
        exact step d hp

/-! ## `find_star` -/

structure Frame where
  satspots : ℤ
  mode : String
  id : ℕ
  deriving DecidableEq

/-- Result frames with the star position written to their headers. -/
structure Out where
  frame : Frame
  star : ℚ × ℚ
  deriving DecidableEq

/-- `find_star` (l3_to_l4.py 201-268). `locate` receives the reference frames, the spot frames and the
parameters. Returns the result and the state of the defaults. -/
def findStar {V : Type} (locate : List Frame → List Frame → Params V → ℚ × ℚ)
    (defaults : String → Option (Params V)) (frames : List Frame)
    (user : Option (List (String × List (String × V)))) (drop : Bool) :
    Except Err (List Out) × (String → Option (Params V)) :=
  if frames.any fun f => decide (f.satspots ≠ 0 ∧ f.satspots ≠ 1) then (.error .satspots, defaults)
  else
    match frames with
    | [] => (.error .emptyList, defaults)
    | f₀ :: _ =>
      if frames.any fun f => decide (f.mode ≠ f₀.mode) then (.error .modes, defaults)
      else
        let sci := frames.filter fun f => decide (f.satspots = 0)
        let sat := frames.filter fun f => decide (f.satspots = 1)
        if sci = [] ∨ sat = [] then (.error .emptyList, defaults)
        else
          match defaults f₀.mode with
          | none => (.error .unknownMode, defaults)
          | some p =>
            let u := update p (user.getD [])
            let defaults' := Function.update defaults f₀.mode (some u.1)
            match u.2 with
            | some e => (.error e, defaults')
            | none =>
              let star := locate sci sat u.1
              (.ok ((if drop then sci else frames).map fun f => ⟨f, star⟩), defaults')

/-- Spec: a well-formed observation: both kinds of frames, one mode, which is known. -/
structure Good {V : Type} (defaults : String → Option (Params V)) (frames : List Frame) (mode : String)
    (p : Params V) : Prop where
  kinds : ∀ f ∈ frames, f.satspots = 0 ∨ f.satspots = 1
  modes : ∀ f ∈ frames, f.mode = mode
  sci : ∃ f ∈ frames, f.satspots = 0
  sat : ∃ f ∈ frames, f.satspots = 1
  known : defaults mode = some p

theorem findStar_good {V : Type} (locate : List Frame → List Frame → Params V → ℚ × ℚ)
    {defaults : String → Option (Params V)} {frames : List Frame} {mode : String} {p : Params V}
    (h : Good defaults frames mode p) (user : Option (List (String × List (String × V)))) (drop : Bool) :
    findStar locate defaults frames user drop =
      let u := update p (user.getD [])
      let defaults' := Function.update defaults mode (some u.1)
      match u.2 with
      | some e => (.error e, defaults')
      | none => (.ok ((if drop then frames.filter fun f => decide (f.satspots = 0) else frames).map
          fun f => ⟨f, locate (frames.filter fun f => decide (f.satspots = 0))
            (frames.filter fun f => decide (f.satspots = 1)) u.1⟩), defaults') := by
  unfold findStar
  have h1 : (frames.any fun f => decide (f.satspots ≠ 0 ∧ f.satspots ≠ 1)) = false := by
    rw [List.any_eq_false]
    intro f hf
    rcases h.kinds f hf with h0 | h0 <;> simp [h0]
  rw [h1, if_neg (by simp)]
  cases frames with
  | nil => obtain ⟨f, hf, _⟩ := h.sci; simp at hf
  | cons f₀ rest =>
    dsimp only
    have hm : f₀.mode = mode := h.modes f₀ List.mem_cons_self
    have h2 : ((f₀ :: rest).any fun f => decide (f.mode ≠ f₀.mode)) = false := by
      rw [List.any_eq_false]
      intro f hf
      simp [h.modes f hf, hm]
    rw [h2, if_neg (by simp), if_neg]
    · rw [hm, h.known]
    · rintro (h3 | h3)
      · obtain ⟨f, hf, h0⟩ := h.sci
        have : f ∈ (f₀ :: rest).filter fun f => decide (f.satspots = 0) := by
          rw [List.mem_filter]; exact ⟨hf, by simp [h0]⟩
        rw [h3] at this; simp at this
      · obtain ⟨f, hf, h0⟩ := h.sat
        have : f ∈ (f₀ :: rest).filter fun f => decide (f.satspots = 1) := by
          rw [List.mem_filter]; exact ⟨hf, by simp [h0]⟩
        rw [h3] at this; simp at this

/-- **C96 (partial).** A well-formed observation without user parameters: the star is located from the
science and the spot frames with the defaults of the mode; every returned frame carries it; the
science frames (or all frames) are returned in order; the defaults stay as they were. -/
theorem C96_frames_partial {V : Type} (locate : List Frame → List Frame → Params V → ℚ × ℚ)
    {defaults : String → Option (Params V)} {frames : List Frame} {mode : String} {p : Params V}
    (h : Good defaults frames mode p) (drop : Bool) :
    ∃ sci sat, sci.Sublist frames ∧ sat.Sublist frames ∧
      (∀ f ∈ frames, (f ∈ sci ↔ f.satspots = 0) ∧ (f ∈ sat ↔ f.satspots = 1)) ∧
      findStar locate defaults frames none drop =
        (.ok ((if drop then sci else frames).map fun f => ⟨f, locate sci sat p⟩), defaults) := by
  refine ⟨frames.filter fun f => decide (f.satspots = 0), frames.filter fun f => decide (f.satspots = 1),
    List.filter_sublist, List.filter_sublist, ?_, ?_⟩
  · intro f hf
    rw [List.mem_filter, List.mem_filter]
    simp [hf]
  · rw [findStar_good locate h none drop]
    simp only [Option.getD_none, update]
    congr 1
    rw [← h.known, Function.update_eq_self]

/-- **C96.** Only well-formed observations with known parameters give a result. -/
theorem C96_rejects {V : Type} (locate : List Frame → List Frame → Params V → ℚ × ℚ)
    (defaults : String → Option (Params V)) (frames : List Frame)
    (user : Option (List (String × List (String × V)))) (drop : Bool) (out : List Out)
    (h : (findStar locate defaults frames user drop).1 = .ok out) :
    ∃ mode p, Good defaults frames mode p ∧ (update p (user.getD [])).2 = none := by
  unfold findStar at h
  by_cases h1 : (frames.any fun f => decide (f.satspots ≠ 0 ∧ f.satspots ≠ 1)) = true
  · rw [if_pos h1] at h; simp at h
  rw [if_neg h1] at h
  cases frames with
  | nil => simp at h
  | cons f₀ rest =>
    dsimp only at h
    by_cases h2 : ((f₀ :: rest).any fun f => decide (f.mode ≠ f₀.mode)) = true
    · rw [if_pos h2] at h; simp at h
    rw [if_neg h2] at h
    by_cases h3 : ((f₀ :: rest).filter fun f => decide (f.satspots = 0)) = [] ∨
        ((f₀ :: rest).filter fun f => decide (f.satspots = 1)) = []
    · rw [if_pos h3] at h; simp at h
    rw [if_neg h3] at h
    cases hd : defaults f₀.mode with
    | none => rw [hd] at h; simp at h
    | some p =>
      rw [hd] at h
      dsimp only at h
      cases hu : (update p (user.getD [])).2 with
      | some e => rw [hu] at h; simp at h
      | none =>
        refine ⟨f₀.mode, p, ⟨?_, ?_, ?_, ?_, hd⟩, hu⟩
        · intro f hf
          rw [Bool.not_eq_true, List.any_eq_false] at h1
          have := h1 f hf
          simp at this
          by_cases h0 : f.satspots = 0
          · exact Or.inl h0
          · exact Or.inr (this h0)
        · intro f hf
          rw [Bool.not_eq_true, List.any_eq_false] at h2
          have := h2 f hf
          simpa using this
        · push Not at h3
          obtain ⟨f, hf⟩ := List.exists_mem_of_ne_nil _ h3.1
          rw [List.mem_filter] at hf
          exact ⟨f, hf.1, by simpa using hf.2⟩
        · push Not at h3
          obtain ⟨f, hf⟩ := List.exists_mem_of_ne_nil _ h3.2
          rw [List.mem_filter] at hf
          exact ⟨f, hf.1, by simpa using hf.2⟩

/-- **C96, violated.** Parameters given in one call stay for the rest of the session: a later call for
the same mode without parameters uses them, whatever the frames. -/
theorem C96_violated_defaults {V : Type} (locate : List Frame → List Frame → Params V → ℚ × ℚ)
    {defaults : String → Option (Params V)} {frames frames' : List Frame} {mode : String} {p : Params V}
    (h : Good defaults frames mode p) (h' : Good defaults frames' mode p)
    (user : List (String × List (String × V))) (drop : Bool)
    (hu : (update p user).2 = none) :
    let d := (findStar locate defaults frames (some user) drop).2
    d mode = some (update p user).1 ∧
    (findStar locate d frames' none true).1 = .ok ((frames'.filter fun f => decide (f.satspots = 0)).map
      fun f => ⟨f, locate (frames'.filter fun f => decide (f.satspots = 0))
        (frames'.filter fun f => decide (f.satspots = 1)) (update p user).1⟩) := by
  dsimp only
  have e := findStar_good locate h (some user) drop
  simp only [Option.getD_some, hu] at e
  rw [e]
  dsimp only
  have hk : Function.update defaults mode (some (update p user).1) mode = some (update p user).1 :=
    Function.update_self ..
  refine ⟨hk, ?_⟩
  have g : Good (Function.update defaults mode (some (update p user).1)) frames' mode
      (update p user).1 := ⟨h'.kinds, h'.modes, h'.sci, h'.sat, hk⟩
  rw [findStar_good locate g none true]
  simp [update]

/-- **C96, violated.** Even a call that fails with `KeyError` leaves its valid parameters behind. -/
theorem C96_violated_failed :
    ∃ (defaults : String → Option (Params ℚ)) (frames : List Frame)
      (user : List (String × List (String × ℚ))),
      let r := findStar (fun _ _ _ => (0, 0)) defaults frames (some user) true
      r.1 = .error .keyError ∧ (defaults "NFOV").bind (fun p => get p "offset" "nSteps") = some 7 ∧
      (r.2 "NFOV").bind (fun p => get p "offset" "nSteps") = some 3 := by
  refine ⟨fun m => if m = "NFOV" then some fun s => if s = "offset" then
    some fun k => if k = "nSteps" then some 7 else none else none else none,
    [⟨0, "NFOV", 0⟩, ⟨1, "NFOV", 1⟩], [("offset", [("nSteps", 3), ("nStep", 5)])], ?_, ?_, ?_⟩
  · rfl
  · rfl
  · rfl

/-- Non-vacuous. -/
example : Good (V := ℚ) (fun m => if m = "NFOV" then some fun _ => none else none)
    [⟨0, "NFOV", 0⟩, ⟨1, "NFOV", 1⟩] "NFOV" (fun _ => none) :=
  ⟨by decide, by decide, ⟨_, List.mem_cons_self, rfl⟩, ⟨⟨1, "NFOV", 1⟩, by decide, rfl⟩, by simp⟩

/-! ## `validate_satellite_spot_parameters` (star_center.py 95-138) -/

/-- Outcome; `sectionIsDict s` says whether `params[s]` exists and is a dictionary. The expected types
are looked up in the annotations of the function, which are empty: `KeyError`. -/
def validate (isDict : Bool) (sectionIsDict : String → Bool) : Except Err Bool :=
  if !isDict then .ok false
  else if !sectionIsDict "offset" then .ok false
  else .error .keyError

/-- **C96, violated.** No parameters are ever accepted by the validation; all that have an `offset`
section make it fail. -/
theorem C96_violated_validate (isDict : Bool) (sec : String → Bool) :
    validate isDict sec ≠ .ok true ∧
    (isDict = true → sec "offset" = true → validate isDict sec = .error .keyError) := by
  unfold validate
  cases isDict <;> cases sec "offset" <;> simp

end Corgi.FindStar

import Mathlib.Data.List.Basic
import Mathlib.Data.List.Nodup
import Mathlib.Tactic.Tauto

/-!
# The detector parameters (data.py 1081-1232): model and C126

A header is a list of cards, a keyword being in capitals: FITS keywords are not sensitive to case. A value is its text,
which is all that the hash looks at; a card without a value (`None`) has the text `None`. The keywords of the other
cards of the header (lines 1153-1165, 1212) are not among those of the parameters, old or new, and are left out.
-/

namespace Corgi.DetParams

abbrev Header := List (String × String)

def up (s : String) : String := String.ofList (s.toList.map Char.toUpper)

/-- `key in ext_hdr`, `ext_hdr[key]` -/
def lookup (h : Header) (k : String) : Option String := (h.find? fun c => decide (c.1 = up k)).map Prod.snd

/-- `ext_hdr[key] = value`: the card is replaced, or added at the end. -/
def assign (h : Header) (k v : String) : Header :=
  if (lookup h k).isSome then h.map fun c => if c.1 = up k then (c.1, v) else c else h ++ [(up k, v)]

/-- Lines 1101-1116 -/
def defaults : List (String × String) :=
  [("KGAINPAR", "8.7"), ("FWC_PP_E", "90000.0"), ("FWC_EM_E", "100000.0"), ("ROWREADT", "0.0002235"),
   ("NEMGAIN", "604"), ("TELRSTRT", "-1"), ("TELREND", "None"), ("CRHITRT", "50000.0"), ("PIXAREA", "1.69e-10"),
   ("GAINMAX", "8000.0"), ("DELCNST", "0.0001"), ("OVERHEAD", "3"), ("PCECNTMX", "0.1"), ("TFACTOR", "5")]

def keys : List String := defaults.map Prod.fst

/-- Lines 1118-1132 -/
def backCompat : List (String × String) :=
  [("KGAINPAR", "KGAIN"), ("FWC_PP_E", "FWC_PP"), ("FWC_EM_E", "FWC_EM"), ("ROWREADT", "rowreadtime"),
   ("NEMGAIN", "NEM"), ("TELRSTRT", "telem_rows_start"), ("TELREND", "telem_rows_end"), ("CRHITRT", "X"),
   ("PIXAREA", "A"), ("GAINMAX", "GMAX"), ("DELCNST", "delta_constr"), ("PCECNTMX", "pc_ecount_max"),
   ("TFACTOR", "T_FACTOR")]

def oldName (k : String) : Option String := (backCompat.find? fun c => decide (c.1 = k)).map Prod.snd

/-- Lines 1167-1173: the header made from the values handed in. -/
def header (given : List (String × String)) : Header :=
  given.foldl (fun h c => assign h c.1 c.2) (defaults.foldl (fun h c => assign h c.1 c.2) [])

/-- Lines 1191-1199; `none` is the `KeyError`. -/
def param (h : Header) (k : String) : Option String :=
  match lookup h k with
  | some v => some v
  | none => (oldName k).bind (lookup h)

/-- Lines 1187-1199: the dictionary of the parameters. -/
def load (h : Header) : Option (List (String × String)) :=
  keys.mapM fun k => (param h k).map fun v => (k, v)

/-- The text that is hashed, lines 1228-1230 -/
def hashed (p : List (String × String)) : String := p.foldl (fun s c => s ++ c.2) ""

/-! ## Specification -/

/-- The last value handed in for a keyword, whatever its case. -/
def lastGiven (given : List (String × String)) (k : String) : Option String :=
  (given.reverse.find? fun c => decide (up c.1 = k)).map Prod.snd

/-- What a keyword is by default. -/
def default (k : String) : Option String := (defaults.find? fun c => decide (c.1 = k)).map Prod.snd

/-! ## Tools -/

theorem find_assign {h : Header} {k v q : String} :
    ((assign h k v).find? fun c => decide (c.1 = q)).map Prod.snd =
      if up k = q then some v else (h.find? fun c => decide (c.1 = q)).map Prod.snd := by
  have key : ∀ l : Header, ((l.map fun c => if c.1 = up k then (c.1, v) else c).find? fun c => decide (c.1 = q)).map
      Prod.snd = if up k = q then ((l.find? fun c => decide (c.1 = q)).map fun _ => v)
        else (l.find? fun c => decide (c.1 = q)).map Prod.snd := by
    intro l
    induction l with
    | nil => simp
    | cons c l ih =>
      rw [List.map_cons]
      by_cases h1 : c.1 = up k <;> by_cases h2 : c.1 = q
      · simp [h1, ← h2]
      · have h3 : ¬ up k = q := fun h => h2 (h1.trans h)
        rw [if_pos h1, List.find?_cons_of_neg (by simpa using h2), List.find?_cons_of_neg (by simpa using h2), ih]
      · have h3 : ¬ up k = q := fun h => h1 (h2.trans h.symm)
        rw [if_neg h1, if_neg h3]; simp [h2]
      · rw [if_neg h1, List.find?_cons_of_neg (by simpa using h2), List.find?_cons_of_neg (by simpa using h2), ih]
  unfold assign
  by_cases hs : (lookup h k).isSome = true
  · rw [if_pos hs, key]
    by_cases hq : up k = q
    · rw [if_pos hq, if_pos hq]
      unfold lookup at hs
      rw [hq] at hs
      cases hf : h.find? fun c => decide (c.1 = q) with
      | none => rw [hf] at hs; simp at hs
      | some c => rfl
    · rw [if_neg hq, if_neg hq]
  · rw [if_neg hs, List.find?_append]
    by_cases hq : up k = q
    · have : h.find? (fun c => decide (c.1 = q)) = none := by
        unfold lookup at hs
        rw [hq] at hs
        cases hf : h.find? fun c => decide (c.1 = q) with
        | none => rfl
        | some c => rw [hf] at hs; simp at hs
      rw [this, if_pos hq]
      simp [hq]
    · rw [if_neg hq]
      cases hf : h.find? fun c => decide (c.1 = q) with
      | none => simp [hq]
      | some c => simp

theorem find_fold {l : List (String × String)} {h : Header} {q : String} :
    ((l.foldl (fun h c => assign h c.1 c.2) h).find? fun c => decide (c.1 = q)).map Prod.snd =
      (lastGiven l q).or ((h.find? fun c => decide (c.1 = q)).map Prod.snd) := by
  induction l generalizing h with
  | nil => simp [lastGiven]
  | cons c l ih =>
    rw [List.foldl_cons, ih, find_assign]
    unfold lastGiven
    rw [List.reverse_cons, List.find?_append, Option.map_or, Option.or_assoc]
    congr 1
    by_cases hq : up c.1 = q
    · simp [hq]
    · simp [hq]

/-! ## C126 -/

/-- A parameter is what was handed in under its name, in either case, or the default. -/
theorem C126_param {given : List (String × String)} {k : String} (hk : k ∈ keys) :
    param (header given) k = (lastGiven given k).or (default k) := by
  have hup : up k = k := by revert k; decide
  have hd : (lastGiven defaults k).or none = default k := by revert k; decide +kernel
  have hdef : ∃ v, default k = some v := by
    have : ∀ k ∈ keys, (default k).isSome = true := by decide +kernel
    exact Option.isSome_iff_exists.1 (this k hk)
  have hl : lookup (header given) k = (lastGiven given k).or (default k) := by
    unfold lookup header
    rw [hup, find_fold, find_fold]
    congr 1
  unfold param
  rw [hl]
  obtain ⟨v, hv⟩ := hdef
  rw [hv]
  cases lastGiven given k <;> rfl

/-- All fourteen are there. -/
theorem C126_loads {given : List (String × String)} : ∃ p, load (header given) = some p ∧ p.map Prod.fst = keys ∧
    ∀ k ∈ keys, ∀ v, (k, v) ∈ p ↔ (lastGiven given k).or (default k) = some v := by
  have hdef : ∀ k ∈ keys, ∃ v, (lastGiven given k).or (default k) = some v := by
    intro k hk
    have : ∀ k ∈ keys, (default k).isSome = true := by decide +kernel
    obtain ⟨v, hv⟩ := Option.isSome_iff_exists.1 (this k hk)
    cases lastGiven given k with
    | none => exact ⟨v, by simpa using hv⟩
    | some w => exact ⟨w, rfl⟩
  have key : ∀ l : List String, (∀ k ∈ l, k ∈ keys) → ∃ p,
      l.mapM (fun k => (param (header given) k).map fun v => (k, v)) = some p ∧ p.map Prod.fst = l ∧
      ∀ k v, (k, v) ∈ p ↔ k ∈ l ∧ (lastGiven given k).or (default k) = some v := by
    intro l
    induction l with
    | nil => intro _; exact ⟨[], rfl, rfl, by simp⟩
    | cons k l ih =>
      intro hl
      obtain ⟨p, h1, h2, h3⟩ := ih fun x hx => hl x (List.mem_cons_of_mem _ hx)
      obtain ⟨v, hv⟩ := hdef k (hl k (by simp))
      refine ⟨(k, v) :: p, ?_, by simp [h2], ?_⟩
      · rw [List.mapM_cons, C126_param (hl k (by simp)), hv, h1]
        rfl
      · intro a b
        rw [List.mem_cons, List.mem_cons, h3]
        constructor
        · rintro (h | h)
          · cases h; exact ⟨.inl rfl, hv⟩
          · exact ⟨.inr h.1, h.2⟩
        · rintro ⟨rfl | h, hb⟩
          · rw [hv] at hb
            cases hb
            exact .inl rfl
          · exact .inr ⟨h, hb⟩
  obtain ⟨p, h1, h2, h3⟩ := key keys fun k hk => hk
  exact ⟨p, h1, h2, fun k hk v => by rw [h3]; tauto⟩

/-- A value under any other name, an old name included, is silently without effect. -/
theorem C126_violated_ignored {given : List (String × String)} (hg : ∀ c ∈ given, up c.1 ∉ keys) {k : String}
    (hk : k ∈ keys) : param (header given) k = param (header []) k := by
  rw [C126_param hk, C126_param hk]
  have : lastGiven given k = none := by
    unfold lastGiven
    have hf : (given.reverse.find? fun c => decide (up c.1 = k)) = none := by
      rw [List.find?_eq_none]
      intro c hc h
      simp only [decide_eq_true_eq] at h
      exact hg c (List.mem_reverse.1 hc) (h ▸ hk)
    rw [hf]
    rfl
  rw [this]
  rfl

/-- The example of the docstring (line 1087) changes no parameter. -/
theorem C126_violated_docstring : load (header [("gmax", "7500.0")]) = load (header []) ∧
    param (header [("gmax", "7500.0")]) "GAINMAX" = some "8000.0" := by decide +kernel

/-- The name of every parameter has an old form, but that of the overhead. -/
theorem C126_old_names {k : String} (hk : k ∈ keys) : oldName k = none ↔ k = "OVERHEAD" := by
  revert k; decide

/-- A file is read exactly when each parameter is there under its name or its old name. -/
theorem C126_read_iff {h : Header} : (∃ p, load h = some p) ↔
    ∀ k ∈ keys, (∃ v, lookup h k = some v) ∨ ∃ o v, oldName k = some o ∧ lookup h o = some v := by
  have hp : ∀ k, (∃ v, param h k = some v) ↔
      (∃ v, lookup h k = some v) ∨ ∃ o v, oldName k = some o ∧ lookup h o = some v := by
    intro k
    unfold param
    cases lookup h k with
    | some v => simp
    | none =>
      cases oldName k with
      | none => simp
      | some o => simp
  unfold load
  have key : ∀ l : List String, (∃ p, l.mapM (fun k => (param h k).map fun v => (k, v)) = some p) ↔
      ∀ k ∈ l, ∃ v, param h k = some v := by
    intro l
    induction l with
    | nil => simp
    | cons k l ih =>
      rw [List.mapM_cons]
      cases hk : param h k with
      | none => simp [hk]
      | some v =>
        simp only [Option.map_some, List.mem_cons, forall_eq_or_imp, hk]
        rw [← ih]
        cases l.mapM (fun k => (param h k).map fun v => (k, v)) <;> simp
  rw [key]
  exact forall₂_congr fun k _ => hp k

/-- So a file of before the renaming cannot be read at all unless it has the overhead under its present name. -/
theorem C126_violated_old_file {h : Header} (ho : lookup h "OVERHEAD" = none) : load h = none := by
  cases hl : load h with
  | none => rfl
  | some p =>
    obtain ⟨v, hv⟩ | ⟨o, v, h1, -⟩ := C126_read_iff.1 ⟨p, hl⟩ "OVERHEAD" (by decide)
    · rw [ho] at hv; cases hv
    · rw [show oldName "OVERHEAD" = none by decide] at h1; cases h1

theorem hashed_append (p q : List (String × String)) : (hashed (p ++ q)).toList =
    (hashed p).toList ++ (hashed q).toList := by
  have : ∀ (l : List (String × String)) (s : String), (l.foldl (fun s c => s ++ c.2) s).toList =
      s.toList ++ (l.flatMap fun c => c.2.toList) := by
    intro l
    induction l with
    | nil => intro s; simp
    | cons c l ih => intro s; rw [List.foldl_cons, ih]; simp [String.toList_append]
  unfold hashed
  rw [this, this, this]
  simp

/-- Changing the value of a single parameter changes the text that is hashed. -/
theorem C126_hash_partial {a b : List (String × String)} {k v w : String} (h : v ≠ w) :
    hashed (a ++ (k, v) :: b) ≠ hashed (a ++ (k, w) :: b) := by
  intro he
  have := congrArg String.toList he
  rw [hashed_append, hashed_append, List.append_cancel_left_eq] at this
  have e : ∀ x, (hashed ((k, x) :: b)).toList = x.toList ++ (hashed b).toList := by
    intro x
    have := hashed_append [(k, x)] b
    rw [List.singleton_append] at this
    rw [this]
    simp [hashed]
  rw [e, e, List.append_cancel_right_eq] at this
  exact h (String.toList_inj.1 this)

/-- The texts are joined with nothing in between: an overhead of 3 with a limit of 10.1 electrons and one of 31 with
0.1 have the same hash. -/
theorem C126_violated_hash : ∃ p q, load (header [("OVERHEAD", "3"), ("PCECNTMX", "10.1")]) = some p ∧
    load (header [("OVERHEAD", "31"), ("PCECNTMX", "0.1")]) = some q ∧ p ≠ q ∧ hashed p = hashed q := by
  refine ⟨_, _, rfl, rfl, ?_, ?_⟩ <;> decide +kernel

example : param (header [("gainmax", "7500.0")]) "GAINMAX" = some "7500.0" := by decide +kernel

example : (lookup [("OVERHEAD", "3")] "overhead") = some "3" := by decide

end Corgi.DetParams

import Mathlib.Data.List.Basic
import Mathlib.Data.List.Infix
import Mathlib.Tactic.SplitIfs
import Mathlib.Tactic.Linarith

/-!
# Default file names of the calibration products

The constructors of the calibration classes in data.py make a default file name from the name of the last
input file. File names are lists of characters.
-/

namespace Corgi.Names

/-- `_L[0-9].` matches at the beginning of the text (`.` is any character but a line break). -/
def tagHere : List Char → Bool
  | a :: b :: d :: x :: _ => a == '_' && b == 'L' && (('0' ≤ d) && (d ≤ '9')) && x != '\n'
  | _ => false

/-- `re.sub('_L[0-9].', new, s)`; the first argument counts characters of a match still to be dropped. -/
def reSub (new : List Char) : ℕ → List Char → List Char
  | _, [] => []
  | k + 1, _ :: cs => reSub new k cs
  | 0, c :: cs => if tagHere (c :: cs) then new ++ reSub new 3 cs else c :: reSub new 0 cs

/-- `s.replace(old, new)` for a nonempty `old`; the number counts as in `reSub`. -/
def replaceAll (old new : List Char) : ℕ → List Char → List Char
  | _, [] => []
  | k + 1, _ :: cs => replaceAll old new k cs
  | 0, c :: cs =>
    if old.isPrefixOf (c :: cs) then new ++ replaceAll old new (old.length - 1) cs
    else c :: replaceAll old new 0 cs

/-- `old in s` -/
def contains (old : List Char) : List Char → Bool
  | [] => old.isEmpty
  | c :: cs => old.isPrefixOf (c :: cs) || contains old cs

/-- `s.split(".fits")[0]` -/
def stem : List Char → List Char
  | [] => []
  | c :: cs => if ".fits".toList.isPrefixOf (c :: cs) then [] else c :: stem cs

/-- The calibration products with a default name made from an input. -/
inductive Kind
  | dark | flat | nonlin | kgain | bpm | dnm | ast | trap | flux | ct | ndf
  deriving DecidableEq, Repr

/-- `_XXX_CAL` -/
def Kind.tag : Kind → List Char
  | .dark => "_DRK_CAL".toList | .flat => "_FLT_CAL".toList | .nonlin => "_NLN_CAL".toList
  | .kgain => "_KRN_CAL".toList | .bpm => "_BPM_CAL".toList | .dnm => "_DNM_CAL".toList
  | .ast => "_AST_CAL".toList | .trap => "_TPU_CAL".toList | .flux => "_ABF_CAL".toList
  | .ct => "_CTP_CAL".toList | .ndf => "_NDF_CAL".toList

/-- The default name from the name `n` of the last input: Dark data.py 657-661, FlatField 711,
NonLinearityCalibration 809, KGain 888, BadPixelMap 974-977, DetectorNoiseMaps 1051-1057,
AstrometricCalibration 1283-1284, TrapCalibration 1332-1334, FluxcalFactor 1419 and 1434-1435,
CoreThroughputCalibration 1634, NDFilterSweetSpotDataset 2471. -/
def default (k : Kind) (n : List Char) : List Char :=
  match k with
  | .flat | .nonlin | .kgain | .ct | .ndf => reSub k.tag 0 n
  | .bpm => if contains "_FLT_CAL".toList n then replaceAll "_FLT_CAL".toList "_BPM_CAL".toList 0 n
    else reSub k.tag 0 n
  | .dnm | .trap | .flux => reSub [] 0 (stem n ++ k.tag ++ ".fits".toList)
  | .dark => replaceAll "_DNM_CAL".toList [] 0 (reSub [] 0 (stem n ++ k.tag ++ ".fits".toList))
  | .ast => stem n ++ k.tag ++ ".fits".toList

/-! ## Spec -/

/-- The level part of a file name in the naming convention. -/
inductive Level
  | l1 | l2a | l2b | l3 | l4
  deriving DecidableEq, Repr

def Level.tag : Level → List Char
  | .l1 => "_L1_".toList | .l2a => "_L2a".toList | .l2b => "_L2b".toList | .l3 => "_L3_".toList
  | .l4 => "_L4_".toList

/-- `x` does not occur in `s`. -/
def Free (x s : List Char) : Prop := ¬ x <:+: s

/-- The part of a name before the level: nothing in it looks like a level, an extension or a calibration tag. -/
structure Base (b : List Char) : Prop where
  level : Free "_L".toList b
  ext : Free ".fits".toList b
  dnm : Free "_DNM_CAL".toList b
  flt : Free "_FLT_CAL".toList b

/-- A level tag occurs in the name. -/
def HasTag (s : List Char) : Prop :=
  ∃ a b : List Char, ∃ d x : Char, s = a ++ ['_', 'L', d, x] ++ b ∧ '0' ≤ d ∧ d ≤ '9' ∧ x ≠ '\n'

/-! ## Lemmas -/

theorem tagHere_iff (s : List Char) : tagHere s = true ↔
    ∃ d x b, s = '_' :: 'L' :: d :: x :: b ∧ '0' ≤ d ∧ d ≤ '9' ∧ x ≠ '\n' := by
  match s with
  | [] => simp [tagHere]
  | [_] => simp [tagHere]
  | [_, _] => simp [tagHere]
  | [_, _, _] => simp [tagHere]
  | a :: b :: d :: x :: t =>
    simp only [tagHere, Bool.and_eq_true, beq_iff_eq, decide_eq_true_eq, bne_iff_ne, List.cons.injEq]
    constructor
    · rintro ⟨⟨⟨rfl, rfl⟩, h1, h2⟩, h3⟩
      exact ⟨d, x, t, ⟨rfl, rfl, rfl, rfl, rfl⟩, h1, h2, h3⟩
    · rintro ⟨d', x', t', ⟨rfl, rfl, rfl, rfl, rfl⟩, h1, h2, h3⟩
      exact ⟨⟨⟨rfl, rfl⟩, h1, h2⟩, h3⟩

theorem hasTag_cons (c : Char) (cs : List Char) :
    HasTag (c :: cs) ↔ tagHere (c :: cs) = true ∨ HasTag cs := by
  rw [tagHere_iff]
  constructor
  · rintro ⟨a, b, d, x, h, h1, h2, h3⟩
    cases a with
    | nil => exact Or.inl ⟨d, x, b, by simpa using h, h1, h2, h3⟩
    | cons a0 a =>
      simp only [List.cons_append, List.cons.injEq] at h
      exact Or.inr ⟨a, b, d, x, by simpa using h.2, h1, h2, h3⟩
  · rintro (⟨d, x, b, h, h1, h2, h3⟩ | ⟨a, b, d, x, h, h1, h2, h3⟩)
    · exact ⟨[], b, d, x, by simpa using h, h1, h2, h3⟩
    · exact ⟨c :: a, b, d, x, by simp [h], h1, h2, h3⟩

theorem reSub_free (new : List Char) : ∀ s : List Char, ¬ HasTag s → reSub new 0 s = s
  | [], _ => rfl
  | c :: cs, h => by
    rw [hasTag_cons, not_or] at h
    rw [reSub, if_neg h.1, reSub_free new cs h.2]

theorem reSub_len (new : List Char) (hn : 4 ≤ new.length) : ∀ (s : List Char) (k : ℕ), k ≤ 3 →
    s.length ≤ (reSub new k s).length + k
  | [], k, _ => by simp
  | c :: cs, 0, _ => by
    rw [reSub]
    split_ifs with ht
    · have := reSub_len new hn cs 3 le_rfl
      simp only [List.length_append, List.length_cons]
      omega
    · have := reSub_len new hn cs 0 (by omega)
      simp only [List.length_cons]
      omega
  | c :: cs, k + 1, hk => by
    have := reSub_len new hn cs k (by omega)
    rw [reSub, List.length_cons]
    omega

/-- A longer replacement makes the name longer if there is a tag. -/
theorem reSub_longer (new : List Char) (hn : 5 ≤ new.length) : ∀ s : List Char, HasTag s →
    s.length < (reSub new 0 s).length
  | [], h => by
    obtain ⟨a, b, d, x, h, _⟩ := h
    have := congrArg List.length h
    simp at this
  | c :: cs, h => by
    rw [reSub]
    split_ifs with ht
    · have := reSub_len new (by omega) cs 3 le_rfl
      simp only [List.length_append, List.length_cons]
      omega
    · rw [hasTag_cons] at h
      have := reSub_longer new hn cs (h.resolve_left ht)
      simp only [List.length_cons]
      omega

theorem reSub_eq_iff (new : List Char) (hn : 5 ≤ new.length) (s : List Char) :
    reSub new 0 s = s ↔ ¬ HasTag s := by
  constructor
  · intro h ht
    have := reSub_longer new hn s ht
    rw [h] at this
    exact lt_irrefl _ this
  · exact reSub_free new s

theorem contains_iff (old : List Char) : ∀ s : List Char, contains old s = true ↔ old <:+: s
  | [] => by simp [contains]
  | c :: cs => by
    rw [contains, Bool.or_eq_true, List.isPrefixOf_iff_prefix, contains_iff old cs, List.infix_cons_iff]

theorem replaceAll_free (old new : List Char) : ∀ s : List Char, Free old s → replaceAll old new 0 s = s
  | [], _ => rfl
  | c :: cs, h => by
    have h1 : ¬ old.isPrefixOf (c :: cs) = true := fun hp => h (List.isPrefixOf_iff_prefix.mp hp).isInfix
    have h2 : Free old cs := fun hi => h (List.infix_cons hi)
    rw [replaceAll, if_neg h1, replaceAll_free old new cs h2]

/-- A prefix without `_L` is kept by the substitution. -/
theorem reSub_append (new : List Char) : ∀ (b s : List Char), Free "_L".toList (b ++ s.take 1) →
    reSub new 0 (b ++ s) = b ++ reSub new 0 s
  | [], _, _ => rfl
  | c :: cs, s, h => by
    have h2 : Free "_L".toList (cs ++ s.take 1) := fun hi => h (by simpa using List.infix_cons hi)
    have h1 : ¬ tagHere (c :: (cs ++ s)) = true := by
      intro ht
      obtain ⟨d, x, r, he, -⟩ := (tagHere_iff _).mp ht
      rw [List.cons.injEq] at he
      apply h
      obtain ⟨hc, he⟩ := he
      subst hc
      cases cs with
      | nil =>
        cases s with
        | nil => simp at he
        | cons a s =>
          simp only [List.nil_append, List.cons.injEq] at he
          rw [he.1]
          exact ⟨[], [], rfl⟩
      | cons a cs =>
        simp only [List.cons_append, List.cons.injEq] at he
        rw [he.1]
        exact ⟨[], cs ++ s.take 1, rfl⟩
    rw [List.cons_append, reSub, if_neg h1, reSub_append new cs s h2, List.cons_append]

/-- If no end of `x` begins `b`, an occurrence of `x` is inside one of the parts. -/
theorem free_append {x a b : List Char} (ha : Free x a) (hb : contains x b = false)
    (h : ∀ t ∈ x.tails, t ≠ [] → t.isPrefixOf b = false) : Free x (a ++ b) := by
  intro hi
  rw [List.infix_append_iff] at hi
  rcases hi with hi | hi | ⟨t1, t2, rfl, h1, h2⟩
  · exact ha hi
  · rw [(contains_iff x b).mpr hi] at hb
    cases hb
  · by_cases h0 : t2 = []
    · subst h0
      rw [List.append_nil] at ha
      exact ha h1.isInfix
    · have h3 := h t2 (by rw [List.mem_tails]; exact List.suffix_append t1 t2) h0
      rw [List.isPrefixOf_iff_prefix.mpr h2] at h3
      cases h3

theorem prefix_append {x a b : List Char} (h : x <+: a ++ b) : x <+: a ∨ ∃ r, x = a ++ r ∧ r <+: b := by
  obtain ⟨t, ht⟩ := h
  rcases List.append_eq_append_iff.mp ht with ⟨r, h1, -⟩ | ⟨r, h1, h2⟩
  · exact Or.inl ⟨r, h1.symm⟩
  · exact Or.inr ⟨r, h1, t, h2.symm⟩

theorem replaceAll_append {old new : List Char} {s : List Char}
    (h : ∀ t ∈ old.tails, t ≠ [] → t ≠ old → t.isPrefixOf s = false) :
    ∀ b : List Char, Free old b → replaceAll old new 0 (b ++ s) = b ++ replaceAll old new 0 s
  | [], _ => rfl
  | c :: cs, hb => by
    have h1 : ¬ old.isPrefixOf (c :: (cs ++ s)) = true := by
      intro hp
      rw [List.isPrefixOf_iff_prefix, ← List.cons_append] at hp
      rcases prefix_append hp with hp | ⟨r, hr, hp⟩
      · exact hb hp.isInfix
      · by_cases h0 : r = []
        · subst h0
          rw [List.append_nil] at hr
          exact hb (by rw [hr])
        · have h3 := h r (by rw [List.mem_tails, hr]; exact List.suffix_append _ r) h0 (by
            intro he
            have := congrArg List.length hr
            rw [← he] at this
            simp only [List.length_append, List.length_cons] at this
            omega)
          rw [List.isPrefixOf_iff_prefix.mpr hp] at h3
          cases h3
    have h2 : Free old cs := fun hi => hb (List.infix_cons hi)
    rw [List.cons_append, replaceAll, if_neg h1, replaceAll_append h cs h2, List.cons_append]

theorem stem_append {s : List Char} (h : ∀ t ∈ ".fits".toList.tails, t ≠ [] → t ≠ ".fits".toList →
    t.isPrefixOf s = false) :
    ∀ b : List Char, Free ".fits".toList b → stem (b ++ s) = b ++ stem s
  | [], _ => rfl
  | c :: cs, hb => by
    have h1 : ¬ ".fits".toList.isPrefixOf (c :: (cs ++ s)) = true := by
      intro hp
      rw [List.isPrefixOf_iff_prefix, ← List.cons_append] at hp
      rcases prefix_append hp with hp | ⟨r, hr, hp⟩
      · exact hb hp.isInfix
      · by_cases h0 : r = []
        · subst h0
          rw [List.append_nil] at hr
          exact hb (by rw [hr])
        · have h3 := h r (by rw [List.mem_tails, hr]; exact List.suffix_append _ r) h0 (by
            intro he
            have := congrArg List.length hr
            rw [← he] at this
            simp only [List.length_append, List.length_cons] at this
            omega)
          rw [List.isPrefixOf_iff_prefix.mpr hp] at h3
          cases h3
    have h2 : Free ".fits".toList cs := fun hi => hb (List.infix_cons hi)
    rw [List.cons_append, stem, if_neg h1, stem_append h cs h2, List.cons_append]

theorem free_level {b : List Char} (h : Free "_L".toList b) {c : Char} (hc : c = '_' ∨ c = '.') :
    Free "_L".toList (b ++ [c]) := by
  rcases hc with rfl | rfl
  · exact free_append h (by decide +kernel) (by decide +kernel)
  · exact free_append h (by decide +kernel) (by decide +kernel)

theorem stem_level {b : List Char} (hb : Free ".fits".toList b) (l : Level) :
    stem (b ++ (l.tag ++ ".fits".toList)) = b ++ l.tag := by
  rw [stem_append _ b hb]
  · cases l <;> rfl
  · cases l <;> decide +kernel

/-! ## C128 -/

/-- The products whose name comes from replacing the level tag. -/
def Kind.Substitutes (k : Kind) : Prop := k ∈ [.flat, .nonlin, .kgain, .bpm, .ct, .ndf]

/-- **C128** For an input named by the convention, every product but the astrometric calibration is named
by the convention: the level is replaced by the tag of the product. -/
theorem C128_convention_partial (k : Kind) (hk : k ≠ .ast) {b : List Char} (hb : Base b) (l : Level) :
    default k (b ++ (l.tag ++ ".fits".toList)) = b ++ (k.tag ++ ".fits".toList) := by
  have hsub : ∀ r : List Char, reSub r 0 (b ++ (l.tag ++ ".fits".toList)) = b ++ (r ++ ".fits".toList) := by
    intro r
    rw [reSub_append]
    · cases l <;> rfl
    · have : (l.tag ++ ".fits".toList).take 1 = ['_'] := by cases l <;> rfl
      rw [this]
      exact free_level hb.level (Or.inl rfl)
  have hsuf : ∀ t : List Char, reSub [] 0 t = t → t.take 1 = ['_'] →
      reSub [] 0 (stem (b ++ (l.tag ++ ".fits".toList)) ++ t) = b ++ t := by
    intro t ht h1
    rw [stem_level hb.ext, List.append_assoc, reSub_append]
    · have : reSub [] 0 (l.tag ++ t) = reSub [] 0 t := by cases l <;> rfl
      rw [this, ht]
    · have : (l.tag ++ t).take 1 = ['_'] := by cases l <;> rfl
      rw [this]
      exact free_level hb.level (Or.inl rfl)
  cases k with
  | ast => exact absurd rfl hk
  | flat => exact hsub _
  | nonlin => exact hsub _
  | kgain => exact hsub _
  | ct => exact hsub _
  | ndf => exact hsub _
  | bpm =>
    have hc : contains "_FLT_CAL".toList (b ++ (l.tag ++ ".fits".toList)) = false := by
      rw [← Bool.not_eq_true, contains_iff]
      refine free_append hb.flt ?_ ?_
      · cases l <;> decide +kernel
      · cases l <;> decide +kernel
    rw [default, hc, if_neg Bool.false_ne_true]
    exact hsub _
  | dnm => rw [default, List.append_assoc]; exact hsuf _ rfl rfl
  | trap => rw [default, List.append_assoc]; exact hsuf _ rfl rfl
  | flux => rw [default, List.append_assoc]; exact hsuf _ rfl rfl
  | dark =>
    rw [default, List.append_assoc, hsuf _ rfl rfl]
    exact replaceAll_free _ _ _ (free_append hb.dnm (by decide +kernel) (by decide +kernel))

/-- **C128** Violated: the astrometric calibration keeps the level of its input in its name, before its
own tag. -/
theorem C128_violated_ast {b : List Char} (hb : Base b) (l : Level) :
    default .ast (b ++ (l.tag ++ ".fits".toList)) = b ++ (l.tag ++ (Kind.ast.tag ++ ".fits".toList)) ∧
    default .ast (b ++ (l.tag ++ ".fits".toList)) ≠ b ++ (Kind.ast.tag ++ ".fits".toList) := by
  have h : default .ast (b ++ (l.tag ++ ".fits".toList)) =
      b ++ (l.tag ++ (Kind.ast.tag ++ ".fits".toList)) := by
    rw [default, stem_level hb.ext]
    simp only [List.append_assoc]
  refine ⟨h, ?_⟩
  rw [h]
  intro he
  have := congrArg List.length he
  have hl : l.tag.length = 4 := by cases l <;> rfl
  simp only [List.length_append, hl] at this
  omega

/-- **C128** A dark synthesized from a noise map named by the convention is named by the convention. -/
theorem C128_synthesized {b : List Char} (hb : Base b) :
    default .dark (b ++ (Kind.dnm.tag ++ ".fits".toList)) = b ++ (Kind.dark.tag ++ ".fits".toList) := by
  have h1 : stem (b ++ (Kind.dnm.tag ++ ".fits".toList)) = b ++ Kind.dnm.tag := by
    rw [stem_append (by decide +kernel) b hb.ext]; rfl
  rw [default, h1, List.append_assoc, List.append_assoc, reSub_append]
  · rw [show reSub [] 0 (Kind.dnm.tag ++ (Kind.dark.tag ++ ".fits".toList)) =
      Kind.dnm.tag ++ (Kind.dark.tag ++ ".fits".toList) from rfl,
      replaceAll_append (old := "_DNM_CAL".toList) (new := [])
        (s := Kind.dnm.tag ++ (Kind.dark.tag ++ ".fits".toList)) (by decide +kernel) b hb.dnm]
    rfl
  · exact free_level hb.level (Or.inl rfl)

/-- **C128** A bad pixel map made with a flat named by the convention is named by the convention. -/
theorem C128_bad_pixels {b : List Char} (hb : Base b) :
    default .bpm (b ++ (Kind.flat.tag ++ ".fits".toList)) = b ++ (Kind.bpm.tag ++ ".fits".toList) := by
  have hc : contains "_FLT_CAL".toList (b ++ (Kind.flat.tag ++ ".fits".toList)) = true := by
    rw [contains_iff]
    exact ⟨b, ".fits".toList, List.append_assoc _ _ _⟩
  have h := replaceAll_append (old := "_FLT_CAL".toList) (new := "_BPM_CAL".toList)
    (s := Kind.flat.tag ++ ".fits".toList) (by decide +kernel) b hb.flt
  rw [default, hc, if_pos rfl, h]
  rfl

/-- **C128** Products of different kinds or with different beginnings have different names. -/
theorem C128_injective {k k' : Kind} {b b' : List Char} (l l' : Level) (hk : k ≠ .ast) (hk' : k' ≠ .ast)
    (hb : Base b) (hb' : Base b')
    (h : default k (b ++ (l.tag ++ ".fits".toList)) = default k' (b' ++ (l'.tag ++ ".fits".toList))) :
    k = k' ∧ b = b' := by
  rw [C128_convention_partial k hk hb, C128_convention_partial k' hk' hb'] at h
  have hl : ∀ k : Kind, (k.tag ++ ".fits".toList).length = 13 := by intro k; cases k <;> rfl
  have h2 := List.append_inj_right' h (by rw [hl, hl])
  have h1 := List.append_inj_left' h (by rw [hl, hl])
  refine ⟨?_, h1⟩
  have h3 := List.append_cancel_right h2
  revert h3
  cases k <;> cases k' <;> decide +kernel

/-- **C128** The level of the input is not part of the name: products from frames of the same exposure at
different levels have the same name. -/
theorem C128_level_lost (k : Kind) (hk : k ≠ .ast) {b : List Char} (hb : Base b) (l l' : Level) :
    default k (b ++ (l.tag ++ ".fits".toList)) = default k (b ++ (l'.tag ++ ".fits".toList)) := by
  rw [C128_convention_partial k hk hb, C128_convention_partial k hk hb]

theorem replaceAll_ne {old new : List Char} (hl : old.length = new.length) (hne : old ≠ new)  :
    ∀ s : List Char, old ≠ [] → old <:+: s → replaceAll old new 0 s ≠ s
  | [], h0, h => absurd (List.infix_nil.mp h) h0
  | c :: cs, h0, h => by
    rw [replaceAll]
    split_ifs with hp
    · intro he
      obtain ⟨t, ht⟩ := List.isPrefixOf_iff_prefix.mp hp
      rw [← ht] at he
      exact hne (List.append_inj_left he hl.symm).symm
    · intro he
      rw [List.cons.injEq] at he
      rw [List.isPrefixOf_iff_prefix] at hp
      exact replaceAll_ne hl hne cs h0 ((List.infix_cons_iff.mp h).resolve_left hp) he.2

/-- **C128** Exactly when is the default name of the product that of the input (so that saving it in the
directory of the input overwrites the input): for the products that replace the level tag, if there is no such tag
in the name, and for a bad pixel map no tag of a flat either. -/
theorem C128_same_name_iff {k : Kind} (hk : k.Substitutes) (n : List Char) :
    default k n = n ↔ ¬ HasTag n ∧ (k = .bpm → Free "_FLT_CAL".toList n) := by
  have hlen : 5 ≤ k.tag.length := by cases k <;> decide
  by_cases hb : k = .bpm
  · subst hb
    rw [default]
    by_cases hc : contains "_FLT_CAL".toList n = true
    · rw [if_pos hc]
      have hi := (contains_iff _ _).mp hc
      constructor
      · intro h
        exact absurd h (replaceAll_ne (old := "_FLT_CAL".toList) (new := "_BPM_CAL".toList)
          rfl (by decide +kernel) n (by decide +kernel) hi)
      · intro h
        exact absurd hi (h.2 rfl)
    · rw [if_neg hc, reSub_eq_iff _ hlen]
      constructor
      · exact fun h => ⟨h, fun _ hi => hc ((contains_iff _ _).mpr hi)⟩
      · exact fun h => h.1
  · have : default k n = reSub k.tag 0 n := by
      cases k <;> first | rfl | (exact absurd rfl hb) | (simp [Kind.Substitutes] at hk)
    rw [this, reSub_eq_iff _ hlen]
    exact ⟨fun h => ⟨h, fun e => absurd e hb⟩, fun h => h.1⟩

/-- **C128** Violated: the other way of writing the level, `_L1.fits`: the dot of the extension is replaced
too. -/
theorem C128_violated_extension {k : Kind} (hk : k.Substitutes) {b : List Char} (hb : Base b) {d : Char}
    (h0 : '0' ≤ d) (h9 : d ≤ '9') :
    default k (b ++ ['_', 'L', d] ++ ".fits".toList) = b ++ (k.tag ++ "fits".toList) := by
  have hsub : ∀ r : List Char, reSub r 0 (b ++ ['_', 'L', d] ++ ".fits".toList) = b ++ (r ++ "fits".toList) := by
    intro r
    rw [List.append_assoc, reSub_append]
    · have ht : tagHere ('_' :: 'L' :: d :: ".fits".toList) = true := by
        rw [tagHere_iff]
        exact ⟨d, '.', "fits".toList, rfl, h0, h9, by decide⟩
      have : reSub r 0 (['_', 'L', d] ++ ".fits".toList) = r ++ "fits".toList := by
        have e : ['_', 'L', d] ++ ".fits".toList = '_' :: 'L' :: d :: ".fits".toList := rfl
        have e2 : ".fits".toList = ['.', 'f', 'i', 't', 's'] := rfl
        have e3 : "fits".toList = ['f', 'i', 't', 's'] := rfl
        rw [e, reSub, if_pos ht, e2, e3]
        simp [reSub, tagHere]
      rw [this]
    · exact free_level hb.level (Or.inl rfl)
  have hd : 'F' ≠ d := by rintro rfl; exact absurd h9 (by decide +kernel)
  by_cases hbp : k = .bpm
  · subst hbp
    have hc : contains "_FLT_CAL".toList (b ++ ['_', 'L', d] ++ ".fits".toList) = false := by
      rw [← Bool.not_eq_true, contains_iff, List.append_assoc]
      refine free_append hb.flt ?_ ?_
      · have e2 : ".fits".toList = ['.', 'f', 'i', 't', 's'] := rfl
        have e3 : "_FLT_CAL".toList = ['_', 'F', 'L', 'T', '_', 'C', 'A', 'L'] := rfl
        rw [e2, e3]
        simp [contains, List.isPrefixOf]
      · have e2 : ".fits".toList = ['.', 'f', 'i', 't', 's'] := rfl
        have e3 : "_FLT_CAL".toList = ['_', 'F', 'L', 'T', '_', 'C', 'A', 'L'] := rfl
        rw [e2, e3]
        simp [List.isPrefixOf]
    rw [default, hc, if_neg Bool.false_ne_true]
    exact hsub _
  · have : ∀ n, default k n = reSub k.tag 0 n := by
      intro n
      cases k <;> first | rfl | (exact absurd rfl hbp) | (simp [Kind.Substitutes] at hk)
    rw [this]
    exact hsub _

/-- A name of the convention. -/
example : Base "CGI_0200001001001001001_20250415T0305102".toList :=
  ⟨fun h => absurd ((contains_iff _ _).mpr h) (by decide +kernel),
    fun h => absurd ((contains_iff _ _).mpr h) (by decide +kernel),
    fun h => absurd ((contains_iff _ _).mpr h) (by decide +kernel),
    fun h => absurd ((contains_iff _ _).mpr h) (by decide +kernel)⟩

example : default .flat "a_L2b.fits".toList = "a_FLT_CAL.fits".toList := by decide +kernel

example : default .kgain "kgain_frame.fits".toList = "kgain_frame.fits".toList := by decide +kernel

example : default .kgain "a_L1.fits".toList = "a_KRN_CALfits".toList := by decide +kernel

example : default .dark "a_L1.fits".toList = "aDRK_CAL.fits".toList := by decide +kernel

end Corgi.Names

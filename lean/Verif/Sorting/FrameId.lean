import Mathlib.Data.List.Basic
import Mathlib.Data.List.TakeWhile
import Mathlib.Data.Nat.Notation

/-!
# C133: `extract_frame_id` (`corgidrp/sorting.py` 6-20)

File names are lists of characters.  `int` is modelled on decimal digits; the signs and spaces that
python also accepts are refused here.
-/

namespace Corgi.Sorting.FrameId

/-- `filename[::-1].find(c)`: how many characters follow the last `c`; `none` for -1. -/
def fromEnd (c : Char) (name : List Char) : Option ℕ :=
  if c ∈ name then some (name.reverse.takeWhile (· ≠ c)).length else none

/-- Line 16: `len(filename) - filename[::-1].find('_')`, with `len + 1` for a name without one. -/
def start (name : List Char) : ℕ :=
  match fromEnd '_' name with
  | some k => name.length - k
  | none => name.length + 1

/-- Line 17: `len(filename) - filename[::-1].find('.') - 1`, with `len` for a name without one. -/
def stop (name : List Char) : ℕ :=
  match fromEnd '.' name with
  | some k => name.length - k - 1
  | none => name.length

/-- The value of a list of decimal digits. -/
def value (ds : List Char) : ℕ := ds.foldl (fun n c => 10 * n + (c.toNat - '0'.toNat)) 0

/-- `int(...)`; `none` is a `ValueError`. -/
def toInt (ds : List Char) : Option ℕ :=
  if ds ≠ [] ∧ ∀ c ∈ ds, c.isDigit = true then some (value ds) else none

/-- `extract_frame_id` (lines 17-20). -/
def frameId (name : List Char) : Option ℕ := toInt ((name.take (stop name)).drop (start name))

/-! ### Specification -/

/-- The identifier is the number between the last underscore and the extension, if there is one. -/
inductive HasId : List Char → ℕ → Prop
  | ext {pre ds ext : List Char} : ds ≠ [] → (∀ c ∈ ds, c.isDigit = true) → '_' ∉ ext → '.' ∉ ext →
      HasId (pre ++ '_' :: ds ++ '.' :: ext) (value ds)
  | bare {pre ds : List Char} : ds ≠ [] → (∀ c ∈ ds, c.isDigit = true) → '.' ∉ pre →
      HasId (pre ++ '_' :: ds) (value ds)

/-! ### Lemmas -/

theorem fromEnd_append (c : Char) (a b : List Char) (hb : c ∉ b) :
    fromEnd c (a ++ c :: b) = some b.length := by
  unfold fromEnd
  rw [if_pos (by simp)]
  have h : (a ++ c :: b).reverse = b.reverse ++ c :: a.reverse := by simp
  rw [h, List.takeWhile_append_of_pos]
  · simp
  · intro x hx
    have : x ∈ b := List.mem_reverse.1 hx
    simp only [ne_eq, decide_not, Bool.not_eq_true', decide_eq_false_iff_not]
    rintro rfl
    exact hb this

theorem fromEnd_none {c : Char} {name : List Char} (h : c ∉ name) : fromEnd c name = none := by
  simp [fromEnd, h]

/-- A name that contains `c` splits at the last one. -/
theorem split_last {c : Char} {name : List Char} (h : c ∈ name) : ∃ a b, name = a ++ c :: b ∧ c ∉ b := by
  induction name with
  | nil => cases h
  | cons x xs ih =>
    by_cases hx : c ∈ xs
    · obtain ⟨a, b, hab, hb⟩ := ih hx
      exact ⟨x :: a, b, by rw [hab]; rfl, hb⟩
    · rcases List.mem_cons.1 h with rfl | h
      · exact ⟨[], xs, rfl, hx⟩
      · exact absurd h hx

theorem digit_ne {ds : List Char} (h : ∀ c ∈ ds, c.isDigit = true) : '_' ∉ ds ∧ '.' ∉ ds :=
  ⟨fun hm => absurd (h _ hm) (by decide), fun hm => absurd (h _ hm) (by decide)⟩

theorem toInt_some_iff {ds : List Char} {n : ℕ} :
    toInt ds = some n ↔ ds ≠ [] ∧ (∀ c ∈ ds, c.isDigit = true) ∧ n = value ds := by
  unfold toInt
  by_cases h : ds ≠ [] ∧ ∀ c ∈ ds, c.isDigit = true
  · rw [if_pos h]
    constructor
    · intro e; exact ⟨h.1, h.2, (Option.some.inj e).symm⟩
    · rintro ⟨_, _, rfl⟩; rfl
  · rw [if_neg h]
    constructor
    · intro e; cases e
    · rintro ⟨h1, h2, _⟩; exact absurd ⟨h1, h2⟩ h

/-! ### C133 -/

/-- For every name: an identifier is found exactly when the name has one, and it is that one. -/
theorem C133_id_iff (name : List Char) (n : ℕ) : frameId name = some n ↔ HasId name n := by
  constructor
  · intro h
    unfold frameId at h
    rw [toInt_some_iff] at h
    obtain ⟨hne, hd, rfl⟩ := h
    by_cases hu : '_' ∈ name
    · obtain ⟨a, b, rfl, hb⟩ := split_last hu
      have hs : start (a ++ '_' :: b) = a.length + 1 := by
        simp only [start, fromEnd_append _ _ _ hb, List.length_append, List.length_cons]
        omega
      by_cases hp : '.' ∈ a ++ '_' :: b
      · by_cases hpb : '.' ∈ b
        · obtain ⟨c, e, rfl, he⟩ := split_last hpb
          have hst : stop (a ++ '_' :: (c ++ '.' :: e)) = (a ++ '_' :: c).length := by
            have h1 : a ++ '_' :: (c ++ '.' :: e) = (a ++ '_' :: c) ++ '.' :: e := by simp
            rw [h1]
            simp only [stop, fromEnd_append _ _ _ he, List.length_append, List.length_cons]
            omega
          have hsl : ((a ++ '_' :: (c ++ '.' :: e)).take (stop (a ++ '_' :: (c ++ '.' :: e)))).drop
              (start (a ++ '_' :: (c ++ '.' :: e))) = c := by
            rw [hst, hs]
            have h1 : a ++ '_' :: (c ++ '.' :: e) = (a ++ '_' :: c) ++ '.' :: e := by simp
            rw [h1, List.take_left]
            have h2 : a ++ '_' :: c = (a ++ ['_']) ++ c := by simp
            rw [h2]
            exact List.drop_left' (by simp)
          rw [hsl] at hne hd ⊢
          have h1 : a ++ '_' :: (c ++ '.' :: e) = a ++ '_' :: c ++ '.' :: e := by simp
          rw [h1]
          refine .ext hne hd ?_ he
          intro hm
          exact hb (by simp [hm])
        · exfalso
          apply hne
          have hpa : '.' ∈ a := by
            rcases List.mem_append.1 hp with h | h
            · exact h
            · rcases List.mem_cons.1 h with h | h
              · exact absurd h (by decide)
              · exact absurd h hpb
          obtain ⟨c, e, rfl, he⟩ := split_last hpa
          have hst : stop (c ++ '.' :: e ++ '_' :: b) = c.length := by
            have h1 : c ++ '.' :: e ++ '_' :: b = c ++ '.' :: (e ++ '_' :: b) := by simp
            have h2 : '.' ∉ e ++ '_' :: b := by
              intro hm
              rcases List.mem_append.1 hm with h | h
              · exact he h
              · rcases List.mem_cons.1 h with h | h
                · exact absurd h (by decide)
                · exact hpb h
            rw [h1]
            simp only [stop, fromEnd_append _ _ _ h2, List.length_append, List.length_cons]
            omega
          rw [hst, hs]
          apply List.drop_eq_nil_of_le
          simp
          omega
      · have hst : stop (a ++ '_' :: b) = (a ++ '_' :: b).length := by
          simp only [stop, fromEnd_none hp]
        have hsl : ((a ++ '_' :: b).take (stop (a ++ '_' :: b))).drop (start (a ++ '_' :: b)) = b := by
          rw [hst, hs, List.take_length]
          have h2 : a ++ '_' :: b = (a ++ ['_']) ++ b := by simp
          rw [h2]
          exact List.drop_left' (by simp)
        rw [hsl] at hne hd ⊢
        exact .bare hne hd (fun hm => hp (List.mem_append_left _ hm))
    · exfalso
      apply hne
      have hs : start name = name.length + 1 := by simp only [start, fromEnd_none hu]
      rw [hs]
      apply List.drop_eq_nil_of_le
      have := List.length_take_le (stop name) name
      have := List.length_take_le' (stop name) name
      omega
  · intro h
    unfold frameId
    rw [toInt_some_iff]
    cases h with
    | @ext pre ds ext hne hd hu hp =>
      obtain ⟨hdu, hdp⟩ := digit_ne hd
      have h1 : pre ++ '_' :: ds ++ '.' :: ext = pre ++ '_' :: (ds ++ '.' :: ext) := by simp
      have hub : '_' ∉ ds ++ '.' :: ext := by
        intro hm
        rcases List.mem_append.1 hm with h | h
        · exact hdu h
        · rcases List.mem_cons.1 h with h | h
          · exact absurd h (by decide)
          · exact hu h
      have hs : start (pre ++ '_' :: ds ++ '.' :: ext) = (pre ++ ['_']).length := by
        rw [h1]
        simp only [start, fromEnd_append _ _ _ hub, List.length_append, List.length_cons,
          List.length_nil]
        omega
      have hst : stop (pre ++ '_' :: ds ++ '.' :: ext) = (pre ++ '_' :: ds).length := by
        simp only [stop, fromEnd_append _ _ _ hp, List.length_append, List.length_cons]
        omega
      have hsl : ((pre ++ '_' :: ds ++ '.' :: ext).take (stop (pre ++ '_' :: ds ++ '.' :: ext))).drop
          (start (pre ++ '_' :: ds ++ '.' :: ext)) = ds := by
        rw [hs, hst, List.take_left]
        have h2 : pre ++ '_' :: ds = (pre ++ ['_']) ++ ds := by simp
        rw [h2]
        exact List.drop_left' (by simp)
      rw [hsl]
      exact ⟨hne, hd, rfl⟩
    | @bare pre ds hne hd hpre =>
      obtain ⟨hdu, hdp⟩ := digit_ne hd
      have hp : '.' ∉ pre ++ '_' :: ds := by
        intro hm
        rcases List.mem_append.1 hm with h | h
        · exact hpre h
        · rcases List.mem_cons.1 h with h | h
          · exact absurd h (by decide)
          · exact hdp h
      have hs : start (pre ++ '_' :: ds) = (pre ++ ['_']).length := by
        simp only [start, fromEnd_append _ _ _ hdu, List.length_append, List.length_cons,
          List.length_nil]
        omega
      have hst : stop (pre ++ '_' :: ds) = (pre ++ '_' :: ds).length := by
        simp only [stop, fromEnd_none hp]
      have hsl : ((pre ++ '_' :: ds).take (stop (pre ++ '_' :: ds))).drop (start (pre ++ '_' :: ds)) = ds := by
        rw [hs, hst, List.take_length]
        have h2 : pre ++ '_' :: ds = (pre ++ ['_']) ++ ds := by simp
        rw [h2]
        exact List.drop_left' (by simp)
      rw [hsl]
      exact ⟨hne, hd, rfl⟩

/-- Non-vacuity: `a_L1_0012.fits` is frame 12. -/
example : frameId "a_L1_0012.fits".toList = some 12 := by decide +kernel

/-- **Violation.**  No name of the form the pipeline itself uses for its data levels has an
identifier: `..._L1_.fits` (data as delivered), `..._L2a.fits`, `..._L2b.fits` raise whatever comes
before. -/
theorem C133_violated_level_names (pre : List Char) :
    frameId (pre ++ "_L1_.fits".toList) = none ∧ frameId (pre ++ "_L2a.fits".toList) = none ∧
    frameId (pre ++ "_L2b.fits".toList) = none := by
  have key : ∀ (a ds ext : List Char), '_' ∉ ds → '_' ∉ ext → '.' ∉ ext →
      ¬ (ds ≠ [] ∧ ∀ c ∈ ds, c.isDigit = true) → frameId (a ++ '_' :: ds ++ '.' :: ext) = none := by
    intro a ds ext h1 h2 h3 h4
    cases hf : frameId (a ++ '_' :: ds ++ '.' :: ext) with
    | none => rfl
    | some n =>
      exfalso
      apply h4
      unfold frameId at hf
      have hub : '_' ∉ ds ++ '.' :: ext := by
        intro hm
        rcases List.mem_append.1 hm with h | h
        · exact h1 h
        · rcases List.mem_cons.1 h with h | h
          · exact absurd h (by decide)
          · exact h2 h
      have hs : start (a ++ '_' :: ds ++ '.' :: ext) = (a ++ ['_']).length := by
        have h1 : a ++ '_' :: ds ++ '.' :: ext = a ++ '_' :: (ds ++ '.' :: ext) := by simp
        rw [h1]
        simp only [start, fromEnd_append _ _ _ hub, List.length_append, List.length_cons,
          List.length_nil]
        omega
      have hst : stop (a ++ '_' :: ds ++ '.' :: ext) = (a ++ '_' :: ds).length := by
        simp only [stop, fromEnd_append _ _ _ h3, List.length_append, List.length_cons]
        omega
      rw [hs, hst, List.take_left] at hf
      have h2 : a ++ '_' :: ds = (a ++ ['_']) ++ ds := by simp
      rw [h2, List.drop_left' (by simp)] at hf
      rw [toInt_some_iff] at hf
      exact ⟨hf.1, hf.2.1⟩
  refine ⟨?_, ?_, ?_⟩
  · have e : pre ++ "_L1_.fits".toList = (pre ++ ['_', 'L', '1']) ++ '_' :: [] ++ '.' :: ['f', 'i', 't', 's'] := by
      have : "_L1_.fits".toList = ['_', 'L', '1', '_', '.', 'f', 'i', 't', 's'] := by decide +kernel
      rw [this]; simp
    rw [e]
    exact key _ _ _ (by decide) (by decide) (by decide) (by decide)
  · have e : pre ++ "_L2a.fits".toList = pre ++ '_' :: ['L', '2', 'a'] ++ '.' :: ['f', 'i', 't', 's'] := by
      have : "_L2a.fits".toList = ['_', 'L', '2', 'a', '.', 'f', 'i', 't', 's'] := by decide +kernel
      rw [this]; simp
    rw [e]
    exact key _ _ _ (by decide) (by decide) (by decide) (by decide)
  · have e : pre ++ "_L2b.fits".toList = pre ++ '_' :: ['L', '2', 'b'] ++ '.' :: ['f', 'i', 't', 's'] := by
      have : "_L2b.fits".toList = ['_', 'L', '2', 'b', '.', 'f', 'i', 't', 's'] := by decide +kernel
      rw [this]; simp
    rw [e]
    exact key _ _ _ (by decide) (by decide) (by decide) (by decide)

/-- **Violation.**  A compressed file has no identifier. -/
theorem C133_violated_compressed (pre ds : List Char) (hd : ∀ c ∈ ds, c.isDigit = true) :
    frameId (pre ++ '_' :: ds ++ ".fits.gz".toList) = none := by
  cases hf : frameId (pre ++ '_' :: ds ++ ".fits.gz".toList) with
  | none => rfl
  | some n =>
    exfalso
    have hg : ".fits.gz".toList = ['.', 'f', 'i', 't', 's', '.', 'g', 'z'] := by decide +kernel
    rw [hg] at hf
    unfold frameId at hf
    obtain ⟨hdu, hdp⟩ := digit_ne hd
    have h1 : pre ++ '_' :: ds ++ ['.', 'f', 'i', 't', 's', '.', 'g', 'z'] =
        pre ++ '_' :: (ds ++ ['.', 'f', 'i', 't', 's', '.', 'g', 'z']) := by simp
    have h2 : pre ++ '_' :: ds ++ ['.', 'f', 'i', 't', 's', '.', 'g', 'z'] =
        (pre ++ '_' :: ds ++ ['.', 'f', 'i', 't', 's']) ++ '.' :: ['g', 'z'] := by simp
    have hs : start (pre ++ '_' :: ds ++ ['.', 'f', 'i', 't', 's', '.', 'g', 'z']) =
        (pre ++ ['_']).length := by
      rw [h1]
      have hub : '_' ∉ ds ++ ['.', 'f', 'i', 't', 's', '.', 'g', 'z'] := by
        simp [hdu]
      simp only [start, fromEnd_append _ _ _ hub, List.length_append, List.length_cons,
        List.length_nil]
      omega
    have hst : stop (pre ++ '_' :: ds ++ ['.', 'f', 'i', 't', 's', '.', 'g', 'z']) =
        (pre ++ '_' :: ds ++ ['.', 'f', 'i', 't', 's']).length := by
      rw [h2]
      simp only [stop, fromEnd_append _ _ _ (show '.' ∉ ['g', 'z'] by decide), List.length_append,
        List.length_cons, List.length_nil]
      omega
    rw [hst, hs, h2, List.take_left] at hf
    have h3 : pre ++ '_' :: ds ++ ['.', 'f', 'i', 't', 's'] =
        (pre ++ ['_']) ++ (ds ++ ['.', 'f', 'i', 't', 's']) := by simp
    rw [h3, List.drop_left' rfl, toInt_some_iff] at hf
    exact absurd (hf.2.1 '.' (by simp)) (by decide)

/-- **Violation.**  Leading zeros do not count: different files can have the same identifier. -/
theorem C133_violated_zeros (pre ds ext : List Char) (hne : ds ≠ [])
    (hd : ∀ c ∈ ds, c.isDigit = true) (hu : '_' ∉ ext) (hp : '.' ∉ ext) :
    frameId (pre ++ '_' :: ('0' :: ds) ++ '.' :: ext) = frameId (pre ++ '_' :: ds ++ '.' :: ext) := by
  have h1 := (C133_id_iff _ _).2 (HasId.ext (pre := pre) hne hd hu hp)
  have h2 := (C133_id_iff _ _).2 (HasId.ext (pre := pre) (ds := '0' :: ds) (ext := ext) (by simp)
    (by
      intro c hc
      rcases List.mem_cons.1 hc with rfl | hc
      · decide
      · exact hd c hc) hu hp)
  rw [h1, h2]
  simp [value]

end Corgi.Sorting.FrameId

import Mathlib.Data.List.Basic
import Mathlib.Data.List.Infix
import Mathlib.Data.List.DropRight
import Mathlib.Data.List.Nodup

/-!
# C132: the names of saved files and of templates (`corgidrp/walker.py` 83-90, 305-344)

Names are lists of characters.  `lower` is python's `str.lower` restricted to ASCII letters (the
non-ASCII letters whose lower case is longer, such as U+0130, would shift the index found in the
lower-cased text; they do not occur in the file names of the pipeline).
-/

namespace Corgi.Walker.Save

/-- `s.lower()`. -/
def lower (l : List Char) : List Char := l.map Char.toLower

/-- `l.rfind(p)`, `none` for -1. -/
def rfind (p : List Char) : List Char → Option ℕ
  | [] => if p = [] then some 0 else none
  | c :: cs =>
    match rfind p cs with
    | some k => some (k + 1)
    | none => if p <+: c :: cs then some 0 else none

def fits : List Char := ['.', 'f', 'i', 't', 's']

/-- `filename[:fits_index]` (walker.py 329-330): the index -1 of a missing extension cuts off the
last character. -/
def base (name : List Char) : List Char :=
  match rfind fits (lower name) with
  | some k => name.take k
  | none => name.dropLast

/-- `suffix.strip("_")` (walker.py 326). -/
def strip (s : List Char) : List Char := (s.dropWhile (· = '_')).rdropWhile (· = '_')

/-- The file names handed to `Dataset.save` (walker.py 323-336); `none` = the names the images have
(data.py 87-91). -/
def saved (suffix : List Char) (names : List (List Char)) : List (List Char) :=
  if suffix ≠ [] then names.map fun n => base n ++ '_' :: strip suffix ++ fits
  else names

/-- `walk_corgidrp`: which file a template given as text is read from (walker.py 84-88). -/
def templatePath (recipeDir t : List Char) : List Char :=
  if '/' ∉ t then recipeDir ++ '/' :: t else t

/-! ### Specification -/

/-- `name` ends in the extension, in any case, and has no other one before that. -/
def HasExt (name stem : List Char) : Prop := ∃ e, name = stem ++ e ∧ lower e = fits

/-! ### Lemmas -/

theorem rfind_none {p l : List Char} (h : rfind p l = none) : ¬ p <:+: l := by
  induction l with
  | nil =>
    intro hp
    have := List.infix_nil.1 hp
    subst this
    simp [rfind] at h
  | cons c cs ih =>
    intro hp
    simp only [rfind] at h
    cases hr : rfind p cs with
    | some k => rw [hr] at h; simp at h
    | none =>
      rw [hr] at h
      by_cases hpre : p <+: c :: cs
      · simp [hpre] at h
      · rcases List.infix_cons_iff.1 hp with h1 | h1
        · exact hpre h1
        · exact ih hr h1

theorem rfind_some {p l : List Char} {k : ℕ} (h : rfind p l = some k) :
    k ≤ l.length ∧ p <+: l.drop k ∧ ∀ j, k < j → ¬ (j ≤ l.length ∧ p <+: l.drop j) ∨ p = [] := by
  induction l generalizing k with
  | nil =>
    by_cases hp : p = []
    · simp only [rfind, if_pos hp] at h
      cases h
      subst hp
      simp
    · simp [rfind, hp] at h
  | cons c cs ih =>
    simp only [rfind] at h
    cases hr : rfind p cs with
    | some m =>
      rw [hr] at h
      cases h
      obtain ⟨h1, h2, h3⟩ := ih hr
      refine ⟨by simpa using h1, by simpa using h2, ?_⟩
      intro j hj
      obtain ⟨j', rfl⟩ : ∃ j', j = j' + 1 := ⟨j - 1, by omega⟩
      have := h3 j' (by omega)
      simpa using this
    | none =>
      rw [hr] at h
      by_cases hpre : p <+: c :: cs
      · simp only [if_pos hpre] at h
        cases h
        refine ⟨by simp, by simpa using hpre, ?_⟩
        intro j hj
        obtain ⟨j', rfl⟩ : ∃ j', j = j' + 1 := ⟨j - 1, by omega⟩
        left
        rintro ⟨_, h2⟩
        have hin : p <:+: cs := by
          rw [List.drop_succ_cons] at h2
          exact h2.isInfix.trans (List.drop_suffix j' cs).isInfix
        exact rfind_none hr hin
      · simp [hpre] at h

theorem lower_append (a b : List Char) : lower (a ++ b) = lower a ++ lower b := by
  simp [lower]

theorem lower_length (a : List Char) : (lower a).length = a.length := by simp [lower]

/-- The last occurrence is found: a name `stem ++ e ++ rest` with `e` the extension and no further
occurrence has the base `stem`. -/
theorem base_of_last {stem e rest : List Char} (he : lower e = fits)
    (hl : ∀ j, 0 < j → ¬ fits <+: (lower (e ++ rest)).drop j) : base (stem ++ e ++ rest) = stem := by
  have hlen : (lower (stem ++ e ++ rest)).length = stem.length + (e ++ rest).length := by
    rw [lower_length]; simp
  have hdrop : ∀ m, (lower (stem ++ e ++ rest)).drop (stem.length + m) = (lower (e ++ rest)).drop m := by
    intro m
    rw [List.append_assoc, lower_append, ← lower_length stem, List.drop_append]
    simp
  have hpre : fits <+: (lower (stem ++ e ++ rest)).drop (stem.length + 0) := by
    rw [hdrop 0, List.drop_zero, lower_append, he]
    exact List.prefix_append _ _
  unfold base
  cases hr : rfind fits (lower (stem ++ e ++ rest)) with
  | none =>
    exact absurd (hpre.isInfix.trans (List.drop_suffix _ _).isInfix) (rfind_none hr)
  | some k =>
    obtain ⟨h1, h2, h3⟩ := rfind_some hr
    have hk : k = stem.length := by
      rcases Nat.lt_trichotomy k stem.length with hlt | heq | hgt
      · exfalso
        rcases h3 (stem.length + 0) (by omega) with h4 | h4
        · exact h4 ⟨by omega, hpre⟩
        · simp [fits] at h4
      · exact heq
      · exfalso
        have h5 := hdrop (k - stem.length)
        rw [show stem.length + (k - stem.length) = k by omega] at h5
        rw [h5] at h2
        exact hl _ (by omega) h2
    subst hk
    simp

theorem no_later_fits (e : List Char) (he : lower e = fits) :
    ∀ j, 0 < j → ¬ fits <+: (lower (e ++ [])).drop j := by
  intro j hj hp
  rw [List.append_nil, he] at hp
  have := hp.length_le
  simp [fits] at this
  omega

/-! ### C132 -/

/-- A name that ends in `.fits`, in any case, keeps everything before the extension: the saved name
is stem, underscore, suffix, `.fits`. -/
theorem C132_named (stem name : List Char) (h : HasExt name stem) (suffix : List Char)
    (hs : suffix ≠ []) : saved suffix [name] = [stem ++ '_' :: strip suffix ++ fits] := by
  obtain ⟨e, rfl, he⟩ := h
  have := base_of_last (stem := stem) (rest := []) he (no_later_fits e he)
  rw [List.append_nil] at this
  simp [saved, hs, this]

/-- The suffix is written without its leading and trailing underscores, and only those are lost. -/
theorem C132_suffix (s : List Char) :
    ∃ a b, s = a ++ strip s ++ b ∧ (∀ c ∈ a, c = '_') ∧ (∀ c ∈ b, c = '_') ∧
      (strip s).head? ≠ some '_' ∧ (strip s).getLast? ≠ some '_' := by
  have h1 : s = s.takeWhile (· = '_') ++ s.dropWhile (· = '_') :=
    List.takeWhile_append_dropWhile.symm
  have h2 : s.dropWhile (· = '_') = strip s ++ (s.dropWhile (· = '_')).rtakeWhile (· = '_') :=
    List.rdropWhile_append_rtakeWhile.symm
  refine ⟨s.takeWhile (· = '_'), (s.dropWhile (· = '_')).rtakeWhile (· = '_'), ?_, ?_, ?_, ?_, ?_⟩
  · rw [List.append_assoc, ← h2]
    exact h1
  · intro c hc
    simpa using List.mem_takeWhile_imp hc
  · intro c hc
    simpa using List.mem_rtakeWhile_imp hc
  · intro hh
    have h3 : (s.dropWhile (· = '_')).head? = some '_' := by
      rw [h2]
      cases hst : strip s with
      | nil => rw [hst] at hh; cases hh
      | cons c l => rw [hst] at hh; simpa using hh
    have h4 := List.head?_dropWhile_not (p := (· = '_')) s
    rw [h3] at h4
    simp at h4
  · intro hl
    have hne : strip s ≠ [] := by
      intro h0; rw [h0] at hl; cases hl
    have := List.rdropWhile_last_not (fun c => decide (c = '_')) (s.dropWhile (· = '_')) hne
    rw [List.getLast?_eq_some_getLast hne] at hl
    apply this
    have h5 := Option.some.inj hl
    rw [decide_eq_true_eq]
    exact h5

/-- Without a suffix every image keeps its name. -/
theorem C132_no_suffix (names : List (List Char)) : saved [] names = names := by simp [saved]

/-- Two images are written to the same file exactly when their bases agree, whatever the suffix. -/
theorem C132_same_file_iff (suffix a b : List Char) (hs : suffix ≠ []) :
    saved suffix [a] = saved suffix [b] ↔ base a = base b := by
  simp [saved, hs]

/-- Images whose names end in `.fits`, written in lower case, and differ, go to different files. -/
theorem C132_distinct_partial (suffix : List Char) (names stems : List (List Char))
    (hn : names = stems.map (· ++ fits)) (hd : names.Nodup) : (saved suffix names).Nodup := by
  subst hn
  by_cases hs : suffix = []
  · subst hs; rw [C132_no_suffix]; exact hd
  · have hb : ∀ st : List Char, base (st ++ fits) = st := by
      intro st
      have := base_of_last (stem := st) (e := fits) (rest := []) (by decide) (no_later_fits fits (by decide))
      rwa [List.append_nil] at this
    have h2 : stems.Nodup := List.Nodup.of_map _ hd
    have : saved suffix (stems.map (· ++ fits)) = stems.map (· ++ ('_' :: strip suffix ++ fits)) := by
      simp only [saved, ne_eq, hs, not_false_eq_true, if_true, List.map_map]
      apply List.map_congr_left
      intro st _
      simp only [Function.comp, hb, List.append_assoc]
    rw [this]
    exact List.Nodup.map (fun a b hab => List.append_cancel_right hab) h2

/-- Non-vacuity: `a.fits`, `b.FITS` with the suffix `_dark`. -/
example : saved ['_', 'd'] [['a', '.', 'f', 'i', 't', 's'], ['b', '.', 'F', 'I', 'T', 'S']] =
    [['a', '_', 'd', '.', 'f', 'i', 't', 's'], ['b', '_', 'd', '.', 'f', 'i', 't', 's']] := by decide

/-- **Violation.**  A name without the extension loses its last character, so any two such names
that differ only there are written to the same file. -/
theorem C132_violated_no_extension (suffix stem : List Char) (c d : Char) (hs : suffix ≠ [])
    (hc : ¬ fits <:+: lower (stem ++ [c])) (hd : ¬ fits <:+: lower (stem ++ [d])) :
    saved suffix [stem ++ [c], stem ++ [d]] =
      [stem ++ '_' :: strip suffix ++ fits, stem ++ '_' :: strip suffix ++ fits] := by
  have key : ∀ c, ¬ fits <:+: lower (stem ++ [c]) → base (stem ++ [c]) = stem := by
    intro c hc
    unfold base
    cases hr : rfind fits (lower (stem ++ [c])) with
    | none => simp
    | some k =>
      obtain ⟨_, h2, _⟩ := rfind_some hr
      exact absurd (h2.isInfix.trans (List.drop_suffix _ _).isInfix) hc
  simp [saved, hs, key c hc, key d hd]

/-- **Violation.**  What follows the extension is lost: for every stem a compressed file and its
uncompressed twin are written to the same file. -/
theorem C132_violated_after_extension (suffix stem : List Char) (hs : suffix ≠ []) :
    saved suffix [stem ++ fits ++ ['.', 'g', 'z'], stem ++ fits] =
      [stem ++ '_' :: strip suffix ++ fits, stem ++ '_' :: strip suffix ++ fits] := by
  have h1 : base (stem ++ fits ++ ['.', 'g', 'z']) = stem := by
    apply base_of_last (by decide)
    intro j hj hp
    have hl : (lower (fits ++ ['.', 'g', 'z'])) = ['.', 'f', 'i', 't', 's', '.', 'g', 'z'] := by decide
    rw [hl] at hp
    have hlen := hp.length_le
    simp only [fits, List.length_drop, List.length_cons, List.length_nil] at hlen
    have hj3 : j = 1 ∨ j = 2 ∨ j = 3 := by omega
    rcases hj3 with rfl | rfl | rfl <;> revert hp <;> decide
  have h2 : base (stem ++ fits) = stem := by
    have := base_of_last (stem := stem) (e := fits) (rest := []) (by decide) (no_later_fits fits (by decide))
    rwa [List.append_nil] at this
  simp only [saved, if_pos hs, List.map_cons, List.map_nil, h1, h2]

/-- **Violation.**  The case of the extension is lost too: `a.fits` and `a.FITS` collide. -/
theorem C132_violated_case (suffix stem e : List Char) (hs : suffix ≠ []) (he : lower e = fits) :
    saved suffix [stem ++ e, stem ++ fits] =
      [stem ++ '_' :: strip suffix ++ fits, stem ++ '_' :: strip suffix ++ fits] := by
  have h1 := C132_named stem (stem ++ e) ⟨e, rfl, he⟩ suffix hs
  have h2 := C132_named stem (stem ++ fits) ⟨fits, rfl, by decide⟩ suffix hs
  simp only [saved, if_pos hs, List.map_cons, List.map_nil] at h1 h2 ⊢
  rw [List.cons.inj h1 |>.1, List.cons.inj h2 |>.1]

/-- A suffix made of underscores only is not empty, so an underscore is still written. -/
theorem C132_violated_underscores (k : ℕ) (stem : List Char) :
    saved (List.replicate (k + 1) '_') [stem ++ fits] = [stem ++ '_' :: fits] := by
  have hst : strip (List.replicate (k + 1) '_') = [] := by
    unfold strip
    have : (List.replicate (k + 1) '_').dropWhile (· = '_') = [] := by
      rw [List.dropWhile_eq_nil_iff]
      intro c hc
      simpa using (List.mem_replicate.1 hc).2
    rw [this]
    rfl
  have := C132_named stem (stem ++ fits) ⟨fits, rfl, by decide⟩ (List.replicate (k + 1) '_') (by simp)
  rw [this, hst]
  simp

/-- A template given as a path is read from that path, a bare name from the recipe folder. -/
theorem C132_template_path_iff (dir t : List Char) :
    (templatePath dir t = t ↔ '/' ∈ t) ∧ (templatePath dir t = dir ++ '/' :: t ↔ '/' ∉ t) := by
  unfold templatePath
  have hne : dir ++ '/' :: t ≠ t := by
    intro h
    have := congrArg List.length h
    simp at this
    omega
  by_cases h : '/' ∈ t
  · simp [h, Ne.symm hne]
  · simp [h, hne]

/-- **Violation.**  A template in the working directory cannot be given by its bare name: whatever
the name, the one of the recipe folder is read. -/
theorem C132_violated_relative (dir t : List Char) (ht : '/' ∉ t) :
    templatePath dir t ≠ t := by
  intro h
  exact ht ((C132_template_path_iff dir t).1.1 h)

end Corgi.Walker.Save

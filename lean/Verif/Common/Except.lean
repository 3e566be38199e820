import Mathlib.Data.List.Forall2

/-!
Helper lemmas: `mapM` in the exception monad.
-/

namespace Corgi

deriving instance DecidableEq for Except

theorem mapM_ok_iff {ε α β : Type} {f : α → Except ε β} {l : List α} {r : List β} :
    l.mapM f = .ok r ↔ List.Forall₂ (fun a b => f a = .ok b) l r := by
  induction l generalizing r with
  | nil =>
    constructor
    · intro h
      simp [pure, Except.pure] at h
      subst h; exact .nil
    · intro h; cases h; rfl
  | cons a l ih =>
    rw [List.mapM_cons]
    cases hf : f a with
    | error e =>
      simp only [bind, Except.bind]
      constructor
      · intro h; cases h
      · intro h; cases h with | cons h1 _ => rw [hf] at h1; cases h1
    | ok b =>
      cases hl : l.mapM f with
      | error e =>
        simp only [bind, Except.bind]
        constructor
        · intro h; cases h
        · intro h
          cases h with
          | cons h1 h2 =>
            have := ih.2 h2
            rw [hl] at this; cases this
      | ok bs =>
        simp only [bind, Except.bind, pure, Except.pure]
        constructor
        · intro h
          cases h
          exact .cons hf (ih.1 hl)
        · intro h
          cases h with
          | cons h1 h2 =>
            rw [hf] at h1; cases h1
            have := ih.2 h2
            rw [hl] at this; cases this; rfl

/-- A failing `mapM` fails with the error of its first failing element. -/
theorem mapM_error_iff {ε α β : Type} {f : α → Except ε β} {l : List α} {e : ε} :
    l.mapM f = .error e ↔
      ∃ pre a post, l = pre ++ a :: post ∧ (∀ x ∈ pre, ∃ y, f x = .ok y) ∧ f a = .error e := by
  induction l with
  | nil => simp [pure, Except.pure]
  | cons a l ih =>
    rw [List.mapM_cons]
    cases hf : f a with
    | error e' =>
      simp only [bind, Except.bind]
      constructor
      · intro h; cases h; exact ⟨[], a, l, rfl, by simp, hf⟩
      · rintro ⟨pre, x, post, h1, h2, h3⟩
        cases pre with
        | nil => simp at h1; rw [← h1.1, hf] at h3; cases h3; rfl
        | cons y pre =>
          simp at h1
          obtain ⟨z, hz⟩ := h2 y (by simp)
          rw [← h1.1, hf] at hz; cases hz
    | ok b =>
      have key : (∃ pre x post, a :: l = pre ++ x :: post ∧ (∀ x ∈ pre, ∃ y, f x = .ok y) ∧
            f x = .error e) ↔
          (∃ pre x post, l = pre ++ x :: post ∧ (∀ x ∈ pre, ∃ y, f x = .ok y) ∧ f x = .error e) := by
        constructor
        · rintro ⟨pre, x, post, h1, h2, h3⟩
          cases pre with
          | nil => simp at h1; rw [← h1.1, hf] at h3; cases h3
          | cons y pre =>
            simp at h1
            exact ⟨pre, x, post, h1.2, fun z hz => h2 z (by simp [hz]), h3⟩
        · rintro ⟨pre, x, post, h1, h2, h3⟩
          refine ⟨a :: pre, x, post, by simp [h1], ?_, h3⟩
          intro z hz
          rcases List.mem_cons.1 hz with rfl | hz
          · exact ⟨b, hf⟩
          · exact h2 z hz
      rw [key, ← ih]
      cases hl : l.mapM f with
      | error e' => simp [bind, Except.bind]
      | ok bs => simp [bind, Except.bind, pure, Except.pure]

/-- `mapM` succeeds exactly when every call does. -/
theorem mapM_ok_exists {ε α β : Type} {f : α → Except ε β} {l : List α} :
    (∃ r, l.mapM f = .ok r) ↔ ∀ x ∈ l, ∃ y, f x = .ok y := by
  induction l with
  | nil => simp [pure, Except.pure]
  | cons a as ih =>
    rw [List.mapM_cons, List.forall_mem_cons, ← ih]
    cases ha : f a with
    | error e => simp [bind, Except.bind]
    | ok v =>
      cases has : as.mapM f with
      | error e => simp [bind, Except.bind]
      | ok w => simp [bind, Except.bind, pure, Except.pure]

end Corgi

import Mathlib.Data.Rat.Defs
import Mathlib.Algebra.Order.Ring.Rat
import Mathlib.Tactic.NormNum

/-!
# `nan_flags` and `flag_nans` (detector.py 573-613): model and C43

A dataset is a function of the pixel index (frame, row, column); both functions work on `all_data`, `all_dq` of a deep copy.
NaN is `none`. The error is given by its square (`add_error_term` adds squares).
-/

namespace Corgi.NanFlags

variable {ι : Type*}

structure Px where
  data : Option ℚ
  var : Option ℚ
  dq : ℤ
  deriving DecidableEq

/-- NaN propagates -/
def add : Option ℚ → Option ℚ → Option ℚ
  | some a, some b => some (a + b)
  | _, _ => none

/-- lines 573-594 -/
def nanFlags (thr : ℤ) (d : ι → Px) : ι → Px := fun i =>
  let bad := thr ≤ (d i).dq
  { d i with data := if bad then none else (d i).data, var := add (d i).var (if bad then none else some 0) }

/-- lines 596-613 -/
def flagNans (val : ℤ) (d : ι → Px) : ι → Px := fun i =>
  { d i with dq := if (d i).data = none then val else (d i).dq }

/-- **C43** NaN are exactly the flagged pixels and those that were NaN already. -/
theorem C43_nan_iff (thr : ℤ) (d : ι → Px) (i : ι) :
    (nanFlags thr d i).data = none ↔ thr ≤ (d i).dq ∨ (d i).data = none := by
  by_cases h : thr ≤ (d i).dq <;> simp [nanFlags, h]

/-- **C43** All other pixels are unchanged, and no DQ value changes. -/
theorem C43_others (thr : ℤ) (d : ι → Px) (i : ι) :
    ((d i).dq < thr → nanFlags thr d i = d i) ∧ (nanFlags thr d i).dq = (d i).dq := by
  refine ⟨fun h => ?_, rfl⟩
  unfold nanFlags
  have : ¬ thr ≤ (d i).dq := not_le.2 h
  cases hv : (d i).var <;> simp [this, add] <;> rw [← hv]

/-- **C43** The error is NaN exactly for flagged pixels and where it was NaN. -/
theorem C43_error (thr : ℤ) (d : ι → Px) (i : ι) :
    (nanFlags thr d i).var = none ↔ thr ≤ (d i).dq ∨ (d i).var = none := by
  by_cases h : thr ≤ (d i).dq <;> cases hv : (d i).var <;> simp [nanFlags, h, hv, add]

/-- **C43** `flag_nans`: NaN pixels get the value, all other DQ values are kept; data and errors are unchanged. -/
theorem C43_flag (val : ℤ) (d : ι → Px) (i : ι) :
    ((d i).data = none → (flagNans val d i).dq = val) ∧ ((d i).data ≠ none → flagNans val d i = d i) ∧
    (flagNans val d i).data = (d i).data ∧ (flagNans val d i).var = (d i).var := by
  refine ⟨fun h => by simp [flagNans, h], fun h => by simp [flagNans, h], rfl, rfl⟩

/-- **C43 (false)** Earlier flags of a NaN pixel are lost: a cosmic ray pixel (128) marked NaN becomes plain bad (1). -/
theorem C43_violated : ∃ (d : Unit → Px), (d ()).dq = 128 ∧ (flagNans 1 (nanFlags 1 d) ()).dq = 1 :=
  ⟨fun _ => ⟨some 3, some 1, 128⟩, by decide +kernel⟩

/-- **C43 (partial)** A DQ value is kept exactly if the pixel is not NaN or had that value. -/
theorem C43_kept_iff (val : ℤ) (d : ι → Px) (i : ι) :
    (flagNans val d i).dq = (d i).dq ↔ (d i).data ≠ none ∨ (d i).dq = val := by
  by_cases h : (d i).data = none
  · simp only [flagNans, h, if_true, ne_eq, not_true, false_or]; exact eq_comm
  · simp [flagNans, h]

/-- **C43** Round trip: after both steps the pixels at or above the threshold are the flagged ones and the NaN ones, and
these are exactly the NaN ones. -/
theorem C43_roundtrip {thr val : ℤ} (hv : thr ≤ val) (d : ι → Px) (i : ι) :
    (thr ≤ (flagNans val (nanFlags thr d) i).dq ↔ thr ≤ (d i).dq ∨ (d i).data = none) ∧
    ((flagNans val (nanFlags thr d) i).data = none ↔ thr ≤ (flagNans val (nanFlags thr d) i).dq) := by
  have h1 : thr ≤ (flagNans val (nanFlags thr d) i).dq ↔ thr ≤ (d i).dq ∨ (d i).data = none := by
    by_cases h : (nanFlags thr d i).data = none
    · rw [(C43_flag val (nanFlags thr d) i).1 h]
      exact iff_of_true hv ((C43_nan_iff thr d i).1 h)
    · rw [(C43_flag val (nanFlags thr d) i).2.1 h, (C43_others thr d i).2]
      have := mt (C43_nan_iff thr d i).2 h
      tauto
  exact ⟨h1, by rw [(C43_flag val (nanFlags thr d) i).2.2.1, C43_nan_iff, h1]⟩

/-- Both are idempotent. -/
theorem C43_idempotent (thr val : ℤ) (d : ι → Px) :
    nanFlags thr (nanFlags thr d) = nanFlags thr d ∧ flagNans val (flagNans val d) = flagNans val d := by
  constructor <;> funext i
  · unfold nanFlags
    by_cases h : thr ≤ (d i).dq <;> cases hv : (d i).var <;> simp [h, add]
  · unfold flagNans
    by_cases h : (d i).data = none <;> simp [h]

example : (nanFlags 2 (fun i : ℕ => ⟨some i, some 1, i⟩) 1, nanFlags 2 (fun i : ℕ => ⟨some i, some 1, i⟩) 2) =
    (⟨some 1, some 1, 1⟩, ⟨none, none, 2⟩) := by decide +kernel

end Corgi.NanFlags

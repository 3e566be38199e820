import Mathlib.Algebra.Order.Floor.Ring
import Mathlib.Algebra.Order.Round
import Mathlib.Data.Rat.Floor
import Mathlib.Tactic.Linarith
import Mathlib.Tactic.FieldSimp
import Mathlib.Algebra.Group.Int.Even
import Mathlib.Algebra.Order.Ring.Rat

/-!
# `numpy.round`: to the nearest integer, halves to even
-/

namespace Corgi

/-- `np.round(q)` -/
def npRound (q : ℚ) : ℤ :=
  if q - ⌊q⌋ < 1 / 2 then ⌊q⌋
  else if 1 / 2 < q - ⌊q⌋ then ⌊q⌋ + 1
  else if Even ⌊q⌋ then ⌊q⌋ else ⌊q⌋ + 1

theorem npRound_near (q : ℚ) : |(npRound q : ℚ) - q| ≤ 1 / 2 := by
  have h0 := Int.floor_le q
  have h1 := Int.lt_floor_add_one q
  unfold npRound
  split_ifs <;> rw [abs_le] <;> push_cast <;> constructor <;> linarith

/-- No integer is nearer. -/
theorem npRound_nearest (q : ℚ) (z : ℤ) : |(npRound q : ℚ) - q| ≤ |(z : ℚ) - q| := by
  by_cases h : z = npRound q
  · rw [h]
  · have h1 := npRound_near q
    have h2 : 1 ≤ |(z : ℚ) - npRound q| := by
      have : (1 : ℤ) ≤ |z - npRound q| := Int.one_le_abs (sub_ne_zero.2 h)
      exact_mod_cast this
    have h3 : |(z : ℚ) - npRound q| ≤ |(z : ℚ) - q| + |(npRound q : ℚ) - q| := by
      have := abs_sub_le (z : ℚ) q (npRound q)
      rwa [abs_sub_comm q] at this
    linarith

theorem npRound_int (z : ℤ) : npRound z = z := by
  unfold npRound
  simp

/-- Halves go to the even neighbour. -/
theorem npRound_half (z : ℤ) : Even (npRound ((z : ℚ) + 1 / 2)) := by
  have hf : ⌊(z : ℚ) + 1 / 2⌋ = z := by
    rw [Int.floor_eq_iff]; constructor <;> linarith
  unfold npRound
  rw [hf, if_neg (by linarith), if_neg (by linarith)]
  split_ifs with h
  · exact h
  · exact Int.even_add_one.2 h

end Corgi

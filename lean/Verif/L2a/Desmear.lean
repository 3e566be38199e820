import Mathlib.Algebra.BigOperators.Intervals
import Mathlib.Algebra.Field.Basic
import Mathlib.Algebra.Field.Rat
import Mathlib.Tactic.FieldSimp
import Mathlib.Tactic.Ring
import Mathlib.Tactic.NormNum
import Mathlib.Tactic.Linarith
import Mathlib.Tactic.Positivity
import Mathlib.Algebra.Order.Field.Basic

/-!
# `desmear` (l2a_to_l2b.py 388-425): model and C25

The columns of a frame are independent; a column is a list of values in a field. Rounding and NaN are not
modelled.
-/

namespace Corgi.Desmear

variable {K : Type} [Field K]

/-- The inner loop (lines 414-417) for row `r`: `columnsum` over `s in range(r+1)`. `rho` is
`rowreadtime_sec/exptime_sec`. -/
def smear (rho : K) (col : ℕ → K) (r : ℕ) : K :=
  (List.range (r + 1)).foldl
    (fun (sum : K) (s : ℕ) => sum + rho * (1 + rho) ^ (((s : ℤ) + 1) - ((r : ℤ) + 1) - 1) * col s) 0

/-- One column of `m` rows: the smear of all rows is computed first, then subtracted (lines 410-419). -/
def desmearCol (rowread exptime : K) (col : List K) : List K :=
  (List.range col.length).map fun r =>
    (col[r]?).getD 0 - smear (rowread / exptime) (fun s => (col[s]?).getD 0) r

/-- Specification of the read-out: while the frame is shifted out, a pixel of row `r` collects for one row
time the light of each of the rows `0 .. r`, its own included. -/
def observe (rho : K) (true_ : List K) : List K :=
  (List.range true_.length).map fun r =>
    (true_[r]?).getD 0 + rho * ((List.range (r + 1)).map fun s => (true_[s]?).getD 0).sum

/-- Specification: running total of the first `n` values. -/
def total (f : ℕ → K) : ℕ → K
  | 0 => 0
  | n + 1 => total f n + f n

theorem sum_map_range (f : ℕ → K) (n : ℕ) : ((List.range n).map f).sum = total f n := by
  induction n with
  | zero => rfl
  | succ n ih => rw [List.range_succ, List.map_append, List.sum_append, ih]; simp [total]

theorem foldl_range (f : ℕ → K) (n : ℕ) :
    (List.range n).foldl (fun (sum : K) (s : ℕ) => sum + f s) 0 = total f n := by
  induction n with
  | zero => rfl
  | succ n ih => rw [List.range_succ, List.foldl_append, ih]; rfl

theorem total_mul (c : K) (f g : ℕ → K) (n : ℕ) (h : ∀ s, s < n → g s = c * f s) :
    total g n = c * total f n := by
  induction n with
  | zero => simp [total]
  | succ n ih =>
    simp only [total]
    rw [ih fun s hs => h s (by omega), h n (by omega)]; ring

/-- The sum in the code without the factor `rho`. -/
def G (rho : K) (d : ℕ → K) (r : ℕ) : K :=
  total (fun s => (1 + rho) ^ (((s : ℤ) + 1) - ((r : ℤ) + 1) - 1) * d s) (r + 1)

theorem smear_eq (rho : K) (d : ℕ → K) (r : ℕ) : smear rho d r = rho * G rho d r := by
  unfold smear
  rw [foldl_range (fun (s : ℕ) => rho * (1 + rho) ^ (((s : ℤ) + 1) - ((r : ℤ) + 1) - 1) * d s)]
  exact total_mul rho _ _ _ fun s _ => by ring

theorem G_zero (rho : K) (d : ℕ → K) : G rho d 0 = (1 + rho)⁻¹ * d 0 := by
  simp [G, total]

theorem G_succ (rho : K) (d : ℕ → K) (r : ℕ) (h : 1 + rho ≠ 0) :
    G rho d (r + 1) = (1 + rho)⁻¹ * (G rho d r + d (r + 1)) := by
  unfold G
  rw [total]
  rw [total_mul (1 + rho)⁻¹ (fun s => (1 + rho) ^ (((s : ℤ) + 1) - ((r : ℤ) + 1) - 1) * d s) _ (r + 1)
    fun s _ => by
      rw [← mul_assoc, ← zpow_neg_one, ← zpow_add₀ h]
      congr 2; push_cast; ring]
  have : (1 + rho) ^ (((r + 1 : ℕ) : ℤ) + 1 - (((r + 1 : ℕ) : ℤ) + 1) - 1) = (1 + rho)⁻¹ := by
    rw [← zpow_neg_one]; congr 1; ring
  rw [this]; ring

/-- The sum in the code recovers the light that has passed. -/
theorem G_observed (rho : K) (t d : ℕ → K) (h : 1 + rho ≠ 0) (n : ℕ)
    (hd : ∀ r, r < n → d r = t r + rho * total t (r + 1)) (r : ℕ) (hr : r < n) : G rho d r = total t (r + 1) := by
  induction r with
  | zero =>
    rw [G_zero, hd 0 hr]
    simp only [total]
    field_simp; ring
  | succ r ih =>
    rw [G_succ rho d r h, ih (by omega), hd (r + 1) hr]
    simp only [total]
    field_simp; ring

/-- Conversely, subtracting the smear leaves a column whose running total is the sum in the code. -/
theorem G_total (rho : K) (t d : ℕ → K) (h : 1 + rho ≠ 0) (n : ℕ)
    (ht : ∀ r, r < n → t r = d r - rho * G rho d r) (r : ℕ) (hr : r < n) : total t (r + 1) = G rho d r := by
  induction r with
  | zero =>
    simp only [total]
    rw [ht 0 hr, G_zero]
    field_simp; ring
  | succ r ih =>
    rw [total, ih (by omega), ht (r + 1) hr, G_succ rho d r h]
    field_simp; ring

theorem getD_desmear (rr te : K) (col : List K) (r : ℕ) (hr : r < col.length) :
    ((desmearCol rr te col)[r]?).getD 0
      = (col[r]?).getD 0 - smear (rr / te) (fun s => (col[s]?).getD 0) r := by
  unfold desmearCol
  rw [List.getElem?_map, List.getElem?_range hr]; rfl

theorem getD_observe (rho : K) (t : List K) (r : ℕ) (hr : r < t.length) :
    ((observe rho t)[r]?).getD 0
      = (t[r]?).getD 0 + rho * total (fun s => (t[s]?).getD 0) (r + 1) := by
  unfold observe
  rw [List.getElem?_map, List.getElem?_range hr, Option.map_some, Option.getD_some, sum_map_range]

theorem desmear_length (rr te : K) (col : List K) : (desmearCol rr te col).length = col.length := by
  simp [desmearCol]

theorem observe_length (rho : K) (col : List K) : (observe rho col).length = col.length := by
  simp [observe]

theorem ext_getD {l₁ l₂ : List K} (hl : l₁.length = l₂.length)
    (h : ∀ r, r < l₁.length → (l₁[r]?).getD 0 = (l₂[r]?).getD 0) : l₁ = l₂ := by
  apply List.ext_getElem hl
  intro r h1 h2
  have := h r h1
  rwa [List.getElem?_eq_getElem h1, List.getElem?_eq_getElem h2] at this

/-- **C25**, over any field: desmearing the observed column gives the true one, as long as
`1 + rowread/exptime` is not zero. -/
theorem C25_inverse (rr te : K) (h : 1 + rr / te ≠ 0) (t : List K) :
    desmearCol rr te (observe (rr / te) t) = t := by
  apply ext_getD
  · rw [desmear_length, observe_length]
  intro r hr
  rw [desmear_length, observe_length] at hr
  rw [getD_desmear _ _ _ _ (by rwa [observe_length]), smear_eq,
    G_observed (rr / te) (fun s => (t[s]?).getD 0) _ h t.length
      (fun r hr => getD_observe _ _ _ hr) r hr, getD_observe _ _ _ hr]
  ring

/-- **C25**, converse: the desmeared column, observed again, gives the data; so no other column explains
the data. -/
theorem C25_explains (rr te : K) (h : 1 + rr / te ≠ 0) (d : List K) :
    observe (rr / te) (desmearCol rr te d) = d := by
  apply ext_getD
  · rw [observe_length, desmear_length]
  intro r hr
  rw [observe_length, desmear_length] at hr
  rw [getD_observe _ _ _ (by rwa [desmear_length]),
    G_total (rr / te) _ (fun s => (d[s]?).getD 0) h d.length
      (fun r hr => by rw [getD_desmear _ _ _ _ hr, smear_eq]) r hr,
    getD_desmear _ _ _ _ hr, smear_eq]
  ring

/-- **C25**, uniqueness. -/
theorem C25_unique (rr te : K) (h : 1 + rr / te ≠ 0) (t d : List K) :
    observe (rr / te) t = d ↔ desmearCol rr te d = t := by
  constructor
  · rintro rfl; exact C25_inverse rr te h t
  · rintro rfl; exact C25_explains rr te h d

/-- **C25** for positive times. -/
theorem C25 {K : Type} [Field K] [LinearOrder K] [IsStrictOrderedRing K] (rr te : K) (hr : 0 < rr) (ht : 0 < te)
    (t : List K) : desmearCol rr te (observe (rr / te) t) = t :=
  C25_inverse rr te (by have := div_pos hr ht; positivity) t

/-- Not vacuous: a star in row 1 smears into the rows below and is recovered. -/
example : observe (1 / 4 : ℚ) [0, 8, 0] = [0, 10, 2] ∧ desmearCol (1 : ℚ) 4 [0, 10, 2] = [0, 8, 0] := by
  constructor
  · decide +kernel
  · have : observe (1 / 4 : ℚ) [0, 8, 0] = [0, 10, 2] := by decide +kernel
    rw [← this]; exact C25 1 4 (by norm_num) (by norm_num) _

end Corgi.Desmear

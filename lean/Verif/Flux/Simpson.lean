import Mathlib.Analysis.SpecialFunctions.Sqrt
import Mathlib.Data.List.Chain
import Mathlib.Tactic.FieldSimp
import Mathlib.Tactic.Linarith
import Mathlib.Tactic.Ring
import Mathlib.Tactic.Positivity
import Mathlib.Tactic.NormNum

/-!
# `scipy.integrate.simpson` and `np.interp`

Arrays over a wavelength grid are functions of the wavelength. The formulas are those of scipy ≥ 1.11 for given `x`
(trusted; `simpson_quadratic` shows that they integrate parabolas exactly).
-/

noncomputable section

namespace Corgi.Flux

/-- Two neighbouring intervals (`_basic_simpson`). -/
def tri (a b c : ℝ) (f : ℝ → ℝ) : ℝ :=
  (c - a) / 6 * (f a * (2 - (c - b) / (b - a)) + f b * ((c - a) * (c - a) / ((b - a) * (c - b))) + f c * (2 - (b - a) / (c - b)))

/-- The last interval of an even number of points. -/
def corr (b c d : ℝ) (f : ℝ → ℝ) : ℝ :=
  (2 * (d - c) ^ 2 + 3 * (c - b) * (d - c)) / (6 * (d - b)) * f d + ((d - c) ^ 2 + 3 * (c - b) * (d - c)) / (6 * (c - b)) * f c -
    (d - c) ^ 3 / (6 * (c - b) * (d - b)) * f b

def simpson : List ℝ → (ℝ → ℝ) → ℝ
  | [], _ => 0
  | [_], _ => 0
  | [a, b], f => (b - a) / 2 * (f a + f b)
  | [a, b, c], f => tri a b c f
  | [a, b, c, d], f => tri a b c f + corr b c d f
  | a :: b :: c :: d :: e :: r, f => tri a b c f + simpson (c :: d :: e :: r) f

/-- `np.interp` with the points as pairs: constant outside, ValueError without points. -/
def interp : List (ℝ × ℝ) → ℝ → Option ℝ
  | [], _ => none
  | [p], _ => some p.2
  | p :: q :: r, x => open Classical in
    if x ≤ p.1 then some p.2
    else if x ≤ q.1 then some (p.2 + (q.2 - p.2) * (x - p.1) / (q.1 - p.1))
    else interp (q :: r) x

/-! ## Linearity -/

theorem simpson_add : ∀ (g : List ℝ) (f f' : ℝ → ℝ), simpson g (fun x => f x + f' x) = simpson g f + simpson g f'
  | [], _, _ => by simp [simpson]
  | [_], _, _ => by simp [simpson]
  | [a, b], f, f' => by simp only [simpson]; ring
  | [a, b, c], f, f' => by simp only [simpson, tri]; ring
  | [a, b, c, d], f, f' => by simp only [simpson, tri, corr]; ring
  | a :: b :: c :: d :: e :: r, f, f' => by
    simp only [simpson]
    rw [simpson_add (c :: d :: e :: r) f f']
    simp only [tri]; ring

theorem simpson_smul : ∀ (g : List ℝ) (k : ℝ) (f : ℝ → ℝ), simpson g (fun x => k * f x) = k * simpson g f
  | [], _, _ => by simp [simpson]
  | [_], _, _ => by simp [simpson]
  | [a, b], k, f => by simp only [simpson]; ring
  | [a, b, c], k, f => by simp only [simpson, tri]; ring
  | [a, b, c, d], k, f => by simp only [simpson, tri, corr]; ring
  | a :: b :: c :: d :: e :: r, k, f => by
    simp only [simpson]
    rw [simpson_smul (c :: d :: e :: r) k f]
    simp only [tri]; ring

theorem simpson_congr : ∀ (g : List ℝ) {f f' : ℝ → ℝ}, (∀ x ∈ g, f x = f' x) → simpson g f = simpson g f'
  | [], _, _, _ => by simp [simpson]
  | [_], _, _, _ => by simp [simpson]
  | [a, b], f, f', h => by simp only [simpson]; rw [h a (by simp), h b (by simp)]
  | [a, b, c], f, f', h => by simp only [simpson, tri]; rw [h a (by simp), h b (by simp), h c (by simp)]
  | [a, b, c, d], f, f', h => by
    simp only [simpson, tri, corr]; rw [h a (by simp), h b (by simp), h c (by simp), h d (by simp)]
  | a :: b :: c :: d :: e :: r, f, f', h => by
    simp only [simpson]
    rw [simpson_congr (c :: d :: e :: r) fun x hx => h x (List.mem_cons_of_mem _ (List.mem_cons_of_mem _ hx))]
    simp only [tri]; rw [h a (by simp), h b (by simp), h c (by simp)]

/-! ## Exactness -/

/-- Parabolas are integrated exactly on any increasing grid of three or more points. -/
theorem simpson_quadratic : ∀ (g : List ℝ) (p q r : ℝ), g.IsChain (· < ·) → 3 ≤ g.length →
    simpson g (fun x => p * x ^ 2 + q * x + r) =
      (p * g.getLast?.getD 0 ^ 3 / 3 + q * g.getLast?.getD 0 ^ 2 / 2 + r * g.getLast?.getD 0) -
        (p * g.head?.getD 0 ^ 3 / 3 + q * g.head?.getD 0 ^ 2 / 2 + r * g.head?.getD 0)
  | [], _, _, _, _, h => by simp at h
  | [_], _, _, _, _, h => by simp at h
  | [_, _], _, _, _, _, h => by simp at h
  | [a, b, c], p, q, r, hc, _ => by
    simp only [List.isChain_cons_cons] at hc
    have h1 : b - a ≠ 0 := by linarith [hc.1]
    have h2 : c - b ≠ 0 := by linarith [hc.2.1]
    simp only [simpson, tri, List.head?_cons, Option.getD_some, List.getLast?_cons_cons, List.getLast?_singleton]
    field_simp
    ring
  | [a, b, c, d], p, q, r, hc, _ => by
    simp only [List.isChain_cons_cons] at hc
    have h1 : b - a ≠ 0 := by linarith [hc.1]
    have h2 : c - b ≠ 0 := by linarith [hc.2.1]
    have h3 : d - b ≠ 0 := by linarith [hc.2.1, hc.2.2.1]
    simp only [simpson, tri, corr, List.head?_cons, Option.getD_some, List.getLast?_cons_cons, List.getLast?_singleton]
    field_simp
    ring
  | a :: b :: c :: d :: e :: l, p, q, r, hc, _ => by
    have hc' := hc
    rw [List.isChain_cons_cons, List.isChain_cons_cons] at hc
    have h1 : b - a ≠ 0 := by linarith [hc.1]
    have h2 : c - b ≠ 0 := by linarith [hc.2.1]
    have ih := simpson_quadratic (c :: d :: e :: l) p q r hc.2.2 (by simp)
    simp only [simpson]
    rw [ih]
    simp only [tri, List.head?_cons, Option.getD_some, List.getLast?_cons_cons]
    field_simp
    ring

/-! ## Positivity on a uniform grid -/

theorem tri_uniform {h : ℝ} (hh : 0 < h) (a : ℝ) (f : ℝ → ℝ) {b c : ℝ} (hb : b = a + h) (hc : c = b + h) :
    tri a b c f = h / 3 * (f a + 4 * f b + f c) := by
  have e1 : b - a = h := by rw [hb]; ring
  have e2 : c - b = h := by rw [hc]; ring
  have e3 : c - a = 2 * h := by rw [hc, hb]; ring
  unfold tri; rw [e1, e2, e3]
  field_simp; ring

theorem corr_uniform {h : ℝ} (hh : 0 < h) (f : ℝ → ℝ) {b c d : ℝ} (hc : c = b + h) (hd : d = c + h) :
    corr b c d f = h / 12 * (5 * f d + 8 * f c - f b) := by
  have e1 : c - b = h := by rw [hc]; ring
  have e2 : d - c = h := by rw [hd]; ring
  have e3 : d - b = 2 * h := by rw [hd, hc]; ring
  unfold corr; rw [e1, e2, e3]
  field_simp; ring

/-- A uniform grid of step `h`. -/
def Uniform (h : ℝ) (g : List ℝ) : Prop := 0 < h ∧ g.IsChain fun a b => b = a + h

theorem simpson_nonneg {h : ℝ} : ∀ (g : List ℝ) {f : ℝ → ℝ}, Uniform h g → (∀ x ∈ g, 0 ≤ f x) → 0 ≤ simpson g f
  | [], _, _, _ => by simp [simpson]
  | [_], _, _, _ => by simp [simpson]
  | [a, b], f, hu, hf => by
    have := hu.1
    have hb : b = a + h := by have := hu.2; simpa using this
    have h1 := hf a (by simp); have h2 := hf b (by simp)
    simp only [simpson]
    rw [show b - a = h by rw [hb]; ring]; positivity
  | [a, b, c], f, hu, hf => by
    have := hu.1
    have hb := hu.2; simp only [List.isChain_cons_cons] at hb
    have h1 := hf a (by simp); have h2 := hf b (by simp); have h3 := hf c (by simp)
    simp only [simpson]
    rw [tri_uniform hu.1 a f hb.1 hb.2.1]; positivity
  | [a, b, c, d], f, hu, hf => by
    have := hu.1
    have hb := hu.2; simp only [List.isChain_cons_cons] at hb
    have h1 := hf a (by simp); have h2 := hf b (by simp); have h3 := hf c (by simp); have h4 := hf d (by simp)
    simp only [simpson]
    rw [tri_uniform hu.1 a f hb.1 hb.2.1, corr_uniform hu.1 f hb.2.1 hb.2.2.1]
    have e : h / 3 * (f a + 4 * f b + f c) + h / 12 * (5 * f d + 8 * f c - f b) =
        h / 12 * (4 * f a + 15 * f b + 12 * f c + 5 * f d) := by ring
    rw [e]; positivity
  | a :: b :: c :: d :: e :: r, f, hu, hf => by
    have := hu.1
    have hb := hu.2; rw [List.isChain_cons_cons, List.isChain_cons_cons] at hb
    have h1 := hf a (by simp); have h2 := hf b (by simp); have h3 := hf c (by simp)
    simp only [simpson]
    have ih := simpson_nonneg (c :: d :: e :: r) (f := f) ⟨hu.1, hb.2.2⟩ fun x hx =>
      hf x (List.mem_cons_of_mem _ (List.mem_cons_of_mem _ hx))
    rw [tri_uniform hu.1 a f hb.1 hb.2.1]
    have : 0 ≤ h / 3 * (f a + 4 * f b + f c) := by positivity
    linarith

theorem simpson_mono {h : ℝ} {g : List ℝ} {f f' : ℝ → ℝ} (hu : Uniform h g) (hf : ∀ x ∈ g, f x ≤ f' x) : simpson g f ≤ simpson g f' := by
  have := simpson_nonneg g (f := fun x => f' x + (-1) * f x) hu fun x hx => by have := hf x hx; linarith
  rw [simpson_add, simpson_smul] at this
  linarith

theorem simpson_pos {h : ℝ} {g : List ℝ} {f : ℝ → ℝ} (hu : Uniform h g) (h2 : 2 ≤ g.length) (hf : ∀ x ∈ g, 0 < f x) :
    0 < simpson g f := by
  match g, hu, h2, hf with
  | [a, b], hu, _, hf =>
    have := hu.1
    have hb : b = a + h := by have := hu.2; simpa using this
    have h1 := hf a (by simp); have h2 := hf b (by simp)
    simp only [simpson]
    rw [show b - a = h by rw [hb]; ring]; positivity
  | [a, b, c], hu, _, hf =>
    have := hu.1
    have hb := hu.2; simp only [List.isChain_cons_cons] at hb
    have h1 := hf a (by simp); have h2 := hf b (by simp); have h3 := hf c (by simp)
    simp only [simpson]
    rw [tri_uniform hu.1 a f hb.1 hb.2.1]; positivity
  | [a, b, c, d], hu, _, hf =>
    have := hu.1
    have hb := hu.2; simp only [List.isChain_cons_cons] at hb
    have h1 := hf a (by simp); have h2 := hf b (by simp); have h3 := hf c (by simp); have h4 := hf d (by simp)
    simp only [simpson]
    rw [tri_uniform hu.1 a f hb.1 hb.2.1, corr_uniform hu.1 f hb.2.1 hb.2.2.1]
    have e : h / 3 * (f a + 4 * f b + f c) + h / 12 * (5 * f d + 8 * f c - f b) =
        h / 12 * (4 * f a + 15 * f b + 12 * f c + 5 * f d) := by ring
    rw [e]; positivity
  | a :: b :: c :: d :: e :: r, hu, _, hf =>
    have := hu.1
    have hb := hu.2; rw [List.isChain_cons_cons, List.isChain_cons_cons] at hb
    have h1 := hf a (by simp); have h2 := hf b (by simp); have h3 := hf c (by simp)
    simp only [simpson]
    have ih := simpson_nonneg (c :: d :: e :: r) (f := f) ⟨hu.1, hb.2.2⟩ fun x hx =>
      (hf x (List.mem_cons_of_mem _ (List.mem_cons_of_mem _ hx))).le
    rw [tri_uniform hu.1 a f hb.1 hb.2.1]
    have : 0 < h / 3 * (f a + 4 * f b + f c) := by positivity
    linarith

/-- On other grids a weight can be negative: the integral of a positive function can be negative. -/
theorem simpson_negative : simpson [0, 1, 10] (fun x => if x = 0 then 1 else 0) = -35 / 3 := by
  simp [simpson, tri]; norm_num

/-! ## Interpolation -/

/-- Strictly increasing positions. -/
def Sorted (l : List (ℝ × ℝ)) : Prop := l.Pairwise fun p q => p.1 < q.1

/-- Between two neighbours: the straight line. -/
theorem interp_between {l₁ l₂ : List (ℝ × ℝ)} {p q : ℝ × ℝ} (hs : Sorted (l₁ ++ p :: q :: l₂)) {x : ℝ} (h1 : p.1 ≤ x)
    (h2 : x ≤ q.1) : interp (l₁ ++ p :: q :: l₂) x = some (p.2 + (q.2 - p.2) * (x - p.1) / (q.1 - p.1)) := by
  induction l₁ with
  | nil =>
    rw [List.nil_append, interp]
    split_ifs with h
    · have : x = p.1 := le_antisymm h h1
      rw [this]; simp
    · rfl
  | cons a l ih =>
    have hs' : Sorted (l ++ p :: q :: l₂) := List.Pairwise.of_cons hs
    rw [← ih hs']
    have ha : ∀ b ∈ l ++ p :: q :: l₂, a.1 < b.1 := (List.pairwise_cons.1 hs).1
    have hax : a.1 < x := lt_of_lt_of_le (ha p (by simp)) h1
    cases l with
    | nil =>
      rw [List.cons_append, List.nil_append, interp, if_neg (not_le.2 hax)]
      split_ifs with h
      · have hx : x = p.1 := le_antisymm h h1
        have hap : a.1 < p.1 := ha p (by simp)
        rw [interp, if_pos hx.le, hx]
        congr 1
        have : p.1 - a.1 ≠ 0 := by linarith
        field_simp; ring
      · rfl
    | cons b l =>
      rw [List.cons_append, List.cons_append, interp, if_neg (not_le.2 hax), if_neg]
      rw [not_le]
      have : b.1 < p.1 := (List.pairwise_cons.1 hs').1 p (by simp)
      linarith

/-- Before the first point: its value. -/
theorem interp_left {l : List (ℝ × ℝ)} {p : ℝ × ℝ} {x : ℝ} (h : x ≤ p.1) : interp (p :: l) x = some p.2 := by
  cases l with
  | nil => rfl
  | cons q r => rw [interp, if_pos h]

/-- After the last point: its value. -/
theorem interp_right {l : List (ℝ × ℝ)} {p : ℝ × ℝ} {x : ℝ} (hs : Sorted (l ++ [p])) (h : p.1 ≤ x) : interp (l ++ [p]) x = some p.2 := by
  induction l with
  | nil => rfl
  | cons a l ih =>
    have hs' : Sorted (l ++ [p]) := List.Pairwise.of_cons hs
    have ha : ∀ b ∈ l ++ [p], a.1 < b.1 := (List.pairwise_cons.1 hs).1
    have hax : a.1 < x := lt_of_lt_of_le (ha p (by simp)) h
    rw [← ih hs']
    cases l with
    | nil =>
      show interp (a :: p :: []) x = interp [p] x
      rw [interp.eq_3, if_neg (not_le.2 hax)]
      split_ifs with h'
      · have hx : x = p.1 := le_antisymm h' h
        have hap : a.1 < p.1 := ha p (by simp)
        have : p.1 - a.1 ≠ 0 := by linarith
        rw [interp, hx]
        congr 1
        field_simp; ring
      · rfl
    | cons b l =>
      rw [List.cons_append, List.cons_append, interp, if_neg (not_le.2 hax), if_neg]
      rw [not_le]
      have : b.1 < p.1 := (List.pairwise_cons.1 hs').1 p (by simp)
      linarith

theorem interp_none_iff (l : List (ℝ × ℝ)) (x : ℝ) : interp l x = none ↔ l = [] := by
  induction l with
  | nil => simp [interp]
  | cons p l ih =>
    cases l with
    | nil => simp [interp]
    | cons q r =>
      rw [interp]
      split_ifs
      · simp
      · simp
      · rw [ih]; simp

/-- The interpolated value lies between bounds of the values. -/
theorem interp_bounds {lo hi : ℝ} {l : List (ℝ × ℝ)} (hs : Sorted l) (h : ∀ p ∈ l, lo ≤ p.2 ∧ p.2 ≤ hi) {x v : ℝ}
    (hv : interp l x = some v) : lo ≤ v ∧ v ≤ hi := by
  induction l with
  | nil => cases hv
  | cons p l ih =>
    cases l with
    | nil => cases hv; exact h p (by simp)
    | cons q r =>
      rw [interp] at hv
      split_ifs at hv with h1 h2
      · cases hv; exact h p (by simp)
      · cases hv
        have hp := h p (by simp); have hq := h q (by simp)
        have hpq : p.1 < q.1 := (List.pairwise_cons.1 hs).1 q (by simp)
        have hd : 0 < q.1 - p.1 := by linarith
        set t := (x - p.1) / (q.1 - p.1) with ht
        have ht0 : 0 ≤ t := div_nonneg (by linarith) hd.le
        have ht1 : t ≤ 1 := (div_le_one hd).2 (by linarith)
        rw [mul_div_assoc, ← ht]
        constructor <;> nlinarith
      · exact ih (List.Pairwise.of_cons hs) (fun p' hp' => h p' (List.mem_cons_of_mem _ hp')) hv

/-- Scaling the values scales the result. -/
theorem interp_smul (l : List (ℝ × ℝ)) (k x : ℝ) : interp (l.map fun p => (p.1, k * p.2)) x = (interp l x).map (k * ·) := by
  induction l with
  | nil => rfl
  | cons p l ih =>
    cases l with
    | nil => rfl
    | cons q r =>
      simp only [List.map_cons] at ih ⊢
      rw [interp, interp]
      dsimp only
      split_ifs
      · rfl
      · simp only [Option.map_some]; congr 1; ring
      · exact ih

end Corgi.Flux

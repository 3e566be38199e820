import Mathlib.Algebra.Order.Ring.Rat
import Mathlib.Algebra.Order.Field.Basic
import Mathlib.Tactic.Linarith
import Mathlib.Tactic.FieldSimp
import Mathlib.Tactic.NormNum
import Mathlib.Tactic.Positivity
import Mathlib.Tactic.Push
import Mathlib.Tactic.Ring
import Verif.Common.ArgMin

/-!
# Choice of a fit (pump_trap_calibration.py 552-1198, 1200-1989, 2491-2509): model and C112, C113

`curve_fit` is unknown: for each curve and each of its two initial guesses it fails or gives parameters with their errors.
The adjusted R² is a number; amplitudes that are all equal (NaN) are left out. `trap_fit` and `trap_fit_const` make the same
choice; only the meaning of the first parameter differs.
-/

namespace Corgi.TrapFit

/-- Number of the probability function. -/
inductive Prob
  | one | two | three
  deriving DecidableEq, Repr

inductive Scheme
  | s1 | s2 | s3 | s4
  deriving DecidableEq, Repr

/-- capture parameter, its error, tau, its error -/
structure Par where
  cap : ℚ
  capErr : ℚ
  tau : ℚ
  tauErr : ℚ
  deriving DecidableEq, Repr

/-- Result of one `curve_fit`: adjusted R² and parameters of one or two traps. -/
structure Fit1 where
  r : ℚ
  p : Par
  deriving DecidableEq, Repr

structure Fit2 where
  r : ℚ
  p : Par
  q : Par
  deriving DecidableEq, Repr

/-- The results of `curve_fit` from the lower and the upper guess; `none`: raises. -/
structure Fits where
  one : Prob → Option Fit1 × Option Fit1
  two : Prob → Prob → Option Fit2 × Option Fit2

inductive Out
  /-- one trap -/
  | single (k : Prob) (p : Par)
  /-- two traps of an "above" or "below" pixel -/
  | pair (k : Prob) (p : Par) (k' : Prob) (p' : Par)
  /-- `'a'` and `'b'` of a "both" pixel -/
  | sides (ka : Prob) (a : Par) (kb : Prob) (b : Par)
  deriving DecidableEq, Repr

/-- Lines 743-765 and copies: `try` around both guesses; of equal values the upper guess is kept. -/
def best1 : Option Fit1 × Option Fit1 → Option Fit1
  | (some l, some u) => some (if l.r ≤ u.r then u else l)
  | _ => none

def best2 : Option Fit2 × Option Fit2 → Option Fit2
  | (some l, some u) => some (if l.r ≤ u.r then u else l)
  | _ => none

/-- Curves tried, in the order in which equal values are resolved: lines 792-803, 885-970 and 1025-1036, 1118-1198. -/
def kinds1 : Scheme → Prob × Prob
  | .s1 | .s2 => (.one, .two)
  | .s3 | .s4 => (.three, .two)

def kinds2 : Scheme → (Prob × Prob) × (Prob × Prob) × (Prob × Prob)
  | .s1 | .s2 => ((.one, .one), (.one, .two), (.two, .two))
  | .s3 | .s4 => ((.three, .three), (.two, .three), (.two, .two))

/-- What the first stage does: return nothing, return a fit, or go on. -/
inductive Stage
  | fail | accept (k : Prob) (p : Par) | next
  deriving DecidableEq

def stage1 (f : Fits) (s : Scheme) (thresh : ℚ) : Stage :=
  match best1 (f.one (kinds1 s).1), best1 (f.one (kinds1 s).2) with
  | some x, some y =>
    let m := max x.r y.r
    if thresh ≤ m ∧ m = x.r then .accept (kinds1 s).1 x.p
    else if thresh ≤ m ∧ m = y.r then .accept (kinds1 s).2 y.p
    else .next
  | _, _ => .fail

def stage2 (f : Fits) (s : Scheme) (thresh : ℚ) : Option ((Prob × Prob) × Fit2) :=
  let (k1, k2, k3) := kinds2 s
  match best2 (f.two k1.1 k1.2), best2 (f.two k2.1 k2.2), best2 (f.two k3.1 k3.2) with
  | some x, some y, some z =>
    let m := max (max x.r y.r) z.r
    if m < thresh then none
    else if m = x.r then some (k1, x)
    else if m = y.r then some (k2, y)
    else some (k3, z)
  | _, _, _ => none

/-- Lines 899-918 and copies. `peak k` is the time of the greatest "above" amplitude divided by the factor of curve `k`
(C109). -/
def sideOf (peak : Prob → ℚ) (k : Prob × Prob) (x : Fit2) : Out :=
  if |peak k.1 - x.p.tau| ≤ |peak k.2 - x.q.tau| then .sides k.1 x.p k.2 x.q else .sides k.2 x.q k.1 x.p

/-- `trap_fit`, `trap_fit_const`; `both`: the pixel is of the kind "both", with the estimates of its "above" side. -/
def fit (f : Fits) (s : Scheme) (thresh : ℚ) (both : Option (Prob → ℚ)) : Option Out :=
  match both with
  | some peak => (stage2 f s thresh).map fun (k, x) => sideOf peak k x
  | none => match stage1 f s thresh with
    | .fail => none
    | .accept k p => some (.single k p)
    | .next => (stage2 f s thresh).map fun (k, x) => .pair k.1 x.p k.2 x.q

/-! ## Candidates -/

/-- The fits from either guess. -/
def cand1 (f : Fits) (k : Prob) (x : Fit1) : Prop := (f.one k).1 = some x ∨ (f.one k).2 = some x
def cand2 (f : Fits) (k : Prob × Prob) (x : Fit2) : Prop := (f.two k.1 k.2).1 = some x ∨ (f.two k.1 k.2).2 = some x

def is1 (s : Scheme) (k : Prob) : Prop := k = (kinds1 s).1 ∨ k = (kinds1 s).2
def is2 (s : Scheme) (k : Prob × Prob) : Prop := k = (kinds2 s).1 ∨ k = (kinds2 s).2.1 ∨ k = (kinds2 s).2.2

/-- No `curve_fit` of the scheme raises. -/
def Total1 (f : Fits) (s : Scheme) : Prop := ∀ k, is1 s k → (f.one k).1.isSome ∧ (f.one k).2.isSome
def Total2 (f : Fits) (s : Scheme) : Prop := ∀ k, is2 s k → (f.two k.1 k.2).1.isSome ∧ (f.two k.1 k.2).2.isSome

theorem best1_spec {f : Fits} {k : Prob} {x : Fit1} (h : best1 (f.one k) = some x) :
    cand1 f k x ∧ ∀ y, cand1 f k y → y.r ≤ x.r := by
  unfold cand1
  generalize f.one k = p at *
  obtain ⟨l | l, u | u⟩ := p <;> simp only [best1, reduceCtorEq, Option.some.injEq] at h
  subst h
  simp only [Option.some.injEq]
  split
  · rename_i h
    exact ⟨Or.inr rfl, by rintro y (rfl | rfl); exacts [h, le_rfl]⟩
  · rename_i h
    exact ⟨Or.inl rfl, by rintro y (rfl | rfl); exacts [le_rfl, (not_le.1 h).le]⟩

theorem best2_spec {f : Fits} {k : Prob × Prob} {x : Fit2} (h : best2 (f.two k.1 k.2) = some x) :
    cand2 f k x ∧ ∀ y, cand2 f k y → y.r ≤ x.r := by
  unfold cand2
  generalize f.two k.1 k.2 = p at *
  obtain ⟨l | l, u | u⟩ := p <;> simp only [best2, reduceCtorEq, Option.some.injEq] at h
  subst h
  simp only [Option.some.injEq]
  split
  · rename_i h
    exact ⟨Or.inr rfl, by rintro y (rfl | rfl); exacts [h, le_rfl]⟩
  · rename_i h
    exact ⟨Or.inl rfl, by rintro y (rfl | rfl); exacts [le_rfl, (not_le.1 h).le]⟩

theorem best1_some {p : Option Fit1 × Option Fit1} (h : p.1.isSome ∧ p.2.isSome) : ∃ x, best1 p = some x := by
  obtain ⟨l | l, u | u⟩ := p <;> simp_all [best1]

theorem best2_some {p : Option Fit2 × Option Fit2} (h : p.1.isSome ∧ p.2.isSome) : ∃ x, best2 p = some x := by
  obtain ⟨l | l, u | u⟩ := p <;> simp_all [best2]

theorem stage1_accept {f : Fits} {s : Scheme} {thresh : ℚ} {k : Prob} {p : Par}
    (h : stage1 f s thresh = .accept k p) :
    is1 s k ∧ ∃ x : Fit1, x.p = p ∧ cand1 f k x ∧ thresh ≤ x.r ∧ ∀ k' y, is1 s k' → cand1 f k' y → y.r ≤ x.r := by
  unfold stage1 at h
  cases hx : best1 (f.one (kinds1 s).1) with
  | none => rw [hx] at h; cases h
  | some x =>
    cases hy : best1 (f.one (kinds1 s).2) with
    | none => rw [hx, hy] at h; cases h
    | some y =>
      rw [hx, hy] at h
      dsimp only at h
      have sx := best1_spec hx
      have sy := best1_spec hy
      split at h
      · rename_i hh
        simp only [Stage.accept.injEq] at h
        obtain ⟨rfl, rfl⟩ := h
        refine ⟨Or.inl rfl, x, rfl, sx.1, by rw [← hh.2]; exact hh.1, ?_⟩
        rintro k' z (rfl | rfl) hz
        · exact sx.2 z hz
        · exact le_trans (sy.2 z hz) (by rw [← hh.2]; exact le_max_right _ _)
      · split at h
        · rename_i _ hh
          simp only [Stage.accept.injEq] at h
          obtain ⟨rfl, rfl⟩ := h
          refine ⟨Or.inr rfl, y, rfl, sy.1, by rw [← hh.2]; exact hh.1, ?_⟩
          rintro k' z (rfl | rfl) hz
          · exact le_trans (sx.2 z hz) (by rw [← hh.2]; exact le_max_left _ _)
          · exact sy.2 z hz
        · cases h

theorem stage1_next {f : Fits} {s : Scheme} {thresh : ℚ} (h : stage1 f s thresh = .next) :
    ∀ k y, is1 s k → cand1 f k y → y.r < thresh := by
  unfold stage1 at h
  cases hx : best1 (f.one (kinds1 s).1) with
  | none => rw [hx] at h; cases h
  | some x =>
    cases hy : best1 (f.one (kinds1 s).2) with
    | none => rw [hx, hy] at h; cases h
    | some y =>
      rw [hx, hy] at h
      dsimp only at h
      have sx := best1_spec hx
      have sy := best1_spec hy
      split at h
      · cases h
      · split at h
        · cases h
        · rename_i h1 h2
          have hm : max x.r y.r < thresh := by
            by_contra hc
            rcases max_choice x.r y.r with e | e
            · exact h1 ⟨not_lt.1 hc, e⟩
            · exact h2 ⟨not_lt.1 hc, e⟩
          rintro k z (rfl | rfl) hz
          · exact lt_of_le_of_lt (le_trans (sx.2 z hz) (le_max_left _ _)) hm
          · exact lt_of_le_of_lt (le_trans (sy.2 z hz) (le_max_right _ _)) hm

theorem stage2_some {f : Fits} {s : Scheme} {thresh : ℚ} {k : Prob × Prob} {x : Fit2}
    (h : stage2 f s thresh = some (k, x)) :
    is2 s k ∧ cand2 f k x ∧ thresh ≤ x.r ∧ ∀ k' y, is2 s k' → cand2 f k' y → y.r ≤ x.r := by
  unfold stage2 at h
  unfold is2
  generalize kinds2 s = ks at *
  obtain ⟨k1, k2, k3⟩ := ks
  dsimp only at h ⊢
  cases ha : best2 (f.two k1.1 k1.2) with
  | none => rw [ha] at h; cases h
  | some a =>
    cases hb : best2 (f.two k2.1 k2.2) with
    | none => rw [ha, hb] at h; cases h
    | some b =>
      cases hc : best2 (f.two k3.1 k3.2) with
      | none => rw [ha, hb, hc] at h; cases h
      | some c =>
        rw [ha, hb, hc] at h
        dsimp only at h
        have sa := best2_spec ha
        have sb := best2_spec hb
        have sc := best2_spec hc
        have la : a.r ≤ max (max a.r b.r) c.r := le_trans (le_max_left _ _) (le_max_left _ _)
        have lb : b.r ≤ max (max a.r b.r) c.r := le_trans (le_max_right _ _) (le_max_left _ _)
        have lc : c.r ≤ max (max a.r b.r) c.r := le_max_right _ _
        split at h
        · cases h
        · rename_i ht
          have top : ∀ k' y, (k' = k1 ∨ k' = k2 ∨ k' = k3) → cand2 f k' y → y.r ≤ max (max a.r b.r) c.r := by
            rintro k' y (rfl | rfl | rfl) hy
            · exact le_trans (sa.2 y hy) la
            · exact le_trans (sb.2 y hy) lb
            · exact le_trans (sc.2 y hy) lc
          split at h
          · rename_i e
            simp only [Option.some.injEq, Prod.mk.injEq] at h
            obtain ⟨rfl, rfl⟩ := h
            rw [e] at ht top
            exact ⟨Or.inl rfl, sa.1, not_lt.1 ht, top⟩
          · rename_i e1
            split at h
            · rename_i e
              simp only [Option.some.injEq, Prod.mk.injEq] at h
              obtain ⟨rfl, rfl⟩ := h
              rw [e] at ht top
              exact ⟨Or.inr (Or.inl rfl), sb.1, not_lt.1 ht, top⟩
            · rename_i e2
              simp only [Option.some.injEq, Prod.mk.injEq] at h
              obtain ⟨rfl, rfl⟩ := h
              have e : max (max a.r b.r) c.r = c.r := by
                rcases max_choice (max a.r b.r) c.r with h' | h'
                · rcases max_choice a.r b.r with h'' | h''
                  · exact absurd (h'.trans h'') e1
                  · exact absurd (h'.trans h'') e2
                · exact h'
              rw [e] at ht top
              exact ⟨Or.inr (Or.inr rfl), sc.1, not_lt.1 ht, top⟩

theorem stage2_none {f : Fits} {s : Scheme} {thresh : ℚ} (ht : Total2 f s) (h : stage2 f s thresh = none) :
    ∀ k y, is2 s k → cand2 f k y → y.r < thresh := by
  unfold Total2 is2 at ht
  unfold is2
  unfold stage2 at h
  generalize kinds2 s = ks at *
  obtain ⟨k1, k2, k3⟩ := ks
  dsimp only at h ht ⊢
  obtain ⟨a, ha⟩ := best2_some (ht k1 (Or.inl rfl))
  obtain ⟨b, hb⟩ := best2_some (ht k2 (Or.inr (Or.inl rfl)))
  obtain ⟨c, hc⟩ := best2_some (ht k3 (Or.inr (Or.inr rfl)))
  rw [ha, hb, hc] at h
  dsimp only at h
  split at h
  · rename_i hm
    rintro k y (rfl | rfl | rfl) hy
    · exact lt_of_le_of_lt (le_trans ((best2_spec ha).2 y hy) (le_trans (le_max_left _ _) (le_max_left _ _))) hm
    · exact lt_of_le_of_lt (le_trans ((best2_spec hb).2 y hy) (le_trans (le_max_right _ _) (le_max_left _ _))) hm
    · exact lt_of_le_of_lt (le_trans ((best2_spec hc).2 y hy) (le_max_right _ _)) hm
  · split at h
    · cases h
    · split at h <;> cases h

/-! ## C112 -/

/-- A single trap is returned only with an adjusted R² that reaches the threshold and that no other one-trap curve of the
scheme exceeds. -/
theorem C112_single (f : Fits) (s : Scheme) (thresh : ℚ) (k : Prob) (p : Par)
    (h : fit f s thresh none = some (.single k p)) :
    is1 s k ∧ ∃ x : Fit1, x.p = p ∧ cand1 f k x ∧ thresh ≤ x.r ∧ ∀ k' y, is1 s k' → cand1 f k' y → y.r ≤ x.r := by
  unfold fit at h
  dsimp only at h
  split at h
  · cases h
  · rename_i k' p' he
    simp only [Option.some.injEq, Out.single.injEq] at h
    obtain ⟨rfl, rfl⟩ := h
    exact stage1_accept he
  · cases hs : stage2 f s thresh with
    | none => rw [hs] at h; cases h
    | some x => rw [hs] at h; cases h

/-- Two traps are returned only where every one-trap curve stays below the threshold, and then with the best of the
two-trap curves. -/
theorem C112_pair (f : Fits) (s : Scheme) (thresh : ℚ) (k k' : Prob) (p p' : Par)
    (h : fit f s thresh none = some (.pair k p k' p')) :
    (∀ j y, is1 s j → cand1 f j y → y.r < thresh) ∧ is2 s (k, k') ∧
    ∃ x : Fit2, x.p = p ∧ x.q = p' ∧ cand2 f (k, k') x ∧ thresh ≤ x.r ∧ ∀ j y, is2 s j → cand2 f j y → y.r ≤ x.r := by
  unfold fit at h
  dsimp only at h
  split at h
  · cases h
  · cases h
  · rename_i he
    cases hs : stage2 f s thresh with
    | none => rw [hs] at h; cases h
    | some kx =>
      obtain ⟨j, x⟩ := kx
      rw [hs] at h
      simp only [Option.map_some, Option.some.injEq, Out.pair.injEq] at h
      obtain ⟨rfl, rfl, rfl, rfl⟩ := h
      obtain ⟨h1, h2, h3, h4⟩ := stage2_some hs
      exact ⟨stage1_next he, h1, x, rfl, rfl, h2, h3, h4⟩

/-- A pixel of the kind "both" gets one trap on each side, from the best two-trap fit; the side with the "above" dipole
gets the one whose tau is closer to the estimate from the peak. -/
theorem C112_both (f : Fits) (s : Scheme) (thresh : ℚ) (peak : Prob → ℚ) (o : Out)
    (h : fit f s thresh (some peak) = some o) :
    ∃ ka a kb b, o = .sides ka a kb b ∧ |peak ka - a.tau| ≤ |peak kb - b.tau| ∧
    ∃ j x, is2 s j ∧ cand2 f j x ∧ thresh ≤ x.r ∧ (∀ i y, is2 s i → cand2 f i y → y.r ≤ x.r) ∧
      ((j = (ka, kb) ∧ x.p = a ∧ x.q = b) ∨ (j = (kb, ka) ∧ x.p = b ∧ x.q = a)) := by
  unfold fit at h
  dsimp only at h
  cases hs : stage2 f s thresh with
  | none => rw [hs] at h; cases h
  | some kx =>
    obtain ⟨j, x⟩ := kx
    rw [hs] at h
    simp only [Option.map_some, Option.some.injEq] at h
    subst h
    obtain ⟨h1, h2, h3, h4⟩ := stage2_some hs
    unfold sideOf
    split
    · rename_i hle
      exact ⟨_, _, _, _, rfl, hle, j, x, h1, h2, h3, h4, Or.inl ⟨rfl, rfl, rfl⟩⟩
    · rename_i hle
      exact ⟨_, _, _, _, rfl, (not_le.1 hle).le, j, x, h1, h2, h3, h4, Or.inr ⟨rfl, rfl, rfl⟩⟩

/-- Where no `curve_fit` raises, nothing is returned exactly if all curves stay below the threshold. -/
theorem C112_none_partial (f : Fits) (s : Scheme) (thresh : ℚ) (h1 : Total1 f s) (h2 : Total2 f s) :
    fit f s thresh none = none ↔
      (∀ k y, is1 s k → cand1 f k y → y.r < thresh) ∧ (∀ k y, is2 s k → cand2 f k y → y.r < thresh) := by
  constructor
  · intro h
    unfold fit at h
    dsimp only at h
    cases hs : stage1 f s thresh with
    | fail =>
      unfold stage1 at hs
      obtain ⟨x, hx⟩ := best1_some (h1 _ (Or.inl rfl))
      obtain ⟨y, hy⟩ := best1_some (h1 _ (Or.inr rfl))
      rw [hx, hy] at hs
      dsimp only at hs
      split at hs
      · cases hs
      · split at hs <;> cases hs
    | accept k p => rw [hs] at h; cases h
    | next =>
      rw [hs] at h
      dsimp only at h
      rw [Option.map_eq_none_iff] at h
      exact ⟨stage1_next hs, stage2_none h2 h⟩
  · rintro ⟨ha, hb⟩
    cases h : fit f s thresh none with
    | none => rfl
    | some o =>
      cases o with
      | single k p =>
        obtain ⟨i, x, -, c, t, -⟩ := C112_single f s thresh k p h
        exact absurd (ha k x i c) (not_lt.2 t)
      | pair k p k' p' =>
        obtain ⟨-, i, x, -, -, c, t, -⟩ := C112_pair f s thresh k k' p p' h
        exact absurd (hb _ x i c) (not_lt.2 t)
      | sides ka a kb b =>
        unfold fit at h
        dsimp only at h
        split at h
        · cases h
        · cases h
        · cases hs : stage2 f s thresh with
          | none => rw [hs] at h; cases h
          | some x => rw [hs] at h; cases h

/-- If `curve_fit` raises for one of the curves, from either guess, fits of the other curves are thrown away, however good
they are. -/
theorem C112_violated_raise (f : Fits) (s : Scheme) (thresh : ℚ) (k : Prob) (hk : is1 s k)
    (h : (f.one k).1 = none ∨ (f.one k).2 = none) : fit f s thresh none = none := by
  have hb : best1 (f.one k) = none := by
    generalize f.one k = p at *
    obtain ⟨l | l, u | u⟩ := p <;> simp_all [best1]
  unfold fit stage1
  dsimp only
  rcases hk with rfl | rfl
  · rw [hb]
  · rw [hb]
    cases best1 (f.one (kinds1 s).1) <;> rfl

def good : Fits where
  one k := match k with
    | .one => (some ⟨1, ⟨1, 0, 1, 0⟩⟩, some ⟨1, ⟨1, 0, 1, 0⟩⟩)
    | _ => (some ⟨0, ⟨1, 0, 1, 0⟩⟩, none)
  two _ _ := (some ⟨1, ⟨1, 0, 1, 0⟩, ⟨1, 0, 1, 0⟩⟩, some ⟨1, ⟨1, 0, 1, 0⟩, ⟨1, 0, 1, 0⟩⟩)

/-- A perfect fit, and no result. -/
theorem C112_violated : (∃ x, cand1 good .one x ∧ x.r = 1) ∧ fit good .s1 (4 / 5) none = none := by
  refine ⟨⟨⟨1, ⟨1, 0, 1, 0⟩⟩, Or.inl rfl, rfl⟩, ?_⟩
  exact C112_violated_raise good .s1 _ .two (Or.inr rfl) (Or.inr rfl)

/-- Equal values: function 1 or 3 before function 2. -/
theorem C112_tie (f : Fits) (s : Scheme) (thresh : ℚ) (x y : Fit1) (hx : best1 (f.one (kinds1 s).1) = some x)
    (hy : best1 (f.one (kinds1 s).2) = some y) (he : y.r ≤ x.r) (ht : thresh ≤ x.r) :
    fit f s thresh none = some (.single (kinds1 s).1 x.p) := by
  unfold fit stage1
  rw [hx, hy]
  dsimp only
  rw [max_eq_left he, if_pos ⟨ht, rfl⟩]

example : fit { good with one := fun k => match k with
    | .one => (some ⟨9 / 10, ⟨1, 0, 1, 0⟩⟩, some ⟨1, ⟨2, 0, 3, 0⟩⟩)
    | _ => (some ⟨0, ⟨1, 0, 1, 0⟩⟩, some ⟨0, ⟨1, 0, 1, 0⟩⟩) } .s1 (4 / 5) none = some (.single .one ⟨2, 0, 3, 0⟩) := by
  decide +kernel

example : fit good .s1 (4 / 5) (some fun _ => 1) = some (.sides .one ⟨1, 0, 1, 0⟩ .one ⟨1, 0, 1, 0⟩) := by decide +kernel

/-! ## Adjusted R² -/

/-- Lines 755-760 and copies; `n` frames, `p` parameters. -/
def adjusted (ssres sstot : ℚ) (n p : ℕ) : ℚ := 1 - ssres / sstot * ((n : ℚ) - 1) / ((n : ℚ) - p)

/-- Reaching the threshold is a bound on the residual variance relative to the variance, each per degree of freedom. -/
theorem C112_adjusted {ssres sstot thresh : ℚ} {n p : ℕ} (hs : 0 < sstot) (hp : p < n) (hn : 1 < n) :
    thresh ≤ adjusted ssres sstot n p ↔ ssres / ((n : ℚ) - p) ≤ (1 - thresh) * (sstot / ((n : ℚ) - 1)) := by
  unfold adjusted
  have h1 : (0 : ℚ) < (n : ℚ) - p := by have : (p : ℚ) < n := by exact_mod_cast hp
                                        linarith
  have h2 : (0 : ℚ) < (n : ℚ) - 1 := by have : (1 : ℚ) < n := by exact_mod_cast hn
                                        linarith
  have e : ssres / sstot * ((n : ℚ) - 1) / ((n : ℚ) - p) = (ssres / ((n : ℚ) - p)) / (sstot / ((n : ℚ) - 1)) := by
    field_simp
  rw [e, le_sub_comm, div_le_iff₀ (by positivity)]

/-! ## C113: ranges and guesses -/

/-- Accepted by `tpump_analysis`, lines 2242-2255. -/
structure Range where
  tauMin : ℚ
  tauMax : ℚ
  capMin : ℚ
  capMax : ℚ
  offMin : ℚ
  offMax : ℚ

def Accepted (g : Range) : Prop :=
  0 ≤ g.tauMin ∧ g.tauMin < g.tauMax ∧ 0 ≤ g.capMin ∧ g.capMin < g.capMax ∧ 0 ≤ g.offMin ∧ 0 ≤ g.offMax

/-- Lines 2492-2499 and copies; `lo`, `hi`: smallest and greatest illumination of the pixel. -/
def offLo (g : Range) (lo hi : ℚ) : ℚ := 0 - max g.offMin |(lo + hi) / 2 - hi|
def offHi (g : Range) (lo hi : ℚ) : ℚ := 0 + max g.offMax |lo - (lo + hi) / 2|

/-- The checks of `trap_fit` that can fail, lines 642-662: phase times and offsets. -/
inductive Err
  | times | offset
  deriving DecidableEq

def checked (g : Range) (lo hi : ℚ) (nTimes : ℕ) : Except Err Unit :=
  if nTimes < 6 then .error .times
  else if offHi g lo hi ≤ offLo g lo hi then .error .offset
  else .ok ()

/-- Parameters that `tpump_analysis` accepts are accepted for every pixel exactly if there are six phase times and either
of the two limits of the offset is positive or the illumination varies. -/
theorem C113_accepted (g : Range) (h : Accepted g) {lo hi : ℚ} (hl : lo ≤ hi) (nTimes : ℕ) :
    checked g lo hi nTimes = .ok () ↔ 6 ≤ nTimes ∧ (0 < g.offMin ∨ 0 < g.offMax ∨ lo < hi) := by
  obtain ⟨-, -, -, -, h5, h6⟩ := h
  have e1 : |(lo + hi) / 2 - hi| = (hi - lo) / 2 := by rw [abs_of_nonpos (by linarith)]; ring
  have e2 : |lo - (lo + hi) / 2| = (hi - lo) / 2 := by rw [abs_of_nonpos (by linarith)]; ring
  have key : offHi g lo hi ≤ offLo g lo hi ↔ ¬ (0 < g.offMin ∨ 0 < g.offMax ∨ lo < hi) := by
    unfold offHi offLo
    rw [e1, e2]
    constructor
    · intro hc
      have a1 := le_max_left g.offMin ((hi - lo) / 2)
      have a2 := le_max_right g.offMin ((hi - lo) / 2)
      have a3 := le_max_left g.offMax ((hi - lo) / 2)
      rintro (h | h | h) <;> linarith
    · intro hc
      push Not at hc
      obtain ⟨c1, c2, c3⟩ := hc
      rw [max_eq_right (by linarith), max_eq_right (by linarith)]
      linarith
  unfold checked
  by_cases h6 : nTimes < 6
  · rw [if_pos h6]
    simp; omega
  · rw [if_neg h6]
    by_cases ho : offHi g lo hi ≤ offLo g lo hi
    · rw [if_pos ho]
      have := key.1 ho
      simp only [reduceCtorEq, false_iff]
      exact fun hh => this hh.2
    · rw [if_neg ho]
      simp only [true_iff]
      exact ⟨not_lt.1 h6, not_not.1 (fun hh => ho (key.2 hh))⟩

/-- Zero offsets are accepted, then raise for a pixel of constant illumination. -/
theorem C113_violated_offset : ∃ g, Accepted g ∧ checked g 5 5 10 = .error .offset :=
  ⟨⟨0, 1, 0, 1, 0, 0⟩, by unfold Accepted; norm_num, by decide +kernel⟩

/-- Fewer than six phase times are not noticed before the first fit. -/
theorem C113_violated_times : ∃ g, Accepted g ∧ checked g 0 20 5 = .error .times :=
  ⟨⟨0, 1, 0, 1, 10, 10⟩, by unfold Accepted; norm_num, by decide +kernel⟩

/-- Lines 688-690. -/
def off0 (lo hi : ℚ) : ℚ := if (lo + hi) / 2 = 0 then min (1 + (lo + hi) / 2) hi else (lo + hi) / 2

/-- Lines 701-702 and 706-707: zero is avoided for the lower guess. -/
def lower0 (eps lo hi : ℚ) : ℚ := if lo = 0 then min (lo + eps) hi else lo

/-- Lines 1488-1490. -/
def pc0 (lo hi : ℚ) : ℚ := if 1 < lo ∨ 1 > hi then lo else 1

/-- Every initial guess lies within its bounds (`curve_fit` raises if not), and those of the offset and of tau are not zero. -/
theorem C113_guess {lo hi : ℚ} (h : lo < hi) :
    (lo ≤ off0 lo hi ∧ off0 lo hi ≤ hi ∧ off0 lo hi ≠ 0) ∧
    (∀ eps, 0 < eps → 0 ≤ lo → lo ≤ lower0 eps lo hi ∧ lower0 eps lo hi ≤ hi ∧ 0 < lower0 eps lo hi) ∧
    (lo ≤ pc0 lo hi ∧ pc0 lo hi ≤ hi) ∧ (lo ≤ (lo + hi) / 2 ∧ (lo + hi) / 2 ≤ hi) := by
  refine ⟨?_, ?_, ?_, by linarith, by linarith⟩
  · unfold off0
    split
    · rename_i h0
      rw [h0]
      have : 0 < hi := by linarith
      refine ⟨le_min (by linarith) h.le, min_le_right _ _, (lt_min (by norm_num) this).ne'⟩
    · rename_i h0
      exact ⟨by linarith, by linarith, h0⟩
  · intro eps he hl
    unfold lower0
    split
    · rename_i h0
      subst h0
      exact ⟨le_min (by linarith) h.le, min_le_right _ _, lt_min (by linarith) h⟩
    · rename_i h0
      exact ⟨le_rfl, h.le, lt_of_le_of_ne hl (Ne.symm h0)⟩
  · unfold pc0
    split
    · exact ⟨le_rfl, h.le⟩
    · rename_i hh
      push Not at hh
      exact hh

example : checked ⟨0, 1, 0, 1, 10, 10⟩ 0 100 8 = .ok () ∧ offLo ⟨0, 1, 0, 1, 10, 10⟩ 0 100 = -50 := by decide +kernel

/-- The probability functions that occur in a scheme (lines 567-568 and 743-1198): 1 and 2 in schemes 1 and 2, 2 and 3 in
schemes 3 and 4. -/
def Occurs : Scheme → Prob → Prop
  | .s1, k | .s2, k => k = .one ∨ k = .two
  | .s3, k | .s4, k => k = .two ∨ k = .three

/-- Single traps are tried with each function of the scheme, pairs with each unordered pair of them. -/
theorem C112_functions (s : Scheme) (k l : Prob) : (is1 s k ↔ Occurs s k) ∧
    (is2 s (k, l) ∨ is2 s (l, k) ↔ Occurs s k ∧ Occurs s l) := by
  cases s <;> cases k <;> cases l <;> simp [is1, is2, kinds1, kinds2, Occurs]

end Corgi.TrapFit

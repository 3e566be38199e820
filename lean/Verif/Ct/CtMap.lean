import Verif.Ct.Centroid
import Verif.Common.Forall2
import Mathlib.Analysis.SpecialFunctions.Complex.Arg
import Mathlib.Data.Matrix.Mul
import Mathlib.LinearAlgebra.Matrix.Notation
import Mathlib.Algebra.Order.Floor.Ring

/-!
# Using a core throughput calibration

`/repo/corgidrp/corethroughput.py:415-560` (`get_1d_ct`, `CreateCTMap`) and `/repo/corgidrp/data.py:1645-1998`
(`GetCTFPMPosition`, `InterpolateCT`, `GetPSF`).  `scipy.interpolate.LinearNDInterpolator` is an abstract function from the
sampled points, their values and a query to a value (`none` for NaN); what is assumed about it is stated in each theorem.
-/

noncomputable section

namespace Corgi.CtMap

/-! ## C83: `get_1d_ct` and `CreateCTMap` -/

/-- A measured PSF: position in EXCAM pixels and core throughput. -/
structure Meas where
  x : ℝ
  y : ℝ
  ct : ℝ

/-- Euclidean distance. -/
def dist2 (x y cx cy : ℝ) : ℝ := Real.sqrt ((x - cx) ^ 2 + (y - cy) ^ 2)

/-- `get_1d_ct` (lines 436-454) for one separation, method 'nearest'; `loc` is `STARLOCX/Y`, `det` is `DETPIX0X/Y`. -/
def ctAt (cal : List Meas) (loc det : ℝ × ℝ) (sep : ℝ) : Option ℝ :=
  let cx := loc.1 + det.1 + 1 / 2
  let cy := loc.2 + det.2 + 1 / 2
  match argmin (cal.map fun m => |sep - dist2 m.x m.y cx cy|) with
  | none => none
  | some k => cal[k]?.map Meas.ct

/-- `get_1d_ct`. -/
def get1d (cal : List Meas) (loc det : ℝ × ℝ) (seps : List ℝ) : List (ℝ × Option ℝ) := seps.map fun s => (s, ctAt cal loc det s)

/-- C83: every reported value is the core throughput of the measurement whose separation, taken from the mask centre plus half
a pixel in x and y, is nearest to the requested one (the first of these). -/
theorem C83_nearest_partial {cal : List Meas} {loc det : ℝ × ℝ} {sep : ℝ} (h : cal ≠ []) :
    ∃ (k : ℕ) (m : Meas), cal[k]? = some m ∧ ctAt cal loc det sep = some m.ct ∧
      ∀ m' ∈ cal, |sep - dist2 m.x m.y (loc.1 + det.1 + 1 / 2) (loc.2 + det.2 + 1 / 2)| ≤
        |sep - dist2 m'.x m'.y (loc.1 + det.1 + 1 / 2) (loc.2 + det.2 + 1 / 2)| := by
  have hne : (cal.map fun m => |sep - dist2 m.x m.y (loc.1 + det.1 + 1 / 2) (loc.2 + det.2 + 1 / 2)|) ≠ [] := by simpa using h
  obtain ⟨k, hk⟩ := argmin_exists hne
  obtain ⟨v, hv, hle, -⟩ := argmin_isFirstMin hk
  rw [List.getElem?_map] at hv
  obtain ⟨m, hm, rfl⟩ := Option.map_eq_some_iff.1 hv
  refine ⟨k, m, hm, ?_, ?_⟩
  · unfold ctAt
    dsimp only
    rw [hk]
    dsimp only
    rw [hm]
    rfl
  · intro m' hm'
    exact hle _ (List.mem_map_of_mem hm')

/-- C83: the first row of the result is the list of separations, one value each. -/
theorem C83_rows {cal : List Meas} {loc det : ℝ × ℝ} {seps : List ℝ} :
    (get1d cal loc det seps).map Prod.fst = seps := by
  unfold get1d
  rw [List.map_map]
  exact List.map_id' seps

/-- C83 refuted: the half pixel is spurious, because centroids count pixel centres as whole numbers: for separation 0 the
measurement exactly at the mask centre is passed over for one half a pixel away in x and y. -/
theorem C83_violated_half_pixel : ¬ ∀ (cal : List Meas) (loc det : ℝ × ℝ) (sep : ℝ) (m : Meas), m ∈ cal →
    (∀ m' ∈ cal, m' ≠ m → |sep - dist2 m.x m.y (loc.1 + det.1) (loc.2 + det.2)| < |sep - dist2 m'.x m'.y (loc.1 + det.1) (loc.2 + det.2)|) →
    ctAt cal loc det sep = some m.ct := by
  intro h
  have hs : (0 : ℝ) < Real.sqrt (1 / 2) := Real.sqrt_pos.2 (by norm_num)
  have := h [⟨10, 10, 1 / 10⟩, ⟨10 + 1 / 2, 10 + 1 / 2, 1 / 2⟩] (10, 10) (0, 0) 0 ⟨10, 10, 1 / 10⟩ (by simp) (by
    intro m' hm' hne
    simp only [List.mem_cons, List.not_mem_nil, or_false] at hm'
    rcases hm' with rfl | rfl
    · exact absurd rfl hne
    · unfold dist2
      norm_num)
  have e : argmin [Real.sqrt (1 / 2), (0 : ℝ)] = some 1 := by
    simp only [argmin, argminAux]
    rw [if_pos hs]
  unfold ctAt dist2 at this
  dsimp only at this
  have e2 : ([⟨10, 10, 1 / 10⟩, ⟨10 + 1 / 2, 10 + 1 / 2, 1 / 2⟩] : List Meas).map (fun m =>
      |(0 : ℝ) - Real.sqrt ((m.x - (10 + 0 + 1 / 2)) ^ 2 + (m.y - (10 + 0 + 1 / 2)) ^ 2)|) = [Real.sqrt (1 / 2), 0] := by
    simp only [List.map_cons, List.map_nil, List.cons.injEq, and_true]
    constructor
    · rw [zero_sub, abs_neg, abs_of_nonneg (Real.sqrt_nonneg _)]
      congr 1; norm_num
    · norm_num
  rw [e2, e] at this
  norm_num at this

/-- `np.linspace(a, b, n)`. -/
def linspace (a b : ℝ) (n : ℕ) : List ℝ := (List.range n).map fun i : ℕ => if n = 1 then a else a + i * ((b - a) / ((n : ℝ) - 1))

/-- `np.array(np.meshgrid(xs, ys)).reshape(2, nx*ny)`: x varies fastest (line 525). -/
def grid (xs ys : List ℝ) : List (ℝ × ℝ) := ys.flatMap fun y => xs.map fun x => (x, y)

/-- C83: the default targets are all combinations of the two axes, `n_gridx * n_gridy` of them, x fastest. -/
theorem C83_grid {xs ys : List ℝ} : (grid xs ys).length = ys.length * xs.length ∧ ∀ p, p ∈ grid xs ys ↔ p.1 ∈ xs ∧ p.2 ∈ ys := by
  constructor
  · simp [grid, List.length_flatMap]
  · intro p
    unfold grid
    simp only [List.mem_flatMap, List.mem_map]
    constructor
    · rintro ⟨y, hy, x, hx, rfl⟩; exact ⟨hx, hy⟩
    · rintro ⟨hx, hy⟩; exact ⟨p.2, hy, p.1, hx, rfl⟩

/-- C83: the axis has `n` equally spaced values from one end of the range to the other. -/
theorem C83_linspace {a b : ℝ} {n : ℕ} (hn : 2 ≤ n) : (linspace a b n).length = n ∧ (linspace a b n)[0]? = some a ∧
    (linspace a b n)[n - 1]? = some b := by
  have h1 : n ≠ 1 := by omega
  have h2 : (n : ℝ) - 1 ≠ 0 := by
    have : (2 : ℝ) ≤ n := by exact_mod_cast hn
    linarith
  refine ⟨by simp [linspace], ?_, ?_⟩
  · unfold linspace
    rw [List.getElem?_map, List.getElem?_range (by omega)]
    simp [h1]
  · unfold linspace
    rw [List.getElem?_map, List.getElem?_range (by omega)]
    simp only [h1, if_false, Option.map_some, Option.some.injEq]
    rw [Nat.cast_sub (by omega)]
    push_cast
    field_simp
    ring

/-- Where `CreateCTMap` stores the map (lines 542-548). -/
def savedAt (save : Bool) (filepath : Option String) (default : String) : Option String :=
  if save then match filepath with
    | none => some default
    | some _ => none
  else none

/-- C83: nothing is stored unless asked for, and the default location is used when no path is given. -/
theorem C83_save_partial {d : String} : savedAt true none d = some d ∧ ∀ p, savedAt false p d = none := by
  simp [savedAt]

/-- C83 refuted: with a file path given and `save=True` nothing is stored anywhere. -/
theorem C83_violated_save {p d : String} : savedAt true (some p) d = none := rfl

/-! ## C84: `InterpolateCT` -/

/-- `GetCTFPMPosition` (data.py:1669-1690) for one mechanism: mask centre of the coronagraphic data plus the matrix times the
change of the mechanism position. -/
def fpmPosition (M : Matrix (Fin 2) (Fin 2) ℝ) (cor ct centre : Fin 2 → ℝ) : Fin 2 → ℝ := centre + M.mulVec (ct - cor)

/-- C84: a mechanism that has not moved leaves the centre where it was; moves add up. -/
theorem C84_fpm {M : Matrix (Fin 2) (Fin 2) ℝ} {a b c centre : Fin 2 → ℝ} :
    fpmPosition M a a centre = centre ∧ fpmPosition M b c (fpmPosition M a b centre) = fpmPosition M a c centre := by
  constructor
  · simp [fpmPosition]
  · unfold fpmPosition
    rw [add_assoc, ← Matrix.mulVec_add]
    congr 2
    abel

/-- C84: a mechanism displacement `d` between the coronagraphic and the core throughput data moves the mask centre by `M d`. -/
theorem C84_fpm_shift {M : Matrix (Fin 2) (Fin 2) ℝ} {cor d centre : Fin 2 → ℝ} :
    fpmPosition M cor (cor + d) centre = centre + M.mulVec d := by
  unfold fpmPosition
  rw [add_sub_cancel_left]

abbrev Pt := ℝ × ℝ

def radius (p : Pt) : ℝ := Real.sqrt (p.1 ^ 2 + p.2 ^ 2)

/-- `np.arctan2(y, x)`. -/
def azimuth (p : Pt) : ℝ := Complex.arg ⟨p.1, p.2⟩

/-- C84: radius and azimuth are polar coordinates. -/
theorem C84_polar (p : Pt) : p.1 = radius p * Real.cos (azimuth p) ∧ p.2 = radius p * Real.sin (azimuth p) ∧ 0 ≤ radius p ∧
    -Real.pi < azimuth p ∧ azimuth p ≤ Real.pi := by
  have h : radius p = ‖(⟨p.1, p.2⟩ : ℂ)‖ := by
    unfold radius
    rw [Complex.norm_def, Complex.normSq_mk]
    ring_nf
  refine ⟨?_, ?_, ?_, Complex.neg_pi_lt_arg _, Complex.arg_le_pi _⟩
  · rw [h]
    exact (Complex.norm_mul_cos_arg ⟨p.1, p.2⟩).symm
  · rw [h]
    exact (Complex.norm_mul_sin_arg ⟨p.1, p.2⟩).symm
  · rw [h]
    exact norm_nonneg _

/-- Python's float `a % m` for positive `m`. -/
def pyMod (a m : ℝ) : ℝ := a - m * ⌊a / m⌋

inductive Err
  | low
  | high
  | bounds
  | index
  | allNan
  deriving DecidableEq

/-- `min` / `max` of a list (of a non-empty list in use). -/
def minL : List ℝ → ℝ
  | [] => 0
  | [a] => a
  | a :: b :: t => min a (minL (b :: t))

def maxL : List ℝ → ℝ
  | [] => 0
  | [a] => a
  | a :: b :: t => max a (maxL (b :: t))

/-- The azimuth at which the interpolant is evaluated (data.py:1764-1791). -/
def queryAz (gridPts : List Pt) (p : Pt) : ℝ :=
  let az0 := minL (gridPts.map azimuth)
  let rel := gridPts.map fun g => azimuth g - az0
  pyMod (azimuth p - az0) (maxL rel)

/-- All targets with a radius between the extreme radii of the grid (data.py:1769-1788). -/
def keep (gridPts targets : List Pt) : Except Err (List Pt) :=
  let rs := gridPts.map radius
  let k1 := targets.filter fun p => decide (minL rs ≤ radius p)
  if k1 = [] then .error .low
  else
    let k2 := k1.filter fun p => decide (radius p ≤ maxL rs)
    if k2 = [] then .error .high else .ok k2

section Patch

variable {P V : Type} [DecidableEq P]

/-- Writing one patched value (data.py:1832): the value list is indexed with the *grid* index. -/
def patchOne (cts : List V) (vals : List (Option V)) (k : ℕ) : Except Err (List (Option V)) :=
  if k < vals.length then .ok (vals.set k cts[k]?) else .error .index

/-- The grid points at the position of the target (data.py:1826-1830). -/
def hits (gridPts : List P) (t : P) : List ℕ := (List.range gridPts.length).filter fun k => decide (gridPts[k]? = some t)

/-- The inner loop for one NaN target (data.py:1826-1832): all grid indices with the same x and y. -/
def patchTarget (gridPts : List P) (cts : List V) (vals : List (Option V)) (t : P) : Except Err (List (Option V)) :=
  (hits gridPts t).foldlM (patchOne cts) vals

/-- The targets whose interpolated value is NaN (data.py:1824). -/
def nanTargets (targets : List P) (vals : List (Option V)) : List P :=
  (targets.zip vals).filterMap fun tv => if tv.2.isNone then some tv.1 else none

/-- The patch loop over the NaN targets. -/
def patch (gridPts : List P) (cts : List V) (targets : List P) (vals : List (Option V)) : Except Err (List (Option V)) :=
  (nanTargets targets vals).foldlM (patchTarget gridPts cts) vals

end Patch

/-- An interpolator: sampled (radius, azimuth) points and values to a function, `none` for NaN. -/
abbrev Interp := List (ℝ × ℝ) → List ℝ → ℝ × ℝ → Option ℝ

/-- `InterpolateCT` after the centre has been subtracted (data.py:1756-1849); `rmap` is `log10` or the identity. -/
def interpolateCT (L : Interp) (rmap : ℝ → ℝ) (gridPts : List Pt) (cts : List ℝ) (targets : List Pt) :
    Except Err (List (ℝ × Pt)) := do
  let kept ← keep gridPts targets
  let az0 := minL (gridPts.map azimuth)
  let nodes := gridPts.map fun g => (rmap (radius g), azimuth g - az0)
  let vals := kept.map fun p => L nodes cts (rmap (radius p), queryAz gridPts p)
  if ∃ v ∈ vals, ∃ c, v = some c ∧ (c < 0 ∨ 1 < c) then .error .bounds
  else do
    let vals' ← patch gridPts cts kept vals
    if ∀ v ∈ vals', v = none then .error .allNan
    else pure ((vals'.zip kept).filterMap fun vp => vp.1.map fun c => (c, vp.2))


/-! ### Positions and values of the result -/

theorem keep_sublist {g t k : List Pt} (h : keep g t = .ok k) : k.Sublist t ∧ k ≠ [] ∧
    ∀ p ∈ k, minL (g.map radius) ≤ radius p ∧ radius p ≤ maxL (g.map radius) := by
  unfold keep at h
  dsimp only at h
  split_ifs at h with h1 h2
  simp only [Except.ok.injEq] at h
  subst h
  refine ⟨List.filter_sublist.trans List.filter_sublist, h2, ?_⟩
  intro p hp
  simp only [List.mem_filter, decide_eq_true_eq] at hp
  exact ⟨hp.1.2, hp.2⟩

theorem snd_sublist {α β : Type} (v : List (Option α)) (k : List β) :
    (((v.zip k).filterMap fun vp => vp.1.map fun c => (c, vp.2)).map Prod.snd).Sublist k := by
  induction v generalizing k with
  | nil => simp
  | cons a v ih =>
    cases k with
    | nil => simp
    | cons b k =>
      rw [List.zip_cons_cons, List.filterMap_cons]
      cases a with
      | none => exact (ih k).cons b
      | some c => exact (ih k).cons_cons b

theorem interp_ok {L : Interp} {rmap : ℝ → ℝ} {g : List Pt} {cts : List ℝ} {t : List Pt} {r : List (ℝ × Pt)}
    (h : interpolateCT L rmap g cts t = .ok r) : ∃ k vals', keep g t = .ok k ∧
      (let vals := k.map fun p => L (g.map fun q => (rmap (radius q), azimuth q - minL (g.map azimuth))) cts (rmap (radius p), queryAz g p)
      (∀ v ∈ vals, ∀ c, v = some c → 0 ≤ c ∧ c ≤ 1) ∧ patch g cts k vals = .ok vals') ∧ (∃ v ∈ vals', v ≠ none) ∧
      r = (vals'.zip k).filterMap fun vp => vp.1.map fun c => (c, vp.2) := by
  unfold interpolateCT at h
  simp only [bind, Except.bind] at h
  split at h
  · simp at h
  · rename_i k hk
    split_ifs at h with hb
    split at h
    · simp at h
    · rename_i vals' hv
      split_ifs at h with hn
      simp only [pure, Except.pure, Except.ok.injEq] at h
      refine ⟨k, vals', hk, ⟨?_, hv⟩, ?_, h.symm⟩
      · intro v hv c hc
        by_contra hcon
        apply hb
        refine ⟨v, hv, c, hc, ?_⟩
        by_contra h2
        push Not at h2
        exact hcon h2
      · push Not at hn
        exact hn

/-- C84: the reported locations are requested locations, in the requested order, with radii inside the measured range. -/
theorem C84_locations {L : Interp} {rmap : ℝ → ℝ} {g : List Pt} {cts : List ℝ} {t : List Pt} {r : List (ℝ × Pt)}
    (h : interpolateCT L rmap g cts t = .ok r) : (r.map Prod.snd).Sublist t ∧
      ∀ e ∈ r, minL (g.map radius) ≤ radius e.2 ∧ radius e.2 ≤ maxL (g.map radius) := by
  obtain ⟨k, vals', hk, -, -, rfl⟩ := interp_ok h
  obtain ⟨h1, -, h2⟩ := keep_sublist hk
  refine ⟨(snd_sublist vals' k).trans h1, ?_⟩
  intro e he
  exact h2 _ ((snd_sublist vals' k).subset (List.mem_map_of_mem he))

theorem foldlM_inv {α σ ε : Type} {f : σ → α → Except ε σ} {P : σ → Prop} (hf : ∀ s a s', P s → f s a = .ok s' → P s') (l : List α) :
    ∀ s s', P s → l.foldlM f s = .ok s' → P s' := by
  induction l with
  | nil => intro s s' hs h; simp only [List.foldlM_nil, pure, Except.pure, Except.ok.injEq] at h; exact h ▸ hs
  | cons a l ih =>
    intro s s' hs h
    rw [List.foldlM_cons] at h
    simp only [bind, Except.bind] at h
    split at h
    · simp at h
    · rename_i s1 h1
      exact ih s1 s' (hf _ _ _ hs h1) h

section Patch

variable {P V : Type} [DecidableEq P]

/-- Patched values are old values or measured values. -/
theorem patch_mem {g : List P} {cts : List V} {t : List P} {vals vals' : List (Option V)} (h : patch g cts t vals = .ok vals') {c : V}
    (hc : some c ∈ vals') : some c ∈ vals ∨ c ∈ cts := by
  have key : ∀ c, some c ∈ vals' → some c ∈ vals ∨ c ∈ cts := by
    refine foldlM_inv (P := fun s : List (Option V) => ∀ c, some c ∈ s → some c ∈ vals ∨ c ∈ cts) ?_ _ vals vals' (fun c hc => Or.inl hc) h
    intro s p s' hs hp
    refine foldlM_inv (P := fun s : List (Option V) => ∀ c, some c ∈ s → some c ∈ vals ∨ c ∈ cts) ?_ _ s s' hs hp
    intro s k s' hs hk c hc
    unfold patchOne at hk
    split_ifs at hk
    simp only [Except.ok.injEq] at hk
    subst hk
    rcases List.mem_or_eq_of_mem_set hc with hc | hc
    · exact hs c hc
    · exact Or.inr (List.mem_of_getElem? hc.symm)
  exact key c hc

omit [DecidableEq P] in
theorem nanTargets_nil {t : List P} {vals : List (Option V)} (h : none ∉ vals) : nanTargets t vals = [] := by
  unfold nanTargets
  rw [List.filterMap_eq_nil_iff]
  intro tv htv
  rw [if_neg]
  intro h2
  rw [Option.isNone_iff_eq_none] at h2
  exact h (h2 ▸ (List.of_mem_zip htv).2)

/-- C84: without a NaN the patch loop changes nothing. -/
theorem C84_patch_idle {g : List P} {cts : List V} {t : List P} {vals : List (Option V)} (h : none ∉ vals) :
    patch g cts t vals = .ok vals := by
  unfold patch
  rw [nanTargets_nil h]
  rfl

end Patch

/-- C84: every reported core throughput is between 0 and 1 if the measured ones are. -/
theorem C84_range {L : Interp} {rmap : ℝ → ℝ} {g : List Pt} {cts : List ℝ} {t : List Pt} {r : List (ℝ × Pt)}
    (hc : ∀ c ∈ cts, 0 ≤ c ∧ c ≤ 1) (h : interpolateCT L rmap g cts t = .ok r) : ∀ e ∈ r, 0 ≤ e.1 ∧ e.1 ≤ 1 := by
  obtain ⟨k, vals', -, ⟨hb, hp⟩, -, rfl⟩ := interp_ok h
  intro e he
  rw [List.mem_filterMap] at he
  obtain ⟨vp, hvp, hv⟩ := he
  obtain ⟨c, hc1, rfl⟩ := Option.map_eq_some_iff.1 hv
  have hm := (List.of_mem_zip hvp).1
  rw [hc1] at hm
  rcases patch_mem hp hm with h1 | h1
  · exact hb _ h1 c rfl
  · exact hc c h1

theorem zip_some {α β : Type} (v : List α) (k : List β) :
    ((v.map some).zip k).filterMap (fun vp => vp.1.map fun c => (c, vp.2)) = v.zip k := by
  induction v generalizing k with
  | nil => simp
  | cons a v ih =>
    cases k with
    | nil => simp
    | cons b k => simp [ih]

/-- C84: as long as the interpolant has no NaN, each target is reported with the interpolated value at its radius and its
query azimuth. -/
theorem C84_values_partial {L : Interp} {rmap : ℝ → ℝ} {g : List Pt} {cts : List ℝ} {t k : List Pt} {f : Pt → ℝ}
    (hk : keep g t = .ok k)
    (hL : ∀ p ∈ k, L (g.map fun q => (rmap (radius q), azimuth q - minL (g.map azimuth))) cts (rmap (radius p), queryAz g p) = some (f p))
    (hf : ∀ p ∈ k, 0 ≤ f p ∧ f p ≤ 1) :
    interpolateCT L rmap g cts t = .ok (k.map fun p => (f p, p)) := by
  have e : (k.map fun p => L (g.map fun q => (rmap (radius q), azimuth q - minL (g.map azimuth))) cts (rmap (radius p), queryAz g p)) =
      (k.map f).map some := by
    rw [List.map_map]
    exact List.map_congr_left fun p hp => hL p hp
  unfold interpolateCT
  rw [hk]
  simp only [bind, Except.bind, e]
  rw [if_neg]
  · rw [C84_patch_idle (by simp)]
    dsimp only
    rw [if_neg]
    · simp only [pure, Except.pure, Except.ok.injEq]
      rw [zip_some, List.zip_map_left]
      have : k.zip k = k.map fun p => (p, p) := by
        clear hk hL hf e
        induction k with
        | nil => rfl
        | cons a k ih => simp [ih]
      rw [this, List.map_map]
      rfl
    · have hne := (keep_sublist hk).2.1
      obtain ⟨p, hp⟩ := List.exists_mem_of_ne_nil _ hne
      push Not
      exact ⟨some (f p), List.mem_map_of_mem (List.mem_map_of_mem hp), by simp⟩
  · rintro ⟨v, hv, c, hc, hcc⟩
    rw [List.map_map] at hv
    obtain ⟨p, hp, rfl⟩ := List.mem_map.1 hv
    simp only [Function.comp, Option.some.injEq] at hc
    subst hc
    have := hf p hp
    rcases hcc with h | h <;> linarith

/-! ### The azimuth of the query -/

theorem pyMod_small {a m : ℝ} (h0 : 0 ≤ a) (h : a < m) : pyMod a m = a := by
  unfold pyMod
  have : ⌊a / m⌋ = 0 := by
    rw [Int.floor_eq_zero_iff]
    exact ⟨div_nonneg h0 (by linarith), by rw [div_lt_one (by linarith)]; exact h⟩
  rw [this]
  simp

theorem pyMod_wrap {a m : ℝ} (hm : 0 < m) (h0 : m ≤ a) (h : a < 2 * m) : pyMod a m = a - m := by
  unfold pyMod
  have : ⌊a / m⌋ = 1 := by
    rw [Int.floor_eq_iff]
    constructor
    · rw [le_div_iff₀ hm]; push_cast; linarith
    · rw [div_lt_iff₀ hm]; push_cast; linarith
  rw [this]
  push_cast
  ring

/-- C84: a target whose azimuth is at least the smallest and below the largest measured azimuth is looked up at its own azimuth. -/
theorem C84_azimuth_partial {g : List Pt} {p : Pt} (h0 : minL (g.map azimuth) ≤ azimuth p)
    (h : azimuth p - minL (g.map azimuth) < maxL (g.map fun q => azimuth q - minL (g.map azimuth))) :
    queryAz g p = azimuth p - minL (g.map azimuth) := pyMod_small (by linarith) h

/-- C84 refuted: a target at or beyond the largest measured azimuth is looked up at another azimuth, displaced by the whole
measured range (which is never a full turn). -/
theorem C84_violated_azimuth {g : List Pt} {p : Pt} (hm : 0 < maxL (g.map fun q => azimuth q - minL (g.map azimuth)))
    (h0 : maxL (g.map fun q => azimuth q - minL (g.map azimuth)) ≤ azimuth p - minL (g.map azimuth))
    (h : azimuth p - minL (g.map azimuth) < 2 * maxL (g.map fun q => azimuth q - minL (g.map azimuth))) :
    queryAz g p = azimuth p - minL (g.map azimuth) - maxL (g.map fun q => azimuth q - minL (g.map azimuth)) ∧
      queryAz g p ≠ azimuth p - minL (g.map azimuth) := by
  have e : queryAz g p = _ := pyMod_wrap hm h0 h
  refine ⟨e, ?_⟩
  rw [e]
  linarith

/-- Four measurements around the mask at radius 1. -/
def cross : List Pt := [(1, 0), (0, 1), (-1, 0), (0, -1)]

theorem az_right : azimuth (1, 0) = 0 := by
  have : (⟨1, 0⟩ : ℂ) = 1 := rfl
  unfold azimuth
  rw [this, Complex.arg_one]

theorem az_up : azimuth (0, 1) = Real.pi / 2 := by
  have : (⟨0, 1⟩ : ℂ) = Complex.I := rfl
  unfold azimuth
  rw [this, Complex.arg_I]

theorem az_left : azimuth (-1, 0) = Real.pi := by
  have : (⟨-1, 0⟩ : ℂ) = -1 := by apply Complex.ext <;> simp
  unfold azimuth
  rw [this, Complex.arg_neg_one]

theorem az_down : azimuth (0, -1) = -(Real.pi / 2) := by
  have : (⟨0, -1⟩ : ℂ) = -Complex.I := by apply Complex.ext <;> simp
  unfold azimuth
  rw [this, Complex.arg_neg_I]

theorem cross_min : minL (cross.map azimuth) = -(Real.pi / 2) := by
  have := Real.pi_pos
  simp only [cross, List.map_cons, List.map_nil, az_right, az_up, az_left, az_down, minL]
  rw [min_eq_right (by linarith : -(Real.pi / 2) ≤ Real.pi), min_eq_right (by linarith : -(Real.pi / 2) ≤ Real.pi / 2),
    min_eq_right (by linarith : -(Real.pi / 2) ≤ 0)]

theorem cross_max : maxL (cross.map fun q => azimuth q - minL (cross.map azimuth)) = 3 * Real.pi / 2 := by
  have := Real.pi_pos
  rw [cross_min]
  simp only [cross, List.map_cons, List.map_nil, az_right, az_up, az_left, az_down, maxL]
  rw [max_eq_left (by linarith : -(Real.pi / 2) - -(Real.pi / 2) ≤ Real.pi - -(Real.pi / 2)), max_eq_right (by linarith : Real.pi / 2 - -(Real.pi / 2) ≤ Real.pi - -(Real.pi / 2)),
    max_eq_right (by linarith : 0 - -(Real.pi / 2) ≤ Real.pi - -(Real.pi / 2))]
  ring

/-- The radius and azimuth of the measurement left of the mask give the query of the one below it. -/
theorem cross_query : queryAz cross (-1, 0) = 0 := by
  have hp := Real.pi_pos
  have h := C84_violated_azimuth (g := cross) (p := (-1, 0)) (by rw [cross_max]; positivity)
    (by rw [cross_max, cross_min, az_left]; linarith) (by rw [cross_max, cross_min, az_left]; linarith)
  rw [h.1, cross_max, cross_min, az_left]
  ring

theorem radius_cross {p : Pt} (h : p ∈ cross) : radius p = 1 := by
  simp only [cross, List.mem_cons, List.not_mem_nil, or_false] at h
  rcases h with rfl | rfl | rfl | rfl <;> simp [radius]

theorem cross_radii : cross.map radius = [1, 1, 1, 1] := by
  simp [cross, radius]

theorem cross_keep : keep cross [(-1, 0)] = .ok [(-1, 0)] := by
  have h1 : radius (-1, 0) = 1 := radius_cross (by simp [cross])
  unfold keep
  rw [cross_radii]
  simp [h1, minL, maxL]

/-- C84 refuted: with any interpolant that reproduces its own nodes, the value reported at a *measured* location can be the
value measured somewhere else: here the location left of the mask gets the core throughput measured below it. -/
theorem C84_violated_measured {L : Interp} {cts : List ℝ} {c : ℝ}
    (hexact : ∀ (nodes : List (ℝ × ℝ)) (vals : List ℝ) (k : ℕ) q v, nodes[k]? = some q → vals[k]? = some v → nodes.Nodup → L nodes vals q = some v)
    (hc : cts[3]? = some c) (h0 : 0 ≤ c ∧ c ≤ 1) :
    interpolateCT L id cross cts [(-1, 0)] = .ok [(c, (-1, 0))] := by
  have hp := Real.pi_pos
  have hnodes : cross.map (fun q => (id (radius q), azimuth q - minL (cross.map azimuth))) =
      [(1, Real.pi / 2), (1, Real.pi), (1, 3 * Real.pi / 2), (1, 0)] := by
    rw [cross_min]
    simp only [cross, List.map_cons, List.map_nil, az_right, az_up, az_left, az_down, id, radius]
    norm_num
    ring
  have h := C84_values_partial (L := L) (rmap := id) (g := cross) (cts := cts) (t := [(-1, 0)]) (k := [(-1, 0)]) (f := fun _ => c) cross_keep
    (by
      intro p hpm
      rw [List.mem_singleton] at hpm
      subst hpm
      rw [hnodes, cross_query, radius_cross (by simp [cross])]
      refine hexact _ _ 3 _ _ rfl hc ?_
      simp only [List.nodup_cons, List.mem_cons, Prod.mk.injEq, true_and, List.not_mem_nil, or_false, not_or, not_false_eq_true, List.nodup_nil, and_true]
      refine ⟨⟨?_, ?_, ?_⟩, ⟨?_, ?_⟩, ?_⟩ <;> intro hh <;> linarith)
    (fun _ _ => h0)
  simpa using h

/-- C84 refuted: the patch for NaN values stores the measured value at the position of the *measurement* in its list, not of the
target: another target's value is overwritten and the matching target is still dropped. -/
theorem C84_violated_patch :
    patch (P := ℤ) (V := ℚ) [10, 20] [1 / 10, 2 / 10] [15, 10] [some (15 / 100), none] = .ok [some (1 / 10), none] := by decide +kernel

/-- C84 (partial): a NaN target whose index is that of the measurement at its position gets the measured value. -/
theorem C84_patch_partial {P V : Type} [DecidableEq P] {g : List P} {cts : List V} {vals : List (Option V)} {t : P} {k : ℕ} {c : V}
    (hg : hits g t = [k]) (hk : k < vals.length) (hc : cts[k]? = some c) :
    patchTarget g cts vals t = .ok (vals.set k (some c)) := by
  simp [patchTarget, hg, patchOne, List.foldlM_cons, bind, Except.bind, hk, hc, pure, Except.pure]

/-- C84 refuted: the same mistake ends in an IndexError when the measurement's index exceeds the number of targets. -/
theorem C84_violated_index {P V : Type} [DecidableEq P] {g : List P} {cts : List V} {t : P} {k : ℕ} (hk : 1 ≤ k)
    (hg : hits g t = [k]) : patch g cts [t] [none] = .error .index := by
  have h1 : ¬ k < 1 := by omega
  simp [patch, nanTargets, patchTarget, hg, patchOne, List.foldlM_cons, bind, Except.bind, h1]

open Classical in
/-- Interpolants that reproduce their nodes exist. -/
example : ∃ L : Interp, ∀ (nodes : List (ℝ × ℝ)) (vals : List ℝ) (k : ℕ) q v, nodes[k]? = some q → vals[k]? = some v → nodes.Nodup →
    L nodes vals q = some v := by
  refine ⟨fun nodes vals q => vals[nodes.idxOf q]?, ?_⟩
  intro nodes vals k q v hq hv hn
  obtain ⟨hk, rfl⟩ := List.getElem?_eq_some_iff.1 hq
  dsimp only
  rw [hn.idxOf_getElem k hk, hv]

example : hits [(1 : ℤ), 2, 3] 3 = [2] := by decide
example : (0 : ℝ) < maxL (cross.map fun q => azimuth q - minL (cross.map azimuth)) := by rw [cross_max]; positivity

end Corgi.CtMap

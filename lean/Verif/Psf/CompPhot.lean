import Mathlib.Data.Real.Basic
import Mathlib.Algebra.Order.BigOperators.Group.List
import Mathlib.Tactic.FieldSimp
import Mathlib.Tactic.Linarith
import Mathlib.Tactic.NormNum
import Mathlib.Tactic.Positivity
import Mathlib.Tactic.Ring

/-!
# C136: counts of companions without throughput correction (`corgidrp/measure_companions.py` 106-242, 259-320, 498-520)

Reals for floats.  A pixel is known by its distance from the centre and its weight in the aperture; the background
estimator of photutils is a parameter.
-/

noncomputable section

namespace Corgi.CompPhot

/-! ## Model -/

structure Pix where
  r : ℝ
  weight : ℝ
  v : ℝ
  bad : Bool

/-- The keyword arguments that matter here. -/
structure Kw where
  radius : ℝ
  fee : ℝ
  rIn : ℝ
  rOut : ℝ

/-- `get_photometry_kwargs('aperture')` (lines 296-297). -/
def aperture : Kw := ⟨7, 1, 5, 10⟩

open Classical in
/-- The values from which `LocalBackground(r_in, r_out)` estimates (fluxcal.py 324-325). -/
def ring (kw : Kw) (px : List Pix) : List ℝ :=
  (px.filter fun p => decide (kw.rIn ≤ p.r ∧ p.r < kw.rOut) && !p.bad).map Pix.v

/-- `aper_phot` with `background_sub=True` (fluxcal.py 322-338) for background estimator `bg`. -/
def phot (bg : List ℝ → ℝ) (kw : Kw) (px : List Pix) : ℝ :=
  ((px.filter fun p => !p.bad).map fun p => p.weight * (p.v - bg (ring kw px))).sum / kw.fee

/-- Line 204. -/
def ratio (comp host : ℝ) : ℝ := comp / host

/-! ### Choices (lines 132-215, 274-280, 299-301) -/

inductive Corr | l4 | klipFm | none | other
deriving DecidableEq

inductive Method | gauss2d | aperture | other
deriving DecidableEq

inductive Err | notImplemented | badCorr | badMethod | noFactor
deriving DecidableEq

structure Call where
  corr : Corr
  method : Method
  /-- `photometry_kwargs` given and not empty -/
  kwargs : Bool
  calspec : Bool
  /-- `fluxcal_factor` is not `None` -/
  factor : Bool

/-- `get_photometry_kwargs` -/
def getKwargs : Method → Except Err Unit
  | .other => .error .badMethod
  | _ => .ok ()

/-- `measure_counts` -/
def measureCounts : Method → Except Err Unit
  | .other => .error .badMethod
  | _ => .ok ()

/-- One turn of the loop, as far as it depends on the arguments. -/
def step (c : Call) : Except Err Unit := do
  match c.corr with
  | .l4 => pure ()
  | .klipFm => throw .notImplemented
  | .none =>
    if !c.kwargs then getKwargs c.method
    measureCounts c.method
  | .other => throw .badCorr
  if !c.calspec && !c.factor then throw .noFactor

/-- The loop over the companions: the names of the rows of the table. -/
def rows (c : Call) : List String → Except Err (List String)
  | [] => .ok []
  | k :: l => do
    step c
    let r ← rows c l
    pure (k :: r)

/-! ### Images -/

/-- `simplified_psf_sub` (lines 319-320): values, errors; the flags are not handed on. -/
def simplified (eff : ℝ) (data err : List ℝ) : List ℝ × List ℝ := (data.map (· * eff), err)

/-- A list of named extensions, as `fits.HDUList`. -/
structure Hdu where
  name : String

/-- What can stand on either side of `==` in line 519. -/
inductive PyObj
  | hdu (h : Hdu)
  | str (s : String)

/-- `key in ['KL_THRU', 'CT_THRU']`: an extension is not equal to a string. -/
def isNamed : PyObj → Bool
  | .hdu _ => false
  | .str s => s = "KL_THRU" ∨ s = "CT_THRU"

/-- Line 519: the extensions kept; iterating over an `HDUList` gives extensions. -/
def kept (hdus : List Hdu) : List PyObj := (hdus.map PyObj.hdu).filter isNamed

/-! ## Specification -/

/-- The light in the aperture. -/
def flux (kw : Kw) (px : List Pix) : ℝ := ((px.filter fun p => !p.bad).map fun p => p.weight * p.v).sum / kw.fee

def weights (kw : Kw) (px : List Pix) : ℝ := ((px.filter fun p => !p.bad).map Pix.weight).sum / kw.fee

/-- What every background estimator does: it follows a change of scale and of zero, and lies among the values. -/
structure Estimator (bg : List ℝ → ℝ) : Prop where
  scale : ∀ c l, 0 < c → bg (l.map (c * ·)) = c * bg l
  shift : ∀ c l, l ≠ [] → bg (l.map (· + c)) = bg l + c
  above : ∀ a l, l ≠ [] → (∀ x ∈ l, a < x) → a < bg l

/-! ## C136: counts -/

/-- The background costs its value times the weight of the aperture. -/
theorem C136_counts (bg : List ℝ → ℝ) (kw : Kw) (px : List Pix) :
    phot bg kw px = flux kw px - bg (ring kw px) * weights kw px := by
  unfold phot flux weights
  generalize bg (ring kw px) = b
  generalize px.filter (fun p => !p.bad) = l
  rw [← mul_div_assoc, ← sub_div]
  congr 1
  induction l with
  | nil => simp
  | cons p l ih => simp only [List.map_cons, List.sum_cons, ih]; ring

/-- So the counts are the light of the aperture over a uniform background `b` exactly when the estimate is `b`. -/
theorem C136_counts_iff (bg : List ℝ → ℝ) (kw : Kw) (px : List Pix) (b : ℝ) (hw : weights kw px ≠ 0) :
    phot bg kw px = flux kw px - b * weights kw px ↔ bg (ring kw px) = b := by
  rw [C136_counts]
  constructor
  · intro h
    have : bg (ring kw px) * weights kw px = b * weights kw px := by linarith
    exact mul_right_cancel₀ hw this
  · intro h; rw [h]

/-- A companion `c` times the star at its place, pixel by pixel: its counts are `c` times those of the star. -/
theorem C136_scale {bg : List ℝ → ℝ} (hb : Estimator bg) (kw : Kw) (px : List Pix) {c : ℝ} (hc : 0 < c) :
    phot bg kw (px.map fun p => { p with v := c * p.v }) = c * phot bg kw px := by
  have hr : ring kw (px.map fun p => { p with v := c * p.v }) = (ring kw px).map (c * ·) := by
    unfold ring
    rw [List.filter_map, List.map_map, List.map_map]
    rfl
  unfold phot
  rw [hr, hb.scale c _ hc]
  generalize bg (ring kw px) = b
  rw [List.filter_map, List.map_map, ← mul_div_assoc]
  congr 1
  have : ((fun p : Pix => !p.bad) ∘ fun p : Pix => { p with v := c * p.v }) = fun p : Pix => !p.bad := rfl
  rw [this]
  generalize px.filter (fun p => !p.bad) = l
  induction l with
  | nil => simp
  | cons p l ih =>
    simp only [List.map_cons, List.sum_cons, ih, Function.comp_apply]
    ring

/-- C136: the flux ratio is right whatever aperture and ring. -/
theorem C136_ratio {bg : List ℝ → ℝ} (hb : Estimator bg) (kw : Kw) (px : List Pix) {c : ℝ} (hc : 0 < c)
    (h0 : phot bg kw px ≠ 0) : ratio (phot bg kw (px.map fun p => { p with v := c * p.v })) (phot bg kw px) = c := by
  unfold ratio
  rw [C136_scale hb kw px hc, mul_div_assoc, div_self h0, mul_one]

/-- C136: a uniform background does not change the counts. -/
theorem C136_background {bg : List ℝ → ℝ} (hb : Estimator bg) (kw : Kw) (px : List Pix) (b : ℝ) (hr : ring kw px ≠ []) :
    phot bg kw (px.map fun p => { p with v := p.v + b }) = phot bg kw px := by
  have e : ring kw (px.map fun p => { p with v := p.v + b }) = (ring kw px).map (· + b) := by
    unfold ring
    rw [List.filter_map, List.map_map, List.map_map]
    rfl
  unfold phot
  rw [e, hb.shift b _ hr, List.filter_map, List.map_map]
  congr 2
  apply List.map_congr_left
  intro p _
  simp only [Function.comp_apply]
  ring

/-- Spec: the image with other values in the bad pixels. -/
def refill (g : Pix → ℝ) (px : List Pix) : List Pix := px.map fun p => if p.bad then { p with v := g p } else p

/-- C136: the background comes from the good pixels from the inner radius up to the outer one, and from no others. -/
theorem C136_ring_iff (kw : Kw) (px : List Pix) (x : ℝ) :
    x ∈ ring kw px ↔ ∃ p ∈ px, p.bad = false ∧ kw.rIn ≤ p.r ∧ p.r < kw.rOut ∧ p.v = x := by
  unfold ring
  simp only [List.mem_map, List.mem_filter, Bool.and_eq_true, decide_eq_true_eq, Bool.not_eq_true']
  constructor
  · rintro ⟨p, ⟨hp, ⟨h1, h2⟩, h3⟩, rfl⟩
    exact ⟨p, hp, h3, h1, h2, rfl⟩
  · rintro ⟨p, hp, h3, h1, h2, rfl⟩
    exact ⟨p, ⟨hp, ⟨h1, h2⟩, h3⟩, rfl⟩

/-- C136: what a bad pixel holds changes neither the aperture nor the background. -/
theorem C136_bad_ignored (bg : List ℝ → ℝ) (kw : Kw) (px : List Pix) (g : Pix → ℝ) :
    phot bg kw (refill g px) = phot bg kw px := by
  have hg : ∀ p : Pix, (if p.bad then { p with v := g p } else p).bad = p.bad := by
    intro p; by_cases hb : p.bad = true <;> simp [hb]
  have hf : (refill g px).filter (fun p => !p.bad) = px.filter fun p => !p.bad := by
    unfold refill
    induction px with
    | nil => rfl
    | cons p l ih =>
      rw [List.map_cons, List.filter_cons, List.filter_cons, hg, ih]
      by_cases hb : p.bad = true <;> simp [hb]
  have hr : ring kw (refill g px) = ring kw px := by
    unfold ring
    rw [← List.filter_filter, ← List.filter_filter, hf]
  unfold phot
  rw [hr, hf]

/-- C136, **violated**: with the defaults the ring begins inside the aperture: what lies between five and seven pixels is
measured as light and as background. -/
theorem C136_violated_overlap (p : Pix) (px : List Pix) (hp : p ∈ px) (hb : p.bad = false) (h1 : 5 ≤ p.r) (h2 : p.r < 7) :
    p.r < aperture.radius ∧ p.v ∈ ring aperture px := by
  refine ⟨h2, ?_⟩
  unfold ring
  refine List.mem_map.2 ⟨p, List.mem_filter.2 ⟨hp, ?_⟩, rfl⟩
  have h3 : p.r < 10 := by linarith
  simp [aperture, h1, h3, hb]

/-- C136, **violated**: the counts of any source whose light reaches the ring are too low. -/
theorem C136_violated_wings {bg : List ℝ → ℝ} (hb : Estimator bg) (kw : Kw) (px : List Pix) (hr : ring kw px ≠ [])
    (hv : ∀ x ∈ ring kw px, 0 < x) (hw : 0 < weights kw px) : phot bg kw px < flux kw px := by
  rw [C136_counts]
  have := mul_pos (hb.above 0 _ hr hv) hw
  linarith

/-- Non-vacuity: the mean is an estimator. -/
theorem mean_estimator : Estimator fun l => l.sum / l.length := by
  refine ⟨?_, ?_, ?_⟩
  · intro c l _
    rw [List.length_map]
    have : (l.map (c * ·)).sum = c * l.sum := by
      induction l with
      | nil => simp
      | cons x l ih => simp only [List.map_cons, List.sum_cons, ih]; ring
    rw [this, mul_div_assoc]
  · intro c l hl
    rw [List.length_map]
    have hn : (l.length : ℝ) ≠ 0 := by
      have := List.length_pos_iff.2 hl
      positivity
    have : (l.map (· + c)).sum = l.sum + l.length * c := by
      clear hl hn
      induction l with
      | nil => simp
      | cons x l ih => simp only [List.map_cons, List.sum_cons, ih, List.length_cons]; push_cast; ring
    rw [this]
    field_simp
  · intro a l hl h
    have hn : (0 : ℝ) < l.length := by
      have := List.length_pos_iff.2 hl
      positivity
    rw [lt_div_iff₀ hn]
    clear hn
    cases l with
    | nil => exact absurd rfl hl
    | cons x l =>
      clear hl
      have hx := h x (by simp)
      have hl' : a * l.length ≤ l.sum := by
        have h' : ∀ y ∈ l, a < y := fun y hy => h y (List.mem_cons_of_mem _ hy)
        clear h
        induction l with
        | nil => simp
        | cons y l ih =>
          have := ih fun z hz => h' z (List.mem_cons_of_mem _ hz)
          have := h' y (by simp)
          simp only [List.length_cons, List.sum_cons]; push_cast
          nlinarith
      simp only [List.length_cons, List.sum_cons]; push_cast
      nlinarith

/-- A pixel at the centre and one in both aperture and ring: two of ten counts are lost. -/
example : phot (fun l => l.sum / l.length) aperture [⟨0, 1, 9, false⟩, ⟨6, 1, 1, false⟩] = 8 := by
  have e : ring aperture [⟨0, 1, 9, false⟩, ⟨6, 1, 1, false⟩] = [1] := by
    unfold ring aperture
    rw [List.filter_cons_of_neg (by norm_num), List.filter_cons_of_pos (by norm_num)]
    rfl
  rw [C136_counts, e]
  norm_num [flux, weights, aperture]

/-! ## C136: choices -/

/-- One turn succeeds exactly for these arguments. -/
theorem step_ok_iff (c : Call) : step c = .ok () ↔
    (c.corr = .l4 ∨ (c.corr = .none ∧ c.method ≠ .other)) ∧ (c.calspec = true ∨ c.factor = true) := by
  obtain ⟨corr, m, k, s, f⟩ := c
  cases corr <;> cases m <;> cases k <;> cases s <;> cases f <;> decide

theorem rows_ok {c : Call} (h : step c = .ok ()) (l : List String) : rows c l = .ok l := by
  induction l with
  | nil => rfl
  | cons k l ih =>
    unfold rows
    rw [h, ih]
    rfl

/-- C136: with the right arguments there is one row for each companion, in order; otherwise it raises, but only if there
are companions. -/
theorem C136_rows_iff (c : Call) (l : List String) : rows c l = .ok l ↔
    l = [] ∨ ((c.corr = .l4 ∨ (c.corr = .none ∧ c.method ≠ .other)) ∧ (c.calspec = true ∨ c.factor = true)) := by
  rw [← step_ok_iff]
  cases l with
  | nil => simp [rows]
  | cons k l =>
    constructor
    · intro h
      right
      cases hs : step c with
      | ok u => rfl
      | error e =>
        unfold rows at h
        rw [hs] at h
        cases h
    · rintro (h | h)
      · cases h
      · exact rows_ok h _

/-- C136, **violated**: the photometry method is not looked at in the default mode: any name is taken. -/
theorem C136_violated_method (c : Call) (m : Method) (l : List String) (h : c.corr = .l4) :
    rows { c with method := m } l = rows c l := by
  have : step { c with method := m } = step c := by
    obtain ⟨corr, m', k, s, f⟩ := c
    simp only at h
    subst h
    rfl
  induction l with
  | nil => rfl
  | cons k l ih =>
    unfold rows
    rw [this, ih]

/-- C136, **violated**: without companions nothing is checked: an unknown correction, a correction that is not implemented
and a missing flux factor give an empty table. -/
theorem C136_violated_unchecked (c : Call) : rows c [] = .ok [] := rfl

/-! ## C136: images -/

/-- C136, **violated**: the errors are not scaled with the values: the relative error changes by the efficiency. -/
theorem C136_violated_error {eff v e : ℝ} (hv : v ≠ 0) (h1 : eff ≠ 1) (h0 : eff ≠ 0) (he : e ≠ 0) :
    simplified eff [v] [e] = ([v * eff], [e]) ∧ e / (v * eff) ≠ e / v := by
  refine ⟨rfl, ?_⟩
  intro h
  apply h1
  field_simp at h
  exact h.symm

/-- C136, **violated**: `extract_single_frame` never keeps the throughput extensions it looks for. -/
theorem C136_violated_extensions (hdus : List Hdu) : kept hdus = [] := by
  unfold kept
  rw [List.filter_eq_nil_iff]
  intro x hx
  obtain ⟨h, _, rfl⟩ := List.mem_map.1 hx
  simp [isNamed]

end Corgi.CompPhot

import Verif.Flux.Band
import Verif.Common.Except
import Mathlib.Data.Matrix.Mul
import Mathlib.LinearAlgebra.Matrix.Notation

/-!
# ND filter calibration

`/repo/corgidrp/nd_filter_calibration.py:68-527`.
-/

noncomputable section

namespace Corgi.Nd

open Corgi.Flux

/-! ## C75: the optical density -/

/-- `_compute_od_for_file` (lines 220-221) with the expected counts of `process_bright_target` (line 263). -/
def od (measured irr cal : ℝ) : ℝ := -Real.logb 10 (measured / (irr / cal))

/-- The calibration factor of one dim star: `calibrate_fluxcal_aper` with `flux_or_irr`. -/
def calFactor (useIrr : Bool) (A : ℝ) (g : List ℝ) (T dim : ℝ → ℝ) : ℝ :=
  (if useIrr then irradiance g T dim else bandFlux g T dim) / electrons A g T dim

/-- `compute_avg_calibration_factor` (lines 128-157). -/
def avgFactor (l : List ℝ) : ℝ := l.sum / l.length

/-- C76: the average factor of dim stars whose factors differ by at most `δ` from `k` does so too; no factor is lost or counted twice. -/
theorem C76_average {l : List ℝ} (h0 : l ≠ []) : avgFactor l * l.length = l.sum ∧
    ∀ k δ, (∀ f ∈ l, |f - k| ≤ δ) → |avgFactor l - k| ≤ δ := by
  have hn : 0 < (l.length : ℝ) := by exact_mod_cast List.length_pos_iff.2 h0
  refine ⟨div_mul_cancel₀ _ hn.ne', fun k δ h => ?_⟩
  have h1 : ∀ l : List ℝ, (∀ f ∈ l, |f - k| ≤ δ) → |l.sum - l.length * k| ≤ l.length * δ := by
    intro l
    induction l with
    | nil => simp
    | cons f l ih =>
      intro h
      rw [List.forall_mem_cons] at h
      rw [List.sum_cons, List.length_cons]
      push_cast
      have h2 := abs_add_le (f - k) (l.sum - l.length * k)
      have h3 := ih h.2
      rw [show f + l.sum - ((l.length : ℝ) + 1) * k = f - k + (l.sum - l.length * k) by ring]
      linarith [h.1]
  have h2 := h1 l h
  unfold avgFactor
  rw [show l.sum / l.length - k = (l.sum - l.length * k) / l.length by field_simp, abs_div, abs_of_pos hn, div_le_iff₀ hn]
  linarith

/-- The optical density measured for a bright star behind a filter of transmission `τ`, calibrated with one dim star. -/
def measuredOd (useIrr : Bool) (A : ℝ) (g : List ℝ) (T dim bright : ℝ → ℝ) (τ : ℝ) : ℝ :=
  od (τ * electrons A g T bright) (irradiance g T bright) (calFactor useIrr A g T dim)

/-- Photons per energy of a spectrum in the band: its mean wavelength. -/
def photonsPerEnergy (g : List ℝ) (T F : ℝ → ℝ) : ℝ := simpson g (fun w => F w * T w * w) / irradiance g T F

section

variable {A τ : ℝ} {g : List ℝ} {T dim bright : ℝ → ℝ}

theorem od_ratio (b : Band g T) (hA : 0 < A) (hτ : 0 < τ) (hd : ∀ w ∈ g, 0 < dim w) (hb : ∀ w ∈ g, 0 < bright w) :
    measuredOd true A g T dim bright τ = -Real.logb 10 τ - Real.logb 10 (photonsPerEnergy g T bright / photonsPerEnergy g T dim) := by
  have h1 := b.flux_pos hd; have h2 := b.flux_pos hb; have h3 := b.irr_pos hd; have h4 := b.irr_pos hb
  unfold measuredOd od calFactor photonsPerEnergy electrons
  simp only [if_true]
  have e : τ * (A * simpson g fun w => bright w * T w * w) /
      (irradiance g T bright / (irradiance g T dim / (A * simpson g fun w => dim w * T w * w))) =
      τ * ((simpson g fun w => bright w * T w * w) / irradiance g T bright / ((simpson g fun w => dim w * T w * w) / irradiance g T dim)) := by
    field_simp
  rw [e, Real.logb_mul hτ.ne' (by positivity)]
  ring

/-- C75: calibrated in irradiance, the optical density is the filter's exactly when the dim and the bright star have the same
mean wavelength in the band. -/
theorem C75_irr_iff (b : Band g T) (hA : 0 < A) (hτ : 0 < τ) (hd : ∀ w ∈ g, 0 < dim w) (hb : ∀ w ∈ g, 0 < bright w) :
    measuredOd true A g T dim bright τ = -Real.logb 10 τ ↔ photonsPerEnergy g T bright = photonsPerEnergy g T dim := by
  have h1 : 0 < photonsPerEnergy g T bright := div_pos (b.flux_pos hb) (b.irr_pos hb)
  have h2 : 0 < photonsPerEnergy g T dim := div_pos (b.flux_pos hd) (b.irr_pos hd)
  rw [od_ratio b hA hτ hd hb]
  constructor
  · intro h
    have hl : Real.logb 10 (photonsPerEnergy g T bright / photonsPerEnergy g T dim) = Real.logb 10 1 := by rw [Real.logb_one]; linarith
    have := Real.logb_injOn_pos (by norm_num : (1 : ℝ) < 10) (Set.mem_Ioi.2 (div_pos h1 h2)) (Set.mem_Ioi.2 one_pos) hl
    rwa [div_eq_one_iff_eq h2.ne'] at this
  · intro h; rw [h, div_self h2.ne']; simp

/-- C75: in particular for stars of the same spectral shape. -/
theorem C75_partial (b : Band g T) (hA : 0 < A) (hτ : 0 < τ) (hd : ∀ w ∈ g, 0 < dim w) {k : ℝ} (hk : 0 < k) :
    measuredOd true A g T dim (fun w => k * dim w) τ = -Real.logb 10 τ := by
  rw [C75_irr_iff b hA hτ hd fun w hw => mul_pos hk (hd w hw)]
  unfold photonsPerEnergy irradiance
  rw [simpson_congr (f' := fun w => k * (dim w * T w * w)) g (fun w _ => by ring),
    simpson_congr (f := fun w => k * dim w * T w) (f' := fun w => k * (dim w * T w)) g (fun w _ => by ring), simpson_smul, simpson_smul,
    mul_div_mul_left _ _ hk.ne']

/-- C75: calibrated in band flux (`flux_or_irr="flux"`) the expected counts still come from the irradiance: the optical
density is off by the logarithm of irradiance over band flux, i.e. of the width of the band in Ångström. -/
theorem C75_flux (b : Band g T) (hA : 0 < A) (hτ : 0 < τ) (hd : ∀ w ∈ g, 0 < dim w) (hb : ∀ w ∈ g, 0 < bright w) :
    measuredOd false A g T dim bright τ = -Real.logb 10 τ + Real.logb 10 (irradiance g T bright / bandFlux g T bright) := by
  have h1 := b.flux_pos hd; have h2 := b.flux_pos hb; have h4 := b.irr_pos hb; have h5 := b.den_pos
  unfold measuredOd od calFactor electrons bandFlux
  simp only [Bool.false_eq_true, if_false]
  have e : τ * (A * simpson g fun w => bright w * T w * w) / (irradiance g T bright /
      ((simpson g fun w => dim w * T w * w) / (simpson g fun w => T w * w) / (A * simpson g fun w => dim w * T w * w))) =
      τ * (irradiance g T bright / ((simpson g fun w => bright w * T w * w) / simpson g fun w => T w * w))⁻¹ := by
    field_simp
  rw [e, Real.logb_mul hτ.ne' (by positivity), Real.logb_inv]
  ring

theorem C75_flux_iff (b : Band g T) (hA : 0 < A) (hτ : 0 < τ) (hd : ∀ w ∈ g, 0 < dim w) (hb : ∀ w ∈ g, 0 < bright w) :
    measuredOd false A g T dim bright τ = -Real.logb 10 τ ↔ irradiance g T bright = bandFlux g T bright := by
  have h1 : 0 < bandFlux g T bright := div_pos (b.flux_pos hb) b.den_pos
  have h2 := b.irr_pos hb
  rw [C75_flux b hA hτ hd hb]
  constructor
  · intro h
    have hl : Real.logb 10 (irradiance g T bright / bandFlux g T bright) = Real.logb 10 1 := by rw [Real.logb_one]; linarith
    have := Real.logb_injOn_pos (by norm_num : (1 : ℝ) < 10) (Set.mem_Ioi.2 (div_pos h2 h1)) (Set.mem_Ioi.2 one_pos) hl
    rwa [div_eq_one_iff_eq h1.ne'] at this
  · intro h; rw [h, div_self h1.ne']; simp

end

theorem band123 : Band [1, 2, 3] (fun _ => 1) := ⟨⟨1, by norm_num, by norm_num [List.isChain_cons_cons]⟩, by simp,
    by intro w hw; simp at hw; rcases hw with rfl | rfl | rfl <;> norm_num, fun _ _ => by norm_num⟩

/-- C75 as stated (the calibrated optical density is the filter's for any stars) fails in both modes. -/
theorem C75_violated : ∃ (g : List ℝ) (T dim bright : ℝ → ℝ), Band g T ∧ (∀ w ∈ g, 0 < dim w) ∧ (∀ w ∈ g, 0 < bright w) ∧
    measuredOd true 1 g T dim bright (1 / 100) ≠ -Real.logb 10 (1 / 100) ∧
    measuredOd false 1 g T dim dim (1 / 100) ≠ -Real.logb 10 (1 / 100) := by
  have hpos : ∀ w ∈ ([1, 2, 3] : List ℝ), 0 < (fun w : ℝ => w ^ 2) w := by
    intro w hw; simp at hw; rcases hw with rfl | rfl | rfl <;> norm_num
  refine ⟨[1, 2, 3], fun _ => 1, fun _ => 1, fun w => w ^ 2, band123, fun _ _ => by norm_num, hpos, ?_, ?_⟩
  · rw [Ne, C75_irr_iff band123 one_pos (by norm_num) (fun _ _ => by norm_num) hpos]
    simp [photonsPerEnergy, irradiance, simpson, tri]; norm_num
  · rw [Ne, C75_flux_iff band123 one_pos (by norm_num) (fun _ _ => by norm_num) (fun _ _ => by norm_num)]
    simp [bandFlux, irradiance, simpson, tri]; norm_num

/-! ## C76: the work flow -/

/-- A frame: the keywords used, and the result of photometry and centroid (`none`: NaN centroid). -/
structure Frame where
  fpamName : String
  fpamH : ℚ
  fpamV : ℚ
  cfam : String
  target : String
  od : Option (ℝ × ℝ × ℝ)

/-- Metadata checks of one file against the first of its target (lines 197-203). -/
def fileOk (ref f : Frame) : Bool :=
  f.fpamName = ref.fpamName && decide (|f.fpamH - ref.fpamH| ≤ 1.2) && decide (|f.fpamV - ref.fpamV| ≤ 1.2) && f.cfam = ref.cfam

/-- Consistency checks between the first files of two targets (lines 504-508). -/
def targetOk (ref f : Frame) : Bool :=
  f.fpamName = ref.fpamName && decide (|ref.fpamH - f.fpamH| < 1.2) && decide (|ref.fpamV - f.fpamV| < 1.2) && f.cfam = ref.cfam

/-- The rows of one target (lines 265-279). -/
def targetRows (ref : Frame) : List Frame → Except String (List (ℝ × ℝ × ℝ))
  | [] => .ok []
  | f :: r =>
    if fileOk ref f then do
      let rows ← targetRows ref r
      return f.od.toList ++ rows
    else .error "ValueError: Inconsistent FPAM/CFAM header values"

def commonOk (common : Option Frame) (f : Frame) : Bool :=
  match common with
  | none => true
  | some c => targetOk c f

/-- The groups of bright frames (lines 470-508): `common` is the first frame of the first target; `flag` says whether the
spread of the optical densities of a group is too large. Returns the rows and ODFLAG, which is overwritten by every
target. -/
def targets (flag : List (ℝ × ℝ × ℝ) → Bool) : Option Frame → List (List Frame) → Except String (List (ℝ × ℝ × ℝ) × Option Bool)
  | _, [] => .ok ([], none)
  | common, [] :: r => targets flag common r
  | common, (f :: fs) :: r => do
    let rows ← targetRows f (f :: fs)
    if commonOk common f then do
      let rest ← targets flag (some (common.getD f)) r
      return (rows ++ rest.1, some (rest.2.getD (flag rows)))
    else .error "ValueError: Inconsistent FPAM or filter metadata"

/-- The photometry argument without a default (fluxcal.py:275,347). -/
def needed (gaussian : Bool) : String := if gaussian then "fwhm" else "encircled_radius"

/-- `create_nd_filter_cal` (lines 404-527). `kwargs` are the photometry keywords (`none` becomes empty; the
radius or the width has no default); `Dataset` of an empty list raises. A given factor only replaces the value from the dim
stars. Groups are by target in sorted order (`group`, modelled in C08). -/
def createNd (group : List Frame → List (List Frame)) (flag : List (ℝ × ℝ × ℝ) → Bool) (frames : List Frame) (_factor : Option ℝ)
    (gaussian : Bool) (kwargs : Option (List String)) : Except String (List (ℝ × ℝ × ℝ) × Bool) :=
  let bright := frames.filter fun f => f.fpamName.startsWith "ND"
  let dim := frames.filter fun f => !(f.fpamName.startsWith "ND")
  if bright = [] then .error "ValueError: Empty list passed in"
  else if dim = [] then .error "ValueError: Empty list passed in"
  else if needed gaussian ∉ kwargs.getD [] then .error "TypeError: missing argument"
  else match targets flag none (group bright) with
    | .error e => .error e
    | .ok (_, none) => .error "UnboundLocalError: od_var_flag"
    | .ok (rows, some b) => .ok (rows, b)

variable {group : List Frame → List (List Frame)} {flag : List (ℝ × ℝ × ℝ) → Bool}

/-- C76: with a flux calibration factor and only ND frames — the documented use of the argument — the calibration always
fails. -/
theorem C76_factor_violated {frames : List Frame} (h : ∀ f ∈ frames, f.fpamName.startsWith "ND" = true) (factor : Option ℝ) (gaussian : Bool)
    (kwargs : Option (List String)) : ∃ e, createNd group flag frames factor gaussian kwargs = .error e := by
  unfold createNd
  have hd : frames.filter (fun f => !(f.fpamName.startsWith "ND")) = [] := by
    rw [List.filter_eq_nil_iff]
    intro f hf; rw [h f hf]; simp
  rw [hd]
  dsimp only
  rw [if_pos (rfl : ([] : List Frame) = [])]
  split_ifs <;> exact ⟨_, rfl⟩

/-- C76: with the default photometry keywords it always fails. -/
theorem C76_default_violated (frames : List Frame) (factor : Option ℝ) (gaussian : Bool) :
    ∃ e, createNd group flag frames factor gaussian none = .error e := by
  unfold createNd
  dsimp only
  rw [if_pos (show needed gaussian ∉ (none : Option (List String)).getD [] by simp)]
  split_ifs <;> exact ⟨_, rfl⟩

/-- C76: it needs the width with a fit of a Gaussian, the radius otherwise. -/
theorem C76_keyword {frames : List Frame} {factor : Option ℝ} {kwargs : Option (List String)} {out : List (ℝ × ℝ × ℝ) × Bool} :
    (createNd group flag frames factor true kwargs = .ok out → ∃ l, kwargs = some l ∧ "fwhm" ∈ l) ∧
    (createNd group flag frames factor false kwargs = .ok out → ∃ l, kwargs = some l ∧ "encircled_radius" ∈ l) := by
  have key : ∀ g, createNd group flag frames factor g kwargs = .ok out → ∃ l, kwargs = some l ∧ needed g ∈ l := by
    intro g h
    unfold createNd at h
    dsimp only at h
    split_ifs at h with _ _ h3
    cases kwargs with
    | none => simp at h3
    | some l => exact ⟨l, rfl, by simpa using h3⟩
  exact ⟨fun h => key true h, fun h => key false h⟩

/-- The rows in order: every frame with a centroid. -/
theorem targetRows_ok {ref : Frame} : ∀ {l : List Frame} {rows : List (ℝ × ℝ × ℝ)},
    targetRows ref l = .ok rows → rows = l.filterMap Frame.od ∧ ∀ f ∈ l, fileOk ref f = true
  | [], rows, h => by cases h; simp
  | f :: r, rows, h => by
    rw [targetRows] at h
    split_ifs at h with h1
    cases hr : targetRows ref r with
    | error e => rw [hr] at h; cases h
    | ok rows' =>
      rw [hr] at h
      obtain ⟨e1, e2⟩ := targetRows_ok hr
      have hrows : f.od.toList ++ rows' = rows := by
        have h' : Except.ok (ε := String) (f.od.toList ++ rows') = .ok rows := h
        exact Except.ok.inj h'
      refine ⟨?_, ?_⟩
      · rw [← hrows, e1]
        cases ho : f.od <;> simp [ho]
      · intro x hx
        rcases List.mem_cons.1 hx with rfl | hx
        · exact h1
        · exact e2 x hx

/-- C76: on success the rows are those of all frames in group order, and ODFLAG is that of the last (non-empty) target. -/
theorem targets_ok {common : Option Frame} : ∀ {groups : List (List Frame)} {rows : List (ℝ × ℝ × ℝ)} {b : Option Bool},
    targets flag common groups = .ok (rows, b) → rows = groups.flatten.filterMap Frame.od ∧
      b = (groups.filter (· ≠ [])).getLast?.map fun l => flag (l.filterMap Frame.od) := by
  intro groups
  induction groups generalizing common with
  | nil => intro rows b h; cases h; simp
  | cons l r ih =>
    intro rows b h
    cases l with
    | nil =>
      rw [targets.eq_2] at h
      have := ih h
      simpa using this
    | cons f fs =>
      rw [targets.eq_3] at h
      cases hr : targetRows f (f :: fs) with
      | error e => rw [hr] at h; cases h
      | ok rows₁ =>
        rw [hr] at h
        have hrow := (targetRows_ok hr).1
        simp only [Bind.bind, Except.bind] at h
        split_ifs at h with h1
        cases hr2 : targets flag (some (common.getD f)) r with
        | error e => rw [hr2] at h; cases h
        | ok p =>
          obtain ⟨rows₂, b₂⟩ := p
          rw [hr2] at h
          have h' : Except.ok (ε := String) (rows₁ ++ rows₂, some (b₂.getD (flag rows₁))) = .ok (rows, b) := h
          have h'' := Prod.mk.inj (Except.ok.inj h')
          obtain ⟨e1, e2⟩ := ih hr2
          refine ⟨?_, ?_⟩
          · rw [← h''.1, e1, hrow, List.flatten_cons, List.filterMap_append]
          · rw [← h''.2, e2]
            have hne : (f :: fs) ≠ [] := by simp
            rw [List.filter_cons_of_pos (by simp)]
            cases hl : (r.filter (· ≠ [])) with
            | nil => simp [hrow]
            | cons a t => simp [List.getLast?_cons]

theorem C76_partial {frames : List Frame} {factor : Option ℝ} {gaussian : Bool} {kwargs : Option (List String)} {rows : List (ℝ × ℝ × ℝ)} {b : Bool}
    (h : createNd group flag frames factor gaussian kwargs = .ok (rows, b)) :
    rows = (group (frames.filter fun f => f.fpamName.startsWith "ND")).flatten.filterMap Frame.od ∧
      ((group (frames.filter fun f => f.fpamName.startsWith "ND")).filter (· ≠ [])).getLast?.map (fun l => flag (l.filterMap Frame.od)) = some b ∧
      (∃ f ∈ frames, f.fpamName.startsWith "ND" = true) ∧ ∃ f ∈ frames, f.fpamName.startsWith "ND" = false := by
  unfold createNd at h
  dsimp only at h
  split_ifs at h with h1 h2 h3
  cases ht : targets flag none (group (frames.filter fun f => f.fpamName.startsWith "ND")) with
  | error e => rw [ht] at h; cases h
  | ok p =>
    obtain ⟨rows', b'⟩ := p
    rw [ht] at h
    cases b' with
    | none => cases h
    | some b' =>
      cases h
      obtain ⟨e1, e2⟩ := targets_ok ht
      refine ⟨e1, e2.symm, ?_, ?_⟩
      · obtain ⟨f, hf⟩ := List.exists_mem_of_ne_nil _ h1
        exact ⟨f, (List.mem_filter.1 hf).1, (List.mem_filter.1 hf).2⟩
      · obtain ⟨f, hf⟩ := List.exists_mem_of_ne_nil _ h2
        exact ⟨f, (List.mem_filter.1 hf).1, by simpa using (List.mem_filter.1 hf).2⟩

def fr (name target : String) (o : ℝ) : Frame := ⟨name, 0, 0, "3C", target, some (o, 1, 1)⟩

/-- C76 as stated (ODFLAG tells whether any target's optical densities vary too much) fails: the first of two targets does,
the header says no. -/
theorem C76_flag_violated : ∃ groups : List (List Frame), ∃ flag : List (ℝ × ℝ × ℝ) → Bool,
    (∃ l ∈ groups, flag (l.filterMap Frame.od) = true) ∧ ∃ rows, targets flag none groups = .ok (rows, some false) := by
  refine ⟨[[fr "ND225" "A" 2, fr "ND225" "A" 3], [fr "ND225" "B" 2]], fun rows => decide (rows.length = 2), ⟨_, List.mem_cons_self, ?_⟩, ?_⟩
  · simp [fr]
  · refine ⟨[(2, 1, 1), (3, 1, 1), (2, 1, 1)], ?_⟩
    norm_num [targets, targetRows, fileOk, targetOk, commonOk, fr, Bind.bind, Except.bind, pure, Except.pure]

theorem targets_common {flag : List (ℝ × ℝ × ℝ) → Bool} {c : Frame} {gs : List (List Frame)} :
    ∀ {r}, targets flag (some c) gs = .ok r → ∀ f fs, f :: fs ∈ gs → targetOk c f = true := by
  induction gs with
  | nil => intro r _ f fs h; simp at h
  | cons g gs ih =>
    intro r h f fs hm
    cases g with
    | nil =>
      rw [targets] at h
      rcases List.mem_cons.1 hm with hm | hm
      · simp at hm
      · exact ih h f fs hm
    | cons a t =>
      rw [targets] at h
      simp only [Bind.bind, Except.bind] at h
      split at h
      · simp at h
      · split_ifs at h with hc
        split at h
        · simp at h
        · rename_i rest hrest
          rcases List.mem_cons.1 hm with hm | hm
          · simp only [List.cons.injEq] at hm
            rw [hm.1]
            exact hc
          · exact ih hrest f fs hm

/-- C76: on success all targets were taken through the same ND filter and colour filter, with the FPAM within 1.2 µm of its
position for the first target. -/
theorem C76_consistent {flag : List (ℝ × ℝ × ℝ) → Bool} {g : Frame} {t : List Frame} {gs : List (List Frame)}
    {r : List (ℝ × ℝ × ℝ) × Option Bool} (h : targets flag none ((g :: t) :: gs) = .ok r) {f : Frame} {fs : List Frame} (hf : f :: fs ∈ gs) :
    f.fpamName = g.fpamName ∧ f.cfam = g.cfam ∧ |g.fpamH - f.fpamH| < 1.2 ∧ |g.fpamV - f.fpamV| < 1.2 := by
  rw [targets] at h
  simp only [Bind.bind, Except.bind] at h
  split at h
  · simp at h
  · split_ifs at h with hc
    split at h
    · simp at h
    · rename_i rest hrest
      have := targets_common hrest f fs hf
      simp only [Option.getD_none, targetOk, Bool.and_eq_true, decide_eq_true_eq] at this
      exact ⟨this.1.1.1, this.2, this.1.1.2, this.1.2⟩

/-- C76: two targets exactly 1.2 µm apart are inconsistent, two frames of one target exactly 1.2 µm apart are consistent. -/
theorem C76_tolerance {ref f : Frame} (hn : f.fpamName = ref.fpamName) (hc : f.cfam = ref.cfam) (hv : f.fpamV = ref.fpamV)
    (hh : f.fpamH = ref.fpamH + 1.2) : fileOk ref f = true ∧ targetOk ref f = false := by
  unfold fileOk targetOk
  rw [hn, hc, hv, hh]
  constructor
  · have : |ref.fpamH + 1.2 - ref.fpamH| = (1.2 : ℚ) := by
      rw [add_sub_cancel_left]; norm_num
    simp only [this, sub_self, abs_zero, decide_true, Bool.true_and, Bool.and_true]
    simp; norm_num
  · have : |ref.fpamH - (ref.fpamH + 1.2)| = (1.2 : ℚ) := by
      rw [sub_add_cancel_left]; norm_num
    simp only [this]
    simp

example : ∃ r, targets (fun _ => true) none [[fr "ND225" "A" 2]] = .ok r := by
  norm_num [targets, targetRows, fileOk, commonOk, fr, Bind.bind, Except.bind, pure, Except.pure]

/-! ## C77: optical density at a new location -/

/-- `calculate_od_at_new_location` (lines 372-398): `M` is the FPAM to EXCAM matrix, `map` the interpolated sweet-spot map. -/
def odAt (map : (Fin 2 → ℝ) → ℝ) (M : Matrix (Fin 2) (Fin 2) ℝ) (star fpam fpamRef : Fin 2 → ℝ) : ℝ :=
  map (star + M.mulVec (fpam - fpamRef))

/-- Spec. A spot of the filter that is imaged at `p` with the FPAM at `fpamRef` is imaged at `p + M (fpam - fpamRef)` with the
FPAM at `fpam` (as in `GetCTFPMPosition`, data.py:1645-1690). -/
def imagedAt (M : Matrix (Fin 2) (Fin 2) ℝ) (p fpam fpamRef : Fin 2 → ℝ) : Fin 2 → ℝ := p + M.mulVec (fpam - fpamRef)

/-- C77: a star on the spot that the calibration saw at `p` gets the map's value at `p + 2·M·Δ`. -/
theorem C77_value (map : (Fin 2 → ℝ) → ℝ) (M : Matrix (Fin 2) (Fin 2) ℝ) (p fpam fpamRef : Fin 2 → ℝ) :
    odAt map M (imagedAt M p fpam fpamRef) fpam fpamRef = map (p + (2 : ℝ) • M.mulVec (fpam - fpamRef)) := by
  unfold odAt imagedAt
  congr 1
  rw [two_smul]; abel

/-- C77: right when the FPAM has not moved. -/
theorem C77_partial (map : (Fin 2 → ℝ) → ℝ) (M : Matrix (Fin 2) (Fin 2) ℝ) (p fpam : Fin 2 → ℝ) :
    odAt map M (imagedAt M p fpam fpam) fpam fpam = map p := by
  rw [C77_value]; simp

/-- C77: for every real displacement there is a map (the optical density rising linearly) that shows the error. -/
theorem C77_violated (M : Matrix (Fin 2) (Fin 2) ℝ) (fpam fpamRef : Fin 2 → ℝ) (h : M.mulVec (fpam - fpamRef) ≠ 0) :
    ∃ map : (Fin 2 → ℝ) → ℝ, ∀ p, odAt map M (imagedAt M p fpam fpamRef) fpam fpamRef ≠ map p := by
  obtain ⟨i, hi⟩ : ∃ i, M.mulVec (fpam - fpamRef) i ≠ 0 := by
    by_contra hc
    push Not at hc
    exact h (funext hc)
  refine ⟨fun q => q i, fun p => ?_⟩
  rw [C77_value]
  simp only [Pi.add_apply, Pi.smul_apply, smul_eq_mul]
  intro hc
  exact hi (by linarith)

end Corgi.Nd

import Verif.Flux.Band

/-!
# C134: filter curves and the lens ratio (`corgidrp/corethroughput.py` 11-88)

The directory listing is a list of names in whatever order `os.listdir` gives them; the version number is its decimal
text.  The lens files are lists of (wavelength in nm, transmission); the division by ten of lines 62 and 70 is done.
-/

noncomputable section

namespace Corgi.Ct.Lens

open Corgi.Flux

/-! ## Model -/

inductive LookErr
  | noFilter
  | noVersion
deriving DecidableEq

/-- `get_cfam` up to the reading of the file (lines 25-34). -/
def cfamFile (listing : List String) (name version : String) : Except LookErr String :=
  let byName := listing.filter (isSub name)
  if byName = [] then .error .noFilter
  else
    match byName.filter (isSub ("v" ++ version)) with
    | [] => .error .noVersion
    | f :: _ => .ok f

/-- The largest value (`.max()`); empty tables are not modelled. -/
def top : List ℝ → ℝ
  | [] => 0
  | v :: l => l.foldl max v

/-- Lines 35-36: wavelengths and transmission over its maximum. -/
def normalised (c : List (ℝ × ℝ)) : List (ℝ × ℝ) := c.map fun p => (p.1, p.2 / top (c.map Prod.snd))

/-- `np.interp` of a lens file; the files are not empty. -/
def trans (l : List (ℝ × ℝ)) (w : ℝ) : ℝ := (interp l w).getD 0

/-- `np.sum(trans_lambda_..._band*trans_lambda_filter)`. -/
def through (l c : List (ℝ × ℝ)) : ℝ := (c.map fun p => trans l p.1 * p.2).sum

/-- `di_over_pil_transmission` (lines 74-88) for a filter table as read; `none` for a division by zero. -/
def ratio (im pu c : List (ℝ × ℝ)) : Option ℝ := open Classical in
  if through pu (normalised c) = 0 then none else some (through im (normalised c) / through pu (normalised c))

/-! ## Specification -/

/-- Counts per second of a source with photon spectrum `S` through filter `c` and lens `l`, sampled at the filter's
wavelengths. -/
def counts (S : ℝ → ℝ) (l c : List (ℝ × ℝ)) : ℝ := (c.map fun p => S p.1 * (trans l p.1 * p.2)).sum

/-- A filter table: transmissions not negative, one of them positive. -/
structure Table (c : List (ℝ × ℝ)) : Prop where
  nonneg : ∀ p ∈ c, 0 ≤ p.2
  pos : ∃ p ∈ c, 0 < p.2

/-! ## Lemmas -/

theorem le_foldl_max (l : List ℝ) (v : ℝ) : v ≤ l.foldl max v := by
  induction l generalizing v with
  | nil => exact le_refl _
  | cons x xs ih => exact le_trans (le_max_left _ _) (ih _)

theorem mem_le_foldl_max {l : List ℝ} {v x : ℝ} (h : x ∈ l) : x ≤ l.foldl max v := by
  induction l generalizing v with
  | nil => cases h
  | cons y ys ih =>
    rcases List.mem_cons.1 h with rfl | h
    · exact le_trans (le_max_right _ _) (le_foldl_max ys _)
    · exact ih h

theorem le_top {l : List ℝ} {x : ℝ} (h : x ∈ l) : x ≤ top l := by
  cases l with
  | nil => cases h
  | cons y ys =>
    rcases List.mem_cons.1 h with rfl | h
    · exact le_foldl_max ys _
    · exact mem_le_foldl_max h

theorem top_pos {c : List (ℝ × ℝ)} (h : Table c) : 0 < top (c.map Prod.snd) := by
  obtain ⟨p, hp, h0⟩ := h.pos
  exact lt_of_lt_of_le h0 (le_top (List.mem_map_of_mem hp))

theorem sum_div (c : List (ℝ × ℝ)) (f : ℝ → ℝ) (m : ℝ) :
    (c.map fun p => f p.1 * (p.2 / m)).sum = (c.map fun p => f p.1 * p.2).sum / m := by
  induction c with
  | nil => simp
  | cons p c ih => simp only [List.map_cons, List.sum_cons, ih]; ring

theorem through_normalised (l c : List (ℝ × ℝ)) : through l (normalised c) = through l c / top (c.map Prod.snd) := by
  unfold through normalised
  rw [List.map_map]
  exact sum_div c (trans l) _

theorem sum_le_sum {c : List (ℝ × ℝ)} {f g : ℝ × ℝ → ℝ} (h : ∀ p ∈ c, f p ≤ g p) : (c.map f).sum ≤ (c.map g).sum := by
  induction c with
  | nil => simp
  | cons p c ih =>
    simp only [List.map_cons, List.sum_cons]
    exact add_le_add (h p (by simp)) (ih fun q hq => h q (List.mem_cons_of_mem _ hq))

theorem sum_mul_left (c : List (ℝ × ℝ)) (k : ℝ) (f : ℝ × ℝ → ℝ) : (c.map fun p => k * f p).sum = k * (c.map f).sum := by
  induction c with
  | nil => simp
  | cons p c ih => simp only [List.map_cons, List.sum_cons, ih]; ring

theorem through_pos {l c : List (ℝ × ℝ)} (h : Table c) (hl : ∀ p ∈ c, 0 < trans l p.1) : 0 < through l c := by
  obtain ⟨p, hp, h0⟩ := h.pos
  have hn : ∀ q ∈ c, 0 ≤ trans l q.1 * q.2 := fun q hq => mul_nonneg (hl q hq).le (h.nonneg q hq)
  have : trans l p.1 * p.2 ≤ through l c := by
    unfold through
    apply List.single_le_sum
    · intro x hx
      obtain ⟨q, hq, rfl⟩ := List.mem_map.1 hx
      exact hn q hq
    · exact List.mem_map_of_mem (f := fun p : ℝ × ℝ => trans l p.1 * p.2) hp
  exact lt_of_lt_of_le (mul_pos (hl p hp) h0) this

/-! ## C134 -/

/-- The normalisation by the peak, and the per cent, drop out. -/
theorem C134_ratio {im pu c : List (ℝ × ℝ)} (h : Table c) (hp : ∀ p ∈ c, 0 < trans pu p.1) :
    ratio im pu c = some (through im c / through pu c) := by
  have ht := top_pos h
  have hd := through_pos h hp
  unfold ratio
  rw [through_normalised, through_normalised, if_neg (by positivity)]
  congr 1
  field_simp

/-- The ratio lies between the smallest and the largest ratio of the two lenses in the band. -/
theorem C134_between {im pu c : List (ℝ × ℝ)} {lo hi r : ℝ} (h : Table c) (hp : ∀ p ∈ c, 0 < trans pu p.1)
    (hb : ∀ p ∈ c, lo * trans pu p.1 ≤ trans im p.1 ∧ trans im p.1 ≤ hi * trans pu p.1) (hr : ratio im pu c = some r) :
    lo ≤ r ∧ r ≤ hi := by
  rw [C134_ratio h hp] at hr
  have hr' := Option.some.inj hr
  subst hr'
  have hd := through_pos h hp
  rw [le_div_iff₀ hd, div_le_iff₀ hd]
  unfold through
  rw [← sum_mul_left, ← sum_mul_left]
  constructor
  · apply sum_le_sum
    intro p hpc
    nlinarith [mul_le_mul_of_nonneg_right (hb p hpc).1 (h.nonneg p hpc)]
  · apply sum_le_sum
    intro p hpc
    nlinarith [mul_le_mul_of_nonneg_right (hb p hpc).2 (h.nonneg p hpc)]

/-- Bounds from the tabulated transmissions alone, for wavelengths inside and outside the lens tables. -/
theorem C134_table_bounds {im pu c : List (ℝ × ℝ)} {a b u v r : ℝ} (h : Table c) (hi0 : im ≠ []) (hp0 : pu ≠ [])
    (his : Sorted im) (hps : Sorted pu) (ha : 0 ≤ a) (hu : 0 < u) (him : ∀ p ∈ im, a ≤ p.2 ∧ p.2 ≤ b)
    (hpu : ∀ p ∈ pu, u ≤ p.2 ∧ p.2 ≤ v) (hr : ratio im pu c = some r) : a / v ≤ r ∧ r ≤ b / u := by
  have hI : ∀ w, a ≤ trans im w ∧ trans im w ≤ b := by
    intro w
    cases hw : interp im w with
    | none => exact absurd ((interp_none_iff im w).1 hw) hi0
    | some x =>
      have := interp_bounds his him hw
      simpa [trans, hw] using this
  have hP : ∀ w, u ≤ trans pu w ∧ trans pu w ≤ v := by
    intro w
    cases hw : interp pu w with
    | none => exact absurd ((interp_none_iff pu w).1 hw) hp0
    | some x =>
      have := interp_bounds hps hpu hw
      simpa [trans, hw] using this
  have hv : 0 < v := lt_of_lt_of_le hu (le_trans (hP 0).1 (hP 0).2)
  have hb : 0 ≤ b := le_trans ha (le_trans (hI 0).1 (hI 0).2)
  refine C134_between h (fun p _ => lt_of_lt_of_le hu (hP p.1).1) (fun p _ => ⟨?_, ?_⟩) hr
  · calc a / v * trans pu p.1 ≤ a / v * v := mul_le_mul_of_nonneg_left (hP p.1).2 (div_nonneg ha hv.le)
      _ = a := div_mul_cancel₀ a hv.ne'
      _ ≤ trans im p.1 := (hI p.1).1
  · calc trans im p.1 ≤ b := (hI p.1).2
      _ = b / u * u := (div_mul_cancel₀ b hu.ne').symm
      _ ≤ b / u * trans pu p.1 := mul_le_mul_of_nonneg_left (hP p.1).1 (div_nonneg hb hu.le)

/-- Two equal lenses: factor one. -/
theorem C134_same {l c : List (ℝ × ℝ)} (h : Table c) (hp : ∀ p ∈ c, 0 < trans l p.1) : ratio l l c = some 1 := by
  rw [C134_ratio h hp, div_self (through_pos h hp).ne']

/-- Going from pupil to imaging counts: the factor is right exactly when the lens ratio averaged over the filter equals
that averaged over the filter and the source. -/
theorem C134_converts_iff {im pu c : List (ℝ × ℝ)} {S : ℝ → ℝ} {r : ℝ} (h : Table c) (hp : ∀ p ∈ c, 0 < trans pu p.1)
    (hr : ratio im pu c = some r) :
    counts S pu c * r = counts S im c ↔ counts S pu c * through im c = counts S im c * through pu c := by
  rw [C134_ratio h hp] at hr
  have hr' := Option.some.inj hr
  subst hr'
  have hd := through_pos h hp
  rw [← mul_div_assoc, div_eq_iff hd.ne']

/-- It is right for a source that is flat (in photons) over the band. -/
theorem C134_converts_flat_partial {im pu c : List (ℝ × ℝ)} {S : ℝ → ℝ} {r s : ℝ} (h : Table c)
    (hp : ∀ p ∈ c, 0 < trans pu p.1) (hS : ∀ p ∈ c, S p.1 = s) (hr : ratio im pu c = some r) :
    counts S pu c * r = counts S im c := by
  rw [C134_converts_iff h hp hr]
  have key : ∀ l, counts S l c = s * through l c := by
    intro l
    unfold counts through
    rw [← sum_mul_left]
    exact congrArg List.sum (List.map_congr_left fun p hpc => by rw [hS p hpc])
  rw [key, key]; ring

/-- It is right for every source when the lens ratio is constant over the band. -/
theorem C134_converts_grey_partial {im pu c : List (ℝ × ℝ)} {S : ℝ → ℝ} {r k : ℝ} (h : Table c)
    (hp : ∀ p ∈ c, 0 < trans pu p.1) (hk : ∀ p ∈ c, trans im p.1 = k * trans pu p.1) (hr : ratio im pu c = some r) :
    counts S pu c * r = counts S im c := by
  rw [C134_converts_iff h hp hr]
  have e1 : through im c = k * through pu c := by
    unfold through
    rw [← sum_mul_left]
    exact congrArg List.sum (List.map_congr_left fun p hpc => by rw [hk p hpc]; ring)
  have e2 : counts S im c = k * counts S pu c := by
    unfold counts
    rw [← sum_mul_left]
    exact congrArg List.sum (List.map_congr_left fun p hpc => by rw [hk p hpc]; ring)
  rw [e1, e2]; ring

/-- Non-vacuity of the two, and the **violation**: with a coloured lens ratio, only sources of one shape are converted
rightly.  Two wavelengths, equal filter transmission; the imaging lens passes half as much at the second one. -/
theorem C134_violated_colour : ∃ (im pu c : List (ℝ × ℝ)) (S : ℝ → ℝ) (r : ℝ), Table c ∧ Sorted im ∧ Sorted pu ∧
    (∀ p ∈ c, 0 < trans pu p.1) ∧ (∀ w, 0 < S w) ∧ ratio im pu c = some r ∧ counts S pu c * r ≠ counts S im c := by
  have e1 : trans [((0:ℝ), (1:ℝ)), (1, 1)] 0 = 1 := by simp [trans, interp]
  have e2 : trans [((0:ℝ), (1:ℝ)), (1, 1)] 1 = 1 := by simp [trans, interp]
  have e3 : trans [((0:ℝ), (1:ℝ)), (1, 1/2)] 0 = 1 := by simp [trans, interp]
  have e4 : trans [((0:ℝ), (1:ℝ)), (1, 1/2)] 1 = 1/2 := by simp [trans, interp]; norm_num
  have hT : Table [((0:ℝ), (1:ℝ)), (1, 1)] := ⟨by simp, ⟨(0, 1), by simp, by norm_num⟩⟩
  have hp : ∀ p ∈ [((0:ℝ), (1:ℝ)), (1, 1)], 0 < trans [((0:ℝ), (1:ℝ)), (1, 1)] p.1 := by
    intro p hp
    rcases List.mem_cons.1 hp with rfl | hp
    · rw [e1]; norm_num
    · rw [List.mem_singleton.1 hp, e2]; norm_num
  refine ⟨[(0, 1), (1, 1/2)], [(0, 1), (1, 1)], [(0, 1), (1, 1)], fun w => if w = 0 then 1 else 3, _, hT, ?_, ?_, hp,
    ?_, C134_ratio hT hp, ?_⟩
  · simp [Sorted]
  · simp [Sorted]
  · intro w; dsimp only; split <;> norm_num
  · simp only [counts, through, List.map_cons, List.map_nil, List.sum_cons, List.sum_nil, e1, e2, e3, e4]
    norm_num

/-! ### Lookup -/

/-- The file found is in the directory and contains name and version. -/
theorem C134_lookup {listing : List String} {k v f : String} (h : cfamFile listing k v = .ok f) :
    f ∈ listing ∧ isSub k f = true ∧ isSub ("v" ++ v) f = true := by
  unfold cfamFile at h
  dsimp only at h
  split at h
  · cases h
  · split at h
    · cases h
    · rename_i g l hl
      have : g = f := by injection h
      subst this
      have hm : g ∈ (listing.filter (isSub k)).filter (isSub ("v" ++ v)) := by rw [hl]; simp
      obtain ⟨h1, h2⟩ := List.mem_filter.1 hm
      obtain ⟨h3, h4⟩ := List.mem_filter.1 h1
      exact ⟨h3, h4, h2⟩

/-- It fails exactly when no file has both, and says which of the two is missing. -/
theorem C134_lookup_fails (listing : List String) (k v : String) :
    (cfamFile listing k v = .error .noFilter ↔ ∀ f ∈ listing, isSub k f = false) ∧
    (cfamFile listing k v = .error .noVersion ↔
      (∃ f ∈ listing, isSub k f = true) ∧ ∀ f ∈ listing, isSub k f = true → isSub ("v" ++ v) f = false) := by
  have h0 : listing.filter (isSub k) = [] ↔ ∀ f ∈ listing, isSub k f = false := by
    rw [List.filter_eq_nil_iff]
    exact forall₂_congr fun f _ => by simp
  unfold cfamFile
  dsimp only
  by_cases hn : listing.filter (isSub k) = []
  · rw [if_pos hn]
    refine ⟨⟨fun _ => h0.1 hn, fun _ => rfl⟩, ⟨fun h => (by cases h), ?_⟩⟩
    rintro ⟨⟨f, hf, hk⟩, _⟩
    rw [h0.1 hn f hf] at hk
    cases hk
  · rw [if_neg hn]
    have h1 : (listing.filter (isSub k)).filter (isSub ("v" ++ v)) = [] ↔
        ∀ f ∈ listing, isSub k f = true → isSub ("v" ++ v) f = false := by
      rw [List.filter_eq_nil_iff]
      simp only [List.mem_filter, and_imp, Bool.not_eq_true]
    have h2 : ∃ f ∈ listing, isSub k f = true := by
      by_contra hc
      apply hn
      rw [h0]
      intro f hf
      by_contra hk
      exact hc ⟨f, hf, by simpa using hk⟩
    cases hl : (listing.filter (isSub k)).filter (isSub ("v" ++ v)) with
    | nil =>
      refine ⟨⟨fun h => (by cases h), fun h => absurd (h0.2 h) hn⟩, ⟨fun _ => ⟨h2, h1.1 hl⟩, fun _ => rfl⟩⟩
    | cons g l =>
      refine ⟨⟨fun h => (by cases h), fun h => absurd (h0.2 h) hn⟩, ⟨fun h => (by cases h), fun h => ?_⟩⟩
      rw [h1.2 h.2] at hl
      cases hl

/-- Every shipped filter is found in its only version, in whatever order the directory is listed. -/
theorem C134_shipped {listing : List String} (hl : listing.Perm shippedListing) {k f : String} (h : (k, f) ∈ shippedFilters) :
    cfamFile listing k "0" = .ok f := by
  have hu : ∀ p ∈ shippedFilters, shippedListing.filter (isSub p.1) = [p.2] ∧ isSub "v0" p.2 = true := by decide +kernel
  obtain ⟨h1, h2⟩ := hu (k, f) h
  have hp := hl.filter (isSub k)
  rw [h1] at hp
  unfold cfamFile
  dsimp only
  rw [List.perm_singleton.1 hp, if_neg (by simp)]
  have : ("v" ++ "0" : String) = "v0" := by decide +kernel
  rw [this]
  simp [h2]

/-- **Violation.**  The version is looked for as text: version 1 is found in the name of version 10, and the order of the
listing decides. -/
theorem C134_violated_version : cfamFile ["ID-01_1F_v10.csv", "ID-01_1F_v1.csv"] "1F" "1" = .ok "ID-01_1F_v10.csv" ∧
    cfamFile ["ID-01_1F_v1.csv", "ID-01_1F_v10.csv"] "1F" "1" = .ok "ID-01_1F_v1.csv" := by decide +kernel

/-- **Violation.**  With a second version of a filter in the directory the core throughput still gets the first, the flux
calibration (`get_filter_name`) whichever is listed first. -/
theorem C134_violated_flux_version {listing : List String} (hl : listing.Perm shippedListing) :
    cfamFile ("transmission_ID-01_1F_v1.csv" :: listing) "1F" "0" = .ok "transmission_ID-01_1F_v0.csv" ∧
    filterName ("transmission_ID-01_1F_v1.csv" :: listing) "1F" = some "transmission_ID-01_1F_v1.csv" ∧
    filterName (listing ++ ["transmission_ID-01_1F_v1.csv"]) "1F" = some "transmission_ID-01_1F_v0.csv" := by
  have hu : shippedListing.filter (isSub "1F") = ["transmission_ID-01_1F_v0.csv"] := by decide +kernel
  have hp := hl.filter (isSub "1F")
  rw [hu] at hp
  have hp' := List.perm_singleton.1 hp
  have h1 : isSub "1F" "transmission_ID-01_1F_v1.csv" = true := by decide +kernel
  have h2 : isSub "v0" "transmission_ID-01_1F_v1.csv" = false := by decide +kernel
  have h3 : isSub "v0" "transmission_ID-01_1F_v0.csv" = true := by decide +kernel
  refine ⟨?_, ?_, ?_⟩
  · unfold cfamFile
    dsimp only
    rw [List.filter_cons_of_pos h1, hp', if_neg (by simp)]
    simp [h2, h3]
  · unfold filterName
    rw [List.filter_cons_of_pos h1]
    rfl
  · unfold filterName
    rw [List.filter_append, hp']
    rfl

end Corgi.Ct.Lens

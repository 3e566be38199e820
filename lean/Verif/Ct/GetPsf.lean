import Verif.Common.Round
import Verif.Common.ArgMin
import Verif.Common.Except
import Mathlib.Algebra.Order.Field.Rat
import Mathlib.Tactic.Linarith
import Mathlib.Tactic.NormNum

/-!
# Selecting a PSF from the core throughput calibration

`/repo/corgidrp/data.py:1940-1996` (`GetPSF`, method 'nearest-polar') for one target.  Radii and azimuths (floats) are given as
rational numbers; the target is not at the mask centre (its radius is positive).
-/

namespace Corgi.GetPsf

/-- A position in polar coordinates about the mask centre: radius in pixels, azimuth in radians. -/
structure Polar where
  r : ℚ
  az : ℚ
  deriving DecidableEq

/-- `np.round(10*np.abs(r_cor - radii)/10)` (line 1957): the factor 10 cancels, so this rounds to whole pixels. -/
def diffR (t g : Polar) : ℤ := npRound (10 * |t.r - g.r| / 10)

/-- `bin_az_fac * np.round(|az_cor - az_grid| / bin_az_fac)` with `bin_az_fac = 1/10/r_cor` (lines 1968-1971). -/
def diffAz (t g : Polar) : ℚ := 1 / 10 / t.r * npRound (|t.az - g.az| / (1 / 10 / t.r))

/-- `np.argwhere(d == d.min())`: all elements with the smallest value of `d`, with their indices. -/
def argMins {α β : Type} [LinearOrder β] (d : α → β) (l : List α) : List α := l.filter fun a => l.all fun b => decide (d a ≤ d b)

inductive Err
  | tooMany
  | none
  deriving DecidableEq

/-- The indices of the PSFs whose mean is returned for a target (lines 1950-1988). -/
def pick (grid : List Polar) (t : Polar) : Except Err (List ℕ) :=
  let near := argMins (fun p : Polar × ℕ => diffR t p.1) grid.zipIdx
  if near.length = 1 then .ok (near.map Prod.snd)
  else if 1 < near.length then
    let az := argMins (fun p : Polar × ℕ => diffAz t p.1) near
    if az.length = 2 ∨ az.length = 1 then .ok (az.map Prod.snd) else .error .tooMany
  else .error .none

theorem mem_argMins {α β : Type} [LinearOrder β] {d : α → β} {l : List α} {a : α} :
    a ∈ argMins d l ↔ a ∈ l ∧ ∀ b ∈ l, d a ≤ d b := by
  simp [argMins, List.mem_filter, List.all_eq_true]

theorem argMins_ne_nil {α β : Type} [LinearOrder β] {d : α → β} {l : List α} (h : l ≠ []) : argMins d l ≠ [] := by
  have hne : l.map d ≠ [] := by simpa using h
  obtain ⟨k, hk⟩ := argmin_exists hne
  obtain ⟨m, h1, h2, -⟩ := argmin_isFirstMin hk
  rw [List.getElem?_map] at h1
  obtain ⟨a, ha, rfl⟩ := Option.map_eq_some_iff.1 h1
  have : a ∈ argMins d l := mem_argMins.2 ⟨List.mem_of_getElem? ha, fun b hb => h2 _ (List.mem_map_of_mem hb)⟩
  intro h0
  rw [h0] at this
  simp at this

/-- Every selected index comes from an entry with the smallest rounded radial difference. -/
theorem pick_near {grid : List Polar} {t : Polar} {is : List ℕ} (h : pick grid t = .ok is) {i : ℕ} (hi : i ∈ is) :
    ∃ g, grid[i]? = some g ∧ (∀ g' ∈ grid, diffR t g ≤ diffR t g') ∧
      ((argMins (fun p : Polar × ℕ => diffR t p.1) grid.zipIdx).length ≠ 1 →
        ∀ g' ∈ grid, (∀ g'' ∈ grid, diffR t g' ≤ diffR t g'') → diffAz t g ≤ diffAz t g') := by
  have fst_mem : ∀ {p : Polar × ℕ}, p ∈ grid.zipIdx → grid[p.2]? = some p.1 := by
    intro p hp
    exact List.mem_zipIdx_iff_getElem?.1 hp
  have all_of : ∀ {p : Polar × ℕ}, (∀ b ∈ grid.zipIdx, diffR t p.1 ≤ diffR t b.1) → ∀ g' ∈ grid, diffR t p.1 ≤ diffR t g' := by
    intro p hp g' hg'
    obtain ⟨j, hj⟩ := List.getElem?_of_mem hg'
    exact hp (g', j) (List.mem_zipIdx_iff_getElem?.2 hj)
  unfold pick at h
  dsimp only at h
  split_ifs at h with h1 h2 h3
  · simp only [Except.ok.injEq] at h
    subst h
    obtain ⟨p, hp, rfl⟩ := List.mem_map.1 hi
    obtain ⟨hp1, hp2⟩ := mem_argMins.1 hp
    exact ⟨p.1, fst_mem hp1, all_of hp2, fun hn => absurd h1 hn⟩
  · simp only [Except.ok.injEq] at h
    subst h
    obtain ⟨p, hp, rfl⟩ := List.mem_map.1 hi
    obtain ⟨hp0, hp3⟩ := mem_argMins.1 hp
    obtain ⟨hp1, hp2⟩ := mem_argMins.1 hp0
    refine ⟨p.1, fst_mem hp1, all_of hp2, fun _ g' hg' hmin => ?_⟩
    obtain ⟨j, hj⟩ := List.getElem?_of_mem hg'
    refine hp3 (g', j) (mem_argMins.2 ⟨List.mem_zipIdx_iff_getElem?.2 hj, ?_⟩)
    intro b hb
    exact hmin b.1 (List.mem_of_getElem? (fst_mem hb))

theorem diffR_near (t g : Polar) : |(diffR t g : ℚ) - (|t.r - g.r|)| ≤ 1 / 2 := by
  unfold diffR
  rw [mul_div_cancel_left₀ _ (by norm_num : (10 : ℚ) ≠ 0)]
  exact npRound_near _

/-- C85: the selected PSF is never more than one pixel worse in radius than the nearest one. -/
theorem C85_radius_partial {grid : List Polar} {t : Polar} {is : List ℕ} (h : pick grid t = .ok is) {i : ℕ} (hi : i ∈ is) :
    ∃ g, grid[i]? = some g ∧ ∀ g' ∈ grid, |t.r - g.r| ≤ |t.r - g'.r| + 1 := by
  obtain ⟨g, hg, hmin, -⟩ := pick_near h hi
  refine ⟨g, hg, fun g' hg' => ?_⟩
  have h1 : (diffR t g : ℚ) ≤ diffR t g' := by exact_mod_cast hmin g' hg'
  have h2 := abs_le.1 (diffR_near t g)
  have h3 := abs_le.1 (diffR_near t g')
  linarith [h2.1, h3.2]

/-- C85: azimuths are compared to a tenth of a pixel: along the circle of the target the value is off by a twentieth at most. -/
theorem C85_bins {t : Polar} (ht : 0 < t.r) (g : Polar) :
    |t.r * diffAz t g - t.r * (|t.az - g.az|)| ≤ 1 / 20 ∧ ∃ n : ℤ, t.r * diffAz t g = n / 10 := by
  have e1 : t.r * diffAz t g = npRound (|t.az - g.az| / (1 / 10 / t.r)) / 10 := by
    unfold diffAz
    field_simp
  have e2 : t.r * (|t.az - g.az|) = |t.az - g.az| / (1 / 10 / t.r) / 10 := by
    field_simp
  refine ⟨?_, _, e1⟩
  rw [e1, e2, ← sub_div, abs_div]
  have := npRound_near (|t.az - g.az| / (1 / 10 / t.r))
  rw [abs_of_pos (by norm_num : (0 : ℚ) < 10)]
  linarith

/-- C85: of the PSFs that share the smallest rounded difference of radius, the selected ones are never more than a tenth of a
pixel worse along the circle of the target than the nearest. -/
theorem C85_azimuth_partial {grid : List Polar} {t : Polar} (ht : 0 < t.r) {is : List ℕ} (h : pick grid t = .ok is) {i : ℕ} (hi : i ∈ is) :
    ∃ g, grid[i]? = some g ∧ (∀ g' ∈ grid, npRound (|t.r - g.r|) ≤ npRound (|t.r - g'.r|)) ∧
      ∀ g' ∈ grid, (∀ g'' ∈ grid, npRound (|t.r - g'.r|) ≤ npRound (|t.r - g''.r|)) →
        t.r * (|t.az - g.az|) ≤ t.r * (|t.az - g'.az|) + 1 / 10 := by
  have e : ∀ g : Polar, npRound (|t.r - g.r|) = diffR t g := by
    intro g
    unfold diffR
    rw [mul_div_cancel_left₀ _ (by norm_num : (10 : ℚ) ≠ 0)]
  simp only [e]
  obtain ⟨g, hg, hmin, haz⟩ := pick_near h hi
  refine ⟨g, hg, hmin, fun g' hg' hmin' => ?_⟩
  by_cases h1 : (argMins (fun p : Polar × ℕ => diffR t p.1) grid.zipIdx).length = 1
  · obtain ⟨p, hp⟩ := List.length_eq_one_iff.1 h1
    have mem : ∀ (q : Polar) (j : ℕ), grid[j]? = some q → (∀ g'' ∈ grid, diffR t q ≤ diffR t g'') → (q, j) = p := by
      intro q j hj hq
      have : (q, j) ∈ argMins (fun p : Polar × ℕ => diffR t p.1) grid.zipIdx :=
        mem_argMins.2 ⟨List.mem_zipIdx_iff_getElem?.2 hj, fun b hb =>
          hq b.1 (List.mem_of_getElem? (List.mem_zipIdx_iff_getElem?.1 hb))⟩
      rw [hp] at this
      exact List.mem_singleton.1 this
    obtain ⟨j, hj⟩ := List.getElem?_of_mem hg'
    have h2 := (mem g i hg hmin).trans (mem g' j hj hmin').symm
    rw [(Prod.mk.inj h2).1]
    linarith
  · have h2 := mul_le_mul_of_nonneg_left (haz h1 g' hg' hmin') ht.le
    have h3 := abs_le.1 (C85_bins ht g).1
    have h4 := abs_le.1 (C85_bins ht g').1
    linarith [h3.1, h4.2]

/-- C85: if the nearest radius is more than a pixel better than every other, the selected PSF has the nearest radius. -/
theorem C85_isolated {grid : List Polar} {t g : Polar} {is : List ℕ} (h : pick grid t = .ok is) (hg : g ∈ grid)
    (hiso : ∀ g' ∈ grid, g'.r = g.r ∨ |t.r - g.r| + 1 < |t.r - g'.r|) {i : ℕ} (hi : i ∈ is) :
    ∃ g', grid[i]? = some g' ∧ g'.r = g.r := by
  obtain ⟨g', hg', hle⟩ := C85_radius_partial h hi
  refine ⟨g', hg', ?_⟩
  rcases hiso g' (List.mem_of_getElem? hg') with h1 | h1
  · exact h1
  · have := hle g hg
    linarith

/-- C85: a selection holds one PSF, or two that are averaged. -/
theorem C85_count {grid : List Polar} {t : Polar} {is : List ℕ} (h : pick grid t = .ok is) : is.length = 1 ∨ is.length = 2 := by
  unfold pick at h
  dsimp only at h
  split_ifs at h with h1 h2 h3
  · simp only [Except.ok.injEq] at h
    subst h
    simp [h1]
  · simp only [Except.ok.injEq] at h
    subst h
    simp only [List.length_map]
    tauto

/-- C85: the search for the closest radius always finds something when there is a PSF at all. -/
theorem C85_found {grid : List Polar} {t : Polar} (h : grid ≠ []) : pick grid t ≠ .error .none := by
  have hz : grid.zipIdx ≠ [] := by simpa using h
  have := List.length_pos_iff.2 (argMins_ne_nil (d := fun p : Polar × ℕ => diffR t p.1) hz)
  unfold pick
  dsimp only
  split_ifs <;> simp
  omega

/-- C85 refuted: the radius is binned to whole pixels instead of tenths of a pixel: a PSF 0.4 pixels off in radius is preferred
to the PSF at exactly the target's radius because its azimuth is a little closer. -/
theorem C85_violated_radius : pick [⟨24 / 10, 1 / 2⟩, ⟨2, 0⟩] ⟨24 / 10, 0⟩ = .ok [1] := by decide +kernel

/-- C85 refuted: angles are not wrapped: for a target just below +π the PSF just above −π (0.08 rad away around the circle) loses
against one a full radian away. -/
theorem C85_violated_azimuth : pick [⟨5, -31 / 10⟩, ⟨5, 21 / 10⟩] ⟨5, 31 / 10⟩ = .ok [1] := by decide +kernel

/-- C85 refuted: "This should not happen": three PSFs in the same bin of radius and azimuth raise an error. -/
theorem C85_violated_many : pick [⟨5, 0⟩, ⟨5 + 1 / 10, 0⟩, ⟨5 - 1 / 10, 0⟩] ⟨5, 0⟩ = .error .tooMany := by decide +kernel

example : pick [⟨5, 0⟩, ⟨9, 0⟩] ⟨6, 0⟩ = .ok [0] := by decide +kernel
example : pick [⟨5, 1⟩, ⟨5, -1⟩] ⟨5, 0⟩ = .ok [0, 1] := by decide +kernel

end Corgi.GetPsf

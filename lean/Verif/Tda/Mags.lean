import Verif.Flux.Band
import Verif.Flux.Calspec
import Verif.Common.Forall2
import Verif.Common.Except

/-!
# Magnitudes, colour corrections and apertures of datasets (C148)

`determine_app_mag` and `determine_color_cor` (`/repo/corgidrp/l4_to_tda.py` 15-84, 87-135) for whole datasets: which filter,
target and spectrum are used and which frames get the card; and the position of the aperture in `aper_phot` and
`phot_by_gauss2d_fit` (`/repo/corgidrp/fluxcal.py` 308-319, 373-384). The photometric integrals are those of
`Verif.Flux.Band`. Reading a file is a function of its path, which exists; the download of spectra is C143. With `origin=1`,
`skycoord_to_pixel` counts pixels from 1; apertures and the Gaussian fit count from 0.
-/

noncomputable section

namespace Corgi.Mags

open Corgi.Flux

/-! ## Model -/

/-- The cards of a frame that the functions read and write. -/
structure Fr where
  cfam : Option String
  target : Option String
  lamRef : Option ℝ
  colCor : Option ℝ
  appMag : Option ℝ

/-- The data that are read: names of filter curves, the curves and the spectra on the grid of a curve. -/
structure Env where
  listing : List String
  grid : String → List ℝ
  trans : String → ℝ → ℝ
  spec : String → ℝ → ℝ

inductive Err
  | key | index | noFilter | noStar | mixedFilter | mixedTarget | unbound | outside
  deriving DecidableEq

inductive Input
  | dataset (fs : List Fr)
  | image (f : Fr)
  | other

/-- `header[key]` -/
def card {α : Type} : Option α → Except Err α
  | none => .error .key
  | some v => .ok v

/-- `get_filter_name(frame)` (fluxcal.py 64-83). -/
def filt (E : Env) (f : Fr) : Except Err String :=
  match card f.cfam with
  | .error e => .error e
  | .ok k =>
    match filterName E.listing k with
    | none => .error .noFilter
    | some n => .ok n

/-- `star.split(".")[-1]` -/
def lastPart (s : String) : List Char := (s.toList.reverse.takeWhile fun c => c != '.').reverse

/-- Lines 62-65, 113-120: a path or the name of a standard star. -/
def starFile (star : String) : Except Err String :=
  if lastPart star = "fits".toList then .ok star
  else match Calspec.fitsName star with
    | none => .error .noStar
    | some n => .ok n

/-- Lines 42-53, one frame. -/
def checkFrame (E : Env) (name target : String) (f : Fr) : Except Err Unit :=
  match filt E f with
  | .error e => .error e
  | .ok n =>
    match card f.target with
    | .error e => .error e
    | .ok t =>
      if n ≠ name then .error .mixedFilter
      else if t ≠ target then .error .mixedTarget
      else .ok ()

/-- Lines 59-84: the magnitude with the filter `name`, to all frames. -/
def writeMag (E : Env) (name star : String) (scale : ℝ) (fs : List Fr) : Except Err (List Fr) :=
  match starFile star with
  | .error e => .error e
  | .ok s =>
    match starFile "Vega" with
    | .error e => .error e
    | .ok v => .ok (fs.map fun f =>
        { f with appMag := some (Flux.appMag (E.grid name) (E.trans name) (E.spec v) (E.spec s) scale) })

/-- `determine_app_mag` (lines 15-84). -/
def determineAppMag (E : Env) (inp : Input) (star : String) (scale : ℝ) : Except Err (List Fr) :=
  match inp with
  | .other => .error .unbound
  | .image f =>
    match filt E f with
    | .error e => .error e
    | .ok name => writeMag E name star scale [f]
  | .dataset [] => .error .index
  | .dataset (f :: fs) =>
    match filt E f with
    | .error e => .error e
    | .ok name =>
      match card f.target with
      | .error e => .error e
      | .ok target =>
        match (f :: fs).mapM (checkFrame E name target) with
        | .error e => .error e
        | .ok _ => writeMag E name star scale (f :: fs)

/-- `determine_color_cor` (lines 87-135). -/
def determineColorCor (E : Env) (fs : List Fr) (ref src : String) : Except Err (List Fr) :=
  match fs with
  | [] => .error .index
  | f :: _ =>
    match filt E f with
    | .error e => .error e
    | .ok name =>
      match starFile ref with
      | .error e => .error e
      | .ok r =>
        match starFile src with
        | .error e => .error e
        | .ok s =>
          let w := pivot (E.grid name) (E.trans name)
          match colorCor (E.grid name) (E.trans name) (E.spec r) w (E.spec s) with
          | none => .error .outside
          | some k => .ok (fs.map fun f => { f with lamRef := some w, colCor := some k })

/-- Centre of the aperture (fluxcal.py 308-319): `star` is the position of the star, counted from 0, by the centroid and by
the world coordinates; `none`: ValueError. -/
def aperture (method : String) (centroid wcs : ℝ × ℝ) : Option (ℝ × ℝ) :=
  if method = "wcs" then some (wcs.1 + 1, wcs.2 + 1)
  else if method = "xy" then some centroid
  else none

/-! ## Specification -/

/-- The magnitude of a star in the filter of a frame. -/
def IsMag (E : Env) (star : String) (scale : ℝ) (f : Fr) (m : ℝ) : Prop :=
  ∃ k n s v, f.cfam = some k ∧ filterName E.listing k = some n ∧ starFile star = .ok s ∧ starFile "Vega" = .ok v ∧
    m = -2.5 * Real.logb 10 (irradiance (E.grid n) (E.trans n) (fun w => E.spec s w * scale) /
      irradiance (E.grid n) (E.trans n) (E.spec v))

/-! ## The star -/

theorem vega : starFile "Vega" = .ok "alpha_lyr_stis_011.fits" := by
  unfold starFile
  rw [if_neg (by decide +kernel)]
  rw [show Calspec.fitsName "Vega" = some "alpha_lyr_stis_011.fits" by decide +kernel]

theorem takeWhile_snoc_dot (l m : List Char) (h : ∀ c ∈ m, c ≠ '.') :
    (l ++ '.' :: m).reverse.takeWhile (fun c => c != '.') = m.reverse := by
  rw [List.reverse_append, List.reverse_cons, List.append_assoc]
  rw [List.takeWhile_append_of_pos (by
    intro c hc
    simpa using h c (List.mem_reverse.1 hc))]
  simp

/-- **C148.** A path that ends in `.fits` is read as it is. -/
theorem C148_file (dir : String) : starFile (dir ++ ".fits") = .ok (dir ++ ".fits") := by
  unfold starFile lastPart
  rw [if_pos]
  rw [String.toList_append, show (".fits").toList = '.' :: "fits".toList by decide +kernel,
    takeWhile_snoc_dot _ _ (by decide +kernel), List.reverse_reverse]

/-- **C148.** What is accepted as a star: paths and the fifteen names. -/
theorem C148_star_iff (star : String) :
    (∃ s, starFile star = .ok s) ↔ lastPart star = "fits".toList ∨ ∃ n, (star, n) ∈ Calspec.names := by
  unfold starFile
  by_cases h : lastPart star = "fits".toList
  · rw [if_pos h]
    exact ⟨fun _ => Or.inl h, fun _ => ⟨_, rfl⟩⟩
  · rw [if_neg h]
    constructor
    · rintro ⟨s, hs⟩
      cases hn : Calspec.fitsName star with
      | none => rw [hn] at hs; cases hs
      | some n => exact Or.inr ⟨n, (Calspec.find_fst Calspec.C143_table.2.1).1 hn⟩
    · rintro (h' | ⟨n, hn⟩)
      · exact absurd h' h
      · rw [show Calspec.fitsName star = some n from (Calspec.find_fst Calspec.C143_table.2.1).2 hn]
        exact ⟨_, rfl⟩

/-- **C148.** Case matters: a path in capitals and a name in another case are refused. -/
theorem C148_violated_case : starFile "SOURCE.FITS" = .error .noStar ∧ starFile "vega" = .error .noStar := by
  constructor
  · unfold starFile
    rw [if_neg (by decide +kernel), show Calspec.fitsName "SOURCE.FITS" = none by decide +kernel]
  · unfold starFile
    rw [if_neg (by decide +kernel), show Calspec.fitsName "vega" = none by decide +kernel]

/-! ## Magnitudes -/

theorem filt_ok {E : Env} {f : Fr} {n : String} : filt E f = .ok n ↔ ∃ k, f.cfam = some k ∧ filterName E.listing k = some n := by
  unfold filt card
  cases f.cfam with
  | none => simp
  | some k =>
    dsimp only
    cases hn : filterName E.listing k with
    | none => simp [hn]
    | some m => simp [hn]

theorem checkFrame_ok {E : Env} {name target : String} {f : Fr} {u : Unit} :
    checkFrame E name target f = .ok u ↔ filt E f = .ok name ∧ f.target = some target := by
  unfold checkFrame
  cases hn : filt E f with
  | error e => simp
  | ok n =>
    dsimp only
    unfold card
    cases ht : f.target with
    | none => simp
    | some t =>
      dsimp only
      by_cases h1 : n = name
      · by_cases h2 : t = target
        · rw [if_neg (by simpa using h1), if_neg (by simpa using h2)]
          simp [h1, h2]
        · rw [if_neg (by simpa using h1), if_pos h2]
          simp [h2]
      · rw [if_pos h1]
        simp [h1]

theorem writeMag_ok {E : Env} {name star : String} {scale : ℝ} {fs out : List Fr}
    (h : writeMag E name star scale fs = .ok out) (hf : ∀ f ∈ fs, filt E f = .ok name) :
    List.Forall₂ (fun f g => ∃ m, IsMag E star scale f m ∧ g = { f with appMag := some m }) fs out := by
  unfold writeMag at h
  cases hs : starFile star with
  | error e => rw [hs] at h; cases h
  | ok s =>
    rw [hs, vega] at h
    have h' := Except.ok.inj h
    subst h'
    rw [List.forall₂_map_right_iff, List.forall₂_same]
    intro f hfm
    obtain ⟨k, hk, hn⟩ := filt_ok.1 (hf f hfm)
    exact ⟨_, ⟨k, name, s, _, hk, hn, hs, vega, rfl⟩, rfl⟩

/-- **C148.** Every frame of the result has the magnitude of the star in its own filter, and nothing else changes. -/
theorem C148_app_mag {E : Env} {fs out : List Fr} {star : String} {scale : ℝ}
    (h : determineAppMag E (.dataset fs) star scale = .ok out) :
    List.Forall₂ (fun f g => ∃ m, IsMag E star scale f m ∧ g = { f with appMag := some m }) fs out ∧
      ∀ f ∈ fs, ∀ g ∈ fs, f.target = g.target ∧ f.target ≠ none := by
  cases fs with
  | nil => cases h
  | cons f l =>
    unfold determineAppMag at h
    dsimp only at h
    cases hn : filt E f with
    | error e => rw [hn] at h; cases h
    | ok name =>
      rw [hn] at h
      dsimp only at h
      cases ht : card f.target with
      | error e => rw [ht] at h; cases h
      | ok t =>
        rw [ht] at h
        dsimp only at h
        cases hm : (f :: l).mapM (checkFrame E name t) with
        | error e => rw [hm] at h; cases h
        | ok us =>
          rw [hm] at h
          dsimp only at h
          have hall : ∀ g ∈ f :: l, filt E g = .ok name ∧ g.target = some t := by
            intro g hg
            obtain ⟨u, _, hu⟩ := forall₂_left (mapM_ok_iff.1 hm) hg
            exact checkFrame_ok.1 hu
          refine ⟨writeMag_ok h fun g hg => (hall g hg).1, fun a ha b hb => ?_⟩
          rw [(hall a ha).2, (hall b hb).2]
          exact ⟨rfl, by simp⟩

/-- **C148.** A dataset is accepted exactly if it is not empty, all frames have one known filter curve and one target, and the
star is known. -/
theorem C148_accepts_iff (E : Env) (fs : List Fr) (star : String) (scale : ℝ) :
    (∃ out, determineAppMag E (.dataset fs) star scale = .ok out) ↔
      fs ≠ [] ∧ (∃ n t, ∀ f ∈ fs, filt E f = .ok n ∧ f.target = some t) ∧ ∃ s, starFile star = .ok s := by
  cases fs with
  | nil => simp [determineAppMag]
  | cons f l =>
    constructor
    · rintro ⟨out, h⟩
      refine ⟨by simp, ?_⟩
      unfold determineAppMag at h
      dsimp only at h
      cases hn : filt E f with
      | error e => rw [hn] at h; cases h
      | ok name =>
        rw [hn] at h
        dsimp only at h
        cases ht : card f.target with
        | error e => rw [ht] at h; cases h
        | ok t =>
          rw [ht] at h
          dsimp only at h
          cases hm : (f :: l).mapM (checkFrame E name t) with
          | error e => rw [hm] at h; cases h
          | ok us =>
            rw [hm] at h
            dsimp only at h
            refine ⟨⟨name, t, fun g hg => ?_⟩, ?_⟩
            · obtain ⟨u, _, hu⟩ := forall₂_left (mapM_ok_iff.1 hm) hg
              exact checkFrame_ok.1 hu
            · unfold writeMag at h
              cases hs : starFile star with
              | error e => rw [hs] at h; cases h
              | ok s => exact ⟨s, rfl⟩
    · rintro ⟨-, ⟨n, t, hall⟩, s, hs⟩
      obtain ⟨h1, h2⟩ := hall f (by simp)
      obtain ⟨us, hm⟩ := mapM_ok_exists.2 fun g hg => ⟨(), checkFrame_ok.2 (hall g hg)⟩
      unfold determineAppMag
      dsimp only
      rw [h1]
      dsimp only
      rw [h2]
      dsimp only [card]
      rw [hm]
      dsimp only
      unfold writeMag
      rw [hs, vega]
      exact ⟨_, rfl⟩

/-- **C148.** A single image is treated as a dataset of it, but needs no target. -/
theorem C148_image (E : Env) (f : Fr) (star : String) (scale : ℝ) :
    (∀ t, f.target = some t → determineAppMag E (.image f) star scale = determineAppMag E (.dataset [f]) star scale) ∧
      (f.target = none → ∀ out, determineAppMag E (.dataset [f]) star scale ≠ .ok out) := by
  constructor
  · intro t ht
    show (match filt E f with | .error e => _ | .ok name => _) = (match filt E f with | .error e => _ | .ok name => _)
    cases hn : filt E f with
    | error e => rfl
    | ok name =>
      dsimp only
      rw [ht]
      dsimp only [card]
      rw [show [f].mapM (checkFrame E name t) = .ok [()] by
        rw [List.mapM_cons, checkFrame_ok.2 ⟨hn, ht⟩, List.mapM_nil]
        rfl]
  · intro ht out h
    exact ((C148_app_mag h).2 f (by simp) f (by simp)).2 ht

/-- **C148.** Scaling the spectrum: `2.5 log10` of the factor brighter. -/
theorem C148_scale {g : List ℝ} {T v s : ℝ → ℝ} {scale : ℝ} (hs : scale ≠ 0) (hi : irradiance g T s ≠ 0) (hv : irradiance g T v ≠ 0) :
    Flux.appMag g T v s scale = Flux.appMag g T v s 1 - 2.5 * Real.logb 10 scale := by
  unfold Flux.appMag
  have e : ∀ k : ℝ, irradiance g T (fun w => s w * k) = k * irradiance g T s := by
    intro k
    unfold irradiance
    rw [show (fun w => s w * k * T w) = fun w => k * (s w * T w) by
      funext w
      ring]
    exact simpson_smul g k _
  rw [e scale, e 1, one_mul, mul_div_assoc, Real.logb_mul hs (div_ne_zero hi hv)]
  ring

/-- **C148 is violated**: what is neither a dataset nor an image is not refused with a message; the code fails on a name that was
never set. -/
theorem C148_violated_type (E : Env) (star : String) (scale : ℝ) : determineAppMag E .other star scale = .error .unbound := rfl

/-! ## Colour correction -/

/-- **C148.** All frames get the colour correction of the filter of the first. -/
theorem C148_color {E : Env} {f : Fr} {l out : List Fr} {ref src : String} (h : determineColorCor E (f :: l) ref src = .ok out) :
    ∃ n r s k, filt E f = .ok n ∧ starFile ref = .ok r ∧ starFile src = .ok s ∧
      colorCor (E.grid n) (E.trans n) (E.spec r) (pivot (E.grid n) (E.trans n)) (E.spec s) = some k ∧
      out = (f :: l).map fun g => { g with lamRef := some (pivot (E.grid n) (E.trans n)), colCor := some k } := by
  unfold determineColorCor at h
  dsimp only at h
  cases hn : filt E f with
  | error e => rw [hn] at h; cases h
  | ok n =>
    rw [hn] at h
    dsimp only at h
    cases hr : starFile ref with
    | error e => rw [hr] at h; cases h
    | ok r =>
      rw [hr] at h
      dsimp only at h
      cases hs : starFile src with
      | error e => rw [hs] at h; cases h
      | ok s =>
        rw [hs] at h
        dsimp only at h
        cases hk : colorCor (E.grid n) (E.trans n) (E.spec r) (pivot (E.grid n) (E.trans n)) (E.spec s) with
        | none => rw [hk] at h; cases h
        | some k =>
          rw [hk] at h
          exact ⟨n, r, s, k, rfl, rfl, rfl, hk, (Except.ok.inj h).symm⟩

/-- **C148.** A dataset is accepted exactly if the filter of the first frame and both stars are known. -/
theorem C148_color_accepts_iff {E : Env} (hg : ∀ n, E.grid n ≠ []) (fs : List Fr) (ref src : String) :
    (∃ out, determineColorCor E fs ref src = .ok out) ↔
      (∃ f n, fs.head? = some f ∧ filt E f = .ok n) ∧ (∃ r, starFile ref = .ok r) ∧ ∃ s, starFile src = .ok s := by
  cases fs with
  | nil => simp [determineColorCor]
  | cons f l =>
    constructor
    · rintro ⟨out, h⟩
      obtain ⟨n, r, s, k, h1, h2, h3, -⟩ := C148_color h
      exact ⟨⟨f, n, rfl, h1⟩, ⟨r, h2⟩, s, h3⟩
    · rintro ⟨⟨f', n, hf, h1⟩, ⟨r, h2⟩, s, h3⟩
      have := Option.some.inj hf
      subst this
      obtain ⟨a, ha⟩ := fluxRef_some (hg n) (E.spec s) (pivot (E.grid n) (E.trans n))
      obtain ⟨b, hb⟩ := fluxRef_some (hg n) (E.spec r) (pivot (E.grid n) (E.trans n))
      unfold determineColorCor
      dsimp only
      rw [h1]
      dsimp only
      rw [h2]
      dsimp only
      rw [h3]
      dsimp only
      rw [colorCor_eq ha hb]
      exact ⟨_, rfl⟩

/-- **C148 is violated**: frames of other filters are accepted. Whatever follows the first frame, even a frame without a
filter, the result is the same for it and the first frame. -/
theorem C148_violated_color {E : Env} {f g : Fr} {out : List Fr} {ref src : String}
    (h : determineColorCor E [f] ref src = .ok out) :
    ∃ f' g', determineColorCor E [f, g] ref src = .ok [f', g'] ∧ out = [f'] ∧ g'.colCor = f'.colCor ∧ g'.lamRef = f'.lamRef ∧
      g'.cfam = g.cfam := by
  obtain ⟨n, r, s, k, h1, h2, h3, h4, rfl⟩ := C148_color h
  refine ⟨_, { g with lamRef := some (pivot (E.grid n) (E.trans n)), colCor := some k }, ?_, rfl, rfl, rfl, rfl⟩
  unfold determineColorCor
  dsimp only
  rw [h1]
  dsimp only
  rw [h2]
  dsimp only
  rw [h3]
  dsimp only
  rw [h4]
  rfl

/-- **C148.** A source with the spectrum of the reference needs no correction. -/
theorem C148_color_same {E : Env} {f : Fr} {l out : List Fr} {star : String}
    (h : determineColorCor E (f :: l) star star = .ok out)
    (hne : ∀ n s r, filt E f = .ok n → starFile star = .ok s →
      fluxRef (E.grid n) (E.spec s) (pivot (E.grid n) (E.trans n)) = some r →
      simpson (E.grid n) (fun x => x * E.trans n x * E.spec s x / r) ≠ 0) :
    ∀ g ∈ out, g.colCor = some 1 := by
  obtain ⟨n, r, s, k, h1, h2, h3, h4, rfl⟩ := C148_color h
  rw [h2] at h3
  have := Except.ok.inj h3
  subst this
  unfold colorCor at h4
  cases hr : fluxRef (E.grid n) (E.spec r) (pivot (E.grid n) (E.trans n)) with
  | none => rw [hr] at h4; cases h4
  | some a =>
    rw [hr] at h4
    have hk : k = 1 := by
      have := Option.some.inj h4
      rw [← this]
      exact div_self (hne n r a h1 h2 hr)
    intro g hg
    obtain ⟨g', _, rfl⟩ := List.mem_map.1 hg
    rw [hk]

/-! ## The aperture -/

/-- **C148.** A method is accepted exactly if it is one of the two. -/
theorem C148_method_iff (m : String) (c w : ℝ × ℝ) : (∃ p, aperture m c w = some p) ↔ m = "wcs" ∨ m = "xy" := by
  unfold aperture
  by_cases h1 : m = "wcs"
  · simp [h1]
  · by_cases h2 : m = "xy"
    · simp [h2]
    · simp [h1, h2]

/-- **C148 is violated**: where the centroid and the coordinates agree on the star, the aperture by coordinates is one pixel
up and one to the right; an aperture of a radius less than `√2` does not reach the centre of the star. -/
theorem C148_violated_wcs (s : ℝ × ℝ) : ∃ p, aperture "xy" s s = some s ∧ aperture "wcs" s s = some p ∧
    (p.1 - s.1) ^ 2 + (p.2 - s.2) ^ 2 = 2 := by
  refine ⟨(s.1 + 1, s.2 + 1), ?_, ?_, by ring⟩
  · unfold aperture
    rw [if_neg (by decide +kernel), if_pos rfl]
  · unfold aperture
    rw [if_pos rfl]

/-! ## Non-vacuity -/

/-- Two filters, flat spectra. -/
def env : Env := ⟨shippedListing, fun _ => [1, 2, 3], fun _ _ => 1, fun _ _ => 1⟩

def frame (k : String) : Fr := ⟨some k, some "Vega", none, none, none⟩

theorem env_filt : filt env (frame "1F") = .ok "transmission_ID-01_1F_v0.csv" ∧
    filt env (frame "3F") = .ok "transmission_ID-03_3F_v0.csv" :=
  ⟨filt_ok.2 ⟨"1F", rfl, by decide +kernel⟩, filt_ok.2 ⟨"3F", rfl, by decide +kernel⟩⟩

example : ∃ out, determineAppMag env (.dataset [frame "1F", frame "1F"]) "Vega" 1 = .ok out :=
  (C148_accepts_iff ..).2 ⟨by simp, ⟨_, "Vega", fun f hf => by
    simp only [List.mem_cons, List.not_mem_nil, or_false, or_self] at hf
    rw [hf]
    exact ⟨env_filt.1, rfl⟩⟩, _, vega⟩

/-- The same for two filters is refused. -/
example : ¬ ∃ out, determineAppMag env (.dataset [frame "1F", frame "3F"]) "Vega" 1 = .ok out := by
  rw [C148_accepts_iff]
  rintro ⟨-, ⟨n, t, h⟩, -⟩
  have h1 := (h (frame "1F") (by simp)).1
  have h2 := (h (frame "3F") (by simp)).1
  rw [env_filt.1] at h1
  rw [env_filt.2] at h2
  have h3 : "transmission_ID-01_1F_v0.csv" = "transmission_ID-03_3F_v0.csv" := (Except.ok.inj h1).trans (Except.ok.inj h2).symm
  revert h3
  decide +kernel

/-- The colour correction of the two filters is not refused. -/
example : ∃ out, determineColorCor env [frame "1F", frame "3F"] "Vega" "Vega" = .ok out :=
  (C148_color_accepts_iff (fun _ => by simp [env]) ..).2 ⟨⟨_, _, rfl, env_filt.1⟩, ⟨_, vega⟩, _, vega⟩

end Corgi.Mags

import Verif.Walker.Record
import Verif.Walker.Templates

/-!
# A recipe that runs while other processes change the disk (walker.py 385-441): C178

The recipe names calibration files by their paths (walker.py 202-226). They are read when the step that uses them begins (426-432), every
step reads its own copy. Other processes (a pipeline that makes new calibrations, a user) may change the disk before any step. The model
is that of `Model.lean` with such changes in between.

Simplification: a step with its reading of files is not interrupted; a file that is just being written is one that cannot be read (C176).
-/

namespace Corgi.Walker

variable {D C W : Type}

/-! ## Model -/

/-- The loop of `run_recipe` (walker.py 385-441); `others n` is what the other processes do to the world before step `n`. -/
def runAmong (env : Env D C W) (cfg : List (String × Bool)) (outputdir : String) (others : ℕ → W → W) :
    ℕ → St D C W → List Step → St D C W × Option Err
  | _, st, [] => (st, none)
  | n, st, s :: rest =>
    match runStep env cfg outputdir { st with world := others n st.world } s with
    | (st', none) => runAmong env cfg outputdir others (n + 1) st' rest
    | (st', some e) => (st', some e)

/-- The calibration classes that the steps of the shipped templates ask for (recipe_templates/*.json, `steps[*].calibs`); steps without
calibrations are left out. -/
def stepCalibs : String → List (String × List String)
  | "bp_map.json" => [("create_bad_pixel_map", ["Dark", "FlatField"])]
  | "build_trad_dark_full_frame.json" => [("prescan_biassub", ["DetectorNoiseMaps"]),
      ("detect_cosmic_rays", ["DetectorParams", "KGain"]), ("correct_nonlinearity", ["NonLinearityCalibration"]),
      ("convert_to_electrons", ["KGain"]), ("build_trad_dark", ["DetectorParams"])]
  | "build_trad_dark_image.json" => [("prescan_biassub", ["DetectorNoiseMaps"]),
      ("detect_cosmic_rays", ["DetectorParams", "KGain"]), ("correct_nonlinearity", ["NonLinearityCalibration"]),
      ("convert_to_electrons", ["KGain"]), ("build_trad_dark", ["DetectorParams"])]
  | "l1_flat_and_bp.json" => [("detect_cosmic_rays", ["DetectorParams", "KGain"]),
      ("correct_nonlinearity", ["NonLinearityCalibration"]), ("convert_to_electrons", ["KGain"]),
      ("dark_subtraction", ["DetectorNoiseMaps"]), ("desmear", ["DetectorParams"]), ("cti_correction", ["TrapCalibration"]),
      ("create_bad_pixel_map", ["DetectorNoiseMaps", "FlatField"])]
  | "l1_to_boresight.json" => [("prescan_biassub", ["DetectorNoiseMaps"]),
      ("detect_cosmic_rays", ["DetectorParams", "KGain"]), ("correct_nonlinearity", ["NonLinearityCalibration"]),
      ("convert_to_electrons", ["KGain"]), ("dark_subtraction", ["DetectorNoiseMaps"]), ("desmear", ["DetectorParams"]),
      ("cti_correction", ["TrapCalibration"]), ("flat_division", ["FlatField"]), ("correct_bad_pixels", ["BadPixelMap"])]
  | "l1_to_kgain.json" => [("detect_cosmic_rays", ["DetectorParams", "KGain"])]
  | "l1_to_l2a_basic.json" => [("prescan_biassub", ["DetectorNoiseMaps"]),
      ("detect_cosmic_rays", ["DetectorParams", "KGain"]), ("correct_nonlinearity", ["NonLinearityCalibration"])]
  | "l1_to_l2a_eng.json" => [("prescan_biassub", ["DetectorNoiseMaps"]),
      ("detect_cosmic_rays", ["DetectorParams", "KGain"]), ("correct_nonlinearity", ["NonLinearityCalibration"])]
  | "l1_to_l2a_noisemap.json" => [("detect_cosmic_rays", ["DetectorParams", "KGain"]),
      ("correct_nonlinearity", ["NonLinearityCalibration"]), ("convert_to_electrons", ["KGain"]),
      ("calibrate_darks", ["DetectorParams"])]
  | "l1_to_l2a_nonlin.json" => [("detect_cosmic_rays", ["DetectorParams", "KGain"])]
  | "l1_to_l2a_tdd_vap.json" => [("prescan_biassub", ["DetectorNoiseMaps"]),
      ("detect_cosmic_rays", ["DetectorParams", "KGain"]), ("correct_nonlinearity", ["NonLinearityCalibration"])]
  | "l1_to_l2a_tdd_vap_full.json" => [("prescan_biassub", ["DetectorNoiseMaps"]),
      ("detect_cosmic_rays", ["DetectorParams", "KGain"]), ("correct_nonlinearity", ["NonLinearityCalibration"])]
  | "l1_to_l2b.json" => [("prescan_biassub", ["DetectorNoiseMaps"]), ("detect_cosmic_rays", ["DetectorParams", "KGain"]),
      ("correct_nonlinearity", ["NonLinearityCalibration"]), ("convert_to_electrons", ["KGain"]),
      ("dark_subtraction", ["DetectorNoiseMaps"]), ("desmear", ["DetectorParams"]), ("cti_correction", ["TrapCalibration"]),
      ("flat_division", ["FlatField"]), ("correct_bad_pixels", ["BadPixelMap"])]
  | "l1_to_l2b_pc.json" => [("prescan_biassub", ["DetectorNoiseMaps"]), ("detect_cosmic_rays", ["DetectorParams", "KGain"]),
      ("correct_nonlinearity", ["NonLinearityCalibration"]), ("convert_to_electrons", ["KGain"]), ("get_pc_mean", ["Dark"]),
      ("desmear", ["DetectorParams"]), ("cti_correction", ["TrapCalibration"]), ("flat_division", ["FlatField"]),
      ("correct_bad_pixels", ["BadPixelMap"])]
  | "l1_to_l2b_pc_dark.json" => [("prescan_biassub", ["DetectorNoiseMaps"]),
      ("detect_cosmic_rays", ["DetectorParams", "KGain"]), ("correct_nonlinearity", ["NonLinearityCalibration"]),
      ("convert_to_electrons", ["KGain"])]
  | "l2a_build_trad_dark_image.json" => [("convert_to_electrons", ["KGain"]), ("build_trad_dark", ["DetectorParams"])]
  | "l2a_to_l2a_noisemap.json" => [("convert_to_electrons", ["KGain"]), ("calibrate_darks", ["DetectorParams"])]
  | "l2a_to_l2b.json" => [("convert_to_electrons", ["KGain"]), ("dark_subtraction", ["DetectorNoiseMaps"]),
      ("desmear", ["DetectorParams"]), ("cti_correction", ["TrapCalibration"]), ("flat_division", ["FlatField"]),
      ("correct_bad_pixels", ["BadPixelMap"])]
  | "l2a_to_l2b_pc.json" => [("convert_to_electrons", ["KGain"]), ("get_pc_mean", ["Dark"]),
      ("desmear", ["DetectorParams"]), ("cti_correction", ["TrapCalibration"]), ("flat_division", ["FlatField"]),
      ("correct_bad_pixels", ["BadPixelMap"])]
  | "l2a_to_l2b_pc_dark.json" => [("convert_to_electrons", ["KGain"])]
  | "l2a_to_l2b_tdd_vap.json" => [("convert_to_electrons", ["KGain"]), ("dark_subtraction", ["DetectorNoiseMaps"]),
      ("desmear", ["DetectorParams"]), ("cti_correction", ["TrapCalibration"]), ("flat_division", ["FlatField"]),
      ("correct_bad_pixels", ["BadPixelMap"])]
  | "l2b_to_corethroughput.json" => []
  | "l2b_to_fluxcal_factor.json" => []
  | "l2b_to_l3.json" => [("create_wcs", ["AstrometricCalibration"])]
  | "l2b_to_l4.json" => [("create_wcs", ["AstrometricCalibration"]), ("distortion_correction", ["AstrometricCalibration"]),
      ("update_to_l4", ["CoreThroughputCalibration", "FluxcalFactor"])]
  | "l3_to_l4.json" => [("distortion_correction", ["AstrometricCalibration"]),
      ("do_psf_subtraction", ["CoreThroughputCalibration"]), ("update_to_l4", ["CoreThroughputCalibration", "FluxcalFactor"])]
  | "l3_to_l4_nopsfsub.json" => [("distortion_correction", ["AstrometricCalibration"]),
      ("update_to_l4", ["CoreThroughputCalibration", "FluxcalFactor"])]
  | "test.json" => [("detect_cosmic_rays", ["DetectorParams", "KGain"])]
  | "trap_pump_cal.json" => [("prescan_biassub", ["DetectorNoiseMaps"]),
      ("correct_nonlinearity", ["NonLinearityCalibration"])]
  | _ => []

/-! ## Specification -/

/-- Calibrations are named in the recipe: no resolution at run time. -/
def Named (cfg : List (String × Bool)) (g : Settings) : Prop := jitNow cfg g = false

/-- The files that the steps which run read. -/
def reads (steps : List Step) : List (String × String) :=
  (steps.filter fun s => !s.skip).flatMap fun s => (s.calibs.getD []).filterMap fun c => c.2.map fun p => (c.1, p)

/-- `S` relates worlds that a run of `steps` cannot tell apart: the files it reads are the same, step functions (which look at
the world for nothing else) and `save_data` do the same. -/
structure Alike (env : Env D C W) (steps : List Step) (S : W → W → Prop) : Prop where
  load : ∀ w w', S w w' → ∀ c ∈ reads steps, env.load w' c.1 c.2 = env.load w c.1 c.2
  func : ∀ w w', S w w' → ∀ n f, env.func n = some f → f w' = f w
  save : ∀ w w', S w w' → ∀ d o x, (∃ e, env.save w d o x = .error e ∧ env.save w' d o x = .error e) ∨
    ∃ v v', env.save w d o x = .ok v ∧ env.save w' d o x = .ok v' ∧ S v v'

/-- Calibration classes that more than one step of a template loads. -/
def shared (t : String) : List String :=
  let l := (stepCalibs t).flatMap Prod.snd
  (l.filter fun k => decide (1 < l.count k)).dedup

/-! ## Proofs -/

theorem mapM_congr {α β : Type} {g g' : α → Except Err β} {l : List α} (h : ∀ a ∈ l, g a = g' a) : l.mapM g = l.mapM g' := by
  induction l with
  | nil => rfl
  | cons a l ih => rw [List.mapM_cons, List.mapM_cons, h a List.mem_cons_self, ih fun x hx => h x (List.mem_cons_of_mem _ hx)]

theorem loadCalibs_alike {env : Env D C W} {steps : List Step} {S : W → W → Prop} (h : Alike env steps S) {w w' : W} (hw : S w w')
    {s : Step} (hs : s ∈ steps) (hk : s.skip = false) {cs : List (String × Option String)} (hc : s.calibs = some cs) :
    loadCalibs env w' cs = loadCalibs env w cs := by
  unfold loadCalibs
  refine mapM_congr fun c hcm => ?_
  cases hp : c.2 with
  | none => rfl
  | some p =>
    dsimp only
    have : (c.1, p) ∈ reads steps := by
      unfold reads
      refine List.mem_flatMap.2 ⟨s, List.mem_filter.2 ⟨hs, by simp [hk]⟩, List.mem_filterMap.2 ⟨c, by simpa [hc] using hcm, ?_⟩⟩
      rw [hp]; rfl
    rw [h.load w w' hw _ this]

theorem stepArgs_named {env : Env D C W} {cfg : List (String × Bool)} {st : St D C W} (hj : Named cfg st.settings) (s : Step) :
    stepArgs env cfg st s = match s.calibs with
      | none => .ok []
      | some cs => loadCalibs env st.world cs := by
  unfold stepArgs
  cases h : s.calibs with
  | none => rfl
  | some cs =>
    dsimp only
    unfold Named at hj
    rw [hj]
    simp [bind, Except.bind, pure, Except.pure, h]

theorem runStep_alike {env : Env D C W} {cfg : List (String × Bool)} {o : String} {steps : List Step} {S : W → W → Prop}
    (h : Alike env steps S) {st st' : St D C W} (hj : Named cfg st.settings) (hw : S st.world st'.world)
    (he : st' = { st with world := st'.world }) {s : Step} (hs : s ∈ steps) :
    (runStep env cfg o st' s).2 = (runStep env cfg o st s).2 ∧
      S (runStep env cfg o st s).1.world (runStep env cfg o st' s).1.world ∧
      (runStep env cfg o st' s).1 = { (runStep env cfg o st s).1 with world := (runStep env cfg o st' s).1.world } := by
  obtain ⟨g, w, d, t⟩ := st
  obtain ⟨g', w', d', t'⟩ := st'
  simp only [St.mk.injEq] at he
  obtain ⟨rfl, -, rfl, rfl⟩ := he
  dsimp only at hw hj
  unfold runStep
  dsimp only
  split
  · rcases h.save w w' hw d' o ((s.keywords.bind fun kw => getKey kw "suffix").getD "") with ⟨e, h1, h2⟩ | ⟨v, v', h1, h2, h3⟩
    · rw [h1, h2]; exact ⟨rfl, hw, rfl⟩
    · rw [h1, h2]; exact ⟨rfl, h3, rfl⟩
  · cases hf : env.func s.name with
    | none => exact ⟨rfl, hw, rfl⟩
    | some f =>
      dsimp only
      by_cases hk : s.skip = true
      · rw [if_pos hk, if_pos hk]
        exact ⟨rfl, hw, rfl⟩
      · have hk' : s.skip = false := by simpa using hk
        rw [if_neg hk, if_neg hk]
        have ha : stepArgs env cfg ⟨g', w', d', t'⟩ s = stepArgs env cfg ⟨g', w, d', t'⟩ s := by
          rw [stepArgs_named hj, stepArgs_named hj]
          cases hc : s.calibs with
          | none => rfl
          | some cs => exact loadCalibs_alike h hw hs hk' hc
        rw [ha]
        cases stepArgs env cfg ⟨g', w, d', t'⟩ s with
        | error e => exact ⟨rfl, hw, rfl⟩
        | ok args =>
          dsimp only
          rw [h.func w w' hw _ _ hf]
          cases f w d' args (s.keywords.getD []) with
          | error e => exact ⟨rfl, hw, rfl⟩
          | ok x => exact ⟨rfl, hw, rfl⟩

theorem alike_among {env : Env D C W} {cfg : List (String × Bool)} {o : String} {all : List Step} {S : W → W → Prop}
    (h : Alike env all S) (ht : ∀ a b c, S a b → S b c → S a c) {others : ℕ → W → W} (ho : ∀ n w, S w (others n w)) (steps : List Step)
    (hsub : ∀ s ∈ steps, s ∈ all) (n : ℕ) {st st' : St D C W} (hj : Named cfg st.settings) (hw : S st.world st'.world)
    (he : st' = { st with world := st'.world }) :
    (runAmong env cfg o others n st' steps).2 = (runSteps env cfg o st steps).2 ∧
      (runAmong env cfg o others n st' steps).1.data = (runSteps env cfg o st steps).1.data ∧
      (runAmong env cfg o others n st' steps).1.trace = (runSteps env cfg o st steps).1.trace ∧
      S (runSteps env cfg o st steps).1.world (runAmong env cfg o others n st' steps).1.world := by
  induction steps generalizing n st st' with
  | nil => exact ⟨rfl, by rw [he]; rfl, by rw [he]; rfl, hw⟩
  | cons s rest ih =>
    have h1 := runStep_alike (o := o) h (st := st) (st' := { st' with world := others n st'.world }) hj (ht _ _ _ hw (ho n _))
      (by rw [he]) (hsub s List.mem_cons_self)
    have hg := runStep_settings env cfg o st s
    unfold runAmong runSteps
    generalize runStep env cfg o { st' with world := others n st'.world } s = a at h1 ⊢
    generalize runStep env cfg o st s = b at h1 hg ⊢
    obtain ⟨a1, a2⟩ := a
    obtain ⟨b1, b2⟩ := b
    obtain ⟨e1, e2, e3⟩ := h1
    dsimp only at e1 e2 e3 hg
    subst e1
    cases a2 with
    | some e => exact ⟨rfl, by dsimp only; rw [e3], by dsimp only; rw [e3], e2⟩
    | none => exact ih (fun x hx => hsub x (List.mem_cons_of_mem _ hx)) (n + 1) (by rw [hg]; exact hj) e2 e3

/-- **C178** If the other processes leave the files alone that the recipe reads, the run is the undisturbed one: same data, same calls, same
error. -/
theorem C178_undisturbed {env : Env D C W} {cfg : List (String × Bool)} {o : String} {steps : List Step} {S : W → W → Prop}
    (h : Alike env steps S) (hr : ∀ a, S a a) (ht : ∀ a b c, S a b → S b c → S a c) {others : ℕ → W → W} (ho : ∀ n w, S w (others n w))
    (st : St D C W) (hj : Named cfg st.settings) :
    (runAmong env cfg o others 0 st steps).2 = (runSteps env cfg o st steps).2 ∧
      (runAmong env cfg o others 0 st steps).1.data = (runSteps env cfg o st steps).1.data ∧
      (runAmong env cfg o others 0 st steps).1.trace = (runSteps env cfg o st steps).1.trace := by
  obtain ⟨h1, h2, h3, -⟩ := alike_among (o := o) h ht ho steps (fun _ hs => hs) 0 hj (hr st.world) rfl
  exact ⟨h1, h2, h3⟩

/-- **C178** Nothing happens in between: the loop of `run_recipe`. -/
theorem C178_alone (env : Env D C W) (cfg : List (String × Bool)) (o : String) (n : ℕ) (st : St D C W) (steps : List Step) :
    runAmong env cfg o (fun _ w => w) n st steps = runSteps env cfg o st steps := by
  induction steps generalizing n st with
  | nil => rfl
  | cons s rest ih =>
    unfold runAmong runSteps
    show (match runStep env cfg o st s with
      | (st', none) => runAmong env cfg o (fun _ w => w) (n + 1) st' rest
      | (st', some e) => (st', some e)) = _
    cases h : runStep env cfg o st s with
    | mk a b =>
      cases b with
      | none => exact ih _ _
      | some e => rfl

/-- One step that runs: its calibrations are what the files contain at that moment. -/
theorem runStep_call {env : Env D C W} {cfg : List (String × Bool)} {o : String} {st : St D C W} (hj : Named cfg st.settings) {s : Step}
    (hn : (s.name.toLower == "save") = false) (hk : s.skip = false) {f : W → D → List (Option C) → List (String × String) → Except Err D}
    (hf : env.func s.name = some f) {cs : List (String × Option String)} (hc : s.calibs = some cs) {args : List (Option C)}
    (ha : loadCalibs env st.world cs = .ok args) {d : D} (hd : f st.world st.data args (s.keywords.getD []) = .ok d) :
    runStep env cfg o st s = ({ st with data := d, trace := st.trace ++ [.called s.name st.data args] }, none) := by
  unfold runStep
  simp only [hn, Bool.false_eq_true, if_false, hf, hk]
  rw [stepArgs_named hj, hc]
  dsimp only
  rw [ha]
  dsimp only
  rw [hd]

theorem runStep_gone {env : Env D C W} {cfg : List (String × Bool)} {o : String} {st : St D C W} (hj : Named cfg st.settings) {s : Step}
    (hn : (s.name.toLower == "save") = false) (hk : s.skip = false) {f : W → D → List (Option C) → List (String × String) → Except Err D}
    (hf : env.func s.name = some f) {k p : String} {cs : List (String × Option String)} (hc : s.calibs = some ((k, some p) :: cs)) {e : Err}
    (hl : env.load st.world k p = .error e) : runStep env cfg o st s = (st, some e) := by
  have ha : stepArgs env cfg st s = .error e := by
    rw [stepArgs_named hj, hc]
    simp only [loadCalibs, List.mapM_cons, hl, Except.map, bind, Except.bind]
  unfold runStep
  simp only [hn, Bool.false_eq_true, if_false, hf, hk]
  rw [ha]

/-- **C178** Every step uses the files as they are when it begins, whatever they were when the recipe was written. -/
theorem C178_time_of_use {env : Env D C W} {cfg : List (String × Bool)} {o : String} {others : ℕ → W → W} {n : ℕ} {st : St D C W}
    (hj : Named cfg st.settings) {s : Step} {rest : List Step} (hn : (s.name.toLower == "save") = false) (hk : s.skip = false)
    {f : W → D → List (Option C) → List (String × String) → Except Err D} (hf : env.func s.name = some f)
    {cs : List (String × Option String)} (hc : s.calibs = some cs) {args : List (Option C)}
    (ha : loadCalibs env (others n st.world) cs = .ok args) {d : D} (hd : f (others n st.world) st.data args (s.keywords.getD []) = .ok d) :
    runAmong env cfg o others n st (s :: rest) = runAmong env cfg o others (n + 1)
      { st with world := others n st.world, data := d, trace := st.trace ++ [.called s.name st.data args] } rest := by
  conv_lhs => unfold runAmong
  rw [runStep_call (st := { st with world := others n st.world }) hj hn hk hf hc ha hd]

/-- **C178, violated.** A calibration named by two steps: if its file is replaced in between, the product is made with both versions; the
undisturbed run, on whatever world, uses one. -/
theorem C178_violated_mixed {env : Env D C W} {cfg : List (String × Bool)} {o : String} {others : ℕ → W → W} {st : St D C W}
    (hj : Named cfg st.settings) {s s' : Step} (hn : (s.name.toLower == "save") = false ∧ (s'.name.toLower == "save") = false)
    (hk : s.skip = false ∧ s'.skip = false) {f f' : W → D → List (Option C) → List (String × String) → Except Err D}
    (hf : env.func s.name = some f) (hf' : env.func s'.name = some f') (htot : ∀ w d a k, ∃ x, f w d a k = .ok x)
    (htot' : ∀ w d a k, ∃ x, f' w d a k = .ok x) {k p : String} (hc : s.calibs = some [(k, some p)]) (hc' : s'.calibs = some [(k, some p)])
    {c c' : C} (h0 : env.load (others 0 st.world) k p = .ok c) (h1 : env.load (others 1 (others 0 st.world)) k p = .ok c') (hne : c ≠ c') :
    (∃ d, (runAmong env cfg o others 0 st [s, s']).2 = none ∧
      (runAmong env cfg o others 0 st [s, s']).1.trace = st.trace ++ [.called s.name st.data [some c], .called s'.name d [some c']]) ∧
    ∀ w : W, (runSteps env cfg o { st with world := w } [s, s']).1.trace ≠ (runAmong env cfg o others 0 st [s, s']).1.trace := by
  have load1 : ∀ {w : W} {y : C}, env.load w k p = .ok y → loadCalibs env w [(k, some p)] = .ok [some y] := by
    intro w y h
    unfold loadCalibs
    simp only [List.mapM_cons, List.mapM_nil, h]
    rfl
  have first : ∃ d, (runAmong env cfg o others 0 st [s, s']).2 = none ∧
      (runAmong env cfg o others 0 st [s, s']).1.trace = st.trace ++ [.called s.name st.data [some c], .called s'.name d [some c']] := by
    obtain ⟨d, hd⟩ := htot (others 0 st.world) st.data [some c] (s.keywords.getD [])
    rw [C178_time_of_use hj hn.1 hk.1 hf hc (load1 h0) hd]
    obtain ⟨d', hd'⟩ := htot' (others 1 (others 0 st.world)) d [some c'] (s'.keywords.getD [])
    have e := C178_time_of_use (env := env) (cfg := cfg) (o := o) (others := others) (n := 0 + 1)
      (st := { st with world := others 0 st.world, data := d, trace := st.trace ++ [.called s.name st.data [some c]] })
      (rest := []) hj hn.2 hk.2 hf' hc' (load1 h1) hd'
    rw [e]
    exact ⟨d, rfl, by simp [runAmong]⟩
  refine ⟨first, fun w ht => ?_⟩
  · obtain ⟨d, -, hd⟩ := first
    rw [hd] at ht
    cases hl : env.load w k p with
    | error e =>
      have := runStep_gone (env := env) (cfg := cfg) (o := o) (st := { st with world := w }) hj hn.1 hk.1 hf hc hl
      unfold runSteps at ht
      rw [this] at ht
      simp at ht
    | ok y =>
      obtain ⟨d1, hd1⟩ := htot w st.data [some y] (s.keywords.getD [])
      obtain ⟨d2, hd2⟩ := htot' w d1 [some y] (s'.keywords.getD [])
      have e1 := runStep_call (env := env) (cfg := cfg) (o := o) (st := { st with world := w }) hj hn.1 hk.1 hf hc (load1 hl) hd1
      have e2 := runStep_call (env := env) (cfg := cfg) (o := o)
        (st := { st with world := w, data := d1, trace := st.trace ++ [.called s.name st.data [some y]] }) hj hn.2 hk.2 hf' hc' (load1 hl) hd2
      simp only [runSteps, e1, e2] at ht
      simp only [List.append_assoc, List.append_cancel_left_eq, List.cons_append, List.nil_append, List.cons.injEq, Ev.called.injEq] at ht
      obtain ⟨⟨-, -, h3, -⟩, ⟨-, -, h4, -⟩, -⟩ := ht
      exact hne ((Option.some.inj h3).symm.trans (Option.some.inj h4))

/-- **C178, violated.** A calibration file that is gone (or half written) when its step begins ends the run there, also with
`skip_missing_cal_steps`; what earlier steps have saved stays. -/
theorem C178_violated_gone {env : Env D C W} {cfg : List (String × Bool)} {o : String} {others : ℕ → W → W} {n : ℕ} {st : St D C W}
    (hj : Named cfg st.settings) {s : Step} {rest : List Step} (hn : (s.name.toLower == "save") = false) (hk : s.skip = false)
    {f : W → D → List (Option C) → List (String × String) → Except Err D} (hf : env.func s.name = some f) {k p : String}
    {cs : List (String × Option String)} (hc : s.calibs = some ((k, some p) :: cs)) {e : Err}
    (hl : env.load (others n st.world) k p = .error e) :
    runAmong env cfg o others n st (s :: rest) = ({ st with world := others n st.world }, some e) := by
  unfold runAmong
  rw [runStep_gone (st := { st with world := others n st.world }) hj hn hk hf hc hl]

/-- **C178** The shipped templates in which this can happen, and the calibrations. -/
theorem C178_templates : (Templates.files.filter fun t => !(shared t).isEmpty).map (fun t => (t, shared t)) =
    [("build_trad_dark_full_frame.json", ["KGain", "DetectorParams"]), ("build_trad_dark_image.json", ["KGain", "DetectorParams"]),
      ("l1_flat_and_bp.json", ["KGain", "DetectorParams", "DetectorNoiseMaps"]),
      ("l1_to_boresight.json", ["KGain", "DetectorNoiseMaps", "DetectorParams"]),
      ("l1_to_l2a_noisemap.json", ["KGain", "DetectorParams"]), ("l1_to_l2b.json", ["KGain", "DetectorNoiseMaps", "DetectorParams"]),
      ("l1_to_l2b_pc.json", ["KGain", "DetectorParams"]), ("l1_to_l2b_pc_dark.json", ["KGain"]),
      ("l2b_to_l4.json", ["AstrometricCalibration"]), ("l3_to_l4.json", ["CoreThroughputCalibration"])] ∧
    ∀ t ∈ Templates.files, ((stepCalibs t).map Prod.fst).Sublist ((Templates.steps t).getD []) := by
  decide +kernel

/-! ## Not vacuous -/

/-- A disk with numbers for calibrations; every step adds its calibrations to a list, `save` writes a file. -/
def diskEnv : Env (List (Option ℕ)) ℕ (String → Option ℕ) where
  func := fun _ => some fun _ d a _ => .ok (d ++ a)
  lookup := fun _ _ _ => .error .valueError
  load := fun w _ p => match w p with
    | some c => .ok c
    | none => .error .other
  save := fun w _ o x => .ok (Function.update w (o ++ x) (some 0))

/-- Worlds with the same calibration files are alike. -/
theorem disk_alike (steps : List Step) : Alike diskEnv steps (fun w w' => ∀ c ∈ reads steps, w' c.2 = w c.2) := by
  refine ⟨fun w w' h c hc => ?_, fun w w' _ n f hf => ?_, fun w w' h d o x => .inr ⟨_, _, rfl, rfl, fun c hc => ?_⟩⟩
  · show (match w' c.2 with
      | some c => .ok c
      | none => .error .other : Except Err ℕ) = _
    rw [h c hc]
    rfl
  · cases hf
    rfl
  · by_cases e : c.2 = o ++ x
    · rw [e, Function.update_self, Function.update_self]
    · rw [Function.update_of_ne e, Function.update_of_ne e, h c hc]

/-- The k-gain of `l1_to_l2b.json` is replaced between its two uses. -/
def replaced : ℕ → (String → Option ℕ) → (String → Option ℕ) := fun n w => if n = 1 then Function.update w "kgain.fits" (some 9) else w

def twoSteps : List Step :=
  [⟨"detect_cosmic_rays", some [("KGain", some "kgain.fits")], false, none⟩,
    ⟨"convert_to_electrons", some [("KGain", some "kgain.fits")], false, none⟩]

example : (runAmong diskEnv [] "" replaced 0 ⟨fun _ => false, fun _ => some 8, [], []⟩ twoSteps).1.data = [some 8, some 9] ∧
    (runSteps diskEnv [] "" ⟨fun _ => false, fun _ => some 8, [], []⟩ twoSteps).1.data = [some 8, some 8] := by
  decide +kernel

end Corgi.Walker

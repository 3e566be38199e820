import Verif.Walker.Lemmas

/-!
# Properties C06-C11: recipes
-/

namespace Corgi.Walker

/-! ## C06 -/

/-- **C06.** `guess_template` returns a recipe exactly when the documentation lists it for these
headers; being a function, it returns no other one. -/
theorem C06_documented_iff (h : Header) (t : List String) :
    guessTemplate h = .ok t ↔ Documented h t := by
  have hENG : ∀ v, startsENG v = true ↔ ∃ rest, v.toList = 'E' :: 'N' :: 'G' :: rest := by
    intro v
    unfold startsENG
    have : "ENG".toList = ['E', 'N', 'G'] := by decide
    rw [this]
    rcases v.toList with _ | ⟨a, _ | ⟨b, _ | ⟨c, l⟩⟩⟩ <;> simp
  constructor
  · intro hg
    unfold guessTemplate need at hg
    cases hl : h.datalvl with
    | none => simp [hl, bind, Except.bind] at hg
    | some lvl =>
      by_cases h1 : lvl = "L1"
      · subst h1
        cases hv : h.vistype with
        | none =>
          simp [hl, hv, bind, Except.bind, pure, Except.pure] at hg
          subst hg; exact .l1_nonflight hl hv
        | some v =>
          simp only [hl, hv, bind, Except.bind, pure, Except.pure, beq_self_eq_true, if_true] at hg
          split at hg
          · rename_i he
            obtain ⟨rest, hr⟩ := (hENG v).1 he
            cases hg; exact .l1_eng hl hv hr
          rename_i he
          split at hg
          · rename_i h2; cases hg; exact .l1_boresight hl (by rw [hv, beq_iff_eq.1 h2])
          rename_i h2
          split at hg
          · rename_i h3; cases hg; exact .l1_flat hl (by rw [hv, beq_iff_eq.1 h3])
          rename_i h3
          split at hg
          · rename_i h4
            have hv' : h.vistype = some "DARK" := by rw [hv, beq_iff_eq.1 h4]
            cases hn : h.nconf with
            | error e => simp [hn] at hg
            | ok n =>
              cases hp : h.ispc with
              | none => simp [hn, hp] at hg
              | some pc =>
                cases pc with
                | true => simp [hn, hp] at hg; subst hg; exact .l1_dark_pc hl hv' hn hp
                | false =>
                  simp [hn, hp] at hg
                  split at hg
                  · rename_i h5; cases hg; exact .l1_noisemap hl hv' hn (by omega) hp
                  · rename_i h5; cases hg; exact .l1_dark hl hv' hn (by omega) hp
          rename_i h4
          split at hg
          · rename_i h5; cases hg; exact .l1_pupil hl (by rw [hv, beq_iff_eq.1 h5])
          · rename_i h5
            cases hg
            refine .l1_science hl hv (fun rest hr => he ((hENG v).2 ⟨rest, hr⟩)) ?_
            simp only [beq_iff_eq] at h2 h3 h4 h5
            simp [h2, h3, h4, h5]
      · by_cases h2 : lvl = "L2a"
        · subst h2
          cases hv : h.vistype with
          | none => simp [hl, hv, bind, Except.bind] at hg
          | some v =>
            simp only [hl, hv, bind, Except.bind, pure, Except.pure] at hg
            rw [if_neg (by decide), if_pos (by decide)] at hg
            split at hg
            · rename_i h4
              have hv' : h.vistype = some "DARK" := by rw [hv, beq_iff_eq.1 h4]
              cases hn : h.nconf with
              | error e => simp [hn] at hg
              | ok n =>
                cases hp : h.ispc with
                | none => simp [hn, hp] at hg
                | some pc =>
                  cases pc with
                  | true => simp [hn, hp] at hg; subst hg; exact .l2a_dark_pc hl hv' hn hp
                  | false =>
                    simp [hn, hp] at hg
                    split at hg
                    · rename_i h5; cases hg; exact .l2a_noisemap hl hv' hn (by omega) hp
                    · rename_i h5; cases hg; exact .l2a_dark hl hv' hn (by omega) hp
            · rename_i h4
              simp only [beq_iff_eq] at h4
              cases hp : h.ispc with
              | none => simp [hp] at hg
              | some pc =>
                cases pc with
                | true => simp [hp] at hg; subst hg; exact .l2a_pc hl hv h4 hp
                | false => simp [hp] at hg; subst hg; exact .l2a_analog hl hv h4 hp
        · by_cases h3 : lvl = "L2b"
          · subst h3
            cases hv : h.vistype with
            | none => simp [hl, hv, bind, Except.bind] at hg
            | some v =>
              simp only [hl, hv, bind, Except.bind, pure, Except.pure] at hg
              rw [if_neg (by decide), if_neg (by decide), if_pos (by decide)] at hg
              split at hg
              · rename_i h4
                cases hg
                exact .l2b_flux hl hv (by simpa using h4)
              · rename_i h4
                split at hg
                · rename_i h5; cases hg; exact .l2b_ct hl (by rw [hv, beq_iff_eq.1 h5])
                · rename_i h5
                  cases hg
                  refine .l2b_science hl hv ?_
                  simp only [Bool.or_eq_true, beq_iff_eq, not_or] at h4 h5
                  simp [h4, h5]
          · by_cases h4 : lvl = "L3"
            · subst h4
              simp only [hl, bind, Except.bind, pure, Except.pure] at hg
              rw [if_neg (by decide), if_neg (by decide), if_neg (by decide), if_pos (by decide)] at hg
              cases hf : h.fsmlos with
              | none => simp [hf] at hg
              | some f =>
                simp only [hf] at hg
                split at hg
                · rename_i h5; cases hg; exact .l3_coron hl (by rw [hf, beq_iff_eq.1 h5])
                · rename_i h5; cases hg; exact .l3_noncoron hl hf (by simpa using h5)
            · simp [hl, h1, h2, h3, h4, bind, Except.bind] at hg
  · intro hd
    unfold guessTemplate need
    cases hd with
    | l1_nonflight hl hv => simp [hl, hv, bind, Except.bind, pure, Except.pure]
    | l1_eng hl hv hr =>
      simp [hl, hv, bind, Except.bind, pure, Except.pure, (hENG _).2 ⟨_, hr⟩]
    | l1_boresight hl hv =>
      simp [hl, hv, bind, Except.bind, pure, Except.pure, show startsENG "BORESITE" = false by decide]
    | l1_flat hl hv =>
      simp [hl, hv, bind, Except.bind, pure, Except.pure, show startsENG "FFIELD" = false by decide]
    | l1_dark_pc hl hv hn hp =>
      simp [hl, hv, hn, hp, bind, Except.bind, pure, Except.pure, show startsENG "DARK" = false by decide]
    | l1_noisemap hl hv hn h2 hp =>
      simp [hl, hv, hn, hp, bind, Except.bind, pure, Except.pure, show startsENG "DARK" = false by decide]
      omega
    | l1_dark hl hv hn h2 hp =>
      simp [hl, hv, hn, hp, bind, Except.bind, pure, Except.pure, show startsENG "DARK" = false by decide]
      omega
    | l1_pupil hl hv =>
      simp [hl, hv, bind, Except.bind, pure, Except.pure, show startsENG "PUPILIMG" = false by decide]
    | l1_science hl hv he hno =>
      have h0 : startsENG _ ≠ true := fun h => by
        obtain ⟨rest, hr⟩ := (hENG _).1 h; exact he rest hr
      simp at hno
      simp [hl, hv, bind, Except.bind, pure, Except.pure, h0, hno]
    | l2a_dark_pc hl hv hn hp => simp [hl, hv, hn, hp, bind, Except.bind, pure, Except.pure]
    | l2a_noisemap hl hv hn h2 hp =>
      simp [hl, hv, hn, hp, bind, Except.bind, pure, Except.pure]; omega
    | l2a_dark hl hv hn h2 hp =>
      simp [hl, hv, hn, hp, bind, Except.bind, pure, Except.pure]; omega
    | l2a_pc hl hv hne hp => simp [hl, hv, hne, hp, bind, Except.bind, pure, Except.pure]
    | l2a_analog hl hv hne hp => simp [hl, hv, hne, hp, bind, Except.bind, pure, Except.pure]
    | l2b_flux hl hv hm =>
      simp at hm
      simp [hl, hv, hm, bind, Except.bind, pure, Except.pure]
    | l2b_ct hl hv => simp [hl, hv, bind, Except.bind, pure, Except.pure]
    | l2b_science hl hv hm =>
      simp at hm
      simp [hl, hv, hm, bind, Except.bind, pure, Except.pure]
    | l3_coron hl hf => simp [hl, hf, bind, Except.bind, pure, Except.pure]
    | l3_noncoron hl hf hne => simp [hl, hf, hne, bind, Except.bind, pure, Except.pure]

/-- A photon-counted L1 dark set with two configurations. -/
example : Documented ⟨some "L1", some "DARK", some true, none, .ok 2⟩ ["l1_to_l2b_pc_dark.json"] :=
  .l1_dark_pc rfl rfl rfl rfl

/-- **C06, errors.** When the dataset can be split (or fails only for missing keywords), the only
exceptions are `NotImplementedError`, exactly for an unknown data level, and `KeyError`. -/
theorem C06_errors (h : Header) (hn : ∀ e, h.nconf = .error e → e = .keyError) :
    (guessTemplate h = .error .notImplemented ↔
      ∃ l, h.datalvl = some l ∧ l ∉ ["L1", "L2a", "L2b", "L3"]) ∧
    ∀ e, guessTemplate h = .error e → e = .notImplemented ∨ e = .keyError := by
  have hnc : h.nconf = .error .keyError ∨ ∃ n, h.nconf = .ok n := by
    cases hh : h.nconf with
    | error e => left; rw [hn e hh]
    | ok n => exact Or.inr ⟨n, rfl⟩
  cases hl : h.datalvl with
  | none => simp [guessTemplate, need, hl, bind, Except.bind]
  | some l =>
    by_cases h1 : l = "L1"
    · subst h1
      rcases hv : h.vistype with _ | v <;> rcases hnc with hnc | ⟨n, hnc⟩ <;> rcases hp : h.ispc with _ | pc <;>
        simp [guessTemplate, need, hl, hv, hnc, hp, bind, Except.bind, pure, Except.pure] <;>
        (try constructor) <;> (repeat' split) <;> simp
    · by_cases h2 : l = "L2a"
      · subst h2
        rcases hv : h.vistype with _ | v <;> rcases hnc with hnc | ⟨n, hnc⟩ <;> rcases hp : h.ispc with _ | pc <;>
          simp [guessTemplate, need, hl, hv, hnc, hp, bind, Except.bind, pure, Except.pure] <;>
          (try constructor) <;> (repeat' split) <;> simp
      · by_cases h3 : l = "L2b"
        · subst h3
          rcases hv : h.vistype with _ | v <;>
            simp [guessTemplate, need, hl, hv, bind, Except.bind, pure, Except.pure] <;>
            (try constructor) <;> (repeat' split) <;> simp
        · by_cases h4 : l = "L3"
          · subst h4
            rcases hf : h.fsmlos with _ | f <;>
              simp [guessTemplate, need, hl, hf, bind, Except.bind, pure, Except.pure] <;>
              (try constructor) <;> (repeat' split) <;> simp
          · simp [guessTemplate, need, hl, h1, h2, h3, h4, bind, Except.bind]

example : guessTemplate ⟨some "L4", none, none, none, .ok 1⟩ = .error .notImplemented := by decide

/-! ## C07 -/

/-- **C07.** `autogen_recipe` returns the recipe `r` exactly when `r` is what the template, the
calibration database and the settings prescribe: same steps in the same order, every calibration
resolved as documented (or, when deferred, untouched), the given inputs appended. In all other cases
it raises. -/
theorem C07_autogen_iff (lookup : String → Except Err String) (g : Settings) (files : List String)
    (o : String) (t r : Recipe) (hw : WellFormed t) :
    (∃ t', autogen lookup g files o t = .ok (r, t')) ↔ Generated lookup g files o t r := by
  have hiff : ∀ {ss : List Step}, t.steps.mapM (fillAndSet lookup t.drpconfig g o) = .ok ss ↔
      List.Forall₂ (StepFilled lookup (g "skip_missing_cal_steps") (Deferred t.drpconfig g) o)
        t.steps ss := by
    intro ss
    rw [mapM_ok_iff]
    have hkw := hw.keywords
    generalize t.steps = l at hkw
    constructor
    · intro h
      induction h with
      | nil => exact .nil
      | cons h1 _ ih =>
        exact .cons ((fillAndSet_iff hw.config (hkw _ (by simp))).1 h1)
          (ih fun s hs => hkw s (by simp [hs]))
    · intro h
      induction h with
      | nil => exact .nil
      | cons h1 _ ih =>
        exact .cons ((fillAndSet_iff hw.config (hkw _ (by simp))).2 h1)
          (ih fun s hs => hkw s (by simp [hs]))
  constructor
  · rintro ⟨t', h⟩
    obtain ⟨ss, h1, rfl, rfl⟩ := autogen_ok h
    exact ⟨rfl, rfl, rfl, rfl, rfl, hiff.1 h1⟩
  · rintro ⟨h1, h2, h3, h4, h5, h6⟩
    have hm := hiff.2 h6
    refine ⟨{ t with inputs := t.inputs ++ files, steps := r.steps }, ?_⟩
    obtain ⟨a, b, c, d, e, f⟩ := r
    simp only at h1 h2 h3 h4 h5
    subst h1 h2 h3 h4 h5
    simp only at hm
    simp [autogen, hm, bind, Except.bind, pure, Except.pure]

/-- **C07.** Without a template there is one recipe for each of the templates found for the data, in their order; without files the call
raises. -/
theorem C07_guess_iff {lookup : String → Except Err String} {g : Settings} {guess : Except Err (List Recipe)} {files : List String}
    {o : String} {rs : List Recipe} (hw : ∀ ts, guess = .ok ts → ∀ t ∈ ts, WellFormed t) :
    autogenGuess lookup g guess files o = .ok rs ↔
      files ≠ [] ∧ ∃ ts, guess = .ok ts ∧ List.Forall₂ (Generated lookup g files o) ts rs := by
  unfold autogenGuess
  cases files with
  | nil => simp
  | cons f fs =>
    cases guess with
    | error e => simp [bind, Except.bind]
    | ok ts =>
      have hw' := hw ts rfl
      have key : ∀ ps, ts.mapM (autogen lookup g (f :: fs) o) = .ok ps → List.Forall₂ (Generated lookup g (f :: fs) o) ts (ps.map Prod.fst) := by
        intro ps h
        rw [mapM_ok_iff] at h
        clear hw
        induction h with
        | nil => exact .nil
        | @cons a b _ _ h1 _ ih =>
          exact .cons ((C07_autogen_iff _ _ _ _ _ _ (hw' _ (by simp))).1 ⟨b.2, h1⟩) (ih fun t ht => hw' t (by simp [ht]))
      have key' : ∀ rs, List.Forall₂ (Generated lookup g (f :: fs) o) ts rs →
          ∃ ps, ts.mapM (autogen lookup g (f :: fs) o) = .ok ps ∧ ps.map Prod.fst = rs := by
        intro rs h
        simp only [mapM_ok_iff]
        clear hw key
        induction h with
        | nil => exact ⟨[], .nil, rfl⟩
        | cons h1 _ ih =>
          obtain ⟨t', h'⟩ := (C07_autogen_iff _ _ _ _ _ _ (hw' _ (by simp))).2 h1
          obtain ⟨ps, h2, h3⟩ := ih fun t ht => hw' t (by simp [ht])
          exact ⟨(_, t') :: ps, .cons h' h2, by simp [h3]⟩
      simp only [List.isEmpty_cons, Bool.false_eq_true, if_false, bind, Except.bind, pure, Except.pure, ne_eq, reduceCtorEq,
        not_false_eq_true, true_and, Except.ok.injEq, exists_eq_left']
      constructor
      · intro h
        split at h
        · cases h
        · rename_i ps hps
          cases h
          exact key ps hps
      · intro h
        obtain ⟨ps, h1, h2⟩ := key' rs h
        rw [h1]
        dsimp only
        rw [h2]

/-- **C07.** Steps keep their names, number and order. -/
theorem C07_names_kept {lookup : String → Except Err String} {g : Settings} {files : List String}
    {o : String} {t r t' : Recipe} (hw : WellFormed t)
    (h : autogen lookup g files o t = .ok (r, t')) :
    r.steps.map Step.name = t.steps.map Step.name := by
  have := ((C07_autogen_iff lookup g files o t r hw).1 ⟨t', h⟩).steps
  generalize t.steps = l at this
  generalize r.steps = l' at this
  induction this with
  | nil => rfl
  | cons h1 _ ih => simp [h1.name, ih]

/-- **C07.** No calibration reads AUTOMATIC any more, provided no file in the database is named so. -/
theorem C07_no_automatic_left {lookup : String → Except Err String} {g : Settings}
    {files : List String} {o : String} {t r t' : Recipe} (hw : WellFormed t)
    (hnow : ¬ Deferred t.drpconfig g) (hl : ∀ k p, lookup k = .ok p → ¬ Word "AUTOMATIC" p)
    (h : autogen lookup g files o t = .ok (r, t')) :
    ∀ s ∈ r.steps, ∀ cs, s.calibs = some cs → ∀ k v, (k, some v) ∈ cs → ¬ Word "AUTOMATIC" v := by
  intro s' hs' cs' hcs' k v hkv
  have hst := ((C07_autogen_iff lookup g files o t r hw).1 ⟨t', h⟩).steps
  obtain ⟨i, hi, rfl⟩ := List.getElem_of_mem hs'
  have hlen := hst.length_eq
  have hf := hst.get (by omega) hi
  simp only [List.get_eq_getElem] at hf
  cases hc : (t.steps[i]'(by omega)).calibs with
  | none =>
    rw [(hf.untouched (.inr hc)).1, hc] at hcs'; cases hcs'
  | some cs =>
    obtain ⟨rr, h1, h2, _⟩ := hf.resolved hnow cs hc
    rw [h2] at hcs'
    cases hcs'
    obtain ⟨x, hx, hxe⟩ := List.mem_map.1 hkv
    obtain ⟨j, hj, rfl⟩ := List.getElem_of_mem hx
    have hlen2 := h1.length_eq
    have hr := h1.get (by omega) hj
    simp only [List.get_eq_getElem] at hr
    rw [hxe] at hr
    generalize rr[j].2 = b at hr
    generalize cs[j] = c at hr
    cases hr with
    | explicit h => exact h
    | found _ hl' => exact hl _ _ hl'

/-- **C07.** A required calibration that cannot be found makes the call raise, unless steps with
missing calibrations are to be skipped. -/
theorem C07_missing_required_raises {lookup : String → Except Err String} {g : Settings}
    {files : List String} {o : String} {t : Recipe} (hw : WellFormed t)
    (hnow : ¬ Deferred t.drpconfig g) (hsk : g "skip_missing_cal_steps" = false)
    {s : Step} (hs : s ∈ t.steps) {cs} (hcs : s.calibs = some cs) {k v : String}
    (hkv : (k, some v) ∈ cs) (ha : Word "AUTOMATIC" v) (ho : ¬ Word "OPTIONAL" v)
    (hmiss : lookup k = .error .valueError) :
    ∃ e, autogen lookup g files o t = .error e := by
  cases h : autogen lookup g files o t with
  | error e => exact ⟨e, rfl⟩
  | ok x =>
    exfalso
    obtain ⟨r, t'⟩ := x
    have hst := ((C07_autogen_iff lookup g files o t r hw).1 ⟨t', h⟩).steps
    obtain ⟨i, hi, rfl⟩ := List.getElem_of_mem hs
    have hlen := hst.length_eq
    have hf := hst.get hi (by omega)
    simp only [List.get_eq_getElem] at hf
    obtain ⟨rr, h1, -, -⟩ := hf.resolved hnow cs hcs
    obtain ⟨j, hj, hje⟩ := List.getElem_of_mem hkv
    have hlen2 := h1.length_eq
    have hr := h1.get hj (by omega)
    simp only [List.get_eq_getElem] at hr
    rw [hje] at hr
    generalize (rr[j]'(by omega)).2 = b at hr
    generalize (rr[j]'(by omega)).1 = c at hr
    cases hr with
    | explicit h => exact h ha
    | found _ h => rw [hmiss] at h; cases h
    | optional _ _ h => exact ho h
    | skipped _ _ _ h => rw [hsk] at h; cases h

/-- A template with an optional and a required calibration. -/
def exTemplate : Recipe :=
  { name := "demo", template := true, drpconfig := [("track_individual_errors", false)],
    inputs := [], outputdir := "",
    steps := [
      { name := "prescan_biassub", calibs := some [("DetectorNoiseMaps", some "AUTOMATIC,OPTIONAL")],
        skip := false, keywords := some [("return_full_frame", "false")] },
      { name := "dark_subtraction", calibs := some [("Dark", some "Automatic")], skip := false,
        keywords := some [("outputdir", "AUTOMATIC")] },
      { name := "save", calibs := none, skip := false, keywords := none }] }

/-- A database that has a dark only. -/
def exLookup : String → Except Err String
  | "Dark" => .ok "/cal/dark_1.fits"
  | _ => .error .valueError

theorem exTemplate_wf : WellFormed exTemplate := by
  refine ⟨by decide, ?_⟩
  intro s hs kw hkw
  have : ∀ s ∈ exTemplate.steps, ((s.keywords.getD []).map Prod.fst).Nodup := by decide
  have := this s hs
  rw [hkw] at this
  exact this

/-- The theorems apply: generation succeeds, resolves the dark and sets the output directory. -/
example : (autogen exLookup (fun _ => false) ["/data/a.fits"] "/out" exTemplate).map (fun x => x.1.steps) =
    .ok [⟨"prescan_biassub", some [("DetectorNoiseMaps", none)], false,
          some [("return_full_frame", "false")]⟩,
         ⟨"dark_subtraction", some [("Dark", some "/cal/dark_1.fits")], false,
          some [("outputdir", "/out")]⟩,
         ⟨"save", none, false, none⟩] := by decide +kernel

/-- Not deferred with the default settings. -/
example : ¬ Deferred exTemplate.drpconfig (fun _ => false) := by
  simp [Deferred, exTemplate]

/-- With an empty database the required dark is missing. -/
example : autogen (fun _ => .error .valueError) (fun _ => false) ["/data/a.fits"] "/out" exTemplate =
    .error .valueError := by decide +kernel

/-! ## C08 -/

/-- **C08.** Two successive calls with the same template object: the second recipe's inputs are those
of both calls. -/
theorem C08_inputs_accumulate {lookup lookup' : String → Except Err String} {g g' : Settings}
    {fs fs' : List String} {o o' : String} {t r t' r' t'' : Recipe}
    (h1 : autogen lookup g fs o t = .ok (r, t')) (h2 : autogen lookup' g' fs' o' t' = .ok (r', t'')) :
    r'.inputs = t.inputs ++ fs ++ fs' := by
  obtain ⟨_, _, rfl, rfl⟩ := autogen_ok h1
  obtain ⟨_, _, rfl, rfl⟩ := autogen_ok h2
  rfl

/-- **C08 is violated**: a second call with the same template gives a recipe whose inputs are not its
file list, whatever the two (non-empty first) file lists and templates are. -/
theorem C08_violated :
    (∃ (t r t' r' t'' : Recipe) (lookup : String → Except Err String) (g : Settings),
      WellFormed t ∧ t.inputs = [] ∧
      autogen lookup g ["/data/a.fits"] "/out" t = .ok (r, t') ∧
      autogen lookup g ["/data/b.fits"] "/out" t' = .ok (r', t'') ∧
      r'.inputs ≠ ["/data/b.fits"]) ∧
    (∀ (t r t' r' t'' : Recipe) (lookup lookup' : String → Except Err String) (g g' : Settings)
      (fs fs' : List String) (o o' : String), fs ≠ [] →
      autogen lookup g fs o t = .ok (r, t') → autogen lookup' g' fs' o' t' = .ok (r', t'') →
      r'.inputs ≠ t.inputs ++ fs') := by
  constructor
  · let t : Recipe := { exTemplate with steps := [] }
    exact ⟨t, _, _, _, _, exLookup, fun _ => false, ⟨by decide, by simp [t]⟩, rfl, rfl, rfl, by simp [t, exTemplate]⟩
  · intro t r t' r' t'' l l' g g' fs fs' o o' hne h1 h2 h
    rw [C08_inputs_accumulate h1 h2, List.append_assoc, List.append_cancel_left_eq] at h
    have := congrArg List.length h
    simp at this
    exact hne this

/-- **C08**, calibrations: an entry of the template object that already reads as a file (because the
first call put it there) is kept by the next call, whatever the database selects for the new inputs. -/
theorem C08_calibrations_stick {lookup : String → Except Err String} {g : Settings}
    {fs : List String} {o : String} {t r t' : Recipe} (hw : WellFormed t)
    (h : autogen lookup g fs o t = .ok (r, t')) (i : ℕ) (hi : i < t.steps.length)
    {cs : List (String × Option String)} (hcs : t.steps[i].calibs = some cs) (j : ℕ)
    (hj : j < cs.length) {k p : String} (hk : cs[j] = (k, some p)) (hp : ¬ Word "AUTOMATIC" p) :
    ∃ s cs', r.steps[i]? = some s ∧ s.calibs = some cs' ∧ cs'[j]? = some (k, some p) := by
  have hst := ((C07_autogen_iff lookup g fs o t r hw).1 ⟨t', h⟩).steps
  have hlen := hst.length_eq
  have hf := hst.get hi (by omega)
  simp only [List.get_eq_getElem] at hf
  refine ⟨r.steps[i]'(by omega), ?_⟩
  by_cases hd : Deferred t.drpconfig g
  · refine ⟨cs, List.getElem?_eq_getElem _, ?_, by rw [List.getElem?_eq_getElem hj, hk]⟩
    rw [(hf.untouched (.inl hd)).1, hcs]
  · obtain ⟨rr, h1, h2, -⟩ := hf.resolved hd cs hcs
    refine ⟨_, List.getElem?_eq_getElem _, h2, ?_⟩
    have hlen2 := h1.length_eq
    have hr := h1.get hj (by omega)
    simp only [List.get_eq_getElem] at hr
    rw [hk] at hr
    rw [List.getElem?_map, List.getElem?_eq_getElem (by omega), Option.map_some]
    congr 1
    generalize (rr[j]'(by omega)).2 = b at hr
    generalize (rr[j]'(by omega)).1 = c at hr ⊢
    cases hr with
    | explicit => rfl
    | found h => exact absurd h hp
    | optional h => exact absurd h hp
    | skipped h => exact absurd h hp

/-- The hypothesis on the entry is met by a real file name. -/
example : ¬ Word "AUTOMATIC" "/cal/dark_1.fits" := by
  intro h
  have := mentions_iff.2 h
  revert this
  decide +kernel

/-- **C08**, second call after an optional calibration was missing: the template now holds a null,
and the second call raises `AttributeError` (if calibrations are resolved at generation). -/
theorem C08_second_call_raises {lookup : String → Except Err String} {g : Settings}
    {fs : List String} {o : String} {t : Recipe} (hw : WellFormed t)
    (hnow : ¬ Deferred t.drpconfig g) {s : Step} (hs : s ∈ t.steps) {cs} (hcs : s.calibs = some cs)
    {k : String} (hk : (k, none) ∈ cs) : ∃ e, autogen lookup g fs o t = .error e := by
  cases h : autogen lookup g fs o t with
  | error e => exact ⟨e, rfl⟩
  | ok x =>
    exfalso
    obtain ⟨r, t'⟩ := x
    have hst := ((C07_autogen_iff lookup g fs o t r hw).1 ⟨t', h⟩).steps
    obtain ⟨i, hi, rfl⟩ := List.getElem_of_mem hs
    have hlen := hst.length_eq
    have hf := hst.get hi (by omega)
    simp only [List.get_eq_getElem] at hf
    obtain ⟨rr, h1, -, -⟩ := hf.resolved hnow cs hcs
    obtain ⟨j, hj, hje⟩ := List.getElem_of_mem hk
    have hlen2 := h1.length_eq
    have hr := h1.get hj (by omega)
    simp only [List.get_eq_getElem] at hr
    rw [hje] at hr
    cases hr

/-- The situation arises: after one call on `exTemplate`, whose noise maps are optional and missing,
the same template object raises on the next call. -/
example : (autogen exLookup (fun _ => false) ["/data/a.fits"] "/out" exTemplate).isOk = true ∧
    (autogen exLookup (fun _ => false) ["/data/a.fits"] "/out" exTemplate >>= fun x =>
      autogen exLookup (fun _ => false) ["/data/b.fits"] "/out" x.2) = .error .attributeError := by
  decide +kernel

/-- **C08 (partial).** What does hold: with a template that was not used before (empty inputs, as
loaded from a template file), the recipe's inputs are exactly the file list. -/
theorem C08_fresh_template_partial {lookup : String → Except Err String} {g : Settings}
    {fs : List String} {o : String} {t r t' : Recipe} (h0 : t.inputs = [])
    (h : autogen lookup g fs o t = .ok (r, t')) : r.inputs = fs := by
  obtain ⟨_, _, rfl, rfl⟩ := autogen_ok h
  simp [h0]

example : exTemplate.inputs = [] := rfl

/-! ## C09 -/

variable {D C W : Type}

theorem runStep_ok {env : Env D C W} {cfg : List (String × Bool)} {o : String} {st st' : St D C W}
    {s : Step} (h : runStep env cfg o st s = (st', none)) :
    (Active s ∧ ∃ e : Ev D C, st'.trace = st.trace ++ [e] ∧ e.Matches s ∧ e.input = st.data ∧
        Flows env st.data [(s, e)] st'.data) ∨
    (¬ Active s ∧ st' = st) := by
  unfold runStep at h
  by_cases hsv : s.name.toLower = "save"
  · left
    refine ⟨.inl hsv, ?_⟩
    rw [if_pos (by simpa using hsv)] at h
    dsimp only at h
    split at h
    · cases h
      refine ⟨_, rfl, ⟨hsv, rfl⟩, rfl, ?_⟩
      simp [Flows]
    · cases h
  · rw [if_neg (by simpa using hsv)] at h
    cases hf : env.func s.name with
    | none => simp [hf] at h
    | some f =>
      simp only [hf] at h
      by_cases hk : s.skip = true
      · right
        simp only [hk, if_true, Prod.mk.injEq, and_true] at h
        refine ⟨?_, h.symm⟩
        rintro (h1 | h1)
        · exact hsv h1
        · rw [hk] at h1; cases h1
      · left
        have hk' : s.skip = false := by simpa using hk
        refine ⟨.inr hk', ?_⟩
        simp only [hk', Bool.false_eq_true, if_false] at h
        cases ha : stepArgs env cfg st s with
        | error e => simp [ha] at h
        | ok args =>
          simp only [ha] at h
          cases hr : f st.world st.data args (s.keywords.getD []) with
          | error e => simp [hr] at h
          | ok d =>
            simp only [hr, Prod.mk.injEq, and_true] at h
            subst h
            refine ⟨_, rfl, ⟨rfl, hsv, hk'⟩, rfl, ?_⟩
            exact ⟨rfl, f, st.world, d, hf, hr, rfl⟩

/-- **C09.** A run that ends without an exception has executed exactly the active steps (saves, and
steps not marked skip), once each and in recipe order, threading the data through them. -/
theorem C09_runs_active_in_order (env : Env D C W) (cfg : List (String × Bool)) (o : String)
    (st st' : St D C W) (steps : List Step) (h : runSteps env cfg o st steps = (st', none)) :
    ∃ evs : List (Ev D C), st'.trace = st.trace ++ evs ∧
      List.Forall₂ (fun s e => Ev.Matches s e) (steps.filter (fun s => Active s)) evs ∧
      Flows env st.data ((steps.filter (fun s => Active s)).zip evs) st'.data := by
  induction steps generalizing st with
  | nil =>
    simp only [runSteps, Prod.mk.injEq, and_true] at h
    subst h
    exact ⟨[], by simp, by simp, by simp [Flows]⟩
  | cons s steps ih =>
    simp only [runSteps] at h
    cases hs : runStep env cfg o st s with
    | mk st1 r =>
      rw [hs] at h
      cases r with
      | some e => simp at h
      | none =>
        simp only [] at h
        obtain ⟨evs, h1, h2, h3⟩ := ih st1 h
        rcases runStep_ok hs with ⟨ha, e, e1, e2, e3, e4⟩ | ⟨ha, rfl⟩
        · refine ⟨e :: evs, by rw [h1, e1]; simp, ?_, ?_⟩
          · rw [List.filter_cons_of_pos (by simpa using ha)]
            exact .cons e2 h2
          · rw [List.filter_cons_of_pos (by simpa using ha), List.zip_cons_cons]
            cases e with
            | saved x suf =>
              simp only [Flows] at e4 ⊢
              exact ⟨e4.1, by rw [e4.2] at h3; exact h3⟩
            | called n x args =>
              simp only [Flows] at e4 ⊢
              obtain ⟨a1, f, w, d1, a2, a3, a4⟩ := e4
              exact ⟨a1, f, w, d1, a2, a3, by rw [← a4]; exact h3⟩
        · refine ⟨evs, h1, ?_, ?_⟩
          · rw [List.filter_cons_of_neg (by simpa using ha)]; exact h2
          · rw [List.filter_cons_of_neg (by simpa using ha)]; exact h3

/-- **C09.** A run that raises stopped at one step: the steps before it ran to completion, those after
it have no influence on the outcome. -/
theorem C09_stops_at_failure (env : Env D C W) (cfg : List (String × Bool)) (o : String)
    (st st' : St D C W) (steps : List Step) (e : Err)
    (h : runSteps env cfg o st steps = (st', some e)) :
    ∃ pre s post st1, steps = pre ++ s :: post ∧ runSteps env cfg o st pre = (st1, none) ∧
      runStep env cfg o st1 s = (st', some e) ∧
      ∀ post', runSteps env cfg o st (pre ++ s :: post') = (st', some e) := by
  induction steps generalizing st with
  | nil => simp [runSteps] at h
  | cons s steps ih =>
    simp only [runSteps] at h
    cases hs : runStep env cfg o st s with
    | mk st1 r =>
      rw [hs] at h
      cases r with
      | some e' =>
        simp only [Prod.mk.injEq, Option.some.injEq] at h
        obtain ⟨rfl, rfl⟩ := h
        exact ⟨[], s, steps, st, rfl, rfl, hs, fun post' => by simp [runSteps, hs]⟩
      | none =>
        simp only [] at h
        obtain ⟨pre, s', post, st2, h1, h2, h3, h4⟩ := ih st1 h
        refine ⟨s :: pre, s', post, st2, by simp [h1], ?_, h3, ?_⟩
        · simp [runSteps, hs, h2]
        · intro post'
          simp only [List.cons_append, runSteps, hs]
          exact h4 post'

/-- **C09.** An unknown step name raises `KeyError` before anything of that step or a later one is
executed, even if the step is marked skip; what was executed is the run of the steps before it. -/
theorem C09_unknown_step (env : Env D C W) (cfg : List (String × Bool)) (o : String)
    (st st1 : St D C W) (pre post : List Step) (s : Step)
    (hpre : runSteps env cfg o st pre = (st1, none))
    (hn : s.name.toLower ≠ "save") (hu : env.func s.name = none) :
    runSteps env cfg o st (pre ++ s :: post) = (st1, some .keyError) := by
  rw [runSteps_append, hpre]
  simp [runSteps, runStep, hn, hu]

/-- **C09.** Deleting the steps marked skip (with known names) does not change the outcome. -/
theorem C09_skipped_have_no_effect (env : Env D C W) (cfg : List (String × Bool)) (o : String)
    (st : St D C W) (steps : List Step)
    (hk : ∀ s ∈ steps, s.name.toLower = "save" ∨ ∃ f, env.func s.name = some f) :
    runSteps env cfg o st (steps.filter fun s => Active s) = runSteps env cfg o st steps := by
  induction steps generalizing st with
  | nil => rfl
  | cons s steps ih =>
    have ih' := fun st => ih st (fun x hx => hk x (by simp [hx]))
    by_cases ha : Active s
    · rw [List.filter_cons_of_pos (by simpa using ha)]
      simp only [runSteps]
      cases runStep env cfg o st s with
      | mk st1 r => cases r <;> simp [ih']
    · rw [List.filter_cons_of_neg (by simpa using ha), ih']
      have hns : s.name.toLower ≠ "save" := fun h => ha (.inl h)
      have hsk : s.skip = true := by
        by_contra h
        exact ha (.inr (by simpa using h))
      obtain ⟨f, hf⟩ := (hk s (by simp)).resolve_left hns
      simp [runSteps, runStep, hns, hf, hsk]

/-- **C09.** The function of a step that is executed with calibrations already resolved gets exactly
the files listed in the recipe, loaded with their types and in the order of the recipe, `None` for
those listed as null. -/
theorem C09_step_arguments (env : Env D C W) (cfg : List (String × Bool)) (o : String)
    (st : St D C W) (s : Step) (hjit : jitNow cfg st.settings = false) {n x args}
    (hnew : (runStep env cfg o st s).1.trace = st.trace ++ [.called n x args]) :
    n = s.name ∧ x = st.data ∧
    List.Forall₂ (fun (c : String × Option String) (a : Option C) =>
      (c.2 = none ∧ a = none) ∨
      ∃ p y, c.2 = some p ∧ env.load st.world c.1 p = .ok y ∧ a = some y) (s.calibs.getD []) args := by
  have hargs : ∀ args, stepArgs env cfg st s = .ok args →
      List.Forall₂ (fun (c : String × Option String) (a : Option C) =>
        (c.2 = none ∧ a = none) ∨
        ∃ p y, c.2 = some p ∧ env.load st.world c.1 p = .ok y ∧ a = some y) (s.calibs.getD []) args := by
    intro args h
    cases hc : s.calibs with
    | none =>
      simp only [stepArgs, hc, Except.ok.injEq] at h
      subst h; exact .nil
    | some cs =>
      simp only [stepArgs, hc, hjit, Bool.false_eq_true, if_false, bind, Except.bind, pure,
        Except.pure, Option.getD_some, loadCalibs] at h
      rw [mapM_ok_iff] at h
      refine h.imp ?_
      rintro ⟨k, v⟩ a ha
      cases v with
      | none => left; simp at ha; exact ⟨rfl, ha.symm⟩
      | some p =>
        right
        cases hl : env.load st.world k p with
        | error e => simp [hl, Except.map] at ha
        | ok y => simp [hl, Except.map] at ha; exact ⟨p, y, rfl, hl, ha.symm⟩
  unfold runStep at hnew
  by_cases hsv : (s.name.toLower == "save") = true
  · rw [if_pos hsv] at hnew
    dsimp only at hnew
    split at hnew <;> simp at hnew
  · rw [if_neg hsv] at hnew
    cases hf : env.func s.name with
    | none => simp [hf] at hnew
    | some f =>
      simp only [hf] at hnew
      by_cases hk : s.skip = true
      · simp [hk] at hnew
      · simp only [if_neg hk] at hnew
        cases ha : stepArgs env cfg st s with
        | error e => simp [ha] at hnew
        | ok args' =>
          simp only [ha] at hnew
          have : (Ev.called s.name st.data args' : Ev D C) = .called n x args := by
            split at hnew <;> simpa using hnew
          cases this
          exact ⟨rfl, rfl, hargs _ ha⟩

/-- Two known step functions on integers, saving appends to a list of written values. -/
def exEnv : Env ℕ ℕ (List ℕ) where
  func
    | "add" => some fun _ d args _ => .ok (d + (args.map fun a => a.getD 0).sum)
    | "double" => some fun _ d _ _ => .ok (2 * d)
    | _ => none
  lookup _ _ k := if k == "KGain" then .ok "7" else .error .valueError
  load _ _ p := .ok p.length
  save w d _ _ := .ok (w ++ [d])

/-- A run with a calibration, a skipped step and two saves. -/
example :
    let r := runSteps exEnv [] "/out" { settings := fun _ => false, world := [], data := 5, trace := [] }
      [⟨"add", some [("KGain", some "abc")], false, none⟩, ⟨"save", none, false, none⟩,
       ⟨"add", some [("KGain", some "abc")], true, none⟩, ⟨"double", none, false, none⟩,
       ⟨"Save", none, true, none⟩]
    r.2 = none ∧ r.1.data = 16 ∧ r.1.world = [8, 16] ∧ r.1.trace =
      [.called "add" 5 [some 3], .saved 8 "", .called "double" 8 [], .saved 16 ""] := by
  decide +kernel

/-- An unknown step after a good one. -/
example : exEnv.func "triple" = none ∧ "triple".toLower ≠ "save" := ⟨rfl, by decide +kernel⟩

/-! ## C10 -/

/-- The step has a required automatic calibration that the lookup cannot find. -/
def MissesRequired (lookup : String → Except Err String) (s : Step) : Prop :=
  ∃ cs k v, s.calibs = some cs ∧ (k, some v) ∈ cs ∧ Word "AUTOMATIC" v ∧ ¬ Word "OPTIONAL" v ∧
    lookup k = .error .valueError

/-- **C10 is violated** when calibrations are resolved just in time: with
`skip_missing_cal_steps` on, the step function is called although its required calibration is
missing, with `None` in its place. -/
theorem C10_violated : ∃ (env : Env ℕ ℕ (List ℕ)) (cfg : List (String × Bool)) (s : Step) (st : St ℕ ℕ (List ℕ)),
    st.settings "skip_missing_cal_steps" = true ∧ MissesRequired (env.lookup st.world st.data) s ∧
    s.skip = false ∧
    .called s.name st.data [none] ∈ (runSteps env cfg "/out" st [s]).1.trace := by
  refine ⟨exEnv, [("jit_calib_id", true)], ⟨"add", some [("Dark", some "AUTOMATIC")], false, none⟩,
    { settings := fun _ => true, world := [], data := 5, trace := [] }, rfl,
    ⟨_, "Dark", "AUTOMATIC", rfl, by simp, ⟨[], [], by decide +kernel⟩, ?_, by decide⟩, rfl, by decide +kernel⟩
  intro h
  have := mentions_iff.2 h
  revert this
  decide +kernel

/-- **C10**, the general form of the violation: in just-in-time mode with
`skip_missing_cal_steps` on, *every* known step not already marked skip whose calibrations are
automatic and all missing is executed, with `None` for each calibration. -/
theorem C10_jit_always_runs (env : Env D C W) (cfg : List (String × Bool)) (o : String) (st : St D C W)
    (s : Step) (cs : List (String × Option String)) (hjit : jitNow cfg st.settings = true)
    (hsm : st.settings "skip_missing_cal_steps" = true) (hsk : s.skip = false)
    (hns : s.name.toLower ≠ "save") (hkn : ∃ f, env.func s.name = some f)
    (hcs : s.calibs = some cs)
    (hall : ∀ c ∈ cs, ∃ v, c.2 = some v ∧ Word "AUTOMATIC" v ∧
      env.lookup st.world st.data c.1 = .error .valueError) :
    (runStep env cfg o st s).1.trace =
      st.trace ++ [.called s.name st.data (cs.map fun _ => none)] := by
  obtain ⟨f, hf⟩ := hkn
  have hfill : ∃ r : List ((String × Option String) × Bool),
      cs.mapM (fillOne (env.lookup st.world st.data) (st.settings "skip_missing_cal_steps")) = .ok r ∧
      r.map Prod.fst = cs.map fun c => (c.1, none) := by
    rw [hsm]
    clear hcs
    induction cs with
    | nil => exact ⟨[], rfl, rfl⟩
    | cons c cs ih =>
      obtain ⟨r, h1, h2⟩ := ih fun c hc => hall c (by simp [hc])
      obtain ⟨v, hv, ha, hl⟩ := hall c (by simp)
      have hone : ∃ b, fillOne (env.lookup st.world st.data) true c = .ok ((c.1, none), b) := by
        obtain ⟨k, v'⟩ := c
        simp only at hv hl
        subst hv
        by_cases ho : Word "OPTIONAL" v
        · exact ⟨_, fillOne_ok_iff.2 (.optional ha hl ho)⟩
        · exact ⟨_, fillOne_ok_iff.2 (.skipped ha hl ho rfl)⟩
      obtain ⟨b, hb⟩ := hone
      refine ⟨((c.1, none), b) :: r, ?_, by simp [h2]⟩
      rw [List.mapM_cons, hb]
      simp [bind, Except.bind, h1, pure, Except.pure]
  obtain ⟨r, h1, h2⟩ := hfill
  have hload : loadCalibs env st.world (r.map Prod.fst) = .ok (cs.map fun _ => none) := by
    rw [h2]
    unfold loadCalibs
    rw [mapM_ok_iff]
    clear h1 h2 hcs hall
    induction cs with
    | nil => exact .nil
    | cons c cs ih => exact .cons rfl ih
  have hargs : stepArgs env cfg st s = .ok (cs.map fun _ => none) := by
    simp only [stepArgs, hcs, hjit, if_true, fillStep, h1, bind, Except.bind, pure, Except.pure,
      Option.getD_some]
    exact hload
  have hns' : (s.name.toLower == "save") = false := by simpa using hns
  simp only [runStep, hns', Bool.false_eq_true, if_false, hf, hsk, hargs]
  split <;> rfl

/-- **C10 (partial).** When calibrations are resolved at generation, a step that misses a required
calibration is marked skip in the recipe, and running the recipe never calls it (stated for a step
name that occurs once). Missing for the full claim: just-in-time resolution, where it is false. -/
theorem C10_generated_partial {lookup : String → Except Err String} {g : Settings}
    {fs : List String} {o : String} {t r t' : Recipe} (hw : WellFormed t)
    (hnow : ¬ Deferred t.drpconfig g)
    (h : autogen lookup g fs o t = .ok (r, t'))
    (i : ℕ) (hi : i < t.steps.length) (hm : MissesRequired lookup t.steps[i])
    (huniq : ∀ s ∈ t.steps, s.name = t.steps[i].name → s = t.steps[i])
    (env : Env D C W) (g' : Settings) (w : W) (d : D) :
    (∃ hi' : i < r.steps.length, r.steps[i].skip = true) ∧
    ∀ x args, .called t.steps[i].name x args ∉ (runRecipe env g' w d r).1.trace := by
  have hgen := (C07_autogen_iff lookup g fs o t r hw).1 ⟨t', h⟩
  have hst := hgen.steps
  have hlen := hst.length_eq
  have hskip : ∀ s s', StepFilled lookup (g "skip_missing_cal_steps") (Deferred t.drpconfig g) o s s' →
      MissesRequired lookup s → s'.skip = true := by
    rintro s s' hf ⟨cs, k, v, hcs, hkv, ha, ho, hl⟩
    obtain ⟨rr, h1, -, h3⟩ := hf.resolved hnow cs hcs
    apply h3.2
    right
    obtain ⟨j, hj, hje⟩ := List.getElem_of_mem hkv
    have hlen2 := h1.length_eq
    have hr := h1.get hj (by omega)
    simp only [List.get_eq_getElem] at hr
    rw [hje] at hr
    refine ⟨rr[j]'(by omega), List.getElem_mem _, ?_⟩
    generalize (rr[j]'(by omega)).2 = b at hr
    generalize (rr[j]'(by omega)).1 = c at hr
    cases hr with
    | explicit h => exact absurd ha h
    | found _ h => rw [hl] at h; cases h
    | optional _ _ h => exact absurd h ho
    | skipped => rfl
  have hall : ∀ s' ∈ r.steps, s'.name = t.steps[i].name → s'.skip = true := by
    intro s' hs' hn
    obtain ⟨j, hj, rfl⟩ := List.getElem_of_mem hs'
    have hf := hst.get (i := j) (by omega) hj
    simp only [List.get_eq_getElem] at hf
    have hs := huniq _ (List.getElem_mem (by omega : j < t.steps.length)) (hf.name.symm.trans hn)
    rw [hs] at hf
    exact hskip _ _ hf hm
  constructor
  · refine ⟨by omega, ?_⟩
    have hf := hst.get (i := i) hi (by omega)
    simp only [List.get_eq_getElem] at hf
    exact hskip _ _ hf hm
  · intro x args
    unfold runRecipe
    have key : ∀ (ss : List Step) (st : St D C W), (∀ s' ∈ ss, s'.name = t.steps[i].name → s'.skip = true) →
        .called t.steps[i].name x args ∉ st.trace →
        .called t.steps[i].name x args ∉ (runSteps env r.drpconfig r.outputdir st ss).1.trace := by
      intro ss
      induction ss with
      | nil => intro st _ h; exact h
      | cons s ss ih =>
        intro st hss htr
        have h1 : .called t.steps[i].name x args ∉ (runStep env r.drpconfig r.outputdir st s).1.trace := by
          unfold runStep
          dsimp only
          split
          · split
            · simpa using htr
            · exact htr
          · split
            · exact htr
            · split
              · exact htr
              · rename_i hnk
                have hne : s.name ≠ t.steps[i].name := fun he => hnk (hss s (by simp) he)
                split
                · exact htr
                · split <;> simp [htr, Ne.symm hne]
        simp only [runSteps]
        cases hs : runStep env r.drpconfig r.outputdir st s with
        | mk st1 res =>
          rw [hs] at h1
          cases res with
          | none => exact ih st1 (fun s' hs' => hss s' (by simp [hs'])) h1
          | some e => exact h1
    exact key r.steps _ hall (by simp)

/-- The hypotheses are met by `exTemplate` with an empty database and `skip_missing_cal_steps`. -/
example : (autogen (fun _ => .error .valueError) (fun k => k == "skip_missing_cal_steps") ["a"] "/out"
    exTemplate).map (fun x => x.1.steps.map Step.skip) = .ok [false, true, false] := by decide +kernel

/-! ## C11 -/

/-- **C11.** The settings after a run (successful or not): every setting named in `drpconfig` has the
recipe's value, every other one is as before. -/
theorem C11_settings_after (env : Env D C W) (g : Settings) (w : W) (d : D) (r : Recipe)
    (hw : WellFormed r) :
    (∀ k v, (k, v) ∈ r.drpconfig → (runRecipe env g w d r).1.settings k = v) ∧
    (∀ k, (∀ v, (k, v) ∉ r.drpconfig) → (runRecipe env g w d r).1.settings k = g k) := by
  unfold runRecipe
  rw [runSteps_settings]
  constructor
  · intro k v hk
    dsimp only
    rw [applyConfig_eq _ hw.config, (getKey_some_iff hw.config).2 hk]; rfl
  · intro k hk
    dsimp only
    rw [applyConfig_eq _ hw.config, getKey_none_iff.2 hk]; rfl

/-- **C11.** Hence nothing leaks exactly when the recipe's settings are those already in force. -/
theorem C11_no_leak_iff (env : Env D C W) (g : Settings) (w : W) (d : D) (r : Recipe)
    (hw : WellFormed r) :
    (runRecipe env g w d r).1.settings = g ↔ ∀ k v, (k, v) ∈ r.drpconfig → g k = v := by
  obtain ⟨h1, h2⟩ := C11_settings_after env g w d r hw
  constructor
  · intro h k v hk; rw [← h1 k v hk, h]
  · intro h
    funext k
    by_cases hk : ∃ v, (k, v) ∈ r.drpconfig
    · obtain ⟨v, hv⟩ := hk
      rw [h1 k v hv, h k v hv]
    · rw [h2 k fun v hv => hk ⟨v, hv⟩]

/-- The flat-field recipe's configuration (recipe_templates/l1_flat_and_bp.json). -/
def flatRecipe : Recipe :=
  { name := "l1_flat_and_bp", template := false,
    drpconfig := [("track_individual_errors", false), ("jit_calib_id", true)],
    inputs := [], outputdir := "/out", steps := [] }

/-- **C11 is violated**: after the flat-field recipe, just-in-time resolution stays on. -/
theorem C11_violated : WellFormed flatRecipe ∧
    (runRecipe exEnv (fun _ => false) [] 5 flatRecipe).1.settings "jit_calib_id" ≠ false :=
  ⟨⟨by decide, by simp [flatRecipe]⟩, by decide +kernel⟩

/-- **C11**, a consequence: a recipe generated before the flat-field recipe runs correctly on its own,
but raises `AttributeError` when run after it, since its missing optional calibration is now looked
up just in time. -/
theorem C11_leak_breaks_next_recipe :
    ∃ (r : Recipe) (g : Settings), WellFormed r ∧ ("jit_calib_id" ∉ r.drpconfig.map Prod.fst) ∧
      (runRecipe exEnv g [] 5 r).2 = none ∧
      (runRecipe exEnv (runRecipe exEnv g [] 5 flatRecipe).1.settings [] 5 r).2 =
        some .attributeError := by
  refine ⟨{ exTemplate with steps := [⟨"add", some [("Dark", none)], false, none⟩] }, fun _ => false,
    ⟨by decide, by simp⟩, by decide, by decide +kernel, by decide +kernel⟩

/-- **C11 (partial).** Sequences of recipes that only set values already in force leave the settings
alone. -/
theorem C11_sequence_partial (env : Env D C W) (g : Settings) (jobs : List (Recipe × W × D))
    (hw : ∀ j ∈ jobs, WellFormed j.1) (hsame : ∀ j ∈ jobs, ∀ k v, (k, v) ∈ j.1.drpconfig → g k = v) :
    jobs.foldl (fun g j => (runRecipe env g j.2.1 j.2.2 j.1).1.settings) g = g := by
  induction jobs with
  | nil => rfl
  | cons j jobs ih =>
    rw [List.foldl_cons, (C11_no_leak_iff env g _ _ _ (hw j (by simp))).2 (hsame j (by simp))]
    exact ih (fun x hx => hw x (by simp [hx])) (fun x hx => hsame x (by simp [hx]))

/-- Recipes with the shipped default configuration meet the hypothesis under default settings. -/
example : ∀ k v, (k, v) ∈ exTemplate.drpconfig → (fun _ => false : Settings) k = v := by
  intro k v h
  simp [exTemplate] at h
  simp [h]

end Corgi.Walker

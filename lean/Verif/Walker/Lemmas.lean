import Verif.Walker.Spec
import Verif.Common.Except
import Mathlib.Data.List.Infix

namespace Corgi.Walker

theorem mentions_iff {w s : String} : mentions w s = true ↔ Word w s := by
  unfold mentions Word
  simp only [List.any_eq_true, List.mem_tails, List.isPrefixOf_iff_prefix]
  constructor
  · rintro ⟨t, ⟨a, ha⟩, ⟨b, hb⟩⟩
    exact ⟨a, b, by rw [← ha, ← hb]; simp⟩
  · rintro ⟨a, b, h⟩
    exact ⟨w.toList ++ b, ⟨a, by rw [h]; simp⟩, ⟨b, rfl⟩⟩

theorem fillOne_ok_iff {lookup : String → Except Err String} {sk : Bool}
    {c c' : String × Option String} {b : Bool} :
    fillOne lookup sk c = .ok (c', b) ↔ Resolved lookup sk c c' b := by
  obtain ⟨k, v⟩ := c
  constructor
  · intro h
    cases v with
    | none => simp [fillOne] at h
    | some v =>
      by_cases ha : mentions "AUTOMATIC" v = true
      · cases hl : lookup k with
        | ok p =>
          simp [fillOne, ha, hl] at h
          obtain ⟨rfl, rfl⟩ := h
          exact .found (mentions_iff.1 ha) hl
        | error e =>
          cases e with
          | valueError =>
            by_cases ho : mentions "OPTIONAL" v = true
            · simp [fillOne, ha, hl, ho] at h
              obtain ⟨rfl, rfl⟩ := h
              exact .optional (mentions_iff.1 ha) hl (mentions_iff.1 ho)
            · cases sk with
              | false => simp [fillOne, ha, hl, ho] at h
              | true =>
                simp [fillOne, ha, hl, ho] at h
                obtain ⟨rfl, rfl⟩ := h
                exact .skipped (mentions_iff.1 ha) hl (fun h => ho (mentions_iff.2 h)) rfl
          | _ => simp [fillOne, ha, hl] at h
      · simp [fillOne, ha] at h
        obtain ⟨rfl, rfl⟩ := h
        exact .explicit (fun h => ha (mentions_iff.2 h))
  · intro h
    cases h with
    | explicit h =>
      have : mentions "AUTOMATIC" _ ≠ true := fun hm => h (mentions_iff.1 hm)
      simp [fillOne, this]
    | found h hl => simp [fillOne, mentions_iff.2 h, hl]
    | optional h hl ho => simp [fillOne, mentions_iff.2 h, hl, mentions_iff.2 ho]
    | skipped h hl ho hs =>
      have : mentions "OPTIONAL" _ ≠ true := fun hm => ho (mentions_iff.1 hm)
      simp [fillOne, mentions_iff.2 h, hl, this, hs]

theorem forall2_of_fill {lookup : String → Except Err String} {sk : Bool}
    {cs : List (String × Option String)} {r : List ((String × Option String) × Bool)} :
    cs.mapM (fillOne lookup sk) = .ok r ↔
      List.Forall₂ (fun c x => Resolved lookup sk c x.1 x.2) cs r := by
  rw [mapM_ok_iff]
  constructor <;> intro h <;> refine h.imp ?_
  · intro a b h; exact fillOne_ok_iff.1 h
  · intro a b h; exact fillOne_ok_iff.2 h

theorem getKey_eq {β : Type} (d : List (String × β)) (k : String) :
    getKey d k = (d.find? fun p => p.1 == k).map Prod.snd := rfl

theorem getKey_some_iff {β : Type} {d : List (String × β)} (hd : (d.map Prod.fst).Nodup)
    {k : String} {v : β} : getKey d k = some v ↔ (k, v) ∈ d := by
  induction d with
  | nil => simp [getKey]
  | cons p d ih =>
    obtain ⟨k', v'⟩ := p
    simp only [List.map_cons, List.nodup_cons] at hd
    by_cases hk : k' = k
    · subst hk
      simp only [getKey, List.find?_cons, beq_self_eq_true, Option.map_some, Option.some.injEq,
        List.mem_cons, Prod.mk.injEq, true_and]
      constructor
      · intro h; exact Or.inl h.symm
      · rintro (h | h)
        · exact h.symm
        · exact absurd (List.mem_map_of_mem (f := Prod.fst) h) hd.1
    · have : getKey ((k', v') :: d) k = getKey d k := by
        simp [getKey, List.find?_cons, hk]
      rw [this, ih hd.2]
      simp [Ne.symm hk]

theorem getKey_none_iff {β : Type} {d : List (String × β)} {k : String} :
    getKey d k = none ↔ ∀ v, (k, v) ∉ d := by
  simp only [getKey, Option.map_eq_none_iff, List.find?_eq_none, beq_iff_eq, Prod.forall]
  constructor
  · intro h v hm; exact h k v hm rfl
  · rintro h a b hm rfl; exact h b hm

theorem fillsNow_iff {cfg : List (String × Bool)} (hc : (cfg.map Prod.fst).Nodup) {g : Settings} :
    fillsNow cfg g = true ↔ ¬ Deferred cfg g := by
  unfold fillsNow Deferred
  cases hk : getKey cfg "jit_calib_id" with
  | none =>
    have hn := getKey_none_iff.1 hk
    simp [hn]
  | some b =>
    have hm := (getKey_some_iff hc).1 hk
    have ho : ∀ b', ("jit_calib_id", b') ∈ cfg → b' = b := fun b' h => by
      have := (getKey_some_iff hc).2 h
      rw [hk] at this
      exact (Option.some.inj this).symm
    cases b with
    | true => simp [hm]
    | false =>
      simp only [Bool.not_false, not_or, not_and, true_iff]
      exact ⟨fun h => by simpa using ho _ h, fun h => absurd hm (h _)⟩

theorem setKey_map {kw : List (String × String)} (hn : (kw.map Prod.fst).Nodup) {v o : String}
    (hv : ("outputdir", v) ∈ kw) :
    (if v.toUpper = "AUTOMATIC" then setKey kw "outputdir" o else kw) = kw.map fun p =>
      if p.1 = "outputdir" ∧ p.2.toUpper = "AUTOMATIC" then (p.1, o) else p := by
  have hu : ∀ p ∈ kw, p.1 = "outputdir" → p.2 = v := by
    rintro ⟨k, x⟩ hp hk
    have h1 := (getKey_some_iff hn).2 hv
    simp only at hk
    subst hk
    have h2 := (getKey_some_iff hn).2 hp
    rw [h1] at h2
    exact (Option.some.inj h2).symm
  by_cases ha : v.toUpper = "AUTOMATIC"
  · rw [if_pos ha]
    unfold setKey
    apply List.map_congr_left
    intro p hp
    by_cases hk : p.1 = "outputdir"
    · simp [hk, hu p hp hk, ha]
    · simp [hk]
  · rw [if_neg ha]
    conv_lhs => rw [← List.map_id kw]
    apply List.map_congr_left
    intro p hp
    by_cases hk : p.1 = "outputdir"
    · simp [hk, hu p hp hk, ha]
    · simp [hk]

theorem setDarkDir_iff {o : String} {s s' : Step}
    (hn : ∀ kw, s.keywords = some kw → (kw.map Prod.fst).Nodup) :
    setDarkDir o s = .ok s' ↔ s'.name = s.name ∧ s'.calibs = s.calibs ∧ s'.skip = s.skip ∧
      (s.name.toLower ≠ "dark_subtraction" → s'.keywords = s.keywords) ∧
      (s.name.toLower = "dark_subtraction" → ∃ kw v, s.keywords = some kw ∧
        ("outputdir", v) ∈ kw ∧ s'.keywords = some (kw.map fun p =>
          if p.1 = "outputdir" ∧ p.2.toUpper = "AUTOMATIC" then (p.1, o) else p)) := by
  obtain ⟨n, c, k, w⟩ := s
  obtain ⟨n', c', k', w'⟩ := s'
  by_cases hd : n.toLower = "dark_subtraction"
  · cases w with
    | none => simp [setDarkDir, hd]
    | some kw =>
      have hn := hn kw rfl
      cases hg : getKey kw "outputdir" with
      | none =>
        have h1 := getKey_none_iff.1 hg
        simp [setDarkDir, hd, hg]
        intro _ _ _ x hx
        exact absurd hx (h1 x)
      | some v =>
        have hv := (getKey_some_iff hn).1 hg
        have he : setDarkDir o ⟨n, c, k, some kw⟩ = .ok ⟨n, c, k, some
            (if v.toUpper = "AUTOMATIC" then setKey kw "outputdir" o else kw)⟩ := by
          simp only [setDarkDir, hd, beq_self_eq_true, if_true, hg]
          split <;> simp_all
        rw [he, setKey_map hn hv]
        simp only [Except.ok.injEq, Step.mk.injEq, hd, ne_eq, not_true_eq_false, false_imp_iff,
          true_and, forall_const, Option.some.injEq]
        constructor
        · rintro ⟨h1, h2, h3, h4⟩
          exact ⟨h1.symm, h2.symm, h3.symm, kw, v, rfl, hv, h4.symm⟩
        · rintro ⟨h1, h2, h3, kw', v', h4, _, h5⟩
          subst h4
          exact ⟨h1.symm, h2.symm, h3.symm, h5.symm⟩
  · simp only [setDarkDir, beq_iff_eq, hd, if_false, Except.ok.injEq, Step.mk.injEq, ne_eq,
      not_false_eq_true, forall_const, false_imp_iff, and_true]
    constructor
    · rintro ⟨h1, h2, h3, h4⟩; exact ⟨h1.symm, h2.symm, h3.symm, h4.symm⟩
    · rintro ⟨h1, h2, h3, h4⟩; exact ⟨h1.symm, h2.symm, h3.symm, h4.symm⟩

theorem fillStep_iff {lookup : String → Except Err String} {sk : Bool} {s s' : Step} :
    fillStep lookup sk s = .ok s' ↔ s'.name = s.name ∧ s'.keywords = s.keywords ∧
      (s.calibs = none → s'.calibs = s.calibs ∧ s'.skip = s.skip) ∧
      (∀ cs, s.calibs = some cs → ∃ r : List ((String × Option String) × Bool),
        List.Forall₂ (fun c x => Resolved lookup sk c x.1 x.2) cs r ∧
        s'.calibs = some (r.map Prod.fst) ∧
        (s'.skip = true ↔ s.skip = true ∨ ∃ x ∈ r, x.2 = true)) := by
  obtain ⟨n, c, k, w⟩ := s
  obtain ⟨n', c', k', w'⟩ := s'
  cases c with
  | none =>
    simp [fillStep]
    constructor
    · rintro ⟨h1, h2, h3, h4⟩; exact ⟨h1.symm, h4.symm, h2.symm, h3.symm⟩
    · rintro ⟨h1, h2, h3, h4⟩; exact ⟨h1.symm, h3.symm, h4.symm, h2.symm⟩
  | some cs =>
    have hb : ∀ {r : List ((String × Option String) × Bool)},
        (k' = true ↔ k = true ∨ ∃ x ∈ r, x.2 = true) ↔ k' = (k || r.any Prod.snd) := by
      intro r
      rw [Bool.eq_iff_iff (a := k') (b := (k || r.any Prod.snd)), Bool.or_eq_true, List.any_eq_true]
    simp only [reduceCtorEq, false_imp_iff, true_and, Option.some.injEq, forall_eq', hb]
    constructor
    · intro h
      cases hm : cs.mapM (fillOne lookup sk) with
      | error e => simp [fillStep, hm, bind, Except.bind] at h
      | ok r =>
        simp [fillStep, hm, bind, Except.bind, pure, Except.pure] at h
        obtain ⟨h1, h2, h3, h4⟩ := h
        refine ⟨h1.symm, h4.symm, r, forall2_of_fill.1 hm, by simp [← h2], ?_⟩
        exact h3.symm
    · rintro ⟨h1, h2, r, hr, h3, h4⟩
      have hm := forall2_of_fill.2 hr
      subst h1 h2 h3 h4
      simp [fillStep, hm, bind, Except.bind, pure, Except.pure]

theorem fillAndSet_iff {lookup : String → Except Err String} {cfg : List (String × Bool)}
    (hc : (cfg.map Prod.fst).Nodup) {g : Settings} {o : String} {s s' : Step}
    (hn : ∀ kw, s.keywords = some kw → (kw.map Prod.fst).Nodup) :
    fillAndSet lookup cfg g o s = .ok s' ↔
      StepFilled lookup (g "skip_missing_cal_steps") (Deferred cfg g) o s s' := by
  by_cases hf : fillsNow cfg g = true
  · have hnd := (fillsNow_iff hc).1 hf
    constructor
    · intro h
      simp only [fillAndSet, hf, if_true] at h
      cases hs : fillStep lookup (g "skip_missing_cal_steps") s with
      | error e => simp [hs, bind, Except.bind] at h
      | ok s1 =>
        simp only [hs, bind, Except.bind] at h
        obtain ⟨a1, a2, a3, a4⟩ := fillStep_iff.1 hs
        obtain ⟨b1, b2, b3, b4, b5⟩ := (setDarkDir_iff (by rw [a2]; exact hn)).1 h
        rw [a1, a2] at b4 b5
        refine ⟨b1.trans a1, ?_, ?_, b4, b5⟩
        · rintro (hd | hd)
          · exact absurd hd hnd
          · rw [b2, b3]; exact a3 hd
        · intro _ cs hcs
          rw [b2, b3]; exact a4 cs hcs
    · intro h
      have h1 : fillStep lookup (g "skip_missing_cal_steps") s =
          .ok ⟨s.name, s'.calibs, s'.skip, s.keywords⟩ := by
        apply fillStep_iff.2
        exact ⟨rfl, rfl, fun hh => h.untouched (.inr hh), h.resolved hnd⟩
      simp only [fillAndSet, hf, if_true, h1, bind, Except.bind]
      apply (setDarkDir_iff (by exact hn)).2
      exact ⟨h.name, rfl, rfl, h.keywords, h.darkdir⟩
  · have hd : Deferred cfg g := by
      by_contra hh; exact hf ((fillsNow_iff hc).2 hh)
    have : fillAndSet lookup cfg g o s = setDarkDir o s := by
      simp [fillAndSet, hf, bind, Except.bind, pure, Except.pure]
    rw [this, setDarkDir_iff hn]
    constructor
    · rintro ⟨h1, h2, h3, h4, h5⟩
      exact ⟨h1, fun _ => ⟨h2, h3⟩, fun hh => absurd hd hh, h4, h5⟩
    · intro h
      exact ⟨h.name, (h.untouched (.inl hd)).1, (h.untouched (.inl hd)).2, h.keywords, h.darkdir⟩

theorem autogen_ok {lookup : String → Except Err String} {g : Settings} {files : List String}
    {o : String} {t r t' : Recipe} (h : autogen lookup g files o t = .ok (r, t')) :
    ∃ ss, t.steps.mapM (fillAndSet lookup t.drpconfig g o) = .ok ss ∧
      t' = { t with inputs := t.inputs ++ files, steps := ss } ∧
      r = { t' with template := false, outputdir := o } := by
  unfold autogen at h
  cases hm : t.steps.mapM (fillAndSet lookup t.drpconfig g o) with
  | error e => simp [hm, bind, Except.bind] at h
  | ok ss =>
    simp only [hm, bind, Except.bind, pure, Except.pure, Except.ok.injEq, Prod.mk.injEq] at h
    exact ⟨ss, rfl, h.2.symm, by rw [← h.2, ← h.1]⟩

variable {D C W : Type}

theorem runSteps_append (env : Env D C W) (cfg : List (String × Bool)) (o : String)
    (st : St D C W) (l1 l2 : List Step) :
    runSteps env cfg o st (l1 ++ l2) =
      match runSteps env cfg o st l1 with
      | (st', none) => runSteps env cfg o st' l2
      | (st', some e) => (st', some e) := by
  induction l1 generalizing st with
  | nil => simp [runSteps]
  | cons s l1 ih =>
    simp only [List.cons_append, runSteps]
    cases hs : runStep env cfg o st s with
    | mk st' r =>
      cases r with
      | none => simp only []; exact ih st'
      | some e => simp

theorem runSteps_settings (env : Env D C W) (cfg : List (String × Bool)) (o : String)
    (st : St D C W) (l : List Step) : (runSteps env cfg o st l).1.settings = st.settings := by
  induction l generalizing st with
  | nil => rfl
  | cons s l ih =>
    have h1 : (runStep env cfg o st s).1.settings = st.settings := by
      unfold runStep
      dsimp only
      repeat' (first | split | rfl)
    simp only [runSteps]
    cases hs : runStep env cfg o st s with
    | mk st' r =>
      rw [hs] at h1
      cases r with
      | none => simp only []; rw [ih st', h1]
      | some e => exact h1

theorem applyConfig_eq (cfg : List (String × Bool)) (hc : (cfg.map Prod.fst).Nodup) (g : Settings)
    (k : String) :
    applyConfig cfg g k = (getKey cfg k).getD (g k) := by
  induction cfg generalizing g with
  | nil => simp [applyConfig, getKey]
  | cons p cfg ih =>
    obtain ⟨a, b⟩ := p
    simp only [List.map_cons, List.nodup_cons] at hc
    have h1 : applyConfig ((a, b) :: cfg) g = applyConfig cfg (Function.update g a b) := rfl
    rw [h1, ih hc.2]
    by_cases hk : a = k
    · subst hk
      have : getKey cfg a = none := by
        rw [getKey_none_iff]
        intro v hv; exact hc.1 (List.mem_map_of_mem (f := Prod.fst) hv)
      rw [this]
      simp [getKey, List.find?_cons]
    · have : getKey ((a, b) :: cfg) k = getKey cfg k := by simp [getKey, List.find?_cons, hk]
      rw [this, Function.update_of_ne (Ne.symm hk)]

end Corgi.Walker

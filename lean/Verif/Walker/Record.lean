import Verif.Walker.Lemmas
import Verif.Common.Forall2

/-!
# The recipe recorded in the headers (walker.py 365-441) (C159)

`run_recipe` writes the recipe into the card `RECIPE` of the frames it reads (370-371), again after every resolution of calibrations just
before a step (418-422), and into a file before the first step (376-380). The recipe is changed in place by the resolution. The model adds
these cards to the run of `Model.lean`. Steps return data with the headers of their input, so with its card; `create_bad_pixel_map` takes the
headers of the dark (bad_pixel_calibration.py 47-56). Writing json and reading it back gives the same recipe.
-/

namespace Corgi.Walker

variable {D C W : Type}

/-- The calibrations of one step by class and path, as passed to `datatypes[calib](path)` (walker.py 426-431). -/
abbrev Loads := List (String × Option String)

/-- A product written by `save_data`: the data, the recipe in its headers and the calibrations loaded so far, by step. -/
structure Product (D : Type) where
  data : D
  card : Option Recipe
  loads : List Loads

/-- State of a run with its records: the state of the run, the card of the current data, the calibrations loaded, the products. -/
structure RSt (D C W : Type) where
  st : St D C W
  card : Option Recipe
  loads : List Loads
  products : List (Product D)

/-- The step after resolving its calibrations (walker.py 409-418). -/
def filled (env : Env D C W) (cfg : List (String × Bool)) (st : St D C W) (s : Step) : Except Err Step :=
  if jitNow cfg st.settings then fillStep (env.lookup st.world st.data) (st.settings "skip_missing_cal_steps") s else .ok s

/-- The card of what a step returns: that of its first calibration for the bad pixel map (bad_pixel_calibration.py 48), of its input for all
others. -/
def productCard (cardOf : C → Option Recipe) (name : String) (args : List (Option C)) (card : Option Recipe) : Option Recipe :=
  if name == "create_bad_pixel_map" then args.head?.join.bind cardOf else card

/-- One iteration of the loop (walker.py 385-441) with the records; `done` are the steps before, as they are now, `rest` those after. Returns
also the step as it is now. -/
def recStep (env : Env D C W) (cardOf : C → Option Recipe) (r : Recipe) (done rest : List Step) (x : RSt D C W) (s : Step) :
    RSt D C W × Step × Option Err :=
  let run := runStep env r.drpconfig r.outputdir x.st s
  if s.name.toLower == "save" then
    ({ x with st := run.1,
              products := if run.2.isNone then x.products ++ [⟨x.st.data, x.card, x.loads⟩] else x.products }, s, run.2)
  else if s.skip || (env.func s.name).isNone then ({ x with st := run.1 }, s, run.2)
  else
    match filled env r.drpconfig x.st s with
    | .error _ => ({ x with st := run.1 }, s, run.2)
    | .ok s' =>
      let card := if s.calibs.isSome && jitNow r.drpconfig x.st.settings then some { r with steps := done ++ s' :: rest } else x.card
      match stepArgs env r.drpconfig x.st s with
      | .error _ => ({ x with st := run.1, card := card }, s', run.2)
      | .ok args =>
        ({ x with st := run.1,
                  card := if run.2.isNone then productCard cardOf s.name args card else card,
                  loads := x.loads ++ s'.calibs.toList }, s', run.2)

/-- The loop. Returns also the steps as they are at its end. -/
def recSteps (env : Env D C W) (cardOf : C → Option Recipe) (r : Recipe) :
    List Step → RSt D C W → List Step → RSt D C W × List Step × Option Err
  | done, x, [] => (x, done, none)
  | done, x, s :: rest =>
    match recStep env cardOf r done rest x s with
    | (x', s', none) => recSteps env cardOf r (done ++ [s']) x' rest
    | (x', s', some e) => (x', done ++ s' :: rest, some e)

/-- `run_recipe` with its records. Without inputs there are no frames to write the recipe into (walker.py 366-373). -/
def recRecipe (env : Env D C W) (cardOf : C → Option Recipe) (g : Settings) (w : W) (d : D) (r : Recipe) :
    RSt D C W × List Step × Option Err :=
  recSteps env cardOf r []
    { st := { settings := applyConfig r.drpconfig g, world := w, data := d, trace := [] },
      card := if r.inputs.isEmpty then none else some r, loads := [], products := [] } r.steps

/-- The recipe file (walker.py 376-380) is written before the steps run. -/
def recipeFile (r : Recipe) : Recipe := r

/-! ## Specification -/

/-- Steps that run a function. -/
def Runs (s : Step) : Prop := s.name.toLower ≠ "save" ∧ s.skip = false

instance (s : Step) : Decidable (Runs s) := inferInstanceAs (Decidable (_ ∧ _))

/-- The calibrations that the steps of a recipe name, for the steps that run. -/
def named (steps : List Step) : List Loads :=
  steps.flatMap fun s => if Runs s then s.calibs.toList else []

/-- A path that is not taken for a request to look up a calibration. -/
def Fixed (v : String) : Prop := ¬ Word "AUTOMATIC" v

/-! ## Lemmas -/

theorem recStep_st (env : Env D C W) (cardOf : C → Option Recipe) (r : Recipe) (done rest : List Step) (x : RSt D C W) (s : Step) :
    (recStep env cardOf r done rest x s).1.st = (runStep env r.drpconfig r.outputdir x.st s).1 ∧
      (recStep env cardOf r done rest x s).2.2 = (runStep env r.drpconfig r.outputdir x.st s).2 := by
  unfold recStep
  dsimp only
  split
  · exact ⟨rfl, rfl⟩
  · split
    · exact ⟨rfl, rfl⟩
    · split
      · exact ⟨rfl, rfl⟩
      · split <;> exact ⟨rfl, rfl⟩

theorem runStep_settings (env : Env D C W) (cfg : List (String × Bool)) (o : String) (st : St D C W) (s : Step) :
    (runStep env cfg o st s).1.settings = st.settings := by
  unfold runStep
  dsimp only
  split
  · split <;> rfl
  · split
    · rfl
    · split
      · rfl
      · split
        · rfl
        · split <;> rfl

/-- The records do not change the run. -/
theorem C159_run (env : Env D C W) (cardOf : C → Option Recipe) (r : Recipe) (done : List Step) (x : RSt D C W) (steps : List Step) :
    ((recSteps env cardOf r done x steps).1.st, (recSteps env cardOf r done x steps).2.2) =
      runSteps env r.drpconfig r.outputdir x.st steps := by
  induction steps generalizing done x with
  | nil => rfl
  | cons s rest ih =>
    unfold recSteps runSteps
    have h := recStep_st env cardOf r done rest x s
    rcases hr : recStep env cardOf r done rest x s with ⟨x', s', e⟩
    rw [hr] at h
    rcases hq : runStep env r.drpconfig r.outputdir x.st s with ⟨st', e'⟩
    rw [hq] at h
    dsimp only at h
    obtain ⟨rfl, rfl⟩ := h
    cases e with
    | none => exact ih (done ++ [s']) x'
    | some e => rfl

/-- What a saving step wrote. -/
def written : Ev D C → Option D
  | .saved d _ => some d
  | .called _ _ _ => none

theorem recStep_products (env : Env D C W) (cardOf : C → Option Recipe) (r : Recipe) (done rest : List Step) (x : RSt D C W) (s : Step)
    (h : x.products.map Product.data = x.st.trace.filterMap written) :
    (recStep env cardOf r done rest x s).1.products.map Product.data =
      (recStep env cardOf r done rest x s).1.st.trace.filterMap written := by
  rw [(recStep_st env cardOf r done rest x s).1]
  unfold recStep runStep
  dsimp only
  by_cases hs : (s.name.toLower == "save") = true
  · rw [if_pos hs, if_pos hs]
    cases env.save x.st.world x.st.data r.outputdir ((s.keywords.bind fun kw => getKey kw "suffix").getD "") with
    | error e => simpa using h
    | ok w => simp [h, written]
  · rw [if_neg hs, if_neg hs]
    have key : ∀ q : RSt D C W × Step × Option Err, q.1.products = x.products →
        q.1.products.map Product.data = x.st.trace.filterMap written := fun q hq => by rw [hq, h]
    have h2 : ∀ t : St D C W × Option Err, (t.1.trace = x.st.trace ∨ ∃ n d a, t.1.trace = x.st.trace ++ [.called n d a]) →
        t.1.trace.filterMap written = x.st.trace.filterMap written := by
      rintro t (ht | ⟨n, d, a, ht⟩) <;> rw [ht]
      rw [List.filterMap_append]
      simp [written]
    rw [h2]
    · apply key
      split
      · rfl
      · split
        · rfl
        · split <;> rfl
    · split
      · exact .inl rfl
      · split
        · exact .inl rfl
        · split
          · exact .inl rfl
          · split <;> exact .inr ⟨_, _, _, rfl⟩

/-- **C159.** The products of a run are what its saving steps wrote, in order, whether or not the run ends with an error. -/
theorem C159_products (env : Env D C W) (cardOf : C → Option Recipe) (g : Settings) (w : W) (d : D) (r : Recipe) :
    (recRecipe env cardOf g w d r).1.products.map Product.data = (runRecipe env g w d r).1.trace.filterMap written := by
  have key : ∀ (steps done : List Step) (x : RSt D C W), x.products.map Product.data = x.st.trace.filterMap written →
      (recSteps env cardOf r done x steps).1.products.map Product.data =
        (recSteps env cardOf r done x steps).1.st.trace.filterMap written := by
    intro steps
    induction steps with
    | nil => exact fun _ _ h => h
    | cons s rest ih =>
      intro done x h
      have h1 := recStep_products env cardOf r done rest x s h
      unfold recSteps
      rcases hr : recStep env cardOf r done rest x s with ⟨x', s', _ | e⟩
      · rw [hr] at h1; exact ih _ _ h1
      · rw [hr] at h1; exact h1
  unfold recRecipe runRecipe
  rw [key _ _ _ (by rfl)]
  exact congrArg (fun t => t.1.trace.filterMap written) (C159_run env cardOf r [] _ r.steps)

theorem fillStep_fields {lookup : String → Except Err String} {sk : Bool} {s s' : Step} (h : fillStep lookup sk s = .ok s') :
    s'.name = s.name ∧ s'.keywords = s.keywords ∧ s'.calibs.isSome = s.calibs.isSome ∧ (sk = false → s'.skip = s.skip) := by
  unfold fillStep at h
  cases hc : s.calibs with
  | none =>
    rw [hc] at h
    cases h
    exact ⟨rfl, rfl, by rw [hc], fun _ => rfl⟩
  | some cs =>
    rw [hc] at h
    simp only [bind, Except.bind, pure, Except.pure] at h
    cases hm : cs.mapM (fillOne lookup sk) with
    | error e => rw [hm] at h; cases h
    | ok q =>
      rw [hm] at h
      cases h
      refine ⟨rfl, rfl, by simp, fun hsk => ?_⟩
      subst hsk
      have : q.any Prod.snd = false := by
        rw [List.any_eq_false]
        have hq := forall2_of_fill.1 hm
        intro b hb
        obtain ⟨c, -, hcb⟩ := forall₂_right hq hb
        obtain ⟨b1, b2⟩ := b
        cases b2 with
        | false => simp
        | true =>
          exfalso
          cases hcb
          simp_all
      simp [this]

theorem filled_fields {env : Env D C W} {cfg : List (String × Bool)} {st : St D C W} {s s' : Step} (h : filled env cfg st s = .ok s') :
    s'.name = s.name ∧ s'.keywords = s.keywords ∧ s'.calibs.isSome = s.calibs.isSome ∧
      (st.settings "skip_missing_cal_steps" = false → s'.skip = s.skip) ∧ (s.calibs = none ∨ jitNow cfg st.settings = false → s' = s) := by
  unfold filled at h
  split at h
  · obtain ⟨h1, h2, h3, h4⟩ := fillStep_fields h
    refine ⟨h1, h2, h3, h4, ?_⟩
    rintro (h5 | h5)
    · unfold fillStep at h
      rw [h5] at h
      exact (Except.ok.inj h).symm
    · simp_all
  · cases h
    exact ⟨rfl, rfl, rfl, fun _ => rfl, fun _ => rfl⟩

theorem stepArgs_eq {env : Env D C W} {cfg : List (String × Bool)} {st : St D C W} {s : Step} :
    stepArgs env cfg st s = (filled env cfg st s).bind fun s' => loadCalibs env st.world (s'.calibs.getD []) := by
  unfold stepArgs filled
  cases hc : s.calibs with
  | none =>
    dsimp only
    split
    · unfold fillStep
      rw [hc]
      simp [Except.bind, hc, loadCalibs, pure, Except.pure]
    · simp [Except.bind, hc, loadCalibs, pure, Except.pure]
  | some cs =>
    dsimp only
    split <;> rfl

/-- The calibrations of the steps `now`, for those that run in the recipe as it was before. -/
def loadsOf (before now : List Step) : List Loads :=
  (before.zip now).flatMap fun z => if Runs z.1 then z.2.calibs.toList else []

theorem loadsOf_append {a b c d : List Step} (h : a.length = b.length) : loadsOf (a ++ c) (b ++ d) = loadsOf a b ++ loadsOf c d := by
  unfold loadsOf
  rw [List.zip_append h, List.flatMap_append]

/-- A step keeps its name when its calibrations are resolved, and its mark unless missing calibrations mark steps to be skipped. -/
def Kept (g : Settings) (s s' : Step) : Prop :=
  s'.name = s.name ∧ s'.keywords = s.keywords ∧ (g "skip_missing_cal_steps" = false → s'.skip = s.skip)

theorem Kept.refl (g : Settings) (s : Step) : Kept g s s := ⟨rfl, rfl, fun _ => rfl⟩

theorem recStep_inv {env : Env D C W} {cardOf : C → Option Recipe} {r : Recipe} {done rest : List Step} {x x' : RSt D C W} {s s' : Step}
    {e : Option Err} (hcard : x.card = some { r with steps := done ++ s :: rest }) (hs : s.name ≠ "create_bad_pixel_map")
    (h : recStep env cardOf r done rest x s = (x', s', e)) :
    x'.card = some { r with steps := done ++ s' :: rest } ∧ Kept x.st.settings s s' ∧
      (e = none → x'.loads = x.loads ++ loadsOf [s] [s']) ∧
      ∀ p ∈ x'.products, p ∈ x.products ∨ (s.name.toLower = "save" ∧ s' = s ∧ p.card = x.card ∧ p.loads = x.loads) := by
  unfold recStep at h
  dsimp only at h
  split at h
  · rename_i hsv
    have hsv : s.name.toLower = "save" := by simpa using hsv
    cases h
    refine ⟨hcard, Kept.refl _ _, fun _ => ?_, ?_⟩
    · simp [loadsOf, Runs, hsv]
    · intro p hp
      dsimp only at hp
      split at hp
      · rcases List.mem_append.1 hp with hp | hp
        · exact .inl hp
        · rw [List.mem_singleton] at hp
          subst hp
          exact .inr ⟨hsv, rfl, rfl, rfl⟩
      · exact .inl hp
  · rename_i hsv
    have hsv : s.name.toLower ≠ "save" := by simpa using hsv
    split at h
    · rename_i hk
      cases h
      refine ⟨hcard, Kept.refl _ _, fun he => ?_, fun p hp => .inl hp⟩
      have hskip : s.skip = true := by
        cases hsk : s.skip with
        | true => rfl
        | false =>
          rw [hsk, Bool.false_or] at hk
          unfold runStep at he
          rw [if_neg (by simpa using hsv)] at he
          rw [Option.isNone_iff_eq_none] at hk
          rw [hk] at he
          cases he
      simp [loadsOf, Runs, hskip]
    · rename_i hk
      have hskip : s.skip = false := by
        cases hsk : s.skip with
        | false => rfl
        | true => simp [hsk] at hk
      cases hf : filled env r.drpconfig x.st s with
      | error er =>
        rw [hf] at h
        cases h
        refine ⟨hcard, Kept.refl _ _, fun he => ?_, fun p hp => .inl hp⟩
        exfalso
        have ha : stepArgs env r.drpconfig x.st s = .error er := by
          rw [stepArgs_eq, hf]
          rfl
        unfold runStep at he
        rw [if_neg (by simpa using hsv)] at he
        cases hfn : env.func s.name with
        | none => rw [hfn] at he; cases he
        | some f =>
          rw [hfn] at he
          simp [hskip, ha] at he
      | ok s1 =>
        rw [hf] at h
        dsimp only at h
        obtain ⟨n1, n2, n3, n4, n5⟩ := filled_fields hf
        have hcard' : (if (s.calibs.isSome && jitNow r.drpconfig x.st.settings) = true then
            some { r with steps := done ++ s1 :: rest } else x.card) = some { r with steps := done ++ s1 :: rest } := by
          split
          · rfl
          · rename_i hj
            have : s1 = s := by
              apply n5
              cases hc : s.calibs with
              | none => exact .inl rfl
              | some cs =>
                right
                simpa [hc] using hj
            rw [this]
            exact hcard
        cases ha : stepArgs env r.drpconfig x.st s with
        | error er =>
          rw [ha] at h
          cases h
          refine ⟨hcard', ⟨n1, n2, n4⟩, fun he => ?_, fun p hp => .inl hp⟩
          exfalso
          unfold runStep at he
          rw [if_neg (by simpa using hsv)] at he
          cases hfn : env.func s.name with
          | none => rw [hfn] at he; cases he
          | some f =>
            rw [hfn] at he
            simp [hskip, ha] at he
        | ok args =>
          rw [ha] at h
          cases h
          refine ⟨?_, ⟨n1, n2, n4⟩, fun he => ?_, fun p hp => .inl hp⟩
          · dsimp only
            have hb : (s.name == "create_bad_pixel_map") = false := by simpa using hs
            unfold productCard
            rw [hb]
            simp only [Bool.false_eq_true, if_false, ite_self]
            exact hcard'
          · simp [loadsOf, Runs, hsv, hskip]

theorem rec_inv {env : Env D C W} {cardOf : C → Option Recipe} {r : Recipe} {g : Settings} (steps : List Step) :
    ∀ (orig done : List Step) (x : RSt D C W), x.st.settings = g → List.Forall₂ (Kept g) orig done →
      x.card = some { r with steps := done ++ steps } → x.loads = loadsOf orig done →
      (∀ s ∈ steps, s.name ≠ "create_bad_pixel_map") →
      (recSteps env cardOf r done x steps).1.card = some { r with steps := (recSteps env cardOf r done x steps).2.1 } ∧
      List.Forall₂ (Kept g) (orig ++ steps) (recSteps env cardOf r done x steps).2.1 ∧
      ((recSteps env cardOf r done x steps).2.2 = none →
        (recSteps env cardOf r done x steps).1.loads = loadsOf (orig ++ steps) (recSteps env cardOf r done x steps).2.1) ∧
      ∀ p ∈ (recSteps env cardOf r done x steps).1.products, p ∈ x.products ∨
        ∃ pre s post q, orig ++ steps = pre ++ s :: post ∧ s.name.toLower = "save" ∧
          p.card = some { r with steps := q ++ s :: post } ∧ List.Forall₂ (Kept g) pre q ∧ p.loads = loadsOf pre q := by
  induction steps with
  | nil =>
    intro orig done x _ hk hc hl _
    unfold recSteps
    simp only [List.append_nil] at hc ⊢
    exact ⟨hc, hk, fun _ => hl, fun p hp => .inl hp⟩
  | cons s rest ih =>
    intro orig done x hg hk hc hl hb
    unfold recSteps
    rcases hr : recStep env cardOf r done rest x s with ⟨x', s', e⟩
    obtain ⟨h1, h2, h3, h4⟩ := recStep_inv hc (hb s (by simp)) hr
    rw [hg] at h2
    have hset : x'.st.settings = g := by
      have := (recStep_st env cardOf r done rest x s).1
      rw [hr] at this
      dsimp only at this
      rw [this, runStep_settings, hg]
    have hprod : ∀ p ∈ x'.products, p ∈ x.products ∨ ∃ pre s₁ post q, orig ++ s :: rest = pre ++ s₁ :: post ∧
        s₁.name.toLower = "save" ∧ p.card = some { r with steps := q ++ s₁ :: post } ∧ List.Forall₂ (Kept g) pre q ∧
        p.loads = loadsOf pre q := by
      intro p hp
      rcases h4 p hp with h | ⟨ha, hb, hcd, hd⟩
      · exact .inl h
      · right
        exact ⟨orig, s, rest, done, rfl, ha, by rw [hcd, hc], hk, by rw [hd, hl]⟩
    cases e with
    | some e =>
      dsimp only
      refine ⟨h1, ?_, (fun h => by simp at h), hprod⟩
      refine List.rel_append hk (.cons h2 ?_)
      exact List.forall₂_same.2 fun a _ => Kept.refl g a
    | none =>
      dsimp only
      have hk' : List.Forall₂ (Kept g) (orig ++ [s]) (done ++ [s']) := List.rel_append hk (.cons h2 .nil)
      have hl' : x'.loads = loadsOf (orig ++ [s]) (done ++ [s']) := by
        rw [h3 rfl, hl, loadsOf_append hk.length_eq]
      have := ih (orig ++ [s]) (done ++ [s']) x' hset hk' (by rw [h1]; simp) hl' fun a ha => hb a (by simp [ha])
      simp only [List.append_assoc, List.singleton_append] at this
      obtain ⟨g1, g2, g3, g4⟩ := this
      refine ⟨g1, g2, g3, fun p hp => ?_⟩
      rcases g4 p hp with h | h
      · exact hprod p h
      · exact .inr h

theorem loadsOf_named {g : Settings} {pre q : List Step} (hg : g "skip_missing_cal_steps" = false) (h : List.Forall₂ (Kept g) pre q) :
    loadsOf pre q = named q := by
  induction h with
  | nil => rfl
  | @cons a b l m hab hlm ih =>
    obtain ⟨h1, -, h3⟩ := hab
    have hR : Runs a ↔ Runs b := by
      unfold Runs
      rw [h1, h3 hg]
    unfold loadsOf named at ih ⊢
    rw [List.zip_cons_cons, List.flatMap_cons, List.flatMap_cons, ih]
    simp only [hR]

/-! ## C159 -/

/-- **C159.** Every product of a run has a recipe in its headers that has the steps of the run and names, for the steps before it, exactly the
calibrations that were loaded: if no bad pixel map is made and missing calibrations do not mark steps to be skipped. -/
theorem C159_names {env : Env D C W} {cardOf : C → Option Recipe} {g : Settings} {w : W} {d : D} {r : Recipe} (hin : r.inputs ≠ [])
    (hb : ∀ s ∈ r.steps, s.name ≠ "create_bad_pixel_map") (hm : applyConfig r.drpconfig g "skip_missing_cal_steps" = false)
    {p : Product D} (hp : p ∈ (recRecipe env cardOf g w d r).1.products) :
    ∃ pre s post q, r.steps = pre ++ s :: post ∧ s.name.toLower = "save" ∧ p.card = some { r with steps := q ++ s :: post } ∧
      q.map Step.name = pre.map Step.name ∧ p.loads = named q := by
  unfold recRecipe at hp
  have hi : r.inputs.isEmpty = false := by simpa using hin
  rw [hi] at hp
  simp only [Bool.false_eq_true, if_false] at hp
  have := (rec_inv (env := env) (cardOf := cardOf) (r := r) (g := applyConfig r.drpconfig g) r.steps [] []
    { st := { settings := applyConfig r.drpconfig g, world := w, data := d, trace := [] }, card := some r, loads := [], products := [] }
    rfl .nil rfl rfl hb).2.2.2 p hp
  rcases this with h | ⟨pre, s, post, q, h1, h2, h3, h4, h5⟩
  · simp at h
  · refine ⟨pre, s, post, q, h1, h2, h3, ?_, by rw [h5, loadsOf_named hm h4]⟩
    clear h5 h3 h1
    induction h4 with
    | nil => rfl
    | cons hab _ ih => rw [List.map_cons, List.map_cons, ih, hab.1]

/-- A step as resolved during a successful run gives the same iteration again, whatever the database says now, if all its calibrations are
fixed paths. -/
theorem runStep_again {env : Env D C W} {cfg : List (String × Bool)} {o : String} {st : St D C W} {s s' : Step}
    (lookup' : W → D → String → Except Err String) (hf : filled env cfg st s = .ok s') (hskip : s'.skip = s.skip)
    (hp : ∀ cs, s'.calibs = some cs → ∀ c ∈ cs, ∃ v, c.2 = some v ∧ Fixed v) :
    runStep { env with lookup := lookup' } cfg o st s' = runStep env cfg o st s := by
  obtain ⟨n1, n2, n3, -, -⟩ := filled_fields hf
  have hagain : ∀ (l : String → Except Err String) (sk : Bool), fillStep l sk s' = .ok s' := by
    intro l sk
    unfold fillStep
    cases hc : s'.calibs with
    | none => rfl
    | some cs =>
      have hm : cs.mapM (fillOne l sk) = .ok (cs.map fun c => (c, false)) := by
        rw [forall2_of_fill]
        have : ∀ c ∈ cs, Resolved l sk c c false := by
          intro c hcm
          obtain ⟨v, hv, hfix⟩ := hp cs hc c hcm
          obtain ⟨k, w⟩ := c
          dsimp only at hv
          subst hv
          exact .explicit hfix
        clear hc hp
        induction cs with
        | nil => exact .nil
        | cons c cs ih => exact .cons (this c (by simp)) (ih fun a ha => this a (by simp [ha]))
      dsimp only
      rw [hm]
      simp only [bind, Except.bind, pure, Except.pure, List.map_map]
      have h1 : (cs.map (Prod.fst ∘ fun c => (c, false))) = cs := by
        rw [show (Prod.fst ∘ fun c : String × Option String => (c, false)) = id from rfl, List.map_id]
      have h2 : (cs.map fun c : String × Option String => (c, false)).any Prod.snd = false := by
        rw [List.any_eq_false]
        simp
      rw [h1, h2, Bool.or_false, ← hc]
  have hargs : stepArgs { env with lookup := lookup' } cfg st s' = stepArgs env cfg st s := by
    rw [stepArgs_eq, stepArgs_eq, hf]
    have : filled { env with lookup := lookup' } cfg st s' = .ok s' := by
      unfold filled
      split
      · exact hagain _ _
      · rfl
    rw [this]
    rfl
  unfold runStep
  rw [n1, n2, hskip, hargs]

theorem runStep_none {env : Env D C W} {cfg : List (String × Bool)} {o : String} {st : St D C W} {s : Step} {cs : Loads}
    (hr : Runs s) (hfn : env.func s.name ≠ none) (hj : jitNow cfg st.settings = true) (hc : s.calibs = some cs)
    (hn : ∃ c ∈ cs, c.2 = none) (hp : ∀ c ∈ cs, ∀ v, c.2 = some v → Fixed v) :
    runStep env cfg o st s = (st, some .attributeError) := by
  have hm : cs.mapM (fillOne (env.lookup st.world st.data) (st.settings "skip_missing_cal_steps")) = .error .attributeError := by
    clear hc
    induction cs with
    | nil => simp at hn
    | cons c cs ih =>
      rw [List.mapM_cons]
      obtain ⟨k, v⟩ := c
      cases v with
      | none => rfl
      | some v =>
        have hfix := hp (k, some v) (by simp) v rfl
        have h1 : fillOne (env.lookup st.world st.data) (st.settings "skip_missing_cal_steps") (k, some v) = .ok ((k, some v), false) :=
          fillOne_ok_iff.2 (.explicit hfix)
        have h2 := ih (by
          obtain ⟨c, hcm, hcn⟩ := hn
          rcases List.mem_cons.1 hcm with rfl | hcm
          · simp at hcn
          · exact ⟨c, hcm, hcn⟩) fun c hcm => hp c (by simp [hcm])
        rw [h1]
        simp only [bind, Except.bind]
        rw [h2]
  have ha : stepArgs env cfg st s = .error .attributeError := by
    unfold stepArgs
    rw [hc]
    dsimp only
    rw [if_pos hj]
    unfold fillStep
    rw [hc]
    dsimp only
    rw [hm]
    rfl
  unfold runStep
  rw [if_neg (by simpa using hr.1)]
  cases hf : env.func s.name with
  | none => exact absurd hf hfn
  | some f => simp [hr.2, ha]

/-- What an iteration does to its step. -/
theorem recStep_step {env : Env D C W} {cardOf : C → Option Recipe} {r : Recipe} {done rest : List Step} {x x' : RSt D C W} {s s' : Step}
    (h : recStep env cardOf r done rest x s = (x', s', none)) :
    (¬ Runs s ∧ s' = s) ∨ (Runs s ∧ filled env r.drpconfig x.st s = .ok s' ∧ env.func s.name ≠ none) := by
  have he := (recStep_st env cardOf r done rest x s).2
  rw [h] at he
  unfold recStep at h
  dsimp only at h
  split at h
  · rename_i hsv
    rw [Prod.mk.injEq, Prod.mk.injEq] at h
    exact .inl ⟨fun hr => hr.1 (by simpa using hsv), h.2.1.symm⟩
  · rename_i hsv
    have hsv : s.name.toLower ≠ "save" := by simpa using hsv
    have hfn : env.func s.name ≠ none := by
      intro hfn
      unfold runStep at he
      rw [if_neg (by simpa using hsv), hfn] at he
      cases he
    split at h
    · rename_i hk
      have hskip : s.skip = true := by
        cases hsk : s.skip with
        | true => rfl
        | false => simp [hsk, hfn] at hk
      rw [Prod.mk.injEq, Prod.mk.injEq] at h
      exact .inl ⟨fun hr => by simp [hr.2] at hskip, h.2.1.symm⟩
    · rename_i hk
      have hskip : s.skip = false := by
        cases hsk : s.skip with
        | false => rfl
        | true => simp [hsk] at hk
      refine .inr ⟨⟨hsv, hskip⟩, ?_, hfn⟩
      cases hf : filled env r.drpconfig x.st s with
      | error er =>
        exfalso
        unfold runStep at he
        rw [if_neg (by simpa using hsv)] at he
        cases hq : env.func s.name with
        | none => exact hfn hq
        | some f =>
          rw [hq] at he
          simp [hskip, stepArgs_eq, hf, Except.bind] at he
      | ok s1 =>
        rw [hf] at h
        dsimp only at h
        split at h <;> rw [Prod.mk.injEq, Prod.mk.injEq] at h <;> rw [h.2.1]

/-- A step whose named calibrations are all there, as fixed paths. -/
def Complete (s : Step) : Prop := ∀ cs, s.calibs = some cs → ∀ c ∈ cs, ∃ v, c.2 = some v

theorem again_aux {env : Env D C W} {cardOf : C → Option Recipe} {r : Recipe} {g : Settings} (hm : g "skip_missing_cal_steps" = false)
    (lookup' : W → D → String → Except Err String) (steps : List Step) :
    ∀ (done : List Step) (x : RSt D C W), x.st.settings = g → (recSteps env cardOf r done x steps).2.2 = none →
      ∃ now, (recSteps env cardOf r done x steps).2.1 = done ++ now ∧
        ((∀ s ∈ now, ∀ cs, s.calibs = some cs → ∀ c ∈ cs, ∀ v, c.2 = some v → Fixed v) →
          ((∀ s ∈ now, Runs s → Complete s) →
            runSteps { env with lookup := lookup' } r.drpconfig r.outputdir x.st now = runSteps env r.drpconfig r.outputdir x.st steps) ∧
          (jitNow r.drpconfig g = true → (∃ s ∈ now, Runs s ∧ ¬ Complete s) →
            (runSteps { env with lookup := lookup' } r.drpconfig r.outputdir x.st now).2 = some .attributeError)) := by
  induction steps with
  | nil =>
    intro done x _ _
    refine ⟨[], by simp [recSteps], fun _ => ⟨fun _ => rfl, ?_⟩⟩
    rintro _ ⟨s, hs, _⟩
    simp at hs
  | cons s rest ih =>
    intro done x hg h
    unfold recSteps at h ⊢
    rcases hr : recStep env cardOf r done rest x s with ⟨x', s', e⟩
    rw [hr] at h
    have hst := recStep_st env cardOf r done rest x s
    rw [hr] at hst
    dsimp only at hst
    cases e with
    | some e => simp at h
    | none =>
      dsimp only at h ⊢
      have hset : x'.st.settings = g := by rw [hst.1, runStep_settings, hg]
      obtain ⟨now, h1, h2⟩ := ih (done ++ [s']) x' hset h
      have hrun : runStep env r.drpconfig r.outputdir x.st s = (x'.st, none) := Prod.ext hst.1.symm hst.2.symm
      refine ⟨s' :: now, by rw [h1]; simp, fun hfix => ?_⟩
      obtain ⟨h3, h4⟩ := h2 fun a ha => hfix a (by simp [ha])
      -- the same iteration if the step is complete or does not run
      have hsame : (Runs s' → Complete s') →
          runStep { env with lookup := lookup' } r.drpconfig r.outputdir x.st s' = (x'.st, none) := by
        intro hcomp
        rcases recStep_step hr with ⟨hn, rfl⟩ | ⟨hy, hf, hfn⟩
        · rw [← hrun]
          unfold runStep
          by_cases hsv : (s'.name.toLower == "save") = true
          · rw [if_pos hsv, if_pos hsv]
          · rw [if_neg hsv, if_neg hsv]
            have hskip : s'.skip = true := by
              cases hsk : s'.skip with
              | true => rfl
              | false => exact absurd ⟨by simpa using hsv, hsk⟩ hn
            dsimp only
            cases env.func s'.name with
            | none => rfl
            | some f => simp [hskip]
        · obtain ⟨n1, -, -, n4, -⟩ := filled_fields hf
          have hskip : s'.skip = s.skip := n4 (by rw [hg]; exact hm)
          have hR : Runs s' := ⟨by rw [n1]; exact hy.1, by rw [hskip]; exact hy.2⟩
          rw [← hrun]
          apply runStep_again lookup' hf hskip
          intro cs hcs c hc
          obtain ⟨v, hv⟩ := hcomp hR cs hcs c hc
          exact ⟨v, hv, hfix s' (by simp) cs hcs c hc v hv⟩
      constructor
      · intro hcomp
        unfold runSteps
        rw [hsame (hcomp s' (by simp)), hrun]
        exact h3 fun a ha => hcomp a (by simp [ha])
      · intro hj hbad
        by_cases hcs : Runs s' → Complete s'
        · unfold runSteps
          rw [hsame hcs]
          apply h4 hj
          obtain ⟨a, ha, hR, hC⟩ := hbad
          rcases List.mem_cons.1 ha with rfl | ha
          · exact absurd (hcs hR) hC
          · exact ⟨a, ha, hR, hC⟩
        · simp only [Classical.not_imp] at hcs
          obtain ⟨hR, hC⟩ := hcs
          unfold Complete at hC
          push Not at hC
          obtain ⟨cs, hcs, c, hc, hcn⟩ := hC
          have hfn : env.func s'.name ≠ none := by
            rcases recStep_step hr with ⟨hn, rfl⟩ | ⟨_, hf, hfn⟩
            · exact absurd hR hn
            · rw [(filled_fields hf).1]
              exact hfn
          have hnone : c.2 = none := by
            cases hv : c.2 with
            | none => rfl
            | some v => exact absurd hv (hcn v)
          unfold runSteps
          rw [runStep_none (env := { env with lookup := lookup' }) hR hfn (by rw [hg]; exact hj) hcs ⟨c, hc, hnone⟩
            (hfix s' (by simp) cs hcs)]

/-- The recipe in the headers at the end of a successful run, from which the run can be repeated. -/
def recorded (env : Env D C W) (cardOf : C → Option Recipe) (g : Settings) (w : W) (d : D) (r : Recipe) : Recipe :=
  { r with steps := (recRecipe env cardOf g w d r).2.1 }

/-- **C159.** The recorded recipe is the card of the data at the end. -/
theorem C159_card {env : Env D C W} {cardOf : C → Option Recipe} {g : Settings} {w : W} {d : D} {r : Recipe} (hin : r.inputs ≠ [])
    (hb : ∀ s ∈ r.steps, s.name ≠ "create_bad_pixel_map") :
    (recRecipe env cardOf g w d r).1.card = some (recorded env cardOf g w d r) := by
  unfold recorded recRecipe
  have hi : r.inputs.isEmpty = false := by simpa using hin
  rw [hi]
  simp only [Bool.false_eq_true, if_false]
  exact (rec_inv (env := env) (cardOf := cardOf) (r := r) (g := applyConfig r.drpconfig g) r.steps [] []
    { st := { settings := applyConfig r.drpconfig g, world := w, data := d, trace := [] }, card := some r, loads := [], products := [] }
    rfl .nil rfl rfl hb).1

/-- **C159.** Running the recorded recipe on the same inputs repeats the run, whatever the database says by now, if every step that ran had
all its calibrations. -/
theorem C159_again {env : Env D C W} {cardOf : C → Option Recipe} {g : Settings} {w : W} {d : D} {r : Recipe}
    (hm : applyConfig r.drpconfig g "skip_missing_cal_steps" = false) (hok : (recRecipe env cardOf g w d r).2.2 = none)
    (hfix : ∀ s ∈ (recorded env cardOf g w d r).steps, ∀ cs, s.calibs = some cs → ∀ c ∈ cs, ∀ v, c.2 = some v → Fixed v)
    (hcomp : ∀ s ∈ (recorded env cardOf g w d r).steps, Runs s → Complete s) (lookup' : W → D → String → Except Err String) :
    runRecipe { env with lookup := lookup' } g w d (recorded env cardOf g w d r) = runRecipe env g w d r := by
  unfold recRecipe at hok
  obtain ⟨now, h1, h2⟩ := again_aux hm lookup' r.steps [] _ rfl hok
  rw [List.nil_append] at h1
  have hnow : (recorded env cardOf g w d r).steps = now := h1
  rw [hnow] at hfix hcomp
  unfold runRecipe
  rw [hnow]
  exact (h2 hfix).1 hcomp

open Classical in
/-- **C159, violated.** If calibrations are resolved just in time and a step ran without an optional calibration, the recorded recipe cannot be
run: exactly then. -/
theorem C159_violated_again {env : Env D C W} {cardOf : C → Option Recipe} {g : Settings} {w : W} {d : D} {r : Recipe}
    (hm : applyConfig r.drpconfig g "skip_missing_cal_steps" = false) (hok : (recRecipe env cardOf g w d r).2.2 = none)
    (hj : jitNow r.drpconfig (applyConfig r.drpconfig g) = true)
    (hfix : ∀ s ∈ (recorded env cardOf g w d r).steps, ∀ cs, s.calibs = some cs → ∀ c ∈ cs, ∀ v, c.2 = some v → Fixed v)
    (lookup' : W → D → String → Except Err String) :
    (runRecipe { env with lookup := lookup' } g w d (recorded env cardOf g w d r)).2 =
      if ∃ s ∈ (recorded env cardOf g w d r).steps, Runs s ∧ ¬ Complete s then some .attributeError else none := by
  by_cases hc : ∃ s ∈ (recorded env cardOf g w d r).steps, Runs s ∧ ¬ Complete s
  · rw [if_pos hc]
    unfold recRecipe at hok
    obtain ⟨now, h1, h2⟩ := again_aux hm lookup' r.steps [] _ rfl hok
    rw [List.nil_append] at h1
    have hnow : (recorded env cardOf g w d r).steps = now := h1
    rw [hnow] at hfix hc
    unfold runRecipe
    rw [hnow]
    exact (h2 hfix).2 hj hc
  · rw [if_neg hc]
    push Not at hc
    rw [C159_again hm hok hfix (fun s hs hr => hc s hs hr) lookup']
    unfold recRecipe at hok
    have := C159_run env cardOf r []
      { st := { settings := applyConfig r.drpconfig g, world := w, data := d, trace := [] },
        card := if r.inputs.isEmpty then none else some r, loads := [], products := [] } r.steps
    unfold runRecipe
    rw [← this]
    exact hok

/-- **C159.** If calibrations are resolved when the recipe is made, the card is the recipe itself. -/
theorem C159_early {env : Env D C W} {cardOf : C → Option Recipe} {g : Settings} {w : W} {d : D} {r : Recipe}
    (hj : jitNow r.drpconfig (applyConfig r.drpconfig g) = false) (hok : (recRecipe env cardOf g w d r).2.2 = none) :
    recorded env cardOf g w d r = r := by
  have key : ∀ (steps done : List Step) (x : RSt D C W), x.st.settings = applyConfig r.drpconfig g →
      (recSteps env cardOf r done x steps).2.2 = none → (recSteps env cardOf r done x steps).2.1 = done ++ steps := by
    intro steps
    induction steps with
    | nil => intro done x _ _; simp [recSteps]
    | cons s rest ih =>
      intro done x hg h
      unfold recSteps at h ⊢
      rcases hr : recStep env cardOf r done rest x s with ⟨x', s', e⟩
      rw [hr] at h
      cases e with
      | some e => simp at h
      | none =>
        dsimp only at h ⊢
        have hset : x'.st.settings = applyConfig r.drpconfig g := by
          have := (recStep_st env cardOf r done rest x s).1
          rw [hr] at this
          dsimp only at this
          rw [this, runStep_settings, hg]
        rw [ih _ _ hset h]
        have : s' = s := by
          rcases recStep_step hr with ⟨_, h1⟩ | ⟨_, h1, _⟩
          · exact h1
          · exact (filled_fields h1).2.2.2.2 (.inr (by rw [hg]; exact hj))
        rw [this]
        simp
  unfold recorded
  unfold recRecipe at hok ⊢
  rw [key r.steps [] _ rfl hok]
  rfl

/-- **C159, violated.** The bad pixel map has the recipe of the dark in its headers, whatever the recipe that is run. -/
theorem C159_violated_bad_pixels {env : Env D C W} {cardOf : C → Option Recipe} {r : Recipe} {done rest : List Step} {x x' : RSt D C W}
    {s s' : Step} (hn : s.name = "create_bad_pixel_map") (hr : Runs s) (h : recStep env cardOf r done rest x s = (x', s', none))
    {dark flat : C} (ha : stepArgs env r.drpconfig x.st s = .ok [some dark, flat]) : x'.card = cardOf dark := by
  have he := (recStep_st env cardOf r done rest x s).2
  rw [h] at he
  rcases recStep_step h with ⟨h1, _⟩ | ⟨_, hf, hfn⟩
  · exact absurd hr h1
  · unfold recStep at h
    dsimp only at h
    rw [if_neg (by simpa using hr.1), if_neg (by simp [hr.2, hfn]), hf] at h
    dsimp only at h
    rw [ha, Prod.mk.injEq] at h
    dsimp only at he h
    rw [← h.1, ← he]
    simp [productCard, hn]

/-- **C159, violated.** The recipe file is written before calibrations are resolved just in time: it says AUTOMATIC. -/
theorem C159_violated_file {env : Env D C W} {cardOf : C → Option Recipe} {g : Settings} {w : W} {d : D} {r : Recipe} {s : Step} {cs : Loads}
    {k v : String} (hs : s ∈ r.steps) (hc : s.calibs = some cs) (hv : (k, some v) ∈ cs) (ha : Word "AUTOMATIC" v)
    (hfix : ∀ s ∈ (recorded env cardOf g w d r).steps, ∀ cs, s.calibs = some cs → ∀ c ∈ cs, ∀ v, c.2 = some v → Fixed v) :
    recipeFile r ≠ recorded env cardOf g w d r := by
  intro h
  unfold recipeFile at h
  rw [← h] at hfix
  exact hfix s hs cs hc _ hv v rfl ha

/-- **C159, violated.** A path that contains the word AUTOMATIC in any case is taken for a request: run again just in time, such a step uses
what the database says now. -/
theorem C159_violated_path {env : Env D C W} {cfg : List (String × Bool)} {st : St D C W} {s : Step} {k v p : String}
    (hj : jitNow cfg st.settings = true) (hc : s.calibs = some [(k, some v)]) (hv : Word "AUTOMATIC" v)
    (hl : env.lookup st.world st.data k = .ok p) : stepArgs env cfg st s = (env.load st.world k p).map fun c => [some c] := by
  unfold stepArgs
  rw [hc]
  dsimp only
  rw [if_pos hj]
  have h1 : fillOne (env.lookup st.world st.data) (st.settings "skip_missing_cal_steps") (k, some v) = .ok ((k, some p), false) :=
    fillOne_ok_iff.2 (.found hv hl)
  unfold fillStep
  rw [hc]
  simp only [bind, Except.bind, pure, Except.pure, List.mapM_cons, List.mapM_nil, h1, loadCalibs, Option.getD_some, List.map_cons,
    List.map_nil]
  cases env.load st.world k p <;> rfl

/-! ### Witnesses -/

/-- A folder of that name. -/
example : Word "AUTOMATIC" "/data/automatic_run/cal.fits" := ⟨"/DATA/".toList, "_RUN/CAL.FITS".toList, by decide +kernel⟩

/-- Data are numbers, each step adds one; calibrations are found for the class `A` only. -/
def recEnv : Env ℕ String Unit where
  func n := if n == "unknown" then none else some fun _ d _ _ => .ok (d + 1)
  lookup _ _ k := if k == "A" then .ok "/cal/a.fits" else .error .valueError
  load _ _ p := .ok p
  save w _ _ _ := .ok w

/-- A recipe whose second step has an optional calibration. -/
def recExample : Recipe :=
  ⟨"example", false, [("jit_calib_id", true)], ["in.fits"], "/out",
    [⟨"first", some [("A", some "AUTOMATIC")], false, none⟩, ⟨"second", some [("B", some "AUTOMATIC,OPTIONAL")], false, none⟩,
      ⟨"save", none, false, none⟩]⟩

/-- The premises of `C159_names` and `C159_violated_again` are met. -/
example : (recRecipe recEnv (fun _ => none) (fun _ => false) () 0 recExample).2.2 = none ∧
    (recRecipe recEnv (fun _ => none) (fun _ => false) () 0 recExample).1.products.map (fun p => (p.data, p.loads)) =
      [(2, [[("A", some "/cal/a.fits")], [("B", none)]])] ∧
    jitNow recExample.drpconfig (applyConfig recExample.drpconfig fun _ => false) = true := by
  decide +kernel

/-- **C159, violated.** With `skip_missing_cal_steps` and resolution just in time the card says that a step was skipped which ran. -/
theorem C159_violated_skip : ∃ (r : Recipe) (g : Settings),
    (recRecipe recEnv (fun _ => none) g () 0 r).2.2 = none ∧
    (recRecipe recEnv (fun _ => none) g () 0 r).1.st.trace.length = 1 ∧
    (recRecipe recEnv (fun _ => none) g () 0 r).1.card.map (fun q => q.steps.map Step.skip) = some [true] ∧
    (runRecipe recEnv g () 0 (recorded recEnv (fun _ => none) g () 0 r)).1.trace.length = 0 := by
  refine ⟨⟨"example", false, [("jit_calib_id", true)], ["in.fits"], "/out", [⟨"first", some [("B", some "AUTOMATIC")], false, none⟩]⟩,
    fun k => k == "skip_missing_cal_steps", ?_⟩
  decide +kernel

end Corgi.Walker

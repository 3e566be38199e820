import Verif.CalDB.Lemmas

/-!
# Properties C01-C05: the calibration database
-/

namespace Corgi.CalDB

/-! ## Concrete products used in the non-vacuity examples -/

/-- A dark product with all headers. -/
def exDark (p : String) (mjd exptime created : ℚ) : Entry :=
  { cls := .dark, absPath := p, sctsrt := some mjd, exptime := some (some exptime),
    drpnfile := some 3, drpctime := some created, drpversn := some "2.1", obsnum := some 7,
    hash := "1234", shape := [1024, 1024], opmode := some "NONE", emgain := some (some 1),
    excamt := some (some 0) }

/-- The row of such a dark. -/
def exRow (p : String) (mjd exptime created : ℚ) : Row :=
  { path := some p, type := some "Dark", mjd := mjd, exptime := some exptime, filesUsed := 3,
    dateCreated := created, hash := some "1234", version := some "2.1", obsnum := 7,
    naxis1 := 1024, naxis2 := 1024, opmode := some "NONE", emgain := some 1, excamt := some 0 }

theorem exDark_plain {p : String} (h : AbsPath p) (a b c : ℚ) : PlainEntry (exDark p a b c) :=
  ⟨h, by show ¬ AbsPath "1234"; decide,
    by intro s hs; simp [exDark] at hs; subst hs; decide,
    by intro s hs; simp [exDark] at hs; subst hs; decide⟩

theorem exDark_describes (p : String) (a b c : ℚ) : Describes (exRow p a b c) (exDark p a b c) :=
  ⟨rfl, ⟨"Dark", rfl, .dark⟩, rfl, rfl, Or.inl rfl, Or.inl rfl, rfl, Or.inr ⟨by simp [exDark], rfl⟩,
    rfl, Or.inr ⟨[], rfl⟩, ⟨by simp [exDark], rfl⟩, rfl, rfl⟩

/-! ## C01 -/

/-- **C01, no duplicates.** Whatever sequence of `create_entry`, `remove_entry` (with or without
disk access, failing or not) and reloads is run, neither the table in memory nor the file ever
holds two rows of one path.  Only assumption: `os.path.abspath` returns absolute paths. -/
theorem C01_no_duplicates (s : Store) (ops : List Op)
    (hm : AbsRows s.mem ∧ NoDupPaths s.mem) (hd : AbsRows s.disk ∧ NoDupPaths s.disk)
    (hops : ∀ op ∈ ops, ∀ e, op.entry? = some e → AbsPath e.absPath) :
    NoDupPaths (run s ops).mem ∧ NoDupPaths (run s ops).disk := by
  suffices h : (AbsRows (run s ops).mem ∧ NoDupPaths (run s ops).mem) ∧
      (AbsRows (run s ops).disk ∧ NoDupPaths (run s ops).disk) from ⟨h.1.2, h.2.2⟩
  induction ops generalizing s with
  | nil => exact ⟨hm, hd⟩
  | cons op ops ih =>
    have hl : AbsRows (load s.disk) ∧ NoDupPaths (load s.disk) :=
      ⟨absRows_load hd.1, noDup_load hd.1 hd.2⟩
    have hbase : ∀ b : Bool, AbsRows (if b then load s.disk else s.mem) ∧
        NoDupPaths (if b then load s.disk else s.mem) := by
      intro b; cases b
      · exact hm
      · exact hl
    have hstep : (AbsRows (step s op).mem ∧ NoDupPaths (step s op).mem) ∧
        (AbsRows (step s op).disk ∧ NoDupPaths (step s op).disk) := by
      cases op with
      | create e d =>
        have he : AbsPath e.absPath := hops (.create e d) (by simp) e rfl
        cases hv : valuesFromEntry e true with
        | error x =>
          simp only [step, createEntry, hv, bind, Except.bind]
          exact ⟨hm, hd⟩
        | ok r =>
          have hp := (values_ok_iff.1 hv).path
          simp only [step, createEntry, hv, bind, Except.bind, pure, Except.pure]
          have hu : AbsRows (upsert (if d then load s.disk else s.mem) e.absPath r) ∧
              NoDupPaths (upsert (if d then load s.disk else s.mem) e.absPath r) :=
            ⟨absRows_upsert hp he (hbase d).1, noDup_upsert hp (hbase d).2⟩
          refine ⟨hu, ?_⟩
          cases d
          · exact hd
          · exact hu
      | remove e d =>
        cases hv : valuesFromEntry e true with
        | error x =>
          simp only [step, removeEntry, hv]
          exact ⟨hm, hd⟩
        | ok r =>
          by_cases hiv : inValues e.absPath (if d then load s.disk else s.mem) = true
          · simp only [step, removeEntry, hv, if_pos hiv]
            have hf : AbsRows ((if d then load s.disk else s.mem).filter
                  fun r => !(r.path == some e.absPath)) ∧
                NoDupPaths ((if d then load s.disk else s.mem).filter
                  fun r => !(r.path == some e.absPath)) :=
              ⟨fun r hr => (hbase d).1 r (List.mem_filter.1 hr).1,
                (hbase d).2.sublist (List.filter_sublist.map _)⟩
            refine ⟨hf, ?_⟩
            cases d
            · exact hd
            · exact hf
          · simp only [step, removeEntry, hv, if_neg hiv]
            exact ⟨hbase d, hd⟩
      | reload => exact ⟨hl, hd⟩
    have := ih (step s op) hstep.1 hstep.2 (fun o ho => hops o (List.mem_cons_of_mem _ ho))
    simpa [run] using this

/-- A run with an update, a removal and a collision-free second product meets the hypotheses. -/
example : NoDupPaths (run ⟨[], []⟩
    [.create (exDark "/d/a.fits" 1 2 3) true, .create (exDark "/d/b.fits" 4 2 3) false,
     .create (exDark "/d/a.fits" 9 9 9) true, .remove (exDark "/d/b.fits" 4 2 3) true]).disk :=
  (C01_no_duplicates _ _ ⟨by simp [AbsRows], by simp [NoDupPaths]⟩ ⟨by simp [AbsRows], by simp [NoDupPaths]⟩
    (by
      intro op hop e he
      simp only [List.mem_cons, List.not_mem_nil, or_false] at hop
      rcases hop with rfl | rfl | rfl | rfl <;> simp [Op.entry?] at he <;> subst he <;>
        simp only [exDark] <;> decide)).2

/-- **C01, effect of one registration.** On a table of plain rows, `create_entry` succeeds exactly
for calibration products with complete headers; then the product's path has exactly one row, which
carries the product's values; rows of other paths and their order are unchanged; an existing path
keeps its position and a new one goes to the end; with `to_disk` the file holds the same table,
without it the file is untouched. -/
theorem C01_create_effect (s : Store) (e : Entry) (d : Bool) (he : PlainEntry e)
    (db : Table) (hdb : db = if d then load s.disk else s.mem)
    (hn : NoDupPaths db) (hp : ∀ r ∈ db, PlainRow r) :
    ((∃ s', createEntry s e d = .ok s') ↔ ∃ r, Describes r e) ∧
    ∀ s', createEntry s e d = .ok s' →
      (∃ r, Describes r e ∧ rowsOf s'.mem e.absPath = [r]) ∧
      others s'.mem e.absPath = others db e.absPath ∧
      s'.mem.map Row.path =
        (if ∃ r ∈ db, r.path = some e.absPath then db.map Row.path
         else db.map Row.path ++ [some e.absPath]) ∧
      s'.disk = (if d then s'.mem else s.disk) := by
  subst hdb
  set db := (if d then load s.disk else s.mem) with hdb
  cases hv : valuesFromEntry e true with
  | error x =>
    have hno : ¬ ∃ r, Describes r e := values_error_iff.1 ⟨x, hv⟩
    constructor
    · constructor
      · rintro ⟨s', hs'⟩; simp [createEntry, hv, bind, Except.bind] at hs'
      · intro h; exact absurd h hno
    · intro s' hs'; simp [createEntry, hv, bind, Except.bind] at hs'
  | ok r =>
    have hr := values_ok_iff.1 hv
    have hc : createEntry s e d = .ok
        { mem := upsert db e.absPath r, disk := if d then upsert db e.absPath r else s.disk } := by
      simp [createEntry, hv, bind, Except.bind, pure, Except.pure, hdb]
    constructor
    · exact ⟨fun _ => ⟨r, hr⟩, fun _ => ⟨_, hc⟩⟩
    · intro s' hs'
      rw [hc] at hs'; cases hs'
      refine ⟨⟨r, hr, rowsOf_upsert_self hr.path hn (inValues_plain he.path hp).1⟩,
        others_upsert hr.path, ?_, rfl⟩
      rw [show (upsert db e.absPath r).map Row.path = _ from paths_upsert hr.path]
      simp only [inValues_plain he.path hp]

example : ∃ s', createEntry ⟨[], [exRow "/d/b.fits" 4 2 3]⟩ (exDark "/d/a.fits" 1 2 3) true = .ok s' ∧
    rowsOf s'.mem "/d/a.fits" = [exRow "/d/a.fits" 1 2 3] :=
  ⟨_, rfl, by decide⟩

/-- **C01/C02, refinement.** For a client whose calls go through the file and whose products are
plain, the file behaves as a finite map from paths to rows: every call is a point update of that
map (set for create, clear for remove), for all call sequences. -/
theorem C01_refines_map (s : Store) (ops : List Op)
    (ha : AbsRows s.disk) (hn : NoDupPaths s.disk) (hp : ∀ r ∈ s.disk, PlainRow r)
    (hops : ∀ op ∈ ops, (∀ e d, op = .create e d ∨ op = .remove e d → PlainEntry e ∧ d = true)) :
    MapRun (toMap (load s.disk)) ops (toMap (load (run s ops).disk)) := by
  have hP : Plain s.disk := ⟨ha, hn, hp⟩
  clear ha hn hp
  induction ops generalizing s with
  | nil => exact .nil
  | cons op ops ih =>
    have hstep : MapStep (toMap (load s.disk)) op (toMap (load (step s op).disk)) ∧
        Plain (step s op).disk := by
      have ho := hops op (by simp)
      cases op with
      | create e d =>
        obtain ⟨he, rfl⟩ := ho e d (Or.inl rfl)
        cases hv : valuesFromEntry e true with
        | error x =>
          simp only [step, createEntry, hv, bind, Except.bind]
          exact ⟨.createRefused (values_error_iff.1 ⟨x, hv⟩), hP⟩
        | ok r =>
          have hr := values_ok_iff.1 hv
          simp only [step, createEntry, hv, bind, Except.bind, pure, Except.pure]
          have hPl := hP.load
          have hPu := hPl.upsert hr he
          refine ⟨?_, hPu⟩
          have hm : toMap (load (upsert (load s.disk) e.absPath r)) =
              Function.update (toMap (load s.disk)) e.absPath (some (reloadRow r)) := by
            funext q
            rw [toMap_eq_head, rowsOf_load hPu.abs]
            by_cases hq : q = e.absPath
            · subst hq
              rw [Function.update_self, rowsOf_upsert_self hr.path hPl.nodup
                (inValues_plain he.path hPl.plain).1]
              rfl
            · rw [Function.update_of_ne hq, toMap_eq_head,
                rowsOf_of_others (others_upsert hr.path) hq, ← rowsOf_load hPl.abs, load_load]
          simp only [if_true]
          rw [hm]
          exact .create hr
      | remove e d =>
        obtain ⟨he, rfl⟩ := ho e d (Or.inr rfl)
        cases hv : valuesFromEntry e true with
        | error x =>
          simp only [step, removeEntry, hv]
          exact ⟨.removeRefused (values_error_iff.1 ⟨x, hv⟩), hP⟩
        | ok r =>
          have hr := values_ok_iff.1 hv
          have hPl := hP.load
          simp only [step, removeEntry, hv, if_true]
          split
          · have hPf := hPl.filter (fun r => !(r.path == some e.absPath))
            refine ⟨?_, hPf⟩
            have hm : toMap (load ((load s.disk).filter fun r => !(r.path == some e.absPath))) =
                Function.update (toMap (load s.disk)) e.absPath none := by
              funext q
              rw [toMap_eq_head, rowsOf_load hPf.abs]
              by_cases hq : q = e.absPath
              · subst hq
                rw [Function.update_self]
                have : rowsOf ((load s.disk).filter fun r => !(r.path == some e.absPath)) e.absPath
                    = [] := by
                  unfold rowsOf
                  rw [List.filter_eq_nil_iff]
                  intro q hq
                  simpa using (List.mem_filter.1 hq).2
                rw [this]; rfl
              · rw [Function.update_of_ne hq, toMap_eq_head]
                have : rowsOf ((load s.disk).filter fun r => !(r.path == some e.absPath)) q
                    = rowsOf (load s.disk) q := by
                  unfold rowsOf
                  rw [List.filter_filter]
                  apply List.filter_congr
                  intro x _
                  by_cases hx : x.path = some q <;> simp [hx, hq]
                rw [this, ← rowsOf_load hPl.abs, load_load]
            rw [hm]; exact .remove hr
          · rename_i hno
            refine ⟨?_, hP⟩
            have hnone : toMap (load s.disk) e.absPath = none := by
              unfold toMap
              rw [List.find?_eq_none]
              intro q hq hqp
              exact hno ((inValues_plain he.path hPl.plain).2 ⟨q, hq, by simpa using hqp⟩)
            have hm : toMap (load s.disk) = Function.update (toMap (load s.disk)) e.absPath none := by
              rw [← hnone, Function.update_eq_self]
            have hrem := MapStep.remove (m := toMap (load s.disk)) hr
            rw [← hm] at hrem
            exact hrem
      | reload => exact ⟨.reload, hP⟩
    have := ih (step s op) (fun o ho => hops o (List.mem_cons_of_mem _ ho)) hstep.2
    exact .cons hstep.1 this

example : MapRun (toMap []) [.create (exDark "/d/a.fits" 1 2 3) true,
      .remove (exDark "/d/a.fits" 1 2 3) true] (toMap (load (run ⟨[], []⟩
        [.create (exDark "/d/a.fits" 1 2 3) true, .remove (exDark "/d/a.fits" 1 2 3) true]).disk)) :=
  C01_refines_map ⟨[], []⟩ _ (by simp [AbsRows]) (by simp [NoDupPaths]) (by simp) (by
    intro op hop e d h
    simp only [List.mem_cons, List.not_mem_nil, or_false] at hop
    rcases hop with rfl | rfl <;> simp at h <;> obtain ⟨rfl, rfl⟩ := h <;>
      exact ⟨exDark_plain (by decide) _ _ _, rfl⟩)

/-! ## C02 -/

/-- **C02.** `remove_entry` on a table of plain rows: if the path is registered, exactly its rows
disappear; if not, `ValueError` and no row changes; a product without the needed headers raises
and changes nothing at all. -/
theorem C02_remove (s : Store) (e : Entry) (d : Bool) (he : PlainEntry e)
    (db : Table) (hdb : db = if d then load s.disk else s.mem) (hp : ∀ r ∈ db, PlainRow r) :
    ((∃ r, Describes r e) → (∃ r ∈ db, r.path = some e.absPath) →
      (removeEntry s e d).2 = .ok () ∧ (removeEntry s e d).1.mem = others db e.absPath ∧
      (removeEntry s e d).1.disk = if d then others db e.absPath else s.disk) ∧
    ((∃ r, Describes r e) → (¬ ∃ r ∈ db, r.path = some e.absPath) →
      (removeEntry s e d).2 = .error .valueError ∧ (removeEntry s e d).1.mem = db ∧
      (removeEntry s e d).1.disk = s.disk) ∧
    ((¬ ∃ r, Describes r e) → (∃ x, (removeEntry s e d).2 = .error x) ∧ (removeEntry s e d).1 = s) := by
  have hf : ∀ l : Table, l.filter (fun r => !(r.path == some e.absPath)) = others l e.absPath := by
    intro l; unfold others
    apply List.filter_congr
    intro r _
    by_cases h : r.path = some e.absPath <;> simp [h]
  subst hdb
  refine ⟨?_, ?_, ?_⟩
  · rintro ⟨r, hr⟩ hin
    have hiv := (inValues_plain he.path hp).2 hin
    simp only [removeEntry, values_ok_iff.2 hr, hiv, if_true, hf]
    exact ⟨trivial, trivial, trivial⟩
  · rintro ⟨r, hr⟩ hin
    have hiv : ¬ inValues e.absPath (if d then load s.disk else s.mem) = true :=
      fun h => hin ((inValues_plain he.path hp).1 h)
    simp only [removeEntry, values_ok_iff.2 hr, if_neg hiv]
    exact ⟨trivial, trivial, trivial⟩
  · intro hno
    obtain ⟨x, hx⟩ := values_error_iff.2 hno
    simp only [removeEntry, hx]
    exact ⟨⟨x, rfl⟩, trivial⟩

/-- Both branches of C02 occur on a concrete two-row table. -/
example : let s : Store := ⟨[], [exRow "/d/b.fits" 4 2 3, exRow "/d/a.fits" 1 2 3]⟩
    (removeEntry s (exDark "/d/a.fits" 0 0 0) true).1.disk = [exRow "/d/b.fits" 4 2 3] ∧
    (removeEntry s (exDark "/d/c.fits" 0 0 0) true).2 = .error .valueError := by decide

/-! ## C03 -/

/-- **C03, science frame.** For a frame with complete headers, `get_calib` returns row `r` iff `r`
is the first of the closest-in-time rows among those eligible (requested type; for darks equal
exposure time), and it raises `ValueError` iff no row is eligible. -/
theorem C03_get_calib_frame (db : Table) (f : Entry) (cls : Cls) (t : String) (mjd : ℚ)
    (x : Option ℚ) (ht : TypeName cls t) (hm : f.sctsrt = some mjd) (hx : f.exptime = some x)
    (ho : f.obsnum ≠ none) (hs : f.shape ≠ []) (hop : f.opmode ≠ none) (hem : f.emgain ≠ none)
    (hex : f.excamt ≠ none) :
    (∀ r, getCalib db (some f) cls = .ok r ↔
      FirstBest db (fun q => Eligible q t x) (fun a b => |a.mjd - mjd| < |b.mjd - mjd|) r) ∧
    (getCalib db (some f) cls = .error .valueError ↔ ¬ ∃ q ∈ db, Eligible q t x) ∧
    (∀ err, getCalib db (some f) cls = .error err → err = .valueError) := by
  have hl := typeName_iff.1 ht
  obtain ⟨o, ho⟩ := Option.ne_none_iff_exists'.1 ho
  obtain ⟨op, hop⟩ := Option.ne_none_iff_exists'.1 hop
  obtain ⟨em, hem⟩ := Option.ne_none_iff_exists'.1 hem
  obtain ⟨ec, hec⟩ := Option.ne_none_iff_exists'.1 hex
  have hn : ∃ nn, naxes f.shape = .ok nn := by
    unfold naxes
    rcases h : f.shape.reverse with _ | ⟨a, _ | ⟨b, l⟩⟩
    · exact absurd (by simpa using h) hs
    · exact ⟨_, rfl⟩
    · exact ⟨_, rfl⟩
  obtain ⟨nn, hn⟩ := hn
  have hv : ∃ fr, valuesFromEntry f false = .ok fr ∧ fr.mjd = mjd ∧ fr.exptime = x := by
    simp [valuesFromEntry, need, hm, hx, ho, hn, hop, hem, hec, bind, Except.bind, pure, Except.pure]
  obtain ⟨fr, hfr, rfl, rfl⟩ := hv
  -- the candidate rows, as one boolean filter
  let P : Row → Bool := fun r => (r.type == some t) && (!(t == "Dark") || sameExptime r.exptime fr.exptime)
  have hP : ∀ q, P q = true ↔ Eligible q t fr.exptime := by
    intro q
    simp only [P, Eligible, Bool.and_eq_true, beq_iff_eq, Bool.or_eq_true, Bool.not_eq_true']
    refine and_congr_right fun _ => ?_
    by_cases hd : t = "Dark"
    · simp only [hd, beq_self_eq_true, Bool.true_eq_false, false_or, forall_const]
      unfold sameExptime
      rcases q.exptime with _ | a <;> rcases fr.exptime with _ | b
      · simp
      · simp
      · simp
      · simp only [beq_iff_eq, Option.some.injEq]
        exact ⟨fun h => ⟨a, rfl, h.symm⟩, fun ⟨y, h1, h2⟩ => by rw [h1, h2]⟩
    · simp [hd]
  have hget : getCalib db (some f) cls =
      match ((argmin ((db.filter P).map fun r => |r.mjd - fr.mjd|)).bind fun i => (db.filter P)[i]?) with
      | some r => .ok r
      | none => .error .valueError := by
    by_cases hd : t = "Dark"
    · have : (db.filter fun r => r.type == some t).filter
          (fun r => sameExptime r.exptime fr.exptime) = db.filter P := by
        rw [List.filter_filter]
        apply List.filter_congr
        intro r _
        simp [P, hd, Bool.and_comm]
      simp only [getCalib, hl, hfr, bind, Except.bind, pure, Except.pure, hd, beq_self_eq_true, if_true]
      rw [← hd, this]; rfl
    · have : (db.filter fun r => r.type == some t) = db.filter P := by
        apply List.filter_congr
        intro r _
        simp [P, hd]
      have hd' : (t == "Dark") = false := by simpa using hd
      simp only [getCalib, hl, hfr, bind, Except.bind, pure, Except.pure, hd', Bool.false_eq_true, if_false]
      rw [this]; rfl
  have hcongr : ∀ r, FirstBest db (fun q => P q = true) (fun a b => |a.mjd - fr.mjd| < |b.mjd - fr.mjd|) r ↔
      FirstBest db (fun q => Eligible q t fr.exptime)
        (fun a b => |a.mjd - fr.mjd| < |b.mjd - fr.mjd|) r := by
    intro r; simp only [FirstBest, hP]
  rw [hget]
  refine ⟨?_, ?_, ?_⟩
  · intro r
    rw [← hcongr, ← argmin_pick_iff]
    split
    · rename_i r' h; rw [h]; simp
    · rename_i h; rw [h]; simp
  · have hnone := argmin_pick_none (L := db.filter P) (f := fun r => |r.mjd - fr.mjd|)
    have : db.filter P = [] ↔ ¬ ∃ q ∈ db, Eligible q t fr.exptime := by
      rw [List.filter_eq_nil_iff]
      simp only [hP, not_exists, not_and]
    rw [← this, ← hnone]
    split
    · rename_i r' h; rw [h]; simp
    · rename_i h; rw [h]; simp
  · intro err
    split
    · simp
    · intro h; cases h; rfl

/-- Three darks, one of another exposure time: the closer of the two eligible ones wins. -/
example : getCalib [exRow "/a" 10 2 0, exRow "/b" 99 3 0, exRow "/c" 95 2 0]
    (some (exDark "/sci" 100 2 0)) .dark = .ok (exRow "/c" 95 2 0) := by decide +kernel
example : getCalib [exRow "/b" 99 3 0] (some (exDark "/sci" 100 2 0)) .dark = .error .valueError := by
  decide

/-- **C03, no frame.** With `frame=None` the most recently created row of the type is returned
(the first one among equals); `ValueError` iff there is none. -/
theorem C03_get_calib_none (db : Table) (cls : Cls) (t : String) (ht : TypeName cls t) :
    (∀ r, getCalib db none cls = .ok r ↔
      FirstBest db (fun q => q.type = some t) (fun a b => b.dateCreated < a.dateCreated) r) ∧
    (getCalib db none cls = .error .valueError ↔ ¬ ∃ q ∈ db, q.type = some t) := by
  have hl := typeName_iff.1 ht
  have hget : getCalib db none cls =
      match ((argmax ((db.filter fun r => r.type == some t).map fun r => r.dateCreated)).bind
          fun i => (db.filter fun r => r.type == some t)[i]?) with
      | some r => .ok r
      | none => .error .valueError := by
    simp only [getCalib, hl, bind, Except.bind, pure, Except.pure]; rfl
  rw [hget]
  constructor
  · intro r
    have := argmax_pick_iff (db := db) (P := fun r => r.type == some t)
      (f := fun r => r.dateCreated) (r := r)
    simp only [beq_iff_eq] at this
    rw [← this]
    split
    · rename_i r' h; rw [h]; simp
    · rename_i h; rw [h]; simp
  · have hnone := argmax_pick_none (L := db.filter fun r => r.type == some t)
      (f := fun r => r.dateCreated)
    have : (db.filter fun r => r.type == some t) = [] ↔ ¬ ∃ q ∈ db, q.type = some t := by
      rw [List.filter_eq_nil_iff]; simp
    rw [← this, ← hnone]
    split
    · rename_i r' h; rw [h]; simp
    · rename_i h; rw [h]; simp

example : getCalib [exRow "/a" 10 2 5, exRow "/b" 99 3 8, exRow "/c" 95 2 8] none .dark =
    .ok (exRow "/b" 99 3 8) := by decide

/-- **C03, unknown type.** A class that is not a calibration type always raises `ValueError`. -/
theorem C03_get_calib_unknown (db : Table) (f : Option Entry) (cls : Cls)
    (h : ¬ ∃ t, TypeName cls t) : getCalib db f cls = .error .valueError := by
  have hl : label cls = none := by
    cases hl : label cls with
    | none => rfl
    | some t => exact absurd ⟨t, typeName_iff.2 hl⟩ h
  simp only [getCalib, hl, bind, Except.bind]

example : ¬ ∃ t, TypeName .image t := by rintro ⟨t, h⟩; cases h

/-- **C01+C03 together: what was registered last can be found.** After registering a plain product
through the file, a lookup of its type without a frame does not fail, and the file then returned is
at least as recent as the product. -/
theorem C03_registered_is_found (s : Store) (e : Entry) (s' : Store) (he : PlainEntry e)
    (hp : ∀ r ∈ s.disk, PlainRow r) (h : createEntry s e true = .ok s') (created : ℚ) (hc : e.drpctime = some created) :
    ∃ r, getCalibStore s' none e.cls true = .ok r ∧ created ≤ r.dateCreated := by
  cases hv : valuesFromEntry e true with
  | error x => simp [createEntry, hv, bind, Except.bind] at h
  | ok new =>
    have hd := values_ok_iff.1 hv
    simp [createEntry, hv, bind, Except.bind, pure, Except.pure] at h
    subst h
    have hmem : new ∈ upsert (load s.disk) e.absPath new :=
      mem_upsert_new (inValues_plain he.path (plainRows_load hp)).1
    obtain ⟨t, ht, htn⟩ := hd.type
    have hmem' : reloadRow new ∈ load (upsert (load s.disk) e.absPath new) :=
      List.mem_map.2 ⟨new, hmem, rfl⟩
    have hty : (reloadRow new).type = some t := by
      have hlab := typeName_iff.1 htn
      simp only [reloadRow, ht]
      cases hcl : e.cls <;> rw [hcl] at hlab <;> simp [label] at hlab <;> subst hlab <;> decide
    obtain ⟨hok, herr⟩ := C03_get_calib_none (load (upsert (load s.disk) e.absPath new)) e.cls t htn
    have hnone : getCalib (load (upsert (load s.disk) e.absPath new)) none e.cls ≠ .error .valueError :=
      fun hh => (herr.1 hh) ⟨_, hmem', hty⟩
    have hlab := typeName_iff.1 htn
    simp only [getCalibStore, if_true]
    cases hg : getCalib (load (upsert (load s.disk) e.absPath new)) none e.cls with
    | error x =>
      exfalso
      have : x = .valueError := by
        simp only [getCalib, hlab, bind, Except.bind, pure, Except.pure] at hg
        split at hg <;> simp at hg; exact hg.symm
      exact hnone (this ▸ hg)
    | ok r =>
      refine ⟨r, rfl, ?_⟩
      obtain ⟨pre, post, hdb, _, h1, h2⟩ := (hok r).1 hg
      have hcr : (reloadRow new).dateCreated = created := by
        rcases hd.dateCreated with h | ⟨h, _⟩
        · rw [hc] at h; simp [reloadRow]; exact (Option.some.inj h).symm
        · rw [hc] at h; cases h
      rw [hdb] at hmem'
      rcases List.mem_append.1 hmem' with hm | hm
      · have := h1 _ hm hty; beta_reduce at this; rw [hcr] at this; exact le_of_lt this
      · rcases List.mem_cons.1 hm with hm | hm
        · rw [← hm, hcr]
        · have := h2 _ hm hty; beta_reduce at this; rw [hcr] at this; exact not_lt.1 this

example : (createEntry ⟨[], [exRow "/b" 4 2 3]⟩ (exDark "/a" 1 2 3) true).toOption.isSome ∧
    PlainEntry (exDark "/a" 1 2 3) := ⟨by decide, exDark_plain (by decide) _ _ _⟩

/-! ## C05 -/

/-- **C05, when a product is lost.** After a successful `create_entry` the product's path has no row
exactly when, before, its path had no row but the path string occurred in another column. -/
theorem C05_lost_iff (s : Store) (e : Entry) (d : Bool) (s' : Store)
    (h : createEntry s e d = .ok s') (db : Table) (hdb : db = if d then load s.disk else s.mem) :
    rowsOf s'.mem e.absPath = [] ↔
      (¬ ∃ r ∈ db, r.path = some e.absPath) ∧
      ∃ r ∈ db, some e.absPath ∈ [r.type, r.hash, r.version, r.opmode] := by
  subst hdb
  cases hv : valuesFromEntry e true with
  | error x => simp [createEntry, hv, bind, Except.bind] at h
  | ok new =>
    have hd := values_ok_iff.1 hv
    simp [createEntry, hv, bind, Except.bind, pure, Except.pure] at h
    subst h
    simp only
    generalize (if d = true then load s.disk else s.mem) = db
    by_cases hex : ∃ r ∈ db, r.path = some e.absPath
    · simp only [hex, not_true_eq_false, false_and, iff_false]
      intro hnil
      have : new ∈ rowsOf (upsert db e.absPath new) e.absPath := by
        unfold rowsOf
        exact List.mem_filter.2 ⟨mem_upsert_new (fun _ => hex), by simp [hd.path]⟩
      rw [hnil] at this; simp at this
    · simp only [hex, not_false_eq_true, true_and]
      constructor
      · intro hnil
        have hiv : inValues e.absPath db = true := by
          by_contra hno
          have : new ∈ rowsOf (upsert db e.absPath new) e.absPath := by
            unfold rowsOf
            exact List.mem_filter.2 ⟨mem_upsert_new (fun h => absurd h hno), by simp [hd.path]⟩
          rw [hnil] at this; simp at this
        simp only [inValues, List.any_eq_true, Bool.or_eq_true, beq_iff_eq] at hiv
        obtain ⟨r, hr, hiv⟩ := hiv
        refine ⟨r, hr, ?_⟩
        rcases hiv with (((h | h) | h) | h) | h
        · exact absurd ⟨r, hr, h⟩ hex
        all_goals simp [h]
      · rintro ⟨r, hr, hm⟩
        have hiv : inValues e.absPath db = true := by
          simp only [inValues, List.any_eq_true, Bool.or_eq_true, beq_iff_eq]
          refine ⟨r, hr, ?_⟩
          simp only [List.mem_cons, List.not_mem_nil, or_false] at hm
          rcases hm with h | h | h | h <;> simp [← h]
        unfold upsert rowsOf
        rw [if_pos hiv, List.filter_eq_nil_iff]
        intro q hq
        obtain ⟨q0, hq0, rfl⟩ := List.mem_map.1 hq
        have : ¬ q0.path = some e.absPath := fun h => hex ⟨q0, hq0, h⟩
        simp [this]

/-- **C05 is violated**: a product whose path equals the `OPMODE` of an earlier row is reported as
registered but is not in the table. -/
theorem C05_violated : ∃ (s : Store) (e : Entry) (s' : Store),
    createEntry s e true = .ok s' ∧ AbsPath e.absPath ∧ rowsOf s'.mem e.absPath = [] ∧
    rowsOf s'.disk e.absPath = [] := by
  refine ⟨⟨[], [{ exRow "/x" 1 2 3 with opmode := some "/y" }]⟩, exDark "/y" 1 2 3, _, rfl, ?_, ?_, ?_⟩ <;>
    decide

/-- **C05, partial**: products whose rows hold no path-like strings outside the path column are
always found after registration.  Missing: tables with a path-like string in another column. -/
theorem C05_registered_partial (s : Store) (e : Entry) (d : Bool) (s' : Store) (he : PlainEntry e)
    (h : createEntry s e d = .ok s') (db : Table) (hdb : db = if d then load s.disk else s.mem)
    (hp : ∀ r ∈ db, PlainRow r) : ∃ r ∈ s'.mem, Describes r e := by
  have hne : rowsOf s'.mem e.absPath ≠ [] := by
    rw [Ne, C05_lost_iff s e d s' h db hdb]
    rintro ⟨_, r, hr, hm⟩
    exact hp r hr _ hm _ rfl he.path
  subst hdb
  cases hv : valuesFromEntry e true with
  | error x => simp [createEntry, hv, bind, Except.bind] at h
  | ok new =>
    have hd := values_ok_iff.1 hv
    simp [createEntry, hv, bind, Except.bind, pure, Except.pure] at h
    subst h
    exact ⟨new, mem_upsert_new (inValues_plain he.path hp).1, hd⟩

example : PlainRow (exRow "/b" 4 2 3) := by
  intro c hc s hs
  simp [exRow] at hc
  rcases hc with rfl | rfl | rfl | rfl <;> cases hs <;> decide

end Corgi.CalDB

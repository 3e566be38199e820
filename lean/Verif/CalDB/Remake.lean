import Verif.CalDB.Props

/-!
# Calibrations that are made again, and the bad pixel map of the flat recipe (C157)

`l1_flat_and_bp.json` makes a flat field, saves it (walker.py 336-344, which registers it) and then resolves the calibrations of
`create_bad_pixel_map` just in time with the flat itself as the reference (walker.py 409-418), so the flat in use is the one that
`get_calib` (caldb.py 260-328) returns for the new flat. `SCTSRT` of a calibration is that of one of its frames (flat.py 234, 258),
so making it again from the same frames gives the same date.
-/

namespace Corgi.CalDB

/-! ## Model -/

/-- The flat field that the bad pixel map of `l1_flat_and_bp.json` is made with: the new flat is registered (walker.py 340-344), then
looked up with itself as the reference (walker.py 416-418, 210). -/
def flatOfMap (s : Store) (flat : Entry) : Except Err Row := do
  let s' ← createEntry s flat true
  getCalibStore s' (some flat) .flat true

/-! ## Specification -/

/-- A frame with the header cards that the database reads, taken at `mjd` with exposure time `x`. -/
structure Asks (f : Entry) (mjd : ℚ) (x : Option ℚ) : Prop where
  mjd : f.sctsrt = some mjd
  exptime : f.exptime = some x
  obsnum : f.obsnum ≠ none
  shape : f.shape ≠ []
  opmode : f.opmode ≠ none
  emgain : f.emgain ≠ none
  excamt : f.excamt ≠ none

/-! ## Theorems -/

theorem firstBest_last {db : Table} {new : Row} {P : Row → Prop} {better : Row → Row → Prop} (hf : new ∉ db) (hP : P new) :
    FirstBest (db ++ [new]) P better new ↔ ∀ q ∈ db, P q → better new q := by
  constructor
  · rintro ⟨pre, post, h, _, h1, _⟩
    have hp : post = [] := by
      rcases List.eq_nil_or_concat post with rfl | ⟨l, z, rfl⟩
      · rfl
      · exfalso
        apply hf
        have h2 : db ++ [new] = (pre ++ new :: l) ++ [z] := by rw [h]; simp
        have h3 := (List.append_inj' h2 rfl).1
        rw [h3]
        simp
    subst hp
    have h3 := (List.append_inj' h rfl).1
    rw [h3]
    exact h1
  · intro h
    exact ⟨db, [], rfl, hP, h, by simp⟩

/-- **C157.** A calibration that was just registered is chosen for a frame exactly if it is nearer in time than all others that fit. -/
theorem C157_new_iff {db : Table} {new : Row} {f : Entry} {cls : Cls} {t : String} {mjd : ℚ} {x : Option ℚ} (ht : TypeName cls t)
    (ha : Asks f mjd x) (hf : ∀ q ∈ db, q.path ≠ new.path) (he : Eligible new t x) :
    getCalib (db ++ [new]) (some f) cls = .ok new ↔ ∀ q ∈ db, Eligible q t x → |new.mjd - mjd| < |q.mjd - mjd| := by
  rw [(C03_get_calib_frame _ f cls t mjd x ht ha.mjd ha.exptime ha.obsnum ha.shape ha.opmode ha.emgain ha.excamt).1 new]
  exact firstBest_last (fun h => hf new h rfl) he

theorem eligible_reload {q : Row} {c : Cls} {t : String} (ht : TypeName c t) {x : Option ℚ} :
    Eligible (reloadRow q) t x ↔ Eligible q t x := by
  have hty : (reloadRow q).type = some t ↔ q.type = some t := by
    constructor
    · intro h
      exact reloadStr_some h
    · intro h
      have hlab := typeName_iff.1 ht
      simp only [reloadRow, h]
      cases c <;> simp [label] at hlab <;> subst hlab <;> decide
  unfold Eligible
  rw [hty]
  rfl

theorem describes_asks {e : Entry} {r : Row} (h : Describes r e) : Asks e r.mjd r.exptime := by
  refine ⟨h.mjd, h.exptime, ?_, ?_, h.opmode.1, ?_, ?_⟩
  · rw [h.obsnum]; simp
  · rcases h.naxis with ⟨h1, _⟩ | ⟨l, h1⟩ <;> rw [h1] <;> simp
  · rw [h.emgain]; simp
  · rw [h.excamt]; simp

/-- **C157.** A calibration saved under a new name is found again for its own date exactly if no other of its type (for darks, with its
exposure time) has this date. -/
theorem C157_own_iff {s s' : Store} {e : Entry} {t : String} {mjd : ℚ} {x : Option ℚ} (he : PlainEntry e) (hd : ∀ r ∈ s.disk, PlainRow r)
    (habs : AbsRows s.disk) (hnew : ∀ q ∈ s.disk, q.path ≠ some e.absPath) (h : createEntry s e true = .ok s') (ht : TypeName e.cls t)
    (hm : e.sctsrt = some mjd) (hx : e.exptime = some x) (hdark : t = "Dark" → x ≠ none) :
    (∃ r, getCalibStore s' (some e) e.cls true = .ok r ∧ r.path = some e.absPath) ↔
      ∀ q ∈ s.disk, Eligible q t x → q.mjd ≠ mjd := by
  cases hv : valuesFromEntry e true with
  | error y => simp [createEntry, hv, bind, Except.bind] at h
  | ok new =>
    have hdesc := values_ok_iff.1 hv
    have hask := describes_asks hdesc
    have e1 : new.mjd = mjd := Option.some.inj (hdesc.mjd.symm.trans hm)
    have e2 : new.exptime = x := Option.some.inj (hdesc.exptime.symm.trans hx)
    simp [createEntry, hv, bind, Except.bind, pure, Except.pure] at h
    subst h
    have hin : inValues e.absPath (load s.disk) = false := by
      rw [Bool.eq_false_iff]
      intro hv'
      obtain ⟨r, hr, hp⟩ := (inValues_plain he.path (plainRows_load hd)).1 hv'
      obtain ⟨r0, hr0, rfl⟩ := List.mem_map.1 hr
      exact hnew r0 hr0 ((reloadRow_path_iff (habs r0 hr0) _).1 hp)
    have hdb : load (upsert (load s.disk) e.absPath new) = load (load s.disk) ++ [reloadRow new] := by
      unfold upsert
      rw [hin]
      simp [load]
    have hpn : (reloadRow new).path = some e.absPath := reloadRow_path_abs hdesc.path he.path
    have hfresh : ∀ q ∈ load (load s.disk), q.path ≠ (reloadRow new).path := by
      intro q hq hqp
      rw [hpn] at hqp
      obtain ⟨r1, hr1, rfl⟩ := List.mem_map.1 hq
      obtain ⟨r0, hr0, rfl⟩ := List.mem_map.1 hr1
      exact hnew r0 hr0 ((reloadRow_path_iff (habs r0 hr0) _).1
        ((reloadRow_path_iff (absRows_load habs _ (List.mem_map_of_mem hr0)) _).1 hqp))
    have hel : Eligible (reloadRow new) t x := by
      rw [eligible_reload ht]
      obtain ⟨t', ht', htn⟩ := hdesc.type
      have : t' = t := Option.some.inj ((typeName_iff.1 htn).symm.trans (typeName_iff.1 ht))
      subst this
      refine ⟨ht', fun h1 => ?_⟩
      obtain ⟨v, hv⟩ := Option.ne_none_iff_exists'.1 (hdark h1)
      exact ⟨v, by rw [e2, hv], hv⟩
    rw [e1, e2] at hask
    have key := C157_new_iff ht hask hfresh hel
    unfold getCalibStore
    simp only [if_true]
    rw [hdb]
    constructor
    · rintro ⟨r, hr, hp⟩ q hq hqe hqm
      have hrn : r = reloadRow new := by
        obtain ⟨pre, post, hs, -, -, -⟩ := ((C03_get_calib_frame _ e e.cls t mjd x ht hask.mjd hask.exptime hask.obsnum hask.shape
          hask.opmode hask.emgain hask.excamt).1 r).1 hr
        have hmem : r ∈ load (load s.disk) ++ [reloadRow new] := by rw [hs]; simp
        rcases List.mem_append.1 hmem with hm' | hm'
        · exact absurd (hp.trans hpn.symm) (hfresh r hm')
        · simpa using hm'
      subst hrn
      have := key.1 hr (reloadRow (reloadRow q)) (List.mem_map_of_mem (List.mem_map_of_mem hq))
        ((eligible_reload ht).2 ((eligible_reload ht).2 hqe))
      rw [show (reloadRow (reloadRow q)).mjd = mjd from hqm, show (reloadRow new).mjd = mjd from e1] at this
      exact lt_irrefl _ this
    · intro hall
      refine ⟨reloadRow new, key.2 ?_, hpn⟩
      intro q hq hqe
      obtain ⟨r1, hr1, rfl⟩ := List.mem_map.1 hq
      obtain ⟨r0, hr0, rfl⟩ := List.mem_map.1 hr1
      rw [eligible_reload ht, eligible_reload ht] at hqe
      have h1 := hall r0 hr0 hqe
      rw [show (reloadRow new).mjd = mjd from e1, show (reloadRow (reloadRow r0)).mjd = r0.mjd from rfl, sub_self, abs_zero, abs_pos]
      exact sub_ne_zero.2 h1

/-- **C157.** So the bad pixel map of the flat recipe is made with the flat of the same run exactly if no other flat has its date. -/
theorem C157_flat_iff {s s' : Store} {e : Entry} {mjd : ℚ} {x : Option ℚ} (hc : e.cls = .flat) (he : PlainEntry e)
    (hd : ∀ r ∈ s.disk, PlainRow r) (habs : AbsRows s.disk) (hnew : ∀ q ∈ s.disk, q.path ≠ some e.absPath)
    (h : createEntry s e true = .ok s') (hm : e.sctsrt = some mjd) (hx : e.exptime = some x) :
    (∃ r, flatOfMap s e = .ok r ∧ r.path = some e.absPath) ↔ ∀ q ∈ s.disk, q.type = some "FlatField" → q.mjd ≠ mjd := by
  have ht : TypeName e.cls "FlatField" := hc ▸ TypeName.flat
  have key := C157_own_iff he hd habs hnew h ht hm hx (fun h0 => absurd h0 (by decide))
  rw [hc] at key
  have h1 : flatOfMap s e = getCalibStore s' (some e) .flat true := by
    unfold flatOfMap
    rw [h]
    rfl
  rw [h1, key]
  constructor
  · intro hall q hq hqt
    exact hall q hq ⟨hqt, fun h0 => absurd h0 (by decide)⟩
  · intro hall q hq hqe
    exact hall q hq hqe.1

/-- **C157, violated.** A calibration that is made again under another name is never chosen for any frame as long as the old one is in
the database: of two with the same date the first in the table wins. -/
theorem C157_violated_remade {a b c : Table} {old new : Row} (hn : NoDupPaths (a ++ old :: (b ++ new :: c))) (h1 : old.type = new.type)
    (h2 : old.mjd = new.mjd) (h3 : old.exptime = new.exptime) {f : Entry} {cls : Cls} {t : String} {mjd : ℚ} {x : Option ℚ}
    (ht : TypeName cls t) (ha : Asks f mjd x) : getCalib (a ++ old :: (b ++ new :: c)) (some f) cls ≠ .ok new := by
  intro h
  rw [(C03_get_calib_frame _ f cls t mjd x ht ha.mjd ha.exptime ha.obsnum ha.shape ha.opmode ha.emgain ha.excamt).1 new] at h
  obtain ⟨pre, post, hs, he, hp, -⟩ := h
  have hnd : (a ++ old :: (b ++ new :: c)).Nodup := List.Nodup.of_map _ hn
  have hs' : (a ++ old :: b) ++ new :: c = pre ++ new :: post := by rw [← hs]; simp
  have hpre : a ++ old :: b = pre := by
    rw [List.append_eq_append_iff] at hs'
    rcases hs' with ⟨l, h5, h6⟩ | ⟨l, h5, h6⟩
    · rcases l with _ | ⟨z, l⟩
      · simpa using h5.symm
      · exfalso
        rw [List.cons_append, List.cons.injEq] at h6
        obtain ⟨rfl, h6⟩ := h6
        rw [show a ++ old :: (b ++ new :: c) = (a ++ old :: b) ++ new :: c by simp, h6] at hnd
        have := (List.nodup_cons.1 (List.nodup_append.1 hnd).2.1).1
        exact this (by simp)
    · rcases l with _ | ⟨z, l⟩
      · simpa using h5
      · exfalso
        rw [List.cons_append, List.cons.injEq] at h6
        obtain ⟨rfl, h6⟩ := h6
        have hd' : (pre ++ new :: post).Nodup := hs ▸ hnd
        rw [h6] at hd'
        have := (List.nodup_cons.1 (List.nodup_append.1 hd').2.1).1
        exact this (by simp)
  have := hp old (hpre ▸ by simp) ⟨h1.trans he.1, fun hd => by rw [h3]; exact he.2 hd⟩
  dsimp only at this
  rw [h2] at this
  exact lt_irrefl _ this

/-- **C157.** Without a frame the new one is chosen, if its time of creation is later. -/
theorem C157_newest_iff {db : Table} {new : Row} {cls : Cls} {t : String} (ht : TypeName cls t) (hf : ∀ q ∈ db, q.path ≠ new.path)
    (hty : new.type = some t) :
    getCalib (db ++ [new]) none cls = .ok new ↔ ∀ q ∈ db, q.type = some t → q.dateCreated < new.dateCreated := by
  rw [(C03_get_calib_none _ cls t ht).1 new]
  exact firstBest_last (fun h => hf new h rfl) hty

/-- **C157.** Made again under the same name, it takes the place of the old one in the table, and is chosen for its date unless one before
it has the same. -/
theorem C157_in_place {a b : Table} {old new : Row} {p : String} (hn : NoDupPaths (a ++ old :: b)) (ho : old.path = some p)
    (hnew : new.path = some p) :
    upsert (a ++ old :: b) p new = a ++ new :: b ∧
    ∀ {f : Entry} {cls : Cls} {t : String} {x : Option ℚ}, TypeName cls t → Asks f new.mjd x → Eligible new t x →
      (getCalib (a ++ new :: b) (some f) cls = .ok new ↔ ∀ q ∈ a, Eligible q t x → q.mjd ≠ new.mjd) := by
  have hpaths : ∀ q ∈ a ++ b, q.path ≠ some p := by
    unfold NoDupPaths at hn
    rw [List.map_append, List.map_cons, List.nodup_middle, List.nodup_cons, ho, ← List.map_append] at hn
    intro q hq hqp
    exact hn.1 (List.mem_map.2 ⟨q, hq, hqp⟩)
  have hmap : ∀ l : Table, (∀ q ∈ l, q.path ≠ some p) → (l.map fun r => if r.path = some p then new else r) = l := by
    intro l hl
    conv_rhs => rw [← List.map_id l]
    apply List.map_congr_left
    intro q hq
    exact if_neg (hl q hq)
  constructor
  · unfold upsert
    rw [if_pos (inValues_of_path (r := old) (by simp) ho), List.map_append, List.map_cons, if_pos ho,
      hmap a fun q hq => hpaths q (List.mem_append_left _ hq), hmap b fun q hq => hpaths q (List.mem_append_right _ hq)]
  · intro f cls t x ht ha he
    rw [(C03_get_calib_frame _ f cls t new.mjd x ht ha.mjd ha.exptime ha.obsnum ha.shape ha.opmode ha.emgain ha.excamt).1 new]
    have hna : new ∉ a := fun h => hpaths new (List.mem_append_left _ h) hnew
    have hnb : new ∉ b := fun h => hpaths new (List.mem_append_right _ h) hnew
    constructor
    · rintro ⟨pre, post, hs, -, h1, -⟩ q hq hqe hqm
      have hpre : a = pre := by
        rw [List.append_eq_append_iff] at hs
        rcases hs with ⟨l, h5, h6⟩ | ⟨l, h5, h6⟩
        · rcases l with _ | ⟨z, l⟩
          · simpa using h5.symm
          · exfalso
            rw [List.cons_append, List.cons.injEq] at h6
            exact hnb (by rw [h6.2]; simp)
        · rcases l with _ | ⟨z, l⟩
          · simpa using h5
          · exfalso
            rw [List.cons_append, List.cons.injEq] at h6
            exact hna (by rw [h5, h6.1]; simp)
      subst hpre
      have := h1 q hq hqe
      dsimp only at this
      rw [hqm] at this
      exact lt_irrefl _ this
    · intro h
      refine ⟨a, b, rfl, he, ?_, ?_⟩
      · intro q hq hqe
        rw [sub_self, abs_zero, abs_pos]
        exact sub_ne_zero.2 (h q hq hqe)
      · intro q _ _ hlt
        rw [sub_self, abs_zero] at hlt
        exact absurd hlt (not_lt.2 (abs_nonneg _))

/-- **C157.** Registering a calibration under a new name does not change what is chosen of the other types: the calibrations of several
recipes may be chosen before the first is run (walker.py 93-99) unless one makes what a later one uses. -/
theorem C157_other_type {db : Table} {p : String} {new : Row} (hf : inValues p db = false) {cls : Cls} (hty : new.type ≠ label cls)
    (frame : Option Entry) : getCalib (upsert db p new) frame cls = getCalib db frame cls := by
  have hu : upsert db p new = db ++ [new] := by
    unfold upsert
    rw [if_neg (by rw [hf]; simp)]
  unfold getCalib
  cases hl : label cls with
  | none => rfl
  | some lab =>
    have hfil : (upsert db p new).filter (fun r => r.type == some lab) = db.filter fun r => r.type == some lab := by
      rw [hu, List.filter_append]
      have : (new.type == some lab) = false := by
        rw [beq_eq_false_iff_ne]
        rw [hl] at hty
        exact hty
      simp [this]
    simp only [bind, Except.bind, pure, Except.pure]
    rw [hfil]

/-! ## Non-vacuity -/

/-- A flat field taken at `mjd`. -/
def exFlat (p : String) (mjd : ℚ) : Entry :=
  { cls := .flat, absPath := p, sctsrt := some mjd, exptime := some (some 60), drpnfile := some 6, drpctime := some 61000,
    drpversn := some "2.1", obsnum := some 1, hash := "17", shape := [1024, 1024], opmode := some "IMG", emgain := some (some 1),
    excamt := some (some (-100)) }

/-- Processed once, and again in another folder: the map of the second run is made with the first flat. -/
example : (flatOfMap ⟨[], []⟩ (exFlat "/a/flt.fits" 60000)).map Row.path = .ok (some "/a/flt.fits") ∧
    ((createEntry ⟨[], []⟩ (exFlat "/a/flt.fits" 60000) true).bind fun s => flatOfMap s (exFlat "/b/flt.fits" 60000)).map Row.path
      = .ok (some "/a/flt.fits") ∧
    ((createEntry ⟨[], []⟩ (exFlat "/a/flt.fits" 60000) true).bind fun s => flatOfMap s (exFlat "/b/flt.fits" 60001)).map Row.path
      = .ok (some "/b/flt.fits") := by decide +kernel

end Corgi.CalDB

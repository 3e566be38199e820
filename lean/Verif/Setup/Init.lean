import Verif.CalDB.Props
import Mathlib.Data.List.Nodup

/-!
# The default calibrations (caldb.py 330-395, data.py 1151-1219 and 1484-1529, ops.py 7-33): model and C125

On top of the model of the calibration database. The folder of default calibrations is the list of the products in it;
a file exists when there is a product of that path. `CalDB()` starts from an empty table when there is no CSV file, so a
missing file and an empty one are the same here.
-/

namespace Corgi.Init

open Corgi.CalDB

/-- `DetectorParams({}, date_valid)` (data.py 1151-1219) as the database sees it; 2023-11-01 is MJD 60249. -/
def detParams (path hash version : String) (created : ℚ) : Entry :=
  { cls := .detparams, absPath := path, sctsrt := some 60249, exptime := some (some 1), drpnfile := none,
    drpctime := some created, drpversn := some version, obsnum := some 0, hash := hash, shape := [1, 1],
    opmode := some "", emgain := some (some 1), excamt := some (some 40) }

/-- `FpamFsamCal([], date_valid)` (data.py 1484-1529); 2024-02-10 is MJD 60350. -/
def fpamFsam (path hash version : String) (created : ℚ) : Entry :=
  { cls := .fpamfsam, absPath := path, sctsrt := some 60350, exptime := some (some 0), drpnfile := none,
    drpctime := some created, drpversn := some version, obsnum := some 0, hash := hash, shape := [2, 2, 2],
    opmode := some "", emgain := some (some 1), excamt := some (some 40) }

/-- `os.path.exists` in the folder -/
def there (dir : List Entry) (p : String) : Bool := dir.any fun e => decide (e.absPath = p)

/-- Lines 375-377 and 380-383: the folder afterwards. -/
def ensure (dir : List Entry) (e : Entry) : List Entry := if there dir e.absPath then dir else dir ++ [e]

/-- `initialize`, lines 365-392 -/
def initDefaults (d f : Entry) (dir : List Entry) (s : Store) : Except Err (List Entry × Store) :=
  let dir1 := ensure dir d
  let dir2 := ensure dir1 f
  let rescan := !there dir d.absPath || !there dir1 f.absPath
  if rescan then
    match scanDir s dir2 true with
    | .ok s' => .ok (dir2, s')
    | .error e => .error e
  else .ok (dir2, s)

/-- `step_1_initialize` and `step_2_load_cal` (ops.py 7-33) after the configuration is read: `frames` are the products
in `main_cal_dir`. -/
def setUp (d f : Entry) (dir frames : List Entry) (s : Store) : Except Err Store :=
  match initDefaults d f dir s with
  | .error e => .error e
  | .ok (_, s') => scanDir s' frames true

/-! ## Specification -/

/-- The database has a row for the file of the product, under its type. -/
def Has (db : Table) (e : Entry) : Prop :=
  ∃ r ∈ db, r.path = some e.absPath ∧ ∃ t, TypeName e.cls t ∧ r.type = some t

/-- Products the database can take: complete headers, absolute path. -/
def Good (e : Entry) : Prop := PlainEntry e ∧ ∃ r, Describes r e

/-! ## Tools -/

theorem type_not_na {c : Cls} {t : String} (h : TypeName c t) : reloadStr (some t) = some t := by
  cases h <;> decide

theorem create_ok {s s' : Store} {e : Entry} (h : createEntry s e true = .ok s') :
    ∃ r, Describes r e ∧ s'.disk = upsert (load s.disk) e.absPath r := by
  cases hv : valuesFromEntry e true with
  | error x => simp [createEntry, hv, bind, Except.bind] at h
  | ok new =>
    simp [createEntry, hv, bind, Except.bind, pure, Except.pure] at h
    subst h
    exact ⟨new, values_ok_iff.1 hv, rfl⟩

theorem create_iff {s : Store} {e : Entry} : (∃ s', createEntry s e true = .ok s') ↔ ∃ r, Describes r e := by
  constructor
  · rintro ⟨s', h⟩
    obtain ⟨r, hr, -⟩ := create_ok h
    exact ⟨r, hr⟩
  · rintro ⟨r, hr⟩
    refine ⟨⟨upsert (load s.disk) e.absPath r, upsert (load s.disk) e.absPath r⟩, ?_⟩
    simp [createEntry, values_ok_iff.2 hr, bind, Except.bind, pure, Except.pure]

theorem has_create {s s' : Store} {e : Entry} (hp : Plain s.disk) (he : PlainEntry e)
    (h : createEntry s e true = .ok s') : Has s'.disk e ∧ Plain s'.disk := by
  obtain ⟨r, hr, hd⟩ := create_ok h
  rw [hd]
  refine ⟨⟨r, mem_upsert_new (inValues_plain he.path hp.load.plain).1, hr.path, ?_⟩, hp.load.upsert hr he⟩
  obtain ⟨t, ht, hn⟩ := hr.type
  exact ⟨t, hn, ht⟩

theorem has_keep {s s' : Store} {e g : Entry} (hg : AbsPath g.absPath) (hne : g.absPath ≠ e.absPath)
    (hh : Has s.disk g) (h : createEntry s e true = .ok s') : Has s'.disk g := by
  obtain ⟨new, hr, hd⟩ := create_ok h
  obtain ⟨r, hm, hpath, t, ht, hty⟩ := hh
  rw [hd]
  have hp' : (reloadRow r).path = some g.absPath := reloadRow_path_abs hpath hg
  refine ⟨reloadRow r, ?_, hp', t, ht, ?_⟩
  · have hl : reloadRow r ∈ load s.disk := List.mem_map_of_mem hm
    unfold upsert
    split
    · refine List.mem_map.2 ⟨reloadRow r, hl, ?_⟩
      rw [if_neg]
      rw [hp']
      intro h
      exact hne (Option.some.inj h)
    · exact List.mem_append_left _ hl
  · show reloadStr r.type = some t
    rw [hty]
    exact type_not_na ht

/-- The loop of the scan. -/
theorem scan_loop {l : List Entry} {s s' : Store} (hp : Plain s.disk) (hl : ∀ e ∈ l, PlainEntry e)
    (hn : (l.map Entry.absPath).Nodup) (h : l.foldlM (fun s e => createEntry s e true) s = .ok s') :
    Plain s'.disk ∧ (∀ e ∈ l, Has s'.disk e) ∧
      ∀ g, AbsPath g.absPath → g.absPath ∉ l.map Entry.absPath → Has s.disk g → Has s'.disk g := by
  induction l generalizing s with
  | nil =>
    simp only [List.foldlM_nil, pure, Except.pure, Except.ok.injEq] at h
    subst h
    exact ⟨hp, by simp, fun g _ _ hg => hg⟩
  | cons e l ih =>
    rw [List.foldlM_cons] at h
    cases hc : createEntry s e true with
    | error x => rw [hc] at h; cases h
    | ok s1 =>
      rw [hc] at h
      have he := hl e (by simp)
      obtain ⟨h1, h2⟩ := has_create hp he hc
      rw [List.map_cons, List.nodup_cons] at hn
      obtain ⟨i1, i2, i3⟩ := ih h2 (fun x hx => hl x (List.mem_cons_of_mem _ hx)) hn.2 h
      refine ⟨i1, ?_, ?_⟩
      · intro x hx
        rcases List.mem_cons.1 hx with rfl | hx
        · exact i3 x he.path hn.1 h1
        · exact i2 x hx
      · intro g hg hgn hh
        rw [List.map_cons, List.mem_cons] at hgn
        push Not at hgn
        exact i3 g hg hgn.2 (has_keep hg hgn.1 hh hc)

theorem loop_ok_iff {l : List Entry} {s : Store} :
    (∃ s', l.foldlM (fun s e => createEntry s e true) s = .ok s') ↔ ∀ e ∈ l, ∃ r, Describes r e := by
  induction l generalizing s with
  | nil => simp [pure, Except.pure]
  | cons e l ih =>
    rw [List.foldlM_cons]
    cases hc : createEntry s e true with
    | error x =>
      simp only [bind, Except.bind, reduceCtorEq, exists_false, false_iff, List.mem_cons, forall_eq_or_imp, not_and]
      intro hd
      obtain ⟨s', hs⟩ := create_iff (s := s).2 hd
      rw [hc] at hs; cases hs
    | ok s1 =>
      simp only [bind, Except.bind, List.mem_cons, forall_eq_or_imp]
      rw [ih]
      have := create_iff.1 ⟨s1, hc⟩
      tauto

/-! ## C125 -/

/-- A scan succeeds exactly when every calibration in the folder has complete headers; one that has not stops it. -/
theorem C125_scan_ok {frames : List Entry} {s : Store} : (∃ s', scanDir s frames true = .ok s') ↔
    ∀ e ∈ frames, (∃ t, TypeName e.cls t) → ∃ r, Describes r e := by
  unfold scanDir
  rw [loop_ok_iff]
  constructor
  · rintro h e he ⟨t, ht⟩
    exact h e (List.mem_filter.2 ⟨he, by simp [typeName_iff.1 ht]⟩)
  · intro h e he
    obtain ⟨h1, h2⟩ := List.mem_filter.1 he
    obtain ⟨t, ht⟩ := Option.isSome_iff_exists.1 h2
    exact h e h1 ⟨t, typeName_iff.2 ht⟩

/-- After a scan every calibration of the folder is in the database under its type, and what was there under another
path still is. -/
theorem C125_scan {frames : List Entry} {s s' : Store} (hp : Plain s.disk) (hf : ∀ e ∈ frames, PlainEntry e)
    (hn : (frames.map Entry.absPath).Nodup) (h : scanDir s frames true = .ok s') :
    Plain s'.disk ∧ (∀ e ∈ frames, (∃ t, TypeName e.cls t) → Has s'.disk e) ∧
      ∀ g, AbsPath g.absPath → g.absPath ∉ frames.map Entry.absPath → Has s.disk g → Has s'.disk g := by
  unfold scanDir at h
  have hsub : (frames.filter fun e => (label e.cls).isSome).Sublist frames := List.filter_sublist
  obtain ⟨h1, h2, h3⟩ := scan_loop hp (fun e he => hf e (hsub.subset he)) (hn.sublist (hsub.map _)) h
  refine ⟨h1, ?_, ?_⟩
  · rintro e he ⟨t, ht⟩
    exact h2 e (List.mem_filter.2 ⟨he, by simp [typeName_iff.1 ht]⟩)
  · intro g hg hgn hh
    exact h3 g hg (fun hm => hgn ((hsub.map _).subset hm)) hh

theorem there_iff {dir : List Entry} {p : String} : there dir p = true ↔ p ∈ dir.map Entry.absPath := by
  simp [there]

/-- Both default files are in the folder afterwards, and nothing was removed from it. -/
theorem C125_files {d f : Entry} {dir dir' : List Entry} {s s' : Store}
    (h : initDefaults d f dir s = .ok (dir', s')) :
    d.absPath ∈ dir'.map Entry.absPath ∧ f.absPath ∈ dir'.map Entry.absPath ∧ dir <+: dir' := by
  have key : dir' = ensure (ensure dir d) f := by
    unfold initDefaults at h
    dsimp only at h
    split at h
    · split at h
      · exact (congrArg Prod.fst (Except.ok.inj h)).symm
      · cases h
    · exact (congrArg Prod.fst (Except.ok.inj h)).symm
  have pre : ∀ l (e : Entry), l <+: ensure l e := by
    intro l e
    unfold ensure
    split
    · exact List.prefix_rfl
    · exact List.prefix_append _ _
  have mem : ∀ l (e : Entry), e.absPath ∈ (ensure l e).map Entry.absPath := by
    intro l e
    unfold ensure
    split
    · rename_i h
      exact there_iff.1 h
    · simp
  subst key
  exact ⟨((pre _ _).map _).subset (mem _ _), mem _ _, (pre _ _).trans (pre _ _)⟩

/-- With both default files in place nothing is done at all: the database is not even looked at. -/
theorem C125_nothing {d f : Entry} {dir : List Entry} {s : Store} (hd : d.absPath ∈ dir.map Entry.absPath)
    (hf : f.absPath ∈ dir.map Entry.absPath) : initDefaults d f dir s = .ok (dir, s) := by
  have h1 := there_iff.2 hd
  have h2 := there_iff.2 hf
  unfold initDefaults ensure
  simp [h1, h2]

/-- So with a new database next to existing default files the defaults are never registered. -/
theorem C125_violated {d f : Entry} {dir : List Entry} {m : Table} (hd : d.absPath ∈ dir.map Entry.absPath)
    (hf : f.absPath ∈ dir.map Entry.absPath) : ∃ s', initDefaults d f dir ⟨m, []⟩ = .ok (dir, s') ∧
      ¬ Has s'.disk d ∧ ¬ Has s'.disk f ∧ (∀ frame, ∃ e, getCalibStore s' frame .detparams true = .error e) := by
  refine ⟨_, C125_nothing hd hf, ?_, ?_, ?_⟩
  · rintro ⟨r, hr, -⟩; cases hr
  · rintro ⟨r, hr, -⟩; cases hr
  · intro frame
    cases frame with
    | none => exact ⟨_, rfl⟩
    | some x =>
      simp only [getCalibStore, if_true, load, List.map_nil]
      unfold getCalib
      simp only [label, bind, Except.bind, pure, Except.pure]
      cases valuesFromEntry x false with
      | error e => exact ⟨e, rfl⟩
      | ok r => exact ⟨_, rfl⟩

/-- Whether the defaults are registered afterwards, exactly: some file was missing, or they were already. -/
theorem C125_registered_iff {d f : Entry} {dir dir' : List Entry} {s s' : Store} (hp : Plain s.disk)
    (hdir : ∀ e ∈ dir, PlainEntry e) (hn : (dir.map Entry.absPath).Nodup) (hd : PlainEntry d) (hf : PlainEntry f)
    (hdf : d.absPath ≠ f.absPath) (hdt : ∃ t, TypeName d.cls t) (hft : ∃ t, TypeName f.cls t)
    (hdc : ∀ e ∈ dir, e.absPath = d.absPath → e.cls = d.cls) (hfc : ∀ e ∈ dir, e.absPath = f.absPath → e.cls = f.cls)
    (h : initDefaults d f dir s = .ok (dir', s')) :
    (Has s'.disk d ∧ Has s'.disk f) ↔
      (d.absPath ∉ dir.map Entry.absPath ∨ f.absPath ∉ dir.map Entry.absPath) ∨ (Has s.disk d ∧ Has s.disk f) := by
  by_cases hb : d.absPath ∈ dir.map Entry.absPath ∧ f.absPath ∈ dir.map Entry.absPath
  · rw [C125_nothing hb.1 hb.2] at h
    cases h
    tauto
  · have hleft : d.absPath ∉ dir.map Entry.absPath ∨ f.absPath ∉ dir.map Entry.absPath := by tauto
    refine ⟨fun _ => .inl hleft, fun _ => ?_⟩
    have hfiles := C125_files h
    -- the rescan happened
    have h1f : there (ensure dir d) f.absPath = there dir f.absPath := by
      unfold ensure
      split
      · rfl
      · unfold there
        simp [hdf]
    have hscan : dir' = ensure (ensure dir d) f ∧ scanDir s (ensure (ensure dir d) f) true = .ok s' := by
      unfold initDefaults at h
      dsimp only at h
      rw [h1f] at h
      have hr : (!there dir d.absPath || !there dir f.absPath) = true := by
        rw [Bool.or_eq_true, Bool.not_eq_true', Bool.not_eq_true', ← Bool.not_eq_true, ← Bool.not_eq_true, there_iff,
          there_iff]
        exact hleft
      rw [if_pos hr] at h
      split at h
      · rename_i s1 hs
        have h2 := congrArg Prod.snd (Except.ok.inj h)
        dsimp only at h2
        subst h2
        exact ⟨(congrArg Prod.fst (Except.ok.inj h)).symm, hs⟩
      · cases h
    obtain ⟨rfl, hscan⟩ := hscan
    -- properties of the folder
    have hens : ∀ l (e : Entry), (∀ x ∈ l, PlainEntry x) → PlainEntry e → (l.map Entry.absPath).Nodup →
        (∀ x ∈ ensure l e, PlainEntry x) ∧ ((ensure l e).map Entry.absPath).Nodup ∧
        (∀ x ∈ ensure l e, x ∈ l ∨ x = e) := by
      intro l e hl he hnn
      unfold ensure
      split
      · exact ⟨hl, hnn, fun x hx => .inl hx⟩
      · rename_i ht
        rw [there_iff] at ht
        refine ⟨?_, ?_, ?_⟩
        · intro x hx
          rcases List.mem_append.1 hx with hx | hx
          · exact hl x hx
          · rw [List.mem_singleton.1 hx]; exact he
        · rw [List.map_append, List.nodup_append]
          refine ⟨hnn, by simp, ?_⟩
          intro a ha b hb
          simp only [List.map_cons, List.map_nil, List.mem_singleton] at hb
          subst hb
          rintro rfl
          exact ht ha
        · intro x hx
          rcases List.mem_append.1 hx with hx | hx
          · exact .inl hx
          · exact .inr (List.mem_singleton.1 hx)
    obtain ⟨a1, a2, a3⟩ := hens dir d hdir hd hn
    obtain ⟨b1, b2, b3⟩ := hens _ f a1 hf a2
    obtain ⟨-, hall, -⟩ := C125_scan hp b1 b2 hscan
    have fin : ∀ e : Entry, e.absPath ∈ (ensure (ensure dir d) f).map Entry.absPath → (∃ t, TypeName e.cls t) →
        (∀ x ∈ ensure (ensure dir d) f, x.absPath = e.absPath → x.cls = e.cls) → Has s'.disk e := by
      intro e he ht hc
      obtain ⟨x, hx, hxp⟩ := List.mem_map.1 he
      have hcls := hc x hx hxp
      obtain ⟨r, hr, h1, t, h2, h3⟩ := hall x hx (by rw [hcls]; exact ht)
      exact ⟨r, hr, by rw [h1, hxp], t, by rw [← hcls]; exact h2, h3⟩
    refine ⟨fin d hfiles.1 hdt ?_, fin f hfiles.2.1 hft ?_⟩
    · intro x hx hxp
      rcases b3 x hx with hx | rfl
      · rcases a3 x hx with hx | rfl
        · exact hdc x hx hxp
        · rfl
      · exact absurd hxp.symm hdf
    · intro x hx hxp
      rcases b3 x hx with hx | rfl
      · rcases a3 x hx with hx | rfl
        · exact hfc x hx hxp
        · exact absurd hxp hdf
      · rfl

/-- A second call does nothing, whatever became of the database in between. -/
theorem C125_again {d f : Entry} {dir dir' : List Entry} {s s' t : Store}
    (h : initDefaults d f dir s = .ok (dir', s')) : initDefaults d f dir' t = .ok (dir', t) :=
  C125_nothing (C125_files h).1 (C125_files h).2.1

/-- The default products have complete headers. -/
theorem C125_defaults_good {p q h v : String} {c : ℚ} (hp : AbsPath p) (hq : AbsPath q) (hh : ¬ AbsPath h)
    (hv : ¬ AbsPath v) : Good (detParams p h v c) ∧ Good (fpamFsam q h v c) := by
  have e0 : ¬ AbsPath "" := by decide
  refine ⟨⟨⟨hp, hh, ?_, ?_⟩, ?_⟩, ⟨⟨hq, hh, ?_, ?_⟩, ?_⟩⟩
  · intro s hs; cases hs; exact hv
  · intro s hs; cases hs; exact e0
  · exact ⟨_, values_ok_iff.1 rfl⟩
  · intro s hs; cases hs; exact hv
  · intro s hs; cases hs; exact e0
  · exact ⟨_, values_ok_iff.1 rfl⟩

/-- On a first run with an empty folder and database, set-up with a folder of good calibrations of other paths
succeeds, and afterwards all of them and both defaults are in the database. -/
theorem C125_first_run_partial {p q h v : String} {c : ℚ} {frames : List Entry} {m : Table} (hp : AbsPath p)
    (hq : AbsPath q) (hh : ¬ AbsPath h) (hv : ¬ AbsPath v) (hpq : p ≠ q)
    (hf : ∀ e ∈ frames, Good e) (hn : (frames.map Entry.absPath).Nodup)
    (ho : p ∉ frames.map Entry.absPath ∧ q ∉ frames.map Entry.absPath) :
    ∃ s', setUp (detParams p h v c) (fpamFsam q h v c) [] frames ⟨m, []⟩ = .ok s' ∧
      Has s'.disk (detParams p h v c) ∧ Has s'.disk (fpamFsam q h v c) ∧
      ∀ e ∈ frames, (∃ t, TypeName e.cls t) → Has s'.disk e := by
  obtain ⟨g1, g2⟩ := C125_defaults_good (c := c) hp hq hh hv
  have hempty : Plain ([] : Table) := ⟨by simp [AbsRows], by simp [NoDupPaths], by simp⟩
  have hen : ensure (ensure [] (detParams p h v c)) (fpamFsam q h v c) = [detParams p h v c, fpamFsam q h v c] := by
    simp [ensure, there, detParams, fpamFsam, hpq]
  obtain ⟨s1, hs1⟩ := (C125_scan_ok (frames := [detParams p h v c, fpamFsam q h v c]) (s := ⟨m, []⟩)).2 (by
    intro e he _
    simp only [List.mem_cons, List.not_mem_nil, or_false] at he
    rcases he with rfl | rfl
    · exact g1.2
    · exact g2.2)
  have hini : initDefaults (detParams p h v c) (fpamFsam q h v c) [] ⟨m, []⟩ =
      .ok ([detParams p h v c, fpamFsam q h v c], s1) := by
    unfold initDefaults
    dsimp only
    rw [hen, if_pos (by simp [there]), hs1]
  obtain ⟨s', hs'⟩ := (C125_scan_ok (frames := frames) (s := s1)).2 fun e he _ => (hf e he).2
  obtain ⟨p1, r1, -⟩ := C125_scan (s := ⟨m, []⟩) hempty (frames := [detParams p h v c, fpamFsam q h v c]) (by
    intro e he
    simp only [List.mem_cons, List.not_mem_nil, or_false] at he
    rcases he with rfl | rfl
    · exact g1.1
    · exact g2.1) (by simp [detParams, fpamFsam, hpq]) hs1
  obtain ⟨-, r2, r3⟩ := C125_scan p1 (fun e he => (hf e he).1) hn hs'
  refine ⟨s', by unfold setUp; rw [hini]; exact hs', ?_, ?_, r2⟩
  · exact r3 _ hp ho.1 (r1 _ (by simp) ⟨_, .detparams⟩)
  · exact r3 _ hq ho.2 (r1 _ (by simp) ⟨_, .fpamfsam⟩)

example : ∃ s', setUp (detParams "/c/D.fits" "1" "2.0" 5) (fpamFsam "/c/F.fits" "1" "2.0" 5) []
    [exDark "/m/a.fits" 1 2 3] ⟨[], []⟩ = .ok s' ∧ s'.disk.length = 3 := ⟨_, rfl, by decide⟩

end Corgi.Init

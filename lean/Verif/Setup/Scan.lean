import Verif.Setup.Init
import Verif.CalDB.Choice

/-!
# Folders that are scanned in another order or again (caldb.py 330-361, ops.py 20-33): C181

`os.walk` returns the files of a folder in an order that depends on the file system. Here the database after a scan is described exactly, and
scans of the same files in different orders, scans of two folders and repeated scans are compared. No new definitions of the model.
-/

namespace Corgi.Init

open CalDB

/-! ## Specification -/

/-- The row is what the database reads back for one of the calibrations. -/
def RowOf (frames : List Entry) (r : Row) : Prop :=
  ∃ e ∈ frames, (∃ t, TypeName e.cls t) ∧ ∃ q, Describes q e ∧ r = reloadRow q

/-- The path of the row is not that of one of the calibrations. -/
def Elsewhere (frames : List Entry) (r : Row) : Prop :=
  ∀ e ∈ frames, (∃ t, TypeName e.cls t) → r.path ≠ some e.absPath

/-! ## Lemmas -/

theorem mem_load_upsert {db : Table} {e : Entry} {q r : Row} (hp : Plain db) (he : PlainEntry e) :
    r ∈ load (upsert (load db) e.absPath q) ↔ r = reloadRow q ∨ (r ∈ load db ∧ r.path ≠ some e.absPath) := by
  have hv := inValues_plain he.path hp.load.plain
  have idem : ∀ z ∈ load db, reloadRow z = z := by
    intro z hz
    obtain ⟨y, -, rfl⟩ := List.mem_map.1 hz
    exact reloadRow_idem y
  constructor
  · intro h
    obtain ⟨z, hz, rfl⟩ := List.mem_map.1 h
    unfold upsert at hz
    split at hz
    · obtain ⟨y, hy, rfl⟩ := List.mem_map.1 hz
      split
      · exact .inl rfl
      · rw [idem y hy]
        exact .inr ⟨hy, by assumption⟩
    · rename_i hn
      rcases List.mem_append.1 hz with hz | hz
      · rw [idem z hz]
        exact .inr ⟨hz, fun hc => hn (hv.2 ⟨z, hz, hc⟩)⟩
      · exact .inl (by rw [List.mem_singleton.1 hz])
  · rintro (rfl | ⟨h1, h2⟩)
    · exact List.mem_map_of_mem (mem_upsert_new hv.1)
    · refine List.mem_map.2 ⟨r, ?_, idem r h1⟩
      unfold upsert
      split
      · exact List.mem_map.2 ⟨r, h1, if_neg h2⟩
      · exact List.mem_append_left _ h1

theorem describes_unique {e : Entry} {q r : Row} (hq : Describes q e) (hr : Describes r e) : q = r :=
  Except.ok.inj ((values_ok_iff.2 hq).symm.trans (values_ok_iff.2 hr))

/-- The loop of the scan, exactly. -/
theorem scan_rows {l : List Entry} {s s' : Store} (hp : Plain s.disk) (hl : ∀ e ∈ l, PlainEntry e)
    (hn : (l.map Entry.absPath).Nodup) (h : l.foldlM (fun s e => createEntry s e true) s = .ok s') (r : Row) :
    r ∈ load s'.disk ↔ (∃ e ∈ l, ∃ q, Describes q e ∧ r = reloadRow q) ∨ (r ∈ load s.disk ∧ ∀ e ∈ l, r.path ≠ some e.absPath) := by
  induction l generalizing s with
  | nil =>
    simp only [List.foldlM_nil, pure, Except.pure, Except.ok.injEq] at h
    subst h
    simp
  | cons e l ih =>
    rw [List.foldlM_cons] at h
    cases hc : createEntry s e true with
    | error x => rw [hc] at h; cases h
    | ok s1 =>
      rw [hc] at h
      have he := hl e (by simp)
      obtain ⟨q, hq, hd⟩ := create_ok hc
      obtain ⟨-, h2⟩ := has_create hp he hc
      rw [List.map_cons, List.nodup_cons] at hn
      rw [ih h2 (fun x hx => hl x (List.mem_cons_of_mem _ hx)) hn.2 h, hd, mem_load_upsert hp he]
      constructor
      · rintro (⟨x, hx, q', h3, h4⟩ | ⟨rfl | ⟨h3, h4⟩, h5⟩)
        · exact .inl ⟨x, List.mem_cons_of_mem _ hx, q', h3, h4⟩
        · exact .inl ⟨e, by simp, q, hq, rfl⟩
        · refine .inr ⟨h3, fun x hx => ?_⟩
          rcases List.mem_cons.1 hx with rfl | hx
          · exact h4
          · exact h5 x hx
      · rintro (⟨x, hx, q', h3, rfl⟩ | ⟨h3, h4⟩)
        · rcases List.mem_cons.1 hx with rfl | hx
          · rw [describes_unique h3 hq]
            refine .inr ⟨.inl rfl, fun y hy hpath => hn.1 ?_⟩
            rw [reloadRow_path_abs hq.path he.path] at hpath
            rw [Option.some.inj hpath]
            exact List.mem_map_of_mem hy
          · exact .inl ⟨x, hx, q', h3, rfl⟩
        · exact .inr ⟨.inr ⟨h3, h4 e (by simp)⟩, fun x hx => h4 x (List.mem_cons_of_mem _ hx)⟩

/-- A calibration that is registered already. -/
theorem create_again {s s1 : Store} {e : Entry} {q : Row} (hp : Plain s.disk) (he : PlainEntry e) (hq : Describes q e)
    (hm : reloadRow q ∈ load s.disk) (h : createEntry s e true = .ok s1) : load s1.disk = load s.disk := by
  obtain ⟨q', hq', hd⟩ := create_ok h
  have := describes_unique hq' hq
  subst this
  have hpath : (reloadRow q').path = some e.absPath := reloadRow_path_abs hq.path he.path
  have hv : inValues e.absPath (load s.disk) = true := (inValues_plain he.path hp.load.plain).2 ⟨_, hm, hpath⟩
  rw [hd]
  unfold upsert
  rw [if_pos hv]
  show ((load s.disk).map _).map reloadRow = load s.disk
  rw [List.map_map]
  conv_rhs => rw [← List.map_id (load s.disk)]
  refine List.map_congr_left fun z hz => ?_
  show reloadRow (if z.path = some e.absPath then q' else z) = z
  split
  · rename_i hz'
    exact List.inj_on_of_nodup_map hp.load.nodup hm hz (hpath.trans hz'.symm)
  · obtain ⟨y, -, rfl⟩ := List.mem_map.1 hz
    exact reloadRow_idem y

theorem loop_again {l : List Entry} {s s' : Store} (hp : Plain s.disk) (hl : ∀ e ∈ l, PlainEntry e)
    (hm : ∀ e ∈ l, ∃ q, Describes q e ∧ reloadRow q ∈ load s.disk) (h : l.foldlM (fun s e => createEntry s e true) s = .ok s') :
    load s'.disk = load s.disk := by
  induction l generalizing s with
  | nil =>
    simp only [List.foldlM_nil, pure, Except.pure, Except.ok.injEq] at h
    rw [h]
  | cons e l ih =>
    rw [List.foldlM_cons] at h
    cases hc : createEntry s e true with
    | error x => rw [hc] at h; cases h
    | ok s1 =>
      rw [hc] at h
      have he := hl e (by simp)
      obtain ⟨q, hq, hqm⟩ := hm e (by simp)
      have h1 := create_again hp he hq hqm hc
      obtain ⟨-, h2⟩ := has_create hp he hc
      rw [ih h2 (fun x hx => hl x (List.mem_cons_of_mem _ hx)) (by rw [h1]; exact fun x hx => hm x (List.mem_cons_of_mem _ hx)) h, h1]

/-! ## C181 -/

/-- **C181** After a scan the database has the row of every calibration of the folder and the old rows of other paths, and nothing else. -/
theorem C181_rows {frames : List Entry} {s s' : Store} (hp : Plain s.disk) (hf : ∀ e ∈ frames, PlainEntry e)
    (hn : (frames.map Entry.absPath).Nodup) (h : scanDir s frames true = .ok s') (r : Row) :
    r ∈ load s'.disk ↔ RowOf frames r ∨ (r ∈ load s.disk ∧ Elsewhere frames r) := by
  unfold scanDir at h
  have hsub : (frames.filter fun e => (label e.cls).isSome).Sublist frames := List.filter_sublist
  have key : ∀ e : Entry, e ∈ (frames.filter fun e => (label e.cls).isSome) ↔ e ∈ frames ∧ ∃ t, TypeName e.cls t := by
    intro e
    rw [List.mem_filter, Option.isSome_iff_exists]
    simp only [typeName_iff]
  rw [scan_rows hp (fun e he => hf e (hsub.subset he)) (hn.sublist (hsub.map _)) h]
  unfold RowOf Elsewhere
  simp only [key, and_assoc, and_imp]

/-- **C181** The order in which the files are found does not matter for what is registered, nor for whether the scan succeeds. -/
theorem C181_order {frames frames' : List Entry} {s s₁ : Store} (hp : Plain s.disk) (hf : ∀ e ∈ frames, PlainEntry e)
    (hn : (frames.map Entry.absPath).Nodup) (hperm : frames'.Perm frames) (h : scanDir s frames true = .ok s₁) :
    ∃ s₂, scanDir s frames' true = .ok s₂ ∧ ∀ r, r ∈ load s₂.disk ↔ r ∈ load s₁.disk := by
  obtain ⟨s₂, h2⟩ := C125_scan_ok (frames := frames') (s := s).2 fun e he => (C125_scan_ok.1 ⟨s₁, h⟩) e (hperm.subset he)
  refine ⟨s₂, h2, fun r => ?_⟩
  rw [C181_rows hp (fun e he => hf e (hperm.subset he)) ((hperm.map _).nodup_iff.2 hn) h2, C181_rows hp hf hn h]
  unfold RowOf Elsewhere
  simp only [hperm.mem_iff]

/-- **C181** Two folders may be scanned in either order, or together. -/
theorem C181_folders {a b : List Entry} {s s₁ s₂ t : Store} (hp : Plain s.disk) (hf : ∀ e ∈ a ++ b, PlainEntry e)
    (hn : ((a ++ b).map Entry.absPath).Nodup) (h1 : scanDir s a true = .ok s₁) (h2 : scanDir s₁ b true = .ok s₂)
    (h : scanDir s (a ++ b) true = .ok t) : s₂ = t ∧ ∃ u₁ u₂, scanDir s b true = .ok u₁ ∧ scanDir u₁ a true = .ok u₂ ∧
      ∀ r, r ∈ load u₂.disk ↔ r ∈ load t.disk := by
  have happ : ∀ (c d : List Entry) (s : Store), scanDir s (c ++ d) true = (scanDir s c true).bind fun s => scanDir s d true := by
    intro c d s
    unfold scanDir
    rw [List.filter_append, List.foldlM_append]
    rfl
  refine ⟨?_, ?_⟩
  · rw [happ, h1] at h
    exact Except.ok.inj (h2.symm.trans h)
  · obtain ⟨u, hu, hr⟩ := C181_order hp hf hn List.perm_append_comm h
    rw [happ] at hu
    cases hb : scanDir s b true with
    | error e => rw [hb] at hu; cases hu
    | ok u₁ =>
      rw [hb] at hu
      exact ⟨u₁, u, rfl, hu, hr⟩

/-- **C181** A second scan of the same files changes nothing. -/
theorem C181_again {frames : List Entry} {s s₁ s₂ : Store} (hp : Plain s.disk) (hf : ∀ e ∈ frames, PlainEntry e)
    (hn : (frames.map Entry.absPath).Nodup) (h1 : scanDir s frames true = .ok s₁) (h2 : scanDir s₁ frames true = .ok s₂) :
    load s₂.disk = load s₁.disk := by
  have hrows := C181_rows hp hf hn h1
  have hok := C125_scan_ok.1 ⟨s₁, h1⟩
  have hp1 := (C125_scan hp hf hn h1).1
  unfold scanDir at h2
  refine loop_again hp1 (fun e he => hf e (List.mem_filter.1 he).1) (fun e he => ?_) h2
  obtain ⟨he, hc⟩ := List.mem_filter.1 he
  obtain ⟨t, ht⟩ := Option.isSome_iff_exists.1 hc
  obtain ⟨q, hq⟩ := hok e he ⟨t, typeName_iff.2 ht⟩
  exact ⟨q, hq, (hrows _).2 (.inl ⟨e, he, ⟨t, typeName_iff.2 ht⟩, q, hq, rfl⟩)⟩

/-- **C181** Databases with the same rows in different orders answer together, with rows that are equally close; with the same row if no other is as
close. -/
theorem C181_choice {db db' : Table} (hdb : ∀ r, r ∈ db ↔ r ∈ db') {f : Entry} {cls : Cls} {t : String} {mjd : ℚ} {x : Option ℚ}
    (ht : TypeName cls t) (hf : Complete f mjd x) {r : Row} (h : getCalib db (some f) cls = .ok r) :
    ∃ r', getCalib db' (some f) cls = .ok r' ∧ Eligible r' t x ∧ |r'.mjd - mjd| = |r.mjd - mjd| ∧
      ((∀ q ∈ db, Eligible q t x → q ≠ r → |q.mjd - mjd| ≠ |r.mjd - mjd|) → r' = r) := by
  obtain ⟨a1, a2, a3⟩ := firstBest_le ((choice_iff ht hf r).1 h)
  obtain ⟨r', h'⟩ := choice_exists ht hf ((hdb r).1 a1) a2
  obtain ⟨b1, b2, b3⟩ := firstBest_le ((choice_iff ht hf r').1 h')
  have e : |r'.mjd - mjd| = |r.mjd - mjd| := le_antisymm (b3 r ((hdb r).1 a1) a2) (a3 r' ((hdb r').2 b1) b2)
  exact ⟨r', h', b2, e, fun hn => by_contra fun hne => hn r' ((hdb r').2 b1) b2 hne e⟩

/-- **C181** So calibrations for every frame do not depend on the order in which the files were found, unless two are equally close. -/
theorem C181_setup {frames frames' : List Entry} {s s₁ s₂ : Store} (hp : Plain s.disk) (hf : ∀ e ∈ frames, PlainEntry e)
    (hn : (frames.map Entry.absPath).Nodup) (hperm : frames'.Perm frames) (h1 : scanDir s frames true = .ok s₁)
    (h2 : scanDir s frames' true = .ok s₂) {f : Entry} {cls : Cls} {t : String} {mjd : ℚ} {x : Option ℚ} (ht : TypeName cls t)
    (hc : Complete f mjd x) {r : Row} (h : getCalibStore s₁ (some f) cls true = .ok r)
    (tie : ∀ q ∈ load s₁.disk, Eligible q t x → q ≠ r → |q.mjd - mjd| ≠ |r.mjd - mjd|) : getCalibStore s₂ (some f) cls true = .ok r := by
  obtain ⟨u, hu, hr⟩ := C181_order hp hf hn hperm h1
  rw [h2] at hu
  cases hu
  obtain ⟨r', h3, -, -, h4⟩ := C181_choice (fun z => (hr z).symm) ht hc h
  rw [h4 tie] at h3
  exact h3

/-- **C181, violated.** Two darks that are equally close: the answer is the one whose file was found first. -/
theorem C181_violated_tie : ∃ (a b f : Entry) (s₁ s₂ : Store) (r₁ r₂ : Row), PlainEntry a ∧ PlainEntry b ∧
    scanDir ⟨[], []⟩ [a, b] true = .ok s₁ ∧ scanDir ⟨[], []⟩ [b, a] true = .ok s₂ ∧
      getCalibStore s₁ (some f) .dark true = .ok r₁ ∧ getCalibStore s₂ (some f) .dark true = .ok r₂ ∧
        r₁.path = some a.absPath ∧ r₂.path = some b.absPath ∧ a.absPath ≠ b.absPath :=
  ⟨exDark "/a" 9 1 0, exDark "/b" 11 1 0, exDark "/f" 10 1 0, ⟨[exRow "/a" 9 1 0, exRow "/b" 11 1 0], [exRow "/a" 9 1 0, exRow "/b" 11 1 0]⟩,
    ⟨[exRow "/b" 11 1 0, exRow "/a" 9 1 0], [exRow "/b" 11 1 0, exRow "/a" 9 1 0]⟩, exRow "/a" 9 1 0, exRow "/b" 11 1 0,
    exDark_plain (by decide) _ _ _, exDark_plain (by decide) _ _ _, by decide +kernel, by decide +kernel, by decide +kernel, by decide +kernel,
    rfl, rfl, by decide⟩

/-- **C181, violated.** Rows of files that are no longer in the folder stay, and are returned. -/
theorem C181_violated_stale {frames : List Entry} {s s' : Store} (hp : Plain s.disk) (hf : ∀ e ∈ frames, PlainEntry e)
    (hn : (frames.map Entry.absPath).Nodup) (h : scanDir s frames true = .ok s') {r : Row} (hr : r ∈ load s.disk) (he : Elsewhere frames r)
    {f : Entry} {cls : Cls} {t : String} {mjd : ℚ} {x : Option ℚ} (ht : TypeName cls t) (hc : Complete f mjd x) (hx : Eligible r t x)
    (near : ∀ q ∈ load s'.disk, Eligible q t x → q ≠ r → |r.mjd - mjd| < |q.mjd - mjd|) : getCalibStore s' (some f) cls true = .ok r := by
  have hm : r ∈ load s'.disk := (C181_rows hp hf hn h r).2 (.inr ⟨hr, he⟩)
  obtain ⟨z, hz⟩ := choice_exists (db := load s'.disk) ht hc hm hx
  obtain ⟨b1, b2, b3⟩ := firstBest_le ((choice_iff ht hc z).1 hz)
  have : z = r := by_contra fun hne => absurd (b3 r hm hx) (not_le.2 (near z b1 b2 hne))
  rw [← this]
  exact hz

/-- The hypotheses can be met: two darks, in both orders. -/
example : Plain ([] : Table) ∧ ([exDark "/a" 9 1 0, exDark "/b" 12 1 0].map Entry.absPath).Nodup ∧
    (∃ s, scanDir ⟨[], []⟩ [exDark "/a" 9 1 0, exDark "/b" 12 1 0] true = .ok s ∧
      getCalibStore s (some (exDark "/f" 10 1 0)) .dark true = .ok (exRow "/a" 9 1 0)) :=
  ⟨⟨by simp [AbsRows], by simp [NoDupPaths], by simp⟩, by decide +kernel, ⟨[exRow "/a" 9 1 0, exRow "/b" 12 1 0], [exRow "/a" 9 1 0, exRow "/b" 12 1 0]⟩,
    by decide +kernel, by decide +kernel⟩

end Corgi.Init

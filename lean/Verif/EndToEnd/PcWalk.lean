import Verif.EndToEnd.Accurate
import Verif.EndToEnd.Campaign

/-!
# Photon counting darks and light frames on one database: C194

The recipe `l1_to_l2b_pc_dark.json` as a change of the disk: its calibrations come from the database (walker.py 206-210), the master dark of
`Verif/EndToEnd/Counted.lean` is written to a file and registered (`save_data`, walker.py 336-344; `create_entry`, caldb.py 201-231). The
recipe `l1_to_l2b_pc.json` asks the same database; its dark is that of the same exposure time nearest in time (caldb.py 300-313).

Not modelled: the frames that the recipes write on the way; settings other than the default (no calibrations at run time, no step skipped); the
search for cosmic rays, whose flags are among those of the shots; a run that fails after the file is written. T_factor and the largest mean are
the defaults of `DetectorParams({})` (photon_counting.py 182-188), not those of the file in the database.
-/

noncomputable section

namespace Corgi.PcWalk

open Corgi.Det Corgi.Arith Corgi.EndToEnd Corgi.CalDB Corgi.Walk Corgi.Counted
open Corgi.Campaign (Book register getCalib_congr getCalib_type load_upsert register_describes)

/-! ## Model -/

/-- data.py 632-666, photon_counting.py 304-335: the headers of the master dark are those of the last frame, with its exposure time. -/
def product (last : Entry) (p : String) (b : Book) : Entry :=
  { last with cls := .dark, absPath := p, drpnfile := b.files, drpctime := b.created, drpversn := b.version, hash := b.hash,
              shape := [1, 1024, 1024] }

/-- Input of the recipe: what the database reads from the first and from the last frame, the raw darks, and what the product gets. -/
structure Series where
  first : Entry
  last : Entry
  shots : List Counted.Shot
  path : String
  book : Book

/-- `l1_to_l2b_pc_dark.json` -/
def makeDark (T emax : ℝ) (w : Disk) (c : Series) : Except WErr Disk :=
  match ["DetectorNoiseMaps", "DetectorParams", "KGain", "NonLinearityCalibration"].mapM (lookup w c.first) with
  | .error x => .error x
  | .ok _ =>
    match cal w c.first "DetectorNoiseMaps", cal w c.first "KGain", cal w c.first "NonLinearityCalibration" with
    | some (.maps _ off offErr), some (.kgain k ek), some (.nonlin tab) =>
      match darkRecipe T emax 2 tab off offErr k ek c.shots with
      | .ok d => register w "Dark" (product c.last c.path c.book) (.dark d)
      | .error _ => .error .other
    | _, _, _ => .error .other

/-- `l1_to_l2b_pc.json` -/
def lightWalk (T emax : ℝ) (track : Bool) (junk : Ix → ℝ) (w : Disk) (e : Entry) (xs : List Counted.Shot) : Except WErr (List Final) :=
  match ["DetectorNoiseMaps", "DetectorParams", "KGain", "NonLinearityCalibration", "Dark", "FlatField", "BadPixelMap"].mapM (lookup w e) with
  | .error x => .error x
  | .ok _ =>
    match lookup w e "TrapCalibration" with
    | .ok _ | .error .valueError =>
      match cal w e "DetectorNoiseMaps", cal w e "DetectorParams", cal w e "KGain", cal w e "NonLinearityCalibration", cal w e "Dark",
          cal w e "FlatField", cal w e "BadPixelMap" with
      | some (.maps _ off offErr), some (.params rowread), some (.kgain k ek), some (.nonlin tab), some (.dark d), some (.flat F),
          some (.badpix b) =>
        match lightRecipe T emax 2 tab off offErr k ek rowread track junk F d xs with
        | .ok gs => .ok (gs.map (badFr b))
        | .error _ => .error .other
      | _, _, _, _, _, _, _ => .error .other
    | .error x => .error x

/-! ## Specification -/

/-- A detector as its calibrations describe it. -/
structure Rig where
  tab : NonLin.Table ℝ
  off : ℝ
  offErr : ℝ
  k : ℝ
  ek : ℝ
  rowread : ℝ
  F : Flat
  bp : Ix → ℕ

/-- The calibrations that the database has for raw frames are those of the detector. -/
structure Has (w : Disk) (e : Entry) (q : Rig) : Prop where
  maps : ∃ m, cal w e "DetectorNoiseMaps" = some (.maps m q.off q.offErr)
  params : cal w e "DetectorParams" = some (.params q.rowread)
  kgain : cal w e "KGain" = some (.kgain q.k q.ek)
  nonlin : cal w e "NonLinearityCalibration" = some (.nonlin q.tab)

/-- Those for light frames, too. -/
structure HasLight (w : Disk) (e : Entry) (q : Rig) : Prop extends Has w e q where
  flat : cal w e "FlatField" = some (.flat q.F)
  badpix : cal w e "BadPixelMap" = some (.badpix q.bp)
  trap : (∃ p, lookup w e "TrapCalibration" = .ok p) ∨ lookup w e "TrapCalibration" = .error .valueError

/-- Raw darks that can be counted. -/
def Countable (q : Rig) (T emax : ℝ) (Ld : List Seen) : Prop :=
  ∃ wd lim, Stack q.tab q.off q.k q.ek T emax lim wd "DARK" Ld ∧ 0 < wd.rn ∧ T * wd.rn < wd.gain ∧ Pc.Limit (T * wd.rn) wd.gain lim

/-- Light frames of a scene `s` that can be counted: `n` frames, whose detections the flux `S` explains. -/
structure Lit (q : Rig) (T emax : ℝ) (w : Setting) (s S : ℕ → ℕ → ℝ) (M : ℝ) (L : List Seen) : Prop where
  stack : ∃ vis lim, vis ≠ "DARK" ∧ Stack q.tab q.off q.k q.ek T emax lim w vis L ∧ Pc.Limit (T * w.rn) w.gain lim
  rn : 0 < w.rn
  low : T * w.rn < w.gain
  time : 0 ≤ q.rowread / w.exptime
  pos : ∀ r c, r < 1024 → c < 1024 → 0 ≤ light (fun r c => q.F.data [r, c]) (q.rowread / w.exptime) s r c
  explained : Explains (T * w.rn) q.k q.ek w.gain S L
  few : ∀ r c, r < 1024 → c < 1024 → S r c ≤ M

/-- Raw darks that fit these light frames: of the same threshold, at least as many, and what explains the detections of the light
frames beyond those of the darks is the light of the scene, up to `δ`. -/
def Suits (q : Rig) (T emax : ℝ) (w : Setting) (n : ℕ) (s S : ℕ → ℕ → ℝ) (M δ : ℝ) (Ld : List Seen) : Prop :=
  ∃ wd lim D, Stack q.tab q.off q.k q.ek T emax lim wd "DARK" Ld ∧ wd.rn = w.rn ∧ T * w.rn < wd.gain ∧ Pc.Limit (T * w.rn) wd.gain lim ∧
    n ≤ Ld.length ∧ Explains (T * w.rn) q.k q.ek wd.gain D Ld ∧
    ∀ r c, r < 1024 → c < 1024 → D r c ≤ M ∧
      |S r c - D r c - light (fun r c => q.F.data [r, c]) (q.rowread / w.exptime) s r c| ≤ δ

/-- A master dark of such darks. -/
def Good (q : Rig) (T emax : ℝ) (w : Setting) (n : ℕ) (s S : ℕ → ℕ → ℝ) (M δ : ℝ) (d : Pc.MasterDark) : Prop :=
  ∃ Ld, Suits q T emax w n s S M δ Ld ∧ darkRecipe T emax 2 q.tab q.off q.offErr q.k q.ek (Ld.map Prod.snd) = .ok d

/-- All darks of exposure time `x` that the database knows are such. -/
def AllGood (q : Rig) (T emax : ℝ) (w : Setting) (n : ℕ) (s S : ℕ → ℕ → ℝ) (M δ : ℝ) (x : Option ℚ) (k : Disk) : Prop :=
  ∀ r ∈ load k.csv, Eligible r "Dark" x → ∃ p d, r.path = some p ∧ k.files "Dark" p = some (.dark d) ∧ Good q T emax w n s S M δ d

/-- The darks can be processed with the database; if they have the exposure time `x`, they fit the light frames. -/
structure Usable (q : Rig) (T emax : ℝ) (w : Setting) (n : ℕ) (s S : ℕ → ℕ → ℝ) (M δ : ℝ) (x : Option ℚ) (k : Disk) (c : Series) : Prop where
  has : Has k c.first q
  darks : ∃ Ld, c.shots = Ld.map Prod.snd ∧ Countable q T emax Ld ∧
    ((∃ y, c.last.exptime = some (some y) ∧ x = some y) → Suits q T emax w n s S M δ Ld)
  last : c.last.sctsrt ≠ none ∧ c.last.exptime ≠ none ∧ c.last.obsnum ≠ none ∧ c.last.opmode ≠ none ∧ c.last.emgain ≠ none ∧ c.last.excamt ≠ none
  plain : PlainEntry (product c.last c.path c.book)
  /-- the file of the product is not that of another kind of calibration -/
  own : ∀ r ∈ load k.csv, r.path = some c.path → r.type = some "Dark"

/-- There is a dark of exposure time `x` after the campaigns: one of the database, or one of a campaign, whose file no later campaign
writes again. -/
def Supplied (x : Option ℚ) (k : Disk) (cs : List Series) : Prop :=
  (∃ r ∈ load k.csv, Eligible r "Dark" x ∧ ∀ c ∈ cs, r.path ≠ some c.path) ∨
  ∃ pre c post, cs = pre ++ c :: post ∧ (∃ y, c.last.exptime = some (some y) ∧ x = some y) ∧ ∀ c' ∈ post, c'.path ≠ c.path

/-- Nothing but darks differs. -/
structure Alike (w w' : Disk) : Prop where
  rows : (load w'.csv).filter (fun r => r.type ≠ some "Dark") = (load w.csv).filter (fun r => r.type ≠ some "Dark")
  files : ∀ r ∈ load w.csv, r.type ≠ some "Dark" → ∀ p, r.path = some p → ∀ n, w'.files n p = w.files n p

/-! ## The database -/

theorem label_dark {c : Cls} (h : c ≠ .dark) : label c ≠ some "Dark" := by
  cases c <;> first | exact absurd rfl h | simp [label]

theorem lookup_alike {w w' : Disk} (h : Alike w w') (e : Entry) {n : String} (hn : Autoload.datatypes n ≠ some .dark) :
    lookup w' e n = lookup w e n := by
  unfold lookup
  cases hd : Autoload.datatypes n with
  | none => rfl
  | some c =>
    dsimp only
    cases hl : label c with
    | none =>
      have : ∀ db, getCalib db (some e) c = .error .valueError := by
        intro db
        unfold getCalib
        rw [hl]
        rfl
      rw [this, this]
    | some t =>
      have ht : t ≠ "Dark" := fun he => label_dark (c := c) (fun hc => hn (by rw [hd, hc])) (by rw [hl, he])
      have hf : ∀ db : Table, db.filter (fun r => r.type == some t) = (db.filter fun r => r.type ≠ some "Dark").filter fun r => r.type == some t := by
        intro db
        rw [List.filter_filter]
        refine List.filter_congr fun r _ => ?_
        by_cases hr : r.type = some t
        · simp [hr, ht]
        · simp [hr]
      have hg : getCalib (load w'.csv) (some e) c = getCalib (load w.csv) (some e) c :=
        getCalib_congr hl (by rw [hf, h.rows, ← hf]) _
      rw [hg]
      cases hr : getCalib (load w.csv) (some e) c with
      | error x => cases x <;> rfl
      | ok r =>
        dsimp only
        obtain ⟨h1, h2⟩ := getCalib_type hl hr
        cases hp : r.path with
        | none => rfl
        | some p =>
          dsimp only
          rw [h.files r h1 (fun hm => ht (by have := hm.symm.trans h2; simpa using this.symm)) p hp n]

/-- What `lookup` found. -/
theorem lookup_row {w : Disk} {e : Entry} {n p : String} (h : lookup w e n = .ok p) : ∃ c t r, Autoload.datatypes n = some c ∧ label c = some t ∧
    getCalib (load w.csv) (some e) c = .ok r ∧ r ∈ load w.csv ∧ r.type = some t ∧ r.path = some p := by
  unfold lookup at h
  cases hd : Autoload.datatypes n with
  | none => rw [hd] at h; cases h
  | some c =>
    rw [hd] at h
    dsimp only at h
    split at h
    · cases h
    · cases h
    · rename_i r hr
      split at h
      · cases h
      · rename_i q hq
        split at h
        · cases h
        · cases h
          have hlab : ∃ t, label c = some t := by
            cases hc : label c with
            | some t => exact ⟨t, rfl⟩
            | none =>
              unfold getCalib at hr
              rw [hc] at hr
              cases hr
          obtain ⟨t, ht⟩ := hlab
          obtain ⟨h1, h2⟩ := getCalib_type ht hr
          exact ⟨c, t, r, rfl, ht, hr, h1, h2, hq⟩

theorem cal_alike {w w' : Disk} (h : Alike w w') (e : Entry) {n : String} (hn : Autoload.datatypes n ≠ some .dark) : cal w' e n = cal w e n := by
  unfold cal
  rw [lookup_alike h e hn]
  cases hl : lookup w e n with
  | error x => rfl
  | ok p =>
    obtain ⟨c, t, r, h1, h2, -, h4, h5, h6⟩ := lookup_row hl
    refine h.files r h4 (fun hm => ?_) _ h6 n
    exact label_dark (c := c) (fun hc => hn (by rw [h1, hc])) (by rw [h2, ← h5]; exact hm)

theorem Alike.refl (w : Disk) : Alike w w := ⟨rfl, fun _ _ _ _ _ _ => rfl⟩

theorem Alike.trans {w w' w'' : Disk} (h : Alike w w') (h' : Alike w' w'') : Alike w w'' := by
  refine ⟨h'.rows.trans h.rows, fun r hr hm p hp n => ?_⟩
  have : r ∈ load w'.csv := by
    have h1 : r ∈ (load w'.csv).filter fun r => r.type ≠ some "Dark" := by
      rw [h.rows]
      exact List.mem_filter.2 ⟨hr, by simpa using hm⟩
    exact (List.mem_filter.1 h1).1
  rw [h'.files r this hm p hp n, h.files r hr hm p hp n]

theorem has_alike {w w' : Disk} (h : Alike w w') {e : Entry} {q : Rig} (hh : Has w e q) : Has w' e q := by
  obtain ⟨m, hm⟩ := hh.maps
  exact ⟨⟨m, by rw [cal_alike h _ (by decide +kernel)]; exact hm⟩, by rw [cal_alike h _ (by decide +kernel)]; exact hh.params,
    by rw [cal_alike h _ (by decide +kernel)]; exact hh.kgain, by rw [cal_alike h _ (by decide +kernel)]; exact hh.nonlin⟩

theorem hasLight_alike {w w' : Disk} (h : Alike w w') {e : Entry} {q : Rig} (hh : HasLight w e q) : HasLight w' e q :=
  { toHas := has_alike h hh.toHas
    flat := by rw [cal_alike h _ (by decide +kernel)]; exact hh.flat
    badpix := by rw [cal_alike h _ (by decide +kernel)]; exact hh.badpix
    trap := by rw [lookup_alike h _ (by decide +kernel)]; exact hh.trap }

/-- Rows after registering. -/
theorem mem_upsert_other {db : Table} {p : String} {new r : Row} (hv : inValues p db = true ↔ ∃ r ∈ db, r.path = some p) (h : r ∈ upsert db p new) :
    r = new ∨ (r ∈ db ∧ r.path ≠ some p) := by
  unfold upsert at h
  split at h
  · obtain ⟨q, hq, rfl⟩ := List.mem_map.1 h
    split
    · exact .inl rfl
    · rename_i hp
      exact .inr ⟨hq, hp⟩
  · rename_i hn
    rcases List.mem_append.1 h with h | h
    · exact .inr ⟨h, fun hp => hn (hv.2 ⟨r, h, hp⟩)⟩
    · simp at h
      exact .inl h

theorem upsert_keeps {db : Table} {p : String} {new r : Row} (h : r ∈ db) (hp : r.path ≠ some p) : r ∈ upsert db p new := by
  unfold upsert
  split
  · exact List.mem_map.2 ⟨r, h, by rw [if_neg hp]⟩
  · exact List.mem_append_left _ h

/-- What registering a dark does to the disk. -/
theorem register_dark {w : Disk} {prod : Entry} {row : Row} (hd : Describes row prod) (hc : prod.cls = .dark) (he : PlainEntry prod)
    (hp : Plain w.csv) (own : ∀ r ∈ load w.csv, r.path = some prod.absPath → r.type = some "Dark") (k : Cal) :
    ∃ w', register w "Dark" prod k = .ok w' ∧ load w'.csv = upsert (load w.csv) prod.absPath (reloadRow row) ∧
      (w'.files "Dark" prod.absPath = some k) ∧ (∀ n q, q ≠ prod.absPath → w'.files n q = w.files n q) ∧
      w'.products = w.products ∧ Plain w'.csv ∧ Alike w w' ∧ reloadRow row ∈ load w'.csv ∧ (reloadRow row).type = some "Dark" ∧
      (reloadRow row).path = some prod.absPath ∧ (reloadRow row).mjd = row.mjd ∧ (reloadRow row).exptime = row.exptime := by
  have hv := values_ok_iff.2 hd
  have hpath : (reloadRow row).path = some prod.absPath := reloadRow_path_abs hd.path he.path
  have htype : (reloadRow row).type = some "Dark" := by
    obtain ⟨t, h1, h2⟩ := hd.type
    rw [hc] at h2
    cases h2
    show reloadStr row.type = _
    rw [h1]
    decide +kernel
  have hcreate : createEntry ⟨load w.csv, w.csv⟩ prod true = .ok ⟨upsert (load w.csv) prod.absPath row, upsert (load w.csv) prod.absPath row⟩ := by
    unfold createEntry
    rw [hv]
    rfl
  refine ⟨{ w with csv := upsert (load w.csv) prod.absPath row,
                   files := fun n' q => if q = prod.absPath then (if n' = "Dark" then some k else none) else w.files n' q },
    by unfold register; rw [hcreate], load_upsert _ _ _, ?_, ?_, rfl, hp.load.upsert hd he, ⟨?_, ?_⟩, ?_, htype, hpath, rfl, rfl⟩
  · simp
  · intro n q hq
    simp [hq]
  · show (load (upsert (load w.csv) prod.absPath row)).filter _ = _
    rw [load_upsert]
    unfold upsert
    split
    · rw [List.filter_map]
      have : ((load w.csv).filter ((fun r => decide (r.type ≠ some "Dark")) ∘ fun r => if r.path = some prod.absPath then reloadRow row else r)) =
          (load w.csv).filter fun r => decide (r.type ≠ some "Dark") := by
        refine List.filter_congr fun r hr => ?_
        simp only [Function.comp_apply]
        split
        · rename_i h
          simp [own r hr h, htype]
        · rfl
      rw [this]
      refine (List.map_congr_left fun r hr => ?_).trans (List.map_id _)
      have h1 := List.mem_filter.1 hr
      rw [if_neg fun h => by simpa using (show r.type ≠ some "Dark" by simpa using h1.2) (own r h1.1 h)]
      rfl
    · rw [List.filter_append]
      simp [htype]
  · intro r hr hm p hq n
    have : p ≠ prod.absPath := fun h => hm (own r hr (by rw [hq, h]))
    simp [this]
  · show _ ∈ load (upsert (load w.csv) prod.absPath row)
    rw [load_upsert]
    exact mem_upsert_new (inValues_plain he.path hp.load.plain).1

theorem product_describes {last : Entry} (h : last.sctsrt ≠ none ∧ last.exptime ≠ none ∧ last.obsnum ≠ none ∧ last.opmode ≠ none ∧
    last.emgain ≠ none ∧ last.excamt ≠ none) (p : String) (b : Book) :
    ∃ row, Describes row (product last p b) ∧ last.sctsrt = some row.mjd ∧ last.exptime = some row.exptime := by
  obtain ⟨h1, h2, h3, h4, h5, h6⟩ := h
  obtain ⟨s, hs⟩ := Option.ne_none_iff_exists'.1 h1
  obtain ⟨x, hx⟩ := Option.ne_none_iff_exists'.1 h2
  obtain ⟨o, ho⟩ := Option.ne_none_iff_exists'.1 h3
  obtain ⟨m, hm⟩ := Option.ne_none_iff_exists'.1 h4
  obtain ⟨g, hg⟩ := Option.ne_none_iff_exists'.1 h5
  obtain ⟨y, hy⟩ := Option.ne_none_iff_exists'.1 h6
  cases hv : valuesFromEntry (product last p b) true with
  | ok row =>
    have := values_ok_iff.1 hv
    exact ⟨row, this, this.mjd, this.exptime⟩
  | error z =>
    simp [valuesFromEntry, product, need, label, naxes, hs, hx, ho, hm, hg, hy, bind, Except.bind, pure, Except.pure] at hv

/-! ## C194: campaigns -/

theorem dark_ok {q : Rig} (ht : NonLin.Good q.tab) (hk : q.k ≠ 0) {T emax : ℝ} (hT : 0 < T) {Ld : List Seen} (h : Countable q T emax Ld) :
    ∃ d, darkRecipe T emax 2 q.tab q.off q.offErr q.k q.ek (Ld.map Prod.snd) = .ok d ∧ d.numFr = Ld.length := by
  obtain ⟨wd, lim, h1, h2, h3, h4⟩ := h
  obtain ⟨fd, pd, k1, k2, k3, k4, k5, k6, -, k10⟩ := stack_bin ht q.offErr hk h1 (mode := "darks") rfl hT h2 h3 h4
  obtain ⟨s, b1, b2, b3, b4⟩ := k10 1
  have hdk : Pc.getPcMean (params T emax 2 (1024 * 1024) "darks" none) none pd = .ok (.dark [s] s.thresh s.numFr (pd.map Pc.Frame.name)) := by
    rw [getPcMean_one (by show 1 ≤ 2; omega) k5 b1, if_neg (by rw [b2]; simp)]
  refine ⟨⟨some "photon-counted master dark", some s.thresh, s.numFr, [s].map fun s => (s.mean, s.err, s.dq)⟩, ?_, b4⟩
  unfold darkRecipe
  rw [k1]
  dsimp only
  rw [← k2, hdk]
  rfl

section
variable {q : Rig} {T emax : ℝ} {w : Setting} {n : ℕ} {s S : ℕ → ℕ → ℝ} {M δ : ℝ} {x : Option ℚ}

/-- **C194** The recipe for photon counted darks: it succeeds; the database, if its darks of this exposure time fitted the light frames, still
has only such; nothing but darks changes. -/
theorem C194_dark (ht : NonLin.Good q.tab) (hk : q.k ≠ 0) (hT : 0 < T) {k : Disk} {c : Series} (hc : Usable q T emax w n s S M δ x k c)
    (hp : Plain k.csv) (hw : AllGood q T emax w n s S M δ x k) :
    ∃ k', makeDark T emax k c = .ok k' ∧ Plain k'.csv ∧ AllGood q T emax w n s S M δ x k' ∧ Alike k k' ∧ k'.products = k.products ∧
      (∀ r ∈ load k.csv, r.path ≠ some c.path → r ∈ load k'.csv) ∧
      ∃ r ∈ load k'.csv, r.type = some "Dark" ∧ r.path = some c.path ∧ c.last.sctsrt = some r.mjd ∧ c.last.exptime = some r.exptime := by
  obtain ⟨Ld, hL1, hL2, hL3⟩ := hc.darks
  obtain ⟨d, hd, -⟩ := dark_ok ht hk hT hL2
  obtain ⟨row, hrow, hm, hx⟩ := product_describes hc.last c.path c.book
  obtain ⟨w', e1, e2, e3, e4, e5, e6, e7, e8, e9, e10, e11, e12⟩ := register_dark (w := k) hrow rfl hc.plain hp hc.own (.dark d)
  obtain ⟨m, hmaps⟩ := hc.has.maps
  obtain ⟨q1, hq1⟩ := cal_lookup hmaps
  obtain ⟨q2, hq2⟩ := cal_lookup hc.has.params
  obtain ⟨q3, hq3⟩ := cal_lookup hc.has.kgain
  obtain ⟨q4, hq4⟩ := cal_lookup hc.has.nonlin
  refine ⟨w', ?_, e6, ?_, e7, e5, fun r hr hq => ?_, _, e8, e9, e10, by rw [e11]; exact hm, by rw [e12]; exact hx⟩
  · unfold makeDark
    simp only [List.mapM_cons, List.mapM_nil, hq1, hq2, hq3, hq4, bind, Except.bind, pure, Except.pure]
    rw [hmaps, hc.has.kgain, hc.has.nonlin]
    dsimp only
    rw [hL1, hd]
    exact e1
  · intro r hr he
    rw [e2] at hr
    rcases mem_upsert_other (inValues_plain hc.plain.path hp.load.plain) hr with rfl | ⟨hr, hpath⟩
    · obtain ⟨y, y1, y2⟩ := he.2 rfl
      exact ⟨_, d, e10, e3, Ld, hL3 ⟨y, by rw [hx, ← e12, y1], y2⟩, hd⟩
    · obtain ⟨p, d', g1, g2, g3⟩ := hw r hr he
      exact ⟨p, d', g1, by rw [e4 _ _ fun h => hpath (by rw [g1, h])]; exact g2, g3⟩
  · rw [e2]
    exact upsert_keeps hr hq

theorem usable_alike {k k' : Disk} (h : Alike k k') {c : Series} (hc : Usable q T emax w n s S M δ x k c) :
    Usable q T emax w n s S M δ x k' c := by
  refine ⟨has_alike h hc.has, hc.darks, hc.last, hc.plain, fun r hr hq => ?_⟩
  by_contra hm
  have h1 : r ∈ (load k.csv).filter fun r => r.type ≠ some "Dark" := by
    rw [← h.rows]
    exact List.mem_filter.2 ⟨hr, by simpa using hm⟩
  exact hm (hc.own r (List.mem_filter.1 h1).1 hq)

/-- **C194** Any number of campaigns, one after the other. -/
theorem C194_campaigns (ht : NonLin.Good q.tab) (hk : q.k ≠ 0) (hT : 0 < T) {k : Disk} {cs : List Series}
    (hc : ∀ c ∈ cs, Usable q T emax w n s S M δ x k c) (hp : Plain k.csv) (hw : AllGood q T emax w n s S M δ x k) :
    ∃ k', cs.foldlM (makeDark T emax) k = .ok k' ∧ Plain k'.csv ∧ AllGood q T emax w n s S M δ x k' ∧ Alike k k' ∧ k'.products = k.products ∧
      (Supplied x k cs → ∃ r ∈ load k'.csv, Eligible r "Dark" x) := by
  suffices H : ∀ k₁, Plain k₁.csv → AllGood q T emax w n s S M δ x k₁ → Alike k k₁ → ∃ k', cs.foldlM (makeDark T emax) k₁ = .ok k' ∧
      Plain k'.csv ∧ AllGood q T emax w n s S M δ x k' ∧ Alike k k' ∧ k'.products = k₁.products ∧
      (Supplied x k₁ cs → ∃ r ∈ load k'.csv, Eligible r "Dark" x) from H k hp hw (.refl k)
  induction cs with
  | nil =>
    refine fun k₁ a b e => ⟨k₁, rfl, a, b, e, rfl, ?_⟩
    rintro (⟨r, h1, h2, -⟩ | ⟨pre, c, post, h, -⟩)
    · exact ⟨r, h1, h2⟩
    · simp at h
  | cons c cs ih =>
    intro k₁ a b e
    obtain ⟨k₂, h1, h2, h3, h4, h5, h6, r, h7, h8, h9, h10, h11⟩ := C194_dark ht hk hT (usable_alike e (hc c (by simp))) a b
    obtain ⟨k', e1, e2, e3, e4, e5, e6⟩ := ih (fun x hx => hc x (List.mem_cons_of_mem _ hx)) k₂ h2 h3 (e.trans h4)
    refine ⟨k', ?_, e2, e3, e4, e5.trans h5, fun hs => e6 ?_⟩
    · rw [List.foldlM_cons, h1]
      exact e1
    · rcases hs with ⟨r', g1, g2, g3⟩ | ⟨pre, c', post, g1, g2, g3⟩
      · exact .inl ⟨r', h6 r' g1 (g3 c (by simp)), g2, fun c' hc' => g3 c' (List.mem_cons_of_mem _ hc')⟩
      · cases pre with
        | nil =>
          simp only [List.nil_append, List.cons.injEq] at g1
          obtain ⟨rfl, rfl⟩ := g1
          obtain ⟨y, y1, y2⟩ := g2
          refine .inl ⟨r, h7, ⟨h8, fun _ => ⟨y, ?_, y2⟩⟩, fun c' hc' hq => ?_⟩
          · rw [y1] at h11
            exact (Option.some.inj h11).symm
          · rw [h9] at hq
            exact g3 c' hc' (Option.some.inj hq).symm
        | cons z pre =>
          simp only [List.cons_append, List.cons.injEq] at g1
          exact .inr ⟨pre, c', post, g1.2, g2, g3⟩

/-! ## C194: light frames -/

/-- What is found in the database, from the chosen row. -/
theorem dark_of_row {k : Disk} {e : Entry} {r : Row} (hr : getCalib (load k.csv) (some e) .dark = .ok r) {p : String} (hp : r.path = some p)
    {v : Cal} (hv : k.files "Dark" p = some v) : lookup k e "Dark" = .ok p ∧ cal k e "Dark" = some v := by
  have hl : lookup k e "Dark" = .ok p := by
    unfold lookup
    rw [show Autoload.datatypes "Dark" = some .dark from rfl]
    dsimp only
    rw [hr]
    dsimp only
    rw [hp]
    dsimp only
    rw [hv]
  refine ⟨hl, ?_⟩
  unfold cal
  rw [hl]
  exact hv

theorem dark_found {k : Disk} (hw : AllGood q T emax w n s S M δ x k) {e : Entry} {mjd : ℚ} (he : Complete e mjd x)
    (hr : ∃ r ∈ load k.csv, Eligible r "Dark" x) : ∃ d, cal k e "Dark" = some (.dark d) ∧ Good q T emax w n s S M δ d := by
  obtain ⟨r, hr, hx⟩ := hr
  obtain ⟨r', hs⟩ := choice_exists (db := load k.csv) .dark he hr hx
  obtain ⟨h1, h2, -⟩ := firstBest_le ((choice_iff .dark he _).1 hs)
  obtain ⟨p, d, g1, g2, g3⟩ := hw r' h1 h2
  exact ⟨d, (dark_of_row hs g1 g2).2, g3⟩

/-- The recipe for light frames, when every calibration is found. -/
theorem lightWalk_eq {k : Disk} {e : Entry} (hl : HasLight k e q) {d : Pc.MasterDark} (hd : cal k e "Dark" = some (.dark d)) (track : Bool)
    (junk : Ix → ℝ) (xs : List Counted.Shot) : lightWalk T emax track junk k e xs =
      match lightRecipe T emax 2 q.tab q.off q.offErr q.k q.ek q.rowread track junk q.F d xs with
      | .ok gs => .ok (gs.map (badFr q.bp))
      | .error _ => .error .other := by
  obtain ⟨m, hm⟩ := hl.maps
  obtain ⟨q1, hq1⟩ := cal_lookup hm
  obtain ⟨q2, hq2⟩ := cal_lookup hl.params
  obtain ⟨q3, hq3⟩ := cal_lookup hl.kgain
  obtain ⟨q4, hq4⟩ := cal_lookup hl.nonlin
  obtain ⟨q5, hq5⟩ := cal_lookup hd
  obtain ⟨q6, hq6⟩ := cal_lookup hl.flat
  obtain ⟨q7, hq7⟩ := cal_lookup hl.badpix
  unfold lightWalk
  simp only [List.mapM_cons, List.mapM_nil, hq1, hq2, hq3, hq4, hq5, hq6, hq7, bind, Except.bind, pure, Except.pure]
  rcases hl.trap with ⟨p, hp⟩ | hp
  · simp only [hp, hm, hl.params, hl.kgain, hl.nonlin, hd, hl.flat, hl.badpix]
  · simp only [hp, hm, hl.params, hl.kgain, hl.nonlin, hd, hl.flat, hl.badpix]

/-- **C194** Light frames after any number of campaigns, whatever their dates: a pixel of the product is valid if neither the flat nor the map
of bad pixels excludes it, and then it is the scene up to the differences of the darks and the error of the iteration. -/
theorem C194_scene (ht : NonLin.Good q.tab) (hk : q.k ≠ 0) (hT : 0 < T) (hM : M ≤ 2 / 5) (hF : q.F.shape = [1024, 1024]) {k : Disk}
    {cs : List Series} {L : List Seen} (hc : ∀ c ∈ cs, Usable q T emax w L.length s S M δ x k c) (hp : Plain k.csv)
    (hw : AllGood q T emax w L.length s S M δ x k) (hone : Supplied x k cs) {e : Entry} {mjd : ℚ} (he : Complete e mjd x)
    (hl : HasLight k e q) (hL : Lit q T emax w s S M L) (track : Bool) (junk : Ix → ℝ) :
    ∃ k' g, cs.foldlM (makeDark T emax) k = .ok k' ∧ lightWalk T emax track junk k' e (L.map Prod.snd) = .ok [g] ∧
      ∀ r c, r < 1024 → c < 1024 → (g.fr.dq [r, c] = 0 ↔ q.F.data [r, c] ≠ 0 ∧ q.bp [r, c] % 256 = 0) ∧
        (g.fr.dq [r, c] = 0 → ∃ v, g.data [r, c] = some v ∧ |v - s r c| ≤ 2 * (δ + M ^ 8) / |q.F.data [r, c]|) ∧
        (g.fr.dq [r, c] ≠ 0 → g.data [r, c] = none) := by
  obtain ⟨k', h1, -, h3, h4, -, h6⟩ := C194_campaigns ht hk hT hc hp hw
  obtain ⟨d, hd, Ld, ⟨wd, limd, D, a1, a2, a3, a4, a5, a6, a7⟩, hdark⟩ := dark_found h3 he (h6 hone)
  obtain ⟨vis, lim, b1, b2, b3⟩ := hL.stack
  obtain ⟨d₁, g, hg⟩ := C191_product (rowread := q.rowread) ht q.offErr hk b2 b1 a1 a2 a5 hT hL.rn hL.low a3 b3 a4 track junk hF
    (flat := fun r c => q.F.data [r, c]) (fun _ _ _ _ => rfl) hL.time hL.pos hL.explained a6 hM
    (fun r c hr hc => ⟨hL.few r c hr hc, (a7 r c hr hc).1⟩) (fun r c hr hc => (a7 r c hr hc).2)
  obtain ⟨_, _, _, _, _, _, d₂, g', -, -, -, -, -, hj⟩ := run (rowread := q.rowread) ht q.offErr hk b2 b1 a1 a2 a5 hT hL.rn hL.low a3 b3 a4
    track junk hF (flat := fun r c => q.F.data [r, c]) (fun _ _ _ _ => rfl)
  obtain ⟨g1, g2, g3⟩ := hg 1
  obtain ⟨-, -, -, -, -, -, j1, j2, j3, -⟩ := hj 1
  obtain rfl : d₁ 1 = d := Except.ok.inj (g1.symm.trans hdark)
  have hd2 : d₂ 1 = d₁ 1 := Except.ok.inj (j1.symm.trans g1)
  have hgg : g' 1 = g 1 := by
    rw [hd2] at j2
    simpa using Except.ok.inj (j2.symm.trans g2)
  refine ⟨k', badFr q.bp (g 1), h1, ?_, fun r c hr hc => ?_⟩
  · rw [lightWalk_eq (hasLight_alike h4 hl) hd]
    change (match lightRecipe T emax (1 + 1) q.tab q.off q.offErr q.k q.ek q.rowread track junk q.F (d₁ 1) (L.map Prod.snd) with
      | .ok gs => (Except.ok (gs.map (badFr q.bp)) : Except WErr (List Final))
      | .error _ => .error .other) = _
    rw [g2]
    rfl
  · have hflag : (badFr q.bp (g 1)).fr.dq [r, c] = 0 ↔ q.F.data [r, c] ≠ 0 ∧ q.bp [r, c] % 256 = 0 := by
      rw [badFr_flag, ← hgg, j3 r c hr hc]
      by_cases hfl : q.F.data [r, c] = 0
      · simp only [hfl, if_true, not_true, ne_eq, false_and, iff_false]
        intro h0
        have h1 : ((4 ||| q.bp [r, c]) % 256).testBit 2 = true := by
          rw [show (256 : ℕ) = 2 ^ 8 by norm_num, Nat.testBit_mod_two_pow, Nat.testBit_or]
          simp [show Nat.testBit 4 2 = true by decide]
        rw [h0] at h1
        simp at h1
      · simp [hfl]
    refine ⟨hflag, fun h0 => ⟨(g 1).data [r, c], by rw [badFr_value, if_pos h0], ?_⟩, fun h0 => by rw [badFr_value, if_neg h0]⟩
    exact g3 r c hr hc (hflag.1 h0).1

/-! ## C194: which darks -/

theorem getPcMean_err {P : Pc.Params} {fs : List Pc.Frame} {er : Pc.Err} (hn : 1 ≤ P.niter) (hne : fs ≠ [])
    (h : Pc.pcBin P 0 fs = .error er) : Pc.getPcMean P none fs = .error er := by
  have hl : 0 < fs.length := List.length_pos_of_ne_nil hne
  have hb : Pc.binFrames fs.length 0 fs = fs := by
    unfold Pc.binFrames
    simp
  unfold Pc.getPcMean
  rw [if_neg (by omega)]
  dsimp only [Option.getD_none]
  rw [if_neg (by omega), if_neg (by omega), Int.toNat_natCast, Nat.div_self hl]
  rw [List.range_one, List.mapM_cons, List.mapM_nil, hb, h]
  rfl

/-- **C194** Light frames need the nearest dark of their exposure time to be photon counted, of their threshold, and of at least as many frames;
else the recipe fails, whatever other darks the database has. -/
theorem C194_needs (ht : NonLin.Good q.tab) (hk : q.k ≠ 0) (hT : 0 < T) {k : Disk} {L : List Seen} {e : Entry} (hl : HasLight k e q)
    (hL : Lit q T emax w s S M L) {d : Pc.MasterDark} (hd : cal k e "Dark" = some (.dark d)) (track : Bool) (junk : Ix → ℝ)
    (hbad : d.pcStat ≠ some "photon-counted master dark" ∨ d.thresh ≠ some (T * w.rn) ∨ d.numFr < L.length) :
    lightWalk T emax track junk k e (L.map Prod.snd) = .error .other := by
  obtain ⟨vis, lim, b1, b2, b3⟩ := hL.stack
  obtain ⟨fs, ps, h1, h2, h3, h4, h5, h6, h7, h8⟩ := stack_bin ht q.offErr hk b2 (mode := "illuminated") (by rw [if_neg b1]) hT hL.rn hL.low b3
  obtain ⟨s0, a1, a2, a3, a4⟩ := h8 1
  have hbin : ∃ er, Pc.pcBin (params T emax 2 (1024 * 1024) "illuminated" (some d)) 0 ps = .error er := by
    cases hb : Pc.pcBin (params T emax 2 (1024 * 1024) "illuminated" (some d)) 0 ps with
    | error er => exact ⟨er, rfl⟩
    | ok s1 =>
      exfalso
      obtain ⟨f0, l, m, up, low, hps, _, _, _, _, _, _, _, _, _, _, _, _, _, _, g⟩ := Pc.pcBin_ok hb
      obtain ⟨hc, -⟩ := g d rfl
      obtain ⟨f1, hf1, hrn, -⟩ := h7
      have hf : f1 = f0 := by
        rw [hps] at hf1
        exact (Option.some.inj hf1).symm
      rw [← hf, hrn, h6] at hc
      unfold Pc.checkDark at hc
      split at hc
      · cases hc
      · rename_i c1
        split at hc
        · cases hc
        · rename_i t' ht'
          split at hc
          · cases hc
          · rename_i c2
            split at hc
            · cases hc
            · rename_i c3
              rcases hbad with h | h | h
              · exact c1 h
              · exact h (by rw [ht', not_not.1 c2]; rfl)
              · exact c3 h
  obtain ⟨er, hbin⟩ := hbin
  rw [lightWalk_eq hl hd]
  have : lightRecipe T emax 2 q.tab q.off q.offErr q.k q.ek q.rowread track junk q.F d (L.map Prod.snd) = .error (.pc er) := by
    unfold lightRecipe
    rw [h1]
    dsimp only
    rw [← h2, getPcMean_err (by show 1 ≤ 2; omega) h5 hbin]
  rw [this]

theorem makeDark_parts {k k' : Disk} {c : Series} (h : makeDark T emax k c = .ok k') : ∃ m off offErr g eg tab d,
    cal k c.first "DetectorNoiseMaps" = some (.maps m off offErr) ∧ cal k c.first "KGain" = some (.kgain g eg) ∧
    cal k c.first "NonLinearityCalibration" = some (.nonlin tab) ∧ darkRecipe T emax 2 tab off offErr g eg c.shots = .ok d ∧
    register k "Dark" (product c.last c.path c.book) (.dark d) = .ok k' := by
  unfold makeDark at h
  split at h
  · cases h
  · split at h
    · rename_i m off offErr g eg tab h1 h2 h3
      split at h
      · rename_i d h4
        exact ⟨m, off, offErr, g, eg, tab, d, h1, h2, h3, h4, h⟩
      · cases h
    · cases h

/-- **C194** A new dark under a new path: a frame gets it exactly if it has the frame's exposure time and is nearer in time than all darks of
this time that were there; else what it got before. -/
theorem C194_choice {k k' : Disk} {c : Series} (h : makeDark T emax k c = .ok k') (hp : Plain k.csv)
    (he : PlainEntry (product c.last c.path c.book)) (hnew : ∀ r ∈ load k.csv, r.path ≠ some c.path) {e : Entry} {mjd : ℚ}
    (hc : Complete e mjd x) :
    ∃ t d m off offErr g eg tab, c.last.sctsrt = some t ∧ cal k c.first "DetectorNoiseMaps" = some (.maps m off offErr) ∧
      cal k c.first "KGain" = some (.kgain g eg) ∧ cal k c.first "NonLinearityCalibration" = some (.nonlin tab) ∧
      darkRecipe T emax 2 tab off offErr g eg c.shots = .ok d ∧
      ((∃ y, c.last.exptime = some (some y) ∧ x = some y) ∧ (∀ r ∈ load k.csv, Eligible r "Dark" x → |t - mjd| < |r.mjd - mjd|) →
        lookup k' e "Dark" = .ok c.path ∧ cal k' e "Dark" = some (.dark d)) ∧
      (¬ ((∃ y, c.last.exptime = some (some y) ∧ x = some y) ∧ ∀ r ∈ load k.csv, Eligible r "Dark" x → |t - mjd| < |r.mjd - mjd|) →
        lookup k' e "Dark" = lookup k e "Dark" ∧ cal k' e "Dark" = cal k e "Dark") := by
  obtain ⟨m, off, offErr, g, eg, tab, d, h1, h2, h3, h4, h5⟩ := makeDark_parts h
  obtain ⟨row, hrow⟩ := register_describes h5
  obtain ⟨w₂, e1, e2, e3, e4, -, -, -, -, e9, e10, e11, e12⟩ := register_dark (w := k) hrow rfl he hp
    (fun r hr hq => absurd hq (hnew r hr)) (.dark d)
  rw [h5] at e1
  cases e1
  have hno : inValues (product c.last c.path c.book).absPath (load k.csv) = false := by
    rw [← Bool.not_eq_true, inValues_plain he.path hp.load.plain]
    rintro ⟨r, hr, hq⟩
    exact hnew r hr hq
  have hl : load k'.csv = load k.csv ++ [reloadRow row] := by
    rw [e2]
    unfold upsert
    rw [if_neg (by rw [hno]; simp)]
  have hx : c.last.exptime = some row.exptime := hrow.exptime
  refine ⟨row.mjd, d, m, off, offErr, g, eg, tab, hrow.mjd, h1, h2, h3, h4, ?_, fun hn => ?_⟩
  · rintro ⟨⟨y, y1, y2⟩, hn⟩
    have hel : Eligible (reloadRow row) "Dark" x := ⟨e9, fun _ => ⟨y, by rw [e12]; exact Option.some.inj (hx.symm.trans y1), y2⟩⟩
    have hg : getCalib (load k'.csv) (some e) .dark = .ok (reloadRow row) :=
      (choice_iff .dark hc _).2 ⟨load k.csv, [], hl, hel, fun r hr hr' => by
        show |(reloadRow row).mjd - mjd| < _
        rw [e11]
        exact hn r hr hr', fun r hr => by cases hr⟩
    exact dark_of_row hg e10 e3
  · have hg : getCalib (load k'.csv) (some e) .dark = getCalib (load k.csv) (some e) .dark := by
      cases hs : getCalib (load k.csv) (some e) .dark with
      | ok r =>
        have hb := (choice_iff .dark hc _).1 hs
        obtain ⟨hs1, hs2, hs3⟩ := firstBest_le hb
        refine (choice_iff .dark hc _).2 ?_
        obtain ⟨pre, post, p1, p2, p3, p4⟩ := hb
        refine ⟨pre, post ++ [reloadRow row], by rw [hl, p1]; simp, p2, p3, fun r' hr hr' => ?_⟩
        rcases List.mem_append.1 hr with hr | hr
        · exact p4 r' hr hr'
        · simp only [List.mem_cons, List.not_mem_nil, or_false] at hr
          subst hr
          obtain ⟨y, y1, y2⟩ := hr'.2 rfl
          have : ¬ ∀ r ∈ load k.csv, Eligible r "Dark" x → |row.mjd - mjd| < |r.mjd - mjd| := fun hh =>
            hn ⟨⟨y, by rw [hx, ← e12, y1], y2⟩, hh⟩
          push Not at this
          obtain ⟨r₁, f1, f2, f3⟩ := this
          show ¬ |(reloadRow row).mjd - mjd| < _
          rw [e11, not_lt]
          exact (hs3 r₁ f1 f2).trans f3
      | error y =>
        obtain ⟨-, c2, c3⟩ := C03_get_calib_frame (load k.csv) e .dark "Dark" mjd x .dark hc.mjd hc.exptime hc.obsnum hc.shape hc.opmode hc.emgain
          hc.excamt
        obtain ⟨-, c4, -⟩ := C03_get_calib_frame (load k'.csv) e .dark "Dark" mjd x .dark hc.mjd hc.exptime hc.obsnum hc.shape hc.opmode hc.emgain
          hc.excamt
        have hy := c3 y hs
        subst hy
        refine c4.2 ?_
        rintro ⟨r, hr, hr'⟩
        rw [hl] at hr
        rcases List.mem_append.1 hr with hr | hr
        · exact c2.1 hs ⟨r, hr, hr'⟩
        · simp only [List.mem_cons, List.not_mem_nil, or_false] at hr
          subst hr
          obtain ⟨y, y1, y2⟩ := hr'.2 rfl
          exact hn ⟨⟨y, by rw [hx, ← e12, y1], y2⟩, fun r' f1 f2 => absurd ⟨r', f1, f2⟩ (c2.1 hs)⟩
    have hlook : lookup k' e "Dark" = lookup k e "Dark" := by
      unfold lookup
      rw [show Autoload.datatypes "Dark" = some .dark from rfl]
      dsimp only
      rw [hg]
      cases hs : getCalib (load k.csv) (some e) .dark with
      | error y => cases y <;> rfl
      | ok r =>
        dsimp only
        obtain ⟨hs1, -⟩ := getCalib_type (t := "Dark") rfl hs
        cases hpath : r.path with
        | none => rfl
        | some p =>
          dsimp only
          rw [e4 _ p fun hq => hnew r hs1 (by rw [hpath, hq]; rfl)]
    refine ⟨hlook, ?_⟩
    unfold cal
    rw [hlook]
    cases hk : lookup k e "Dark" with
    | error y => rfl
    | ok p =>
      show k'.files _ p = k.files _ p
      refine e4 _ p fun hq => ?_
      obtain ⟨_, _, r, -, -, -, f1, -, f2⟩ := lookup_row hk
      exact hnew r f1 (by rw [f2, hq]; rfl)

/-- **C194** Hence darks with too few frames block the light frames, if they are nearer in time, although the older darks fit. -/
theorem C194_blocked (ht : NonLin.Good q.tab) (hk : q.k ≠ 0) (hT : 0 < T) {k k' : Disk} {c : Series} (h : makeDark T emax k c = .ok k')
    (hp : Plain k.csv) (hpe : PlainEntry (product c.last c.path c.book)) (hnew : ∀ r ∈ load k.csv, r.path ≠ some c.path) {e : Entry} {mjd : ℚ}
    (hc : Complete e mjd x) {t : ℚ} (htime : c.last.sctsrt = some t) (hexp : ∃ y, c.last.exptime = some (some y) ∧ x = some y)
    (hnear : ∀ r ∈ load k.csv, Eligible r "Dark" x → |t - mjd| < |r.mjd - mjd|) (hcal : Has k c.first q) {Ld : List Seen}
    (hd : c.shots = Ld.map Prod.snd) (hcount : Countable q T emax Ld) {L : List Seen} (hfew : Ld.length < L.length) (hl : HasLight k e q)
    (hL : Lit q T emax w s S M L) (track : Bool) (junk : Ix → ℝ) :
    lightWalk T emax track junk k' e (L.map Prod.snd) = .error .other := by
  obtain ⟨t', d, m, off, offErr, g, eg, tab, a1, a2, a3, a4, a5, a6, -⟩ := C194_choice h hp hpe hnew hc
  rw [htime] at a1
  cases a1
  have hdark := (a6 ⟨hexp, hnear⟩).2
  obtain ⟨m', hm'⟩ := hcal.maps
  rw [hm'] at a2
  rw [hcal.kgain] at a3
  rw [hcal.nonlin] at a4
  cases a2; cases a3; cases a4
  obtain ⟨m, off, offErr, g, eg, tab, d', -, -, -, -, h5⟩ := makeDark_parts h
  obtain ⟨row, hrow⟩ := register_describes h5
  obtain ⟨w₂, e1, -, -, -, -, -, e7, -⟩ := register_dark (w := k) hrow rfl hpe hp (fun r hr hq => absurd hq (hnew r hr)) (.dark d')
  rw [h5] at e1
  cases e1
  refine C194_needs ht hk hT (hasLight_alike e7 hl) hL hdark track junk (.inr (.inr ?_))
  rw [hd] at a5
  obtain ⟨d'', h1, h2⟩ := dark_ok ht hk hT hcount
  rw [a5] at h1
  cases h1
  rw [h2]
  exact hfew

end

/-! ## Non-vacuity -/

private def exMaps : Maps := ⟨[], fun _ => 0, fun _ => 0, fun _ => 0, fun _ => 0, fun _ => 0, fun _ => 0, fun _ => 0, fun _ => 0, fun _ => 0⟩

private def exFlat : Flat := ⟨[1024, 1024], fun _ => 1, fun _ => 0⟩

private def exCsv : Table :=
  [("DetectorNoiseMaps", "/m"), ("DetectorParams", "/p"), ("NonLinearityCalibration", "/n"), ("KGain", "/k"), ("FlatField", "/f"),
    ("BadPixelMap", "/b")].map fun t => { exRow t.2 1 1 0 with type := some t.1 }

private def exFiles : String → String → Option Cal
  | "DetectorNoiseMaps", "/m" => some (.maps exMaps 0 0)
  | "DetectorParams", "/p" => some (.params 0)
  | "NonLinearityCalibration", "/n" => some (.nonlin linear)
  | "KGain", "/k" => some (.kgain 1 0)
  | "FlatField", "/f" => some (.flat exFlat)
  | "BadPixelMap", "/b" => some (.badpix fun p => if p = [5, 7] then 4 else 0)
  | _, _ => none

private def exDisk : Disk := ⟨exCsv, exFiles, []⟩

private def exRig : Rig := ⟨linear, 0, 0, 1, 0, 0, exFlat, fun p => if p = [5, 7] then 4 else 0⟩

private theorem exCal {n : String} {c : Cls} {r : Row} {e : Entry} {p : String} {q : Cal} (h1 : Autoload.datatypes n = some c)
    (h2 : getCalib (load exCsv) (some e) c = .ok r) (h3 : r.path = some p) (h4 : exFiles n p = some q) : cal exDisk e n = some q := by
  have : lookup exDisk e n = .ok p := by
    unfold lookup
    rw [h1]
    dsimp only [exDisk]
    rw [h2]
    dsimp only
    rw [h3]
    dsimp only
    rw [h4]
  unfold cal
  rw [this]
  exact h4

/-- `n` empty darks at time `t` with exposure time `y` -/
private def exSeries (p : String) (n : ℕ) (t y : ℚ) : Series :=
  ⟨exDark "/d" t y 0, exDark "/d" t y 0, ((List.replicate n 0).map (exShot "DARK")).map Prod.snd, p, ⟨some 4, some 3, some "2.1", "77"⟩⟩

private theorem exHas {e : Entry} {a t y : ℚ} {p : String} (he : e = exDark p t y a) (ht : t = 3 ∨ t = 4 ∨ t = 5) : Has exDisk e exRig := by
  subst he
  refine ⟨⟨exMaps, exCal (c := .noisemaps) rfl (by rcases ht with rfl | rfl | rfl <;> rfl) rfl rfl⟩,
    exCal (c := .detparams) rfl (by rcases ht with rfl | rfl | rfl <;> rfl) rfl rfl,
    exCal (c := .kgain) rfl (by rcases ht with rfl | rfl | rfl <;> rfl) rfl rfl,
    exCal (c := .nonlin) rfl (by rcases ht with rfl | rfl | rfl <;> rfl) rfl rfl⟩

private theorem exZero (n : ℕ) : ((List.replicate n (0 : ℝ)).filter fun v => decide (1 < v)).length = 0 := by
  rw [List.length_eq_zero_iff, List.filter_eq_nil_iff]
  intro v hv
  rw [(List.mem_replicate.1 hv).2]
  norm_num

private theorem exStack {n : ℕ} (hn : n ≠ 0) {lim : ℝ} (hl : 1 - Real.exp (-2) ≤ lim) :
    Stack linear 0 1 0 1 1 lim ⟨1, 100, 100, 1⟩ "DARK" ((List.replicate n 0).map (exShot "DARK")) :=
  ex_stack "DARK" (by simpa using hn) (by simp) hl (by rw [exZero]; simp)

private theorem exPlain (p : String) (hp : AbsPath p) (n : ℕ) (t y : ℚ) :
    PlainEntry (product (exSeries p n t y).last (exSeries p n t y).path (exSeries p n t y).book) := by
  refine ⟨hp, by show ¬ AbsPath "77"; unfold AbsPath; decide, ?_, ?_⟩
  · intro s hs
    simp [exSeries, product] at hs
    subst hs
    unfold AbsPath; decide
  · intro s hs
    simp [exSeries, product, exDark] at hs
    subst hs
    unfold AbsPath; decide

private theorem exCount {n : ℕ} (hn : n ≠ 0) : Countable exRig 1 1 ((List.replicate n 0).map (exShot "DARK")) := by
  obtain ⟨lim, hl, -, hlim⟩ := Pc.C150_limit (t := 1 * 1) (g := 100) (by norm_num) (by norm_num) (by norm_num)
  exact ⟨_, lim, exStack hn hl, one_pos, by norm_num, hlim⟩

/-- Five darks of the right exposure time, one dark of another; then light frames of a pixel that sees `S` electrons. A third campaign with
one dark blocks the light frames. -/
example : ∃ (S : ℝ) (k' k'' : Disk) (g : Final), 0 < S ∧
    [exSeries "/d1" 5 3 1, exSeries "/d2" 1 4 2].foldlM (makeDark 1 1) exDisk = .ok k' ∧
    lightWalk 1 1 true (fun _ => 0) k' (exDark "/s" 4 1 0) (([2, 0, 0, 0, 0].map (exShot "SCI")).map Prod.snd) = .ok [g] ∧
    (∃ v, g.data [5, 8] = some v ∧ |v - S| ≤ 14 / 10000) ∧ g.data [5, 7] = none ∧
    makeDark 1 1 exDisk (exSeries "/d3" 1 4 1) = .ok k'' ∧
    lightWalk 1 1 true (fun _ => 0) k'' (exDark "/s" 4 1 0) (([2, 0, 0, 0, 0].map (exShot "SCI")).map Prod.snd) = .error .other := by
  obtain ⟨lim, hl, -, hlim⟩ := Pc.C150_limit (t := 1 * 1) (g := 100) (by norm_num) (by norm_num) (by norm_num)
  have hexp := Real.one_sub_le_exp_neg (1 * 1 / 100 : ℝ)
  obtain ⟨S, hS, hroot⟩ := (Pc.C36_exists_iff (nobs := 1) (nfr := 5) (t := 1 * 1) (g := 100) (by norm_num) (by norm_num)
    (by norm_num)).2 ⟨by norm_num, by
      unfold Pc.cap
      nlinarith⟩
  have hz : Pc.calcFunc 0 5 (1 * 1) 100 0 = 0 := by
    unfold Pc.calcFunc Pc.eps Pc.num
    simp
  have hS1 : S ≤ 2 / 5 := by
    by_contra hc
    have h1 := Pc.func_lt (nobs := 1) (nfr := 5) (t := 1 * 1) (g := 100) (l := 2 / 5) (s := S) (by norm_num) (by norm_num)
      (by norm_num) (by norm_num) (not_le.1 hc) hroot
    unfold Pc.calcFunc at h1
    rw [Pc.eps_eq (by norm_num)] at h1
    unfold Pc.nx Pc.den at h1
    norm_num at h1 hexp
    nlinarith
  have heff : ∀ {nobs nfr l : ℝ}, Pc.calcFunc nobs nfr (1 * 1) 100 l = 0 → nobs = nfr * Pc.efficiency (1 * 1 / 100) l := by
    intro nobs nfr l h
    unfold Pc.calcFunc at h
    rw [Pc.C36_efficiency (by norm_num)] at h
    linarith
  have hplain : Plain exDisk.csv := by
    refine ⟨?_, ?_, ?_⟩
    · unfold AbsRows
      intro r hr
      have : r ∈ exCsv := hr
      simp only [exCsv, List.map_cons, List.map_nil, List.mem_cons, List.not_mem_nil, or_false] at this
      rcases this with rfl | rfl | rfl | rfl | rfl | rfl <;> exact ⟨_, rfl, by unfold AbsPath; decide⟩
    · unfold NoDupPaths
      show (exCsv.map Row.path).Nodup
      decide +kernel
    · intro r hr
      have : r ∈ exCsv := hr
      simp only [exCsv, List.map_cons, List.map_nil, List.mem_cons, List.not_mem_nil, or_false] at this
      rcases this with rfl | rfl | rfl | rfl | rfl | rfl <;>
      · intro c hc s hs
        simp only [exRow, List.mem_cons, List.not_mem_nil, or_false] at hc
        rcases hc with rfl | rfl | rfl | rfl <;> (cases hs; unfold AbsPath; decide)
  have hnodark : ∀ r ∈ load exCsv, r.type ≠ some "Dark" := by decide +kernel
  have hnopath : ∀ r ∈ load exCsv, r.path ≠ some "/d1" ∧ r.path ≠ some "/d2" ∧ r.path ≠ some "/d3" := by decide +kernel
  have hsuit : Suits exRig 1 1 ⟨1, 100, 100, 1⟩ 5 (fun _ _ => S) (fun _ _ => S) (2 / 5) 0 ((List.replicate 5 0).map (exShot "DARK")) := by
    refine ⟨⟨1, 100, 100, 1⟩, lim, fun _ _ => 0, exStack (by norm_num) hl, rfl, by norm_num, hlim, by simp, ?_, fun r c _ _ =>
      ⟨by norm_num, ?_⟩⟩
    · intro r c _ _
      refine ⟨le_rfl, ?_⟩
      show (hits (1 * 1) 1 0 0 _ r c : ℝ) = _
      rw [show (1 : ℝ) * (1 : ℝ) = 1 by norm_num, ex_hits, ex_valid, exZero]
      have := heff hz
      rw [show (1 : ℝ) * (1 : ℝ) = 1 by norm_num] at this
      norm_num
      linarith
    · simp [light, exRig, exFlat]
  have hall : ∀ x, AllGood exRig 1 1 ⟨1, 100, 100, 1⟩ 5 (fun _ _ => S) (fun _ _ => S) (2 / 5) 0 x exDisk := fun x r hr hx =>
    absurd hx.1 (hnodark r hr)
  have hhas : HasLight exDisk (exDark "/s" 4 1 0) exRig :=
    { toHas := exHas rfl (.inr (.inl rfl))
      flat := exCal (c := .flat) rfl rfl rfl rfl
      badpix := exCal (c := .badpix) rfl rfl rfl rfl
      trap := .inr rfl }
  have hlit : Lit exRig 1 1 ⟨1, 100, 100, 1⟩ (fun _ _ => S) (fun _ _ => S) (2 / 5) ([2, 0, 0, 0, 0].map (exShot "SCI")) := by
    refine ⟨⟨"SCI", lim, by decide, ex_stack "SCI" (by simp) (by norm_num) hl (by norm_num [List.filter_cons]), hlim⟩, one_pos, by norm_num,
      by norm_num [exRig], ?_, ?_, fun _ _ _ _ => hS1⟩
    · intro r c _ _
      simpa [light, exRig, exFlat] using hS
    · intro r c _ _
      refine ⟨hS, ?_⟩
      show (hits (1 * 1) 1 0 0 _ r c : ℝ) = _
      rw [show (1 : ℝ) * (1 : ℝ) = 1 by norm_num, ex_hits, ex_valid]
      have := heff hroot
      rw [show (1 : ℝ) * (1 : ℝ) = 1 by norm_num] at this
      norm_num [List.filter_cons]
      exact this
  have hcomp : Complete (exDark "/s" 4 1 0) 4 (some 1) :=
    ⟨rfl, rfl, by simp [exDark], by simp [exDark], by simp [exDark], by simp [exDark], by simp [exDark]⟩
  have huse : ∀ {p : String} {n : ℕ} {t y : ℚ}, n ≠ 0 → AbsPath p → p ∈ ["/d1", "/d2", "/d3"] → (t = 3 ∨ t = 4 ∨ t = 5) → ∀ {x}, (x = some y → n = 5) →
      Usable exRig 1 1 ⟨1, 100, 100, 1⟩ 5 (fun _ _ => S) (fun _ _ => S) (2 / 5) 0 x exDisk (exSeries p n t y) := by
    intro p n t y hn hp hp' ht x h5
    refine ⟨exHas rfl ht, ⟨_, rfl, exCount hn, ?_⟩, ⟨by simp [exSeries, exDark], by simp [exSeries, exDark], by simp [exSeries, exDark],
      by simp [exSeries, exDark], by simp [exSeries, exDark], by simp [exSeries, exDark]⟩, exPlain p hp n t y, ?_⟩
    · rintro ⟨z, h1, h2⟩
      simp only [exSeries, exDark, Option.some.injEq] at h1
      subst h1
      rw [h5 h2]
      exact hsuit
    · intro r hr hq
      have := hnopath r hr
      simp only [List.mem_cons, List.not_mem_nil, or_false] at hp'
      rcases hp' with rfl | rfl | rfl
      · exact absurd hq this.1
      · exact absurd hq this.2.1
      · exact absurd hq this.2.2
  obtain ⟨k', g, h1, h2, h3⟩ := C194_scene (x := some 1) (cs := [exSeries "/d1" 5 3 1, exSeries "/d2" 1 4 2]) (q := exRig) (δ := 0) linear_good
    one_ne_zero one_pos le_rfl rfl
    (L := [2, 0, 0, 0, 0].map (exShot "SCI")) (by
      intro c hc
      simp only [List.mem_cons, List.not_mem_nil, or_false] at hc
      rcases hc with rfl | rfl
      · exact huse (by norm_num) (by unfold AbsPath; decide) (by simp) (.inl rfl) fun _ => rfl
      · exact huse (by norm_num) (by unfold AbsPath; decide) (by simp) (.inr (.inl rfl)) fun h => by norm_num at h) hplain (hall _)
    (.inr ⟨[], _, _, rfl, ⟨1, rfl, rfl⟩, by
      intro c hc
      simp only [List.mem_cons, List.not_mem_nil, or_false] at hc
      subst hc
      show "/d2" ≠ "/d1"
      decide⟩) hcomp hhas hlit true (fun _ => 0)
  obtain ⟨k'', e1, -⟩ := C194_dark (x := none) (q := exRig) (δ := 0) linear_good one_ne_zero one_pos
    (huse (p := "/d3") (n := 1) (t := 4) (y := 1) (by norm_num) (by unfold AbsPath; decide) (by simp) (.inr (.inl rfl)) fun h => by cases h)
    hplain (hall none)
  refine ⟨S, k', k'', g, lt_of_le_of_ne hS ?_, h1, h2, ?_, ?_, e1, ?_⟩
  · rintro rfl
    unfold Pc.calcFunc Pc.eps Pc.num at hroot
    simp at hroot
  · obtain ⟨a, b, -⟩ := h3 5 8 (by norm_num) (by norm_num)
    obtain ⟨v, b1, b2⟩ := b (a.2 ⟨by simp [exRig, exFlat], by simp [exRig]⟩)
    exact ⟨v, b1, b2.trans (by norm_num [exRig, exFlat])⟩
  · obtain ⟨a, -, b⟩ := h3 5 7 (by norm_num) (by norm_num)
    exact b fun h => by simpa [exRig] using (a.1 h).2
  · exact C194_blocked (x := some 1) (q := exRig) linear_good one_ne_zero one_pos e1 hplain (exPlain "/d3" (by unfold AbsPath; decide) 1 4 1)
      (fun r hr => (hnopath r hr).2.2) hcomp rfl ⟨1, rfl, rfl⟩ (fun r hr hx => absurd hx.1 (hnodark r hr)) (exHas rfl (.inr (.inl rfl))) rfl
      (exCount (by norm_num)) (by simp) hhas hlit true fun _ => 0

end Corgi.PcWalk

import Verif.EndToEnd.Loop
import Verif.EndToEnd.Walk
import Verif.CalDB.Files

/-!
# Dark campaigns and science walks on one database: C189

The recipe `l1_to_l2a_noisemap.json` as a change of the disk: its calibrations come from the database (walker.py 206-210), the product of
`Verif/EndToEnd/Loop.lean` is written to a file and registered (`save_data`, walker.py 336-344; `create_entry`, caldb.py 201-231). The science
walk is the one of `Verif/EndToEnd/Walk.lean`: it asks the same database.

Not modelled: the frames of L2a that the recipe writes before the noise maps; settings other than the default (no calibrations at run time, no
step skipped); a run that fails after the file is written; a bias offset that is NaN, with which the model refuses the product.
-/

noncomputable section

namespace Corgi.Campaign

open Corgi.Det Corgi.Arith Corgi.EndToEnd Corgi.CalDB Corgi.Walk Corgi.Loop

/-! ## Model -/

/-- What is new in the headers and the file of a product (data.py 1043-1059, darks.py 749-754; `get_hash`). -/
structure Book where
  files : Option ℤ
  created : Option ℚ
  version : Option String
  hash : String

/-- darks.py 723-734, 749-754: the headers of the noise maps are those of the first frame of the first sub-stack, without exposure time and gain. -/
def product (head : Entry) (p : String) (b : Book) : Entry :=
  { head with cls := .noisemaps, absPath := p, exptime := some none, emgain := some none, drpnfile := b.files, drpctime := b.created,
              drpversn := b.version, hash := b.hash, shape := [3, 1200, 2200] }

/-- `save_data` of a calibration (walker.py 336-344): the file is written, whatever was there, and registered. -/
def register (w : Disk) (n : String) (prod : Entry) (c : Cal) : Except WErr Disk :=
  match createEntry ⟨load w.csv, w.csv⟩ prod true with
  | .error _ => .error .other
  | .ok s => .ok { w with csv := s.disk, files := fun n' q => if q = prod.absPath then (if n' = n then some c else none) else w.files n' q }

/-- Input of the recipe: what the database reads from the first frame of the dataset and from the first frame of the first sub-stack, the
sub-stacks, and what the product gets. -/
structure Series where
  first : Entry
  head : Entry
  stks : List (List Unlit)
  path : String
  book : Book
  rest : Maps
  offErr : ℝ

/-- The recipe. -/
def makeMaps (w : Disk) (c : Series) : Except WErr Disk :=
  match lookup w c.first "DetectorParams", lookup w c.first "NonLinearityCalibration", lookup w c.first "KGain" with
  | .ok _, .ok _, .ok _ =>
    match cal w c.first "NonLinearityCalibration", cal w c.first "KGain" with
    | some (.nonlin tab), some (.kgain k _) =>
      match calibrate tab k c.rest c.stks with
      | .ok (m, some b) => register w "DetectorNoiseMaps" (product c.head c.path c.book) (.maps m b c.offErr)
      | _ => .error .other
    | _, _ => .error .other
  | _, _, _ => .error .valueError

/-! ## Specification -/

/-- A row of noise maps. -/
def IsMaps (r : Row) : Prop := r.type = some "DetectorNoiseMaps"

instance (r : Row) : Decidable (IsMaps r) := inferInstanceAs (Decidable (_ = _))

/-- The maps are those of the detector. -/
structure Fits (d : Detector) (m : Maps) : Prop where
  shape : m.shape = [1024, 1024]
  fpn : ∀ r c, r < 1024 → c < 1024 → m.F [r, c] = d.fpn r c
  cic : ∀ r c, r < 1024 → c < 1024 → m.C [r, c] = d.cic r c
  dark : ∀ r c, r < 1024 → c < 1024 → m.D [r, c] = d.dark r c
  pos : (∀ p, 0 ≤ m.C p) ∧ ∀ p, 0 ≤ m.D p

/-- All noise maps that the database knows are those of the detector. -/
def AllFit (d : Detector) (w : Disk) : Prop :=
  ∀ r ∈ load w.csv, IsMaps r → ∃ p m offErr, r.path = some p ∧ w.files "DetectorNoiseMaps" p = some (.maps m 0 offErr) ∧ Fits d m

/-- Nothing but noise maps differs. -/
structure Alike (w w' : Disk) : Prop where
  rows : (load w'.csv).filter (fun r => ¬ IsMaps r) = (load w.csv).filter (fun r => ¬ IsMaps r)
  files : ∀ r ∈ load w.csv, ¬ IsMaps r → ∀ p, r.path = some p → ∀ n, w'.files n p = w.files n p

/-- The dataset can be processed with the database, and is of the detector. -/
structure Usable (d : Detector) (tab : NonLin.Table ℝ) (P : Pre) (w : Disk) (c : Series) : Prop where
  params : ∃ p, lookup w c.first "DetectorParams" = .ok p
  nonlin : cal w c.first "NonLinearityCalibration" = some (.nonlin tab)
  kgain : ∃ ek, cal w c.first "KGain" = some (.kgain d.kgain ek)
  darks : ∀ st ∈ c.stks, Stack d tab 0 P st
  size : ∀ st ∈ c.stks, ∀ st' ∈ c.stks, st.length = st'.length
  check : Darks.checkStacks (c.stks.map (setting d.kgain)) = .ok ()
  ident : Darks.Identifiable (c.stks.map (setting d.kgain))
  head : c.head.sctsrt ≠ none ∧ c.head.obsnum ≠ none ∧ c.head.opmode ≠ none ∧ c.head.excamt ≠ none
  plain : PlainEntry (product c.head c.path c.book)
  /-- the file of the product is not that of another calibration -/
  own : ∀ r ∈ load w.csv, r.path = some c.path → IsMaps r

/-! ## The database -/

theorem getCalib_congr {db db' : Table} {c : Cls} {t : String} (ht : label c = some t)
    (h : db'.filter (fun r => r.type == some t) = db.filter (fun r => r.type == some t)) (f : Option Entry) :
    getCalib db' f c = getCalib db f c := by
  unfold getCalib
  rw [ht]
  simp only [pure_bind]
  rw [h]

theorem getCalib_type {db : Table} {f : Option Entry} {c : Cls} {t : String} (ht : label c = some t) {r : Row} (h : getCalib db f c = .ok r) :
    r ∈ db ∧ r.type = some t := by
  have h1 : getCalib (db.filter fun r => r.type == some t) f c = .ok r := by
    rw [← h]
    exact getCalib_congr ht (by rw [List.filter_filter]; simp) f
  have h2 := CalDB.Files.getCalib_mem h1
  rw [List.mem_filter] at h2
  exact ⟨h2.1, by simpa using h2.2⟩

theorem load_upsert (db : Table) (p : String) (new : Row) : load (upsert (load db) p new) = upsert (load db) p (reloadRow new) := by
  have hr : ∀ r ∈ load db, reloadRow r = r := by
    intro r hr
    obtain ⟨q, -, rfl⟩ := List.mem_map.1 hr
    exact reloadRow_idem q
  unfold upsert
  split
  · show List.map _ (List.map _ _) = _
    rw [List.map_map]
    refine List.map_congr_left fun r h => ?_
    simp only [Function.comp_apply]
    split
    · rfl
    · exact hr r h
  · show List.map _ (_ ++ _) = _
    rw [List.map_append]
    congr 1
    exact (List.map_congr_left hr).trans (List.map_id _)

theorem label_maps {c : Cls} (h : c ≠ .noisemaps) : label c ≠ some "DetectorNoiseMaps" := by
  cases c <;> first | exact absurd rfl h | simp [label]

theorem lookup_alike {w w' : Disk} (h : Alike w w') (e : Entry) {n : String} (hn : Autoload.datatypes n ≠ some .noisemaps) :
    lookup w' e n = lookup w e n := by
  unfold lookup
  cases hd : Autoload.datatypes n with
  | none => rfl
  | some c =>
    dsimp only
    cases hl : label c with
    | none =>
      have : ∀ db, getCalib db (some e) c = .error .valueError := by
        intro db
        unfold getCalib
        rw [hl]
        rfl
      rw [this, this]
    | some t =>
      have ht : t ≠ "DetectorNoiseMaps" := fun he => label_maps (c := c) (fun hc => hn (by rw [hd, hc])) (by rw [hl, he])
      have hf : ∀ db : Table, db.filter (fun r => r.type == some t) = (db.filter fun r => ¬ IsMaps r).filter fun r => r.type == some t := by
        intro db
        rw [List.filter_filter]
        refine List.filter_congr fun r _ => ?_
        by_cases hr : r.type = some t
        · have : ¬ IsMaps r := fun hm => ht (by have := hm.symm.trans hr; simpa using this.symm)
          simp [hr, this]
        · simp [hr]
      have hg : getCalib (load w'.csv) (some e) c = getCalib (load w.csv) (some e) c :=
        getCalib_congr hl (by rw [hf, h.rows, ← hf]) _
      rw [hg]
      cases hr : getCalib (load w.csv) (some e) c with
      | error x => cases x <;> rfl
      | ok r =>
        dsimp only
        obtain ⟨h1, h2⟩ := getCalib_type hl hr
        cases hp : r.path with
        | none => rfl
        | some p =>
          dsimp only
          rw [h.files r h1 (fun hm => ht (by have := hm.symm.trans h2; simpa using this.symm)) p hp n]

theorem cal_alike {w w' : Disk} (h : Alike w w') (e : Entry) {n : String} (hn : Autoload.datatypes n ≠ some .noisemaps) : cal w' e n = cal w e n := by
  unfold cal
  rw [lookup_alike h e hn]
  cases hl : lookup w e n with
  | error x => rfl
  | ok p =>
    -- the path is that of a row of this class
    unfold lookup at hl
    cases hd : Autoload.datatypes n with
    | none => rw [hd] at hl; cases hl
    | some c =>
      rw [hd] at hl
      dsimp only at hl
      split at hl
      · cases hl
      · cases hl
      · rename_i r hr
        split at hl
        · cases hl
        · rename_i q hq
          split at hl
          · cases hl
          · cases hl
            have hlab : ∃ t, label c = some t := by
              cases hc : label c with
              | some t => exact ⟨t, rfl⟩
              | none =>
                unfold getCalib at hr
                rw [hc] at hr
                cases hr
            obtain ⟨t, ht⟩ := hlab
            obtain ⟨h1, h2⟩ := getCalib_type ht hr
            refine h.files r h1 (fun hm => ?_) _ hq n
            exact label_maps (c := c) (fun hc => hn (by rw [hd, hc])) (by rw [ht, ← h2]; exact hm)

theorem Alike.refl (w : Disk) : Alike w w := ⟨rfl, fun _ _ _ _ _ _ => rfl⟩

theorem Alike.trans {w w' w'' : Disk} (h : Alike w w') (h' : Alike w' w'') : Alike w w'' := by
  refine ⟨h'.rows.trans h.rows, fun r hr hm p hp n => ?_⟩
  have : r ∈ load w'.csv := by
    have h1 : r ∈ (load w'.csv).filter fun r => ¬ IsMaps r := by
      rw [h.rows]
      exact List.mem_filter.2 ⟨hr, by simpa using hm⟩
    exact (List.mem_filter.1 h1).1
  rw [h'.files r this hm p hp n, h.files r hr hm p hp n]

/-! ## One product -/

/-- What registering noise maps does to the disk. -/
theorem register_maps {w : Disk} {prod : Entry} {row : Row} (hd : Describes row prod) (hc : prod.cls = .noisemaps) (he : PlainEntry prod)
    (hp : Plain w.csv) (own : ∀ r ∈ load w.csv, r.path = some prod.absPath → IsMaps r) (k : Cal) :
    ∃ w', register w "DetectorNoiseMaps" prod k = .ok w' ∧ load w'.csv = upsert (load w.csv) prod.absPath (reloadRow row) ∧
      (w'.files "DetectorNoiseMaps" prod.absPath = some k) ∧ (∀ n q, q ≠ prod.absPath → w'.files n q = w.files n q) ∧
      w'.products = w.products ∧ Plain w'.csv ∧ Alike w w' ∧ reloadRow row ∈ load w'.csv ∧ IsMaps (reloadRow row) ∧
      (reloadRow row).path = some prod.absPath ∧ (reloadRow row).mjd = row.mjd := by
  have hv := values_ok_iff.2 hd
  have hpath : (reloadRow row).path = some prod.absPath := reloadRow_path_abs hd.path he.path
  have htype : IsMaps (reloadRow row) := by
    obtain ⟨t, h1, h2⟩ := hd.type
    rw [hc] at h2
    cases h2
    show reloadStr row.type = _
    rw [h1]
    decide +kernel
  have hcreate : createEntry ⟨load w.csv, w.csv⟩ prod true = .ok ⟨upsert (load w.csv) prod.absPath row, upsert (load w.csv) prod.absPath row⟩ := by
    unfold createEntry
    rw [hv]
    rfl
  refine ⟨{ w with csv := upsert (load w.csv) prod.absPath row,
                   files := fun n' q => if q = prod.absPath then (if n' = "DetectorNoiseMaps" then some k else none) else w.files n' q },
    by unfold register; rw [hcreate], load_upsert _ _ _, ?_, ?_, rfl, hp.load.upsert hd he, ⟨?_, ?_⟩, ?_, htype, hpath, rfl⟩
  · simp
  · intro n q hq
    simp [hq]
  · show (load (upsert (load w.csv) prod.absPath row)).filter _ = _
    rw [load_upsert]
    unfold upsert
    split
    · rw [List.filter_map]
      have : ((load w.csv).filter ((fun r => decide ¬ IsMaps r) ∘ fun r => if r.path = some prod.absPath then reloadRow row else r)) =
          (load w.csv).filter fun r => decide ¬ IsMaps r := by
        refine List.filter_congr fun r hr => ?_
        simp only [Function.comp_apply]
        split
        · rename_i h
          simp [own r hr h, htype]
        · rfl
      rw [this]
      refine (List.map_congr_left fun r hr => ?_).trans (List.map_id _)
      have h1 := List.mem_filter.1 hr
      rw [if_neg fun h => by simpa using (show ¬ IsMaps r by simpa using h1.2) (own r h1.1 h)]
      rfl
    · rw [List.filter_append]
      simp [htype]
  · intro r hr hm p hq n
    have : p ≠ prod.absPath := fun h => hm (own r hr (by rw [hq, h]))
    simp [this]
  · show _ ∈ load (upsert (load w.csv) prod.absPath row)
    rw [load_upsert]
    exact mem_upsert_new (inValues_plain he.path hp.load.plain).1

theorem product_describes {head : Entry} (h : head.sctsrt ≠ none ∧ head.obsnum ≠ none ∧ head.opmode ≠ none ∧ head.excamt ≠ none) (p : String)
    (b : Book) : ∃ row, Describes row (product head p b) ∧ head.sctsrt = some row.mjd := by
  obtain ⟨h1, h2, h3, h4⟩ := h
  obtain ⟨s, hs⟩ := Option.ne_none_iff_exists'.1 h1
  obtain ⟨o, ho⟩ := Option.ne_none_iff_exists'.1 h2
  obtain ⟨m, hm⟩ := Option.ne_none_iff_exists'.1 h3
  obtain ⟨x, hx⟩ := Option.ne_none_iff_exists'.1 h4
  cases hv : valuesFromEntry (product head p b) true with
  | ok row =>
    have := values_ok_iff.1 hv
    exact ⟨row, this, this.mjd⟩
  | error x =>
    simp [valuesFromEntry, product, need, label, naxes, hs, ho, hm, hx, bind, Except.bind, pure, Except.pure] at hv

/-! ## C189: campaigns -/

/-- **C189** The recipe for noise maps on darks of the detector: it succeeds; the database, if it had only maps of this detector, still
has only such; nothing else changes; there are noise maps now. -/
theorem C189_maps {d : Detector} (hk : d.kgain ≠ 0) (hpos : (∀ r c, 0 ≤ d.cic r c) ∧ ∀ r c, 0 ≤ d.dark r c) {tab : NonLin.Table ℝ}
    (ht : NonLin.Good tab) {P : Pre} {w : Disk} {c : Series} (hc : Usable d tab P w c) (hp : Plain w.csv) (hw : AllFit d w) :
    ∃ w', makeMaps w c = .ok w' ∧ Plain w'.csv ∧ AllFit d w' ∧ Alike w w' ∧ w'.products = w.products ∧
      ∃ r ∈ load w'.csv, IsMaps r ∧ r.path = some c.path ∧ c.head.sctsrt = some r.mjd := by
  obtain ⟨m, h1, h2, h3, h4, h5⟩ := C188_maps hk hpos ht c.rest hc.darks hc.size hc.check hc.ident
  obtain ⟨row, hrow, hm⟩ := product_describes hc.head c.path c.book
  obtain ⟨w', e1, e2, e3, e4, e5, e6, e7, e8, e9, e10, e11⟩ :=
    register_maps (w := w) hrow rfl hc.plain hp hc.own (.maps m 0 c.offErr)
  obtain ⟨q, hq⟩ := hc.params
  obtain ⟨ek, hkg⟩ := hc.kgain
  obtain ⟨q1, hq1⟩ := cal_lookup hc.nonlin
  obtain ⟨q2, hq2⟩ := cal_lookup hkg
  refine ⟨w', ?_, e6, ?_, e7, e5, _, e8, e9, e10, by rw [e11]; exact hm⟩
  · unfold makeMaps
    rw [hq, hq1, hq2]
    dsimp only
    rw [hc.nonlin, hkg]
    dsimp only
    rw [h1]
    exact e1
  · have hfit : Fits d m := ⟨h2, fun r c hr hc => (h3 r c hr hc).1, fun r c hr hc => (h3 r c hr hc).2.1, fun r c hr hc => (h3 r c hr hc).2.2, h4, h5⟩
    intro r hr hmaps
    rw [e2] at hr
    rcases mem_upsert hr with rfl | hr
    · exact ⟨_, m, c.offErr, e10, e3, hfit⟩
    · obtain ⟨p, m', oe, g1, g2, g3⟩ := hw r hr hmaps
      by_cases hpp : p = c.path
      · subst hpp
        exact ⟨_, m, c.offErr, g1, e3, hfit⟩
      · exact ⟨p, m', oe, g1, by rw [e4 _ _ hpp]; exact g2, g3⟩

theorem usable_alike {d : Detector} {tab : NonLin.Table ℝ} {P : Pre} {w w' : Disk} (h : Alike w w') {c : Series} (hc : Usable d tab P w c) :
    Usable d tab P w' c := by
  obtain ⟨q, hq⟩ := hc.params
  refine ⟨⟨q, by rw [lookup_alike h _ (by decide +kernel)]; exact hq⟩, by rw [cal_alike h _ (by decide +kernel)]; exact hc.nonlin,
    by rw [cal_alike h _ (by decide +kernel)]; exact hc.kgain, hc.darks, hc.size, hc.check, hc.ident, hc.head, hc.plain, fun r hr hq => ?_⟩
  by_contra hm
  have h1 : r ∈ (load w.csv).filter fun r => ¬ IsMaps r := by
    rw [← h.rows]
    exact List.mem_filter.2 ⟨hr, by simpa using hm⟩
  exact hm (hc.own r (List.mem_filter.1 h1).1 hq)

/-- **C189** Any number of campaigns, one after the other. -/
theorem C189_campaigns {d : Detector} (hk : d.kgain ≠ 0) (hpos : (∀ r c, 0 ≤ d.cic r c) ∧ ∀ r c, 0 ≤ d.dark r c) {tab : NonLin.Table ℝ}
    (ht : NonLin.Good tab) {P : Pre} {w : Disk} {cs : List Series} (hc : ∀ c ∈ cs, Usable d tab P w c) (hp : Plain w.csv) (hw : AllFit d w) :
    ∃ w', cs.foldlM makeMaps w = .ok w' ∧ Plain w'.csv ∧ AllFit d w' ∧ Alike w w' ∧ w'.products = w.products ∧
      (cs ≠ [] ∨ (∃ r ∈ load w.csv, IsMaps r) → ∃ r ∈ load w'.csv, IsMaps r) := by
  suffices H : ∀ w₁, Plain w₁.csv → AllFit d w₁ → Alike w w₁ → ∃ w', cs.foldlM makeMaps w₁ = .ok w' ∧ Plain w'.csv ∧ AllFit d w' ∧ Alike w w' ∧
      w'.products = w₁.products ∧ (cs = [] → w' = w₁) ∧ (cs ≠ [] → ∃ r ∈ load w'.csv, IsMaps r) by
    obtain ⟨w', h1, h2, h3, h4, h5, h6, h7⟩ := H w hp hw (.refl w)
    refine ⟨w', h1, h2, h3, h4, h5, fun h => ?_⟩
    by_cases hcs : cs = []
    · rw [h6 hcs]
      exact h.resolve_left (fun h => h hcs)
    · exact h7 hcs
  induction cs with
  | nil => exact fun w₁ a b e => ⟨w₁, rfl, a, b, e, rfl, fun _ => rfl, fun h => absurd rfl h⟩
  | cons c cs ih =>
    intro w₁ a b e
    obtain ⟨w₂, h1, h2, h3, h4, h5, r, h6, h7, -⟩ := C189_maps hk hpos ht (usable_alike e (hc c (by simp))) a b
    obtain ⟨w', k1, k2, k3, k4, k5, k6, k7⟩ := ih (fun x hx => hc x (List.mem_cons_of_mem _ hx)) w₂ h2 h3 (e.trans h4)
    refine ⟨w', ?_, k2, k3, k4, k5.trans h5, by simp, fun _ => ?_⟩
    · rw [List.foldlM_cons, h1]
      exact k1
    · by_cases hcs : cs = []
      · rw [k6 hcs]
        exact ⟨r, h6, h7⟩
      · exact k7 hcs

/-- The calibrations other than noise maps that the database has for a science frame describe the detector. -/
structure Others (w : Disk) (e : Entry) (d : Detector) (tab : NonLin.Table ℝ) (F : Flat) (bp : Ix → ℕ) : Prop where
  complete : ∃ mjd x, Complete e mjd x
  params : cal w e "DetectorParams" = some (.params d.rowread)
  nonlin : cal w e "NonLinearityCalibration" = some (.nonlin tab)
  kgain : ∃ ek, cal w e "KGain" = some (.kgain d.kgain ek)
  badpix : cal w e "BadPixelMap" = some (.badpix bp)
  trap : (∃ p, lookup w e "TrapCalibration" = .ok p) ∨ lookup w e "TrapCalibration" = .error .valueError
  flat : cal w e "FlatField" = some (.flat F)
  shape : F.shape = [1024, 1024]
  same : ∀ r c, r < 1024 → c < 1024 → F.data [r, c] = d.flat r c

/-- Which maps a science frame gets. -/
theorem maps_found {d : Detector} {w : Disk} (hw : AllFit d w) {e : Entry} {mjd : ℚ} {x : Option ℚ} (he : Complete e mjd x)
    (hr : ∃ r ∈ load w.csv, IsMaps r) : ∃ m offErr, cal w e "DetectorNoiseMaps" = some (.maps m 0 offErr) ∧ Fits d m := by
  obtain ⟨r, hr, hm⟩ := hr
  obtain ⟨s, hs⟩ := choice_exists (db := load w.csv) .noisemaps he hr ⟨hm, fun h => absurd h (by decide)⟩
  obtain ⟨h1, h2⟩ := getCalib_type (t := "DetectorNoiseMaps") rfl hs
  obtain ⟨p, m, oe, g1, g2, g3⟩ := hw s h1 h2
  have hl : lookup w e "DetectorNoiseMaps" = .ok p := by
    unfold lookup
    rw [show Autoload.datatypes "DetectorNoiseMaps" = some .noisemaps from rfl]
    dsimp only
    rw [hs]
    dsimp only
    rw [g1]
    dsimp only
    rw [g2]
  refine ⟨m, oe, ?_, g3⟩
  unfold cal
  rw [hl]
  exact g2

/-- **C189** A science walk after any number of campaigns, whatever their dates: the product is the scene. -/
theorem C189_scene (R : Walk.Rest) {d : Detector} (hs : Sound d) (hpos : (∀ r c, 0 ≤ d.cic r c) ∧ ∀ r c, 0 ≤ d.dark r c) {tab : NonLin.Table ℝ}
    (ht : NonLin.Good tab) {P : Pre} {w : Disk} (hp : Plain w.csv) (hw : AllFit d w) {cs : List Series} (hc : ∀ c ∈ cs, Usable d tab P w c)
    (hone : cs ≠ [] ∨ ∃ r ∈ load w.csv, IsMaps r) {e : Entry} {F : Flat} {bp : Ix → ℕ} (hr : Others w e d tab F bp)
    {ss : List (ℕ → ℕ → ℝ)} {xs : List Raw} (hx : Shot d tab 0 ss xs) (g : Walker.Settings) (files : List String) (o : String) :
    ∃ w' res gs a, cs.foldlM makeMaps w = .ok w' ∧ walk R g w' ⟨e, "L1", .raw xs⟩ files o l1ToL2b = .ok res ∧ res.2 = none ∧
      res.1.data = ⟨e, "L2b", .final gs⟩ ∧ res.1.world = { w' with products := w.products ++ [a, res.1.data] } ∧
      List.Forall₂ (fun s (g : Final) => ∀ r c, r < 1024 → c < 1024 → g.data [r, c] = if g.fr.dq [r, c] = 0 then some (s r c) else none) ss gs := by
  obtain ⟨w', h1, -, h3, h4, h5, h6⟩ := C189_campaigns hs.kgain hpos ht hc hp hw
  obtain ⟨mjd, x, he⟩ := hr.complete
  obtain ⟨m, oe, hm, hf⟩ := maps_found h3 he (h6 hone)
  have hcal : ∀ n, Autoload.datatypes n ≠ some .noisemaps → cal w' e n = cal w e n := fun n hn => cal_alike h4 e hn
  have hhas : Has w' e d tab m 0 d.rowread d.kgain F bp :=
    { maps := ⟨oe, hm⟩
      params := by rw [hcal _ (by decide +kernel)]; exact hr.params
      nonlin := by rw [hcal _ (by decide +kernel)]; exact hr.nonlin
      kgain := by rw [hcal _ (by decide +kernel)]; exact hr.kgain
      badpix := by rw [hcal _ (by decide +kernel)]; exact hr.badpix
      trap := by rw [lookup_alike h4 e (by decide +kernel)]; exact hr.trap
      flat := by rw [hcal _ (by decide +kernel)]; exact hr.flat
      agree := ⟨rfl, rfl, ⟨hf.shape, hr.shape⟩, hf.fpn, hf.cic, hf.dark, hr.same, hf.pos.1, hf.pos.2⟩ }
  obtain ⟨res, gs, a, bs, k1, k2, k3, k4, k5, k6, -⟩ := C182_scene R hs ht hhas hx g files o
  exact ⟨w', res, gs, a, h1, k1, k2, k3, by rw [k4, h5], k6⟩

/-! ## C189: which maps -/

theorem func_disk {R : Walk.Rest} {n : String} {f : Disk → Data → List (Option Cal) → List (String × String) → Except WErr Data}
    (h : func R n = some f) (w w' : Disk) : f w' = f w := by
  unfold func at h
  split at h <;> cases h <;> rfl

theorem meaning_congr {R : Walk.Rest} {w w' : Disk} {e : Entry} (h : ∀ n, cal w' e n = cal w e n) (l : List Walker.Step) (d : Data) :
    meaning R w' e l d = meaning R w e l d := by
  induction l generalizing d with
  | nil => rfl
  | cons s l ih =>
    unfold meaning
    split
    · rw [ih]
    · split
      · rfl
      · rename_i f hf
        rw [func_disk hf w w']
        simp only [h]
        split
        · rfl
        · exact ih _

theorem makeMaps_parts {w w' : Disk} {c : Series} (h : makeMaps w c = .ok w') : ∃ m b tab k ek, cal w c.first "NonLinearityCalibration" = some (.nonlin tab) ∧
    cal w c.first "KGain" = some (.kgain k ek) ∧ calibrate tab k c.rest c.stks = .ok (m, some b) ∧
    register w "DetectorNoiseMaps" (product c.head c.path c.book) (.maps m b c.offErr) = .ok w' := by
  unfold makeMaps at h
  split at h
  · split at h
    · rename_i tab k ek h1 h2
      split at h
      · rename_i m b h3
        exact ⟨m, b, tab, k, ek, h1, h2, h3, h⟩
      · cases h
    · cases h
  · cases h

theorem register_describes {w w' : Disk} {n : String} {prod : Entry} {k : Cal} (h : register w n prod k = .ok w') : ∃ row, Describes row prod := by
  unfold register at h
  split at h
  · cases h
  · rename_i s hs
    unfold createEntry at hs
    cases hv : valuesFromEntry prod true with
    | ok row => exact ⟨row, values_ok_iff.1 hv⟩
    | error x => rw [hv] at hs; cases hs

/-- **C189** New noise maps under a new path: a frame gets them if they are nearer in time than all that were there, and what it got before if not. -/
theorem C189_choice {w w' : Disk} {c : Series} (h : makeMaps w c = .ok w') (hp : Plain w.csv) (he : PlainEntry (product c.head c.path c.book))
    (hnew : ∀ r ∈ load w.csv, r.path ≠ some c.path) {e : Entry} {mjd : ℚ} {x : Option ℚ} (hc : Complete e mjd x) :
    ∃ t m b tab k ek, c.head.sctsrt = some t ∧ cal w c.first "NonLinearityCalibration" = some (.nonlin tab) ∧
      cal w c.first "KGain" = some (.kgain k ek) ∧ calibrate tab k c.rest c.stks = .ok (m, some b) ∧
      ((∀ r ∈ load w.csv, IsMaps r → |t - mjd| < |r.mjd - mjd|) → cal w' e "DetectorNoiseMaps" = some (.maps m b c.offErr)) ∧
      (¬ (∀ r ∈ load w.csv, IsMaps r → |t - mjd| < |r.mjd - mjd|) →
        lookup w' e "DetectorNoiseMaps" = lookup w e "DetectorNoiseMaps" ∧ cal w' e "DetectorNoiseMaps" = cal w e "DetectorNoiseMaps") := by
  obtain ⟨m, b, tab, k, ek, h1, h2, h3, h4⟩ := makeMaps_parts h
  obtain ⟨row, hrow⟩ := register_describes h4
  obtain ⟨w₂, e1, e2, e3, e4, -, -, -, -, e9, e10, e11⟩ := register_maps (w := w) hrow rfl he hp (fun r hr hq => absurd hq (hnew r hr)) (.maps m b c.offErr)
  rw [h4] at e1
  cases e1
  have hno : inValues (product c.head c.path c.book).absPath (load w.csv) = false := by
    rw [← Bool.not_eq_true, inValues_plain he.path hp.load.plain]
    rintro ⟨r, hr, hq⟩
    exact hnew r hr hq
  have hl : load w'.csv = load w.csv ++ [reloadRow row] := by
    rw [e2]
    unfold upsert
    rw [if_neg (by rw [hno]; simp)]
  refine ⟨row.mjd, m, b, tab, k, ek, hrow.mjd, h1, h2, h3, fun hn => ?_, fun hn => ?_⟩
  · have hg : getCalib (load w'.csv) (some e) .noisemaps = .ok (reloadRow row) :=
      (choice_iff .noisemaps hc _).2 ⟨load w.csv, [], hl, ⟨e9, fun h => absurd h (by decide)⟩,
        fun q hq hq' => by
          show |(reloadRow row).mjd - mjd| < _
          rw [e11]
          exact hn q hq hq'.1, fun q hq => by cases hq⟩
    have hlook : lookup w' e "DetectorNoiseMaps" = .ok c.path := by
      unfold lookup
      rw [show Autoload.datatypes "DetectorNoiseMaps" = some .noisemaps from rfl]
      dsimp only
      rw [hg]
      dsimp only
      rw [e10]
      dsimp only
      rw [e3]
      rfl
    unfold cal
    rw [hlook]
    exact e3
  · push Not at hn
    obtain ⟨r, hr, hm, hle⟩ := hn
    obtain ⟨s, hs⟩ := choice_exists (db := load w.csv) .noisemaps hc hr ⟨hm, fun h => absurd h (by decide)⟩
    have hb := (choice_iff .noisemaps hc _).1 hs
    obtain ⟨hs1, hs2, hs3⟩ := firstBest_le hb
    have hg : getCalib (load w'.csv) (some e) .noisemaps = .ok s := by
      refine (choice_iff .noisemaps hc _).2 ?_
      obtain ⟨pre, post, p1, p2, p3, p4⟩ := hb
      refine ⟨pre, post ++ [reloadRow row], by rw [hl, p1]; simp, p2, p3, fun q hq hq' => ?_⟩
      rcases List.mem_append.1 hq with hq | hq
      · exact p4 q hq hq'
      · simp only [List.mem_cons, List.not_mem_nil, or_false] at hq
        subst hq
        show ¬ |(reloadRow row).mjd - mjd| < _
        rw [e11, not_lt]
        exact (hs3 r hr ⟨hm, fun h => absurd h (by decide)⟩).trans hle
    have hlook : lookup w' e "DetectorNoiseMaps" = lookup w e "DetectorNoiseMaps" := by
      unfold lookup
      rw [show Autoload.datatypes "DetectorNoiseMaps" = some .noisemaps from rfl]
      dsimp only
      rw [hs, hg]
      dsimp only
      cases hpath : s.path with
      | none => rfl
      | some p =>
        dsimp only
        rw [e4 _ p fun hq => hnew s hs1 (by rw [hpath, hq]; rfl)]
    refine ⟨hlook, ?_⟩
    unfold cal
    rw [hlook]
    cases hk : lookup w e "DetectorNoiseMaps" with
    | error x => rfl
    | ok p =>
      show w'.files _ p = w.files _ p
      refine e4 _ p fun hq => ?_
      unfold lookup at hk
      rw [show Autoload.datatypes "DetectorNoiseMaps" = some .noisemaps from rfl] at hk
      dsimp only at hk
      rw [hs] at hk
      dsimp only at hk
      split at hk
      · cases hk
      · rename_i q hpath
        split at hk
        · cases hk
        · cases hk
          exact hnew s hs1 (by rw [hpath, hq]; rfl)

/-- **C189** In the second case a recipe has the outcome it had before: the darks are without effect for this frame. -/
theorem C189_unused (R : Walk.Rest) {w w' : Disk} {c : Series} (h : makeMaps w c = .ok w') (hp : Plain w.csv)
    (he : PlainEntry (product c.head c.path c.book)) (hnew : ∀ r ∈ load w.csv, r.path ≠ some c.path) {d : Data} {mjd : ℚ} {x : Option ℚ}
    (hc : Complete d.entry mjd x) {t : ℚ} (hh : c.head.sctsrt = some t) {r : Row} (hr : r ∈ load w.csv) (hm : IsMaps r)
    (hle : |r.mjd - mjd| ≤ |t - mjd|) {T : Walker.Recipe} (hT : (T.drpconfig.map Prod.fst).Nodup) (hs : ∀ s ∈ T.steps, Findable w d.entry s)
    {o : String} {ss : List Walker.Step} (hd : T.steps.mapM (Walker.setDarkDir o) = .ok ss) (g : Walker.Settings) (files : List String) :
    ∃ res res', walk R g w d files o T = .ok res ∧ walk R g w' d files o T = .ok res' ∧ res'.2 = res.2 ∧
      (res.2 = none → res'.1.data = res.1.data) := by
  obtain ⟨t', m, b, tab, k, ek, a1, -, -, -, -, a2⟩ := C189_choice h hp he hnew hc
  rw [hh] at a1
  cases a1
  obtain ⟨b1, b2⟩ := a2 fun hn => absurd (hn r hr hm) (not_lt.2 hle)
  obtain ⟨m, b, tab, k, ek, -, -, -, h4⟩ := makeMaps_parts h
  obtain ⟨row, hrow⟩ := register_describes h4
  obtain ⟨w₂, e1, -, -, -, -, -, e7, -⟩ := register_maps (w := w) hrow rfl he hp (fun r hr hq => absurd hq (hnew r hr)) (.maps m b c.offErr)
  rw [h4] at e1
  cases e1
  have names : ∀ n, n = "DetectorNoiseMaps" ∨ Autoload.datatypes n ≠ some .noisemaps := by
    intro n
    unfold Autoload.datatypes
    split <;> first | exact .inl rfl | exact .inr (by simp)
  have hcal : ∀ n, cal w' d.entry n = cal w d.entry n := fun n => by
    rcases names n with rfl | hn
    · exact b2
    · exact cal_alike e7 _ hn
  have hlook : ∀ n, lookup w' d.entry n = lookup w d.entry n := fun n => by
    rcases names n with rfl | hn
    · exact b1
    · exact lookup_alike e7 _ hn
  have hs' : ∀ s ∈ T.steps, Findable w' d.entry s := fun s hx => ⟨(hs s hx).skip, fun cs h1 c h2 => by
    rw [hlook]
    exact (hs s hx).calibs cs h1 c h2⟩
  obtain ⟨res, r1, r2⟩ := C182_meaning R hT g w d files o hs hd
  obtain ⟨res', r3, r4⟩ := C182_meaning R hT g w' d files o hs' hd
  rw [meaning_congr hcal] at r4
  refine ⟨res, res', r1, r3, ?_⟩
  cases hmm : meaning R w d.entry ss d with
  | error y =>
    rw [hmm] at r2 r4
    have a : res.2 = some y := r2
    have b : res'.2 = some y := r4
    rw [a, b]
    exact ⟨rfl, fun h => by cases h⟩
  | ok y =>
    rw [hmm] at r2 r4
    obtain ⟨a1, a2, -⟩ := r2
    obtain ⟨b1, b2, -⟩ := r4
    exact ⟨b1.trans a1.symm, fun _ => b2.trans a2.symm⟩

/-! ## Non-vacuity -/

private def exCsv : Table :=
  [("DetectorParams", "/p"), ("NonLinearityCalibration", "/n"), ("KGain", "/k"), ("FlatField", "/f"), ("BadPixelMap", "/b")].map fun t =>
    { exRow t.2 1 1 0 with type := some t.1 }

private def exFiles : String → String → Option Cal
  | "DetectorParams", "/p" => some (.params (1 / 1000))
  | "NonLinearityCalibration", "/n" => some (.nonlin linear)
  | "KGain", "/k" => some (.kgain 8 0)
  | "FlatField", "/f" => some (.flat ⟨[1024, 1024], fun _ => 1 / 2, fun _ => 0⟩)
  | "BadPixelMap", "/b" => some (.badpix fun _ => 0)
  | _, _ => none

private def exDisk : Disk := ⟨exCsv, exFiles, []⟩

private theorem exCal {n : String} {c : Cls} {r : Row} {e : Entry} {p : String} {q : Cal} (h1 : Autoload.datatypes n = some c)
    (h2 : getCalib (load exCsv) (some e) c = .ok r) (h3 : r.path = some p) (h4 : exFiles n p = some q) :
    lookup exDisk e n = .ok p ∧ cal exDisk e n = some q := by
  have : lookup exDisk e n = .ok p := by
    unfold lookup
    rw [h1]
    dsimp only [exDisk]
    rw [h2]
    dsimp only
    rw [h3]
    dsimp only
    rw [h4]
  refine ⟨this, ?_⟩
  unfold cal
  rw [this]
  exact h4

private def exSeries (p : String) (t : ℚ) : Series :=
  ⟨exDark "/d" t 1 0, exDark "/d" t 1 0, stackOf 8 fun g u => expose { exDetector 1 2 with gain := g, exptime := u } (fun r => r) 0 fun _ _ => 0, p,
    ⟨some 4, some 3, some "2.1", "77"⟩,
    ⟨[], fun _ => 0, fun _ => 0, fun _ => 0, fun _ => 0, fun _ => 0, fun _ => 0, fun _ => 0, fun _ => 0, fun _ => 0⟩, 0⟩

private theorem exUsable {p : String} (hp : p ∈ ["/m1", "/m2"]) (t : ℚ) (ht : t = 3 ∨ t = 5) :
    Usable (exDetector 1 2) linear ⟨fun _ _ => 0, fun _ _ => 0, fun _ _ => 0⟩ exDisk (exSeries p t) := by
  have hdark : ∀ g u, Dark (exDetector 1 2) linear 0 ⟨fun _ _ => 0, fun _ _ => 0, fun _ _ => 0⟩
      ⟨expose { exDetector 1 2 with gain := g, exptime := u } (fun r => r) 0 (fun _ _ => 0), card (exDetector 1 2).kgain g u⟩ := by
    intro g u
    have h := C144_exposes { exDetector 1 2 with gain := g, exptime := u } (fun r => r) 0 (fun _ _ => 0)
    refine ⟨h.mode, h.size, h.sizeDq, h.sizeErr, fun r => r, fun r c _ h2 => ?_, fun r c _ hc => ⟨0, ?_, by simp⟩, fun r c _ _ =>
      ⟨_, ?_, by rw [linear_relgain, mul_one, card_gain]⟩⟩
    · show (if c < 1088 then _ else _) = _
      rw [if_pos (by omega)]
    · show (if c < 1088 then _ else _) = _
      rw [if_pos hc, zero_add]
    · show (if 1088 + c < 1088 then _ else _) = _
      rw [if_neg (by omega), Nat.add_sub_cancel_left, Nat.add_sub_cancel_left]
      rfl
  obtain ⟨h1, h2, h3, h4⟩ := stackOf_ok (d := exDetector 1 2) (by norm_num [exDetector]) hdark
  simp only [List.mem_cons, List.not_mem_nil, or_false] at hp
  refine ⟨⟨"/p", (exCal (c := .detparams) rfl (by rcases ht with rfl | rfl <;> rfl) rfl rfl).1⟩,
    (exCal (c := .nonlin) rfl (by rcases ht with rfl | rfl <;> rfl) rfl rfl).2,
    ⟨0, (exCal (c := .kgain) rfl (by rcases ht with rfl | rfl <;> rfl) rfl rfl).2⟩, h1, h2, h3, h4,
    ⟨by simp [exSeries, exDark], by simp [exSeries, exDark], by simp [exSeries, exDark], by simp [exSeries, exDark]⟩, ?_, ?_⟩
  · refine ⟨by show AbsPath p; rcases hp with rfl | rfl <;> (unfold AbsPath; decide), by show ¬ AbsPath "77"; unfold AbsPath; decide, ?_, ?_⟩
    · intro s hs
      simp [exSeries, product] at hs
      subst hs
      unfold AbsPath; decide
    · intro s hs
      simp [exSeries, product, exDark] at hs
      subst hs
      unfold AbsPath; decide
  · intro r hr hq
    exfalso
    have : ∀ r ∈ load exCsv, r.path ≠ some "/m1" ∧ r.path ≠ some "/m2" := by decide +kernel
    rcases hp with rfl | rfl
    · exact (this r hr).1 hq
    · exact (this r hr).2 hq

/-- Two campaigns, one before and one after a science frame, on a database without noise maps. -/
example (R : Walk.Rest) (s : ℕ → ℕ → ℝ) (g : Walker.Settings) : ∃ w' res gs a x, [exSeries "/m1" 3, exSeries "/m2" 5].foldlM makeMaps exDisk = .ok w' ∧
    walk R g w' ⟨exDark "/s" 4 1 0, "L1", .raw [x]⟩ ["/s"] "/out" l1ToL2b = .ok res ∧ res.2 = none ∧
    res.1.data = ⟨exDark "/s" 4 1 0, "L2b", .final gs⟩ ∧ res.1.world = { w' with products := [a, res.1.data] } ∧ gs.length = 1 := by
  have hs : Sound (exDetector 1 2) := ⟨by norm_num [exDetector], by norm_num [exDetector], by norm_num [exDetector]⟩
  have hplain : Plain exDisk.csv := by
    refine ⟨?_, ?_, ?_⟩
    · unfold AbsRows
      intro r hr
      have : r ∈ exCsv := hr
      simp only [exCsv, List.map_cons, List.map_nil, List.mem_cons, List.not_mem_nil, or_false] at this
      rcases this with rfl | rfl | rfl | rfl | rfl <;> exact ⟨_, rfl, by unfold AbsPath; decide⟩
    · unfold NoDupPaths
      show (exCsv.map Row.path).Nodup
      decide +kernel
    · intro r hr
      have : r ∈ exCsv := hr
      simp only [exCsv, List.map_cons, List.map_nil, List.mem_cons, List.not_mem_nil, or_false] at this
      rcases this with rfl | rfl | rfl | rfl | rfl <;>
      · intro c hc s hs
        simp only [exRow, List.mem_cons, List.not_mem_nil, or_false] at hc
        rcases hc with rfl | rfl | rfl | rfl <;> (cases hs; unfold AbsPath; decide)
  have hfit : AllFit (exDetector 1 2) exDisk := by
    intro r hr hm
    have : ∀ r ∈ load exCsv, r.type ≠ some "DetectorNoiseMaps" := by decide +kernel
    exact absurd hm (this r hr)
  have hx : Shot (exDetector 1 2) linear 0 [s]
      [⟨{ expose (exDetector 1 2) (fun r => r) 0 s with err := [⟨1200, 2200, fun _ _ => some 0⟩] }, card 8 2 1⟩] := by
    have h := C144_exposes (exDetector 1 2) (fun r => r) 0 s
    refine ⟨by simp, ?_, by simp, by simp, .cons ⟨h.mode, h.size, h.sizeDq, by simp, h.pixels⟩ .nil⟩
    intro x hx
    rw [List.mem_singleton] at hx
    subst hx
    exact ⟨card_gain _ _ _, rfl, rfl, by simp [card]⟩
  have ho : Others exDisk (exDark "/s" 4 1 0) (exDetector 1 2) linear ⟨[1024, 1024], fun _ => 1 / 2, fun _ => 0⟩ fun _ => 0 := by
    refine ⟨⟨4, some 1, ⟨rfl, rfl, by simp [exDark], by simp [exDark], by simp [exDark], by simp [exDark], by simp [exDark]⟩⟩,
      (exCal (c := .detparams) rfl rfl rfl rfl).2, (exCal (c := .nonlin) rfl rfl rfl rfl).2, ⟨0, (exCal (c := .kgain) rfl rfl rfl rfl).2⟩,
      (exCal (c := .badpix) rfl rfl rfl rfl).2, .inr rfl, (exCal (c := .flat) rfl rfl rfl rfl).2, rfl, fun _ _ _ _ => rfl⟩
  obtain ⟨w', res, gs, a, h1, h2, h3, h4, h5, h6⟩ := C189_scene R hs ⟨fun _ _ => by norm_num [exDetector], fun _ _ => by norm_num [exDetector]⟩ linear_good
    hplain hfit (cs := [exSeries "/m1" 3, exSeries "/m2" 5]) (by
      intro c hc
      simp only [List.mem_cons, List.not_mem_nil, or_false] at hc
      rcases hc with rfl | rfl
      · exact exUsable (by simp) 3 (.inl rfl)
      · exact exUsable (by simp) 5 (.inr rfl)) (.inl (by simp)) ho hx g ["/s"] "/out"
  exact ⟨w', res, gs, a, _, h1, h2, h3, h4, h5, by simpa using h6.length_eq.symm⟩

end Corgi.Campaign

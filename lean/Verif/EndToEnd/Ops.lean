import Verif.EndToEnd.Walk
import Verif.Setup.Scan

/-!
# The three steps of operations, from folders of files to L2b (ops.py): C199

`step_1_initialize` and `step_2_load_cal` (ops.py 7-33) are `Init.setUp` of C125, `step_3_process_data` (35-49) with the template
`l1_to_l2b.json` is `Walk.walk` of C182 on the database that they leave.

Simplifications: configuration files (C124) are read; a file of a calibration holds what `files` says under the class that the recipe
asks for and its path; raw files are the frames `xs` with the header `e` of the first.
-/

noncomputable section

namespace Corgi.Ops

open Corgi.Det Corgi.Arith Corgi.EndToEnd Corgi.CalDB Corgi.Walk
open Corgi.Walker (St Settings)
open Corgi.Init (ensure there initDefaults setUp C181_rows C125_scan_ok RowOf Elsewhere type_not_na describes_unique)

/-! ## Model -/

/-- ops.py 7-49 with `template="l1_to_l2b.json"`. -/
def ops (P : Rest) (files : String → String → Option Cal) (d f : Entry) (dir frames : List Entry) (s : Store) (g : Settings) (e : Entry)
    (xs : List Raw) (filelist : List String) (o : String) : Except WErr (St Data Cal Disk × Option WErr) :=
  match setUp d f dir frames s with
  | .error _ => .error .other
  | .ok s' => walk P g ⟨s'.disk, files, []⟩ ⟨e, "L1", .raw xs⟩ filelist o l1ToL2b

/-! ## Specification -/

/-- The files that are registered: those of the default folder if one of the two defaults is missing there, and those of the given folder. -/
def Registered (d f : Entry) (dir frames : List Entry) : List Entry :=
  if d.absPath ∈ dir.map Entry.absPath ∧ f.absPath ∈ (ensure dir d).map Entry.absPath then frames
  else ensure (ensure dir d) f ++ frames

/-- `c` is the file of type `t` that was taken closest to `mjd`, among the registered ones and what the database had under other paths. -/
structure Closest (reg : List Entry) (old : Table) (mjd : ℚ) (t : String) (c : Entry) : Prop where
  mem : c ∈ reg
  type : TypeName c.cls t
  new : ∀ a ∈ reg, TypeName a.cls t → a.absPath ≠ c.absPath → ∀ m n, c.sctsrt = some m → a.sctsrt = some n → |m - mjd| < |n - mjd|
  old : ∀ q ∈ load old, q.type = some t → q.path ≠ some c.absPath → ∀ m, c.sctsrt = some m → |m - mjd| < |q.mjd - mjd|

/-- The closest file of type `t` holds `x`. -/
def Holds (files : String → String → Option Cal) (reg : List Entry) (old : Table) (mjd : ℚ) (t : String) (x : Cal) : Prop :=
  ∃ c, Closest reg old mjd t c ∧ files t c.absPath = some x

/-- There is no file of the type and no row of it. -/
def Without (reg : List Entry) (old : Table) (t : String) : Prop :=
  (∀ a ∈ reg, ¬ TypeName a.cls t) ∧ ∀ q ∈ load old, q.type ≠ some t

/-! ## Proofs -/

private theorem there_mem {dir : List Entry} {p : String} : there dir p = true ↔ p ∈ dir.map Entry.absPath := by
  simp [there]

private theorem scan_append (c d : List Entry) (s : Store) : scanDir s (c ++ d) true = (scanDir s c true).bind fun s => scanDir s d true := by
  unfold scanDir
  rw [List.filter_append, List.foldlM_append]
  rfl

/-- **C199** The first two steps are one scan. -/
theorem C199_setup (d f : Entry) (dir frames : List Entry) (s : Store) : setUp d f dir frames s = scanDir s (Registered d f dir frames) true := by
  unfold setUp initDefaults Registered
  dsimp only
  by_cases h : d.absPath ∈ dir.map Entry.absPath ∧ f.absPath ∈ (ensure dir d).map Entry.absPath
  · rw [if_pos h, there_mem.2 h.1, there_mem.2 h.2]
    rfl
  · rw [if_neg h, scan_append]
    have : (!there dir d.absPath || !there (ensure dir d) f.absPath) = true := by
      by_contra hc
      simp only [Bool.or_eq_true, Bool.not_eq_true', not_or, Bool.not_eq_false] at hc
      exact h ⟨there_mem.1 hc.1, there_mem.1 hc.2⟩
    rw [this]
    simp only [if_true]
    cases scanDir s (ensure (ensure dir d) f) true <;> rfl

private theorem row_type {q : Row} {a : Entry} (h : Describes q a) : ∃ t, (reloadRow q).type = some t ∧ TypeName a.cls t := by
  obtain ⟨t, h1, h2⟩ := h.type
  refine ⟨t, ?_, h2⟩
  show reloadStr q.type = some t
  rw [h1]
  exact type_not_na h2

private theorem type_of {c : Cls} {t : String} (h : TypeName c t) : Autoload.datatypes t = some c := by
  cases h <;> rfl

private theorem found {reg : List Entry} {s s' : Store} (hp : Plain s.disk) (hf : ∀ a ∈ reg, PlainEntry a)
    (hn : (reg.map Entry.absPath).Nodup) (h : scanDir s reg true = .ok s') {e c : Entry} {mjd : ℚ} {x : Option ℚ} (he : Complete e mjd x)
    {t : String} (ht : t ≠ "Dark") (hc : Closest reg s.disk mjd t c) :
    ∃ r, getCalib (load s'.disk) (some e) c.cls = .ok r ∧ r.path = some c.absPath := by
  obtain ⟨q, hq⟩ := C125_scan_ok.1 ⟨s', h⟩ c hc.mem ⟨t, hc.type⟩
  have hm : reloadRow q ∈ load s'.disk := (C181_rows hp hf hn h _).2 (.inl ⟨c, hc.mem, ⟨t, hc.type⟩, q, hq, rfl⟩)
  obtain ⟨t', h1, h2⟩ := row_type hq
  have htt : t' = t := Option.some.inj ((typeName_iff.1 h2).symm.trans (typeName_iff.1 hc.type))
  subst htt
  have hE : Eligible (reloadRow q) t' x := ⟨h1, fun hD => absurd hD ht⟩
  obtain ⟨z, hz⟩ := choice_exists hc.type he hm hE
  obtain ⟨b1, b2, b3⟩ := firstBest_le ((choice_iff hc.type he z).1 hz)
  refine ⟨z, hz, ?_⟩
  have hle := b3 _ hm hE
  by_contra hne
  refine absurd hle (not_le.2 ?_)
  show |q.mjd - mjd| < |z.mjd - mjd|
  rcases (C181_rows hp hf hn h z).1 b1 with ⟨a, ha, ⟨u, hu⟩, qa, hqa, rfl⟩ | ⟨hz1, -⟩
  · obtain ⟨ta, h3, h4⟩ := row_type hqa
    have hta : ta = t' := Option.some.inj (h3.symm.trans b2.1)
    subst hta
    refine hc.new a ha h4 (fun hpa => hne ?_) _ _ hq.mjd hqa.mjd
    rw [reloadRow_path_abs hqa.path (hf a ha).path, hpa]
  · exact hc.old z hz1 b2.1 hne _ hq.mjd

private theorem holds_cal {files : String → String → Option Cal} {reg : List Entry} {s s' : Store} (hp : Plain s.disk)
    (hf : ∀ a ∈ reg, PlainEntry a) (hn : (reg.map Entry.absPath).Nodup) (h : scanDir s reg true = .ok s') {e : Entry} {mjd : ℚ} {x : Option ℚ}
    (he : Complete e mjd x) {t : String} (ht : t ≠ "Dark") {v : Cal} (hv : Holds files reg s.disk mjd t v) :
    cal ⟨s'.disk, files, []⟩ e t = some v := by
  obtain ⟨c, hc, hx⟩ := hv
  obtain ⟨r, h1, h2⟩ := found hp hf hn h he ht hc
  have hl : lookup ⟨s'.disk, files, []⟩ e t = .ok c.absPath := by
    unfold lookup
    rw [type_of hc.type]
    dsimp only
    rw [h1]
    dsimp only
    rw [h2]
    dsimp only
    rw [hx]
  unfold cal
  rw [hl]
  exact hx

private theorem without_error {files : String → String → Option Cal} {reg : List Entry} {s s' : Store} (hp : Plain s.disk)
    (hf : ∀ a ∈ reg, PlainEntry a) (hn : (reg.map Entry.absPath).Nodup) (h : scanDir s reg true = .ok s') {e : Entry} {mjd : ℚ} {x : Option ℚ}
    (he : Complete e mjd x) {c : Cls} {t : String} (hc : TypeName c t) (hw : Without reg s.disk t) :
    lookup ⟨s'.disk, files, []⟩ e t = .error .valueError := by
  have hg : getCalib (load s'.disk) (some e) c = .error .valueError := by
    refine ((C03_get_calib_frame (load s'.disk) e c t mjd x hc he.mjd he.exptime he.obsnum he.shape he.opmode he.emgain he.excamt).2.1).2 ?_
    rintro ⟨q, hq, hE⟩
    rcases (C181_rows hp hf hn h q).1 hq with ⟨a, ha, -, qa, hqa, rfl⟩ | ⟨h1, -⟩
    · obtain ⟨u, h3, h4⟩ := row_type hqa
      have hu : u = t := Option.some.inj (h3.symm.trans hE.1)
      subst hu
      exact hw.1 a ha h4
    · exact hw.2 q h1 hE.1
  unfold lookup
  rw [type_of hc]
  dsimp only
  rw [hg]

/-- **C199** From folders of files to L2b: when the closest file of each class describes the detector and there are no calibrations of traps, the
three steps end without exception, whatever the settings, the other files and the order in which they are found are, and a pixel of L2b has the
value of the scene if its flag is zero and is NaN otherwise. -/
theorem C199_scene (P : Rest) {dt : Detector} (hs : Sound dt) {tab : NonLin.Table ℝ} (ht : NonLin.Good tab) {m : Maps} {off offErr rr k ek : ℝ}
    {F : Flat} {bp : Ix → ℕ} (hcal : Calibrated dt k rr m F) {files : String → String → Option Cal} {d f : Entry} {dir frames : List Entry}
    {s : Store} (hp : Plain s.disk) {reg : List Entry} (hreg : reg = Registered d f dir frames)
    (hg : ∀ a ∈ reg, PlainEntry a ∧ ((∃ t, TypeName a.cls t) → ∃ r, Describes r a))
    (hn : (reg.map Entry.absPath).Nodup) {e : Entry} {mjd : ℚ} {x : Option ℚ} (he : Complete e mjd x)
    (h1 : Holds files reg s.disk mjd "DetectorNoiseMaps" (.maps m off offErr)) (h2 : Holds files reg s.disk mjd "DetectorParams" (.params rr))
    (h3 : Holds files reg s.disk mjd "NonLinearityCalibration" (.nonlin tab)) (h4 : Holds files reg s.disk mjd "KGain" (.kgain k ek))
    (h5 : Holds files reg s.disk mjd "FlatField" (.flat F)) (h6 : Holds files reg s.disk mjd "BadPixelMap" (.badpix bp))
    (h7 : Without reg s.disk "TrapCalibration") {ss : List (ℕ → ℕ → ℝ)} {xs : List Raw} (hx : Shot dt tab off ss xs) (g : Settings)
    (filelist : List String) (o : String) :
    ∃ res gs, ops P files d f dir frames s g e xs filelist o = .ok res ∧ res.2 = none ∧ res.1.data = ⟨e, "L2b", .final gs⟩ ∧
      res.1.world.products.map Data.level = ["L2a", "L2b"] ∧
      List.Forall₂ (fun s (g : Final) => ∀ r c, r < 1024 → c < 1024 → g.data [r, c] = if g.fr.dq [r, c] = 0 then some (s r c) else none) ss gs := by
  obtain ⟨s', hs'⟩ := C125_scan_ok.2 fun a ha ht => (hg a ha).2 ht
  have hpl : ∀ a ∈ reg, PlainEntry a := fun a ha => (hg a ha).1
  have key : ∀ {t : String} {v : Cal}, t ≠ "Dark" → Holds files reg s.disk mjd t v → cal ⟨s'.disk, files, []⟩ e t = some v :=
    fun ht hv => holds_cal hp hpl hn hs' he ht hv
  have hw : Walk.Has ⟨s'.disk, files, []⟩ e dt tab m off rr k F bp :=
    ⟨⟨⟨offErr, key (by decide) h1⟩, key (by decide) h2, key (by decide) h3, ⟨ek, key (by decide) h4⟩, key (by decide) h6,
      .inr (without_error hp hpl hn hs' he .trap h7)⟩, key (by decide) h5, hcal⟩
  obtain ⟨res, gs, a, bs, r1, r2, r3, r4, r5, r6, -⟩ := C182_scene P hs ht hw hx g filelist o
  refine ⟨res, gs, ?_, r2, r3, ?_, r6⟩
  · unfold ops
    rw [C199_setup, ← hreg, hs']
    exact r1
  · rw [r4, r3]
    show [a.level, "L2b"] = _
    rw [r5]

/-- **C199** The conditions do not depend on the order in which the files of the folder are found. -/
theorem C199_order {d f : Entry} {dir frames frames' : List Entry} (h : frames'.Perm frames) {files : String → String → Option Cal} {old : Table}
    {mjd : ℚ} {t : String} {v : Cal} :
    (Registered d f dir frames').Perm (Registered d f dir frames) ∧
    (Holds files (Registered d f dir frames') old mjd t v ↔ Holds files (Registered d f dir frames) old mjd t v) ∧
    (Without (Registered d f dir frames') old t ↔ Without (Registered d f dir frames) old t) := by
  have hp : (Registered d f dir frames').Perm (Registered d f dir frames) := by
    unfold Registered
    split
    · exact h
    · exact h.append_left _
  have hc : ∀ c, Closest (Registered d f dir frames') old mjd t c ↔ Closest (Registered d f dir frames) old mjd t c := fun c =>
    ⟨fun x => ⟨hp.mem_iff.1 x.mem, x.type, fun a ha => x.new a (hp.mem_iff.2 ha), x.old⟩,
      fun x => ⟨hp.mem_iff.2 x.mem, x.type, fun a ha => x.new a (hp.mem_iff.1 ha), x.old⟩⟩
  refine ⟨hp, ?_, ?_⟩
  · unfold Holds
    simp only [hc]
  · unfold Without
    simp only [hp.mem_iff]

/-- **C199** A file of the folder that lacks a keyword the database needs ends the operation before any frame is processed. -/
theorem C199_broken (P : Rest) (files : String → String → Option Cal) {d f : Entry} {dir frames : List Entry} (s : Store) (g : Settings) (e : Entry)
    (xs : List Raw) (filelist : List String) (o : String) {a : Entry} (ha : a ∈ Registered d f dir frames) (ht : ∃ t, TypeName a.cls t)
    (hr : ¬ ∃ r, Describes r a) : ops P files d f dir frames s g e xs filelist o = .error .other := by
  unfold ops
  rw [C199_setup]
  cases h : scanDir s (Registered d f dir frames) true with
  | error => rfl
  | ok s' => exact absurd (C125_scan_ok.1 ⟨s', h⟩ a ha ht) hr

private def exOf (c : Cls) (p : String) (t : ℚ) : Entry := { exDark p t 1 0 with cls := c }

private def exFrames : List Entry :=
  [exOf .noisemaps "/m" 3, exOf .nonlin "/n" 3, exOf .kgain "/old" 9, exOf .kgain "/k" 3, exOf .flat "/F" 3, exOf .badpix "/b" 3]

private theorem ex_reg : Registered (exOf .detparams "/p" 3) (exOf .fpamfsam "/f" 3) [] exFrames =
    exOf .detparams "/p" 3 :: exOf .fpamfsam "/f" 3 :: exFrames := by
  unfold Registered
  rw [if_neg (by simp)]
  decide +kernel

private theorem ex_plain {c : Cls} {p : String} (h : AbsPath p) (t : ℚ) : PlainEntry (exOf c p t) :=
  have := exDark_plain h t 1 0
  ⟨this.path, this.hash, this.version, this.opmode⟩

private theorem ex_describes {c : Cls} {t : String} (h : TypeName c t) (p : String) (m : ℚ) :
    Describes { exRow p m 1 0 with type := some t } (exOf c p m) :=
  have := exDark_describes p m 1 0
  { path := rfl, type := ⟨t, rfl, h⟩, mjd := rfl, exptime := rfl, filesUsed := .inl rfl, dateCreated := .inl rfl, hash := rfl,
    version := .inr ⟨by simp [exOf, exDark], rfl⟩, obsnum := rfl, naxis := .inr ⟨[], rfl⟩, opmode := this.opmode, emgain := rfl, excamt := rfl }

private theorem ex_closest {c : Cls} {t p : String} (h : TypeName c t) (hm : exOf c p 3 ∈ exOf .detparams "/p" 3 :: exOf .fpamfsam "/f" 3 :: exFrames)
    (hl : ∀ a ∈ exOf .detparams "/p" 3 :: exOf .fpamfsam "/f" 3 :: exFrames, label a.cls = some t → a.absPath ≠ p → a.sctsrt = some 9) :
    Closest (exOf .detparams "/p" 3 :: exOf .fpamfsam "/f" 3 :: exFrames) [] 2 t (exOf c p 3) := by
  refine ⟨hm, h, ?_, by intro q hq; cases hq⟩
  intro a ha hta hne m n h1 h2
  have h3 := hl a ha (typeName_iff.1 hta) hne
  rw [h3] at h2
  cases h2
  cases h1
  norm_num

/-- Folders with one file of each class, and a second, older K-gain. -/
example (P : Rest) (s : ℕ → ℕ → ℝ) (g : Settings) : ∃ files e xs res, ops P files (exOf .detparams "/p" 3) (exOf .fpamfsam "/f" 3) [] exFrames ⟨[], []⟩
    g e xs ["/f"] "/out" = .ok res ∧ res.2 = none ∧ res.1.world.products.length = 2 := by
  have hE := exRun_observes (t := 1) (G := 2) (by norm_num) (by norm_num) (n := 2) (by norm_num) s
  set R := exRun 1 2 2 s
  have hx : Shot (exDetector 1 2) R.tab R.off [s, s]
      (R.xs.map fun x => { x with l1 := { x.l1 with err := [⟨1200, 2200, fun _ _ => some 0⟩] } }) := by
    have hex : ∀ x ∈ R.xs, Exposes (exDetector 1 2) R.tab R.off s { x.l1 with err := [⟨1200, 2200, fun _ _ => some 0⟩] } := by
      intro x hx
      have h := hE.exposed x hx
      exact ⟨h.mode, h.size, h.sizeDq, by simp, h.pixels⟩
    refine ⟨by simp [hE.some], ?_, ?_, ?_, ?_⟩
    · intro x hx
      obtain ⟨y, hy, rfl⟩ := List.mem_map.1 hx
      exact hE.header y hy
    · intro x hx x' hx'
      obtain ⟨y, hy, rfl⟩ := List.mem_map.1 hx
      obtain ⟨y', hy', rfl⟩ := List.mem_map.1 hx'
      exact hE.gain y hy y' hy'
    · intro x hx
      obtain ⟨y, hy, rfl⟩ := List.mem_map.1 hx
      simp
    · have hr : R.xs = [R.xs.head hE.some, R.xs.head hE.some] := rfl
      rw [hr]
      exact .cons (hex _ (List.head_mem _)) (.cons (hex _ (List.head_mem _)) .nil)
  let files : String → String → Option Cal := fun n _ => match n with
    | "DetectorNoiseMaps" => some (.maps R.maps R.off R.offErr)
    | "DetectorParams" => some (.params R.rowread)
    | "NonLinearityCalibration" => some (.nonlin R.tab)
    | "KGain" => some (.kgain R.k R.ek)
    | "FlatField" => some (.flat R.flat)
    | "BadPixelMap" => some (.badpix fun _ => 0)
    | _ => none
  obtain ⟨res, gs, h1, h2, -, h4, -⟩ := C199_scene P hE.sound hE.table hE.cal (files := files) (s := ⟨[], []⟩)
    (d := exOf .detparams "/p" 3) (f := exOf .fpamfsam "/f" 3) (dir := []) (frames := exFrames) (bp := fun _ => 0)
    ⟨by simp [AbsRows], by simp [NoDupPaths], by simp⟩ ex_reg.symm
    (by
      intro a ha
      have hA : ∀ a ∈ exOf .detparams "/p" 3 :: exOf .fpamfsam "/f" 3 :: exFrames, ∃ c t p m, a = exOf c p m ∧ AbsPath p ∧ TypeName c t := by
        intro a ha
        simp only [exFrames, List.mem_cons, List.not_mem_nil, or_false] at ha
        rcases ha with rfl | rfl | rfl | rfl | rfl | rfl | rfl | rfl
        · exact ⟨_, _, _, _, rfl, by decide, .detparams⟩
        · exact ⟨_, _, _, _, rfl, by decide, .fpamfsam⟩
        · exact ⟨_, _, _, _, rfl, by decide, .noisemaps⟩
        · exact ⟨_, _, _, _, rfl, by decide, .nonlin⟩
        · exact ⟨_, _, _, _, rfl, by decide, .kgain⟩
        · exact ⟨_, _, _, _, rfl, by decide, .kgain⟩
        · exact ⟨_, _, _, _, rfl, by decide, .flat⟩
        · exact ⟨_, _, _, _, rfl, by decide, .badpix⟩
      obtain ⟨c, t, p, m, rfl, hp, ht⟩ := hA a ha
      exact ⟨ex_plain hp m, fun _ => ⟨_, ex_describes ht p m⟩⟩)
    (by decide +kernel) (e := exDark "/f" 2 1 0) (mjd := 2) (x := some 1)
    ⟨rfl, rfl, by simp [exDark], by simp [exDark], by simp [exDark], by simp [exDark], by simp [exDark]⟩
    ⟨_, ex_closest .noisemaps (p := "/m") (by decide +kernel) (by decide +kernel), rfl⟩
    ⟨_, ex_closest .detparams (p := "/p") (by decide +kernel) (by decide +kernel), rfl⟩
    ⟨_, ex_closest .nonlin (p := "/n") (by decide +kernel) (by decide +kernel), rfl⟩
    ⟨_, ex_closest .kgain (p := "/k") (by decide +kernel) (by decide +kernel), rfl⟩
    ⟨_, ex_closest .flat (p := "/F") (by decide +kernel) (by decide +kernel), rfl⟩
    ⟨_, ex_closest .badpix (p := "/b") (by decide +kernel) (by decide +kernel), rfl⟩
    ⟨fun a ha hc => by
      have : ∀ a ∈ exOf .detparams "/p" 3 :: exOf .fpamfsam "/f" 3 :: exFrames, label a.cls ≠ some "TrapCalibration" := by decide +kernel
      exact this a ha (typeName_iff.1 hc), by intro q hq; cases hq⟩
    hx g ["/f"] "/out"
  exact ⟨_, _, _, res, h1, h2, by simpa using congrArg List.length h4⟩

end Corgi.Ops

import Verif.CalDB.Props
import Verif.L2a.Arith
import Verif.PhotonCount.PcMean

/-!
# Choice of a calibration and its use (C152)

`CalDB.get_calib` (`/repo/corgidrp/caldb.py` 260-328) chooses the calibration that the recipes name `AUTOMATIC`
(`/repo/corgidrp/walker.py` 210); the step that gets it has its own conditions: `dark_subtraction`
(`/repo/corgidrp/l2a_to_l2b.py` 85-96) and `get_pc_mean` (`/repo/corgidrp/photon_counting.py` 273-286). Here both are put
together: `load` is what line 328 of caldb.py reads from the file of a row.
-/

namespace Corgi.CalDB

/-- `get_calib` for a `Dark`, then `dark_subtraction` with it; `none` if either raises. -/
noncomputable def autoDarkSub (db : Table) (f : Entry) (load : Row → Arith.DarkCal) (track : Bool) (fs : List Arith.Fr) :
    Option (List Arith.Fr) :=
  match getCalib db (some f) .dark with
  | .error _ => none
  | .ok r => (Arith.darkSub track (load r) fs).toOption

/-- `get_calib` for a `Dark`, then the conditions of `get_pc_mean` on it. -/
noncomputable def autoPcDark (db : Table) (f : Entry) (load : Row → Pc.MasterDark) (t : ℝ) (n : ℕ) : Option Unit :=
  match getCalib db (some f) .dark with
  | .error _ => none
  | .ok r => (Pc.checkDark t n (load r)).toOption

/-- A frame with all the cards that the database reads. -/
structure Complete (f : Entry) (mjd : ℚ) (x : Option ℚ) : Prop where
  mjd : f.sctsrt = some mjd
  exptime : f.exptime = some x
  obsnum : f.obsnum ≠ none
  shape : f.shape ≠ []
  opmode : f.opmode ≠ none
  emgain : f.emgain ≠ none
  excamt : f.excamt ≠ none

/-! ## What the choice depends on -/

/-- **C152.** The choice looks at the type, the time and, for darks, the exposure time: any other change of the rows (path,
gain, filter, size, version, date of creation, …) changes nothing in the choice. -/
theorem C152_blind (φ : Row → Row) (hφ : ∀ r, (φ r).type = r.type ∧ (φ r).mjd = r.mjd ∧ (φ r).exptime = r.exptime)
    (db : Table) (f : Entry) (cls : Cls) : getCalib (db.map φ) (some f) cls = (getCalib db (some f) cls).map φ := by
  have hfil : ∀ (P : Row → Bool), (∀ r, P (φ r) = P r) → ∀ l : Table, (l.map φ).filter P = (l.filter P).map φ := by
    intro P hP l
    rw [List.filter_map]
    congr 2
    funext r
    exact hP r
  have hclo : ∀ (m : ℚ) (l : Table), closest m (l.map φ) = (closest m l).map φ := by
    intro m l
    unfold closest
    rw [List.map_map, show ((fun r : Row => |r.mjd - m|) ∘ φ) = fun r => |r.mjd - m| from
      funext fun r => by simp only [Function.comp, (hφ r).2.1]]
    cases argmin (l.map fun r => |r.mjd - m|) with
    | none => rfl
    | some i => simp
  unfold getCalib
  cases label cls with
  | none => rfl
  | some lab =>
    simp only [bind, Except.bind, pure, Except.pure]
    cases valuesFromEntry f false with
    | error e => rfl
    | ok fr =>
      dsimp only
      rw [hfil (fun r => r.type == some lab) (fun r => by rw [(hφ r).1])]
      rw [hfil (fun r => sameExptime r.exptime fr.exptime) (fun r => by rw [(hφ r).2.2]), hclo, hclo]
      split
      · split
        · rename_i h
          obtain ⟨q, hq, rfl⟩ := Option.map_eq_some_iff.1 h
          rw [hq]
          rfl
        · rename_i h
          rw [Option.map_eq_none_iff.1 h]
          rfl
      · split
        · rename_i h
          obtain ⟨q, hq, rfl⟩ := Option.map_eq_some_iff.1 h
          rw [hq]
          rfl
        · rename_i h
          rw [Option.map_eq_none_iff.1 h]
          rfl

/-- The row of the right type (and exposure time) that is nearest in time is chosen, whatever it is. -/
theorem getCalib_nearest {db : Table} {f : Entry} {cls : Cls} {t : String} {mjd : ℚ} {x : Option ℚ} {r : Row}
    (ht : TypeName cls t) (hf : Complete f mjd x) (hr : r ∈ db) (he : Eligible r t x)
    (hn : ∀ q ∈ db, q ≠ r → Eligible q t x → |r.mjd - mjd| < |q.mjd - mjd|) : getCalib db (some f) cls = .ok r := by
  obtain ⟨h1, -, -⟩ := C03_get_calib_frame db f cls t mjd x ht hf.mjd hf.exptime hf.obsnum hf.shape hf.opmode hf.emgain hf.excamt
  rw [h1]
  classical
  -- the first occurrence of the row
  obtain ⟨pre, post, hdb, hpre⟩ := List.eq_append_cons_of_mem hr
  refine ⟨pre, post, hdb, he, fun q hq hqe => hn q (by rw [hdb]; simp [hq]) (fun h => hpre (h ▸ hq)) hqe, fun q hq hqe => ?_⟩
  by_cases hqr : q = r
  · rw [hqr]
    exact lt_irrefl _
  · exact not_lt.2 (hn q (by rw [hdb]; simp [hq]) hqr hqe).le

/-! ## Use of the choice -/

/-- **C152 is violated**: if the dark of the right exposure time that is nearest in time has another gain or conversion gain than
the frames, or is photon-counted, the dark subtraction fails, however many fitting darks the database has. -/
theorem C152_violated_dark {db : Table} {f : Entry} {mjd : ℚ} {x : Option ℚ} {r : Row} (hf : Complete f mjd x) (hr : r ∈ db)
    (he : Eligible r "Dark" x) (hn : ∀ q ∈ db, q ≠ r → Eligible q "Dark" x → |r.mjd - mjd| < |q.mjd - mjd|)
    (load : Row → Arith.DarkCal) (track : Bool) (fs : List Arith.Fr)
    (hbad : (∃ g ∈ fs, (load r).emC ≠ g.emC ∨ (load r).kgain ≠ g.kgain) ∨
      (load r).pcStat = some "photon-counted master dark") : autoDarkSub db f load track fs = none := by
  unfold autoDarkSub
  rw [getCalib_nearest .dark hf hr he hn]
  dsimp only
  cases h : Arith.darkSub track (load r) fs with
  | error e => rfl
  | ok out =>
    exfalso
    obtain ⟨-, h1, h2⟩ := Arith.C39_dark h
    rcases hbad with ⟨g, hg, hb⟩ | hb
    · obtain ⟨-, h3, h4⟩ := h1 g hg
      rcases hb with hb | hb
      · exact hb h3
      · exact hb h4
    · rw [hb] at h2
      rcases h2 with h2 | h2
      · cases h2
      · exact absurd (Option.some.inj h2) (by decide)

/-- **C152 is violated** in the same way for photon counting: an analog dark or a dark of another threshold or of too few frames
that is nearest in time. -/
theorem C152_violated_pc {db : Table} {f : Entry} {mjd : ℚ} {x : Option ℚ} {r : Row} (hf : Complete f mjd x) (hr : r ∈ db)
    (he : Eligible r "Dark" x) (hn : ∀ q ∈ db, q ≠ r → Eligible q "Dark" x → |r.mjd - mjd| < |q.mjd - mjd|)
    (load : Row → Pc.MasterDark) (t : ℝ) (n : ℕ) :
    autoPcDark db f load t n = none ↔
      ¬ ((load r).pcStat = some "photon-counted master dark" ∧ (load r).thresh = some t ∧ n ≤ (load r).numFr) := by
  unfold autoPcDark
  rw [getCalib_nearest .dark hf hr he hn]
  dsimp only
  unfold Pc.checkDark
  by_cases h1 : (load r).pcStat = some "photon-counted master dark"
  · rw [if_neg (not_not.2 h1)]
    cases h2 : (load r).thresh with
    | none => simp [Except.toOption]
    | some t' =>
      dsimp only
      by_cases h3 : t' = t
      · rw [if_neg (not_not.2 h3)]
        by_cases h4 : (load r).numFr < n
        · rw [if_pos h4]
          simp [Except.toOption, not_le.2 h4]
        · rw [if_neg h4]
          simp [Except.toOption, h1, h3, not_lt.1 h4]
      · rw [if_pos h3]
        simp [Except.toOption, h3]
  · rw [if_pos h1]
    simp [Except.toOption, h1]

/-- **C152**, what holds: if all darks of the exposure time of the frame fit, the subtraction works. -/
theorem C152_dark_partial {db : Table} {f : Entry} {mjd : ℚ} {x : Option ℚ} (hf : Complete f mjd x)
    (hex : ∃ q ∈ db, Eligible q "Dark" x) (load : Row → Arith.DarkCal) (track : Bool) {fs : List Arith.Fr} (hne : fs ≠ [])
    (hfit : ∀ q ∈ db, Eligible q "Dark" x → (∀ g ∈ fs, (load q).exptime = g.exptime ∧ (load q).emC = g.emC ∧
      (load q).kgain = g.kgain) ∧ ((load q).pcStat = none ∨ (load q).pcStat = some "analog master dark") ∧
      ∀ g ∈ fs, Errs.Fits g.img ⟨(load q).shape, (load q).err⟩ ∧ g.img.layers ≠ []) :
    ∃ out, autoDarkSub db f load track fs = some out := by
  obtain ⟨h1, h2, h3⟩ := C03_get_calib_frame db f .dark "Dark" mjd x .dark hf.mjd hf.exptime hf.obsnum hf.shape hf.opmode
    hf.emgain hf.excamt
  unfold autoDarkSub
  cases hg : getCalib db (some f) .dark with
  | error e =>
    rw [h3 e hg] at hg
    exact absurd hex (h2.1 hg)
  | ok r =>
    obtain ⟨pre, post, hdb, he, -, -⟩ := (h1 r).1 hg
    obtain ⟨a, b, c⟩ := hfit r (by rw [hdb]; simp) he
    obtain ⟨out, ho⟩ := (Arith.C39_dark_accepts_iff track (load r) fs hne c).2 ⟨a, b⟩
    dsimp only
    rw [ho]
    exact ⟨out, rfl⟩

/-! ## Non-vacuity -/

/-- The frame taken on day 10 of 1 s. -/
theorem exDark_complete : Complete (exDark "/f" 10 1 0) 10 (some 1) := by
  constructor <;> simp [exDark]

/-- A dark of the gain of the frame from day 1 and one of another gain from day 9: the subtraction fails, without the second it
works. -/
example : let load : Row → Arith.DarkCal := fun r =>
      ⟨some "analog master dark", 1, if r.path = some "/good" then 100 else 200, 8, [1, 1], fun _ => 2, fun _ => 1, fun _ => 1⟩
    autoDarkSub [exRow "/good" 1 1 0, exRow "/other" 9 1 0] (exDark "/f" 10 1 0) load true [Arith.sample none 5] = none ∧
      ∃ out, autoDarkSub [exRow "/good" 1 1 0] (exDark "/f" 10 1 0) load true [Arith.sample none 5] = some out := by
  intro load
  constructor
  · refine C152_violated_dark (r := exRow "/other" 9 1 0) exDark_complete (by simp) ⟨rfl, fun _ => ⟨1, rfl, rfl⟩⟩ ?_ load true _
      (Or.inl ⟨_, List.mem_singleton_self _, Or.inl ?_⟩)
    · intro q hq hne _
      rcases List.mem_pair.1 hq with rfl | rfl
      · norm_num [exRow]
      · exact absurd rfl hne
    · have h : (exRow "/other" 9 1 0).path ≠ some "/good" := by decide
      show (if (exRow "/other" 9 1 0).path = some "/good" then (100 : ℝ) else 200) ≠ 100
      rw [if_neg h]
      norm_num
  · refine C152_dark_partial exDark_complete ⟨_, List.mem_singleton_self _, rfl, fun _ => ⟨1, rfl, rfl⟩⟩ load true (by simp) ?_
    intro q hq _
    rw [List.mem_singleton] at hq
    subst hq
    refine ⟨?_, Or.inr rfl, ?_⟩
    · intro g hg
      rw [List.mem_singleton] at hg
      subst hg
      simp [load, exRow, Arith.sample]
    · intro g hg
      rw [List.mem_singleton] at hg
      subst hg
      simp [load, Arith.sample, Errs.Fits]

end Corgi.CalDB

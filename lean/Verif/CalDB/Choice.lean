import Verif.CalDB.Suit

/-!
# Is the choice of a calibration consistent? (caldb.py 286-325, walker.py 122-126, 164-169): C180

`get_calib` takes the row that is closest in time. A recipe asks once for every calibration, with the first of its input files, and
uses the answer for all of them. Here the answers for different databases, different frames and different orders of the input files are
compared. No new definitions of the model.
-/

namespace Corgi.CalDB

/-! ## Specification -/

/-- The rows that may answer, by time. -/
def nearer (mjd : ℚ) (a b : Row) : Prop := |a.mjd - mjd| < |b.mjd - mjd|

/-- The first row of the table with this time that may answer. -/
def FirstAt (db : Table) (t : String) (x : Option ℚ) (r : Row) : Prop :=
  ∃ pre post, db = pre ++ r :: post ∧ Eligible r t x ∧ ∀ q ∈ pre, Eligible q t x → q.mjd ≠ r.mjd

/-! ## Lemmas -/

theorem choice_iff {db : Table} {f : Entry} {cls : Cls} {t : String} {mjd : ℚ} {x : Option ℚ} (ht : TypeName cls t) (hf : Complete f mjd x)
    (r : Row) : getCalib db (some f) cls = .ok r ↔ FirstBest db (fun q => Eligible q t x) (nearer mjd) r :=
  (C03_get_calib_frame db f cls t mjd x ht hf.mjd hf.exptime hf.obsnum hf.shape hf.opmode hf.emgain hf.excamt).1 r

theorem choice_exists {db : Table} {f : Entry} {cls : Cls} {t : String} {mjd : ℚ} {x : Option ℚ} (ht : TypeName cls t) (hf : Complete f mjd x)
    {q : Row} (hq : q ∈ db) (he : Eligible q t x) : ∃ r, getCalib db (some f) cls = .ok r := by
  obtain ⟨-, h2, h3⟩ := C03_get_calib_frame db f cls t mjd x ht hf.mjd hf.exptime hf.obsnum hf.shape hf.opmode hf.emgain hf.excamt
  cases hr : getCalib db (some f) cls with
  | ok r => exact ⟨r, rfl⟩
  | error e => exact absurd ⟨q, hq, he⟩ (h2.1 (by rw [hr, h3 e hr]))

theorem firstBest_filter {db : Table} {P : Row → Prop} {better : Row → Row → Prop} {r : Row} (h : FirstBest db P better r) (keep : Row → Bool)
    (hk : keep r = true) : FirstBest (db.filter keep) P better r := by
  obtain ⟨pre, post, rfl, h1, h2, h3⟩ := h
  refine ⟨pre.filter keep, post.filter keep, by simp [hk], h1, fun q hq => h2 q (List.mem_filter.1 hq).1,
    fun q hq => h3 q (List.mem_filter.1 hq).1⟩

/-- A best row of the larger table is the new one, or a best row of the smaller table. -/
theorem firstBest_insert {a b : Table} {new : Row} {P : Row → Prop} {better : Row → Row → Prop} {r : Row}
    (h : FirstBest (a ++ new :: b) P better r) : r = new ∨ FirstBest (a ++ b) P better r := by
  obtain ⟨pre, post, he, h1, h2, h3⟩ := h
  rcases List.append_eq_append_iff.1 he with ⟨c, h4, h5⟩ | ⟨c, h4, h5⟩
  · cases c with
    | nil =>
      simp only [List.nil_append, List.cons.injEq] at h5
      exact .inl h5.1.symm
    | cons z c =>
      simp only [List.cons_append, List.cons.injEq] at h5
      obtain ⟨rfl, rfl⟩ := h5
      subst h4
      refine .inr ⟨a ++ c, post, by simp, h1, fun q hq => h2 q ?_, h3⟩
      rcases List.mem_append.1 hq with hq | hq
      · exact List.mem_append_left _ hq
      · exact List.mem_append_right _ (List.mem_cons_of_mem _ hq)
  · cases c with
    | nil =>
      simp only [List.nil_append, List.cons.injEq] at h5
      exact .inl h5.1
    | cons z c =>
      simp only [List.cons_append, List.cons.injEq] at h5
      obtain ⟨rfl, rfl⟩ := h5
      subst h4
      refine .inr ⟨pre, c ++ b, by simp, h1, h2, fun q hq => h3 q ?_⟩
      rcases List.mem_append.1 hq with hq | hq
      · exact List.mem_append_left _ hq
      · exact List.mem_append_right _ (List.mem_cons_of_mem _ hq)

/-- A chosen row is nearest. -/
theorem firstBest_le {db : Table} {P : Row → Prop} {mjd : ℚ} {r : Row} (h : FirstBest db P (nearer mjd) r) :
    r ∈ db ∧ P r ∧ ∀ q ∈ db, P q → |r.mjd - mjd| ≤ |q.mjd - mjd| := by
  obtain ⟨pre, post, rfl, h1, h2, h3⟩ := h
  refine ⟨by simp, h1, fun q hq hP => ?_⟩
  rcases List.mem_append.1 hq with hq | hq
  · exact (h2 q hq hP).le
  · rcases List.mem_cons.1 hq with rfl | hq
    · exact le_rfl
    · exact not_lt.1 (h3 q hq hP)

theorem firstBest_first {db : Table} {t : String} {x : Option ℚ} {mjd : ℚ} {r : Row}
    (h : FirstBest db (fun q => Eligible q t x) (nearer mjd) r) : FirstAt db t x r := by
  obtain ⟨pre, post, rfl, h1, h2, h3⟩ := h
  refine ⟨pre, post, rfl, h1, fun q hq hP he => ?_⟩
  have := h2 q hq hP
  unfold nearer at this
  rw [he] at this
  exact absurd this (lt_irrefl _)

theorem firstAt_unique {db : Table} {t : String} {x : Option ℚ} {r s : Row} (hr : FirstAt db t x r) (hs : FirstAt db t x s)
    (h : r.mjd = s.mjd) : r = s := by
  obtain ⟨pre, post, h1, h2, h3⟩ := hr
  obtain ⟨pre', post', h1', h2', h3'⟩ := hs
  rw [h1] at h1'
  rcases List.append_eq_append_iff.1 h1' with ⟨c, h4, h5⟩ | ⟨c, h4, h5⟩
  · cases c with
    | nil => simp only [List.nil_append, List.cons.injEq] at h5; exact h5.1
    | cons z c =>
      simp only [List.cons_append, List.cons.injEq] at h5
      obtain ⟨rfl, rfl⟩ := h5
      subst h4
      exact absurd h (h3' r (by simp) h2)
  · cases c with
    | nil => simp only [List.nil_append, List.cons.injEq] at h5; exact h5.1.symm
    | cons z c =>
      simp only [List.cons_append, List.cons.injEq] at h5
      obtain ⟨rfl, rfl⟩ := h5
      subst h4
      exact absurd h.symm (h3 s (by simp) h2')

/-- Nearest neighbours do not cross. -/
theorem nearest_mono {a b s t : ℚ} (hst : s < t) (ha : |a - s| ≤ |b - s|) (hb : |b - t| ≤ |a - t|) : a ≤ b := by
  by_contra hab
  rw [not_le] at hab
  rw [← sq_le_sq] at ha hb
  nlinarith

/-! ## C180: other databases -/

/-- **C180** Rows other than the chosen one may be removed: the choice stays. -/
theorem C180_less {db : Table} {f : Entry} {cls : Cls} {t : String} {mjd : ℚ} {x : Option ℚ} (ht : TypeName cls t) (hf : Complete f mjd x)
    {r : Row} (h : getCalib db (some f) cls = .ok r) (keep : Row → Bool) (hk : keep r = true) :
    getCalib (db.filter keep) (some f) cls = .ok r :=
  (choice_iff ht hf r).2 (firstBest_filter ((choice_iff ht hf r).1 h) keep hk)

/-- **C180** A row more, wherever it is put: the choice stays, or it is the new row. -/
theorem C180_more {a b : Table} {f : Entry} {cls : Cls} {t : String} {mjd : ℚ} {x : Option ℚ} (ht : TypeName cls t) (hf : Complete f mjd x)
    {r : Row} (h : getCalib (a ++ b) (some f) cls = .ok r) (new : Row) :
    getCalib (a ++ new :: b) (some f) cls = .ok r ∨ getCalib (a ++ new :: b) (some f) cls = .ok new := by
  obtain ⟨h1, h2, -⟩ := firstBest_le ((choice_iff ht hf r).1 h)
  obtain ⟨s, hs⟩ := choice_exists (db := a ++ new :: b) ht hf (q := r) (by
    rcases List.mem_append.1 h1 with h1 | h1
    · exact List.mem_append_left _ h1
    · exact List.mem_append_right _ (List.mem_cons_of_mem _ h1)) h2
  rcases firstBest_insert ((choice_iff ht hf s).1 hs) with rfl | hb
  · exact .inr hs
  · rw [← choice_iff ht hf, h] at hb
    cases hb
    exact .inl hs

/-- **C180** The same without a frame (the most recent row). -/
theorem C180_newest {a b : Table} {cls : Cls} {t : String} (ht : TypeName cls t) {r : Row} (h : getCalib (a ++ b) none cls = .ok r) (new : Row) :
    (∀ keep : Row → Bool, keep r = true → getCalib ((a ++ b).filter keep) none cls = .ok r) ∧
      (getCalib (a ++ new :: b) none cls = .ok r ∨ getCalib (a ++ new :: b) none cls = .ok new) := by
  refine ⟨fun keep hk => ((C03_get_calib_none _ cls t ht).1 r).2 (firstBest_filter (((C03_get_calib_none _ cls t ht).1 r).1 h) keep hk), ?_⟩
  cases hs : getCalib (a ++ new :: b) none cls with
  | ok s =>
    rcases firstBest_insert (((C03_get_calib_none _ cls t ht).1 s).1 hs) with rfl | hb
    · exact .inr rfl
    · rw [← (C03_get_calib_none _ cls t ht).1, h] at hb
      cases hb
      exact .inl rfl
  | error e =>
    exfalso
    obtain ⟨pre, post, he, h1, -⟩ := ((C03_get_calib_none _ cls t ht).1 r).1 h
    have hmem : r ∈ a ++ new :: b := by
      have : r ∈ a ++ b := by rw [he]; simp
      rcases List.mem_append.1 this with h2 | h2
      · exact List.mem_append_left _ h2
      · exact List.mem_append_right _ (List.mem_cons_of_mem _ h2)
    have hl := typeName_iff.1 ht
    have hv : e = .valueError := by
      revert hs
      simp only [getCalib, hl, bind, Except.bind, pure, Except.pure]
      split <;> intro hs <;> cases hs
      rfl
    subst hv
    exact ((C03_get_calib_none _ cls t ht).2.1 hs) ⟨r, hmem, h1⟩

/-! ## C180: other frames -/

/-- **C180** A later frame never gets an earlier calibration. -/
theorem C180_monotone {db : Table} {f g : Entry} {cls : Cls} {t : String} {mf mg : ℚ} {x : Option ℚ} (ht : TypeName cls t)
    (hf : Complete f mf x) (hg : Complete g mg x) (hm : mf ≤ mg) {r s : Row} (hr : getCalib db (some f) cls = .ok r)
    (hs : getCalib db (some g) cls = .ok s) : r.mjd ≤ s.mjd := by
  have h1 := (choice_iff ht hf r).1 hr
  have h2 := (choice_iff ht hg s).1 hs
  rcases hm.lt_or_eq with hlt | rfl
  · obtain ⟨a1, a2, a3⟩ := firstBest_le h1
    obtain ⟨b1, b2, b3⟩ := firstBest_le h2
    exact nearest_mono hlt (a3 s b1 b2) (b3 r a1 a2)
  · rw [← choice_iff ht hf, hr] at h2
    cases h2
    exact le_rfl

/-- **C180** The times at which a calibration is chosen are an interval: between two frames with the same choice every frame has it. -/
theorem C180_interval {db : Table} {f g h : Entry} {cls : Cls} {t : String} {mf mg mh : ℚ} {x : Option ℚ} (ht : TypeName cls t)
    (hf : Complete f mf x) (hg : Complete g mg x) (hh : Complete h mh x) (h1 : mf ≤ mg) (h2 : mg ≤ mh) {r : Row}
    (hr : getCalib db (some f) cls = .ok r) (hr' : getCalib db (some h) cls = .ok r) : getCalib db (some g) cls = .ok r := by
  obtain ⟨a1, a2, -⟩ := firstBest_le ((choice_iff ht hf r).1 hr)
  obtain ⟨s, hs⟩ := choice_exists ht hg a1 a2
  have e : r.mjd = s.mjd := le_antisymm (C180_monotone ht hf hg h1 hr hs) (C180_monotone ht hg hh h2 hs hr')
  rw [hs, firstAt_unique (firstBest_first ((choice_iff ht hf r).1 hr)) (firstBest_first ((choice_iff ht hg s).1 hs)) e]

/-- **C180** The calibration of the first input file is that of every file, and does not depend on the order of the files, exactly if the earliest
and the latest file have the same. -/
theorem C180_order_iff {db : Table} {cls : Cls} {t : String} {x : Option ℚ} (ht : TypeName cls t) {fs : List (Entry × ℚ)}
    (hfs : ∀ p ∈ fs, Complete p.1 p.2 x) {lo hi : Entry × ℚ} (hlo : lo ∈ fs) (hhi : hi ∈ fs) (h1 : ∀ p ∈ fs, lo.2 ≤ p.2 ∧ p.2 ≤ hi.2)
    {r : Row} (hr : getCalib db (some lo.1) cls = .ok r) :
    (getCalib db (some hi.1) cls = .ok r ↔ ∀ p ∈ fs, getCalib db (some p.1) cls = .ok r) ∧
      (getCalib db (some hi.1) cls = .ok r ↔ ∀ fs' : List (Entry × ℚ), fs'.Perm fs →
        fs'.head?.map (fun p => getCalib db (some p.1) cls) = fs.head?.map fun p => getCalib db (some p.1) cls) := by
  have all : getCalib db (some hi.1) cls = .ok r → ∀ p ∈ fs, getCalib db (some p.1) cls = .ok r := fun h p hp =>
    C180_interval ht (hfs lo hlo) (hfs p hp) (hfs hi hhi) (h1 p hp).1 (h1 p hp).2 hr h
  refine ⟨⟨all, fun h => h hi hhi⟩, fun h fs' hp => ?_, fun h => ?_⟩
  · cases fs with
    | nil => cases hlo
    | cons p l =>
      cases fs' with
      | nil => exact absurd hp.length_eq (by simp)
      | cons q m =>
        show some (getCalib db (some q.1) cls) = some (getCalib db (some p.1) cls)
        rw [all h p (by simp), all h q (hp.subset (by simp))]
  · have first : ∀ p ∈ fs, fs.head?.map (fun p => getCalib db (some p.1) cls) = some (getCalib db (some p.1) cls) := by
      intro p hp
      obtain ⟨a, b, rfl⟩ := List.append_of_mem hp
      rw [← h (p :: (a ++ b)) (List.perm_middle.symm)]
      rfl
    have e := (first lo hlo).symm.trans (first hi hhi)
    rw [hr, Option.some.injEq] at e
    exact e.symm

/-- **C180** Of two calibrations the later one is chosen exactly for the frames after the middle between them. -/
theorem C180_changes_iff {a b : Row} {f : Entry} {cls : Cls} {t : String} {mjd : ℚ} {x : Option ℚ} (ht : TypeName cls t) (hf : Complete f mjd x)
    (ha : Eligible a t x) (hb : Eligible b t x) (hab : a.mjd < b.mjd) :
    getCalib [a, b] (some f) cls = .ok b ↔ (a.mjd + b.mjd) / 2 < mjd := by
  have key : nearer mjd b a ↔ (a.mjd + b.mjd) / 2 < mjd := by
    unfold nearer
    rw [← sq_lt_sq]
    constructor
    · intro h
      by_contra hc
      rw [not_lt] at hc
      nlinarith
    · intro h
      nlinarith
  rw [choice_iff ht hf, ← key]
  constructor
  · rintro ⟨pre, post, he, -, h2, -⟩
    match pre, he with
    | [], he =>
      simp only [List.nil_append, List.cons.injEq] at he
      rw [he.1] at hab
      exact absurd hab (lt_irrefl _)
    | [z], he =>
      simp only [List.cons_append, List.nil_append, List.cons.injEq] at he
      obtain ⟨rfl, -⟩ := he
      exact h2 a (by simp) ha
    | z :: z' :: l, he => simp at he
  · intro h
    exact ⟨[a], [], rfl, hb, fun q hq _ => by rw [List.mem_singleton.1 hq]; exact h, by simp⟩

/-- **C180, violated.** Of two frames on the two sides of the middle, in either order, the one that is not first is processed with the calibration
that is not its closest. -/
theorem C180_violated_order {a b : Row} {f g : Entry} {cls : Cls} {t : String} {mf mg : ℚ} {x : Option ℚ} (ht : TypeName cls t)
    (hf : Complete f mf x) (hg : Complete g mg x) (ha : Eligible a t x) (hb : Eligible b t x) (h1 : mf ≤ (a.mjd + b.mjd) / 2)
    (h2 : (a.mjd + b.mjd) / 2 < mg) (hab : a.mjd < b.mjd) :
    getCalib [a, b] (some f) cls = .ok a ∧ getCalib [a, b] (some g) cls = .ok b ∧ |b.mjd - mg| < |a.mjd - mg| ∧ a ≠ b := by
  refine ⟨?_, (C180_changes_iff ht hg ha hb hab).2 h2, ?_, fun h => absurd hab (by rw [h]; exact lt_irrefl _)⟩
  · obtain ⟨r, hr⟩ := choice_exists (db := [a, b]) ht hf (q := a) (by simp) ha
    obtain ⟨h3, -, -⟩ := firstBest_le ((choice_iff ht hf r).1 hr)
    rcases List.mem_pair.1 h3 with rfl | rfl
    · exact hr
    · exact absurd ((C180_changes_iff ht hf ha hb hab).1 hr) (not_lt.2 h1)
  · rw [← sq_lt_sq]
    nlinarith

/-- Darks of the days 1 and 11, frames of the days 2 and 10. -/
example : getCalib [exRow "/a" 1 1 0, exRow "/b" 11 1 0] (some (exDark "/f" 2 1 0)) .dark = .ok (exRow "/a" 1 1 0) ∧
    getCalib [exRow "/a" 1 1 0, exRow "/b" 11 1 0] (some (exDark "/g" 10 1 0)) .dark = .ok (exRow "/b" 11 1 0) := by
  have := C180_violated_order (a := exRow "/a" 1 1 0) (b := exRow "/b" 11 1 0) (f := exDark "/f" 2 1 0) (g := exDark "/g" 10 1 0) (cls := .dark)
    (t := "Dark") (mf := 2) (mg := 10) (x := some 1) (typeName_iff.2 rfl) (by constructor <;> simp [exDark]) (by constructor <;> simp [exDark])
    ⟨rfl, fun _ => ⟨1, rfl, rfl⟩⟩ ⟨rfl, fun _ => ⟨1, rfl, rfl⟩⟩ (by norm_num [exRow]) (by norm_num [exRow]) (by norm_num [exRow])
  exact ⟨this.1, this.2.1⟩

end Corgi.CalDB

import Mathlib.Data.List.Nodup
import Mathlib.Tactic.Common

/-!
# The spectra of the standard stars

`get_calspec_file` (`/repo/corgidrp/fluxcal.py` 40-62) and the table `calspec_names` (lines 18-36).

The state is the directory `calspec_data` beside the configuration file. `urlretrieve` opens the page,
then the local file for writing, then copies; it raises if fewer bytes came than were announced. A
file is the list of its bytes.
-/

namespace Corgi.Calspec

abbrev Content := List ℕ

/-- `calspec_names` (lines 18-36). -/
def names : List (String × String) :=
  [("109 Vir", "109vir_stis_005.fits"), ("Vega", "alpha_lyr_stis_011.fits"),
    ("Eta Uma", "etauma_stis_008.fits"), ("Lam Lep", "lamlep_stis_008.fits"),
    ("KSI2 CETI", "ksi2ceti_stis_008.fits"), ("TYC 4433-1800-1", "1808347_stiswfc_006.fits"),
    ("TYC 4205-1677-1", "1812095_stisnic_008.fits"), ("TYC 4212-455-1", "1757132_stiswfc_006.fits"),
    ("TYC 4209-1396-1", "1805292_stisnic_008.fits"), ("TYC 4413-304-1", "p041c_stisnic_010.fits"),
    ("UCAC3 313-62260", "kf08t3_stisnic_005.fits"), ("BPS BS 17447-0067", "1802271_stiswfcnic_006.fits"),
    ("TYC 4424-1286-1", "1732526_stisnic_009.fits"), ("GSC 02581-02323", "p330e_stiswfcnic_007.fits"),
    ("TYC 4207-219-1", "1740346_stisnic_005.fits")]

/-- `calspec_names.get(star_name)` (lines 50-52). -/
def fitsName (star : String) : Option String := (names.find? fun p => p.1 == star).map Prod.snd

/-- The path `calspec_data`. -/
inductive Entry
  | missing
  | file
  | dir (files : String → Option Content)

/-- The disk: whether the directory of the configuration file exists, and what is at `calspec_data`. -/
structure Disk where
  config : Bool
  calspec : Entry

/-- One download: the page does not open; or the first `k` bytes come and the loss is noticed or not
(it is when the length was announced or the connection breaks); or all of it. -/
inductive Net
  | down
  | cut (k : ℕ) (noticed : Bool)
  | full

/-- `ValueError` (line 51) and the exception of line 61. -/
inductive Err
  | unknownStar
  | archive
deriving DecidableEq

/-- Lines 57-58: the directory after `mkdir`; `none` if it raises. -/
def makeDir (d : Disk) : Option Disk :=
  match d.calspec with
  | .missing => if d.config then some { d with calspec := .dir fun _ => none } else none
  | _ => some d

/-- Writing a file in the directory. -/
def put (files : String → Option Content) (n : String) (c : Content) : String → Option Content :=
  fun m => if m = n then some c else files m

/-- `urlretrieve` (line 59): whether it returns, and the disk afterwards. -/
def retrieve (archive : Content) (net : Net) (n : String) (d : Disk) : Bool × Disk :=
  match net, d.calspec with
  | .down, _ => (false, d)
  | .full, .dir files => (true, { d with calspec := .dir (put files n archive) })
  | .cut k noticed, .dir files => (!noticed, { d with calspec := .dir (put files n (archive.take k)) })
  | _, _ => (false, d)

/-- `get_calspec_file`: the name of the file or the error, and the disk afterwards. `loaded` says
whether some other module has imported `urllib.request` (line 15 imports `urllib` only). -/
def getFile (archive : String → Content) (loaded : Bool) (net : Net) (star : String) (d : Disk) :
    Except Err String × Disk :=
  match fitsName star with
  | none => (.error .unknownStar, d)
  | some n =>
    match makeDir d with
    | none => (.error .archive, d)
    | some d' =>
      if loaded then
        let r := retrieve (archive n) net n d'
        (if r.1 then .ok n else .error .archive, r.2)
      else (.error .archive, d')

/-- Specification: what is stored under a name. -/
def stored (d : Disk) (n : String) : Option Content :=
  match d.calspec with
  | .dir files => files n
  | _ => none

/-- Specification: the directory is there or can be made. -/
def Usable (d : Disk) : Prop :=
  match d.calspec with
  | .missing => d.config = true
  | .file => False
  | .dir _ => True

/-! ## The table -/

/-- **C143.** The fifteen stars have different names and different files. -/
theorem C143_table : names.length = 15 ∧ (names.map Prod.fst).Nodup ∧ (names.map Prod.snd).Nodup := by
  decide +kernel

theorem find_fst {l : List (String × String)} {star n : String} (h : (l.map Prod.fst).Nodup) :
    (l.find? fun p => p.1 == star).map Prod.snd = some n ↔ (star, n) ∈ l := by
  induction l with
  | nil => simp
  | cons p l ih =>
    rw [List.map_cons, List.nodup_cons] at h
    by_cases hp : p.1 = star
    · rw [List.find?_cons_of_pos (by simpa using hp)]
      constructor
      · intro he
        have he' : p.2 = n := by simpa using he
        rw [← hp, ← he']; simp
      · intro he
        rcases List.mem_cons.1 he with he | he
        · rw [← he]; rfl
        · exact absurd (List.mem_map.2 ⟨_, he, hp.symm⟩) h.1
    · rw [List.find?_cons_of_neg (by simpa using hp), ih h.2, List.mem_cons]
      constructor
      · exact Or.inr
      · rintro (he | he)
        · exact absurd (by rw [← he]) hp
        · exact he

/-- **C143.** The file of a star is the one beside its name. -/
theorem C143_name (star n : String) : fitsName star = some n ↔ (star, n) ∈ names :=
  find_fst C143_table.2.1

/-- **C143.** Two stars never share a file. -/
theorem C143_distinct {a b n : String} (ha : fitsName a = some n) (hb : fitsName b = some n) : a = b := by
  rw [C143_name] at ha hb
  have h := List.inj_on_of_nodup_map C143_table.2.2 ha hb rfl
  exact congrArg Prod.fst h

/-- **C143.** The `ValueError` comes exactly for names that are not in the table, without touching the
disk or the network. -/
theorem C143_unknown {ar : String → Content} {ld : Bool} {net : Net} {star : String} {d : Disk} :
    (getFile ar ld net star d).1 = .error .unknownStar ↔ star ∉ names.map Prod.fst := by
  have hs : fitsName star = none ↔ star ∉ names.map Prod.fst := by
    unfold fitsName
    rw [Option.map_eq_none_iff, List.find?_eq_none, List.mem_map]
    constructor
    · rintro h ⟨p, hp, he⟩
      exact absurd he (by simpa using h p hp)
    · rintro h p hp
      simp only [beq_iff_eq]
      exact fun he => h ⟨p, hp, he⟩
  rw [← hs]
  unfold getFile
  cases hf : fitsName star with
  | none => simp
  | some n =>
    dsimp only
    cases hm : makeDir d with
    | none => simp
    | some d' =>
      dsimp only
      cases ld
      · simp
      · simp only [if_true, reduceCtorEq, iff_false]
        split_ifs <;> simp

theorem C143_unknown_disk {ar : String → Content} {ld : Bool} {net : Net} {star : String} {d : Disk}
    (h : fitsName star = none) : (getFile ar ld net star d).2 = d := by
  unfold getFile
  rw [h]

/-! ## Downloads -/

theorem makeDir_usable {d : Disk} (h : Usable d) :
    ∃ files, makeDir d = some ⟨d.config, .dir files⟩ ∧ ∀ n, files n = stored d n := by
  obtain ⟨c, e⟩ := d
  cases e with
  | missing =>
    have hc : c = true := h
    exact ⟨fun _ => none, by simp [makeDir, hc], fun n => rfl⟩
  | file => exact absurd h (by simp [Usable])
  | dir files => exact ⟨files, rfl, fun n => rfl⟩

theorem makeDir_not {d : Disk} (h : ¬Usable d) : makeDir d = none ∨ makeDir d = some d ∧ d.calspec = .file := by
  obtain ⟨c, e⟩ := d
  cases e with
  | missing =>
    have hc : c = false := by simpa [Usable] using h
    left; simp [makeDir, hc]
  | file => right; exact ⟨rfl, rfl⟩
  | dir files => exact absurd trivial h

/-- **C143.** A path is returned if and only if the star is known, the directory can be used and the
download was not seen to fail. -/
theorem C143_ok_iff {ar : String → Content} {ld : Bool} {net : Net} {star n : String} {d : Disk} :
    (getFile ar ld net star d).1 = .ok n ↔
      (star, n) ∈ names ∧ Usable d ∧ ld = true ∧ (net = .full ∨ ∃ k, net = .cut k false) := by
  rw [← C143_name]
  unfold getFile
  cases hf : fitsName star with
  | none => simp
  | some m =>
    dsimp only
    by_cases hu : Usable d
    · obtain ⟨files, hm, -⟩ := makeDir_usable hu
      rw [hm]
      dsimp only
      cases ld
      · simp
      · simp only [if_true, Option.some.injEq, hu, true_and]
        cases net with
        | down => simp [retrieve]
        | full => simp [retrieve]
        | cut k noticed => cases noticed <;> simp [retrieve]
    · simp only [hu, false_and, and_false, iff_false]
      rcases makeDir_not hu with hm | ⟨hm, hc⟩
      · rw [hm]; simp
      · rw [hm]
        dsimp only
        cases ld
        · simp
        · simp only [if_true]
          cases net <;> simp [retrieve, hc]

/-- **C143.** After a complete download the file is the archive's, whatever was there before, and the
other files are as they were. -/
theorem C143_full {ar : String → Content} {star n : String} {d : Disk} (hs : (star, n) ∈ names)
    (hu : Usable d) :
    (getFile ar true .full star d).1 = .ok n ∧ stored (getFile ar true .full star d).2 n = some (ar n) ∧
      ∀ m, m ≠ n → stored (getFile ar true .full star d).2 m = stored d m := by
  refine ⟨C143_ok_iff.2 ⟨hs, hu, rfl, Or.inl rfl⟩, ?_⟩
  rw [← C143_name] at hs
  obtain ⟨files, hm, hst⟩ := makeDir_usable hu
  unfold getFile
  rw [hs]
  dsimp only
  rw [hm]
  refine ⟨?_, fun m hmn => ?_⟩
  · simp [retrieve, stored, put]
  · rw [← hst m]
    simp [retrieve, stored, put, hmn]

/-- **C143 (partial).** A returned file has the archive's content, unless a loss went unnoticed. -/
theorem C143_content_partial {ar : String → Content} {ld : Bool} {net : Net} {star n : String} {d : Disk}
    (h : (getFile ar ld net star d).1 = .ok n) (hc : ∀ k, net ≠ .cut k false) :
    stored (getFile ar ld net star d).2 n = some (ar n) := by
  obtain ⟨hs, hu, rfl, rfl | ⟨k, rfl⟩⟩ := C143_ok_iff.1 h
  · exact (C143_full hs hu).2.1
  · exact absurd rfl (hc k)

/-- **C143.** Other stars' files are never changed. -/
theorem C143_others {ar : String → Content} {ld : Bool} {net : Net} {star n m : String} {d : Disk}
    (hs : (star, n) ∈ names) (hm : m ≠ n) : stored (getFile ar ld net star d).2 m = stored d m := by
  rw [← C143_name] at hs
  unfold getFile
  rw [hs]
  dsimp only
  by_cases hu : Usable d
  · obtain ⟨files, hmk, hst⟩ := makeDir_usable hu
    rw [hmk, ← hst m]
    cases ld
    · rfl
    · cases net <;> simp [retrieve, stored, put, hm]
  · rcases makeDir_not hu with hmk | ⟨hmk, hc⟩
    · rw [hmk]
    · rw [hmk]
      cases ld
      · rfl
      · cases net <;> simp [retrieve, hc]

/-- **C143, violated.** A spectrum that was downloaded before is not used: without network the call
fails although the complete file is there. -/
theorem C143_violated_offline {ar : String → Content} {star n : String} {d : Disk} (hs : (star, n) ∈ names)
    (hu : Usable d) :
    let d' := (getFile ar true .full star d).2
    stored d' n = some (ar n) ∧ (getFile ar true .down star d').1 = .error .archive := by
  intro d'
  refine ⟨(C143_full hs hu).2.1, ?_⟩
  rw [← C143_name] at hs
  obtain ⟨files, hm, -⟩ := makeDir_usable hu
  have hd : d' = ⟨d.config, .dir (put files n (ar n))⟩ := by
    show (getFile ar true .full star d).2 = _
    unfold getFile
    rw [hs]
    dsimp only
    rw [hm]
    rfl
  rw [hd]
  unfold getFile
  rw [hs]
  rfl

/-- **C143, violated.** A broken download replaces the complete file by a truncated one. -/
theorem C143_violated_truncated {ar : String → Content} {star n : String} {c : Bool}
    {files : String → Option Content} (k : ℕ) (hs : (star, n) ∈ names) :
    let r := getFile ar true (.cut k true) star ⟨c, .dir files⟩
    r.1 = .error .archive ∧ stored r.2 n = some ((ar n).take k) := by
  rw [← C143_name] at hs
  unfold getFile
  rw [hs]
  exact ⟨rfl, by simp [makeDir, retrieve, stored, put]⟩

/-- **C143, violated.** The error is the same "cannot access CALSPEC archive" when the network works but
the directory cannot be made, is a file, or `urllib.request` is not loaded. -/
theorem C143_violated_message {ar : String → Content} {star n : String} {d : Disk} (hs : (star, n) ∈ names) :
    (¬Usable d → (getFile ar true .full star d).1 = .error .archive) ∧
      (getFile ar false .full star d).1 = .error .archive := by
  have hn : ∀ ld, (∃ e, (getFile ar ld .full star d).1 = .error e) →
      (getFile ar ld .full star d).1 = .error .archive := by
    rintro ld ⟨e, he⟩
    cases e with
    | unknownStar =>
      exact absurd (List.mem_map.2 ⟨_, hs, rfl⟩) (C143_unknown.1 he)
    | archive => exact he
  constructor
  · intro hu
    apply hn
    cases hr : (getFile ar true .full star d).1 with
    | error e => exact ⟨e, rfl⟩
    | ok m => exact absurd (C143_ok_iff.1 hr).2.1 hu
  · apply hn
    cases hr : (getFile ar false .full star d).1 with
    | error e => exact ⟨e, rfl⟩
    | ok m => exact absurd (C143_ok_iff.1 hr).2.2.1 (by simp)

/-- **C143.** A run that asks for the same star again and again downloads it again each time: the file
after any number of complete downloads is the last one's. -/
theorem C143_repeat {star n : String} {d : Disk} (hs : (star, n) ∈ names) (hu : Usable d)
    (ars : List (String → Content)) (ar : String → Content) :
    stored ((ars ++ [ar]).foldl (fun d a => (getFile a true .full star d).2) d) n = some (ar n) := by
  rw [List.foldl_append]
  have hk : ∀ (l : List (String → Content)) (d : Disk), Usable d →
      Usable (l.foldl (fun d a => (getFile a true .full star d).2) d) := by
    intro l
    induction l with
    | nil => exact fun _ h => h
    | cons a l ih =>
      intro d h
      refine ih _ ?_
      obtain ⟨files, hm, -⟩ := makeDir_usable h
      unfold getFile
      rw [(C143_name _ _).2 hs]
      dsimp only
      rw [hm]
      trivial
  exact (C143_full hs (hk ars d hu)).2.1

example : fitsName "Vega" = some "alpha_lyr_stis_011.fits" ∧ fitsName "vega" = none := by decide +kernel

example : Usable ⟨true, .missing⟩ ∧ ¬Usable ⟨false, .missing⟩ := ⟨rfl, by simp [Usable]⟩

end Corgi.Calspec

import Mathlib.Data.List.Basic
import Mathlib.Tactic.Common

/-!
# The file of the calibration database

`CalDB.__init__`, `load`, `save` (`/repo/corgidrp/caldb.py` 60-94): the table is written by `to_csv`
without index and read by `read_csv` with types per column.

The text of the file is modelled: quoting of fields that hold a comma, a quote or a line end, and the
reader's state machine (pandas' C tokenizer with default arguments). Fields are texts; conversion of
numbers is not modelled. `none` is NaN.
-/

namespace Corgi.Csv

abbrev Field := List Char

/-! ## Writing -/

def special (c : Char) : Bool := c == ',' || c == '"' || c == '\n' || c == '\r'

/-- Quotes inside a quoted field are doubled. -/
def doubled (f : Field) : Field := f.flatMap fun c => if c = '"' then ['"', '"'] else [c]

/-- `QUOTE_MINIMAL`. -/
def writeField (f : Field) : Field := if f.any special then '"' :: (doubled f ++ ['"']) else f

/-- A line; the fields after the first have a comma in front. -/
def writeRow : List Field → List Char
  | [] => ['\n']
  | [f] => writeField f ++ ['\n']
  | f :: fs => writeField f ++ ',' :: writeRow fs

def write (rows : List (List Field)) : List Char := rows.flatMap writeRow

/-! ## Reading -/

/-- Where the reader is: at the beginning of a field, in one, in a quoted one, after a quote in a
quoted one. -/
inductive State
  | start
  | plain
  | quoted
  | quote
deriving DecidableEq

/-- The tokenizer; `fld` and `row` are what has been read of the field and of the row (the field
backwards). A line without any field is skipped. -/
def read : State → Field → List Field → List Char → List (List Field)
  | _, fld, row, [] => if fld = [] ∧ row = [] then [] else [row ++ [fld.reverse]]
  | .start, fld, row, c :: cs =>
    if c = '"' then read .quoted fld row cs
    else if c = ',' then read .start [] (row ++ [fld.reverse]) cs
    else if c = '\n' ∨ c = '\r' then
      if fld = [] ∧ row = [] then read .start [] [] cs
      else (row ++ [fld.reverse]) :: read .start [] [] cs
    else read .plain (c :: fld) row cs
  | .plain, fld, row, c :: cs =>
    if c = ',' then read .start [] (row ++ [fld.reverse]) cs
    else if c = '\n' ∨ c = '\r' then (row ++ [fld.reverse]) :: read .start [] [] cs
    else read .plain (c :: fld) row cs
  | .quoted, fld, row, c :: cs =>
    if c = '"' then read .quote fld row cs else read .quoted (c :: fld) row cs
  | .quote, fld, row, c :: cs =>
    if c = '"' then read .quoted ('"' :: fld) row cs
    else if c = ',' then read .start [] (row ++ [fld.reverse]) cs
    else if c = '\n' ∨ c = '\r' then (row ++ [fld.reverse]) :: read .start [] [] cs
    else read .plain (c :: fld) row cs

def parse (text : List Char) : List (List Field) := read .start [] [] text

/-- What pandas takes for NaN by default, also in columns of text. -/
def naTexts : List String :=
  ["", "#N/A", "#N/A N/A", "#NA", "-1.#IND", "-1.#QNAN", "-NaN", "-nan", "1.#IND", "1.#QNAN", "<NA>",
    "N/A", "NA", "NULL", "NaN", "None", "n/a", "nan", "null"]

/-- A cell of a text column after reading. -/
def cell (f : Field) : Option Field := if String.ofList f ∈ naTexts then none else some f

/-! ## Fields -/

theorem read_plain : ∀ (f : Field) {fld : Field} {row : List Field} {rest : List Char},
    f.any special = false → read .plain fld row (f ++ rest) = read .plain (f.reverse ++ fld) row rest
  | [], _, _, _, _ => rfl
  | c :: f, fld, row, rest, h => by
    rw [List.any_cons, Bool.or_eq_false_iff] at h
    have hc := h.1
    simp only [special, Bool.or_eq_false_iff, beq_eq_false_iff_ne] at hc
    obtain ⟨⟨⟨h1, h2⟩, h3⟩, h4⟩ := hc
    rw [List.cons_append, read, if_neg h1, if_neg (by tauto), read_plain f h.2]
    simp

theorem read_quoted : ∀ (f : Field) {fld : Field} {row : List Field} {rest : List Char},
    read .quoted fld row (doubled f ++ rest) = read .quoted (f.reverse ++ fld) row rest
  | [], _, _, _ => rfl
  | c :: f, fld, row, rest => by
    have hd : doubled (c :: f) = (if c = '"' then ['"', '"'] else [c]) ++ doubled f := by
      unfold doubled; rw [List.flatMap_cons]
    rw [hd]
    by_cases hc : c = '"'
    · rw [if_pos hc, hc]
      show read .quoted fld row ('"' :: '"' :: (doubled f ++ rest)) = _
      rw [read, if_pos rfl, read, if_pos rfl, read_quoted f]
      simp
    · rw [if_neg hc]
      show read .quoted fld row (c :: (doubled f ++ rest)) = _
      rw [read, if_neg hc, read_quoted f]
      simp

/-- After a written field the reader has the field and is at its end: a comma closes it. -/
theorem read_comma (f : Field) (row : List Field) (rest : List Char) :
    read .start [] row (writeField f ++ ',' :: rest) = read .start [] (row ++ [f]) rest := by
  unfold writeField
  by_cases h : f.any special = true
  · rw [if_pos h]
    show read .start [] row ('"' :: ((doubled f ++ ['"']) ++ ',' :: rest)) = _
    rw [read, if_pos rfl, List.append_assoc, read_quoted]
    show read .quoted (f.reverse ++ []) row ('"' :: ',' :: rest) = _
    rw [read, if_pos rfl, read, if_neg (by decide), if_pos rfl]
    simp
  · rw [if_neg h]
    have h' : f.any special = false := by simpa using h
    cases f with
    | nil =>
      show read .start [] row (',' :: rest) = _
      rw [read, if_neg (by decide), if_pos rfl]
      rfl
    | cons c f =>
      rw [List.any_cons, Bool.or_eq_false_iff] at h'
      have hc := h'.1
      simp only [special, Bool.or_eq_false_iff, beq_eq_false_iff_ne] at hc
      obtain ⟨⟨⟨h1, h2⟩, h3⟩, h4⟩ := hc
      rw [List.cons_append, read, if_neg h2, if_neg h1, if_neg (by tauto), read_plain f h'.2, read,
        if_pos rfl]
      simp

/-- A line end closes it and the row, unless the row is a single empty field. -/
theorem read_newline (f : Field) {row : List Field} (hr : row ≠ []) (rest : List Char) :
    read .start [] row (writeField f ++ '\n' :: rest) = (row ++ [f]) :: read .start [] [] rest := by
  unfold writeField
  by_cases h : f.any special = true
  · rw [if_pos h]
    show read .start [] row ('"' :: ((doubled f ++ ['"']) ++ '\n' :: rest)) = _
    rw [read, if_pos rfl, List.append_assoc, read_quoted]
    show read .quoted (f.reverse ++ []) row ('"' :: '\n' :: rest) = _
    rw [read, if_pos rfl, read, if_neg (by decide), if_neg (by decide), if_pos (Or.inl rfl)]
    simp
  · rw [if_neg h]
    have h' : f.any special = false := by simpa using h
    cases f with
    | nil =>
      show read .start [] row ('\n' :: rest) = _
      rw [read, if_neg (by decide), if_neg (by decide), if_pos (Or.inl rfl), if_neg (by tauto)]
      rfl
    | cons c f =>
      rw [List.any_cons, Bool.or_eq_false_iff] at h'
      have hc := h'.1
      simp only [special, Bool.or_eq_false_iff, beq_eq_false_iff_ne] at hc
      obtain ⟨⟨⟨h1, h2⟩, h3⟩, h4⟩ := hc
      rw [List.cons_append, read, if_neg h2, if_neg h1, if_neg (by tauto), read_plain f h'.2, read,
        if_neg (by decide), if_pos (Or.inl rfl)]
      simp

theorem read_row : ∀ (fs : List Field) {row : List Field} (_ : row ≠ []) (_ : fs ≠ []) (rest : List Char),
    read .start [] row (writeRow fs ++ rest) = (row ++ fs) :: read .start [] [] rest
  | [], _, _, h, _ => absurd rfl h
  | [f], row, hr, _, rest => by
    show read .start [] row ((writeField f ++ ['\n']) ++ rest) = _
    rw [List.append_assoc]
    exact read_newline f hr rest
  | f :: g :: fs, row, hr, _, rest => by
    show read .start [] row ((writeField f ++ ',' :: writeRow (g :: fs)) ++ rest) = _
    rw [List.append_assoc, List.cons_append, read_comma,
      read_row (g :: fs) (by simp) (by simp) rest, List.append_assoc]
    rfl

/-- **C142.** Every table with at least two columns is read as it was written, whatever commas, quotes
and line ends the fields hold. -/
theorem C142_roundtrip : ∀ (rows : List (List Field)), (∀ r ∈ rows, 2 ≤ r.length) → parse (write rows) = rows
  | [], _ => rfl
  | r :: rows, h => by
    have ih := C142_roundtrip rows fun x hx => h x (List.mem_cons_of_mem _ hx)
    have hl := h r (by simp)
    match r, hl with
    | f :: g :: fs, _ =>
      unfold parse write at *
      rw [List.flatMap_cons]
      show read .start [] [] ((writeField f ++ ',' :: writeRow (g :: fs)) ++ _) = _
      rw [List.append_assoc, List.cons_append, read_comma, read_row (g :: fs) (by simp) (by simp), ih]
      rfl

/-- **C142.** So different tables have different files. -/
theorem C142_injective {a b : List (List Field)} (ha : ∀ r ∈ a, 2 ≤ r.length) (hb : ∀ r ∈ b, 2 ≤ r.length)
    (h : write a = write b) : a = b := by
  rw [← C142_roundtrip a ha, ← C142_roundtrip b hb, h]

/-- **C142 (partial).** A text comes back if and only if it is not one of the nineteen names of NaN. -/
theorem C142_text_partial (f : Field) : cell f = some f ↔ String.ofList f ∉ naTexts := by
  unfold cell
  split_ifs with h
  · simp [h]
  · simp [h]

/-- **C142, violated.** The version of a product that has none, and modes called NA or None, become NaN
when the database is read again. -/
theorem C142_violated_empty : cell [] = none ∧ cell "NA".toList = none ∧ cell "None".toList = none := by
  decide +kernel

/-- **C142.** Paths are never taken for NaN: they begin with a slash. -/
theorem C142_path (p : Field) : cell ('/' :: p) = some ('/' :: p) := by
  rw [C142_text_partial]
  intro h
  have hl : ('/' :: p) ∈ naTexts.map String.toList := by
    rw [List.mem_map]
    exact ⟨_, h, by simp⟩
  have hn : ∀ f ∈ naTexts.map String.toList, f.head? ≠ some '/' := by decide +kernel
  exact hn _ hl rfl

/-! ## Opening -/

/-- The names of the columns (caldb.py 11-28). -/
def columnNames : List Field :=
  ["Filepath", "Type", "MJD", "EXPTIME", "Files Used", "Date Created", "Hash", "DRPVERSN", "OBSNUM",
    "NAXIS1", "NAXIS2", "OPMODE", "EMGAIN_C", "EXCAMT"].map String.toList

/-- A database in memory: `columns`, and the rows of `_db`. -/
structure Db where
  columns : List Field
  rows : List (List Field)

/-- Opening fails for an empty file (EmptyDataError). -/
inductive Err
  | empty
deriving DecidableEq

/-- `save` (line 94). -/
def save (db : Db) : List Char := write (db.columns :: db.rows)

/-- `load` (line 88). -/
def load (file : List Char) : Except Err Db :=
  match parse file with
  | [] => .error .empty
  | cols :: rows => .ok ⟨cols, rows⟩

/-- `__init__` (lines 67-82): the path that is used, the database and the file afterwards. -/
def openDb (default_ given : List Char) (files : List Char → Option (List Char)) :
    Except Err (List Char × Db × List Char) :=
  let path := if given.length = 0 then default_ else given
  match files path with
  | none => let db : Db := ⟨columnNames, []⟩; .ok (path, db, save db)
  | some file => (load file).map fun db => (path, db, file)

/-- A database whose rows have a field for each column. -/
def Wf (db : Db) : Prop := 2 ≤ db.columns.length ∧ ∀ r ∈ db.rows, r.length = db.columns.length

/-- **C142.** What was saved is loaded. -/
theorem C142_load {db : Db} (h : Wf db) : load (save db) = .ok db := by
  unfold load save
  rw [C142_roundtrip _ (by
    intro r hr
    rcases List.mem_cons.1 hr with rfl | hr
    · exact h.1
    · rw [h.2 r hr]; exact h.1)]

/-- **C142.** Opening makes a new, empty database with the fourteen columns if there is no file, and
opening again gives the same one. -/
theorem C142_new {d g : List Char} {files : List Char → Option (List Char)}
    (h : files (if g.length = 0 then d else g) = none) :
    ∃ p file, openDb d g files = .ok (p, ⟨columnNames, []⟩, file) ∧
      openDb d g (fun q => if q = p then some file else files q) = .ok (p, ⟨columnNames, []⟩, file) := by
  have hw : Wf ⟨columnNames, []⟩ := ⟨by decide +kernel, by simp⟩
  refine ⟨if g.length = 0 then d else g, save ⟨columnNames, []⟩, ?_, ?_⟩
  · unfold openDb
    dsimp only
    rw [h]
  · unfold openDb
    dsimp only
    rw [if_pos rfl]
    dsimp only
    rw [C142_load hw]
    rfl

/-- **C142.** Opening a saved database gives its rows and columns and leaves the file alone. -/
theorem C142_open {d g : List Char} {files : List Char → Option (List Char)} {db : Db} (hw : Wf db)
    (h : files (if g.length = 0 then d else g) = some (save db)) :
    openDb d g files = .ok (if g.length = 0 then d else g, db, save db) := by
  unfold openDb
  dsimp only
  rw [h]
  dsimp only
  rw [C142_load hw]
  rfl

/-- Columns beyond the eleventh are read from the header of each product (lines 191-193). -/
def extra (db : Db) : List Field := db.columns.drop 11

/-- The row of a product: eleven fixed values, then header values; `none` is the KeyError. -/
def row (db : Db) (fixed : List Field) (hdr : Field → Option Field) : Option (List Field) :=
  ((extra db).mapM hdr).map fun l => fixed ++ l

/-- **C142.** A product can be entered if and only if its header has every extra column of the file. -/
theorem C142_row_iff (db : Db) (fixed : List Field) (hdr : Field → Option Field) :
    (row db fixed hdr).isSome = true ↔ ∀ c ∈ db.columns.drop 11, (hdr c).isSome = true := by
  unfold row extra
  generalize db.columns.drop 11 = l
  rw [Option.isSome_map]
  induction l with
  | nil => simp
  | cons c l ih =>
    rw [List.mapM_cons]
    cases hc : hdr c with
    | none => simp [hc]
    | some v =>
      simp only [List.mem_cons, forall_eq_or_imp, hc, Option.isSome_some, true_and]
      rw [← ih]
      cases List.mapM hdr l <;> simp

/-- **C142, violated.** An empty file, as left by an interrupted write, cannot be opened; it is not
replaced by a new database. -/
theorem C142_violated_empty_file {d g : List Char} {files : List Char → Option (List Char)}
    (h : files (if g.length = 0 then d else g) = some []) : openDb d g files = .error .empty := by
  unfold openDb
  dsimp only
  rw [h]
  rfl

example : write [["a,b".toList, "say \"x\"".toList], [[], "c".toList]]
    = "\"a,b\",\"say \"\"x\"\"\"\n,c\n".toList := by decide +kernel

end Corgi.Csv

import Verif.CalDB.Chain

/-!
# Property C176: registered calibrations are complete files, also after a crash

`save_data` (walker.py 305-346) first writes the files of all products (337, data.py 93-94, 465) and
then registers those that are calibrations (340-345).  The file of a product is being written for
some time; it is then neither the old nor the new one (`writeto(overwrite=True)` removes the old file
first).  Any number of processes do this on one disk and one database; each of them may stop for ever
at any point, which is a schedule that does not mention it any more.
-/

namespace Corgi.CalDB.Files

/-- A file on disk. -/
inductive File
  | torn
  | whole (e : Entry)

/-- The actions of `save_data`: `writeto` begins and ends (data.py 465); `create_entry` reads the
database (caldb.py 210-213) and writes it (216-231). -/
inductive Act
  | begin (e : Entry)
  | finish (e : Entry)
  | read (e : Entry)
  | write (e : Entry)

/-- `save_data` of a dataset (walker.py 337-345); the names have been given already. -/
def saveData (ds : List Entry) : List Act :=
  ds.flatMap (fun e => [.begin e, .finish e]) ++
    (ds.filter fun e => (label e.cls).isSome).flatMap fun e => [.read e, .write e]

/-- The disk, the database file, and for every process its copy of the table and what it still has to
do.  `begun` and `finished` record the files that were begun and finished; the code does not. -/
structure World where
  fs : String → Option File
  disk : Table
  mem : ℕ → Table
  rest : ℕ → List Act
  begun : List String
  finished : List Entry

/-- The next action of process `i`. An exception in `_get_values_from_entry` ends the process. -/
def move (w : World) (i : ℕ) : World :=
  match w.rest i with
  | [] => w
  | .begin e :: l =>
    { w with fs := Function.update w.fs e.absPath (some .torn), rest := Function.update w.rest i l,
             begun := w.begun ++ [e.absPath] }
  | .finish e :: l =>
    { w with fs := Function.update w.fs e.absPath (some (.whole e)), rest := Function.update w.rest i l,
             finished := w.finished ++ [e] }
  | .read e :: l =>
    match valuesFromEntry e true with
    | .error _ => { w with rest := Function.update w.rest i [] }
    | .ok _ => { w with mem := Function.update w.mem i (load w.disk), rest := Function.update w.rest i l }
  | .write e :: l =>
    match valuesFromEntry e true with
    | .error _ => { w with rest := Function.update w.rest i [] }
    | .ok r =>
      let db := upsert (w.mem i) e.absPath r
      { w with disk := db, mem := Function.update w.mem i db, rest := Function.update w.rest i l }

/-- The world after a schedule. -/
def exec (w : World) (sched : List ℕ) : World := sched.foldl move w

/-! ## Specification -/

/-- `r` is a row of the product `e`, as registered or after a write/read cycle of the CSV file. -/
def RowOf (r : Row) (e : Entry) : Prop :=
  r.path = some e.absPath ∧ ∃ q, Describes q e ∧ reloadRow r = reloadRow q

/-- A disk with whole, registered products `es`, and processes about to save datasets. -/
structure Start (es : List Entry) (ds : ℕ → List (List Entry)) (w : World) : Prop where
  rows : ∀ r ∈ w.disk, ∃ e ∈ es, RowOf r e
  mem : ∀ i, w.mem i = []
  files : ∀ e ∈ es, w.fs e.absPath = some (.whole e)
  begun : w.begun = es.map Entry.absPath
  finished : w.finished = es
  rest : ∀ i, w.rest i = (ds i).flatMap saveData
  abs : (∀ e ∈ es, AbsPath e.absPath) ∧ ∀ i, ∀ d ∈ ds i, ∀ e ∈ d, AbsPath e.absPath

/-! ## Proofs -/

theorem exec_snoc (w : World) (l : List ℕ) (i : ℕ) : exec w (l ++ [i]) = move (exec w l) i := by
  simp [exec]

theorem rowOf_reload {r : Row} {e : Entry} (ha : AbsPath e.absPath) (h : RowOf r e) :
    RowOf (reloadRow r) e := by
  obtain ⟨hp, q, hq, hr⟩ := h
  exact ⟨reloadRow_path_abs hp ha, q, hq, by rw [reloadRow_idem, hr]⟩

/-- Every registration still to be written is of a product that is finished, or is finished first. -/
def WritesAfter (fin : List Entry) (l : List Act) : Prop :=
  ∀ a b e, l = a ++ Act.write e :: b → Act.finish e ∈ a ∨ e ∈ fin

/-- A file is finished right after it is begun. -/
def Paired (l : List Act) : Prop :=
  (∀ a b e, l = a ++ Act.begin e :: b → ∃ b', b = Act.finish e :: b') ∧
  ∀ a b e, l = a ++ Act.finish e :: b → a = [] ∨ ∃ a', a = a' ++ [Act.begin e]

theorem WritesAfter.tail {fin : List Entry} {x : Act} {l : List Act} (h : WritesAfter fin (x :: l))
    (hx : ∀ e, x ≠ .finish e) : WritesAfter fin l := by
  intro a b e hl
  rcases h (x :: a) b e (by simp [hl]) with h | h
  · rcases List.mem_cons.1 h with h | h
    · exact absurd h.symm (hx e)
    · exact Or.inl h
  · exact Or.inr h

theorem WritesAfter.finish {fin : List Entry} {e : Entry} {l : List Act}
    (h : WritesAfter fin (.finish e :: l)) : WritesAfter (fin ++ [e]) l := by
  intro a b e' hl
  rcases h (.finish e :: a) b e' (by simp [hl]) with h | h
  · rcases List.mem_cons.1 h with h | h
    · cases h; exact Or.inr (by simp)
    · exact Or.inl h
  · exact Or.inr (by simp [h])

theorem WritesAfter.mono {fin : List Entry} {l : List Act} (h : WritesAfter fin l) (x : Entry) :
    WritesAfter (fin ++ [x]) l := fun a b e hl =>
  (h a b e hl).imp_right fun h => by simp [h]

theorem Paired.tail {x : Act} {l : List Act} (h : Paired (x :: l)) : Paired l := by
  refine ⟨fun a b e hl => h.1 (x :: a) b e (by simp [hl]), fun a b e hl => ?_⟩
  rcases h.2 (x :: a) b e (by simp [hl]) with h | ⟨a', h⟩
  · simp at h
  · cases a' with
    | nil => simp at h; exact Or.inl h.2
    | cons y a' => simp at h; exact Or.inr ⟨a', h.2⟩

theorem paired_append {l m : List Act} (hl : Paired l) (hm : Paired m)
    (hh : ∀ e, m.head? ≠ some (.finish e)) : Paired (l ++ m) := by
  constructor
  · intro a b e h
    rcases List.append_eq_append_iff.1 h with ⟨c, rfl, hc⟩ | ⟨c, rfl, hc⟩
    · exact hm.1 c b e hc
    · cases c with
      | nil =>
        simp at hc
        exact hm.1 [] b e (by simp [hc])
      | cons y c =>
        simp at hc
        obtain ⟨rfl, rfl⟩ := hc
        obtain ⟨b', rfl⟩ := hl.1 a c e rfl
        exact ⟨b' ++ m, by simp⟩
  · intro a b e h
    rcases List.append_eq_append_iff.1 h with ⟨c, rfl, hc⟩ | ⟨c, rfl, hc⟩
    · rcases hm.2 c b e hc with rfl | ⟨a', rfl⟩
      · simp at hc; exact absurd (by simp [hc]) (hh e)
      · exact Or.inr ⟨l ++ a', by simp⟩
    · cases c with
      | nil => simp at hc; exact absurd (by simp [← hc]) (hh e)
      | cons y c =>
        simp at hc
        obtain ⟨rfl, rfl⟩ := hc
        exact hl.2 a c e rfl

theorem writes_append {fin : List Entry} {l m : List Act} (hl : WritesAfter fin l)
    (hm : WritesAfter fin m) : WritesAfter fin (l ++ m) := by
  intro a b e h
  rcases List.append_eq_append_iff.1 h with ⟨c, rfl, hc⟩ | ⟨c, rfl, hc⟩
  · exact (hm c b e hc).imp_left fun h => by simp [h]
  · cases c with
    | nil =>
      simp at hc
      rcases hm [] b e (by simp [hc]) with h | h
      · simp at h
      · exact Or.inr h
    | cons y c =>
      simp at hc
      obtain ⟨rfl, rfl⟩ := hc
      exact hl a c e rfl

theorem paired_files (ds : List Entry) : Paired (ds.flatMap fun e => [Act.begin e, .finish e]) := by
  induction ds with
  | nil => exact ⟨by simp, by simp⟩
  | cons d ds ih =>
    rw [List.flatMap_cons]
    refine paired_append ⟨?_, ?_⟩ ih ?_
    · intro a b e h
      rcases a with _ | ⟨x, _ | ⟨y, a⟩⟩ <;> simp at h
      obtain ⟨rfl, rfl⟩ := h
      exact ⟨[], rfl⟩
    · intro a b e h
      rcases a with _ | ⟨x, _ | ⟨y, a⟩⟩ <;> simp at h
      obtain ⟨rfl, rfl, -⟩ := h
      exact Or.inr ⟨[], rfl⟩
    · intro e
      cases ds <;> simp

theorem no_file_in_regs (es : List Entry) (e : Entry) :
    Act.begin e ∉ es.flatMap (fun e => [Act.read e, .write e]) ∧
      Act.finish e ∉ es.flatMap (fun e => [Act.read e, .write e]) := by
  simp

theorem paired_saveData (ds : List Entry) : Paired (saveData ds) := by
  unfold saveData
  have hno := no_file_in_regs (ds.filter fun e => (label e.cls).isSome)
  refine paired_append (paired_files ds) ⟨?_, ?_⟩ ?_
  · intro a b e h; exact absurd (by rw [h]; simp) (hno e).1
  · intro a b e h; exact absurd (by rw [h]; simp) (hno e).2
  · intro e h
    exact (hno e).2 (List.mem_of_mem_head? h)

theorem writes_saveData (fin ds : List Entry) : WritesAfter fin (saveData ds) := by
  intro a b e h
  unfold saveData at h
  rcases List.append_eq_append_iff.1 h with ⟨c, rfl, hc⟩ | ⟨c, h1, hc⟩
  · left
    have : Act.write e ∈ (ds.filter fun e => (label e.cls).isSome).flatMap
        (fun e => [Act.read e, .write e]) := by rw [hc]; simp
    simp at this
    simp [this]
  · cases c with
    | nil =>
      simp at hc h1
      have : Act.write e ∈ (ds.filter fun e => (label e.cls).isSome).flatMap
        (fun e => [Act.read e, .write e]) := by rw [← hc]; simp
      simp at this
      left
      rw [← h1]
      simp [this]
    | cons y c =>
      simp at hc
      have : Act.write e ∈ ds.flatMap fun e => [Act.begin e, .finish e] := by
        rw [h1, ← hc.1]; simp
      simp at this

theorem saveData_head (ds : List Entry) (e : Entry) : (saveData ds).head? ≠ some (.finish e) := by
  cases ds <;> simp [saveData]

theorem program_ok (fin : List Entry) (dss : List (List Entry)) :
    Paired (dss.flatMap saveData) ∧ WritesAfter fin (dss.flatMap saveData) ∧
      ∀ e, (dss.flatMap saveData).head? ≠ some (.finish e) := by
  induction dss with
  | nil => exact ⟨⟨by simp, by simp⟩, by intro a b e h; simp at h, by simp⟩
  | cons d dss ih =>
    rw [List.flatMap_cons]
    refine ⟨paired_append (paired_saveData d) ih.1 ih.2.2, writes_append (writes_saveData fin d) ih.2.1, ?_⟩
    intro e h
    rw [List.head?_append] at h
    rcases hd : (saveData d).head? with _ | x
    · rw [hd] at h; exact ih.2.2 e h
    · rw [hd] at h
      simp at h
      subst h
      exact saveData_head d e hd

theorem mem_load {db : Table} {r : Row} (h : r ∈ load db) : ∃ q ∈ db, r = reloadRow q := by
  obtain ⟨q, hq, rfl⟩ := List.mem_map.1 h
  exact ⟨q, hq, rfl⟩

/-- What holds at every moment. -/
structure Inv (w : World) : Prop where
  rows : ∀ r ∈ w.disk, ∃ e ∈ w.finished, RowOf r e
  mem : ∀ i, ∀ r ∈ w.mem i, ∃ e ∈ w.finished, RowOf r e
  writes : ∀ i, WritesAfter w.finished (w.rest i)
  paired : ∀ i, Paired (w.rest i)
  abs : (∀ e ∈ w.finished, AbsPath e.absPath) ∧ ∀ i e, Act.finish e ∈ w.rest i → AbsPath e.absPath
  known : ∀ e ∈ w.finished, e.absPath ∈ w.begun
  open_ : ∀ i e, (w.rest i).head? = some (.finish e) → e.absPath ∈ w.begun
  fresh : w.begun.Nodup → (∀ e ∈ w.finished, w.fs e.absPath = some (.whole e)) ∧
    (∀ i e, (w.rest i).head? = some (.finish e) → ∀ x ∈ w.finished, x.absPath ≠ e.absPath) ∧
    ∀ i j e x, i ≠ j → (w.rest i).head? = some (.finish e) → (w.rest j).head? = some (.finish x) →
      x.absPath ≠ e.absPath

theorem inv_move {w : World} (h : Inv w) (i : ℕ) : Inv (move w i) := by
  have hrest : ∀ {l : List Act} {x : Act}, w.rest i = x :: l → (∀ e, x ≠ .finish e) →
      (∀ e, x ≠ .begin e) → ∀ e, l.head? ≠ some (.finish e) := by
    intro l x hw hf hb e hl
    obtain ⟨t, rfl⟩ : ∃ t, l = Act.finish e :: t := by
      cases l with
      | nil => simp at hl
      | cons y t => simp at hl; exact ⟨t, by rw [hl]⟩
    rcases (h.paired i).2 [x] t e (by rw [hw]; rfl) with h' | ⟨a', h'⟩
    · simp at h'
    · cases a' with
      | nil => simp at h'; exact hb e h'
      | cons y a' => simp at h'
  -- a move that changes no file and only shortens the list of what is to be done
  have quiet : ∀ {disk : Table} {mem : ℕ → Table} {l : List Act},
      (∀ r ∈ disk, ∃ e ∈ w.finished, RowOf r e) → (∀ j, ∀ r ∈ mem j, ∃ e ∈ w.finished, RowOf r e) →
      WritesAfter w.finished l → Paired l → (∀ e, Act.finish e ∈ l → AbsPath e.absPath) →
      (∀ e, l.head? ≠ some (.finish e)) →
      Inv { w with disk := disk, mem := mem, rest := Function.update w.rest i l } := by
    intro disk mem l h1 h2 h3 h4 h5 h6
    have hup : ∀ j e, (Function.update w.rest i l j).head? = some (.finish e) →
        j ≠ i ∧ (w.rest j).head? = some (.finish e) := by
      intro j e hj
      by_cases hji : j = i
      · subst hji; rw [Function.update_self] at hj; exact absurd hj (h6 e)
      · rw [Function.update_of_ne hji] at hj; exact ⟨hji, hj⟩
    refine ⟨h1, h2, ?_, ?_, ⟨h.abs.1, ?_⟩, h.known, fun j e hj => h.open_ j e (hup j e hj).2, ?_⟩
    · intro j
      by_cases hji : j = i
      · subst hji; simpa using h3
      · simpa [Function.update_of_ne hji] using h.writes j
    · intro j
      by_cases hji : j = i
      · subst hji; simpa using h4
      · simpa [Function.update_of_ne hji] using h.paired j
    · intro j e
      by_cases hji : j = i
      · subst hji; simpa using h5 e
      · simpa [Function.update_of_ne hji] using h.abs.2 j e
    · intro hn
      obtain ⟨f1, f2, f3⟩ := h.fresh hn
      exact ⟨f1, fun j e hj => f2 j e (hup j e hj).2,
        fun j k e x hjk hj hk => f3 j k e x hjk (hup j e hj).2 (hup k x hk).2⟩
  unfold move
  cases hw : w.rest i with
  | nil => exact h
  | cons x l =>
    have hwr := h.writes i
    have hpa := h.paired i
    have hab := h.abs.2 i
    rw [hw] at hwr hpa hab
    cases x with
    | read e =>
      dsimp only
      have h6 := hrest hw (by simp) (by simp)
      cases hv : valuesFromEntry e true with
      | error y =>
        exact quiet h.rows h.mem (by intro a b e h; simp at h) ⟨by simp, by simp⟩ (by simp) (by simp)
      | ok q =>
        refine quiet h.rows ?_ (hwr.tail (by simp)) hpa.tail
          (fun e' he' => hab e' (List.mem_cons_of_mem _ he')) h6
        intro j r hr
        by_cases hji : j = i
        · subst hji
          rw [Function.update_self] at hr
          obtain ⟨q, hq, rfl⟩ := mem_load hr
          obtain ⟨e', he', hr'⟩ := h.rows q hq
          exact ⟨e', he', rowOf_reload (h.abs.1 e' he') hr'⟩
        · rw [Function.update_of_ne hji] at hr; exact h.mem j r hr
    | write e =>
      dsimp only
      have h6 := hrest hw (by simp) (by simp)
      cases hv : valuesFromEntry e true with
      | error y =>
        exact quiet h.rows h.mem (by intro a b e h; simp at h) ⟨by simp, by simp⟩ (by simp) (by simp)
      | ok q =>
        have hd := values_ok_iff.1 hv
        have hef : e ∈ w.finished := by
          rcases hwr [] l e rfl with h' | h'
          · simp at h'
          · exact h'
        have hdb : ∀ r ∈ upsert (w.mem i) e.absPath q, ∃ e ∈ w.finished, RowOf r e := by
          intro r hr
          rcases mem_upsert hr with rfl | hr
          · exact ⟨e, hef, hd.path, _, hd, rfl⟩
          · exact h.mem i r hr
        refine quiet hdb ?_ (hwr.tail (by simp)) hpa.tail
          (fun e' he' => hab e' (List.mem_cons_of_mem _ he')) h6
        intro j r hr
        by_cases hji : j = i
        · subst hji
          rw [Function.update_self] at hr
          exact hdb r hr
        · rw [Function.update_of_ne hji] at hr; exact h.mem j r hr
    | begin e =>
      dsimp only
      obtain ⟨t, rfl⟩ := hpa.1 [] l e rfl
      have hup : ∀ j x, (Function.update w.rest i (Act.finish e :: t) j).head? = some (.finish x) →
          (j = i ∧ x = e) ∨ (j ≠ i ∧ (w.rest j).head? = some (.finish x)) := by
        intro j x hj
        by_cases hji : j = i
        · subst hji; rw [Function.update_self] at hj; simp at hj; exact Or.inl ⟨rfl, hj.symm⟩
        · rw [Function.update_of_ne hji] at hj; exact Or.inr ⟨hji, hj⟩
      refine ⟨h.rows, h.mem, ?_, ?_, ⟨h.abs.1, ?_⟩, fun x hx => by simp [h.known x hx], ?_, ?_⟩
      · intro j
        by_cases hji : j = i
        · subst hji; simpa using hwr.tail (by simp)
        · simpa [Function.update_of_ne hji] using h.writes j
      · intro j
        by_cases hji : j = i
        · subst hji; simpa using hpa.tail
        · simpa [Function.update_of_ne hji] using h.paired j
      · intro j x
        by_cases hji : j = i
        · subst hji; simpa using fun hx => hab x (List.mem_cons_of_mem _ hx)
        · simpa [Function.update_of_ne hji] using h.abs.2 j x
      · intro j x hj
        rcases hup j x hj with ⟨-, rfl⟩ | ⟨-, hj⟩
        · simp
        · simp [h.open_ j x hj]
      · intro hn
        rw [List.nodup_append] at hn
        obtain ⟨hn1, -, hn2⟩ := hn
        obtain ⟨f1, f2, f3⟩ := h.fresh hn1
        have hne : ∀ p ∈ w.begun, p ≠ e.absPath := fun p hp => hn2 p hp _ (by simp)
        refine ⟨fun x hx => ?_, fun j x hj y hy => ?_, fun j k x y hjk hj hk => ?_⟩
        · dsimp only
          rw [Function.update_of_ne (hne _ (h.known x hx))]
          exact f1 x hx
        · rcases hup j x hj with ⟨-, rfl⟩ | ⟨-, hj⟩
          · exact hne _ (h.known y hy)
          · exact f2 j x hj y hy
        · rcases hup j x hj with ⟨rfl, rfl⟩ | ⟨-, hj'⟩
          · rcases hup k y hk with ⟨rfl, rfl⟩ | ⟨-, hk'⟩
            · exact absurd rfl hjk
            · exact hne _ (h.open_ k y hk')
          · rcases hup k y hk with ⟨rfl, rfl⟩ | ⟨-, hk'⟩
            · exact fun h' => hne _ (h.open_ j x hj') h'.symm
            · exact f3 j k x y hjk hj' hk'
    | finish e =>
      dsimp only
      have hea : AbsPath e.absPath := hab e (by simp)
      have hhead : (w.rest i).head? = some (.finish e) := by rw [hw]; rfl
      have h6 : ∀ x, l.head? ≠ some (.finish x) := by
        intro x hl
        obtain ⟨t, rfl⟩ : ∃ t, l = Act.finish x :: t := by
          cases l with
          | nil => simp at hl
          | cons y t => simp at hl; exact ⟨t, by rw [hl]⟩
        rcases hpa.2 [Act.finish e] t x rfl with h' | ⟨a', h'⟩
        · simp at h'
        · cases a' with
          | nil => simp at h'
          | cons y a' => simp at h'
      have hup : ∀ j x, (Function.update w.rest i l j).head? = some (.finish x) →
          j ≠ i ∧ (w.rest j).head? = some (.finish x) := by
        intro j x hj
        by_cases hji : j = i
        · subst hji; rw [Function.update_self] at hj; exact absurd hj (h6 x)
        · rw [Function.update_of_ne hji] at hj; exact ⟨hji, hj⟩
      refine ⟨?_, ?_, ?_, ?_, ⟨?_, ?_⟩, ?_, ?_, ?_⟩
      · intro r hr
        obtain ⟨x, hx, hr⟩ := h.rows r hr
        exact ⟨x, by simp [hx], hr⟩
      · intro j r hr
        obtain ⟨x, hx, hr⟩ := h.mem j r hr
        exact ⟨x, by simp [hx], hr⟩
      · intro j
        by_cases hji : j = i
        · subst hji; simpa using hwr.finish
        · simpa [Function.update_of_ne hji] using (h.writes j).mono e
      · intro j
        by_cases hji : j = i
        · subst hji; simpa using hpa.tail
        · simpa [Function.update_of_ne hji] using h.paired j
      · intro x hx
        simp at hx
        rcases hx with hx | rfl
        · exact h.abs.1 x hx
        · exact hea
      · intro j x
        by_cases hji : j = i
        · subst hji; simpa using fun hx => hab x (List.mem_cons_of_mem _ hx)
        · simpa [Function.update_of_ne hji] using h.abs.2 j x
      · intro x hx
        simp at hx
        rcases hx with hx | rfl
        · exact h.known x hx
        · exact h.open_ i x hhead
      · intro j x hj
        exact h.open_ j x (hup j x hj).2
      · intro hn
        obtain ⟨f1, f2, f3⟩ := h.fresh hn
        refine ⟨fun x hx => ?_, fun j x hj y hy => ?_, fun j k x y hjk hj hk =>
          f3 j k x y hjk (hup j x hj).2 (hup k y hk).2⟩
        · simp at hx
          dsimp only
          rcases hx with hx | rfl
          · rw [Function.update_of_ne (f2 i e hhead x hx)]
            exact f1 x hx
          · rw [Function.update_self]
        · simp at hy
          obtain ⟨hji, hj'⟩ := hup j x hj
          rcases hy with hy | rfl
          · exact f2 j x hj' y hy
          · exact f3 j i x y hji hj' hhead

theorem inv_start {es : List Entry} {ds : ℕ → List (List Entry)} {w : World} (h : Start es ds w) :
    Inv w := by
  have hp := fun i => program_ok es (ds i)
  have hno : ∀ i e, (w.rest i).head? ≠ some (.finish e) := fun i e => by
    rw [h.rest i]; exact (hp i).2.2 e
  refine ⟨by rw [h.finished]; exact h.rows, fun i r hr => by rw [h.mem i] at hr; simp at hr,
    fun i => by rw [h.rest i, h.finished]; exact (hp i).2.1, fun i => by rw [h.rest i]; exact (hp i).1,
    ⟨by rw [h.finished]; exact h.abs.1, ?_⟩, ?_, fun i e hi => absurd hi (hno i e), fun _ =>
    ⟨by rw [h.finished]; exact h.files, fun i e hi => absurd hi (hno i e),
      fun i j e x _ hi => absurd hi (hno i e)⟩⟩
  · intro i e he
    rw [h.rest i] at he
    simp only [List.mem_flatMap, saveData, List.mem_append] at he
    obtain ⟨d, hd, ⟨x, hx, he⟩ | ⟨x, hx, he⟩⟩ := he
    · simp at he; subst he; exact h.abs.2 i d hd _ hx
    · simp at he
  · intro e he
    rw [h.finished] at he
    rw [h.begun]
    exact List.mem_map_of_mem he

theorem inv_exec {w : World} (h : Inv w) (sched : List ℕ) : Inv (exec w sched) := by
  induction sched using List.reverseRecOn with
  | nil => exact h
  | append_singleton l i ih => rw [exec_snoc]; exact inv_move ih i

/-- **C176, rows follow files.** At every moment of every interleaving of any number of processes,
each of which may have stopped for ever anywhere, every row of the database carries the values of a
product whose file had been written completely. -/
theorem C176_written {es : List Entry} {ds : ℕ → List (List Entry)} {w : World} (h : Start es ds w)
    (sched : List ℕ) : ∀ r ∈ (exec w sched).disk, ∃ e ∈ (exec w sched).finished, RowOf r e :=
  (inv_exec (inv_start h) sched).rows

/-- **C176, registered files are whole.** As long as no file name has been used twice, the file of
every row is whole and holds the product the row describes. -/
theorem C176_whole {es : List Entry} {ds : ℕ → List (List Entry)} {w : World} (h : Start es ds w)
    (sched : List ℕ) (hn : (exec w sched).begun.Nodup) :
    ∀ r ∈ (exec w sched).disk, ∃ e, RowOf r e ∧ (exec w sched).fs e.absPath = some (.whole e) := by
  have hi := inv_exec (inv_start h) sched
  intro r hr
  obtain ⟨e, he, hre⟩ := hi.rows r hr
  exact ⟨e, hre, (hi.fresh hn).1 e he⟩

theorem firstBest_mem {db : Table} {P : Row → Prop} {b : Row → Row → Prop} {r : Row}
    (h : FirstBest db P b r) : r ∈ db := by
  obtain ⟨a, c, rfl, -⟩ := h; simp

theorem getCalib_mem {db : Table} {f : Option Entry} {cls : Cls} {r : Row}
    (h : getCalib db f cls = .ok r) : r ∈ db := by
  have hpick : ∀ (g : Row → ℚ) (opts : Table) (am : List ℚ → Option ℕ),
      (am (opts.map g)).bind (fun i => opts[i]?) = some r → r ∈ opts := by
    intro g opts am hh
    obtain ⟨i, -, hi⟩ := Option.bind_eq_some_iff.1 hh
    exact List.mem_of_getElem? hi
  unfold getCalib at h
  simp only [bind, Except.bind, pure, Except.pure] at h
  cases hl : label cls with
  | none => rw [hl] at h; simp at h
  | some lab =>
    rw [hl] at h
    dsimp only at h
    cases f with
    | none =>
      dsimp only at h
      cases hn : newest (db.filter fun r => r.type == some lab) with
      | none => rw [hn] at h; simp at h
      | some q =>
        rw [hn] at h
        simp at h; subst h
        exact (List.mem_filter.1 (hpick _ _ _ hn)).1
    | some f =>
      dsimp only at h
      cases hv : valuesFromEntry f false with
      | error x => rw [hv] at h; simp at h
      | ok fr =>
        rw [hv] at h
        dsimp only at h
        split at h
        · cases hn : closest fr.mjd ((db.filter fun r => r.type == some lab).filter
            fun r => sameExptime r.exptime fr.exptime) with
          | none => rw [hn] at h; simp at h
          | some q =>
            rw [hn] at h
            simp at h; subst h
            exact (List.mem_filter.1 (List.mem_filter.1 (hpick _ _ _ hn)).1).1
        · cases hn : closest fr.mjd (db.filter fun r => r.type == some lab) with
          | none => rw [hn] at h; simp at h
          | some q =>
            rw [hn] at h
            simp at h; subst h
            exact (List.mem_filter.1 (hpick _ _ _ hn)).1

/-- **C176, a calibration that is found can be loaded.** As long as no file name has been used twice,
the file `get_calib` selects (from the database as it is on disk) is whole and is the product with
the values of the selected row. -/
theorem C176_found {es : List Entry} {ds : ℕ → List (List Entry)} {w : World} (h : Start es ds w)
    (sched : List ℕ) (hn : (exec w sched).begun.Nodup) (f : Option Entry) (cls : Cls) (r : Row)
    (hg : getCalib (load (exec w sched).disk) f cls = .ok r) :
    ∃ e, RowOf r e ∧ (exec w sched).fs e.absPath = some (.whole e) := by
  obtain ⟨q, hq, rfl⟩ := mem_load (getCalib_mem hg)
  have hi := inv_exec (inv_start h) sched
  obtain ⟨e, he, hre⟩ := hi.rows q hq
  exact ⟨e, rowOf_reload (hi.abs.1 e he) hre, (hi.fresh hn).1 e he⟩

theorem exec_done (w : World) (i n : ℕ) (h : w.rest i = []) : exec w (List.replicate n i) = w := by
  induction n with
  | zero => rfl
  | succ n ih =>
    rw [List.replicate_succ, show i :: List.replicate n i = [i] ++ List.replicate n i from rfl]
    rw [show exec w ([i] ++ List.replicate n i) = exec (exec w [i]) (List.replicate n i) by simp [exec]]
    have : exec w [i] = w := by simp [exec, move, h]
    rw [this, ih]

/-- **C176, a product that is refused.** If the next product to be registered lacks a header value,
the process ends: neither this product nor the ones after it are ever registered, though all their
files have been written. -/
theorem C176_refused (w : World) (i n : ℕ) (e : Entry) (l : List Act) (hw : w.rest i = .read e :: l)
    (hno : ¬ ∃ r, Describes r e) :
    exec w (List.replicate (n + 1) i) = { w with rest := Function.update w.rest i [] } := by
  obtain ⟨x, hx⟩ := values_error_iff.2 hno
  rw [List.replicate_succ, show i :: List.replicate n i = [i] ++ List.replicate n i from rfl,
    show exec w ([i] ++ List.replicate n i) = exec (exec w [i]) (List.replicate n i) by simp [exec]]
  have : exec w [i] = { w with rest := Function.update w.rest i [] } := by
    simp [exec, move, hw, hx]
  rw [this, exec_done _ _ _ (by simp)]

/-- A dark without exposure time is refused. -/
example : ¬ ∃ r, Describes r { exDark "/a" 1 2 3 with exptime := none } :=
  fun ⟨_, h⟩ => by simpa using h.exptime

/-- Two processes that save one new dark each on an empty disk; the second stops before it has written
the database. -/
example : ∃ w : World, Start [] (fun i => if i = 0 then [[exDark "/a" 1 2 3]] else
      if i = 1 then [[exDark "/b" 1 2 3]] else []) w ∧
    (exec w [0, 1, 1, 0, 0, 1, 0]).begun.Nodup ∧
    (exec w [0, 1, 1, 0, 0, 1, 0]).disk = [exRow "/a" 1 2 3] := by
  refine ⟨⟨fun _ => none, [], fun _ => [], fun i => (if i = 0 then [[exDark "/a" 1 2 3]] else
      if i = 1 then [[exDark "/b" 1 2 3]] else []).flatMap saveData, [], []⟩,
    ⟨by simp, fun _ => rfl, by simp, rfl, rfl, fun _ => rfl, by simp, ?_⟩, ?_, rfl⟩
  · intro i d hd x hx
    by_cases h0 : i = 0
    · simp [h0] at hd; subst hd; simp at hx; subst hx; decide
    · by_cases h1 : i = 1
      · simp [h1] at hd; subst hd; simp at hx; subst hx; decide
      · simp [h0, h1] at hd
  · show (["/a", "/b"] : List String).Nodup
    decide

/-! ### Names that are used again -/

/-- One process that saves one product `e` again, whose path is registered as `e0`. -/
def again (e0 e : Entry) (r0 : Row) : World where
  fs := fun p => if p = e0.absPath then some (.whole e0) else none
  disk := [r0]
  mem := fun _ => []
  rest := fun i => if i = 0 then saveData [e] else []
  begun := [e0.absPath]
  finished := [e0]

/-- It is a start as above. -/
theorem again_start {e0 e : Entry} {r0 : Row} (hr : Describes r0 e0) (hp : e.absPath = e0.absPath)
    (ha : AbsPath e0.absPath) :
    Start [e0] (fun i => if i = 0 then [[e]] else []) (again e0 e r0) := by
  refine ⟨?_, fun _ => rfl, ?_, rfl, rfl, ?_, ?_, ?_⟩
  · intro r h
    simp [again] at h; subst h
    exact ⟨e0, by simp, hr.path, _, hr, rfl⟩
  · intro x hx; simp at hx; subst hx; simp [again]
  · intro i
    by_cases hi : i = 0 <;> simp [again, hi]
  · intro x hx; simp at hx; subst hx; exact ha
  · intro i d hd x hx
    by_cases hi : i = 0
    · simp [hi] at hd; subst hd; simp at hx; subst hx; rw [hp]; exact ha
    · simp [hi] at hd

/-- **C176, the limit of the property.** A product saved again under its registered path: after a
stop in the middle of the writing, the row names a file that is not whole; after a stop before the
database has been written, the row has the values of the old product and the file holds the new one;
only at the end they agree again. -/
theorem C176_again (e0 e : Entry) (r0 r : Row) (hr0 : Describes r0 e0) (hr : Describes r e)
    (hp : e.absPath = e0.absPath) (ha : PlainEntry e0) :
    let w := again e0 e r0
    ((exec w [0]).disk = [r0] ∧ (exec w [0]).fs e0.absPath = some .torn) ∧
    ((exec w [0, 0]).disk = [r0] ∧ (exec w [0, 0]).fs e0.absPath = some (.whole e)) ∧
    ((exec w [0, 0, 0]).disk = [r0] ∧ (exec w [0, 0, 0]).fs e0.absPath = some (.whole e)) ∧
    ((exec w [0, 0, 0, 0]).disk = [r] ∧ (exec w [0, 0, 0, 0]).fs e0.absPath = some (.whole e)) := by
  intro w
  have hv := values_ok_iff.2 hr
  have hl : (label e.cls).isSome = true := by
    obtain ⟨t, -, ht⟩ := hr.type
    rw [typeName_iff.1 ht]; rfl
  have hrest : saveData [e] = [.begin e, .finish e, .read e, .write e] := by
    simp [saveData, hl]
  have hpath : (reloadRow r0).path = some e.absPath := by
    rw [hp]; exact reloadRow_path_abs hr0.path ha.path
  have hin : inValues e.absPath [reloadRow r0] = true := by
    simp [inValues, hpath]
  refine ⟨?_, ?_, ?_, ?_⟩ <;>
    simp [exec, move, w, again, hrest, hv, hp, load] 
  simp [upsert, hpath, hp] at hin ⊢
  simp [hin]

/-- Two different darks under one path. -/
example : Describes (exRow "/a" 1 2 3) (exDark "/a" 1 2 3) ∧ Describes (exRow "/a" 1 2 4) (exDark "/a" 1 2 4) ∧
    exRow "/a" 1 2 3 ≠ exRow "/a" 1 2 4 :=
  ⟨exDark_describes _ _ _ _, exDark_describes _ _ _ _, by decide⟩

end Corgi.CalDB.Files

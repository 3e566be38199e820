import Verif.CalDB.Props
import Mathlib.Data.List.Induction
import Mathlib.Logic.Function.Basic

/-!
# Property C175: any programs of any processes on one database file

C04 is about processes that register one product each.  Here every process runs a program of its
own: any sequence of registrations, removals and lookups, each chosen after seeing the replies to
the earlier ones.  A schedule says which process moves next.  A call has two moves, the reading of
the file and the rest (caldb.py 212-231, 243-258, 283-325); the table between the two is private to
the process.  A call that is refused before the file is read has one move (210, 241, 272-281).

Simplification: the writing of the file is one action (an interrupted one is the subject of C160).
-/

namespace Corgi.CalDB.Chain

/-- A call with the default `to_disk=True` (caldb.py 201, 233, 260). -/
inductive Call
  | create (e : Entry)
  | remove (e : Entry)
  | get (frame : Option Entry) (cls : Cls)

/-- What the caller sees. -/
inductive Reply
  | done
  | refused (x : Err)
  | got (frame : Option Entry) (cls : Cls) (r : Except Err Row)

/-- A process: the replies so far, and the table it has read if it is in the middle of a call. -/
structure Proc where
  hist : List Reply
  pend : Option Table

/-- The file, the processes, and a record of the changes to the file in the order in which they were
written, which the code does not keep. -/
structure Sys where
  disk : Table
  proc : ℕ → Proc
  log : List Op

/-- The part of a call before the file is read: the exceptions of `_get_values_from_entry`
(caldb.py 210, 241, 281) and of the class lookup (275-278). -/
def before : Call → Option Err
  | .create e | .remove e => match valuesFromEntry e true with
    | .ok _ => none
    | .error x => some x
  | .get f cls => match label cls with
    | none => some .valueError
    | some _ => match f with
      | none => none
      | some f => match valuesFromEntry f false with
        | .ok _ => none
        | .error x => some x

/-- The part after the file has been read as `db`: the reply and the table written, if one is
(caldb.py 216-231, 247-258, 286-325). -/
def after (db : Table) : Call → Reply × Option (Table × Op)
  | .create e => match valuesFromEntry e true with
    | .ok r => (.done, some (upsert db e.absPath r, .create e true))
    | .error x => (.refused x, none)
  | .remove e =>
    if inValues e.absPath db then
      (.done, some (db.filter fun r => !(r.path == some e.absPath), .remove e true))
    else (.refused .valueError, none)
  | .get f cls => (.got f cls (getCalib db f cls), none)

/-- One move of process `i`, whose next call is `prog i` of the replies it has had. -/
def move (prog : ℕ → List Reply → Option Call) (s : Sys) (i : ℕ) : Sys :=
  match prog i (s.proc i).hist with
  | none => s
  | some c =>
    match (s.proc i).pend with
    | none =>
      match before c with
      | some x =>
        { s with proc := Function.update s.proc i ⟨(s.proc i).hist ++ [.refused x], none⟩ }
      | none =>
        { s with proc := Function.update s.proc i ⟨(s.proc i).hist, some (load s.disk)⟩ }
    | some db =>
      let (rep, out) := after db c
      let proc := Function.update s.proc i ⟨(s.proc i).hist ++ [rep], none⟩
      match out with
      | none => { s with proc := proc }
      | some (db', op) => { disk := db', proc := proc, log := s.log ++ [op] }

/-- The system after a schedule. -/
def exec (prog : ℕ → List Reply → Option Call) (s : Sys) (sched : List ℕ) : Sys :=
  sched.foldl (move prog) s

/-- Nothing has happened yet. -/
def start (disk : Table) : Sys := ⟨disk, fun _ => ⟨[], none⟩, []⟩

theorem exec_append (prog : ℕ → List Reply → Option Call) (s : Sys) (a b : List ℕ) :
    exec prog s (a ++ b) = exec prog (exec prog s a) b := by
  simp [exec]

/-! ### Calls one after the other -/

theorem run_snoc (s : Store) (ops : List Op) (op : Op) :
    run s (ops ++ [op]) = step (run s ops) op := by
  simp [run]

/-- A change that is written is the one a single client would make to the file that was read. -/
theorem after_step {s : Store} {c : Call} {rep : Reply} {db' : Table} {op : Op}
    (hb : before c = none) (h : after (load s.disk) c = (rep, some (db', op))) :
    (step s op).disk = db' := by
  cases c with
  | create e =>
    simp only [after] at h
    cases hv : valuesFromEntry e true with
    | error x => rw [hv] at h; simp at h
    | ok r =>
      rw [hv] at h
      simp only [Prod.mk.injEq, Option.some.injEq] at h
      obtain ⟨-, rfl, rfl⟩ := h
      simp [step, createEntry, hv, bind, Except.bind, pure, Except.pure]
  | remove e =>
    simp only [after] at h
    by_cases hi : inValues e.absPath (load s.disk) = true
    · rw [if_pos hi] at h
      simp only [Prod.mk.injEq, Option.some.injEq] at h
      obtain ⟨-, rfl, rfl⟩ := h
      cases hv : valuesFromEntry e true with
      | error x => simp [before, hv] at hb
      | ok r => simp [step, removeEntry, hv, hi]
    · rw [if_neg hi] at h; simp at h
  | get f cls => simp [after] at h

/-- The state of the system in terms of a single client: the file, every private table and every
lookup come from some of the changes made so far, in the order in which they were written; for the
file the last of these is the last change. -/
structure Inv (prog : ℕ → List Reply → Option Call) (s0 : Store) (s : Sys) : Prop where
  disk : ∃ ops, ops.Sublist s.log ∧ ops.getLast? = s.log.getLast? ∧ s.disk = (run s0 ops).disk
  pend : ∀ i db, (s.proc i).pend = some db → (∃ ops, ops.Sublist s.log ∧
    db = load (run s0 ops).disk) ∧ ∃ c, prog i (s.proc i).hist = some c ∧ before c = none
  seen : ∀ i f cls r, Reply.got f cls r ∈ (s.proc i).hist → ∃ ops, ops.Sublist s.log ∧
    r = getCalib (load (run s0 ops).disk) f cls

theorem inv_move {prog : ℕ → List Reply → Option Call} {s0 : Store} {s : Sys}
    (h : Inv prog s0 s) (i : ℕ) : Inv prog s0 (move prog s i) := by
  unfold move
  cases hp : prog i (s.proc i).hist with
  | none => exact h
  | some c =>
    dsimp only
    cases hq : (s.proc i).pend with
    | none =>
      dsimp only
      cases hb : before c with
      | some x =>
        refine ⟨h.disk, fun j db hj => ?_, fun j f cls r hj => ?_⟩
        · by_cases hji : j = i
          · subst hji; simp at hj
          · simp only [Function.update_of_ne hji] at hj ⊢
            exact h.pend j db hj
        · by_cases hji : j = i
          · subst hji; simp at hj; exact h.seen j f cls r hj
          · simp only [Function.update_of_ne hji] at hj ⊢
            exact h.seen j f cls r hj
      | none =>
        refine ⟨h.disk, fun j db hj => ?_, fun j f cls r hj => ?_⟩
        · by_cases hji : j = i
          · subst hji
            simp only [Function.update_self, Option.some.injEq] at hj ⊢
            subst hj
            obtain ⟨ops, h1, -, h3⟩ := h.disk
            exact ⟨⟨ops, h1, by rw [h3]⟩, c, hp, hb⟩
          · simp only [Function.update_of_ne hji] at hj ⊢
            exact h.pend j db hj
        · by_cases hji : j = i
          · subst hji; simp at hj; exact h.seen j f cls r hj
          · simp only [Function.update_of_ne hji] at hj ⊢
            exact h.seen j f cls r hj
    | some db =>
      dsimp only
      obtain ⟨⟨ops, ho, rfl⟩, c', hc', hbc⟩ := h.pend i db hq
      rw [hp] at hc'
      obtain rfl := Option.some.inj hc'
      rcases ha : after (load (run s0 ops).disk) c with ⟨rep, out⟩
      dsimp only
      have hrep : ∀ f cls r, rep = Reply.got f cls r →
          r = getCalib (load (run s0 ops).disk) f cls := by
        rintro f cls r rfl
        cases c with
        | create e =>
          cases hv : valuesFromEntry e true <;> simp [after, hv] at ha
        | remove e =>
          by_cases hi : inValues e.absPath (load (run s0 ops).disk) = true <;> simp [after, hi] at ha
        | get f' cls' =>
          simp only [after, Prod.mk.injEq, Reply.got.injEq] at ha
          obtain ⟨⟨rfl, rfl, rfl⟩, -⟩ := ha
          rfl
      cases out with
      | none =>
        refine ⟨h.disk, fun j db hj => ?_, fun j f cls r hj => ?_⟩
        · by_cases hji : j = i
          · subst hji; simp at hj
          · simp only [Function.update_of_ne hji] at hj ⊢
            exact h.pend j db hj
        · by_cases hji : j = i
          · subst hji
            simp only [Function.update_self, List.mem_append, List.mem_singleton] at hj
            rcases hj with hj | hj
            · exact h.seen j f cls r hj
            · exact ⟨ops, ho, hrep f cls r hj.symm⟩
          · simp only [Function.update_of_ne hji] at hj ⊢
            exact h.seen j f cls r hj
      | some w =>
        obtain ⟨db', op⟩ := w
        refine ⟨⟨ops ++ [op], ho.append (List.Sublist.refl _), by simp, ?_⟩, fun j db hj => ?_,
          fun j f cls r hj => ?_⟩
        · rw [run_snoc]; exact (after_step hbc ha).symm
        · by_cases hji : j = i
          · subst hji; simp at hj
          · simp only [Function.update_of_ne hji] at hj ⊢
            obtain ⟨⟨o, h1, h2⟩, h3⟩ := h.pend j db hj
            exact ⟨⟨o, h1.trans (List.sublist_append_left _ _), h2⟩, h3⟩
        · by_cases hji : j = i
          · subst hji
            simp only [Function.update_self, List.mem_append, List.mem_singleton] at hj
            rcases hj with hj | hj
            · obtain ⟨o, h1, h2⟩ := h.seen j f cls r hj
              exact ⟨o, h1.trans (List.sublist_append_left _ _), h2⟩
            · exact ⟨ops, ho.trans (List.sublist_append_left _ _), hrep f cls r hj.symm⟩
          · simp only [Function.update_of_ne hji] at hj ⊢
            obtain ⟨o, h1, h2⟩ := h.seen j f cls r hj
            exact ⟨o, h1.trans (List.sublist_append_left _ _), h2⟩

theorem inv_exec (prog : ℕ → List Reply → Option Call) (disk : Table) (sched : List ℕ) :
    Inv prog ⟨[], disk⟩ (exec prog (start disk) sched) := by
  induction sched using List.reverseRecOn with
  | nil =>
    exact ⟨⟨[], .refl _, rfl, rfl⟩, by simp [exec, start], by simp [exec, start]⟩
  | append_singleton l i ih =>
    rw [exec_append]
    exact inv_move ih i

/-- **C175, what the file holds.** Whatever the processes do and however their moves are
interleaved, the file is what a single client would have left that made some of the changes, in the
order in which they were written, the last change among them.  So changes may be lost, but the file
is never a mixture that no sequence of whole calls would give. -/
theorem C175_file (prog : ℕ → List Reply → Option Call) (disk : Table) (sched : List ℕ) :
    ∃ ops, ops.Sublist (exec prog (start disk) sched).log ∧
      ops.getLast? = (exec prog (start disk) sched).log.getLast? ∧
      (exec prog (start disk) sched).disk = (run ⟨[], disk⟩ ops).disk :=
  (inv_exec prog disk sched).disk

/-- **C175, what a lookup sees.** Every reply of `get_calib` is the one it would give on the file of
a single client that made some of the changes. -/
theorem C175_lookup (prog : ℕ → List Reply → Option Call) (disk : Table) (sched : List ℕ) (i : ℕ)
    (f : Option Entry) (cls : Cls) (r : Except Err Row)
    (h : Reply.got f cls r ∈ ((exec prog (start disk) sched).proc i).hist) :
    ∃ ops, ops.Sublist (exec prog (start disk) sched).log ∧
      r = getCalib (load (run ⟨[], disk⟩ ops).disk) f cls :=
  (inv_exec prog disk sched).seen i f cls r h

/-- The products of a program. -/
def Call.entry? : Call → Option Entry
  | .create e | .remove e => some e
  | .get _ _ => none

/-- Every recorded change is a call of some program, with its own product. -/
theorem log_calls (prog : ℕ → List Reply → Option Call) (disk : Table) (sched : List ℕ) (op : Op)
    (h : op ∈ (exec prog (start disk) sched).log) :
    ∃ i hist e, (prog i hist = some (.create e) ∧ op = .create e true) ∨
      (prog i hist = some (.remove e) ∧ op = .remove e true) := by
  induction sched using List.reverseRecOn with
  | nil => simp [exec, start] at h
  | append_singleton l i ih =>
    rw [exec_append] at h
    simp only [exec, List.foldl_cons, List.foldl_nil] at h
    set s := List.foldl (move prog) (start disk) l with hs
    unfold move at h
    cases hp : prog i (s.proc i).hist with
    | none => rw [hp] at h; exact ih h
    | some c =>
      rw [hp] at h
      dsimp only at h
      cases hq : (s.proc i).pend with
      | none =>
        rw [hq] at h
        dsimp only at h
        cases hb : before c with
        | some x => rw [hb] at h; exact ih h
        | none => rw [hb] at h; exact ih h
      | some db =>
        rw [hq] at h
        dsimp only at h
        cases c with
        | create e =>
          cases hv : valuesFromEntry e true with
          | error x => simp only [after, hv] at h; exact ih h
          | ok r =>
            simp only [after, hv, List.mem_append, List.mem_singleton] at h
            rcases h with h | h
            · exact ih h
            · exact ⟨i, _, e, Or.inl ⟨hp, h⟩⟩
        | remove e =>
          by_cases hi : inValues e.absPath db = true
          · simp only [after, if_pos hi, List.mem_append, List.mem_singleton] at h
            rcases h with h | h
            · exact ih h
            · exact ⟨i, _, e, Or.inr ⟨hp, h⟩⟩
          · simp only [after, if_neg hi] at h; exact ih h
        | get f cls => simp only [after] at h; exact ih h

/-- **C175, the file is a map at all times.** Starting from a database of plain rows, with plain
products, the file stands for the map that results from some of the changes applied as point
updates: no path is ever registered twice and no row is mixed from two products. -/
theorem C175_map (prog : ℕ → List Reply → Option Call) (disk : Table) (sched : List ℕ)
    (ha : AbsRows disk) (hn : NoDupPaths disk) (hp : ∀ r ∈ disk, PlainRow r)
    (he : ∀ i hist c e, prog i hist = some c → c.entry? = some e → PlainEntry e) :
    NoDupPaths (exec prog (start disk) sched).disk ∧
    ∃ ops, ops.Sublist (exec prog (start disk) sched).log ∧
      ops.getLast? = (exec prog (start disk) sched).log.getLast? ∧
      MapRun (toMap (load disk)) ops (toMap (load (exec prog (start disk) sched).disk)) := by
  obtain ⟨ops, h1, h2, h3⟩ := C175_file prog disk sched
  have hent : ∀ op ∈ ops, ∃ e, PlainEntry e ∧ (op = .create e true ∨ op = .remove e true) := by
    intro op hop
    obtain ⟨i, hist, e, h | h⟩ := log_calls prog disk sched op (h1.subset hop)
    · exact ⟨e, he i hist _ e h.1 rfl, Or.inl h.2⟩
    · exact ⟨e, he i hist _ e h.1 rfl, Or.inr h.2⟩
  constructor
  · rw [h3]
    refine (C01_no_duplicates ⟨[], disk⟩ ops ⟨by simp [AbsRows], by simp [NoDupPaths]⟩ ⟨ha, hn⟩ ?_).2
    intro op hop e hoe
    obtain ⟨e', hpe, rfl | rfl⟩ := hent op hop <;>
      simp only [Op.entry?, Option.some.injEq] at hoe <;> subst hoe <;> exact hpe.path
  · refine ⟨ops, h1, h2, ?_⟩
    rw [h3]
    refine C01_refines_map ⟨[], disk⟩ ops ha hn hp ?_
    intro op hop e d hed
    obtain ⟨e', hpe, rfl | rfl⟩ := hent op hop
    · rcases hed with h | h <;> cases h
      exact ⟨hpe, rfl⟩
    · rcases hed with h | h <;> cases h
      exact ⟨hpe, rfl⟩

theorem mapRun_snoc {m m' : Map} {ops : List Op} {op : Op} (h : MapRun m (ops ++ [op]) m') :
    ∃ m1, MapRun m ops m1 ∧ MapStep m1 op m' := by
  induction ops generalizing m with
  | nil =>
    cases h with
    | cons h1 h2 => cases h2; exact ⟨m, .nil, h1⟩
  | cons a ops ih =>
    cases h with
    | cons h1 h2 =>
      obtain ⟨m1, h3, h4⟩ := ih h2
      exact ⟨m1, .cons h1 h3, h4⟩

/-- **C175, the last change holds.** The product registered last is in the file with its values; the
product removed last is not in it. -/
theorem C175_last (prog : ℕ → List Reply → Option Call) (disk : Table) (sched : List ℕ)
    (ha : AbsRows disk) (hn : NoDupPaths disk) (hp : ∀ r ∈ disk, PlainRow r)
    (he : ∀ i hist c e, prog i hist = some c → c.entry? = some e → PlainEntry e) (e : Entry)
    (r : Row) (hr : Describes r e) :
    ((exec prog (start disk) sched).log.getLast? = some (.create e true) →
      toMap (load (exec prog (start disk) sched).disk) e.absPath = some (reloadRow r)) ∧
    ((exec prog (start disk) sched).log.getLast? = some (.remove e true) →
      toMap (load (exec prog (start disk) sched).disk) e.absPath = none) := by
  obtain ⟨-, ops, -, h2, h3⟩ := C175_map prog disk sched ha hn hp he
  have hfun : ∀ r', Describes r' e → r' = r := fun r' h' => by
    have := (values_ok_iff.2 h').symm.trans (values_ok_iff.2 hr)
    exact Except.ok.inj this
  constructor
  · intro hl
    rw [hl] at h2
    obtain ⟨pre, rfl⟩ := List.getLast?_eq_some_iff.1 h2
    obtain ⟨m1, -, h4⟩ := mapRun_snoc h3
    generalize toMap (load (exec prog (start disk) sched).disk) = m at h4
    cases h4 with
    | create hd => rw [Function.update_self, hfun _ hd]
    | createRefused hno => exact absurd ⟨r, hr⟩ hno
  · intro hl
    rw [hl] at h2
    obtain ⟨pre, rfl⟩ := List.getLast?_eq_some_iff.1 h2
    obtain ⟨m1, -, h4⟩ := mapRun_snoc h3
    generalize toMap (load (exec prog (start disk) sched).disk) = m at h4
    cases h4 with
    | remove hd => rw [Function.update_self]
    | removeRefused hno => exact absurd ⟨r, hr⟩ hno

/-! ### With a lock -/

/-- No process moves while another one is in the middle of a call. -/
def Exclusive (prog : ℕ → List Reply → Option Call) (disk : Table) (sched : List ℕ) : Prop :=
  ∀ a j b, sched = a ++ j :: b → ∀ i ≠ j, ((exec prog (start disk) a).proc i).pend = none

/-- **C175, with a lock nothing is lost.** If no process moves while another one is in the middle of
a call, the file is what a single client would have left that made all the changes. -/
theorem C175_exclusive (prog : ℕ → List Reply → Option Call) (disk : Table) (sched : List ℕ)
    (h : Exclusive prog disk sched) :
    (exec prog (start disk) sched).disk =
      (run ⟨[], disk⟩ (exec prog (start disk) sched).log).disk := by
  suffices hs : (exec prog (start disk) sched).disk =
      (run ⟨[], disk⟩ (exec prog (start disk) sched).log).disk ∧
      ∀ i db, ((exec prog (start disk) sched).proc i).pend = some db →
        db = load (exec prog (start disk) sched).disk from hs.1
  induction sched using List.reverseRecOn with
  | nil => exact ⟨rfl, by simp [exec, start]⟩
  | append_singleton l i ih =>
    obtain ⟨h1, h2⟩ := ih (fun a j b hl => h a j (b ++ [i]) (by simp [hl]))
    have hex := h l i [] rfl
    have hinv := inv_exec prog disk l
    rw [exec_append]
    set s := exec prog (start disk) l with hs
    simp only [exec, List.foldl_cons, List.foldl_nil]
    unfold move
    cases hp : prog i (s.proc i).hist with
    | none => exact ⟨h1, h2⟩
    | some c =>
      dsimp only
      cases hq : (s.proc i).pend with
      | none =>
        dsimp only
        cases hb : before c with
        | some x =>
          refine ⟨h1, fun j db hj => ?_⟩
          by_cases hji : j = i
          · subst hji; simp at hj
          · simp only [Function.update_of_ne hji] at hj; exact h2 j db hj
        | none =>
          refine ⟨h1, fun j db hj => ?_⟩
          by_cases hji : j = i
          · subst hji; simpa using hj.symm
          · simp only [Function.update_of_ne hji] at hj; exact h2 j db hj
      | some db =>
        dsimp only
        obtain ⟨-, c', hc', hbc⟩ := hinv.pend i db hq
        rw [hp] at hc'
        obtain rfl := Option.some.inj hc'
        have hdb := h2 i db hq
        rcases ha : after db c with ⟨rep, out⟩
        cases out with
        | none =>
          refine ⟨h1, fun j db hj => ?_⟩
          by_cases hji : j = i
          · subst hji; simp at hj
          · simp only [Function.update_of_ne hji] at hj; exact h2 j db hj
        | some w =>
          obtain ⟨db', op⟩ := w
          refine ⟨?_, fun j db hj => ?_⟩
          · rw [hdb, h1] at ha
            dsimp only
            rw [run_snoc]
            exact (after_step hbc ha).symm
          · by_cases hji : j = i
            · subst hji; simp at hj
            · simp only [Function.update_of_ne hji] at hj
              rw [hex j hji] at hj; simp at hj

/-! ### Without one -/

/-- Programs of a few calls that stop at nothing. -/
def script (cs : ℕ → List Call) : ℕ → List Reply → Option Call := fun i hist => (cs i)[hist.length]?

/-- **C175 is violated: a removed product comes back.** A process that read the file before the
removal writes the row again. -/
theorem C175_violated_removed : ∃ (cs : ℕ → List Call) (disk : Table) (sched : List ℕ) (e : Entry),
    cs 0 = [.remove e] ∧ (∀ c ∈ cs 1, ∀ e', c.entry? = some e' → e'.absPath ≠ e.absPath) ∧
    (∀ i, 1 < i → cs i = []) ∧ rowsOf disk e.absPath ≠ [] ∧
    Op.remove e true ∈ (exec (script cs) (start disk) sched).log ∧
    rowsOf (exec (script cs) (start disk) sched).disk e.absPath = rowsOf disk e.absPath := by
  refine ⟨fun i => if i = 0 then [.remove (exDark "/a" 1 2 3)] else
      if i = 1 then [.create (exDark "/b" 1 2 3)] else [],
    [exRow "/a" 1 2 3], [1, 0, 0, 1], exDark "/a" 1 2 3, rfl, ?_, ?_, by decide, ?_, by decide⟩
  · intro c hc e' he
    simp at hc; subst hc; simp [Call.entry?] at he; subst he; decide
  · intro i hi
    have h0 : i ≠ 0 := by omega
    have h1 : i ≠ 1 := by omega
    simp [h0, h1]
  · have : (exec (script (fun i => if i = 0 then [Call.remove (exDark "/a" 1 2 3)] else
      if i = 1 then [.create (exDark "/b" 1 2 3)] else []))
      (start [exRow "/a" 1 2 3]) [1, 0, 0, 1]).log =
      [.remove (exDark "/a" 1 2 3) true, .create (exDark "/b" 1 2 3) true] := rfl
    rw [this]; simp

/-- **C175 is violated: a removal of another product loses a registration.** -/
theorem C175_violated_registered : ∃ (cs : ℕ → List Call) (disk : Table) (sched : List ℕ)
    (e : Entry), cs 0 = [.create e] ∧
    (∀ c ∈ cs 1, ∀ e', c.entry? = some e' → e'.absPath ≠ e.absPath) ∧ (∀ i, 1 < i → cs i = []) ∧
    Op.create e true ∈ (exec (script cs) (start disk) sched).log ∧
    rowsOf (exec (script cs) (start disk) sched).disk e.absPath = [] := by
  refine ⟨fun i => if i = 0 then [.create (exDark "/b" 1 2 3)] else
      if i = 1 then [.remove (exDark "/a" 1 2 3)] else [],
    [exRow "/a" 1 2 3], [1, 0, 0, 1], exDark "/b" 1 2 3, rfl, ?_, ?_, ?_, by decide⟩
  · intro c hc e' he
    simp at hc; subst hc; simp [Call.entry?] at he; subst he; decide
  · intro i hi
    have h0 : i ≠ 0 := by omega
    have h1 : i ≠ 1 := by omega
    simp [h0, h1]
  · have : (exec (script (fun i => if i = 0 then [Call.create (exDark "/b" 1 2 3)] else
      if i = 1 then [.remove (exDark "/a" 1 2 3)] else []))
      (start [exRow "/a" 1 2 3]) [1, 0, 0, 1]).log =
      [.create (exDark "/b" 1 2 3) true, .remove (exDark "/a" 1 2 3) true] := rfl
    rw [this]; simp

/-- What two moves of a process with a registration to make do. -/
theorem move_create {prog : ℕ → List Reply → Option Call} {s : Sys} {i : ℕ} {e : Entry} {r : Row}
    (hp : prog i (s.proc i).hist = some (.create e)) (hq : (s.proc i).pend = none)
    (hr : Describes r e) :
    exec prog s [i, i] = { disk := upsert (load s.disk) e.absPath r
                           proc := Function.update s.proc i ⟨(s.proc i).hist ++ [.done], none⟩
                           log := s.log ++ [.create e true] } := by
  have hv := values_ok_iff.2 hr
  have h1 : move prog s i =
      { s with proc := Function.update s.proc i ⟨(s.proc i).hist, some (load s.disk)⟩ } := by
    unfold move; rw [hp]; dsimp only; rw [hq]; dsimp only [before]; rw [hv]
  simp only [exec, List.foldl_cons, List.foldl_nil, h1]
  unfold move
  simp [hp, after, hv]

/-- **C175 is violated without bound.** For every list of products that one process registers, one
registration by a second process that read the file before it and writes it afterwards leaves none
of them, though every call was answered with success. -/
theorem C175_violated_unbounded (es : List Entry) (e : Entry) (r : Row) (hr : Describes r e)
    (hes : ∀ a ∈ es, ∃ q, Describes q a) (hne : ∀ a ∈ es, a.absPath ≠ e.absPath) :
    let cs : ℕ → List Call := fun i => if i = 0 then es.map .create else if i = 1 then [.create e] else []
    let s := exec (script cs) (start []) (1 :: List.replicate (2 * es.length) 0 ++ [1])
    (s.proc 0).hist = es.map (fun _ => .done) ∧ (s.proc 1).hist = [.done] ∧ s.disk = [r] ∧
      s.log = es.map (fun a => .create a true) ++ [.create e true] ∧
      ∀ a ∈ es, rowsOf s.disk a.absPath = [] := by
  intro cs s
  set s1 := exec (script cs) (start []) [1] with hs1
  have hv := values_ok_iff.2 hr
  have hs1' : s1 = ⟨[], Function.update (fun _ => ⟨[], none⟩) 1 ⟨[], some []⟩, []⟩ := by
    simp [hs1, exec, start, move, script, cs, before, hv, load]
  have key : ∀ k ≤ es.length, ∃ d,
      exec (script cs) s1 (List.replicate (2 * k) 0) =
        ⟨d, Function.update (Function.update (fun _ => ⟨[], none⟩) 1 ⟨[], some []⟩) 0
          ⟨List.replicate k .done, none⟩, (es.take k).map (fun a => .create a true)⟩ := by
    intro k
    induction k with
    | zero =>
      intro _
      refine ⟨[], ?_⟩
      rw [hs1']
      simp only [exec, Nat.mul_zero, List.replicate_zero, List.foldl_nil, List.take_zero,
        List.map_nil, Sys.mk.injEq, true_and, and_true]
      funext j
      by_cases hj : j = 0
      · subst hj; simp
      · simp [Function.update_of_ne hj]
    | succ k ih =>
      intro hk
      obtain ⟨d, hd⟩ := ih (by omega)
      obtain ⟨q, hq⟩ := hes es[k] (List.getElem_mem _)
      have hrep : List.replicate (2 * (k + 1)) 0 = List.replicate (2 * k) 0 ++ [0, 0] := by
        rw [show 2 * (k + 1) = 2 * k + 2 by omega, List.replicate_add]; rfl
      rw [hrep, exec_append, hd]
      refine ⟨upsert (load d) es[k].absPath q, ?_⟩
      rw [move_create (e := es[k]) (r := q) ?_ ?_ hq]
      · simp only [Function.update_self, Function.update_idem, Sys.mk.injEq, true_and]
        constructor
        · rw [← List.replicate_succ']
        · rw [List.take_succ_eq_append_getElem (by omega), List.map_append]
          rfl
      · simp only [Function.update_self, script, List.length_replicate, cs, if_true,
          List.getElem?_map]
        rw [List.getElem?_eq_getElem (by omega)]
        rfl
      · simp
  obtain ⟨d, hd⟩ := key es.length le_rfl
  have hfin : s = ⟨[r], Function.update (Function.update (Function.update (fun _ => ⟨[], none⟩) 1
      ⟨[], some []⟩) 0 ⟨List.replicate es.length .done, none⟩) 1 ⟨[.done], none⟩,
      es.map (fun a => .create a true) ++ [.create e true]⟩ := by
    show exec (script cs) (start []) (1 :: List.replicate (2 * es.length) 0 ++ [1]) = _
    rw [show 1 :: List.replicate (2 * es.length) 0 ++ [1] =
      [1] ++ (List.replicate (2 * es.length) 0 ++ [1]) by simp, exec_append, ← hs1, exec_append, hd]
    simp only [exec, List.foldl_cons, List.foldl_nil, List.take_length]
    unfold move
    simp [script, cs, after, hv, upsert, inValues]
  rw [hfin]
  refine ⟨by simp, by simp, rfl, rfl, fun a ha => ?_⟩
  have : r.path ≠ some a.absPath := by
    rw [hr.path]; intro h; exact hne a ha (Option.some.inj h).symm
  simp [rowsOf, this]

/-- Three products are lost. -/
example : ∃ es : List Entry, es.length = 3 ∧ (∀ a ∈ es, ∃ q, Describes q a) ∧
    ∀ a ∈ es, a.absPath ≠ (exDark "/z" 1 2 3).absPath :=
  ⟨[exDark "/a" 1 2 3, exDark "/b" 1 2 3, exDark "/c" 1 2 3], rfl,
    by simp; exact ⟨⟨_, exDark_describes _ _ _ _⟩, ⟨_, exDark_describes _ _ _ _⟩,
      ⟨_, exDark_describes _ _ _ _⟩⟩, by decide⟩

theorem exclusive_nil (prog : ℕ → List Reply → Option Call) (disk : Table) :
    Exclusive prog disk [] := by
  intro a j b h; simp at h

theorem exclusive_snoc {prog : ℕ → List Reply → Option Call} {disk : Table} {l : List ℕ} {k : ℕ}
    (h : Exclusive prog disk l)
    (hk : ∀ i ≠ k, ((exec prog (start disk) l).proc i).pend = none) :
    Exclusive prog disk (l ++ [k]) := by
  intro a j b hl i hi
  rcases List.eq_nil_or_concat b with rfl | ⟨b', x, rfl⟩
  · obtain ⟨rfl, h2⟩ := List.append_inj' hl rfl
    simp at h2; subst h2
    exact hk i hi
  · have hl' : l ++ [k] = (a ++ j :: b') ++ [x] := by simp [hl]
    exact h a j b' (List.append_inj' hl' rfl).1 i hi

/-- A schedule with a lock: process 1 registers a product, then process 0 removes it. -/
example : Exclusive (script fun i => if i = 0 then [.remove (exDark "/b" 1 2 3)] else
    if i = 1 then [.create (exDark "/b" 1 2 3)] else []) [exRow "/a" 1 2 3] [1, 1, 0, 0] := by
  have hv := values_ok_iff.2 (exDark_describes "/b" 1 2 3)
  refine exclusive_snoc (l := [1, 1, 0]) (exclusive_snoc (l := [1, 1]) (exclusive_snoc (l := [1])
    (exclusive_snoc (l := []) (exclusive_nil _ _) ?_) ?_) ?_) ?_ <;>
  · intro i hi
    simp [exec, move, script, start, before, after, hv, Function.update_of_ne hi]
    try (by_cases h1 : i = 1 <;> simp [h1])

end Corgi.CalDB.Chain

import Verif.CalDB.Concurrent

/-!
# Property C04: which products survive an arbitrary schedule

`Concurrent.lean` shows that schedules without a save between another process's load and save keep
all products, and that one interleaved schedule does not.  Here the content of the file is found for
every schedule, and it follows that the schedules that keep all products are exactly those.
-/

namespace Corgi.CalDB

/-- The products of the processes that a schedule leaves in the file: a save writes the product of
the process and what was in the file when the process last read it; a load changes nothing. -/
inductive InFile : List Ev → ℕ → Prop
  | own (l : List Ev) (i : ℕ) : InFile (l ++ [.save i]) i
  | read (a b : List Ev) (i j : ℕ) : InFile a j → Ev.load i ∉ b →
      InFile (a ++ .load i :: b ++ [.save i]) j
  | load (l : List Ev) (i j : ℕ) : InFile l j → InFile (l ++ [.load i]) j

theorem inFile_load {l : List Ev} {i j : ℕ} : InFile (l ++ [.load i]) j ↔ InFile l j := by
  constructor
  · intro h
    generalize hm : l ++ [Ev.load i] = m at h
    cases h with
    | own l' i' => have := (List.append_inj' hm rfl).2; simp at this
    | read a b i' j h _ => have := (List.append_inj' hm rfl).2; simp at this
    | load l' i' j h => rw [(List.append_inj' hm rfl).1]; exact h
  · exact InFile.load l i j

theorem append_load_unique {a b a' b' : List Ev} {i : ℕ}
    (h : a ++ Ev.load i :: b = a' ++ Ev.load i :: b') (hb : Ev.load i ∉ b) (hb' : Ev.load i ∉ b') :
    a = a' ∧ b = b' := by
  rcases List.append_eq_append_iff.1 h with ⟨c, rfl, hc⟩ | ⟨c, rfl, hc⟩
  · cases c with
    | nil => simp at hc; simp [hc]
    | cons x c => simp at hc; exact absurd (by simp [hc.2]) hb
  · cases c with
    | nil => simp at hc; simp [hc]
    | cons x c => simp at hc; exact absurd (by simp [hc.2]) hb'

theorem inFile_save {a b : List Ev} {i j : ℕ} (hb : Ev.load i ∉ b) :
    InFile (a ++ .load i :: b ++ [.save i]) j ↔ j = i ∨ InFile a j := by
  constructor
  · intro h
    generalize hm : a ++ .load i :: b ++ [Ev.save i] = m at h
    cases h with
    | own l' i' => have := (List.append_inj' hm rfl).2; simp at this; exact Or.inl this.symm
    | read a' b' i' j h hb' =>
      obtain ⟨h1, h2⟩ := List.append_inj' hm rfl
      simp only [List.cons.injEq, Ev.save.injEq, and_true] at h2
      subst h2
      rw [(append_load_unique h1 hb hb').1]
      exact Or.inr h
    | load l' i' j h => have := (List.append_inj' hm rfl).2; simp at this
  · rintro (rfl | h)
    · exact .own _ _
    · exact .read _ _ _ _ h hb

/-- A product in the file has been saved. -/
theorem InFile.saved {l : List Ev} {j : ℕ} (h : InFile l j) : Ev.save j ∈ l := by
  induction h with
  | own => simp
  | read a b i j _ _ ih => simp [ih]
  | load l i j _ ih => simp [ih]

/-- Every save follows a load of the same process with neither between them, and no process saves
twice: what `Schedule` says, in a form that prefixes inherit. -/
def Ordered (l : List Ev) : Prop :=
  ∀ a b i, l = a ++ Ev.save i :: b → Ev.save i ∉ a ∧
    ∃ a₁ a₂, a = a₁ ++ Ev.load i :: a₂ ∧ Ev.load i ∉ a₂

theorem Ordered.append {l m : List Ev} (h : Ordered (l ++ m)) : Ordered l :=
  fun a b i hl => h a (b ++ m) i (by simp [hl])

theorem Schedule.ordered {n : ℕ} {evs : List Ev} (h : Schedule n evs) : Ordered evs := by
  intro a b i hl
  have hi := h i
  by_cases hn : i < n
  · rw [if_pos hn, hl, List.filter_append, List.filter_cons_of_pos (by simp)] at hi
    have hlen := congrArg List.length hi
    simp only [List.length_append, List.length_cons, List.length_nil] at hlen
    cases hA : a.filter (fun e => e = .load i ∨ e = .save i) with
    | nil => rw [hA] at hi; simp at hi
    | cons x t =>
      rw [hA] at hi hlen
      have ht : t = [] := List.eq_nil_of_length_eq_zero (by simp at hlen; omega)
      subst ht
      simp only [List.cons_append, List.nil_append, List.cons.injEq] at hi
      obtain ⟨rfl, -, -⟩ := hi
      obtain ⟨a₁, a₂, rfl, h1, -, h2⟩ := List.filter_eq_cons_iff.1 hA
      rw [List.filter_eq_nil_iff] at h2
      refine ⟨?_, a₁, a₂, rfl, fun hm => by simpa using h2 _ hm⟩
      intro hm
      rcases List.mem_append.1 hm with hm | hm
      · exact h1 _ hm (by simp)
      · rcases List.mem_cons.1 hm with hm | hm
        · simp at hm
        · exact h2 _ hm (by simp)
  · rw [if_neg hn, List.filter_eq_nil_iff] at hi
    exact absurd (by simp) (hi (.save i) (by simp [hl]))

section
variable {path : ℕ → String} {row : ℕ → Row}

/-- What a process holds in memory is what was in the file at its last load. -/
theorem run_mem (w : World) (a b : List Ev) (i : ℕ) (hl : Ev.load i ∉ b) (hs : Ev.save i ∉ b) :
    (World.run path row w (a ++ .load i :: b)).mem i = load (World.run path row w a).disk := by
  induction b using List.reverseRecOn with
  | nil => rw [run_append]; simp [World.run, World.step]
  | append_singleton b ev ih =>
    simp only [List.mem_append, List.mem_singleton, not_or] at hl hs
    rw [show a ++ Ev.load i :: (b ++ [ev]) = (a ++ Ev.load i :: b) ++ [ev] by simp, run_append,
      ← ih hl.1 hs.1]
    cases ev with
    | load j =>
      have hij : i ≠ j := fun h => hl.2 (by rw [h])
      simp [World.run, World.step, Function.update_of_ne hij]
    | save j =>
      have hij : i ≠ j := fun h => hs.2 (by rw [h])
      simp [World.run, World.step, Function.update_of_ne hij]

end

open Classical in
/-- **C04, every schedule.** Whatever the interleaving of any number of processes that each load and
then save once, the file finally holds the row of exactly those products for which `InFile` holds;
for another product it holds what it held at the start (nothing, if it is new), and so it does for
all other paths. -/
theorem C04_survivors (n : ℕ) (evs : List Ev) (hs : Schedule n evs) (e : ℕ → Entry)
    (row : ℕ → Row) (hrow : ∀ i, Describes (row i) (e i)) (he : ∀ i, PlainEntry (e i))
    (hinj : ∀ i j, (e i).absPath = (e j).absPath → i = j) (w : World)
    (ha : AbsRows w.disk) (hn : NoDupPaths w.disk) (hp : ∀ r ∈ w.disk, PlainRow r) :
    (∀ i < n, rowsOf (load (World.run (fun i => (e i).absPath) row w evs).disk) (e i).absPath =
      if InFile evs i then [reloadRow (row i)] else rowsOf (load w.disk) (e i).absPath) ∧
    (∀ q, (∀ i < n, q ≠ (e i).absPath) →
      rowsOf (load (World.run (fun i => (e i).absPath) row w evs).disk) q =
        rowsOf (load w.disk) q) := by
  have key : ∀ (k : ℕ) (l : List Ev), l.length = k → Ordered l →
      Plain (World.run (fun i => (e i).absPath) row w l).disk ∧
      (∀ i, rowsOf (load (World.run (fun i => (e i).absPath) row w l).disk) (e i).absPath =
        if InFile l i then [reloadRow (row i)] else rowsOf (load w.disk) (e i).absPath) ∧
      (∀ q, (∀ i, Ev.save i ∈ l → q ≠ (e i).absPath) →
        rowsOf (load (World.run (fun i => (e i).absPath) row w l).disk) q =
          rowsOf (load w.disk) q) := by
    intro k
    induction k using Nat.strong_induction_on with
    | _ k ih =>
    intro l hk hl
    induction l using List.reverseRecOn with
    | nil =>
      refine ⟨⟨ha, hn, hp⟩, fun i => ?_, fun q _ => rfl⟩
      rw [if_neg (fun h => by simpa using h.saved)]
      rfl
    | append_singleton l ev _ =>
      simp only [List.length_append, List.length_singleton] at hk
      cases ev with
      | load i =>
        obtain ⟨h1, h2, h3⟩ := ih l.length (by omega) l rfl hl.append
        have hd : (World.run (fun i => (e i).absPath) row w (l ++ [.load i])).disk =
            (World.run (fun i => (e i).absPath) row w l).disk := by
          rw [run_append]; simp [World.run, World.step]
        rw [hd]
        refine ⟨h1, fun j => ?_, fun q hq => h3 q (fun j hj => hq j (by simp [hj]))⟩
        rw [h2 j]
        simp only [inFile_load]
      | save i =>
        obtain ⟨hns, a, b, rfl, hb⟩ := hl l [] i rfl
        obtain ⟨h1, h2, h3⟩ := ih a.length (by simp at hk; omega) a rfl hl.append.append
        have hd : (World.run (fun i => (e i).absPath) row w (a ++ .load i :: b ++ [.save i])).disk =
            upsert (load (World.run (fun i => (e i).absPath) row w a).disk) (e i).absPath (row i) := by
          rw [run_append, ← run_mem (path := fun i => (e i).absPath) (row := row) w a b i hb
            (fun h => hns (by simp [h]))]
          simp [World.run, World.step]
        rw [hd]
        have hPl := h1.load
        have hPu := hPl.upsert (hrow i) (he i)
        have hother : ∀ q, q ≠ (e i).absPath →
            rowsOf (load (upsert (load (World.run (fun i => (e i).absPath) row w a).disk)
              (e i).absPath (row i))) q =
              rowsOf (load (World.run (fun i => (e i).absPath) row w a).disk) q := by
          intro q hq
          rw [rowsOf_load hPu.abs, rowsOf_of_others (others_upsert (hrow i).path) hq,
            ← rowsOf_load hPl.abs, load_load]
        refine ⟨hPu, fun j => ?_, fun q hq => ?_⟩
        · by_cases hji : j = i
          · subst hji
            rw [if_pos (.own _ _), rowsOf_load hPu.abs, rowsOf_upsert_self (hrow j).path hPl.nodup
              (inValues_plain (he j).path hPl.plain).1]
            rfl
          · rw [hother _ (fun h => hji (hinj _ _ h)), h2 j]
            simp only [inFile_save hb, hji, false_or]
        · rw [hother q (hq i (by simp))]
          exact h3 q (fun j hj => hq j (by simp [hj]))
  obtain ⟨-, h1, h2⟩ := key _ evs rfl hs.ordered
  refine ⟨fun i _ => h1 i, fun q hq => h2 q (fun i hi => hq i ?_)⟩
  by_contra hni
  have := hs i
  rw [if_neg hni, List.filter_eq_nil_iff] at this
  exact absurd (by simp) (this _ hi)

/-- If every saved product is in the file, no process saved between another's load and save. -/
theorem serial_of_inFile {l : List Ev} (ho : Ordered l) (h : ∀ i, Ev.save i ∈ l → InFile l i) :
    SerialSaves l := by
  generalize hk : l.length = k
  induction k using Nat.strong_induction_on generalizing l with
  | _ k ih =>
  induction l using List.reverseRecOn with
  | nil => intro a b i hl; simp at hl
  | append_singleton l ev _ =>
    simp only [List.length_append, List.length_singleton] at hk
    cases ev with
    | load i =>
      have hs : SerialSaves l := ih l.length (by omega) ho.append
        (fun j hj => inFile_load.1 (h j (by simp [hj]))) rfl
      intro a b j hl
      rcases List.eq_nil_or_concat b with rfl | ⟨b, x, rfl⟩
      · have := (List.append_inj' hl rfl).2; simp at this
      · rw [List.concat_eq_append, ← List.cons_append, ← List.append_assoc] at hl
        exact hs a b j (List.append_inj' hl rfl).1
    | save i =>
      obtain ⟨hns, a, b, rfl, hb⟩ := ho l [] i rfl
      have hin : ∀ j, Ev.save j ∈ a ∨ Ev.save j ∈ b → InFile a j := by
        intro j hj
        have hne : j ≠ i := by
          rintro rfl
          exact hns (by rcases hj with hj | hj <;> simp [hj])
        have := (inFile_save hb).1 (h j (by rcases hj with hj | hj <;> simp [hj]))
        exact this.resolve_left hne
      have hbs : ∀ j, Ev.save j ∉ b := by
        intro j hj
        obtain ⟨b₁, b₂, rfl⟩ := List.append_of_mem hj
        have := (ho (a ++ .load i :: b₁) (b₂ ++ [.save i]) j (by simp)).1
        exact this (by simp [(hin j (Or.inr hj)).saved])
      have hsa : SerialSaves a := ih a.length (by simp at hk; omega) ho.append.append
        (fun j hj => hin j (Or.inl hj)) rfl
      intro c d j hl
      rcases List.eq_nil_or_concat d with rfl | ⟨d, x, rfl⟩
      · obtain ⟨h1, h2⟩ := List.append_inj' hl rfl
        simp only [List.cons.injEq, Ev.save.injEq, and_true] at h2
        subst h2
        exact ⟨a, b, h1.symm, hbs⟩
      · rw [List.concat_eq_append, ← List.cons_append, ← List.append_assoc] at hl
        have hl := (List.append_inj' hl rfl).1
        rcases List.append_eq_append_iff.1 hl with ⟨t, rfl, ht⟩ | ⟨t, rfl, ht⟩
        · exfalso
          cases t with
          | nil => simp at ht
          | cons y t =>
            simp only [List.cons_append, List.cons.injEq] at ht
            exact hbs j (by simp [ht.2])
        · cases t with
          | nil => simp at ht
          | cons y t =>
            simp only [List.cons_append, List.cons.injEq] at ht
            obtain ⟨rfl, -⟩ := ht
            exact hsa c t j rfl

theorem schedule_save_mem {n : ℕ} {evs : List Ev} (h : Schedule n evs) (i : ℕ) :
    (Ev.save i ∈ evs ↔ i < n) ∧ (Ev.load i ∈ evs ↔ i < n) := by
  have hi := h i
  have hm : ∀ ev, (ev = .load i ∨ ev = .save i) → (ev ∈ evs ↔ i < n) := by
    intro ev hev
    by_cases hn : i < n
    · rw [if_pos hn] at hi
      have : ev ∈ evs.filter (fun e => e = .load i ∨ e = .save i) := by
        rw [hi]; rcases hev with rfl | rfl <;> simp
      simp [(List.mem_filter.1 this).1, hn]
    · rw [if_neg hn, List.filter_eq_nil_iff] at hi
      simp only [hn, iff_false]
      intro hmem
      exact hi ev hmem (by simpa using hev)
  exact ⟨hm _ (Or.inr rfl), hm _ (Or.inl rfl)⟩

/-- **C04, exactly which schedules lose nothing.** Processes registering new products keep them all
if and only if no process saves between the load and the save of another; with every other
interleaving at least one product is missing at the end, and no error is reported. -/
theorem C04_violated_iff (n : ℕ) (evs : List Ev) (hs : Schedule n evs) (e : ℕ → Entry)
    (row : ℕ → Row) (hrow : ∀ i, Describes (row i) (e i)) (he : ∀ i, PlainEntry (e i))
    (hinj : ∀ i j, (e i).absPath = (e j).absPath → i = j) (w : World)
    (ha : AbsRows w.disk) (hn : NoDupPaths w.disk) (hp : ∀ r ∈ w.disk, PlainRow r)
    (hnew : ∀ i < n, rowsOf w.disk (e i).absPath = []) :
    (∃ i < n, rowsOf (load (World.run (fun i => (e i).absPath) row w evs).disk) (e i).absPath = []) ↔
      ¬ Serialized n evs := by
  have hsv := (C04_survivors n evs hs e row hrow he hinj w ha hn hp).1
  constructor
  · rintro ⟨i, hi, hl⟩ hser
    rw [(C04_serialized n evs hser e row hrow he hinj w ha hn hp).1 i hi] at hl
    simp at hl
  · intro hns
    by_contra hcon
    push Not at hcon
    apply hns
    refine ⟨fun i hi => (schedule_save_mem hs i).1.2 hi, fun i hi => ?_, ?_⟩
    · rcases hi with hi | hi
      · exact (schedule_save_mem hs i).2.1 hi
      · exact (schedule_save_mem hs i).1.1 hi
    · refine serial_of_inFile hs.ordered (fun i hi => ?_)
      have hlt := (schedule_save_mem hs i).1.1 hi
      by_contra hni
      apply hcon i hlt
      rw [hsv i hlt, if_neg hni, rowsOf_load ha, hnew i hlt]
      rfl

/-- Three processes of which the first two overlap: the first one's product is lost, the others'
are kept. -/
example : Schedule 3 [.load 0, .load 1, .save 0, .save 1, .load 2, .save 2] ∧
    ¬ InFile [.load 0, .load 1, .save 0, .save 1, .load 2, .save 2] 0 ∧
    InFile [.load 0, .load 1, .save 0, .save 1, .load 2, .save 2] 1 ∧
    InFile [.load 0, .load 1, .save 0, .save 1, .load 2, .save 2] 2 := by
  have h2 : ∀ j, InFile [.load 0, .load 1, .save 0, .save 1, .load 2, .save 2] j ↔ j = 2 ∨ j = 1 := by
    intro j
    rw [show [Ev.load 0, .load 1, .save 0, .save 1, .load 2, .save 2] =
      [.load 0, .load 1, .save 0, .save 1] ++ .load 2 :: [] ++ [.save 2] from rfl,
      inFile_save (by simp),
      show [Ev.load 0, .load 1, .save 0, .save 1] = [.load 0] ++ .load 1 :: [.save 0] ++ [.save 1] from
        rfl, inFile_save (by simp)]
    constructor
    · rintro (h | h | h)
      · exact Or.inl h
      · exact Or.inr h
      · have := h.saved; simp at this
    · rintro (h | h)
      · exact Or.inl h
      · exact Or.inr (Or.inl h)
  refine ⟨?_, by simp [h2], by simp [h2], by simp [h2]⟩
  intro i
  rcases i with _ | _ | _ | i
  · rfl
  · rfl
  · rfl
  · have : ¬ i + 1 + 1 + 1 < 3 := by omega
    rw [if_neg this, List.filter_eq_nil_iff]
    intro x hx
    simp at hx
    rcases hx with rfl | rfl | rfl | rfl | rfl | rfl <;> simp

end Corgi.CalDB

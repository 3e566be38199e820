import Verif.CalDB.Props
import Mathlib.Data.List.Induction

/-!
# Property C04: several processes registering products in one CSV file
-/

namespace Corgi.CalDB

section
variable {path : ℕ → String} {row : ℕ → Row}

theorem run_append (w : World) (a b : List Ev) :
    World.run path row w (a ++ b) = World.run path row (World.run path row w a) b := by
  simp [World.run]

/-- While no process saves, the file stays and a process that has loaded holds its content. -/
theorem run_loads (w : World) (l : List Ev) (h : ∀ j, Ev.save j ∉ l) :
    (World.run path row w l).disk = w.disk ∧
      ∀ i, w.mem i = load w.disk → (World.run path row w l).mem i = load w.disk := by
  induction l generalizing w with
  | nil => exact ⟨rfl, fun _ h => h⟩
  | cons ev l ih =>
    cases ev with
    | save j => exact absurd (List.mem_cons_self) (h j)
    | load j =>
      have := ih (World.step path row w (.load j)) (fun k hk => h k (List.mem_cons_of_mem _ hk))
      refine ⟨this.1, fun i hi => this.2 i ?_⟩
      simp only [World.step]
      by_cases hij : i = j
      · subst hij; simp
      · simp [Function.update_of_ne hij, hi]

theorem load_eq_of_reload_mem {db : Table} {r : Row} (h : r ∈ db) : reloadRow r ∈ load db :=
  List.mem_map.2 ⟨r, h, rfl⟩

end

/-- Third clause of `Serialized`, which is inherited by prefixes. -/
def SerialSaves (evs : List Ev) : Prop :=
  ∀ a b i, evs = a ++ Ev.save i :: b →
    ∃ a₁ a₂, a = a₁ ++ Ev.load i :: a₂ ∧ ∀ j, Ev.save j ∉ a₂

theorem SerialSaves.prefix {l : List Ev} {ev : Ev} (h : SerialSaves (l ++ [ev])) : SerialSaves l :=
  fun a b i hl => h a (b ++ [ev]) i (by simp [hl])

/-- **C04, serial schedules.** If no process saves between another's load and save, then at the end
every product is in the file with its values, exactly once, and products that were in the file
before are still there unchanged (up to the CSV rewriting of empty strings), for any number of
processes and any such schedule. -/
theorem C04_serialized (n : ℕ) (evs : List Ev) (hser : Serialized n evs) (e : ℕ → Entry)
    (row : ℕ → Row) (hrow : ∀ i, Describes (row i) (e i)) (he : ∀ i, PlainEntry (e i))
    (hinj : ∀ i j, (e i).absPath = (e j).absPath → i = j) (w : World)
    (ha : AbsRows w.disk) (hn : NoDupPaths w.disk) (hp : ∀ r ∈ w.disk, PlainRow r) :
    (∀ i < n, rowsOf (load (World.run (fun i => (e i).absPath) row w evs).disk) (e i).absPath =
      [reloadRow (row i)]) ∧
    (∀ q, (∀ i < n, q ≠ (e i).absPath) →
      rowsOf (load (World.run (fun i => (e i).absPath) row w evs).disk) q = rowsOf (load w.disk) q) := by
  obtain ⟨hall, honly, hsave⟩ := hser
  have key : ∀ l : List Ev, SerialSaves l →
      Plain (World.run (fun i => (e i).absPath) row w l).disk ∧
      (∀ i, Ev.save i ∈ l →
        rowsOf (load (World.run (fun i => (e i).absPath) row w l).disk) (e i).absPath =
          [reloadRow (row i)]) ∧
      (∀ q, (∀ i, Ev.save i ∈ l → q ≠ (e i).absPath) →
        rowsOf (load (World.run (fun i => (e i).absPath) row w l).disk) q =
          rowsOf (load w.disk) q) := by
    intro l
    induction l using List.reverseRecOn with
    | nil => exact fun _ => ⟨⟨ha, hn, hp⟩, by simp, fun q _ => rfl⟩
    | append_singleton l ev ih =>
      intro hl
      obtain ⟨ihP, ih1, ih2⟩ := ih hl.prefix
      rw [run_append]
      cases ev with
      | load i =>
        refine ⟨ihP, ?_, ?_⟩
        · intro j hj
          simp at hj
          exact ih1 j hj
        · intro q hq
          exact ih2 q (fun j hj => hq j (by simp [hj]))
      | save i =>
        obtain ⟨a₁, a₂, hl', hno⟩ := hl l [] i rfl
        set w' := World.run (fun i => (e i).absPath) row w l with hw'
        have hmem : w'.mem i = load w'.disk := by
          have h1 : w' = World.run (fun i => (e i).absPath) row
              (World.step (fun i => (e i).absPath) row
                (World.run (fun i => (e i).absPath) row w a₁) (.load i)) a₂ := by
            rw [hw', hl', run_append]; rfl
          have h2 := run_loads (path := fun i => (e i).absPath) (row := row)
            (World.step (fun i => (e i).absPath) row
                (World.run (fun i => (e i).absPath) row w a₁) (.load i)) a₂ hno
          rw [h1, h2.1]
          exact h2.2 i (by simp [World.step])
        have hstep : (World.run (fun i => (e i).absPath) row w' [.save i]).disk =
            upsert (load w'.disk) (e i).absPath (row i) := by
          simp [World.run, World.step, hmem]
        rw [hstep]
        have hPl := ihP.load
        have hPu := hPl.upsert (hrow i) (he i)
        have hself : rowsOf (load (upsert (load w'.disk) (e i).absPath (row i))) (e i).absPath =
            [reloadRow (row i)] := by
          rw [rowsOf_load hPu.abs, rowsOf_upsert_self (hrow i).path hPl.nodup
            (inValues_plain (he i).path hPl.plain).1]
          rfl
        have hother : ∀ q, q ≠ (e i).absPath →
            rowsOf (load (upsert (load w'.disk) (e i).absPath (row i))) q =
              rowsOf (load w'.disk) q := by
          intro q hq
          rw [rowsOf_load hPu.abs, rowsOf_of_others (others_upsert (hrow i).path) hq,
            ← rowsOf_load hPl.abs, load_load]
        refine ⟨hPu, ?_, ?_⟩
        · intro j hj
          by_cases hji : j = i
          · subst hji; exact hself
          · rw [hother _ (fun h => hji (hinj _ _ h))]
            apply ih1
            simpa [hji] using hj
        · intro q hq
          rw [hother q (hq i (by simp))]
          exact ih2 q (fun j hj => hq j (by simp [hj]))
  obtain ⟨_, h1, h2⟩ := key evs hsave
  exact ⟨fun i hi => h1 i (hall i hi), fun q hq => h2 q (fun i hi => hq i (honly i (Or.inr hi)))⟩

/-- Two processes, one after the other, satisfy the hypothesis. -/
example : Serialized 2 [.load 1, .save 1, .load 0, .save 0] := by
  refine ⟨?_, ?_, ?_⟩
  · intro i hi
    have : i = 0 ∨ i = 1 := by omega
    rcases this with rfl | rfl <;> simp
  · intro i hi
    simp at hi; omega
  · intro a b i h
    rcases a with _ | ⟨x, _ | ⟨y, _ | ⟨z, _ | ⟨u, a⟩⟩⟩⟩
    · simp at h
    · simp at h; obtain ⟨rfl, rfl, -⟩ := h; exact ⟨[], [], rfl, by simp⟩
    · simp at h
    · simp at h; obtain ⟨rfl, rfl, rfl, rfl, -⟩ := h; exact ⟨[.load 1, .save 1], [], rfl, by simp⟩
    · simp at h

/-- **C04 is violated for interleaved schedules**: a legal schedule of two processes on an empty
file (both load before either saves) loses the first product. -/
theorem C04_violated : ∃ (evs : List Ev) (e : ℕ → Entry) (row : ℕ → Row),
    Schedule 2 evs ∧ (∀ i, Describes (row i) (e i)) ∧ (∀ i, PlainEntry (e i)) ∧
    (e 0).absPath ≠ (e 1).absPath ∧
    rowsOf (World.run (fun i => (e i).absPath) row ⟨[], fun _ => []⟩ evs).disk (e 0).absPath = [] := by
  refine ⟨[.load 0, .load 1, .save 0, .save 1],
    fun i => if i = 0 then exDark "/a" 1 2 3 else exDark "/b" 1 2 3,
    fun i => if i = 0 then exRow "/a" 1 2 3 else exRow "/b" 1 2 3, ?_, ?_, ?_, by decide, by decide⟩
  · intro i
    rcases i with _ | _ | i
    · rfl
    · rfl
    · have : ¬ i + 1 + 1 < 2 := by omega
      rw [if_neg this, List.filter_eq_nil_iff]
      intro x hx
      simp at hx
      rcases hx with rfl | rfl | rfl | rfl <;> simp
  · intro i
    by_cases h : i = 0 <;> simp [h] <;> exact exDark_describes _ _ _ _
  · intro i
    by_cases h : i = 0 <;> simp [h] <;> exact exDark_plain (by decide) _ _ _

end Corgi.CalDB

import Mathlib.Algebra.Order.Ring.Rat
import Mathlib.Data.List.Basic
import Mathlib.Data.List.Nodup
import Mathlib.Tactic.Linarith
import Mathlib.Tactic.NormNum

/-!
# The array of traps (pump_trap_calibration.py 3178-3336): model and C119

Values are `Option ℚ`: `none` is NaN, which is also what numpy stores for `None`. Rows and columns are whole numbers. The
location "LHSel2" is a side and the number of the electrode; `split("el")` separates them, since no side contains "el".
-/

namespace Corgi.TrapCode

inductive Side | lhs | cen | rhs
  deriving DecidableEq, Repr

/-- A key of `trap_dict` -/
structure Key where
  row : ℕ
  col : ℕ
  side : Side
  el : ℕ
  it : ℕ
  deriving DecidableEq, Repr

/-- An element of `cap`: a list of numbers, or a number. -/
inductive Cap
  | arr (l : List ℚ)
  | num (x : ℚ)
  deriving DecidableEq, Repr

/-- What the dictionary has for a key. `cap` has one list for each temperature, with three numbers for each scheme.
`E`, …: value and error, `none` if there was no fit. -/
structure Entry where
  cap : List Cap
  E : Option ℚ
  sigE : Option ℚ
  cs : Option ℚ
  sigCs : Option ℚ
  rsq : Option ℚ
  tau : Option ℚ
  sigTau : Option ℚ
  deriving DecidableEq, Repr

/-- Lines 3247-3249. -/
def Side.code : Side → ℕ
  | .lhs => 10
  | .cen => 20
  | .rhs => 30

/-- Lines 3318-3320. -/
def Side.ofCode : ℕ → Option Side
  | 10 => some .lhs
  | 20 => some .cen
  | 30 => some .rhs
  | _ => none

/-- A line of the array, ten numbers. -/
structure Row where
  row : ℕ
  col : ℕ
  loc : ℕ
  it : ℕ
  cap : ℚ
  amp : ℚ
  E : Option ℚ
  cs : Option ℚ
  rsq : Option ℚ
  tau : Option ℚ
  deriving DecidableEq, Repr

/-- Lines 3253-3289; `none`: an IndexError for missing `cap` data, or if `cap[0]` is a number. -/
def toRow (k : Key) (e : Entry) : Option Row :=
  match e.cap with
  | [] => none
  | .num _ :: _ => none
  | .arr c :: _ => match c[0]?, c[2]? with
    | some x, some y => some ⟨k.row, k.col, k.side.code + k.el, k.it, x, y, e.E, e.cs, e.rsq, e.tau⟩
    | _, _ => none

def create (d : List (Key × Entry)) : Option (List Row) := d.mapM fun p => toRow p.1 p.2

/-- What `rebuild_dict` stores: `cap` is one list of three numbers here. -/
structure Back where
  cap : List Cap
  E : Option ℚ
  cs : Option ℚ
  rsq : Option ℚ
  tau : Option ℚ
  deriving DecidableEq, Repr

/-- Lines 3324-3327; `none`: KeyError. -/
def key (r : Row) : Option Key :=
  match Side.ofCode (r.loc / 10 % 10 * 10) with
  | none => none
  | some s => some ⟨r.row, r.col, s, r.loc % 10, r.it⟩

/-- Lines 3329-3334. -/
def back (r : Row) : Back := ⟨[.num r.cap, .num 0, .num r.amp], r.E, r.cs, r.rsq, r.tau⟩

/-- A dictionary: a repeated key keeps its place and gets the new value. -/
def put {α : Type} (d : List (Key × α)) (k : Key) (v : α) : List (Key × α) :=
  if d.any fun p => p.1 = k then d.map fun p => if p.1 = k then (k, v) else p else d ++ [(k, v)]

/-- Lines 3312-3336. -/
def rebuild (l : List Row) : Option (List (Key × Back)) :=
  l.foldlM (fun d r => (key r).map fun k => put d k (back r)) []

/-! ## C119 -/

/-- The code of a location can be read back; electrodes have one digit. -/
theorem C119_decode (k : Key) (e : Entry) (hk : k.el < 10) (r : Row) (h : toRow k e = some r) : key r = some k := by
  unfold toRow at h
  split at h
  · cases h
  · cases h
  · split at h
    · cases h
      have h1 : (k.side.code + k.el) / 10 % 10 * 10 = k.side.code := by cases k.side <;> simp only [Side.code] <;> omega
      have h2 : (k.side.code + k.el) % 10 = k.el := by cases k.side <;> simp only [Side.code] <;> omega
      have h3 : Side.ofCode k.side.code = some k.side := by cases k.side <;> rfl
      unfold key
      dsimp only
      rw [h1, h2, h3]
    · cases h

/-- Different locations have different codes exactly because electrodes are below ten: with ten electrodes they would not. -/
theorem C119_code (s s' : Side) {e e' : ℕ} (h : e < 10) (h' : e' < 10) :
    s.code + e = s'.code + e' ↔ s = s' ∧ e = e' := by
  constructor
  · intro hc
    cases s <;> cases s' <;> simp only [Side.code] at hc <;> first | (refine ⟨rfl, by omega⟩) | omega
  · rintro ⟨rfl, rfl⟩; rfl

/-- What a line holds of an entry. -/
def Kept (e : Entry) (r : Row) : Prop :=
  (∃ c, e.cap.head? = some (.arr c) ∧ c[0]? = some r.cap ∧ c[2]? = some r.amp) ∧ r.E = e.E ∧ r.cs = e.cs ∧ r.rsq = e.rsq ∧
    r.tau = e.tau

theorem toRow_kept {k : Key} {e : Entry} {r : Row} (h : toRow k e = some r) : Kept e r := by
  unfold toRow at h
  split at h
  · cases h
  · cases h
  · rename_i c _ hc
    split at h
    · rename_i x y hx hy
      cases h
      exact ⟨⟨c, by rw [hc]; rfl, hx, hy⟩, rfl, rfl, rfl, rfl⟩
    · cases h

theorem create_cons (p : Key × Entry) (d : List (Key × Entry)) (l : List Row) (h : create (p :: d) = some l) :
    ∃ r l', l = r :: l' ∧ toRow p.1 p.2 = some r ∧ create d = some l' := by
  unfold create at h ⊢
  rw [List.mapM_cons] at h
  cases hr : toRow p.1 p.2 with
  | none => rw [hr] at h; cases h
  | some r =>
    rw [hr] at h
    cases hl : List.mapM (fun p => toRow p.1 p.2) d with
    | none => rw [hl] at h; cases h
    | some l' => rw [hl] at h; cases h; exact ⟨r, l', rfl, rfl, rfl⟩

/-- The array has one line for each trap, in the order of the dictionary, with its position, location, number and values. -/
theorem C119_rows (d : List (Key × Entry)) (l : List Row) (h : create d = some l) (hk : ∀ p ∈ d, p.1.el < 10) :
    List.Forall₂ (fun p r => key r = some p.1 ∧ r.row = p.1.row ∧ r.col = p.1.col ∧ r.it = p.1.it ∧ Kept p.2 r) d l := by
  induction d generalizing l with
  | nil => cases h; exact .nil
  | cons p d ih =>
    obtain ⟨r, l', rfl, hr, hl⟩ := create_cons p d l h
    have hd := C119_decode p.1 p.2 (hk p List.mem_cons_self) r hr
    have hd' := hd
    refine .cons ⟨hd, ?_, ?_, ?_, toRow_kept hr⟩ (ih l' hl fun q hq => hk q (List.mem_cons_of_mem _ hq))
    all_goals
      unfold key at hd'
      split at hd'
      · cases hd'
      · have := Option.some.inj hd'
        rw [← this]

theorem foldlM_back (l : List Row) : ∀ (d : List (Key × Entry)) (acc : List (Key × Back)),
    List.Forall₂ (fun p r => key r = some p.1) d l → (acc.map Prod.fst ++ d.map Prod.fst).Nodup →
    l.foldlM (fun d r => (key r).map fun k => put d k (back r)) acc =
      some (acc ++ List.zipWith (fun p r => (p.1, back r)) d l) := by
  induction l with
  | nil => intro d acc h _; cases h; simp
  | cons r l ih =>
    intro d acc h hn
    cases h with
    | cons hr h =>
      rename_i p d
      rw [List.foldlM_cons, hr]
      have hp : put acc p.1 (back r) = acc ++ [(p.1, back r)] := by
        unfold put
        rw [if_neg]
        intro hc
        obtain ⟨q, hq, hqk⟩ := List.any_eq_true.1 hc
        have hqk' : q.1 = p.1 := by simpa using hqk
        rw [List.nodup_append] at hn
        exact hn.2.2 q.1 (List.mem_map_of_mem hq) p.1 (by simp) hqk'
      simp only [Option.map_some, hp]
      show List.foldlM _ (acc ++ [(p.1, back r)]) l = _
      rw [ih d (acc ++ [(p.1, back r)]) h (by simpa using hn)]
      simp

/-- Reading the array back gives the same traps in the same order, with the values that were written. -/
theorem C119_rebuild (d : List (Key × Entry)) (l : List Row) (h : create d = some l) (hk : ∀ p ∈ d, p.1.el < 10)
    (hn : (d.map Prod.fst).Nodup) : ∃ b, rebuild l = some b ∧ b.map Prod.fst = d.map Prod.fst ∧
      List.Forall₂ (fun p q => ∃ r, Kept p.2 r ∧ q.2 = back r) d b := by
  have hr := C119_rows d l h hk
  have h1 : List.Forall₂ (fun p r => key r = some p.1) d l := hr.imp fun _ _ h => h.1
  refine ⟨List.zipWith (fun p r => (p.1, back r)) d l, ?_, ?_, ?_⟩
  · have := foldlM_back l d [] h1 (by simpa using hn)
    simpa [rebuild] using this
  · clear h hk hn h1
    induction hr with
    | nil => rfl
    | cons _ _ ih => simp only [List.zipWith_cons_cons, List.map_cons, ih]
  · clear h hk hn h1
    induction hr with
    | nil => exact .nil
    | cons ha _ ih => exact .cons ⟨_, ha.2.2.2.2, rfl⟩ ih

/-- Errors are not kept, nor anything but the first scheme of the first temperature: dictionaries that differ there give the
same array. -/
theorem C119_violated_lost (k : Key) (c : Cap) (cs cs' : List Cap) (e : Entry) (s1 s2 s3 : Option ℚ) :
    toRow k { e with cap := c :: cs } =
      toRow k { e with cap := c :: cs', sigE := s1, sigCs := s2, sigTau := s3 } := by
  cases c <;> rfl

/-- The first scheme of the first temperature decides alone. -/
theorem C119_violated_first (k : Key) (e : Entry) (x s y : ℚ) (r r' : List ℚ) (cs : List Cap) :
    toRow k { e with cap := .arr (x :: s :: y :: r) :: cs } = toRow k { e with cap := .arr (x :: 0 :: y :: r') :: [] } := rfl

/-- What is read back, as an entry; the errors are missing. -/
def Back.entry (b : Back) : Entry := ⟨b.cap, b.E, none, b.cs, none, b.rsq, b.tau, none⟩

/-- An array cannot be made again from what was read back: `cap[0]` is a number (line 3330). -/
theorem C119_violated_again (d : List (Key × Entry)) (l : List Row) (h : create d = some l) (hk : ∀ p ∈ d, p.1.el < 10)
    (hn : (d.map Prod.fst).Nodup) (hd : d ≠ []) (b : List (Key × Back)) (hb : rebuild l = some b) :
    create (b.map fun q => (q.1, q.2.entry)) = none := by
  obtain ⟨b', h1, h2, h3⟩ := C119_rebuild d l h hk hn
  have := Option.some.inj (h1.symm.trans hb)
  subst this
  cases h3 with
  | nil => exact absurd rfl hd
  | cons ha hr =>
    obtain ⟨r, -, hq⟩ := ha
    unfold create
    rw [List.map_cons, List.mapM_cons, hq]
    rfl

example : create [(⟨3, 4, .rhs, 2, 0⟩, ⟨[.arr [1, 2, 3], .arr [4, 5, 6]], some 1, none, none, none, none, none, none⟩)] =
    some [⟨3, 4, 32, 0, 1, 3, some 1, none, none, none⟩] := by decide +kernel

end Corgi.TrapCode

import Mathlib.Data.List.Basic
import Mathlib.Data.List.Infix
import Mathlib.Tactic.SplitIfs
import Verif.Common.Except

/-!
# The Image class: constructor, saving and loading

Model of `Image.__init__` (data.py 276-427), `Image.save` (436-466), `KGain.save` (913-940), `add_extension_hdu`
(601-617) and `filepath` (432-433).

Arrays are a shape and contents of any type. The error array is a list of layers. Of the error header only the
names of the layers are kept.
-/

namespace Corgi.Image

inductive Error
  | valueError | keyError
  deriving DecidableEq, Repr

/-! ## Shapes -/

/-- `s[-n:]` -/
def lastDims (n : ℕ) (s : List ℕ) : List ℕ := if n = 0 then s else s.drop (s.length - n)

/-- The shape of `self.err` (data.py 353-362, the same for files: 292-299). -/
def errShape (data : List ℕ) : Option (List ℕ) → Except Error (List ℕ)
  | none => .ok (1 :: data)
  | some e =>
    if data ≠ lastDims data.length e then .error .valueError
    else if e.length = data.length + 1 then .ok e
    else .ok (1 :: e)

/-- The shape of `self.dq` (data.py 364-369). -/
def dqShape (data : List ℕ) : Option (List ℕ) → Except Error (List ℕ)
  | none => .ok data
  | some q => if data ≠ q then .error .valueError else .ok q

/-- Spec: layers of the shape of the data. -/
def WellShaped (data err : List ℕ) : Prop := ∃ k, err = k :: data

theorem lastDims_eq_iff {data e : List ℕ} (hd : data ≠ []) :
    data = lastDims data.length e ↔ ∃ a, e = a ++ data := by
  have hl : data.length ≠ 0 := by simpa using hd
  unfold lastDims
  rw [if_neg hl]
  constructor
  · intro h
    refine ⟨e.take (e.length - data.length), ?_⟩
    conv_lhs => rw [← List.take_append_drop (e.length - data.length) e]
    rw [← h]
  · rintro ⟨a, rfl⟩
    simp

/-- **C129** Without error and flags, there is one layer and the flags have the shape of the data. -/
theorem C129_default_shapes (data : List ℕ) :
    errShape data none = .ok (1 :: data) ∧ dqShape data none = .ok data := ⟨rfl, rfl⟩

/-- **C129** The flags are accepted exactly if they have the shape of the data. -/
theorem C129_dq_iff (data q : List ℕ) : (∃ r, dqShape data (some q) = .ok r) ↔ q = data := by
  unfold dqShape
  dsimp only
  split_ifs with h
  · constructor
    · rintro ⟨r, hr⟩; cases hr
    · intro he; exact absurd he.symm h
  · simp only [ne_eq, not_not] at h
    exact ⟨fun _ => h.symm, fun _ => ⟨_, rfl⟩⟩

/-- **C129** Exactly which errors give an error array with layers of the shape of the data: one such layer or
a stack of them. -/
theorem C129_err_good_iff {data : List ℕ} (hd : data ≠ []) (e : List ℕ) :
    (∃ r, errShape data (some e) = .ok r ∧ WellShaped data r) ↔ e = data ∨ ∃ k, e = k :: data := by
  unfold errShape
  dsimp only
  by_cases h : data = lastDims data.length e
  · rw [if_neg (not_not.mpr h)]
    obtain ⟨a, rfl⟩ := (lastDims_eq_iff hd).mp h
    by_cases h1 : (a ++ data).length = data.length + 1
    · rw [if_pos h1]
      have ha : a.length = 1 := by rw [List.length_append] at h1; omega
      obtain ⟨k, rfl⟩ := List.length_eq_one_iff.mp ha
      exact ⟨fun _ => Or.inr ⟨k, rfl⟩, fun _ => ⟨_, rfl, k, rfl⟩⟩
    · rw [if_neg h1]
      constructor
      · rintro ⟨r, hr, k, hk⟩
        have hr := Except.ok.inj hr
        rw [hk, List.cons.injEq] at hr
        exact Or.inl hr.2
      · rintro (h2 | ⟨k, h2⟩)
        · exact ⟨_, rfl, 1, by rw [h2]⟩
        · exact absurd (by rw [h2, List.length_cons]) h1
  · rw [if_pos h]
    constructor
    · rintro ⟨r, hr, -⟩; cases hr
    · rintro (rfl | ⟨k, rfl⟩)
      · exact absurd ((lastDims_eq_iff hd).mpr ⟨[], rfl⟩) h
      · exact absurd ((lastDims_eq_iff hd).mpr ⟨[k], rfl⟩) h

/-- **C129** Errors that do not end with the shape of the data are refused. -/
theorem C129_err_refused_iff {data : List ℕ} (hd : data ≠ []) (e : List ℕ) :
    errShape data (some e) = .error .valueError ↔ ¬ ∃ a, e = a ++ data := by
  rw [← lastDims_eq_iff hd]
  unfold errShape
  dsimp only
  split_ifs with h h1
  · exact ⟨fun _ => h, fun _ => rfl⟩
  · exact ⟨fun h2 => (by cases h2), fun h2 => absurd h2 h⟩
  · exact ⟨fun h2 => (by cases h2), fun h2 => absurd h2 h⟩

/-- **C129** Violated: errors with two or more extra dimensions are accepted and get one more. -/
theorem C129_violated_shape {data a : List ℕ} (hd : data ≠ []) (ha : 2 ≤ a.length) :
    errShape data (some (a ++ data)) = .ok (1 :: (a ++ data)) ∧ ¬ WellShaped data (1 :: (a ++ data)) := by
  constructor
  · unfold errShape
    dsimp only
    rw [if_neg (not_not.mpr ((lastDims_eq_iff hd).mpr ⟨a, rfl⟩)), if_neg]
    rw [List.length_append]
    omega
  · rintro ⟨k, hk⟩
    have := congrArg List.length hk
    simp only [List.length_cons, List.length_append] at this
    omega

/-! ## Layers of the error -/

/-- The layers of the error and the keywords `Layer_i`. -/
structure Errs (α : Type) where
  layers : List α
  name : ℕ → Option String

/-- `del self.err_hdr['Layer_i']`: a missing keyword is a `KeyError`. -/
def delName (name : ℕ → Option String) (i : ℕ) : Except Error (ℕ → Option String) :=
  if name i = none then .error .keyError else .ok (fun j => if j = i then none else name j)

/-- `discard individual errors if we aren't tracking them` (data.py 407-412). -/
def discard {α : Type} (track : Bool) (e : Errs α) : Except Error (Errs α) :=
  if track = false ∧ 1 < e.layers.length then do
    let n ← (List.range (e.layers.length - 1)).foldlM (fun n i => delName n (i + 2)) e.name
    return { layers := e.layers.take 1, name := n }
  else .ok e

/-- `add_error_term` as far as the layers go (data.py 545-557); `comb` combines the first layer with the new one. -/
def addTerm {α : Type} (track : Bool) (comb : α → α → α) (e : Errs α) (x : α) (nm : String) : Errs α :=
  let l1 := match e.layers with
    | [] => []
    | a :: as => comb a x :: as
  let n1 : ℕ → Option String := fun j => if j = 1 then some "combined_error" else e.name j
  if track then
    { layers := l1 ++ [x], name := fun j => if j = (l1 ++ [x]).length then some nm else n1 j }
  else { layers := l1, name := n1 }

/-- Spec: every layer after the first has a name, and there are no names of layers that do not exist. -/
def Named {α : Type} (e : Errs α) : Prop := ∀ i, 2 ≤ i → (e.name i ≠ none ↔ i ≤ e.layers.length)

theorem delAll_ok (n0 : ℕ → Option String) : ∀ m : ℕ, (∀ i, i < m → n0 (i + 2) ≠ none) →
    (List.range m).foldlM (fun n i => delName n (i + 2)) n0 =
      .ok (fun j => if 2 ≤ j ∧ j < m + 2 then none else n0 j)
  | 0, _ => by
    simp only [List.range_zero, List.foldlM_nil, pure, Except.pure]
    congr 1
    funext j
    rw [if_neg (by omega)]
  | m + 1, h => by
    rw [List.range_succ, List.foldlM_append, delAll_ok n0 m (fun i hi => h i (by omega))]
    simp only [bind, Except.bind, List.foldlM_cons, List.foldlM_nil, pure, Except.pure]
    have h3 : ∀ n : ℕ → Option String, n (m + 2) ≠ none →
        delName n (m + 2) = .ok (fun j => if j = m + 2 then none else n j) := by
      intro n hn
      unfold delName
      rw [if_neg hn]
    rw [h3 _ (by rw [if_neg (by omega)]; exact h m (by omega))]
    dsimp only
    congr 1
    funext j
    by_cases h1 : j = m + 2
    · rw [if_pos h1, if_pos (by omega)]
    · rw [if_neg h1]
      by_cases h2 : 2 ≤ j ∧ j < m + 2
      · rw [if_pos h2, if_pos (by omega)]
      · rw [if_neg h2, if_neg (by omega)]

theorem delAll_error (n0 : ℕ → Option String) : ∀ m : ℕ, (∃ i, i < m ∧ n0 (i + 2) = none) →
    (List.range m).foldlM (fun n i => delName n (i + 2)) n0 = .error .keyError
  | 0, h => by obtain ⟨i, hi, -⟩ := h; omega
  | m + 1, h => by
    rw [List.range_succ, List.foldlM_append]
    by_cases hm : ∃ i, i < m ∧ n0 (i + 2) = none
    · rw [delAll_error n0 m hm]; rfl
    · obtain ⟨i, hi, h0⟩ := h
      have : i = m := by
        by_contra hne
        exact hm ⟨i, by omega, h0⟩
      subst this
      rw [delAll_ok n0 i (fun j hj hn => hm ⟨j, hj, hn⟩)]
      simp only [bind, Except.bind, List.foldlM_cons]
      have h3 : ∀ n : ℕ → Option String, n (i + 2) = none → delName n (i + 2) = .error .keyError := by
        intro n hn
        unfold delName
        rw [if_pos hn]
      rw [h3 _ (by rw [if_neg (by omega)]; exact h0)]

/-- **C129** Discarding the individual errors of a product whose layers are named keeps the combined error and
removes the names of the others. -/
theorem C129_discard_partial {α : Type} (e : Errs α) (h : Named e) :
    ∃ r, discard false e = .ok r ∧ r.layers = e.layers.take 1 ∧ r.name 1 = e.name 1 ∧ Named r := by
  unfold discard
  by_cases hl : 1 < e.layers.length
  · rw [if_pos ⟨rfl, hl⟩, delAll_ok e.name _ (fun i hi => (h (i + 2) (by omega)).mpr (by omega))]
    refine ⟨_, rfl, rfl, rfl, ?_⟩
    intro i hi
    simp only [List.length_take]
    constructor
    · intro hn
      exfalso
      apply hn
      by_cases h2 : i < e.layers.length - 1 + 2
      · rw [if_pos ⟨hi, h2⟩]
      · rw [if_neg (by omega)]
        by_contra h3
        exact absurd ((h i hi).mp h3) (by omega)
    · intro h2; omega
  · rw [if_neg (fun hc => hl hc.2)]
    exact ⟨e, rfl, (List.take_of_length_le (by omega)).symm, rfl, h⟩

/-- **C129** While individual errors are tracked nothing is discarded. -/
theorem C129_tracked {α : Type} (e : Errs α) : discard true e = .ok e := by
  unfold discard
  rw [if_neg (by simp)]

/-- **C129** Violated: with several layers, the default configuration accepts the product only if each of
the layers after the first is named in the header. -/
theorem C129_violated_layers {α : Type} (e : Errs α) :
    discard false e = .error .keyError ↔ ∃ i, 2 ≤ i ∧ i ≤ e.layers.length ∧ e.name i = none := by
  unfold discard
  by_cases hl : 1 < e.layers.length
  · rw [if_pos ⟨rfl, hl⟩]
    by_cases hm : ∃ i, i < e.layers.length - 1 ∧ e.name (i + 2) = none
    · rw [delAll_error e.name _ hm]
      refine ⟨fun _ => ?_, fun _ => rfl⟩
      obtain ⟨i, hi, h0⟩ := hm
      exact ⟨i + 2, by omega, by omega, h0⟩
    · rw [delAll_ok e.name _ (fun i hi h0 => hm ⟨i, hi, h0⟩)]
      constructor
      · intro h; cases h
      · rintro ⟨i, h2, hi, h0⟩
        exact absurd ⟨i - 2, by omega, by rw [show i - 2 + 2 = i by omega]; exact h0⟩ hm
  · rw [if_neg (fun hc => hl hc.2)]
    constructor
    · intro h; cases h
    · rintro ⟨i, h2, hi, -⟩; omega

/-- **C129** Layers added by `add_error_term` are named. -/
theorem C129_add_named {α : Type} (track : Bool) (comb : α → α → α) (e : Errs α) (x : α) (nm : String)
    (h0 : e.layers ≠ []) (h : Named e) : Named (addTerm track comb e x nm) := by
  cases hl : e.layers with
  | nil => exact absurd hl h0
  | cons a as =>
    intro i hi
    unfold addTerm
    simp only [hl]
    have := h i hi
    rw [hl] at this
    simp only [List.length_cons] at this
    cases track with
    | true =>
      simp only [if_true, List.length_append, List.length_cons, List.length_nil]
      by_cases h1 : i = as.length + 1 + (0 + 1)
      · rw [if_pos h1]
        exact ⟨fun _ => by omega, fun _ => by simp⟩
      · rw [if_neg h1, if_neg (by omega), this]
        omega
    | false =>
      simp only [Bool.false_eq_true, if_false, List.length_cons]
      rw [if_neg (by omega), this]

/-! ## Saving and loading -/

/-- An extension: name and contents. -/
structure Hdu (α : Type) where
  name : String
  data : α

/-- A file: the data and the extensions after it. -/
structure File (α : Type) where
  data : α
  rest : List (Hdu α)

/-- An image: data, error, flags, further extensions and the list of names. -/
structure Img (α : Type) where
  data : α
  err : α
  dq : α
  extra : List (Hdu α)
  names : List String

/-- `hdulist.pop(name)`: the first extension of the name. -/
def pop {α : Type} (nm : String) : List (Hdu α) → Option (α × List (Hdu α))
  | [] => none
  | x :: xs => if x.name = nm then some (x.data, xs) else
    match pop nm xs with
    | none => none
    | some (a, r) => some (a, x :: r)

/-- Loading a file (data.py 279-327). `zeroErr` and `zeroDq` make the defaults; `err` and `dq` are the arguments of the
constructor. -/
def load {α : Type} (zeroErr zeroDq : α → α) (err dq : Option α) (f : File α) : Img α :=
  let names := f.rest.map Hdu.name
  let (e, r1) := match err with
    | some e => (e, f.rest)
    | none => match pop "ERR" f.rest with
      | some (e, r) => (e, r)
      | none => (zeroErr f.data, f.rest)
  let (q, r2) := match dq with
    | some q => (q, r1)
    | none => match pop "DQ" r1 with
      | some (q, r) => (q, r)
      | none => (zeroDq f.data, r1)
  { data := f.data, err := e, dq := q, extra := r2, names := names }

/-- `Image.save` (data.py 452-465). -/
def save {α : Type} (i : Img α) : File α :=
  { data := i.data, rest := ⟨"ERR", i.err⟩ :: ⟨"DQ", i.dq⟩ :: i.extra }

/-- `KGain.save` (data.py 929-939): error and photon transfer curve, no flags and no further extensions. -/
def saveKGain {α : Type} (i : Img α) (ptc : α) : File α :=
  { data := i.data, rest := [⟨"ERR", i.err⟩, ⟨"PTC", ptc⟩] }

/-- `add_extension_hdu` (data.py 611-617); `upper` is what the FITS library makes of a name. -/
def addExtension {α : Type} (upper : String → String) (i : Img α) (nm : String) (x : α) : Except Error (Img α) :=
  if nm ∈ i.names then .error .valueError
  else .ok { i with names := i.names ++ [nm], extra := i.extra ++ [⟨upper nm, x⟩] }

/-- **C129** Loading a saved image gives its data, error, flags and extensions, whatever the extensions are
called. -/
theorem C129_roundtrip {α : Type} (zeroErr zeroDq : α → α) (i : Img α) :
    load zeroErr zeroDq none none (save i) =
      { i with names := "ERR" :: "DQ" :: i.extra.map Hdu.name } := by
  simp [load, save, pop]

/-- **C129** Saving and loading again changes nothing. -/
theorem C129_roundtrip_again {α : Type} (zeroErr zeroDq : α → α) (i : Img α) :
    save (load zeroErr zeroDq none none (save i)) = save i := by
  rw [C129_roundtrip]
  rfl

/-- **C129** A k-gain file gives back data, error and curve; the flags are the default ones. -/
theorem C129_kgain {α : Type} (zeroErr zeroDq : α → α) (i : Img α) (ptc : α) :
    let r := load zeroErr zeroDq none none (saveKGain i ptc)
    r.data = i.data ∧ r.err = i.err ∧ r.extra = [⟨"PTC", ptc⟩] ∧ r.dq = zeroDq i.data := by
  simp [load, saveKGain, pop]

/-- **C129** Violated: errors passed to the constructor supersede those of the file, but the ones of the file
stay among the extensions, so that the saved file has two error extensions. -/
theorem C129_violated_superseded {α : Type} (zeroErr zeroDq : α → α) (i : Img α) (e : α) :
    let r := load zeroErr zeroDq (some e) none (save i)
    r.err = e ∧ r.extra = ⟨"ERR", i.err⟩ :: i.extra ∧
      (save r).rest = ⟨"ERR", e⟩ :: ⟨"DQ", i.dq⟩ :: ⟨"ERR", i.err⟩ :: i.extra := by
  simp [load, save, pop]

/-- Spec: the names of the image are those of its extensions. -/
def NamesKept {α : Type} (i : Img α) : Prop := i.names = "ERR" :: "DQ" :: i.extra.map Hdu.name

/-- **C129** Adding an extension with a new name in capitals keeps the list of names, and the saved file has no
name twice if it had none. -/
theorem C129_extension {α : Type} {upper : String → String} {i r : Img α} {nm : String} {x : α} (hu : upper nm = nm)
    (hk : NamesKept i) (hn : i.names.Nodup) (h : addExtension upper i nm x = .ok r) :
    NamesKept r ∧ r.names.Nodup ∧ (save r).rest.map Hdu.name = r.names := by
  unfold addExtension at h
  split_ifs at h with h1
  have h := Except.ok.inj h
  subst h
  have h2 : NamesKept { i with names := i.names ++ [nm], extra := i.extra ++ [⟨upper nm, x⟩] } := by
    unfold NamesKept at *
    simp [hk, hu]
  refine ⟨h2, ?_, ?_⟩
  · exact List.nodup_append.mpr ⟨hn, by simp, by
      intro a ha b hb
      rw [List.mem_singleton] at hb
      subst hb
      rintro rfl
      exact h1 ha⟩
  · unfold NamesKept at h2
    rw [h2]
    rfl

/-- **C129** An extension whose name is there already is refused. -/
theorem C129_extension_refused {α : Type} (upper : String → String) (i : Img α) (nm : String) (x : α) :
    addExtension upper i nm x = .error .valueError ↔ nm ∈ i.names := by
  unfold addExtension
  split_ifs with h
  · simp [h]
  · simp [h]

/-- **C129** Violated: a name that differs only in case is not recognised: the file has the extension
twice. -/
theorem C129_violated_case {α : Type} (upper : String → String) (i : Img α) (nm : String) (x : α)
    (h : nm ∉ i.names) (hu : upper nm ∈ i.extra.map Hdu.name) :
    ∃ r, addExtension upper i nm x = .ok r ∧ 2 ≤ ((save r).rest.map Hdu.name).count (upper nm) := by
  refine ⟨{ i with names := i.names ++ [nm], extra := i.extra ++ [⟨upper nm, x⟩] }, ?_, ?_⟩
  · unfold addExtension
    rw [if_neg h]
  · have h1 : 1 ≤ (i.extra.map Hdu.name).count (upper nm) := List.one_le_count_iff.mpr hu
    have h2 : (save { i with names := i.names ++ [nm], extra := i.extra ++ [⟨upper nm, x⟩] }).rest.map Hdu.name =
        ["ERR", "DQ"] ++ (i.extra.map Hdu.name ++ [upper nm]) := by
      simp [save]
    rw [h2, List.count_append, List.count_append, List.count_singleton_self]
    omega

/-! ## Paths -/

/-- `s.split('/')` -/
def split : List Char → List (List Char)
  | [] => [[]]
  | c :: cs => if c = '/' then [] :: split cs else
    match split cs with
    | [] => [[c]]
    | w :: ws => (c :: w) :: ws

/-- `'/'.join(ws)` -/
def joinSep : List (List Char) → List Char
  | [] => []
  | [w] => w
  | w :: v :: ws => w ++ '/' :: joinSep (v :: ws)

/-- The directory and the name of a file path (data.py 331-338). -/
def parse (p : List Char) : List Char × List Char :=
  let a := split p
  if a.length = 1 then (['.'], a.headD []) else (joinSep a.dropLast, a.getLastD [])

/-- `os.path.join(d, f)` -/
def joinPath (d f : List Char) : List Char :=
  if f.head? = some '/' then f
  else if d = [] ∨ d.getLast? = some '/' then d ++ f
  else d ++ '/' :: f

/-- `Image.filepath` after loading (data.py 432-433). -/
def filepath (p : List Char) : List Char := joinPath (parse p).1 (parse p).2

theorem split_ne (p : List Char) : split p ≠ [] := by
  induction p with
  | nil => simp [split]
  | cons c cs ih =>
    rw [split]
    split_ifs
    · simp
    · cases split cs <;> simp

theorem split_name : ∀ f : List Char, '/' ∉ f → split f = [f]
  | [], _ => rfl
  | c :: cs, h => by
    rw [List.mem_cons, not_or] at h
    rw [split, if_neg (fun e => h.1 e.symm), split_name cs h.2]

theorem split_append (f : List Char) : ∀ d : List Char, split (d ++ '/' :: f) = split d ++ split f
  | [] => by simp [split]
  | c :: cs => by
    rw [List.cons_append, split, split, split_append f cs]
    split_ifs
    · rfl
    · cases h : split cs with
      | nil => exact absurd h (split_ne cs)
      | cons w ws => rfl

theorem joinSep_split : ∀ d : List Char, joinSep (split d) = d
  | [] => rfl
  | c :: cs => by
    have ih := joinSep_split cs
    rw [split]
    cases h : split cs with
    | nil => exact absurd h (split_ne cs)
    | cons w ws =>
      rw [h] at ih
      split_ifs with hc
      · rw [joinSep, ih, hc]; rfl
      · cases ws with
        | nil => simp only [joinSep] at ih ⊢; rw [ih]
        | cons v vs => simp only [joinSep] at ih ⊢; rw [List.cons_append, ih]

/-- **C129** A path with a directory is taken apart into the directory and the name. -/
theorem C129_path (d : List Char) {f : List Char} (hf : '/' ∉ f) : parse (d ++ '/' :: f) = (d, f) := by
  have h : split (d ++ '/' :: f) = split d ++ [f] := by rw [split_append, split_name f hf]
  have hl : (split d ++ [f]).length ≠ 1 := by
    have : (split d).length ≠ 0 := by simpa using split_ne d
    simp only [List.length_append, List.length_cons, List.length_nil]
    omega
  unfold parse
  simp only [h]
  rw [if_neg hl, List.dropLast_concat, joinSep_split]
  simp

/-- **C129** A bare name is looked for in the current directory. -/
theorem C129_path_bare {f : List Char} (hf : '/' ∉ f) : parse f = (['.'], f) := by
  unfold parse
  simp only [split_name f hf]
  rfl

/-- **C129** The path of a loaded image is that of the file, for files in a directory that is not the root. -/
theorem C129_filepath_partial {d f : List Char} (hf : '/' ∉ f) (hd : d ≠ []) (hl : d.getLast? ≠ some '/') :
    filepath (d ++ '/' :: f) = d ++ '/' :: f := by
  unfold filepath
  rw [C129_path d hf]
  unfold joinPath
  dsimp only
  rw [if_neg, if_neg (by simp [hd, hl])]
  intro h
  exact hf (List.mem_of_head? h)

/-- **C129** Violated: a file in the root directory gets a relative path. -/
theorem C129_violated_root {f : List Char} (hf : '/' ∉ f) : filepath ('/' :: f) = f := by
  have h := C129_path [] hf
  rw [List.nil_append] at h
  unfold filepath
  rw [h]
  unfold joinPath
  dsimp only
  rw [if_neg (fun h => hf (List.mem_of_head? h)), if_pos (Or.inl rfl)]
  rfl

/-! ## Examples -/

example : errShape [4, 5] (some [4, 5]) = .ok [1, 4, 5] := by decide
example : errShape [4, 5] (some [3, 4, 5]) = .ok [3, 4, 5] := by decide
example : errShape [4, 5] (some [2, 3, 4, 5]) = .ok [1, 2, 3, 4, 5] := by decide
example : errShape [4, 5] (some [5, 4]) = .error .valueError := by decide
example : (discard false (⟨[1, 2, 3], fun _ => none⟩ : Errs ℕ)).map Errs.layers = .error .keyError := by decide
example : Named (⟨[1], fun _ => none⟩ : Errs ℕ) := by intro i hi; simp; omega
example : (discard false (addTerm true (· + ·) ⟨[1], fun _ => none⟩ 5 "noise" : Errs ℕ)).map Errs.layers =
    .ok [6] := by decide
example : filepath "a/b.fits".toList = "a/b.fits".toList := by decide +kernel
example : filepath "/b.fits".toList = "b.fits".toList := by decide +kernel

end Corgi.Image

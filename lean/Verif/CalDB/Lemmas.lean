import Verif.CalDB.Spec
import Mathlib.Data.List.Nodup

namespace Corgi.CalDB

theorem naxes_eq_ok {shape : List ℕ} {a b : ℕ} :
    naxes shape = .ok (a, b) ↔ (shape = [a] ∧ b = 0) ∨ ∃ front, shape = front ++ [b, a] := by
  unfold naxes
  rcases h : shape.reverse with _ | ⟨x, _ | ⟨y, l⟩⟩
  · have : shape = [] := by simpa using h
    subst this; simp
  · have : shape = [x] := by simpa using congrArg List.reverse h
    subst this
    constructor
    · intro h; simp at h; simp [h]
    · rintro (⟨h, rfl⟩ | ⟨f, h⟩)
      · simpa using h
      · have := congrArg List.length h; simp at this
  · have : shape = l.reverse ++ [y, x] := by simpa using congrArg List.reverse h
    subst this
    constructor
    · intro h; simp at h; right; exact ⟨l.reverse, by simp [h]⟩
    · rintro (⟨h, rfl⟩ | ⟨f, h⟩)
      · have := congrArg List.length h; simp at this
      · have := List.append_inj_right' h (by simp)
        simp at this; simp [this]

theorem typeName_iff {c : Cls} {t : String} : TypeName c t ↔ label c = some t := by
  constructor
  · intro h; cases h <;> rfl
  · intro h; cases c <;> simp [label] at h <;> subst h <;> constructor

theorem values_ok_iff {e : Entry} {r : Row} : valuesFromEntry e true = .ok r ↔ Describes r e := by
  obtain ⟨cls, p, sct, ext, nf, ct, ver, obs, hsh, shape, opm, emg, exc⟩ := e
  constructor
  · intro h
    cases hl : label cls with
    | none => simp [valuesFromEntry, need, hl, bind, Except.bind] at h
    | some t =>
    cases sct with
    | none => simp [valuesFromEntry, need, hl, bind, Except.bind] at h
    | some sct =>
    cases ext with
    | none => simp [valuesFromEntry, need, hl, bind, Except.bind] at h
    | some ext =>
    cases obs with
    | none => simp [valuesFromEntry, need, hl, bind, Except.bind] at h
    | some obs =>
    cases hn : naxes shape with
    | error x => simp [valuesFromEntry, need, hl, hn, bind, Except.bind] at h
    | ok nn =>
    cases opm with
    | none => simp [valuesFromEntry, need, hl, hn, bind, Except.bind] at h
    | some opm =>
    cases emg with
    | none => simp [valuesFromEntry, need, hl, hn, bind, Except.bind] at h
    | some emg =>
    cases exc with
    | none => simp [valuesFromEntry, need, hl, hn, bind, Except.bind] at h
    | some exc =>
    simp [valuesFromEntry, need, hl, hn, bind, Except.bind, pure, Except.pure] at h
    subst h
    have hn' := (naxes_eq_ok (a := nn.1) (b := nn.2)).1 hn
    refine ⟨rfl, ⟨t, rfl, typeName_iff.2 hl⟩, rfl, rfl, ?_, ?_, rfl, ?_, rfl, hn', by simp, rfl, rfl⟩
    · cases nf <;> simp
    · cases ct <;> simp
    · cases ver <;> simp
  · rintro ⟨h1, ⟨t, h2, h2'⟩, h3, h4, h5, h6, h7, h8, h9, h10, ⟨h11, h11'⟩, h12, h13⟩
    obtain ⟨rp, rt, rm, re, rf, rd, rh, rv, ro, r1, r2, rop, rem, rex⟩ := r
    simp only at h1 h2 h3 h4 h5 h6 h7 h8 h9 h10 h11 h11' h12 h13
    subst h1 h2 h3 h4 h7 h9 h11' h12 h13
    obtain ⟨op, rfl⟩ := Option.ne_none_iff_exists'.1 h11
    have hn := naxes_eq_ok.2 h10
    have hl := typeName_iff.1 h2'
    have hf : nf.getD 0 = rf := by rcases h5 with rfl | ⟨rfl, rfl⟩ <;> rfl
    have hc : ct.getD (-1) = rd := by rcases h6 with rfl | ⟨rfl, rfl⟩ <;> rfl
    have hv : some (ver.getD "") = rv := by
      rcases h8 with ⟨rfl, rfl⟩ | ⟨h, rfl⟩
      · rfl
      · cases rv <;> simp at h ⊢
    simp [valuesFromEntry, need, hl, hn, bind, Except.bind, pure, Except.pure, hf, hc, hv]

theorem values_error_iff {e : Entry} :
    (∃ x, valuesFromEntry e true = .error x) ↔ ¬ ∃ r, Describes r e := by
  constructor
  · rintro ⟨x, hx⟩ ⟨r, hr⟩
    rw [values_ok_iff.2 hr] at hx; cases hx
  · intro h
    cases hv : valuesFromEntry e true with
    | error x => exact ⟨x, rfl⟩
    | ok r => exact absurd ⟨r, values_ok_iff.1 hv⟩ h

/-! ### Reloading -/

theorem reloadStr_abs {p : String} (h : AbsPath p) : reloadStr (some p) = some p := by
  unfold reloadStr
  have : p ∉ naStrings := by
    intro hm
    simp only [naStrings, List.mem_cons, List.not_mem_nil, or_false] at hm
    unfold AbsPath at h
    rcases hm with h' | h' | h' | h' | h' | h' | h' | h' | h' | h' | h' | h' | h' | h' | h' | h' |
      h' | h' | h' <;> subst h' <;> simp at h
  simp [this]

theorem reloadStr_some {c : Option String} {s : String} (h : reloadStr c = some s) : c = some s := by
  cases c with
  | none => simp [reloadStr] at h
  | some t =>
    simp only [reloadStr] at h
    split at h <;> simp at h; simp [h]

@[simp] theorem reloadStr_idem (c : Option String) : reloadStr (reloadStr c) = reloadStr c := by
  cases c with
  | none => rfl
  | some t =>
    by_cases h : t ∈ naStrings <;> simp [reloadStr, h]

@[simp] theorem reloadRow_idem (r : Row) : reloadRow (reloadRow r) = reloadRow r := by
  simp [reloadRow]

@[simp] theorem load_load (db : Table) : load (load db) = load db := by
  simp [load]

theorem reloadRow_path_abs {r : Row} {p : String} (h : r.path = some p) (hp : AbsPath p) :
    (reloadRow r).path = some p := by
  simp only [reloadRow, h]; exact reloadStr_abs hp

theorem reloadRow_path_iff {r : Row} (hr : ∃ p, r.path = some p ∧ AbsPath p) (q : String) :
    (reloadRow r).path = some q ↔ r.path = some q := by
  obtain ⟨p, hp, ha⟩ := hr
  rw [reloadRow_path_abs hp ha, hp]

theorem plain_reload {r : Row} (h : PlainRow r) : PlainRow (reloadRow r) := by
  intro c hc s hs
  simp only [reloadRow, List.mem_cons, List.not_mem_nil, or_false] at hc
  rcases hc with rfl | rfl | rfl | rfl
  · exact h _ (by simp) s (reloadStr_some hs)
  · exact h _ (by simp) s (reloadStr_some hs)
  · exact h _ (by simp) s (reloadStr_some hs)
  · exact h _ (by simp) s (reloadStr_some hs)

theorem absRows_load {db : Table} (h : AbsRows db) : AbsRows (load db) := by
  intro r hr
  obtain ⟨r0, hr0, rfl⟩ := List.mem_map.1 hr
  obtain ⟨p, hp, ha⟩ := h r0 hr0
  exact ⟨p, reloadRow_path_abs hp ha, ha⟩

theorem map_path_load {db : Table} (h : AbsRows db) : (load db).map Row.path = db.map Row.path := by
  simp only [load, List.map_map]
  apply List.map_congr_left
  intro r hr
  obtain ⟨p, hp, ha⟩ := h r hr
  simp [reloadRow_path_abs hp ha, hp]

theorem noDup_load {db : Table} (h : AbsRows db) (hn : NoDupPaths db) : NoDupPaths (load db) := by
  unfold NoDupPaths; rw [map_path_load h]; exact hn

theorem plainRows_load {db : Table} (h : ∀ r ∈ db, PlainRow r) : ∀ r ∈ load db, PlainRow r := by
  intro r hr
  obtain ⟨r0, hr0, rfl⟩ := List.mem_map.1 hr
  exact plain_reload (h r0 hr0)

theorem rowsOf_load {db : Table} (h : AbsRows db) (p : String) :
    rowsOf (load db) p = (rowsOf db p).map reloadRow := by
  simp only [rowsOf, load, List.filter_map]
  congr 1
  apply List.filter_congr
  intro r hr
  simp [reloadRow_path_iff (h r hr)]

/-! ### Membership -/

theorem inValues_of_path {db : Table} {p : String} {r : Row} (hr : r ∈ db) (hp : r.path = some p) :
    inValues p db = true := by
  simp only [inValues, List.any_eq_true]
  exact ⟨r, hr, by simp [hp]⟩

theorem inValues_plain {db : Table} {p : String} (hp : AbsPath p) (h : ∀ r ∈ db, PlainRow r) :
    inValues p db = true ↔ ∃ r ∈ db, r.path = some p := by
  constructor
  · intro hv
    simp only [inValues, List.any_eq_true, Bool.or_eq_true, beq_iff_eq] at hv
    obtain ⟨r, hr, hv⟩ := hv
    refine ⟨r, hr, ?_⟩
    rcases hv with (((hv | hv) | hv) | hv) | hv
    · exact hv
    · exact absurd hp (h r hr _ (by simp) p hv)
    · exact absurd hp (h r hr _ (by simp) p hv)
    · exact absurd hp (h r hr _ (by simp) p hv)
    · exact absurd hp (h r hr _ (by simp) p hv)
  · rintro ⟨r, hr, hv⟩; exact inValues_of_path hr hv

/-! ### Upsert -/

theorem mem_upsert {db : Table} {p : String} {new r : Row} (h : r ∈ upsert db p new) :
    r = new ∨ r ∈ db := by
  unfold upsert at h
  split at h
  · obtain ⟨q, hq, rfl⟩ := List.mem_map.1 h
    split
    · exact Or.inl rfl
    · exact Or.inr hq
  · rcases List.mem_append.1 h with h | h
    · exact Or.inr h
    · simp at h; exact Or.inl h

theorem filter_map_update {db : Table} {p : String} {new : Row} (hn : new.path = some p) :
    (db.map fun r => if r.path = some p then new else r).filter (fun r => ¬ r.path = some p) =
      db.filter (fun r => ¬ r.path = some p) := by
  induction db with
  | nil => rfl
  | cons r l ih => by_cases hr : r.path = some p <;> simp_all

theorem others_upsert {db : Table} {p : String} {new : Row} (hn : new.path = some p) :
    others (upsert db p new) p = others db p := by
  unfold upsert others
  split
  · exact filter_map_update hn
  · simp [List.filter_append, hn]

theorem paths_upsert {db : Table} {p : String} {new : Row} (hn : new.path = some p) :
    (upsert db p new).map Row.path =
      if inValues p db then db.map Row.path else db.map Row.path ++ [some p] := by
  unfold upsert
  split
  · simp only [List.map_map]
    apply List.map_congr_left
    intro r _
    by_cases hr : r.path = some p <;> simp [hr, hn]
  · simp [hn]

theorem noDup_upsert {db : Table} {p : String} {new : Row} (hn : new.path = some p)
    (h : NoDupPaths db) : NoDupPaths (upsert db p new) := by
  unfold NoDupPaths
  rw [paths_upsert hn]
  split
  · exact h
  · rename_i hv
    rw [List.nodup_append]
    refine ⟨h, by simp, ?_⟩
    intro a ha b hb
    simp at hb; subst hb
    rintro rfl
    obtain ⟨r, hr, hp⟩ := List.mem_map.1 ha
    exact hv (inValues_of_path hr hp)

theorem rowsOf_length_le {db : Table} (h : NoDupPaths db) (p : String) : (rowsOf db p).length ≤ 1 := by
  unfold NoDupPaths at h
  unfold rowsOf
  induction db with
  | nil => simp
  | cons r l ih =>
    simp only [List.map_cons, List.nodup_cons] at h
    by_cases hr : r.path = some p
    · have : l.filter (fun r => decide (r.path = some p)) = [] := by
        rw [List.filter_eq_nil_iff]
        intro q hq hqp
        simp at hqp
        exact h.1 (List.mem_map.2 ⟨q, hq, by rw [hqp, hr]⟩)
      simp [hr, this]
    · simp only [List.filter_cons, hr, decide_false]
      exact ih h.2

theorem mem_upsert_new {db : Table} {p : String} {new : Row}
    (h : inValues p db = true → ∃ r ∈ db, r.path = some p) : new ∈ upsert db p new := by
  unfold upsert
  split
  · rename_i hv
    obtain ⟨r, hr, hp⟩ := h hv
    exact List.mem_map.2 ⟨r, hr, by simp [hp]⟩
  · simp

theorem rowsOf_upsert_self {db : Table} {p : String} {new : Row} (hn : new.path = some p)
    (hd : NoDupPaths db) (h : inValues p db = true → ∃ r ∈ db, r.path = some p) :
    rowsOf (upsert db p new) p = [new] := by
  have hm : new ∈ rowsOf (upsert db p new) p := by
    unfold rowsOf; rw [List.mem_filter]; exact ⟨mem_upsert_new h, by simp [hn]⟩
  have hl := rowsOf_length_le (noDup_upsert (new := new) hn hd) p
  match hr : rowsOf (upsert db p new) p, hm, hl with
  | [a], hm, _ => simp at hm; rw [hm]
  | a :: b :: l, _, hl => simp at hl

theorem rowsOf_of_others {db db' : Table} {p q : String} (h : others db' p = others db p)
    (hq : q ≠ p) : rowsOf db' q = rowsOf db q := by
  have key : ∀ d : Table, rowsOf d q = rowsOf (others d p) q := by
    intro d
    unfold rowsOf others
    rw [List.filter_filter]
    apply List.filter_congr
    intro r _
    by_cases hr : r.path = some q <;> simp [hr, hq]
  rw [key db', key db, h]

theorem absRows_upsert {db : Table} {p : String} {new : Row} (hn : new.path = some p)
    (hp : AbsPath p) (h : AbsRows db) : AbsRows (upsert db p new) := by
  intro r hr
  rcases mem_upsert hr with rfl | hr
  · exact ⟨p, hn, hp⟩
  · exact h r hr

theorem label_not_abs {c : Cls} {t : String} (h : label c = some t) : ¬ AbsPath t := by
  cases c <;> simp [label] at h <;> subst h <;> decide

theorem describes_plain {r : Row} {e : Entry} (h : Describes r e) (he : PlainEntry e) :
    PlainRow r := by
  intro c hc s hs
  simp only [List.mem_cons, List.not_mem_nil, or_false] at hc
  rcases hc with rfl | rfl | rfl | rfl
  · obtain ⟨t, ht, hn⟩ := h.type
    rw [ht] at hs; cases hs
    exact label_not_abs (typeName_iff.1 hn)
  · rw [h.hash] at hs; cases hs; exact he.hash
  · rcases h.version with ⟨_, hv⟩ | ⟨_, hv⟩
    · rw [hv] at hs; cases hs; decide
    · exact he.version s (by rw [← hv]; exact hs)
  · exact he.opmode s (by rw [← h.opmode.2]; exact hs)

/-! ### Maps -/

theorem toMap_eq_head (db : Table) (p : String) : toMap db p = (rowsOf db p).head? := by
  unfold toMap rowsOf
  rw [List.head?_filter]

/-- The invariant of a store used by a plain client. -/
structure Plain (db : Table) : Prop where
  abs : AbsRows db
  nodup : NoDupPaths db
  plain : ∀ r ∈ db, PlainRow r

theorem Plain.load {db : Table} (h : Plain db) : Plain (load db) :=
  ⟨absRows_load h.abs, noDup_load h.abs h.nodup, plainRows_load h.plain⟩

theorem Plain.upsert {db : Table} (h : Plain db) {e : Entry} {r : Row} (hd : Describes r e)
    (he : PlainEntry e) : Plain (upsert db e.absPath r) :=
  ⟨absRows_upsert hd.path he.path h.abs, noDup_upsert hd.path h.nodup, by
    intro q hq
    rcases mem_upsert hq with rfl | hq
    · exact describes_plain hd he
    · exact h.plain q hq⟩

theorem Plain.filter {db : Table} (h : Plain db) (f : Row → Bool) : Plain (db.filter f) :=
  ⟨fun r hr => h.abs r (List.mem_filter.1 hr).1,
   by
    unfold NoDupPaths
    exact h.nodup.sublist ((List.filter_sublist).map _),
   fun r hr => h.plain r (List.mem_filter.1 hr).1⟩

end Corgi.CalDB

namespace Corgi.CalDB

/-! ### Selection -/

theorem isFirstMin_split {L : List Row} {f : Row → ℚ} {i : ℕ} {r : Row} :
    (IsFirstMin (L.map f) i ∧ L[i]? = some r) ↔
      ∃ A B, L = A ++ r :: B ∧ A.length = i ∧ (∀ a ∈ A, f r < f a) ∧ ∀ b ∈ B, f r ≤ f b := by
  constructor
  · rintro ⟨⟨m, hm, hle, hlt⟩, hr⟩
    have hi : i < L.length := (List.getElem?_eq_some_iff.1 hr).1
    have hri : L[i] = r := (List.getElem?_eq_some_iff.1 hr).2
    have hmr : f r = m := by simpa [List.getElem?_map, hr] using hm
    refine ⟨L.take i, L.drop (i + 1), ?_, by simp [Nat.le_of_lt hi], ?_, ?_⟩
    · rw [← hri, ← List.drop_eq_getElem_cons hi, List.take_append_drop]
    · intro a ha
      obtain ⟨j, hj, hja⟩ := List.mem_take_iff_getElem.1 ha
      have hj1 : j < i := by omega
      rw [hmr]
      refine hlt j (f a) hj1 ?_
      rw [List.getElem?_map, List.getElem?_eq_getElem (by omega)]
      simp [hja]
    · intro b hb
      rw [hmr]
      exact hle _ (List.mem_map.2 ⟨b, List.mem_of_mem_drop hb, rfl⟩)
  · rintro ⟨A, B, rfl, rfl, hA, hB⟩
    refine ⟨⟨f r, by simp, ?_, ?_⟩, by simp⟩
    · intro y hy
      obtain ⟨q, hq, rfl⟩ := List.mem_map.1 hy
      rcases List.mem_append.1 hq with hq | hq
      · exact le_of_lt (hA q hq)
      · rcases List.mem_cons.1 hq with rfl | hq
        · exact le_refl _
        · exact hB q hq
    · intro j y hj hy
      rw [List.getElem?_map, List.getElem?_append_left hj, List.getElem?_eq_getElem hj] at hy
      simp at hy; rw [← hy]; exact hA _ (List.getElem_mem hj)

theorem isFirstMax_split {L : List Row} {f : Row → ℚ} {i : ℕ} {r : Row} :
    (IsFirstMax (L.map f) i ∧ L[i]? = some r) ↔
      ∃ A B, L = A ++ r :: B ∧ A.length = i ∧ (∀ a ∈ A, f a < f r) ∧ ∀ b ∈ B, f b ≤ f r := by
  constructor
  · rintro ⟨⟨m, hm, hle, hlt⟩, hr⟩
    have hi : i < L.length := (List.getElem?_eq_some_iff.1 hr).1
    have hri : L[i] = r := (List.getElem?_eq_some_iff.1 hr).2
    have hmr : f r = m := by simpa [List.getElem?_map, hr] using hm
    refine ⟨L.take i, L.drop (i + 1), ?_, by simp [Nat.le_of_lt hi], ?_, ?_⟩
    · rw [← hri, ← List.drop_eq_getElem_cons hi, List.take_append_drop]
    · intro a ha
      obtain ⟨j, hj, hja⟩ := List.mem_take_iff_getElem.1 ha
      have hj1 : j < i := by omega
      rw [hmr]
      refine hlt j (f a) hj1 ?_
      rw [List.getElem?_map, List.getElem?_eq_getElem (by omega)]
      simp [hja]
    · intro b hb
      rw [hmr]
      exact hle _ (List.mem_map.2 ⟨b, List.mem_of_mem_drop hb, rfl⟩)
  · rintro ⟨A, B, rfl, rfl, hA, hB⟩
    refine ⟨⟨f r, by simp, ?_, ?_⟩, by simp⟩
    · intro y hy
      obtain ⟨q, hq, rfl⟩ := List.mem_map.1 hy
      rcases List.mem_append.1 hq with hq | hq
      · exact le_of_lt (hA q hq)
      · rcases List.mem_cons.1 hq with rfl | hq
        · exact le_refl _
        · exact hB q hq
    · intro j y hj hy
      rw [List.getElem?_map, List.getElem?_append_left hj, List.getElem?_eq_getElem hj] at hy
      simp at hy; rw [← hy]; exact hA _ (List.getElem_mem hj)

theorem filter_split {db : Table} {P : Row → Bool} {A B : List Row} {r : Row}
    (h : db.filter P = A ++ r :: B) :
    ∃ pre post, db = pre ++ r :: post ∧ P r = true ∧ pre.filter P = A ∧ post.filter P = B := by
  obtain ⟨l1, l2, rfl, h1, h2⟩ := List.filter_eq_append_iff.1 h
  obtain ⟨m1, m2, rfl, h3, h4, h5⟩ := List.filter_eq_cons_iff.1 h2
  refine ⟨l1 ++ m1, m2, by simp, h4, ?_, h5⟩
  rw [List.filter_append, h1, List.filter_eq_nil_iff.2 h3, List.append_nil]

theorem argmin_pick_iff {db : Table} {P : Row → Bool} {f : Row → ℚ} {r : Row} :
    ((argmin ((db.filter P).map f)).bind fun i => (db.filter P)[i]?) = some r ↔
      FirstBest db (fun q => P q = true) (fun a b => f a < f b) r := by
  constructor
  · intro h
    obtain ⟨i, hi, hr⟩ := Option.bind_eq_some_iff.1 h
    obtain ⟨A, B, hL, _, hA, hB⟩ := isFirstMin_split.1 ⟨argmin_isFirstMin hi, hr⟩
    obtain ⟨pre, post, hdb, hp, rfl, rfl⟩ := filter_split hL
    exact ⟨pre, post, hdb, hp, fun q hq hP => hA q (List.mem_filter.2 ⟨hq, hP⟩),
      fun q hq hP => not_lt.2 (hB q (List.mem_filter.2 ⟨hq, hP⟩))⟩
  · rintro ⟨pre, post, rfl, hp, h1, h2⟩
    obtain ⟨hm, hr⟩ := (isFirstMin_split (L := (pre ++ r :: post).filter P) (f := f) (r := r)
      (i := (pre.filter P).length)).2
      ⟨pre.filter P, post.filter P, by simp [List.filter_append, hp], rfl,
        fun a ha => h1 a (List.mem_filter.1 ha).1 (List.mem_filter.1 ha).2,
        fun b hb => not_lt.1 (h2 b (List.mem_filter.1 hb).1 (List.mem_filter.1 hb).2)⟩
    rw [argmin_eq_some_iff.2 hm]; exact hr

theorem argmax_pick_iff {db : Table} {P : Row → Bool} {f : Row → ℚ} {r : Row} :
    ((argmax ((db.filter P).map f)).bind fun i => (db.filter P)[i]?) = some r ↔
      FirstBest db (fun q => P q = true) (fun a b => f b < f a) r := by
  constructor
  · intro h
    obtain ⟨i, hi, hr⟩ := Option.bind_eq_some_iff.1 h
    obtain ⟨A, B, hL, _, hA, hB⟩ := isFirstMax_split.1 ⟨argmax_isFirstMax hi, hr⟩
    obtain ⟨pre, post, hdb, hp, rfl, rfl⟩ := filter_split hL
    exact ⟨pre, post, hdb, hp, fun q hq hP => hA q (List.mem_filter.2 ⟨hq, hP⟩),
      fun q hq hP => not_lt.2 (hB q (List.mem_filter.2 ⟨hq, hP⟩))⟩
  · rintro ⟨pre, post, rfl, hp, h1, h2⟩
    obtain ⟨hm, hr⟩ := (isFirstMax_split (L := (pre ++ r :: post).filter P) (f := f) (r := r)
      (i := (pre.filter P).length)).2
      ⟨pre.filter P, post.filter P, by simp [List.filter_append, hp], rfl,
        fun a ha => h1 a (List.mem_filter.1 ha).1 (List.mem_filter.1 ha).2,
        fun b hb => not_lt.1 (h2 b (List.mem_filter.1 hb).1 (List.mem_filter.1 hb).2)⟩
    rw [argmax_eq_some_iff.2 hm]; exact hr

theorem argmin_pick_none {L : List Row} {f : Row → ℚ} :
    ((argmin (L.map f)).bind fun i => L[i]?) = none ↔ L = [] := by
  constructor
  · intro h
    by_contra hne
    obtain ⟨k, hk⟩ := argmin_exists (xs := L.map f) (by simpa using hne)
    obtain ⟨m, hm, _⟩ := argmin_isFirstMin hk
    rw [hk] at h
    simp only [Option.bind_some] at h
    simp [List.getElem?_map, h] at hm
  · rintro rfl; rfl

theorem argmax_pick_none {L : List Row} {f : Row → ℚ} :
    ((argmax (L.map f)).bind fun i => L[i]?) = none ↔ L = [] := by
  constructor
  · intro h
    by_contra hne
    obtain ⟨k, hk⟩ := argmax_exists (xs := L.map f) (by simpa using hne)
    obtain ⟨m, hm, _⟩ := argmax_isFirstMax hk
    rw [hk] at h
    simp only [Option.bind_some] at h
    simp [List.getElem?_map, h] at hm
  · rintro rfl; rfl

end Corgi.CalDB

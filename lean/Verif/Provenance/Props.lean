import Mathlib.Data.List.Perm.Subperm
import Verif.Provenance.Model

/-!
# C18: provenance
-/

namespace Corgi.Prov

/-- What a set's iteration guarantees: each element once, nothing else. -/
def SetOrder (order : List String → List String) : Prop :=
  ∀ l, (order l).Nodup ∧ ∀ x, x ∈ order l ↔ x ∈ l

/-- The ancestors a header records. -/
def Recorded (h : Hdr) (x : String) : Prop :=
  ∃ n, h.nfile = some n ∧ ∃ j, j < n ∧ h.file j = some x

/-- The header's own list is complete: all of `FILE0` .. `FILE{DRPNFILE-1}` are there. -/
def Complete (h : Hdr) : Prop := ∀ n, h.nfile = some n → ∀ j < n, (h.file j).isSome

/-- The header's own list has no repetition. -/
def Distinct (h : Hdr) : Prop :=
  ∀ n, h.nfile = some n → ∀ i < n, ∀ j < n, h.file i = h.file j → i = j

/-- No `FILEi` beyond the list. -/
def Tight (h : Hdr) : Prop := ∀ j, (∀ n, h.nfile = some n → n ≤ j) → h.file j = none

theorem get_ok (h : Hdr) (j : ℕ) (f : String) : h.get j = .ok f ↔ h.file j = some f := by
  unfold Hdr.get
  cases h.file j <;> simp

theorem names_ok {i : Img} {ns : List String} (h : names i = .ok ns) :
    (∀ x, x ∈ ns ↔ x = i.filename ∨ Recorded i.hdr x) := by
  unfold names at h
  cases hn : i.hdr.nfile with
  | none =>
    rw [hn] at h
    simp only [Except.ok.injEq] at h
    subst h
    intro x
    simp [Recorded, hn]
  | some n =>
    rw [hn] at h
    simp only at h
    cases hm : (List.range n).mapM i.hdr.get with
    | error e => rw [hm] at h; cases h
    | ok fs =>
      rw [hm] at h
      simp only [bind, Except.bind, pure, Except.pure, Except.ok.injEq] at h
      subst h
      have hf := (mapM_ok_iff).1 hm
      simp only [get_ok] at hf
      intro x
      simp only [List.mem_cons]
      refine or_congr Iff.rfl ?_
      constructor
      · intro hx
        obtain ⟨k, hk, rfl⟩ := List.getElem_of_mem hx
        have hl := hf.length_eq
        have := hf.get (i := k) (by rw [hl]; exact hk) hk
        simp only [List.get_eq_getElem, List.getElem_range] at this
        exact ⟨n, hn, k, by rw [List.length_range] at hl; omega, this⟩
      · rintro ⟨m, hm', j, hj, he⟩
        rw [hn] at hm'
        cases hm'
        have hl := hf.length_eq
        have hj1 : j < (List.range n).length := by simpa using hj
        have := hf.get hj1 (hl ▸ hj1)
        simp only [List.get_eq_getElem, List.getElem_range] at this
        rw [he] at this
        rw [Option.some.inj this]
        exact List.getElem_mem _

theorem names_ok_iff (i : Img) : (∃ ns, names i = .ok ns) ↔ Complete i.hdr := by
  unfold names Complete
  cases hn : i.hdr.nfile with
  | none => simp
  | some n =>
    simp only [Option.some.injEq, forall_eq']
    constructor
    · rintro ⟨ns, h⟩ j hj
      cases hm : (List.range n).mapM i.hdr.get with
      | error e => rw [hm] at h; cases h
      | ok fs =>
        have hf := (mapM_ok_iff).1 hm
        have hj1 : j < (List.range n).length := by simpa using hj
        have := hf.get hj1 (hf.length_eq ▸ hj1)
        simp only [List.get_eq_getElem, List.getElem_range] at this
        rw [get_ok] at this
        rw [this]; rfl
    · intro h
      have : (List.range n).mapM i.hdr.get = .ok ((List.range n).map fun j => (i.hdr.file j).getD "") := by
        apply (mapM_ok_iff).2
        rw [List.forall₂_map_right_iff, List.forall₂_same]
        intro j hj
        have := h j (by simpa using hj)
        obtain ⟨f, hf⟩ := Option.isSome_iff_exists.1 this
        rw [get_ok, hf]; rfl
      rw [this]
      exact ⟨_, rfl⟩

/-- **C18** Recording succeeds exactly when every input's own record is complete (a `KeyError` otherwise). -/
theorem C18_succeeds_iff (order : List String → List String) (h : Hdr) (inputs : List Img) :
    (∃ r, record order h inputs = .ok r) ↔ ∀ i ∈ inputs, Complete i.hdr := by
  unfold record
  constructor
  · rintro ⟨r, hr⟩ i hi
    cases hm : inputs.mapM names with
    | error e => rw [hm] at hr; cases hr
    | ok nss =>
      have hf := (mapM_ok_iff).1 hm
      obtain ⟨k, hk, rfl⟩ := List.getElem_of_mem hi
      exact (names_ok_iff _).1 ⟨_, hf.get hk (hf.length_eq ▸ hk)⟩
  · intro hc
    cases hm : inputs.mapM names with
    | ok nss => exact ⟨_, rfl⟩
    | error e =>
      obtain ⟨i, hi, he⟩ : ∃ i ∈ inputs, ∃ e, names i = .error e := by
        clear hc
        induction inputs with
        | nil => simp [pure, Except.pure] at hm
        | cons a as ih =>
          rw [List.mapM_cons] at hm
          cases ha : names a with
          | error e' => exact ⟨a, by simp, e', ha⟩
          | ok v =>
            rw [ha] at hm
            simp only [bind, Except.bind] at hm
            cases has : as.mapM names with
            | ok w => rw [has] at hm; cases hm
            | error e'' =>
              rw [has] at hm
              cases e; cases e''
              obtain ⟨i, hi, he⟩ := ih has
              exact ⟨i, by simp [hi], he⟩
      obtain ⟨e', he⟩ := he
      obtain ⟨ns, hns⟩ := (names_ok_iff i).2 (hc i hi)
      rw [hns] at he; cases he

/-- **C18** The recorded files are exactly the inputs' file names and their recorded ancestors, each once,
`DRPNFILE` counts them and all of `FILE0` .. are there — whatever the iteration order of the set. -/
theorem C18_recorded {order : List String → List String} (ho : SetOrder order) {h r : Hdr}
    {inputs : List Img} (hr : record order h inputs = .ok r) :
    (∀ x, Recorded r x ↔ ∃ i ∈ inputs, x = i.filename ∨ Recorded i.hdr x) ∧
    Complete r ∧ Distinct r := by
  unfold record at hr
  cases hm : inputs.mapM names with
  | error e => rw [hm] at hr; cases hr
  | ok nss =>
    rw [hm] at hr
    simp only [bind, Except.bind, pure, Except.pure, Except.ok.injEq] at hr
    have hf := (mapM_ok_iff).1 hm
    obtain ⟨hnd, hmem⟩ := ho nss.flatten
    generalize order nss.flatten = fs at *
    subst hr
    refine ⟨?_, ?_, ?_⟩
    · intro x
      have : Recorded ⟨fun i => if h' : i < fs.length then some fs[i] else h.file i, some fs.length⟩ x ↔
          x ∈ fs := by
        constructor
        · rintro ⟨n, hn, j, hj, he⟩
          simp only [Option.some.injEq] at hn
          subst hn
          simp only [hj, dite_true, Option.some.injEq] at he
          exact he ▸ List.getElem_mem _
        · intro hx
          obtain ⟨j, hj, rfl⟩ := List.getElem_of_mem hx
          exact ⟨_, rfl, j, hj, by simp [hj]⟩
      rw [this, hmem, List.mem_flatten]
      constructor
      · rintro ⟨ns, hns, hx⟩
        obtain ⟨k, hk, rfl⟩ := List.getElem_of_mem hns
        have hk' : k < inputs.length := hf.length_eq ▸ hk
        exact ⟨inputs[k], List.getElem_mem _, (names_ok (hf.get hk' hk) x).1 hx⟩
      · rintro ⟨i, hi, hx⟩
        obtain ⟨k, hk, rfl⟩ := List.getElem_of_mem hi
        have hk' : k < nss.length := hf.length_eq ▸ hk
        exact ⟨nss[k], List.getElem_mem _, (names_ok (hf.get hk hk') x).2 hx⟩
    · intro n hn j hj
      simp only [Option.some.injEq] at hn
      subst hn
      simp [hj]
    · intro n hn i hi j hj he
      simp only [Option.some.injEq] at hn
      subst hn
      simp only [hi, hj, dite_true, Option.some.injEq] at he
      exact (List.Nodup.getElem_inj_iff hnd).1 he

/-- **C18** No left-over `FILEi` when the header comes from one of the inputs, as in `combine_subexposures`
and for the headers of fresh products: if that header's list was distinct and tight, so is the new one. -/
theorem C18_tight {order : List String → List String} (ho : SetOrder order) {r : Hdr}
    {inputs : List Img} {i0 : Img} (hi0 : i0 ∈ inputs) (hd : Distinct i0.hdr) (ht : Tight i0.hdr)
    (hr : record order i0.hdr inputs = .ok r) : Tight r := by
  have hc := (C18_succeeds_iff order i0.hdr inputs).1 ⟨r, hr⟩ i0 hi0
  have hrec := (C18_recorded ho hr).1
  unfold record at hr
  cases hm : inputs.mapM names with
  | error e => rw [hm] at hr; cases hr
  | ok nss =>
    rw [hm] at hr
    simp only [bind, Except.bind, pure, Except.pure, Except.ok.injEq] at hr
    generalize order nss.flatten = fs at *
    subst hr
    intro j hj
    have hj' : ¬ j < fs.length := by have := hj _ rfl; omega
    simp only [hj', dite_false]
    apply ht
    intro n hn
    -- the `n` old ancestors are all in the new list, and distinct
    have hsub : (List.range n).map (fun k => (i0.hdr.file k).getD "") ⊆ fs := by
      intro x hx
      obtain ⟨k, hk, rfl⟩ := List.mem_map.1 hx
      have hk' : k < n := by simpa using hk
      obtain ⟨f, hf⟩ := Option.isSome_iff_exists.1 (hc n hn k hk')
      obtain ⟨n', hn', j', hj'', he⟩ := (hrec f).2 ⟨i0, hi0, Or.inr ⟨n, hn, k, hk', hf⟩⟩
      simp only [Option.some.injEq] at hn'
      subst hn'
      simp only [hj'', dite_true, Option.some.injEq] at he
      rw [hf]
      simpa [he] using (he ▸ List.getElem_mem hj'' : f ∈ fs)
    have hnd : ((List.range n).map (fun k => (i0.hdr.file k).getD "")).Nodup := by
      rw [List.nodup_map_iff_inj_on List.nodup_range]
      intro a ha b hb he
      have ha' : a < n := by simpa using ha
      have hb' : b < n := by simpa using hb
      obtain ⟨fa, hfa⟩ := Option.isSome_iff_exists.1 (hc n hn a ha')
      obtain ⟨fb, hfb⟩ := Option.isSome_iff_exists.1 (hc n hn b hb')
      rw [hfa, hfb] at he
      simp only [Option.getD_some] at he
      exact hd n hn a ha' b hb' (by rw [hfa, hfb, he])
    have := (hnd.subperm hsub).length_le
    simp at this
    omega

/-- **C18** Composition: the record of a product made in two stages names every file of both stages. -/
theorem C18_transitive {order : List String → List String} (ho : SetOrder order) {h1 r1 h2 r2 : Hdr}
    {inputs others : List Img} {name : String} (hr1 : record order h1 inputs = .ok r1)
    (hr2 : record order h2 (⟨name, r1⟩ :: others) = .ok r2) :
    ∀ i ∈ inputs, Recorded r2 i.filename ∧ ∀ x, Recorded i.hdr x → Recorded r2 x := by
  intro i hi
  have h1' := (C18_recorded ho hr1).1
  have h2' := (C18_recorded ho hr2).1
  refine ⟨(h2' _).2 ⟨⟨name, r1⟩, by simp, Or.inr ((h1' _).2 ⟨i, hi, Or.inl rfl⟩)⟩, ?_⟩
  intro x hx
  exact (h2' _).2 ⟨⟨name, r1⟩, by simp, Or.inr ((h1' _).2 ⟨i, hi, Or.inr hx⟩)⟩

/-- The order of inputs and the set order do not matter for what is recorded. -/
theorem C18_order_irrelevant {order order' : List String → List String} (ho : SetOrder order)
    (ho' : SetOrder order') {h h' r r' : Hdr} {inputs inputs' : List Img} (hp : inputs.Perm inputs')
    (hr : record order h inputs = .ok r) (hr' : record order' h' inputs' = .ok r') :
    r.nfile = r'.nfile ∧ ∀ x, Recorded r x ↔ Recorded r' x := by
  have e : ∀ x, Recorded r x ↔ Recorded r' x := by
    intro x
    rw [(C18_recorded ho hr).1, (C18_recorded ho' hr').1]
    exact ⟨fun ⟨i, hi, hx⟩ => ⟨i, hp.mem_iff.1 hi, hx⟩, fun ⟨i, hi, hx⟩ => ⟨i, hp.mem_iff.2 hi, hx⟩⟩
  refine ⟨?_, e⟩
  have size : ∀ (o : List String → List String) (q s : Hdr) (ins : List Img), SetOrder o →
      record o q ins = .ok s → ∃ fs : List String, fs.Nodup ∧ s.nfile = some fs.length ∧
        ∀ x, x ∈ fs ↔ Recorded s x := by
    intro o q s ins ho hs
    unfold record at hs
    cases hm : ins.mapM names with
    | error e => rw [hm] at hs; cases hs
    | ok nss =>
      rw [hm] at hs
      simp only [bind, Except.bind, pure, Except.pure, Except.ok.injEq] at hs
      obtain ⟨hnd, _⟩ := ho nss.flatten
      generalize o nss.flatten = fs at *
      subst hs
      refine ⟨fs, hnd, rfl, ?_⟩
      intro x
      constructor
      · intro hx
        obtain ⟨j, hj, rfl⟩ := List.getElem_of_mem hx
        exact ⟨_, rfl, j, hj, by simp [hj]⟩
      · rintro ⟨n, hn, j, hj, he⟩
        simp only [Option.some.injEq] at hn
        subst hn
        simp only [hj, dite_true, Option.some.injEq] at he
        exact he ▸ List.getElem_mem _
  obtain ⟨fs, n1, l1, m1⟩ := size order h r inputs ho hr
  obtain ⟨fs', n2, l2, m2⟩ := size order' h' r' inputs' ho' hr'
  rw [l1, l2]
  have : fs.Perm fs' := (List.perm_ext_iff_of_nodup n1 n2).2 (fun x => by rw [m1, m2, e])
  rw [this.length_eq]

/-- Removing repetitions is one possible order. -/
theorem dedup_setOrder : SetOrder List.dedup := fun l => ⟨List.nodup_dedup l, fun _ => List.mem_dedup⟩

/-- Not vacuous: two inputs, the second made from the first and `z`. -/
example : (record List.dedup ⟨fun _ => none, none⟩
    [⟨"a", ⟨fun _ => none, none⟩⟩, ⟨"b", ⟨fun i => [some "a", some "z"].getD i none, some 2⟩⟩]).map
      (fun r => (r.nfile, r.file 0, r.file 1, r.file 2, r.file 3)) =
    .ok (some 3, some "b", some "a", some "z", none) := by decide +kernel

/-- Finding: when the header does not come from an input (or its own list was longer), old `FILEi` stay behind beyond
`DRPNFILE`. -/
theorem C18_stale :
    (record List.dedup ⟨fun i => [some "p", some "q"].getD i none, some 2⟩ [⟨"a", ⟨fun _ => none, none⟩⟩]).map
      (fun r => (r.nfile, r.file 0, r.file 1)) = .ok (some 1, some "a", some "q") := by decide +kernel

end Corgi.Prov

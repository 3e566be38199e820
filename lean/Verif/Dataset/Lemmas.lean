import Verif.Dataset.Spec
import Verif.Common.Except

namespace Corgi.DS

variable {V : Type}

/-! ### allocation and pointing -/

theorem alloc_old (h : Heap V) (ps : List (Plane V)) {a : ℕ} (ha : a < h.nmem) :
    (h.alloc ps).mem a = h.mem a := by
  simp [Heap.alloc, Nat.not_le.2 ha]

theorem alloc_new (h : Heap V) (ps : List (Plane V)) {i : ℕ} (hi : i < ps.length) :
    (h.alloc ps).mem (h.nmem + i) = ps[i] := by
  simp [Heap.alloc, List.getElem?_eq_getElem hi]

@[simp] theorem alloc_frm (h : Heap V) (ps : List (Plane V)) : (h.alloc ps).frm = h.frm := rfl
@[simp] theorem alloc_hdr (h : Heap V) (ps : List (Plane V)) : (h.alloc ps).hdr = h.hdr := rfl
@[simp] theorem alloc_nfrm (h : Heap V) (ps : List (Plane V)) : (h.alloc ps).nfrm = h.nfrm := rfl
@[simp] theorem alloc_nhdr (h : Heap V) (ps : List (Plane V)) : (h.alloc ps).nhdr = h.nhdr := rfl
@[simp] theorem alloc_nmem (h : Heap V) (ps : List (Plane V)) :
    (h.alloc ps).nmem = h.nmem + ps.length := rfl

theorem pointTo_notin (fs ds es qs : List ℕ) (m : ℕ → Frame) {f : ℕ} (hf : f ∉ fs) :
    pointTo m fs ds es qs f = m f := by
  induction fs generalizing m ds es qs with
  | nil => simp [pointTo]
  | cons g fs ih =>
    cases ds <;> cases es <;> cases qs <;> simp only [pointTo]
    rw [ih _ _ _ _ (fun h => hf (by simp [h])), Function.update_of_ne (fun h => hf (by simp [h]))]

theorem pointTo_in (fs ds es qs : List ℕ) (m : ℕ → Frame) (hn : fs.Nodup)
    (h1 : ds.length = fs.length) (h2 : es.length = fs.length) (h3 : qs.length = fs.length)
    {i : ℕ} (hi : i < fs.length) :
    pointTo m fs ds es qs fs[i] = { m fs[i] with data := ds[i], err := es[i], dq := qs[i] } := by
  induction fs generalizing m ds es qs i with
  | nil => simp at hi
  | cons g fs ih =>
    obtain ⟨d, ds, rfl⟩ : ∃ d ds', ds = d :: ds' := by cases ds <;> simp at h1 ⊢
    obtain ⟨e, es, rfl⟩ : ∃ d ds', es = d :: ds' := by cases es <;> simp at h2 ⊢
    obtain ⟨q, qs, rfl⟩ : ∃ d ds', qs = d :: ds' := by cases qs <;> simp at h3 ⊢
    simp only [List.nodup_cons] at hn
    simp only [pointTo]
    cases i with
    | zero =>
      simp only [List.getElem_cons_zero]
      rw [pointTo_notin _ _ _ _ _ hn.1, Function.update_self]
    | succ i =>
      simp only [List.getElem_cons_succ]
      have hi' : i < fs.length := by simpa using hi
      rw [ih ds es qs _ hn.2 (by simpa using h1) (by simpa using h2) (by simpa using h3) hi']
      rw [Function.update_of_ne]
      intro h; exact hn.1 (h ▸ List.getElem_mem hi')

/-- Fields that pointing does not touch, for any list of frames. -/
theorem pointTo_hdr (fs ds es qs : List ℕ) (m : ℕ → Frame) (f : ℕ) :
    (pointTo m fs ds es qs f).pri = (m f).pri ∧ (pointTo m fs ds es qs f).ext = (m f).ext ∧
    (pointTo m fs ds es qs f).errh = (m f).errh ∧ (pointTo m fs ds es qs f).dqh = (m f).dqh ∧
    (pointTo m fs ds es qs f).filename = (m f).filename := by
  induction fs generalizing m ds es qs with
  | nil => simp [pointTo]
  | cons g fs ih =>
    cases ds <;> cases es <;> cases qs <;> simp only [pointTo] <;> try simp
    rename_i d ds e es q qs
    have := ih ds es qs (Function.update m g { m g with data := d, err := e, dq := q })
    by_cases hg : f = g
    · subst hg; simpa using this
    · simpa [Function.update_of_ne hg] using this

/-- Every address after pointing is an old one of an untouched frame or one of the given ones. -/
theorem pointTo_addr (fs ds es qs : List ℕ) (m : ℕ → Frame) (f : ℕ) (k : Kind) (P : ℕ → Prop)
    (hd : ∀ a ∈ ds, P a) (he : ∀ a ∈ es, P a) (hq : ∀ a ∈ qs, P a) (hm : P ((m f).addr k)) :
    P ((pointTo m fs ds es qs f).addr k) := by
  induction fs generalizing m ds es qs with
  | nil => simpa [pointTo]
  | cons g fs ih =>
    cases ds <;> cases es <;> cases qs <;> simp only [pointTo] <;> try exact hm
    rename_i d ds e es q qs
    apply ih
    · intro a ha; exact hd a (by simp [ha])
    · intro a ha; exact he a (by simp [ha])
    · intro a ha; exact hq a (by simp [ha])
    · by_cases hg : f = g
      · subst hg
        rw [Function.update_self]
        cases k
        · exact hd d (by simp)
        · exact he e (by simp)
        · exact hq q (by simp)
      · rw [Function.update_of_ne hg]; exact hm

theorem pointErr_notin (fs es : List ℕ) (m : ℕ → Frame) {f : ℕ} (hf : f ∉ fs) :
    pointErr m fs es f = m f := by
  induction fs generalizing m es with
  | nil => simp [pointErr]
  | cons g fs ih =>
    cases es <;> simp only [pointErr]
    rw [ih _ _ (fun h => hf (by simp [h])), Function.update_of_ne (fun h => hf (by simp [h]))]

theorem pointErr_in (fs es : List ℕ) (m : ℕ → Frame) (hn : fs.Nodup)
    (h2 : es.length = fs.length) {i : ℕ} (hi : i < fs.length) :
    pointErr m fs es fs[i] = { m fs[i] with err := es[i] } := by
  induction fs generalizing m es i with
  | nil => simp at hi
  | cons g fs ih =>
    obtain ⟨e, es, rfl⟩ : ∃ d ds', es = d :: ds' := by cases es <;> simp at h2 ⊢
    simp only [List.nodup_cons] at hn
    simp only [pointErr]
    cases i with
    | zero =>
      simp only [List.getElem_cons_zero]
      rw [pointErr_notin _ _ _ hn.1, Function.update_self]
    | succ i =>
      simp only [List.getElem_cons_succ]
      have hi' : i < fs.length := by simpa using hi
      rw [ih es _ hn.2 (by simpa using h2) hi']
      rw [Function.update_of_ne]
      intro h; exact hn.1 (h ▸ List.getElem_mem hi')

theorem pointErr_rest (fs es : List ℕ) (m : ℕ → Frame) (f : ℕ) :
    (pointErr m fs es f).pri = (m f).pri ∧ (pointErr m fs es f).ext = (m f).ext ∧
    (pointErr m fs es f).errh = (m f).errh ∧ (pointErr m fs es f).dqh = (m f).dqh ∧
    (pointErr m fs es f).filename = (m f).filename ∧ (pointErr m fs es f).data = (m f).data ∧
    (pointErr m fs es f).dq = (m f).dq := by
  induction fs generalizing m es with
  | nil => simp [pointErr]
  | cons g fs ih =>
    cases es <;> simp only [pointErr] <;> try simp
    rename_i e es
    have := ih es (Function.update m g { m g with err := e })
    by_cases hg : f = g
    · subst hg; simpa using this
    · simpa [Function.update_of_ne hg] using this

theorem pointErr_addr (fs es : List ℕ) (m : ℕ → Frame) (f : ℕ) (k : Kind) (P : ℕ → Prop)
    (he : ∀ a ∈ es, P a) (hm : P ((m f).addr k)) : P ((pointErr m fs es f).addr k) := by
  induction fs generalizing m es with
  | nil => simpa [pointErr]
  | cons g fs ih =>
    cases es <;> simp only [pointErr] <;> try exact hm
    rename_i e es
    apply ih
    · intro a ha; exact he a (by simp [ha])
    · by_cases hg : f = g
      · subst hg
        rw [Function.update_self]
        cases k
        · exact hm
        · exact he e (by simp)
        · exact hm
      · rw [Function.update_of_ne hg]; exact hm

/-! ### mkDataset -/

theorem mkDataset_ok {h h' : Heap V} {fs : List ℕ} {d : Dataset} (hk : mkDataset h fs = .ok (h', d)) :
    fs ≠ [] ∧ d = ⟨fs, List.range' h.nmem fs.length,
      List.range' (h.nmem + fs.length) fs.length,
      List.range' (h.nmem + fs.length + fs.length) fs.length⟩ ∧
    h' = { h.alloc (fs.map h.dataOf ++ fs.map h.errOf ++ fs.map h.dqOf) with
      frm := pointTo h.frm fs d.allData d.allErr d.allDq } := by
  unfold mkDataset at hk
  dsimp only at hk
  split at hk
  · cases hk
  · split at hk
    · cases hk
    · rename_i h0 _
      simp only [Except.ok.injEq, Prod.mk.injEq] at hk
      obtain ⟨h1, rfl⟩ := hk
      exact ⟨h0, rfl, h1.symm⟩

theorem cube_getElem {n len i : ℕ} {a : ℕ} :
    (List.range' n len)[i]? = some a ↔ i < len ∧ a = n + i := by
  constructor
  · intro h
    obtain ⟨h1, h2⟩ := List.getElem?_eq_some_iff.1 h
    simp at h1 h2
    exact ⟨h1, h2.symm⟩
  · rintro ⟨h1, rfl⟩
    rw [List.getElem?_eq_getElem (by simpa using h1)]
    simp

/-- Offset of each cube in the freshly allocated memory. -/
def Kind.off : Kind → ℕ
  | .data => 0
  | .err => 1
  | .dq => 2

theorem mkDataset_cube {h h' : Heap V} {fs : List ℕ} {d : Dataset}
    (hk : mkDataset h fs = .ok (h', d)) (k : Kind) :
    d.cube k = List.range' (h.nmem + k.off * fs.length) fs.length := by
  obtain ⟨_, rfl, _⟩ := mkDataset_ok hk
  cases k
  · simp [Dataset.cube, Kind.off]
  · simp [Dataset.cube, Kind.off]
  · simp only [Dataset.cube, Kind.off]
    congr 1
    omega

theorem mkDataset_frames {h h' : Heap V} {fs : List ℕ} {d : Dataset}
    (hk : mkDataset h fs = .ok (h', d)) : d.frames = fs := by
  obtain ⟨_, rfl, _⟩ := mkDataset_ok hk; rfl

theorem mkDataset_linked {h h' : Heap V} {fs : List ℕ} {d : Dataset} (hn : fs.Nodup)
    (hk : mkDataset h fs = .ok (h', d)) : Linked h' d := by
  have hc := mkDataset_cube hk
  have hf := mkDataset_frames hk
  obtain ⟨_, hd, hh⟩ := mkDataset_ok hk
  constructor
  · intro k; rw [hc, hf]; simp
  · intro k i f hi
    rw [hf] at hi
    obtain ⟨hi', rfl⟩ := List.getElem?_eq_some_iff.1 hi
    have e : h'.frm fs[i] = { h.frm fs[i] with
        data := d.allData[i]'(by rw [hd]; simpa using hi'),
        err := d.allErr[i]'(by rw [hd]; simpa using hi'),
        dq := d.allDq[i]'(by rw [hd]; simpa using hi') } := by
      rw [hh]
      exact pointTo_in fs _ _ _ _ hn (by rw [hd]; simp) (by rw [hd]; simp) (by rw [hd]; simp) hi'
    rw [e]
    cases k <;> exact List.getElem?_eq_getElem _

theorem mkDataset_separate {h h' : Heap V} {fs : List ℕ} {d : Dataset}
    (hk : mkDataset h fs = .ok (h', d)) : Separate d := by
  have hc := mkDataset_cube hk
  intro k i k' i' a h1 h2
  rw [hc, cube_getElem] at h1 h2
  have hkk : k.off = k'.off := by
    obtain ⟨h1, rfl⟩ := h1
    obtain ⟨h2, h3⟩ := h2
    cases k <;> cases k' <;> simp only [Kind.off] at h3 ⊢ <;> omega
  have : k = k' := by
    cases k <;> cases k' <;> simp [Kind.off] at hkk ⊢
  subst this
  exact ⟨rfl, by omega⟩

theorem mkDataset_content {h h' : Heap V} {fs : List ℕ} {d : Dataset}
    (hk : mkDataset h fs = .ok (h', d)) (k : Kind) {i : ℕ} (hi : i < fs.length) :
    h'.mem (h.nmem + k.off * fs.length + i) = h.mem ((h.frm fs[i]).addr k) := by
  obtain ⟨_, _, hh⟩ := mkDataset_ok hk
  rw [hh]
  show (h.alloc _).mem _ = _
  cases k
  · rw [show h.nmem + Kind.data.off * fs.length + i = h.nmem + i by simp [Kind.off],
      alloc_new _ _ (by simp; omega)]
    simp [List.getElem_append_left, hi, Heap.dataOf, Frame.addr]
  · rw [show h.nmem + Kind.err.off * fs.length + i = h.nmem + (fs.length + i) by simp [Kind.off]; omega,
      alloc_new _ _ (by simp; omega)]
    rw [List.getElem_append_left (by simp; omega), List.getElem_append_right (by simp)]
    simp [Heap.errOf, Frame.addr]
  · rw [show h.nmem + Kind.dq.off * fs.length + i = h.nmem + (fs.length + fs.length + i) by
      simp [Kind.off]; omega, alloc_new _ _ (by simp; omega)]
    rw [List.getElem_append_right (by simp)]
    simp [Heap.dqOf, Frame.addr]

theorem mkDataset_old {h h' : Heap V} {fs : List ℕ} {d : Dataset}
    (hk : mkDataset h fs = .ok (h', d)) {a : ℕ} (ha : a < h.nmem) : h'.mem a = h.mem a := by
  obtain ⟨_, _, hh⟩ := mkDataset_ok hk
  rw [hh]; exact alloc_old _ _ ha

theorem mkDataset_hdr {h h' : Heap V} {fs : List ℕ} {d : Dataset}
    (hk : mkDataset h fs = .ok (h', d)) : h'.hdr = h.hdr ∧ h'.nhdr = h.nhdr ∧ h'.nfrm = h.nfrm ∧
      h.nmem ≤ h'.nmem := by
  obtain ⟨_, _, hh⟩ := mkDataset_ok hk
  rw [hh]
  refine ⟨rfl, rfl, rfl, ?_⟩
  show h.nmem ≤ h.nmem + _
  omega

theorem mkDataset_frm_notin {h h' : Heap V} {fs : List ℕ} {d : Dataset}
    (hk : mkDataset h fs = .ok (h', d)) {f : ℕ} (hf : f ∉ fs) : h'.frm f = h.frm f := by
  obtain ⟨_, _, hh⟩ := mkDataset_ok hk
  rw [hh]; exact pointTo_notin _ _ _ _ _ hf

theorem mkDataset_frm_hdr {h h' : Heap V} {fs : List ℕ} {d : Dataset}
    (hk : mkDataset h fs = .ok (h', d)) (f : ℕ) :
    (h'.frm f).pri = (h.frm f).pri ∧ (h'.frm f).ext = (h.frm f).ext ∧
    (h'.frm f).errh = (h.frm f).errh ∧ (h'.frm f).dqh = (h.frm f).dqh ∧
    (h'.frm f).filename = (h.frm f).filename := by
  obtain ⟨_, _, hh⟩ := mkDataset_ok hk
  rw [hh]; exact pointTo_hdr _ _ _ _ _ _

end Corgi.DS

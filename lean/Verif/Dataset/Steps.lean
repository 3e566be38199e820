import Verif.Dataset.Split

/-!
# Step functions on the heap: does the returned dataset still have its frames as views of its cubes? (C57)
-/

namespace Corgi.DS

variable {V : Type} {K : Type} [LinearOrder K]

/-! ## Model -/

/-- The body of `em_gain_division` after the copy (l2a_to_l2b.py 302-327): the cubes are divided in place (`pd`, `pe`: the
results), the dataset is split to see how many commanded gains there are, and updated with its own cubes. -/
def emStep (h : Heap V) (ds : Dataset) (pd pe : List (Plane V)) (keyOf : Heap V → ℕ → Except Err (Option K)) (e : String)
    (es : List (String × String)) : Except Err (Heap V × Dataset) :=
  match splitDataset ((h.fill ds.allData pd).fill ds.allErr pe) ds false keyOf with
  | .error x => .error x
  | .ok (h2, _, _) => match update h2 ds e (some (ds.allData.map h2.mem)) (some ds.allErr) none es with
    | (h3, d3, none) => .ok (h3, d3)
    | (_, _, some x) => .error x

/-- The body of `divide_by_exptime` after the copy (l2b_to_l3.py 84-108): each frame gets new data and error arrays, then
the dataset is updated with cubes of the same contents. -/
def exptimeStep (h : Heap V) (ds : Dataset) (pd pe : List (Plane V)) (e : String) : Except Err (Heap V × Dataset) :=
  let n := ds.frames.length
  let h1 := h.alloc (pd ++ pe ++ pe)
  let new := pointTo h1.frm ds.frames (List.range' h.nmem n) (List.range' (h.nmem + n) n) (ds.frames.map fun f => (h.frm f).dq)
  let h2 : Heap V := { h1 with frm := new }
  match update h2 ds e (some pd) (some (List.range' (h.nmem + n + n) n)) none [] with
  | (h3, d3, none) => .ok (h3, d3)
  | (_, _, some x) => .error x

/-! ## C57 -/

theorem update_refs {h h2 : Heap V} {ds d2 : Dataset} {e : String} {nd nq : Option (List (Plane V))} {ne : Option (List ℕ)}
    {es : List (String × String)} {x : Option Err} (hu : update h ds e nd ne nq es = (h2, d2, x)) :
    d2.frames = ds.frames ∧ d2.allData = ds.allData ∧ d2.allDq = ds.allDq ∧
    ∀ f, (h2.frm f).data = (h.frm f).data ∧ (h2.frm f).dq = (h.frm f).dq := by
  have hput : ∀ {g g' : Heap V} {c : List ℕ} {o : Option (List (Plane V))}, putCube g c o = some g' → g'.frm = g.frm := by
    intro g g' c o hp
    cases o with
    | none => cases hp; rfl
    | some l =>
      simp only [putCube] at hp
      split at hp
      · cases hp; exact (fill_frm _ _ _).1
      · cases hp
  unfold update at hu
  cases h1 : putCube h ds.allData nd with
  | none => rw [h1] at hu; cases hu; exact ⟨rfl, rfl, rfl, fun _ => ⟨rfl, rfl⟩⟩
  | some g1 =>
    rw [h1] at hu
    dsimp only at hu
    have e1 := hput h1
    cases h2' : putErr g1 ds ne with
    | none => rw [h2'] at hu; cases hu; rw [e1]; exact ⟨rfl, rfl, rfl, fun _ => ⟨rfl, rfl⟩⟩
    | some r =>
      obtain ⟨g2, d⟩ := r
      rw [h2'] at hu
      dsimp only at hu
      have e2 : d.frames = ds.frames ∧ d.allData = ds.allData ∧ d.allDq = ds.allDq ∧
          ∀ f, (g2.frm f).data = (g1.frm f).data ∧ (g2.frm f).dq = (g1.frm f).dq := by
        cases ne with
        | none => cases h2'; exact ⟨rfl, rfl, rfl, fun _ => ⟨rfl, rfl⟩⟩
        | some l =>
          simp only [putErr] at h2'
          split at h2'
          · cases h2'
            refine ⟨rfl, rfl, rfl, fun f => ?_⟩
            have := pointErr_rest ds.frames l g1.frm f
            exact ⟨this.2.2.2.2.2.1, this.2.2.2.2.2.2⟩
          · cases h2'
      cases h3 : putCube g2 d.allDq nq with
      | none => rw [h3] at hu; cases hu; rw [e1] at e2; exact e2
      | some g3 =>
        rw [h3] at hu
        simp only [Prod.mk.injEq] at hu
        obtain ⟨rfl, rfl, _⟩ := hu
        have e3 := hput h3
        obtain ⟨k1, k2⟩ := updateHdrs_keep e es d.frames g3
        refine ⟨e2.1, e2.2.1, e2.2.2.1, fun f => ?_⟩
        rw [k1, e3, ← e1]
        exact e2.2.2.2 f

theorem fill_nmem (h : Heap V) (as : List ℕ) (ps : List (Plane V)) : (h.fill as ps).nmem = h.nmem := (fill_frm h as ps).2.2

theorem fill_valid {h : Heap V} {ds : Dataset} (hv : Valid h ds) (as : List ℕ) (ps : List (Plane V)) :
    PlanesValid (h.fill as ps) ds.frames := by
  intro f hf k
  rw [(fill_frm h as ps).1, fill_nmem]
  exact hv.plane f hf k

/-- **C57 (false)** After `em_gain_division` the data and dq of a frame are not the planes of the returned dataset's cubes. -/
theorem C57_em_violated {h h' : Heap V} {ds d' : Dataset} {pd pe : List (Plane V)} {keyOf : Heap V → ℕ → Except Err (Option K)}
    {e : String} {es : List (String × String)} (hv : Valid h ds) (hn : ds.frames.Nodup)
    (hk : emStep h ds pd pe keyOf e es = .ok (h', d')) {f : ℕ} (hf : f ∈ ds.frames) {k : K}
    (hkf : keyOf ((h.fill ds.allData pd).fill ds.allErr pe) f = .ok (some k)) :
    (h'.frm f).data ∉ d'.allData ∧ (h'.frm f).dq ∉ d'.allDq ∧ ¬ Linked h' d' := by
  unfold emStep at hk
  cases hs : splitDataset ((h.fill ds.allData pd).fill ds.allErr pe) ds false keyOf with
  | error x => rw [hs] at hk; cases hk
  | ok r =>
    obtain ⟨h2, subs, ks⟩ := r
    rw [hs] at hk
    dsimp only at hk
    generalize hu : update h2 ds e (some (ds.allData.map h2.mem)) (some ds.allErr) none es = q at hk
    obtain ⟨h3, d3, x⟩ := q
    cases x with
    | some x => cases hk
    | none =>
      cases hk
      obtain ⟨u1, u2, u3, u4⟩ := update_refs hu
      obtain ⟨_, keys, hkeys, rfl, hsel⟩ := splitDataset_ok hs
      have hpv : PlanesValid ((h.fill ds.allData pd).fill ds.allErr pe) ds.frames := by
        intro f hf k
        rw [(fill_frm _ _ _).1, fill_nmem]
        exact fill_valid hv _ _ f hf k
      obtain ⟨_, _, _, _, _, h6, _⟩ := selectAll_keep hn _ (by
        intro idx hidx
        obtain ⟨k, _, rfl⟩ := List.mem_map.1 hidx
        exact indicesOf_nodup keys k) (indices_disjoint keys) hpv hsel
      obtain ⟨i, hi, rfl⟩ := List.getElem_of_mem hf
      obtain ⟨y, hy, hye⟩ := forall2_get_left hkeys (List.getElem?_eq_getElem hi)
      rw [hkf] at hye
      cases hye
      have hnew := h6 i _ (List.getElem?_eq_getElem hi)
        ⟨indicesOf keys k, List.mem_map.2 ⟨k, (groupKeys_mem keys k).2 (List.mem_of_getElem? hy), rfl⟩,
          mem_indicesOf.2 hy⟩
      rw [fill_nmem, fill_nmem] at hnew
      have a1 : (h'.frm ds.frames[i]).data ∉ d'.allData := by
        rw [u2, (u4 _).1]
        intro hin
        have := hv.cubes .data _ hin
        have := hnew .data
        simp only [Frame.addr] at this
        omega
      refine ⟨a1, ?_, ?_⟩
      · rw [u3, (u4 _).2]
        intro hin
        have := hv.cubes .dq _ hin
        have := hnew .dq
        simp only [Frame.addr] at this
        omega
      · intro hl
        have := hl.link .data i ds.frames[i] (by rw [u1]; exact List.getElem?_eq_getElem hi)
        exact a1 (List.mem_of_getElem? this)

/-- **C57 (false)** After `divide_by_exptime` the data of every frame are not in the returned dataset's cube. -/
theorem C57_exptime_violated {h h' : Heap V} {ds d' : Dataset} {pd pe : List (Plane V)} {e : String} (hv : Valid h ds)
    (hn : ds.frames.Nodup) (hk : exptimeStep h ds pd pe e = .ok (h', d')) {f : ℕ} (hf : f ∈ ds.frames) :
    (h'.frm f).data ∉ d'.allData ∧ (h'.frm f).dq = (h.frm f).dq ∧ ¬ Linked h' d' := by
  unfold exptimeStep at hk
  dsimp only at hk
  split at hk
  · rename_i h3 d3 hu
    cases hk
    obtain ⟨u1, u2, u3, u4⟩ := update_refs hu
    obtain ⟨i, hi, rfl⟩ := List.getElem_of_mem hf
    have hp := pointTo_in ds.frames (List.range' h.nmem ds.frames.length)
      (List.range' (h.nmem + ds.frames.length) ds.frames.length) (ds.frames.map fun f => (h.frm f).dq)
      (h.alloc (pd ++ pe ++ pe)).frm hn (by simp) (by simp) (by simp) hi
    have a1 : (h'.frm ds.frames[i]).data ∉ d'.allData := by
      rw [u2, (u4 _).1]
      show (pointTo (h.alloc (pd ++ pe ++ pe)).frm _ _ _ _ _).data ∉ _
      rw [hp]
      intro hin
      have := hv.cubes .data _ hin
      simp at this
      omega
    refine ⟨a1, ?_, ?_⟩
    · rw [(u4 _).2]
      show (pointTo (h.alloc (pd ++ pe ++ pe)).frm _ _ _ _ _).dq = _
      rw [hp]; simp
    · intro hl
      have := hl.link .data i ds.frames[i] (by rw [u1]; exact List.getElem?_eq_getElem hi)
      exact a1 (List.mem_of_getElem? this)
  · cases hk

theorem update_both {g g2 : Heap V} {ds d2 : Dataset} {e : String} {nd : List (Plane V)} {ne : List ℕ} {es : List (String × String)}
    (hs : Separate ds) (hn : ds.frames.Nodup) (hne : ne.length = ds.frames.length)
    (hu : update g ds e (some nd) (some ne) none es = (g2, d2, none)) :
    ds.allData.length = nd.length ∧ d2.allData = ds.allData ∧ d2.allErr = ne ∧
      (∀ {i : ℕ} (hi : i < ds.frames.length), g2.frm ds.frames[i] = { g.frm ds.frames[i] with err := ne[i] }) ∧
      (∀ a, a ∉ ds.allData → g2.mem a = g.mem a) ∧ ∀ {i a : ℕ}, ds.allData[i]? = some a → some (g2.mem a) = nd[i]? := by
  unfold update at hu
  simp only [putCube, putErr] at hu
  by_cases hok : shapeOk g ds.allData nd = true
  swap
  · rw [if_neg hok] at hu
    simp at hu
  rw [if_pos hok] at hu
  dsimp only at hu
  by_cases hok' : errShapeOk (g.fill ds.allData nd) ds.allErr ne = true
  swap
  · rw [if_neg hok'] at hu
    simp at hu
  rw [if_pos hok'] at hu
  simp only [Prod.mk.injEq, and_true] at hu
  obtain ⟨rfl, rfl⟩ := hu
  have hlen := (shapeOk_iff.1 hok).1
  refine ⟨hlen, rfl, rfl, ?_, ?_, ?_⟩
  · intro i hi
    rw [(updateHdrs_keep _ _ _ _).1]
    dsimp only
    rw [(fill_frm g _ _).1]
    exact pointErr_in ds.frames ne g.frm hn hne hi
  · intro a ha
    rw [(updateHdrs_keep _ _ _ _).2]
    exact fill_notin _ _ _ ha
  · intro i a hi
    obtain ⟨hlt, rfl⟩ := List.getElem?_eq_some_iff.1 hi
    rw [(updateHdrs_keep _ _ _ _).2]
    dsimp only
    rw [fill_in g ds.allData nd (hs.nodup .data) hlen hlt, List.getElem?_eq_getElem (by omega)]

/-- **C57** What `divide_by_exptime` returns is right at first: frame and cube hold the same new data, in two arrays, and the error
arrays are shared. -/
theorem C57_exptime_contents {h h' : Heap V} {ds d' : Dataset} {pd pe : List (Plane V)} {e : String} (hl : Linked h ds)
    (hs : Separate ds) (hv : Valid h ds) (hn : ds.frames.Nodup) (hd : pd.length = ds.frames.length)
    (he : pe.length = ds.frames.length) (hk : exptimeStep h ds pd pe e = .ok (h', d')) {i f : ℕ} (hf : ds.frames[i]? = some f) :
    some (h'.dataOf f) = pd[i]? ∧ some (h'.errOf f) = pe[i]? ∧ d'.allData[i]?.map h'.mem = pd[i]? ∧
      d'.allErr[i]? = some (h'.frm f).err := by
  obtain ⟨hi, rfl⟩ := List.getElem?_eq_some_iff.1 hf
  unfold exptimeStep at hk
  dsimp only at hk
  split at hk
  case h_2 => cases hk
  rename_i h3 d3 hu
  cases hk
  have hp := pointTo_in ds.frames (List.range' h.nmem ds.frames.length)
    (List.range' (h.nmem + ds.frames.length) ds.frames.length) (ds.frames.map fun f => (h.frm f).dq)
    (h.alloc (pd ++ pe ++ pe)).frm hn (by simp) (by simp) (by simp) hi
  obtain ⟨u1, u2, u3, u4, u5, u6⟩ := update_both hs hn (by simp) hu
  have hout : ∀ a, h.nmem ≤ a → a ∉ ds.allData := fun a ha hin => by
    have := hv.cubes .data a hin
    omega
  have hfr := u4 hi
  dsimp only at hfr
  rw [hp] at hfr
  have hdi : i < ds.allData.length := by
    have := hl.len .data
    simp only [Dataset.cube] at this
    omega
  refine ⟨?_, ?_, ?_, ?_⟩
  · unfold Heap.dataOf
    rw [hfr]
    simp only [List.getElem_range', Nat.one_mul]
    rw [u5 _ (hout _ (by omega))]
    dsimp only
    rw [alloc_new h (pd ++ pe ++ pe) (i := i) (by simp; omega), List.getElem?_eq_getElem (by omega)]
    simp [show i < pd.length by omega]
  · unfold Heap.errOf
    rw [hfr]
    simp only [List.getElem_range', Nat.one_mul]
    rw [u5 _ (hout _ (by omega))]
    dsimp only
    rw [show h.nmem + ds.frames.length + ds.frames.length + i = h.nmem + (ds.frames.length + ds.frames.length + i) by omega,
      alloc_new h (pd ++ pe ++ pe) (by simp; omega), List.getElem?_eq_getElem (by omega)]
    congr 1
    rw [List.getElem_append_right (by simp; omega)]
    congr 1
    simp; omega
  · rw [u2, List.getElem?_eq_getElem hdi, Option.map_some]
    exact u6 (List.getElem?_eq_getElem hdi)
  · rw [u3, hfr]
    exact List.getElem?_eq_getElem _

theorem copyDataset_linked {h h1 : Heap V} {ds dc : Dataset} {v now : String} {c : Bool}
    (hk : copyDataset v now c h ds = .ok (h1, dc)) : Linked h1 dc ∧ Separate dc ∧ dc.frames.Nodup := by
  unfold copyDataset at hk
  have a := (copyFrames_frames v now c h ds.frames).1
  generalize copyFrames v now c h ds.frames = gg at *
  obtain ⟨g, fs⟩ := gg
  dsimp only at a hk
  have hnd : fs.Nodup := by rw [a]; exact List.nodup_range'
  exact ⟨mkDataset_linked hnd hk, mkDataset_separate hk, by rw [mkDataset_frames hk]; exact hnd⟩

theorem pixOps_frm (d : Dataset) (h : Heap V) (ops : List (PixOp V)) : (ops.foldl (PixOp.run d) h).frm = h.frm := by
  induction ops generalizing h with
  | nil => rfl
  | cons o ops ih => rw [List.foldl_cons, ih, PixOp.run_frm]

/-- **C57 (partial)** Steps of the usual form — copy, write pixels, update — return connected datasets. New error arrays
must not be among the data and dq arrays. -/
theorem C57_partial {h h1 h2 : Heap V} {ds dc d2 : Dataset} {v now : String} (hk : copyDataset v now true h ds = .ok (h1, dc))
    (ops : List (PixOp V)) {e : String} {nd nq : Option (List (Plane V))} {ne : Option (List ℕ)} {es : List (String × String)}
    (hne : ∀ l, ne = some l → l.Nodup ∧ ∀ a ∈ l, a ∉ dc.allData ∧ a ∉ dc.allDq)
    (hu : update (ops.foldl (PixOp.run dc) h1) dc e nd ne nq es = (h2, d2, none)) : Linked h2 d2 := by
  obtain ⟨a, b, c⟩ := copyDataset_linked hk
  exact (C16_success (a.of_frm (pixOps_frm dc h1 ops)) b c hne hu).1

/-! ## Non-vacuity -/

example : ∃ r, emStep exMade.1 exMade.2 [⟨[1, 1], fun _ => 5⟩, ⟨[1, 1], fun _ => 6⟩] [] (fun _ _ => .ok (some (1 : ℕ))) "em" [] =
    .ok r := ⟨_, rfl⟩

example : ∃ r, exptimeStep exMade.1 exMade.2 [⟨[1, 1], fun _ => 5⟩, ⟨[1, 1], fun _ => 6⟩]
    (exMade.2.allErr.map exMade.1.mem) "t" = .ok r := ⟨_, rfl⟩

end Corgi.DS

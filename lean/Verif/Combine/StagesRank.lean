import Verif.Combine.Stages

/-!
# Medians, wrong frames, frame counts and parents of two stages (C207)

What holds of a median of medians, and what the headers say after `combine_subexposures` was applied to its own result (combine.py 53-108; the card
`NUM_FR` in line 93, the parents in line 104).
-/

noncomputable section

namespace Corgi.Comb
open Corgi.Nan

variable {P : Type} {L : ℕ}

/-- If at least half of the lists have at least half of their values in a set, at least a quarter of all values are in it. -/
theorem quarter {ls : List (List ℝ)} {c : ℕ} (hc : ∀ l ∈ ls, l.length = c) (a : List ℝ → Bool) (b : ℝ → Bool)
    (h : ∀ l ∈ ls, a l = true → c ≤ 2 * l.countP b) : ls.countP a * c ≤ 2 * ls.flatten.countP b := by
  induction ls with
  | nil => simp
  | cons l ls ih =>
    have ih := ih (fun x hx => hc x (List.mem_cons_of_mem _ hx)) fun x hx => h x (List.mem_cons_of_mem _ hx)
    rw [List.flatten_cons, List.countP_append, List.countP_cons]
    by_cases ha : a l = true
    · have := h l List.mem_cons_self ha
      rw [if_pos ha, Nat.add_mul, Nat.one_mul, Nat.mul_add]
      omega
    · rw [if_neg ha, Nat.add_zero, Nat.mul_add]
      omega

theorem goods_length {gs : List (List (Img P L))} {p : P} (hb : Balanced gs p) : ∃ c, ∀ l ∈ goods gs p, l.length = c := by
  have hmem : ∀ l ∈ goods gs p, ∃ g ∈ gs, goodValues g p = l ∧ l ≠ [] := fun l h => by
    unfold goods at h
    rw [List.mem_filter] at h
    obtain ⟨g, hg, rfl⟩ := List.mem_map.1 h.1
    exact ⟨g, hg, rfl, by simpa using h.2⟩
  cases hl : goods gs p with
  | nil => exact ⟨0, by simp⟩
  | cons l0 l' =>
    obtain ⟨g0, hg0, h0, h0'⟩ := hmem l0 (by rw [hl]; exact List.mem_cons_self)
    refine ⟨l0.length, fun l h => ?_⟩
    obtain ⟨g, hg, h1, h1'⟩ := hmem l (by rw [hl]; exact h)
    rw [← h1, ← h0]
    exact hb g hg g0 hg0 (by rw [h1]; exact h1') (by rw [h0]; exact h0')

/-- The factor by which the values of one sample are scaled after both stages. -/
def bothScales (scaling : Bool) (k n : ℕ) : ℝ := if scaling then (k : ℝ) * n else 1

/-- **C207.** A median of medians, of groups with equally many valid samples, has at least a quarter of all valid samples on either side. -/
theorem C207_rank (scaling : Bool) {gs : List (List (Img P L))} {k : ℕ} (hk : ∀ g ∈ gs, g.length = k) {p : P} (hb : Balanced gs p) {v : ℝ}
    (hv : (staged .median scaling gs).data p = some v) :
    (goodValues gs.flatten p).length ≤ 4 * (goodValues gs.flatten p).countP (fun x => decide (x * bothScales scaling k gs.length ≤ v)) ∧
    (goodValues gs.flatten p).length ≤ 4 * (goodValues gs.flatten p).countP (fun x => decide (v ≤ x * bothScales scaling k gs.length)) := by
  rw [staged_data .median scaling hk p] at hv
  by_cases h : goodValues gs.flatten p = []
  · rw [if_pos h] at hv
    cases hv
  rw [if_neg h] at hv
  obtain ⟨c, hc⟩ := goods_length hb
  have hfl : (goods gs p).flatten = goodValues gs.flatten p := by
    unfold goods
    rw [flatten_filter, ← good_flatten]
  have hne : goods gs p ≠ [] := fun h0 => h (good_empty.2 h0)
  have hlen : (goodValues gs.flatten p).length = (goods gs p).length * c := by
    rw [← hfl, flatten_length hc]
  have hpos : ∀ l ∈ goods gs p, l ≠ [] := fun l hl => by
    unfold goods at hl
    simpa using (List.mem_filter.1 hl).2
  set s : ℝ := if scaling then (k : ℝ) else 1 with hs
  set t : ℝ := if scaling then (gs.length : ℝ) else 1 with ht
  have hs0 : 0 ≤ s := by rw [hs]; split <;> positivity
  have ht0 : 0 ≤ t := by rw [ht]; split <;> positivity
  have hst : bothScales scaling k gs.length = s * t := by
    unfold bothScales
    cases scaling <;> simp [hs, ht]
  set V := median (((goods gs p).map median).map (· * s)) with hV
  have hv : V * t = v := Option.some.inj hv
  have hm := median_spec (((goods gs p).map median).map (· * s)) (by simpa using hne)
  rw [← hV] at hm
  rw [List.length_map, List.length_map, List.countP_map, List.countP_map, List.countP_map, List.countP_map] at hm
  rw [hst, ← hfl, ← hv]
  rw [← hfl] at hlen
  rw [hlen]
  constructor
  · have q := quarter hc (((fun x => decide (x ≤ V)) ∘ (· * s)) ∘ median) (fun x => decide (x * (s * t) ≤ V * t)) (by
      intro l hl ha
      have ha : median l * s ≤ V := by simpa using ha
      have h1 := (median_spec l (hpos l hl)).1
      rw [hc l hl] at h1
      refine h1.trans (Nat.mul_le_mul_left 2 (List.countP_mono_left fun x _ hx => ?_))
      have hx : x ≤ median l := by simpa using hx
      have : x * (s * t) ≤ V * t := by
        rw [← mul_assoc]
        exact mul_le_mul_of_nonneg_right ((mul_le_mul_of_nonneg_right hx hs0).trans ha) ht0
      simpa using this)
    calc (goods gs p).length * c ≤ 2 * (goods gs p).countP _ * c := Nat.mul_le_mul_right c hm.1
      _ = 2 * ((goods gs p).countP _ * c) := Nat.mul_assoc _ _ _
      _ ≤ 2 * (2 * _) := Nat.mul_le_mul_left 2 q
      _ = _ := by rw [← Nat.mul_assoc]
  · have q := quarter hc (((fun x => decide (V ≤ x)) ∘ (· * s)) ∘ median) (fun x => decide (V * t ≤ x * (s * t))) (by
      intro l hl ha
      have ha : V ≤ median l * s := by simpa using ha
      have h1 := (median_spec l (hpos l hl)).2
      rw [hc l hl] at h1
      refine h1.trans (Nat.mul_le_mul_left 2 (List.countP_mono_left fun x _ hx => ?_))
      have hx : median l ≤ x := by simpa using hx
      have : V * t ≤ x * (s * t) := by
        rw [← mul_assoc]
        exact mul_le_mul_of_nonneg_right (ha.trans (mul_le_mul_of_nonneg_right hx hs0)) ht0
      simpa using this)
    calc (goods gs p).length * c ≤ 2 * (goods gs p).countP _ * c := Nat.mul_le_mul_right c hm.2
      _ = 2 * ((goods gs p).countP _ * c) := Nat.mul_assoc _ _ _
      _ ≤ 2 * (2 * _) := Nat.mul_le_mul_left 2 q
      _ = _ := by rw [← Nat.mul_assoc]

/-- **C207.** After two stages `NUM_FR` is the number of groups, which is less than the number of frames that went in if groups have more than one
frame. -/
theorem C207_num_fr {env env' : Env} {order : List String → List String} (ho : Prov.SetOrder order) {k : ℤ} {collapse collapse' : String}
    {scaling scaling' : Bool} {fs r s : List (Frame P L)} (h : combineSub env order (some k) collapse scaling fs = .ok r)
    (h' : combineSub env' order none collapse' scaling' r = .ok s) :
    ∃ f, s = [f] ∧ f.ext.card "NUM_FR" = some (toString r.length) ∧ (r.length : ℤ) * k = fs.length ∧ (1 < k → r.length < fs.length) := by
  obtain ⟨k1, c1, hk1, _, hl1, _⟩ := C22_groups ho h
  obtain ⟨k2, c2, hk2, _, hl2, hf2⟩ := C22_groups ho h'
  obtain ⟨_, _, _, _, _, hne, _⟩ := C22_success h'
  have hr : 0 < r.length := List.length_pos_iff.2 hne
  have e2 : k2 = r.length := by simpa using hk2
  have e1 : (k1 : ℤ) = k := by simpa using hk1
  subst e2
  have hs1 : s.length = 1 := Nat.eq_of_mul_eq_mul_right hr (by rw [hl2, Nat.one_mul])
  obtain ⟨f, rfl⟩ := List.length_eq_one_iff.1 hs1
  obtain ⟨_, _, _, _, _, _, hn, _⟩ := hf2 0 f rfl
  refine ⟨f, rfl, hn, ?_, ?_⟩
  · rw [← e1]
    exact_mod_cast hl1
  · intro hk
    rw [← hl1]
    have : 1 < k1 := by omega
    exact lt_mul_of_one_lt_right hr this

/-- **C207.** After two stages every input file, and every file recorded in one of them, is recorded as a parent. -/
theorem C207_parents {env env' : Env} {order : List String → List String} (ho : Prov.SetOrder order) {k : ℤ} {collapse collapse' : String}
    {scaling scaling' : Bool} {fs r : List (Frame P L)} {f : Frame P L} (h : combineSub env order (some k) collapse scaling fs = .ok r)
    (h' : combineSub env' order none collapse' scaling' r = .ok [f]) (x : String) :
    Prov.Recorded f.prov x ↔ ∃ g ∈ fs, x = g.filename ∨ Prov.Recorded g.prov x := by
  obtain ⟨k1, c1, hk1, _, hl1, hf1⟩ := C22_groups ho h
  obtain ⟨k2, c2, hk2, _, hl2, hf2⟩ := C22_groups ho h'
  obtain ⟨_, _, _, _, _, hne, _⟩ := C22_success h
  have hfs : 0 < fs.length := List.length_pos_iff.2 hne
  have hk0 : 0 < k1 := Nat.pos_of_ne_zero fun h0 => by rw [h0, Nat.mul_zero] at hl1; omega
  have e2 : k2 = r.length := by simpa using hk2
  subst e2
  obtain ⟨_, _, _, _, _, _, _, _, _, hp⟩ := hf2 0 f rfl
  have hall : group r.length 0 r = r := by simp [group]
  rw [hp, hall]
  constructor
  · rintro ⟨g, hg, hx⟩
    obtain ⟨i, hi⟩ := List.mem_iff_getElem?.1 hg
    obtain ⟨first, last, h1, h2, _, hfn, _, _, _, hrec⟩ := hf1 i g hi
    rcases hx with rfl | hx
    · exact ⟨last, List.mem_of_getElem? h2, .inl hfn⟩
    · obtain ⟨g', hg', hx⟩ := (hrec x).1 hx
      refine ⟨g', ?_, hx⟩
      unfold group at hg'
      exact List.mem_of_mem_drop (List.mem_of_mem_take hg')
  · rintro ⟨g, hg, hx⟩
    obtain ⟨j, hj⟩ := List.mem_iff_getElem?.1 hg
    have hjl : j < fs.length := (List.getElem?_eq_some_iff.1 hj).1
    have hi : j / k1 < r.length := by
      rw [Nat.div_lt_iff_lt_mul hk0, hl1]
      exact hjl
    refine ⟨r[j / k1], List.getElem_mem hi, .inr ?_⟩
    obtain ⟨_, _, _, _, _, _, _, _, _, hrec⟩ := hf1 (j / k1) r[j / k1] (List.getElem?_eq_getElem hi)
    refine (hrec x).2 ⟨g, List.mem_iff_getElem?.2 ⟨j % k1, ?_⟩, hx⟩
    rw [group_get, if_pos (Nat.mod_lt _ hk0), Nat.div_add_mod, hj]

/-- **C207.** A first stage that succeeds can be followed by a second: its results have complete lists of parents. -/
theorem C207_second_stage {env : Env} {order : List String → List String} (ho : Prov.SetOrder order) {num : Option ℤ} {collapse : String}
    {scaling : Bool} {fs r : List (Frame P L)} (h : combineSub env order num collapse scaling fs = .ok r) (env' : Env) {collapse' : String}
    {c : Collapse} (hc : parseCollapse collapse' = some c) (scaling' : Bool) : ∃ f, combineSub env' order none collapse' scaling' r = .ok [f] := by
  have hcomp : ∀ f ∈ r, Prov.Complete f.prov := by
    obtain ⟨k, c, _, _, _, _, _, r0, hr0, rfl⟩ := C22_success h
    intro f hf
    obtain ⟨f0, hf0, rfl⟩ := List.mem_map.1 hf
    obtain ⟨i, _, first, last, _, _, h3⟩ := forall₂_right (combineLoop_ok hr0) hf0
    unfold combineGroup at h3
    simp only at h3
    split at h3
    · cases h3
    · rename_i pr hpr
      simp only [Except.ok.injEq] at h3
      subst h3
      exact (Prov.C18_recorded ho hpr).2.1
  have hne : r ≠ [] := by
    obtain ⟨k, _, _, _, hl, _⟩ := C22_groups ho h
    obtain ⟨_, _, _, _, _, hne, _⟩ := C22_success h
    rintro rfl
    rw [List.length_nil, Nat.zero_mul] at hl
    exact hne (List.length_eq_zero_iff.1 hl.symm)
  have hr : 0 < r.length := List.length_pos_iff.2 hne
  obtain ⟨s, hs⟩ := C22_succeeds env' order none collapse' scaling' r (k := r.length) rfl hr dvd_rfl hne hc hcomp
  obtain ⟨k2, _, hk2, _, hl2, _⟩ := C22_groups ho hs
  have e2 : k2 = r.length := by simpa using hk2
  subst e2
  have hs1 : s.length = 1 := Nat.eq_of_mul_eq_mul_right hr (by rw [hl2, Nat.one_mul])
  obtain ⟨f, rfl⟩ := List.length_eq_one_iff.1 hs1
  exact ⟨f, hs⟩

/-- Four frames in pairs and then together: `NUM_FR` says 2. -/
example (env : Env) {order : List String → List String} (ho : Prov.SetOrder order) (a b c d : Frame P L)
    (h : ∀ f ∈ [a, b, c, d], Prov.Complete f.prov) : ∃ r f, combineSub env order (some 2) "mean" true [a, b, c, d] = .ok r ∧
      combineSub env order none "mean" true r = .ok [f] ∧ f.ext.card "NUM_FR" = some "2" := by
  have hc : parseCollapse "mean" = some .mean := by decide +kernel
  obtain ⟨r, hr⟩ := C22_succeeds env order (some 2) "mean" true [a, b, c, d] (k := 2) rfl (by omega) (by simp) (by simp) hc h
  obtain ⟨f, hf⟩ := C207_second_stage ho hr env hc true
  obtain ⟨f', he, hn, hl, _⟩ := C207_num_fr ho hr hf
  cases he
  refine ⟨r, f, hr, hf, hn.trans ?_⟩
  have : r.length = 2 := by
    have : (r.length : ℤ) * 2 = 4 := hl
    omega
  rw [this]
  rfl

/-- The samples of `C206_violated_median`: at least three of nine are at most 2, and at least three at least 2. -/
example : 9 ≤ 4 * (goodValues ([[0, 0, 1], [0, 2, 2], [0, 2, 2]].map fun g => g.map one).flatten ()).countP (fun x => decide (2 ≤ x * bothScales false 3 3)) := by
  have hg : ∀ g ∈ ([[0, 0, 1], [0, 2, 2], [0, 2, 2]] : List (List ℝ)).map (fun g => g.map one), (goodValues g ()).length = 3 ∧ g.length = 3 := by
    intro g hg
    obtain ⟨l, hl, rfl⟩ := List.mem_map.1 hg
    rw [one_good, List.length_map]
    simp only [List.mem_cons, List.not_mem_nil, or_false] at hl
    rcases hl with rfl | rfl | rfl <;> exact ⟨rfl, rfl⟩
  have := (C207_rank false (fun g h => (hg g h).2) (fun g h g' h' _ _ => (hg g h).1.trans (hg g' h').1.symm) C206_violated_median.1).2
  refine le_trans (le_of_eq ?_) this
  rw [good_flatten]
  simp [goodValues, one]

/-! ## Wrong frames in two stages -/

theorem bad_groups {ls : List (List ℝ)} {k : ℕ} (hk : ∀ l ∈ ls, l.length = k) (q : ℝ → Bool) :
    (k + 1) / 2 * ls.countP (fun l => decide ¬ l.length < 2 * l.countP q) ≤ ls.flatten.countP fun x => !q x := by
  induction ls with
  | nil => simp
  | cons l ls ih =>
    have ih := ih fun x hx => hk x (List.mem_cons_of_mem _ hx)
    have e := l.length_eq_countP_add_countP q
    have e' : l.countP (fun x => decide ¬ q x = true) = l.countP fun x => !q x := List.countP_congr fun x _ => by simp
    have hl := hk l List.mem_cons_self
    rw [e'] at e
    rw [List.flatten_cons, List.countP_append, List.countP_cons]
    by_cases h : l.length < 2 * l.countP q
    · rw [if_neg (by simpa using h)]
      exact ih.trans (Nat.le_add_left _ _)
    · rw [if_pos (by simpa using h), Nat.mul_add, Nat.mul_one]
      omega

/-- **C207.** A median of medians of `n` groups with `k` valid samples each stays between the right samples if fewer than ⌈k/2⌉·⌈n/2⌉ are wrong. -/
theorem C207_withstands {gs : List (List (Img P L))} {p : P} {k : ℕ} {a b : ℝ} (hk : ∀ g ∈ gs, (goodValues g p).length = k) (hk0 : 0 < k)
    (hw : (goodValues gs.flatten p).countP (fun x => !decide (a ≤ x ∧ x ≤ b)) < (k + 1) / 2 * ((gs.length + 1) / 2)) :
    ∃ v, (staged .median false gs).data p = some v ∧ a ≤ v ∧ v ≤ b := by
  refine C205_groups ?_ fun g hg h0 => ?_
  · have hb := bad_groups (ls := gs.map fun g => goodValues g p) (k := k) (by
      intro l hl
      obtain ⟨g, hg, rfl⟩ := List.mem_map.1 hl
      exact hk g hg) fun x => decide (a ≤ x ∧ x ≤ b)
    rw [← good_flatten, List.countP_map] at hb
    have hlt := Nat.lt_of_mul_lt_mul_left (lt_of_le_of_lt hb hw)
    have e := gs.length_eq_countP_add_countP
      (fun g => decide ((goodValues g p).length < 2 * (goodValues g p).countP fun x => decide (a ≤ x ∧ x ≤ b)))
    have e' : gs.countP (fun g => decide ¬ decide ((goodValues g p).length < 2 * (goodValues g p).countP fun x => decide (a ≤ x ∧ x ≤ b)) = true) =
        gs.countP ((fun l => decide ¬ l.length < 2 * l.countP fun x => decide (a ≤ x ∧ x ≤ b)) ∘ fun g => goodValues g p) :=
      List.countP_congr fun g _ => by simp
    rw [e'] at e
    omega
  · have := hk g hg
    rw [h0] at this
    simp at this
    omega

/-- **C207.** As many wrong samples can give any value: a quarter of all, where the median at once needs half. -/
theorem C207_breaks {k n : ℕ} (hk : 0 < k) (hn : 0 < n) (B : ℝ) :
    ∃ ls : List (List ℝ), ls.length = n ∧ (∀ l ∈ ls, l.length = k) ∧
      ls.flatten.countP (fun x => decide (x ≠ 0)) = (k + 1) / 2 * ((n + 1) / 2) ∧
      ∃ v, (staged .median false (ls.map fun l => l.map one)).data () = some v ∧ B ≤ v := by
  set T : ℝ := 4 * (|B| + 1) with hT
  have hB : B ≤ |B| := le_abs_self B
  have hB0 : 0 ≤ |B| := abs_nonneg B
  have hT0 : T ≠ 0 := by rw [hT]; positivity
  set bad : List ℝ := List.replicate ((k + 1) / 2) T ++ List.replicate (k - (k + 1) / 2) 0 with hbad
  set fine : List ℝ := List.replicate k 0 with hfine
  have lb : bad.length = k := by
    rw [hbad]
    simp
    omega
  have lf : fine.length = k := by simp [hfine]
  have cb : bad.countP (fun x => decide (x ≠ 0)) = (k + 1) / 2 := by
    rw [hbad, List.countP_append, List.countP_replicate, List.countP_replicate]
    simp [hT0]
  have cf : fine.countP (fun x => decide (x ≠ 0)) = 0 := by
    rw [hfine, List.countP_replicate]
    simp
  have hbne : bad ≠ [] := by
    intro h
    rw [h] at lb
    simp at lb
    omega
  have hfne : fine ≠ [] := by
    intro h
    rw [h] at lf
    simp at lf
    omega
  have mb : (0 + T) / 2 ≤ median bad := by
    refine median_half hbne (fun x hx => ?_) (by rw [hT]; positivity) ?_
    · rw [hbad, List.mem_append] at hx
      rcases hx with hx | hx
      · rw [List.eq_of_mem_replicate hx, hT]
        positivity
      · rw [List.eq_of_mem_replicate hx]
    · rw [lb, hbad, List.countP_append, List.countP_replicate]
      simp only [le_refl, decide_true, if_true]
      omega
  have mf : 0 ≤ median fine := by
    refine (median_mem (a := 0) (b := 0) ?_).1
    rw [lf, hfine, List.countP_replicate]
    simp
    omega
  refine ⟨List.replicate ((n + 1) / 2) bad ++ List.replicate (n - (n + 1) / 2) fine, by simp; omega, ?_, ?_, ?_⟩
  · intro l hl
    rw [List.mem_append] at hl
    rcases hl with hl | hl <;> rw [List.eq_of_mem_replicate hl]
    · exact lb
    · exact lf
  · rw [List.flatten_append, List.countP_append, List.countP_flatten, List.countP_flatten, List.map_replicate, List.map_replicate, cb, cf]
    simp
    ring
  · set ls := List.replicate ((n + 1) / 2) bad ++ List.replicate (n - (n + 1) / 2) fine with hls
    have hmem : ∀ l ∈ ls, l = bad ∨ l = fine := fun l hl => by
      rw [hls, List.mem_append] at hl
      exact hl.imp List.eq_of_mem_replicate List.eq_of_mem_replicate
    have hg := groups_good (gs := ls.map fun l => l.map one) (p := ()) (by
      intro g hg
      obtain ⟨l, hl, rfl⟩ := List.mem_map.1 hg
      rw [one_good]
      rcases hmem l hl with rfl | rfl
      · exact hbne
      · exact hfne)
    have hg2 : (ls.map fun l => l.map one).map (fun g => median (goodValues g ())) = ls.map median := by
      rw [List.map_map]
      exact List.map_congr_left fun l _ => by simp [one_good]
    rw [hg2] at hg
    have hlen : ls.length = n := by
      rw [hls]
      simp
      omega
    have hne : ls.map median ≠ [] := by
      intro h
      rw [List.map_eq_nil_iff] at h
      rw [h] at hlen
      simp at hlen
      omega
    refine ⟨_, by
      unfold staged
      rw [combine_data, hg, if_neg hne], ?_⟩
    have hm : (0 + T / 2) / 2 ≤ median (ls.map median) := by
      refine median_half hne (fun x hx => ?_) (by rw [hT]; positivity) ?_
      · obtain ⟨l, hl, rfl⟩ := List.mem_map.1 hx
        rcases hmem l hl with h | h <;> rw [h]
        · refine le_trans ?_ mb
          rw [hT]
          positivity
        · exact mf
      · rw [List.length_map, hlen, hls, List.map_append, List.countP_append, List.map_replicate, List.countP_replicate,
          if_pos (by rw [zero_add] at mb; simpa using mb)]
        omega
    have : B ≤ median (ls.map median) := by
      refine le_trans ?_ hm
      rw [hT]
      linarith
    simpa [scaleFactor] using this

/-- Three groups of three: three wrong samples do no harm. -/
example : ∃ v, (staged .median false ([[0, 9, 9], [0, 0, 0], [0, 0, 9]].map fun g => g.map one)).data () = some v ∧ 0 ≤ v ∧ v ≤ 0 :=
  C207_withstands (k := 3) (by
    intro g hg
    obtain ⟨l, hl, rfl⟩ := List.mem_map.1 hg
    rw [one_good]
    simp only [List.mem_cons, List.not_mem_nil, or_false] at hl
    rcases hl with rfl | rfl | rfl <;> rfl) (by omega) (by
    rw [good_flatten, List.map_map]
    have : ((fun g => goodValues g ()) ∘ fun g : List ℝ => g.map one) = id := funext fun g => one_good g
    rw [this]
    norm_num [List.countP_cons])

end Corgi.Comb

import Verif.Combine.Props

/-!
# Wrong samples without a flag in `combine_images` (C205)

How many frames of a stack may be wrong in a pixel (a cosmic ray that was not found, a glitch) before the combined value can be anything? Flags and
errors of the wrong frames are those of the right ones.
-/

noncomputable section

namespace Corgi.Comb
open Corgi.Nan

variable {P : Type} {L : ℕ}

/-! ## Specification -/

/-- Two stacks with the same flags that differ in pixel `p` in at most `m` frames; a wrong value may be any number or NaN. -/
inductive Spoiled (p : P) : ℕ → List (Img P L) → List (Img P L) → Prop
  | nil (m) : Spoiled p m [] []
  | same {m f f' fs fs'} : f'.dq p = f.dq p → f'.data p = f.data p → Spoiled p m fs fs' → Spoiled p m (f :: fs) (f' :: fs')
  | other {m f f' fs fs'} : f'.dq p = f.dq p → Spoiled p m fs fs' → Spoiled p (m + 1) (f :: fs) (f' :: fs')

/-- The combined value stays within bounds, whichever `m` frames are wrong. -/
def Withstands (c : Collapse) (scaling : Bool) (fs : List (Img P L)) (p : P) (m : ℕ) : Prop :=
  ∃ B : ℝ, ∀ fs', Spoiled p m fs fs' → ∃ v, (combineImages c scaling fs').data p = some v ∧ |v| ≤ B

/-! ## The median -/

/-- A median is in every interval with more than half of the values. -/
theorem median_mem {l : List ℝ} {a b : ℝ} (h : l.length < 2 * l.countP fun x => decide (a ≤ x ∧ x ≤ b)) : a ≤ median l ∧ median l ≤ b := by
  have hl : l ≠ [] := by
    rintro rfl
    simp at h
  obtain ⟨h1, h2⟩ := median_spec l hl
  have key : ∀ q : ℝ → Bool, (∀ x, q x = true → ¬ (a ≤ x ∧ x ≤ b)) → l.countP q + (l.countP fun x => decide (a ≤ x ∧ x ≤ b)) ≤ l.length := by
    intro q hq
    have e := l.length_eq_countP_add_countP (fun x => decide (a ≤ x ∧ x ≤ b))
    have : l.countP q ≤ l.countP fun x => decide ¬ (decide (a ≤ x ∧ x ≤ b) = true) := List.countP_mono_left fun x _ hx => by
      have := hq x hx
      rw [decide_eq_true_eq, decide_eq_true_eq]
      exact this
    omega
  constructor
  · by_contra hlt
    push Not at hlt
    have := key (fun x => decide (x ≤ median l)) (fun x hx => by
      rw [decide_eq_true_eq] at hx
      rintro ⟨h3, -⟩
      linarith)
    omega
  · by_contra hlt
    push Not at hlt
    have := key (fun x => decide (median l ≤ x)) (fun x hx => by
      rw [decide_eq_true_eq] at hx
      rintro ⟨-, h3⟩
      linarith)
    omega

/-- If half of the values are large, the median is at least half as large. -/
theorem median_half {l : List ℝ} {lo T : ℝ} (hl : l ≠ []) (hlo : ∀ x ∈ l, lo ≤ x) (hT : lo ≤ T)
    (h : l.length ≤ 2 * l.countP fun x => decide (T ≤ x)) : (lo + T) / 2 ≤ median l := by
  set s := l.insertionSort (· ≤ ·) with hs
  have hp : s.Perm l := List.perm_insertionSort _ l
  have hlen : s.length = l.length := hp.length_eq
  have hpos : 0 < s.length := by rw [hlen]; exact List.length_pos_of_ne_nil hl
  have hsorted : s.Pairwise (· ≤ ·) := List.pairwise_insertionSort _ l
  have h1 : s.length / 2 < s.length := by omega
  have hbig : T ≤ s[s.length / 2] := by
    by_contra hlt
    push Not at hlt
    have := countP_take (fun x => decide ¬ (decide (T ≤ x) = true)) s (s.length / 2 + 1) (by omega) (by
      intro i hi
      have : s[i] ≤ s[s.length / 2] := by
        rcases Nat.lt_or_ge i (s.length / 2) with h | h
        · exact List.pairwise_iff_getElem.1 hsorted i _ (by omega) h1 h
        · have : i = s.length / 2 := by omega
          subst this; exact le_refl _
      simp only [decide_eq_true_eq, not_le]
      exact this.trans_lt hlt)
    have e := s.length_eq_countP_add_countP (fun x => decide (T ≤ x))
    rw [← hp.countP_eq] at h
    omega
  unfold median
  dsimp only
  rw [← hs]
  split
  · rw [List.getElem?_eq_getElem h1]
    simp only [Option.getD_some]
    linarith
  · have h2 : s.length / 2 - 1 < s.length := by omega
    have := hlo _ (hp.mem_iff.1 (List.getElem_mem h2))
    rw [List.getElem?_eq_getElem h1, List.getElem?_eq_getElem h2]
    simp only [Option.getD_some]
    linarith

/-! ## Counting -/

theorem good_cons (f : Img P L) (fs : List (Img P L)) (p : P) :
    goodValues (f :: fs) p = (if f.dq p = 0 then (f.data p).toList else []) ++ goodValues fs p := by
  unfold goodValues
  by_cases h : f.dq p = 0
  · rw [List.filter_cons_of_pos (by simpa using h), if_pos h, List.filterMap_cons]
    cases f.data p <;> rfl
  · rw [List.filter_cons_of_neg (by simpa using h), if_neg h]
    rfl

theorem count_short (q : ℝ → Bool) (f : Img P L) (p : P) : (if f.dq p = 0 then (f.data p).toList else []).countP q ≤ 1 := by
  refine List.countP_le_length.trans ?_
  split
  · cases f.data p <;> simp
  · simp

theorem spoiled_count {p : P} {m : ℕ} {fs fs' : List (Img P L)} (h : Spoiled p m fs fs') (q : ℝ → Bool) :
    (goodValues fs' p).countP q ≤ (goodValues fs p).countP q + m ∧ (goodValues fs p).countP q ≤ (goodValues fs' p).countP q + m := by
  induction h with
  | nil m => constructor <;> exact Nat.le_add_right _ _
  | same h1 h2 _ ih =>
    rw [good_cons, good_cons, h1, h2, List.countP_append, List.countP_append]
    omega
  | @other m f f' fs fs' h1 _ ih =>
    rw [good_cons, good_cons, List.countP_append, List.countP_append]
    have := count_short q f p
    have := count_short q f' p
    omega

theorem spoiled_length {p : P} {m : ℕ} {fs fs' : List (Img P L)} (h : Spoiled p m fs fs') : fs'.length = fs.length := by
  induction h with
  | nil m => rfl
  | same _ _ _ ih => simp [ih]
  | other _ _ ih => simp [ih]

theorem spoiled_zero {p : P} {fs fs' : List (Img P L)} (h : Spoiled p 0 fs fs') : goodValues fs' p = goodValues fs p := by
  generalize hm : 0 = m at h
  induction h with
  | nil m => rfl
  | same h1 h2 _ ih => rw [good_cons, good_cons, h1, h2, ih hm]
  | other => omega

theorem spoiled_refl (p : P) (m : ℕ) (fs : List (Img P L)) : Spoiled p m fs fs := by
  induction fs with
  | nil => exact .nil m
  | cons f fs ih => exact .same rfl rfl ih

theorem goodValues_ne {fs : List (Img P L)} {p : P} (h : goodValues fs p ≠ []) : (1 : ℝ) ≤ fs.length := by
  have : fs ≠ [] := by
    rintro rfl
    exact h rfl
  exact_mod_cast List.length_pos_of_ne_nil this

theorem scale_ge {fs : List (Img P L)} {p : P} (h : goodValues fs p ≠ []) (scaling : Bool) : 1 ≤ scaleFactor scaling fs := by
  unfold scaleFactor
  split
  · exact goodValues_ne h
  · exact le_rfl

/-- The first `m` valid samples of pixel `p` replaced by `T`. -/
def spoil (p : P) (T : ℝ) : ℕ → List (Img P L) → List (Img P L)
  | 0, fs => fs
  | _ + 1, [] => []
  | m + 1, f :: fs =>
    if f.dq p = 0 ∧ f.data p ≠ none then ⟨fun _ => some T, f.err, f.dq⟩ :: spoil p T m fs else f :: spoil p T (m + 1) fs

theorem spoil_spoiled (p : P) (T : ℝ) (m : ℕ) (fs : List (Img P L)) : Spoiled p m fs (spoil p T m fs) := by
  induction fs generalizing m with
  | nil => cases m <;> exact .nil _
  | cons f fs ih =>
    cases m with
    | zero => exact spoiled_refl p 0 _
    | succ m =>
      unfold spoil
      split
      · exact .other rfl (ih m)
      · exact .same rfl rfl (ih (m + 1))

theorem spoil_good (p : P) (T : ℝ) (m : ℕ) (fs : List (Img P L)) :
    goodValues (spoil p T m fs) p = List.replicate (min m (goodValues fs p).length) T ++ (goodValues fs p).drop m := by
  induction fs generalizing m with
  | nil =>
    cases m <;> simp [spoil, goodValues]
  | cons f fs ih =>
    cases m with
    | zero => simp [spoil]
    | succ m =>
      unfold spoil
      by_cases h : f.dq p = 0
      · cases hd : f.data p with
        | none =>
          rw [if_neg (by simp), good_cons, good_cons, if_pos h, hd, ih]
          simp
        | some x =>
          rw [if_pos ⟨h, by simp⟩, good_cons, good_cons, if_pos h, if_pos h, hd, ih]
          simp [List.replicate_succ, Nat.add_min_add_right]
      · rw [if_neg (by simp [h]), good_cons, good_cons, if_neg h, ih]
        simp

theorem lower_bound (l : List ℝ) : ∃ lo : ℝ, ∀ x ∈ l, lo ≤ x := by
  induction l with
  | nil => exact ⟨0, by simp⟩
  | cons a l ih =>
    obtain ⟨lo, h⟩ := ih
    refine ⟨min a lo, fun x hx => ?_⟩
    rcases List.mem_cons.1 hx with rfl | hx
    · exact min_le_left _ _
    · exact (min_le_right _ _).trans (h x hx)

/-! ## C205 -/

/-- **C205.** With fewer than half of the valid samples wrong, the median is a number in every interval that has all the right values (times the
number of frames, with scaling). -/
theorem C205_within (scaling : Bool) {fs fs' : List (Img P L)} {p : P} {m : ℕ} (h : Spoiled p m fs fs') (hm : 2 * m < (goodValues fs p).length)
    {a b : ℝ} (hab : ∀ x ∈ goodValues fs p, a ≤ x ∧ x ≤ b) :
    ∃ v, (combineImages .median scaling fs').data p = some (v * if scaling then (fs.length : ℝ) else 1) ∧ a ≤ v ∧ v ≤ b := by
  have h1 := (spoiled_count h fun x => decide (a ≤ x ∧ x ≤ b)).2
  have h2 := (spoiled_count h fun x => decide ¬ (decide (a ≤ x ∧ x ≤ b) = true)).1
  have h3 : (goodValues fs p).countP (fun x => decide (a ≤ x ∧ x ≤ b)) = (goodValues fs p).length :=
    List.countP_eq_length.2 fun x hx => by simpa using hab x hx
  have h4 : (goodValues fs p).countP (fun x => decide ¬ (decide (a ≤ x ∧ x ≤ b) = true)) = 0 :=
    List.countP_eq_zero.2 fun x hx => by simpa using hab x hx
  have h5 := (goodValues fs' p).length_eq_countP_add_countP (fun x => decide (a ≤ x ∧ x ≤ b))
  have hne : goodValues fs' p ≠ [] := by
    intro h0
    rw [h0] at h1
    simp only [List.countP_nil] at h1
    omega
  refine ⟨median (goodValues fs' p), ?_, median_mem (by omega)⟩
  rw [combine_data, if_neg hne]
  unfold scaleFactor
  rw [spoiled_length h]

/-- **C205.** The combined median stays within bounds exactly if fewer than half of the valid samples are wrong. -/
theorem C205_median_iff (scaling : Bool) {fs : List (Img P L)} {p : P} (hne : goodValues fs p ≠ []) (m : ℕ) :
    Withstands .median scaling fs p m ↔ 2 * m < (goodValues fs p).length := by
  constructor
  · rintro ⟨B, hB⟩
    by_contra hm
    push Not at hm
    obtain ⟨lo, hlo⟩ := lower_bound (goodValues fs p)
    have hB0 : 0 ≤ B := by
      obtain ⟨v, -, h⟩ := hB fs (spoiled_refl p m fs)
      exact (abs_nonneg v).trans h
    set T := 2 * (B + 1) + |lo| with hT
    obtain ⟨v, hv, hle⟩ := hB _ (spoil_spoiled p T m fs)
    have hg := spoil_good p T m fs
    have hlen : (goodValues (spoil p T m fs) p).length = (goodValues fs p).length := by
      rw [hg]
      simp
      omega
    have hne' : goodValues (spoil p T m fs) p ≠ [] := by
      rw [← List.length_pos_iff, hlen, List.length_pos_iff]
      exact hne
    have hl0 : lo ≤ T := by
      have := le_abs_self lo
      rw [hT]
      linarith
    have hmed := median_half (l := goodValues (spoil p T m fs) p) (lo := lo) (T := T) hne' (by
        rw [hg]
        intro x hx
        rcases List.mem_append.1 hx with hx | hx
        · rw [List.eq_of_mem_replicate hx]
          exact hl0
        · exact hlo x (List.mem_of_mem_drop hx)) hl0 (by
        rw [hlen, hg, List.countP_append, List.countP_replicate, if_pos (by simp)]
        have := List.length_pos_iff.2 hne
        omega)
    rw [combine_data, if_neg hne'] at hv
    simp only [Option.some.injEq] at hv
    have hs := scale_ge hne' scaling
    have h1 : B + 1 ≤ median (goodValues (spoil p T m fs) p) := by
      have := neg_abs_le lo
      rw [hT] at hmed
      linarith
    have h2 : B + 1 ≤ v := by
      rw [← hv]
      nlinarith
    have := le_abs_self v
    linarith
  · intro hm
    obtain ⟨a, ha⟩ := lower_bound (goodValues fs p)
    obtain ⟨b, hb⟩ := lower_bound ((goodValues fs p).map (- ·))
    have hab : ∀ x ∈ goodValues fs p, a ≤ x ∧ x ≤ -b := fun x hx => ⟨ha x hx, by
      have := hb (-x) (List.mem_map.2 ⟨x, hx, rfl⟩)
      linarith⟩
    refine ⟨(|a| + |b|) * scaleFactor scaling fs, fun fs' h => ?_⟩
    obtain ⟨v, hv, h1, h2⟩ := C205_within scaling h hm hab
    refine ⟨_, hv, ?_⟩
    have hs := scale_ge hne scaling
    show |v * scaleFactor scaling fs| ≤ _
    rw [abs_mul, abs_of_nonneg (zero_le_one.trans hs)]
    refine mul_le_mul_of_nonneg_right ?_ (zero_le_one.trans hs)
    rw [abs_le]
    constructor
    · linarith [neg_abs_le a, abs_nonneg b]
    · linarith [neg_abs_le b, abs_nonneg a]

/-- **C205.** The combined mean stays within bounds only if no sample is wrong. -/
theorem C205_mean_iff (scaling : Bool) {fs : List (Img P L)} {p : P} (hne : goodValues fs p ≠ []) (m : ℕ) :
    Withstands .mean scaling fs p m ↔ m = 0 := by
  constructor
  · rintro ⟨B, hB⟩
    by_contra hm
    have hB0 : 0 ≤ B := by
      obtain ⟨v, -, h⟩ := hB fs (spoiled_refl p m fs)
      exact (abs_nonneg v).trans h
    set g := (goodValues fs p).length with hgl
    have hgp : 0 < g := List.length_pos_iff.2 hne
    set S := ((goodValues fs p).drop m).sum with hS
    set k := min m g with hk
    have hk1 : 0 < k := by omega
    set T := (g * (B + 1) - S) / k with hT
    obtain ⟨v, hv, hle⟩ := hB _ (spoil_spoiled p T m fs)
    have hg := spoil_good p T m fs
    have hlen : (goodValues (spoil p T m fs) p).length = g := by
      rw [hg]
      simp
      omega
    have hne' : goodValues (spoil p T m fs) p ≠ [] := by
      rw [← List.length_pos_iff, hlen]
      exact hgp
    have hmean : mean (goodValues (spoil p T m fs) p) = B + 1 := by
      unfold mean
      rw [hlen, hg, List.sum_append, List.sum_replicate, ← hS, ← hgl, ← hk, nsmul_eq_mul, hT]
      have : (k : ℝ) ≠ 0 := by positivity
      have : (g : ℝ) ≠ 0 := by positivity
      field_simp
      ring
    rw [combine_data, if_neg hne'] at hv
    simp only [Option.some.injEq, hmean] at hv
    have hs := scale_ge hne' scaling
    have h2 : B + 1 ≤ v := by
      rw [← hv]
      nlinarith
    have := le_abs_self v
    linarith
  · rintro rfl
    refine ⟨|mean (goodValues fs p) * scaleFactor scaling fs|, fun fs' h => ⟨mean (goodValues fs p) * scaleFactor scaling fs, ?_, le_rfl⟩⟩
    rw [combine_data, spoiled_zero h, if_neg hne]
    unfold scaleFactor
    rw [spoiled_length h]

/-- **C205.** The reported error does not see wrong values: it depends on flags and errors of the frames alone. -/
theorem C205_error_blind (c : Collapse) (scaling : Bool) {fs fs' : List (Img P L)} {p : P} (l : Fin L)
    (h : List.Forall₂ (fun f f' => f'.dq p = f.dq p ∧ f'.err l p = f.err l p) fs fs') :
    (combineImages c scaling fs').err l p = (combineImages c scaling fs).err l p := by
  have h1 : errSq fs' l p = errSq fs l p ∧ nSamples fs' p = nSamples fs p ∧ fs'.length = fs.length := by
    unfold errSq nSamples
    induction h with
    | nil => exact ⟨rfl, rfl, rfl⟩
    | cons h _ ih => simp [h.1, h.2, ih.1, ih.2.1, ih.2.2]
  unfold combineImages
  cases scaling <;> simp [h1]

theorem groups_good {gs : List (List (Img P L))} {p : P} (hne : ∀ g ∈ gs, goodValues g p ≠ []) :
    goodValues (gs.map (combineImages .median false)) p = gs.map fun g => median (goodValues g p) := by
  induction gs with
  | nil => rfl
  | cons g gs ih =>
    rw [List.map_cons, good_cons, ih fun x hx => hne x (List.mem_cons_of_mem _ hx), List.map_cons]
    have hd : (combineImages .median false g).data p = some (median (goodValues g p)) := by
      rw [combine_data, if_neg (hne g List.mem_cons_self)]
      simp [scaleFactor]
    have hq : (combineImages .median false g).dq p = 0 := by
      by_contra hq
      rw [(C20_flags .median false g p).1 hq] at hd
      simp at hd
    rw [if_pos hq, hd]
    rfl

/-- **C205.** Groups that are combined one after the other, each by its median, and then all together: the result is in the interval of the right
values if fewer than half of the groups are *lost*, that is have half or more of their samples outside. -/
theorem C205_groups {gs : List (List (Img P L))} {p : P} {a b : ℝ}
    (h : gs.length < 2 * gs.countP fun g =>
      decide ((goodValues g p).length < 2 * (goodValues g p).countP fun x => decide (a ≤ x ∧ x ≤ b)))
    (hne : ∀ g ∈ gs, goodValues g p ≠ []) :
    ∃ v, (combineImages .median false (gs.map (combineImages .median false))).data p = some v ∧ a ≤ v ∧ v ≤ b := by
  have hgood := groups_good hne
  have hcount : gs.length < 2 * (goodValues (gs.map (combineImages .median false)) p).countP fun x => decide (a ≤ x ∧ x ≤ b) := by
    rw [hgood, List.countP_map]
    refine h.trans_le (Nat.mul_le_mul_left 2 (List.countP_mono_left fun g _ hg => ?_))
    rw [decide_eq_true_eq] at hg
    simpa using median_mem hg
  have hlen : (goodValues (gs.map (combineImages .median false)) p).length = gs.length := by rw [hgood, List.length_map]
  have hne' : goodValues (gs.map (combineImages .median false)) p ≠ [] := by
    rw [← List.length_pos_iff, hlen]
    by_contra h0
    have : gs = [] := List.length_eq_zero_iff.1 (by omega)
    subst this
    simp at h
  refine ⟨median (goodValues (gs.map (combineImages .median false)) p), ?_, median_mem (by rw [hlen]; exact hcount)⟩
  rw [combine_data, if_neg hne']
  simp [scaleFactor]

/-! ## Non-vacuity and a limit of groups -/

/-- A frame with one value. -/
def one (x : ℝ) : Img Unit 0 := ⟨fun _ => some x, Fin.elim0, fun _ => 0⟩

theorem one_good (l : List ℝ) : goodValues (l.map one) () = l := by
  induction l with
  | nil => rfl
  | cons x l ih =>
    rw [List.map_cons, good_cons, ih]
    rfl

/-- Five frames withstand two wrong ones, but not three. -/
example : Withstands .median true ([1, 1, 2, 2, 3].map one) () 2 ∧ ¬ Withstands .median true ([1, 1, 2, 2, 3].map one) () 3 ∧
    ¬ Withstands .mean true ([1, 1, 2, 2, 3].map one) () 1 := by
  have h : goodValues ([1, 1, 2, 2, 3].map one) () ≠ [] := by rw [one_good]; simp
  rw [C205_median_iff _ h, C205_median_iff _ h, C205_mean_iff _ h, one_good]
  simp

/-- Two groups with one wrong frame of three, one group that is lost: the result is right. -/
example : ∃ v, (combineImages .median false (([[0, 9, 0], [0, 0, 9], [9, 9, 9]].map fun g => g.map one).map (combineImages .median false))).data () =
    some v ∧ 0 ≤ v ∧ v ≤ 0 := by
  refine C205_groups ?_ ?_
  · simp only [List.map_cons, List.map_nil, List.countP_cons, List.countP_nil, good_cons, one]
    norm_num [goodValues]
  · intro g hg
    obtain ⟨l, hl, rfl⟩ := List.mem_map.1 hg
    rw [one_good]
    rintro rfl
    simp at hl

theorem median_three {a b c : ℝ} (h1 : a ≤ b) (h2 : b ≤ c) : median [a, b, c] = b := by
  have : [a, b, c].insertionSort (· ≤ ·) = [a, b, c] := List.Pairwise.insertionSort_eq (by simp [h1, h2, h1.trans h2])
  unfold median
  dsimp only
  rw [this]
  simp

/-- **C205.** Groups stand less than the whole: nine right frames of value 0 withstand four wrong ones in one median, but if they are combined in
three groups of three first, four wrong frames give any value. -/
theorem C205_violated_groups (T : ℝ) (hT : 0 ≤ T) :
    Withstands .median false ((List.replicate 9 0).map one) () 4 ∧
    (combineImages .median false ([[0, 0, 0], [0, T, T], [0, T, T]].map fun g => combineImages .median false (g.map one))).data () = some T := by
  refine ⟨?_, ?_⟩
  · have h : goodValues ((List.replicate 9 0).map one) () ≠ [] := by rw [one_good]; simp
    rw [C205_median_iff _ h, one_good]
    simp
  · have hg : goodValues ([[0, 0, 0], [0, T, T], [0, T, T]].map fun g => combineImages .median false (g.map one)) () = [0, T, T] := by
      have := groups_good (gs := [[0, 0, 0], [0, T, T], [0, T, T]].map fun g => g.map one) (p := ()) (by
        intro g hg
        obtain ⟨l, hl, rfl⟩ := List.mem_map.1 hg
        rw [one_good]
        rintro rfl
        simp at hl)
      rw [List.map_map, List.map_map] at this
      refine this.trans ?_
      show [median (goodValues (([0, 0, 0] : List ℝ).map one) ()), median (goodValues ([0, T, T].map one) ()),
        median (goodValues ([0, T, T].map one) ())] = _
      rw [one_good, one_good, median_three le_rfl le_rfl, median_three hT le_rfl]
    rw [combine_data, hg, if_neg (by simp)]
    simp [scaleFactor, median_three hT le_rfl]

end Corgi.Comb

import Verif.Combine.Robust
import Verif.Common.Forall2

/-!
# Combining in two stages (C206)

`combine_subexposures` on the groups of a dataset and then on its own result (combine.py 53-108), compared with combining all frames at once.
-/

noncomputable section

namespace Corgi.Comb
open Corgi.Nan

variable {P : Type} {L : ℕ}

/-- Groups of frames, each combined, and the results combined again. -/
def staged (c : Collapse) (scaling : Bool) (gs : List (List (Img P L))) : Img P L :=
  combineImages c scaling (gs.map (combineImages c scaling))

/-! ## Specification -/

/-- The same valid samples in the pixel, with other values. -/
def SamePattern (p : P) (f f' : Img P L) : Prop := f'.dq p = f.dq p ∧ (f'.data p = none ↔ f.data p = none)

/-- All groups with a valid sample have equally many. -/
def Balanced (gs : List (List (Img P L))) (p : P) : Prop :=
  ∀ g ∈ gs, ∀ g' ∈ gs, goodValues g p ≠ [] → goodValues g' p ≠ [] → (goodValues g p).length = (goodValues g' p).length

/-! ## Lists of lists -/

theorem flatten_filter (ls : List (List ℝ)) : (ls.filter (· ≠ [])).flatten = ls.flatten := by
  induction ls with
  | nil => rfl
  | cons l ls ih =>
    by_cases h : l = []
    · subst h
      rw [List.filter_cons_of_neg (by simp), ih]
      rfl
    · rw [List.filter_cons_of_pos (by simpa using h), List.flatten_cons, List.flatten_cons, ih]

theorem flatten_length {ls : List (List ℝ)} {c : ℕ} (h : ∀ l ∈ ls, l.length = c) : ls.flatten.length = ls.length * c := by
  induction ls with
  | nil => simp
  | cons l ls ih =>
    rw [List.flatten_cons, List.length_append, ih fun x hx => h x (List.mem_cons_of_mem _ hx), h l List.mem_cons_self, List.length_cons]
    ring

theorem sum_means {ls : List (List ℝ)} {c : ℕ} (h : ∀ l ∈ ls, l.length = c) : (ls.map mean).sum = ls.flatten.sum / c := by
  induction ls with
  | nil => simp
  | cons l ls ih =>
    rw [List.map_cons, List.sum_cons, List.flatten_cons, List.sum_append, ih fun x hx => h x (List.mem_cons_of_mem _ hx)]
    unfold mean
    rw [h l List.mem_cons_self]
    ring

theorem mean_means {ls : List (List ℝ)} {c : ℕ} (h : ∀ l ∈ ls, l.length = c) : mean (ls.map mean) = mean ls.flatten := by
  unfold mean
  rw [flatten_length h, List.length_map]
  have := sum_means h
  unfold mean at this
  rw [this]
  push_cast
  rw [div_div, mul_comm]

theorem mean_mul (l : List ℝ) (s : ℝ) : mean (l.map (· * s)) = mean l * s := by
  unfold mean
  rw [List.length_map, List.sum_map_mul_right]
  simp only [List.map_id']
  ring

theorem sum_squares (l : List ℝ) (s : ℝ) : ((l.map (· * s)).map (· ^ 2)).sum = (l.map (· ^ 2)).sum * s ^ 2 := by
  induction l with
  | nil => simp
  | cons x l ih =>
    simp only [List.map_cons, List.sum_cons] at ih ⊢
    rw [ih]
    ring

theorem se_mul (l : List ℝ) {s : ℝ} (hs : 0 ≤ s) : standardError (l.map (· * s)) = standardError l * s := by
  unfold standardError
  rw [sum_squares, Real.sqrt_mul (sum_sq_nonneg l), Real.sqrt_sq hs, List.length_map]
  ring

theorem sum_se {ls : List (List ℝ)} {c : ℕ} (h : ∀ l ∈ ls, l.length = c) :
    ((ls.map standardError).map (· ^ 2)).sum = (ls.flatten.map (· ^ 2)).sum / (c : ℝ) ^ 2 := by
  induction ls with
  | nil => simp
  | cons l ls ih =>
    rw [List.map_cons, List.map_cons, List.sum_cons, List.flatten_cons, List.map_append, List.sum_append,
      ih fun x hx => h x (List.mem_cons_of_mem _ hx)]
    unfold standardError
    rw [h l List.mem_cons_self, div_pow, Real.sq_sqrt (sum_sq_nonneg l)]
    ring

theorem se_se {ls : List (List ℝ)} {c : ℕ} (h : ∀ l ∈ ls, l.length = c) : standardError (ls.map standardError) = standardError ls.flatten := by
  unfold standardError
  have := sum_se h
  unfold standardError at this
  rw [this, flatten_length h, Real.sqrt_div' _ (by positivity), Real.sqrt_sq (by positivity), List.length_map]
  push_cast
  rw [div_div, mul_comm]

/-! ## Groups -/

theorem good_flatten (gs : List (List (Img P L))) (p : P) : goodValues gs.flatten p = (gs.map fun g => goodValues g p).flatten := by
  unfold goodValues
  induction gs with
  | nil => rfl
  | cons g gs ih =>
    rw [List.flatten_cons, List.filter_append, List.filterMap_append, List.map_cons, List.flatten_cons, ih]

theorem unflagged_flatten (gs : List (List (Img P L))) (p : P) : unflagged gs.flatten p = (gs.map fun g => unflagged g p).flatten := by
  unfold unflagged
  induction gs with
  | nil => rfl
  | cons g gs ih => rw [List.flatten_cons, List.filter_append, List.map_cons, List.flatten_cons, ih]

theorem errs_flatten (gs : List (List (Img P L))) (l : Fin L) (p : P) : goodErrs gs.flatten l p = (gs.map fun g => goodErrs g l p).flatten := by
  unfold goodErrs
  rw [unflagged_flatten]
  induction gs with
  | nil => rfl
  | cons g gs ih => rw [List.map_cons, List.flatten_cons, List.filterMap_append, ih, List.map_cons, List.flatten_cons]

theorem errs_cons (f : Img P L) (fs : List (Img P L)) (l : Fin L) (p : P) :
    goodErrs (f :: fs) l p = (if f.dq p = 0 then (f.err l p).toList else []) ++ goodErrs fs l p := by
  unfold goodErrs unflagged
  by_cases h : f.dq p = 0
  · rw [List.filter_cons_of_pos (by simpa using h), if_pos h, List.filterMap_cons]
    cases f.err l p <;> rfl
  · rw [List.filter_cons_of_neg (by simpa using h), if_neg h]
    rfl

theorem scale_flatten {gs : List (List (Img P L))} {k : ℕ} (hk : ∀ g ∈ gs, g.length = k) (scaling : Bool) :
    scaleFactor scaling gs.flatten = (if scaling then (k : ℝ) else 1) * if scaling then (gs.length : ℝ) else 1 := by
  have : gs.flatten.length = gs.length * k := by
    induction gs with
    | nil => simp
    | cons g gs ih =>
      rw [List.flatten_cons, List.length_append, ih fun x hx => hk x (List.mem_cons_of_mem _ hx), hk g List.mem_cons_self, List.length_cons]
      ring
  unfold scaleFactor
  cases scaling
  · simp
  · simp only [if_true]
    rw [this]
    push_cast
    ring

/-- The value of a combined group. -/
def valueOf (c : Collapse) (l : List ℝ) : ℝ := match c with
  | .mean => mean l
  | .median => median l

theorem combined_dq {c : Collapse} {scaling : Bool} {g : List (Img P L)} {p : P} (h : goodValues g p ≠ []) : (combineImages c scaling g).dq p = 0 := by
  by_contra hq
  exact h ((C20_nan_iff c scaling g p).1 ((C20_flags c scaling g p).1 hq))

theorem staged_good (c : Collapse) (scaling : Bool) {gs : List (List (Img P L))} {k : ℕ} (hk : ∀ g ∈ gs, g.length = k) (p : P) :
    goodValues (gs.map (combineImages c scaling)) p =
      (((gs.map fun g => goodValues g p).filter (· ≠ [])).map (valueOf c)).map (· * if scaling then (k : ℝ) else 1) := by
  induction gs with
  | nil => rfl
  | cons g gs ih =>
    rw [List.map_cons, good_cons, ih fun x hx => hk x (List.mem_cons_of_mem _ hx), List.map_cons]
    by_cases h : goodValues g p = []
    · rw [(C20_nan_iff c scaling g p).2 h, List.filter_cons_of_neg (by simpa using h)]
      split <;> rfl
    · rw [if_pos (combined_dq h), combine_data, if_neg h, List.filter_cons_of_pos (by simpa using h), List.map_cons, List.map_cons]
      unfold scaleFactor valueOf
      rw [hk g List.mem_cons_self]
      cases c <;> rfl

theorem good_empty {gs : List (List (Img P L))} {p : P} : goodValues gs.flatten p = [] ↔ (gs.map fun g => goodValues g p).filter (· ≠ []) = [] := by
  rw [good_flatten, List.flatten_eq_nil_iff, List.filter_eq_nil_iff]
  simp

theorem staged_data (c : Collapse) (scaling : Bool) {gs : List (List (Img P L))} {k : ℕ} (hk : ∀ g ∈ gs, g.length = k) (p : P) :
    (staged c scaling gs).data p = if goodValues gs.flatten p = [] then none
      else some (valueOf c ((((gs.map fun g => goodValues g p).filter (· ≠ [])).map (valueOf c)).map (· * if scaling then (k : ℝ) else 1)) *
        if scaling then (gs.length : ℝ) else 1) := by
  unfold staged
  rw [combine_data, staged_good c scaling hk p]
  by_cases h : goodValues gs.flatten p = []
  · rw [if_pos h, if_pos (by rw [good_empty.1 h]; rfl)]
  · rw [if_neg h, if_neg (by
      intro h0
      rw [List.map_eq_nil_iff, List.map_eq_nil_iff] at h0
      exact h (good_empty.2 h0))]
    unfold scaleFactor valueOf
    rw [List.length_map]
    cases c <;> rfl

/-! ## C206 -/

/-- **C206.** NaN and flags are the same in two stages as at once, for mean and median. -/
theorem C206_flags (c : Collapse) (scaling : Bool) {gs : List (List (Img P L))} {k : ℕ} (hk : ∀ g ∈ gs, g.length = k) (p : P) :
    ((staged c scaling gs).data p = none ↔ (combineImages c scaling gs.flatten).data p = none) ∧
    (staged c scaling gs).dq p = (combineImages c scaling gs.flatten).dq p := by
  have h1 : (staged c scaling gs).data p = none ↔ goodValues gs.flatten p = [] := by
    rw [staged_data c scaling hk p]
    split <;> simp_all
  refine ⟨h1.trans (C20_nan_iff c scaling _ p).symm, ?_⟩
  by_cases h : goodValues gs.flatten p = []
  · rw [(C20_flags c scaling gs.flatten p).2 ((C20_nan_iff c scaling _ p).2 h)]
    have h2 := (C20_flags c scaling (gs.map (combineImages c scaling)) p).2 (h1.2 h)
    refine h2.trans (Nat.eq_of_testBit_eq fun b => ?_)
    rw [Bool.eq_iff_iff, C20_flag_bits, C20_flag_bits]
    have hall : ∀ g ∈ gs, (combineImages c scaling g).dq p = allFlags g p := fun g hg => by
      refine (C20_flags c scaling g p).2 ((C20_nan_iff c scaling g p).2 ?_)
      rw [good_flatten, List.flatten_eq_nil_iff] at h
      exact h _ (List.mem_map.2 ⟨g, hg, rfl⟩)
    constructor
    · rintro ⟨f, hf, hb⟩
      obtain ⟨g, hg, rfl⟩ := List.mem_map.1 hf
      rw [hall g hg, C20_flag_bits] at hb
      obtain ⟨f, hf, hb⟩ := hb
      exact ⟨f, List.mem_flatten.2 ⟨g, hg, hf⟩, hb⟩
    · rintro ⟨f, hf, hb⟩
      obtain ⟨g, hg, hf⟩ := List.mem_flatten.1 hf
      refine ⟨_, List.mem_map.2 ⟨g, hg, rfl⟩, ?_⟩
      rw [hall g hg, C20_flag_bits]
      exact ⟨f, hf, hb⟩
  · rw [combined_dq h]
    refine combined_dq ?_
    exact fun h0 => h (h1.1 ((C20_nan_iff c scaling _ p).2 h0))

/-- **C206.** The mean in two stages is the mean at once if all groups with a valid sample have equally many. -/
theorem C206_mean (scaling : Bool) {gs : List (List (Img P L))} {k : ℕ} (hk : ∀ g ∈ gs, g.length = k) {p : P} (hb : Balanced gs p) :
    (staged .mean scaling gs).data p = (combineImages .mean scaling gs.flatten).data p := by
  rw [staged_data .mean scaling hk p, combine_data]
  by_cases h : goodValues gs.flatten p = []
  · rw [if_pos h, if_pos h]
  · rw [if_neg h, if_neg h, scale_flatten hk]
    congr 1
    show mean _ * _ = mean _ * _
    set ls := (gs.map fun g => goodValues g p).filter (· ≠ []) with hls
    have hlen : ∃ c, ∀ l ∈ ls, l.length = c := by
      cases hl : ls with
      | nil => exact ⟨0, by simp⟩
      | cons l0 l' =>
        have hmem : ∀ l ∈ ls, ∃ g ∈ gs, goodValues g p = l ∧ l ≠ [] := fun l h => by
          rw [hls, List.mem_filter] at h
          obtain ⟨g, hg, rfl⟩ := List.mem_map.1 h.1
          exact ⟨g, hg, rfl, by simpa using h.2⟩
        obtain ⟨g0, hg0, h0, h0'⟩ := hmem l0 (by rw [hl]; exact List.mem_cons_self)
        refine ⟨l0.length, fun l h => ?_⟩
        obtain ⟨g, hg, h1, h1'⟩ := hmem l (by rw [hl]; exact h)
        rw [← h1, ← h0]
        exact hb g hg g0 hg0 (by rw [h1]; exact h1') (by rw [h0]; exact h0')
    obtain ⟨c, hc⟩ := hlen
    rw [mean_mul]
    show mean (ls.map mean) * _ * _ = _
    rw [mean_means hc, hls, flatten_filter, ← good_flatten, mul_assoc]

/-- Other values for the valid samples of a pixel: `x` in every one. -/
def setTo (x : ℝ) (f : Img P L) : Img P L := ⟨fun q => (f.data q).map fun _ => x, f.err, f.dq⟩

theorem setTo_good (p : P) (x : ℝ) (g : List (Img P L)) : goodValues (g.map (setTo x)) p = List.replicate (goodValues g p).length x := by
  induction g with
  | nil => rfl
  | cons f g ih =>
    rw [List.map_cons, good_cons, good_cons, ih]
    show (if f.dq p = 0 then ((f.data p).map fun _ => x).toList else []) ++ _ = _
    split
    · cases f.data p <;> simp [List.replicate_succ]
    · simp

/-- The lists of valid samples of groups. -/
def goods (gs : List (List (Img P L))) (p : P) : List (List ℝ) := (gs.map fun g => goodValues g p).filter (· ≠ [])

theorem goods_append (gs gs' : List (List (Img P L))) (p : P) : goods (gs ++ gs') p = goods gs p ++ goods gs' p := by
  unfold goods
  rw [List.map_append, List.filter_append]

theorem goods_cons {g : List (Img P L)} {p : P} (h : goodValues g p ≠ []) (gs : List (List (Img P L))) :
    goods (g :: gs) p = goodValues g p :: goods gs p := by
  unfold goods
  rw [List.map_cons, List.filter_cons_of_pos (by simpa using h)]

theorem zero_goods (gs : List (List (Img P L))) (p : P) :
    ((goods (gs.map fun g => g.map (setTo 0)) p).map mean).sum = 0 ∧
    (goods (gs.map fun g => g.map (setTo 0)) p).length = (goods gs p).length ∧
    (goodValues (gs.map fun g => g.map (setTo 0)).flatten p).sum = 0 ∧
    (goodValues (gs.map fun g => g.map (setTo 0)).flatten p).length = (goodValues gs.flatten p).length := by
  simp only [good_flatten]
  induction gs with
  | nil => simp [goods]
  | cons g gs ih =>
    obtain ⟨h1, h2, h3, h4⟩ := ih
    simp only [goods, List.map_cons, List.flatten_cons, List.sum_append, List.length_append, setTo_good] at h1 h2 h3 h4 ⊢
    refine ⟨?_, ?_, ?_, ?_⟩
    · by_cases h : goodValues g p = []
      · rw [h, List.length_nil, List.replicate_zero, List.filter_cons_of_neg (by simp)]
        exact h1
      · rw [List.filter_cons_of_pos (by simpa using h), List.map_cons, List.sum_cons, h1]
        simp [mean]
    · by_cases h : goodValues g p = []
      · rw [h, List.length_nil, List.replicate_zero, List.filter_cons_of_neg (by simp), List.filter_cons_of_neg (by simp)]
        exact h2
      · rw [List.filter_cons_of_pos (by simpa using h), List.filter_cons_of_pos (by simpa using h), List.length_cons, List.length_cons, h2]
    · rw [h3]
      simp
    · rw [h4]
      simp

theorem setTo_pattern (p : P) (x : ℝ) (g : List (Img P L)) : List.Forall₂ (SamePattern p) g (g.map (setTo x)) := by
  induction g with
  | nil => exact .nil
  | cons f g ih => exact .cons ⟨rfl, by simp [setTo]⟩ ih

theorem zero_pattern (p : P) (gs : List (List (Img P L))) : List.Forall₂ (List.Forall₂ (SamePattern p)) gs (gs.map fun g => g.map (setTo 0)) := by
  induction gs with
  | nil => exact .nil
  | cons g gs ih => exact .cons (setTo_pattern p 0 g) ih

/-- If two stages and one agree for the value 1 in one group and 0 elsewhere, this group has its share of the samples. -/
theorem share {scaling : Bool} {gs : List (List (Img P L))} {k : ℕ} (hk : ∀ g ∈ gs, g.length = k) {p : P}
    (h : ∀ gs', List.Forall₂ (List.Forall₂ (SamePattern p)) gs gs' →
      (staged .mean scaling gs').data p = (combineImages .mean scaling gs'.flatten).data p)
    {g : List (Img P L)} (hg : g ∈ gs) (hne : goodValues g p ≠ []) :
    (goodValues g p).length * (goods gs p).length = (goodValues gs.flatten p).length := by
  obtain ⟨a, b, rfl⟩ := List.append_of_mem hg
  set gs' := (a.map fun g => g.map (setTo 0)) ++ g.map (setTo 1) :: b.map fun g => g.map (setTo 0) with hgs'
  have hpat : List.Forall₂ (List.Forall₂ (SamePattern p)) (a ++ g :: b) gs' :=
    List.rel_append (zero_pattern p a) (.cons (setTo_pattern p 1 g) (zero_pattern p b))
  have hk' : ∀ x ∈ gs', x.length = k := by
    intro x hx
    obtain ⟨y, hy, hr⟩ := forall₂_right hpat hx
    rw [← hr.length_eq]
    exact hk y hy
  obtain ⟨a1, a2, a3, a4⟩ := zero_goods a p
  obtain ⟨b1, b2, b3, b4⟩ := zero_goods b p
  have hg1 := setTo_good p 1 g
  have hne1 : goodValues (g.map (setTo 1)) p ≠ [] := by
    rw [hg1]
    simpa using hne
  have c1 : ((goods gs' p).map mean).sum = 1 := by
    rw [hgs', goods_append, goods_cons hne1, List.map_append, List.sum_append, List.map_cons, List.sum_cons, a1, b1, hg1]
    have : ((goodValues g p).length : ℝ) ≠ 0 := by
      have := List.length_pos_iff.2 hne
      positivity
    unfold mean
    rw [List.sum_replicate, List.length_replicate, nsmul_eq_mul, mul_one, div_self this]
    ring
  have c2 : (goods gs' p).length = (goods (a ++ g :: b) p).length := by
    rw [hgs', goods_append, goods_append, goods_cons hne1, goods_cons hne]
    simp [a2, b2]
  have hfl : goodValues gs'.flatten p = goodValues (a.map fun g => g.map (setTo 0)).flatten p ++ (goodValues (g.map (setTo 1)) p ++
      goodValues (b.map fun g => g.map (setTo 0)).flatten p) := by
    rw [hgs', good_flatten, good_flatten, good_flatten, List.map_append, List.flatten_append, List.map_cons, List.flatten_cons]
  have c3 : (goodValues gs'.flatten p).sum = (goodValues g p).length := by
    rw [hfl, List.sum_append, List.sum_append, a3, b3, hg1]
    simp
  have c4 : (goodValues gs'.flatten p).length = (goodValues (a ++ g :: b).flatten p).length := by
    rw [hfl, List.length_append, List.length_append, a4, b4, hg1, good_flatten, good_flatten, good_flatten, List.map_append, List.flatten_append,
      List.map_cons, List.flatten_cons]
    simp
  have hne' : goodValues gs'.flatten p ≠ [] := by
    rw [hfl]
    simp [hne1]
  have hk0 : 0 < k := by
    rw [← hk g hg]
    refine List.length_pos_iff.2 ?_
    rintro rfl
    exact hne rfl
  have hgl : 0 < gs'.length := by simp [hgs']
  have h := h gs' hpat
  rw [staged_data .mean scaling hk' p, combine_data, if_neg hne', if_neg hne', scale_flatten hk'] at h
  have h : mean (((goods gs' p).map mean).map (· * if scaling then (k : ℝ) else 1)) * (if scaling then (gs'.length : ℝ) else 1) =
      mean (goodValues gs'.flatten p) * ((if scaling then (k : ℝ) else 1) * if scaling then (gs'.length : ℝ) else 1) := Option.some.inj h
  rw [mean_mul, mul_assoc] at h
  have hs : ((if scaling then (k : ℝ) else 1) * if scaling then (gs'.length : ℝ) else 1) ≠ 0 := by
    cases scaling
    · simp
    · simp only [if_true]
      positivity
  have h := mul_right_cancel₀ hs h
  unfold mean at h c1
  rw [List.length_map, c1, c2, c3, c4] at h
  have p1 : (0 : ℝ) < (goods (a ++ g :: b) p).length := by
    rw [goods_append, goods_cons hne]
    simp
    positivity
  have p2 : (0 : ℝ) < (goodValues (a ++ g :: b).flatten p).length := by
    rw [← c4]
    exact_mod_cast List.length_pos_iff.2 hne'
  rw [div_eq_div_iff p1.ne' p2.ne', one_mul] at h
  exact_mod_cast h.symm

/-- **C206.** The mean in two stages agrees with the mean at once for all values of the valid samples exactly if all groups with a valid sample have
equally many. -/
theorem C206_mean_iff (scaling : Bool) {gs : List (List (Img P L))} {k : ℕ} (hk : ∀ g ∈ gs, g.length = k) (p : P) :
    (∀ gs', List.Forall₂ (List.Forall₂ (SamePattern p)) gs gs' →
      (staged .mean scaling gs').data p = (combineImages .mean scaling gs'.flatten).data p) ↔ Balanced gs p := by
  constructor
  · intro h g hg g' hg' hne hne'
    have h1 := share hk h hg hne
    have h2 := share hk h hg' hne'
    have hpos : 0 < (goods gs p).length := by
      refine List.length_pos_iff.2 ?_
      intro h0
      have : goodValues g p ∈ goods gs p := List.mem_filter.2 ⟨List.mem_map.2 ⟨g, hg, rfl⟩, by simpa using hne⟩
      rw [h0] at this
      simp at this
    exact Nat.eq_of_mul_eq_mul_right hpos (h1.trans h2.symm)
  · intro hb gs' hp
    have hlen : ∀ {g g' : List (Img P L)}, List.Forall₂ (SamePattern p) g g' → (goodValues g' p).length = (goodValues g p).length := by
      intro g g' hg
      induction hg with
      | nil => rfl
      | @cons f f' g g' h _ ih =>
        rw [good_cons, good_cons, List.length_append, List.length_append, ih, h.1]
        split
        · cases hf : f.data p <;> cases hf' : f'.data p <;> simp_all [SamePattern]
        · rfl
    have hk' : ∀ x ∈ gs', x.length = k := by
      intro x hx
      obtain ⟨y, hy, hr⟩ := forall₂_right hp hx
      rw [← hr.length_eq]
      exact hk y hy
    refine C206_mean scaling hk' fun x hx x' hx' h1 h2 => ?_
    obtain ⟨y, hy, hr⟩ := forall₂_right hp hx
    obtain ⟨y', hy', hr'⟩ := forall₂_right hp hx'
    rw [hlen hr, hlen hr']
    refine hb y hy y' hy' ?_ ?_
    · rwa [← List.length_pos_iff, ← hlen hr, List.length_pos_iff]
    · rwa [← List.length_pos_iff, ← hlen hr', List.length_pos_iff]

/-! ## Errors -/

/-- Unflagged samples are numbers with numbers as errors. -/
def Sound (g : List (Img P L)) (l : Fin L) (p : P) : Prop := ∀ f ∈ g, f.dq p = 0 → f.data p ≠ none ∧ f.err l p ≠ none

theorem sound_lengths {g : List (Img P L)} {l : Fin L} {p : P} (h : Sound g l p) :
    (goodValues g p).length = (unflagged g p).length ∧ (goodErrs g l p).length = (unflagged g p).length := by
  induction g with
  | nil => exact ⟨rfl, rfl⟩
  | cons f g ih =>
    obtain ⟨h1, h2⟩ := ih fun x hx => h x (List.mem_cons_of_mem _ hx)
    rw [good_cons, errs_cons, List.length_append, List.length_append, h1, h2]
    unfold unflagged
    by_cases hf : f.dq p = 0
    · obtain ⟨a, b⟩ := h f List.mem_cons_self hf
      obtain ⟨x, hx⟩ := Option.ne_none_iff_exists'.1 a
      obtain ⟨y, hy⟩ := Option.ne_none_iff_exists'.1 b
      rw [List.filter_cons_of_pos (by simpa using hf), if_pos hf, if_pos hf, hx, hy]
      simp [Nat.add_comm]
    · rw [List.filter_cons_of_neg (by simpa using hf), if_neg hf, if_neg hf]
      simp

/-- The factor of the error for mean and median. -/
def factor (c : Collapse) : ℝ := match c with
  | .mean => 1
  | .median => Real.sqrt (Real.pi / 2)

theorem factor_nonneg (c : Collapse) : 0 ≤ factor c := by
  cases c
  · exact zero_le_one
  · exact Real.sqrt_nonneg _

theorem sound_err (c : Collapse) (scaling : Bool) {g : List (Img P L)} {l : Fin L} {p : P} (h : Sound g l p) (hne : goodErrs g l p ≠ []) :
    (combineImages c scaling g).err l p = some (standardError (goodErrs g l p) * (factor c * if scaling then (g.length : ℝ) else 1)) := by
  have hl := (sound_lengths h).2
  obtain ⟨h1, h2, -⟩ := C21_standard_error_partial scaling g l p (by
    intro h0
    rw [h0] at hl
    exact hne (List.length_eq_zero_iff.1 hl)) (fun f hf => by
    rw [unflagged, List.mem_filter] at hf
    exact (h f hf.1 (by simpa using hf.2)).2)
  cases c
  · rw [h1]
    simp [factor]
  · rw [h2]
    simp [factor, mul_assoc]

theorem all_flagged {g : List (Img P L)} {p : P} (hne : g ≠ []) (h : unflagged g p = []) : allFlags g p ≠ 0 := by
  intro h0
  obtain ⟨f, hf⟩ := List.exists_mem_of_ne_nil g hne
  have hz : f.dq p = 0 := Nat.eq_of_testBit_eq fun b => by
    rw [Nat.zero_testBit]
    by_contra hb
    have := (C20_flag_bits g p b).2 ⟨f, hf, by simpa using hb⟩
    rw [h0, Nat.zero_testBit] at this
    simp at this
  have : f ∈ unflagged g p := List.mem_filter.2 ⟨hf, by simpa using hz⟩
  rw [h] at this
  simp at this

theorem staged_errs (c : Collapse) (scaling : Bool) {gs : List (List (Img P L))} {k : ℕ} (hk : ∀ g ∈ gs, g.length = k) {l : Fin L} {p : P}
    (hs : ∀ g ∈ gs, Sound g l p) :
    goodErrs (gs.map (combineImages c scaling)) l p =
      (((gs.map fun g => goodErrs g l p).filter (· ≠ [])).map standardError).map (· * (factor c * if scaling then (k : ℝ) else 1)) := by
  induction gs with
  | nil => rfl
  | cons g gs ih =>
    rw [List.map_cons, errs_cons, ih (fun x hx => hk x (List.mem_cons_of_mem _ hx)) (fun x hx => hs x (List.mem_cons_of_mem _ hx)), List.map_cons]
    have hg := hs g List.mem_cons_self
    obtain ⟨l1, l2⟩ := sound_lengths hg
    by_cases h : goodErrs g l p = []
    · rw [combine_err, if_pos h, List.filter_cons_of_neg (by simpa using h)]
      split <;> rfl
    · have hv : goodValues g p ≠ [] := by
        rw [← List.length_pos_iff, l1, ← l2, List.length_pos_iff]
        exact h
      rw [if_pos (combined_dq hv), sound_err c scaling hg h, List.filter_cons_of_pos (by simpa using h), List.map_cons, List.map_cons,
        hk g List.mem_cons_self]
      rfl

/-- **C206.** Errors in two stages, if the unflagged samples are numbers and all groups with a valid sample have equally many: for the mean the same
as at once, for the median larger by the factor √(π/2). -/
theorem C206_error (c : Collapse) (scaling : Bool) {gs : List (List (Img P L))} {k : ℕ} (hk : ∀ g ∈ gs, g.length = k) {l : Fin L} {p : P}
    (hs : ∀ g ∈ gs, Sound g l p) (hb : Balanced gs p) :
    (staged c scaling gs).err l p = ((combineImages c scaling gs.flatten).err l p).map (· * factor c) := by
  have hflat : Sound gs.flatten l p := fun f hf => by
    obtain ⟨g, hg, hf⟩ := List.mem_flatten.1 hf
    exact hs g hg f hf
  have hE := staged_errs c scaling hk hs
  set ls := (gs.map fun g => goodErrs g l p).filter (· ≠ []) with hls
  have hfl : goodErrs gs.flatten l p = ls.flatten := by rw [errs_flatten, hls, flatten_filter]
  have hmem : ∀ x ∈ ls, ∃ g ∈ gs, goodErrs g l p = x ∧ x ≠ [] := fun x h => by
    rw [hls, List.mem_filter] at h
    obtain ⟨g, hg, rfl⟩ := List.mem_map.1 h.1
    exact ⟨g, hg, rfl, by simpa using h.2⟩
  by_cases h0 : ls = []
  · unfold staged
    rw [combine_err, if_pos (by rw [hE, h0]; rfl), combine_err, if_pos (by rw [hfl, h0]; rfl)]
    rfl
  · have hlen : ∃ n, ∀ x ∈ ls, x.length = n := by
      obtain ⟨l0, hl0⟩ := List.exists_mem_of_ne_nil ls h0
      obtain ⟨g0, hg0, e0, n0⟩ := hmem l0 hl0
      refine ⟨l0.length, fun x hx => ?_⟩
      obtain ⟨g, hg, e1, n1⟩ := hmem x hx
      obtain ⟨a1, a2⟩ := sound_lengths (hs g hg)
      obtain ⟨b1, b2⟩ := sound_lengths (hs g0 hg0)
      have := hb g hg g0 hg0 (by rw [← List.length_pos_iff, a1, ← a2, e1, List.length_pos_iff]; exact n1)
        (by rw [← List.length_pos_iff, b1, ← b2, e0, List.length_pos_iff]; exact n0)
      rw [← e1, ← e0, a2, b2, ← a1, ← b1, this]
    obtain ⟨n, hn⟩ := hlen
    have hne : goodErrs gs.flatten l p ≠ [] := by
      rw [hfl]
      obtain ⟨l0, hl0⟩ := List.exists_mem_of_ne_nil ls h0
      obtain ⟨-, -, -, n0⟩ := hmem l0 hl0
      intro h
      exact n0 (List.flatten_eq_nil_iff.1 h l0 hl0)
    have hst : Sound (gs.map (combineImages c scaling)) l p := by
      intro f hf hq
      obtain ⟨g, hg, rfl⟩ := List.mem_map.1 hf
      obtain ⟨a1, a2⟩ := sound_lengths (hs g hg)
      have hu : unflagged g p ≠ [] := by
        intro hu
        have hk0 : g ≠ [] := by
          rintro rfl
          have : k = 0 := (hk [] hg).symm
          subst this
          obtain ⟨l0, hl0⟩ := List.exists_mem_of_ne_nil ls h0
          obtain ⟨g0, hg0, e0, n0⟩ := hmem l0 hl0
          have := List.length_eq_zero_iff.1 (hk g0 hg0)
          subst this
          exact n0 e0.symm
        have hv : goodValues g p = [] := List.length_eq_zero_iff.1 (by rw [a1, hu]; rfl)
        rw [(C20_flags c scaling g p).2 ((C20_nan_iff c scaling g p).2 hv)] at hq
        exact all_flagged hk0 hu hq
      have hpos := List.length_pos_iff.2 hu
      have hv : goodValues g p ≠ [] := List.length_pos_iff.1 (by omega)
      have he : goodErrs g l p ≠ [] := List.length_pos_iff.1 (by omega)
      refine ⟨fun h => hv ((C20_nan_iff c scaling g p).1 h), ?_⟩
      rw [sound_err c scaling (hs g hg) he]
      simp
    unfold staged
    rw [sound_err c scaling hst (by rw [hE]; simpa using h0), sound_err c scaling hflat hne, hE,
      se_mul _ (mul_nonneg (factor_nonneg c) (by split <;> positivity)), se_se hn, hfl, List.length_map]
    have := scale_flatten hk scaling
    unfold scaleFactor at this
    rw [this]
    show some _ = some _
    congr 1
    ring

/-! ## Non-vacuity and the median -/

/-- A flagged frame. -/
def flaggedOne : Img Unit 0 := ⟨fun _ => some 0, Fin.elim0, fun _ => 1⟩

/-- Two groups of two frames, one of them with a flagged frame: means of means differ from the mean for some values. -/
example : ¬ ∀ gs', List.Forall₂ (List.Forall₂ (SamePattern ())) [[one 1, one 2], [one 3, flaggedOne]] gs' →
    (staged .mean true gs').data () = (combineImages .mean true gs'.flatten).data () := by
  rw [C206_mean_iff true (k := 2) (by simp)]
  intro h
  have := h [one 1, one 2] (by simp) [one 3, flaggedOne] (by simp) (by simp [goodValues, one]) (by simp [goodValues, one, flaggedOne])
  simp [goodValues, one, flaggedOne] at this

/-- Without flags the groups are balanced. -/
example : (staged .mean true [[one 1, one 2], [one 3, one 6]]).data () = (combineImages .mean true [one 1, one 2, one 3, one 6]).data () :=
  C206_mean true (gs := [[one 1, one 2], [one 3, one 6]]) (k := 2) (by simp) (by
    intro g hg g' hg' _ _
    simp only [List.mem_cons, List.not_mem_nil, or_false] at hg hg'
    rcases hg with rfl | rfl <;> rcases hg' with rfl | rfl <;> simp [goodValues, one])

/-- A frame with an error of 1. -/
def oneE (x : ℝ) : Img Unit 1 := ⟨fun _ => some x, fun _ _ => some 1, fun _ => 0⟩

/-- The error of medians of medians is that of the median times √(π/2). -/
example : (staged .median true [[oneE 1, oneE 2], [oneE 3, oneE 6]]).err 0 () =
    ((combineImages .median true [oneE 1, oneE 2, oneE 3, oneE 6]).err 0 ()).map (· * Real.sqrt (Real.pi / 2)) :=
  C206_error .median true (gs := [[oneE 1, oneE 2], [oneE 3, oneE 6]]) (k := 2) (by simp) (by
    intro g hg f hf _
    simp only [List.mem_cons, List.not_mem_nil, or_false] at hg
    rcases hg with rfl | rfl <;> simp only [List.mem_cons, List.not_mem_nil, or_false] at hf <;> rcases hf with rfl | rfl <;> simp [oneE]) (by
    intro g hg g' hg' _ _
    simp only [List.mem_cons, List.not_mem_nil, or_false] at hg hg'
    rcases hg with rfl | rfl <;> rcases hg' with rfl | rfl <;> simp [goodValues, oneE])

/-- **C206.** Medians of medians are not the median, also for balanced groups without flags. -/
theorem C206_violated_median :
    (staged .median false ([[0, 0, 1], [0, 2, 2], [0, 2, 2]].map fun g => g.map one)).data () = some 2 ∧
    (combineImages .median false ([[0, 0, 1], [0, 2, 2], [0, 2, 2]].flatten.map one)).data () = some 1 := by
  constructor
  · unfold staged
    have hg := groups_good (gs := [[0, 0, 1], [0, 2, 2], [0, 2, 2]].map fun g => g.map one) (p := ()) (by
      intro g hg
      obtain ⟨l, hl, rfl⟩ := List.mem_map.1 hg
      rw [one_good]
      rintro rfl
      simp at hl)
    have : goodValues (([[0, 0, 1], [0, 2, 2], [0, 2, 2]].map fun g => g.map one).map (combineImages .median false)) () = [0, 2, 2] := by
      refine hg.trans ?_
      show [median (goodValues (([0, 0, 1] : List ℝ).map one) ()), median (goodValues ([0, 2, 2].map one) ()),
        median (goodValues ([0, 2, 2].map one) ())] = _
      rw [one_good, one_good, median_three le_rfl zero_le_one, median_three zero_le_two le_rfl]
    rw [combine_data, this, if_neg (by simp)]
    simp [scaleFactor, median_three zero_le_two le_rfl]
  · have hp : ([[0, 0, 1], [0, 2, 2], [0, 2, 2]].flatten : List ℝ).Perm [0, 0, 0, 0, 1, 2, 2, 2, 2] := by
      have : ([0, 0, 1, 0, 2, 2, 0, 2, 2] : List ℕ).Perm [0, 0, 0, 0, 1, 2, 2, 2, 2] := by decide
      simpa using this.map (Nat.cast : ℕ → ℝ)
    rw [combine_data, one_good, if_neg (by simp), median_perm hp]
    have : ([0, 0, 0, 0, 1, 2, 2, 2, 2] : List ℝ).insertionSort (· ≤ ·) = [0, 0, 0, 0, 1, 2, 2, 2, 2] :=
      List.Pairwise.insertionSort_eq (by norm_num)
    simp only [scaleFactor, median, this]
    norm_num

end Corgi.Comb

import Mathlib.Tactic.Linarith
import Verif.Detector.Cosmics
import Verif.Detector.Saturation
import Verif.Common.Forall2

/-!
# Plateaus of any length and the step `detect_cosmic_rays` (l1_to_l2a.py 160-286): C186

`Verif/Detector/Cosmics.lean` has the mask in terms of the starts that the code finds. Here the starts are determined for a plateau of any length and
a median filter of any size, and the mask is joined with the saturation flags. No NaN; the frames hold floats, so `np.full_like` (line 249) keeps
the thresholds.
-/

namespace Corgi.Cr

open Corgi.Det

/-! ## Model of the step -/

section Step

variable {K : Type} [Field K] [LinearOrder K]

/-- A frame: gain keywords, array type, pixels and flags. -/
structure Shot (K : Type) where
  hdr : Sat.Hdr K
  arrtype : String
  data : Img K
  dq : ℕ → ℕ → ℕ

inductive StepErr
  | gains (e : Sat.Err) | geometry (e : Det.Err)
  deriving DecidableEq, Repr

/-- Parameters: k-gain, full wells in electrons, the two thresholds. -/
structure Wells (K : Type) where
  kgain : K
  pp : K
  em : K
  sat : K
  plat : K

/-- lines 253-277 for one frame with its saturation threshold `t`: flag 32 for pixels of at least `t`, flag 128 for the mask. -/
def flagShot (d : Regions) (full : Bool) (p : Par) (w : Wells K) (x : Shot K) (t : K) : Except StepErr (Shot K) :=
  match flagCosmics d x.arrtype full p x.data (w.sat * (w.em / w.kgain)) (w.plat * (w.em / w.kgain)) with
  | .error e => .error (.geometry e)
  | .ok m => .ok { x with dq := fun r c => (x.dq r c ||| (if x.data.px r c ≥ t then 32 else 0)) ||| (if m r c then 128 else 0) }

/-- `detect_cosmic_rays`, l1_to_l2a.py 160-286, without header cards. -/
def detectCosmics (d : Regions) (full : Bool) (p : Par) (w : Wells K) (xs : List (Shot K)) : Except StepErr (List (Shot K)) :=
  match Sat.satFwcs w.kgain w.pp w.em w.sat (xs.map Shot.hdr) with
  | .error e => .error (.gains e)
  | .ok ts => (xs.zip ts).mapM fun q => flagShot d full p w q.1 q.2

end Step

/-! ## Specification -/

section Spec

variable {α : Type} [LinearOrder α]

/-- A row with one plateau, from column `a` to column `b`, that does not touch the ends of the row: its pixels are saturated and the others are
below the threshold of plateaus. -/
structure Lone (row : ℕ → α) (n : ℕ) (S P : α) (a b : ℕ) : Prop where
  thresh : P ≤ S
  order : a ≤ b
  left : 0 < a
  right : b + 1 < n
  bright : ∀ k, a ≤ k → k ≤ b → S ≤ row k
  dark : ∀ k, k < n → k < a ∨ b < k → row k < P

/-- A frame with one plateau, in row `i`. -/
structure LoneIn (f : Img α) (S P : α) (i a b : ℕ) : Prop where
  row : i < f.nr
  lone : Lone (f.px i) f.nc S P a b
  dark : ∀ r c, r < f.nr → c < f.nc → r ≠ i → f.px r c < P

end Spec

/-! ## The median filter -/

section Filter

variable {α : Type} [LinearOrder α]

theorem rank_iff {l : List α} (h : l.Pairwise (· ≤ ·)) (S : α) {m : ℕ} (hm : m < l.length) :
    S ≤ l[m] ↔ l.countP (fun x => decide (x < S)) ≤ m := by
  induction l generalizing m with
  | nil => simp at hm
  | cons x t ih =>
    have hx : ∀ y ∈ t, x ≤ y := (List.pairwise_cons.1 h).1
    have hz : S ≤ x → t.countP (fun x => decide (x < S)) = 0 := fun hs => List.countP_eq_zero.2 fun y hy => by
      simpa using hs.trans (hx y hy)
    rw [List.countP_cons]
    cases m with
    | zero =>
      rw [List.getElem_cons_zero]
      by_cases hs : S ≤ x
      · simp [hs, hz hs]
      · simp [hs, not_le.1 hs]
    | succ m =>
      rw [List.getElem_cons_succ, ih h.of_cons (by simpa using hm)]
      by_cases hs : S ≤ x
      · simp [hz hs, not_lt.2 hs]
      · simp [not_le.1 hs]

/-- The filtered pixel is at least `S` exactly when at most half of the window is below. -/
theorem medFilt_iff (row : ℕ → α) (n size i : ℕ) (hs : 0 < size) (S : α) :
    S ≤ medFilt row n size i ↔
      (List.range size).countP (fun (k : ℕ) => decide (row (clamp n ((i : ℤ) + (k : ℤ) - ((size / 2 : ℕ) : ℤ))) < S)) ≤ size / 2 := by
  unfold medFilt
  dsimp only
  generalize hw : (List.range size).map (fun (k : ℕ) => row (clamp n ((i : ℤ) + (k : ℤ) - ((size / 2 : ℕ) : ℤ)))) = w
  have hlt : size / 2 < (w.insertionSort (· ≤ ·)).length := by
    rw [List.length_insertionSort, ← hw, List.length_map, List.length_range]
    omega
  rw [List.getElem?_eq_getElem hlt, Option.getD_some, rank_iff (List.pairwise_insertionSort _ _), (List.perm_insertionSort _ w).countP_eq, ← hw,
    List.countP_map]
  rfl

theorem count_interval (N lo hi : ℕ) : (List.range N).countP (fun k => decide (¬ (lo ≤ k ∧ k < hi))) = N - (min N hi - lo) := by
  induction N with
  | zero => simp
  | succ N ih =>
    rw [List.range_succ, List.countP_append, ih, List.countP_singleton]
    by_cases h : lo ≤ N ∧ N < hi
    · simp only [h, and_self, not_true_eq_false, decide_false, Bool.false_eq_true, if_false]
      omega
    · simp only [h, not_false_eq_true, decide_true, if_true]
      omega

/-- Which pixels of a row with one plateau pass the filter: none if it is shorter than half of the filter, and otherwise its own pixels and, for
an odd `cosm_filter`, the next one. -/
theorem passes {row : ℕ → α} {n : ℕ} {S P : α} {a b : ℕ} (h : Lone row n S P a b) (filter : ℕ) {i : ℕ} (hi : i < n) :
    S ≤ medFilt row n (filter + 1) i ↔ filter / 2 + a ≤ b ∧ a ≤ i ∧ i ≤ b + filter % 2 := by
  rw [medFilt_iff row n _ i (by omega)]
  have hl := h.left
  have hr := h.right
  have hb : ∀ k : ℕ, (decide (row (clamp n ((i : ℤ) + (k : ℤ) - (((filter + 1) / 2 : ℕ) : ℤ))) < S)) =
      decide (¬ (a + (filter + 1) / 2 - i ≤ k ∧ k < b + (filter + 1) / 2 + 1 - i)) := by
    intro k
    rw [decide_eq_decide]
    generalize hs : (filter + 1) / 2 = s
    by_cases hk : a + s - i ≤ k ∧ k < b + s + 1 - i
    · have h1 : a ≤ clamp n ((i : ℤ) + (k : ℤ) - ((s : ℕ) : ℤ)) ∧ clamp n ((i : ℤ) + (k : ℤ) - ((s : ℕ) : ℤ)) ≤ b := by
        unfold clamp
        omega
      simp only [hk, and_self, not_true_eq_false, iff_false, not_lt]
      exact h.bright _ h1.1 h1.2
    · have h1 : clamp n ((i : ℤ) + (k : ℤ) - ((s : ℕ) : ℤ)) < n ∧
          (clamp n ((i : ℤ) + (k : ℤ) - ((s : ℕ) : ℤ)) < a ∨ b < clamp n ((i : ℤ) + (k : ℤ) - ((s : ℕ) : ℤ))) := by
        unfold clamp
        omega
      simp only [hk, not_false_eq_true, iff_true]
      exact (h.dark _ h1.1 h1.2).trans_le h.thresh
  simp only [hb]
  rw [count_interval]
  have := h.order
  omega

theorem beg_lone {row : ℕ → α} {n : ℕ} {S P : α} {a b : ℕ} (h : Lone row n S P a b) {i : ℕ} (h1 : a ≤ i) (h2 : i ≤ b) : begOf row P i = a := by
  obtain ⟨⟨-, e2⟩, e3, e4⟩ := begOf_bright row P i (h.thresh.trans (h.bright i h1 h2))
  have hl := h.left
  have hr := h.right
  by_contra hne
  rcases Nat.lt_or_ge (begOf row P i) a with hlt | hge
  · exact absurd (e4 (a - 1) (by omega) (by omega)) (not_le.2 (h.dark (a - 1) (by omega) (.inl (by omega))))
  · rcases e2 with e2 | e2
    · omega
    · exact absurd (h.thresh.trans (h.bright (begOf row P i - 1) (by omega) (by omega))) (not_le.2 e2)

/-! ## C186: starts and mask -/

/-- **C186** What `find_plateaus` returns for a row with one plateau. A plateau is found exactly when it is longer than half of `cosm_filter`. Its
first column is returned, and for odd `cosm_filter` also the second column after its end. -/
theorem C186_starts {row : ℕ → α} {n : ℕ} {S P : α} {a b : ℕ} (h : Lone row n S P a b) (filter : ℕ) :
    findPlateaus row n S P filter =
      if filter / 2 < b + 1 - a then some (if filter % 2 = 0 then [a] else [a, b + 2]) else none := by
  have hl := h.left
  have hr := h.right
  have ho := h.order
  have hsat : ∀ i, i ∈ saturated row n S filter ↔ i < n ∧ filter / 2 + a ≤ b ∧ a ≤ i ∧ i ≤ b + filter % 2 := by
    intro i
    rw [saturated, List.mem_filter, List.mem_range]
    constructor
    · rintro ⟨h1, h2⟩
      exact ⟨h1, (passes h filter h1).1 (by simpa using h2)⟩
    · rintro ⟨h1, h2⟩
      exact ⟨h1, by simpa using (passes h filter h1).2 h2⟩
  by_cases hf : filter / 2 < b + 1 - a
  · rw [if_pos hf]
    have hpos : (saturated row n S filter).length > 0 := List.length_pos_of_mem ((hsat a).2 ⟨by omega, by omega, le_refl _, by omega⟩)
    obtain ⟨bs, hbs⟩ : ∃ bs, findPlateaus row n S P filter = some bs := by
      unfold findPlateaus
      dsimp only
      rw [if_pos hpos]
      exact ⟨_, rfl⟩
    rw [hbs]
    congr 1
    have hmem := mem_findPlateaus hbs
    have hinc := C30_increasing hbs
    have hm : ∀ x, x ∈ bs ↔ x ∈ (if filter % 2 = 0 then [a] else [a, b + 2]) := by
      intro x
      rw [hmem]
      constructor
      · rintro ⟨i, h1, h2, rfl⟩
        obtain ⟨-, h3, h4⟩ := (passes h filter h1).1 h2
        rcases Nat.lt_or_ge b i with h5 | h5
        · have hodd : ¬ filter % 2 = 0 := by omega
          rw [if_neg hodd, begOf_dark row P i (h.dark i h1 (.inr h5)), show i + 1 = b + 2 by omega]
          simp
        · rw [beg_lone h h3 h5]
          split <;> simp
      · intro hx
        have hA : ∃ i, i < n ∧ S ≤ medFilt row n (filter + 1) i ∧ a = begOf row P i :=
          ⟨a, by omega, (passes h filter (by omega)).2 ⟨by omega, le_refl _, by omega⟩, (beg_lone h (le_refl _) ho).symm⟩
        split at hx
        · rw [List.mem_singleton] at hx
          rw [hx]
          exact hA
        · simp only [List.mem_cons, List.not_mem_nil, or_false] at hx
          rcases hx with rfl | rfl
          · exact hA
          · exact ⟨b + 1, hr, (passes h filter hr).2 ⟨by omega, by omega, by omega⟩, (begOf_dark row P (b + 1) (h.dark _ hr (.inr (by omega)))).symm⟩
    have hinc' : (if filter % 2 = 0 then [a] else [a, b + 2]).Pairwise (· < ·) := by
      split
      · simp
      · simp
        omega
    have hp : bs.Perm (if filter % 2 = 0 then [a] else [a, b + 2]) :=
      (List.perm_ext_iff_of_nodup (hinc.imp fun h => h.ne) (hinc'.imp fun h => h.ne)).2 hm
    exact hp.eq_of_pairwise (fun x y _ _ h1 h2 => absurd h1 (lt_asymm h2)) hinc hinc'
  · rw [if_neg hf]
    have : saturated row n S filter = [] := List.eq_nil_iff_forall_not_mem.2 fun i hi => by
      have := ((hsat i).1 hi).2.1
      omega
    unfold findPlateaus
    dsimp only
    rw [this]
    rfl

theorem starts_lone {f : Img α} {S P : α} {i a b : ℕ} (h : LoneIn f S P i a b) (filter j s : ℕ) (hj : j < f.nr) :
    Starts f S P filter j s ↔ j = i ∧ filter / 2 < b + 1 - a ∧ (s = a ∨ (filter % 2 = 1 ∧ s = b + 2)) := by
  constructor
  · intro hs
    obtain ⟨c, hc, hS⟩ := C29_prefilter_sound f S P filter j s hs
    have hji : j = i := by
      by_contra hne
      exact absurd (h.lone.thresh.trans hS) (not_le.2 (h.dark j c hj hc hne))
    subst hji
    obtain ⟨k, h1, h2, rfl⟩ := hs
    obtain ⟨h3, h4, h5⟩ := (passes h.lone filter h1).1 h2
    refine ⟨rfl, by omega, ?_⟩
    rcases Nat.lt_or_ge b k with h6 | h6
    · rw [begOf_dark _ P k (h.lone.dark k h1 (.inr h6))]
      exact .inr ⟨by omega, by omega⟩
    · exact .inl (beg_lone h.lone h4 h6)
  · rintro ⟨rfl, h1, h2⟩
    have ho := h.lone.order
    have hr := h.lone.right
    rcases h2 with rfl | ⟨h2, rfl⟩
    · exact ⟨s, by omega, (passes h.lone filter (by omega)).2 ⟨by omega, le_refl _, by omega⟩, (beg_lone h.lone (le_refl _) ho).symm⟩
    · exact ⟨b + 1, hr, (passes h.lone filter hr).2 ⟨by omega, by omega, by omega⟩,
        (begOf_dark _ P (b + 1) (h.lone.dark _ hr (.inr (by omega)))).symm⟩

/-- **C186** The mask of a frame with one plateau, exactly. -/
theorem C186_mask {f : Img α} {S P : α} {i a b : ℕ} (h : LoneIn f S P i a b) (d : Regions) (t : String) (p : Par) :
    ∃ m, flagCosmics d t false p f S P = .ok m ∧ ∀ r c, r < f.nr → c < f.nc →
      (m r c = true ↔ p.filter / 2 < b + 1 - a ∧ ∃ s, (s = a ∨ (p.filter % 2 = 1 ∧ s = b + 2 ∧ b + 2 < f.nc)) ∧
        ((r = i ∧ s ≤ c ∧ c ≤ s + p.filter + p.tail) ∨
          ((i ≤ r + p.box ∧ r ≤ i + p.box) ∧ (s ≤ c + p.box ∧ c ≤ s + p.box)))) := by
  obtain ⟨m, hm, hx⟩ := C29_image d t p f S P
  refine ⟨m, hm, fun r c hr hc => ?_⟩
  have ho := h.lone.order
  have hr' := h.lone.right
  rw [hx r c hr hc]
  constructor
  · rintro ⟨j, s, hj, hs, hst, hm⟩
    obtain ⟨rfl, h1, h2⟩ := (starts_lone h p.filter j s hj).1 hst
    refine ⟨h1, s, ?_, hm⟩
    rcases h2 with h2 | h2
    · exact .inl h2
    · exact .inr ⟨h2.1, h2.2, by omega⟩
  · rintro ⟨h1, s, h2, h3⟩
    refine ⟨i, s, h.row, ?_, (starts_lone h p.filter i s h.row).2 ⟨rfl, h1, ?_⟩, h3⟩
    · rcases h2 with rfl | ⟨-, rfl, h2⟩ <;> omega
    · rcases h2 with rfl | ⟨h4, rfl, h2⟩
      · exact .inl rfl
      · exact .inr ⟨h4, rfl⟩

/-- **C186** With an even `cosm_filter` the tail is counted from the start of the plateau: all `cosm_tail` pixels after its end are masked exactly
when it has no more than `cosm_filter + 1` pixels. -/
theorem C186_tail_even {f : Img α} {S P : α} {i a b : ℕ} (h : LoneIn f S P i a b) (d : Regions) (t : String) (p : Par) (he : p.filter % 2 = 0)
    (hfound : p.filter / 2 < b + 1 - a) (hbox : p.box ≤ p.filter + p.tail) (ht : 1 ≤ p.tail) (hend : b + p.tail < f.nc) :
    ∃ m, flagCosmics d t false p f S P = .ok m ∧
      (∀ k, 1 ≤ k → k ≤ p.tail → (m i (b + k) = true ↔ b + k ≤ a + p.filter + p.tail)) ∧
      ((∀ k, 1 ≤ k → k ≤ p.tail → m i (b + k) = true) ↔ b + 1 - a ≤ p.filter + 1) := by
  obtain ⟨m, hm, hx⟩ := C186_mask h d t p
  have ho := h.lone.order
  have key : ∀ k, 1 ≤ k → k ≤ p.tail → (m i (b + k) = true ↔ b + k ≤ a + p.filter + p.tail) := by
    intro k h1 h2
    rw [hx i (b + k) h.row (by omega)]
    constructor
    · rintro ⟨-, s, hs, hc⟩
      omega
    · intro hk
      exact ⟨hfound, a, .inl rfl, .inl ⟨rfl, by omega, hk⟩⟩
  refine ⟨m, hm, key, ⟨fun hall => ?_, fun hle k h1 h2 => (key k h1 h2).2 (by omega)⟩⟩
  have := (key p.tail ht (le_refl _)).1 (hall p.tail ht (le_refl _))
  omega

/-- **C186** With an odd `cosm_filter` and a box, the spurious second start makes up for this: all pixels after the end are masked, up to
`cosm_filter + cosm_tail + 2`, whatever the length is. -/
theorem C186_tail_odd {f : Img α} {S P : α} {i a b : ℕ} (h : LoneIn f S P i a b) (d : Regions) (t : String) (p : Par) (he : p.filter % 2 = 1)
    (hfound : p.filter / 2 < b + 1 - a) (hbox : 1 ≤ p.box) (hend : b + 2 < f.nc) :
    ∃ m, flagCosmics d t false p f S P = .ok m ∧
      ∀ k, 1 ≤ k → k ≤ p.filter + p.tail + 2 → b + k < f.nc → m i (b + k) = true := by
  obtain ⟨m, hm, hx⟩ := C186_mask h d t p
  refine ⟨m, hm, fun k h1 h2 h3 => (hx i (b + k) h.row h3).2 ⟨hfound, b + 2, .inr ⟨he, rfl, hend⟩, ?_⟩⟩
  rcases Nat.lt_or_ge k 2 with h4 | h4
  · exact .inr ⟨⟨by omega, by omega⟩, by omega, by omega⟩
  · exact .inl ⟨rfl, by omega, by omega⟩

/-- **C186** More light can mean fewer flags: when one more pixel before a long plateau is saturated, the box around its start moves, and a pixel
of the next row loses its flag, for every filter and tail. -/
theorem C186_violated_brighter {f g : Img α} {S P : α} {i a b : ℕ} (hf : LoneIn f S P i (a + 1) b) (hg : LoneIn g S P i a b) (hr : g.nr = f.nr)
    (hc : g.nc = f.nc) (d : Regions) (t : String) (p : Par) (hfound : p.filter / 2 < b - a) (hbox : 1 ≤ p.box) (hlong : a + 2 * p.box < b + 1)
    (hnext : i + 1 < f.nr) :
    ∃ m m', flagCosmics d t false p f S P = .ok m ∧ flagCosmics d t false p g S P = .ok m' ∧
      m (i + 1) (a + 1 + p.box) = true ∧ m' (i + 1) (a + 1 + p.box) = false := by
  obtain ⟨m, hm, hx⟩ := C186_mask hf d t p
  obtain ⟨m', hm', hx'⟩ := C186_mask hg d t p
  have hn := hf.lone.right
  refine ⟨m, m', hm, hm', (hx _ _ hnext (by omega)).2 ⟨by omega, a + 1, .inl rfl, .inr ⟨⟨by omega, by omega⟩, by omega, by omega⟩⟩, ?_⟩
  rw [Bool.eq_false_iff]
  intro hh
  obtain ⟨-, s, hs, hcc⟩ := (hx' _ _ (by omega) (by omega)).1 hh
  omega

/-- **C186** The mask of a row depends on the rows within the box only. -/
theorem C186_rows {f g : Img α} (hr : g.nr = f.nr) (hc : g.nc = f.nc) (S P : α) (d : Regions) (t : String) (p : Par) {r : ℕ} (hrow : r < f.nr)
    (h : ∀ i c, i < f.nr → i ≤ r + p.box → r ≤ i + p.box → g.px i c = f.px i c) :
    ∃ m m', flagCosmics d t false p f S P = .ok m ∧ flagCosmics d t false p g S P = .ok m' ∧ ∀ c, c < f.nc → m' r c = m r c := by
  obtain ⟨m, hm, hx⟩ := C29_image d t p f S P
  obtain ⟨m', hm', hx'⟩ := C29_image d t p g S P
  refine ⟨m, m', hm, hm', fun c hcc => ?_⟩
  have hst : ∀ i b, i < f.nr → i ≤ r + p.box → r ≤ i + p.box → (Starts g S P p.filter i b ↔ Starts f S P p.filter i b) := by
    intro i b h1 h2 h3
    have : g.px i = f.px i := funext fun c => h i c h1 h2 h3
    unfold Starts
    rw [this, hc]
  rw [Bool.eq_iff_iff, hx r c hrow hcc, hx' r c (by omega) (by omega), hr, hc]
  constructor
  · rintro ⟨i, b, h1, h2, h3, h4⟩
    exact ⟨i, b, h1, h2, (hst i b h1 (by omega) (by omega)).1 h3, h4⟩
  · rintro ⟨i, b, h1, h2, h3, h4⟩
    exact ⟨i, b, h1, h2, (hst i b h1 (by omega) (by omega)).2 h3, h4⟩

end Filter

/-! ## C186: the step -/

section StepProofs

variable {K : Type} [Field K] [LinearOrder K] [IsStrictOrderedRing K]

theorem sat_le {k pp em th : K} (hth : 0 ≤ th) {hs : List (Sat.Hdr K)} {ts : List K} (h : Sat.satFwcs k pp em th hs = .ok ts) :
    ts.length = hs.length ∧ ∀ t ∈ ts, t ≤ th * (em / k) := by
  unfold Sat.satFwcs at h
  simp only [bind, Except.bind] at h
  split at h
  · cases h
  rename_i gs hgs
  unfold Sat.calcSat at h
  simp only [bind, Except.bind] at h
  split at h
  · cases h
  rename_i prod hprod
  split at h
  · rename_i hl
    cases h
    rw [List.length_map] at hl
    refine ⟨by simp [hl], fun t ht => ?_⟩
    obtain ⟨x, y, hxy, rfl⟩ : ∃ x y, (x, y) ∈ prod.zip (hs.map fun _ => em / k) ∧ th * min x y = t := by
      rw [← List.map_uncurry_zip_eq_zipWith, List.mem_map] at ht
      obtain ⟨⟨x, y⟩, h1, h2⟩ := ht
      exact ⟨x, y, h1, h2⟩
    have hy := (List.of_mem_zip hxy).2
    obtain ⟨-, -, rfl⟩ := List.mem_map.1 hy
    exact mul_le_mul_of_nonneg_left (min_le_right _ _) hth
  · cases h

/-- **C186** The step, frame by frame: flags are added, never removed; 32 is added to the pixels of at least the saturation threshold of the frame,
128 to the mask; nothing else changes. In image mode it fails only if the gains cannot be read. -/
theorem C186_step (d : Regions) (p : Par) (w : Wells K) (hw : 0 ≤ w.sat) {xs : List (Shot K)} :
    (∀ e, detectCosmics d false p w xs = .error e → ∃ e', e = .gains e') ∧
    ∀ out, detectCosmics d false p w xs = .ok out → ∃ ts, Sat.satFwcs w.kgain w.pp w.em w.sat (xs.map Shot.hdr) = .ok ts ∧
      List.Forall₂ (fun (q : Shot K × K) (y : Shot K) => ∃ m,
        flagCosmics d q.1.arrtype false p q.1.data (w.sat * (w.em / w.kgain)) (w.plat * (w.em / w.kgain)) = .ok m ∧
        y.hdr = q.1.hdr ∧ y.data = q.1.data ∧ q.2 ≤ w.sat * (w.em / w.kgain) ∧
        ∀ r c, y.dq r c = q.1.dq r c ||| (if q.2 ≤ q.1.data.px r c then 32 else 0) ||| (if m r c then 128 else 0)) (xs.zip ts) out ∧
      ts.length = xs.length := by
  unfold detectCosmics
  cases hs : Sat.satFwcs w.kgain w.pp w.em w.sat (xs.map Shot.hdr) with
  | error e => exact ⟨fun e' he => ⟨e, by cases he; rfl⟩, fun out ho => by cases ho⟩
  | ok ts =>
    dsimp only
    have hall : ∀ q : Shot K × K, ∃ m y, flagCosmics d q.1.arrtype false p q.1.data (w.sat * (w.em / w.kgain)) (w.plat * (w.em / w.kgain)) = .ok m ∧
        flagShot d false p w q.1 q.2 = .ok y ∧ y.hdr = q.1.hdr ∧ y.data = q.1.data ∧
        ∀ r c, y.dq r c = q.1.dq r c ||| (if q.2 ≤ q.1.data.px r c then 32 else 0) ||| (if m r c then 128 else 0) := by
      intro q
      obtain ⟨m, hm, -⟩ := C29_image d q.1.arrtype p q.1.data (w.sat * (w.em / w.kgain)) (w.plat * (w.em / w.kgain))
      refine ⟨m, { q.1 with dq := fun r c => (q.1.dq r c ||| (if q.1.data.px r c ≥ q.2 then 32 else 0)) ||| (if m r c then 128 else 0) }, hm, ?_, rfl, rfl,
        fun r c => rfl⟩
      unfold flagShot
      rw [hm]
    refine ⟨fun e he => ?_, fun out ho => ⟨ts, rfl, ?_, ?_⟩⟩
    · obtain ⟨ys, hys⟩ : ∃ ys, (xs.zip ts).mapM (fun q => flagShot d false p w q.1 q.2) = .ok ys := mapM_ok_exists.2 fun q _ => by
        obtain ⟨m, y, -, hy, -⟩ := hall q
        exact ⟨y, hy⟩
      rw [hys] at he
      cases he
    · rw [mapM_ok_iff] at ho
      have hle := (sat_le hw hs).2
      have hmem : ∀ q ∈ xs.zip ts, q.2 ≤ w.sat * (w.em / w.kgain) := fun q hq => hle _ (List.of_mem_zip (a := q.1) (b := q.2) hq).2
      generalize xs.zip ts = l at ho hmem
      induction ho with
      | nil => exact .nil
      | @cons q y l ys a b ih =>
        refine .cons ?_ (ih fun q hq => hmem q (List.mem_cons_of_mem _ hq))
        obtain ⟨m, y', h1, h2, h3, h4, h5⟩ := hall q
        rw [a] at h2
        cases h2
        exact ⟨m, h1, h3, h4, hmem q List.mem_cons_self, h5⟩
    · rw [(sat_le hw hs).1, List.length_map]

/-- **C186** All pixels of all plateaus are flagged, also where the mask has a gap and when the filter misses the plateau: they are saturated. -/
theorem C186_plateau (d : Regions) (p : Par) (w : Wells K) (hw : 0 ≤ w.sat) {xs out : List (Shot K)} (ho : detectCosmics d false p w xs = .ok out) :
    List.Forall₂ (fun x y : Shot K => ∀ r c, w.sat * (w.em / w.kgain) ≤ x.data.px r c → y.dq r c ≠ 0) xs out := by
  obtain ⟨ts, -, h, hl⟩ := (C186_step d p w hw).2 out ho
  have hz : List.Forall₂ (fun (x : Shot K) (q : Shot K × K) => q.1 = x) xs (xs.zip ts) := by
    clear h ho
    induction xs generalizing ts with
    | nil => exact .nil
    | cons x xs ih =>
      cases ts with
      | nil => simp at hl
      | cons t ts => exact .cons rfl (ih ts (by simpa using hl))
  refine forall₂_trans ?_ hz h
  rintro x q y rfl ⟨m, -, -, -, h1, h2⟩ r c hs
  rw [h2, if_pos (h1.trans hs)]
  intro hz
  have := (Nat.or_eq_zero_iff.1 (Nat.or_eq_zero_iff.1 hz).1).2
  omega

end StepProofs

/-! ## Non-vacuity -/

/-- A frame with saturated pixels `a` to 9 in row 1. -/
def bar (a : ℕ) : Img ℚ := ⟨4, 30, fun r c => if r = 1 ∧ a ≤ c ∧ c ≤ 9 then 10 else 0⟩

theorem bar_lone {a : ℕ} (h0 : 0 < a) (h9 : a ≤ 9) : LoneIn (bar a) 7 7 1 a 9 where
  row := by norm_num [bar]
  lone :=
    { thresh := le_refl _
      order := h9
      left := h0
      right := by norm_num [bar]
      bright := fun k h1 h2 => by
        simp only [bar]
        rw [if_pos ⟨trivial, h1, h2⟩]
        norm_num
      dark := fun k _ h => by
        simp only [bar]
        rw [if_neg (by omega)]
        norm_num }
  dark := fun r c _ _ h => by
    simp only [bar]
    rw [if_neg (fun e => h e.1)]
    norm_num

/-- With `cosm_filter=2` and a tail of 10 only 6 of the 10 pixels after the plateau are masked. -/
example : ∃ m, flagCosmics [] "SCI" false ⟨2, 3, 10⟩ (bar 3) 7 7 = .ok m ∧ m 1 15 = true ∧ m 1 16 = false := by
  obtain ⟨m, hm, hk, -⟩ := C186_tail_even (bar_lone (a := 3) (by decide) (by decide)) [] "SCI" ⟨2, 3, 10⟩ rfl (by decide) (by decide) (by decide) (by decide)
  refine ⟨m, hm, (hk 6 (by decide) (by decide)).2 (by decide), Bool.eq_false_iff.2 fun h => ?_⟩
  exact absurd ((hk 7 (by decide) (by decide)).1 h) (by decide)

/-- The frame with one more saturated pixel is nowhere darker, and has a flag less at row 2, column 5. -/
example : (∀ r c, (bar 4).px r c ≤ (bar 3).px r c) ∧ ∃ m m', flagCosmics [] "SCI" false ⟨1, 1, 10⟩ (bar 4) 7 7 = .ok m ∧
    flagCosmics [] "SCI" false ⟨1, 1, 10⟩ (bar 3) 7 7 = .ok m' ∧ m 2 5 = true ∧ m' 2 5 = false := by
  refine ⟨fun r c => ?_, C186_violated_brighter (bar_lone (a := 4) (by decide) (by decide)) (bar_lone (a := 3) (by decide) (by decide)) rfl rfl [] "SCI"
    ⟨1, 1, 10⟩ (by decide) (by decide) (by decide) (by decide)⟩
  simp only [bar]
  split
  · rename_i h
    rw [if_pos ⟨h.1, by omega, h.2.2⟩]
  · split <;> norm_num

/-- A dataset that the step processes. -/
example : ∃ out, detectCosmics [] false ⟨1, 3, 10⟩ (⟨1, 20, 10, 7 / 10, 7 / 10⟩ : Wells ℚ) [⟨⟨none, some 1, some 1⟩, "SCI", bar 3, fun _ _ => 0⟩] = .ok out := by
  unfold detectCosmics
  simp only [List.map_cons, List.map_nil]
  rw [Sat.C31_own_gain_partial 1 20 10 (7 / 10) _ (fun _ => 1) (by
    simp [Sat.Gain]) (by simp)]
  exact ⟨_, rfl⟩

end Corgi.Cr

import Mathlib.Algebra.Order.Ring.Rat
import Mathlib.Algebra.Order.Field.Basic
import Mathlib.Data.List.Basic
import Mathlib.Data.List.Forall2
import Mathlib.Data.List.Perm.Basic
import Mathlib.Data.List.Perm.Lattice
import Mathlib.Tactic.Linarith
import Mathlib.Tactic.NormNum
import Mathlib.Tactic.Push
import Mathlib.Tactic.Ring

/-!
# Sub-electrode location (pump_trap_calibration.py 2723-3041): model and C114, C115

One pixel at one temperature. `_el_loc_2` and `_el_loc_3` are one definition over the list of the two or three lists of fits;
a pixel or a probability function that a scheme lacks is an empty list. An error of tau is finite or infinite (`none`; what
`curve_fit` reports for a singular covariance); NaN is left out. Capture parameters are kept only as a tag.
-/

namespace Corgi.TrapMatch

structure Par where
  tag : ℕ
  tau : ℚ
  err : Option ℚ
  deriving DecidableEq, Repr

/-- Nested loops, lines 2813-2814 and 2911-2913. -/
def choices {α : Type} : List (List α) → List (List α)
  | [] => [[]]
  | l :: ls => l.flatMap fun x => (choices ls).map (x :: ·)

def top : List ℚ → ℚ
  | [] => 0
  | [x] => x
  | x :: y :: xs => max x (top (y :: xs))

def bot : List ℚ → ℚ
  | [] => 0
  | [x] => x
  | x :: y :: xs => min x (bot (y :: xs))

def fin (p : Par) : Bool := p.err.isSome

/-- Lines 2821-2822, 2921-2924. -/
def up (t : List Par) : ℚ := top (t.map fun p => p.tau + p.err.getD 0)
def low (t : List Par) : ℚ := bot (t.map fun p => p.tau - p.err.getD 0)

/-- `up - low`; `none` is infinite. -/
def window (t : List Par) : Option ℚ := if t.all fin then some (up t - low t) else none

/-- Lines 2823-2828, 2925-2931. -/
def pick (acc : Option (ℚ × List Par)) (t : List Par) : Option (ℚ × List Par) :=
  match window t with
  | none => acc
  | some w => match acc with
    | none => some (w, t)
    | some (m, s) => if w < m then some (w, t) else some (m, s)

def best (ls : List (List Par)) : Option (ℚ × List Par) := (choices ls).foldl pick none

structure Trap where
  tau : ℚ
  sigma : ℚ
  parts : List Par
  iter : ℕ
  deriving DecidableEq, Repr

/-- Lines 2827-2828, 2856-2859. -/
def mkTrap (t : List Par) (it : ℕ) : Trap := ⟨(up t + low t) / 2, up t - (up t + low t) / 2, t, it⟩

/-- The loop over the iterations, lines 2805-2863 and 2903-2966: traps, and the fits that are left. -/
def loop : ℕ → ℕ → List (List Par) → List Trap × List (List Par)
  | 0, _, ls => ([], ls)
  | n + 1, it, ls => match best ls with
    | none => loop n (it + 1) ls
    | some (_, t) =>
      let r := loop n (it + 1) (List.zipWith (fun l x => l.erase x) ls t)
      (mkTrap t it :: r.1, r.2)

/-- Lines 2804, 2902. -/
def iters : List (List Par) → ℕ
  | a :: b :: _ => min a.length b.length
  | _ => 0

def locate (ls : List (List Par)) : List Trap × List (List Par) := loop (iters ls) 0 ls

/-! ## The scan -/

theorem mem_choices {α : Type} {t : List α} : ∀ {ls : List (List α)}, t ∈ choices ls ↔ List.Forall₂ (· ∈ ·) t ls := by
  intro ls
  induction ls generalizing t with
  | nil => simp [choices]
  | cons l ls ih =>
    simp only [choices, List.mem_flatMap, List.mem_map]
    constructor
    · rintro ⟨x, hx, s, hs, rfl⟩
      exact List.Forall₂.cons hx (ih.1 hs)
    · intro h
      cases h with
      | cons hx hs => exact ⟨_, hx, _, ih.2 hs, rfl⟩

theorem foldl_pick (ts : List (List Par)) : ∀ acc : Option (ℚ × List Par),
    (∀ m s, acc = some (m, s) → window s = some m) →
    match ts.foldl pick acc with
    | none => acc = none ∧ ∀ t ∈ ts, window t = none
    | some (w, t) => window t = some w ∧ (acc = some (w, t) ∨ t ∈ ts) ∧ (∀ m s, acc = some (m, s) → w ≤ m) ∧
        ∀ s ∈ ts, ∀ v, window s = some v → w ≤ v := by
  induction ts with
  | nil =>
    intro acc hacc
    cases acc with
    | none => simp
    | some a =>
      obtain ⟨w, t⟩ := a
      simp only [List.foldl_nil]
      exact ⟨hacc w t rfl, Or.inl trivial, by rintro m s h; cases h; exact le_rfl, by simp⟩
  | cons x xs ih =>
    intro acc hacc
    simp only [List.foldl_cons]
    have hacc' : ∀ m s, pick acc x = some (m, s) → window s = some m := by
      intro m s h
      unfold pick at h
      split at h
      · exact hacc m s h
      · rename_i w hw
        split at h
        · cases h; exact hw
        · rename_i m' s'
          split at h
          · cases h; exact hw
          · cases h; exact hacc _ _ rfl
    have := ih (pick acc x) hacc'
    split at this
    · rename_i he
      obtain ⟨h1, h2⟩ := this
      unfold pick at h1
      split at h1
      · rename_i hw
        exact ⟨h1, by simpa [hw] using h2⟩
      · split at h1
        · cases h1
        · split at h1 <;> cases h1
    · rename_i w t he
      obtain ⟨h1, h2, h3, h4⟩ := this
      refine ⟨h1, ?_, ?_, ?_⟩
      · rcases h2 with h2 | h2
        · unfold pick at h2
          split at h2
          · exact Or.inl h2
          · split at h2
            · cases h2; exact Or.inr (List.mem_cons_self)
            · split at h2
              · cases h2; exact Or.inr (List.mem_cons_self)
              · exact Or.inl h2
        · exact Or.inr (List.mem_cons_of_mem _ h2)
      · rintro m s rfl
        cases hw : window x with
        | none => exact h3 m s (by simp [pick, hw])
        | some v =>
          by_cases hv : v < m
          · exact le_trans (h3 v x (by simp [pick, hw, hv])) hv.le
          · exact h3 m s (by simp [pick, hw, hv])
      · intro s hs v hv
        rcases List.mem_cons.1 hs with rfl | hs
        · cases acc with
          | none => exact h3 v s (by simp [pick, hv])
          | some a =>
            obtain ⟨m, q⟩ := a
            by_cases hm : v < m
            · exact h3 v s (by simp [pick, hv, hm])
            · exact le_trans (h3 m q (by simp [pick, hv, hm])) (not_lt.1 hm)
        · exact h4 s hs v hv

theorem best_none {ls : List (List Par)} (h : best ls = none) : ∀ t ∈ choices ls, window t = none := by
  have := foldl_pick (choices ls) none (by simp)
  unfold best at h
  rw [h] at this
  exact this.2

theorem best_some {ls : List (List Par)} {w : ℚ} {t : List Par} (h : best ls = some (w, t)) :
    window t = some w ∧ t ∈ choices ls ∧ ∀ s ∈ choices ls, ∀ v, window s = some v → w ≤ v := by
  have := foldl_pick (choices ls) none (by simp)
  unfold best at h
  rw [h] at this
  obtain ⟨h1, h2, -, h4⟩ := this
  exact ⟨h1, by simpa using h2, h4⟩

/-! ## Counting -/

/-- Fits with a finite error. -/
def num (l : List Par) : ℕ := (l.filter fin).length

/-- Smallest number over the lists. -/
def least : List ℕ → ℕ
  | [] => 0
  | [x] => x
  | x :: y :: xs => min x (least (y :: xs))

theorem least_le : ∀ {l : List ℕ} {x : ℕ}, x ∈ l → least l ≤ x
  | [y], x, h => by simp at h; simp [least, h]
  | y :: z :: l, x, h => by
    rcases List.mem_cons.1 h with rfl | h
    · exact min_le_left _ _
    · exact le_trans (min_le_right _ _) (least_le h)

theorem least_mem : ∀ {l : List ℕ}, l ≠ [] → least l ∈ l
  | [y], _ => by simp [least]
  | y :: z :: l, _ => by
    unfold least
    rcases min_choice y (least (z :: l)) with h | h
    · rw [h]; exact List.mem_cons_self
    · rw [h]; exact List.mem_cons_of_mem _ (least_mem (by simp))

theorem window_some_iff {t : List Par} : (∃ w, window t = some w) ↔ ∀ p ∈ t, fin p = true := by
  unfold window
  rw [← List.all_eq_true]
  by_cases h : t.all fin = true
  · simp [h]
  · simp [h]

theorem num_pos {l : List Par} : 0 < num l ↔ ∃ p ∈ l, fin p = true := by
  unfold num
  rw [List.length_pos_iff_exists_mem]
  simp [List.mem_filter]

theorem num_erase {l : List Par} {x : Par} (h : x ∈ l) (hf : fin x = true) : num (l.erase x) + 1 = num l := by
  unfold num
  have hp := (List.perm_cons_erase h).filter fin
  have := hp.length_eq
  rw [List.filter_cons_of_pos (p := fin) hf] at this
  simpa using this.symm

/-- Some tuple has a finite window exactly if each list has a fit with a finite error. -/
theorem exists_window {ls : List (List Par)} :
    (∃ t ∈ choices ls, ∃ w, window t = some w) ↔ ∀ l ∈ ls, 0 < num l := by
  simp only [window_some_iff]
  induction ls with
  | nil => simp [choices]
  | cons l ls ih =>
    constructor
    · rintro ⟨t, ht, hw⟩
      rw [mem_choices] at ht
      cases ht with
      | cons hx hs =>
        rename_i x s
        intro l' hl'
        rcases List.mem_cons.1 hl' with rfl | hl'
        · exact num_pos.2 ⟨x, hx, hw x List.mem_cons_self⟩
        · exact ih.1 ⟨s, mem_choices.2 hs, fun p hp => hw p (List.mem_cons_of_mem _ hp)⟩ l' hl'
    · intro h
      obtain ⟨x, hx, hf⟩ := num_pos.1 (h l List.mem_cons_self)
      obtain ⟨s, hs, hw⟩ := ih.2 (fun l' hl' => h l' (List.mem_cons_of_mem _ hl'))
      refine ⟨x :: s, mem_choices.2 (List.Forall₂.cons hx (mem_choices.1 hs)), ?_⟩
      intro p hp
      rcases List.mem_cons.1 hp with rfl | hp
      · exact hf
      · exact hw p hp

def erased (ls : List (List Par)) (t : List Par) : List (List Par) := List.zipWith (fun l x => l.erase x) ls t

theorem erased_num {ls : List (List Par)} {t : List Par} (h : List.Forall₂ (· ∈ ·) t ls) (hf : ∀ p ∈ t, fin p = true) :
    (erased ls t).map (fun l => num l + 1) = ls.map num := by
  unfold erased
  induction h with
  | nil => rfl
  | cons hx _ ih =>
    simp only [List.zipWith_cons_cons, List.map_cons]
    rw [num_erase hx (hf _ List.mem_cons_self), ih (fun p hp => hf p (List.mem_cons_of_mem _ hp))]

theorem least_succ : ∀ {l : List ℕ}, l ≠ [] → least (l.map (· + 1)) = least l + 1
  | [y], _ => by simp [least]
  | y :: z :: l, _ => by
    have := least_succ (l := z :: l) (by simp)
    simp only [List.map_cons, least] at this ⊢
    rw [this]
    omega

theorem erased_least {ls : List (List Par)} {t : List Par} (hne : ls ≠ []) (h : List.Forall₂ (· ∈ ·) t ls)
    (hf : ∀ p ∈ t, fin p = true) : erased ls t ≠ [] ∧ least ((erased ls t).map num) + 1 = least (ls.map num) := by
  have hn : erased ls t ≠ [] := by
    cases h with
    | nil => exact absurd rfl hne
    | cons => simp [erased]
  refine ⟨hn, ?_⟩
  rw [← erased_num h hf, ← least_succ (by simpa using hn), List.map_map]
  rfl

theorem loop_length (n : ℕ) : ∀ (it : ℕ) (ls : List (List Par)), ls ≠ [] →
    (loop n it ls).1.length = min n (least (ls.map num)) := by
  induction n with
  | zero => intros; simp [loop]
  | succ n ih =>
    intro it ls hne
    unfold loop
    cases hb : best ls with
    | none =>
      dsimp only
      rw [ih (it + 1) ls hne]
      have h0 : least (ls.map num) = 0 := by
        by_contra hc
        have : ∀ l ∈ ls, 0 < num l := fun l hl =>
          lt_of_lt_of_le (Nat.pos_of_ne_zero hc) (least_le (List.mem_map_of_mem hl))
        obtain ⟨t, ht, w, hw⟩ := exists_window.2 this
        rw [best_none hb t ht] at hw
        cases hw
      rw [h0]; simp
    | some wt =>
      obtain ⟨w, t⟩ := wt
      dsimp only
      obtain ⟨h1, h2, -⟩ := best_some hb
      have hf := window_some_iff.1 ⟨w, h1⟩
      obtain ⟨e1, e2⟩ := erased_least hne (mem_choices.1 h2) hf
      simp only [List.length_cons]
      have := ih (it + 1) (erased ls t) e1
      unfold erased at this e2
      rw [this]
      omega

theorem num_le (l : List Par) : num l ≤ l.length := List.length_filter_le _ _

theorem least_le_iters {ls : List (List Par)} (h : 2 ≤ ls.length) : least (ls.map num) ≤ iters ls := by
  match ls, h with
  | a :: b :: r, _ =>
    unfold iters
    refine le_min (le_trans (least_le ?_) (num_le a)) (le_trans (least_le ?_) (num_le b)) <;> simp

/-! ## C114 -/

/-- The number of traps found is the smallest number of fits with a finite error in the lists that are matched. -/
theorem C114_count (ls : List (List Par)) (h : 2 ≤ ls.length) :
    (locate ls).1.length = least (ls.map num) := by
  unfold locate
  rw [loop_length _ _ _ (by rintro rfl; simp at h)]
  exact min_eq_right (least_le_iters h)

theorem loop_iters (n : ℕ) : ∀ (it : ℕ) (ls : List (List Par)),
    (loop n it ls).1.map (·.iter) = (List.range (loop n it ls).1.length).map (· + it) := by
  induction n with
  | zero => intros; simp [loop]
  | succ n ih =>
    intro it ls
    unfold loop
    cases hb : best ls with
    | none =>
      dsimp only
      -- nothing is found later either
      have hz : ∀ m j, (loop m j ls).1 = [] := by
        intro m
        induction m with
        | zero => intro j; rfl
        | succ m ihm => intro j; unfold loop; rw [hb]; exact ihm (j + 1)
      rw [hz]; rfl
    | some wt =>
      obtain ⟨w, t⟩ := wt
      dsimp only
      simp only [List.map_cons, List.length_cons, List.range_succ_eq_map, List.map_map]
      rw [ih]
      simp only [mkTrap, Nat.zero_add, List.cons.injEq, true_and]
      apply List.map_congr_left
      intro a _
      simp only [Function.comp]
      omega

/-- The iteration numbers of the traps of one location are 0, 1, 2, … -/
theorem C114_iter (ls : List (List Par)) :
    (locate ls).1.map (·.iter) = List.range (locate ls).1.length := by
  unfold locate
  rw [loop_iters]
  simp

/-- What is used from the list at position `i`. -/
def usedAt (ts : List Trap) (i : ℕ) : List Par := ts.filterMap fun t => t.parts[i]?

theorem erased_get {ls : List (List Par)} {t : List Par} (h : List.Forall₂ (· ∈ ·) t ls) {i : ℕ} {l : List Par}
    (hl : ls[i]? = some l) : ∃ x, t[i]? = some x ∧ x ∈ l ∧ (erased ls t)[i]? = some (l.erase x) := by
  unfold erased
  induction h generalizing i with
  | nil => simp at hl
  | cons hx _ ih =>
    cases i with
    | zero =>
      simp only [List.getElem?_cons_zero, Option.some.injEq] at hl
      subst hl
      exact ⟨_, rfl, hx, rfl⟩
    | succ i =>
      simp only [List.getElem?_cons_succ] at hl
      obtain ⟨x, h1, h2, h3⟩ := ih hl
      exact ⟨x, by simpa using h1, h2, by simpa using h3⟩

theorem loop_used (n : ℕ) : ∀ (it : ℕ) (ls : List (List Par)) (i : ℕ) (l : List Par), ls[i]? = some l →
    ∃ r, (loop n it ls).2[i]? = some r ∧ (usedAt (loop n it ls).1 i ++ r).Perm l := by
  induction n with
  | zero => intro it ls i l hl; exact ⟨l, hl, by simp [loop, usedAt]⟩
  | succ n ih =>
    intro it ls i l hl
    unfold loop
    cases hb : best ls with
    | none => exact ih (it + 1) ls i l hl
    | some wt =>
      obtain ⟨w, t⟩ := wt
      dsimp only
      obtain ⟨-, h2, -⟩ := best_some hb
      obtain ⟨x, hx, hm, he⟩ := erased_get (mem_choices.1 h2) hl
      obtain ⟨r, hr, hp⟩ := ih (it + 1) (erased ls t) i _ he
      refine ⟨r, hr, ?_⟩
      have : usedAt (mkTrap t it :: (loop n (it + 1) (erased ls t)).1) i =
          x :: usedAt (loop n (it + 1) (erased ls t)).1 i := by
        unfold usedAt
        rw [List.filterMap_cons_some (b := x)]
        exact hx
      change (usedAt (mkTrap t it :: (loop n (it + 1) (erased ls t)).1) i ++ r).Perm l
      rw [this, List.cons_append]
      exact (hp.cons x).trans (List.perm_cons_erase hm).symm

/-- Each fit is used at most once: the used and the left fits of a scheme together are those it had. -/
theorem C114_once (ls : List (List Par)) (i : ℕ) (l : List Par) (hl : ls[i]? = some l) :
    ∃ r, (locate ls).2[i]? = some r ∧ (usedAt (locate ls).1 i ++ r).Perm l := loop_used _ _ _ i l hl

theorem top_spec : ∀ {l : List ℚ}, l ≠ [] → top l ∈ l ∧ ∀ x ∈ l, x ≤ top l
  | [y], _ => by simp [top]
  | y :: z :: l, _ => by
    obtain ⟨h1, h2⟩ := top_spec (l := z :: l) (by simp)
    unfold top
    constructor
    · rcases max_choice y (top (z :: l)) with h | h
      · rw [h]; exact List.mem_cons_self
      · rw [h]; exact List.mem_cons_of_mem _ h1
    · intro x hx
      rcases List.mem_cons.1 hx with rfl | hx
      · exact le_max_left _ _
      · exact le_trans (h2 x hx) (le_max_right _ _)

theorem bot_spec : ∀ {l : List ℚ}, l ≠ [] → bot l ∈ l ∧ ∀ x ∈ l, bot l ≤ x
  | [y], _ => by simp [bot]
  | y :: z :: l, _ => by
    obtain ⟨h1, h2⟩ := bot_spec (l := z :: l) (by simp)
    unfold bot
    constructor
    · rcases min_choice y (bot (z :: l)) with h | h
      · rw [h]; exact List.mem_cons_self
      · rw [h]; exact List.mem_cons_of_mem _ h1
    · intro x hx
      rcases List.mem_cons.1 hx with rfl | hx
      · exact min_le_left _ _
      · exact le_trans (min_le_right _ _) (h2 x hx)

theorem loop_mem (n : ℕ) : ∀ (it : ℕ) (ls : List (List Par)) (a : Trap), a ∈ (loop n it ls).1 →
    ∃ t j, a = mkTrap t j ∧ t.length = ls.length ∧ ∀ p ∈ t, fin p = true := by
  induction n with
  | zero => intro it ls a ha; simp [loop] at ha
  | succ n ih =>
    intro it ls a ha
    unfold loop at ha
    cases hb : best ls with
    | none => rw [hb] at ha; exact ih _ _ a ha
    | some wt =>
      obtain ⟨w, t⟩ := wt
      rw [hb] at ha
      dsimp only at ha
      obtain ⟨h1, h2, -⟩ := best_some hb
      have hlen := (mem_choices.1 h2).length_eq
      rcases List.mem_cons.1 ha with rfl | ha
      · exact ⟨t, it, rfl, hlen, window_some_iff.1 ⟨w, h1⟩⟩
      · obtain ⟨s, j, e, hl, hf⟩ := ih _ _ a ha
        exact ⟨s, j, e, by rw [hl, List.length_zipWith, hlen, min_self], hf⟩

/-- `tau ± sigma` of a trap is the smallest interval that contains `tau ± err` of all fits it was made of. -/
theorem C114_window (ls : List (List Par)) (hls : ls ≠ []) (a : Trap) (ha : a ∈ (locate ls).1) :
    (∀ p ∈ a.parts, ∃ e, p.err = some e ∧ a.tau - a.sigma ≤ p.tau - e ∧ p.tau + e ≤ a.tau + a.sigma) ∧
    (∃ p ∈ a.parts, ∃ e, p.err = some e ∧ p.tau + e = a.tau + a.sigma) ∧
    (∃ p ∈ a.parts, ∃ e, p.err = some e ∧ p.tau - e = a.tau - a.sigma) := by
  obtain ⟨t, j, rfl, hl, hf⟩ := loop_mem _ _ _ a ha
  have hne : t ≠ [] := by
    rintro rfl
    exact hls (List.length_eq_zero_iff.1 hl.symm)
  have e1 : (mkTrap t j).tau + (mkTrap t j).sigma = up t := by unfold mkTrap; ring
  have e2 : (mkTrap t j).tau - (mkTrap t j).sigma = low t := by unfold mkTrap; ring
  have e3 : (mkTrap t j).parts = t := rfl
  rw [e1, e2, e3]
  obtain ⟨u1, u2⟩ := top_spec (l := t.map fun p => p.tau + p.err.getD 0) (by simpa using hne)
  obtain ⟨l1, l2⟩ := bot_spec (l := t.map fun p => p.tau - p.err.getD 0) (by simpa using hne)
  have some_err : ∀ p ∈ t, p.err = some (p.err.getD 0) := by
    intro p hp
    have := hf p hp
    unfold fin at this
    obtain ⟨e, he⟩ := Option.isSome_iff_exists.1 this
    rw [he]; rfl
  refine ⟨?_, ?_, ?_⟩
  · intro p hp
    exact ⟨_, some_err p hp, l2 _ (List.mem_map_of_mem hp), u2 _ (List.mem_map_of_mem hp)⟩
  · obtain ⟨p, hp, he⟩ := List.mem_map.1 u1
    exact ⟨p, hp, _, some_err p hp, he⟩
  · obtain ⟨p, hp, he⟩ := List.mem_map.1 l1
    exact ⟨p, hp, _, some_err p hp, he⟩

/-- The first trap is made of the fits with the smallest window of all. -/
theorem C114_first (ls : List (List Par)) (a : Trap) (ha : (locate ls).1.head? = some a) :
    a.parts ∈ choices ls ∧ ∃ w, window a.parts = some w ∧ ∀ s ∈ choices ls, ∀ v, window s = some v → w ≤ v := by
  unfold locate at ha
  generalize hi : 0 = it at ha
  clear hi
  generalize iters ls = n at ha
  induction n generalizing it with
  | zero => simp [loop] at ha
  | succ n ih =>
    unfold loop at ha
    cases hb : best ls with
    | none => rw [hb] at ha; exact ih _ ha
    | some wt =>
      obtain ⟨w, t⟩ := wt
      rw [hb] at ha
      simp only [List.head?_cons, Option.some.injEq] at ha
      subst ha
      obtain ⟨h1, h2, h3⟩ := best_some hb
      exact ⟨h2, w, h1, h3⟩

/-- But the windows together are not the smallest possible: here 1 and 5, where 2 and 2 can be had. -/
theorem C114_violated_total :
    ∃ a b c d : Par, ((locate [[a, b], [c, d]]).1.map (fun t => 2 * t.sigma)).sum = 6 ∧
      window [a, c] = some 2 ∧ window [b, d] = some 2 :=
  ⟨⟨0, 0, some 0⟩, ⟨1, 3, some 0⟩, ⟨2, 2, some 0⟩, ⟨3, 5, some 0⟩, by decide +kernel, by decide +kernel, by decide +kernel⟩

example : (locate [[⟨0, 1, some 1⟩], [⟨1, 2, some 1⟩], [⟨2, 3, some 2⟩]]).1.map (fun t => (t.tau, t.sigma)) = [(5 / 2, 5 / 2)] := by
  decide +kernel

/-! ## The twelve locations -/

inductive Sch
  | s1 | s2 | s3 | s4
  deriving DecidableEq, Repr

inductive Ori
  | above | below
  deriving DecidableEq, Repr

inductive Prob
  | one | two | three
  deriving DecidableEq, Repr

structure Key where
  sch : Sch
  ori : Ori
  prob : Prob
  deriving DecidableEq, Repr

inductive Loc
  | lhs1 | cen1 | rhs1 | lhs2 | cen2 | rhs2 | lhs3 | cen3 | rhs3 | lhs4 | cen4 | rhs4
  deriving DecidableEq, Repr

open Loc Sch Ori Prob in
/-- Lines 2985-2997, 3015-3031. -/
def keys : Loc → List Key
  | lhs2 => [⟨s1, above, two⟩, ⟨s2, below, one⟩, ⟨s4, above, three⟩]
  | rhs2 => [⟨s1, above, one⟩, ⟨s2, below, two⟩, ⟨s4, below, three⟩]
  | lhs4 => [⟨s1, below, one⟩, ⟨s2, above, two⟩, ⟨s3, above, three⟩]
  | rhs4 => [⟨s1, below, two⟩, ⟨s2, above, one⟩, ⟨s3, below, three⟩]
  | lhs1 => [⟨s1, below, one⟩, ⟨s3, below, three⟩]
  | cen1 => [⟨s3, below, two⟩, ⟨s4, above, two⟩]
  | rhs1 => [⟨s1, above, one⟩, ⟨s4, above, three⟩]
  | cen2 => [⟨s1, above, one⟩, ⟨s2, below, one⟩]
  | lhs3 => [⟨s2, below, one⟩, ⟨s4, below, three⟩]
  | cen3 => [⟨s3, above, two⟩, ⟨s4, below, two⟩]
  | rhs3 => [⟨s2, above, one⟩, ⟨s3, above, three⟩]
  | cen4 => [⟨s1, below, one⟩, ⟨s2, above, one⟩]

open Loc in
/-- The order of the lines. -/
def order : List Loc := [lhs2, rhs2, lhs4, rhs4, lhs1, cen1, rhs1, cen2, lhs3, cen3, rhs3, cen4]

abbrev St := Key → List Par

def put (st : St) : List Key → List (List Par) → St
  | k :: ks, r :: rs => fun j => if j = k then r else put st ks rs j
  | _, _ => st

/-- One location. -/
def visit (st : St) (x : Loc) : List Trap × St :=
  let r := locate ((keys x).map st)
  (r.1, put st (keys x) r.2)

/-- Lines 2972-3031 for one pixel: traps with their location. -/
def run : List Loc → St → List (Loc × Trap) × St
  | [], st => ([], st)
  | x :: xs, st =>
    let v := visit st x
    let r := run xs v.2
    (v.1.map (fun t => (x, t)) ++ r.1, r.2)

def pixel (allSchemes : Bool) (st : St) : List (Loc × Trap) := if allSchemes then (run order st).1 else []

/-- Number of traps found at a location. -/
def found (r : List (Loc × Trap)) (x : Loc) : ℕ := (r.filter fun p => p.1 = x).length

theorem keys_len (x : Loc) : 2 ≤ (keys x).length := by cases x <;> decide

theorem keys_nodup (x : Loc) : (keys x).Nodup := by cases x <;> decide

theorem num_perm {a b : List Par} (h : a.Perm b) : num a = num b := (h.filter fin).length_eq

theorem num_append (a b : List Par) : num (a ++ b) = num a + num b := by simp [num]

theorem usedAt_length {ts : List Trap} {i : ℕ} (h : ∀ t ∈ ts, i < t.parts.length ∧ ∀ p ∈ t.parts, fin p = true) :
    num (usedAt ts i) = ts.length := by
  induction ts with
  | nil => rfl
  | cons t ts ih =>
    obtain ⟨hi, hf⟩ := h t List.mem_cons_self
    have e : t.parts[i]? = some t.parts[i] := List.getElem?_eq_getElem hi
    unfold usedAt
    rw [List.filterMap_cons_some (b := t.parts[i]) (by exact e)]
    have ih' := ih (fun t ht => h t (List.mem_cons_of_mem _ ht))
    unfold usedAt at ih'
    unfold num at ih' ⊢
    rw [List.filter_cons_of_pos (p := fin) (hf _ (List.getElem_mem hi)), List.length_cons, List.length_cons, ih']

theorem put_not_mem {st : St} : ∀ {ks : List Key} {rs : List (List Par)} {j : Key}, j ∉ ks → put st ks rs j = st j
  | [], _, _, _ => by simp [put]
  | k :: ks, [], _, _ => by simp [put]
  | k :: ks, r :: rs, j, h => by
    simp only [List.mem_cons, not_or] at h
    unfold put
    rw [if_neg h.1]
    exact put_not_mem h.2

theorem put_get {st : St} : ∀ {ks : List Key} {rs : List (List Par)} {j : Key} {i : ℕ} {r : List Par}, ks.Nodup →
    ks[i]? = some j → rs[i]? = some r → put st ks rs j = r
  | [], _, _, _, _, _, h, _ => by simp at h
  | k :: ks, [], _, _, _, _, _, h => by simp at h
  | k :: ks, q :: rs, j, 0, r, _, h1, h2 => by
    simp only [List.getElem?_cons_zero, Option.some.injEq] at h1 h2
    subst h1 h2
    simp [put]
  | k :: ks, q :: rs, j, i + 1, r, hn, h1, h2 => by
    simp only [List.getElem?_cons_succ] at h1 h2
    rw [List.nodup_cons] at hn
    have : j ≠ k := by rintro rfl; exact hn.1 (List.mem_of_getElem? h1)
    unfold put
    rw [if_neg this]
    exact put_get hn.2 h1 h2

/-- A visit uses as many fits of each of its keys as it finds traps, and none of another key. -/
theorem visit_num (st : St) (x : Loc) (k : Key) :
    num (st k) = num ((visit st x).2 k) + if k ∈ keys x then (visit st x).1.length else 0 := by
  by_cases hk : k ∈ keys x
  · rw [if_pos hk]
    obtain ⟨i, hi⟩ := List.mem_iff_getElem?.1 hk
    have hl : ((keys x).map st)[i]? = some (st k) := by rw [List.getElem?_map, hi]; rfl
    obtain ⟨r, hr, hp⟩ := C114_once _ i _ hl
    have hput : (visit st x).2 k = r := put_get (keys_nodup x) hi hr
    have hu : num (usedAt (locate ((keys x).map st)).1 i) = (locate ((keys x).map st)).1.length := by
      apply usedAt_length
      intro t ht
      obtain ⟨s, j, rfl, hlen, hf⟩ := loop_mem _ _ _ t ht
      refine ⟨?_, hf⟩
      change i < s.length
      rw [hlen, List.length_map]
      exact (List.getElem?_eq_some_iff.1 hi).1
    have hv : (visit st x).1 = (locate ((keys x).map st)).1 := rfl
    rw [hput, ← num_perm hp, num_append, hu, hv]
    omega
  · rw [if_neg hk]
    have hv : (visit st x).2 = put st (keys x) (locate ((keys x).map st)).2 := rfl
    rw [hv, put_not_mem hk]
    rfl

theorem visit_count (st : St) (x : Loc) : (visit st x).1.length = least ((keys x).map fun k => num (st k)) := by
  unfold visit
  rw [C114_count _ (by rw [List.length_map]; exact keys_len x), List.map_map]
  rfl

/-- Number of fits of a key that traps at the locations `xs` give, `n x` traps at location `x`. -/
def expected (n : Loc → ℕ) (xs : List Loc) (k : Key) : ℕ := (xs.map fun x => if k ∈ keys x then n x else 0).sum

theorem least_eq {l : List ℕ} {m : ℕ} (h1 : m ∈ l) (h2 : ∀ x ∈ l, m ≤ x) : least l = m :=
  le_antisymm (least_le h1) (h2 _ (least_mem (List.ne_nil_of_mem h1)))

/-- At each place of the order, the location has a key that no location after it needs. -/
def Own : List Loc → Prop
  | [] => True
  | x :: xs => (∃ k ∈ keys x, ∀ y ∈ xs, k ∉ keys y) ∧ x ∉ xs ∧ Own xs

instance decOwn : ∀ xs, Decidable (Own xs)
  | [] => isTrue trivial
  | x :: xs => by
    have := decOwn xs
    unfold Own
    infer_instance

theorem own_order : Own order := by decide +kernel

theorem expected_zero {n : Loc → ℕ} {xs : List Loc} {k : Key} (h : ∀ y ∈ xs, k ∉ keys y) : expected n xs k = 0 := by
  unfold expected
  induction xs with
  | nil => rfl
  | cons y ys ih =>
    rw [List.map_cons, List.sum_cons, if_neg (h y List.mem_cons_self), ih (fun z hz => h z (List.mem_cons_of_mem _ hz))]

theorem run_found (n : Loc → ℕ) : ∀ (xs : List Loc) (st : St), Own xs → (∀ k, num (st k) = expected n xs k) →
    (∀ x ∈ xs, found (run xs st).1 x = n x) ∧ (∀ x, x ∉ xs → found (run xs st).1 x = 0) ∧
    ∀ k, num ((run xs st).2 k) = 0 := by
  intro xs
  induction xs with
  | nil =>
    intro st _ h
    exact ⟨by simp, by simp [run, found], fun k => by simpa [expected, run] using h k⟩
  | cons x xs ih =>
    rintro st ⟨⟨k0, hk0, hown⟩, hx, ho⟩ h
    have hexp : ∀ k, expected n (x :: xs) k = (if k ∈ keys x then n x else 0) + expected n xs k := by
      intro k; simp [expected]
    have hlen : (visit st x).1.length = n x := by
      rw [visit_count]
      apply least_eq
      · refine List.mem_map.2 ⟨k0, hk0, ?_⟩
        rw [h, hexp, if_pos hk0, expected_zero hown, Nat.add_zero]
      · intro v hv
        obtain ⟨k, hk, rfl⟩ := List.mem_map.1 hv
        rw [h, hexp, if_pos hk]
        exact Nat.le_add_right _ _
    have hrest : ∀ k, num ((visit st x).2 k) = expected n xs k := by
      intro k
      have h1 := visit_num st x k
      rw [h, hexp, hlen] at h1
      omega
    obtain ⟨i1, i2, i3⟩ := ih _ ho hrest
    have hf : ∀ y, found (run (x :: xs) st).1 y = (if y = x then n x else 0) + found (run xs (visit st x).2).1 y := by
      intro y
      unfold found
      simp only [run, List.filter_append, List.length_append, List.filter_map, List.length_map]
      congr 1
      by_cases hy : y = x
      · subst hy
        rw [if_pos rfl, ← hlen, List.filter_eq_self.2]
        intro a _
        simp
      · rw [if_neg hy, List.length_eq_zero_iff, List.filter_eq_nil_iff]
        intro a _
        simpa using fun e : x = y => hy e.symm
    refine ⟨?_, ?_, i3⟩
    · intro y hy
      rw [hf]
      rcases List.mem_cons.1 hy with rfl | hy'
      · rw [if_pos rfl, i2 y hx, Nat.add_zero]
      · rw [if_neg (by rintro rfl; exact hx hy'), i1 y hy', Nat.zero_add]
    · intro y hy
      simp only [List.mem_cons, not_or] at hy
      rw [hf, if_neg hy.1, i2 y hy.2]

theorem mem_order (x : Loc) : x ∈ order := by cases x <;> decide

/-- If a pixel has `n x` traps at each location `x`, and each gives a fit in each of its schemes, then `n x` traps are found
at each location and no fit is left: however many they are, no location takes fits from another. -/
theorem C114_recover (n : Loc → ℕ) (st : St) (h : ∀ k, num (st k) = expected n order k) :
    (∀ x, found (pixel true st) x = n x) ∧ ∀ k, num ((run order st).2 k) = 0 := by
  obtain ⟨h1, -, h3⟩ := run_found n order st own_order h
  exact ⟨fun x => h1 x (mem_order x), h3⟩

/-- Without all four schemes no trap is located, and nothing says so. -/
theorem C114_four (st : St) : pixel false st = [] := rfl

/-- The pixel seen from the other side: electrodes 2 and 4, left and right, schemes 3 and 4, above and below change places. -/
def mirror : Loc → Loc
  | .lhs1 => .rhs1 | .cen1 => .cen1 | .rhs1 => .lhs1 | .lhs2 => .rhs4 | .cen2 => .cen4 | .rhs2 => .lhs4
  | .lhs3 => .rhs3 | .cen3 => .cen3 | .rhs3 => .lhs3 | .lhs4 => .rhs2 | .cen4 => .cen2 | .rhs4 => .lhs2

def Key.mirror (k : Key) : Key :=
  ⟨match k.sch with | .s1 => .s1 | .s2 => .s2 | .s3 => .s4 | .s4 => .s3,
   match k.ori with | .above => .below | .below => .above, k.prob⟩

/-- Half a pixel further: electrodes 1 and 3, 2 and 4, schemes 1 and 2, 3 and 4 change places. -/
def shift : Loc → Loc
  | .lhs1 => .lhs3 | .cen1 => .cen3 | .rhs1 => .rhs3 | .lhs2 => .lhs4 | .cen2 => .cen4 | .rhs2 => .rhs4
  | .lhs3 => .lhs1 | .cen3 => .cen1 | .rhs3 => .rhs1 | .lhs4 => .lhs2 | .cen4 => .cen2 | .rhs4 => .rhs2

def Key.shift (k : Key) : Key :=
  ⟨match k.sch with | .s1 => .s2 | .s2 => .s1 | .s3 => .s4 | .s4 => .s3, k.ori, k.prob⟩

/-- The table of locations has the two symmetries of the pixel. -/
theorem C114_mirror (x : Loc) (k : Key) : k ∈ keys (mirror x) ↔ k ∈ (keys x).map Key.mirror := by
  obtain ⟨s, o, p⟩ := k
  cases x <;> cases s <;> cases o <;> cases p <;> decide

theorem C114_shift (x : Loc) (k : Key) : k ∈ keys (shift x) ↔ k ∈ (keys x).map Key.shift := by
  obtain ⟨s, o, p⟩ := k
  cases x <;> cases s <;> cases o <;> cases p <;> decide

/-- No location is told from the same fits as another, nor from a part of them. -/
theorem C114_distinct (x y : Loc) (h : ∀ k ∈ keys x, k ∈ keys y) : x = y := by
  revert h
  cases x <;> cases y <;> decide

/-- The two-scheme locations before the three-scheme ones would not do: a trap at the left of electrode 2 and one at the
right, taken for one at the centre. -/
example : let n : Loc → ℕ := fun x => if x = .lhs2 ∨ x = .rhs2 then 1 else 0
    let st : St := fun k => List.replicate (expected n order k) ⟨0, 1, some 0⟩
    found (run [.cen2, .lhs2, .rhs2] st).1 .cen2 = 1 ∧ found (run [.cen2, .lhs2, .rhs2] st).1 .lhs2 = 0 := by decide +kernel

/-- Every number of traps is possible. -/
example (n : Loc → ℕ) : ∃ st : St, ∀ k, num (st k) = expected n order k :=
  ⟨fun k => List.replicate (expected n order k) ⟨0, 1, some 0⟩, fun k => by
    unfold num
    rw [List.filter_eq_self.2 (fun a ha => by rw [List.eq_of_mem_replicate ha]; rfl), List.length_replicate]⟩

/-! ## C115: `unused_fit_data` -/

/-- A pixel in `rc_above` or `rc_below` of a scheme: dictionary from probability function to fits. -/
abbrev Dict := List (Prob × List Par)

/-- Lines 3036-3041. -/
def unused (ds : List Dict) : ℕ := (ds.map List.length).sum

/-- Fits that are left. -/
def left (ds : List Dict) : ℕ := (ds.map fun d => (d.map fun e => e.2.length).sum).sum

/-- The loop over the temperatures, line 3036 within it; before, line 2279, `None`. -/
def reported (temps : List (List Dict)) : Option ℕ := temps.foldl (fun _ ds => some (unused ds)) none

/-- Removing fits from the lists does not change the count. -/
theorem C115_blind (ds ds' : List Dict) (h : List.Forall₂ (fun d d' => d.map Prod.fst = d'.map Prod.fst) ds ds') :
    unused ds = unused ds' := by
  unfold unused
  congr 1
  induction h with
  | nil => rfl
  | cons hd _ ih =>
    have := congrArg List.length hd
    simp only [List.length_map] at this
    rw [List.map_cons, List.map_cons, this, ih]

/-- All fits matched, and two reported as unused. -/
theorem C115_violated : ∃ ds, left ds = 0 ∧ unused ds = 2 := ⟨[[(.one, [])], [(.three, [])]], by decide, by decide⟩

/-- Two fits unused, and one reported. -/
theorem C115_violated_less : ∃ ds, left ds = 2 ∧ unused ds = 1 :=
  ⟨[[(.one, [⟨0, 1, none⟩, ⟨1, 2, none⟩])]], by decide, by decide⟩

/-- Only the last temperature is reported. -/
theorem C115_last (temps : List (List Dict)) (ds : List Dict) : reported (temps ++ [ds]) = some (unused ds) := by
  unfold reported
  rw [List.foldl_append]
  rfl

/-- The count is right where every list holds exactly one fit. -/
theorem C115_partial (ds : List Dict) (h : ∀ d ∈ ds, ∀ e ∈ d, e.2.length = 1) : unused ds = left ds := by
  unfold unused left
  congr 1
  apply List.map_congr_left
  intro d hd
  have : d.map (fun e => e.2.length) = d.map fun _ => 1 := List.map_congr_left (h d hd)
  rw [this]
  simp

example : reported [[[(.one, [⟨0, 1, none⟩])]], []] = some 0 := by decide

end Corgi.TrapMatch

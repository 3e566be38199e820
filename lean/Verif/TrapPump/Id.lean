import Mathlib.Algebra.Order.Floor.Ring
import Mathlib.Algebra.Order.Ring.Rat
import Mathlib.Data.Rat.Floor
import Mathlib.Algebra.Order.BigOperators.Group.List
import Mathlib.Algebra.BigOperators.Group.List.Basic
import Mathlib.Tactic.Linarith
import Mathlib.Tactic.FieldSimp
import Mathlib.Tactic.NormNum
import Mathlib.Tactic.Positivity
import Verif.Common.Groups

/-!
# Dipoles in trap-pumped frames (pump_trap_calibration.py 334-550): model and C111

A frame has the number of rows `m` and columns `n`; `med` and `sd` stand for `np.median` and `np.std` of the frame, `t`
for its phase time. The dictionaries returned are lists of entries; their order does not matter. Fractions are
exact; python adds them in floating point.
-/

namespace Corgi.TrapId

open Corgi.Groups

structure Frame where
  val : ℕ → ℕ → ℚ
  med : ℚ
  sd : ℚ
  t : ℚ

/-- Lines 455-458. -/
def upper (k : ℚ) (f : Frame) (r c : ℕ) : Bool := decide (f.med + f.sd * k < f.val r c)
def lower (k : ℚ) (f : Frame) (r c : ℕ) : Bool := decide (f.val r c < f.med - f.sd * k)

/-- `Dipole_above`, lines 465, 468: `np.roll(a, -1)` brings the next row. -/
def sumAbove (k : ℚ) (m : ℕ) (f : Frame) (r c : ℕ) : ℕ :=
  if r + 1 = m then 0 else (upper k f r c).toNat + (lower k f ((r + 1) % m) c).toNat

/-- `Dipole_below`, lines 466, 469: `np.roll(a, 1)` brings the row before. -/
def sumBelow (k : ℚ) (m : ℕ) (f : Frame) (r c : ℕ) : ℕ :=
  if r = 0 then 0 else (upper k f r c).toNat + (lower k f ((r + m - 1) % m) c).toNat

/-- Lines 473-474. -/
def above (k : ℚ) (m r c : ℕ) (f : Frame) : Bool := decide (1 < sumAbove k m f r c)
def below (k : ℚ) (m r c : ℕ) (f : Frame) : Bool := decide (1 < sumBelow k m f r c)

/-- Lines 476-482: one over the number of frames of the same phase time. -/
def share (fs : List Frame) (dip : Frame → Bool) (f : Frame) : ℚ :=
  (if dip f then 1 else 0) / ((fs.map Frame.t).count f.t : ℚ)

/-- Lines 486-487. -/
def score (fs : List Frame) (dip : Frame → Bool) : ℤ := ⌈(fs.map (share fs dip)).sum⌉

/-- Lines 490-491. -/
def found (limit : ℕ) (fs : List Frame) (dip : Frame → Bool) : Bool := decide ((limit : ℤ) ≤ score fs dip)

def pixels (m n : ℕ) : List (ℕ × ℕ) := (List.range m).flatMap fun r => (List.range n).map fun c => (r, c)

/-- Lines 492-502. -/
structure Coords where
  above : List (ℕ × ℕ)
  below : List (ℕ × ℕ)
  both : List (ℕ × ℕ)

def coords (k : ℚ) (limit m n : ℕ) (fs : List Frame) : Coords :=
  let a := (pixels m n).filter fun p => found limit fs (above k m p.1 p.2)
  let b := (pixels m n).filter fun p => found limit fs (below k m p.1 p.2)
  let setA := a.filter fun p => !b.contains p
  let setB := b.filter fun p => !a.contains p
  ⟨setA, setB, a.filter fun p => !setA.contains p⟩

/-- `'amps_*'`, lines 507, 536, 545. -/
def amps (fs : List Frame) (p : ℕ × ℕ) : List ℚ := fs.map fun f => f.val p.1 p.2

/-- `'above'` and `'below'` of an entry of `rc_both`, lines 512-531: amplitudes with their phase times. -/
def side (fs : List Frame) (dip : Frame → Bool) (p : ℕ × ℕ) : List (ℚ × ℚ) :=
  (fs.filter fun f => decide (0 < share fs dip f)).map fun f => (f.val p.1 p.2, f.t)

/-! ## The flags of one frame -/

theorem toNat_add (a b : Bool) : 1 < a.toNat + b.toNat ↔ a = true ∧ b = true := by cases a <;> cases b <;> simp

/-- A pixel is the bright one of an "above" dipole: it is bright, and the pixel of the next row, which must exist, is dark. -/
theorem C111_above (k : ℚ) {m r : ℕ} (c : ℕ) (f : Frame) (hr : r < m) :
    above k m r c f = true ↔ r + 1 < m ∧ f.med + f.sd * k < f.val r c ∧ f.val (r + 1) c < f.med - f.sd * k := by
  unfold above sumAbove
  rw [decide_eq_true_iff]
  split
  · rename_i h; simp; omega
  · rename_i h
    have h1 : r + 1 < m := by omega
    rw [toNat_add, Nat.mod_eq_of_lt h1]
    simp [upper, lower, h1]

/-- The same for "below" and the row before. -/
theorem C111_below (k : ℚ) {m r : ℕ} (c : ℕ) (f : Frame) (hr : r < m) :
    below k m r c f = true ↔ 0 < r ∧ f.med + f.sd * k < f.val r c ∧ f.val (r - 1) c < f.med - f.sd * k := by
  unfold below sumBelow
  rw [decide_eq_true_iff]
  split
  · rename_i h; simp; omega
  · rename_i h
    have e : (r + m - 1) % m = r - 1 := by
      rw [show r + m - 1 = (r - 1) + m by omega, Nat.add_mod_right, Nat.mod_eq_of_lt (by omega)]
    rw [toNat_add, e]
    simp [upper, lower, Nat.pos_of_ne_zero h]

/-! ## Number of phase times -/

/-- The phase times at which at least one frame shows the dipole. -/
def timesWith (fs : List Frame) (dip : Frame → Bool) : List ℚ :=
  (uniq (fs.map Frame.t)).filter fun e => (at' Frame.t e fs).any dip

theorem count_eq (fs : List Frame) (e : ℚ) : (fs.map Frame.t).count e = (at' Frame.t e fs).length := by
  unfold at'
  rw [List.count, List.countP_map, List.countP_eq_length_filter]
  rfl

theorem sum_share (fs : List Frame) (dip : Frame → Bool) :
    (fs.map (share fs dip)).sum =
      ((uniq (fs.map Frame.t)).map fun e => (((at' Frame.t e fs).countP dip : ℕ) : ℚ) / ((at' Frame.t e fs).length : ℕ)).sum := by
  rw [← ((groups_perm Frame.t fs).map (share fs dip)).sum_eq]
  unfold groups
  rw [List.map_flatten, List.sum_flatten, List.map_map, List.map_map]
  congr 1
  apply List.map_congr_left
  intro e _
  rw [Function.comp_apply, Function.comp_apply]
  have key : ∀ l : List Frame, (∀ f ∈ l, f.t = e) →
      (l.map (share fs dip)).sum = ((l.countP dip : ℕ) : ℚ) / ((at' Frame.t e fs).length : ℕ) := by
    intro l
    induction l with
    | nil => intro _; simp
    | cons f l ih =>
      intro h
      rw [List.map_cons, List.sum_cons, ih (fun g hg => h g (List.mem_cons_of_mem _ hg)), List.countP_cons]
      unfold share
      rw [h f List.mem_cons_self, count_eq]
      cases dip f
      · simp
      · simp; ring
  exact key _ (fun f hf => ((mem_at _ _ _ _).1 hf).2)

theorem sum_ite (l : List ℚ) (p : ℚ → Bool) (g : ℚ → ℚ) (h0 : ∀ e ∈ l, p e = false → g e = 0) (h1 : ∀ e ∈ l, g e ≤ 1) :
    (l.map g).sum ≤ (l.filter p).length := by
  induction l with
  | nil => simp
  | cons e l ih =>
    have ih := ih (fun x hx => h0 x (List.mem_cons_of_mem _ hx)) (fun x hx => h1 x (List.mem_cons_of_mem _ hx))
    have h0 := h0 e List.mem_cons_self
    have h1 := h1 e List.mem_cons_self
    rw [List.map_cons, List.sum_cons]
    cases hp : p e with
    | false => rw [List.filter_cons_of_neg (by simp [hp]), h0 hp]; linarith
    | true => rw [List.filter_cons_of_pos hp]; push_cast [List.length_cons]; linarith

/-- Phase times are never counted too often: every pixel reported shows its dipole at `limit` phase times or more. -/
theorem C111_sound_partial (limit : ℕ) (fs : List Frame) (dip : Frame → Bool) (h : found limit fs dip = true) :
    limit ≤ (timesWith fs dip).length := by
  unfold found score at h
  rw [decide_eq_true_iff, sum_share] at h
  have : ((uniq (fs.map Frame.t)).map fun e => (((at' Frame.t e fs).countP dip : ℕ) : ℚ) / ((at' Frame.t e fs).length : ℕ)).sum
      ≤ ((timesWith fs dip).length : ℕ) := by
    apply sum_ite
    · intro e _ h
      have : (at' Frame.t e fs).countP dip = 0 := by
        rw [List.countP_eq_zero]
        intro f hf
        rw [List.any_eq_false] at h
        exact h f hf
      rw [this]; simp
    · intro e he
      apply div_le_one_of_le₀
      · exact_mod_cast List.countP_le_length
      · positivity
  have h2 := le_trans h (Int.ceil_le.2 (by exact_mod_cast this : _ ≤ (((timesWith fs dip).length : ℤ) : ℚ)))
  exact_mod_cast h2

/-- Where the frames of one phase time agree, as they do if there is one of each, the count is exact. -/
theorem C111_exact_partial (limit : ℕ) (fs : List Frame) (dip : Frame → Bool)
    (h : ∀ f ∈ fs, ∀ g ∈ fs, f.t = g.t → dip f = dip g) :
    found limit fs dip = true ↔ limit ≤ (timesWith fs dip).length := by
  unfold found score
  rw [decide_eq_true_iff, sum_share]
  have : ((uniq (fs.map Frame.t)).map fun e => (((at' Frame.t e fs).countP dip : ℕ) : ℚ) / ((at' Frame.t e fs).length : ℕ)).sum
      = ((timesWith fs dip).length : ℕ) := by
    unfold timesWith
    have key : ∀ l : List ℚ, (∀ e ∈ l, e ∈ fs.map Frame.t) →
        (l.map fun e => (((at' Frame.t e fs).countP dip : ℕ) : ℚ) / ((at' Frame.t e fs).length : ℕ)).sum =
          ((l.filter fun e => (at' Frame.t e fs).any dip).length : ℕ) := by
      intro l
      induction l with
      | nil => intro _; simp
      | cons e l ih =>
        intro hl
        rw [List.map_cons, List.sum_cons, ih (fun x hx => hl x (List.mem_cons_of_mem _ hx))]
        have hne := at_ne_nil Frame.t fs e (hl e List.mem_cons_self)
        have hpos : ((at' Frame.t e fs).length : ℚ) ≠ 0 := by
          have := List.length_pos_iff.2 hne
          exact_mod_cast this.ne'
        have hag : ∀ f ∈ at' Frame.t e fs, ∀ g ∈ at' Frame.t e fs, dip f = dip g := by
          intro f hf g hg
          obtain ⟨h1, h2⟩ := (mem_at _ _ _ _).1 hf
          obtain ⟨h3, h4⟩ := (mem_at _ _ _ _).1 hg
          exact h f h1 g h3 (h2.trans h4.symm)
        by_cases ha : (at' Frame.t e fs).any dip = true
        · rw [List.filter_cons_of_pos (p := fun e => (at' Frame.t e fs).any dip) ha]
          obtain ⟨f, hf, hd⟩ := List.any_eq_true.1 ha
          have : (at' Frame.t e fs).countP dip = (at' Frame.t e fs).length := by
            rw [List.countP_eq_length]
            intro g hg
            rw [hag g hg f hf, hd]
          rw [this, div_self hpos]; push_cast [List.length_cons]; ring
        · rw [List.filter_cons_of_neg (p := fun e => (at' Frame.t e fs).any dip) ha]
          have : (at' Frame.t e fs).countP dip = 0 := by
            rw [List.countP_eq_zero]
            intro g hg hd
            exact ha (List.any_eq_true.2 ⟨g, hg, hd⟩)
          rw [this]; simp
    exact key _ (fun e he => (mem_uniq _ _).1 he)
  rw [this, show (((timesWith fs dip).length : ℕ) : ℚ) = (((timesWith fs dip).length : ℤ) : ℚ) by push_cast; rfl, Int.ceil_intCast]
  exact_mod_cast Iff.rfl

/-- A single phase time is enough for a limit of one. -/
theorem C111_one (fs : List Frame) (dip : Frame → Bool) : found 1 fs dip = true ↔ ∃ f ∈ fs, dip f = true := by
  have nonneg : ∀ f ∈ fs, 0 ≤ share fs dip f := by
    intro f _; unfold share; split <;> positivity
  unfold found score
  rw [decide_eq_true_iff]
  have : ((1 : ℕ) : ℤ) ≤ ⌈(fs.map (share fs dip)).sum⌉ ↔ 0 < (fs.map (share fs dip)).sum := by
    rw [← Int.ceil_pos]; push_cast; omega
  rw [this]
  constructor
  · intro h
    by_contra hno
    push Not at hno
    have : fs.map (share fs dip) = fs.map fun _ => 0 := by
      apply List.map_congr_left
      intro f hf
      unfold share
      rw [if_neg (by simpa using hno f hf), zero_div]
    rw [this] at h
    simp at h
  · rintro ⟨f, hf, hd⟩
    have h1 : 0 < share fs dip f := by
      unfold share
      rw [if_pos hd]
      have : 0 < (fs.map Frame.t).count f.t := List.count_pos_iff.2 (List.mem_map_of_mem hf)
      have : (0 : ℚ) < ((fs.map Frame.t).count f.t : ℕ) := by exact_mod_cast this
      positivity
    have h2 : share fs dip f ≤ (fs.map (share fs dip)).sum :=
      List.single_le_sum (by intro x hx; obtain ⟨g, hg, rfl⟩ := List.mem_map.1 hx; exact nonneg g hg) _
        (List.mem_map_of_mem hf)
    linarith

def sample (v t : ℚ) : Frame := ⟨fun r _ => if r = 0 then v else if r = 1 then -v else 0, 0, 1, t⟩

/-- Two phase times of two frames; the dipole shows once at each. -/
def four : List Frame := [sample 9 1, sample 0 1, sample 9 2, sample 0 2]

/-- "If at least one of the phase times with multiple frames has a dipole in a given pixel, then ceil will count that phase
time as a '1'" (lines 484-485): the fractions are added before they are rounded up. Two phase times count as one. -/
theorem C111_violated : timesWith four (above 3 3 0 0) = [1, 2] ∧ score four (above 3 3 0 0) = 1 ∧
    found 2 four (above 3 3 0 0) = false := by
  decide +kernel

/-! ## The three dictionaries -/

theorem mem_pixels (m n : ℕ) (p : ℕ × ℕ) : p ∈ pixels m n ↔ p.1 < m ∧ p.2 < n := by
  unfold pixels
  simp only [List.mem_flatMap, List.mem_map, List.mem_range]
  constructor
  · rintro ⟨r, hr, c, hc, rfl⟩; exact ⟨hr, hc⟩
  · rintro ⟨h1, h2⟩; exact ⟨p.1, h1, p.2, h2, rfl⟩

/-- Each pixel is in the dictionary of the kinds of dipole found in it, and in one at most. -/
theorem C111_kinds (k : ℚ) (limit m n : ℕ) (fs : List Frame) (p : ℕ × ℕ) (hp : p.1 < m ∧ p.2 < n) :
    let o := coords k limit m n fs
    let a := found limit fs (above k m p.1 p.2)
    let b := found limit fs (below k m p.1 p.2)
    (p ∈ o.above ↔ a = true ∧ b = false) ∧ (p ∈ o.below ↔ a = false ∧ b = true) ∧ (p ∈ o.both ↔ a = true ∧ b = true) := by
  have hm := (mem_pixels m n p).2 hp
  dsimp only [coords]
  simp only [List.mem_filter, hm, true_and, Bool.not_eq_true', List.contains_iff_mem, ← Bool.not_eq_true]
  cases found limit fs (above k m p.1 p.2) <;> cases found limit fs (below k m p.1 p.2) <;> simp

/-- Nothing is reported outside the frame, nothing "above" in the last row, nothing "below" in the first. -/
theorem C111_rows (k : ℚ) (limit m n : ℕ) (hl : 0 < limit) (fs : List Frame) (p : ℕ × ℕ) :
    let o := coords k limit m n fs
    (p ∈ o.above → p.1 + 1 < m ∧ p.2 < n) ∧ (p ∈ o.below → 0 < p.1 ∧ p.1 < m ∧ p.2 < n) ∧
    (p ∈ o.both → 0 < p.1 ∧ p.1 + 1 < m ∧ p.2 < n) := by
  have hin : ∀ {q : ℕ × ℕ}, q ∈ (coords k limit m n fs).above ∨ q ∈ (coords k limit m n fs).below ∨
      q ∈ (coords k limit m n fs).both → q.1 < m ∧ q.2 < n := by
    intro q hq
    rw [← mem_pixels]
    unfold coords at hq
    simp only [List.mem_filter] at hq
    tauto
  have wit : ∀ dip : Frame → Bool, found limit fs dip = true → ∃ f ∈ fs, dip f = true := by
    intro dip h
    have := C111_sound_partial limit fs dip h
    have : 0 < (timesWith fs dip).length := by omega
    obtain ⟨e, he⟩ := List.exists_mem_of_length_pos this
    unfold timesWith at he
    obtain ⟨f, hf, hd⟩ := List.any_eq_true.1 (List.mem_filter.1 he).2
    exact ⟨f, ((mem_at _ _ _ _).1 hf).1, hd⟩
  dsimp only
  refine ⟨fun h => ?_, fun h => ?_, fun h => ?_⟩
  · have hp := hin (Or.inl h)
    obtain ⟨f, -, hd⟩ := wit _ ((C111_kinds k limit m n fs p hp).1.1 h).1
    exact ⟨((C111_above k p.2 f hp.1).1 hd).1, hp.2⟩
  · have hp := hin (Or.inr (Or.inl h))
    obtain ⟨f, -, hd⟩ := wit _ ((C111_kinds k limit m n fs p hp).2.1.1 h).2
    exact ⟨((C111_below k p.2 f hp.1).1 hd).1, hp⟩
  · have hp := hin (Or.inr (Or.inr h))
    have hk := (C111_kinds k limit m n fs p hp).2.2.1 h
    obtain ⟨f, -, hd⟩ := wit _ hk.1
    obtain ⟨g, -, hd'⟩ := wit _ hk.2
    exact ⟨((C111_below k p.2 g hp.1).1 hd').1, ((C111_above k p.2 f hp.1).1 hd).1, hp.2⟩

/-- A "both" entry lists, for each side, amplitude and phase time of the frames that show the dipole. -/
theorem C111_side (fs : List Frame) (dip : Frame → Bool) (p : ℕ × ℕ) :
    side fs dip p = (fs.filter dip).map fun f => (f.val p.1 p.2, f.t) := by
  unfold side
  congr 1
  apply List.filter_congr
  intro f hf
  unfold share
  have : 0 < (fs.map Frame.t).count f.t := List.count_pos_iff.2 (List.mem_map_of_mem hf)
  have : (0 : ℚ) < ((fs.map Frame.t).count f.t : ℕ) := by exact_mod_cast this
  cases dip f
  · simp
  · simp only [if_true, decide_eq_true_iff]; positivity

/-- The amplitudes of an entry are in the order of the frames. -/
theorem C111_amps (fs : List Frame) (p : ℕ × ℕ) :
    (amps fs p).length = fs.length ∧ ∀ i (h : i < fs.length), (amps fs p)[i]? = some ((fs[i]).val p.1 p.2) := by
  unfold amps
  exact ⟨by simp, fun i h => by simp [h]⟩

example : (coords 3 2 3 1 [sample 9 1, sample 9 2]).above = [(0, 0)] ∧ (coords 3 2 3 1 four).above = [] := by decide +kernel

end Corgi.TrapId

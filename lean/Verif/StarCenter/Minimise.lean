import Verif.StarCenter.Energy

/-!
# `calc_star_location_and_spot_separation` (star_center.py 508-620): model and C156

The energy of `StarCenter.Energy` is maximised over place and separation with `scipy.optimize.minimize`, which is a parameter. The
returned mask is that of the fitted parameters (618) and is left out.
-/

namespace Corgi.StarCenter

open Finset Real

noncomputable section

/-! ## Model -/

/-- x offset, y offset, separation. -/
abbrev Params := ℝ × ℝ × ℝ

/-- What `scipy.optimize.minimize` gets: cost, start, bounds; `none`: no success. -/
abbrev Minimiser := (Params → ℝ) → Params → Params × Params → Option Params

/-- Lower and upper bounds (591-595). -/
def bounds (offTol sepTol : ℝ) (g : Params) : Params × Params :=
  ((g.1 - offTol, g.2.1 - offTol, g.2.2 - sepTol), (g.1 + offTol, g.2.1 + offTol, g.2.2 + sepTol))

/-- 596-616: offsets and separation, or `ValueError`. -/
def locate (nx ny : ℕ) (img : ℕ → ℕ → ℝ) (r : ℝ) (nsub : ℕ) (angles : List ℝ) (offTol sepTol : ℝ) (opt : Minimiser) (g : Params) :
    Except String Params :=
  match opt (fun p => cost nx ny img r nsub angles p.2.2 p.1 p.2.1) g (bounds offTol sepTol g) with
  | some p => .ok p
  | none => .error "ValueError"

/-! ## Specification -/

/-- The parameters are within the bounds. -/
def Within (b : Params × Params) (p : Params) : Prop :=
  (b.1.1 ≤ p.1 ∧ p.1 ≤ b.2.1) ∧ (b.1.2.1 ≤ p.2.1 ∧ p.2.1 ≤ b.2.2.1) ∧ b.1.2.2 ≤ p.2.2 ∧ p.2.2 ≤ b.2.2.2

/-- `p` is a best place within the bounds. -/
def Least (f : Params → ℝ) (b : Params × Params) (p : Params) : Prop :=
  Within b p ∧ ∀ q, Within b q → f p ≤ f q

/-- A minimiser that finds a best place within the bounds if there is one. -/
def Global (opt : Minimiser) : Prop :=
  ∀ f g b, (∃ p, Least f b p) → ∃ p, opt f g b = some p ∧ Least f b p

/-- A minimiser that follows differences with step `h`: if they all vanish at the start, it has converged there. -/
def Stationary (h : ℝ) (opt : Minimiser) : Prop :=
  ∀ f g b, Within b g → (∀ d : Params, (|d.1| ≤ h ∧ |d.2.1| ≤ h ∧ |d.2.2| ≤ h) → f (g + d) = f g) → opt f g b = some g

/-- The boundaries of the regions are further than `ε` from all subpixels. -/
def Clear (nx ny : ℕ) (r : ℝ) (nsub : ℕ) (cs : List (ℝ × ℝ)) (ε : ℝ) : Prop :=
  ∀ c ∈ cs, ∀ row < ny, ∀ col < nx, ∀ i < nsub, ∀ j < nsub,
    ε < |sqrt ((sub nsub i + ((col : ℝ) - (nx / 2 : ℕ) - c.1)) ^ 2 + (sub nsub j + ((row : ℝ) - (ny / 2 : ℕ) - c.2)) ^ 2) - r|

/-! ## Theorems -/

/-- Functions with finitely many values. -/
def Steps {α : Type} (f : α → ℝ) : Prop := (Set.range f).Finite

theorem Steps.add {α : Type} {f g : α → ℝ} (hf : Steps f) (hg : Steps g) : Steps fun a => f a + g a := by
  apply (Set.Finite.image2 (fun u v : ℝ => u + v) hf hg).subset
  rintro _ ⟨a, rfl⟩
  exact ⟨f a, ⟨a, rfl⟩, g a, ⟨a, rfl⟩, rfl⟩

theorem Steps.const {α : Type} (c : ℝ) : Steps fun _ : α => c :=
  (Set.finite_singleton c).subset (by rintro _ ⟨a, rfl⟩; rfl)

theorem Steps.comp {α : Type} {f : α → ℝ} (hf : Steps f) (k : ℝ → ℝ) : Steps fun a => k (f a) := by
  apply (hf.image k).subset
  rintro _ ⟨a, rfl⟩
  exact ⟨f a, ⟨a, rfl⟩, rfl⟩

theorem Steps.sum {α β : Type} (s : Finset β) {f : β → α → ℝ} (hf : ∀ b, Steps (f b)) : Steps fun a => ∑ b ∈ s, f b a := by
  classical
  induction s using Finset.induction_on with
  | empty => simpa using Steps.const (α := α) 0
  | insert b s hb ih => simpa only [Finset.sum_insert hb] using (hf b).add ih

theorem Steps.listSum {α β : Type} (l : List β) {f : β → α → ℝ} (hf : ∀ b, Steps (f b)) : Steps fun a => (l.map fun b => f b a).sum := by
  induction l with
  | nil => simpa using Steps.const (α := α) 0
  | cons b l ih => simpa only [List.map_cons, List.sum_cons] using (hf b).add ih

theorem steps_fraction {α : Type} (r : ℝ) (n : ℕ) (u v : α → ℝ) : Steps fun a => fraction r (u a) (v a) n := by
  classical
  apply ((Set.finite_Iic (n * n)).image fun k : ℕ => (k : ℝ) / ((n : ℝ) * (n : ℝ))).subset
  rintro _ ⟨a, rfl⟩
  refine ⟨_, ?_, rfl⟩
  rw [Set.mem_Iic]
  exact (Finset.card_filter_le _ _).trans (by simp)

theorem steps_mask {nx ny nsub : ℕ} (hx : 2 ≤ nx) (hy : 2 ≤ ny) (hs : 0 < nsub) (r : ℝ) (angles : List ℝ) (row col : ℕ) :
    Steps fun p : Params => roiMask nx ny r nsub (centres angles p.2.2 p.1 p.2.1) row col := by
  have h : (fun p : Params => roiMask nx ny r nsub (centres angles p.2.2 p.1 p.2.1) row col) = fun p : Params =>
      (angles.map fun a =>
        fraction r ((col : ℝ) - (nx / 2 : ℕ) - (pair a p.2.2 p.1 p.2.1).1.1) ((row : ℝ) - (ny / 2 : ℕ) - (pair a p.2.2 p.1 p.2.1).1.2) nsub +
        fraction r ((col : ℝ) - (nx / 2 : ℕ) - (pair a p.2.2 p.1 p.2.1).2.1) ((row : ℝ) - (ny / 2 : ℕ) - (pair a p.2.2 p.1 p.2.1).2.2)
          nsub).sum := by
    funext p
    rw [roiMask_eq hx hy hs, sum_pairs]
  rw [h]
  refine Steps.listSum angles fun a => Steps.add ?_ ?_
  · exact steps_fraction r nsub (fun p : Params => (col : ℝ) - (nx / 2 : ℕ) - (pair a p.2.2 p.1 p.2.1).1.1)
      (fun p : Params => (row : ℝ) - (ny / 2 : ℕ) - (pair a p.2.2 p.1 p.2.1).1.2)
  · exact steps_fraction r nsub (fun p : Params => (col : ℝ) - (nx / 2 : ℕ) - (pair a p.2.2 p.1 p.2.1).2.1)
      (fun p : Params => (row : ℝ) - (ny / 2 : ℕ) - (pair a p.2.2 p.1 p.2.1).2.2)

theorem steps_cost {nx ny nsub : ℕ} (hx : 2 ≤ nx) (hy : 2 ≤ ny) (hs : 0 < nsub) (img : ℕ → ℕ → ℝ) (r : ℝ) (angles : List ℝ) :
    Steps fun p : Params => cost nx ny img r nsub angles p.2.2 p.1 p.2.1 := by
  have h := Steps.sum (range ny ×ˢ range nx) (f := fun (q : ℕ × ℕ) (p : Params) =>
    roiMask nx ny r nsub (centres angles p.2.2 p.1 p.2.1) q.1 q.2 * img q.1 q.2)
    fun q => (steps_mask hx hy hs r angles q.1 q.2).comp fun v => v * img q.1 q.2
  exact h.comp fun v => -v

/-- **C156.** The energy has finitely many values, so there is a best place within the bounds. -/
theorem C156_least {nx ny nsub : ℕ} (hx : 2 ≤ nx) (hy : 2 ≤ ny) (hs : 0 < nsub) (img : ℕ → ℕ → ℝ) (r : ℝ) (angles : List ℝ)
    {b : Params × Params} {g : Params} (hg : Within b g) :
    ∃ p, Least (fun p => cost nx ny img r nsub angles p.2.2 p.1 p.2.1) b p := by
  have hst := steps_cost hx hy hs img r angles
  obtain ⟨p, hp, hm⟩ := Set.exists_min_image
    ((fun p : Params => cost nx ny img r nsub angles p.2.2 p.1 p.2.1) '' {p | Within b p}) id
    (hst.subset (Set.image_subset_range _ _)) ⟨_, g, hg, rfl⟩
  obtain ⟨p, hb, rfl⟩ := hp
  exact ⟨p, hb, fun q hq => hm _ ⟨q, hq, rfl⟩⟩

/-- **C156.** A minimiser that finds the best place returns one, within the bounds, where the regions hold at least as much light as
at any other place and separation within the bounds. -/
theorem C156_best {opt : Minimiser} (ho : Global opt) {nx ny nsub : ℕ} (hx : 2 ≤ nx) (hy : 2 ≤ ny) (hs : 0 < nsub) (img : ℕ → ℕ → ℝ)
    (r : ℝ) (angles : List ℝ)
    {offTol sepTol : ℝ} (h1 : 0 ≤ offTol) (h2 : 0 ≤ sepTol) (g : Params) :
    ∃ p, locate nx ny img r nsub angles offTol sepTol opt g = .ok p ∧ |p.1 - g.1| ≤ offTol ∧ |p.2.1 - g.2.1| ≤ offTol ∧
      |p.2.2 - g.2.2| ≤ sepTol ∧ ∀ q : Params, |q.1 - g.1| ≤ offTol → |q.2.1 - g.2.1| ≤ offTol → |q.2.2 - g.2.2| ≤ sepTol →
        energy nx ny img r nsub angles q.2.2 q.1 q.2.1 ≤ energy nx ny img r nsub angles p.2.2 p.1 p.2.1 := by
  have hw : ∀ q : Params, Within (bounds offTol sepTol g) q ↔
      |q.1 - g.1| ≤ offTol ∧ |q.2.1 - g.2.1| ≤ offTol ∧ |q.2.2 - g.2.2| ≤ sepTol := by
    intro q
    simp only [Within, bounds, abs_le]
    constructor
    · rintro ⟨⟨a, b⟩, ⟨c, d⟩, e, f⟩
      exact ⟨⟨by linarith, by linarith⟩, ⟨by linarith, by linarith⟩, by linarith, by linarith⟩
    · rintro ⟨⟨a, b⟩, ⟨c, d⟩, e, f⟩
      exact ⟨⟨by linarith, by linarith⟩, ⟨by linarith, by linarith⟩, by linarith, by linarith⟩
  obtain ⟨p, hp, hb, hm⟩ := ho (fun p => cost nx ny img r nsub angles p.2.2 p.1 p.2.1) g (bounds offTol sepTol g)
    (C156_least hx hy hs img r angles ((hw g).2 ⟨by simpa, by simpa, by simpa⟩))
  obtain ⟨b1, b2, b3⟩ := (hw p).1 hb
  refine ⟨p, ?_, b1, b2, b3, fun q q1 q2 q3 => ?_⟩
  · unfold locate
    rw [hp]
  · have := hm q ((hw q).2 ⟨q1, q2, q3⟩)
    simp only [cost] at this
    linarith

/-- **C156.** So if the star is within the bounds, all light is in its regions and the regions do not overlap anywhere within the
bounds, the regions of the result hold the light of the star. -/
theorem C156_truth {opt : Minimiser} (ho : Global opt) {nx ny nsub : ℕ} (hx : 2 ≤ nx) (hy : 2 ≤ ny) (hs : 0 < nsub) {r : ℝ}
    {img : ℕ → ℕ → ℝ} {angles : List ℝ} {offTol sepTol : ℝ} (h1 : 0 ≤ offTol) (h2 : 0 ≤ sepTol) {g q : Params}
    (hpos : ∀ row < ny, ∀ col < nx, 0 ≤ img row col)
    (hin : ∀ row < ny, ∀ col < nx, img row col ≠ 0 → 1 ≤ roiMask nx ny r nsub (centres angles q.2.2 q.1 q.2.1) row col)
    (hap : ∀ p : Params, |p.2.2 - g.2.2| ≤ sepTol → (centres angles p.2.2 p.1 p.2.1).Pairwise (Apart r))
    (q1 : |q.1 - g.1| ≤ offTol) (q2 : |q.2.1 - g.2.1| ≤ offTol) (q3 : |q.2.2 - g.2.2| ≤ sepTol) :
    ∃ p, locate nx ny img r nsub angles offTol sepTol opt g = .ok p ∧
      energy nx ny img r nsub angles p.2.2 p.1 p.2.1 = energy nx ny img r nsub angles q.2.2 q.1 q.2.1 := by
  obtain ⟨p, hp, _, _, p3, hm⟩ := C156_best ho hx hy hs img r angles h1 h2 g
  exact ⟨p, hp, le_antisymm (C153_greatest hx hy hs r img angles hpos hin (hap p p3)).1 (hm q q1 q2 q3)⟩

theorem inside_moved {r u v a b ε : ℝ} {n : ℕ} {ij : ℕ × ℕ} (hd : sqrt (a ^ 2 + b ^ 2) ≤ ε)
    (hc : ε < |sqrt ((sub n ij.1 + u) ^ 2 + (sub n ij.2 + v) ^ 2) - r|) : inside r (u - a) (v - b) n ij ↔ inside r u v n ij := by
  have h1 := hyp_add (sub n ij.1 + (u - a)) (sub n ij.2 + (v - b)) a b
  rw [show sub n ij.1 + (u - a) + a = sub n ij.1 + u by ring, show sub n ij.2 + (v - b) + b = sub n ij.2 + v by ring] at h1
  have h2 := hyp_add (sub n ij.1 + u) (sub n ij.2 + v) (-a) (-b)
  rw [show sub n ij.1 + u + -a = sub n ij.1 + (u - a) by ring, show sub n ij.2 + v + -b = sub n ij.2 + (v - b) by ring, neg_sq,
    neg_sq] at h2
  unfold inside
  rcases lt_abs.1 hc with h3 | h3
  · constructor <;> intro h4 <;> linarith
  · constructor <;> intro h4 <;> linarith

theorem centre_moved (sep x y u v w : ℝ) : ∀ s : ℝ, sqrt ((cos s * (sep + w) + (x + u) - (cos s * sep + x)) ^ 2 +
    (sin s * (sep + w) + (y + v) - (sin s * sep + y)) ^ 2) ≤ |u| + |v| + |w| := by
  intro s
  rw [Real.sqrt_le_left (by positivity)]
  have h1 : cos s * (sep + w) + (x + u) - (cos s * sep + x) = cos s * w + u := by ring
  have h2 : sin s * (sep + w) + (y + v) - (sin s * sep + y) = sin s * w + v := by ring
  rw [h1, h2]
  have hsc := Real.sin_sq_add_cos_sq s
  have hc := Real.abs_cos_le_one s
  have hs := Real.abs_sin_le_one s
  have hw := abs_nonneg w
  have hu := abs_nonneg u
  have hv := abs_nonneg v
  have e1 : cos s * w * u ≤ |w| * |u| := by
    calc cos s * w * u ≤ |cos s * w * u| := le_abs_self _
      _ = |cos s| * (|w| * |u|) := by rw [abs_mul, abs_mul]; ring
      _ ≤ 1 * (|w| * |u|) := mul_le_mul_of_nonneg_right hc (by positivity)
      _ = _ := one_mul _
  have e2 : sin s * w * v ≤ |w| * |v| := by
    calc sin s * w * v ≤ |sin s * w * v| := le_abs_self _
      _ = |sin s| * (|w| * |v|) := by rw [abs_mul, abs_mul]; ring
      _ ≤ 1 * (|w| * |v|) := mul_le_mul_of_nonneg_right hs (by positivity)
      _ = _ := one_mul _
  have e3 : (cos s * w + u) ^ 2 + (sin s * w + v) ^ 2 = w ^ 2 + u ^ 2 + v ^ 2 + 2 * (cos s * w * u) + 2 * (sin s * w * v) := by
    linear_combination w ^ 2 * hsc
  rw [e3, ← sq_abs w, ← sq_abs u, ← sq_abs v]
  nlinarith [mul_nonneg hu hv]

/-- **C156.** The energy does not change while the regions move by less than their distance from the next subpixel: it is a step
function of place and separation. -/
theorem C156_flat {nx ny nsub : ℕ} (hx : 2 ≤ nx) (hy : 2 ≤ ny) (hs : 0 < nsub) {r : ℝ} (img : ℕ → ℕ → ℝ) {angles : List ℝ}
    {sep x y ε : ℝ} (hc : Clear nx ny r nsub (centres angles sep x y) ε) {u v w : ℝ} (hd : |u| + |v| + |w| ≤ ε) :
    energy nx ny img r nsub angles (sep + w) (x + u) (y + v) = energy nx ny img r nsub angles sep x y := by
  unfold energy
  apply Finset.sum_congr rfl
  intro p hp
  rw [mem_product, mem_range, mem_range] at hp
  congr 1
  rw [roiMask_eq hx hy hs, roiMask_eq hx hy hs, sum_pairs, sum_pairs]
  congr 1
  apply List.map_congr_left
  intro a ha
  have key : ∀ s : ℝ, (cos s * sep + x, sin s * sep + y) ∈ centres angles sep x y →
      fraction r ((p.2 : ℝ) - (nx / 2 : ℕ) - (cos s * (sep + w) + (x + u))) ((p.1 : ℝ) - (ny / 2 : ℕ) - (sin s * (sep + w) + (y + v))) nsub
        = fraction r ((p.2 : ℝ) - (nx / 2 : ℕ) - (cos s * sep + x)) ((p.1 : ℝ) - (ny / 2 : ℕ) - (sin s * sep + y)) nsub := by
    intro s hmem
    unfold fraction
    congr 2
    congr 1
    apply Finset.filter_congr
    intro ij hij
    rw [mem_product, mem_range, mem_range] at hij
    have h1 := hc _ hmem p.1 hp.1 p.2 hp.2 ij.1 hij.1 ij.2 hij.2
    have h2 := inside_moved (r := r) (n := nsub) (ij := ij) ((centre_moved sep x y u v w s).trans hd) h1
    rw [← h2]
    rw [show (p.2 : ℝ) - (nx / 2 : ℕ) - (cos s * sep + x) - (cos s * (sep + w) + (x + u) - (cos s * sep + x))
        = (p.2 : ℝ) - (nx / 2 : ℕ) - (cos s * (sep + w) + (x + u)) by ring,
      show (p.1 : ℝ) - (ny / 2 : ℕ) - (sin s * sep + y) - (sin s * (sep + w) + (y + v) - (sin s * sep + y))
        = (p.1 : ℝ) - (ny / 2 : ℕ) - (sin s * (sep + w) + (y + v)) by ring]
  have hm : (pair a sep x y).1 ∈ centres angles sep x y ∧ (pair a sep x y).2 ∈ centres angles sep x y := by
    unfold centres
    constructor <;> exact List.mem_flatMap.2 ⟨a, ha, by simp⟩
  exact congrArg₂ (· + ·) (key _ hm.1) (key _ hm.2)

/-- **C156.** For all radii but finitely many there is such a distance. -/
theorem C156_generic (nx ny nsub : ℕ) (cs : List (ℝ × ℝ)) :
    ∃ bad : Finset ℝ, ∀ r, r ∉ bad → ∃ ε > 0, Clear nx ny r nsub cs ε := by
  classical
  let D : Finset ℝ := (cs.toFinset ×ˢ (range ny ×ˢ range nx) ×ˢ (range nsub ×ˢ range nsub)).image fun t =>
    sqrt ((sub nsub t.2.2.1 + ((t.2.1.2 : ℝ) - (nx / 2 : ℕ) - t.1.1)) ^ 2 + (sub nsub t.2.2.2 + ((t.2.1.1 : ℝ) - (ny / 2 : ℕ) - t.1.2)) ^ 2)
  refine ⟨D, fun r hr => ?_⟩
  have hmem : ∀ c ∈ cs, ∀ row < ny, ∀ col < nx, ∀ i < nsub, ∀ j < nsub,
      sqrt ((sub nsub i + ((col : ℝ) - (nx / 2 : ℕ) - c.1)) ^ 2 + (sub nsub j + ((row : ℝ) - (ny / 2 : ℕ) - c.2)) ^ 2) ∈ D := by
    intro c hc row hrow col hcol i hi j hj
    refine Finset.mem_image.2 ⟨(c, (row, col), (i, j)), ?_, rfl⟩
    simp [hc, hrow, hcol, hi, hj]
  rcases D.eq_empty_or_nonempty with h0 | hne
  · refine ⟨1, one_pos, fun c hc row hrow col hcol i hi j hj => ?_⟩
    have := hmem c hc row hrow col hcol i hi j hj
    rw [h0] at this
    simp at this
  · have hne' : (D.image fun d => |d - r|).Nonempty := hne.image _
    have hpos : 0 < (D.image fun d => |d - r|).min' hne' := by
      rw [Finset.lt_min'_iff]
      intro v hv
      rw [Finset.mem_image] at hv
      obtain ⟨d, hd, rfl⟩ := hv
      rw [abs_pos, sub_ne_zero]
      rintro rfl
      exact hr hd
    refine ⟨(D.image fun d => |d - r|).min' hne' / 2, by positivity, fun c hc row hrow col hcol i hi j hj => ?_⟩
    have h1 := Finset.min'_le _ _ (Finset.mem_image_of_mem (fun d => |d - r|) (hmem c hc row hrow col hcol i hi j hj))
    linarith

/-- **C156, violated.** A minimiser that follows differences returns the guess, for every image, every guess and all radii but
finitely many, if its step is small enough: the star is not looked for. -/
theorem C156_violated_gradient {nx ny nsub : ℕ} (hx : 2 ≤ nx) (hy : 2 ≤ ny) (hs : 0 < nsub) (angles : List ℝ) (g : Params) :
    ∃ bad : Finset ℝ, ∀ r, r ∉ bad → ∃ h₀ > 0, ∀ h ≤ h₀, ∀ opt, Stationary h opt → ∀ img offTol sepTol, 0 ≤ offTol → 0 ≤ sepTol →
      locate nx ny img r nsub angles offTol sepTol opt g = .ok g := by
  obtain ⟨bad, hb⟩ := C156_generic nx ny nsub (centres angles g.2.2 g.1 g.2.1)
  refine ⟨bad, fun r hr => ?_⟩
  obtain ⟨ε, hε, hc⟩ := hb r hr
  refine ⟨ε / 3, by positivity, fun h hh opt ho img offTol sepTol h1 h2 => ?_⟩
  unfold locate
  rw [ho _ g _ ?_ ?_]
  · simp only [Within, bounds]
    refine ⟨⟨by linarith, by linarith⟩, ⟨by linarith, by linarith⟩, by linarith, by linarith⟩
  · rintro ⟨u, v, w⟩ ⟨d1, d2, d3⟩
    simp only [cost]
    congr 1
    exact C156_flat hx hy hs img hc (by dsimp only at d1 d2 d3; linarith)

/-! ## Non-vacuity -/

/-- There are minimisers of both kinds. -/
example : ∃ opt, Global opt := by
  classical
  exact ⟨fun f _ b => if h : ∃ p, Least f b p then some h.choose else none, fun f g b h => ⟨h.choose, dif_pos h, h.choose_spec⟩⟩

example : Stationary 1 fun _ g _ => some g := fun _ _ _ _ _ => rfl

/-- A point in the middle of a frame of 4 by 4 pixels, without subpixels: regions of radius 1/2 about the corners of pixels. -/
example : Clear 4 4 (1 / 2) 1 (centres [0] 1 (1 / 2) (1 / 2)) (1 / 10) := by
  intro c hc row hrow col hcol i hi j hj
  have hi0 : i = 0 := by omega
  have hj0 : j = 0 := by omega
  subst hi0 hj0
  have hsub : sub 1 0 = 0 := by simp [sub, linspace]
  rw [hsub]
  simp only [centres, pair, List.flatMap_cons, List.flatMap_nil, List.append_nil, List.mem_cons, List.not_mem_nil, or_false] at hc
  have hr : ∃ z : ℤ, (row : ℝ) - (4 / 2 : ℕ) = z := ⟨(row : ℤ) - 2, by push_cast; norm_num⟩
  have hcl : ∃ z : ℤ, (col : ℝ) - (4 / 2 : ℕ) = z := ⟨(col : ℤ) - 2, by push_cast; norm_num⟩
  obtain ⟨a, ha⟩ := hr
  obtain ⟨b, hb⟩ := hcl
  have half : ∀ z : ℤ, (1 : ℝ) / 4 ≤ (0 + ((z : ℝ) - 1 / 2)) ^ 2 := by
    intro z
    rcases le_or_gt z 0 with h | h
    · have : (z : ℝ) ≤ 0 := by exact_mod_cast h
      nlinarith
    · have : (1 : ℝ) ≤ z := by exact_mod_cast h
      nlinarith
  have fin : ∀ z w : ℤ, (1 : ℝ) / 10 < |sqrt ((0 + ((z : ℝ) - 1 / 2)) ^ 2 + (0 + ((w : ℝ) - 1 / 2)) ^ 2) - 1 / 2| := by
    intro z w
    have h1 := half z
    have h2 := half w
    have h3 : (7 : ℝ) / 10 ≤ sqrt ((0 + ((z : ℝ) - 1 / 2)) ^ 2 + (0 + ((w : ℝ) - 1 / 2)) ^ 2) := by
      apply Real.le_sqrt_of_sq_le
      norm_num at h1 h2 ⊢
      linarith
    rw [lt_abs]
    left
    linarith
  rcases hc with rfl | rfl
  · have := fin (b - 1) a
    simp only [ha, hb]
    norm_num at this ⊢
    convert this using 5
    ring_nf
  · have := fin (b + 1) a
    simp only [ha, hb]
    norm_num at this ⊢
    convert this using 5
    ring_nf

end

end Corgi.StarCenter

import Verif.EndToEnd.Cone

/-!
# Digitised and perturbed raw frames: C185

`C144` is about frames whose pixels are exact real numbers. Raw frames hold integers: the analogue values rounded by the detector electronics. Here
the pixels of a frame are off by at most `ε`, in any way; `ε = 1/2` is rounding. The model is that of `Verif/EndToEnd/L2b.lean`.
-/

noncomputable section

namespace Corgi.Digit

open Corgi.Det Corgi.Arith Corgi.EndToEnd Corgi.Flagged Corgi.Cone

/-! ## The median of perturbed values -/

theorem insert_mono {a a' : ℝ} {s s' : List ℝ} (ha : a ≤ a') (h : List.Forall₂ (· ≤ ·) s s') (hs : s.Pairwise (· ≤ ·))
    (hs' : s'.Pairwise (· ≤ ·)) : List.Forall₂ (· ≤ ·) (s.orderedInsert (· ≤ ·) a) (s'.orderedInsert (· ≤ ·) a') := by
  induction h generalizing a a' with
  | nil => exact .cons ha .nil
  | @cons x x' t t' hx ht ih =>
    have hi : ∀ {b b'}, b ≤ b' → List.Forall₂ (· ≤ ·) (t.orderedInsert (· ≤ ·) b) (t'.orderedInsert (· ≤ ·) b') := fun hb =>
      ih hb hs.of_cons hs'.of_cons
    have h1 : t.orderedInsert (· ≤ ·) x = x :: t := by
      cases t with
      | nil => rfl
      | cons y t => rw [List.orderedInsert, if_pos ((List.pairwise_cons.1 hs).1 y List.mem_cons_self)]
    have h2 : t'.orderedInsert (· ≤ ·) x' = x' :: t' := by
      cases t' with
      | nil => rfl
      | cons y t => rw [List.orderedInsert, if_pos ((List.pairwise_cons.1 hs').1 y List.mem_cons_self)]
    rw [List.orderedInsert, List.orderedInsert]
    split <;> split
    · exact .cons ha (.cons hx ht)
    · rename_i p q
      refine .cons (p.trans hx) ?_
      rw [← h1]
      exact hi (hx.trans (not_le.1 q).le)
    · rename_i p q
      refine .cons ((not_le.1 p).le.trans ha) ?_
      rw [← h2]
      exact hi (ha.trans q)
    · exact .cons hx (hi ha)

theorem sort_mono {l l' : List ℝ} (h : List.Forall₂ (· ≤ ·) l l') :
    List.Forall₂ (· ≤ ·) (l.insertionSort (· ≤ ·)) (l'.insertionSort (· ≤ ·)) := by
  induction h with
  | nil => exact .nil
  | cons a b ih =>
    rw [List.insertionSort_cons, List.insertionSort_cons]
    exact insert_mono a ih (List.pairwise_insertionSort _ _) (List.pairwise_insertionSort _ _)

theorem median_mono {l l' : List ℝ} (h : List.Forall₂ (· ≤ ·) l l') : Nan.median l ≤ Nan.median l' := by
  have hs := sort_mono h
  have hl := hs.length_eq
  have hk : ∀ k : ℕ, ((l.insertionSort (· ≤ ·))[k]?).getD 0 ≤ ((l'.insertionSort (· ≤ ·))[k]?).getD 0 := by
    intro k
    by_cases hk : k < (l.insertionSort (· ≤ ·)).length
    · rw [List.getElem?_eq_getElem hk, List.getElem?_eq_getElem (by omega)]
      exact (List.forall₂_iff_get.1 hs).2 k hk (by omega)
    · rw [List.getElem?_eq_none (by omega), List.getElem?_eq_none (by omega)]
  unfold Nan.median
  dsimp only
  rw [← hl]
  split
  · exact hk _
  · linarith [hk ((l.insertionSort (· ≤ ·)).length / 2 - 1), hk ((l.insertionSort (· ≤ ·)).length / 2)]

/-- **C185** The median moves no more than its values do. -/
theorem C185_median {l l' : List ℝ} {ε : ℝ} (h : List.Forall₂ (fun a b => |b - a| ≤ ε) l l') (hne : l ≠ []) :
    |Nan.median l' - Nan.median l| ≤ ε := by
  have hne' : l' ≠ [] := by
    rintro rfl
    cases h
    exact hne rfl
  rw [abs_le]
  constructor
  · have : List.Forall₂ (· ≤ ·) l (l'.map (· + ε)) := by
      rw [List.forall₂_map_right_iff]
      exact h.imp fun a b hab => by linarith [(abs_le.1 hab).1]
    have := median_mono this
    have hsh : Nan.median (l'.map (· + ε)) = Nan.median l' + ε := Det.median_shift ε l' hne'
    linarith
  · have : List.Forall₂ (· ≤ ·) l' (l.map (· + ε)) := by
      rw [List.forall₂_map_right_iff]
      exact h.flip.imp fun a b hab => by linarith [(abs_le.1 hab).2]
    have := median_mono this
    have hsh : Nan.median (l.map (· + ε)) = Nan.median l + ε := Det.median_shift ε l hne
    linarith

/-! ## Specification -/

/-- Two frames that differ by at most `ε` in the cone of pixel `(r, c)`, where neither has NaN. -/
structure Near (ε : ℝ) (r c : ℕ) (x y : Raw) : Prop where
  prescan : ∀ s j, s ≤ r → 800 ≤ j → j < 1000 → ∃ u v, x.l1.data.px (13 + s) j = some u ∧ y.l1.data.px (13 + s) j = some v ∧ |v - u| ≤ ε
  column : ∀ s, s ≤ r → ∃ u v, x.l1.data.px (13 + s) (1088 + c) = some u ∧ y.l1.data.px (13 + s) (1088 + c) = some v ∧ |v - u| ≤ ε

/-- The response that a table corrects for is at most `Λ` times steeper than a linear one. -/
def Steep (tab : NonLin.Table ℝ) (g Λ : ℝ) : Prop :=
  ∀ u v, |v * NonLin.relgain tab g v - u * NonLin.relgain tab g u| ≤ Λ * |v - u|

/-- How much desmearing can enlarge a change: its own row counts `1/(1+ρ)`, and the earlier ones together `1/(1+ρ) - (1+ρ)^-(r+1)`. -/
def spread (ρ : ℝ) (r : ℕ) : ℝ := 2 * (1 + ρ)⁻¹ - ((1 + ρ)⁻¹) ^ (r + 1)

/-! ## Desmearing -/

theorem leak_row (ρ : ℝ) (h : 1 + ρ ≠ 0) (δ : ℕ → ℝ) (r : ℕ) :
    leak ρ δ r = (1 + ρ)⁻¹ * δ r - ρ * ∑ s ∈ Finset.range r, ((1 + ρ)⁻¹) ^ (r + 1 - s) * δ s := by
  unfold leak
  rw [Finset.sum_range_succ]
  have h1 : ∀ s ∈ Finset.range r, (1 + ρ) ^ ((s : ℤ) - r - 1) * δ s = ((1 + ρ)⁻¹) ^ (r + 1 - s) * δ s := by
    intro s hs
    have := Finset.mem_range.1 hs
    congr 1
    rw [inv_pow, ← zpow_natCast, ← zpow_neg]
    congr 1
    omega
  rw [Finset.sum_congr rfl h1, show (r : ℤ) - r - 1 = -1 by ring, zpow_neg_one]
  field_simp
  ring

theorem geometric (ρ : ℝ) (h : 1 + ρ ≠ 0) (r : ℕ) :
    ρ * ∑ s ∈ Finset.range r, ((1 + ρ)⁻¹) ^ (r + 1 - s) = (1 + ρ)⁻¹ - ((1 + ρ)⁻¹) ^ (r + 1) := by
  induction r with
  | zero => simp
  | succ r ih =>
    rw [Finset.sum_range_succ, mul_add]
    have : ∑ s ∈ Finset.range r, ((1 + ρ)⁻¹) ^ (r + 1 + 1 - s) = (1 + ρ)⁻¹ * ∑ s ∈ Finset.range r, ((1 + ρ)⁻¹) ^ (r + 1 - s) := by
      rw [Finset.mul_sum]
      refine Finset.sum_congr rfl fun s hs => ?_
      have := Finset.mem_range.1 hs
      rw [show r + 1 + 1 - s = (r + 1 - s) + 1 by omega, pow_succ]
      ring
    rw [this, ← mul_assoc, mul_comm ρ, mul_assoc, ih, show r + 1 + 1 - r = 2 by omega]
    have hq : (1 + ρ) * (1 + ρ)⁻¹ = 1 := mul_inv_cancel₀ h
    generalize (1 + ρ)⁻¹ = q at hq
    have hρ : ρ * q = 1 - q := by linarith
    have : ρ * q ^ 2 = (1 - q) * q := by rw [← hρ]; ring
    rw [this]
    ring

theorem leak_bound {ρ : ℝ} (h : 0 ≤ ρ) {δ : ℕ → ℝ} {η : ℝ} {r : ℕ} (hδ : ∀ s, s ≤ r → |δ s| ≤ η) : |leak ρ δ r| ≤ spread ρ r * η := by
  have hp : 0 < 1 + ρ := by linarith
  have hq : 0 ≤ (1 + ρ)⁻¹ := (inv_pos.2 hp).le
  rw [leak_row ρ hp.ne']
  have h1 : |(1 + ρ)⁻¹ * δ r| ≤ (1 + ρ)⁻¹ * η := by
    rw [abs_mul, abs_of_nonneg hq]
    exact mul_le_mul_of_nonneg_left (hδ r le_rfl) hq
  have h2 : |∑ s ∈ Finset.range r, ((1 + ρ)⁻¹) ^ (r + 1 - s) * δ s| ≤ (∑ s ∈ Finset.range r, ((1 + ρ)⁻¹) ^ (r + 1 - s)) * η := by
    rw [Finset.sum_mul]
    refine (Finset.abs_sum_le_sum_abs _ _).trans (Finset.sum_le_sum fun s hs => ?_)
    rw [abs_mul, abs_of_nonneg (pow_nonneg hq _)]
    exact mul_le_mul_of_nonneg_left (hδ s (Finset.mem_range.1 hs).le) (pow_nonneg hq _)
  have h3 : |ρ * ∑ s ∈ Finset.range r, ((1 + ρ)⁻¹) ^ (r + 1 - s) * δ s| ≤ ((1 + ρ)⁻¹ - ((1 + ρ)⁻¹) ^ (r + 1)) * η := by
    rw [abs_mul, abs_of_nonneg h, ← geometric ρ hp.ne', mul_assoc]
    exact mul_le_mul_of_nonneg_left h2 h
  have := abs_sub ((1 + ρ)⁻¹ * δ r) (ρ * ∑ s ∈ Finset.range r, ((1 + ρ)⁻¹) ^ (r + 1 - s) * δ s)
  unfold spread
  linarith

/-- The bound is reached: by a change that has the other sign in the earlier rows. -/
theorem leak_sharp {ρ : ℝ} (h : 1 + ρ ≠ 0) (η : ℝ) (r : ℕ) : leak ρ (fun s => if s = r then η else -η) r = spread ρ r * η := by
  rw [leak_row ρ h]
  have : ∑ s ∈ Finset.range r, ((1 + ρ)⁻¹) ^ (r + 1 - s) * (if s = r then η else -η) =
      -((∑ s ∈ Finset.range r, ((1 + ρ)⁻¹) ^ (r + 1 - s)) * η) := by
    rw [Finset.sum_mul, ← Finset.sum_neg_distrib]
    refine Finset.sum_congr rfl fun s hs => ?_
    rw [if_neg (Finset.mem_range.1 hs).ne]
    ring
  rw [this, if_pos rfl, mul_neg, ← mul_assoc, geometric ρ h]
  unfold spread
  ring

/-! ## The recipe -/

theorem rowBias_median {f : L1} {r : ℕ} {w : ℕ → ℝ} (off : ℝ) (hw : ∀ j, 800 ≤ j → j < 1000 → f.data.px r j = some (w j)) :
    rowBias f sciPrescan 800 1000 off r = some (Nan.median ((List.range' 800 200).map w) - off) := by
  unfold rowBias
  rw [prescan_vals hw]
  unfold npMedian
  rw [allVals_map, show (List.range' 800 200).map w = w 800 :: (List.range' 801 199).map w from rfl]
  rfl

theorem bias_near {ε : ℝ} {r c : ℕ} {x y : Raw} (h : Near ε r c x y) (off : ℝ) {s : ℕ} (hs : s ≤ r) :
    ∃ b b', rowBias x.l1 sciPrescan 800 1000 off (13 + s) = some b ∧ rowBias y.l1 sciPrescan 800 1000 off (13 + s) = some b' ∧ |b' - b| ≤ ε := by
  have hx : ∃ u v : ℕ → ℝ, ∀ j, 800 ≤ j → j < 1000 → x.l1.data.px (13 + s) j = some (u j) ∧ y.l1.data.px (13 + s) j = some (v j) ∧
      |v j - u j| ≤ ε := by
    have : ∀ j, ∃ p : ℝ × ℝ, 800 ≤ j → j < 1000 → x.l1.data.px (13 + s) j = some p.1 ∧ y.l1.data.px (13 + s) j = some p.2 ∧ |p.2 - p.1| ≤ ε := by
      intro j
      by_cases hj : 800 ≤ j ∧ j < 1000
      · obtain ⟨u, v, h1, h2, h3⟩ := h.prescan s j hs hj.1 hj.2
        exact ⟨(u, v), fun _ _ => ⟨h1, h2, h3⟩⟩
      · exact ⟨(0, 0), fun h1 h2 => absurd ⟨h1, h2⟩ hj⟩
    choose p hp using this
    exact ⟨fun j => (p j).1, fun j => (p j).2, hp⟩
  obtain ⟨u, v, huv⟩ := hx
  refine ⟨_, _, rowBias_median (f := x.l1) (w := u) off fun j h1 h2 => (huv j h1 h2).1, rowBias_median (f := y.l1) (w := v) off fun j h1 h2 => (huv j h1 h2).2.1, ?_⟩
  rw [sub_sub_sub_cancel_right]
  refine C185_median ?_ (by rw [show (List.range' 800 200).map u = u 800 :: (List.range' 801 199).map u from rfl]; simp)
  rw [List.forall₂_map_left_iff, List.forall₂_map_right_iff]
  refine List.forall₂_same.2 fun j hj => ?_
  rw [List.mem_range'_1] at hj
  exact (huv j hj.1 (by omega)).2.2

theorem counts_near {ε Λ : ℝ} {r c : ℕ} {x y : Raw} (h : Near ε r c x y) (hf : y.fr = x.fr) {tab : NonLin.Table ℝ}
    (hΛ : 0 ≤ Λ) (hl : Steep tab (emGain x.fr) Λ) (off : ℝ) {s : ℕ} (hs : s ≤ r) :
    |counts tab off y s c - counts tab off x s c| ≤ Λ * (2 * ε) := by
  obtain ⟨b, b', h1, h2, h3⟩ := bias_near h off hs
  obtain ⟨u, v, h4, h5, h6⟩ := h.column s hs
  unfold counts
  rw [h1, h2, h4, h5, hf]
  simp only [Det.sub, Option.map_some, Option.getD_some]
  refine (hl (u - b) (v - b')).trans (mul_le_mul_of_nonneg_left ?_ hΛ)
  have h7 := abs_le.1 h3
  have h8 := abs_le.1 h6
  rw [abs_le]
  constructor <;> linarith

/-- **C185** Stability: if the raw pixels of a cone are changed by at most `ε`, in any way, the pixel of L2b changes by at most a stated multiple
of `ε`. Light during the read-out does not accumulate the changes. -/
theorem C185_stable {track : Bool} {junk : Ix → ℝ} {tab : NonLin.Table ℝ} (ht : NonLin.Good tab) {off offErr k ek rowread : ℝ} {m : Maps}
    {F : Flat} {xs ys : List Raw} (hx : ∀ x ∈ xs, Science x.l1) (hy : ∀ y ∈ ys, Science y.l1)
    (hxy : List.Forall₂ (fun x y : Raw => y.fr = x.fr) xs ys) {out out' : List Fr}
    (ho : recipe track junk tab off offErr k ek rowread m F xs = .ok out)
    (ho' : recipe track junk tab off offErr k ek rowread m F ys = .ok out') (ε Λ : ℝ) (hΛ : 0 ≤ Λ)
    (hl : ∀ x ∈ xs, Steep tab (emGain x.fr) Λ ∧ 0 ≤ rowread / x.fr.exptime) :
    List.Forall₂ (fun (p : Raw × Raw) (q : Fr × Fr) => ∀ r c, r < 1024 → c < 1024 → F.data [r, c] ≠ 0 → Near ε r c p.1 p.2 →
      |q.2.data [r, c] - q.1.data [r, c]| ≤ |k / emGain p.1.fr / F.data [r, c]| * (spread (rowread / p.1.fr.exptime) r * (Λ * (2 * ε))))
      (xs.zip ys) (out.zip out') := by
  have hr := runs ht hx hy hxy ho ho'
  have hp : ∀ p ∈ xs.zip ys, p.2.fr = p.1.fr := fun p hp => (List.forall₂_iff_zip.1 hxy).2 hp
  refine List.forall₂_iff_zip.2 ⟨hr.length_eq, fun {p q} hpq => ?_⟩
  obtain ⟨-, h2⟩ := (List.forall₂_iff_zip.1 hr).2 hpq
  intro r c hr' hc hn ha
  have hpm := (List.of_mem_zip hpq).1
  have hpx := (List.of_mem_zip (a := p.1) (b := p.2) hpm).1
  rw [h2 r c hr' hc hn, abs_mul]
  refine mul_le_mul_of_nonneg_left ?_ (abs_nonneg _)
  exact leak_bound (hl p.1 hpx).2 fun s hs => counts_near ha (hp p hpm) hΛ (hl p.1 hpx).1 off hs

/-- A raw frame of a scene, with pixels that are off by at most `ε`. -/
structure Digitised (d : Detector) (tab : NonLin.Table ℝ) (off ε : ℝ) (s : ℕ → ℕ → ℝ) (y : Raw) : Prop where
  science : Science y.l1
  near : ∃ x : Raw, Exposes d tab off s x.l1 ∧ y.fr = x.fr ∧ ∀ r c, r < 1024 → c < 1024 → Near ε r c x y

/-- **C185** Frames of a scene whose pixels are off by at most `ε` counts, rounded for instance, give the scene up to a stated bound. -/
theorem C185_scene {d : Detector} (hs : Sound d) {tab : NonLin.Table ℝ} (ht : NonLin.Good tab) (track : Bool)
    (junk : Ix → ℝ) {off k rowread : ℝ} (offErr ek : ℝ) {m : Maps} {F : Flat} (hc : Calibrated d k rowread m F) {Λ ε : ℝ} (hΛ : 0 ≤ Λ)
    (hl : Steep tab d.gain Λ) (hρ : 0 ≤ d.rowread / d.exptime)
    {ss : List (ℕ → ℕ → ℝ)} {ys : List Raw} (hne : ys ≠ []) (hh : ∀ y ∈ ys, Header d y.fr)
    (hem : ∀ x ∈ ys, ∀ y ∈ ys, x.fr.emC = y.fr.emC) (hy : List.Forall₂ (Digitised d tab off ε) ss ys) :
    ∃ out, recipe track junk tab off offErr k ek rowread m F ys = .ok out ∧
      List.Forall₂ (fun s (g : Fr) => ∀ r c, r < 1024 → c < 1024 → d.flat r c ≠ 0 →
        |g.data [r, c] - s r c| ≤ |d.kgain / d.gain / d.flat r c| * (spread (d.rowread / d.exptime) r * (Λ * (2 * ε)))) ss out := by
  obtain ⟨xs, hxs⟩ : ∃ xs : List Raw, List.Forall₂ (fun (s : ℕ → ℕ → ℝ) (x : Raw) => Exposes d tab off s x.l1) ss xs ∧
      List.Forall₂ (fun x y : Raw => y.fr = x.fr ∧ ∀ r c, r < 1024 → c < 1024 → Near ε r c x y) xs ys := by
    clear hne hh hem
    induction hy with
    | nil => exact ⟨[], .nil, .nil⟩
    | cons a b ih =>
      obtain ⟨x, h1, h2, h3⟩ := a.near
      obtain ⟨xs, h4, h5⟩ := ih
      exact ⟨x :: xs, .cons h1 h4, .cons ⟨h2, h3⟩ h5⟩
  obtain ⟨h1, h2⟩ := hxs
  have hfr : List.Forall₂ (fun x y : Raw => y.fr = x.fr) xs ys := h2.imp fun x y h => h.1
  have hne' : xs ≠ [] := by
    rintro rfl
    cases h2
    exact hne rfl
  have hhx : ∀ x ∈ xs, Header d x.fr := fun x hx => by
    obtain ⟨y, hy1, e⟩ := forall₂_left hfr hx
    rw [← e]
    exact hh y hy1
  have hex : ∀ x ∈ xs, ∀ z ∈ xs, x.fr.emC = z.fr.emC := fun x hx z hz => by
    obtain ⟨y, hy1, e⟩ := forall₂_left hfr hx
    obtain ⟨w, hw1, e'⟩ := forall₂_left hfr hz
    rw [← e, ← e']
    exact hem y hy1 w hw1
  obtain ⟨o, ho, hscene⟩ := C144_scene hs ht track junk offErr ek hc hne' hhx hex h1
  have hxS : ∀ x ∈ xs, Science x.l1 := fun x hx => by
    obtain ⟨s, -, he⟩ := forall₂_right h1 hx
    exact ⟨he.mode, he.size, he.sizeDq, he.sizeErr⟩
  have hyS : ∀ y ∈ ys, Science y.l1 := fun y hy1 => by
    obtain ⟨s, -, he⟩ := forall₂_right hy hy1
    exact he.science
  obtain ⟨out, ho', -⟩ := C184_cone ht hxS hyS hfr ho
  refine ⟨out, ho', ?_⟩
  have hst := C185_stable ht hxS hyS hfr ho ho' ε Λ hΛ (fun x hx => by
    rw [(hhx x hx).gain, (hhx x hx).exptime, hc.rowread]
    exact ⟨hl, hρ⟩)
  rw [List.forall₂_iff_get] at hscene h1 h2 ⊢
  have hlo : o.length = out.length ∧ xs.length = o.length := by
    have := hst.length_eq
    have l1 := (recipe_px ht hxS ho).choose_spec.choose_spec.2.2.length_eq
    have l2 := (recipe_px ht hyS ho').choose_spec.choose_spec.2.2.length_eq
    have l3 := h2.1
    exact ⟨by omega, l1⟩
  refine ⟨by rw [hscene.1, hlo.1], fun i hi hi' r c hr hc' hn => ?_⟩
  rw [List.forall₂_iff_get] at hst
  have hix : i < xs.length := by rw [← h1.1]; exact hi
  have hiy : i < ys.length := by rw [← h2.1]; exact hix
  have hio : i < o.length := by rw [hlo.1]; exact hi'
  have e := hst.2 i (by rw [List.length_zip]; omega) (by rw [List.length_zip]; omega) r c hr hc'
  simp only [List.get_eq_getElem, List.getElem_zip] at e
  have e2 := hscene.2 i hi hio r c hr hc' hn
  simp only [List.get_eq_getElem] at e2 ⊢
  have e3 := (h2.2 i hix hiy).2 r c hr hc'
  have e4 := hhx xs[i] (List.getElem_mem hix)
  have e5 := e (by rw [hc.flat r c hr hc']; exact hn) e3
  rw [e2, e4.gain, e4.exptime, hc.flat r c hr hc', hc.kgain, hc.rowread] at e5
  exact e5

/-- **C185** Rounding to integers with a linear response: the error is less than two counts, in electrons before the gain. -/
theorem C185_rounding {d : Detector} (hs : Sound d) (track : Bool)
    (junk : Ix → ℝ) {off k rowread : ℝ} (offErr ek : ℝ) {m : Maps} {F : Flat} (hc : Calibrated d k rowread m F)
    (hρ : 0 ≤ d.rowread / d.exptime)
    {ss : List (ℕ → ℕ → ℝ)} {ys : List Raw} (hne : ys ≠ []) (hh : ∀ y ∈ ys, Header d y.fr)
    (hem : ∀ x ∈ ys, ∀ y ∈ ys, x.fr.emC = y.fr.emC) (hy : List.Forall₂ (Digitised d linear off (1 / 2)) ss ys) :
    ∃ out, recipe track junk linear off offErr k ek rowread m F ys = .ok out ∧
      List.Forall₂ (fun s (g : Fr) => ∀ r c, r < 1024 → c < 1024 → d.flat r c ≠ 0 →
        |g.data [r, c] - s r c| < |d.kgain / d.gain / d.flat r c| * 2) ss out := by
  obtain ⟨out, ho, hp⟩ := C185_scene hs linear_good track junk offErr ek hc zero_le_one (fun u v => by
    rw [linear_relgain, linear_relgain, mul_one, mul_one, one_mul]) hρ hne hh hem hy
  refine ⟨out, ho, hp.imp fun s g h r c hr hc' hn => (h r c hr hc' hn).trans_lt ?_⟩
  have hG : d.gain ≠ 0 := by linarith [hs.gain]
  have h1 : 0 < |d.kgain / d.gain / d.flat r c| := abs_pos.2 (div_ne_zero (div_ne_zero hs.kgain hG) hn)
  refine mul_lt_mul_of_pos_left ?_ h1
  generalize d.rowread / d.exptime = ρ at hρ
  have hq : 0 < (1 + ρ)⁻¹ := inv_pos.2 (by linarith)
  have hq1 : (1 + ρ)⁻¹ ≤ 1 := inv_le_one_of_one_le₀ (by linarith)
  have := pow_pos hq (r + 1)
  unfold spread
  linarith

/-! ## The bound is reached -/

/-- The worst change of at most `ε` for the pixels of row `r`: bias and pixels move in opposite directions, and the earlier rows the other way. -/
def worst (ε : ℝ) (r : ℕ) (f : L1) : L1 :=
  { f with data := { f.data with px := fun i j => (f.data.px i j).map fun v =>
      v + (if i = 13 + r then 1 else -1) * (if j < 1000 then -ε else ε) } }

/-- A frame without NaN in the columns that the recipe reads. -/
def Finite (f : L1) : Prop := ∀ i j, (800 ≤ j ∧ j < 1000) ∨ 1088 ≤ j → ∃ v, f.data.px i j = some v

theorem worst_near {ε : ℝ} (hε : 0 ≤ ε) {x : Raw} (hf : Finite x.l1) (r c : ℕ) : Near ε r c x ⟨worst ε r x.l1, x.fr⟩ := by
  have key : ∀ (i j : ℕ) (u : ℝ), |u + (if i = 13 + r then 1 else -1) * (if j < 1000 then -ε else ε) - u| ≤ ε := by
    intro i j u
    rw [add_sub_cancel_left]
    split <;> split <;> simp [abs_of_nonneg hε]
  constructor
  · intro s j _ h1 h2
    obtain ⟨u, hu⟩ := hf (13 + s) j (Or.inl ⟨h1, h2⟩)
    exact ⟨u, _, hu, by simp only [worst, hu, Option.map_some], key (13 + s) j u⟩
  · intro s _
    obtain ⟨u, hu⟩ := hf (13 + s) (1088 + c) (Or.inr (by omega))
    exact ⟨u, _, hu, by simp only [worst, hu, Option.map_some], key (13 + s) (1088 + c) u⟩

/-- **C185** The bound cannot be improved: every frame with a linear response has a change by `ε` that reaches it, in every column at once. -/
theorem C185_sharp {track : Bool} {junk : Ix → ℝ} {tab : NonLin.Table ℝ} (ht : NonLin.Good tab) {off offErr k ek rowread : ℝ} {m : Maps}
    {F : Flat} {x : Raw} (hx : Science x.l1) (hfin : Finite x.l1) (hl : ∀ v, NonLin.relgain tab (emGain x.fr) v = 1)
    (hρ : 1 + rowread / x.fr.exptime ≠ 0) {o : Fr} (ho : recipe track junk tab off offErr k ek rowread m F [x] = .ok [o]) (ε : ℝ) {r : ℕ}
    (hr : r < 1024) :
    ∃ o', recipe track junk tab off offErr k ek rowread m F [⟨worst ε r x.l1, x.fr⟩] = .ok [o'] ∧ ∀ c, c < 1024 → F.data [r, c] ≠ 0 →
      o'.data [r, c] - o.data [r, c] = k / emGain x.fr / F.data [r, c] * (spread (rowread / x.fr.exptime) r * (2 * ε)) := by
  have hxs : ∀ z ∈ [x], Science z.l1 := by simpa using hx
  have hy : Science (worst ε r x.l1) := ⟨hx.1, hx.2, hx.3, hx.4⟩
  have hys : ∀ z ∈ [(⟨worst ε r x.l1, x.fr⟩ : Raw)], Science z.l1 := by simpa using hy
  have hxy : List.Forall₂ (fun x y : Raw => y.fr = x.fr) [x] [⟨worst ε r x.l1, x.fr⟩] := .cons rfl .nil
  obtain ⟨out, ho', -⟩ := C184_cone ht hxs hys hxy ho
  have hrun := runs ht hxs hys hxy ho ho'
  have hlen : out.length = 1 := (recipe_px ht hys ho').choose_spec.choose_spec.2.2.length_eq.symm
  obtain ⟨o', rfl⟩ := List.length_eq_one_iff.1 hlen
  refine ⟨o', ho', fun c hc hn => ?_⟩
  cases hrun with
  | cons h1 _ =>
    have h2 := h1.2 r c hr hc hn
    dsimp only at h2
    rw [h2, ← leak_sharp hρ]
    congr 2
    funext s
    have hu : ∃ u : ℕ → ℝ, ∀ j, 800 ≤ j → j < 1000 → x.l1.data.px (13 + s) j = some (u j) := by
      have : ∀ j, ∃ u : ℝ, 800 ≤ j → j < 1000 → x.l1.data.px (13 + s) j = some u := by
        intro j
        by_cases hj : 800 ≤ j ∧ j < 1000
        · obtain ⟨u, hu⟩ := hfin (13 + s) j (Or.inl hj)
          exact ⟨u, fun _ _ => hu⟩
        · exact ⟨0, fun h1 h2 => absurd ⟨h1, h2⟩ hj⟩
      choose u hu using this
      exact ⟨u, hu⟩
    obtain ⟨u, hu⟩ := hu
    obtain ⟨p, hp⟩ := hfin (13 + s) (1088 + c) (Or.inr (by omega))
    have hb := rowBias_median (f := x.l1) (w := u) off hu
    have hb' := rowBias_median (f := worst ε r x.l1) (w := fun j => u j + (if s = r then 1 else -1) * -ε) off (r := 13 + s) fun j h1 h2 => by
      simp only [worst, hu j h1 h2, Option.map_some, if_pos h2, Nat.add_left_cancel_iff]
    have hm : Nan.median ((List.range' 800 200).map fun j => u j + (if s = r then 1 else -1) * -ε) =
        Nan.median ((List.range' 800 200).map u) + (if s = r then 1 else -1) * -ε := by
      rw [← Det.median_shift _ ((List.range' 800 200).map u) (by
        rw [show (List.range' 800 200).map u = u 800 :: (List.range' 801 199).map u from rfl]; simp), List.map_map]
      rfl
    rw [hm] at hb'
    unfold counts
    have hp' : (worst ε r x.l1).data.px (13 + s) (1088 + c) = some (p + (if s = r then 1 else -1) * ε) := by
      simp only [worst, hp, Option.map_some, Nat.add_left_cancel_iff]
      rw [if_neg (show ¬ 1088 + c < 1000 by omega)]
    dsimp only
    rw [hb, hb', hp, hp']
    simp only [Det.sub, Option.map_some, Option.getD_some, hl]
    split <;> ring

/-! ## Rounding -/

/-- What the electronics make of a frame: every pixel is rounded to an integer. -/
def rounded (f : L1) : L1 := { f with data := { f.data with px := fun i j => (f.data.px i j).map fun v => ((round v : ℤ) : ℝ) } }

/-- **C185** Rounding the frame of a scene is a case: the pixels are integers, and off by at most a half. -/
theorem C185_rounded {d : Detector} {tab : NonLin.Table ℝ} {off : ℝ} {s : ℕ → ℕ → ℝ} {x : Raw} (hx : Exposes d tab off s x.l1) :
    Digitised d tab off (1 / 2) s ⟨rounded x.l1, x.fr⟩ ∧ ∀ i j v, (rounded x.l1).data.px i j = some v → ∃ n : ℤ, v = n := by
  obtain ⟨b, h1, h2⟩ := hx.pixels
  have key : ∀ u : ℝ, |((round u : ℤ) : ℝ) - u| ≤ 1 / 2 := fun u => by
    rw [abs_sub_comm]
    exact abs_sub_round u
  refine ⟨⟨⟨hx.mode, hx.size, hx.sizeDq, hx.sizeErr⟩, x, hx, rfl, fun r c hr hc => ⟨fun i j hi hj hj' => ?_, fun i hi => ?_⟩⟩, fun i j v hv => ?_⟩
  · exact ⟨_, _, h1 (13 + i) j hj hj', by simp only [rounded, h1 (13 + i) j hj hj', Option.map_some], key _⟩
  · obtain ⟨v, hv, -⟩ := h2 i c (by omega) hc
    exact ⟨_, _, hv, by simp only [rounded, hv, Option.map_some], key _⟩
  · simp only [rounded, Option.map_eq_some_iff] at hv
    obtain ⟨w, -, rfl⟩ := hv
    exact ⟨_, rfl⟩

/-! ## Non-vacuity -/

/-- A rounded frame of a scene, which is not the frame itself. -/
example : Digitised dim linear 7 (1 / 2) (fun _ _ => 5) ⟨rounded (expose dim (fun _ => 1 / 4) 7 fun _ _ => 5), head⟩ ∧
    (expose dim (fun _ => 1 / 4) 7 fun _ _ => 5).data.px 20 900 = some (1 / 4 + 7) ∧
    (rounded (expose dim (fun _ => 1 / 4) 7 fun _ _ => 5)).data.px 20 900 ≠ some (1 / 4 + 7) := by
  have h : (expose dim (fun _ => 1 / 4) 7 fun _ _ => 5).data.px 20 900 = some (1 / 4 + 7) := by
    simp only [expose]
    rw [if_pos (by omega)]
  refine ⟨(C185_rounded (x := ⟨_, head⟩) (C144_exposes dim (fun _ => 1 / 4) 7 fun _ _ => 5)).1, h, ?_⟩
  simp only [rounded, h, Option.map_some, ne_eq, Option.some.injEq]
  intro e
  have h2 : (((round ((1 : ℝ) / 4 + 7) : ℤ) * 4 : ℤ) : ℝ) = ((29 : ℤ) : ℝ) := by
    push_cast
    rw [e]
    norm_num
  have := Int.cast_injective h2
  omega

/-- Rows read for a thousandth of the exposure: the bound of row 0 is that of a frame without smear, and it less than doubles. -/
example : spread (1 / 1000) 0 = 1000 / 1001 ∧ spread 0 3 = 1 := by
  norm_num [spread]

end Corgi.Digit

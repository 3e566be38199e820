import Verif.Batch.Batch
import Verif.PhotonCount.PcMean

/-!
# Property C173: the value of a flagged pixel

A pixel that is flagged in its raw frame (saturated, hit by a cosmic ray) carries no information: two runs that differ only in
the values of flagged pixels should agree in all other pixels. No new definitions of the model; two runs of the
recipe of `L2b.lean` and of `get_pc_mean` are compared.
-/

noncomputable section

namespace Corgi.Flagged

open Corgi.Det Corgi.Arith Corgi.EndToEnd

/-! ## Specification -/

/-- A raw science frame with arrays of the right size. -/
structure Science (x : L1) : Prop where
  mode : x.arrtype = some "SCI"
  size : x.data.nr = 1200 ∧ x.data.nc = 2200
  sizeDq : x.dq.nr = 1200 ∧ x.dq.nc = 2200
  sizeErr : ∀ e ∈ x.err, e.nr = 1200 ∧ e.nc = 2200

/-- Two raw frames that differ at most in flagged pixels of the image. -/
structure Twins (x y : Raw) : Prop where
  fr : y.fr = x.fr
  left : Science x.l1
  right : Science y.l1
  px : ∀ r c, (∀ i j, i < 1024 → j < 1024 → x.fr.dq [i, j] ≠ 0 → (r, c) ≠ (13 + i, 1088 + j)) →
    y.l1.data.px r c = x.l1.data.px r c

/-- The counts of a pixel after bias subtraction and correction of the non-linearity. -/
def counts (tab : NonLin.Table ℝ) (off : ℝ) (x : Raw) (r c : ℕ) : ℝ :=
  ((sub (x.l1.data.px (13 + r) (1088 + c)) (rowBias x.l1 sciPrescan 800 1000 off (13 + r))).map fun v =>
    v * NonLin.relgain tab (emGain x.fr) v).getD 0

/-- What a change `δ` of the values of a column does to row `r` of the desmeared column. -/
def leak (ρ : ℝ) (δ : ℕ → ℝ) (r : ℕ) : ℝ := δ r - ρ * ∑ s ∈ Finset.range (r + 1), (1 + ρ) ^ ((s : ℤ) - r - 1) * δ s

/-! ## L1 to L2a -/

theorem l2a_counts {tab : NonLin.Table ℝ} (ht : NonLin.Good tab) (off offErr : ℝ) {x : Raw} (hx : Science x.l1) :
    ∃ f, l2a tab off offErr x = .ok f ∧ f = { x.fr with data := f.data } ∧
      ∀ r c, r < 1024 → c < 1024 → f.data [r, c] = counts tab off x r c := by
  obtain ⟨o, ho, hb⟩ := C26_sci off offErr x.l1 hx.mode hx.size hx.sizeDq hx.sizeErr
  have hn := NonLin.C32_step tab ht none ⟨hdr x.fr, ravel o.data, ravel o.dq⟩ _ (hdr_gain x.fr)
  unfold l2a
  rw [ho]
  dsimp only
  rw [hn]
  refine ⟨_, rfl, rfl, fun r c hr hc => ?_⟩
  dsimp only
  rw [unravel_map (by rw [hb.shape.1]; exact hr) (by rw [hb.shape.2.1]; exact hc), hb.data r c hr hc]
  rfl

theorem bias_same {x y : Raw} (h : Twins x y) (off : ℝ) (r : ℕ) :
    rowBias y.l1 sciPrescan 800 1000 off r = rowBias x.l1 sciPrescan 800 1000 off r := by
  unfold rowBias
  congr 2
  refine List.map_congr_left fun c hc => h.px r c fun i j _ _ _ he => ?_
  rw [List.mem_range'_1] at hc
  have h0 : sciPrescan.c0 = 0 := rfl
  simp only [Prod.mk.injEq] at he
  omega

/-- **C173** L1 to L2a: an unflagged pixel does not depend on flagged ones. -/
theorem C173_l2a {x y : Raw} (h : Twins x y) (tab : NonLin.Table ℝ) (off : ℝ) {r c : ℕ} (hq : x.fr.dq [r, c] = 0) :
    counts tab off y r c = counts tab off x r c := by
  unfold counts
  rw [bias_same h, h.fr, h.px]
  intro i j _ _ hf he
  simp only [Prod.mk.injEq] at he
  obtain ⟨e1, e2⟩ := he
  have : i = r := by omega
  have : j = c := by omega
  subst i j
  exact hf hq

/-! ## L2a to L2b -/

theorem smear_sum (ρ : ℝ) (col : ℕ → ℝ) (r : ℕ) :
    Desmear.smear ρ col r = ρ * ∑ s ∈ Finset.range (r + 1), (1 + ρ) ^ ((s : ℤ) - r - 1) * col s := by
  have ht : ∀ (f : ℕ → ℝ) (n : ℕ), Desmear.total f n = ∑ s ∈ Finset.range n, f s := by
    intro f n
    induction n with
    | zero => rfl
    | succ n ih => rw [Finset.sum_range_succ, ← ih]; rfl
  rw [Desmear.smear_eq, Desmear.G, ht]
  congr 1
  refine Finset.sum_congr rfl fun s _ => ?_
  congr 2
  ring

theorem column_px (rr te : ℝ) (t : ℕ → ℝ) {n r : ℕ} (hr : r < n) :
    ((Desmear.desmearCol rr te ((List.range n).map t))[r]?).getD 0 = leak (rr / te) t r := by
  have hget : ∀ j, j < n → (((List.range n).map t)[j]?).getD 0 = t j := by
    intro j hj
    rw [List.getElem?_map, List.getElem?_range hj]
    rfl
  rw [Desmear.getD_desmear _ _ _ _ (by simpa using hr), hget r hr, smear_sum]
  unfold leak
  congr 2
  refine Finset.sum_congr rfl fun s hs => ?_
  rw [hget s (by have := Finset.mem_range.1 hs; omega)]

theorem desmear_px (rowread : ℝ) (f : Fr) {r c : ℕ} (hr : r < 1024) :
    (desmearFr rowread f).data [r, c] = leak (rowread / f.exptime) (fun s => f.data [s, c]) r := by
  unfold desmearFr
  dsimp only
  exact column_px rowread f.exptime (fun s => f.data [s, c]) hr

theorem leak_sub (ρ : ℝ) (a b : ℕ → ℝ) (r : ℕ) : leak ρ (fun s => a s - b s) r = leak ρ a r - leak ρ b r := by
  unfold leak
  simp only [mul_sub, Finset.sum_sub_distrib]
  ring

theorem leak_mul (ρ k : ℝ) (a : ℕ → ℝ) (r : ℕ) : leak ρ (fun s => k * a s) r = k * leak ρ a r := by
  unfold leak
  have : ∑ s ∈ Finset.range (r + 1), (1 + ρ) ^ ((s : ℤ) - r - 1) * (k * a s) =
      k * ∑ s ∈ Finset.range (r + 1), (1 + ρ) ^ ((s : ℤ) - r - 1) * a s := by
    rw [Finset.mul_sum]
    exact Finset.sum_congr rfl fun s _ => by ring
  rw [this]
  ring

theorem leak_zero (ρ : ℝ) {a : ℕ → ℝ} {r : ℕ} (h : ∀ s, s ≤ r → a s = 0) : leak ρ a r = 0 := by
  unfold leak
  rw [h r le_rfl, Finset.sum_eq_zero]
  · ring
  · intro s hs
    rw [h s (by have := Finset.mem_range.1 hs; omega), mul_zero]

theorem leak_one (ρ : ℝ) {a : ℕ → ℝ} {r i : ℕ} (hi : i ≤ r) (h : ∀ s, s ≤ r → s ≠ i → a s = 0) :
    leak ρ a r = (if i = r then a i else 0) - ρ * (1 + ρ) ^ ((i : ℤ) - r - 1) * a i := by
  unfold leak
  rw [Finset.sum_eq_single i]
  · split
    · rename_i e; subst e; ring
    · rename_i e; rw [h r le_rfl (fun e' => e e'.symm)]; ring
  · intro s hs hne
    rw [h s (by have := Finset.mem_range.1 hs; omega) hne, mul_zero]
  · intro hn
    exact absurd (Finset.mem_range.2 (by omega)) hn

open Classical in
/-- The values of an L2b frame. -/
theorem l2b_px {track : Bool} {junk : Ix → ℝ} {k ek rowread : ℝ} {m : Maps} {F : Flat} {fs out : List Fr}
    (h : l2b track junk k ek rowread m F fs = .ok out) :
    ∃ f0 d, fs.head? = some f0 ∧ synthDark m (emDiv (toElectrons k ek f0)) = .ok d ∧
      List.Forall₂ (fun f o : Fr => (∀ r c, r < 1024 → o.data [r, c] = if F.data [r, c] = 0 then junk [r, c] else
          leak (rowread / f.exptime) (fun s => f.data [s, c] * k / emGain f - d.data [s, c]) r / F.data [r, c]) ∧
        o.dq = fun p => if F.data p = 0 then (f.dq p ||| d.dq p) ||| 4 else f.dq p ||| d.dq p) fs out := by
  rw [Batch.l2b_eq] at h
  obtain ⟨gs, h1, h2⟩ := h
  cases fs with
  | nil => cases h1
  | cons f0 l =>
    unfold darkSubMaps at h1
    rw [List.map_cons] at h1
    dsimp only at h1
    rcases ite_eq_iff.1 h1 with ⟨_, h1⟩ | ⟨_, h1⟩
    · cases h1
    cases hd : synthDark m (emDiv (toElectrons k ek f0)) with
    | error e => rw [hd] at h1; cases h1
    | ok d =>
      rw [hd] at h1
      dsimp only at h1
      rw [show emDiv (toElectrons k ek f0) :: List.map (fun f => emDiv (toElectrons k ek f)) l =
        (f0 :: l).map (fun f => emDiv (toElectrons k ek f)) from rfl, mapM_ok_iff, List.forall₂_map_left_iff] at h1
      unfold flatDiv at h2
      rw [mapM_ok_iff, List.forall₂_map_left_iff] at h2
      refine ⟨f0, d, rfl, hd, forall₂_trans ?_ h1 h2⟩
      intro f g o hg ho
      obtain ⟨i, -, rfl⟩ := subFrame_ok hg
      unfold flatFrame at ho
      dsimp only at ho
      split at ho
      · cases ho
      · split at ho
        · cases ho
        · cases ho
          refine ⟨fun r c hr => ?_, rfl⟩
          dsimp only
          rw [desmear_px _ _ hr]
          rfl

/-- The values and flags of an L2b frame in terms of the raw frame. -/
theorem recipe_px {track : Bool} {junk : Ix → ℝ} {tab : NonLin.Table ℝ} (ht : NonLin.Good tab) {off offErr k ek rowread : ℝ}
    {m : Maps} {F : Flat} {zs : List Raw} {o : List Fr} (hz : ∀ z ∈ zs, Science z.l1)
    (h : recipe track junk tab off offErr k ek rowread m F zs = .ok o) :
    ∃ z0 d, zs.head? = some z0 ∧ synthDark m (emDiv (toElectrons k ek z0.fr)) = .ok d ∧
      List.Forall₂ (fun (z : Raw) (o : Fr) => (∀ r c, r < 1024 → c < 1024 → F.data [r, c] ≠ 0 → o.data [r, c] =
          leak (rowread / z.fr.exptime) (fun s => counts tab off z s c * k / emGain z.fr - d.data [s, c]) r / F.data [r, c]) ∧
        o.dq = fun p => if F.data p = 0 then (z.fr.dq p ||| d.dq p) ||| 4 else z.fr.dq p ||| d.dq p) zs o := by
  unfold recipe at h
  cases hl : zs.mapM (l2a tab off offErr) with
  | error e => rw [hl] at h; cases h
  | ok fs =>
    rw [hl] at h
    dsimp only at h
    obtain ⟨f0, d, hf0, hd, hF⟩ := l2b_px h
    have hzf : List.Forall₂ (fun (z : Raw) (f : Fr) => f = { z.fr with data := f.data } ∧
        ∀ r c, r < 1024 → c < 1024 → f.data [r, c] = counts tab off z r c) zs fs := by
      rw [mapM_ok_iff] at hl
      clear h hF hd hf0
      induction hl with
      | nil => exact .nil
      | cons a b ih =>
        refine .cons ?_ (ih fun z hz' => hz z (List.mem_cons_of_mem _ hz'))
        obtain ⟨f, h1, h2, h3⟩ := l2a_counts ht off offErr (hz _ List.mem_cons_self)
        rw [a] at h1
        cases h1
        exact ⟨h2, h3⟩
    have hhead : ∃ z0, zs.head? = some z0 ∧ f0 = { z0.fr with data := f0.data } := by
      cases hzf with
      | nil => cases hf0
      | cons a b => cases hf0; exact ⟨_, rfl, a.1⟩
    obtain ⟨z0, hz0, he⟩ := hhead
    have hd' : synthDark m (emDiv (toElectrons k ek z0.fr)) = .ok d := by rw [← hd, he]; rfl
    refine ⟨z0, d, hz0, hd', forall₂_trans ?_ hzf hF⟩
    rintro z f g ⟨e1, e2⟩ ⟨e3, e4⟩
    constructor
    · intro r c hr hc hn
      rw [e3 r c hr, if_neg hn]
      have hG : emGain f = emGain z.fr := by rw [e1]; rfl
      have hT : f.exptime = z.fr.exptime := by rw [e1]
      rw [hG, hT]
      congr 1
      have : ∀ s ≤ r, f.data [s, c] * k / emGain z.fr - d.data [s, c] =
          counts tab off z s c * k / emGain z.fr - d.data [s, c] := fun s hs => by rw [e2 s c (by omega) hc]
      have h0 := leak_zero (rowread / z.fr.exptime) (a := fun s => (f.data [s, c] * k / emGain z.fr - d.data [s, c]) -
        (counts tab off z s c * k / emGain z.fr - d.data [s, c])) (r := r) (fun s hs => by rw [this s hs, sub_self])
      rw [leak_sub] at h0
      linarith
    · rw [e4]
      have : f.dq = z.fr.dq := by rw [e1]
      rw [this]

/-- **C173** Every pixel of two runs that differ in flagged pixels, exactly: of the change of the counts of its column reaches it what desmearing lets
through. The flags are the same. -/
theorem C173_difference {track : Bool} {junk : Ix → ℝ} {tab : NonLin.Table ℝ} (ht : NonLin.Good tab) {off offErr k ek rowread : ℝ}
    {m : Maps} {F : Flat} {xs ys : List Raw} {out out' : List Fr} (hxy : List.Forall₂ Twins xs ys)
    (hx : recipe track junk tab off offErr k ek rowread m F xs = .ok out)
    (hy : recipe track junk tab off offErr k ek rowread m F ys = .ok out') :
    List.Forall₂ (fun (p : Raw × Raw) (q : Fr × Fr) => q.2.dq = q.1.dq ∧ ∀ r c, r < 1024 → c < 1024 → F.data [r, c] ≠ 0 →
      q.2.data [r, c] - q.1.data [r, c] = k / emGain p.1.fr / F.data [r, c] *
        leak (rowread / p.1.fr.exptime) (fun s => counts tab off p.2 s c - counts tab off p.1 s c) r)
      (xs.zip ys) (out.zip out') := by
  obtain ⟨x0, d, hx0, hd, hX⟩ := recipe_px ht (fun z hz => by
    obtain ⟨w, -, hw⟩ := forall₂_left hxy hz
    exact hw.left) hx
  obtain ⟨y0, d', hy0, hd', hY⟩ := recipe_px ht (fun z hz => by
    obtain ⟨w, -, hw⟩ := forall₂_right hxy hz
    exact hw.right) hy
  have hdd : d' = d := by
    have : y0.fr = x0.fr := by
      cases hxy with
      | nil => cases hx0
      | cons a b => cases hx0; cases hy0; exact a.fr
    rw [this, hd] at hd'
    cases hd'
    rfl
  subst hdd
  clear hx hy hx0 hy0 hd hd'
  induction hxy generalizing out out' with
  | nil => cases hX; cases hY; exact .nil
  | @cons x y xs ys a b ih =>
    cases hX with
    | @cons _ o _ os c1 c2 =>
      cases hY with
      | @cons _ o' _ os' e1 e2 =>
        refine .cons ⟨?_, ?_⟩ (ih e2 c2)
        · show o'.dq = o.dq
          rw [c1.2, e1.2, a.fr]
        · intro r c hr hc hn
          show o'.data [r, c] - o.data [r, c] = k / emGain x.fr / F.data [r, c] *
            leak (rowread / x.fr.exptime) (fun s => counts tab off y s c - counts tab off x s c) r
          rw [c1.1 r c hr hc hn, e1.1 r c hr hc hn, a.fr, ← sub_div, ← leak_sub]
          have : (fun s => counts tab off y s c * k / emGain x.fr - d'.data [s, c] -
              (counts tab off x s c * k / emGain x.fr - d'.data [s, c])) =
              fun s => k / emGain x.fr * (counts tab off y s c - counts tab off x s c) := by
            funext s; ring
          rw [this, leak_mul]
          ring

/-- **C173** The part that holds: pixels that have no flagged pixel in their column up to their own row are the same in both runs. -/
theorem C173_recipe_partial {track : Bool} {junk : Ix → ℝ} {tab : NonLin.Table ℝ} (ht : NonLin.Good tab) {off offErr k ek rowread : ℝ}
    {m : Maps} {F : Flat} {xs ys : List Raw} {out out' : List Fr} (hxy : List.Forall₂ Twins xs ys)
    (hx : recipe track junk tab off offErr k ek rowread m F xs = .ok out)
    (hy : recipe track junk tab off offErr k ek rowread m F ys = .ok out') :
    List.Forall₂ (fun (x : Raw) (q : Fr × Fr) => ∀ r c, r < 1024 → c < 1024 → F.data [r, c] ≠ 0 →
      (∀ s, s ≤ r → x.fr.dq [s, c] = 0) → q.2.data [r, c] = q.1.data [r, c]) xs (out.zip out') := by
  have h := C173_difference ht hxy hx hy
  have hl : xs.length = ys.length := hxy.length_eq
  have hfst : xs = (xs.zip ys).map Prod.fst := by
    rw [List.map_fst_zip]; omega
  have hmem : ∀ p ∈ xs.zip ys, Twins p.1 p.2 := by
    intro p hp
    exact (List.forall₂_iff_zip.1 hxy).2 hp
  rw [hfst, List.forall₂_map_left_iff]
  have h' := (List.forall₂_iff_zip.1 h)
  refine List.forall₂_iff_zip.2 ⟨h'.1, fun {p q} hpq r c hr hc hn hs => ?_⟩
  have hp : p ∈ xs.zip ys := (List.of_mem_zip hpq).1
  have := (h'.2 hpq).2 r c hr hc hn
  rw [leak_zero _ (fun s hsr => by rw [C173_l2a (hmem p hp) tab off (hs s hsr), sub_self]), mul_zero] at this
  linarith

/-- **C173, violated.** A flagged pixel changes the unflagged pixels behind it: if row `i` is the only flagged one of the column up to row `r`, then row `r` is
wrong by the fraction `ρ (1 + ρ)^(i-r-1)` of the change, which is seen whenever there is light during the read-out. -/
theorem C173_violated_smear {track : Bool} {junk : Ix → ℝ} {tab : NonLin.Table ℝ} (ht : NonLin.Good tab) {off offErr k ek rowread : ℝ}
    {m : Maps} {F : Flat} {x y : Raw} {o o' : Fr} (hxy : Twins x y)
    (hx : recipe track junk tab off offErr k ek rowread m F [x] = .ok [o])
    (hy : recipe track junk tab off offErr k ek rowread m F [y] = .ok [o']) {i r c : ℕ} (hir : i < r) (hr : r < 1024) (hc : c < 1024)
    (hF : F.data [r, c] ≠ 0) (hq : ∀ s, s ≤ r → s ≠ i → x.fr.dq [s, c] = 0) :
    o'.data [r, c] - o.data [r, c] = - (k / emGain x.fr / F.data [r, c] * (rowread / x.fr.exptime) *
      (1 + rowread / x.fr.exptime) ^ ((i : ℤ) - r - 1) * (counts tab off y i c - counts tab off x i c)) ∧
    (k ≠ 0 → emGain x.fr ≠ 0 → rowread / x.fr.exptime ≠ 0 → 1 + rowread / x.fr.exptime ≠ 0 →
      (o'.data [r, c] = o.data [r, c] ↔ counts tab off y i c = counts tab off x i c)) := by
  have h := C173_difference ht (.cons hxy .nil) hx hy
  cases h with
  | cons h1 _ =>
    have h2 := h1.2 r c hr hc hF
    dsimp only at h2
    rw [leak_one _ hir.le (fun s hs hne => by rw [C173_l2a hxy tab off (hq s hs hne), sub_self]), if_neg (by omega)] at h2
    have e : o'.data [r, c] - o.data [r, c] = - (k / emGain x.fr / F.data [r, c] * (rowread / x.fr.exptime) *
        (1 + rowread / x.fr.exptime) ^ ((i : ℤ) - r - 1) * (counts tab off y i c - counts tab off x i c)) := by
      rw [h2]; ring
    refine ⟨e, fun hk hg hρ hρ1 => ⟨fun he => ?_, fun he => ?_⟩⟩
    · rw [he, sub_self, eq_comm, neg_eq_zero, mul_eq_zero] at e
      rcases e with e | e
      · have hp := zpow_ne_zero ((i : ℤ) - r - 1) hρ1
        have h3 : k / emGain x.fr / F.data [r, c] ≠ 0 := div_ne_zero (div_ne_zero hk hg) hF
        exact absurd e (mul_ne_zero (mul_ne_zero h3 hρ) hp)
      · linarith
    · rw [he, sub_self, mul_zero, neg_zero] at e
      linarith

/-! ## The bias of a row

The prescan is cut off in the same step, with its flags: pixels of the prescan that were hit cannot be left out later. -/

theorem median_between {l : List ℝ} {a b : ℝ} (h : 2 * l.countP (fun v => decide (¬ (a ≤ v ∧ v ≤ b))) < l.length) :
    a ≤ Nan.median l ∧ Nan.median l ≤ b := by
  have hl : l ≠ [] := by rintro rfl; simp at h
  obtain ⟨h1, h2⟩ := Nan.median_spec l hl
  constructor
  · by_contra hc
    rw [not_le] at hc
    have : l.countP (fun x => decide (x ≤ Nan.median l)) ≤ l.countP (fun v => decide (¬ (a ≤ v ∧ v ≤ b))) := by
      refine List.countP_mono_left fun x _ hx => ?_
      rw [decide_eq_true_eq] at hx ⊢
      exact fun hh => absurd hh.1 (not_le.2 (lt_of_le_of_lt hx hc))
    omega
  · by_contra hc
    rw [not_le] at hc
    have : l.countP (fun x => decide (Nan.median l ≤ x)) ≤ l.countP (fun v => decide (¬ (a ≤ v ∧ v ≤ b))) := by
      refine List.countP_mono_left fun x _ hx => ?_
      rw [decide_eq_true_eq] at hx ⊢
      exact fun hh => absurd hh.2 (not_le.2 (lt_of_lt_of_le hc hx))
    omega

theorem allVals_map (l : List ℝ) : allVals (l.map some) = some l := by
  unfold allVals
  induction l with
  | nil => rfl
  | cons a l ih => rw [List.map_cons, List.mapM_cons, ih]; rfl

theorem prescan_vals {f : L1} {r : ℕ} {v : ℕ → ℝ} (hv : ∀ c, 800 ≤ c → c < 1000 → f.data.px r c = some (v c)) :
    (List.range' (sciPrescan.c0 + 800) (1000 - 800)).map (f.data.px r) = ((List.range' 800 200).map v).map some := by
  rw [List.map_map]
  have h0 : sciPrescan.c0 = 0 := rfl
  rw [h0, Nat.zero_add]
  refine List.map_congr_left fun c hc => ?_
  rw [List.mem_range'_1] at hc
  exact hv c hc.1 (by omega)

/-- **C173** The bias itself stands hits: it lies among the values of the other prescan pixels as long as those hit are less than half. -/
theorem C173_bias {f : L1} {r : ℕ} {v : ℕ → ℝ} (hv : ∀ c, 800 ≤ c → c < 1000 → f.data.px r c = some (v c)) (off a b : ℝ)
    (h : (List.range' 800 200).countP (fun c => decide (¬ (a ≤ v c ∧ v c ≤ b))) < 100) :
    ∃ m, rowBias f sciPrescan 800 1000 off r = some m ∧ a ≤ m + off ∧ m + off ≤ b := by
  unfold rowBias
  rw [prescan_vals hv]
  have hc : 2 * ((List.range' 800 200).map v).countP (fun v => decide (¬ (a ≤ v ∧ v ≤ b))) < ((List.range' 800 200).map v).length := by
    rw [List.countP_map, List.length_map, List.length_range']
    have : (List.range' 800 200).countP ((fun v => decide (¬ (a ≤ v ∧ v ≤ b))) ∘ v) =
      (List.range' 800 200).countP (fun c => decide (¬ (a ≤ v c ∧ v c ≤ b))) := rfl
    omega
  have hm := median_between hc
  have hne : ∃ w ws, (List.range' 800 200).map v = w :: ws := ⟨v 800, (List.range' 801 199).map v, rfl⟩
  obtain ⟨w, ws, hw⟩ := hne
  unfold npMedian
  rw [allVals_map, hw]
  rw [hw] at hm
  exact ⟨Nan.median (w :: ws) - off, rfl, by linarith [hm.1], by linarith [hm.2]⟩

theorem std_large (t : ℝ) (l : List ℝ) :
    (l.length * t - l.sum) ^ 2 ≤ ((l.length : ℝ) + 1) ^ 3 * std (t :: l) ^ 2 := by
  unfold std
  set n : ℝ := (l.length : ℝ) + 1 with hn
  have hn0 : 0 < n := by positivity
  have hmean : Nan.mean (t :: l) = (t + l.sum) / n := by
    unfold Nan.mean
    rw [List.sum_cons, List.length_cons]
    push_cast
    rfl
  have hpos : 0 ≤ ((l.map fun x => (x - Nan.mean (t :: l)) ^ 2)).sum := by
    apply List.sum_nonneg
    intro x hx
    obtain ⟨y, -, rfl⟩ := List.mem_map.1 hx
    exact sq_nonneg _
  have hm2 : Nan.mean ((t :: l).map fun x => (x - Nan.mean (t :: l)) ^ 2) =
      ((t - Nan.mean (t :: l)) ^ 2 + ((l.map fun x => (x - Nan.mean (t :: l)) ^ 2)).sum) / n := by
    generalize Nan.mean (t :: l) = μ
    unfold Nan.mean
    rw [List.map_cons, List.sum_cons, List.length_cons, List.length_map]
    push_cast
    rfl
  rw [Real.sq_sqrt (by rw [hm2]; positivity), hm2]
  have e : n ^ 3 * (((t - Nan.mean (t :: l)) ^ 2 + ((l.map fun x => (x - Nan.mean (t :: l)) ^ 2)).sum) / n) =
      (n * (t - Nan.mean (t :: l))) ^ 2 + n ^ 2 * ((l.map fun x => (x - Nan.mean (t :: l)) ^ 2)).sum := by
    field_simp
  rw [e, hmean]
  have e2 : n * (t - (t + l.sum) / n) = l.length * t - l.sum := by
    field_simp
    rw [hn]
    ring
  rw [e2]
  have : 0 ≤ n ^ 2 * ((l.map fun x => (x - (t + l.sum) / n) ^ 2)).sum := by
    rw [hmean] at hpos
    positivity
  linarith

/-- The frame with another value in the first reliable pixel of the prescan of a row. -/
def hit (f : L1) (r : ℕ) (t : ℝ) : L1 :=
  { f with data := { f.data with px := fun i j => if i = r ∧ j = 800 then some t else f.data.px i j } }

/-- **C173, violated.** The error of the bias does not: a hit of one prescan pixel makes the error of all 1024 pixels of the row as large as one likes,
and no flag is left of it. -/
theorem C173_violated_bias_error {f : L1} (hf : Science f) (off offErr B : ℝ) {r : ℕ} (hr : r < 1024) {v : ℕ → ℝ}
    (hv : ∀ c, 800 ≤ c → c < 1000 → f.data.px (13 + r) c = some (v c)) :
    ∃ t o, prescanBiasSub detectorAreas detectorAreas off offErr .image (hit f (13 + r) t) = .ok o ∧
      (∀ c, c < 1024 → ∃ e, o.newErr.px r c = some e ∧ B < e) ∧ ∀ c, o.dq.px r c = f.dq.px (13 + r) (1088 + c) := by
  set l := (List.range' 801 199).map v with hl
  have hlen : (l.length : ℝ) = 199 := by rw [hl, List.length_map, List.length_range']; norm_num
  set t : ℝ := (40000 * (|B| + 1) + l.sum) / 199 with ht
  obtain ⟨o, ho, hb⟩ := C26_sci off offErr (hit f (13 + r) t) hf.mode hf.size hf.sizeDq hf.sizeErr
  refine ⟨t, o, ho, fun c hc => ?_, fun c => hb.dq.2.2 r c⟩
  rw [hb.newErr r c hr hc]
  have hvals : (List.range' (sciPrescan.c0 + 800) (1000 - 800)).map ((hit f (13 + r) t).data.px (13 + r)) = (t :: l).map some := by
    rw [prescan_vals (v := fun c => if c = 800 then t else v c)]
    · congr 1
    · intro c h1 h2
      show (if 13 + r = 13 + r ∧ c = 800 then some t else f.data.px (13 + r) c) = _
      by_cases h : c = 800
      · rw [if_pos ⟨rfl, h⟩, if_pos h]
      · rw [if_neg (fun hh => h hh.2), if_neg h, hv c h1 h2]
  unfold rowErr npStd
  rw [hvals, allVals_map]
  refine ⟨_, rfl, ?_⟩
  have hs := std_large t l
  rw [hlen] at hs
  have e : (199 : ℝ) * t - l.sum = 40000 * (|B| + 1) := by rw [ht]; ring
  rw [e] at hs
  have hn : ((1000 - 800 : ℕ) : ℝ) = 200 := by norm_num
  rw [hn]
  refine lt_of_le_of_lt (le_abs_self B) (Real.lt_sqrt_of_sq_lt ?_)
  have h2 : (std (t :: l) / Real.sqrt 200) ^ 2 = std (t :: l) ^ 2 / 200 := by
    rw [div_pow, Real.sq_sqrt (by norm_num)]
  rw [h2]
  have hB := abs_nonneg B
  nlinarith [sq_nonneg offErr, sq_nonneg (|B|)]

/-! ## Photon counting -/

open Pc in
/-- Frames that differ at most in flagged pixels. -/
structure PcTwins (f g : Pc.Frame) : Prop where
  name : g.name = f.name
  hdr : g.hdr = f.hdr
  dq : g.dq = f.dq
  data : ∀ p, f.dq p = 0 → g.data p = f.data p
  err : ∀ p, f.dq p = 0 → g.err p = f.err p

theorem coadd_twins (t : ℝ) {u : Pc.Frame → ℕ → Option ℝ} {fs gs : List Pc.Frame} (h : List.Forall₂ PcTwins fs gs) (p : ℕ)
    (hu : ∀ f g, PcTwins f g → f.dq p = 0 → u g p = u f p) : Pc.coadd t u gs p = Pc.coadd t u fs p ∧ Pc.nframes gs p = Pc.nframes fs p := by
  unfold Pc.coadd Pc.nframes
  have : (gs.map fun f => (Pc.boolMap (f.dq p)).map fun b => Pc.photonCount t (u f p) * b) =
      (fs.map fun f => (Pc.boolMap (f.dq p)).map fun b => Pc.photonCount t (u f p) * b) ∧
      (gs.map fun f => Pc.boolMap (f.dq p)) = fs.map fun f => Pc.boolMap (f.dq p) := by
    induction h with
    | nil => exact ⟨rfl, rfl⟩
    | cons a b ih =>
      simp only [List.map_cons, ih.1, ih.2, a.dq, and_true]
      congr 1
      rename_i f g _ _
      by_cases hq : f.dq p = 0
      · rw [hu f g a hq]
      · simp [Pc.boolMap, hq]
  rw [this.1, this.2]
  exact ⟨rfl, rfl⟩

theorem corr_twins {P : Pc.Params} (t e : ℝ) {u : Pc.Frame → ℕ → Option ℝ} {fs gs : List Pc.Frame} (h : List.Forall₂ PcTwins fs gs)
    (hu : ∀ p f g, PcTwins f g → f.dq p = 0 → u g p = u f p) : Pc.corr P t e gs u = Pc.corr P t e fs u := by
  unfold Pc.corr
  have : ((List.range P.npix).map fun p => (Pc.coadd t u gs p, Pc.nframes gs p, P.considered p)) =
      (List.range P.npix).map fun p => (Pc.coadd t u fs p, Pc.nframes fs p, P.considered p) := by
    refine List.map_congr_left fun p _ => ?_
    obtain ⟨h1, h2⟩ := coadd_twins t h p (hu p)
    rw [h1, h2]
  rw [this]

theorem finish_twins {P : Pc.Params} {i : ℕ} {fs gs : List Pc.Frame} (h : List.Forall₂ PcTwins fs gs) (vis : String) (t e : ℝ)
    (m up low : ℕ → Option ℝ) : Pc.pcFinish P i gs vis t e m up low = Pc.pcFinish P i fs vis t e m up low := by
  have hn : ∀ p, Pc.nframes gs p = Pc.nframes fs p := fun p =>
    (coadd_twins t (u := fun _ _ => none) h p fun _ _ _ _ => rfl).2
  have hname : gs.map Pc.Frame.name = fs.map Pc.Frame.name := by
    induction h with
    | nil => rfl
    | cons a b ih => rw [List.map_cons, List.map_cons, a.name, ih fun p => (coadd_twins t (u := fun _ _ => none) b p fun _ _ _ _ => rfl).2]
  have hlen : gs.length = fs.length := h.length_eq.symm
  unfold Pc.pcFinish
  simp only [hn, hname, hlen]

theorem any_twins {fs gs : List Pc.Frame} (h : List.Forall₂ PcTwins fs gs) (q : Pc.Hdr → Bool) :
    (gs.any fun f => q f.hdr) = fs.any fun f => q f.hdr := by
  induction h with
  | nil => rfl
  | cons a b ih => rw [List.any_cons, List.any_cons, a.hdr, ih]

/-- **C173** Photon counting without the safety checks: values and errors of flagged pixels have no influence at all. -/
theorem C173_counting {P : Pc.Params} (hs : P.safemode = false) (i : ℕ) {fs gs : List Pc.Frame} (h : List.Forall₂ PcTwins fs gs) :
    Pc.pcBin P i gs = Pc.pcBin P i fs := by
  cases h with
  | nil => rfl
  | @cons f g l m a b =>
    have hall : List.Forall₂ PcTwins (f :: l) (g :: m) := .cons a b
    have hplus : ∀ p f g, PcTwins f g → f.dq p = 0 → Pc.plus g p = Pc.plus f p := fun p f g hh hq => by
      unfold Pc.plus; rw [hh.data p hq, hh.err p hq]
    have hminus : ∀ p f g, PcTwins f g → f.dq p = 0 → Pc.minus g p = Pc.minus f p := fun p f g hh hq => by
      unfold Pc.minus; rw [hh.data p hq, hh.err p hq]
    have e1 := any_twins hall (fun h => decide ((h.exptime, h.emC, h.kgain, h.rn) ≠ (f.hdr.exptime, f.hdr.emC, f.hdr.kgain, f.hdr.rn)))
    have e2 := any_twins hall (fun h => decide (h.vistype ≠ f.hdr.vistype))
    unfold Pc.pcBin
    dsimp only
    rw [a.hdr]
    simp only [e1, e2, hs, Bool.false_eq_true, and_false, if_false, corr_twins _ _ hall (fun p f g hh hq => hh.data p hq),
      corr_twins _ _ hall hplus, corr_twins _ _ hall hminus, finish_twins hall]

/-- The frame with another value in one pixel. -/
def struck (f : Pc.Frame) (p : ℕ) (x : ℝ) : Pc.Frame := { f with data := fun q => if q = p then some x else f.data q }

theorem vals_struck (l : List Pc.Frame) (f : Pc.Frame) (c : List ℕ) (hc : c.Nodup) {p : ℕ} (hp : p ∈ c) :
    ∃ a b : List ℝ, ∀ x, (c.flatMap fun q => (struck f p x :: l).filterMap fun f => f.data q) = a ++ x :: b := by
  obtain ⟨c1, c2, rfl⟩ := List.append_of_mem hp
  have hn := List.nodup_append.1 hc
  have h1 : ∀ q ∈ c1, q ≠ p := fun q hq => hn.2.2 q hq p List.mem_cons_self
  have h2 : ∀ q ∈ c2, q ≠ p := fun q hq he => (List.nodup_cons.1 hn.2.1).1 (he ▸ hq)
  refine ⟨c1.flatMap fun q => (f :: l).filterMap fun f => f.data q,
    (l.filterMap fun f => f.data p) ++ c2.flatMap fun q => (f :: l).filterMap fun f => f.data q, fun x => ?_⟩
  have hq : ∀ q, q ≠ p → ((struck f p x :: l).filterMap fun f => f.data q) = (f :: l).filterMap fun f => f.data q := fun q hq => by
    rw [List.filterMap_cons, List.filterMap_cons, show (struck f p x).data q = f.data q from if_neg hq]
  rw [List.flatMap_append, List.flatMap_cons, List.flatMap_congr fun q hh => hq q (h1 q hh), List.flatMap_congr fun q hh => hq q (h2 q hh),
    List.filterMap_cons, show (struck f p x).data p = some x from if_pos rfl]
  rfl

theorem struck_twins {f : Pc.Frame} {p : ℕ} (hq : f.dq p ≠ 0) (x : ℝ) : PcTwins f (struck f p x) where
  name := rfl
  hdr := rfl
  dq := rfl
  data q h := if_neg fun he : q = p => hq (he ▸ h)
  err _ _ := rfl

/-- **C173, violated.** The check of the mean rate averages over flagged pixels too: whatever the frames, one cosmic ray that the pipeline has found and
flagged can be bright enough to have the bin rejected. -/
theorem C173_violated_ecount {P : Pc.Params} (hs : P.safemode = true) {i : ℕ} {f : Pc.Frame} {l : List Pc.Frame} {s : Pc.Slice}
    (h : Pc.pcBin P i (f :: l) = .ok s) {p : ℕ} (hp : p < P.npix) (hc : P.considered p = true) (hq : f.dq p ≠ 0) :
    ∃ g, PcTwins f g ∧ Pc.pcBin P i (g :: l) = .error .ecount := by
  obtain ⟨f0, l0, -, -, -, hfl, hall, hmode, hdark, ht, hrn, hg, -⟩ := Pc.pcBin_ok h
  obtain ⟨rfl, rfl⟩ := List.cons_eq_cons.1 hfl
  have hg := hg hs
  have hg0 : 0 < Pc.emGain f.hdr := lt_of_le_of_lt ht hg
  obtain ⟨a, b, hab⟩ := vals_struck l f ((List.range P.npix).filter P.considered) (List.nodup_range.filter _)
    (List.mem_filter.2 ⟨List.mem_range.2 hp, hc⟩)
  set n : ℝ := ((a.length + (b.length + 1) : ℕ) : ℝ) with hn
  have hn0 : 0 < n := by rw [hn]; positivity
  set x : ℝ := Pc.emGain f.hdr * n * (P.ecountMax + 1) - (a.sum + b.sum) with hx
  refine ⟨struck f p x, struck_twins hq x, ?_⟩
  have hispc : f.hdr.ispc ≠ some false := by
    intro hh
    unfold Pc.pcBin at h
    dsimp only at h
    rw [if_pos hh] at h
    split_ifs at h
  have e1 : ¬ ((struck f p x :: l).any fun f' => decide ((f'.hdr.exptime, f'.hdr.emC, f'.hdr.kgain, f'.hdr.rn) ≠
      (f.hdr.exptime, f.hdr.emC, f.hdr.kgain, f.hdr.rn))) = true := by
    rw [List.any_eq_true]
    rintro ⟨f', hf', hh⟩
    rw [decide_eq_true_eq] at hh
    rcases List.mem_cons.1 hf' with rfl | hf'
    · exact hh rfl
    · obtain ⟨h1, h2, h3, h4, -⟩ := hall f' (List.mem_cons_of_mem _ hf')
      exact hh (by rw [h1, h2, h3, h4])
  have e2 : ¬ ((struck f p x :: l).any fun f' => decide (f'.hdr.vistype ≠ f.hdr.vistype)) = true := by
    rw [List.any_eq_true]
    rintro ⟨f', hf', hh⟩
    rw [decide_eq_true_eq] at hh
    rcases List.mem_cons.1 hf' with rfl | hf'
    · exact hh rfl
    · exact hh (hall f' (List.mem_cons_of_mem _ hf')).2.2.2.2
  have hmean : P.ecountMax < ((a ++ x :: b).map (· / Pc.emGain f.hdr)).sum / ((a ++ x :: b).length : ℕ) := by
    have hsum : ((a ++ x :: b).map (· / Pc.emGain f.hdr)).sum = (a.sum + b.sum + x) / Pc.emGain f.hdr := by
      have : ∀ (g : ℝ) (l : List ℝ), (l.map (· / g)).sum = l.sum / g := fun g l => by
        induction l with
        | nil => simp
        | cons y l ih => rw [List.map_cons, List.sum_cons, List.sum_cons, ih, add_div]
      rw [this, List.sum_append, List.sum_cons]
      ring
    have hlen : (((a ++ x :: b).length : ℕ) : ℝ) = n := by rw [List.length_append, List.length_cons]
    rw [hsum, hlen, lt_div_iff₀ hn0, lt_div_iff₀ hg0, hx]
    have := mul_pos hg0 hn0
    nlinarith
  unfold Pc.pcBin
  dsimp only
  rw [show (struck f p x).hdr = f.hdr from rfl, if_neg e1, if_neg e2]
  have hab' := hab x
  rw [hab']
  rw [if_neg, if_neg, if_neg, if_neg hispc, if_neg (not_lt.2 ht), if_neg, if_pos]
  · exact ⟨by simp, hmean, hs⟩
  · exact fun hh => absurd hh.1 (not_le.2 hg)
  · rintro ⟨h1, h2⟩
    rw [if_neg h1] at hmode
    exact h2 hmode
  · rintro ⟨h1, h2⟩
    rw [hdark h1] at h2
    cases h2
  · rintro ⟨h1, h2⟩
    rw [if_pos h1] at hmode
    exact h2 hmode

/-! ## Not vacuous -/

/-- The same frame twice, and a frame with a flagged pixel of another value. -/
example : ∃ x y : Raw, Twins x y ∧ x.fr.dq [3, 5] ≠ 0 ∧ (∀ i j, (i, j) ≠ (3, 5) → x.fr.dq [i, j] = 0) ∧
    x.l1.data.px 16 1093 ≠ y.l1.data.px 16 1093 := by
  refine ⟨⟨⟨some "SCI", ⟨1200, 2200, fun _ _ => some 0⟩, [], ⟨1200, 2200, fun _ _ => 0⟩⟩,
      ⟨fun _ => 0, ⟨[1024, 1024], [fun _ => 0], fun _ => none, []⟩, fun ix => if ix = [3, 5] then 128 else 0, 10, 100, 100, none, 8, "DN"⟩⟩,
    ⟨⟨some "SCI", ⟨1200, 2200, fun i j => if i = 16 ∧ j = 1093 then some 1000 else some 0⟩, [], ⟨1200, 2200, fun _ _ => 0⟩⟩,
      ⟨fun _ => 0, ⟨[1024, 1024], [fun _ => 0], fun _ => none, []⟩, fun ix => if ix = [3, 5] then 128 else 0, 10, 100, 100, none, 8, "DN"⟩⟩,
    ⟨rfl, ⟨rfl, ⟨rfl, rfl⟩, ⟨rfl, rfl⟩, by simp⟩, ⟨rfl, ⟨rfl, rfl⟩, ⟨rfl, rfl⟩, by simp⟩, fun r c h => ?_⟩, by simp, fun i j h => ?_, by simp⟩
  · have := h 3 5 (by omega) (by omega) (by simp)
    exact if_neg fun hh => this (by rw [hh.1, hh.2])
  · refine if_neg fun hh => h ?_
    simpa using hh

example : Pc.photonCount 5 (some 6) = 1 ∧ (∃ f g : Pc.Frame, PcTwins f g ∧ f.data ≠ g.data) := by
  refine ⟨by norm_num [Pc.photonCount], ⟨"a", ⟨1, 1, 1, 1, 1, none, "x", none⟩, fun _ => some 0, fun _ => some 0, fun p => p⟩, _,
    struck_twins (p := 1) (by simp) 7, fun h => ?_⟩
  simpa [struck] using congrFun h 1

end Corgi.Flagged

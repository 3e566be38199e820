import Verif.EndToEnd.Clip

/-!
# A cosmic ray from L1 to L2b: C195

A cosmic ray adds charge to some pixels of a raw frame. The search for cosmic rays (`Verif/Detector/Plateau.lean`) flags pixels of the frame
without bias; the recipe (`Verif/EndToEnd/L2b.lean`) goes on with the values. `desmear` (l2a_to_l2b.py 388-425) takes every charge of a pixel for light that
also fell on the later rows of its column while the frame was shifted out, and subtracts it there. No new definitions of the model.
-/

noncomputable section

namespace Corgi.Ray

open Corgi.Det Corgi.Arith Corgi.EndToEnd Corgi.Flagged Corgi.Cone Corgi.Digit Corgi.Clip

/-! ## Specification -/

/-- `y` is the frame `x` with rays: the charge of a ray is `h`, in counts of a linear detector, and the pixels are then `e` above the bias. -/
structure Struck (tab : NonLin.Table ℝ) (off g : ℝ) (h e : ℕ → ℕ → ℝ) (x y : Raw) : Prop where
  same : y.fr = x.fr
  over : Over off e y.l1
  charge : ∃ v, Over off v x.l1 ∧ ∀ r c, r < 1024 → c < 1024 →
    e r c * NonLin.relgain tab g (e r c) = v r c * NonLin.relgain tab g (v r c) + h r c

/-- The charge of a ray is in row `i`, from column `a` on, for `n` columns. -/
def InRow (h : ℕ → ℕ → ℝ) (i a n : ℕ) : Prop := ∀ r c, h r c ≠ 0 → r = i ∧ a ≤ c ∧ c < a + n

/-! ## Values -/

theorem counts_over {tab : NonLin.Table ℝ} {off g : ℝ} {e : ℕ → ℕ → ℝ} {x : Raw} (h : Over off e x.l1) (hg : emGain x.fr = g) {r c : ℕ} (hr : r < 1024)
    (hc : c < 1024) : counts tab off x r c = e r c * NonLin.relgain tab g (e r c) := by
  obtain ⟨b, h1, h2⟩ := h.pixels
  unfold counts
  rw [h2 r c hr hc, rowBias_const (h1 (13 + r)), hg]
  simp [Det.sub]

/-- **C195** The value of every pixel of L2b when rays hit the detector: the charge of the rays in the pixel itself is there, and that in the
earlier rows of its column is partly subtracted. -/
theorem C195_value {d : Detector} (hs : Sound d) {tab : NonLin.Table ℝ} (ht : NonLin.Good tab) (track : Bool) (junk : Ix → ℝ) {off k rowread : ℝ}
    (offErr ek : ℝ) {m : Maps} {F : Flat} (hc : Calibrated d k rowread m F) {ss hs' es : List (ℕ → ℕ → ℝ)} {xs ys : List Raw} (hne : ys ≠ [])
    (hh : ∀ y ∈ ys, Header d y.fr) (hem : ∀ x ∈ ys, ∀ y ∈ ys, x.fr.emC = y.fr.emC)
    (hx : List.Forall₂ (fun (s : ℕ → ℕ → ℝ) (x : Raw) => Exposes d tab off s x.l1) ss xs)
    (hy : List.Forall₂ (fun (q : (ℕ → ℕ → ℝ) × (ℕ → ℕ → ℝ)) (z : Raw × Raw) => Struck tab off d.gain q.1 q.2 z.1 z.2) (hs'.zip es) (xs.zip ys))
    (l1 : hs'.length = ys.length) (l2 : es.length = ys.length) (l3 : xs.length = ys.length) :
    ∃ out, recipe track junk tab off offErr k ek rowread m F ys = .ok out ∧
      List.Forall₂ (fun (q : (ℕ → ℕ → ℝ) × (ℕ → ℕ → ℝ)) (g : Fr) => ∀ r c, r < 1024 → c < 1024 → d.flat r c ≠ 0 →
        g.data [r, c] = q.1 r c + d.kgain / d.gain / d.flat r c * ((1 + d.rowread / d.exptime)⁻¹ * q.2 r c
          - d.rowread / d.exptime * ∑ i ∈ Finset.range r, ((1 + d.rowread / d.exptime)⁻¹) ^ (r + 1 - i) * q.2 i c)) (ss.zip hs') out := by
  have l4 := hx.length_eq
  rw [List.forall₂_iff_get] at hy
  have hst : ∀ i (h1 : i < hs'.length) (h2 : i < es.length) (h3 : i < xs.length) (h4 : i < ys.length),
      Struck tab off d.gain hs'[i] es[i] xs[i] ys[i] := fun i h1 h2 h3 h4 => by
    have := hy.2 i (by rw [List.length_zip]; omega) (by rw [List.length_zip]; omega)
    simpa only [List.get_eq_getElem, List.getElem_zip] using this
  have hfr : List.Forall₂ (fun x y : Raw => y.fr = x.fr) xs ys := List.forall₂_iff_get.2 ⟨l3, fun i h1 h2 =>
    (hst i (by omega) (by omega) h1 h2).same⟩
  obtain ⟨out, ho, hlen, hval⟩ := against hs ht track junk offErr ek hc hne hh hem (fun y hyy => by
    obtain ⟨i, hi, rfl⟩ := List.getElem_of_mem hyy
    exact (hst i (by omega) (by omega) (by omega) hi).over.toScience) hx hfr
  refine ⟨out, ho, List.forall₂_iff_get.2 ⟨by rw [List.length_zip]; omega, fun i hi hio r c hr hc' hn => ?_⟩⟩
  rw [List.length_zip] at hi
  have e := hval i (by omega) (by omega) (by omega) hio r c hr hc' hn
  have hS := hst i (by omega) (by omega) (by omega) (by omega)
  obtain ⟨v, hv, hcharge⟩ := hS.charge
  have hg : emGain ys[i].fr = d.gain := (hh _ (List.getElem_mem (by omega))).gain
  have hdiff : ∀ j, j < 1024 → counts tab off ys[i] j c - counts tab off xs[i] j c = hs'[i] j c := by
    intro j hj
    rw [counts_over hS.over hg hj hc', counts_over (g := d.gain) hv (by rw [← hS.same]; exact hg) hj hc', hcharge j c hj hc']
    ring
  simp only [List.get_eq_getElem, List.getElem_zip]
  have hsum : ∑ j ∈ Finset.range r, ((1 + d.rowread / d.exptime)⁻¹) ^ (r + 1 - j) * (counts tab off ys[i] j c - counts tab off xs[i] j c) =
      ∑ j ∈ Finset.range r, ((1 + d.rowread / d.exptime)⁻¹) ^ (r + 1 - j) * hs'[i] j c := by
    refine Finset.sum_congr rfl fun j hj => ?_
    rw [hdiff j ((Finset.mem_range.1 hj).trans hr)]
  rw [leak_row _ hs.time, hsum, hdiff r hr] at e
  linear_combination e

/-- The value of a pixel when one ray is in one row, in terms of the formula of `C195_value`. -/
theorem C195_row {ρ K s g : ℝ} {h : ℕ → ℕ → ℝ} {i a n r c : ℕ} (hin : InRow h i a n)
    (hg : g = s + K * ((1 + ρ)⁻¹ * h r c - ρ * ∑ j ∈ Finset.range r, ((1 + ρ)⁻¹) ^ (r + 1 - j) * h j c)) :
    (r < i ∨ c < a ∨ a + n ≤ c → g = s) ∧ (r = i → g = s + K * (1 + ρ)⁻¹ * h i c) ∧
      (i < r → g = s - K * ρ * ((1 + ρ)⁻¹) ^ (r + 1 - i) * h i c) := by
  have hz : ∀ j, j ≠ i → h j c = 0 := fun j hj => by
    by_contra hh
    exact hj (hin j c hh).1
  have hsum : ∀ (_ : r ≤ i), ∑ j ∈ Finset.range r, ((1 + ρ)⁻¹) ^ (r + 1 - j) * h j c = 0 := fun hr => Finset.sum_eq_zero fun j hj => by
    have := Finset.mem_range.1 hj
    rw [hz j (by omega), mul_zero]
  refine ⟨?_, ?_, ?_⟩
  · rintro (hr | hr)
    · rw [hsum hr.le, hz r hr.ne] at hg
      rw [hg]
      ring
    · have : ∀ j, h j c = 0 := fun j => by
        by_contra hh
        have := hin j c hh
        omega
      simp only [this, mul_zero, Finset.sum_const_zero, sub_zero, add_zero] at hg
      exact hg
  · rintro rfl
    rw [hsum le_rfl] at hg
    rw [hg]
    ring
  · intro hr
    rw [hz r (by omega), Finset.sum_eq_single i (fun j _ hj => by rw [hz j hj, mul_zero])
      (fun hn => absurd (Finset.mem_range.2 hr) hn)] at hg
    rw [hg]
    ring

/-! ## Flags -/

/-- **C195** The flags after the search for rays. -/
theorem C195_flags {tab : NonLin.Table ℝ} {off g : ℝ} (offErr : ℝ) (p : Cr.Par) (w : Cr.Wells ℝ) (hw : 0 ≤ w.sat) {hs es : List (ℕ → ℕ → ℝ)}
    {xs ys : List Raw} (hh : ∀ y ∈ ys, emGain y.fr = g ∧ y.fr.emM = none)
    (hy : List.Forall₂ (fun (q : (ℕ → ℕ → ℝ) × (ℕ → ℕ → ℝ)) (z : Raw × Raw) => Struck tab off g q.1 q.2 z.1 z.2) (hs.zip es) (xs.zip ys))
    (l1 : hs.length = ys.length) (l2 : es.length = ys.length) (l3 : xs.length = ys.length) :
    ∃ out, biasAndRays p w off offErr ys = .ok out ∧
      List.Forall₂ (fun (q : (ℕ → ℕ → ℝ) × Raw) (z : Cr.Shot ℝ) => MarkedBy g p w q.1 q.2 z) (es.zip ys) out := by
  refine flags_over offErr p w hw hh (List.forall₂_iff_get.2 ⟨l2, fun i h1 h2 => ?_⟩)
  rw [List.forall₂_iff_get] at hy
  have := hy.2 i (by rw [List.length_zip]; omega) (by rw [List.length_zip]; omega)
  simp only [List.get_eq_getElem, List.getElem_zip] at this
  exact this.over

/-- **C195** One ray with a plateau in row `i`, columns `a` to `b`, that is long enough to be found: pixels of the row from the start of
the plateau to `cosm_filter + cosm_tail` columns later are flagged, and all of the plateau. In the rows behind the box nothing is. -/
theorem C195_seen {g : ℝ} {p : Cr.Par} {w : Cr.Wells ℝ} (hw : 0 ≤ w.sat) {e : ℕ → ℕ → ℝ} {y : Raw} {z : Cr.Shot ℝ} (h : MarkedBy g p w e y z) {i a b : ℕ}
    (hray : Cr.LoneIn ⟨1024, 1024, e⟩ (w.sat * (w.em / w.kgain)) (w.plat * (w.em / w.kgain)) i a b) :
    (p.filter / 2 < b + 1 - a → ∀ c, c < 1024 → a ≤ c → c ≤ a + p.filter + p.tail → z.dq i c ≠ 0) ∧
    (∀ c, a ≤ c → c ≤ b → z.dq i c ≠ 0) ∧
    ∀ r c, r < 1024 → c < 1024 → i + p.box < r → e r c < Sat.threshold w.kgain w.pp w.em w.sat g → z.dq r c = y.fr.dq [r, c] := by
  have hq := h
  obtain ⟨mask, h1, ⟨n1, n2⟩, h3, h4⟩ := h
  have hsmall : Sat.threshold w.kgain w.pp w.em w.sat g ≤ w.sat * (w.em / w.kgain) := by
    unfold Sat.threshold
    exact mul_le_mul_of_nonneg_left (min_le_right _ _) hw
  have hn : b + 1 < 1024 := hray.lone.right
  have hi : i < 1024 := hray.row
  refine ⟨fun hf c hc hac hct => ?_, fun c hac hcb => ?_, fun r c hr hc hir hlow => ?_⟩
  · have hz : Cr.LoneIn z.data (w.sat * (w.em / w.kgain)) (w.plat * (w.em / w.kgain)) i a b := by
      refine ⟨by rw [n1]; exact hi, ⟨hray.lone.thresh, hray.lone.order, hray.lone.left, by rw [n2]; exact hn, fun k k1 k2 => ?_, fun k k1 k2 => ?_⟩,
        fun r c hr hc hri => ?_⟩
      · rw [h3 i k hi (by omega)]
        exact hray.lone.bright k k1 k2
      · rw [n2] at k1
        rw [h3 i k hi k1]
        exact hray.lone.dark k k1 k2
      · rw [n1] at hr
        rw [n2] at hc
        rw [h3 r c hr hc]
        exact hray.dark r c hr hc hri
    obtain ⟨m, hm, hx⟩ := Cr.C186_mask hz detectorAreas "SCI" p
    rw [h1] at hm
    cases hm
    have : mask i c = true := (hx i c (by omega) (by omega)).2 ⟨hf, a, .inl rfl, .inl ⟨rfl, hac, hct⟩⟩
    rw [h4 i c hi hc, this]
    intro h0
    have := (Nat.or_eq_zero_iff.1 h0).2
    simp at this
  · rw [h4 i c hi (by omega), if_pos (hsmall.trans (hray.lone.bright c hac hcb))]
    intro h0
    have := (Nat.or_eq_zero_iff.1 (Nat.or_eq_zero_iff.1 h0).1).2
    omega
  · refine quiet hq hr hc hlow fun j k hj hk _ h2 => ?_
    exact (hray.dark j k hj hk (by omega)).trans_le hray.lone.thresh

/-! ## C195 -/

/-- **C195** One ray that is found, whose charge is within the flagged pixels of its row: a pixel of L2b is the scene, or flagged, or it is in a
column of the ray in a later row. There it is too small by the charge of the ray times `ρ (1 + ρ) ^ -(rows + 1)`, and behind the box it is
not flagged. -/
theorem C195_trail {d : Detector} (hs : Sound d) {tab : NonLin.Table ℝ} (ht : NonLin.Good tab) (track : Bool) (junk : Ix → ℝ) {off k rowread : ℝ}
    (offErr ek : ℝ) {m : Maps} {F : Flat} (hc : Calibrated d k rowread m F) {s h e : ℕ → ℕ → ℝ} {x y : Raw} (hh : Header d y.fr)
    (hM : y.fr.emM = none) (hx : Exposes d tab off s x.l1) (hy : Struck tab off d.gain h e x y) (p : Cr.Par) (w : Cr.Wells ℝ) (hw : 0 ≤ w.sat) {i a b : ℕ}
    (hray : Cr.LoneIn ⟨1024, 1024, e⟩ (w.sat * (w.em / w.kgain)) (w.plat * (w.em / w.kgain)) i a b) (hfound : p.filter / 2 < b + 1 - a)
    (hin : InRow h i a (p.filter + p.tail + 1)) :
    ∃ g z, recipe track junk tab off offErr k ek rowread m F [y] = .ok [g] ∧ biasAndRays p w off offErr [y] = .ok [z] ∧
      ∀ r c, r < 1024 → c < 1024 → d.flat r c ≠ 0 →
        (r < i ∨ h i c = 0 → g.data [r, c] = s r c) ∧ (r = i ∧ h i c ≠ 0 → z.dq r c ≠ 0) ∧
        (i < r → g.data [r, c] = s r c - d.kgain / d.gain / d.flat r c * (d.rowread / d.exptime) *
          ((1 + d.rowread / d.exptime)⁻¹) ^ (r + 1 - i) * h i c) ∧
        (i + p.box < r → e r c < Sat.threshold w.kgain w.pp w.em w.sat d.gain → z.dq r c = y.fr.dq [r, c]) := by
  have hst : List.Forall₂ (fun (q : (ℕ → ℕ → ℝ) × (ℕ → ℕ → ℝ)) (z : Raw × Raw) => Struck tab off d.gain q.1 q.2 z.1 z.2) (List.zip [h] [e])
      (List.zip [x] [y]) := .cons hy .nil
  obtain ⟨out, ho, hval⟩ := C195_value hs ht track junk offErr ek hc (ss := [s]) (xs := [x]) (by simp) (by simpa using hh) (by simp) (.cons hx .nil) hst
    rfl rfl rfl
  obtain ⟨zs, hz, hmark⟩ := C195_flags offErr p w hw (by simpa using ⟨hh.gain, hM⟩) hst rfl rfl rfl
  obtain ⟨g, rfl⟩ := List.length_eq_one_iff.1 hval.length_eq.symm
  obtain ⟨z, rfl⟩ := List.length_eq_one_iff.1 hmark.length_eq.symm
  have hv := (List.forall₂_cons.1 hval).1
  obtain ⟨f1, f2, f3⟩ := C195_seen hw (List.forall₂_cons.1 hmark).1 hray
  refine ⟨g, z, ho, hz, fun r c hr hcc hfl => ?_⟩
  obtain ⟨v1, v2, v3⟩ := C195_row hin (hv r c hr hcc hfl)
  refine ⟨?_, ?_, fun hir => v3 hir, fun h1 h2 => f3 r c hr hcc h1 h2⟩
  · rintro (h1 | h1)
    · exact v1 (.inl h1)
    · rcases Nat.lt_trichotomy r i with h2 | h2 | h2
      · exact v1 (.inl h2)
      · rw [v2 h2, h1, mul_zero, add_zero]
      · rw [v3 h2, h1, mul_zero, sub_zero]
  · rintro ⟨rfl, h1⟩
    obtain ⟨-, h2, h3⟩ := hin r c h1
    exact f1 hfound c hcc h2 (by omega)

/-- **C195** The trail of a positive charge, for a detector that is read out in the light: it is never empty, and it becomes weaker from row to row. -/
theorem C195_weaker {K ρ q : ℝ} (hK : 0 < K) (hρ : 0 < ρ) (hq : 0 < q) (n : ℕ) :
    0 < K * ρ * ((1 + ρ)⁻¹) ^ n * q ∧ K * ρ * ((1 + ρ)⁻¹) ^ (n + 1) * q < K * ρ * ((1 + ρ)⁻¹) ^ n * q ∧
      K * ρ * ((1 + ρ)⁻¹) ^ n * q ≤ K * ρ * q := by
  have h1 : 0 < (1 + ρ)⁻¹ := inv_pos.2 (by linarith)
  have h2 : (1 + ρ)⁻¹ < 1 := inv_lt_one_of_one_lt₀ (by linarith)
  have h3 := pow_pos h1 n
  have h4 : ((1 + ρ)⁻¹) ^ n ≤ 1 := pow_le_one₀ h1.le h2.le
  have h5 : 0 < K * ρ := mul_pos hK hρ
  refine ⟨by positivity, ?_, ?_⟩
  · rw [pow_succ]
    have : ((1 + ρ)⁻¹) ^ n * (1 + ρ)⁻¹ < ((1 + ρ)⁻¹) ^ n := by nlinarith
    exact mul_lt_mul_of_pos_right (mul_lt_mul_of_pos_left this h5) hq
  · exact mul_le_mul_of_nonneg_right (by nlinarith) hq.le

/-! ## A ray in the dark -/

/-- A thousand counts in ten pixels of row 5. -/
def ray : ℕ → ℕ → ℝ := fun r c => if r = 5 ∧ 100 ≤ c ∧ c < 110 then 1000 else 0

/-- The raw frame without bias whose pixels are `e`. -/
def rawOf (e : ℕ → ℕ → ℝ) : L1 := ⟨some "SCI", ⟨1200, 2200, fun i j => if j < 1088 then some 0 else some (e (i - 13) (j - 1088))⟩, [],
  ⟨1200, 2200, fun _ _ => 0⟩⟩

theorem rawOf_over (e : ℕ → ℕ → ℝ) : Over 0 e (rawOf e) where
  mode := rfl
  size := ⟨rfl, rfl⟩
  sizeDq := ⟨rfl, rfl⟩
  sizeErr := by simp [rawOf]
  pixels := ⟨fun _ => 0, fun r c _ h => by
    simp only [rawOf]
    rw [if_pos (by omega), add_zero], fun r c _ _ => by
    simp only [rawOf]
    rw [if_neg (by omega), Nat.add_sub_cancel_left, Nat.add_sub_cancel_left, add_zero]⟩

/-- **C195** A ray on a dark detector: its ten pixels are flagged, and the pixel fifteen rows later is negative, without any flag. -/
theorem C195_silent : ∃ (w : Cr.Wells ℝ) (g : Fr) (z : Cr.Shot ℝ),
    recipe false (fun _ => 0) linear 0 0 1 0 1 noMaps noFlat [⟨rawOf ray, starFr⟩] = .ok [g] ∧
    biasAndRays ⟨1, 3, 10⟩ w 0 0 [⟨rawOf ray, starFr⟩] = .ok [z] ∧
    (∀ c, 100 ≤ c → c < 110 → z.dq 5 c ≠ 0) ∧ g.data [20, 105] < 0 ∧ z.dq 20 105 = 0 := by
  have hs : Sound plain := ⟨by norm_num [plain], by norm_num [plain], by norm_num [plain]⟩
  have hh : Header plain starFr := ⟨by simp [emGain, starFr, plain], rfl, rfl, by simp [starFr]⟩
  have hc : Calibrated plain 1 1 noMaps noFlat := ⟨rfl, rfl, ⟨rfl, rfl⟩, fun _ _ _ _ => rfl, fun _ _ _ _ => rfl, fun _ _ _ _ => rfl,
    fun _ _ _ _ => rfl, fun _ => le_refl _, fun _ => le_refl _⟩
  have hx : Exposes plain linear 0 (fun _ _ => 0) (rawOf fun _ _ => 0) := by
    obtain ⟨b, h1, h2⟩ := (rawOf_over fun _ _ => 0).pixels
    refine ⟨rfl, ⟨rfl, rfl⟩, ⟨rfl, rfl⟩, by simp [rawOf], b, h1, fun r c hr hc => ⟨0, h2 r c hr hc, ?_⟩⟩
    simp [Detector.counts, Detector.charge, plain]
  have hy : Struck linear 0 plain.gain ray ray ⟨rawOf fun _ _ => 0, starFr⟩ ⟨rawOf ray, starFr⟩ := ⟨rfl, rawOf_over ray, fun _ _ => 0, rawOf_over fun _ _ => 0,
    fun r c _ _ => by simp [linear_relgain]⟩
  have hray : Cr.LoneIn ⟨1024, 1024, ray⟩ (7 / 10 * (600 / 1)) (7 / 10 * (600 / 1)) 5 100 109 := by
    refine ⟨by norm_num, ⟨le_refl _, by norm_num, by norm_num, by norm_num, fun k h1 h2 => ?_, fun k _ h => ?_⟩, fun r c _ _ h => ?_⟩
    · dsimp only [ray]
      rw [if_pos (by omega)]
      norm_num
    · dsimp only [ray]
      rw [if_neg (by omega)]
      norm_num
    · dsimp only [ray]
      rw [if_neg (by omega)]
      norm_num
  obtain ⟨g, z, h1, h2, h3⟩ := C195_trail hs linear_good false (fun _ => 0) 0 0 hc (y := ⟨rawOf ray, starFr⟩) hh rfl hx hy ⟨1, 3, 10⟩
    ⟨1, 1000, 600, 7 / 10, 7 / 10⟩ (by norm_num) hray (by norm_num) (fun r c h => by
      unfold ray at h
      split at h
      · dsimp only
        omega
      · exact absurd rfl h)
  have h20 := h3 20 105 (by norm_num) (by norm_num) (by norm_num [plain])
  refine ⟨_, g, z, h1, h2, fun c c1 c2 => ?_, ?_, ?_⟩
  · exact (h3 5 c (by norm_num) (by omega) (by norm_num [plain])).2.1 ⟨rfl, by rw [ray, if_pos (by omega)]; norm_num⟩
  · rw [h20.2.2.1 (by norm_num), ray, if_pos (by omega)]
    norm_num [plain]
  · exact h20.2.2.2 (by norm_num) (by
      rw [ray, if_neg (by omega)]
      norm_num [Sat.threshold, plain])

end Corgi.Ray

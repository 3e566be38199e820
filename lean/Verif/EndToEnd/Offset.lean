import Verif.Common.Nan
import Verif.Darks.Lsq
import Verif.EndToEnd.Flagged

/-!
# The bias offset of the noise maps (darks.py 588-668, 738-743) and its use (l1_to_l2a.py 104-116): model and C183

`calibrate_darks_lsq` stores in the card `B_O` of the noise maps a number that `prescan_biassub` later adds to every pixel (it
subtracts the median of the prescan minus `B_O`). The number is computed from the residuals of the least-squares fit in the prescan.

Modelled: all pixels of the prescan, any number of sub-stacks. A pixel of a telemetry row is NaN in all sub-stacks (darks.py 512)
and is `none`. `np.linalg.pinv` is as in `Verif/Darks/Lsq.lean`. Not modelled: the means of the frames of a sub-stack
(`Verif/Darks/Combine.lean`) and cosmic rays.
-/

noncomputable section

namespace Corgi.Offset

open Corgi.Darks Matrix

/-! ## Model -/

/-- darks.py 603: `residual_stack` of one pixel, and `res` of line 651. -/
def residual (L : List Setting) (p : Fin 3 → ℝ) (y : Fin L.length → ℝ) (i : Fin L.length) : ℝ :=
  y i - (L.get i).g * p 1 - p 0 - (L.get i).g * (L.get i).t * p 2

/-- The values of one pixel in the sub-stacks; `none` in a telemetry row. -/
abbrev Px (L : List Setting) := Option (Fin L.length → ℝ)

/-- line 591, for one pixel: NaN everywhere if its values are NaN. -/
def fitPx (L : List Setting) (y : Px L) : Except LErr (Fin L.length → Option ℝ) :=
  match y with
  | none => .ok fun _ => none
  | some y => do
    let p ← fit L y
    return fun i => some (residual L p y i)

/-- lines 643-668, 739: `B_O`. `none` is NaN. -/
def biasOffset (L : List Setting) (ys : List (Px L)) : Except LErr (Option ℝ) := do
  let res ← ys.mapM (fitPx L)
  let b := (List.finRange L.length).map fun i => (Nan.nanmedian (res.map (· i))).map (· / (L.get i).k)
  return (b.mapM id).map fun l => l.sum / l.length

/-! ## Residuals of the fit -/

theorem fit_add {L : List Setting} {y : Fin L.length → ℝ} {p : Fin 3 → ℝ} (h : fit L y = .ok p) (w : Fin 3 → ℝ) :
    fit L (y + design L *ᵥ w) = .ok (p + w) := by
  unfold fit at h ⊢
  split at h
  · cases h
  · rename_i hd
    rw [if_neg hd]
    simp only [Except.ok.injEq] at h ⊢
    rw [Matrix.mulVec_add, Matrix.mulVec_add, h, Matrix.mulVec_mulVec (v := w), Matrix.mulVec_mulVec,
      Matrix.nonsing_inv_mul _ (isUnit_iff_ne_zero.2 hd), Matrix.one_mulVec]

theorem fit_error {L : List Setting} {y z : Fin L.length → ℝ} {e : LErr} (h : fit L y = .error e) : fit L z = .error e := by
  unfold fit at h ⊢
  split at h
  · rename_i hd
    rw [if_pos hd]
    cases h
    rfl
  · cases h

/-- What a pixel that follows the noise model adds to the sub-stacks. -/
def model (L : List Setting) (F C D : ℝ) (i : Fin L.length) : ℝ :=
  F + (L.get i).g * C + (L.get i).g * (L.get i).t * D

theorem model_eq (L : List Setting) (F C D : ℝ) : model L F C D = design L *ᵥ ![F, C, D] := by
  funext i
  rw [design_mulVec]
  rfl

theorem residual_add {L : List Setting} (p : Fin 3 → ℝ) (y : Fin L.length → ℝ) (F C D : ℝ) (i : Fin L.length) :
    residual L (p + ![F, C, D]) (y + model L F C D) i = residual L p y i := by
  simp only [residual, model, Pi.add_apply, Matrix.cons_val_zero, Matrix.cons_val_one, Matrix.cons_val]
  ring

theorem fitPx_add (L : List Setting) (y : Px L) (F C D : ℝ) : fitPx L (y.map (· + model L F C D)) = fitPx L y := by
  cases y with
  | none => rfl
  | some y =>
    simp only [fitPx, Option.map_some, bind, Except.bind, pure, Except.pure]
    cases h : fit L y with
    | error e => rw [fit_error h]
    | ok p =>
      rw [model_eq, fit_add h, ← model_eq]
      simp only [Except.ok.injEq]
      funext i
      rw [residual_add]

/-- **C183** The bias offset does not change when every pixel of the prescan is changed by fixed-pattern noise, clock-induced charge and
dark current of its own, whatever the data are: it does not depend on how much of them the prescan has. -/
theorem C183_blind (L : List Setting) (ys zs : List (Px L))
    (h : List.Forall₂ (fun y z => ∃ F C D : ℝ, z = y.map (· + model L F C D)) ys zs) : biasOffset L zs = biasOffset L ys := by
  have hm : zs.mapM (fitPx L) = ys.mapM (fitPx L) := by
    induction h with
    | nil => rfl
    | cons a b ih =>
      obtain ⟨F, C, D, rfl⟩ := a
      simp only [List.mapM_cons, fitPx_add, ih]
  unfold biasOffset
  rw [hm]

/-- **C183** The pattern that was added goes to the noise maps, exactly. -/
theorem C183_absorbed {L : List Setting} {y : Fin L.length → ℝ} {p : Fin 3 → ℝ} (h : fit L y = .ok p) (F C D : ℝ) :
    fit L (y + model L F C D) = .ok ![p 0 + F, p 1 + C, p 2 + D] := by
  rw [model_eq, fit_add h]
  congr 1
  funext j
  fin_cases j <;> rfl

/-- The residuals of a pixel are orthogonal to one, to the gains and to the products of gain and time. -/
theorem residual_orth {L : List Setting} {y : Fin L.length → ℝ} {p : Fin 3 → ℝ} (h : fit L y = .ok p) (F C D : ℝ) :
    ∑ i, model L F C D i * residual L p y i = 0 := by
  have hn := fit_normal h
  have h0 : (design L)ᵀ *ᵥ (y - design L *ᵥ p) = 0 := by
    rw [Matrix.mulVec_sub, Matrix.mulVec_mulVec, hn, sub_self]
  have h2 : ![F, C, D] ⬝ᵥ ((design L)ᵀ *ᵥ (y - design L *ᵥ p)) = 0 := by rw [h0]; simp
  rw [Matrix.dotProduct_mulVec, Matrix.vecMul_transpose, ← model_eq] at h2
  rw [← h2]
  refine Finset.sum_congr rfl fun i _ => ?_
  rw [Pi.sub_apply, design_mulVec]
  simp only [residual]
  ring

/-- **C183** The residuals of every pixel sum to zero over the sub-stacks, whatever its values are. -/
theorem C183_sum {L : List Setting} {y : Fin L.length → ℝ} {p : Fin 3 → ℝ} (h : fit L y = .ok p) :
    ∑ i, residual L p y i = 0 := by
  have := residual_orth h 1 0 0
  simpa [model] using this

theorem mapM_id_some {A : Type*} (f : A → ℝ) (l : List A) : (l.map fun a => some (f a)).mapM id = some (l.map f) := by
  induction l with
  | nil => rfl
  | cons a l ih =>
    simp only [List.map_cons, List.mapM_cons, ih]
    rfl

theorem vals_zero {l : List (Option ℝ)} (h : ∀ x ∈ l, x = none ∨ x = some 0) : ∃ n, Nan.vals l = List.replicate n 0 := by
  refine ⟨(Nan.vals l).length, List.eq_replicate_iff.2 ⟨rfl, fun v hv => ?_⟩⟩
  have : some v ∈ l := by
    unfold Nan.vals at hv
    simpa using hv
  rcases h _ this with h | h
  · cases h
  · exact Option.some.inj h

theorem sort_zero (n : ℕ) : (List.replicate n (0 : ℝ)).insertionSort (· ≤ ·) = List.replicate n 0 := by
  have hp := List.perm_insertionSort (· ≤ ·) (List.replicate n (0 : ℝ))
  refine List.eq_replicate_iff.2 ⟨by rw [hp.length_eq, List.length_replicate], fun v hv => ?_⟩
  exact List.eq_of_mem_replicate (hp.mem_iff.1 hv)

theorem median_zero (n : ℕ) : Nan.median (List.replicate n 0) = 0 := by
  unfold Nan.median
  dsimp only
  rw [sort_zero]
  have h : ∀ k : ℕ, ((List.replicate n (0 : ℝ))[k]?).getD 0 = 0 := by
    intro k
    rw [List.getElem?_replicate]
    split <;> rfl
  split <;> simp [h]

/-- **C183** Where the sub-stacks follow a noise model in every pixel of the prescan, the bias offset is zero: for any maps of fixed-pattern
noise, clock-induced charge and dark current. -/
theorem C183_zero {L : List Setting} (hid : Identifiable L) {ys : List (Px L)}
    (h : ∀ y ∈ ys, y = none ∨ ∃ F C D, y = some (model L F C D)) (hne : ∃ y ∈ ys, y ≠ none) :
    biasOffset L ys = .ok (some 0) := by
  have hz : ∀ y ∈ ys, fitPx L y = .ok (fun _ => y.map fun _ => 0) := by
    intro y hy
    rcases h y hy with rfl | ⟨F, C, D, rfl⟩
    · rfl
    · have hf := C33_recovers hid (model L F C D) F C D (fun _ => rfl)
      simp only [fitPx, bind, Except.bind, pure, Except.pure, hf, Except.ok.injEq, Option.map_some]
      funext i
      congr 1
      simp only [residual, model, Matrix.cons_val_zero, Matrix.cons_val_one, Matrix.cons_val]
      ring
  have hm : ys.mapM (fitPx L) = .ok (ys.map fun y _ => y.map fun _ => (0 : ℝ)) := by
    clear hne h
    induction ys with
    | nil => rfl
    | cons y ys ih =>
      rw [List.mapM_cons, hz y List.mem_cons_self, ih fun z hz' => hz z (List.mem_cons_of_mem _ hz')]
      rfl
  have hmed : Nan.nanmedian (ys.map fun y => y.map fun _ => (0 : ℝ)) = some 0 := by
    obtain ⟨n, hn⟩ := vals_zero (l := ys.map fun y => y.map fun _ => (0 : ℝ)) (by
      intro x hx
      obtain ⟨y, _, rfl⟩ := List.mem_map.1 hx
      cases y
      · exact Or.inl rfl
      · exact Or.inr rfl)
    have hv : Nan.vals (ys.map fun y => y.map fun _ => (0 : ℝ)) ≠ [] := by
      obtain ⟨y, hy, hyn⟩ := hne
      obtain ⟨v, rfl⟩ := Option.ne_none_iff_exists'.1 hyn
      intro h0
      have : (0 : ℝ) ∈ Nan.vals (ys.map fun y => y.map fun _ => (0 : ℝ)) := by
        unfold Nan.vals
        simp only [List.mem_filterMap, List.mem_map, id]
        exact ⟨some 0, ⟨some v, hy, rfl⟩, rfl⟩
      rw [h0] at this
      cases this
    unfold Nan.nanmedian
    rw [if_neg hv, hn, median_zero]
  unfold biasOffset
  rw [hm]
  simp only [bind, Except.bind, pure, Except.pure, Except.ok.injEq, List.map_map]
  have he : ((List.finRange L.length).map fun i =>
      (Nan.nanmedian (ys.map ((fun x => x i) ∘ fun y (_ : Fin L.length) => y.map fun _ => (0 : ℝ)))).map (· / (L.get i).k)) =
      (List.finRange L.length).map fun _ => some ((fun _ => (0 : ℝ)) ()) := by
    refine List.map_congr_left fun i _ => ?_
    have : ((fun x => x i) ∘ fun (y : Px L) (_ : Fin L.length) => y.map fun _ => (0 : ℝ)) = fun y => y.map fun _ => (0 : ℝ) := rfl
    rw [this, hmed]
    simp
  rw [he, mapM_id_some (fun _ => (0 : ℝ))]
  simp

/-- **C183** A prescan of one pixel gives zero whatever its values are, if the sub-stacks have one k-gain. -/
theorem C183_single {L : List Setting} {y : Fin L.length → ℝ} {k : ℝ} (hid : Identifiable L) (hk : ∀ s ∈ L, s.k = k) :
    biasOffset L [some y] = .ok (some 0) := by
  obtain ⟨p, hp⟩ := (fit_ok_iff L y).2 hid
  have hsum := C183_sum hp
  have hmed : ∀ v : ℝ, Nan.nanmedian [some v] = some v := by
    intro v
    have hv : Nan.vals [some v] = [v] := rfl
    unfold Nan.nanmedian
    rw [hv, if_neg (by simp)]
    simp [Nan.median]
  unfold biasOffset
  simp only [List.mapM_cons, List.mapM_nil, fitPx, hp, bind, Except.bind, pure, Except.pure, Except.ok.injEq, List.map_cons, List.map_nil,
    hmed, Option.map_some]
  rw [mapM_id_some fun i => residual L p y i / (L.get i).k]
  have : ((List.finRange L.length).map fun i => residual L p y i / (L.get i).k).sum = 0 := by
    have he : (fun i => residual L p y i / (L.get i).k) = fun i => residual L p y i / k := by
      funext i
      rw [hk _ (List.get_mem L i)]
    rw [he, ← List.ofFn_eq_map, List.sum_ofFn]
    simp only [div_eq_mul_inv]
    rw [← Finset.sum_mul, hsum, zero_mul]
  rw [Option.map_some, this, zero_div]

/-- What is orthogonal to the columns of the design is its own residual. -/
theorem fitPx_orth {L : List Setting} (hid : Identifiable L) {y : Fin L.length → ℝ} (h : (design L)ᵀ *ᵥ y = 0) :
    fitPx L (some y) = .ok fun i => some (y i) := by
  have hf : fit L y = .ok 0 := by
    unfold fit
    rw [if_neg ((det_ne_zero_iff L).2 hid), h, Matrix.mulVec_zero]
  simp only [fitPx, hf, bind, Except.bind, pure, Except.pure, Except.ok.injEq]
  funext i
  simp [residual]

theorem offset_three {L : List Setting} (hid : Identifiable L) {v w : Fin L.length → ℝ} (hv : (design L)ᵀ *ᵥ v = 0)
    (hw : (design L)ᵀ *ᵥ w = 0) : biasOffset L [some v, none, some w, some fun _ => 0] =
      .ok (some (((List.finRange L.length).map fun i => Nan.median [v i, w i, 0] / (L.get i).k).sum / L.length)) := by
  have h0 : (design L)ᵀ *ᵥ (fun _ => (0 : ℝ)) = 0 := Matrix.mulVec_zero _
  have hn : fitPx L none = .ok fun _ => none := rfl
  have hmed : ∀ a b c : ℝ, Nan.nanmedian [some a, none, some b, some c] = some (Nan.median [a, b, c]) := fun a b c => by
    have hv : Nan.vals [some a, none, some b, some c] = [a, b, c] := rfl
    unfold Nan.nanmedian
    rw [hv, if_neg (by simp)]
  unfold biasOffset
  simp only [List.mapM_cons, List.mapM_nil, fitPx_orth hid hv, fitPx_orth hid hw, fitPx_orth hid h0, hn, bind, Except.bind, pure, Except.pure,
    List.map_cons, List.map_nil, hmed, Option.map_some]
  rw [mapM_id_some fun i => Nan.median [v i, w i, 0] / (L.get i).k, Option.map_some, List.length_map, List.length_finRange]

/-- Settings of five sub-stacks with different k-gains. -/
def fiveK : List Setting := [⟨1, 1, 1⟩, ⟨2, 1, 2⟩, ⟨1, 2, 4⟩, ⟨2, 2, 5⟩, ⟨3, 3, 8⟩]

theorem fiveK_identifiable : Identifiable fiveK := by
  intro a b c h
  have h1 := h ⟨1, 1, 1⟩ (by simp [fiveK])
  have h2 := h ⟨2, 1, 2⟩ (by simp [fiveK])
  have h3 := h ⟨1, 2, 4⟩ (by simp [fiveK])
  norm_num at h1 h2 h3
  exact ⟨by linarith, by linarith, by linarith⟩

/-- **C183** The bias offset is not always zero: a prescan without any offset, fixed pattern, charge or dark current, with noise in two of
three pixels. -/
theorem C183_noise : ∃ v w : Fin fiveK.length → ℝ, (∀ F C D, ∑ i, model fiveK F C D i * v i = 0 ∧ ∑ i, model fiveK F C D i * w i = 0) ∧
    biasOffset fiveK [some v, none, some w, some fun _ => 0] = .ok (some ((2 / 1 - 1 / 2 - 2 / 4) / 5)) := by
  let v : Fin 5 → ℝ := ![2, -1, -2, 1, 0]
  let w : Fin 5 → ℝ := ![7, -2, -6, 0, 1]
  have hd : ∀ u : Fin 5 → ℝ, ((design fiveK)ᵀ *ᵥ u) = ![u 0 + u 1 + u 2 + u 3 + u 4, u 0 + 2 * u 1 + u 2 + 2 * u 3 + 3 * u 4,
      u 0 + 2 * u 1 + 2 * u 2 + 4 * u 3 + 9 * u 4] := by
    intro u
    funext j
    simp only [Matrix.mulVec, dotProduct, Matrix.transpose_apply]
    erw [Fin.sum_univ_five]
    fin_cases j <;> simp [design, fiveK] <;> norm_num
  have hv : (design fiveK)ᵀ *ᵥ v = 0 := by
    rw [hd]
    funext j
    have h0 : v 0 = 2 := rfl
    have h1 : v 1 = -1 := rfl
    have h2 : v 2 = -2 := rfl
    have h3 : v 3 = 1 := rfl
    have h4 : v 4 = 0 := rfl
    rw [h0, h1, h2, h3, h4]
    fin_cases j <;> norm_num
  have hw : (design fiveK)ᵀ *ᵥ w = 0 := by
    rw [hd]
    funext j
    have h0 : w 0 = 7 := rfl
    have h1 : w 1 = -2 := rfl
    have h2 : w 2 = -6 := rfl
    have h3 : w 3 = 0 := rfl
    have h4 : w 4 = 1 := rfl
    rw [h0, h1, h2, h3, h4]
    fin_cases j <;> norm_num
  have ho : ∀ u : Fin fiveK.length → ℝ, (design fiveK)ᵀ *ᵥ u = 0 → ∀ F C D, ∑ i, model fiveK F C D i * u i = 0 := by
    intro u hu F C D
    have h2 : ![F, C, D] ⬝ᵥ ((design fiveK)ᵀ *ᵥ u) = 0 := by rw [hu]; simp
    rwa [Matrix.dotProduct_mulVec, Matrix.vecMul_transpose, ← model_eq] at h2
  refine ⟨v, w, fun F C D => ⟨ho v hv F C D, ho w hw F C D⟩, ?_⟩
  refine (offset_three fiveK_identifiable hv hw).trans ?_
  have m0 : Nan.median [v 0, w 0, 0] = 2 := by
    change Nan.median [2, 7, 0] = 2
    norm_num [Nan.median, List.insertionSort, List.orderedInsert]
  have m1 : Nan.median [v 1, w 1, 0] = -1 := by
    change Nan.median [-1, -2, 0] = -1
    norm_num [Nan.median, List.insertionSort, List.orderedInsert]
  have m2 : Nan.median [v 2, w 2, 0] = -2 := by
    change Nan.median [-2, -6, 0] = -2
    norm_num [Nan.median, List.insertionSort, List.orderedInsert]
  have m3 : Nan.median [v 3, w 3, 0] = 0 := by
    change Nan.median [1, 0, 0] = 0
    norm_num [Nan.median, List.insertionSort, List.orderedInsert]
  have m4 : Nan.median [v 4, w 4, 0] = 0 := by
    change Nan.median [0, 1, 0] = 0
    norm_num [Nan.median, List.insertionSort, List.orderedInsert]
  have hb : ([(0 : Fin 5), 1, 2, 3, 4].map fun i => Nan.median [v i, w i, 0] / (fiveK.get i).k) = [2 / 1, -1 / 2, -2 / 4, 0 / 5, 0 / 8] := by
    simp only [List.map_cons, List.map_nil, m0, m1, m2, m3, m4]
    rfl
  have hl : (fiveK.length : ℝ) = 5 := by norm_num [fiveK]
  have he : (([(0 : Fin 5), 1, 2, 3, 4].map fun i => Nan.median [v i, w i, 0] / (fiveK.get i).k).sum / (fiveK.length : ℝ)) =
      (2 / 1 - 1 / 2 - 2 / 4) / 5 := by
    rw [hb, hl]
    norm_num
  exact congrArg (fun x => Except.ok (some x)) he

/-! ## Frames of a detector whose prescan has an offset -/

open Corgi.Det Corgi.Arith Corgi.EndToEnd

/-- The detector with `k a` less fixed-pattern noise. -/
def shift (d : Detector) (a : ℝ) : Detector := { d with fpn := fun r c => d.fpn r c - d.kgain * a }

/-- A scene with `q` more electrons in every pixel before desmearing. -/
def raised (d : Detector) (q : ℝ) (s : ℕ → ℕ → ℝ) (r c : ℕ) : ℝ :=
  s r c + q * ((1 + d.rowread / d.exptime)⁻¹) ^ (r + 1) / d.flat r c

theorem counts_shift {d : Detector} (hs : Sound d) (a : ℝ) (s : ℕ → ℕ → ℝ) (r c : ℕ) :
    (shift d a).counts s r c = d.counts s r c - a := by
  have hk := hs.kgain
  unfold Detector.counts
  change (d.gain * d.charge s r c + (d.fpn r c - d.kgain * a)) / d.kgain = _
  field_simp
  ring

/-- With a linear response, an offset of the prescan is the same as a fixed pattern. -/
theorem exposes_shift {d : Detector} (hs : Sound d) {tab : NonLin.Table ℝ} (hl : ∀ v, NonLin.relgain tab d.gain v = 1) {off : ℝ}
    {s : ℕ → ℕ → ℝ} {x : L1} (h : Exposes d tab off s x) (a : ℝ) : Exposes (shift d a) tab (off - a) s x := by
  obtain ⟨b, h1, h2⟩ := h.pixels
  refine ⟨h.mode, h.size, h.sizeDq, h.sizeErr, fun r => b r + a, fun r c hc hc' => ?_, fun r c hr hc => ?_⟩
  · rw [h1 r c hc hc']
    congr 1
    ring
  · obtain ⟨v, e1, e2⟩ := h2 r c hr hc
    refine ⟨v - a, by rw [e1]; congr 1; ring, ?_⟩
    change (v - a) * NonLin.relgain tab d.gain (v - a) = _
    rw [counts_shift hs, ← e2, hl, hl]
    ring

theorem raised_charge {d : Detector} (hs : Sound d) (hf : ∀ r c, r < 1024 → c < 1024 → d.flat r c ≠ 0) (q : ℝ) (s : ℕ → ℕ → ℝ)
    {r c : ℕ} (hr : r < 1024) (hc : c < 1024) : d.charge (raised d q s) r c = d.charge s r c + q := by
  have hp := hs.time
  generalize hρ : d.rowread / d.exptime = ρ at hp
  have hx : ∀ i, i < 1024 → d.flat i c * raised d q s i c = d.flat i c * s i c + q * ((1 + ρ)⁻¹) ^ (i + 1) := by
    intro i hi
    have := hf i c hi hc
    unfold raised
    rw [hρ]
    field_simp
  have hsum : ∀ n, n ≤ 1024 → ((List.range n).map fun i => d.flat i c * raised d q s i c).sum =
      ((List.range n).map fun i => d.flat i c * s i c).sum + q * ((List.range n).map fun i => ((1 + ρ)⁻¹) ^ (i + 1)).sum := by
    intro n hn
    induction n with
    | zero => simp
    | succ n ih =>
      rw [List.range_succ, List.map_append, List.map_append, List.map_append, List.sum_append, List.sum_append, List.sum_append,
        ih (by omega)]
      simp only [List.map_cons, List.map_nil, List.sum_cons, List.sum_nil, hx n (by omega)]
      ring
  have hgeo : ∀ n, ρ * ((List.range n).map fun i => ((1 + ρ)⁻¹) ^ (i + 1)).sum = 1 - ((1 + ρ)⁻¹) ^ n := by
    intro n
    induction n with
    | zero => simp
    | succ n ih =>
      rw [List.range_succ, List.map_append, List.sum_append, mul_add, ih]
      simp only [List.map_cons, List.map_nil, List.sum_cons, List.sum_nil, pow_succ]
      field_simp
      ring
  unfold Detector.charge
  rw [hsum _ (by omega), hx r hr, hρ, mul_add, ← mul_assoc, mul_comm ρ q, mul_assoc, hgeo]
  ring

theorem exposes_raised {d : Detector} (hs : Sound d) (hf : ∀ r c, r < 1024 → c < 1024 → d.flat r c ≠ 0) {tab : NonLin.Table ℝ}
    (hl : ∀ v, NonLin.relgain tab d.gain v = 1) {s : ℕ → ℕ → ℝ} {x : L1} (h : Exposes d tab 0 s x) (β : ℝ) :
    Exposes d tab β (raised d (d.kgain * β / d.gain) s) x := by
  have h' := exposes_shift hs hl h (-β)
  rw [show (0 : ℝ) - -β = β by ring] at h'
  obtain ⟨b, h1, h2⟩ := h'.pixels
  refine ⟨h.mode, h.size, h.sizeDq, h.sizeErr, b, h1, fun r c hr hc => ?_⟩
  obtain ⟨v, e1, e2⟩ := h2 r c hr hc
  refine ⟨v, e1, ?_⟩
  change v * NonLin.relgain tab d.gain v = _ at e2
  rw [e2, counts_shift hs]
  have hk := hs.kgain
  have hg : d.gain ≠ 0 := by linarith [hs.gain]
  unfold Detector.counts
  rw [raised_charge hs hf _ _ hr hc]
  field_simp
  ring

/-- The detector with other settings. -/
def setting (d : Detector) (g t : ℝ) : Detector := { d with gain := g, exptime := t }

/-- The noise maps that `calibrate_darks_lsq` makes from one dark frame for each setting, after `prescan_biassub` without noise maps (as
in `l1_to_l2a_noisemap.json`), `correct_nonlinearity` and `convert_to_electrons`. -/
structure MadeFrom (d : Detector) (tab : NonLin.Table ℝ) (off : ℝ) (L : List Setting) (m : Arith.Maps) : Prop where
  shape : m.shape = [1024, 1024]
  pos : (∀ p, 0 ≤ m.C p) ∧ ∀ p, 0 ≤ m.D p
  frames : ∃ (x : Fin L.length → Raw) (f : Fin L.length → Fr),
    (∀ i, Exposes (setting d (L.get i).g (L.get i).t) tab off (fun _ _ => 0) (x i).l1 ∧ emGain (x i).fr = (L.get i).g ∧
      l2a tab 0 0 (x i) = .ok (f i)) ∧
    ∀ r c, r < 1024 → c < 1024 → noiseMaps L false true (fun i => d.kgain * (f i).data [r, c]) =
      .ok ⟨some (m.F [r, c]), some (m.C [r, c]), some (m.D [r, c])⟩

/-- **C183** The maps made from frames of a detector with an offset in the prescan are those of the detector with the fixed-pattern noise
less by the offset. -/
theorem C183_maps {d : Detector} (hk : d.kgain ≠ 0) {tab : NonLin.Table ℝ} (ht : NonLin.Good tab)
    (hl : ∀ g v, NonLin.relgain tab g v = 1) {off : ℝ} {L : List Setting} (hid : Identifiable L)
    (hn : ∀ r c, r < 1024 → c < 1024 → 0 ≤ d.cic r c ∧ 0 ≤ d.dark r c) (h1 : ∀ s ∈ L, 1 ≤ s.g ∧ 1 + d.rowread / s.t ≠ 0)
    {m : Arith.Maps} (h : MadeFrom d tab off L m) {r c : ℕ} (hr : r < 1024) (hc : c < 1024) :
    m.F [r, c] = d.fpn r c - d.kgain * off ∧ m.C [r, c] = d.cic r c ∧ m.D [r, c] = d.dark r c := by
  obtain ⟨x, f, hx, hm⟩ := h.frames
  have hy : ∀ i, d.kgain * (f i).data [r, c] = (d.fpn r c - d.kgain * off) + (L.get i).g * d.cic r c +
      (L.get i).g * (L.get i).t * d.dark r c := by
    intro i
    obtain ⟨h2, h3, h4⟩ := hx i
    have hs : Sound (setting d (L.get i).g (L.get i).t) := ⟨hk, (h1 _ (List.get_mem L i)).1, (h1 _ (List.get_mem L i)).2⟩
    have h5 := exposes_shift hs (hl _) h2 off
    rw [sub_self] at h5
    obtain ⟨f', h6, h7, -⟩ := C144_l2a ht 0 h5 h3
    rw [h4] at h6
    cases h6
    rw [h7 r c hr hc, counts_shift hs]
    simp only [Detector.counts, Detector.charge, setting, mul_zero, List.map_const', List.sum_replicate, smul_zero, add_zero, zero_add]
    field_simp
    ring
  have h8 := hm r c hr hc
  have hck : checkStacks L = .ok () := by
    unfold noiseMaps at h8
    cases h9 : checkStacks L with
    | error e => rw [h9] at h8; cases h8
    | ok u => rfl
  have h9 := (C33_roundtrip hck hid true (fun i => d.kgain * (f i).data [r, c]) _ _ _ (hn r c hr hc).1 (hn r c hr hc).2
    (fun h => by cases h) hy).1
  rw [h9] at h8
  simp only [Except.ok.injEq, Darks.Maps.mk.injEq, Option.some.injEq] at h8
  exact ⟨h8.1.symm, h8.2.1.symm, h8.2.2.symm⟩

/-- What is assumed of the detector and the calibrations other than the noise maps. -/
structure Setup (d : Detector) (tab : NonLin.Table ℝ) (L : List Setting) (F : Flat) : Prop where
  sound : Sound d
  table : NonLin.Good tab
  linear : ∀ g v, NonLin.relgain tab g v = 1
  settings : Identifiable L ∧ ∀ s ∈ L, 1 ≤ s.g ∧ 1 + d.rowread / s.t ≠ 0
  noise : ∀ r c, r < 1024 → c < 1024 → 0 ≤ d.cic r c ∧ 0 ≤ d.dark r c
  flat : F.shape = [1024, 1024] ∧ ∀ r c, r < 1024 → c < 1024 → F.data [r, c] = d.flat r c

theorem calibrated {d : Detector} {tab : NonLin.Table ℝ} {L : List Setting} {F : Flat} (hS : Setup d tab L F) {off : ℝ}
    {m : Arith.Maps} (h : MadeFrom d tab off L m) : Calibrated (shift d off) d.kgain d.rowread m F where
  kgain := rfl
  rowread := rfl
  shape := ⟨h.shape, hS.flat.1⟩
  fpn _ _ hr hc := (C183_maps hS.sound.kgain hS.table hS.linear hS.settings.1 hS.noise hS.settings.2 h hr hc).1
  cic _ _ hr hc := (C183_maps hS.sound.kgain hS.table hS.linear hS.settings.1 hS.noise hS.settings.2 h hr hc).2.1
  dark _ _ hr hc := (C183_maps hS.sound.kgain hS.table hS.linear hS.settings.1 hS.noise hS.settings.2 h hr hc).2.2
  flat := hS.flat.2
  pos := h.pos

/-- **C183** Closed loop: with the noise maps made from dark frames of the same detector, and the offset zero that goes with them, the frames
of a detector with any offset of the prescan give the scene. -/
theorem C183_loop {d : Detector} {tab : NonLin.Table ℝ} {L : List Setting} {F : Flat} (hS : Setup d tab L F) {off : ℝ} {m : Arith.Maps}
    (hm : MadeFrom d tab off L m) (track : Bool) (junk : Ix → ℝ) (offErr ek : ℝ) {ss : List (ℕ → ℕ → ℝ)} {xs : List Raw} (hne : xs ≠ [])
    (hh : ∀ x ∈ xs, Header d x.fr) (hem : ∀ x ∈ xs, ∀ y ∈ xs, x.fr.emC = y.fr.emC)
    (hx : List.Forall₂ (fun s (x : Raw) => Exposes d tab off s x.l1) ss xs) :
    ∃ out, recipe track junk tab 0 offErr d.kgain ek d.rowread m F xs = .ok out ∧
      List.Forall₂ (fun s (g : Fr) => ∀ r c, r < 1024 → c < 1024 → d.flat r c ≠ 0 → g.data [r, c] = s r c) ss out := by
  have hs' : Sound (shift d off) := ⟨hS.sound.kgain, hS.sound.gain, hS.sound.time⟩
  refine C144_scene hs' hS.table track junk offErr ek (calibrated hS hm) hne
    (fun x hx' => ⟨(hh x hx').gain, (hh x hx').exptime, (hh x hx').shape, (hh x hx').layers⟩) hem (hx.imp fun s x h => ?_)
  have := exposes_shift hS.sound (hS.linear _) h off
  rwa [sub_self] at this

/-- **C183, violated.** With the same maps and a bias offset `β` other than zero, for instance the offset that the prescan has, the scene
comes out wrong in every pixel, by the offset in electrons, after desmearing and division by the flat. -/
theorem C183_violated_offset {d : Detector} {tab : NonLin.Table ℝ} {L : List Setting} {F : Flat} (hS : Setup d tab L F)
    (hf : ∀ r c, r < 1024 → c < 1024 → d.flat r c ≠ 0) {off : ℝ} {m : Arith.Maps}
    (hm : MadeFrom d tab off L m) (β : ℝ) (track : Bool) (junk : Ix → ℝ) (offErr ek : ℝ) {ss : List (ℕ → ℕ → ℝ)} {xs : List Raw}
    (hne : xs ≠ []) (hh : ∀ x ∈ xs, Header d x.fr) (hem : ∀ x ∈ xs, ∀ y ∈ xs, x.fr.emC = y.fr.emC)
    (hx : List.Forall₂ (fun s (x : Raw) => Exposes d tab off s x.l1) ss xs) :
    ∃ out, recipe track junk tab β offErr d.kgain ek d.rowread m F xs = .ok out ∧
      List.Forall₂ (fun s (g : Fr) => ∀ r c, r < 1024 → c < 1024 → g.data [r, c] =
        s r c + d.kgain * β / d.gain * ((1 + d.rowread / d.exptime)⁻¹) ^ (r + 1) / d.flat r c ∧
        (g.data [r, c] = s r c ↔ β = 0)) ss out := by
  have hs' : Sound (shift d off) := ⟨hS.sound.kgain, hS.sound.gain, hS.sound.time⟩
  have hx' : List.Forall₂ (fun s (x : Raw) => Exposes (shift d off) tab β s x.l1)
      (ss.map (raised d (d.kgain * β / d.gain))) xs := by
    rw [List.forall₂_map_left_iff]
    refine hx.imp fun s x h => ?_
    have := exposes_shift hS.sound (hS.linear _) h off
    rw [sub_self] at this
    exact exposes_raised hs' hf (hS.linear _) this β
  obtain ⟨out, ho, hp⟩ := C144_scene hs' hS.table track junk offErr ek (calibrated hS hm) hne
    (fun x hx' => ⟨(hh x hx').gain, (hh x hx').exptime, (hh x hx').shape, (hh x hx').layers⟩) hem hx'
  refine ⟨out, ho, ?_⟩
  rw [List.forall₂_map_left_iff] at hp
  refine hp.imp fun s g h r c hr hc => ?_
  have e := h r c hr hc (hf r c hr hc)
  unfold raised at e
  refine ⟨e, ?_⟩
  rw [e]
  have hg : d.gain ≠ 0 := by linarith [hS.sound.gain]
  have hp := pow_ne_zero (r + 1) (inv_ne_zero hS.sound.time)
  constructor
  · intro h0
    have h1 : d.kgain * β / d.gain * ((1 + d.rowread / d.exptime)⁻¹) ^ (r + 1) / d.flat r c = 0 := by linarith
    rcases div_eq_zero_iff.1 h1 with h2 | h2
    · rcases mul_eq_zero.1 h2 with h3 | h3
      · rcases div_eq_zero_iff.1 h3 with h4 | h4
        · exact (mul_eq_zero.1 h4).resolve_left hS.sound.kgain
        · exact absurd h4 hg
      · exact absurd h3 hp
    · exact absurd h2 (hf r c hr hc)
  · rintro rfl
    simp

/-- **C183, violated.** With another response the offset is not taken out before the correction: what is corrected is the signal less the
offset. -/
theorem C183_violated_response {d : Detector} {tab : NonLin.Table ℝ} (ht : NonLin.Good tab) {off : ℝ} (offErr : ℝ) {s : ℕ → ℕ → ℝ}
    {x : Raw} (hx : Exposes d tab off s x.l1) (hg : emGain x.fr = d.gain) :
    ∃ f, l2a tab 0 offErr x = .ok f ∧ ∀ r c, r < 1024 → c < 1024 → ∃ v, v * NonLin.relgain tab d.gain v = d.counts s r c ∧
      f.data [r, c] = (v - off) * NonLin.relgain tab d.gain (v - off) := by
  obtain ⟨f, h1, -, h3⟩ := Flagged.l2a_counts ht 0 offErr (x := x) ⟨hx.mode, hx.size, hx.sizeDq, hx.sizeErr⟩
  refine ⟨f, h1, fun r c hr hc => ?_⟩
  obtain ⟨b, e1, e2⟩ := hx.pixels
  obtain ⟨v, e3, e4⟩ := e2 r c hr hc
  refine ⟨v, e4, ?_⟩
  rw [h3 r c hr hc]
  unfold Flagged.counts
  rw [e3, rowBias_const (b := b (13 + r) + off) (off := 0) (fun c hc hc' => by rw [e1 _ c hc hc']; simp), hg]
  have : v + b (13 + r) - (b (13 + r) + off) = v - off := by ring
  simp [Det.sub, this]

/-! ## Non-vacuity -/

/-- Maps with the given values. -/
def mapsOf (F C D : ℕ → ℕ → ℝ) : Arith.Maps :=
  let at2 (v : ℕ → ℕ → ℝ) : Ix → ℝ := fun p => v (p.getD 0 0) (p.getD 1 0)
  ⟨[1024, 1024], at2 F, at2 C, at2 D, fun _ => 0, fun _ => 0, fun _ => 0, fun _ => 0, fun _ => 0, fun _ => 0⟩

/-- Every detector with a linear response gives such maps, whatever the offset. -/
theorem C183_made {d : Detector} (hk : d.kgain ≠ 0) (hn : ∀ r c, 0 ≤ d.cic r c ∧ 0 ≤ d.dark r c) {L : List Setting}
    (hc : checkStacks L = .ok ()) (hid : Identifiable L) (h1 : ∀ s ∈ L, 1 ≤ s.g ∧ 1 + d.rowread / s.t ≠ 0) (off : ℝ) :
    MadeFrom d linear off L (mapsOf (fun r c => d.fpn r c - d.kgain * off) d.cic d.dark) := by
  refine ⟨rfl, ⟨fun p => (hn _ _).1, fun p => (hn _ _).2⟩, ?_⟩
  let x : Fin L.length → Raw := fun i =>
    ⟨expose (setting d (L.get i).g (L.get i).t) (fun _ => 0) off (fun _ _ => 0),
      ⟨fun _ => 0, ⟨[1024, 1024], [fun _ => 0], fun _ => none, []⟩, fun _ => 0, (L.get i).t, (L.get i).g, (L.get i).g, none, d.kgain, "DN"⟩⟩
  have hx : ∀ i, Exposes (setting d (L.get i).g (L.get i).t) linear off (fun _ _ => 0) (x i).l1 := fun i => C144_exposes _ _ _ _
  have hg : ∀ i, emGain (x i).fr = (L.get i).g := fun i => by
    have := (h1 _ (List.get_mem L i)).1
    simp only [emGain, x]
    split <;> simp_all
  have hf : ∀ i, ∃ f, l2a linear 0 0 (x i) = .ok f ∧ ∀ r c, r < 1024 → c < 1024 →
      f.data [r, c] = (setting d (L.get i).g (L.get i).t).counts (fun _ _ => 0) r c - off := by
    intro i
    have hs : Sound (setting d (L.get i).g (L.get i).t) := ⟨hk, (h1 _ (List.get_mem L i)).1, (h1 _ (List.get_mem L i)).2⟩
    have h5 := exposes_shift hs (fun v => linear_relgain _ v) (hx i) off
    rw [sub_self] at h5
    obtain ⟨f, h6, h7, -⟩ := C144_l2a linear_good 0 h5 (hg i)
    exact ⟨f, h6, fun r c hr hc => by rw [h7 r c hr hc, counts_shift hs]⟩
  choose f hf1 hf2 using hf
  refine ⟨x, f, fun i => ⟨hx i, hg i, hf1 i⟩, fun r c hr hc' => ?_⟩
  refine (C33_roundtrip hc hid true _ (d.fpn r c - d.kgain * off) (d.cic r c) (d.dark r c) (hn r c).1 (hn r c).2
    (fun h => by cases h) fun i => ?_).1
  rw [hf2 i r c hr hc']
  simp only [Detector.counts, Detector.charge, setting, mul_zero, List.map_const', List.sum_replicate, smul_zero, add_zero, zero_add]
  field_simp
  ring

/-- A detector with an offset of seven counts, the maps made of its darks, and a frame of a scene. -/
example : ∃ (d : Detector) (L : List Setting) (F : Flat) (m : Arith.Maps) (x : Raw), Setup d linear L F ∧ MadeFrom d linear 7 L m ∧
    Header d x.fr ∧ Exposes d linear 7 (fun _ _ => 5) x.l1 ∧ (∀ r c, d.flat r c ≠ 0) := by
  refine ⟨⟨fun _ _ => 1 / 2, 0, 10, fun _ _ => 1, fun _ _ => 2, fun _ _ => 3, 100, 8⟩, five, ⟨[1024, 1024], fun _ => 1 / 2, fun _ => 0⟩, _,
    ⟨expose _ (fun _ => 0) 7 (fun _ _ => 5),
      ⟨fun _ => 0, ⟨[1024, 1024], [fun _ => 0], fun _ => none, []⟩, fun _ => 0, 10, 100, 100, none, 8, "DN"⟩⟩,
    ⟨⟨by norm_num, by norm_num, by norm_num⟩, linear_good, linear_relgain, ⟨five_identifiable, ?_⟩, fun r c _ _ => by norm_num,
      rfl, fun _ _ _ _ => rfl⟩,
    C183_made (by norm_num) (fun r c => by norm_num) five_checked five_identifiable ?_ 7, ⟨by simp [emGain], rfl, rfl, by simp⟩,
    C144_exposes _ _ _ _, fun r c => by norm_num⟩
  · simp [five]
  · simp [five]

/-- The prescan of such a detector, with a telemetry row. -/
example : biasOffset five [none, some (model five 3 2 0), some (model five 4 1 0)] = .ok (some 0) :=
  C183_zero five_identifiable (by
    intro y hy
    simp only [List.mem_cons, List.not_mem_nil, or_false] at hy
    rcases hy with rfl | rfl | rfl
    · exact Or.inl rfl
    · exact Or.inr ⟨_, _, _, rfl⟩
    · exact Or.inr ⟨_, _, _, rfl⟩) ⟨some (model five 3 2 0), by simp, by simp⟩

end Corgi.Offset

import Verif.Darks.Lsq
import Verif.Common.Forall2

/-!
# The gain of a sub-stack of darks (darks.py 440-483): C200

`calibrate_darks_lsq` splits the darks by exposure time, commanded gain and k-gain, and takes the gain for the fit from the first frame of each
sub-stack: the measured gain if the header has it, else the applied gain if it is positive, else the commanded one. The other frames of the
sub-stack are averaged with it whatever their measured or applied gains are. One unmasked pixel of the image area is modelled, with the fit of
C33.
-/

noncomputable section

namespace Corgi.Gains

open Corgi.Darks

/-! ## Model -/

/-- A dark: header values and a pixel. -/
structure DFrame where
  t : ℝ
  commanded : ℝ
  applied : ℝ
  measured : Option ℝ
  k : ℝ
  px : ℝ

open Classical in
/-- darks.py 473-479 for one header. -/
def gainOf (f : DFrame) : ℝ :=
  match f.measured with
  | some m => m
  | none => if 0 < f.applied then f.applied else f.commanded

/-- darks.py 473-484: gain, exposure time and k-gain of the sub-stack are those of its first frame. -/
def settingOf : List DFrame → Setting
  | [] => ⟨0, 0, 0⟩
  | x :: _ => ⟨gainOf x, x.t, x.k⟩

/-- darks.py 500 for a pixel that is not masked in any frame. -/
def meanOf (st : List DFrame) : ℝ := (st.map DFrame.px).sum / st.length

/-- darks.py 440-600 at one pixel of the image area, from the sub-stacks. -/
def maps (sts : List (List DFrame)) : Except LErr Darks.Maps :=
  noiseMaps (sts.map settingOf) false true fun i => ((sts.map meanOf)[(i : ℕ)]?).getD 0

/-! ## Specification -/

/-- The gain that a header gives. -/
inductive HeaderGain (f : DFrame) : ℝ → Prop
  | measured (m : ℝ) : f.measured = some m → HeaderGain f m
  | applied : f.measured = none → 0 < f.applied → HeaderGain f f.applied
  | commanded : f.measured = none → f.applied ≤ 0 → HeaderGain f f.commanded

/-- The pixel of a dark of the detector with fixed pattern `F`, clock induced charge `C` and dark current `D`, amplified by the gain that the
header of the frame gives. -/
def Follows (F C D : ℝ) (f : DFrame) : Prop := f.px = F + gainOf f * C + gainOf f * f.t * D

/-- The mean gain of the frames. -/
def meanGain (st : List DFrame) : ℝ := (st.map gainOf).sum / st.length

/-- A sub-stack of darks of the detector, of one exposure time, whose mean gain is `ρ` times the gain of the first frame. -/
structure Stack (F C D ρ : ℝ) (st : List DFrame) : Prop where
  some : st ≠ []
  time : ∀ f ∈ st, ∀ h ∈ st, f.t = h.t
  follows : ∀ f ∈ st, Follows F C D f
  mean : meanGain st = ρ * (settingOf st).g

/-! ## Proofs -/

/-- **C200** The gain of a sub-stack, from the header of its first frame. -/
theorem C200_header (x : DFrame) (l : List DFrame) (v : ℝ) : (settingOf (x :: l)).g = v ↔ HeaderGain x v := by
  show gainOf x = v ↔ _
  unfold gainOf
  constructor
  · rintro rfl
    cases hm : x.measured with
    | some m => exact .measured m hm
    | none =>
      by_cases ha : 0 < x.applied
      · simpa only [if_pos ha] using HeaderGain.applied hm ha
      · simpa only [if_neg ha] using HeaderGain.commanded hm (not_lt.1 ha)
  · rintro (⟨_, hm⟩ | ⟨hm, ha⟩ | ⟨hm, ha⟩)
    · rw [hm]
    · rw [hm]; simp only [if_pos ha]
    · rw [hm]; simp only [if_neg (not_lt.2 ha)]

/-- All three happen. -/
example : HeaderGain ⟨1, 2, 3, some 4, 1, 0⟩ 4 ∧ HeaderGain ⟨1, 2, 3, none, 1, 0⟩ 3 ∧ HeaderGain ⟨1, 2, -1, none, 1, 0⟩ 2 :=
  ⟨.measured 4 rfl, .applied rfl (by norm_num), .commanded rfl (by norm_num)⟩

private theorem sum_follows {F C D t : ℝ} : ∀ {st : List DFrame}, (∀ f ∈ st, Follows F C D f ∧ f.t = t) →
    (st.map DFrame.px).sum = st.length * F + (st.map gainOf).sum * (C + t * D)
  | [], _ => by simp
  | f :: st, h => by
    obtain ⟨h1, h2⟩ := h f (List.mem_cons_self ..)
    unfold Follows at h1
    rw [List.map_cons, List.sum_cons, sum_follows fun x hx => h x (List.mem_cons_of_mem _ hx), h1, h2]
    simp only [List.map_cons, List.sum_cons, List.length_cons]
    push_cast
    ring

private theorem mean_follows {F C D ρ : ℝ} {st : List DFrame} (h : Stack F C D ρ st) :
    meanOf st = F + (settingOf st).g * (ρ * C) + (settingOf st).g * (settingOf st).t * (ρ * D) := by
  cases st with
  | nil => exact absurd rfl h.some
  | cons x l =>
    have hs := sum_follows (F := F) (C := C) (D := D) (t := x.t) (st := x :: l) fun f hf => ⟨h.follows f hf, h.time f hf x (List.mem_cons_self ..)⟩
    have hm := h.mean
    have hn : (((x :: l).length : ℕ) : ℝ) ≠ 0 := by simp only [List.length_cons]; positivity
    unfold meanGain at hm
    rw [div_eq_iff hn] at hm
    unfold meanOf
    rw [hs, hm, div_eq_iff hn]
    show _ = (F + (settingOf (x :: l)).g * (ρ * C) + (settingOf (x :: l)).g * x.t * (ρ * D)) * _
    ring

/-- **C200** If the mean gain of every sub-stack is `ρ` times that of its first frame, the fixed pattern is right, and clock induced charge and
dark current come out as `ρ` times the true ones. -/
theorem C200_factor {F C D ρ : ℝ} (hC : 0 ≤ C) (hD : 0 ≤ D) (hρ : 0 ≤ ρ) {sts : List (List DFrame)} (hs : ∀ st ∈ sts, Stack F C D ρ st)
    (hc : checkStacks (sts.map settingOf) = .ok ()) (hid : Identifiable (sts.map settingOf)) :
    maps sts = .ok ⟨some F, some (ρ * C), some (ρ * D)⟩ := by
  unfold maps
  refine (C33_roundtrip hc hid true _ F (ρ * C) (ρ * D) (mul_nonneg hρ hC) (mul_nonneg hρ hD) (by simp) fun i => ?_).1
  have hi : (i : ℕ) < sts.length := by simpa using i.2
  have hg : (sts.map settingOf).get i = settingOf sts[(i : ℕ)] := by simp
  rw [hg, List.getElem?_map, List.getElem?_eq_getElem hi]
  exact mean_follows (hs _ (List.getElem_mem hi))

/-- **C200** With one gain in each sub-stack the maps are those of the detector. -/
theorem C200_uniform {F C D : ℝ} (hC : 0 ≤ C) (hD : 0 ≤ D) {sts : List (List DFrame)}
    (hs : ∀ st ∈ sts, st ≠ [] ∧ ∀ f ∈ st, Follows F C D f ∧ ∀ h ∈ st, f.t = h.t ∧ gainOf f = gainOf h)
    (hc : checkStacks (sts.map settingOf) = .ok ()) (hid : Identifiable (sts.map settingOf)) : maps sts = .ok ⟨some F, some C, some D⟩ := by
  have := C200_factor (F := F) hC hD zero_le_one (sts := sts) (fun st hst => ?_) hc hid
  · rwa [one_mul, one_mul] at this
  · obtain ⟨h1, h2⟩ := hs st hst
    refine ⟨h1, fun f hf h hh => ((h2 f hf).2 h hh).1, fun f hf => (h2 f hf).1, ?_⟩
    cases st with
    | nil => exact absurd rfl h1
    | cons x l =>
      have : (x :: l).map gainOf = List.replicate (x :: l).length (gainOf x) :=
        List.eq_replicate_iff.2 ⟨by simp, fun b hb => by
          obtain ⟨f, hf, rfl⟩ := List.mem_map.1 hb
          exact ((h2 f hf).2 x (List.mem_cons_self ..)).2⟩
      unfold meanGain
      rw [this, List.sum_replicate, nsmul_eq_mul, one_mul, mul_div_cancel_left₀]
      · rfl
      · simp only [List.length_cons]
        positivity

/-- **C200** The dark that is then subtracted from a frame of gain `g` and exposure time `t` is wrong by `(ρ - 1) (C + t D)`. -/
theorem C200_dark {F C D ρ g t : ℝ} (hC : 0 ≤ C) (hD : 0 ≤ D) (hρ : 0 ≤ ρ) (hg : 1 ≤ g) :
    synthesize ⟨some F, some (ρ * C), some (ρ * D)⟩ g t = .ok (some ((F / g + t * D + C) + (ρ - 1) * (C + t * D))) := by
  unfold synthesize
  rw [if_neg, if_neg (not_lt.2 hg)]
  · simp only [bind, Option.bind, pure, Except.ok.injEq, Option.some.injEq]
    ring
  · have h1 := mul_nonneg hρ hC
    have h2 := mul_nonneg hρ hD
    rintro (⟨d, h, h'⟩ | ⟨c, h, h'⟩) <;> cases h <;> linarith

private theorem mean_perm {st st' : List DFrame} (h : st'.Perm st) : meanGain st' = meanGain st := by
  unfold meanGain
  rw [(h.map gainOf).sum_eq, h.length_eq]

/-- **C200** The same frames in another order: if the first frames now have `μ` times the gains of those before, clock induced charge and dark
current are divided by `μ`. -/
theorem C200_order {F C D ρ μ : ℝ} (hC : 0 ≤ C) (hD : 0 ≤ D) (hρ : 0 ≤ ρ) (hμ : 0 < μ) {sts sts' : List (List DFrame)}
    (hp : List.Forall₂ (fun st' st => st'.Perm st ∧ (settingOf st').g = μ * (settingOf st).g) sts' sts) (hs : ∀ st ∈ sts, Stack F C D ρ st)
    (hc : checkStacks (sts.map settingOf) = .ok ()) (hid : Identifiable (sts.map settingOf)) (hc' : checkStacks (sts'.map settingOf) = .ok ()) :
    maps sts = .ok ⟨some F, some (ρ * C), some (ρ * D)⟩ ∧ maps sts' = .ok ⟨some F, some (ρ / μ * C), some (ρ / μ * D)⟩ := by
  refine ⟨C200_factor hC hD hρ hs hc hid, C200_factor hC hD (div_nonneg hρ hμ.le) (fun st' hst' => ?_) hc' ?_⟩
  · obtain ⟨st, hst, hperm, hg⟩ := forall₂_left hp hst'
    have h := hs st hst
    refine ⟨fun hn => h.some (List.nil_perm.1 (hn ▸ hperm)), fun f hf x hx => h.time f (hperm.subset hf) x (hperm.subset hx),
      fun f hf => h.follows f (hperm.subset hf), ?_⟩
    rw [mean_perm hperm, h.mean, hg]
    field_simp
  · intro a b c habc
    have := hid a (b * μ) (c * μ) fun s hs' => ?_
    · exact ⟨this.1, (mul_eq_zero.1 this.2.1).resolve_right hμ.ne', (mul_eq_zero.1 this.2.2).resolve_right hμ.ne'⟩
    · obtain ⟨st, hst, rfl⟩ := List.mem_map.1 hs'
      obtain ⟨st', hst', hperm, hg⟩ := forall₂_right hp hst
      have := habc (settingOf st') (List.mem_map_of_mem hst')
      have ht : (settingOf st').t = (settingOf st).t := by
        have h := hs st hst
        cases st' with
        | nil => exact absurd (List.nil_perm.1 hperm) h.some
        | cons x l =>
          cases st with
          | nil => exact absurd rfl h.some
          | cons y m => exact h.time x (hperm.subset (List.mem_cons_self ..)) y (List.mem_cons_self ..)
      rw [hg, ht] at this
      linarith

/-- **C200** Sub-stacks of different commanded gains whose first frames have the same measured gain are refused. -/
theorem C200_refused {sts : List (List DFrame)} {i j : ℕ} (hij : i < j) (hj : j < sts.length)
    (hg : (settingOf sts[i]).g = (settingOf sts[j]).g) (ht : (settingOf sts[i]).t = (settingOf sts[j]).t) : maps sts = .error .lsq := by
  have hne : checkStacks (sts.map settingOf) ≠ .ok () := by
    rw [ne_eq, C33_checks]
    rintro ⟨-, -, -, -, hn⟩
    have := List.nodup_iff_injective_get.1 hn (a₁ := ⟨i, by simp; omega⟩) (a₂ := ⟨j, by simpa using hj⟩) (by simp [hg, ht])
    simp at this
    omega
  have he : checkStacks (sts.map settingOf) = .error .lsq := by
    unfold checkStacks at hne ⊢
    split_ifs at hne ⊢ <;> first | rfl | exact absurd rfl hne
  unfold maps noiseMaps
  rw [he]
  rfl

/-- A sub-stack of two frames with the same commanded gain, whose applied gains are `g` and `3 g`. -/
private def exStack (q : ℝ × ℝ) : List DFrame :=
  [⟨q.2, q.1, q.1, none, 1, 5 + q.1 * 7 + q.1 * q.2 * 2⟩, ⟨q.2, q.1, 3 * q.1, none, 1, 5 + 3 * q.1 * 7 + 3 * q.1 * q.2 * 2⟩]

private def exSets : List (ℝ × ℝ) := [(1, 1), (1, 2), (2, 1), (2, 2)]

private theorem ex_check (c : ℝ) (hc : 1 ≤ c) : checkStacks (exSets.map fun q => ⟨c * q.1, q.2, 1⟩) = .ok () := by
  rw [C33_checks]
  have h0 : c ≠ 0 := by linarith
  have h1 : c ≠ c * 2 := fun h => h0 (by linarith)
  refine ⟨by simp [exSets], ⟨⟨c * 1, 1, 1⟩, by simp [exSets], ⟨c * 2, 1, 1⟩, by simp [exSets], by simpa using h1⟩,
    ⟨⟨c * 1, 1, 1⟩, by simp [exSets], ⟨c * 1, 2, 1⟩, by simp [exSets], by norm_num⟩, ?_, ?_⟩
  · intro s hs
    simp only [exSets, List.map_cons, List.map_nil, List.mem_cons, List.not_mem_nil, or_false] at hs
    rcases hs with rfl | rfl | rfl | rfl <;> norm_num <;> linarith
  · simp [exSets, h0]

private theorem ex_set1 : (exSets.map exStack).map settingOf = exSets.map fun q => ⟨1 * q.1, q.2, 1⟩ := by
  simp [exSets, exStack, settingOf, gainOf]

private theorem ex_set3 : (exSets.map fun q => (exStack q).reverse).map settingOf = exSets.map fun q => ⟨3 * q.1, q.2, 1⟩ := by
  simp [exSets, exStack, settingOf, gainOf]

/-- Twice the true values in one order, two thirds of them in the other. -/
example : maps (exSets.map exStack) = .ok ⟨some 5, some (2 * 7), some (2 * 2)⟩ ∧
    maps (exSets.map fun q => (exStack q).reverse) = .ok ⟨some 5, some (2 / 3 * 7), some (2 / 3 * 2)⟩ := by
  have hpos : ∀ q ∈ exSets, 0 < q.1 := by
    intro q hq
    simp only [exSets, List.mem_cons, List.not_mem_nil, or_false] at hq
    rcases hq with rfl | rfl | rfl | rfl <;> norm_num
  refine C200_order (by norm_num) (by norm_num) (by norm_num) (by norm_num) ?_ ?_ (ex_set1 ▸ ex_check 1 le_rfl) ?_ (ex_set3 ▸ ex_check 3 (by norm_num))
  · rw [List.forall₂_map_left_iff, List.forall₂_map_right_iff]
    refine List.forall₂_same.2 fun q hq => ⟨List.reverse_perm _, ?_⟩
    have := hpos q hq
    simp [exStack, settingOf, gainOf, this]
  · intro st hst
    obtain ⟨q, hq, rfl⟩ := List.mem_map.1 hst
    have := hpos q hq
    refine ⟨by simp [exStack], ?_, ?_, ?_⟩
    · intro f hf h hh
      simp only [exStack, List.mem_cons, List.not_mem_nil, or_false] at hf hh
      rcases hf with rfl | rfl <;> rcases hh with rfl | rfl <;> rfl
    · intro f hf
      simp only [exStack, List.mem_cons, List.not_mem_nil, or_false] at hf
      rcases hf with rfl | rfl <;> simp [Follows, gainOf, this]
    · simp [exStack, meanGain, settingOf, gainOf, this]
      ring
  · rw [ex_set1]
    intro a b c h
    have h1 := h ⟨1 * 1, 1, 1⟩ (by simp [exSets])
    have h2 := h ⟨1 * 1, 2, 1⟩ (by simp [exSets])
    have h3 := h ⟨1 * 2, 1, 1⟩ (by simp [exSets])
    dsimp only at h1 h2 h3
    exact ⟨by linarith, by linarith, by linarith⟩

end Corgi.Gains

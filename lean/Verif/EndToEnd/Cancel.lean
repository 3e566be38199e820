import Verif.EndToEnd.Photometry
import Verif.EndToEnd.Flagged

/-!
# Which errors of the calibrations drop out of a measured flux? (C179)

A flux is measured against a standard star that went through the same recipe (`Photometry.lean`: fluxcal.py 275-343, 412-517,
l4_to_tda.py 320-394). Two programs are compared that differ in the calibrations only: a k-gain wrong by a factor, with noise maps made with
it (they are in electrons, darks.py 353-360), and a flat field with another normalisation. The raw frames are arbitrary. No new definitions of the
model. As in `L2b.lean` the flags of cosmic rays are inputs (their thresholds are in electrons, too) and the photon noise is left out; it is treated alone at
the end.
-/

noncomputable section

namespace Corgi.EndToEnd

open Corgi.Det Corgi.Arith Corgi.Tda Corgi.Flux

/-! ## Specification -/

/-- Noise maps made of frames that were converted with `α` times the k-gain. -/
def mapsTimes (α : ℝ) (m : Maps) : Maps :=
  { m with F := fun p => α * m.F p, C := fun p => α * m.C p, D := fun p => α * m.D p,
           eF := fun p => α * m.eF p, eC := fun p => α * m.eC p, eD := fun p => α * m.eD p }

/-- A flat field with another normalisation. -/
def flatTimes (φ : ℝ) (F : Flat) : Flat := { F with data := fun p => φ * F.data p, err := fun p => φ * F.err p }

/-- The run with a k-gain wrong by `α`, noise maps made with it, and a flat field wrong by `φ`. -/
def Run.wrong (α φ : ℝ) (R : Run) : Run :=
  { R with k := α * R.k, ek := α * R.ek, maps := mapsTimes α R.maps, flat := flatTimes φ R.flat }

/-- The local background is a median of pixels: it has the factor of the pixels. -/
def Aper.times (c : ℝ) (a : Aper) : Aper := { a with back := a.back.map (c * ·) }

/-- The pixels that are used have a value after the division by the flat. -/
def Aper.Uses (a : Aper) (F : Flat) : Prop := ∀ q ∈ a.pix, a.bad q.1 = false → F.data [q.1.1, q.1.2] ≠ 0

/-- Two frames with the same headers and flags, the values and errors of the second `c` times those of the first in the pixels `P`. -/
structure Times (P : Ix → Prop) (c α : ℝ) (f g : Fr) : Prop where
  data : ∀ p, P p → g.data p = c * f.data p
  layers : List.Forall₂ (fun l l' : Ix → ℝ => ∀ p, P p → l' p = c * l p) f.img.layers g.img.layers
  shape : g.img.shape = f.img.shape
  names : g.img.names = f.img.names
  history : g.img.history = f.img.history
  dq : g.dq = f.dq
  exptime : g.exptime = f.exptime
  emC : g.emC = f.emC
  emA : g.emA = f.emA
  emM : g.emM = f.emM
  kgain : g.kgain = α * f.kgain
  bunit : g.bunit = f.bunit

/-- Both programs raise the same exception, or both succeed with related results. -/
inductive Alike {ε A B : Type} (R : A → B → Prop) : Except ε A → Except ε B → Prop
  | ok {a : A} {b : B} (h : R a b) : Alike R (.ok a) (.ok b)
  | error (e : ε) : Alike R (.error e) (.error e)

/-! ## The steps -/

theorem alike_mapM {ε A B A' B' : Type} {R : A → B → Prop} {S : A' → B' → Prop} {f : A → Except ε A'} {g : B → Except ε B'}
    (h : ∀ a b, R a b → Alike S (f a) (g b)) {l : List A} {m : List B} (hl : List.Forall₂ R l m) :
    Alike (List.Forall₂ S) (l.mapM f) (m.mapM g) := by
  induction hl with
  | nil => exact .ok .nil
  | @cons a b l m hab _ ih =>
    rw [List.mapM_cons, List.mapM_cons]
    have h1 := h a b hab
    revert h1 ih
    generalize f a = x
    generalize g b = y
    generalize l.mapM f = u
    generalize m.mapM g = v
    intro ih h1
    cases h1 with
    | error e => exact .error e
    | ok h2 =>
      cases ih with
      | error e => exact .error e
      | ok h3 => exact .ok (.cons h2 h3)

theorem sqrt_times {c : ℝ} (hc : 0 ≤ c) (x y : ℝ) : Real.sqrt ((c * x) ^ 2 + (c * y) ^ 2) = c * Real.sqrt (x ^ 2 + y ^ 2) := by
  rw [show (c * x) ^ 2 + (c * y) ^ 2 = c ^ 2 * (x ^ 2 + y ^ 2) by ring, Real.sqrt_mul (sq_nonneg c), Real.sqrt_sq hc]

theorem Times.gain {P : Ix → Prop} {c α : ℝ} {f g : Fr} (h : Times P c α f g) : emGain g = emGain f := by
  unfold emGain
  rw [h.emM, h.emA, h.emC]

theorem times_electrons {α : ℝ} (hα : 0 ≤ α) (k ek : ℝ) (f : Fr) :
    Times (fun _ => True) α α (toElectrons k ek f) (toElectrons (α * k) (α * ek) f) := by
  refine ⟨fun p _ => ?_, ?_, rfl, rfl, rfl, rfl, rfl, rfl, rfl, rfl, rfl, rfl⟩
  · show f.data p * (α * k) = α * (f.data p * k)
    ring
  · show List.Forall₂ _ (match f.img.layers with
      | [] => []
      | l :: ls => (fun p => Real.sqrt ((k * l p) ^ 2 + (f.data p * ek) ^ 2)) :: ls.map fun _ _ => 0)
      (match f.img.layers with
      | [] => []
      | l :: ls => (fun p => Real.sqrt ((α * k * l p) ^ 2 + (f.data p * (α * ek)) ^ 2)) :: ls.map fun _ _ => 0)
    cases f.img.layers with
    | nil => exact .nil
    | cons l ls =>
      refine .cons (fun p _ => ?_) ?_
      · rw [← sqrt_times hα]
        congr 1
        ring
      · rw [List.forall₂_map_left_iff, List.forall₂_map_right_iff]
        exact List.forall₂_same.2 fun _ _ _ _ => by ring

theorem times_emDiv {P : Ix → Prop} {c α : ℝ} {f g : Fr} (h : Times P c α f g) : Times P c α (emDiv f) (emDiv g) := by
  refine ⟨fun p hp => ?_, ?_, h.shape, h.names, h.history, h.dq, h.exptime, h.emC, h.emA, h.emM, h.kgain, rfl⟩
  · show g.data p / emGain g = c * (f.data p / emGain f)
    rw [h.gain, h.data p hp]
    ring
  · show List.Forall₂ _ (f.img.layers.map fun l p => l p / emGain f) (g.img.layers.map fun l p => l p / emGain g)
    rw [List.forall₂_map_left_iff, List.forall₂_map_right_iff]
    refine h.layers.imp fun l l' hl p hp => ?_
    rw [h.gain]
    dsimp only
    rw [hl p hp]
    ring

/-- Relations of the error layers through `add_error_term`. -/
theorem times_addError {P : Ix → Prop} {c : ℝ} (hc : 0 ≤ c) (track : Bool) (name : String) {sh : List ℕ} {e e' : Ix → ℝ}
    (he : ∀ p, P p → e' p = c * e p) {i j : Errs.Img}
    (hl : List.Forall₂ (fun l l' : Ix → ℝ => ∀ p, P p → l' p = c * l p) i.layers j.layers)
    (hs : j.shape = i.shape) (hn : j.names = i.names) (hh : j.history = i.history) :
    Alike (fun i' j' : Errs.Img => List.Forall₂ (fun l l' : Ix → ℝ => ∀ p, P p → l' p = c * l p) i'.layers j'.layers ∧
      j'.shape = i'.shape ∧ j'.names = i'.names ∧ j'.history = i'.history)
      (ofErrs (Errs.addError track ⟨sh, e⟩ name i)) (ofErrs (Errs.addError track ⟨sh, e'⟩ name j)) := by
  obtain ⟨ish, il, inm, ih⟩ := i
  obtain ⟨jsh, jl, jnm, jh⟩ := j
  dsimp only at hl hs hn hh
  subst hs hn hh
  unfold Errs.addError Errs.Arr.ndim
  dsimp only
  split
  · exact .error _
  · cases hl with
    | nil => exact .error _
    | @cons l l' ls ls' h1 h2 =>
      dsimp only
      have h0 : ∀ p, P p → Real.sqrt (l' p ^ 2 + e' p ^ 2) = c * Real.sqrt (l p ^ 2 + e p ^ 2) := fun p hp => by
        rw [h1 p hp, he p hp, sqrt_times hc]
      cases track with
      | true =>
        refine .ok ⟨?_, rfl, ?_, rfl⟩
        · refine List.rel_append (.cons h0 h2) (.cons he .nil)
        · show Function.update _ _ _ = Function.update _ _ _
          have : ls'.length = ls.length := h2.length_eq.symm
          simp [this]
      | false => exact .ok ⟨.cons h0 h2, rfl, rfl, rfl⟩

theorem times_rescale {P : Ix → Prop} {c d : ℝ} (name : String) {sh sh' : List ℕ} {e e' : Ix → ℝ} (hsh : sh' = sh)
    (he : ∀ p, P p → e' p = d * e p) {i j : Errs.Img}
    (hl : List.Forall₂ (fun l l' : Ix → ℝ => ∀ p, P p → l' p = c * l p) i.layers j.layers)
    (hs : j.shape = i.shape) (hn : j.names = i.names) (hh : j.history = i.history) :
    Alike (fun i' j' : Errs.Img => List.Forall₂ (fun l l' : Ix → ℝ => ∀ p, P p → l' p = c * d * l p) i'.layers j'.layers ∧
      j'.shape = i'.shape ∧ j'.names = i'.names ∧ j'.history = i'.history)
      (ofErrs (Errs.rescale ⟨sh, e⟩ name i)) (ofErrs (Errs.rescale ⟨sh', e'⟩ name j)) := by
  obtain ⟨ish, il, inm, ih⟩ := i
  obtain ⟨jsh, jl, jnm, jh⟩ := j
  dsimp only at hl hs hn hh
  subst hs hn hh hsh
  unfold Errs.rescale Errs.Arr.ndim
  dsimp only
  split
  · exact .error _
  · refine .ok ⟨?_, rfl, rfl, rfl⟩
    dsimp only
    rw [List.forall₂_map_left_iff, List.forall₂_map_right_iff]
    refine hl.imp fun l l' h p hp => ?_
    dsimp only
    rw [h p hp, he p hp]
    ring

theorem times_subFrame {c α : ℝ} (hc : 0 ≤ c) (track : Bool) {d d' : DarkCal} (hs : d'.shape = d.shape)
    (hd : ∀ p, d'.data p = c * d.data p) (he : ∀ p, d'.err p = c * d.err p) (hq : d'.dq = d.dq) {f g : Fr}
    (h : Times (fun _ => True) c α f g) : Alike (Times (fun _ => True) c α) (subFrame track d f) (subFrame track d' g) := by
  unfold subFrame
  rw [hs]
  have h1 := times_addError (P := fun _ => True) hc track "dark_error" (sh := d.shape) (fun p _ => he p) h.layers h.shape h.names h.history
  revert h1
  generalize ofErrs (Errs.addError track ⟨d.shape, d.err⟩ "dark_error" f.img) = x
  generalize ofErrs (Errs.addError track ⟨d.shape, d'.err⟩ "dark_error" g.img) = y
  intro h1
  cases h1 with
  | error e => exact .error e
  | ok h2 =>
    refine .ok ⟨fun p _ => ?_, h2.1, h2.2.1, h2.2.2.1, h2.2.2.2, ?_, h.exptime, h.emC, h.emA, h.emM, h.kgain, rfl⟩
    · show g.data p - d'.data p = c * (f.data p - d.data p)
      rw [h.data p trivial, hd]
      ring
    · show (fun p => g.dq p ||| d'.dq p) = fun p => f.dq p ||| d.dq p
      rw [h.dq, hq]

/-- The synthesized dark has the factor of the maps. -/
theorem times_synthDark {P : Ix → Prop} {α β c : ℝ} (hα : 0 < α) (m : Maps) {f g : Fr} (h : Times P c β f g) :
    Alike (fun d d' : DarkCal => d'.shape = d.shape ∧ (∀ p, d'.data p = α * d.data p) ∧ (∀ p, d'.err p = α * d.err p) ∧ d'.dq = d.dq)
      (synthDark m f) (synthDark (mapsTimes α m) g) := by
  unfold synthDark
  have hn : ∀ x : ℝ, α * x < 0 ↔ x < 0 := fun x => mul_neg_iff.trans ⟨fun h => by rcases h with h | h <;> [exact h.2; linarith], fun h => .inl ⟨hα, h⟩⟩
  have hcond : ((∃ p, (mapsTimes α m).D p < 0) ∨ (∃ p, (mapsTimes α m).C p < 0) ∨ emGain g < 1) ↔
      ((∃ p, m.D p < 0) ∨ (∃ p, m.C p < 0) ∨ emGain f < 1) := by
    rw [h.gain]
    simp only [mapsTimes, hn]
  by_cases hc : (∃ p, m.D p < 0) ∨ (∃ p, m.C p < 0) ∨ emGain f < 1
  · rw [if_pos hc, if_pos (hcond.2 hc)]
    exact .error _
  · rw [if_neg hc, if_neg (fun hh => hc (hcond.1 hh))]
    refine .ok ⟨rfl, fun p => ?_, fun p => ?_, rfl⟩
    · show α * m.F p / emGain g + g.exptime * (α * m.D p) + α * m.C p = α * (m.F p / emGain f + f.exptime * m.D p + m.C p)
      rw [h.gain, h.exptime]
      ring
    · show Darks.synthErr (α * m.eF p) (α * m.eC p) (α * m.eD p) (emGain g) g.exptime =
        α * Darks.synthErr (m.eF p) (m.eC p) (m.eD p) (emGain f) f.exptime
      rw [h.gain, h.exptime]
      unfold Darks.synthErr
      rw [show (α * m.eF p) ^ 2 / emGain f ^ 2 + f.exptime ^ 2 * (α * m.eD p) ^ 2 + (α * m.eC p) ^ 2 =
        α ^ 2 * (m.eF p ^ 2 / emGain f ^ 2 + f.exptime ^ 2 * m.eD p ^ 2 + m.eC p ^ 2) by ring, Real.sqrt_mul (sq_nonneg α),
        Real.sqrt_sq hα.le]

theorem times_uniform {P : Ix → Prop} {c α : ℝ} (hα : α ≠ 0) {fs gs : List Fr} (h : List.Forall₂ (Times P c α) fs gs) :
    uniform gs = uniform fs := by
  cases h with
  | nil => rfl
  | @cons f g fs gs h1 h2 =>
    have h3 : List.Forall₂ (Times P c α) (f :: fs) (g :: gs) := .cons h1 h2
    rw [Bool.eq_iff_iff, uniform_iff, uniform_iff]
    constructor
    · intro hu a ha
      obtain ⟨b, hb, hab⟩ := forall₂_left h3 ha
      obtain ⟨e1, e2, e3⟩ := hu b hb
      rw [hab.exptime, h1.exptime] at e1
      rw [hab.emC, h1.emC] at e2
      rw [hab.kgain, h1.kgain] at e3
      exact ⟨e1, e2, mul_left_cancel₀ hα e3⟩
    · intro hu b hb
      obtain ⟨a, ha, hab⟩ := forall₂_right h3 hb
      obtain ⟨e1, e2, e3⟩ := hu a ha
      rw [hab.exptime, h1.exptime, hab.emC, h1.emC, hab.kgain, h1.kgain, e1, e2, e3]
      exact ⟨rfl, rfl, rfl⟩

theorem times_darkSub {α : ℝ} (hα : 0 < α) (track : Bool) (m : Maps) {fs gs : List Fr}
    (h : List.Forall₂ (Times (fun _ => True) α α) fs gs) :
    Alike (List.Forall₂ (Times (fun _ => True) α α)) (darkSubMaps track m fs) (darkSubMaps track (mapsTimes α m) gs) := by
  have hu := times_uniform hα.ne' h
  cases h with
  | nil => exact .error _
  | @cons f g fs gs h1 h2 =>
    unfold darkSubMaps
    dsimp only
    rw [hu]
    split
    · exact .error _
    · have h3 := times_synthDark hα m h1
      revert h3
      generalize synthDark m f = x
      generalize synthDark (mapsTimes α m) g = y
      intro h3
      cases h3 with
      | error e => exact .error e
      | ok h4 => exact alike_mapM (fun a b hab => times_subFrame hα.le track h4.1 h4.2.1 h4.2.2.1 h4.2.2.2 hab) (.cons h1 h2)

theorem times_desmear {c α : ℝ} (rowread : ℝ) {f g : Fr} (h : Times (fun _ => True) c α f g) :
    Times (fun _ => True) c α (desmearFr rowread f) (desmearFr rowread g) := by
  refine ⟨fun p _ => ?_, h.layers, h.shape, h.names, h.history, h.dq, h.exptime, h.emC, h.emA, h.emM, h.kgain, h.bunit⟩
  have hd : ∀ p, g.data p = c * f.data p := fun p => h.data p trivial
  match p with
  | [] => exact hd _
  | [_] => exact hd _
  | r :: s :: t :: l => exact hd _
  | [r, s] =>
    by_cases hr : r < 1024
    · rw [Flagged.desmear_px _ _ hr, Flagged.desmear_px _ _ hr, h.exptime, ← Flagged.leak_mul]
      simp only [hd]
    · have hz : ∀ x : Fr, (desmearFr rowread x).data [r, s] = 0 := by
        intro x
        unfold desmearFr
        dsimp only
        rw [List.getElem?_eq_none]
        · rfl
        · unfold Desmear.desmearCol
          simp only [List.length_map, List.length_range]
          omega
      rw [hz, hz, mul_zero]

theorem times_flat {c α φ : ℝ} (hc : 0 < c) (hφ : 0 < φ) (track : Bool) (junk : Ix → ℝ) (F : Flat) {f g : Fr}
    (h : Times (fun _ => True) c α f g) :
    Alike (Times (fun p => F.data p ≠ 0) (c / φ) α) (flatFrame track junk F f) (flatFrame track junk (flatTimes φ F) g) := by
  have hF : ∀ p, (flatTimes φ F).data p = 0 ↔ F.data p = 0 := fun p => by simp [flatTimes, hφ.ne']
  unfold flatFrame
  dsimp only
  simp only [hF]
  have h1 := times_rescale (P := fun p => F.data p ≠ 0) (c := c) (d := 1 / φ) "FlatField" (sh := F.shape) (sh' := (flatTimes φ F).shape)
    (e := fun p => if F.data p = 0 then junk p else 1 / F.data p)
    (e' := fun p => if F.data p = 0 then junk p else 1 / (flatTimes φ F).data p) rfl (fun p hp => by
      rw [if_neg hp, if_neg hp]
      show 1 / (φ * F.data p) = _
      field_simp) (h.layers.imp fun l l' hl p _ => hl p trivial) h.shape h.names h.history
  revert h1
  generalize ofErrs (Errs.rescale ⟨F.shape, fun p => if F.data p = 0 then junk p else 1 / F.data p⟩ "FlatField" f.img) = x
  generalize ofErrs (Errs.rescale ⟨(flatTimes φ F).shape, fun p => if F.data p = 0 then junk p else 1 / (flatTimes φ F).data p⟩
    "FlatField" g.img) = y
  intro h1
  cases h1 with
  | error e => exact .error e
  | @ok i1 j1 h2 =>
    dsimp only
    have h3 := times_addError (P := fun p => F.data p ≠ 0) (c := c / φ) (by positivity) track "FlatField_error" (sh := F.shape)
      (e := fun p => if F.data p = 0 then junk p else f.data p * F.err p / F.data p ^ 2)
      (e' := fun p => if F.data p = 0 then junk p else g.data p * (flatTimes φ F).err p / (flatTimes φ F).data p ^ 2) (fun p hp => by
        rw [if_neg hp, if_neg hp, h.data p trivial]
        show c * f.data p * (φ * F.err p) / (φ * F.data p) ^ 2 = _
        field_simp) (i := i1) (j := j1) (h2.1.imp fun l l' hl p hp => by rw [hl p hp]; ring) h2.2.1 h2.2.2.1 h2.2.2.2
    have hsh : (flatTimes φ F).shape = F.shape := rfl
    rw [hsh]
    revert h3
    generalize ofErrs (Errs.addError track ⟨F.shape, fun p => if F.data p = 0 then junk p else f.data p * F.err p / F.data p ^ 2⟩
      "FlatField_error" i1) = u
    generalize ofErrs (Errs.addError track ⟨F.shape, fun p => if F.data p = 0 then junk p
      else g.data p * (flatTimes φ F).err p / (flatTimes φ F).data p ^ 2⟩ "FlatField_error" j1) = v
    intro h3
    cases h3 with
    | error e => exact .error e
    | ok h4 =>
      refine .ok ⟨fun p hp => ?_, h4.1, h4.2.1, h4.2.2.1, h4.2.2.2, ?_, h.exptime, h.emC, h.emA, h.emM, h.kgain, h.bunit⟩
      · dsimp only
        rw [if_neg hp, if_neg hp, h.data p trivial]
        show c * f.data p / (φ * F.data p) = _
        field_simp
      · dsimp only
        rw [h.dq]

theorem times_expDiv {P : Ix → Prop} {c α : ℝ} {f g : Fr} (h : Times P c α f g) : Alike (Times P c α) (expDiv f) (expDiv g) := by
  unfold expDiv
  have h1 := times_rescale (P := P) (c := c) (d := 1) "normalized by the exposure time" (sh := f.img.shape) (sh' := g.img.shape)
    (e := fun _ => 1 / f.exptime) (e' := fun _ => 1 / g.exptime) h.shape (fun p _ => by rw [h.exptime, one_mul]) h.layers h.shape h.names
    h.history
  revert h1
  generalize ofErrs (Errs.rescale ⟨f.img.shape, fun _ => 1 / f.exptime⟩ "normalized by the exposure time" f.img) = x
  generalize ofErrs (Errs.rescale ⟨g.img.shape, fun _ => 1 / g.exptime⟩ "normalized by the exposure time" g.img) = y
  intro h1
  cases h1 with
  | error e => exact .error e
  | ok h2 =>
    refine .ok ⟨fun p hp => ?_, ?_, h2.2.1, h2.2.2.1, h2.2.2.2, h.dq, h.exptime, h.emC, h.emA, h.emM, h.kgain, rfl⟩
    · show g.data p / g.exptime = c * (f.data p / f.exptime)
      rw [h.data p hp, h.exptime]
      ring
    · exact h2.1.imp fun l l' hl p hp => by rw [hl p hp, mul_one]

/-! ## C179 -/

/-- **C179** A frame: with a k-gain wrong by `α`, noise maps made with it and a flat wrong by `φ`, the run raises the same exception, or all values
and errors have the factor `α/φ` and the flags are the same. For arbitrary raw frames and calibrations. -/
theorem C179_rates {α φ : ℝ} (hα : 0 < α) (hφ : 0 < φ) (R : Run) :
    Alike (List.Forall₂ (Times (fun p => R.flat.data p ≠ 0) (α / φ) α)) R.rates (R.wrong α φ).rates := by
  have hrec : Alike (List.Forall₂ (Times (fun p => R.flat.data p ≠ 0) (α / φ) α))
      (recipe R.track R.junk R.tab R.off R.offErr R.k R.ek R.rowread R.maps R.flat R.xs)
      (recipe R.track R.junk R.tab R.off R.offErr (α * R.k) (α * R.ek) R.rowread (mapsTimes α R.maps) (flatTimes φ R.flat) R.xs) := by
    unfold recipe
    cases R.xs.mapM (l2a R.tab R.off R.offErr) with
    | error e => exact .error e
    | ok fs =>
      dsimp only
      unfold l2b
      have h1 := times_darkSub hα R.track R.maps (fs := (fs.map (toElectrons R.k R.ek)).map emDiv)
        (gs := (fs.map (toElectrons (α * R.k) (α * R.ek))).map emDiv) (by
          rw [List.forall₂_map_left_iff, List.forall₂_map_right_iff, List.forall₂_map_left_iff, List.forall₂_map_right_iff]
          exact List.forall₂_same.2 fun f _ => times_emDiv (times_electrons hα.le _ _ f))
      revert h1
      generalize darkSubMaps R.track R.maps ((fs.map (toElectrons R.k R.ek)).map emDiv) = x
      generalize darkSubMaps R.track (mapsTimes α R.maps) ((fs.map (toElectrons (α * R.k) (α * R.ek))).map emDiv) = y
      intro h1
      cases h1 with
      | error e => exact .error _
      | @ok as bs h2 =>
        dsimp only
        have h3 : Alike (List.Forall₂ (Times (fun p => R.flat.data p ≠ 0) (α / φ) α))
            (flatDiv R.track R.junk R.flat (as.map (desmearFr R.rowread)))
            (flatDiv R.track R.junk (flatTimes φ R.flat) (bs.map (desmearFr R.rowread))) := by
          unfold flatDiv
          refine alike_mapM (R := Times (fun _ => True) α α) (fun a b hab => times_flat hα hφ R.track R.junk R.flat hab) ?_
          rw [List.forall₂_map_left_iff, List.forall₂_map_right_iff]
          exact h2.imp fun a b hab => times_desmear R.rowread hab
        revert h3
        generalize flatDiv R.track R.junk R.flat (as.map (desmearFr R.rowread)) = u
        generalize flatDiv R.track R.junk (flatTimes φ R.flat) (bs.map (desmearFr R.rowread)) = v
        intro h3
        cases h3 with
        | error e => exact .error _
        | ok h4 => exact .ok h4
  unfold Run.rates Run.wrong
  dsimp only
  revert hrec
  generalize recipe R.track R.junk R.tab R.off R.offErr R.k R.ek R.rowread R.maps R.flat R.xs = x
  generalize recipe R.track R.junk R.tab R.off R.offErr (α * R.k) (α * R.ek) R.rowread (mapsTimes α R.maps) (flatTimes φ R.flat) R.xs = y
  intro hrec
  cases hrec with
  | error e => exact .error _
  | @ok as bs h2 =>
    dsimp only
    have h3 := alike_mapM (fun a b hab => times_expDiv hab) h2
    revert h3
    generalize as.mapM expDiv = u
    generalize bs.mapM expDiv = v
    intro h3
    cases h3 with
    | error e => exact .error _
    | ok h4 => exact .ok h4

/-- The photometry of related frames. -/
theorem times_phot {a : Aper} {F : Flat} (ha : a.Uses F) {c α : ℝ} (hc : 0 < c) {f g : Fr}
    (h : Times (fun p => F.data p ≠ 0) c α f g) :
    Alike (fun s s' : ℝ × ℝ => s' = (c * s.1, c * s.2)) (photOf a f) (photOf (a.times c) g) := by
  unfold photOf aperPhot Aper.times
  dsimp only
  by_cases hf : a.fee ≤ 0 ∨ 1 < a.fee
  · rw [if_pos hf, if_pos hf]
    exact .error _
  · rw [if_neg hf, if_neg hf]
    dsimp only
    have hb : (a.back.map (c * ·)).getD 0 = c * a.back.getD 0 := by cases a.back <;> simp
    have he : ∀ p, F.data p ≠ 0 → (g.img.layers.head?.getD fun _ => 0) p = c * (f.img.layers.head?.getD fun _ => 0) p := by
      intro p hp
      have hl := h.layers
      revert hl
      generalize f.img.layers = u
      generalize g.img.layers = v
      intro hl
      cases hl with
      | nil => simp
      | cons h1 _ => exact h1 p hp
    refine .ok ?_
    rw [List.filter_map, List.map_map, List.map_map, List.filter_map, List.map_map, List.map_map, hb]
    have e1 : ((fun p : Pix => !p.bad) ∘ fun q : (ℕ × ℕ) × ℝ => (⟨q.2, f.data [q.1.1, q.1.2],
        (f.img.layers.head?.getD fun _ => 0) [q.1.1, q.1.2], a.bad q.1⟩ : Pix)) = fun q => !a.bad q.1 := rfl
    have e2 : ((fun p : Pix => !p.bad) ∘ fun q : (ℕ × ℕ) × ℝ => (⟨q.2, g.data [q.1.1, q.1.2],
        (g.img.layers.head?.getD fun _ => 0) [q.1.1, q.1.2], a.bad q.1⟩ : Pix)) = fun q => !a.bad q.1 := rfl
    rw [e1, e2]
    have hmem : ∀ q ∈ a.pix.filter (fun q => !a.bad q.1), F.data [q.1.1, q.1.2] ≠ 0 := by
      intro q hq
      rw [List.mem_filter] at hq
      exact ha q hq.1 (by simpa using hq.2)
    rw [Prod.mk.injEq]
    constructor
    · rw [← mul_div_assoc, ← List.sum_map_mul_left]
      congr 2
      refine List.map_congr_left fun q hq => ?_
      simp only [Function.comp_apply]
      rw [h.data _ (hmem q hq)]
      ring
    · have hsq : ∀ x : ℝ, c * Real.sqrt x = Real.sqrt (c ^ 2 * x) := fun x => by
        rw [Real.sqrt_mul (sq_nonneg c), Real.sqrt_sq hc.le]
      rw [← mul_div_assoc, hsq, ← List.sum_map_mul_left]
      congr 3
      refine List.map_congr_left fun q hq => ?_
      simp only [Function.comp_apply]
      rw [he _ (hmem q hq)]
      ring

/-- The factor that a flux gets by calibrations wrong by `α₁, φ₁` for the standard star and `α₂, φ₂` for the target. -/
theorem C179_ratio {α₁ φ₁ α₂ φ₂ : ℝ} (h₁ : 0 < α₁ ∧ 0 < φ₁) (h₂ : 0 < α₂ ∧ 0 < φ₂) (std tgt : Run) (g : List ℝ) (T vega ref : ℝ → ℝ)
    (colCor : Option ℝ) {a b : Aper} (ha : a.Uses std.flat) (hb : b.Uses tgt.flat) :
    Alike (fun o o' : FluxOut => o'.flux = α₂ / φ₂ / (α₁ / φ₁) * o.flux ∧ o'.fluxErr = α₂ / φ₂ / (α₁ / φ₁) * o.fluxErr ∧
        o'.mag = vegaMag g T vega o'.flux ∧ o'.magErr = o.magErr ∧ o.mag = vegaMag g T vega o.flux)
      (measure std tgt g T vega ref colCor a b)
      (measure (std.wrong α₁ φ₁) (tgt.wrong α₂ φ₂) g T vega ref colCor (a.times (α₁ / φ₁)) (b.times (α₂ / φ₂))) := by
  have c1 : 0 < α₁ / φ₁ := div_pos h₁.1 h₁.2
  have c2 : 0 < α₂ / φ₂ := div_pos h₂.1 h₂.2
  unfold measure
  have hs := C179_rates h₁.1 h₁.2 std
  revert hs
  generalize std.rates = x
  generalize (std.wrong α₁ φ₁).rates = y
  intro hs
  cases hs with
  | error e => exact .error e
  | @ok fs gs hs =>
    dsimp only
    have hfac : Alike (fun s s' : ℝ × ℝ => s' = (s.1 / (α₁ / φ₁), s.2 / (α₁ / φ₁))) (factorOf (bandFlux g T ref) a fs)
        (factorOf (bandFlux g T ref) (a.times (α₁ / φ₁)) gs) := by
      unfold factorOf
      cases hs with
      | nil => exact .error _
      | @cons f f' _ _ h1 _ =>
        dsimp only
        have h2 := times_phot ha c1 h1
        revert h2
        generalize photOf a f = u
        generalize photOf (a.times (α₁ / φ₁)) f' = v
        intro h2
        cases h2 with
        | error e => exact .error e
        | @ok s s' h3 =>
          subst h3
          refine .ok ?_
          unfold fluxcal
          dsimp only
          rw [Prod.mk.injEq]
          constructor
          · rw [div_div, mul_comm s.1]
          · generalize α₁ / φ₁ = c at c1
            have hc := c1.ne'
            rw [mul_pow]
            by_cases h0 : s.1 = 0
            · simp [h0]
            · field_simp
    revert hfac
    generalize factorOf (bandFlux g T ref) a fs = u
    generalize factorOf (bandFlux g T ref) (a.times (α₁ / φ₁)) gs = v
    intro hfac
    cases hfac with
    | error e => exact .error e
    | @ok s s' h3 =>
      subst h3
      dsimp only
      have ht := C179_rates h₂.1 h₂.2 tgt
      revert ht
      generalize tgt.rates = x'
      generalize (tgt.wrong α₂ φ₂).rates = y'
      intro ht
      cases ht with
      | error e => exact .error e
      | @ok fs' gs' ht =>
        dsimp only
        unfold fluxOf
        have hm := alike_mapM (fun _ _ hab => times_phot hb c2 hab) ht
        revert hm
        generalize fs'.mapM (photOf b) = p
        generalize gs'.mapM (photOf (b.times (α₂ / φ₂))) = q
        intro hm
        cases hm with
        | error e => exact .error e
        | @ok l l' hl =>
          refine .ok ?_
          have e1 : (l'.map Prod.fst).sum = α₂ / φ₂ * (l.map Prod.fst).sum := by
            rw [← List.sum_map_mul_left]
            clear ht
            induction hl with
            | nil => rfl
            | cons r _ ih =>
              rw [List.map_cons, List.sum_cons, ih, r, List.map_cons, List.sum_cons]
          have e2 : (l'.map Prod.snd).sum = α₂ / φ₂ * (l.map Prod.snd).sum := by
            rw [← List.sum_map_mul_left]
            clear ht e1
            induction hl with
            | nil => rfl
            | cons r _ ih =>
              rw [List.map_cons, List.sum_cons, ih, r, List.map_cons, List.sum_cons]
          have e3 : l'.length = l.length := hl.length_eq.symm
          unfold determineFlux
          dsimp only
          rw [e1, e2, e3]
          generalize α₂ / φ₂ = d at c2
          generalize α₁ / φ₁ = c at c1
          have hc := c1.ne'
          have hd := c2.ne'
          generalize (l.map Prod.fst).sum = A
          generalize (l.map Prod.snd).sum = B
          generalize (l.length : ℝ) = n
          generalize colCor.getD 1 = k
          have hflux : d * A / n * (s.1 / c / k) = d / c * (A / n * (s.1 / k)) := by ring
          have herr : Real.sqrt ((d * B / n) ^ 2 * (s.1 / c / k) ^ 2 + (s.2 / c / k) ^ 2 * (d * A / n) ^ 2) =
              d / c * Real.sqrt ((B / n) ^ 2 * (s.1 / k) ^ 2 + (s.2 / k) ^ 2 * (A / n) ^ 2) := by
            rw [show (d * B / n) ^ 2 * (s.1 / c / k) ^ 2 + (s.2 / c / k) ^ 2 * (d * A / n) ^ 2 =
              (d / c) ^ 2 * ((B / n) ^ 2 * (s.1 / k) ^ 2 + (s.2 / k) ^ 2 * (A / n) ^ 2) by ring, Real.sqrt_mul (sq_nonneg _),
              Real.sqrt_sq (div_pos c2 c1).le]
          refine ⟨hflux, herr, rfl, ?_, rfl⟩
          rw [herr, hflux]
          generalize A / n * (s.1 / k) = X
          generalize Real.sqrt ((B / n) ^ 2 * (s.1 / k) ^ 2 + (s.2 / k) ^ 2 * (A / n) ^ 2) = Y
          by_cases hX : X = 0
          · simp [hX]
          · field_simp

/-- **C179** A wrong k-gain and a wrong normalisation of the flat that are common to standard star and target change nothing: flux, magnitude and
both errors are the same, or the exception is. -/
theorem C179_cancel {α φ : ℝ} (hα : 0 < α) (hφ : 0 < φ) (std tgt : Run) (g : List ℝ) (T vega ref : ℝ → ℝ)
    (colCor : Option ℝ) {a b : Aper} (ha : a.Uses std.flat) (hb : b.Uses tgt.flat) :
    measure (std.wrong α φ) (tgt.wrong α φ) g T vega ref colCor (a.times (α / φ)) (b.times (α / φ)) =
      measure std tgt g T vega ref colCor a b := by
  have h := C179_ratio ⟨hα, hφ⟩ ⟨hα, hφ⟩ std tgt g T vega ref colCor ha hb
  rw [div_self (div_pos hα hφ).ne'] at h
  revert h
  generalize measure std tgt g T vega ref colCor a b = x
  generalize measure (std.wrong α φ) (tgt.wrong α φ) g T vega ref colCor (a.times (α / φ)) (b.times (α / φ)) = y
  intro h
  cases h with
  | error e => rfl
  | @ok o o' h1 =>
    obtain ⟨e1, e2, e3, e4, e5⟩ := h1
    rw [one_mul] at e1 e2
    rw [e1, ← e5] at e3
    obtain ⟨f, fe, m, me⟩ := o
    obtain ⟨f', fe', m', me'⟩ := o'
    dsimp only at e1 e2 e3 e4
    rw [e1, e2, e3, e4]

/-- **C179** And only then: calibrations that are wrong by different factors for the two stars change every flux other than zero. -/
theorem C179_cancel_iff {α₁ φ₁ α₂ φ₂ : ℝ} (h₁ : 0 < α₁ ∧ 0 < φ₁) (h₂ : 0 < α₂ ∧ 0 < φ₂) {std tgt : Run} {g : List ℝ} {T vega ref : ℝ → ℝ}
    {colCor : Option ℝ} {a b : Aper} (ha : a.Uses std.flat) (hb : b.Uses tgt.flat) {o : FluxOut}
    (ho : measure std tgt g T vega ref colCor a b = .ok o) (h0 : o.flux ≠ 0) :
    measure (std.wrong α₁ φ₁) (tgt.wrong α₂ φ₂) g T vega ref colCor (a.times (α₁ / φ₁)) (b.times (α₂ / φ₂)) = .ok o ↔
      α₂ / φ₂ = α₁ / φ₁ := by
  have c1 : 0 < α₁ / φ₁ := div_pos h₁.1 h₁.2
  have h := C179_ratio h₁ h₂ std tgt g T vega ref colCor ha hb
  rw [ho] at h
  revert h
  generalize hy : measure (std.wrong α₁ φ₁) (tgt.wrong α₂ φ₂) g T vega ref colCor (a.times (α₁ / φ₁)) (b.times (α₂ / φ₂)) = y
  intro h
  cases h with
  | @ok _ o' h1 =>
    obtain ⟨e1, e2, e3, e4, e5⟩ := h1
    constructor
    · intro he
      cases he
      have : α₂ / φ₂ / (α₁ / φ₁) = 1 := by
        refine mul_right_cancel₀ h0 ?_
        rw [one_mul]
        exact e1.symm
      rwa [div_eq_one_iff_eq c1.ne'] at this
    · intro he
      rw [he, div_self c1.ne', one_mul] at e1 e2
      rw [e1, ← e5] at e3
      obtain ⟨f, fe, m, me⟩ := o
      obtain ⟨f', fe', m', me'⟩ := o'
      dsimp only at e1 e2 e3 e4
      rw [e1, e2, e3, e4]

/-- **C179, violated.** `dark_subtraction` compares the k-gain of a master dark with that of the frames, of noise maps it does not
(l2a_to_l2b.py 72-95), and they do not keep theirs (darks.py 730). With another k-gain and the old maps the values have no common factor: the dark, as it is left by
desmearing and flat division, is added to every pixel `α - 1` times. -/
theorem C179_violated_maps {track : Bool} {junk : Ix → ℝ} {tab : NonLin.Table ℝ} (ht : NonLin.Good tab) {off offErr k ek rowread α : ℝ}
    {m : Maps} {F : Flat} {x : Raw} {o o' : Fr} (hx : Flagged.Science x.l1)
    (h : recipe track junk tab off offErr k ek rowread m F [x] = .ok [o])
    (h' : recipe track junk tab off offErr (α * k) (α * ek) rowread m F [x] = .ok [o']) {r c : ℕ} (hr : r < 1024) (hc : c < 1024)
    (hF : F.data [r, c] ≠ 0) :
    o'.data [r, c] = α * o.data [r, c] + (α - 1) * Flagged.leak (rowread / x.fr.exptime)
      (fun s => m.F [s, c] / emGain x.fr + x.fr.exptime * m.D [s, c] + m.C [s, c]) r / F.data [r, c] := by
  have hsc : ∀ z ∈ [x], Flagged.Science z.l1 := fun z hz => by rw [List.mem_singleton.1 hz]; exact hx
  obtain ⟨z0, d, hz0, hd, hp⟩ := Flagged.recipe_px ht hsc h
  obtain ⟨z1, d', hz1, hd', hp'⟩ := Flagged.recipe_px ht hsc h'
  cases hz0
  cases hz1
  have hdata : ∀ {k ek : ℝ} {d : DarkCal}, synthDark m (emDiv (toElectrons k ek x.fr)) = .ok d →
      ∀ p, d.data p = m.F p / emGain x.fr + x.fr.exptime * m.D p + m.C p := by
    intro k ek d hd p
    unfold synthDark at hd
    split at hd
    · cases hd
    · cases hd
      rfl
  cases hp with
  | cons hp _ =>
    cases hp' with
    | cons hp' _ =>
      rw [hp.1 r c hr hc hF, hp'.1 r c hr hc hF, Flagged.leak_sub, Flagged.leak_sub]
      simp only [hdata hd, hdata hd']
      have e : (fun s => Flagged.counts tab off x s c * (α * k) / emGain x.fr) =
          fun s => α * (Flagged.counts tab off x s c * k / emGain x.fr) := by funext s; ring
      rw [e, Flagged.leak_mul]
      ring

/-- **C179, violated.** The photon noise is the square root of the electrons, so its share of the error of a pixel changes with the k-gain: with
values and errors `c` times as large the error with the photon noise is `c` times as large only without light. -/
theorem C179_violated_photon_iff {c d e g : ℝ} (hc : 0 < c) (h1 : c ≠ 1) (hd : 0 ≤ d) :
    photNoise g (c * d) (some (c * e)) = (photNoise g d (some e)).map (c * ·) ↔ d = 0 := by
  have hcd : 0 ≤ c * d := mul_nonneg hc.le hd
  have hval : ∀ x y : ℝ, 0 ≤ x → photNoise g x (some y) = some (Real.sqrt (y ^ 2 + (if 1 < g then 2 else 1) * x)) := by
    intro x y hx
    unfold photNoise
    simp only [bind, Option.bind, pure]
    rw [if_neg (not_lt.2 hx)]
    split
    · rw [mul_pow, Real.sq_sqrt hx, Real.sq_sqrt (by norm_num), mul_comm x]
    · rw [Real.sq_sqrt hx, one_mul]
  rw [hval _ _ hcd, hval _ _ hd, Option.map_some, Option.some.injEq]
  set n : ℝ := if 1 < g then 2 else 1 with hn
  have hn0 : 0 < n := by rw [hn]; split <;> norm_num
  have e1 : c * Real.sqrt (e ^ 2 + n * d) = Real.sqrt (c ^ 2 * (e ^ 2 + n * d)) := by
    rw [Real.sqrt_mul (sq_nonneg c), Real.sqrt_sq hc.le]
  rw [e1, Real.sqrt_inj (by positivity) (by positivity)]
  constructor
  · intro h
    have h2 : n * c * (c - 1) * d = 0 := by nlinarith
    rcases mul_eq_zero.1 h2 with h3 | h3
    · exact absurd h3 (mul_ne_zero (mul_ne_zero hn0.ne' hc.ne') (sub_ne_zero.2 h1))
    · exact h3
  · rintro rfl
    ring

/-! ## Not vacuous -/

/-- A star and a target four times as bright: k-gain wrong by 2, flat wrong by 3. -/
example : ∃ o, measure
      ((exRun 1 1 1 (starScene 1 (electrons 5 [1, 2, 3] (fun _ => 1) fun _ => 1) 1 fun r _ => if r < 2 then 1 else 0)).wrong 2 3)
      ((exRun 100 30 7 (starScene 100 (electrons 5 [1, 2, 3] (fun _ => 1) fun _ => 4) 2 fun r _ => if r < 2 then 1 else 0)).wrong 2 3)
      [1, 2, 3] (fun _ => 1) (fun _ => 1) (fun _ => 1) none
      (Aper.times (2 / 3) ⟨[((0, 0), 1)], fun _ => false, 1 / 2, some 1⟩)
      (Aper.times (2 / 3) ⟨[((0, 0), 1)], fun _ => false, 1 / 2, some 2⟩) = .ok o ∧
    o.flux = bandFlux [1, 2, 3] (fun _ => 1) (fun _ => 4) := by
  have hu : ∀ (t G : ℝ) (n : ℕ) (s : ℕ → ℕ → ℝ) (back : Option ℝ),
      (⟨[((0, 0), 1)], fun _ => false, 1 / 2, back⟩ : Aper).Uses (exRun t G n s).flat := by
    intro t G n s back q hq _
    simp only [List.mem_cons, List.not_mem_nil, or_false] at hq
    subst hq
    norm_num [exRun]
  rw [C179_cancel (by norm_num) (by norm_num) _ _ _ _ _ _ _ (hu _ _ _ _ _) (hu _ _ _ _ _)]
  obtain ⟨o, h1, h2, -⟩ := C154_right (vega := fun _ => 1) (exRun_observes (t := 1) (G := 1) one_pos le_rfl (n := 1) one_ne_zero _)
    (exRun_observes (t := 100) (G := 30) (by norm_num) (by norm_num) (n := 7) (by norm_num)
      (starScene 100 (electrons 5 [1, 2, 3] (fun _ => 1) fun _ => 4) 2 fun r _ => if r < 2 then 1 else 0))
    (a := ⟨[((0, 0), 1)], fun _ => false, 1 / 2, some 1⟩)
    (b := ⟨[((0, 0), 1)], fun _ => false, 1 / 2, some 2⟩) (sky₁ := 1) (A := 5) (ref := fun _ => 1)
    (psf := fun r _ => if r < 2 then 1 else 0)
    ⟨by norm_num, fun q hq hb => by
      simp only [List.mem_cons, List.not_mem_nil, or_false] at hq
      subst hq
      norm_num [exDetector], rfl⟩
    ⟨by norm_num, fun q hq hb => by
      simp only [List.mem_cons, List.not_mem_nil, or_false] at hq
      subst hq
      norm_num [exDetector], rfl⟩
    (by norm_num [exDetector]) (by norm_num [exDetector]) (by norm_num [simpson, tri]) (by norm_num)
    (by simp [Aper.light]) (by simp [Aper.light]) rfl
  exact ⟨o, h1, h2⟩

end Corgi.EndToEnd

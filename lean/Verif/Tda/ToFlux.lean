import Mathlib.Tactic.FieldSimp
import Verif.Common.Forall2
import Verif.Errors.Props

/-!
# Conversion of a dataset to flux units (C145)

`convert_to_flux` (`/repo/corgidrp/l4_to_tda.py` 138-174) for whole datasets, with `Dataset.rescale_error`
(`/repo/corgidrp/data.py` 175-198); one pixel of it is in C71.

Reals for floats; the colour correction is not zero where a value is claimed. The frames of a dataset
have one shape and one number of error layers (they are stacked by the constructor of `Dataset`).
-/

noncomputable section

namespace Corgi.ToFlux

open Corgi.Errs (Img Arr Err addError rescale addDataset DArg total individual)

/-! ## Model -/

/-- What the step uses of a frame: pixels, errors, the cards COL_COR, BUNIT and FLUXFAC. -/
structure Frame where
  data : List ℕ → ℝ
  img : Img
  colCor : Option ℝ
  bunit : String
  fluxfac : Option ℝ

/-- `a[i]` -/
def item (a : Arr) (i : ℕ) : Except Err Arr :=
  match a.shape with
  | n :: sh => if i < n then .ok ⟨sh, fun p => a.val (i :: p)⟩ else .error .indexError
  | [] => .error .indexError

/-- The loop over the frames of data.py 185-186, from frame `i` on. -/
def rescaleEach (a : Arr) (name : String) : ℕ → List Img → Except Err (List Img)
  | _, [] => .ok []
  | i, f :: fs => do
    let e ← item a i
    let f' ← rescale e name f
    let fs' ← rescaleEach a name (i + 1) fs
    return f' :: fs'

/-- `Dataset.rescale_error` (data.py 184-193); the numbers of layers do not change, so that they still stack (196). -/
def rescaleDataset (a : Arr) (name : String) (fs : List Img) : Except Err (List Img) :=
  if a.ndim = 3 then rescaleEach a name 0 fs
  else if a.ndim = 2 then fs.mapM (rescale a name)
  else .error .valueError

/-- `convert_to_flux` (l4_to_tda.py 151-174). The colour correction is that of the first frame. -/
def convert (track : Bool) (fac facErr : ℝ) (fs : List Frame) : Except Err (List Frame) :=
  match fs with
  | [] => .error .indexError
  | f0 :: _ => do
    let k := f0.colCor.getD 1
    let is1 ← rescaleDataset ⟨f0.img.shape, fun _ => fac / k⟩ "fluxcal_factor" (fs.map Frame.img)
    let is2 ← addDataset track (.perFrame (fs.map fun f => ⟨f.img.shape, fun p => f.data p * (facErr / k)⟩))
      "fluxcal_error" is1
    return List.zipWith (fun f i => { f with
      data := fun p => f.data p * (fac / k), img := i, bunit := "erg/(s*cm^2*AA)", fluxfac := some fac }) fs is2

/-! ## Specification -/

/-- A dataset. -/
structure Dataset (sh : List ℕ) (fs : List Frame) : Prop where
  ne : fs ≠ []
  shape : ∀ f ∈ fs, f.img.shape = sh
  layers : ∃ n, 0 < n ∧ ∀ f ∈ fs, f.img.layers.length = n

/-- `g` is `f` times `c`, where the relative uncertainty of `c` is that of a factor `x` with uncertainty `ex` and
`c = x / k`. -/
structure Converted (c ec : ℝ) (f g : Frame) : Prop where
  data : ∀ p, g.data p = f.data p * c
  err : ∀ p, total g.img p = Real.sqrt ((total f.img p * c) ^ 2 + (f.data p * ec) ^ 2)
  shape : g.img.shape = f.img.shape
  unit : g.bunit = "erg/(s*cm^2*AA)"
  col : g.colCor = f.colCor

/-! ## Proofs -/

theorem mapM_of {α β ε : Type} {f : α → Except ε β} {g : α → β} {l : List α} (h : ∀ a ∈ l, f a = .ok (g a)) :
    l.mapM f = .ok (l.map g) := by
  induction l with
  | nil => rfl
  | cons a l ih =>
    rw [List.mapM_cons, h a (by simp), ih fun b hb => h b (by simp [hb])]
    rfl

/-- The effect of `rescale` where it succeeds. -/
def scaled (c : List ℕ → ℝ) (name : String) (i : Img) : Img :=
  { i with
    layers := i.layers.map (fun l p => l p * c p)
    names := Function.update i.names 1 (some "combined_error")
    history := i.history ++ ["Errors rescaled by: " ++ name] }

theorem rescale_ok {e : Arr} {n : String} {i : Img} (h2 : e.shape.length = 2) (hs : e.shape = i.shape) :
    rescale e n i = .ok (scaled e.val n i) := by
  unfold rescale
  rw [if_neg (by rintro (h | h); exacts [h h2, h hs])]
  rfl

/-- The effect of `addError` where it succeeds, on the total. -/
theorem addPerFrame_ok {track : Bool} {n : String} : ∀ {is : List Img} {es : List Arr},
    List.Forall₂ (fun i e => Errs.Fits i e ∧ i.layers ≠ []) is es →
    ∃ rs, Errs.addPerFrame track n es is = .ok rs ∧
      List.Forall₂ (fun (ie : Img × Arr) r => addError track ie.2 n ie.1 = .ok r) (is.zip es) rs
  | [], [], _ => ⟨[], rfl, .nil⟩
  | i :: is, e :: es, .cons h t => by
    obtain ⟨r, hr⟩ := (Errs.addError_ok_iff track e n i).2 h
    obtain ⟨rs, h1, h2⟩ := addPerFrame_ok (track := track) (n := n) t
    refine ⟨r :: rs, ?_, .cons hr h2⟩
    simp only [Errs.addPerFrame, hr, h1]
    rfl

theorem addError_length {track : Bool} {e : Arr} {n : String} {i r : Img} (h : addError track e n i = .ok r) :
    r.layers.length = i.layers.length + if track then 1 else 0 := by
  unfold addError at h
  split at h
  · cases h
  · split at h
    · cases h
    · rename_i l0 ls hl
      cases track with
      | true => simp at h; subst h; simp [hl]
      | false => simp at h; subst h; simp [hl]

theorem addDataset_ok {track : Bool} {n : String} {is : List Img} {es : List Arr} {m : ℕ}
    (hm : ∀ i ∈ is, i.layers.length = m) (h : List.Forall₂ (fun i e => Errs.Fits i e ∧ i.layers ≠ []) is es) :
    ∃ rs, addDataset track (.perFrame es) n is = .ok rs ∧
      List.Forall₂ (fun (ie : Img × Arr) r => addError track ie.2 n ie.1 = .ok r) (is.zip es) rs := by
  obtain ⟨rs, h1, h2⟩ := addPerFrame_ok (track := track) (n := n) h
  refine ⟨rs, ?_, h2⟩
  have hlen : ∀ r ∈ rs, r.layers.length = m + if track then 1 else 0 := by
    intro r hr
    obtain ⟨ie, hie, he⟩ := forall₂_left h2.flip hr
    rw [addError_length he, hm ie.1 (List.of_mem_zip hie).1]
  simp only [addDataset, h1, bind, Except.bind]
  cases rs with
  | nil => rfl
  | cons r rs =>
    dsimp only
    rw [if_pos]
    · rfl
    · rw [List.all_eq_true]
      intro i hi
      simp only [decide_eq_true_eq]
      rw [hlen i hi, hlen r (by simp)]

/-- The colour correction that is used. -/
def colour (fs : List Frame) : ℝ := ((fs.head?.bind Frame.colCor).getD 1)

theorem scaled_total (c : ℝ) (n : String) (i : Img) (h : i.layers ≠ []) (p : List ℕ) :
    total (scaled (fun _ => c) n i) p = total i p * c := by
  unfold total scaled
  cases hl : i.layers with
  | nil => exact absurd hl h
  | cons a l => simp

/-- What is returned for images: all at once. -/
theorem convert_eq {track : Bool} {fac facErr : ℝ} {sh : List ℕ} {fs : List Frame} (hd : Dataset sh fs)
    (h2 : sh.length = 2) :
    ∃ is2, convert track fac facErr fs = .ok (List.zipWith (fun f i => { f with
      data := fun p => f.data p * (fac / colour fs), img := i, bunit := "erg/(s*cm^2*AA)", fluxfac := some fac }) fs is2) ∧
      List.Forall₂ (fun f i => addError track ⟨f.img.shape, fun p => f.data p * (facErr / colour fs)⟩ "fluxcal_error"
        (scaled (fun _ => fac / colour fs) "fluxcal_factor" f.img) = .ok i) fs is2 := by
  obtain ⟨m, hm, hlay⟩ := hd.layers
  cases fs with
  | nil => exact absurd rfl hd.ne
  | cons f0 l =>
    have hk : f0.colCor.getD 1 = colour (f0 :: l) := by simp [colour]
    set fs := f0 :: l with hfs
    have h1 : rescaleDataset ⟨f0.img.shape, fun _ => fac / colour fs⟩ "fluxcal_factor" (fs.map Frame.img)
        = .ok ((fs.map Frame.img).map (scaled (fun _ => fac / colour fs) "fluxcal_factor")) := by
      have hs0 : f0.img.shape = sh := hd.shape f0 (by simp [hfs])
      unfold rescaleDataset Errs.Arr.ndim
      rw [if_neg (by show ¬ f0.img.shape.length = 3; rw [hs0, h2]; norm_num),
        if_pos (by show f0.img.shape.length = 2; rw [hs0, h2])]
      refine mapM_of fun i hi => ?_
      obtain ⟨f, hf, rfl⟩ := List.mem_map.1 hi
      exact rescale_ok (by show f0.img.shape.length = 2; rw [hs0, h2])
        (by show f0.img.shape = _; rw [hs0, hd.shape f hf])
    have hfor : List.Forall₂ (fun i e => Errs.Fits i e ∧ i.layers ≠ [])
        ((fs.map Frame.img).map (scaled (fun _ => fac / colour fs) "fluxcal_factor"))
        (fs.map fun f => (⟨f.img.shape, fun p => f.data p * (facErr / colour fs)⟩ : Arr)) := by
      rw [List.map_map, List.forall₂_map_left_iff, List.forall₂_map_right_iff, List.forall₂_same]
      intro f hf
      refine ⟨⟨Or.inl ?_, rfl⟩, ?_⟩
      · show f.img.shape.length = 2
        rw [hd.shape f hf, h2]
      · intro h0
        have h0' : f.img.layers.map (fun l p => l p * (fac / colour fs)) = [] := h0
        rw [List.map_eq_nil_iff] at h0'
        have := hlay f hf
        rw [h0'] at this
        simp at this
        omega
    obtain ⟨rs, h3, h4⟩ := addDataset_ok (track := track) (n := "fluxcal_error") (m := m) (by
      intro i hi
      rw [List.map_map] at hi
      obtain ⟨f, hf, rfl⟩ := List.mem_map.1 hi
      show (f.img.layers.map _).length = m
      rw [List.length_map]
      exact hlay f hf) hfor
    refine ⟨rs, ?_, ?_⟩
    · show (do
        let is1 ← rescaleDataset ⟨f0.img.shape, fun _ => fac / f0.colCor.getD 1⟩ "fluxcal_factor" (fs.map Frame.img)
        let is2 ← addDataset track (.perFrame (fs.map fun f => ⟨f.img.shape, fun p => f.data p * (facErr / f0.colCor.getD 1)⟩))
          "fluxcal_error" is1
        return List.zipWith (fun f i => { f with
          data := fun p => f.data p * (fac / f0.colCor.getD 1), img := i, bunit := "erg/(s*cm^2*AA)",
          fluxfac := some fac }) fs is2 : Except Err (List Frame)) = _
      rw [hk, h1]
      simp only [bind, Except.bind]
      rw [h3]
      rfl
    · rw [List.map_map, List.zip_map', List.forall₂_map_left_iff] at h4
      exact h4

/-- **C145.** Images are converted: data and errors by one factor, the uncertainty of the factor added in quadrature. -/
theorem C145_converted {track : Bool} {fac facErr : ℝ} {sh : List ℕ} {fs : List Frame} (hd : Dataset sh fs)
    (h2 : sh.length = 2) :
    ∃ out, convert track fac facErr fs = .ok out ∧
      List.Forall₂ (Converted (fac / colour fs) (facErr / colour fs)) fs out := by
  obtain ⟨is2, h, hf⟩ := convert_eq (track := track) (fac := fac) (facErr := facErr) hd h2
  refine ⟨_, h, ?_⟩
  obtain ⟨m, hm, hlay⟩ := hd.layers
  rw [List.forall₂_iff_get] at hf ⊢
  refine ⟨by rw [List.length_zipWith, ← hf.1, Nat.min_self], fun i h1 h3 => ?_⟩
  have hi2 : i < is2.length := by rw [← hf.1]; exact h1
  have he := hf.2 i h1 hi2
  have hl : (fs.get ⟨i, h1⟩).img.layers ≠ [] := by
    intro h0
    have := hlay _ (List.get_mem fs ⟨i, h1⟩)
    rw [h0] at this
    simp at this
    omega
  have eff := Errs.addError_effect he
  simp only [List.get_eq_getElem, List.getElem_zipWith]
  refine ⟨fun p => rfl, fun p => ?_, eff.1, rfl, rfl⟩
  show total (is2[i]) p = _
  have e3 := eff.2.2.2.1 p
  rw [scaled_total _ _ _ hl] at e3
  exact e3

/-- **C145.** Exactly two-dimensional frames are converted. -/
theorem C145_accepts_iff (track : Bool) (fac facErr : ℝ) {sh : List ℕ} {fs : List Frame} (hd : Dataset sh fs) :
    (∃ out, convert track fac facErr fs = .ok out) ↔ sh.length = 2 := by
  constructor
  · rintro ⟨out, h⟩
    by_contra h2
    cases fs with
    | nil => exact hd.ne rfl
    | cons f0 l =>
      have hs0 : f0.img.shape = sh := hd.shape f0 (by simp)
      have he : ∀ c, ∃ e, rescaleDataset ⟨f0.img.shape, fun _ => c⟩ "fluxcal_factor" ((f0 :: l).map Frame.img) = .error e := by
        intro c
        unfold rescaleDataset Errs.Arr.ndim
        by_cases h3 : f0.img.shape.length = 3
        · rw [if_pos h3, List.map_cons]
          rcases hsh : f0.img.shape with _ | ⟨n, sh'⟩
          · rw [hsh] at h3; cases h3
          · unfold rescaleEach item
            dsimp only
            by_cases hn : 0 < n
            · rw [if_pos hn]
              simp only [bind, Except.bind]
              rw [show rescale ⟨sh', fun _ => c⟩ "fluxcal_factor" f0.img = .error .valueError from by
                unfold rescale
                rw [if_pos (Or.inr (by
                  show sh' ≠ f0.img.shape
                  rw [hsh]
                  intro h0
                  have := congrArg List.length h0
                  simp at this))]]
              exact ⟨_, rfl⟩
            · rw [if_neg hn]
              exact ⟨_, rfl⟩
        · rw [if_neg h3, if_neg (by show ¬ f0.img.shape.length = 2; rw [hs0]; exact h2)]
          exact ⟨_, rfl⟩
      obtain ⟨e, he⟩ := he (fac / f0.colCor.getD 1)
      unfold convert at h
      simp only [bind, Except.bind] at h
      rw [he] at h
      cases h
  · intro h2
    obtain ⟨out, h, _⟩ := C145_converted (track := track) (fac := fac) (facErr := facErr) hd h2
    exact ⟨out, h⟩

/-- **C145.** The relative uncertainties of image and factor add in quadrature; the colour correction does not enter. -/
theorem C145_relative {c ec fac facErr k : ℝ} {f g : Frame} (h : Converted c ec f g) (hc : c = fac / k) (he : ec = facErr / k)
    (hf : fac ≠ 0) (hk : k ≠ 0) {p : List ℕ} (hp : f.data p ≠ 0) :
    (total g.img p / g.data p) ^ 2 = (total f.img p / f.data p) ^ 2 + (facErr / fac) ^ 2 := by
  rw [h.data, h.err, div_pow, Real.sq_sqrt (by positivity), hc, he]
  field_simp

/-- **C145.** With tracking, every error layer is converted and the uncertainty of the factor is a layer of its own. -/
theorem C145_layers {track : Bool} {fac facErr : ℝ} {sh : List ℕ} {fs : List Frame} (hd : Dataset sh fs)
    (h2 : sh.length = 2) :
    ∃ out, convert track fac facErr fs = .ok out ∧ List.Forall₂ (fun f g => individual g.img =
      (individual f.img).map (fun l p => l p * (fac / colour fs)) ++
        if track then [fun p => f.data p * (facErr / colour fs)] else []) fs out := by
  obtain ⟨is2, h, hf⟩ := convert_eq (track := track) (fac := fac) (facErr := facErr) hd h2
  refine ⟨_, h, ?_⟩
  rw [List.forall₂_iff_get] at hf ⊢
  refine ⟨by rw [List.length_zipWith, ← hf.1, Nat.min_self], fun i h1 h3 => ?_⟩
  have hi2 : i < is2.length := by rw [← hf.1]; exact h1
  have eff := Errs.addError_effect (hf.2 i h1 hi2)
  simp only [List.get_eq_getElem, List.getElem_zipWith]
  show individual (is2[i]) = _
  have e := eff.2.2.2.2.1
  simp only [List.get_eq_getElem] at e
  rw [e]
  congr 1
  show (List.map _ _).tail = _
  rw [← List.map_tail]
  rfl

/-- **C145.** A frame is converted with its own colour correction exactly if it is the same as that of the first frame. -/
theorem C145_violated_colour_iff {fac facErr : ℝ} {fs : List Frame} {f g : Frame} {own : ℝ}
    (h : Converted (fac / colour fs) (facErr / colour fs) f g) (hf : fac ≠ 0) (hk : colour fs ≠ 0) (ho : own ≠ 0)
    {p : List ℕ} (hp : f.data p ≠ 0) : g.data p = f.data p * (fac / own) ↔ own = colour fs := by
  rw [h.data]
  constructor
  · intro e
    have e1 := mul_left_cancel₀ hp e
    field_simp at e1
    exact e1
  · rintro rfl
    rfl

/-- **C145.** Converted frames are accepted again: nothing looks at the unit, and the data are multiplied twice. -/
theorem C145_violated_twice {track : Bool} {fac facErr : ℝ} {sh : List ℕ} {fs : List Frame} (hd : Dataset sh fs)
    (h2 : sh.length = 2) :
    ∃ out out2, convert track fac facErr fs = .ok out ∧ convert track fac facErr out = .ok out2 ∧
      List.Forall₂ (fun f g => ∀ p, g.data p = f.data p * (fac / colour fs) ^ 2) fs out2 := by
  obtain ⟨out, h, hc⟩ := C145_converted (track := track) (fac := fac) (facErr := facErr) hd h2
  obtain ⟨out', h', hl⟩ := C145_layers (track := track) (fac := fac) (facErr := facErr) hd h2
  rw [h] at h'
  have := Except.ok.inj h'
  subst this
  obtain ⟨m, hm, hlay⟩ := hd.layers
  have hd' : Dataset sh out := by
    obtain ⟨is2, h3, hf⟩ := convert_eq (track := track) (fac := fac) (facErr := facErr) hd h2
    rw [h] at h3
    have h4 := Except.ok.inj h3
    refine ⟨?_, ?_, m + if track then 1 else 0, by omega, ?_⟩
    · intro h0
      have := hc.length_eq
      rw [h0] at this
      exact hd.ne (List.eq_nil_of_length_eq_zero this)
    · intro g hg
      obtain ⟨f, hfm, hfg⟩ := forall₂_left hc.flip hg
      rw [hfg.shape, hd.shape f hfm]
    · intro g hg
      rw [h4] at hg
      obtain ⟨i, hi, rfl⟩ := List.mem_iff_getElem.1 hg
      rw [List.getElem_zipWith]
      rw [List.forall₂_iff_get] at hf
      have hi1 : i < fs.length := by rw [List.length_zipWith] at hi; omega
      have hi2 : i < is2.length := by rw [List.length_zipWith] at hi; omega
      have e := addError_length (hf.2 i hi1 hi2)
      show (is2[i]).layers.length = _
      simp only [List.get_eq_getElem] at e
      rw [e]
      show (List.map _ _).length + _ = _
      rw [List.length_map, hlay _ (List.getElem_mem hi1)]
  obtain ⟨out2, h5, hc2⟩ := C145_converted (track := track) (fac := fac) (facErr := facErr) hd' h2
  have hcol : colour out = colour fs := by
    unfold colour
    cases hc with
    | nil => rfl
    | cons hcf _ => simp [hcf.col]
  refine ⟨out, out2, h, h5, ?_⟩
  refine forall₂_trans (fun f g k h1 h2 p => ?_) hc hc2
  rw [h2.data, h1.data, hcol]
  ring

/-- **C145.** Frames of three dimensions (one plane per KL mode, as `measure_noise`, klip_fm.py 104-111, describes them) are
refused. -/
theorem C145_violated_cube (track : Bool) (fac facErr : ℝ) {n r c : ℕ} (hn : 0 < n) {fs : List Frame}
    (hd : Dataset [n, r, c] fs) : convert track fac facErr fs = .error .valueError := by
  cases fs with
  | nil => exact absurd rfl hd.ne
  | cons f0 l =>
    have hs0 : f0.img.shape = [n, r, c] := hd.shape f0 (by simp)
    have hr : ∀ v, rescale ⟨[r, c], fun _ => v⟩ "fluxcal_factor" f0.img = .error .valueError := by
      intro v
      unfold rescale
      rw [if_pos (Or.inr (by rw [hs0]; simp))]
    unfold convert
    simp only [hs0, rescaleDataset, Errs.Arr.ndim, List.length_cons, List.length_nil, List.map_cons, rescaleEach, item,
      if_pos hn, bind, Except.bind, hr]
    rfl

/-! ## `Dataset.rescale_error` -/

theorem rescaleEach_iff (a : Arr) (name : String) {n r c : ℕ} (ha : a.shape = [n, r, c]) (fs : List Img) (i : ℕ) :
    (∃ out, rescaleEach a name i fs = .ok out) ↔ (fs ≠ [] → i + fs.length ≤ n) ∧ ∀ f ∈ fs, f.shape = [r, c] := by
  induction fs generalizing i with
  | nil => simp [rescaleEach]
  | cons f fs ih =>
    unfold rescaleEach item
    rw [ha]
    dsimp only
    by_cases hi : i < n
    · rw [if_pos hi]
      by_cases hf : f.shape = [r, c]
      · rw [show (Except.ok ⟨[r, c], fun p => a.val (i :: p)⟩ >>= fun e => rescale e name f >>= fun f' =>
            rescaleEach a name (i + 1) fs >>= fun fs' => pure (f' :: fs') : Except Err (List Img)) =
            (rescaleEach a name (i + 1) fs >>= fun fs' => pure (scaled (fun p => a.val (i :: p)) name f :: fs')) from by
          simp only [bind, Except.bind]
          rw [rescale_ok (by rfl) (by rw [hf])]]
        have := ih (i + 1)
        constructor
        · rintro ⟨out, h⟩
          cases hr : rescaleEach a name (i + 1) fs with
          | error e => rw [hr] at h; cases h
          | ok o =>
            obtain ⟨h1, h2⟩ := this.1 ⟨o, hr⟩
            refine ⟨fun _ => ?_, ?_⟩
            · cases fs with
              | nil => simp; omega
              | cons g gs => have := h1 (by simp); simp at this ⊢; omega
            · intro g hg
              rcases List.mem_cons.1 hg with rfl | hg
              · exact hf
              · exact h2 g hg
        · rintro ⟨h1, h2⟩
          have h3 := h1 (by simp)
          obtain ⟨o, ho⟩ := this.2 ⟨fun _ => by simp at h3; omega, fun g hg => h2 g (by simp [hg])⟩
          rw [ho]
          exact ⟨_, rfl⟩
      · constructor
        · rintro ⟨out, h⟩
          simp only [bind, Except.bind] at h
          rw [show rescale ⟨[r, c], fun p => a.val (i :: p)⟩ name f = .error .valueError from by
            unfold rescale; rw [if_pos (Or.inr (fun h => hf h.symm))]] at h
          cases h
        · rintro ⟨_, h2⟩
          exact absurd (h2 f (by simp)) hf
    · rw [if_neg hi]
      constructor
      · rintro ⟨out, h⟩; cases h
      · rintro ⟨h1, _⟩
        have := h1 (by simp)
        simp at this
        omega

/-- **C145.** A stack of factors is accepted exactly if it has at least one entry per frame, of the shape of the frames:
surplus entries go unnoticed. -/
theorem C145_stack_iff (a : Arr) (name : String) {n r c : ℕ} (ha : a.shape = [n, r, c]) (fs : List Img) :
    (∃ out, rescaleDataset a name fs = .ok out) ↔ fs.length ≤ n ∧ ∀ f ∈ fs, f.shape = [r, c] := by
  unfold rescaleDataset Errs.Arr.ndim
  rw [ha, if_pos (by simp), rescaleEach_iff a name ha fs 0]
  cases fs with
  | nil => simp
  | cons f l => simp

/-- A dataset of two frames with different colour corrections. -/
example : ∃ fs : List Frame, Dataset [2, 2] fs ∧ colour fs = 2 ∧ ∃ f ∈ fs, f.colCor = some 4 ∧ f.data [0, 0] ≠ 0 :=
  ⟨[⟨fun _ => 1, ⟨[2, 2], [fun _ => 1], fun _ => none, []⟩, some 2, "photoelectrons/s", none⟩,
    ⟨fun _ => 3, ⟨[2, 2], [fun _ => 1], fun _ => none, []⟩, some 4, "photoelectrons/s", none⟩],
    ⟨by simp, by simp, 1, by simp, by simp⟩, by simp [colour], _, List.mem_cons_of_mem _ (List.mem_singleton.2 rfl), rfl, by simp⟩

example : ∃ fs : List Frame, Dataset [5, 2, 2] fs :=
  ⟨[⟨fun _ => 1, ⟨[5, 2, 2], [fun _ => 1], fun _ => none, []⟩, none, "photoelectrons/s", none⟩], by simp, by simp, 1, by simp, by simp⟩

end Corgi.ToFlux

import Verif.PhotonCount.Newton
import Verif.Common.Except
import Mathlib.Data.List.Perm.Basic
import Mathlib.Algebra.BigOperators.Group.List.Basic

/-!
# `get_pc_mean` (photon_counting.py 39-335): model, C35, C37, C50, C51 and C52

A frame is its header fields, its file name and the pixel values; `none` is NaN. The header fields are assumed present
(a missing one is a KeyError), the gain is assumed nonzero in the theorems that use it.
-/

noncomputable section

namespace Corgi.Pc

open Real

/-! ## Model -/

structure Hdr where
  exptime : ℝ
  emC : ℝ
  kgain : ℝ
  rn : ℝ
  emA : ℝ
  emM : Option ℝ
  vistype : String
  ispc : Option Bool

structure Frame where
  name : String
  hdr : Hdr
  data : ℕ → Option ℝ
  err : ℕ → Option ℝ
  dq : ℕ → ℕ

/-- The photon-counted master dark: header fields and slices (mean, error, flag of each pixel). -/
structure MasterDark where
  pcStat : Option String
  thresh : Option ℝ
  numFr : ℕ
  slices : List ((ℕ → Option ℝ) × (ℕ → Option ℝ) × (ℕ → ℕ))

structure Params where
  tFactor : ℝ
  ecountMax : ℝ
  niter : ℕ
  npix : ℕ
  considered : ℕ → Bool
  safemode : Bool
  mode : String
  dark : Option MasterDark

/-- One output slice. -/
structure Slice where
  mean : ℕ → Option ℝ
  err : ℕ → Option ℝ
  dq : ℕ → ℕ
  thresh : ℝ
  numFr : ℕ
  vistype : String
  parents : List String

open Classical in
/-- `photon_count`, lines 39-61, for one value; a comparison with NaN is False. -/
def photonCount (thresh : ℝ) : Option ℝ → ℕ
  | some v => if thresh < v then 1 else 0
  | none => 0

/-- lines 236-238: `bool_map`, 1 where unmasked, NaN where masked -/
def boolMap (q : ℕ) : Option ℕ := if q ≠ 0 then none else some 1

def nansum (l : List (Option ℕ)) : ℕ := (l.filterMap id).sum

/-- line 239 -/
def nframes (fs : List Frame) (p : ℕ) : ℕ := nansum (fs.map fun f => boolMap (f.dq p))

/-- lines 235, 243, 247 (and 241-249 for the bounds): the co-added counts of the values `v` -/
def coadd (thresh : ℝ) (v : Frame → ℕ → Option ℝ) (fs : List Frame) (p : ℕ) : ℕ :=
  nansum (fs.map fun f => (boolMap (f.dq p)).map fun b => photonCount thresh (v f p) * b)

def plus (f : Frame) (p : ℕ) : Option ℝ := do return (← f.data p) + (← f.err p)
def minus (f : Frame) (p : ℕ) : Option ℝ := do return (← f.data p) - (← f.err p)

open Classical in
/-- lines 202-209: the EM gain -/
def emGain (h : Hdr) : ℝ := match h.emM with
  | some g => g
  | none => if 0 < h.emA then h.emA else h.emC

/-- `corr_photon_count` on the whole frame -/
def corr (P : Params) (t g : ℝ) (fs : List Frame) (v : Frame → ℕ → Option ℝ) : Except Err (ℕ → Option ℝ) := do
  let l ← corrPhotonCount ((List.range P.npix).map fun p => (coadd t v fs p, nframes fs p, P.considered p)) t g P.niter
  return fun p => (l[p]?).getD none

/-- lines 265-268: the error of one pixel -/
def pcErr (t g : ℝ) (n : ℕ) (m up low : Option ℝ) : Option ℝ := do
  let m ← m
  let up ← up
  let low ← low
  if n = 0 then none
  else
    let var := varL23 g m t n
    return max ((up + var) - m) (m - (low - var))

open Classical in
/-- lines 276-291: checks of the master dark -/
def checkDark (t : ℝ) (n : ℕ) (d : MasterDark) : Except Err Unit :=
  if d.pcStat ≠ some "photon-counted master dark" then .error .dark
  else match d.thresh with
    | none => .error .dark
    | some t' => if t' ≠ t then .error .dark else if d.numFr < n then .error .dark else .ok ()

/-- lines 265-308: error, flag, dark subtraction and header of one bin -/
def pcFinish (P : Params) (i : ℕ) (fs : List Frame) (vis : String) (t g : ℝ) (m up low : ℕ → Option ℝ) :
    Except Err Slice :=
  let e : ℕ → Option ℝ := fun p => pcErr t g (nframes fs p) (m p) (up p) (low p)
  let q : ℕ → ℕ := fun p => if nframes fs p = 0 then 1 else 0
  match P.dark with
  | none =>
    .ok { mean := fun p => (m p).map fun x => max x 0, err := fun p => (e p).map fun x => sqrt (x ^ 2 + 0 ^ 2),
          dq := fun p => q p ||| 0, thresh := t, numFr := fs.length, vistype := vis, parents := fs.map Frame.name }
  | some d =>
    match checkDark t fs.length d with
    | .error er => .error er
    | .ok _ =>
      match d.slices[i % d.slices.length]? with
      | none => .error .dark
      | some s =>
        .ok { mean := fun p => do return max ((← m p) - (← s.1 p)) 0,
              err := fun p => do return sqrt ((← e p) ^ 2 + (← s.2.1 p) ^ 2),
              dq := fun p => q p ||| s.2.2 p, thresh := t, numFr := fs.length, vistype := vis,
              parents := fs.map Frame.name }

open Classical in
/-- lines 153-312: bin number `i` with the frames `fs` -/
def pcBin (P : Params) (i : ℕ) (fs : List Frame) : Except Err Slice :=
  match fs with
  | [] => .error .value
  | f0 :: _ =>
    if fs.any fun f => decide ((f.hdr.exptime, f.hdr.emC, f.hdr.kgain, f.hdr.rn) ≠
      (f0.hdr.exptime, f0.hdr.emC, f0.hdr.kgain, f0.hdr.rn)) then .error .mixed
    else if fs.any fun f => decide (f.hdr.vistype ≠ f0.hdr.vistype) then .error .vistype
    else if f0.hdr.vistype = "DARK" ∧ P.mode ≠ "darks" then .error .mode
    else if f0.hdr.vistype = "DARK" ∧ P.dark.isSome then .error .mode
    else if f0.hdr.vistype ≠ "DARK" ∧ P.mode ≠ "illuminated" then .error .mode
    else if f0.hdr.ispc = some false then .error .ispc
    else
      let t := P.tFactor * f0.hdr.rn
      let g := emGain f0.hdr
      let vals := ((List.range P.npix).filter P.considered).flatMap fun p => fs.filterMap fun f => f.data p
      if t < 0 then .error .thresh
      else if g ≤ t ∧ P.safemode then .error .gain
      else if vals ≠ [] ∧ P.ecountMax < (vals.map (· / g)).sum / vals.length ∧ P.safemode then .error .ecount
      else if f0.hdr.rn ≤ 0 then .error .readNoise
      else
        match corr P t g fs Frame.data with
        | .error e => .error e
        | .ok m =>
          match corr P t g fs plus with
          | .error e => .error e
          | .ok up =>
            match corr P t g fs minus with
            | .error e => .error e
            | .ok low => pcFinish P i fs f0.hdr.vistype t g m up low

inductive Output
  | illuminated (images : List Slice)
  | dark (slices : List Slice) (thresh : ℝ) (numFr : ℕ) (parents : List String)

/-- the frames of bin `i`, line 153 -/
def binFrames (b i : ℕ) (ds : List Frame) : List Frame := (ds.drop (b * i)).take b

/-- `get_pc_mean`, lines 136-335; `bin` is `bin_size` (an integer if given). -/
def getPcMean (P : Params) (bin : Option ℤ) (ds : List Frame) : Except Err Output :=
  if P.niter < 1 then .error .notInt
  else
    let b : ℤ := bin.getD ds.length
    if b ≤ 0 then .error .type
    else if (ds.length : ℤ) < b then .error .value
    else
      let bs := b.toNat
      let numBins := ds.length / bs
      let last := numBins * (ds.length / numBins)
      do
        let out ← (List.range numBins).mapM fun i => pcBin P i (binFrames bs i ds)
        match out.getLast? with
        | none => .error .value
        | some s =>
          if s.vistype ≠ "DARK" then return .illuminated out
          else return .dark out s.thresh s.numFr ((ds.take last).map Frame.name)

/-! ## C35 -/

/-- **C35** `photon_count` is 1 exactly where the value exceeds the threshold, else 0. -/
theorem C35_photon_count (t : ℝ) (v : Option ℝ) :
    (photonCount t v = 1 ↔ ∃ x, v = some x ∧ t < x) ∧ (photonCount t v = 0 ∨ photonCount t v = 1) := by
  cases v with
  | none => simp [photonCount]
  | some x => by_cases h : t < x <;> simp [photonCount, h]

theorem nansum_boolMap (fs : List Frame) (p : ℕ) : nframes fs p = (fs.filter fun f => f.dq p = 0).length := by
  unfold nframes nansum
  induction fs with
  | nil => rfl
  | cons f fs ih =>
    rw [List.map_cons, List.filterMap_cons, List.filter_cons]
    by_cases h : f.dq p = 0
    · have hb : boolMap (f.dq p) = some 1 := by simp [boolMap, h]
      rw [hb, id]
      dsimp only
      rw [List.sum_cons, ih, if_pos (by simpa using h), List.length_cons]; omega
    · have hb : boolMap (f.dq p) = none := by simp [boolMap, h]
      rw [hb, id]
      dsimp only
      rw [ih, if_neg (by simpa using h)]

open Classical in
/-- **C35** The co-added count is the number of unmasked frames above threshold. -/
theorem C35_coadd (t : ℝ) (v : Frame → ℕ → Option ℝ) (fs : List Frame) (p : ℕ) :
    coadd t v fs p = (fs.filter fun f => decide (f.dq p = 0 ∧ ∃ x, v f p = some x ∧ t < x)).length := by
  unfold coadd nansum
  induction fs with
  | nil => rfl
  | cons f fs ih =>
    rw [List.map_cons, List.filterMap_cons, List.filter_cons]
    by_cases h : f.dq p = 0
    · have hb : boolMap (f.dq p) = some 1 := by simp [boolMap, h]
      rw [hb, Option.map_some, id, mul_one]
      dsimp only
      rw [List.sum_cons, ih]
      rcases (C35_photon_count t (v f p)).2 with h0 | h1
      · have : ¬ ∃ x, v f p = some x ∧ t < x := by
          rw [← (C35_photon_count t (v f p)).1, h0]; omega
        rw [h0, if_neg (by simpa [h] using this), Nat.zero_add]
      · have : ∃ x, v f p = some x ∧ t < x := (C35_photon_count t (v f p)).1.1 h1
        rw [h1, if_pos (by rw [decide_eq_true_eq]; exact ⟨h, this⟩), List.length_cons]; omega
    · have hb : boolMap (f.dq p) = none := by simp [boolMap, h]
      rw [hb, Option.map_none, id]
      dsimp only
      rw [ih, if_neg (by simp [h])]

/-- **C35** It never exceeds the number of unmasked frames. -/
theorem C35_le (t : ℝ) (v : Frame → ℕ → Option ℝ) (fs : List Frame) (p : ℕ) : coadd t v fs p ≤ nframes fs p := by
  classical
  rw [C35_coadd, nansum_boolMap]
  apply List.Sublist.length_le
  apply List.monotone_filter_right
  intro f h
  simp only [decide_eq_true_eq] at h ⊢
  exact h.1

/-- **C35** Counts do not depend on the order of the frames. -/
theorem C35_order (t : ℝ) (v : Frame → ℕ → Option ℝ) {fs fs' : List Frame} (h : fs.Perm fs') (p : ℕ) :
    coadd t v fs p = coadd t v fs' p ∧ nframes fs p = nframes fs' p := by
  classical
  rw [C35_coadd, C35_coadd, nansum_boolMap, nansum_boolMap]
  exact ⟨(h.filter _).length_eq, (h.filter _).length_eq⟩

/-- **C35** The value of a masked pixel is irrelevant, be it NaN. -/
theorem C35_masked_irrelevant (t : ℝ) (fs fs' : List Frame) (p : ℕ)
    (h : List.Forall₂ (fun f f' : Frame => f.dq p = f'.dq p ∧ (f.dq p = 0 → f.data p = f'.data p)) fs fs') :
    coadd t Frame.data fs p = coadd t Frame.data fs' p ∧ nframes fs p = nframes fs' p := by
  classical
  rw [C35_coadd, C35_coadd, nansum_boolMap, nansum_boolMap]
  induction h with
  | nil => exact ⟨rfl, rfl⟩
  | cons hd _ ih =>
    rename_i f f' l l' _
    rw [List.filter_cons, List.filter_cons, List.filter_cons, List.filter_cons]
    by_cases h0 : f.dq p = 0
    · rw [← hd.1, hd.2 h0]
      refine ⟨?_, ?_⟩
      · split_ifs <;> simp only [List.length_cons, ih.1]
      · split_ifs <;> simp only [List.length_cons, ih.2]
    · rw [← hd.1]
      simp only [h0, false_and, decide_false]
      simpa using ih

/-- **C35** A NaN that is not flagged counts as a frame without detection: the flux is underestimated. -/
theorem C35_nan (t : ℝ) (f : Frame) (fs : List Frame) (p : ℕ) (hd : f.data p = none) (hq : f.dq p = 0) :
    coadd t Frame.data (f :: fs) p = coadd t Frame.data fs p ∧ nframes (f :: fs) p = nframes fs p + 1 := by
  classical
  rw [C35_coadd, C35_coadd, nansum_boolMap, nansum_boolMap, List.filter_cons, List.filter_cons]
  rw [if_neg (by simp [hd]), if_pos (by simp [hq])]
  simp

/-! ### One bin -/

/-- Everything that a successful bin has in common. -/
theorem pcBin_ok {P : Params} {i : ℕ} {fs : List Frame} {s : Slice} (h : pcBin P i fs = .ok s) :
    ∃ f0 l m up low, fs = f0 :: l ∧
      (∀ f ∈ fs, f.hdr.exptime = f0.hdr.exptime ∧ f.hdr.emC = f0.hdr.emC ∧ f.hdr.kgain = f0.hdr.kgain ∧
        f.hdr.rn = f0.hdr.rn ∧ f.hdr.vistype = f0.hdr.vistype) ∧
      (P.mode = if f0.hdr.vistype = "DARK" then "darks" else "illuminated") ∧
      (f0.hdr.vistype = "DARK" → P.dark = none) ∧ 0 ≤ P.tFactor * f0.hdr.rn ∧ 0 < f0.hdr.rn ∧
      (P.safemode = true → P.tFactor * f0.hdr.rn < emGain f0.hdr) ∧
      corr P (P.tFactor * f0.hdr.rn) (emGain f0.hdr) fs Frame.data = .ok m ∧
      corr P (P.tFactor * f0.hdr.rn) (emGain f0.hdr) fs plus = .ok up ∧
      corr P (P.tFactor * f0.hdr.rn) (emGain f0.hdr) fs minus = .ok low ∧
      s.thresh = P.tFactor * f0.hdr.rn ∧ s.numFr = fs.length ∧ s.vistype = f0.hdr.vistype ∧
      s.parents = fs.map Frame.name ∧
      (P.dark = none → (∀ p, s.mean p = (m p).map fun x => max x 0) ∧
        (∀ p, s.err p = (pcErr (P.tFactor * f0.hdr.rn) (emGain f0.hdr) (nframes fs p) (m p) (up p) (low p)).map
          fun x => sqrt (x ^ 2 + 0 ^ 2)) ∧ ∀ p, s.dq p = if nframes fs p = 0 then 1 else 0) ∧
      (∀ d, P.dark = some d → checkDark (P.tFactor * f0.hdr.rn) fs.length d = .ok () ∧
        ∃ sl, d.slices[i % d.slices.length]? = some sl ∧
          (∀ p, s.mean p = do return max ((← m p) - (← sl.1 p)) 0) ∧
          (∀ p, s.err p = do
            return sqrt ((← pcErr (P.tFactor * f0.hdr.rn) (emGain f0.hdr) (nframes fs p) (m p) (up p) (low p)) ^ 2 +
              (← sl.2.1 p) ^ 2)) ∧
          ∀ p, s.dq p = (if nframes fs p = 0 then 1 else 0) ||| sl.2.2 p) := by
  unfold pcBin at h
  cases fs with
  | nil => cases h
  | cons f0 l =>
    dsimp only at h
    rcases ite_eq_iff.1 h with ⟨_, h⟩ | ⟨h1, h⟩
    · cases h
    rcases ite_eq_iff.1 h with ⟨_, h⟩ | ⟨h2, h⟩
    · cases h
    rcases ite_eq_iff.1 h with ⟨_, h⟩ | ⟨h3, h⟩
    · cases h
    rcases ite_eq_iff.1 h with ⟨_, h⟩ | ⟨h4, h⟩
    · cases h
    rcases ite_eq_iff.1 h with ⟨_, h⟩ | ⟨h5, h⟩
    · cases h
    rcases ite_eq_iff.1 h with ⟨_, h⟩ | ⟨h6, h⟩
    · cases h
    rcases ite_eq_iff.1 h with ⟨_, h⟩ | ⟨h7, h⟩
    · cases h
    rcases ite_eq_iff.1 h with ⟨_, h⟩ | ⟨h8, h⟩
    · cases h
    rcases ite_eq_iff.1 h with ⟨_, h⟩ | ⟨h9, h⟩
    · cases h
    rcases ite_eq_iff.1 h with ⟨_, h⟩ | ⟨h10, h⟩
    · cases h
    cases hm : corr P (P.tFactor * f0.hdr.rn) (emGain f0.hdr) (f0 :: l) Frame.data with
    | error e => rw [hm] at h; cases h
    | ok m =>
    cases hu : corr P (P.tFactor * f0.hdr.rn) (emGain f0.hdr) (f0 :: l) plus with
    | error e => rw [hm, hu] at h; cases h
    | ok up =>
    cases hl : corr P (P.tFactor * f0.hdr.rn) (emGain f0.hdr) (f0 :: l) minus with
    | error e => rw [hm, hu, hl] at h; cases h
    | ok low =>
    rw [hm, hu, hl] at h
    dsimp only at h
    unfold pcFinish at h
    dsimp only at h
    refine ⟨f0, l, m, up, low, rfl, ?_, ?_, ?_, not_lt.1 h7, not_le.1 h10, ?_, hm, hu, hl, ?_⟩
    · intro f hf
      have e1 : (f.hdr.exptime, f.hdr.emC, f.hdr.kgain, f.hdr.rn) =
          (f0.hdr.exptime, f0.hdr.emC, f0.hdr.kgain, f0.hdr.rn) := by
        by_contra hcon
        exact h1 (List.any_eq_true.2 ⟨f, hf, decide_eq_true hcon⟩)
      have e2 : f.hdr.vistype = f0.hdr.vistype := by
        by_contra hcon
        exact h2 (List.any_eq_true.2 ⟨f, hf, decide_eq_true hcon⟩)
      simp only [Prod.mk.injEq] at e1
      exact ⟨e1.1, e1.2.1, e1.2.2.1, e1.2.2.2, e2⟩
    · by_cases hv : f0.hdr.vistype = "DARK"
      · rw [if_pos hv]; by_contra hcon; exact h3 ⟨hv, hcon⟩
      · rw [if_neg hv]; by_contra hcon; exact h5 ⟨hv, hcon⟩
    · intro hv
      cases hd : P.dark with
      | none => rfl
      | some d => exact absurd ⟨hv, by rw [hd]; rfl⟩ h4
    · intro hs
      by_contra hcon
      exact h8 ⟨not_lt.1 hcon, hs⟩
    · cases hd : P.dark with
      | none =>
        rw [hd] at h
        simp only [Except.ok.injEq] at h
        subst h
        refine ⟨rfl, rfl, rfl, rfl, fun _ => ⟨fun _ => rfl, fun _ => rfl, fun p => ?_⟩, fun d hd' => by cases hd'⟩
        simp
      | some d =>
        rw [hd] at h
        dsimp only at h
        cases hc : checkDark (P.tFactor * f0.hdr.rn) (f0 :: l).length d with
        | error e => rw [hc] at h; cases h
        | ok u =>
          rw [hc] at h
          dsimp only at h
          cases hsl : d.slices[i % d.slices.length]? with
          | none => rw [hsl] at h; cases h
          | some sl =>
            rw [hsl] at h
            simp only [Except.ok.injEq] at h
            subst h
            refine ⟨rfl, rfl, rfl, rfl, fun hh => (by cases hh), fun d' hd' => ?_⟩
            simp only [Option.some.injEq] at hd'
            subst hd'
            exact ⟨hc, sl, hsl, fun _ => rfl, fun _ => rfl, fun _ => rfl⟩

theorem corr_zero {P : Params} {t g : ℝ} {fs : List Frame} {v : Frame → ℕ → Option ℝ} {m : ℕ → Option ℝ} {p : ℕ}
    (h : corr P t g fs v = .ok m) (hn : 1 ≤ P.niter) (hp : p < P.npix) (h0 : coadd t v fs p = 0) : m p = some 0 := by
  classical
  unfold corr corrPhotonCount at h
  simp only [bind, Except.bind, pure, Except.pure] at h
  split at h
  · cases h
  · rename_i l hl
    split at hl
    · cases hl
    · split at hl
      · cases hl
      · simp only [Except.ok.injEq] at hl h
        subst h
        rw [← hl]
        simp only [List.map_map, List.getElem?_map, List.getElem?_range hp, Option.map_some, Function.comp, h0,
          Option.getD_some]
        rw [C36_zero_counts _ _ _ hn]
        simp

/-- **C35** In safe mode the mean of the considered pixels, in electrons before the gain register, is at most the limit. -/
theorem C35_safe {P : Params} {i : ℕ} {f0 : Frame} {l : List Frame} {s : Slice} (h : pcBin P i (f0 :: l) = .ok s) (hs : P.safemode = true)
    {vals : List ℝ} (hv : vals = ((List.range P.npix).filter P.considered).flatMap fun p => (f0 :: l).filterMap fun f => f.data p)
    (hne : vals ≠ []) : (vals.map (· / emGain f0.hdr)).sum / vals.length ≤ P.ecountMax := by
  unfold pcBin at h
  dsimp only at h
  rw [← hv] at h
  by_contra hc
  rw [not_le] at hc
  iterate 8
    rcases ite_eq_iff.1 h with ⟨_, h'⟩ | ⟨_, h'⟩
    · cases h'
    replace h := h'
    clear h'
  rw [if_pos ⟨hne, hc, hs⟩] at h
  cases h

/-- **C35** A bin without dark subtraction: the flag of a pixel is 1 iff all frames are masked there, else 0; a pixel
without detections gets flux 0; no flux is negative; all frames have the settings of the first one; the header records
the threshold, the number of frames and the frames themselves. -/
theorem C35_bin {P : Params} {i : ℕ} {fs : List Frame} {s : Slice} (h : pcBin P i fs = .ok s) (hd : P.dark = none)
    (hn : 1 ≤ P.niter) :
    (∀ p, (s.dq p = 1 ↔ ∀ f ∈ fs, f.dq p ≠ 0) ∧ (s.dq p = 0 ∨ s.dq p = 1)) ∧
    (∀ p, p < P.npix → (∀ f ∈ fs, f.dq p = 0 → ∀ x, f.data p = some x → x ≤ s.thresh) → s.mean p = some 0) ∧
    (∀ p x, s.mean p = some x → 0 ≤ x) ∧
    (∀ f ∈ fs, s.thresh = P.tFactor * f.hdr.rn) ∧ s.numFr = fs.length ∧ s.parents = fs.map Frame.name := by
  classical
  obtain ⟨f0, l, m, up, low, hfs, hsame, hmode, hdk, ht, hrn, hsafe, hm, hu, hl, h1, h2, h3, h4, h5, h6⟩ := pcBin_ok h
  obtain ⟨e1, e2, e3⟩ := h5 hd
  refine ⟨fun p => ⟨?_, ?_⟩, ?_, ?_, ?_, h2, h4⟩
  · rw [e3, nansum_boolMap]
    by_cases hz : (fs.filter fun f => decide (f.dq p = 0)).length = 0
    · rw [if_pos hz]
      rw [List.length_eq_zero_iff, List.filter_eq_nil_iff] at hz
      simp only [true_iff]
      intro f hf; simpa using hz f hf
    · rw [if_neg hz]
      constructor
      · intro hh; omega
      · intro hall; exfalso; apply hz
        rw [List.length_eq_zero_iff, List.filter_eq_nil_iff]
        intro f hf; simpa using hall f hf
  · rw [e3]; split <;> simp
  · intro p hp hall
    have h0 : coadd (P.tFactor * f0.hdr.rn) Frame.data fs p = 0 := by
      rw [C35_coadd, List.length_eq_zero_iff, List.filter_eq_nil_iff]
      intro f hf
      rw [decide_eq_true_eq]
      rintro ⟨hq, x, hx, hlt⟩
      have := hall f hf hq x hx
      rw [h1] at this
      linarith
    rw [e1, corr_zero hm hn hp h0]
    simp
  · intro p x hx
    rw [e1] at hx
    obtain ⟨y, _, rfl⟩ := Option.map_eq_some_iff.1 hx
    exact le_max_right _ _
  · intro f hf
    rw [h1, (hsame f hf).2.2.2.1]

/-- **C35** With a master dark: flags combined, flux not negative, threshold equal to that of the dark, and the dark made
from at least as many frames. -/
theorem C35_bin_dark {P : Params} {i : ℕ} {fs : List Frame} {s : Slice} {d : MasterDark} (h : pcBin P i fs = .ok s)
    (hd : P.dark = some d) :
    (∃ sl, d.slices[i % d.slices.length]? = some sl ∧
      (∀ p k, (s.dq p).testBit k = (((sl.2.2 p).testBit k) || decide (k = 0 ∧ ∀ f ∈ fs, f.dq p ≠ 0)))) ∧
    (∀ p x, s.mean p = some x → 0 ≤ x) ∧ d.thresh = some s.thresh ∧ fs.length ≤ d.numFr ∧ s.vistype ≠ "DARK" := by
  classical
  obtain ⟨f0, l, m, up, low, hfs, hsame, hmode, hdk, ht, hrn, hsafe, hm, hu, hl, h1, h2, h3, h4, h5, h6⟩ := pcBin_ok h
  obtain ⟨hc, sl, hsl, e1, e2, e3⟩ := h6 d hd
  have hcd : d.thresh = some s.thresh ∧ fs.length ≤ d.numFr := by
    unfold checkDark at hc
    split at hc; · cases hc
    split at hc; · cases hc
    rename_i t' ht'
    split at hc; · cases hc
    rename_i hne
    split at hc; · cases hc
    rename_i hnum
    push Not at hne
    exact ⟨by rw [ht', hne, h1], not_lt.1 hnum⟩
  refine ⟨⟨sl, hsl, fun p k => ?_⟩, ?_, hcd.1, hcd.2, ?_⟩
  · rw [e3, Nat.testBit_or, nansum_boolMap, Bool.or_comm]
    congr 1
    by_cases hz : ∀ f ∈ fs, f.dq p ≠ 0
    · have : (fs.filter fun f => decide (f.dq p = 0)).length = 0 := by
        rw [List.length_eq_zero_iff, List.filter_eq_nil_iff]
        intro f hf; simpa using hz f hf
      rw [if_pos this]
      by_cases hk : k = 0
      · subst hk; simpa using hz
      · simp only [hk, false_and, decide_false]
        exact Nat.testBit_one_eq_true_iff_self_eq_zero.not.2 hk |> Bool.eq_false_of_not_eq_true
    · have : (fs.filter fun f => decide (f.dq p = 0)).length ≠ 0 := by
        intro hl; apply hz
        rw [List.length_eq_zero_iff, List.filter_eq_nil_iff] at hl
        intro f hf; simpa using hl f hf
      rw [if_neg this]
      simp only [hz, and_false, decide_false, Nat.zero_testBit]
  · intro p x hx
    rw [e1] at hx
    cases hmp : m p with
    | none => rw [hmp] at hx; cases hx
    | some a =>
      cases hsp : sl.1 p with
      | none => rw [hmp, hsp] at hx; cases hx
      | some b =>
        rw [hmp, hsp] at hx
        simp only [bind, Option.bind, pure, Option.some.injEq] at hx
        rw [← hx]; exact le_max_right _ _
  · rw [h3]; intro hv
    have := hdk hv
    rw [hd] at this; cases this

/-! ## C37: the bins -/

/-- The frames of a run of bins are the first frames of the dataset. -/
theorem binFrames_append (b k : ℕ) (ds : List Frame) :
    (List.range k).flatMap (fun i => binFrames b i ds) = ds.take (b * k) := by
  induction k with
  | zero => simp
  | succ k ih =>
    rw [List.range_succ, List.flatMap_append, ih]
    simp only [List.flatMap_cons, List.flatMap_nil, List.append_nil]
    unfold binFrames
    rw [Nat.mul_succ, List.take_add]

/-- **C37** What a successful call returns: `n / b` slices, slice `i` from the frames `b i` to `b (i+1) - 1`, which are
recorded as its parents; all bins are of the kind announced. -/
theorem C37_bins {P : Params} {bin : Option ℤ} {ds : List Frame} {o : Output} (h : getPcMean P bin ds = .ok o) :
    ∃ b k : ℕ, 0 < b ∧ (bin.getD ds.length = b) ∧ k = ds.length / b ∧ 0 < k ∧ ∃ out : List Slice,
      out.length = k ∧ (∀ i s, out[i]? = some s → pcBin P i (binFrames b i ds) = .ok s ∧
        s.parents = (binFrames b i ds).map Frame.name ∧ s.numFr = b ∧
        (s.vistype = "DARK" ↔ P.mode = "darks")) ∧
      (out.flatMap Slice.parents = (ds.take (b * k)).map Frame.name) ∧
      ((o = .illuminated out ∧ P.mode = "illuminated") ∨
        ∃ t, o = .dark out t b ((ds.take (k * (ds.length / k))).map Frame.name) ∧ P.mode = "darks" ∧
          ∃ s, out.getLast? = some s ∧ s.thresh = t) := by
  unfold getPcMean at h
  dsimp only at h
  split at h; · cases h
  split at h; · cases h
  rename_i hb
  split at h; · cases h
  rename_i hle
  set b := (bin.getD ds.length).toNat with hbdef
  have hbz : bin.getD ds.length = (b : ℤ) := by omega
  have hbpos : 0 < b := by omega
  have hbl : b ≤ ds.length := by omega
  have hk : 0 < ds.length / b := Nat.div_pos hbl hbpos
  cases hm : (List.range (ds.length / b)).mapM fun i => pcBin P i (binFrames b i ds) with
  | error e => rw [hm] at h; cases h
  | ok out =>
    rw [hm] at h
    simp only [bind, Except.bind, pure, Except.pure] at h
    have hf := mapM_ok_iff.1 hm
    have hlen : out.length = ds.length / b := by rw [← hf.length_eq, List.length_range]
    have hget : ∀ i s, out[i]? = some s → pcBin P i (binFrames b i ds) = .ok s := by
      intro i s hs
      have hi : i < out.length := by
        rcases List.getElem?_eq_some_iff.1 hs with ⟨h, _⟩; exact h
      have := List.forall₂_iff_get.1 hf
      have h2 := this.2 i (by rw [List.length_range]; omega) hi
      rw [List.get_eq_getElem, List.get_eq_getElem, List.getElem_range] at h2
      rw [h2]
      rw [List.getElem?_eq_getElem hi] at hs
      exact congrArg _ (Option.some.inj hs)
    have hbin : ∀ i, i < ds.length / b → (binFrames b i ds).length = b := by
      intro i hi
      unfold binFrames
      rw [List.length_take, List.length_drop]
      have : b * (i + 1) ≤ ds.length := by
        calc b * (i + 1) ≤ b * (ds.length / b) := Nat.mul_le_mul_left _ hi
          _ ≤ ds.length := Nat.mul_div_le _ _
      rw [Nat.mul_succ] at this
      omega
    have hall : ∀ i s, out[i]? = some s → pcBin P i (binFrames b i ds) = .ok s ∧
        s.parents = (binFrames b i ds).map Frame.name ∧ s.numFr = b ∧ (s.vistype = "DARK" ↔ P.mode = "darks") := by
      intro i s hs
      have h1 := hget i s hs
      have hi : i < out.length := by
        rcases List.getElem?_eq_some_iff.1 hs with ⟨h, _⟩; exact h
      obtain ⟨f0, l, m, up, low, hfs, hsame, hmode, hdk, ht, hrn, hsafe, hm, hu, hl, g1, g2, g3, g4, _⟩ := pcBin_ok h1
      refine ⟨h1, g4, by rw [g2, hbin i (by omega)], ?_⟩
      rw [g3, hmode]
      by_cases hv : f0.hdr.vistype = "DARK" <;> simp [hv]
    refine ⟨b, ds.length / b, hbpos, hbz, rfl, hk, out, hlen, hall, ?_, ?_⟩
    · rw [← binFrames_append, List.map_flatMap]
      have hf2 : List.Forall₂ (fun i (s : Slice) => s.parents = (binFrames b i ds).map Frame.name)
          (List.range (ds.length / b)) out := by
        refine hf.imp ?_
        intro i s hi
        obtain ⟨f0, l, m, up, low, hfs, hsame, hmode, hdk, ht, hrn, hsafe, hm, hu, hl, g1, g2, g3, g4, _⟩ := pcBin_ok hi
        exact g4
      clear hf hm hget hall hlen h
      generalize List.range (ds.length / b) = r at hf2 ⊢
      induction hf2 with
      | nil => rfl
      | cons hd _ ih => rw [List.flatMap_cons, List.flatMap_cons, hd, ih]
    · cases hlast : out.getLast? with
      | none => rw [hlast] at h; cases h
      | some s =>
        rw [hlast] at h
        dsimp only at h
        have hs : ∃ i : ℕ, out[i]? = some s := by
          rw [List.getLast?_eq_getElem?] at hlast; exact ⟨_, hlast⟩
        obtain ⟨i, hi⟩ := hs
        obtain ⟨_, _, hnum, hkind⟩ := hall i s hi
        obtain ⟨f0, l, m, up, low, hfs, hsame, hmode, hdk, ht, hrn, hsafe, hm, hu, hl, g1, g2, g3, g4, _⟩ :=
          pcBin_ok (hget i s hi)
        split at h
        · rename_i hv
          left
          simp only [Except.ok.injEq] at h
          refine ⟨h.symm, ?_⟩
          rw [hmode, if_neg (by rw [← g3]; exact hv)]
        · rename_i hv
          push Not at hv
          right
          simp only [Except.ok.injEq] at h
          exact ⟨s.thresh, by rw [← h, hnum], hkind.1 hv, s, rfl, rfl⟩

/-- **C37** The recorded range is never too short, and is right exactly when `n / (n / b) = b`. -/
theorem C37_range (n b : ℕ) (hb : 0 < b) (hn : b ≤ n) :
    b * (n / b) ≤ (n / b) * (n / (n / b)) ∧ (n / b) * (n / (n / b)) ≤ n ∧
    ((n / b) * (n / (n / b)) = b * (n / b) ↔ n < (b + 1) * (n / b)) := by
  have hk : 0 < n / b := Nat.div_pos hn hb
  set k := n / b with hkdef
  have h1 : b * k ≤ n := Nat.mul_div_le _ _
  have h2 : b ≤ n / k := (Nat.le_div_iff_mul_le hk).2 h1
  refine ⟨by rw [mul_comm k]; exact Nat.mul_le_mul_right _ h2, Nat.mul_div_le _ _, ?_⟩
  constructor
  · intro h
    have : n / k = b := by
      rw [mul_comm b k] at h
      exact Nat.eq_of_mul_eq_mul_left hk h
    rw [← this]
    have := Nat.lt_mul_div_succ n hk
    rw [mul_comm] at this
    exact this
  · intro h
    have : n / k < b + 1 := (Nat.div_lt_iff_lt_mul hk).2 h
    have : n / k = b := by omega
    rw [this, mul_comm]

/-- **C37** Whenever that condition fails, a master dark lists frames that were not used. -/
theorem C37_unused_listed {P : Params} {bin : Option ℤ} {ds : List Frame} {out : List Slice} {t : ℝ} {nf : ℕ}
    {parents : List String} (h : getPcMean P bin ds = .ok (.dark out t nf parents))
    (hbad : (nf + 1) * (ds.length / nf) ≤ ds.length) :
    out.flatMap Slice.parents ≠ parents ∧ ∃ f r, parents = out.flatMap Slice.parents ++ f :: r := by
  obtain ⟨b, k, hb, hbe, hk, hkp, out', hlen, hall, hpar, hcase⟩ := C37_bins h
  rcases hcase with ⟨hc, _⟩ | ⟨t', hc, _, _⟩
  · cases hc
  · simp only [Output.dark.injEq] at hc
    obtain ⟨rfl, rfl, rfl, rfl⟩ := hc
    have hbn : nf ≤ ds.length := by
      by_contra hcon
      rw [hk, Nat.div_eq_of_lt (by omega)] at hkp; omega
    obtain ⟨c1, c2, c3⟩ := C37_range ds.length nf hb hbn
    have hlt : nf * k < k * (ds.length / k) := by
      rw [hk]
      rcases Nat.lt_or_ge (nf * (ds.length / nf)) ((ds.length / nf) * (ds.length / (ds.length / nf))) with h | h
      · exact h
      · have := c3.1 (le_antisymm h c1); omega
    rw [← hk] at c2
    have hlen1 : (out.flatMap Slice.parents).length = nf * k := by
      rw [hpar, List.length_map, List.length_take]; omega
    have hlen2 : ((ds.take (k * (ds.length / k))).map Frame.name).length = k * (ds.length / k) := by
      rw [List.length_map, List.length_take]; omega
    refine ⟨fun he => ?_, ?_⟩
    · have := congrArg List.length he
      omega
    · have hsplit : ds.take (k * (ds.length / k)) = ds.take (nf * k) ++ (ds.drop (nf * k)).take (k * (ds.length / k) - nf * k) := by
        conv_lhs => rw [show k * (ds.length / k) = nf * k + (k * (ds.length / k) - nf * k) by omega]
        rw [List.take_add]
      have hne : (ds.drop (nf * k)).take (k * (ds.length / k) - nf * k) ≠ [] := by
        intro h0
        have := congrArg List.length h0
        rw [List.length_take, List.length_drop] at this
        simp at this; omega
      obtain ⟨f, r, hfr⟩ := List.exists_cons_of_ne_nil hne
      refine ⟨f.name, r.map Frame.name, ?_⟩
      rw [hsplit, hfr, List.map_append, hpar, List.map_cons]

/-! ### Witnesses -/

/-- A frame of one pixel without signal. -/
def blank (name vis : String) (exptime rn : ℝ) : Frame :=
  { name := name, hdr := { exptime := exptime, emC := 5000, kgain := 8, rn := rn, emA := 5000, emM := none, vistype := vis,
                           ispc := some true },
    data := fun _ => some 0, err := fun _ => some 0, dq := fun _ => 0 }

def darkParams : Params :=
  { tFactor := 5, ecountMax := 1, niter := 2, npix := 1, considered := fun _ => true, safemode := true, mode := "darks",
    dark := none }

theorem corr_blank {fs : List Frame} (hne : fs ≠ []) {t g : ℝ} (ht : 0 ≤ t) (v : Frame → ℕ → Option ℝ)
    (hq : ∀ f ∈ fs, f.dq 0 = 0) (hv : ∀ f ∈ fs, v f 0 = some 0) :
    ∃ m, corr darkParams t g fs v = .ok m := by
  classical
  have h0 : coadd t v fs 0 = 0 := by
    rw [C35_coadd, List.length_eq_zero_iff, List.filter_eq_nil_iff]
    intro f hf
    rw [decide_eq_true_eq]
    rintro ⟨_, x, hx, hlt⟩
    rw [hv f hf, Option.some.injEq] at hx
    linarith
  have hn : nframes fs 0 ≠ 0 := by
    rw [nansum_boolMap, List.filter_eq_self.2 (by intro f hf; simpa using hq f hf)]
    simpa using hne
  unfold corr corrPhotonCount
  simp only [darkParams, List.range_one, List.map_cons, List.map_nil, h0, newtonLoop_zero hn]
  simp

theorem pcBin_blank_vis (vis : String) (i : ℕ) {fs : List Frame} (e r : ℝ) (hr : 0 < r) (hr1 : r < 1000) (hne : fs ≠ [])
    (h : ∀ f ∈ fs, ∃ n, f = blank n vis e r) :
    ∃ s, pcBin { darkParams with mode := if vis = "DARK" then "darks" else "illuminated" } i fs = .ok s := by
  classical
  cases fs with
  | nil => exact absurd rfl hne
  | cons f0 l =>
    obtain ⟨n0, h0⟩ := h f0 (by simp)
    have hhdr : ∀ f ∈ f0 :: l, f.hdr = f0.hdr := by
      intro f hf
      obtain ⟨n, hn⟩ := h f hf
      rw [hn, h0]; rfl
    have hg : emGain f0.hdr = 5000 := by rw [h0]; simp [emGain, blank]
    have hrn : f0.hdr.rn = r := by rw [h0]; rfl
    have hvis : f0.hdr.vistype = vis := by rw [h0]; rfl
    have hispc : f0.hdr.ispc = some true := by rw [h0]; rfl
    have ht : darkParams.tFactor * f0.hdr.rn = 5 * r := by rw [hrn]; rfl
    have hq : ∀ f ∈ f0 :: l, f.dq 0 = 0 := by
      intro f hf; obtain ⟨n, hn⟩ := h f hf; rw [hn]; rfl
    obtain ⟨m, hm⟩ := corr_blank (g := 5000) hne (show (0 : ℝ) ≤ 5 * r by linarith) Frame.data hq
      (fun f hf => by obtain ⟨n, hn⟩ := h f hf; rw [hn]; rfl)
    obtain ⟨up, hu⟩ := corr_blank (g := 5000) hne (show (0 : ℝ) ≤ 5 * r by linarith) plus hq
      (fun f hf => by obtain ⟨n, hn⟩ := h f hf; rw [hn]; simp [plus, blank])
    obtain ⟨low, hl⟩ := corr_blank (g := 5000) hne (show (0 : ℝ) ≤ 5 * r by linarith) minus hq
      (fun f hf => by obtain ⟨n, hn⟩ := h f hf; rw [hn]; simp [minus, blank])
    have hdata : ∀ f ∈ f0 :: l, f.data 0 = some 0 := by
      intro f hf; obtain ⟨n, hn⟩ := h f hf; rw [hn]; rfl
    unfold pcBin
    dsimp only
    rw [if_neg, if_neg, if_neg, if_neg, if_neg, if_neg, if_neg, if_neg, if_neg, if_neg, ht, hg]
    · rw [show ∀ v, corr { darkParams with mode := if vis = "DARK" then "darks" else "illuminated" } (5 * r) 5000 (f0 :: l) v =
        corr darkParams (5 * r) 5000 (f0 :: l) v from fun _ => rfl, hm]
      dsimp only
      rw [show ∀ v, corr { darkParams with mode := if vis = "DARK" then "darks" else "illuminated" } (5 * r) 5000 (f0 :: l) v =
        corr darkParams (5 * r) 5000 (f0 :: l) v from fun _ => rfl, hu]
      dsimp only
      rw [show ∀ v, corr { darkParams with mode := if vis = "DARK" then "darks" else "illuminated" } (5 * r) 5000 (f0 :: l) v =
        corr darkParams (5 * r) 5000 (f0 :: l) v from fun _ => rfl, hl]
      exact ⟨_, rfl⟩
    · rw [hrn]; linarith
    · rintro ⟨_, h2, _⟩
      have hz : ∀ x ∈ (((List.range darkParams.npix).filter darkParams.considered).flatMap fun p =>
          (f0 :: l).filterMap fun f => f.data p), x = 0 := by
        intro x hx
        rw [List.mem_flatMap] at hx
        obtain ⟨p, hp, hx⟩ := hx
        rw [List.mem_filter, List.mem_range] at hp
        have hp0 : p = 0 := by have := hp.1; simp only [darkParams] at this; omega
        subst hp0
        rw [List.mem_filterMap] at hx
        obtain ⟨f, hf, hx⟩ := hx
        rw [hdata f hf] at hx
        exact (Option.some.inj hx).symm
      have : ((((List.range darkParams.npix).filter darkParams.considered).flatMap fun p =>
          (f0 :: l).filterMap fun f => f.data p).map (· / emGain f0.hdr)).sum = 0 := by
        apply List.sum_eq_zero
        intro y hy
        obtain ⟨x, hx, rfl⟩ := List.mem_map.1 hy
        rw [hz x hx]; simp
      rw [this] at h2
      simp [darkParams] at h2
      linarith
    · rintro ⟨h1, _⟩
      rw [hg, ht] at h1; linarith
    · rw [ht]; linarith
    · rw [hispc]; simp
    · rw [hvis]
      rintro ⟨h1, h2⟩
      exact h2 (if_neg h1)
    · simp [darkParams]
    · rw [hvis]
      rintro ⟨h1, h2⟩
      exact h2 (if_pos h1)
    · simp only [List.any_eq_true, decide_eq_true_eq, not_exists, not_and, not_not]
      intro f hf; rw [hhdr f hf]
    · simp only [List.any_eq_true, decide_eq_true_eq, not_exists, not_and, not_not]
      intro f hf; rw [hhdr f hf]

theorem pcBin_blank (i : ℕ) {fs : List Frame} (e r : ℝ) (hr : 0 < r) (hr1 : r < 1000) (hne : fs ≠ [])
    (h : ∀ f ∈ fs, ∃ n, f = blank n "DARK" e r) : ∃ s, pcBin darkParams i fs = .ok s :=
  pcBin_blank_vis "DARK" i e r hr hr1 hne h

/-- **C37** is violated: five frames in bins of three, one bin from the first three frames, and all five are recorded. -/
theorem C37_violated : ∃ ds out t nf parents, getPcMean darkParams (some 3) ds = .ok (.dark out t nf parents) ∧
    out.flatMap Slice.parents = ["a", "b", "c"] ∧ parents = ["a", "b", "c", "d", "e"] := by
  set ds := ["a", "b", "c", "d", "e"].map fun n => blank n "DARK" 1 100 with hds
  obtain ⟨s, hs⟩ := pcBin_blank 0 (fs := binFrames 3 0 ds) 1 100 (by norm_num) (by norm_num) (by simp [binFrames, hds]) (by
    intro f hf
    have := List.mem_of_mem_take hf
    simp only [Nat.mul_zero, List.drop_zero, hds] at this
    obtain ⟨n, _, rfl⟩ := List.mem_map.1 this
    exact ⟨n, rfl⟩)
  have hvis : s.vistype = "DARK" ∧ s.parents = ["a", "b", "c"] := by
    obtain ⟨f0, l, m, up, low, hfs, hsame, hmode, hdk, ht, hrn, hsafe, hm, hu, hl, g1, g2, g3, g4, _⟩ := pcBin_ok hs
    refine ⟨?_, by rw [g4]; rfl⟩
    have : f0 = blank "a" "DARK" 1 100 := by
      have : binFrames 3 0 ds = blank "a" "DARK" 1 100 :: [blank "b" "DARK" 1 100, blank "c" "DARK" 1 100] := rfl
      rw [this] at hfs
      exact (List.cons.inj hfs).1.symm
    rw [g3, this]; rfl
  refine ⟨ds, [s], s.thresh, s.numFr, ["a", "b", "c", "d", "e"], ?_, ?_, rfl⟩
  · unfold getPcMean
    rw [if_neg (by simp [darkParams])]
    have hlen : ds.length = 5 := rfl
    simp only [Option.getD_some, hlen]
    rw [if_neg (by norm_num), if_neg (by norm_num)]
    have : (List.range (5 / (3 : ℤ).toNat)) = [0] := by decide
    rw [this]
    simp only [List.mapM_cons, List.mapM_nil]
    rw [show (3 : ℤ).toNat = 3 from rfl, hs]
    simp only [bind, Except.bind, pure, Except.pure, List.getLast?_singleton]
    rw [if_neg (by rw [hvis.1]; simp)]
    rfl
  · simp [hvis.2]

/-- **C52** is violated: frames of different exposure time and read noise are accepted in one call when they are in
different bins; the header of the master dark has the threshold of the last bin only. -/
theorem C52_violated : ∃ out t nf parents, getPcMean darkParams (some 1)
      [blank "a" "DARK" 1 100, blank "b" "DARK" 2 200] = .ok (.dark out t nf parents) ∧
    t = 1000 ∧ ∃ s0 s1, out = [s0, s1] ∧ s0.thresh = 500 ∧ s1.thresh = 1000 := by
  set ds := [blank "a" "DARK" 1 100, blank "b" "DARK" 2 200] with hds
  obtain ⟨s0, hs0⟩ := pcBin_blank 0 (fs := binFrames 1 0 ds) 1 100 (by norm_num) (by norm_num) (by simp [binFrames, hds])
    (by
      intro f hf
      have : binFrames 1 0 ds = [blank "a" "DARK" 1 100] := rfl
      rw [this, List.mem_singleton] at hf
      exact ⟨_, hf⟩)
  obtain ⟨s1, hs1⟩ := pcBin_blank 1 (fs := binFrames 1 1 ds) 2 200 (by norm_num) (by norm_num) (by simp [binFrames, hds])
    (by
      intro f hf
      have : binFrames 1 1 ds = [blank "b" "DARK" 2 200] := rfl
      rw [this, List.mem_singleton] at hf
      exact ⟨_, hf⟩)
  have h0 : s0.thresh = 500 := by
    obtain ⟨f0, l, m, up, low, hfs, hsame, hmode, hdk, ht, hrn, hsafe, hm, hu, hl, g1, g2, g3, g4, _⟩ := pcBin_ok hs0
    have : f0 = blank "a" "DARK" 1 100 := by
      have : binFrames 1 0 ds = [blank "a" "DARK" 1 100] := rfl
      rw [this] at hfs
      exact (List.cons.inj hfs).1.symm
    rw [g1, this]; norm_num [darkParams, blank]
  have h1 : s1.thresh = 1000 ∧ s1.vistype = "DARK" := by
    obtain ⟨f0, l, m, up, low, hfs, hsame, hmode, hdk, ht, hrn, hsafe, hm, hu, hl, g1, g2, g3, g4, _⟩ := pcBin_ok hs1
    have : f0 = blank "b" "DARK" 2 200 := by
      have : binFrames 1 1 ds = [blank "b" "DARK" 2 200] := rfl
      rw [this] at hfs
      exact (List.cons.inj hfs).1.symm
    rw [g1, g3, this]; norm_num [darkParams, blank]
  refine ⟨[s0, s1], s1.thresh, s1.numFr, ["a", "b"], ?_, h1.1, s0, s1, rfl, h0, h1.1⟩
  unfold getPcMean
  rw [if_neg (by simp [darkParams])]
  have hlen : ds.length = 2 := rfl
  simp only [Option.getD_some, hlen]
  rw [if_neg (by norm_num), if_neg (by norm_num)]
  have : (List.range (2 / (1 : ℤ).toNat)) = [0, 1] := by decide
  rw [this]
  simp only [List.mapM_cons, List.mapM_nil]
  rw [show (1 : ℤ).toNat = 1 from rfl, hs0, hs1]
  simp only [bind, Except.bind, pure, Except.pure]
  have hlast : [s0, s1].getLast? = some s1 := rfl
  rw [hlast]
  dsimp only
  rw [if_neg (by rw [h1.2]; simp)]
  rfl

/-- **C52** Within a bin all frames agree, and the recorded threshold is that of every frame of the bin. -/
theorem C52_bin_partial {P : Params} {i : ℕ} {fs : List Frame} {s : Slice} (h : pcBin P i fs = .ok s) :
    ∀ f ∈ fs, ∀ f' ∈ fs, f.hdr.exptime = f'.hdr.exptime ∧ f.hdr.emC = f'.hdr.emC ∧ f.hdr.kgain = f'.hdr.kgain ∧
      f.hdr.rn = f'.hdr.rn ∧ f.hdr.vistype = f'.hdr.vistype ∧ s.thresh = P.tFactor * f.hdr.rn := by
  obtain ⟨f0, l, m, up, low, hfs, hsame, hmode, hdk, ht, hrn, hsafe, hm, hu, hl, g1, g2, g3, g4, _⟩ := pcBin_ok h
  intro f hf f' hf'
  obtain ⟨a1, a2, a3, a4, a5⟩ := hsame f hf
  obtain ⟨b1, b2, b3, b4, b5⟩ := hsame f' hf'
  exact ⟨a1.trans b1.symm, a2.trans b2.symm, a3.trans b3.symm, a4.trans b4.symm, a5.trans b5.symm, by rw [g1, a4]⟩

/-! ## C50: the error -/

/-- **C50** is violated: without errors in the input the reported error is the variance of the counts, not its root. -/
theorem C50_violated (t g m : ℝ) {n : ℕ} (hn : n ≠ 0) :
    pcErr t g n (some m) (some m) (some m) = some (varL23 g m t n) := by
  unfold pcErr
  simp only [bind, Option.bind, pure, hn, if_false]
  congr 1
  rw [max_eq_left] <;> linarith

/-- The variance falls with the number of frames as `1/n`; so does the reported error, instead of `1/√n`. -/
theorem varL23_scale {g L T : ℝ} (hg : 0 < g) (hT : 0 ≤ T) (hL : 0 ≤ L) {n : ℕ} (hn : n ≠ 0) :
    varL23 g L T n = varL23 g L T 1 / n := by
  obtain ⟨b0, b1, b2⟩ := C36_bounds hT hg hL
  have hn' : (0 : ℝ) < n := by exact_mod_cast Nat.pos_of_ne_zero hn
  have h1 : 0 ≤ 1 - eps T g L := by linarith
  unfold varL23
  rw [C36_same_efficiency hg.ne', Real.sq_sqrt (by positivity), Real.sq_sqrt (by positivity)]
  field_simp

/-- **C50** The reported error is too small whenever the variance is below 1, in particular for all large numbers of
frames: it is the smaller by the factor `√variance`. -/
theorem C50_too_small (t g m : ℝ) {n : ℕ} (hn : n ≠ 0) (h0 : 0 < varL23 g m t n) (h1 : varL23 g m t n < 1) :
    ∃ e, pcErr t g n (some m) (some m) (some m) = some e ∧ e < sqrt (varL23 g m t n) := by
  refine ⟨_, C50_violated t g m hn, ?_⟩
  rw [Real.lt_sqrt h0.le]
  nlinarith

/-- Not vacuous: threshold 0, flux 1, two frames. -/
example : 0 < varL23 1 1 0 2 ∧ varL23 1 1 0 2 < 1 := by
  have h : varL23 1 1 0 ((2 : ℕ) : ℝ) = varL23 1 1 0 1 / ((2 : ℕ) : ℝ) :=
    varL23_scale (by norm_num) le_rfl (by norm_num) (by norm_num)
  have e : eps 0 1 1 = 5 / 8 := by unfold eps num den; norm_num
  have h1 : varL23 1 1 0 1 = 249615 / 262144 := by
    unfold varL23
    rw [C36_same_efficiency (by norm_num), e, Real.sq_sqrt (by norm_num)]
    norm_num
  push_cast at h
  rw [h, h1]
  norm_num

/-- **C50** What holds: it is at least the variance and at least half the width of the interval of the input errors. -/
theorem C50_bounds_partial (t g m up low : ℝ) {n : ℕ} (hn : n ≠ 0) {e : ℝ}
    (h : pcErr t g n (some m) (some up) (some low) = some e) :
    varL23 g m t n + (up - low) / 2 ≤ e ∧ up - m + varL23 g m t n ≤ e ∧ m - low + varL23 g m t n ≤ e := by
  unfold pcErr at h
  simp only [bind, Option.bind, pure, hn, if_false, Option.some.injEq] at h
  have h1 := le_max_left ((up + varL23 g m t n) - m) (m - (low - varL23 g m t n))
  have h2 := le_max_right ((up + varL23 g m t n) - m) (m - (low - varL23 g m t n))
  rw [h] at h1 h2
  exact ⟨by linarith, by linarith, by linarith⟩

/-! ## C51: safemode -/

/-- **C51** is violated: with `safemode = False` a negative flux still raises, for every number of iterations. -/
theorem C51_violated : ∃ (P : ℕ → Params) (ds : List Frame), (∀ k, (P k).safemode = false ∧ (P k).niter = k + 1) ∧
    ∀ k, getPcMean (P k) none ds = .error .negative := by
  classical
  obtain ⟨t, g, ht, htg, _, hneg⟩ := C51_negative
  have hg : 0 < g := ht.trans htg
  set hd : Hdr := { exptime := 1, emC := g, kgain := 8, rn := 1, emA := g, emM := none, vistype := "CGIVST_TDD", ispc := none }
    with hhd
  set P : ℕ → Params := fun k => ⟨t, 1, k + 1, 1, fun _ => true, false, "illuminated", none⟩ with hP
  set fa : Frame := { name := "a", hdr := hd, data := fun _ => some (t + 1), err := fun _ => some 0, dq := fun _ => 0 } with hfa
  set fb : Frame := { name := "b", hdr := hd, data := fun _ => some 0, err := fun _ => some 0, dq := fun _ => 0 } with hfb
  refine ⟨P, [fa, fb], fun k => ⟨rfl, rfl⟩, fun k => ?_⟩
  have hgain : emGain hd = g := by simp [emGain, hhd, hg]
  have hco : coadd t Frame.data [fa, fb] 0 = 1 := by
    have : (coadd t Frame.data [fa, fb] 0 : ℕ) = 1 + 0 := by
      simp [coadd, nansum, boolMap, photonCount, hfa, hfb, ht.le]
    simpa using this
  have hn : nframes [fa, fb] 0 = 2 := by simp [nframes, nansum, boolMap, hfa, hfb]
  have hcorr : corr (P k) t g [fa, fb] Frame.data = .error .negative := by
    unfold corr
    have : (List.range (P k).npix).map (fun p => (coadd t Frame.data [fa, fb] p, nframes [fa, fb] p, (P k).considered p)) =
        [(1, 2, true)] := by
      simp only [hP, List.range_one, List.map_cons, List.map_nil, hco, hn]
    rw [this, show (P k).niter = k + 1 from rfl, hneg (k + 1) (by omega)]
    rfl
  have hbin : pcBin (P k) 0 [fa, fb] = .error .negative := by
    unfold pcBin
    dsimp only
    have ht1 : (P k).tFactor * fa.hdr.rn = t := by simp [hP, hfa, hhd]
    have hg1 : emGain fa.hdr = g := hgain
    rw [if_neg, if_neg, if_neg, if_neg, if_neg, if_neg, if_neg, if_neg, if_neg, if_neg, ht1, hg1, hcorr]
    · show ¬ hd.rn ≤ 0; rw [hhd]; norm_num
    · rintro ⟨_, _, h⟩; simp [hP] at h
    · rintro ⟨_, h⟩; simp [hP] at h
    · rw [ht1]; linarith
    · simp [hfa, hhd]
    · simp [hP]
    · simp [hP]
    · simp [hfa, hhd]
    · simp [hfa, hfb]
    · simp [hfa, hfb]
  unfold getPcMean
  rw [if_neg (by simp [hP])]
  simp only [Option.getD_none, List.length_cons, List.length_nil]
  rw [if_neg (by norm_num), if_neg (by norm_num)]
  have : (List.range ((0 + 1 + 1) / (((0 + 1 + 1 : ℕ)) : ℤ).toNat)) = [0] := by decide
  rw [this]
  simp only [List.mapM_cons, List.mapM_nil]
  have hb : binFrames (((0 + 1 + 1 : ℕ)) : ℤ).toNat 0 [fa, fb] = [fa, fb] := rfl
  rw [hb, hbin]
  rfl

/-! ## Checks and bounds -/

/-- **C35** The gain is the measured one, else the applied one if positive, else the commanded one. -/
theorem C35_gain (h : Hdr) : (∀ g, h.emM = some g → emGain h = g) ∧ (h.emM = none → 0 < h.emA → emGain h = h.emA) ∧
    (h.emM = none → h.emA ≤ 0 → emGain h = h.emC) := by
  refine ⟨fun g hg => by simp [emGain, hg], fun h1 h2 => by simp [emGain, h1, h2], fun h1 h2 => ?_⟩
  simp [emGain, h1, not_lt.2 h2]

theorem photonCount_mono {t x y : ℝ} (h : x ≤ y) : photonCount t (some x) ≤ photonCount t (some y) := by
  unfold photonCount
  by_cases h1 : t < x
  · simp [h1, h1.trans_le h]
  · simp [h1]

theorem coadd_mono {t : ℝ} {v w : Frame → ℕ → Option ℝ} {fs : List Frame} {p : ℕ}
    (h : ∀ f ∈ fs, photonCount t (v f p) ≤ photonCount t (w f p)) : coadd t v fs p ≤ coadd t w fs p := by
  unfold coadd nansum
  induction fs with
  | nil => simp
  | cons f fs ih =>
    have h1 := h f (by simp)
    have h2 := ih fun g hg => h g (by simp [hg])
    rw [List.map_cons, List.map_cons, List.filterMap_cons, List.filterMap_cons]
    cases hb : boolMap (f.dq p) with
    | none => simpa using h2
    | some b =>
      simp only [Option.map_some, id, List.sum_cons]
      exact Nat.add_le_add (Nat.mul_le_mul_right _ h1) h2

/-- **C35** Adding the errors never loses a count, subtracting them never gains one. -/
theorem C35_count_bounds (t : ℝ) (fs : List Frame) (p : ℕ) (h : ∀ f ∈ fs, ∃ d e, f.data p = some d ∧ f.err p = some e ∧ 0 ≤ e) :
    coadd t minus fs p ≤ coadd t Frame.data fs p ∧ coadd t Frame.data fs p ≤ coadd t plus fs p := by
  constructor <;> refine coadd_mono fun f hf => ?_ <;> obtain ⟨d, e, hd, he, h0⟩ := h f hf
  · have : minus f p = some (d - e) := by simp [minus, hd, he]
    rw [this, hd]; exact photonCount_mono (by linarith)
  · have : plus f p = some (d + e) := by simp [plus, hd, he]
    rw [this, hd]; exact photonCount_mono (by linarith)

/-- **C35** A master dark is only used if it is photon-counted, has the same threshold, and was made of at least as many
frames. -/
theorem C35_dark_accepted {P : Params} {i : ℕ} {fs : List Frame} {s : Slice} {d : MasterDark} (h : pcBin P i fs = .ok s)
    (hd : P.dark = some d) :
    d.pcStat = some "photon-counted master dark" ∧ d.thresh = some s.thresh ∧ fs.length ≤ d.numFr := by
  obtain ⟨f0, l, m, up, low, _, _, _, _, _, _, _, _, _, _, ht, _, _, _, _, hc⟩ := pcBin_ok h
  have hc := (hc d hd).1
  rw [← ht] at hc
  unfold checkDark at hc
  rcases ite_eq_iff.1 hc with ⟨_, hc⟩ | ⟨h1, hc⟩
  · cases hc
  cases hdt : d.thresh with
  | none => rw [hdt] at hc; cases hc
  | some t' =>
    rw [hdt] at hc
    dsimp only at hc
    split_ifs at hc with h2 h3
    exact ⟨not_not.1 h1, by rw [not_not.1 h2], not_lt.1 h3⟩

/-- **C37** The arguments are checked. -/
theorem C37_checks {P : Params} {bin : Option ℤ} {ds : List Frame} {o : Output} (h : getPcMean P bin ds = .ok o) :
    1 ≤ P.niter ∧ 0 < bin.getD ds.length ∧ bin.getD ds.length ≤ ds.length := by
  unfold getPcMean at h
  dsimp only at h
  split_ifs at h with h1 h2 h3
  exact ⟨by omega, not_le.1 h2, not_lt.1 h3⟩

end Corgi.Pc

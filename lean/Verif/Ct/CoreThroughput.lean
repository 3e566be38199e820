import Verif.Ct.Centroid
import Verif.Common.Forall2

/-!
# Core throughput estimates and the PSF cube

`/repo/corgidrp/corethroughput.py:90-413`.  The transmission ratio of `di_over_pil_transmission` and the window half-size
`n_pix_psf` (both read from the filter curves) are parameters.
-/

namespace Corgi.Ct

open Corgi.Centroid

/-! ## C80: `get_psf_ct` (lines 112-146) -/

/-- Maximum of two numbers, NaN if either is. -/
def max2 : Option ℚ → Option ℚ → Option ℚ
  | some a, some b => some (max a b)
  | _, _ => none

/-- `data.max()`: NaN if any pixel is NaN. -/
def npMax : List (Option ℚ) → Option ℚ
  | [] => none
  | p :: ps => if ps.isEmpty then p else max2 p (npMax ps)

/-- `data.sum()`: NaN if any pixel is NaN. -/
def npSum (l : List (Option ℚ)) : Option ℚ := if l.all (fun p => p.isSome) then some (l.filterMap id).sum else none

/-- `data >= data.max()/2`: comparisons with NaN are false. -/
def inCore (m p : Option ℚ) : Bool :=
  match m, p with
  | some m, some v => decide (m / 2 ≤ v)
  | _, _ => false

/-- One entry of `get_psf_ct`; a NaN or zero normalisation gives NaN or infinity (`none`). -/
def psfCt (data : List (Option ℚ)) (norm : Option ℚ) : Option ℚ :=
  match npSum (data.filter (inCore (npMax data))), norm with
  | some s, some n => if n = 0 then none else some (s / n)
  | _, _ => none

/-- Specification: the largest of finitely many numbers. -/
def IsMax (l : List ℚ) (m : ℚ) : Prop := m ∈ l ∧ ∀ v ∈ l, v ≤ m

theorem npMax_some {l : List ℚ} {m : ℚ} (h : IsMax l m) : npMax (l.map some) = some m := by
  induction l generalizing m with
  | nil => exact absurd h.1 (by simp)
  | cons a t ih =>
    by_cases ht : t = []
    · subst ht
      have := h.1
      simp only [List.mem_singleton] at this
      simp [npMax, this]
    · obtain ⟨m', hm'⟩ : ∃ m', IsMax t m' := by
        obtain ⟨k, hk⟩ := argmax_exists ht
        obtain ⟨m', h1, h2, -⟩ := argmax_isFirstMax hk
        exact ⟨m', List.mem_of_getElem? h1, h2⟩
      have e := ih hm'
      rw [List.map_cons, npMax, e, if_neg (by simpa using ht), max2]
      simp only [Option.some.injEq]
      apply le_antisymm
      · exact max_le (h.2 _ (by simp)) (h.2 _ (List.mem_cons_of_mem _ hm'.1))
      · rcases List.mem_cons.1 h.1 with h1 | h1
        · rw [h1]; exact le_max_left _ _
        · exact le_trans (hm'.2 _ h1) (le_max_right _ _)

theorem npMax_nan {l : List (Option ℚ)} (h : none ∈ l) : npMax l = none := by
  induction l with
  | nil => simp at h
  | cons a t ih =>
    rw [npMax]
    by_cases ht : t = []
    · subst ht
      simp only [List.mem_singleton] at h
      simp [← h]
    · rw [if_neg (by simpa using ht)]
      rcases List.mem_cons.1 h with h | h
      · rw [← h]; cases npMax t <;> rfl
      · rw [ih h]; cases a <;> rfl

theorem filter_map_some (l : List ℚ) (m : ℚ) : (l.map some).filter (inCore (some m)) = (l.filter (fun v => decide (m / 2 ≤ v))).map some := by
  rw [List.filter_map]
  rfl

theorem npSum_some (l : List ℚ) : npSum (l.map some) = some l.sum := by
  unfold npSum
  rw [if_pos (by simp)]
  simp

/-- C80: without NaN the estimate is the flux of the pixels at or above half the maximum, over the normalisation. -/
theorem C80_def {l : List ℚ} {m n : ℚ} (h : IsMax l m) (hn : n ≠ 0) :
    psfCt (l.map some) (some n) = some ((l.filter (fun v => decide (m / 2 ≤ v))).sum / n) := by
  unfold psfCt
  rw [npMax_some h, filter_map_some, npSum_some]
  simp [hn]

theorem sum_filter_le {l : List ℚ} (p : ℚ → Bool) (h : ∀ v ∈ l, 0 ≤ v) : (l.filter p).sum ≤ l.sum := by
  induction l with
  | nil => simp
  | cons a t ih =>
    have ih' := ih fun v hv => h v (List.mem_cons_of_mem _ hv)
    have ha := h a (by simp)
    rw [List.filter_cons]
    split_ifs
    · simp only [List.sum_cons]; linarith
    · simp only [List.sum_cons]; linarith

theorem sum_filter_nonneg {l : List ℚ} (p : ℚ → Bool) (h : ∀ v ∈ l, p v = true → 0 ≤ v) : 0 ≤ (l.filter p).sum := by
  apply List.sum_nonneg
  intro v hv
  rw [List.mem_filter] at hv
  exact h v hv.1 hv.2

/-- C80: the core throughput lies between 0 and 1 when no pixel is negative or NaN and the off-axis image holds no more
light than the unocculted one. -/
theorem C80_range_partial {l : List ℚ} {n : ℚ} (hne : l ≠ []) (hpos : ∀ v ∈ l, 0 ≤ v) (hn : 0 < n) (htot : l.sum ≤ n) :
    ∃ c, psfCt (l.map some) (some n) = some c ∧ 0 ≤ c ∧ c ≤ 1 := by
  obtain ⟨k, hk⟩ := argmax_exists hne
  obtain ⟨m, h1, h2, -⟩ := argmax_isFirstMax hk
  refine ⟨_, C80_def ⟨List.mem_of_getElem? h1, h2⟩ hn.ne', ?_, ?_⟩
  · exact div_nonneg (sum_filter_nonneg _ fun v hv _ => hpos v hv) hn.le
  · rw [div_le_one hn]
    exact le_trans (sum_filter_le _ hpos) htot

/-- C80: the peak pixel always belongs to the core: the estimate is at least peak over normalisation. -/
theorem C80_peak {l : List ℚ} {m n : ℚ} (h : IsMax l m) (hm : 0 ≤ m) (hn : 0 < n) :
    ∃ c, psfCt (l.map some) (some n) = some c ∧ m / n ≤ c := by
  refine ⟨_, C80_def h hn.ne', ?_⟩
  apply div_le_div_of_nonneg_right _ hn.le
  have hmem : m ∈ l.filter (fun v => decide (m / 2 ≤ v)) := by
    rw [List.mem_filter]
    exact ⟨h.1, by simp only [decide_eq_true_eq]; linarith⟩
  apply List.single_le_sum _ _ hmem
  intro v hv
  rw [List.mem_filter, decide_eq_true_eq] at hv
  linarith [hv.2]

theorem isMax_scale {l : List ℚ} {m k : ℚ} (hk : 0 < k) (h : IsMax l m) : IsMax (l.map (k * ·)) (k * m) := by
  refine ⟨List.mem_map_of_mem h.1, ?_⟩
  intro v hv
  obtain ⟨w, hw, rfl⟩ := List.mem_map.1 hv
  exact mul_le_mul_of_nonneg_left (h.2 w hw) hk.le

/-- C80: the units cancel: scaling image and normalisation together does not change the estimate. -/
theorem C80_scale {l : List ℚ} {n k : ℚ} (hne : l ≠ []) (hk : 0 < k) (hn : n ≠ 0) :
    psfCt ((l.map (k * ·)).map some) (some (k * n)) = psfCt (l.map some) (some n) := by
  obtain ⟨j, hj⟩ := argmax_exists hne
  obtain ⟨m, h1, h2, -⟩ := argmax_isFirstMax hj
  have hm : IsMax l m := ⟨List.mem_of_getElem? h1, h2⟩
  rw [C80_def hm hn, C80_def (isMax_scale hk hm) (mul_ne_zero hk.ne' hn)]
  have e : (l.map (k * ·)).filter (fun v => decide (k * m / 2 ≤ v)) = (l.filter (fun v => decide (m / 2 ≤ v))).map (k * ·) := by
    rw [List.filter_map]
    congr 1
    apply List.filter_congr
    intro v _
    simp only [Function.comp, decide_eq_decide]
    rw [mul_div_assoc]
    exact mul_le_mul_iff_right₀ hk
  rw [e, List.sum_map_mul_left, List.map_id', mul_div_mul_left _ _ hk.ne']

/-- C80 refuted: one NaN pixel anywhere in the frame silently turns the core throughput into 0. -/
theorem C80_violated_nan {l : List (Option ℚ)} {n : ℚ} (h : none ∈ l) (hn : n ≠ 0) : psfCt l (some n) = some 0 := by
  unfold psfCt
  rw [npMax_nan h]
  have e : l.filter (inCore none) = [] := by
    rw [List.filter_eq_nil_iff]
    intro p _
    simp [inCore]
  rw [e]
  simp [npSum, hn]

/-- C80 refuted: with negative pixels the estimate exceeds 1 even for the unocculted image itself. -/
theorem C80_violated_range : ¬ ∀ (l : List ℚ) (n c : ℚ), l.sum = n → 0 < n → psfCt (l.map some) (some n) = some c → c ≤ 1 := by
  intro h
  have := h [10, -5] 5 2 (by norm_num) (by norm_num) (by decide +kernel)
  norm_num at this

/-- C80: an image whose brightest pixel is negative has no core at all. -/
theorem C80_negative {l : List ℚ} {m n : ℚ} (h : IsMax l m) (hm : m < 0) (hn : n ≠ 0) : psfCt (l.map some) (some n) = some 0 := by
  rw [C80_def h hn]
  have e : l.filter (fun v => decide (m / 2 ≤ v)) = [] := by
    rw [List.filter_eq_nil_iff]
    intro v hv
    simp only [decide_eq_true_eq, not_le]
    have := h.2 v hv
    linarith
  rw [e]
  simp

example : psfCt [some 4, some 2, some 1] (some 10) = some (6 / 10) := by decide +kernel

/-! ## C81: `estimate_psf_pix_and_ct` (lines 148-236) -/

/-- What the function reads of a frame; `key` is the identity of the Python object. -/
structure CtFrame where
  key : ℕ
  cfam : Option String
  dpam : Option String
  lsam : Option String
  fsam : Option String
  fpam : Option String
  img : Frame

/-- The pupil-image test (lines 192-201); a missing keyword raises inside the `try` and the frame is passed over. -/
def isPupil (f : CtFrame) : Bool :=
  decide (f.dpam = some "PUPIL") && decide (f.lsam = some "OPEN") && decide (f.fsam = some "OPEN") && decide (f.fpam = some "OPEN_12")

inductive EstErr
  | noCfam
  | mixedCfam
  | noPupil
  | empty
  | centroid (e : Err)
  deriving DecidableEq

/-- The CFAM name of one frame (lines 183-186). -/
def cfamOf (f : CtFrame) : Except EstErr String :=
  match f.cfam with
  | some c => .ok c
  | none => .error .noCfam

/-- The single element of `set(cfam_list)` (lines 187-188). -/
def single : List String → Except EstErr String
  | [] => .error .mixedCfam
  | c :: t => if t.all (· == c) then .ok c else .error .mixedCfam

/-- The common CFAM name (lines 181-188). -/
def commonCfam (fs : List CtFrame) : Except EstErr String := do
  let names ← fs.mapM cfamOf
  single names

/-- Mean of the pupil sums times the transmission ratio (lines 207-214). -/
def unoccNorm (ratio : String → ℚ) (cfam : String) (pupils : List CtFrame) : Option ℚ := do
  let s ← (pupils.map fun f => npSum (flat f.img)).mapM id
  pure (s.sum / pupils.length * ratio cfam)

/-- Frames that are not among the pupil frames: `frame not in pupil_img_frames` compares object identities (lines 216-219). -/
def offAxis (fs : List CtFrame) : List CtFrame :=
  let pup := fs.filter isPupil
  fs.filter fun f => !(pup.any fun g => g.key == f.key)

/-- `estimate_psf_pix_and_ct`: position (`none` for NaN) and core throughput of every off-axis frame. -/
def estimate (ratio : String → ℚ) (radius : Radius) (fs : List CtFrame) :
    Except EstErr (List (Option (ℚ × ℚ) × Option ℚ)) := do
  let c ← commonCfam fs
  let pup := fs.filter isPupil
  if pup = [] then .error .noPupil
  else
    let n := unoccNorm ratio c pup
    let off := offAxis fs
    if off = [] then .error .empty
    else do
      let pos ← off.mapM fun f => (Centroid.centroid f.img radius none).mapError EstErr.centroid
      pure (pos.zip (off.map fun f => psfCt (flat f.img) n))

/-- A dataset's frames are different objects. -/
def Distinct (fs : List CtFrame) : Prop := (fs.map CtFrame.key).Nodup

theorem key_inj {fs : List CtFrame} (hd : Distinct fs) {f g : CtFrame} (hf : f ∈ fs) (hg : g ∈ fs) (h : f.key = g.key) : f = g :=
  List.inj_on_of_nodup_map hd hf hg h

/-- C81: the frames are split into pupil and off-axis frames, nothing lost, nothing in both, order kept. -/
theorem C81_partition {fs : List CtFrame} (hd : Distinct fs) : offAxis fs = fs.filter fun f => !isPupil f := by
  unfold offAxis
  dsimp only
  apply List.filter_congr
  intro f hf
  congr 1
  rw [Bool.eq_iff_iff, List.any_eq_true]
  constructor
  · rintro ⟨g, hg, hk⟩
    rw [List.mem_filter] at hg
    rw [key_inj hd hf hg.1 (by simpa using hk : g.key = f.key).symm]
    exact hg.2
  · intro h
    exact ⟨f, List.mem_filter.2 ⟨hf, h⟩, by simp⟩

theorem single_ok {l : List String} {c : String} (h : single l = .ok c) : ∀ b ∈ l, b = c := by
  cases l with
  | nil => simp
  | cons a t =>
    rw [single] at h
    split_ifs at h with ha
    simp only [Except.ok.injEq] at h
    subst h
    rw [List.all_eq_true] at ha
    intro b hb
    rcases List.mem_cons.1 hb with hb | hb
    · exact hb
    · simpa using ha b hb

theorem commonCfam_ok {fs : List CtFrame} {c : String} (h : commonCfam fs = .ok c) : ∀ f ∈ fs, f.cfam = some c := by
  unfold commonCfam at h
  simp only [bind, Except.bind] at h
  split at h
  · simp at h
  · rename_i names hn
    rw [mapM_ok_iff] at hn
    intro f hf
    obtain ⟨b, hb, hfb⟩ := forall₂_left hn hf
    have := single_ok h b hb
    subst this
    revert hfb
    unfold cfamOf
    cases f.cfam with
    | none => simp
    | some v => simp

/-- C81: a successful estimate has one entry per off-axis frame, in the order of the frames; entry `i` is the centroid and the
core throughput of frame `i`, all with the same normalisation: mean pupil flux times the transmission ratio of the filter that
all frames share. -/
theorem C81_entries {ratio : String → ℚ} {radius : Radius} {fs : List CtFrame} {r : List (Option (ℚ × ℚ) × Option ℚ)}
    (hd : Distinct fs) (h : estimate ratio radius fs = .ok r) :
    ∃ c, (∀ f ∈ fs, f.cfam = some c) ∧ fs.filter isPupil ≠ [] ∧
      List.Forall₂ (fun f e => Centroid.centroid f.img radius none = .ok e.1 ∧
        e.2 = psfCt (flat f.img) (unoccNorm ratio c (fs.filter isPupil))) (fs.filter fun f => !isPupil f) r := by
  unfold estimate at h
  simp only [bind, Except.bind] at h
  split at h
  · simp at h
  · rename_i c hc
    split_ifs at h with h1 h2
    split at h
    · simp at h
    · rename_i pos hpos
      simp only [pure, Except.pure, Except.ok.injEq] at h
      refine ⟨c, commonCfam_ok hc, h1, ?_⟩
      rw [C81_partition hd] at hpos h
      rw [mapM_ok_iff] at hpos
      subst h
      generalize unoccNorm ratio c (fs.filter isPupil) = n
      generalize (fs.filter fun f => !isPupil f) = off at hpos
      clear h1 h2 hc hd
      induction hpos with
      | nil => exact List.Forall₂.nil
      | cons hab _ ih =>
        refine List.Forall₂.cons ⟨?_, rfl⟩ ih
        revert hab
        cases Centroid.centroid _ radius none with
        | error e => simp [Except.mapError]
        | ok v => simp [Except.mapError]

/-- C81: without a pupil frame, with mixed filters, or with pupil frames only, there is no estimate. -/
theorem C81_needs {ratio : String → ℚ} {radius : Radius} {fs : List CtFrame} {r : List (Option (ℚ × ℚ) × Option ℚ)}
    (hd : Distinct fs) (h : estimate ratio radius fs = .ok r) :
    (∃ f ∈ fs, isPupil f = true) ∧ (∃ f ∈ fs, isPupil f = false) := by
  obtain ⟨c, -, h1, -⟩ := C81_entries hd h
  constructor
  · obtain ⟨f, hf⟩ := List.exists_mem_of_ne_nil _ h1
    exact ⟨f, (List.mem_filter.1 hf).1, (List.mem_filter.1 hf).2⟩
  · unfold estimate at h
    simp only [bind, Except.bind] at h
    split at h
    · simp at h
    · split_ifs at h with h2 h3
      rw [C81_partition hd] at h3
      obtain ⟨f, hf⟩ := List.exists_mem_of_ne_nil _ h3
      exact ⟨f, (List.mem_filter.1 hf).1, by simpa using (List.mem_filter.1 hf).2⟩

/-- C81 refuted: a NaN pixel in one pupil frame makes every core throughput NaN. -/
theorem C81_violated_nan {ratio : String → ℚ} {radius : Radius} {fs : List CtFrame} {r : List (Option (ℚ × ℚ) × Option ℚ)}
    (hd : Distinct fs) (h : estimate ratio radius fs = .ok r) {p : CtFrame} (hp : p ∈ fs) (hpp : isPupil p = true)
    (hnan : none ∈ flat p.img) : ∀ e ∈ r, e.2 = none := by
  obtain ⟨c, -, -, h2⟩ := C81_entries hd h
  have hN : unoccNorm ratio c (fs.filter isPupil) = none := by
    unfold unoccNorm
    have : ((fs.filter isPupil).map fun f => npSum (flat f.img)).mapM id = none := by
      have hmem : (none : Option ℚ) ∈ (fs.filter isPupil).map fun f => npSum (flat f.img) := by
        refine List.mem_map.2 ⟨p, List.mem_filter.2 ⟨hp, hpp⟩, ?_⟩
        unfold npSum
        rw [if_neg]
        simp only [List.all_eq_true, not_forall]
        exact ⟨none, hnan, by simp⟩
      generalize (fs.filter isPupil).map (fun f => npSum (flat f.img)) = l at hmem
      induction l with
      | nil => simp at hmem
      | cons a t ih =>
        rw [List.mapM_cons]
        rcases List.mem_cons.1 hmem with hm | hm
        · rw [← hm]; rfl
        · rw [ih hm]
          cases a <;> rfl
    rw [this]
    rfl
  intro e he
  obtain ⟨f, -, -, hf⟩ := forall₂_right h2 he
  rw [hf, hN]
  unfold psfCt
  split <;> simp_all

/-- C81: pupil frames of the same total flux normalise by that flux times the transmission ratio, however many there are. -/
theorem C81_norm {ratio : String → ℚ} {c : String} {pup : List CtFrame} {v : ℚ} (hne : pup ≠ [])
    (h : ∀ f ∈ pup, npSum (flat f.img) = some v) : unoccNorm ratio c pup = some (v * ratio c) := by
  have h1 : (pup.map fun f => npSum (flat f.img)).mapM id = some (List.replicate pup.length v) := by
    clear hne
    induction pup with
    | nil => rfl
    | cons a t ih =>
      rw [List.map_cons, List.mapM_cons, h a (by simp), ih fun f hf => h f (by simp [hf])]
      rfl
  unfold unoccNorm
  rw [h1]
  have h2 : (pup.length : ℚ) ≠ 0 := by simpa using hne
  simp only [Option.bind_eq_bind, Option.bind_some, List.sum_replicate, nsmul_eq_mul]
  rw [mul_div_cancel_left₀ _ h2]
  rfl

/-- One-pixel images for the witnesses. -/
def dot (v : ℚ) : Frame := ⟨1, 1, fun _ _ => some v⟩

def pupilFrame : CtFrame := ⟨0, some "1F", some "PUPIL", some "OPEN", some "OPEN", some "OPEN_12", dot 100⟩
def offFrame : CtFrame := ⟨1, some "1F", some "IMAGING", some "NFOV", some "R1C1", some "HLC12_C2R1", dot 50⟩
/-- A pupil image whose header has lost one mechanism name. -/
def lamePupil : CtFrame := { pupilFrame with key := 2, fsam := none }

/-- C81 refuted: a pupil image with an incomplete header is not rejected but measured as an off-axis PSF. -/
theorem C81_violated_missing_keyword :
    estimate (fun _ => 1) (.int 0) [pupilFrame, offFrame, lamePupil] = .ok [(some (0, 0), some (1 / 2)), (some (0, 0), some 1)] := by
  decide +kernel

example : Distinct [pupilFrame, offFrame, lamePupil] := by unfold Distinct; decide
example : estimate (fun _ => 1) (.int 0) [pupilFrame] = .error .empty := by decide +kernel
example : estimate (fun _ => 1) (.int 0) [offFrame] = .error .noPupil := by decide +kernel

/-! ## C82: `generate_psf_cube` (lines 238-301) -/

/-- The pixels kept along one axis (lines 286-291). -/
def window (size : ℕ) (p : ℚ) (n : ℤ) : Finset ℤ :=
  Finset.Ico (max (npRound p - n) 0) (stop size (min size (npRound p + n + 1)))

/-- One cut-out: rows follow `psf_loc[1]`, columns `psf_loc[0]`. -/
def cut (n : ℤ) (f : Frame) (loc : ℚ × ℚ) : Finset ℤ × Finset ℤ := (window f.h loc.2 n, window f.w loc.1 n)

inductive CubeErr
  | index
  | ragged
  | count
  deriving DecidableEq

/-- The loop over off-axis frames: one location is consumed per frame. -/
def cutouts (n : ℤ) : List Frame → List (ℚ × ℚ) → Except CubeErr (List (Finset ℤ × Finset ℤ))
  | [], _ => .ok []
  | _ :: _, [] => .error .index
  | f :: fs, l :: ls => do
    let r ← cutouts n fs ls
    pure (cut n f l :: r)

def shapeOf (c : Finset ℤ × Finset ℤ) : ℕ × ℕ := (c.1.card, c.2.card)

/-- The whole function: `np.array` of cut-outs of different shapes is a ValueError. -/
def psfCube (n : ℤ) (fs : List Frame) (locs : List (ℚ × ℚ)) : Except CubeErr (List (Finset ℤ × Finset ℤ)) := do
  let cs ← cutouts n fs locs
  if cs.any (fun c => cs.any fun d => !(decide (shapeOf c = shapeOf d))) then .error .ragged
  else if cs.length ≠ locs.length then .error .count
  else pure cs

theorem window_eq_seen {size : ℕ} {p : ℚ} {n : ℤ} (h : 0 ≤ npRound p + n + 1) : window size p n = seen size (npRound p) n := by
  unfold window
  rw [max_comm]
  exact ico_eq_seen h

/-- C82: a cut-out has the full `2n+1` pixels along an axis exactly when the window fits into the frame. -/
theorem C82_full_iff {size : ℕ} {p : ℚ} {n : ℤ} (hn : 0 ≤ n) (h0 : 0 ≤ npRound p) (h1 : npRound p < size) :
    (window size p n).card = 2 * n + 1 ↔ n ≤ npRound p ∧ npRound p + n < size := by
  rw [window_eq_seen (by omega)]
  unfold seen
  rw [Int.card_Ico]
  omega

/-- C82: a full window is centred on the PSF: its pixel number `n` is the rounded location. -/
theorem C82_centred {size : ℕ} {p : ℚ} {n : ℤ} (hn : 0 ≤ n) (h : n ≤ npRound p) (h1 : npRound p + n < size) :
    window size p n = Finset.Icc (npRound p - n) (npRound p + n) := by
  rw [window_eq_seen (by omega), seen_inside h h1]

theorem cutouts_ok_iff {n : ℤ} {fs : List Frame} {locs : List (ℚ × ℚ)} {cs : List (Finset ℤ × Finset ℤ)} :
    cutouts n fs locs = .ok cs ↔ fs.length ≤ locs.length ∧ cs = List.zipWith (cut n) fs locs := by
  induction fs generalizing locs cs with
  | nil => simp [cutouts, eq_comm]
  | cons f fs ih =>
    cases locs with
    | nil => simp [cutouts]
    | cons l ls =>
      simp only [cutouts, bind, Except.bind, List.length_cons, add_le_add_iff_right, List.zipWith_cons_cons]
      cases hr : cutouts n fs ls with
      | error e =>
        simp only [reduceCtorEq, false_iff, not_and]
        intro hle
        have := (ih (locs := ls) (cs := List.zipWith (cut n) fs ls)).2 ⟨hle, rfl⟩
        rw [hr] at this
        simp at this
      | ok r =>
        simp only [pure, Except.pure, Except.ok.injEq]
        obtain ⟨h1, h2⟩ := ih.1 hr
        rw [← h2]
        exact ⟨fun h => ⟨h1, h.symm⟩, fun h => h.2.symm⟩

/-- C82: the cube is built exactly when there is one location per off-axis frame and all cut-outs have the same shape; slice `i`
is cut around location `i` in frame `i`. -/
theorem C82_ok_iff {n : ℤ} {fs : List Frame} {locs : List (ℚ × ℚ)} {cs : List (Finset ℤ × Finset ℤ)} :
    psfCube n fs locs = .ok cs ↔ fs.length = locs.length ∧ (∀ c ∈ cs, ∀ d ∈ cs, shapeOf c = shapeOf d) ∧
      cs = List.zipWith (cut n) fs locs := by
  unfold psfCube
  simp only [bind, Except.bind]
  cases hr : cutouts n fs locs with
  | error e =>
    simp only [reduceCtorEq, false_iff, not_and]
    intro hl _ hc
    have := cutouts_ok_iff.2 ⟨hl.le, hc⟩
    rw [hr] at this
    simp at this
  | ok r =>
    obtain ⟨h1, h2⟩ := cutouts_ok_iff.1 hr
    have hlen : r.length = fs.length := by rw [h2, List.length_zipWith]; omega
    dsimp only
    have hany : (r.any (fun c => r.any fun d => !(decide (shapeOf c = shapeOf d))) = true) ↔ ¬ ∀ c ∈ r, ∀ d ∈ r, shapeOf c = shapeOf d := by
      simp [List.any_eq_true]
    by_cases ha : ∀ c ∈ r, ∀ d ∈ r, shapeOf c = shapeOf d
    · rw [if_neg (by rw [hany]; exact not_not.2 ha)]
      by_cases hl : r.length = locs.length
      · rw [if_neg (by simpa using hl)]
        simp only [pure, Except.pure, Except.ok.injEq]
        constructor
        · rintro rfl; exact ⟨by omega, ha, h2⟩
        · rintro ⟨-, -, h⟩; rw [h2, h]
      · rw [if_pos hl]
        simp only [reduceCtorEq, false_iff, not_and]
        intro hh; omega
    · rw [if_pos (by rw [hany]; exact ha)]
      simp only [reduceCtorEq, false_iff, not_and]
      intro _ hs hc
      rw [← h2] at hc
      subst hc
      exact ha hs

/-- C82: if every PSF is at least `n` pixels from every edge, the cube is built and all slices are full and centred. -/
theorem C82_interior_partial {n : ℤ} {fs : List Frame} {locs : List (ℚ × ℚ)} (hn : 0 ≤ n) (hlen : fs.length = locs.length)
    (hin : List.Forall₂ (fun f l => Inside f (npRound l.1, npRound l.2) n) fs locs) :
    ∃ cs, psfCube n fs locs = .ok cs ∧ List.Forall₂ (fun l c =>
      c.1 = Finset.Icc (npRound l.2 - n) (npRound l.2 + n) ∧ c.2 = Finset.Icc (npRound l.1 - n) (npRound l.1 + n)) locs cs := by
  have key : List.Forall₂ (fun (l : ℚ × ℚ) (c : Finset ℤ × Finset ℤ) =>
      c.1 = Finset.Icc (npRound l.2 - n) (npRound l.2 + n) ∧ c.2 = Finset.Icc (npRound l.1 - n) (npRound l.1 + n)) locs
      (List.zipWith (cut n) fs locs) := by
    clear hlen
    induction hin with
    | nil => exact List.Forall₂.nil
    | cons hab _ ih =>
      obtain ⟨⟨h1, h2⟩, h3, h4⟩ := hab
      refine List.Forall₂.cons ⟨C82_centred hn h3 h4, C82_centred hn h1 h2⟩ ih
  refine ⟨_, C82_ok_iff.2 ⟨hlen, ?_, rfl⟩, key⟩
  have full : ∀ c ∈ List.zipWith (cut n) fs locs, shapeOf c = ((2 * n + 1).toNat, (2 * n + 1).toNat) := by
    intro c hc
    obtain ⟨l, -, e1, e2⟩ := forall₂_right key hc
    unfold shapeOf
    rw [e1, e2, Int.card_Icc, Int.card_Icc]
    congr 2 <;> ring
  intro c hc d hd
  rw [full c hc, full d hd]

/-- A blank 20×20 frame. -/
def blank : Frame := ⟨20, 20, fun _ _ => some 0⟩

/-- C82 refuted: one PSF closer than `n` pixels to an edge makes the whole calibration fail. -/
theorem C82_violated_ragged : psfCube 2 [blank, blank] [(10, 10), (10, 1)] = .error .ragged := by decide +kernel

/-- C82 refuted: if all PSFs are cut equally short, the cube is built, but the PSFs are not centred, and not all at the same
place: here the first is at row 1 of its slice, the second at row 2. -/
theorem C82_violated_centre : psfCube 2 [blank, blank] [(10, 1), (10, 18)] =
    .ok [(Finset.Ico 0 4, Finset.Ico 8 13), (Finset.Ico 16 20, Finset.Ico 8 13)] := by decide +kernel

example : (psfCube 2 [blank] [(10, 10)]).isOk = true := by decide +kernel
example : psfCube 2 [blank, blank] [(10, 10)] = .error .index := by decide +kernel

end Corgi.Ct

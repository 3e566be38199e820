import Verif.L2a.Arith
import Verif.L2a.Desmear
import Verif.L2a.FrameSelect
import Verif.L2a.Dq
import Verif.L4.Crop
import Verif.Psf.Northup
import Verif.Detector.Prescan
import Verif.Levels.Props
import Verif.Walker.Templates

/-!
# A step applied to its own result: C167

The recipes are files that users edit, and the walker runs whatever steps they list (walker.py 441). A step that is
listed twice, or a product that is sent through the same recipe again, has to be refused or to stay as it is. Here the
models of the single steps are applied to their own results.
-/

noncomputable section

namespace Corgi.Twice

/-! ## Refused -/

section
open Corgi.Levels Corgi.DS

/-- **C167** No level upgrade takes its own result: DATALVL is checked, and the result is at another level. -/
theorem C167_upgrade {V : Type} {h h1 : Heap V} {ds d1 : Dataset} (hg : Good h ds) {v now ct flux : String} {u : Up}
    (hk : u.run v now ct flux h ds = .ok (h1, d1)) (v' now' ct' flux' : String) :
    u.run v' now' ct' flux' h1 d1 = .error .valueError := by
  obtain ⟨hl, hg1, _⟩ := C19_effect hg hk
  obtain ⟨f, hf⟩ := List.exists_mem_of_ne_nil _ hg1.nonempty
  refine C19_refuses h1 d1 v' now' ct' flux' u hf ?_
  rw [hl f hf]
  cases u <;> decide

end

section
open Corgi.Det

/-- The result of `prescan_biassub` as the next step finds it. -/
def asFrame (f : L1) (o : BiasSub) : L1 := ⟨f.arrtype, o.data, o.err, o.dq⟩

/-- **C167** After the default call a science frame has 1024 by 1024 pixels, and every further call is refused. -/
theorem C167_bias_cut (off offErr : ℝ) (f : L1) (ht : f.arrtype = some "SCI") (hd : f.data.nr = 1200 ∧ f.data.nc = 2200)
    (hq : f.dq.nr = 1200 ∧ f.dq.nc = 2200) (he : ∀ e ∈ f.err, e.nr = 1200 ∧ e.nc = 2200) :
    ∃ o, prescanBiasSub detectorAreas detectorAreas off offErr .image f = .ok o ∧
      ∀ off' offErr' part, prescanBiasSub detectorAreas detectorAreas off' offErr' part (asFrame f o) = .error .exception := by
  obtain ⟨o, ho, hs⟩ := C26_sci off offErr f ht hd hq he
  refine ⟨o, ho, fun off' offErr' part => ?_⟩
  refine (C26_rejects off' offErr' part (asFrame f o)).2.2 "SCI" geomSci ht (by decide +kernel) ?_
  rintro ⟨h, _⟩
  have h2 : o.data.nr = geomSci.frameRows := h
  rw [hs.shape.1] at h2
  exact absurd h2 (by decide +kernel)

/-- A row whose bias `B` (the median of the pixels `l`, minus the offset) was subtracted has no bias any more. -/
theorem bias_again (l : List (Option ℝ)) (off : ℝ) (B : Option ℝ) (hB : B = (npMedian l).map (· - off)) :
    (npMedian (l.map fun x => sub x B)).map (· - off) = B.map fun _ => 0 := by
  cases hm : npMedian l with
  | none =>
    rw [hm] at hB
    subst hB
    have : ∀ l : List (Option ℝ), npMedian (l.map fun x => sub x none) = none := by
      intro l
      cases l with
      | nil => rfl
      | cons a l =>
        have e : sub a none = none := by cases a <;> rfl
        simp [npMedian, allVals, e]
    show (npMedian (l.map fun x => sub x none)).map (· - off) = _
    rw [this]; rfl
  | some m =>
    rw [hm] at hB
    subst hB
    have : (l.map fun x => sub x (some (m - off))) = l.map fun x => x.map (· + -(m - off)) := by
      apply List.map_congr_left
      intro x _
      cases x <;> simp [sub, sub_eq_add_neg]
    show (npMedian (l.map fun x => sub x (some (m - off)))).map (· - off) = _
    rw [this, npMedian_shift, hm]
    simp

theorem npStd_none_iff (l : List (Option ℝ)) : npStd l = none ↔ npMedian l = none := by
  unfold npStd npMedian
  cases allVals l with
  | none => simp
  | some v => cases v <;> simp

theorem std_again (l : List (Option ℝ)) (off : ℝ) (B : Option ℝ) (hB : B = (npMedian l).map (· - off)) :
    npStd (l.map fun x => sub x B) = npStd l := by
  cases hm : npMedian l with
  | none =>
    rw [(npStd_none_iff l).2 hm, npStd_none_iff]
    have := bias_again l off B hB
    rw [hB, hm] at this
    rw [hB, hm]
    simpa using this
  | some m =>
    rw [hm] at hB
    subst hB
    have : (l.map fun x => sub x (some (m - off))) = l.map fun x => x.map (· + -(m - off)) := by
      apply List.map_congr_left
      intro x _
      cases x <;> simp [sub, sub_eq_add_neg]
    show npStd (l.map fun x => sub x (some (m - off))) = _
    rw [this, npStd_shift]

/-- **C167** With the full frame kept, a second bias subtraction changes no pixel - also with a bias offset, and also in
rows without a bias - but it hands the same error to `add_error_term` once more. -/
theorem C167_bias_full {glob d : Regions} (off offErr : ℝ) {f : L1} {t : String} {g : Geom} {pre : Area}
    {st en : ℕ} (H : Ready d f t g pre st en) (hse : st ≤ en) (hec : en ≤ pre.cols)
    (hcov : pre.r0 = 0 ∧ pre.rows = g.frameRows) :
    ∃ o o', prescanBiasSub glob d off offErr .full f = .ok o ∧ prescanBiasSub glob d off offErr .full (asFrame f o) = .ok o' ∧
      ∀ r c, r < g.frameRows → c < g.frameCols → o'.data.px r c = o.data.px r c ∧ o'.newErr.px r c = o.newErr.px r c ∧
        o'.dq.px r c = o.dq.px r c := by
  obtain ⟨o, ho, hs⟩ := C26_full (glob := glob) off offErr H hse hec hcov
  have H' : Ready d (asFrame f o) t g pre st en :=
    { mode := H.mode, known := H.known, geom := H.geom, size := ⟨hs.shape.1, hs.shape.2.1⟩,
      sizeDq := ⟨hs.dq.1, hs.dq.2.1⟩,
      sizeErr := fun e he => by
        obtain ⟨e0, _, h1, h2, _⟩ := Corgi.forall₂_right hs.err he
        exact ⟨h1, h2⟩
      prescan := H.prescan, inside := H.inside, start := H.start, stop := H.stop }
  obtain ⟨o', ho', hs'⟩ := C26_full (glob := glob) off offErr H' hse hec hcov
  refine ⟨o, o', ho, ho', fun r c hr hc => ?_⟩
  have hrow : (List.range' (pre.c0 + st) (en - st)).map ((asFrame f o).data.px r) =
      ((List.range' (pre.c0 + st) (en - st)).map (f.data.px r)).map fun x => sub x (rowBias f pre st en off r) := by
    rw [List.map_map]
    apply List.map_congr_left
    intro k hk
    rw [List.mem_range'_1] at hk
    have hin := H.inside.2.1
    have := hs.data r k hr (by omega)
    simp only [Nat.zero_add] at this
    exact this
  have hb : rowBias (asFrame f o) pre st en off r = (rowBias f pre st en off r).map fun _ => 0 := by
    show (npMedian _).map (· - off) = _
    rw [hrow]
    exact bias_again _ off _ rfl
  refine ⟨?_, ?_, ?_⟩
  · rw [hs'.data r c hr hc]
    simp only [Nat.zero_add]
    rw [hb]
    show sub (o.data.px r c) _ = _
    rw [hs.data r c hr hc]
    simp only [Nat.zero_add]
    cases f.data.px r c <;> cases rowBias f pre st en off r <;> simp [sub]
  · rw [hs'.newErr r c hr hc, hs.newErr r c hr hc]
    simp only [Nat.zero_add]
    unfold rowErr
    rw [hrow, std_again _ off (rowBias f pre st en off r) rfl]
  · rw [hs'.dq.2.2]
    simp [asFrame]

end

/-! ## Harmless -/

section
open Corgi.FSel
variable {α : Type}

theorem reasons_mark (p : Params) (f : Frame α) (rs : List Reason) : reasons p (mark p f rs) = reasons p f := rfl

theorem mark_mark (p : Params) (f : Frame α) (rs : List Reason) : mark p (mark p f rs) rs = mark p f rs := by
  unfold mark
  split_ifs <;> rfl

/-- The function on frames paired with their reasons. -/
theorem select_pairs (p : Params) (L : List (Frame α × List Reason)) (h : ∀ x ∈ L, reasons p x.1 = .ok x.2) :
    frameSelect p (L.map Prod.fst) =
      if (L.filter fun x => flags x.2 = 0) = [] then .error .valueError
      else .ok (((if p.discardBad then L.filter (fun x => flags x.2 = 0) else L)).map (fun x => mark p x.1 x.2),
        (L.filter fun x => flags x.2 > 0).map fun x => (x.1.filename, x.2)) := by
  have h1 : (L.map Prod.fst).mapM (reasons p) = .ok (L.map Prod.snd) := by
    induction L with
    | nil => rfl
    | cons x L ih =>
      rw [List.map_cons, List.mapM_cons, h x (by simp), ih fun y hy => h y (by simp [hy])]
      rfl
  have h2 : (L.map Prod.fst).zip (L.map Prod.snd) = L := by
    rw [List.zip_map', List.map_id'']; intro x; rfl
  have h3 : List.zipWith (mark p) (L.map Prod.fst) (L.map Prod.snd) = L.map fun x => mark p x.1 x.2 := by
    simp [List.zipWith_map, List.zipWith_self]
  have h4 : (L.map fun x => mark p x.1 x.2).zip (L.map Prod.snd) = L.map fun x => (mark p x.1 x.2, x.2) := by
    rw [List.zip_map']
  unfold frameSelect
  simp only [bind, Except.bind, h1, h2, h3, h4, List.filter_map, List.length_map, List.length_eq_zero_iff]
  have h5 : ((fun x : Frame α × List Reason => decide (flags x.2 = 0)) ∘ fun x : Frame α × List Reason => (mark p x.1 x.2, x.2)) =
      fun x => decide (flags x.2 = 0) := rfl
  rw [h5]
  split_ifs <;> simp

theorem pairs_of_mapM (p : Params) (fs : List (Frame α)) (rs : List (List Reason)) (h : fs.mapM (reasons p) = .ok rs) :
    ∃ L : List (Frame α × List Reason), L.map Prod.fst = fs ∧ ∀ x ∈ L, reasons p x.1 = .ok x.2 := by
  induction fs generalizing rs with
  | nil => exact ⟨[], rfl, by simp⟩
  | cons f fs ih =>
    rw [List.mapM_cons] at h
    cases hf : reasons p f with
    | error e => rw [hf] at h; cases h
    | ok r =>
      cases hr : fs.mapM (reasons p) with
      | error e => rw [hf, hr] at h; cases h
      | ok r' =>
        obtain ⟨L, h1, h2⟩ := ih r' hr
        exact ⟨(f, r) :: L, by simp [h1], by simpa [hf] using h2⟩

/-- **C167** Frames that were selected are selected again, all of them and unchanged; if bad ones were kept, they are
reported again, if not, there are none to report. -/
theorem C167_frame_select (p : Params) (fs out : List (Frame α)) (rep : List (String × List Reason))
    (h : frameSelect p fs = .ok (out, rep)) :
    frameSelect p out = .ok (out, if p.discardBad then [] else rep) := by
  have hr : ∃ rs, fs.mapM (reasons p) = .ok rs := by
    cases hm : fs.mapM (reasons p) with
    | error e => unfold frameSelect at h; rw [hm] at h; cases h
    | ok rs => exact ⟨rs, rfl⟩
  obtain ⟨rs, hr⟩ := hr
  obtain ⟨L, rfl, hL⟩ := pairs_of_mapM p fs rs hr
  rw [select_pairs p L hL] at h
  split_ifs at h with h0 hd
  · simp only [Except.ok.injEq, Prod.mk.injEq] at h
    obtain ⟨rfl, rfl⟩ := h
    set M := (L.filter fun x => decide (flags x.2 = 0)).map fun x => (mark p x.1 x.2, x.2) with hM
    have e : (L.filter fun x => decide (flags x.2 = 0)).map (fun x => mark p x.1 x.2) = M.map Prod.fst := by
      rw [hM, List.map_map]; rfl
    have hall : ∀ x ∈ M, reasons p x.1 = .ok x.2 ∧ flags x.2 = 0 ∧ mark p x.1 x.2 = x.1 := by
      intro x hx
      rw [hM, List.mem_map] at hx
      obtain ⟨y, hy, rfl⟩ := hx
      rw [List.mem_filter] at hy
      exact ⟨by rw [reasons_mark]; exact hL y hy.1, by simpa using hy.2, mark_mark _ _ _⟩
    have e1 : M.filter (fun x => decide (flags x.2 = 0)) = M := List.filter_eq_self.2 fun x hx => by simp [(hall x hx).2.1]
    have e2 : M.filter (fun x => decide (flags x.2 > 0)) = [] := List.filter_eq_nil_iff.2 fun x hx => by simp [(hall x hx).2.1]
    have e3 : M.map (fun x => mark p x.1 x.2) = M.map Prod.fst := List.map_congr_left fun x hx => (hall x hx).2.2
    have e4 : M ≠ [] := by rw [hM]; simpa using h0
    rw [e, select_pairs p M fun x hx => (hall x hx).1, e1, e2, if_neg e4, if_pos hd, e3, if_pos hd]
    rfl
  · simp only [Except.ok.injEq, Prod.mk.injEq] at h
    obtain ⟨rfl, rfl⟩ := h
    set M := L.map fun x => (mark p x.1 x.2, x.2) with hM
    have e : L.map (fun x => mark p x.1 x.2) = M.map Prod.fst := by
      rw [hM, List.map_map]; rfl
    have hall : ∀ x ∈ M, reasons p x.1 = .ok x.2 ∧ mark p x.1 x.2 = x.1 := by
      intro x hx
      rw [hM, List.mem_map] at hx
      obtain ⟨y, hy, rfl⟩ := hx
      exact ⟨by rw [reasons_mark]; exact hL y hy, mark_mark _ _ _⟩
    have e1 : M.filter (fun x => decide (flags x.2 = 0)) =
        (L.filter fun x => decide (flags x.2 = 0)).map fun x => (mark p x.1 x.2, x.2) := by
      rw [hM, List.filter_map]; rfl
    have e2 : (M.filter fun x => decide (flags x.2 > 0)).map (fun x => (x.1.filename, x.2)) =
        (L.filter fun x => decide (flags x.2 > 0)).map fun x => (x.1.filename, x.2) := by
      rw [hM, List.filter_map, List.map_map]; rfl
    have e3 : M.map (fun x => mark p x.1 x.2) = M.map Prod.fst := List.map_congr_left fun x hx => (hall x hx).2
    have e4 : M.filter (fun x => decide (flags x.2 = 0)) ≠ [] := by rw [e1]; simpa using h0
    rw [e, select_pairs p M fun x hx => (hall x hx).1, if_neg e4, if_neg hd, e3, e2, if_neg hd]

end

section
open Corgi.Dq

/-- **C167** No step that sets flags changes the flags when it is applied again. -/
theorem C167_flags (s : Step) (hs : ∀ r c, s ≠ .crop r c) (q : Map) : s.run (s.run q) = s.run q := by
  funext p
  apply Nat.eq_of_testBit_eq
  intro b
  cases s with
  | crop r c => exact absurd rfl (hs r c)
  | cosmics sat cr =>
    simp only [Step.run, Nat.testBit_or]
    cases (q p).testBit b <;> cases (if sat p = true then 32 else 0).testBit b <;>
      cases (if cr p = true then 128 else 0).testBit b <;> rfl
  | nonlin over =>
    simp only [Step.run]
    split
    · simp only [Nat.testBit_or]; cases (q p).testBit b <;> cases Nat.testBit 64 b <;> rfl
    · rfl
  | dark d =>
    simp only [Step.run, Nat.testBit_or]
    cases (q p).testBit b <;> cases (d p).testBit b <;> rfl
  | flat zero =>
    simp only [Step.run]
    split
    · simp only [Nat.testBit_or]; cases (q p).testBit b <;> cases Nat.testBit 4 b <;> rfl
    · rfl
  | badPix bp =>
    simp only [Step.run]
    have h256 : ∀ n b, (u8 n).testBit b = (decide (b < 8) && n.testBit b) := testBit_u8
    have h2 : ∀ b, Nat.testBit 2 b = decide (b = 1) := by
      intro b
      rw [show (2 : ℕ) = 2 ^ 1 from rfl, Nat.testBit_two_pow]
      simp [eq_comm]
    by_cases hm : u8 (q p) ||| u8 (bp p) = 0
    · have h0 := Nat.or_eq_zero_iff.1 hm
      have u0 : u8 0 = 0 := rfl
      simp only [h0.1, h0.2, u0, Nat.or_zero, ne_eq, not_true_eq_false, if_false]
    · have hm2 : u8 ((u8 (q p) ||| u8 (bp p)) ||| 2) ||| u8 (bp p) ≠ 0 := by
        intro h0
        have := congrArg (fun n => n.testBit 1) h0
        simp [h256, h2] at this
      simp only [ne_eq, hm, not_false_eq_true, if_true, hm2, Nat.testBit_or, h256, h2]
      by_cases hb : b < 8
      · simp only [hb, decide_true, Bool.true_and]
        cases (q p).testBit b <;> cases (bp p).testBit b <;> simp
      · have : b ≠ 1 := by omega
        simp [hb, this]
  | other => rfl

end

section
open Corgi.Crop
variable {α β γ ε : Type}

theorem npRound_shift (q : ℚ) (n : ℤ) (h : Int.fract q ≠ 1 / 2 ∨ Even n) : npRound (q - n) = npRound q - n := by
  unfold npRound
  rw [Int.floor_sub_intCast]
  have e : q - n - ((⌊q⌋ - n : ℤ) : ℚ) = q - ⌊q⌋ := by push_cast; ring
  rw [e]
  have hf : q - ⌊q⌋ = Int.fract q := rfl
  rw [hf]
  split_ifs with h1 h2 h3 h4 h5
  · rfl
  · ring
  · rfl
  · exact absurd (by
      rcases h with h | h
      · exact absurd (le_antisymm (not_lt.1 h2) (not_lt.1 h1)) h
      · have := h3.add h
        simpa using this) h4
  · exact absurd (by
      rcases h with h | h
      · exact absurd (le_antisymm (not_lt.1 h2) (not_lt.1 h1)) h
      · exact h5.sub h) h3
  · ring

/-- A frame that came out of a crop to `2k` by `2l` pixels. -/
theorem crop_same {k l : ℕ} {c : ℚ × ℚ} {a b : ℤ} (hc : c = ((a : ℚ) + 1 / 2, (b : ℚ) + 1 / 2)) {f g : Frame α β γ ε}
    (h : cropFrame (2 * (k : ℤ), 2 * (l : ℤ)) c f = .ok g) :
    cropFrame (2 * (k : ℤ), 2 * (l : ℤ)) ((((k : ℤ) - 1 : ℤ) : ℚ) + 1 / 2, (((l : ℤ) - 1 : ℤ) : ℚ) + 1 / 2) g = .ok g := by
  subst hc
  obtain ⟨x, y, hx, hy, hcr⟩ := cropFrame_ok h
  unfold cropFrame at h ⊢
  simp only [startInd_eq, endInd_eq] at h ⊢
  rcases ite_eq_iff.1 h with ⟨_, h⟩ | ⟨h1, h⟩
  · cases h
  rcases ite_eq_iff.1 h with ⟨_, h⟩ | ⟨h2, h⟩
  · cases h
  cases hs : shiftPair f.hdr.starX f.hdr.starY (a + 1 - k) (b + 1 - l) with
  | error e => rw [hs] at h; cases h
  | ok st =>
  cases hr : shiftPair f.hdr.cr1 f.hdr.cr2 (a + 1 - k) (b + 1 - l) with
  | error e => rw [hs, hr] at h; cases h
  | ok cr =>
  cases hd : shiftDet f.hdr.detX f.hdr.detY (a + 1 - k) (b + 1 - l) with
  | error e => rw [hs, hr, hd] at h; cases h
  | ok dt =>
  rw [hs, hr, hd] at h
  simp only [Except.ok.injEq] at h
  have z1 : (k : ℤ) - 1 + 1 - k = 0 := by ring
  have z2 : (l : ℤ) - 1 + 1 - l = 0 := by ring
  have z3 : (k : ℤ) - 1 + 1 + k = 2 * k := by ring
  have z4 : (l : ℤ) - 1 + 1 + l = 2 * l := by ring
  rw [z1, z2, z3, z4]
  have hr' : g.data.rows = 2 * l ∧ g.data.cols = 2 * k := ⟨hcr.data.1, hcr.data.2.1⟩
  rw [if_neg (by omega), if_neg (by rw [hcr.rest.2.1]; exact h2)]
  have p0 : ∀ (k1 k2 : Option ℚ) (r : Option ℚ × Option ℚ) (m n : ℤ), shiftPair k1 k2 m n = .ok r →
      shiftPair r.1 r.2 0 0 = .ok r := by
    intro k1 k2 r m n hh
    cases k1 <;> cases k2 <;> simp only [shiftPair, Except.ok.injEq, reduceCtorEq] at hh <;> subst hh <;> simp [shiftPair]
  have d0 : ∀ (k1 k2 : Option ℤ) (r : Option ℤ × Option ℤ) (m n : ℤ), shiftDet k1 k2 m n = .ok r →
      shiftDet r.1 r.2 0 0 = .ok r := by
    intro k1 k2 r m n hh
    cases k1 <;> cases k2 <;> simp only [shiftDet, Except.ok.injEq, reduceCtorEq] at hh <;> subst hh <;> simp [shiftDet]
  have arr : ∀ {δ : Type} (A : Arr δ), sliceArr (sliceArr A (a + 1 - k) (a + 1 + k) (b + 1 - l) (b + 1 + l)) 0 (2 * k) 0 (2 * l) =
      sliceArr A (a + 1 - k) (a + 1 + k) (b + 1 - l) (b + 1 + l) := by
    intro δ A
    unfold sliceArr
    simp only [Arr.mk.injEq]
    refine ⟨?_, ?_, ?_⟩
    · unfold stopIdx; split_ifs <;> omega
    · unfold stopIdx; split_ifs <;> omega
    · funext r c; simp
  subst h
  simp only
  rw [p0 _ _ _ _ _ hs]
  simp only
  rw [p0 _ _ _ _ _ hr]
  simp only
  rw [d0 _ _ _ _ _ hd]
  simp only [arr]

/-- What the second call finds: the star of the first frame, moved with the window. -/
theorem crop_again_center {k l : ℕ} {f g : Frame α β γ ε} {x y : ℕ}
    (hcr : Cropped x y (2 * k) (2 * l) f g) (hx : f.hdr.starX.isSome) (hy : f.hdr.starY.isSome) :
    resolveCenter g.hdr .default = .ok (f.hdr.starX.getD 0 - x, f.hdr.starY.getD 0 - y) := by
  obtain ⟨sx, hsx⟩ := Option.isSome_iff_exists.1 hx
  obtain ⟨sy, hsy⟩ := Option.isSome_iff_exists.1 hy
  have h1 := hcr.star.1
  have h2 := hcr.star.2 hx
  rw [hsx] at h1; rw [hsy] at h2
  simp only [resolveCenter, h1, h2, hsx, hsy, Option.map_some, Option.getD_some]

/-- Along one axis: the window of `2k` pixels around a star at `s` is found again unless the star is at an integer
position and `k` is even; then the window found is one pixel off. -/
theorem round_again (s : ℚ) (k : ℕ) (x : ℕ) (hx : (x : ℤ) = npRound (s - 1 / 2) + 1 - k) :
    (npRound (s - x - 1 / 2) = (k : ℤ) - 1 ↔ ¬ ((∃ z : ℤ, s = z) ∧ Even k)) := by
  have e : s - x - 1 / 2 = (s - 1 / 2) - ((x : ℤ) : ℚ) := by push_cast; ring
  rw [e]
  have hfr : Int.fract (s - 1 / 2) = 1 / 2 ↔ ∃ z : ℤ, s = z := by
    constructor
    · intro h
      refine ⟨⌊s - 1 / 2⌋ + 1, ?_⟩
      have := Int.self_sub_floor (s - 1 / 2)
      rw [h] at this
      push_cast; linarith
    · rintro ⟨z, rfl⟩
      have : (z : ℚ) - 1 / 2 = ((z - 1 : ℤ) : ℚ) + 1 / 2 := by push_cast; ring
      rw [this, Int.fract_intCast_add, Int.fract_eq_self.2 (by norm_num)]
  by_cases hz : ∃ z : ℤ, s = z
  · obtain ⟨z, rfl⟩ := hz
    have hev : ∀ m : ℤ, Even (npRound ((z : ℚ) - 1 / 2 - (m : ℚ))) := by
      intro m
      have : (z : ℚ) - 1 / 2 - m = ((z - 1 - m : ℤ) : ℚ) + 1 / 2 := by push_cast; ring
      rw [this]; exact npRound_half _
    have h0 := hev 0
    simp only [Int.cast_zero, sub_zero] at h0
    by_cases hk : Even k
    · have hk' : Even (k : ℤ) := by exact_mod_cast hk
      have h1 := hev x
      constructor
      · intro h
        rw [h] at h1
        exact absurd (Int.even_sub_one.1 h1) (by simpa using hk')
      · intro h; exact absurd ⟨⟨z, rfl⟩, hk⟩ h
    · have hk' : Odd (k : ℤ) := by exact_mod_cast (Nat.not_even_iff_odd.1 hk)
      have hxe : Even (x : ℤ) := by
        rw [hx]
        have := h0.add (hk'.add_odd odd_one)
        have e2 : npRound ((z : ℚ) - 1 / 2) + 1 - (k : ℤ) = npRound ((z : ℚ) - 1 / 2) + (k + 1) - 2 * k := by ring
        rw [e2]
        exact this.sub (even_two_mul _)
      rw [npRound_shift _ _ (Or.inr hxe)]
      simp only [hk, and_false, not_false_eq_true, iff_true]
      omega
  · rw [npRound_shift _ _ (Or.inl fun h => hz (hfr.1 h))]
    simp only [hz, false_and, not_false_eq_true, iff_true]
    omega

/-- The condition under which a window around the star is found again. -/
def Findable (s : ℚ) (k : ℕ) : Prop := ¬ ((∃ z : ℤ, s = z) ∧ Even k)

theorem cropLoop_same (gs : List (Frame α β γ ε)) (w h : ℤ) (q : ℚ × ℚ) (hq : roundCenter q = q)
    (hall : ∀ g ∈ gs, cropFrame (w, h) q g = .ok g) : cropLoop gs (.pair w h) (.pair q.1 q.2) = .ok (gs, .pair q.1 q.2) := by
  induction gs with
  | nil => rfl
  | cons g gs ih =>
    simp only [cropLoop, resolveSize, resolveCenter, nextCenter]
    rw [show ((q.1, q.2) : ℚ × ℚ) = q from rfl, hq, hall g (by simp)]
    dsimp only
    rw [ih fun g' hg' => hall g' (by simp [hg'])]

/-- **C167** Cropping around the star to a given size and then again in the same way returns the same frames if the star
is off the integers or half the size is odd; in every other case the second call is refused, although the window it
should cut out is the whole image. -/
theorem C167_crop {k l : ℕ} {ds out : List (Frame α β γ ε)}
    (h : crop ds (.pair (2 * (k : ℤ)) (2 * (l : ℤ))) .default = .ok out) :
    ∃ f fs, ds = f :: fs ∧
      (Findable (f.hdr.starX.getD 0) k ∧ Findable (f.hdr.starY.getD 0) l →
        crop out (.pair (2 * (k : ℤ)) (2 * (l : ℤ))) .default = .ok out) ∧
      (¬ (Findable (f.hdr.starX.getD 0) k ∧ Findable (f.hdr.starY.getD 0) l) →
        crop out (.pair (2 * (k : ℤ)) (2 * (l : ℤ))) .default = .error .value) := by
  obtain ⟨f, fs, rfl, he, _, hst, _, hall⟩ := crop_ok h
  obtain ⟨hsx, hsy⟩ := hst rfl
  obtain ⟨a, b, hr, ha, hb⟩ := roundCenter_spec (centerOf f .default)
  simp only [Crop.sizeOf] at hall
  rw [hr] at hall
  cases hall with
  | cons hg hgs =>
  rename_i g gs
  obtain ⟨x, y, hx, hy, hcr⟩ := cropFrame_ok hg
  simp only [centerOf] at ha hb
  have hcen := crop_again_center hcr hsx hsy
  obtain ⟨a', b', hr', ha', hb'⟩ := roundCenter_spec (f.hdr.starX.getD 0 - x, f.hdr.starY.getD 0 - y)
  simp only at ha' hb'
  have kx := round_again (f.hdr.starX.getD 0) k x (by rw [hx, ha])
  have ky := round_again (f.hdr.starY.getD 0) l y (by rw [hy, hb])
  rw [← ha'] at kx
  rw [← hb'] at ky
  refine ⟨f, fs, rfl, ?_, ?_⟩
  · rintro ⟨f1, f2⟩
    have e1 := kx.2 f1
    have e2 := ky.2 f2
    rw [e1, e2] at hr'
    have hsame : ∀ g' ∈ g :: gs, cropFrame (2 * (k : ℤ), 2 * (l : ℤ))
        ((((k : ℤ) - 1 : ℤ) : ℚ) + 1 / 2, (((l : ℤ) - 1 : ℤ) : ℚ) + 1 / 2) g' = .ok g' := by
      intro g' hg'
      rcases List.mem_cons.1 hg' with rfl | hg'
      · exact crop_same rfl hg
      · obtain ⟨f', _, hf'⟩ := Corgi.forall₂_right hgs hg'
        exact crop_same rfl hf'
    unfold crop
    rw [if_neg (by simp [evenOk])]
    simp only [cropLoop, resolveSize, hcen, hr', hsame g (by simp), nextCenter]
    have := cropLoop_same gs (2 * (k : ℤ)) (2 * (l : ℤ))
      ((((k : ℤ) - 1 : ℤ) : ℚ) + 1 / 2, (((l : ℤ) - 1 : ℤ) : ℚ) + 1 / 2) (by
        unfold roundCenter
        rw [if_pos]
        rw [Bool.and_eq_true, isHalf_iff, isHalf_iff]
        exact ⟨⟨_, rfl⟩, _, rfl⟩) fun g' hg' => hsame g' (by simp [hg'])
    simp only at this
    rw [this]
  · intro hn
    unfold crop
    rw [if_neg (by simp [evenOk])]
    have herr : cropFrame (2 * (k : ℤ), 2 * (l : ℤ)) ((a' : ℚ) + 1 / 2, (b' : ℚ) + 1 / 2) g = .error .value := by
      apply C38_outside
      have hw : g.data.rows = 2 * l ∧ g.data.cols = 2 * k := ⟨hcr.data.1, hcr.data.2.1⟩
      have : a' ≠ (k : ℤ) - 1 ∨ b' ≠ (l : ℤ) - 1 := by
        by_contra hc
        push Not at hc
        exact hn ⟨kx.1 hc.1, ky.1 hc.2⟩
      omega
    simp only [cropLoop, resolveSize, hcen, hr', herr]

end

section
open Real Corgi.Sky Corgi.Northup

theorem cos_sin_wcsAngle (w : Wcs) (h : w.cd22 ≠ 0 ∨ w.cd12 ≠ 0) :
    ∃ n : ℝ, 0 < n ∧ n * cos (wcsAngle w) = w.cd22 ∧ n * sin (wcsAngle w) = w.cd12 := by
  set z : ℂ := ⟨w.cd22, -w.cd12⟩ with hz
  have hz0 : z ≠ 0 := by
    intro h0
    have h1 : w.cd22 = 0 := congrArg Complex.re h0
    have h2 : -w.cd12 = 0 := congrArg Complex.im h0
    rcases h with h | h
    · exact h h1
    · exact h (by linarith)
  refine ⟨‖z‖, norm_pos_iff.2 hz0, ?_, ?_⟩
  · unfold wcsAngle
    rw [cos_neg, ← hz, Complex.norm_mul_cos_arg]
  · unfold wcsAngle
    rw [sin_neg, ← hz, mul_neg, Complex.norm_mul_sin_arg]
    simp [hz]

/-- **C167** exactly: the rotation to north by the WCS, applied to its own result, finds the angle zero iff the first one
made the north axis vertical. -/
theorem C167_northup_wcs (w : Wcs) :
    wcsAngle (turnCd (wcsAngle w) w) = 0 ↔ w.cd12 * (w.cd11 + w.cd22) = 0 ∧ 0 ≤ w.cd12 * w.cd21 + w.cd22 ^ 2 := by
  have key : ∀ v : Wcs, wcsAngle v = 0 ↔ 0 ≤ v.cd22 ∧ v.cd12 = 0 := by
    intro v
    unfold wcsAngle
    rw [neg_eq_zero, Complex.arg_eq_zero_iff]
    simp
  by_cases h : w.cd22 ≠ 0 ∨ w.cd12 ≠ 0
  · obtain ⟨n, hn, hc, hs⟩ := cos_sin_wcsAngle w h
    rw [key]
    simp only [turnCd]
    have e1 : n * (w.cd21 * sin (wcsAngle w) + w.cd22 * cos (wcsAngle w)) = w.cd12 * w.cd21 + w.cd22 ^ 2 := by
      rw [mul_add, mul_left_comm, hs, mul_left_comm, hc]; ring
    have e2 : n * (w.cd11 * sin (wcsAngle w) + w.cd12 * cos (wcsAngle w)) = w.cd12 * (w.cd11 + w.cd22) := by
      rw [mul_add, mul_left_comm, hs, mul_left_comm n, hc]; ring
    rw [← e1, ← e2, and_comm]
    constructor
    · rintro ⟨h1, h2⟩
      exact ⟨by rw [h1, mul_zero], mul_nonneg hn.le h2⟩
    · rintro ⟨h1, h2⟩
      exact ⟨(mul_eq_zero.1 h1).resolve_left hn.ne', nonneg_of_mul_nonneg_right h2 hn⟩
  · push Not at h
    have ht : wcsAngle w = 0 := (key w).2 ⟨h.1.ge, h.2⟩
    rw [ht, key]
    simp [turnCd, h.1, h.2]

/-- **C167** With the WCS of `create_wcs` and one plate scale the second rotation moves nothing and keeps the header. -/
theorem C167_northup_again (rows cols : ℕ) (a : Astrom) (p : Pointing) (he : a.scaleX = a.scaleY)
    (s : Option (ℝ × ℝ)) (roll : ℝ) (n : ℕ) (rc : Center) {o : Out}
    (ho : northup [rows, cols] ⟨createWcs rows cols a p, s, roll⟩ n true true rc = .ok o) :
    ∃ o', northup [rows, cols] o.hdr o.errLayers true true rc = .ok o' ∧ o'.hdr = o.hdr ∧ (∀ q, o'.data q = q) ∧ ∀ q, o'.dq q = q := by
  set w := createWcs rows cols a p with hw
  have hang : wcsAngle (turnCd (wcsAngle w) w) = 0 := by
    rw [C167_northup_wcs]
    have d1 : w.cd11 = -cos (vertAng a p) * (a.scaleX * (1 / 1000) / 3600) := rfl
    have d2 : w.cd12 = sin (vertAng a p) * (a.scaleX * (1 / 1000) / 3600) := rfl
    have d3 : w.cd21 = sin (vertAng a p) * (a.scaleY * (1 / 1000) / 3600) := rfl
    have d4 : w.cd22 = cos (vertAng a p) * (a.scaleY * (1 / 1000) / 3600) := rfl
    rw [d1, d2, d3, d4, ← he]
    constructor
    · ring
    · nlinarith [sq_nonneg (sin (vertAng a p) * (a.scaleX * (1 / 1000) / 3600)),
        sq_nonneg (cos (vertAng a p) * (a.scaleX * (1 / 1000) / 3600))]
  simp only [northup, Bool.not_true, Bool.and_false, Bool.false_eq_true, if_false, if_true, Except.ok.injEq] at ho ⊢
  subst ho
  simp only [hang]
  have hid : ∀ c q : ℝ × ℝ, dataTo 0 c q = q := by
    intro c q
    apply Prod.ext <;> simp [dataTo, rot]
  refine ⟨_, rfl, ?_, ?_, ?_⟩
  · simp [turnCd]
  · exact fun q => hid _ q
  · intro q
    show dqTo cols rows 0 _ q = q
    rw [(C97_violated_dq cols rows 0 _ q).2 cos_zero]
    exact hid _ q

/-- **C167, violated** With the roll angle of the header, which no step changes, the frame is turned once more by the
same angle: nothing moves the second time iff the roll is a whole number of turns. -/
theorem C167_violated_northup_roll (rows cols : ℕ) (h : Hdr) (n : ℕ) (rc : Center) :
    ∃ o o', northup [rows, cols] h n false false rc = .ok o ∧ northup [rows, cols] o.hdr o.errLayers false false rc = .ok o' ∧
      ∀ q, o'.data q = q ↔ q = center cols rows h rc ∨ cos (h.roll * π / 180) = 1 := by
  refine ⟨_, _, rfl, rfl, fun q => ?_⟩
  simp only [Bool.false_eq_true, if_false]
  unfold dataTo
  rw [show center cols rows h rc + rot (h.roll * π / 180) (q - center cols rows h rc) = q ↔
      rot (h.roll * π / 180) (q - center cols rows h rc) = q - center cols rows h rc from by
        rw [add_comm, ← eq_sub_iff_add_eq], rot_zero_iff]
  rw [show ((0, 0) : ℝ × ℝ) = 0 from rfl, sub_eq_zero]

end

/-! ## Neither -/

section
open Corgi.Desmear
variable {K : Type} [Field K]

theorem total_zero {f : ℕ → K} {n : ℕ} (h : ∀ r, r < n → total f (r + 1) = 0) (r : ℕ) (hr : r < n) : f r = 0 := by
  cases r with
  | zero => simpa [total] using h 0 hr
  | succ r =>
    have h1 := h r (by omega)
    have h2 := h (r + 1) hr
    rw [total, h1, zero_add] at h2
    exact h2

/-- A column is its own desmeared column iff there is nothing to smear. -/
theorem desmear_fixed (rr te : K) (h : 1 + rr / te ≠ 0) (col : List K) :
    desmearCol rr te col = col ↔ rr / te = 0 ∨ ∀ x ∈ col, x = 0 := by
  constructor
  · intro hfix
    by_cases h0 : rr / te = 0
    · exact Or.inl h0
    refine Or.inr ?_
    have hs : ∀ r, r < col.length → total (fun s => (col[s]?).getD 0) (r + 1) = 0 := by
      intro r hr
      have hG : ∀ r, r < col.length → G (rr / te) (fun s => (col[s]?).getD 0) r = 0 := by
        intro r hr
        have := getD_desmear rr te col r hr
        rw [hfix, smear_eq] at this
        have h2 : rr / te * G (rr / te) (fun s => (col[s]?).getD 0) r = 0 := by linear_combination this
        exact (mul_eq_zero.1 h2).resolve_left h0
      rw [G_total (rr / te) (fun s => (col[s]?).getD 0) (fun s => (col[s]?).getD 0) h col.length
        (fun r hr => by rw [hG r hr]; ring) r hr, hG r hr]
    intro x hx
    obtain ⟨r, hr, rfl⟩ := List.mem_iff_getElem.1 hx
    have := total_zero hs r hr
    simpa [List.getElem?_eq_getElem hr] using this
  · rintro (h0 | h0)
    · apply ext_getD (desmear_length _ _ _)
      intro r hr
      rw [desmear_length] at hr
      rw [getD_desmear _ _ _ _ hr, smear_eq, h0, zero_mul, sub_zero]
    · apply ext_getD (desmear_length _ _ _)
      intro r hr
      rw [desmear_length] at hr
      rw [getD_desmear _ _ _ _ hr, smear_eq]
      have hz : (fun s : ℕ => (col[s]?).getD 0) = fun _ => (0 : K) := by
        funext s
        cases hs : col[s]? with
        | none => rfl
        | some v => exact h0 v (List.mem_of_getElem? hs)
      have hG : G (rr / te) (fun _ => (0 : K)) r = 0 := by
        unfold G
        have : ∀ n, total (fun s : ℕ => (1 + rr / te) ^ (((s : ℤ) + 1) - ((r : ℤ) + 1) - 1) * (0 : K)) n = 0 := by
          intro n
          induction n with
          | zero => rfl
          | succ n ih => rw [total, ih]; simp
        exact this _
      rw [hz, hG]
      simp

/-- **C167, violated** exactly: desmearing twice is desmearing once iff the rows are read in no time or the column is
dark. -/
theorem C167_violated_desmear (rr te : K) (h : 1 + rr / te ≠ 0) (col : List K) :
    desmearCol rr te (desmearCol rr te col) = desmearCol rr te col ↔ rr / te = 0 ∨ ∀ x ∈ col, x = 0 := by
  rw [desmear_fixed rr te h]
  have hz := desmear_fixed rr te h
  constructor
  · rintro (h0 | h0)
    · exact Or.inl h0
    · have h1 : observe (rr / te) (desmearCol rr te col) = col := C25_explains rr te h col
      refine Or.inr ?_
      intro x hx
      rw [← h1] at hx
      unfold observe at hx
      obtain ⟨r, hr, rfl⟩ := List.mem_map.1 hx
      have hg : ∀ s : ℕ, ((desmearCol rr te col)[s]?).getD 0 = 0 := by
        intro s
        cases hs : (desmearCol rr te col)[s]? with
        | none => rfl
        | some v => exact h0 v (List.mem_of_getElem? hs)
      simp [hg]
  · rintro (h0 | h0)
    · exact Or.inl h0
    · exact Or.inr (by rw [(hz col).2 (Or.inr h0)]; exact h0)

end

section
open Corgi.Arith

theorem keeps {track : Bool} {d : DarkCal} {fs gs : List Fr} (h : List.Forall₂ (fun f g => subFrame track d f = .ok g) fs gs) :
    List.map (fun f : Fr => (f.exptime, f.emC, f.kgain)) gs = List.map (fun f : Fr => (f.exptime, f.emC, f.kgain)) fs := by
  induction h with
  | nil => rfl
  | cons ha _ ih =>
    obtain ⟨_, _, _, _, _, e1, e2, e3⟩ := subFrame_spec ha
    rw [List.map_cons, List.map_cons, ih, e1, e2, e3]

/-- **C167, violated** A dataset that a dark was subtracted from passes every check of `dark_subtraction` again. -/
theorem C167_violated_dark_accepted {track : Bool} {d : DarkCal} {fs gs : List Fr} (h : darkSub track d fs = .ok gs) :
    ∃ ks, darkSub track d gs = .ok ks := by
  obtain ⟨f, fs', rfl⟩ : ∃ f fs', fs = f :: fs' := by
    cases fs with
    | nil => cases h
    | cons f fs' => exact ⟨f, fs', rfl⟩
  unfold darkSub at h
  simp only at h
  rcases ite_eq_iff.1 h with ⟨_, h⟩ | ⟨h1, h⟩
  · cases h
  rcases ite_eq_iff.1 h with ⟨_, h⟩ | ⟨h2, h⟩
  · cases h
  rcases ite_eq_iff.1 h with ⟨_, h⟩ | ⟨h3, h⟩
  · cases h
  have hF := Corgi.mapM_ok_iff.1 h
  have hkeep := keeps hF
  obtain ⟨g, gs', ha, hrest, rfl⟩ := List.forall₂_cons_left_iff.1 hF
  have hunif : ∀ l : List Fr, ∀ x : Fr, uniform (x :: l) =
      ((x :: l).map fun f : Fr => (f.exptime, f.emC, f.kgain)).all fun t => decide (t = (x.exptime, x.emC, x.kgain)) := by
    intro l x
    unfold uniform
    simp only [List.all_map]
    rfl
  have hg : (g.exptime, g.emC, g.kgain) = (f.exptime, f.emC, f.kgain) := by
    simp only [List.map_cons, List.cons.injEq] at hkeep
    exact hkeep.1
  have hacc : ∀ x ∈ g :: gs', ∃ y, subFrame track d x = .ok y := by
    intro x hx
    have : ∃ f0, subFrame track d f0 = .ok x := by
      rcases List.mem_cons.1 hx with rfl | hx
      · exact ⟨f, ha⟩
      · obtain ⟨f0, _, hf0⟩ := Corgi.forall₂_right hrest hx
        exact ⟨f0, hf0⟩
    obtain ⟨f0, hf0⟩ := this
    obtain ⟨i, hi, rfl⟩ := subFrame_ok hf0
    have hfit := (Errs.addError_ok_iff track ⟨d.shape, d.err⟩ "dark_error" f0.img).1 ⟨i, hi⟩
    have heff := Errs.addError_effect hi
    have : ∃ r, Errs.addError track ⟨d.shape, d.err⟩ "dark_error" i = .ok r := by
      rw [Errs.addError_ok_iff]
      refine ⟨⟨hfit.1.1, ?_⟩, heff.2.1⟩
      rw [heff.1]; exact hfit.1.2
    obtain ⟨r, hr⟩ := this
    unfold subFrame
    simp only [hr, ofErrs]
    exact ⟨_, rfl⟩
  have hm : ∀ l : List Fr, (∀ x ∈ l, ∃ y, subFrame track d x = .ok y) → ∃ ks, l.mapM (subFrame track d) = .ok ks := by
    intro l hl
    induction l with
    | nil => exact ⟨[], rfl⟩
    | cons x l ih =>
      obtain ⟨y, hy⟩ := hl x (by simp)
      obtain ⟨ks, hks⟩ := ih fun z hz => hl z (by simp [hz])
      refine ⟨y :: ks, ?_⟩
      rw [List.mapM_cons, hy]
      simp only [bind, Except.bind, hks, pure, Except.pure]
  obtain ⟨ks, hks⟩ := hm _ hacc
  refine ⟨ks, ?_⟩
  unfold darkSub
  simp only
  rw [hunif, hkeep, hg, ← hunif, if_neg h1, if_neg h2, if_neg h3]
  exact hks

/-- **C167, violated** exactly: the dark goes off twice, and its error is added twice; the data are the same iff the dark
is zero there. -/
theorem C167_violated_dark {track : Bool} {d : DarkCal} {f g k : Fr} (h1 : subFrame track d f = .ok g)
    (h2 : subFrame track d g = .ok k) (p : Ix) :
    k.data p = f.data p - 2 * d.data p ∧ (k.data p = g.data p ↔ d.data p = 0) ∧ k.dq p = g.dq p ∧
      Errs.total k.img p = Real.sqrt (Errs.total f.img p ^ 2 + 2 * d.err p ^ 2) := by
  obtain ⟨a1, a2, a3, _⟩ := subFrame_spec h1
  obtain ⟨b1, b2, b3, _⟩ := subFrame_spec h2
  have e1 := a1 p
  have e2 := b1 p
  refine ⟨by linarith, ⟨fun h => by linarith, fun h => by linarith⟩, ?_, ?_⟩
  · apply Nat.eq_of_testBit_eq
    intro b
    rw [b2, a2]
    cases (f.dq p).testBit b <;> cases (d.dq p).testBit b <;> rfl
  · rw [b3, a3, Real.sq_sqrt (by positivity)]
    congr 1; ring

/-- **C167, violated** exactly: a flat is divided out twice; the same iff the pixel is zero or the flat is 1 there. (Where
the flat is zero, the values are no numbers.) -/
theorem C167_violated_flat {track : Bool} {junk : Ix → ℝ} {F : Flat} {f g k : Fr} (h1 : flatFrame track junk F f = .ok g)
    (h2 : flatFrame track junk F g = .ok k) (p : Ix) (hF : F.data p ≠ 0) :
    k.data p = f.data p / F.data p ^ 2 ∧ (k.data p = g.data p ↔ f.data p = 0 ∨ F.data p = 1) := by
  have key : ∀ {f g : Fr}, flatFrame track junk F f = .ok g → g.data p = f.data p / F.data p := by
    intro f g h
    unfold flatFrame at h
    dsimp only at h
    split at h
    · cases h
    · split at h
      · cases h
      · cases h
        simp [hF]
  have e1 := key h1
  have e2 := key h2
  rw [e1] at e2
  refine ⟨by rw [e2, div_div, ← pow_two], ?_⟩
  rw [e2, e1]
  constructor
  · intro h
    rw [div_eq_iff hF] at h
    by_cases h0 : f.data p = 0
    · exact Or.inl h0
    · refine Or.inr ?_
      have h3 : f.data p / F.data p ≠ 0 := div_ne_zero h0 hF
      have : f.data p / F.data p * 1 = f.data p / F.data p * F.data p := by rw [mul_one]; exact h
      exact (mul_left_cancel₀ h3 this).symm
  · rintro (h | h) <;> rw [h] <;> simp

/-- **C167, violated** exactly: the k gain is multiplied in twice, -/
theorem C167_violated_electrons (k ek : ℝ) (f : Fr) (p : Ix) :
    (toElectrons k ek (toElectrons k ek f)).data p = f.data p * k ^ 2 ∧
    ((toElectrons k ek (toElectrons k ek f)).data p = (toElectrons k ek f).data p ↔ f.data p = 0 ∨ k = 0 ∨ k = 1) := by
  simp only [toElectrons]
  refine ⟨by ring, ?_⟩
  constructor
  · intro h
    have : f.data p * k * (k - 1) = 0 := by linear_combination h
    rcases mul_eq_zero.1 this with h | h
    · rcases mul_eq_zero.1 h with h | h
      · exact Or.inl h
      · exact Or.inr (Or.inl h)
    · exact Or.inr (Or.inr (by linarith))
  · rintro (h | h | h) <;> rw [h] <;> ring

/-- the EM gain is divided out twice, although the unit recorded by the first call says that it is gone, -/
theorem C167_violated_emgain (f : Fr) (p : Ix) (hg : emGain f ≠ 0) :
    (emDiv f).bunit = "detected electrons" ∧ (emDiv (emDiv f)).data p = f.data p / emGain f ^ 2 ∧
    ((emDiv (emDiv f)).data p = (emDiv f).data p ↔ f.data p = 0 ∨ emGain f = 1) := by
  have e : emGain (emDiv f) = emGain f := rfl
  have e1 : (emDiv f).data p = f.data p / emGain f := rfl
  have e2 : (emDiv (emDiv f)).data p = f.data p / emGain f / emGain f := rfl
  refine ⟨rfl, by rw [e2, div_div, ← pow_two], ?_⟩
  rw [e2, e1]
  constructor
  · intro h
    rw [div_eq_iff hg] at h
    by_cases h0 : f.data p = 0
    · exact Or.inl h0
    · refine Or.inr ?_
      have h3 : f.data p / emGain f ≠ 0 := div_ne_zero h0 hg
      have : f.data p / emGain f * 1 = f.data p / emGain f * emGain f := by rw [mul_one]; exact h
      exact (mul_left_cancel₀ h3 this).symm
  · rintro (h | h) <;> rw [h] <;> simp

/-- and so is the exposure time. -/
theorem C167_violated_exptime {f g k : Fr} (h1 : expDiv f = .ok g) (h2 : expDiv g = .ok k) (p : Ix) (ht : f.exptime ≠ 0) :
    g.bunit = "photoelectrons/s" ∧ k.data p = f.data p / f.exptime ^ 2 ∧
    (k.data p = g.data p ↔ f.data p = 0 ∨ f.exptime = 1) := by
  have key : ∀ {f g : Fr}, expDiv f = .ok g → g.data p = f.data p / f.exptime ∧ g.exptime = f.exptime ∧
      g.bunit = "photoelectrons/s" := by
    intro f g h
    unfold expDiv at h
    split at h
    · cases h
    · cases h
      exact ⟨rfl, rfl, rfl⟩
  obtain ⟨e1, t1, u1⟩ := key h1
  obtain ⟨e2, _, _⟩ := key h2
  rw [t1, e1] at e2
  refine ⟨u1, by rw [e2, div_div, ← pow_two], ?_⟩
  rw [e2, e1]
  constructor
  · intro h
    rw [div_eq_iff ht] at h
    by_cases h0 : f.data p = 0
    · exact Or.inl h0
    · refine Or.inr ?_
      have h3 : f.data p / f.exptime ≠ 0 := div_ne_zero h0 ht
      have : f.data p / f.exptime * 1 = f.data p / f.exptime * f.exptime := by rw [mul_one]; exact h
      exact (mul_left_cancel₀ h3 this).symm
  · rintro (h | h) <;> rw [h] <;> simp

/-- **C167, violated** The second call of `divide_by_exptime` is accepted whenever the first was. -/
theorem C167_violated_exptime_accepted {f g : Fr} (h : expDiv f = .ok g) : ∃ k, expDiv g = .ok k := by
  unfold expDiv at h
  split at h
  · cases h
  · rename_i i hi
    cases h
    have hi' := ofErrs_ok hi
    have hs := (Errs.rescale_effect hi').1
    unfold expDiv
    unfold Errs.rescale at hi' ⊢
    split at hi'
    · cases hi'
    · rename_i hn
      simp only [Errs.Arr.ndim, ne_eq, not_true_eq_false, or_false] at hn ⊢
      rw [hs, if_neg hn]
      exact ⟨_, rfl⟩

/-- **C167, violated** exactly: `add_photon_noise` adds the noise once more; the error is the same iff the pixel holds no
signal (negative pixels have the error NaN from the first call on). -/
theorem C167_violated_photon_noise (g d e : ℝ) (hd : 0 ≤ d) :
    photNoise g d (photNoise g d (some e)) = some (Real.sqrt (e ^ 2 + 2 * (if 1 < g then 2 * d else d))) ∧
    (photNoise g d (photNoise g d (some e)) = photNoise g d (some e) ↔ d = 0) := by
  have hph : (if 1 < g then Real.sqrt d * Real.sqrt 2 else Real.sqrt d) ^ 2 = if 1 < g then 2 * d else d := by
    split_ifs
    · rw [mul_pow, Real.sq_sqrt hd, Real.sq_sqrt (by norm_num)]; ring
    · exact Real.sq_sqrt hd
  have hN : 0 ≤ if 1 < g then 2 * d else d := by split_ifs <;> linarith
  have one : ∀ x : ℝ, photNoise g d (some x) = some (Real.sqrt (x ^ 2 + if 1 < g then 2 * d else d)) := by
    intro x
    unfold photNoise
    simp only [bind, Option.bind, if_neg (not_lt.2 hd), hph]
    rfl
  have two : photNoise g d (photNoise g d (some e)) = some (Real.sqrt (e ^ 2 + 2 * (if 1 < g then 2 * d else d))) := by
    rw [one e, one, Real.sq_sqrt (by positivity)]
    congr 2; ring
  refine ⟨two, ?_⟩
  rw [two, one, Option.some.injEq, Real.sqrt_inj (by positivity) (by positivity)]
  constructor
  · intro h
    have h0 : (if 1 < g then 2 * d else d) = 0 := by linarith
    split_ifs at h0 <;> linarith
  · rintro rfl; simp

end

/-! ## Witnesses -/

/-- **C167, violated** by a concrete frame: cropped to the default 60 pixels around a star at (50, 50), then refused. -/
theorem C167_violated_crop :
    Crop.stars (Crop.crop [Crop.sample "a" 50 50] .default .default) = some [(some 29, some 29, 60, 60, 21021)] ∧
    Crop.stars (Crop.crops [Crop.sample "a" 50 50] [(.default, .default), (.default, .default)]) = none ∧
    Crop.stars (Crop.crops [Crop.sample "a" (99/2) (99/2)] [(.default, .default), (.default, .default)]) =
      some [(some (59/2), some (59/2), 60, 60, 20020)] := by
  refine ⟨?_, ?_, ?_⟩ <;> decide +kernel

/-- Not vacuous: a frame of one pixel, two calls. -/
example : ∃ g k, Arith.subFrame false ⟨none, 1, 100, 8, [1, 1], fun _ => 2, fun _ => 0, fun _ => 0⟩ (Arith.sample none 5) = .ok g ∧
    Arith.subFrame false ⟨none, 1, 100, 8, [1, 1], fun _ => 2, fun _ => 0, fun _ => 0⟩ g = .ok k ∧ g.data [0, 0] = 3 ∧
    k.data [0, 0] = 1 := by
  refine ⟨_, _, rfl, rfl, ?_, ?_⟩ <;> norm_num [Arith.sample]

example : ∃ g k, Arith.expDiv { Arith.sample none 8 with exptime := 2 } = .ok g ∧ Arith.expDiv g = .ok k ∧ k.data [0, 0] = 2 := by
  refine ⟨_, _, rfl, rfl, ?_⟩
  norm_num [Arith.sample]

example : Desmear.desmearCol (1 : ℚ) 1 [4] = [2] ∧ Desmear.desmearCol (1 : ℚ) 1 [2] = [1] := by
  constructor <;> simp [Desmear.desmearCol, Desmear.smear] <;> norm_num

/-- Two frames, one rejected and discarded; the other is selected again. -/
example : ∃ out rep, FSel.frameSelect ⟨1, 0, true, none, none, true⟩
    [(⟨"a", (), [0], some true, none, none, none, none, false, none⟩ : FSel.Frame Unit),
      ⟨"b", (), [0], some false, none, none, none, none, false, none⟩] = .ok (out, rep) ∧ out.length = 1 ∧ rep.length = 1 := by
  exact ⟨_, _, rfl, rfl, rfl⟩

/-! ## The shipped recipes -/

open Corgi.Walker.Templates in
/-- **C167** No shipped recipe lists a step other than `save` twice, so it takes an edited recipe, or a product that is
sent through a recipe again, to apply a step to its own result. -/
theorem C167_templates (file : String) (l : List String) (h : steps file = some l) : (l.filter (· ≠ "save")).Nodup := by
  unfold steps at h
  split at h <;> cases h
  all_goals decide

end Corgi.Twice

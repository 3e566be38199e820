import Verif.Combine.Props
import Verif.Darks.Combine
import Verif.PhotonCount.PcMean
import Verif.L2a.Arith
import Verif.Nonlin.Data
import Verif.Kgain.Data
import Verif.Flat.Flat

/-!
# Property C166: the order of the input files

Every step that makes one product of several frames gets them as a list, in the order of the file list given by the user
(a directory listing, say).  Here the models of the other files are called on a list and on a permutation of it.
-/

noncomputable section

namespace Corgi.Order

/-! ## Combined frames -/

section Combine

open Corgi.Comb Corgi.Nan

variable {P : Type} {L : ℕ}

theorem nanmean_perm {l l' : List (Option ℝ)} (h : l.Perm l') : nanmean l = nanmean l' := by
  have hv : (vals l).Perm (vals l') := h.filterMap _
  unfold nanmean
  by_cases h0 : vals l = []
  · rw [if_pos h0, if_pos (by rw [h0] at hv; exact hv.symm.eq_nil)]
  · rw [if_neg h0, if_neg (fun h1 => h0 (by rw [h1] at hv; exact hv.eq_nil)), mean_perm hv]

/-- **C166** The combined image, its errors and its flags do not depend on the order of the frames, for either way of
combining. -/
theorem C166_combine (c : Collapse) (scaling : Bool) {fs fs' : List (Comb.Img P L)} (h : fs.Perm fs') :
    combineImages c scaling fs = combineImages c scaling fs' := by
  have hn : ∀ p, nSamples fs p = nSamples fs' p := fun p => (h.map _).sum_eq
  have he : ∀ l p, nanmean (errSq fs l p) = nanmean (errSq fs' l p) := fun l p => nanmean_perm (h.map _)
  have h1 : (combineImages c scaling fs).data = (combineImages c scaling fs').data :=
    funext fun p => (C20_order c scaling h p).1
  have h2 : (combineImages c scaling fs).dq = (combineImages c scaling fs').dq :=
    funext fun p => (C20_order c scaling h p).2
  have h3 : (combineImages c scaling fs).err = (combineImages c scaling fs').err := by
    funext l p
    simp only [combineImages, hn, he, h.length_eq]
  cases hA : combineImages c scaling fs
  cases hB : combineImages c scaling fs'
  rw [hA, hB] at h1 h2 h3
  simp only at h1 h2 h3
  rw [h1, h2, h3]

/-- **C166** All frames combined into one: the pixels do not depend on the order of the files, but the file name does, it is that of
the last frame, and so do the headers, which are those of the first. -/
theorem C166_violated_name {env : Env} {order : List String → List String} (hset : Prov.SetOrder order) {collapse : String}
    {scaling : Bool} {fs fs' r r' : List (Comb.Frame P L)} (h : fs.Perm fs')
    (hr : combineSub env order none collapse scaling fs = .ok r) (hr' : combineSub env order none collapse scaling fs' = .ok r') :
    ∃ f f', r = [f] ∧ r' = [f'] ∧ f.img = f'.img ∧ fs.getLast?.map (·.filename) = some f.filename ∧
      fs'.getLast?.map (·.filename) = some f'.filename ∧
      (∀ key, key ≠ "ORIGIN" → (fs.head?.map fun a => a.pri.card key) = some (f.pri.card key) ∧
        (fs'.head?.map fun a => a.pri.card key) = some (f'.pri.card key)) ∧
      ∀ x, Prov.Recorded f.prov x ↔ Prov.Recorded f'.prov x := by
  obtain ⟨k, c, hk, hc, hlen, hall⟩ := C22_groups hset hr
  obtain ⟨k', c', hk', hc', hlen', hall'⟩ := C22_groups hset hr'
  obtain ⟨_, _, _, _, _, hne, _⟩ := C22_success hr
  have hpos : 0 < fs.length := List.length_pos_iff.2 hne
  have ek : k = fs.length := by simpa using hk
  have ek' : k' = fs.length := by simpa [h.length_eq] using hk'
  have ec : c' = c := by rw [hc] at hc'; exact (Option.some.inj hc').symm
  subst ek; subst ec
  rw [ek'] at hlen' hall'
  rw [← h.length_eq] at hlen'
  have one : ∀ n : ℕ, n * fs.length = fs.length → n = 1 := fun n hn => by
    have : n * fs.length = 1 * fs.length := by rw [hn, one_mul]
    exact Nat.eq_of_mul_eq_mul_right hpos this
  obtain ⟨f, rfl⟩ := List.length_eq_one_iff.1 (one _ hlen)
  obtain ⟨f', rfl⟩ := List.length_eq_one_iff.1 (one _ hlen')
  obtain ⟨a, b, ha, hb, himg, hname, -, -, hpri, hprov⟩ := hall 0 f rfl
  obtain ⟨a', b', ha', hb', himg', hname', -, -, hpri', hprov'⟩ := hall' 0 f' rfl
  have hg : group fs.length 0 fs = fs := by simp [group]
  have hg' : group fs.length 0 fs' = fs' := by simp [group, h.length_eq]
  rw [hg] at himg hprov
  rw [hg'] at himg' hprov'
  simp only [Nat.mul_zero, Nat.zero_add] at ha hb ha' hb'
  refine ⟨f, f', rfl, rfl, ?_, ?_, ?_, fun key hkey => ⟨?_, ?_⟩, fun x => ?_⟩
  · rw [himg, himg', C166_combine c' scaling (h.map _)]
  · rw [List.getLast?_eq_getElem?, hb, hname]; rfl
  · rw [List.getLast?_eq_getElem?, ← h.length_eq, hb', hname']; rfl
  · rw [List.head?_eq_getElem?, ha, hpri key hkey]; rfl
  · rw [List.head?_eq_getElem?, ha', hpri' key hkey]; rfl
  · rw [hprov, hprov']
    constructor
    · rintro ⟨g, hg, hx⟩; exact ⟨g, h.mem_iff.1 hg, hx⟩
    · rintro ⟨g, hg, hx⟩; exact ⟨g, h.mem_iff.2 hg, hx⟩

/-- A frame without signal. -/
def named (n : String) : Comb.Frame Unit 1 :=
  ⟨⟨fun _ => some 0, fun _ _ => some 0, fun _ => 0⟩, ⟨fun _ => none, []⟩, ⟨fun _ => none, []⟩, ⟨fun _ => none, []⟩, ⟨fun _ => none, []⟩,
    ⟨fun _ => none, none⟩, n⟩

/-- Two files in two orders: the product is saved under two names. -/
example (env : Env) : ∃ f f', combineSub env List.dedup none "mean" true [named "a.fits", named "b.fits"] = .ok [f] ∧
    combineSub env List.dedup none "mean" true [named "b.fits", named "a.fits"] = .ok [f'] ∧ f.filename ≠ f'.filename := by
  have hok : ∀ a b, ∃ r, combineSub env List.dedup none "mean" true [named a, named b] = .ok r := fun a b =>
    C22_succeeds env List.dedup none "mean" true _ (k := 2) rfl (by norm_num) (by simp) (by simp) (c := .mean) (by decide +kernel)
      (by simp [named, Prov.Complete])
  obtain ⟨r, hr⟩ := hok "a.fits" "b.fits"
  obtain ⟨r', hr'⟩ := hok "b.fits" "a.fits"
  obtain ⟨f, f', rfl, rfl, -, h1, h2, -⟩ := C166_violated_name (fun l => ⟨l.nodup_dedup, fun x => List.mem_dedup⟩)
    (List.Perm.swap (named "b.fits") (named "a.fits") []) hr hr'
  refine ⟨f, f', hr, hr', fun he => ?_⟩
  simp only [List.getLast?, List.getLast, Option.map_some, named, Option.some.injEq] at h1 h2
  rw [← h1, ← h2] at he
  exact absurd he (by decide)

end Combine

/-! ## Traditional darks -/

section Dark

open Corgi.Darks Corgi.Det

theorem mapM_perm {ε α β : Type} {f : α → Except ε β} {l l' : List α} (h : l.Perm l') {r : List β}
    (hr : l.mapM f = .ok r) : ∃ r', l'.mapM f = .ok r' ∧ r.Perm r' := by
  rw [mapM_ok_iff] at hr
  obtain ⟨w, hw, hp⟩ := List.perm_comp_forall₂ h.symm hr
  exact ⟨w, mapM_ok_iff.2 hw, hp.symm⟩

theorem column_map {γ α β : Type} (ps : List γ) (a : γ → Img α) (b : γ → Img β) (r c : ℕ) :
    column (ps.map a) (ps.map b) r c = ps.map fun p => ((a p).px r c, (b p).px r c) := by
  unfold column
  rw [List.zipWith_map, List.zipWith_self]

theorem mapIm_perm {st st' : List (Option ℝ × ℤ)} (h : st.Perm st') : mapIm st = mapIm st' := by
  rw [mapIm_eq, mapIm_eq]
  exact ((h.filter _).map _).length_eq

theorem sumIm_perm (err : Bool) {st st' : List (Option ℝ × ℤ)} (h : st.Perm st') : sumIm err st = sumIm err st' := by
  unfold sumIm
  apply h.foldl_eq'
  intro x _ y _ z
  generalize (if err = true then Option.map (· ^ 2) (filled x.1 x.2) else filled x.1 x.2) = a
  generalize (if err = true then Option.map (· ^ 2) (filled y.1 y.2) else filled y.1 y.2) = b
  cases a <;> cases b <;> cases z <;> simp [addN]
  ring

theorem combIm_perm (err : Bool) {st st' : List (Option ℝ × ℤ)} (h : st.Perm st') : combIm err st = combIm err st' := by
  unfold combIm
  rw [sumIm_perm err h, mapIm_perm h]

theorem allVals_some (l : List (Option ℝ)) (v : List ℝ) : allVals l = some v ↔ l = v.map some := by
  unfold allVals
  induction l generalizing v with
  | nil => cases v <;> simp
  | cons x l ih =>
    rw [List.mapM_cons]
    cases x with
    | none => cases v <;> simp
    | some x =>
      cases h : l.mapM id with
      | none =>
        cases v with
        | nil => simp
        | cons y v =>
          have := (ih v).2
          simp only [h] at this
          simp
          intro _ hl
          exact absurd (this hl) (by simp)
      | some w =>
        have hw := (ih w).1 h
        cases v with
        | nil => simp
        | cons y v =>
          simp only [id, Option.bind_eq_bind, Option.bind_some, Option.pure_def, Option.some.injEq, List.cons.injEq,
            List.map_cons]
          constructor
          · rintro ⟨rfl, rfl⟩; exact ⟨rfl, hw⟩
          · rintro ⟨rfl, hl⟩
            refine ⟨rfl, ?_⟩
            rw [hw] at hl
            exact List.map_injective_iff.2 (Option.some_injective _) hl

theorem npStd_perm {l l' : List (Option ℝ)} (h : l.Perm l') : npStd l = npStd l' := by
  have key : ∀ {l l' : List (Option ℝ)}, l.Perm l' → ∀ v, allVals l = some v → ∃ v', allVals l' = some v' ∧ v.Perm v' := by
    intro l l' h v hv
    have hl : l = v.map some := (allVals_some _ _).1 hv
    refine ⟨l'.filterMap id, (allVals_some _ _).2 ?_, ?_⟩
    · have hs : ∀ x ∈ l', ∃ y, x = some y := by
        intro x hx
        have := h.mem_iff.2 hx
        rw [hl] at this
        obtain ⟨y, _, rfl⟩ := List.mem_map.1 this
        exact ⟨y, rfl⟩
      clear h hl hv
      induction l' with
      | nil => rfl
      | cons x l' ih =>
        obtain ⟨y, rfl⟩ := hs x (by simp)
        have h1 := ih fun x hx => hs x (by simp [hx])
        rw [List.filterMap_cons_some (by rfl : id (some y) = some y), List.map_cons, ← h1]
    · have := h.filterMap id
      rw [hl] at this
      simpa [List.filterMap_map] using this
  have std_perm : ∀ {v v' : List ℝ}, v.Perm v' → std v = std v' := by
    intro v v' h
    unfold std
    rw [Nan.mean_perm h, Nan.mean_perm (h.map _)]
  cases hv : allVals l with
  | none =>
    cases hv' : allVals l' with
    | none => simp [npStd, hv, hv']
    | some v' =>
      obtain ⟨v, h1, _⟩ := key h.symm v' hv'
      rw [hv] at h1; cases h1
  | some v =>
    obtain ⟨v', hv', hp⟩ := key h v hv
    unfold npStd
    rw [hv, hv']
    cases v with
    | nil => rw [hp.symm.eq_nil]
    | cons x v =>
      cases v' with
      | nil => exact absurd hp.eq_nil (by simp)
      | cons y v' => simp only [std_perm hp]

/-- `mean_combine` of frames given with their masks. -/
theorem meanCombine_perm {γ : Type} (a : γ → Img (Option ℝ)) (b : γ → Img ℤ) (err : Bool) {ps ps' : List γ} (h : ps.Perm ps')
    {m : Combined} (hm : meanCombine (ps.map a) (ps.map b) err = .ok m) : meanCombine (ps'.map a) (ps'.map b) err = .ok m := by
  cases ps with
  | nil => simp [meanCombine] at hm
  | cons p0 l =>
    cases ps' with
    | nil => exact absurd h.eq_nil (by simp)
    | cons q0 l' =>
      have hcol : ∀ r c, mapIm (column ((q0 :: l').map a) ((q0 :: l').map b) r c) =
          mapIm (column ((p0 :: l).map a) ((p0 :: l).map b) r c) := fun r c => by
        rw [column_map, column_map]; exact mapIm_perm (h.symm.map _)
      have hcomb : ∀ r c, combIm err (column ((q0 :: l').map a) ((q0 :: l').map b) r c) =
          combIm err (column ((p0 :: l).map a) ((p0 :: l).map b) r c) := fun r c => by
        rw [column_map, column_map]; exact combIm_perm err (h.symm.map _)
      unfold meanCombine at hm ⊢
      rw [if_neg (by simp)] at hm ⊢
      rw [List.map_cons] at hm
      dsimp only at hm
      rw [← List.map_cons] at hm
      rcases ite_eq_iff.1 hm with ⟨_, hm⟩ | ⟨h1, hm⟩
      · cases hm
      rcases ite_eq_iff.1 hm with ⟨_, hm⟩ | ⟨h2, hm⟩
      · cases hm
      rcases ite_eq_iff.1 hm with ⟨_, hm⟩ | ⟨h3, hm⟩
      · cases hm
      have hq : (a q0).nr = (a p0).nr ∧ (a q0).nc = (a p0).nc := by
        have hmem : a q0 ∈ (p0 :: l).map a := List.mem_map.2 ⟨q0, h.mem_iff.2 (by simp), rfl⟩
        have := List.any_eq_false.1 (Bool.not_eq_true _ ▸ h1) _ hmem
        rw [decide_eq_true_eq] at this
        push Not at this
        exact this
      rw [List.map_cons]
      dsimp only
      rw [← List.map_cons, hq.1, hq.2, ← hm]
      rw [if_neg, if_neg, if_neg h3]
      · simp only [hcol, hcomb, List.length_map, h.length_eq]
      · rw [← (h.map b).any_eq]; exact h2
      · rw [← (h.map a).any_eq]; exact h1

/-- **C166** The traditional dark, with its error and its flags, does not depend on the order of the frames, and neither does
whether it can be made. -/
theorem C166_dark (d : Regions) (tel : Option ℤ × Option ℤ) (junk : ℕ → ℕ → Option ℝ) (full : Bool) {fs fs' : List Frame}
    (h : fs.Perm fs') (o : Dark) : tradDark d tel junk full fs = .ok o ↔ tradDark d tel junk full fs' = .ok o := by
  suffices key : ∀ {fs fs' : List Frame}, fs.Perm fs' → tradDark d tel junk full fs = .ok o →
      tradDark d tel junk full fs' = .ok o from ⟨key h, key h.symm⟩
  clear h
  intro fs fs' h ho
  unfold tradDark at ho ⊢
  rcases ite_eq_iff.1 ho with ⟨_, ho⟩ | ⟨h1, ho⟩
  · cases ho
  have hkey : ∀ f ∈ fs', ∀ g ∈ fs', f.key = g.key := by
    have : ∀ f ∈ fs, some f.key = fs.head?.map Frame.key := by
      intro f hf
      have h2 := List.any_eq_false.1 (Bool.not_eq_true _ ▸ h1) f hf
      rw [decide_eq_true_eq, not_not] at h2
      cases fs with
      | nil => simp at hf
      | cons x l => simpa using h2
    intro f hf g hg
    have h2 := this f (h.mem_iff.2 hf)
    rw [← this g (h.mem_iff.2 hg)] at h2
    simpa using h2
  rw [if_neg]
  swap
  · rw [Bool.not_eq_true, List.any_eq_false]
    intro f hf
    rw [decide_eq_true_eq, not_not]
    cases fs' with
    | nil => simp at hf
    | cons x l => simpa using hkey f hf x (by simp)
  cases hps : fs.mapM (prepare d tel) with
  | error e => rw [hps] at ho; simp [bind, Except.bind] at ho
  | ok ps =>
    obtain ⟨ps', hps', hp⟩ := mapM_perm h hps
    rw [hps] at ho
    rw [hps']
    simp only [bind, Except.bind] at ho ⊢
    cases hm : meanCombine (ps.map fun p => p.1) (ps.map fun p => p.2.1) false with
    | error e => rw [hm] at ho; cases ho
    | ok m =>
      rw [hm] at ho
      rw [meanCombine_perm _ _ false hp hm]
      dsimp only at ho ⊢
      cases he : meanCombine (ps.map fun p => p.2.2) (ps.map fun p => p.2.1) true with
      | error e => rw [he] at ho; cases ho
      | ok me =>
        rw [he] at ho
        rw [meanCombine_perm _ _ true hp he]
        dsimp only at ho ⊢
        have herr : ∀ r c, totalErr (junk r c) (column (ps'.map fun p => p.1) (ps'.map fun p => p.2.1) r c)
            (column (ps'.map fun p => p.2.2) (ps'.map fun p => p.2.1) r c) =
            totalErr (junk r c) (column (ps.map fun p => p.1) (ps.map fun p => p.2.1) r c)
            (column (ps.map fun p => p.2.2) (ps.map fun p => p.2.1) r c) := by
          intro r c
          simp only [column_map]
          unfold totalErr
          rw [mapIm_perm (hp.symm.map _), combIm_perm true (hp.symm.map _),
            npStd_perm (l := good (ps'.map _)) (((hp.symm.map _).filter _).map _)]
          rfl
        simp only [herr, ← h.length_eq]
        exact ho

end Dark

/-! ## Photon counting -/

section Pc

open Corgi.Pc

theorem corr_perm (P : Params) (t g : ℝ) {fs fs' : List Pc.Frame} (h : fs.Perm fs') (v : Pc.Frame → ℕ → Option ℝ) :
    corr P t g fs v = corr P t g fs' v := by
  unfold corr
  simp only [(C35_order t v h _).1, (C35_order t v h _).2]

theorem nframes_perm {fs fs' : List Pc.Frame} (h : fs.Perm fs') (p : ℕ) : nframes fs p = nframes fs' p :=
  (C35_order 0 Frame.data h p).2

theorem pcFinish_perm (P : Params) (i : ℕ) {fs fs' : List Pc.Frame} (h : fs.Perm fs') (vis : String) (t g : ℝ)
    (m up low : ℕ → Option ℝ) : pcFinish P i fs' vis t g m up low =
      (pcFinish P i fs vis t g m up low).map fun s => { s with parents := fs'.map Frame.name } := by
  unfold pcFinish
  simp only [← nframes_perm h, ← h.length_eq]
  cases P.dark with
  | none => rfl
  | some d =>
    dsimp only
    cases checkDark t fs.length d with
    | error e => rfl
    | ok u =>
      dsimp only
      cases d.slices[i % d.slices.length]? with
      | none => rfl
      | some s => rfl

/-- The gain and the flag that `get_pc_mean` reads from the first frame of a bin only. -/
def gainOf (fs : List Pc.Frame) : Option (ℝ × Option Bool) := fs.head?.map fun f => (emGain f.hdr, f.hdr.ispc)

/-- **C166** A photon-counted bin does not depend on the order of its frames (but for the list of parents), nor does whether it
can be made, if the frames that come first have the same gain and the same flag `ISPC`. -/
theorem C166_pc (P : Params) (i : ℕ) {fs fs' : List Pc.Frame} (h : fs.Perm fs') (hg : gainOf fs = gainOf fs') (s : Slice)
    (hs : pcBin P i fs = .ok s) : pcBin P i fs' = .ok { s with parents := fs'.map Frame.name } := by
  classical
  cases fs with
  | nil => cases hs
  | cons f0 l =>
    cases fs' with
    | nil => exact absurd h.eq_nil (by simp)
    | cons g0 l' =>
      have hg0 : g0 ∈ f0 :: l := h.mem_iff.2 (by simp)
      simp only [gainOf, List.head?_cons, Option.map_some, Option.some.injEq, Prod.mk.injEq] at hg
      unfold pcBin at hs ⊢
      dsimp only at hs ⊢
      rcases ite_eq_iff.1 hs with ⟨_, hs⟩ | ⟨h1, hs⟩
      · cases hs
      rcases ite_eq_iff.1 hs with ⟨_, hs⟩ | ⟨h2, hs⟩
      · cases hs
      rw [Bool.not_eq_true, List.any_eq_false] at h1 h2
      have e1 : ∀ f ∈ f0 :: l, (f.hdr.exptime, f.hdr.emC, f.hdr.kgain, f.hdr.rn) =
          (f0.hdr.exptime, f0.hdr.emC, f0.hdr.kgain, f0.hdr.rn) := fun f hf => by
        have := h1 f hf
        rwa [decide_eq_true_eq, not_not] at this
      have e2 : ∀ f ∈ f0 :: l, f.hdr.vistype = f0.hdr.vistype := fun f hf => by
        have := h2 f hf
        rwa [decide_eq_true_eq, not_not] at this
      have hrn : g0.hdr.rn = f0.hdr.rn := by
        have := e1 g0 hg0
        simp only [Prod.mk.injEq] at this
        exact this.2.2.2
      rw [if_neg, if_neg, e2 g0 hg0, hrn, ← hg.1, ← hg.2]
      · have hv : ∀ p, ((f0 :: l).filterMap fun f => f.data p).Perm ((g0 :: l').filterMap fun f => f.data p) :=
          fun p => h.filterMap _
        have hvals : (((List.range P.npix).filter P.considered).flatMap fun p => (f0 :: l).filterMap fun f => f.data p).Perm
            (((List.range P.npix).filter P.considered).flatMap fun p => (g0 :: l').filterMap fun f => f.data p) :=
          List.Perm.flatMap_left _ fun p _ => hv p
        generalize (((List.range P.npix).filter P.considered).flatMap fun p => (f0 :: l).filterMap fun f => f.data p) = vals at hs hvals
        generalize (((List.range P.npix).filter P.considered).flatMap fun p => (g0 :: l').filterMap fun f => f.data p) = vals' at hvals ⊢
        have hnil : vals' = [] ↔ vals = [] := by
          rw [← List.length_eq_zero_iff, ← List.length_eq_zero_iff, hvals.length_eq]
        rw [← (hvals.map _).sum_eq, ← hvals.length_eq]
        simp only [← corr_perm P _ _ h, ne_eq, hnil] at hs ⊢
        split_ifs at hs ⊢
        revert hs
        cases corr P (P.tFactor * f0.hdr.rn) (emGain f0.hdr) (f0 :: l) Frame.data with
        | error e => intro hs; cases hs
        | ok m =>
          dsimp only
          cases corr P (P.tFactor * f0.hdr.rn) (emGain f0.hdr) (f0 :: l) plus with
          | error e => intro hs; cases hs
          | ok up =>
            dsimp only
            cases corr P (P.tFactor * f0.hdr.rn) (emGain f0.hdr) (f0 :: l) minus with
            | error e => intro hs; cases hs
            | ok low =>
              dsimp only
              intro hs
              rw [pcFinish_perm P i h, hs]
              rfl
      · rw [Bool.not_eq_true, List.any_eq_false]
        intro f hf
        rw [decide_eq_true_eq, not_not, e2 f (h.mem_iff.2 hf), e2 g0 hg0]
      · rw [Bool.not_eq_true, List.any_eq_false]
        intro f hf
        rw [decide_eq_true_eq, not_not, e1 f (h.mem_iff.2 hf), e1 g0 hg0]

/-- A frame with the measured gain 100. -/
def lowGain (name : String) : Pc.Frame := { blank name "DARK" 1 100 with hdr := { (blank name "DARK" 1 100).hdr with emM := some 100 } }

/-- **C166, violated.** Two frames that agree in all values that are compared: in one order the bin is made, in the other it is
refused, since the measured gain is that of the first frame. -/
theorem C166_violated_pc : (∃ s, pcBin darkParams 0 [blank "a" "DARK" 1 100, lowGain "b"] = .ok s) ∧
    pcBin darkParams 0 [lowGain "b", blank "a" "DARK" 1 100] = .error .gain := by
  classical
  constructor
  · have hq : ∀ f ∈ [blank "a" "DARK" 1 100, lowGain "b"], f.dq 0 = 0 := by simp [blank, lowGain]
    obtain ⟨m, hm⟩ := corr_blank (g := 5000) (fs := [blank "a" "DARK" 1 100, lowGain "b"]) (by simp)
      (show (0 : ℝ) ≤ 5 * 100 by norm_num) Frame.data hq (by simp [blank, lowGain])
    obtain ⟨up, hu⟩ := corr_blank (g := 5000) (fs := [blank "a" "DARK" 1 100, lowGain "b"]) (by simp)
      (show (0 : ℝ) ≤ 5 * 100 by norm_num) plus hq (by simp [blank, lowGain, plus])
    obtain ⟨low, hl⟩ := corr_blank (g := 5000) (fs := [blank "a" "DARK" 1 100, lowGain "b"]) (by simp)
      (show (0 : ℝ) ≤ 5 * 100 by norm_num) minus hq (by simp [blank, lowGain, minus])
    have hg : emGain (blank "a" "DARK" 1 100).hdr = 5000 := by simp [emGain, blank]
    have ht : darkParams.tFactor * (blank "a" "DARK" 1 100).hdr.rn = 5 * 100 := by simp [darkParams, blank]
    unfold pcBin
    dsimp only
    rw [if_neg, if_neg, if_neg, if_neg, if_neg, if_neg, if_neg, if_neg, if_neg, if_neg, ht, hg, hm]
    · dsimp only
      rw [hu]
      dsimp only
      rw [hl]
      exact ⟨_, rfl⟩
    · norm_num [blank]
    · rintro ⟨_, h2, _⟩
      rw [show (((List.range darkParams.npix).filter darkParams.considered).flatMap fun p =>
        [blank "a" "DARK" 1 100, lowGain "b"].filterMap fun f => f.data p) = [0, 0] from rfl, hg] at h2
      norm_num [darkParams] at h2
    · rw [ht, hg]; norm_num
    · rw [ht]; norm_num
    · simp [blank]
    · simp [blank]
    · simp [darkParams]
    · simp [darkParams]
    · simp [blank, lowGain]
    · simp [blank, lowGain]
  · unfold pcBin
    dsimp only
    rw [if_neg, if_neg, if_neg, if_neg, if_neg, if_neg, if_neg, if_pos]
    · constructor
      · norm_num [emGain, lowGain, blank, darkParams]
      · rfl
    · norm_num [lowGain, blank, darkParams]
    · simp [lowGain, blank]
    · simp [lowGain, blank]
    · simp [darkParams]
    · simp [darkParams]
    · simp [blank, lowGain]
    · simp [blank, lowGain]

end Pc

/-! ## Dark subtraction -/

section DarkSub

open Corgi.Arith

/-- **C166** A frame corrected with noise maps in two datasets: its values are the same exactly if the dark of the gain of the
first frame of one dataset is that of the gain of the first frame of the other. -/
theorem C166_dark_subtraction {track : Bool} {m : Maps} {fs fs' out out' : List Fr} (h : darkSubMaps track m fs = .ok out)
    (h' : darkSubMaps track m fs' = .ok out') {f g g' : Fr} (hg : (f, g) ∈ fs.zip out) (hg' : (f, g') ∈ fs'.zip out') :
    ∃ a b, fs.head? = some a ∧ fs'.head? = some b ∧
      ∀ p, g.data p = g'.data p ↔ m.dark (emGain a) f.exptime p = m.dark (emGain b) f.exptime p := by
  obtain ⟨a, l, rfl, hall⟩ := C58_first_gain h
  obtain ⟨b, l', rfl, hall'⟩ := C58_first_gain h'
  rw [List.forall₂_iff_zip] at hall hall'
  refine ⟨a, b, rfl, rfl, fun p => ?_⟩
  have h1 := hall.2 hg p
  have h2 := hall'.2 hg' p
  constructor
  · intro h; linarith
  · intro h; linarith

theorem darkSub_samples {m : Maps} (hs : m.shape = [1, 1]) (hD : ∀ p, 0 ≤ m.D p) (hC : ∀ p, 0 ≤ m.C p) {a b : ℝ} (ha : 1 ≤ a) :
    ∃ out, darkSubMaps false m [sample (some a) 5, sample (some b) 5] = .ok out := by
  have hg : emGain (sample (some a) 5) = a := rfl
  have hd : ∃ d, synthDark m (sample (some a) 5) = .ok d := by
    unfold synthDark
    rw [if_neg (by rw [hg]; push Not; exact ⟨hD, hC, ha⟩)]
    exact ⟨_, rfl⟩
  obtain ⟨d, hd⟩ := hd
  have hsub : ∀ f ∈ [sample (some a) 5, sample (some b) 5], ∃ g, subFrame false d f = .ok g := by
    intro f hf
    obtain ⟨i, hi⟩ := (Errs.addError_ok_iff false ⟨d.shape, d.err⟩ "dark_error" f.img).2 (by
      rw [(synthDark_ok hd).2.2.2.1]
      fin_cases hf <;> simp [Errs.Fits, sample, hs])
    unfold subFrame
    rw [hi]
    exact ⟨_, rfl⟩
  obtain ⟨out, hout⟩ := mapM_ok_exists.2 hsub
  refine ⟨out, ?_⟩
  unfold darkSubMaps
  dsimp only
  rw [if_neg (by rw [Bool.not_eq_false, uniform_iff]; intro g hg; fin_cases hg <;> simp [sample]), hd]
  exact hout

/-- **C166, violated.** The same two frames in two orders: the corrected frames differ. -/
theorem C166_violated_dark_subtraction : ∃ (m : Maps) (f1 f2 : Fr) (out out' : List Fr),
    darkSubMaps false m [f1, f2] = .ok out ∧ darkSubMaps false m [f2, f1] = .ok out' ∧
    ∃ g g', (f1, g) ∈ [f1, f2].zip out ∧ (f1, g') ∈ [f2, f1].zip out' ∧ ∀ p, g.data p ≠ g'.data p := by
  set m : Maps := ⟨[1, 1], fun _ => 200, fun _ => 0, fun _ => 0, fun _ => 0, fun _ => 0, fun _ => 0, fun _ => 0, fun _ => 0,
    fun _ => 0⟩ with hm
  obtain ⟨out, h⟩ := darkSub_samples (m := m) rfl (fun _ => le_rfl) (fun _ => le_rfl) (a := 100) (b := 200) (by norm_num)
  obtain ⟨out', h'⟩ := darkSub_samples (m := m) rfl (fun _ => le_rfl) (fun _ => le_rfl) (a := 200) (b := 100) (by norm_num)
  refine ⟨m, sample (some 100) 5, sample (some 200) 5, out, out', h, h', ?_⟩
  have hl : ∀ {fs out : List Fr}, darkSubMaps false m fs = .ok out → out.length = fs.length := fun h => by
    obtain ⟨_, _, _, hall⟩ := C58_first_gain h
    exact hall.length_eq.symm
  obtain ⟨g1, g2, rfl⟩ := List.length_eq_two.1 (hl h)
  obtain ⟨k1, k2, rfl⟩ := List.length_eq_two.1 (hl h')
  refine ⟨g1, k2, by simp, by simp, fun p hp => ?_⟩
  obtain ⟨a, b, ha, hb, hiff⟩ := C166_dark_subtraction h h' (f := sample (some 100) 5) (g := g1) (g' := k2) (by simp) (by simp)
  cases ha
  cases hb
  have := (hiff p).1 hp
  simp only [Maps.dark, hm, emGain, sample] at this
  norm_num at this

end DarkSub

/-! ## Calibrations -/

/-- **C166** A pixel of the flat field and its error do not depend on the order of the images. -/
theorem C166_flat {l l' : List (Option ℝ)} (h : l.Perm l') : Flat.flatPixel l = Flat.flatPixel l' := by
  have hv : (Nan.vals l).Perm (Nan.vals l') := h.filterMap _
  have hn : Nan.vals l = [] ↔ Nan.vals l' = [] := by
    rw [← List.length_eq_zero_iff, ← List.length_eq_zero_iff, hv.length_eq]
  unfold Flat.flatPixel Flat.nanstd
  rw [nanmean_perm h, h.length_eq, Nan.mean_perm hv, Nan.mean_perm (hv.map _)]
  simp only [hn]

section Nonlin

open Corgi.NonlinData Corgi.Groups

theorem uniq_perm {l l' : List ℚ} (h : l.Perm l') : uniq l = uniq l' := by
  apply List.Perm.eq_of_pairwise' (r := (· ≤ ·)) ((uniq_sorted l).imp le_of_lt) ((uniq_sorted l').imp le_of_lt)
  rw [List.perm_ext_iff_of_nodup (uniq_nodup l) (uniq_nodup l')]
  intro a
  rw [mem_uniq, mem_uniq, h.mem_iff]

theorem ordered_pairwise {g : List NonlinData.Frame} (h : ordered g = true) : g.Pairwise fun a b => a.date ≤ b.date := by
  rw [← List.isChain_iff_pairwise (R := fun a b : NonlinData.Frame => a.date ≤ b.date)]
  induction g with
  | nil => exact .nil
  | cons a l ih =>
    cases l with
    | nil => exact .singleton _
    | cons b l =>
      simp only [ordered, Bool.and_eq_true, decide_eq_true_eq] at h
      exact .cons_cons h.1 (ih h.2)

/-- **C166** The stacks from which the nonlinearity is found, and their gains, do not depend on the order of the files, when
both orders are accepted: frames out of chronological order are refused. -/
theorem C166_nonlin {nCal nMean : ℕ} {minExp : ℚ} {fs fs' : List NonlinData.Frame} (h : fs.Perm fs') {o o' : NonlinData.Out}
    (ho : load nCal nMean minExp fs = .ok o) (ho' : load nCal nMean minExp fs' = .ok o') :
    o'.subs = o.subs ∧ o'.gains = o.gains ∧ o'.mean.Perm o.mean := by
  obtain ⟨h1, h2⟩ := (load_ok ..).1 ho
  obtain ⟨h1', h2'⟩ := (load_ok ..).1 ho'
  have hm := (C106_mean fs o h1).1
  have hm' := (C106_mean fs' o' h1').1
  obtain ⟨v, -, rfl⟩ := (toStack_ok fs o).1 h1
  obtain ⟨v', -, rfl⟩ := (toStack_ok fs' o').1 h1'
  obtain ⟨-, hord, -⟩ := (check_ok ..).1 h2
  obtain ⟨-, hord', -⟩ := (check_ok ..).1 h2'
  have hs : subsOf fs' = subsOf fs := by
    have key : ∀ c : ℚ, NonlinData.cal (at' NonlinData.Frame.emC c fs') = NonlinData.cal (at' NonlinData.Frame.emC c fs) := by
      intro c
      have hp : (NonlinData.cal (at' NonlinData.Frame.emC c fs')).Perm (NonlinData.cal (at' NonlinData.Frame.emC c fs)) :=
        (h.symm.filter _).filter _
      have hin : ∀ {fs : List NonlinData.Frame}, NonlinData.cal (at' NonlinData.Frame.emC c fs) ≠ [] →
          NonlinData.cal (at' NonlinData.Frame.emC c fs) ∈ subsOf fs := by
        intro fs hne
        obtain ⟨f, hf⟩ := List.exists_mem_of_ne_nil _ hne
        have hf' := hf
        rw [NonlinData.cal, List.mem_filter, mem_at, decide_eq_true_eq] at hf'
        refine (mem_subsOf _ _).2 ⟨f, hf'.1.1, hf'.2, ?_⟩
        rw [hf'.1.2, NonlinData.cal, at', List.filter_filter]
      by_cases hne : NonlinData.cal (at' NonlinData.Frame.emC c fs) = []
      · rw [hne] at hp ⊢; exact hp.eq_nil
      · have hne' : NonlinData.cal (at' NonlinData.Frame.emC c fs') ≠ [] := fun h0 => hne (by rw [h0] at hp; exact hp.symm.eq_nil)
        refine hp.eq_of_pairwise ?_ (ordered_pairwise (hord' _ (hin hne'))) (ordered_pairwise (hord _ (hin hne)))
        intro a b ha hb hab hba
        have hmem : ∀ x ∈ NonlinData.cal (at' NonlinData.Frame.emC c fs), x ∈ fs.filter fun f => decide (f.kind = .cal) := by
          intro x hx
          rw [NonlinData.cal, List.mem_filter, mem_at] at hx
          exact List.mem_filter.2 ⟨hx.1.1, hx.2⟩
        exact List.inj_on_of_nodup_map v.dates (hmem a (hp.mem_iff.1 ha)) (hmem b hb) (le_antisymm hab hba)
    unfold subsOf groups
    rw [List.map_map, List.map_map, uniq_perm (h.symm.map _)]
    congr 1
    apply List.map_congr_left
    intro c _
    exact key c
  refine ⟨hs, by simp only [hs], (hm'.trans (h.symm.filter _)).trans hm.symm⟩

end Nonlin

section Kgain

open Corgi.KgainData

/-- **C166, violated.** Four frames of one exposure time in two orders: the k-gain is found from different pairs. -/
theorem C166_violated_kgain :
    outOf (toList [fr 2 false "a" 0, fr 2 false "b" 1, fr 1 false "c" 2, fr 1 false "d" 3, fr 5 true "e" 4,
      fr 2 false "f" 5, fr 2 false "g" 6]) = some ([[2, 3], [0, 1], [5, 6]], [4], 1) ∧
    outOf (toList [fr 2 false "a" 0, fr 2 false "f" 5, fr 1 false "c" 2, fr 1 false "d" 3, fr 5 true "e" 4,
      fr 2 false "b" 1, fr 2 false "g" 6]) = some ([[2, 3], [0, 5], [1, 6]], [4], 1) := by
  decide +kernel

end Kgain

end Corgi.Order

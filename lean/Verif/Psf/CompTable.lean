import Verif.Psf.Companions
import Verif.Detector.NonLin

/-!
# The table of companions (measure_companions.py 106-234, `thrp_corr == "L4"`): model and C165

The Gaussian fit is a function of frame and guess; `none` stands for an exception of it. The table KL_THRU is its first row, the separations,
and one row of throughputs for each KL mode (l3_to_l4.py 608, C101). `np.interp` is the clamped piecewise linear interpolant
(`NonLin.interp`): assumed of numpy, for increasing separations.
-/

noncomputable section

namespace Corgi.CompTable

open Real Companions

/-! ## Model -/

/-- Indexing of a list by a Python integer; `none` is an IndexError. -/
def pyGet {A : Type} (l : List A) (i : ℤ) : Option A :=
  if 0 ≤ i then l[i.toNat]? else if 0 ≤ l.length + i then l[(l.length + i).toNat]? else none

/-- The PSF-subtracted image: frames of the KL modes, separations and throughputs. -/
structure Product (F : Type) where
  frames : List F
  seps : List ℝ
  thr : List (List ℝ)

/-- A candidate: id and place (lines 93-102). -/
structure Cand where
  id : String
  x : ℝ
  y : ℝ

/-- A row of the returned table (lines 220-222). -/
structure Row where
  id : String
  x : ℝ
  y : ℝ
  counts : ℝ
  ratio : ℝ
  mag : ℝ

/-- What is known of the host: catalogue magnitude (lines 209-212) or zero point (lines 214-217). -/
inductive Ref
  | host (mag : ℝ)
  | zp (z : ℝ)

/-- line 144 -/
def totalCounts (f : Fit) : ℝ := π * f.peak * f.fwhm ^ 2 / 4 / log 2

/-- line 143 -/
def sepOf (star c : ℝ × ℝ) : ℝ := √((c.1 - star.1) ^ 2 + (c.2 - star.2) ^ 2)

variable {F : Type}

/-- The throughput of line 152; `none` is an IndexError. -/
def thrAt (p : Product F) (kl : ℤ) (sep : ℝ) : Option ℝ := (pyGet p.thr kl).map fun r => NonLin.interp (p.seps.zip r) sep

/-- One turn of the loop. `fit` gives the fit and its centre, `atPlanet` the fit of the scaled PSF at the place of the candidate (lines
120-129). -/
def row (fit : F → ℝ × ℝ → Option (Fit × ℝ × ℝ)) (atPlanet : ℝ × ℝ → Fit) (p : Product F) (kl : ℤ) (star : ℝ × ℝ) (ref : Ref) (c : Cand) :
    Option Row := do
  let frame ← pyGet p.frames kl
  let (f, centre) ← fit frame (c.x, c.y)
  let t ← thrAt p kl (sepOf star centre)
  let ratio := ratioL4 f t (atPlanet (c.x, c.y))
  let mag := match ref with
    | .host m => magFromHost m ratio
    | .zp z => -(5 / 2) * logb 10 (totalCounts f) + z
  pure ⟨c.id, c.x, c.y, totalCounts f, ratio, mag⟩

/-- The loop. -/
def table (fit : F → ℝ × ℝ → Option (Fit × ℝ × ℝ)) (atPlanet : ℝ × ℝ → Fit) (p : Product F) (kl : ℤ) (star : ℝ × ℝ) (ref : Ref)
    (cs : List Cand) : Option (List Row) := cs.mapM (row fit atPlanet p kl star ref)

/-! ## Specification -/

/-- The product holds one throughput row for each mode. -/
def Consistent (p : Product F) : Prop := p.thr.length = p.frames.length

/-- The table holds the true throughput `T` of mode `m` at its separations. -/
def Measured (p : Product F) (m : ℕ) (T : ℝ → ℝ) : Prop := p.thr[m]? = some (p.seps.map T)

/-! ## C165: which mode -/

theorem pyGet_some {A : Type} (l : List A) (i : ℤ) (a : A) :
    pyGet l i = some a ↔ ∃ m : ℕ, l[m]? = some a ∧ (i = m ∨ i = (m : ℤ) - l.length) := by
  unfold pyGet
  constructor
  · intro h
    split at h
    · exact ⟨i.toNat, h, Or.inl (by omega)⟩
    · split at h
      · exact ⟨_, h, Or.inr (by omega)⟩
      · cases h
  · rintro ⟨m, h, hi⟩
    have hm : m < l.length := (List.getElem?_eq_some_iff.1 h).1
    rcases hi with rfl | rfl
    · rw [if_pos (by omega)]
      simpa using h
    · rw [if_neg (by omega), if_pos (by omega)]
      have : ((l.length : ℤ) + ((m : ℤ) - l.length)).toNat = m := by omega
      rw [this, h]

theorem pyGet_mode {A : Type} (l : List A) (i : ℤ) (m : ℕ) (hm : m < l.length) (hi : i = m ∨ i = (m : ℤ) - l.length) : pyGet l i = l[m]? := by
  rw [List.getElem?_eq_getElem hm]
  exact (pyGet_some _ _ _).2 ⟨m, List.getElem?_eq_getElem hm, hi⟩

/-- **C165.** The frame and the throughput are of the same mode, for indices from the front and from the back; all other indices raise. -/
theorem C165_mode (p : Product F) (h : Consistent p) (kl : ℤ) :
    (∃ m : ℕ, m < p.frames.length ∧ pyGet p.frames kl = p.frames[m]? ∧ pyGet p.thr kl = p.thr[m]?) ∨
    ((kl < -p.frames.length ∨ (p.frames.length : ℤ) ≤ kl) ∧ ∀ fit at_ star ref c, row fit at_ p kl star ref c = none) := by
  by_cases h1 : kl < -p.frames.length ∨ (p.frames.length : ℤ) ≤ kl
  · right
    refine ⟨h1, fun fit at_ star ref c => ?_⟩
    have : pyGet p.frames kl = none := by
      cases hg : pyGet p.frames kl with
      | none => rfl
      | some a =>
        obtain ⟨m, hm, hi⟩ := (pyGet_some _ _ _).1 hg
        have := (List.getElem?_eq_some_iff.1 hm).1
        omega
    unfold row
    rw [this]
    rfl
  · left
    unfold Consistent at h
    obtain ⟨m, hm, hi⟩ : ∃ m : ℕ, m < p.frames.length ∧ (kl = m ∨ kl = (m : ℤ) - p.frames.length) := by
      by_cases h0 : 0 ≤ kl
      · exact ⟨kl.toNat, by omega, Or.inl (by omega)⟩
      · exact ⟨(p.frames.length + kl).toNat, by omega, Or.inr (by omega)⟩
    exact ⟨m, hm, pyGet_mode _ _ _ hm hi, pyGet_mode _ _ _ (h ▸ hm) (by rw [h]; exact hi)⟩

/-! ## C165: the throughput -/

theorem zip_map (l : List ℝ) (T : ℝ → ℝ) : l.zip (l.map T) = l.map fun s => (s, T s) := by
  induction l with
  | nil => rfl
  | cons a l ih => simp [ih]

theorem fst_map (l : List ℝ) (T : ℝ → ℝ) : (l.map fun s => (s, T s)).map Prod.fst = l := by
  rw [List.map_map]
  exact List.map_id' l

theorem thrAt_eq {p : Product F} {m : ℕ} {T : ℝ → ℝ} {kl : ℤ} (hT : Measured p m T) (hk : kl = m ∨ kl = (m : ℤ) - p.thr.length) (s : ℝ) :
    thrAt p kl s = some (NonLin.interp (p.seps.map fun s => (s, T s)) s) := by
  unfold thrAt
  rw [(pyGet_some _ _ _).2 ⟨m, hT, hk⟩, Option.map_some, zip_map]

/-- **C165.** At a separation of the table the throughput is the true one. -/
theorem C165_at {p : Product F} {m : ℕ} {T : ℝ → ℝ} {kl : ℤ} (hs : p.seps.Pairwise (· < ·)) (hT : Measured p m T)
    (hk : kl = m ∨ kl = (m : ℤ) - p.thr.length) {s : ℝ} (h : s ∈ p.seps) : thrAt p kl s = some (T s) := by
  rw [thrAt_eq hT hk]
  have := NonLin.interp_at (p.seps.map fun s => (s, T s)) (by rw [fst_map]; exact hs) (s, T s) (List.mem_map.2 ⟨s, h, rfl⟩)
  exact congrArg some this

/-- **C165.** Between neighbours of the table, with a throughput that changes by at most `L` per pixel: an error of at most
`2 L (s-a)(b-s)/(b-a)`, which is at most `L (b-a)/2`. -/
theorem C165_between {p : Product F} {m : ℕ} {T : ℝ → ℝ} {kl : ℤ} (hs : p.seps.Pairwise (· < ·)) (hT : Measured p m T)
    (hk : kl = m ∨ kl = (m : ℤ) - p.thr.length) {pre post : List ℝ} {a b : ℝ} (hab : p.seps = pre ++ a :: b :: post) {s L : ℝ}
    (h1 : a ≤ s) (h2 : s ≤ b) (hL : ∀ u v, |T u - T v| ≤ L * |u - v|) :
    ∃ t, thrAt p kl s = some t ∧ |t - T s| ≤ 2 * L * ((s - a) * (b - s) / (b - a)) ∧ |t - T s| ≤ L * (b - a) / 2 := by
  have hlt : a < b := by
    rw [hab, List.pairwise_append] at hs
    exact (List.pairwise_cons.1 hs.2.1).1 b (by simp)
  have hd : 0 < b - a := by linarith
  have hL0 : 0 ≤ L := by
    have := (abs_nonneg _).trans (hL (a + 1) a)
    simpa using this
  refine ⟨_, thrAt_eq hT hk s, ?_⟩
  have e : p.seps.map (fun s => (s, T s)) = pre.map (fun s => (s, T s)) ++ (a, T a) :: (b, T b) :: post.map fun s => (s, T s) := by
    rw [hab]
    simp
  rw [e, NonLin.interp_between _ _ _ _ (by rw [← e, fst_map]; exact hs) s h1 h2]
  dsimp only
  set w := (s - a) / (b - a) with hw
  have hw0 : 0 ≤ w := div_nonneg (by linarith) hd.le
  have hw1 : w ≤ 1 := by
    rw [hw, div_le_one hd]
    linarith
  have hsw : s - a = w * (b - a) := by
    rw [hw]
    field_simp
  have hbw : b - s = (1 - w) * (b - a) := by linarith
  have e1 : T a + (T b - T a) * w - T s = (1 - w) * (T a - T s) + w * (T b - T s) := by ring
  have g1 : |T a - T s| ≤ L * (w * (b - a)) := by
    have := hL a s
    rwa [abs_sub_comm a s, abs_of_nonneg (by linarith : 0 ≤ s - a), hsw] at this
  have g2 : |T b - T s| ≤ L * ((1 - w) * (b - a)) := by
    have := hL b s
    rwa [abs_of_nonneg (by linarith : 0 ≤ b - s), hbw] at this
  have key : |T a + (T b - T a) * w - T s| ≤ 2 * L * (w * (1 - w) * (b - a)) := by
    rw [e1]
    refine (abs_add_le _ _).trans ?_
    rw [abs_mul, abs_mul, abs_of_nonneg hw0, abs_of_nonneg (by linarith : 0 ≤ 1 - w)]
    nlinarith [mul_le_mul_of_nonneg_left g1 (by linarith : 0 ≤ 1 - w), mul_le_mul_of_nonneg_left g2 hw0]
  constructor
  · refine key.trans (le_of_eq ?_)
    rw [hsw, hbw]
    field_simp
  · refine key.trans ?_
    have : w * (1 - w) ≤ 1 / 4 := by nlinarith [sq_nonneg (w - 1 / 2)]
    have h3 : 0 ≤ L * (b - a) := mul_nonneg hL0 hd.le
    nlinarith [mul_le_mul_of_nonneg_left this h3]

/-- **C165** The separation used for the throughput is the distance of the fitted place from the star. -/
theorem C165_separation (star : ℝ × ℝ) {d : ℝ} (hd : 0 ≤ d) (a : ℝ) : sepOf star (star.1 + d * cos a, star.2 + d * sin a) = d := by
  unfold sepOf
  have : (star.1 + d * cos a - star.1) ^ 2 + (star.2 + d * sin a - star.2) ^ 2 = d ^ 2 := by
    have := sin_sq_add_cos_sq a
    linear_combination d ^ 2 * this
  rw [this, sqrt_sq hd]

/-- **C165.** Outside the table the throughput of its end is taken. -/
theorem C165_outside {p : Product F} {m : ℕ} {T : ℝ → ℝ} {kl : ℤ} (hs : p.seps.Pairwise (· < ·)) (hT : Measured p m T)
    (hk : kl = m ∨ kl = (m : ℤ) - p.thr.length) {s s0 : ℝ} :
    (p.seps.head? = some s0 → s ≤ s0 → thrAt p kl s = some (T s0)) ∧ (p.seps.getLast? = some s0 → s0 ≤ s → thrAt p kl s = some (T s0)) := by
  rw [thrAt_eq hT hk]
  constructor
  · intro h h2
    cases hl : p.seps with
    | nil => rw [hl] at h; cases h
    | cons a l =>
      rw [hl, List.head?_cons, Option.some.injEq] at h
      subst h
      exact congrArg some (NonLin.interp_low (a, T a) _ s h2)
  · intro h h2
    have := NonLin.interp_high (p.seps.map fun s => (s, T s)) (by rw [fst_map]; exact hs) (s0, T s0) (by rw [List.getLast?_map, h]; rfl) s h2
    exact congrArg some this

/-! ## C165: rows -/

theorem mapM_some {A B : Type} (f : A → Option B) (l : List A) (out : List B) :
    l.mapM f = some out ↔ List.Forall₂ (fun a b => f a = some b) l out := by
  induction l generalizing out with
  | nil => cases out <;> simp
  | cons a l ih =>
    rw [List.mapM_cons]
    cases ha : f a with
    | none =>
      constructor
      · intro h; cases h
      · intro h; cases h with | cons h _ => rw [ha] at h; cases h
    | some b =>
      cases hl : l.mapM f with
      | none =>
        constructor
        · intro h; cases h
        · intro h
          cases h with | cons _ h => rw [← ih, hl] at h; cases h
      | some bs =>
        constructor
        · intro h
          have h : some (b :: bs) = some out := h
          injection h with h
          subst h
          exact List.Forall₂.cons ha ((ih _).1 hl)
        · intro h
          cases h with
          | cons h1 h2 =>
            rw [ha] at h1
            rw [← ih, hl] at h2
            injection h1 with h1
            injection h2 with h2
            subst h1 h2
            rfl

theorem row_some {fit : F → ℝ × ℝ → Option (Fit × ℝ × ℝ)} {at_ : ℝ × ℝ → Fit} {p : Product F} {kl : ℤ} {star : ℝ × ℝ} {ref : Ref} {c : Cand}
    {r : Row} : row fit at_ p kl star ref c = some r ↔ ∃ fr f centre t, pyGet p.frames kl = some fr ∧ fit fr (c.x, c.y) = some (f, centre) ∧
      thrAt p kl (sepOf star centre) = some t ∧ r.id = c.id ∧ r.x = c.x ∧ r.y = c.y ∧ r.counts = totalCounts f ∧
      r.ratio = ratioL4 f t (at_ (c.x, c.y)) ∧
      r.mag = match ref with
        | .host m => magFromHost m r.ratio
        | .zp z => -(5 / 2) * logb 10 r.counts + z := by
  unfold row
  cases hf : pyGet p.frames kl with
  | none => simp [bind, Option.bind]
  | some fr =>
    cases hg : fit fr (c.x, c.y) with
    | none => simp [bind, Option.bind, hg]
    | some fc =>
      obtain ⟨f, centre⟩ := fc
      cases ht : thrAt p kl (sepOf star centre) with
      | none =>
        simp only [bind, Option.bind, hg, ht, reduceCtorEq, false_iff, Option.some.injEq]
        rintro ⟨_, _, _, _, rfl, h2, h3, -⟩
        rw [hg, Option.some.injEq, Prod.mk.injEq] at h2
        obtain ⟨rfl, rfl⟩ := h2
        rw [ht] at h3
        cases h3
      | some t =>
        simp only [bind, Option.bind, hg, ht, pure, Option.some.injEq]
        constructor
        · rintro rfl
          exact ⟨fr, f, centre, t, rfl, hg, ht, rfl, rfl, rfl, rfl, rfl, rfl⟩
        · rintro ⟨fr', f', centre', t', rfl, h2, h3, h4, h5, h6, h7, h8, h9⟩
          rw [hg, Option.some.injEq, Prod.mk.injEq] at h2
          obtain ⟨rfl, rfl⟩ := h2
          rw [ht, Option.some.injEq] at h3
          subst h3
          obtain ⟨i, x, y, n, q, g⟩ := r
          simp only at h4 h5 h6 h7 h8 h9
          subst h4 h5 h6 h7 h8 h9
          rfl

/-- **C165.** One row for each candidate, in their order. -/
theorem C165_rows {fit : F → ℝ × ℝ → Option (Fit × ℝ × ℝ)} {at_ : ℝ × ℝ → Fit} {p : Product F} {kl : ℤ} {star : ℝ × ℝ} {ref : Ref}
    {cs : List Cand} {rs : List Row} (h : table fit at_ p kl star ref cs = some rs) :
    rs.map (fun r => r.id) = cs.map (fun c => c.id) ∧ List.Forall₂ (fun c r => row fit at_ p kl star ref c = some r) cs rs := by
  have h1 := (mapM_some _ _ _).1 h
  refine ⟨?_, h1⟩
  clear h
  induction h1 with
  | nil => rfl
  | cons h _ ih =>
    obtain ⟨_, _, _, _, _, _, _, h4, -⟩ := row_some.1 h
    rw [List.map_cons, List.map_cons, ih, h4]

/-- **C165, violated.** The place in the table is the guess: it is the same whatever the fit finds, though the fitted place is used for the
throughput. So it is the fitted one exactly if the fit does not move. -/
theorem C165_violated_place {fit : F → ℝ × ℝ → Option (Fit × ℝ × ℝ)} {at_ : ℝ × ℝ → Fit} {p : Product F} {kl : ℤ} {star : ℝ × ℝ} {ref : Ref}
    {c : Cand} {r : Row} (h : row fit at_ p kl star ref c = some r) :
    ∃ fr f centre, pyGet p.frames kl = some fr ∧ fit fr (c.x, c.y) = some (f, centre) ∧ (r.x, r.y) = (c.x, c.y) ∧
      ((r.x, r.y) = centre ↔ centre = (c.x, c.y)) := by
  obtain ⟨fr, f, centre, t, h1, h2, -, -, h5, h6, -⟩ := row_some.1 h
  exact ⟨fr, f, centre, h1, h2, by rw [h5, h6], by rw [h5, h6]; exact eq_comm⟩

/-! ## C165: values -/

/-- A companion of the scene whose mode has the throughput `T`, found at separation `s`, in a row of the table. -/
structure Found (fit : F → ℝ × ℝ → Option (Fit × ℝ × ℝ)) (at_ : ℝ × ℝ → Fit) (p : Product F) (kl : ℤ) (star : ℝ × ℝ) (c : Cand) (s : Scene)
    (T : ℝ → ℝ) (m : ℕ) (centre : ℝ × ℝ) : Prop where
  sorted : p.seps.Pairwise (· < ·)
  measured : Measured p m T
  consistent : Consistent p
  index : kl = m ∨ kl = (m : ℤ) - p.frames.length
  fitted : ∀ fr ∈ p.frames[m]?, fit fr (c.x, c.y) = some (s.comp, centre)
  psf : at_ (c.x, c.y) = s.atPlanet
  thr : s.t = T (sepOf star centre)

/-- **C165.** The reported ratio: the true one, times the square of the ratio of the widths (C102), times true over interpolated
throughput. -/
theorem C165_ratio {fit : F → ℝ × ℝ → Option (Fit × ℝ × ℝ)} {at_ : ℝ × ℝ → Fit} {p : Product F} {kl : ℤ} {star : ℝ × ℝ} {c : Cand} {s : Scene}
    {T : ℝ → ℝ} {m : ℕ} {centre : ℝ × ℝ} (h : Found fit at_ p kl star c s T m centre) (ref : Ref) :
    ∃ r t, row fit at_ p kl star ref c = some r ∧ thrAt p kl (sepOf star centre) = some t ∧
      r.ratio = s.rho * (s.psf.fwhm / s.w) ^ 2 * (T (sepOf star centre) / t) := by
  have hm : m < p.frames.length := by
    have := (List.getElem?_eq_some_iff.1 h.measured).1
    rw [h.consistent] at this
    exact this
  have hk : kl = m ∨ kl = (m : ℤ) - p.thr.length := by
    rw [h.consistent]
    exact h.index
  have hfr := pyGet_mode p.frames kl m hm h.index
  rw [List.getElem?_eq_getElem hm] at hfr
  have hfit := h.fitted p.frames[m] (by rw [List.getElem?_eq_getElem hm]; rfl)
  set q := ratioL4 s.comp (NonLin.interp (p.seps.map fun s => (s, T s)) (sepOf star centre)) (at_ (c.x, c.y)) with hq
  refine ⟨⟨c.id, c.x, c.y, totalCounts s.comp, q, match ref with
    | .host m => magFromHost m q
    | .zp z => -(5 / 2) * logb 10 (totalCounts s.comp) + z⟩, _, row_some.2 ⟨_, _, _, _, hfr, hfit, thrAt_eq h.measured hk _, rfl, rfl, rfl, rfl, rfl, rfl⟩, thrAt_eq h.measured hk _, ?_⟩
  dsimp only
  rw [hq, h.psf, ← C102_reported, ← h.thr]
  unfold ratioL4
  have := s.t_pos.ne'
  field_simp

/-- **C165.** At a separation of the table and with the width kept, the ratio and the magnitude relative to the host are right. -/
theorem C165_exact_partial {fit : F → ℝ × ℝ → Option (Fit × ℝ × ℝ)} {at_ : ℝ × ℝ → Fit} {p : Product F} {kl : ℤ} {star : ℝ × ℝ} {c : Cand}
    {s : Scene} {T : ℝ → ℝ} {m : ℕ} {centre : ℝ × ℝ} (h : Found fit at_ p kl star c s T m centre) (hs : sepOf star centre ∈ p.seps)
    (hw : s.w = s.psf.fwhm) (hostMag : ℝ) :
    ∃ r, row fit at_ p kl star (.host hostMag) c = some r ∧ r.ratio = s.rho ∧ r.mag = hostMag - 5 / 2 * logb 10 s.rho := by
  obtain ⟨r, t, h1, h2, h3⟩ := C165_ratio h (.host hostMag)
  have hk : kl = m ∨ kl = (m : ℤ) - p.thr.length := by
    rw [h.consistent]
    exact h.index
  rw [C165_at h.sorted h.measured hk hs, Option.some.injEq] at h2
  subst h2
  have hT : T (sepOf star centre) ≠ 0 := h.thr ▸ s.t_pos.ne'
  rw [hw, div_self s.psf_pos.2.ne', div_self hT, one_pow, mul_one, mul_one] at h3
  obtain ⟨_, _, _, _, -, -, -, -, -, -, -, -, h9⟩ := row_some.1 h1
  exact ⟨r, h1, h3, by rw [h9, h3]; rfl⟩

/-- **C165, violated.** A companion inside the first separation: with the width kept, the ratio is right exactly if the throughput there is
that at the first separation. -/
theorem C165_violated_inside {fit : F → ℝ × ℝ → Option (Fit × ℝ × ℝ)} {at_ : ℝ × ℝ → Fit} {p : Product F} {kl : ℤ} {star : ℝ × ℝ} {c : Cand}
    {s : Scene} {T : ℝ → ℝ} {m : ℕ} {centre : ℝ × ℝ} (h : Found fit at_ p kl star c s T m centre) {s0 : ℝ} (h0 : p.seps.head? = some s0)
    (hs : sepOf star centre ≤ s0) (hT : T s0 ≠ 0) (hw : s.w = s.psf.fwhm) (hr : s.rho ≠ 0) (ref : Ref) :
    ∃ r, row fit at_ p kl star ref c = some r ∧ r.ratio = s.rho * (T (sepOf star centre) / T s0) ∧
      (r.ratio = s.rho ↔ T (sepOf star centre) = T s0) := by
  obtain ⟨r, t, h1, h2, h3⟩ := C165_ratio h ref
  have hk : kl = m ∨ kl = (m : ℤ) - p.thr.length := by
    rw [h.consistent]
    exact h.index
  rw [(C165_outside h.sorted h.measured hk).1 h0 hs, Option.some.injEq] at h2
  subst h2
  rw [hw, div_self s.psf_pos.2.ne', one_pow, mul_one] at h3
  refine ⟨r, h1, h3, ?_⟩
  rw [h3, mul_eq_left₀ hr, div_eq_one_iff_eq hT]

/-- **C165, violated.** The magnitude from the zero point is made of counts after PSF subtraction behind the mask. If the zero point is that
of a star of total counts `N` having the magnitude `z - 2.5 log N`, a companion of ratio `rho` comes out too faint by the throughput of the PSF
subtraction and that of the mask. -/
theorem C165_violated_zero_point {fit : F → ℝ × ℝ → Option (Fit × ℝ × ℝ)} {at_ : ℝ × ℝ → Fit} {p : Product F} {kl : ℤ} {star : ℝ × ℝ} {c : Cand}
    {s : Scene} {T : ℝ → ℝ} {m : ℕ} {centre : ℝ × ℝ} (h : Found fit at_ p kl star c s T m centre) (hr : 0 < s.rho) (z : ℝ) :
    ∃ r, row fit at_ p kl star (.zp z) c = some r ∧
      r.mag = -(5 / 2) * logb 10 (s.rho * totalCounts s.host) + z - 5 / 2 * logb 10 (s.t * (s.psf.flux / s.ct.flux)) ∧
      (r.mag = -(5 / 2) * logb 10 (s.rho * totalCounts s.host) + z ↔ s.t * (s.psf.flux / s.ct.flux) = 1) := by
  obtain ⟨r, t, h1, -, -⟩ := C165_ratio h (.zp z)
  obtain ⟨fr, f, centre', _, g1, g2, -, -, -, -, g7, -, g9⟩ := row_some.1 h1
  have hm : m < p.frames.length := by
    have := (List.getElem?_eq_some_iff.1 h.measured).1
    rw [h.consistent] at this
    exact this
  have hfr := pyGet_mode p.frames kl m hm h.index
  rw [g1] at hfr
  have hf := h.fitted fr hfr.symm
  rw [g2, Option.some.injEq, Prod.mk.injEq] at hf
  obtain ⟨rfl, rfl⟩ := hf
  have hl2 : 0 < log 2 := log_pos (by norm_num)
  have p1 := s.host_pos; have p2 := s.ct_pos; have p3 := s.psf_pos; have p4 := s.t_pos
  have q1 : 0 < s.host.flux := mul_pos p1.1 (pow_pos p1.2 2)
  have q2 : 0 < s.ct.flux := mul_pos p2.1 (pow_pos p2.2 2)
  have q3 : 0 < s.psf.flux := mul_pos p3.1 (pow_pos p3.2 2)
  have e0 : ∀ f : Fit, totalCounts f = π / (4 * log 2) * f.flux := by
    intro f
    unfold totalCounts Fit.flux
    field_simp
  have e1 : totalCounts s.comp = s.rho * totalCounts s.host * (s.t * (s.psf.flux / s.ct.flux)) := by
    rw [e0, e0, s.comp_flux]
    field_simp
  have hA : 0 < s.rho * totalCounts s.host := by
    rw [e0]
    have := pi_pos
    positivity
  have hB : 0 < s.t * (s.psf.flux / s.ct.flux) := by positivity
  have hmag : r.mag = -(5 / 2) * logb 10 (s.rho * totalCounts s.host) + z - 5 / 2 * logb 10 (s.t * (s.psf.flux / s.ct.flux)) := by
    rw [g9]
    simp only
    rw [g7, e1, logb_mul hA.ne' hB.ne']
    ring
  refine ⟨r, h1, hmag, ?_⟩
  rw [hmag]
  constructor
  · intro h
    have h0 : logb 10 (s.t * (s.psf.flux / s.ct.flux)) = 0 := by linarith
    rcases logb_eq_zero.1 h0 with h | h | h | h | h | h
    · norm_num at h
    · norm_num at h
    · norm_num at h
    · exact absurd h hB.ne'
    · exact h
    · linarith
  · intro h
    rw [h, logb_one]
    ring

/-- A companion at a separation of the table. -/
example : ∃ (fit : Unit → ℝ × ℝ → Option (Fit × ℝ × ℝ)) (at_ : ℝ × ℝ → Fit) (s : Scene),
    Found fit at_ ⟨[(), ()], [3, 5], [[1 / 4, 1 / 3], [1 / 3, 1 / 2]]⟩ (-1) (10, 10) ⟨"SNYX000", 15, 10⟩ s (fun x => x / 12 + 1 / 12) 1 (15, 10) ∧
    s.t = 1 / 2 ∧ s.w = s.psf.fwhm := by
  let s : Scene := ⟨⟨100, 3⟩, ⟨10, 3⟩, ⟨8, 3⟩, 1 / 50, 1 / 2, 3, by norm_num, by norm_num, by norm_num, by norm_num, by norm_num⟩
  have hsep : sepOf (10, 10) (15, 10) = 5 := by
    unfold sepOf
    rw [show (((15 : ℝ) - 10) ^ 2 + ((10 : ℝ) - 10) ^ 2) = 5 ^ 2 by norm_num, sqrt_sq (by norm_num)]
  refine ⟨fun _ _ => some (s.comp, (15, 10)), fun _ => s.atPlanet, s, ⟨by simp; norm_num, ?_, rfl, Or.inr (by norm_num), ?_, rfl, ?_⟩, rfl, rfl⟩
  · simp [Measured]
    norm_num
  · intro fr _
    rfl
  · rw [hsep]
    norm_num [s]

end Corgi.CompTable

import Verif.Common.ArgMin
import Verif.Psf.CompTable

/-!
# Forward modelling of a companion (measure_companions.py 324-463): model and C171

The injection (C100) and the PSF subtraction with its throughput table (C101, C103) are parameters. The cards of the companions, which are
rewritten at the end, are in C141. Plots, printing and the unused arguments of the fit are left out.
-/

noncomputable section

namespace Corgi.Forward

open Corgi.CompTable

variable {F G : Type}

/-! ## Model -/

/-- Throughputs of the table KL_THRU as it is stored: the first row holds the separations (klip_fm.py 516). -/
def stored (p : Product F) : List (List ℝ) := p.seps :: p.thr

/-- `forward_model_psf`: throughput, core throughput, image. `none` is an exception. -/
def forward (inject : G → G) (sub : List G → Option (Product F)) (frames : List G) (sep : ℝ) (kl : ℤ) : Option (ℝ × ℝ × F) := do
  let p ← sub (frames.map inject)
  let image ← pyGet p.frames kl
  let i ← argmin (p.seps.map fun s => |s - sep|)
  let r ← pyGet (stored p) kl
  let t ← r[i]?
  pure (t, 1, image)

/-! ## Specification -/

/-- `s` is a sampled separation nearest to `sep`. -/
def Nearest (p : Product F) (sep s : ℝ) : Prop := s ∈ p.seps ∧ ∀ u ∈ p.seps, |s - sep| ≤ |u - sep|

/-! ## C171 -/

theorem forward_some {inject : G → G} {sub : List G → Option (Product F)} {frames : List G} {sep : ℝ} {kl : ℤ} {t c : ℝ} {image : F} :
    forward inject sub frames sep kl = some (t, c, image) ↔ ∃ p i r, sub (frames.map inject) = some p ∧ pyGet p.frames kl = some image ∧
      argmin (p.seps.map fun s => |s - sep|) = some i ∧ pyGet (stored p) kl = some r ∧ r[i]? = some t ∧ c = 1 := by
  unfold forward
  simp only [Option.bind_eq_bind, Option.bind_eq_some_iff, Option.pure_def, Option.some.injEq, Prod.mk.injEq]
  constructor
  · rintro ⟨p, h1, im, h2, i, h3, r, h4, t', h5, rfl, rfl, rfl⟩
    exact ⟨p, i, r, h1, h2, h3, h4, h5, rfl⟩
  · rintro ⟨p, i, r, h1, h2, h3, h4, h5, rfl⟩
    exact ⟨p, h1, image, h2, i, h3, r, h4, t, h5, rfl, rfl, rfl⟩

/-- The row used for an index from the back: that of the mode of the image. -/
theorem stored_neg {p : Product F} (h : Consistent p) {m : ℕ} (hm : m < p.frames.length) :
    pyGet (stored p) ((m : ℤ) - p.frames.length) = p.thr[m]? := by
  have hl : (stored p).length = p.frames.length + 1 := by
    unfold stored
    rw [List.length_cons, h]
  have := pyGet_mode (stored p) ((m : ℤ) - p.frames.length) (m + 1) (by omega) (Or.inr (by rw [hl]; push_cast; ring))
  rw [this]
  rfl

/-- The row used for an index from the front. -/
theorem stored_nat {p : Product F} (h : Consistent p) {m : ℕ} (hm : m < p.frames.length) : pyGet (stored p) m = (p.seps :: p.thr)[m]? := by
  refine pyGet_mode (stored p) m m ?_ (Or.inl rfl)
  unfold stored
  rw [List.length_cons, h]
  omega

theorem argmin_nearest {p : Product F} {sep : ℝ} {i : ℕ} (h : argmin (p.seps.map fun s => |s - sep|) = some i) :
    ∃ s, p.seps[i]? = some s ∧ Nearest p sep s := by
  obtain ⟨v, hv, hle, -⟩ := argmin_isFirstMin h
  rw [List.getElem?_map, Option.map_eq_some_iff] at hv
  obtain ⟨s, hs, rfl⟩ := hv
  exact ⟨s, hs, List.mem_of_getElem? hs, fun u hu => hle _ (List.mem_map.2 ⟨u, hu, rfl⟩)⟩

/-- **C171.** For an index from the back (as the default, -1) the throughput is that of the mode of the image, at a nearest separation. -/
theorem C171_back {inject : G → G} {sub : List G → Option (Product F)} {frames : List G} {sep : ℝ} {p : Product F} {T : ℝ → ℝ} {m : ℕ}
    (hp : sub (frames.map inject) = some p) (hc : Consistent p) (hT : Measured p m T) (hs : p.seps ≠ []) :
    ∃ s image, forward inject sub frames sep ((m : ℤ) - p.frames.length) = some (T s, 1, image) ∧ p.frames[m]? = some image ∧
      Nearest p sep s := by
  have hm : m < p.frames.length := by
    rw [← hc]
    exact (List.getElem?_eq_some_iff.1 hT).1
  obtain ⟨i, hi⟩ := argmin_exists (xs := p.seps.map fun s => |s - sep|) (by simpa using hs)
  obtain ⟨s, h1, h2⟩ := argmin_nearest hi
  refine ⟨s, p.frames[m], forward_some.2 ⟨p, i, p.seps.map T, hp, ?_, hi, ?_, ?_, rfl⟩, List.getElem?_eq_getElem hm, h2⟩
  · rw [pyGet_mode _ _ m hm (Or.inr rfl), List.getElem?_eq_getElem hm]
  · rw [stored_neg hc hm, hT]
  · rw [List.getElem?_map, h1]
    rfl

/-- **C171.** If the true throughput changes by at most `L` per pixel, the error is at most `L` times half the gap between the neighbouring
separations. -/
theorem C171_error {p : Product F} {T : ℝ → ℝ} {sep s a b L : ℝ} (hs : Nearest p sep s) (ha : a ∈ p.seps) (hb : b ∈ p.seps) (h1 : a ≤ sep)
    (h2 : sep ≤ b) (hL0 : 0 ≤ L) (hL : ∀ u v, |T u - T v| ≤ L * |u - v|) : |T s - T sep| ≤ L * ((b - a) / 2) := by
  refine (hL s sep).trans (mul_le_mul_of_nonneg_left ?_ hL0)
  have e1 := hs.2 a ha
  have e2 := hs.2 b hb
  rw [abs_sub_comm a, abs_of_nonneg (sub_nonneg.2 h1)] at e1
  rw [abs_of_nonneg (sub_nonneg.2 h2)] at e2
  linarith

/-- **C171, violated.** For index 0, the first mode, the returned "throughput" is the nearest separation, in pixels. -/
theorem C171_violated_first {inject : G → G} {sub : List G → Option (Product F)} {frames : List G} {sep : ℝ} {p : Product F} {t c : ℝ}
    {image : F} (hp : sub (frames.map inject) = some p) (hc : Consistent p) (h : forward inject sub frames sep 0 = some (t, c, image)) :
    p.frames[0]? = some image ∧ Nearest p sep t := by
  obtain ⟨q, i, r, h1, h2, h3, h4, h5, -⟩ := forward_some.1 h
  rw [hp] at h1
  cases h1
  obtain ⟨m, hm, hi⟩ := (pyGet_some _ _ _).1 h2
  have hl := (List.getElem?_eq_some_iff.1 hm).1
  have h0 : m = 0 := by omega
  subst h0
  have := stored_nat hc hl
  rw [Nat.cast_zero] at this
  rw [this] at h4
  cases h4
  obtain ⟨s, e1, e2⟩ := argmin_nearest h3
  rw [h5] at e1
  cases e1
  exact ⟨hm, e2⟩

/-- **C171, violated.** For index `m + 1` the image is of mode `m + 1` and the throughput of mode `m`. -/
theorem C171_violated_front {inject : G → G} {sub : List G → Option (Product F)} {frames : List G} {sep : ℝ} {p : Product F} {t c : ℝ}
    {image : F} {m : ℕ} {T : ℝ → ℝ} (hp : sub (frames.map inject) = some p) (hc : Consistent p) (hT : Measured p m T)
    (h : forward inject sub frames sep ((m : ℤ) + 1) = some (t, c, image)) :
    p.frames[m + 1]? = some image ∧ ∃ s, Nearest p sep s ∧ t = T s := by
  obtain ⟨q, i, r, h1, h2, h3, h4, h5, -⟩ := forward_some.1 h
  rw [hp] at h1
  cases h1
  obtain ⟨k, hk, hi⟩ := (pyGet_some _ _ _).1 h2
  have hl := (List.getElem?_eq_some_iff.1 hk).1
  have h0 : k = m + 1 := by omega
  subst h0
  have h6 := stored_nat hc hl
  have e : ((m + 1 : ℕ) : ℤ) = (m : ℤ) + 1 := by push_cast; rfl
  rw [e, h4, List.getElem?_cons_succ, hT] at h6
  cases h6
  obtain ⟨s, e1, e2⟩ := argmin_nearest h3
  rw [List.getElem?_map, e1] at h5
  exact ⟨hk, s, e2, (Option.some.inj h5).symm⟩

/-- **C171, violated.** The core throughput is 1 whatever was measured. -/
theorem C171_violated_core {inject : G → G} {sub : List G → Option (Product F)} {frames : List G} {sep : ℝ} {kl : ℤ} {t c : ℝ} {image : F}
    (h : forward inject sub frames sep kl = some (t, c, image)) : c = 1 := by
  obtain ⟨-, -, -, -, -, -, -, -, h⟩ := forward_some.1 h
  exact h

/-- **C171.** Which calls fail: the subtraction fails, there is no such mode, or no separation was sampled. -/
theorem C171_fails {inject : G → G} {sub : List G → Option (Product F)} {frames : List G} {sep : ℝ} {kl : ℤ}
    (hfull : ∀ p, sub (frames.map inject) = some p → Consistent p ∧ ∀ r ∈ p.thr, r.length = p.seps.length) :
    forward inject sub frames sep kl = none ↔ ∀ p, sub (frames.map inject) = some p →
      p.seps = [] ∨ kl < -p.frames.length ∨ (p.frames.length : ℤ) ≤ kl := by
  rw [Option.eq_none_iff_forall_not_mem]
  constructor
  · intro h p hp
    obtain ⟨hc, hr⟩ := hfull p hp
    by_contra hcon
    push Not at hcon
    obtain ⟨hs, hk1, hk2⟩ := hcon
    obtain ⟨i, hi⟩ := argmin_exists (xs := p.seps.map fun s => |s - sep|) (by simpa using hs)
    obtain ⟨s, h1, -⟩ := argmin_nearest hi
    have hil := (List.getElem?_eq_some_iff.1 h1).1
    have row : ∀ m (_ : m < p.frames.length + 1), ∃ r t, (p.seps :: p.thr)[m]? = some r ∧ r[i]? = some t := by
      intro m hm
      have hm' : m < (p.seps :: p.thr).length := by rw [List.length_cons, hc]; exact hm
      refine ⟨_, ?_, List.getElem?_eq_getElem hm', ?_⟩
      · exact ((p.seps :: p.thr)[m])[i]'(by
          rcases List.mem_cons.1 (List.getElem_mem hm') with e | e
          · rw [e]; exact hil
          · rw [hr _ e]; exact hil)
      · exact List.getElem?_eq_getElem _
    by_cases h0 : 0 ≤ kl
    · obtain ⟨m, rfl⟩ := Int.eq_ofNat_of_zero_le h0
      have hm : m < p.frames.length := by omega
      obtain ⟨r, t, e1, e2⟩ := row m (by omega)
      refine h (t, 1, p.frames[m]) (forward_some.2 ⟨p, i, r, hp, ?_, hi, (stored_nat hc hm).trans e1, e2, rfl⟩)
      exact (pyGet_mode _ _ m hm (Or.inl rfl)).trans (List.getElem?_eq_getElem hm)
    · obtain ⟨m, hm⟩ : ∃ m : ℕ, kl = (m : ℤ) - p.frames.length := ⟨(kl + p.frames.length).toNat, by omega⟩
      have hml : m < p.frames.length := by omega
      obtain ⟨r, t, e1, e2⟩ := row (m + 1) (by omega)
      subst hm
      refine h (t, 1, p.frames[m]) (forward_some.2 ⟨p, i, r, hp, ?_, hi, (stored_neg hc hml).trans e1, e2, rfl⟩)
      exact (pyGet_mode _ _ m hml (Or.inr rfl)).trans (List.getElem?_eq_getElem hml)
  · rintro h ⟨t, c, image⟩ hin
    obtain ⟨p, i, r, h1, h2, h3, -, -, -⟩ := forward_some.1 hin
    obtain ⟨m, hm, hi⟩ := (pyGet_some _ _ _).1 h2
    have hl := (List.getElem?_eq_some_iff.1 hm).1
    rcases h p h1 with h | h | h
    · rw [h] at h3
      cases h3
    · omega
    · omega

/-- Two modes with throughputs 0.9 and 0.7 at 5 and 10 pixels: index -1 gives 0.7, index 1 gives 0.9 with the same image, index 0 gives 5. -/
def two : Product String := ⟨["mode 1", "mode 2"], [5, 10], [[0.9, 0.9], [0.7, 0.7]]⟩

example : (forward id (fun _ : List Unit => some two) [] 6 (-1) = some (0.7, 1, "mode 2")) ∧
    (forward id (fun _ : List Unit => some two) [] 6 1 = some (0.9, 1, "mode 2")) ∧
    (forward id (fun _ : List Unit => some two) [] 6 0 = some (5, 1, "mode 1")) := by
  have ha : argmin (two.seps.map fun s => |s - (6 : ℝ)|) = some 0 := by
    rw [argmin_eq_some_iff]
    refine ⟨1, ?_, ?_, fun j y hj => by omega⟩
    · norm_num [two]
    · intro y hy
      simp only [two, List.map_cons, List.map_nil, List.mem_cons, List.not_mem_nil, or_false] at hy
      rcases hy with rfl | rfl <;> norm_num
  refine ⟨forward_some.2 ⟨two, 0, _, rfl, rfl, ha, rfl, rfl, rfl⟩, forward_some.2 ⟨two, 0, _, rfl, rfl, ha, rfl, rfl, rfl⟩,
    forward_some.2 ⟨two, 0, _, rfl, rfl, ha, rfl, rfl, rfl⟩⟩

end Corgi.Forward

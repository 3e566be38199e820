import Verif.Common.Nan
import Mathlib.Algebra.BigOperators.Field
import Mathlib.Tactic.FieldSimp
import Mathlib.Tactic.NormNum

/-!
# Flat fields (flat.py): model, C62 to C65

Values are `Option ℝ`, `none` = NaN. The Gaussian smoothing of matched filters is a parameter. Headers are C19.
-/

noncomputable section

namespace Corgi.Flat

open Corgi.Nan

/-! ## `create_flatfield` (lines 17-41) -/

/-- `np.nanstd` along the frames -/
def nanstd (l : List (Option ℝ)) : Option ℝ :=
  if vals l = [] then none else some (Real.sqrt (mean ((vals l).map fun x => (x - mean (vals l)) ^ 2)))

/-- lines 31-38: value and error of one pixel from its samples -/
def flatPixel (l : List (Option ℝ)) : Option ℝ × Option ℝ :=
  (nanmean l, (nanstd l).map (· / Real.sqrt l.length))

/-! ## `flatfield_residuals` (lines 76-99) -/

/-- `np.split(images, N)`: `none` is the ValueError for lengths that cannot be divided -/
def npSplit {α : Type} (l : List α) (n : ℕ) : Option (List (List α)) :=
  if n = 0 ∨ l.length % n ≠ 0 then none
  else some ((List.range n).map fun k => (l.drop (k * (l.length / n))).take (l.length / n))

/-- lines 89-98; `filt` makes the matched filter of a group, `dv` divides by it -/
def residuals {α β γ : Type} (filt : List α → β) (dv : α → β → γ) (images : List α) (n : ℕ) : Option (List γ) :=
  match npSplit images n with
  | none => none
  | some gs =>
    let fs := gs.map filt
    (List.range images.length).mapM fun j => match images[j]?, fs[j / (images.length / fs.length)]? with
      | some im, some f => some (dv im f)
      | _, _ => none

/-! ## `combine_flatfield_rasters` (lines 101-177) -/

open Classical in
/-- lines 153-159 for one pixel inside the radius: `cur` is the value so far, 0 if there is none -/
def upd (cur v : Option ℝ) : Option ℝ := match cur with
  | some c => if c = 0 then v else v.map fun x => (x + c) / 2
  | none => none

/-- lines 140-159: all images that cover the pixel, in their order -/
def combine (vs : List (Option ℝ)) : Option ℝ := vs.foldl upd (some 0)

/-- lines 141-144: is pixel (r, c) of the cut-out inside the mask? -/
def covers (rad : ℕ) (r c : ℕ) : Prop := Real.sqrt (((c : ℝ) - rad - 5) ^ 2 + ((r : ℝ) - rad - 5) ^ 2) < rad

open Classical in
/-- lines 166-174: the final image of an `n`×`n` raster field; `cov r c` are the residuals covering pixel (r, c) -/
def finish (n nPix nPad : ℕ) (cov : ℕ → ℕ → List (Option ℝ)) (r c : ℕ) : Option ℝ :=
  if r < nPad ∨ nPad + n ≤ r ∨ c < nPad ∨ nPad + n ≤ c then some 1
  else
    let i := r - nPad
    let j := c - nPad
    if (nPix : ℝ) < Real.sqrt (((j : ℝ) - n / 2) ^ 2 + ((i : ℝ) - n / 2) ^ 2) then some 1
    else if combine (cov i j) = some 0 then none
    else combine (cov i j)

/-! ## `create_onsky_flatfield` (lines 180-261) -/

/-- lines 208-211 -/
def padding (imSize : ℕ) (nPad : Option ℕ) : ℕ := match nPad with
  | some p => p
  | none => 1024 - imSize

/-- the number of rows and columns of the flat: `np.pad` adds to both sides -/
def flatSize (imSize : ℕ) (nPad : Option ℕ) : ℕ := imSize + padding imSize nPad + padding imSize nPad

/-- line 251: the indices of `image[yc-u : yc+u]` in an axis of `n` pixels; negative starts count from the end -/
def cutout (n yc u : ℕ) : List ℕ :=
  let start := if yc < u then n - (u - yc) else min n (yc - u)
  let stop := min n (yc + u)
  List.range' start (stop - start)

/-- default planet radius, lines 218-222 -/
def planetRad : String → Option ℕ
  | "neptune" => some 50
  | "uranus" => some 65
  | _ => none

/-- C62: the radius of the two planets. -/
theorem C62_radius (s : String) (rad : ℕ) : planetRad s = some rad ↔ s = "neptune" ∧ rad = 50 ∨ s = "uranus" ∧ rad = 65 := by
  unfold planetRad
  split <;> simp_all [eq_comm]

/-! ## C64 -/

/-- **C64** The value is the mean of the samples that are not NaN. -/
theorem C64_value (l : List (Option ℝ)) (h : vals l ≠ []) : (flatPixel l).1 = some ((vals l).sum / (vals l).length) := by
  simp [flatPixel, nanmean, mean, h]

/-- **C64 (partial)** Without NaN the error is the standard deviation of the samples divided by the root of their number. -/
theorem C64_partial (l : List ℝ) (h : l ≠ []) : (flatPixel (l.map some)).2 =
    some (Real.sqrt ((l.map fun x => (x - l.sum / l.length) ^ 2).sum / l.length) / Real.sqrt l.length) := by
  have e : vals (l.map some) = l := by simp [vals, List.filterMap_map]
  simp [flatPixel, nanstd, e, h, mean]

/-- **C64 (false)** With NaN samples the error is too small, by the root of the fraction of valid samples. -/
theorem C64_violated (l : List (Option ℝ)) (h : vals l ≠ []) : (flatPixel l).2 =
    (flatPixel ((vals l).map some)).2.map (· * Real.sqrt ((vals l).length / l.length)) := by
  have e : vals ((vals l).map some) = vals l := by simp [vals, List.filterMap_map]
  have hp : 0 < (vals l).length := List.length_pos_iff.2 h
  have hl : (vals l).length ≤ l.length := List.length_filterMap_le _ _
  simp only [flatPixel, nanstd, e, h, if_false, Option.map_some, List.length_map, Option.some.injEq]
  have h1 : (0 : ℝ) < (vals l).length := by exact_mod_cast hp
  have h2 : (0 : ℝ) < l.length := by exact_mod_cast lt_of_lt_of_le hp hl
  rw [Real.sqrt_div h1.le]
  have := (Real.sqrt_pos.2 h1).ne'
  have := (Real.sqrt_pos.2 h2).ne'
  field_simp

/-- **C64** A pixel is NaN exactly if it is in all frames, and then its error is, too. -/
theorem C64_nan (l : List (Option ℝ)) : ((flatPixel l).1 = none ↔ ∀ x ∈ l, x = none) ∧
    ((flatPixel l).2 = none ↔ (flatPixel l).1 = none) := by
  refine ⟨nanmean_none, ?_⟩
  unfold flatPixel nanstd nanmean
  split_ifs <;> simp

/-! ## C65 -/

theorem mapM_some {α β : Type} {f : α → Option β} {l : List α} {r : List β} (h : l.mapM f = some r) :
    List.Forall₂ (fun a b => f a = some b) l r := by
  induction l generalizing r with
  | nil => cases h; exact .nil
  | cons a l ih =>
    rw [List.mapM_cons] at h
    cases ha : f a with
    | none => rw [ha] at h; cases h
    | some b =>
      cases hl : l.mapM f with
      | none => rw [ha, hl] at h; cases h
      | some bs =>
        rw [ha, hl] at h
        cases h
        exact .cons ha (ih hl)

/-- **C65** Each image is divided by the matched filter of the group it belongs to. The groups have equal sizes and
follow each other. -/
theorem C65_own_group {α β γ : Type} (filt : List α → β) (dv : α → β → γ) {images : List α} {n : ℕ} {out : List γ}
    (h : residuals filt dv images n = some out) :
    out.length = images.length ∧ n * (images.length / n) = images.length ∧
    ∀ k < n, ∀ i < images.length / n, ∃ im, images[k * (images.length / n) + i]? = some im ∧
      ∃ g : List α, g.length = images.length / n ∧ (∀ i' < images.length / n, g[i']? = images[k * (images.length / n) + i']?) ∧
        out[k * (images.length / n) + i]? = some (dv im (filt g)) := by
  unfold residuals npSplit at h
  split_ifs at h with h0
  push Not at h0
  obtain ⟨hn, hm⟩ := h0
  dsimp only at h
  simp only [List.length_map, List.length_range] at h
  set q := images.length / n with hq
  have hnq : n * q = images.length := Nat.mul_div_cancel' (Nat.dvd_of_mod_eq_zero hm)
  have hout := mapM_some h
  have hlen : out.length = images.length := by
    have := hout.length_eq; simpa using this.symm
  refine ⟨hlen, hnq, fun k hk i hi => ?_⟩
  have hj : k * q + i < images.length := by
    calc k * q + i < k * q + q := by omega
      _ = (k + 1) * q := by ring
      _ ≤ n * q := Nat.mul_le_mul_right _ hk
      _ = _ := hnq
  have hkd : (k * q + i) / q = k := by
    rw [mul_comm, Nat.mul_add_div (by omega), Nat.div_eq_of_lt hi, add_zero]
  refine ⟨images[k * q + i], List.getElem?_eq_getElem hj, (images.drop (k * q)).take q, ?_, ?_, ?_⟩
  · have : (k + 1) * q ≤ n * q := Nat.mul_le_mul_right _ hk
    have e : (k + 1) * q = k * q + q := by ring
    rw [List.length_take, List.length_drop]; omega
  · intro i' hi'
    rw [List.getElem?_take_of_lt hi', List.getElem?_drop]
  · have := List.forall₂_iff_get.1 hout
    have h2 := this.2 (k * q + i) (by simpa using hj) (by rw [hlen]; exact hj)
    simp only [List.get_eq_getElem, List.getElem_range] at h2
    rw [hkd, List.getElem?_eq_getElem hj, List.getElem?_map, List.getElem?_map, List.getElem?_range hk] at h2
    simp only [Option.map_some, Option.some.injEq] at h2
    rw [List.getElem?_eq_getElem (by rw [hlen]; exact hj), ← h2]

/-- **C65** It works exactly if the images can be divided into `n` groups of the same size. -/
theorem C65_works_iff {α β γ : Type} (filt : List α → β) (dv : α → β → γ) (images : List α) (n : ℕ) :
    (residuals filt dv images n).isSome ↔ n ≠ 0 ∧ n ∣ images.length := by
  rw [Nat.dvd_iff_mod_eq_zero]
  constructor
  · intro h
    by_contra h0
    have : n = 0 ∨ images.length % n ≠ 0 := by tauto
    simp [residuals, npSplit, this] at h
  · rintro ⟨hn, hm⟩
    have hnot : ¬ (n = 0 ∨ images.length % n ≠ 0) := by tauto
    simp only [residuals, npSplit, hnot, if_false, List.length_map, List.length_range]
    rw [Option.isSome_iff_ne_none, ne_eq]
    intro hnone
    have hall : ∀ l : List ℕ, (∀ j ∈ l, j < images.length) → ∃ out, (l.mapM fun j => match images[j]?,
        (((List.range n).map fun k => (images.drop (k * (images.length / n))).take (images.length / n)).map filt)[j / (images.length / n)]? with
      | some im, some f => some (dv im f)
      | _, _ => none) = some out := by
      intro l hl
      induction l with
      | nil => exact ⟨[], rfl⟩
      | cons j l ih =>
        obtain ⟨out, ho⟩ := ih fun i hi => hl i (List.mem_cons_of_mem _ hi)
        have hj := hl j List.mem_cons_self
        have hq : j / (images.length / n) < n := by
          rw [Nat.div_lt_iff_lt_mul (Nat.div_pos (Nat.le_of_dvd (by omega) (Nat.dvd_of_mod_eq_zero hm)) (by omega)),
            Nat.mul_div_cancel' (Nat.dvd_of_mod_eq_zero hm)]
          exact hj
        simp only [List.mapM_cons, List.getElem?_eq_getElem hj, List.getElem?_map, List.getElem?_range hq, Option.map_some]
        simp only [List.getElem?_map] at ho
        exact ⟨_, by rw [ho]; rfl⟩
    obtain ⟨out, ho⟩ := hall (List.range images.length) (by simp)
    rw [ho] at hnone
    cases hnone

/-- **C65 (false)** `N` is documented as the number of images in a group; it is the number of groups. With the default
of 1 all images share one matched filter. -/
theorem C65_violated {α β γ : Type} (filt : List α → β) (dv : α → β → γ) (images : List α) :
    residuals filt dv images 1 = some (images.map fun im => dv im (filt images)) := by
  have hw : (residuals filt dv images 1).isSome := (C65_works_iff filt dv images 1).2 ⟨by omega, one_dvd _⟩
  obtain ⟨out, ho⟩ := Option.isSome_iff_exists.1 hw
  obtain ⟨h1, _, h3⟩ := C65_own_group filt dv ho
  rw [ho, Option.some.injEq]
  apply List.ext_getElem?
  intro i
  by_cases hi : i < images.length
  · obtain ⟨im, e1, g, e2, e3, e4⟩ := h3 0 (by omega) i (by simpa using hi)
    simp only [zero_mul, zero_add, Nat.div_one] at e1 e2 e3 e4
    have hg : g = images := by
      apply List.ext_getElem?
      intro i'
      by_cases hi' : i' < images.length
      · exact e3 i' hi'
      · rw [List.getElem?_eq_none (by omega), List.getElem?_eq_none (by omega)]
    rw [e4, List.getElem?_map, e1, hg]; rfl
  · rw [List.getElem?_eq_none (by omega), List.getElem?_eq_none (by simpa using hi)]

/-- **C65** The cut-out around the planet is complete exactly if it lies in the image. -/
theorem C65_window_iff {n yc u : ℕ} (hu : 0 < u) (hn : 2 * u ≤ n) :
    (cutout n yc u).length = 2 * u ↔ u ≤ yc ∧ yc + u ≤ n := by
  unfold cutout
  simp only [List.length_range']
  split_ifs with h
  · rcases le_total n (yc + u) with h2 | h2
    · rw [min_eq_left h2]; omega
    · rw [min_eq_right h2]; omega
  · rcases le_total n (yc + u) with h2 | h2 <;> rcases le_total n (yc - u) with h3 | h3
    · rw [min_eq_left h2, min_eq_left h3]; omega
    · rw [min_eq_left h2, min_eq_right h3]; omega
    · rw [min_eq_right h2, min_eq_left h3]; omega
    · rw [min_eq_right h2, min_eq_right h3]; omega

/-- **C65** A planet closer than the half width to the lower edge: in a larger image nothing is cut out. -/
theorem C65_window_empty {n yc u : ℕ} (h : yc < u) (hn : 2 * u ≤ n) : cutout n yc u = [] := by
  unfold cutout
  rw [List.range'_eq_nil_iff, if_pos h]
  have : min n (yc + u) ≤ yc + u := min_le_right _ _
  omega

/-! ## C63 -/

/-- the result for values, none of which is 0 -/
def run : ℝ → List ℝ → ℝ
  | c, [] => c
  | c, v :: vs => run ((v + c) / 2) vs

theorem foldl_upd {c : ℝ} (hc : 0 < c) {vs : List ℝ} (h : ∀ v ∈ vs, 0 < v) : (vs.map some).foldl upd (some c) = some (run c vs) := by
  induction vs generalizing c with
  | nil => rfl
  | cons v vs ih =>
    have hv := h v List.mem_cons_self
    have e : upd (some c) (some v) = some ((v + c) / 2) := by simp [upd, hc.ne']
    rw [List.map_cons, List.foldl_cons, e, run]
    exact ih (by linarith) fun w hw => h w (List.mem_cons_of_mem _ hw)

theorem combine_pos {v : ℝ} {vs : List ℝ} (hv : 0 < v) (h : ∀ w ∈ vs, 0 < w) : combine ((v :: vs).map some) = some (run v vs) := by
  unfold combine
  rw [List.map_cons, List.foldl_cons, show upd (some 0) (some v) = some v by simp [upd]]
  exact foldl_upd hv h

/-- **C63** The last image has the weight one half, whatever the number of images. -/
theorem run_append (c : ℝ) (vs : List ℝ) (w : ℝ) : run c (vs ++ [w]) = (w + run c vs) / 2 := by
  induction vs generalizing c with
  | nil => rfl
  | cons v vs ih => exact ih _

theorem C63_last {v w : ℝ} {vs : List ℝ} (hv : 0 < v) (hw : 0 < w) (h : ∀ x ∈ vs, 0 < x) :
    ∃ a, combine ((v :: vs).map some) = some a ∧ combine ((v :: vs ++ [w]).map some) = some ((w + a) / 2) := by
  refine ⟨run v vs, combine_pos hv h, ?_⟩
  rw [List.cons_append, combine_pos hv, run_append]
  intro x hx
  rcases List.mem_append.1 hx with hx | hx
  · exact h x hx
  · rw [List.mem_singleton.1 hx]; exact hw

theorem run_linear (c : ℝ) (vs : List ℝ) :
    run c vs = c / 2 ^ vs.length + ∑ i ∈ Finset.range vs.length, vs.getD i 0 / 2 ^ (vs.length - i) := by
  induction vs generalizing c with
  | nil => simp [run]
  | cons v vs ih =>
    rw [run, ih, List.length_cons, Finset.sum_range_succ']
    simp only [List.getD_cons_succ, List.getD_cons_zero, Nat.add_sub_add_right, Nat.sub_zero]
    ring

/-- **C63** The exact result: weights that double from image to image. -/
theorem C63_exact {v : ℝ} {vs : List ℝ} (hv : 0 < v) (h : ∀ w ∈ vs, 0 < w) : combine ((v :: vs).map some) =
    some (v / 2 ^ vs.length + ∑ i ∈ Finset.range vs.length, vs.getD i 0 / 2 ^ (vs.length - i)) := by
  rw [combine_pos hv h, run_linear]

/-- **C63 (partial)** It is the mean for one or two images. -/
theorem C63_partial {v w : ℝ} (hv : 0 < v) (hw : 0 < w) :
    combine [some v] = some (mean [v]) ∧ combine [some v, some w] = some (mean [v, w]) := by
  constructor
  · have := combine_pos (vs := []) hv (by simp)
    simpa [run, mean] using this
  · have := combine_pos (vs := [w]) hv (by simpa using hw)
    simp only [List.map_cons, List.map_nil, run] at this
    rw [this]; simp [mean]; ring

/-- **C63 (false)** For three images it is the mean only if the last is the mean of the others. -/
theorem C63_violated_iff {a b c : ℝ} (ha : 0 < a) (hb : 0 < b) (hc : 0 < c) :
    combine [some a, some b, some c] = some (mean [a, b, c]) ↔ c = (a + b) / 2 := by
  have := combine_pos (vs := [b, c]) ha (by simp [hb, hc])
  simp only [List.map_cons, List.map_nil, run] at this
  rw [this]; simp only [mean, Option.some.injEq]
  simp
  constructor <;> intro h <;> linarith

/-- **C63 (false)** The result depends on the order of the images. -/
theorem C63_order_violated : combine [some 1, some 1, some 2] = some (3 / 2) ∧ combine [some 2, some 1, some 1] = some (5 / 4) := by
  have h1 := combine_pos (v := 1) (vs := [1, 2]) (by norm_num) (by simp)
  have h2 := combine_pos (v := 2) (vs := [1, 1]) (by norm_num) (by simp)
  simp only [List.map_cons, List.map_nil, run] at h1 h2
  rw [h1, h2]; constructor <;> norm_num

theorem run_bounds {lo hi c : ℝ} {vs : List ℝ} (hc : lo ≤ c ∧ c ≤ hi) (h : ∀ v ∈ vs, lo ≤ v ∧ v ≤ hi) :
    lo ≤ run c vs ∧ run c vs ≤ hi := by
  induction vs generalizing c with
  | nil => exact hc
  | cons v vs ih =>
    have hv := h v List.mem_cons_self
    exact ih ⟨by linarith, by linarith⟩ fun w hw => h w (List.mem_cons_of_mem _ hw)

/-- **C63** It lies between the smallest and the largest value; in particular equal values are kept. -/
theorem C63_bounds {lo hi v : ℝ} {vs : List ℝ} (hlo : 0 < lo) (h : ∀ w ∈ v :: vs, lo ≤ w ∧ w ≤ hi) :
    ∃ a, combine ((v :: vs).map some) = some a ∧ lo ≤ a ∧ a ≤ hi := by
  refine ⟨run v vs, combine_pos (by have := h v List.mem_cons_self; linarith) fun w hw => ?_,
    run_bounds (h v List.mem_cons_self) fun w hw => h w (List.mem_cons_of_mem _ hw)⟩
  have := h w (List.mem_cons_of_mem _ hw); linarith

/-- **C63 (false)** A NaN in one image makes the pixel NaN although others have a value. -/
theorem C63_nan_violated (vs : List (Option ℝ)) (h : none ∈ vs) : combine vs = none := by
  have stay : ∀ l : List (Option ℝ), l.foldl upd none = none := by
    intro l; induction l with
    | nil => rfl
    | cons v l ih => exact ih
  have key : ∀ (l : List (Option ℝ)) (c : Option ℝ), none ∈ l → l.foldl upd c = none := by
    intro l
    induction l with
    | nil => intro c h; cases h
    | cons v l ih =>
      intro c h
      rw [List.foldl_cons]
      rcases List.mem_cons.1 h with rfl | h
      · have : upd c none = none := by cases c <;> simp [upd]
        rw [this, stay]
      · exact ih _ h
  exact key vs _ h

/-- **C63 (false)** A residual of exactly 0 does not count. -/
theorem C63_zero_violated {v : ℝ} : combine [some 0, some v] = some v := by simp [combine, upd]

/-! ## C62 -/

/-- **C62** Without `n_pad` the flat has 1024 pixels per side exactly if the images have. -/
theorem C62_size_iff {n : ℕ} (hn : 0 < n) : flatSize n none = 1024 ↔ n = 1024 := by
  unfold flatSize padding; dsimp only; omega

/-- **C62 (false)** For smaller images the flat is too large: 2048 minus their size. -/
theorem C62_violated {n : ℕ} (hn : n < 1024) : flatSize n none = 2048 - n ∧ 1024 < flatSize n none := by
  unfold flatSize padding; dsimp only; omega

/-- **C62 (partial)** The right value of `n_pad` exists for even sizes only. -/
theorem C62_partial {n : ℕ} (hn : n ≤ 1024) : (∃ p, flatSize n (some p) = 1024) ↔ Even n := by
  unfold flatSize padding
  dsimp only
  constructor
  · rintro ⟨p, hp⟩; exact ⟨512 - p, by omega⟩
  · rintro ⟨k, hk⟩; exact ⟨512 - k, by omega⟩

/-- **C62** Outside the field of view the flat is 1, inside it is the combined value, NaN for uncovered pixels. -/
theorem C62_value (n nPix nPad : ℕ) (cov : ℕ → ℕ → List (Option ℝ)) {i j : ℕ} (hi : i < n) (hj : j < n) :
    ((nPix : ℝ) ^ 2 < ((j : ℝ) - n / 2) ^ 2 + ((i : ℝ) - n / 2) ^ 2 → finish n nPix nPad cov (nPad + i) (nPad + j) = some 1) ∧
    (((j : ℝ) - n / 2) ^ 2 + ((i : ℝ) - n / 2) ^ 2 ≤ (nPix : ℝ) ^ 2 →
      (cov i j = [] → finish n nPix nPad cov (nPad + i) (nPad + j) = none) ∧
      ∀ a, a ≠ 0 → combine (cov i j) = some a → finish n nPix nPad cov (nPad + i) (nPad + j) = some a) := by
  have h0 : ¬ (nPad + i < nPad ∨ nPad + n ≤ nPad + i ∨ nPad + j < nPad ∨ nPad + n ≤ nPad + j) := by omega
  unfold finish
  rw [if_neg h0]
  simp only [Nat.add_sub_cancel_left]
  constructor
  · intro h
    rw [if_pos ((Real.lt_sqrt (by positivity)).2 h)]
  · intro h
    rw [if_neg (by rw [not_lt]; exact Real.sqrt_le_iff.2 ⟨by positivity, h⟩)]
    refine ⟨fun hc => by rw [hc]; simp [combine], fun a ha hc => ?_⟩
    rw [hc, if_neg (by simpa using ha)]

/-- **C62** The padding is 1. -/
theorem C62_padding (n nPix nPad : ℕ) (cov : ℕ → ℕ → List (Option ℝ)) (r c : ℕ)
    (h : r < nPad ∨ nPad + n ≤ r ∨ c < nPad ∨ nPad + n ≤ c) : finish n nPix nPad cov r c = some 1 := by
  unfold finish; rw [if_pos h]

/-- **C62** The pixels used of a cut-out are those within the radius of its pixel (rad+5, rad+5). The planet is at pixel
(u, u), so they are the planet's exactly if u = rad + 5. -/
theorem C62_mask_iff {rad u : ℕ} (hr : 1 < rad) :
    (∀ r c : ℕ, covers rad r c ↔ ((c : ℝ) - u) ^ 2 + ((r : ℝ) - u) ^ 2 < (rad : ℝ) ^ 2) ↔ u = rad + 5 := by
  have hpos : (0 : ℝ) < rad := by exact_mod_cast (by omega : 0 < rad)
  have hr' : (1 : ℝ) < rad := by exact_mod_cast hr
  have hcov : ∀ r c : ℕ, covers rad r c ↔ ((c : ℝ) - rad - 5) ^ 2 + ((r : ℝ) - rad - 5) ^ 2 < (rad : ℝ) ^ 2 := by
    intro r c; unfold covers
    rw [Real.sqrt_lt' hpos]
  constructor
  · intro h
    rcases lt_trichotomy u (rad + 5) with hu | hu | hu
    · -- the pixel rad - 1 right of the mask's centre is in the mask but not in the disc
      exfalso
      have h1 := (h (rad + 5) (2 * rad + 4)).1 ((hcov _ _).2 (by push_cast; nlinarith))
      have hu' : (u : ℝ) + 1 ≤ rad + 5 := by exact_mod_cast hu
      push_cast at h1
      nlinarith
    · exact hu
    · exfalso
      have h1 := (h (rad + 5) 6).1 ((hcov _ _).2 (by push_cast; nlinarith))
      have hu' : (rad : ℝ) + 6 ≤ u := by exact_mod_cast hu
      push_cast at h1
      nlinarith
  · rintro rfl r c
    rw [hcov]; push_cast
    rw [show ((c : ℝ) - (rad + 5)) = c - rad - 5 by ring, show ((r : ℝ) - (rad + 5)) = r - rad - 5 by ring]

/-- **C62 (false)** With the default half width of 55 this is right for Neptune but not for Uranus. -/
theorem C62_uranus_violated :
    (∀ rad, planetRad "neptune" = some rad → ∀ r c : ℕ, covers rad r c ↔ ((c : ℝ) - (55 : ℕ)) ^ 2 + ((r : ℝ) - (55 : ℕ)) ^ 2 < (rad : ℝ) ^ 2) ∧
    ∀ rad, planetRad "uranus" = some rad → ¬ ∀ r c : ℕ, covers rad r c ↔ ((c : ℝ) - (55 : ℕ)) ^ 2 + ((r : ℝ) - (55 : ℕ)) ^ 2 < (rad : ℝ) ^ 2 := by
  constructor
  · intro rad h
    cases h
    exact (C62_mask_iff (by omega)).2 rfl
  · intro rad h
    cases h
    rw [C62_mask_iff (by omega)]; omega

/-! ## Non-vacuity -/

example : flatSize 420 none = 1628 := rfl
example : cutout 1024 100 55 = List.range' 45 110 := by decide
example : (npSplit [1, 2, 3, 4, 5, 6] 3) = some [[1, 2], [3, 4], [5, 6]] := by decide
example : residuals List.sum (fun a b => (a, b)) [1, 2, 3, 4] 2 = some [(1, 3), (2, 3), (3, 7), (4, 7)] := by decide

end Corgi.Flat

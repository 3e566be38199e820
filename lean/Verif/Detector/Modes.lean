import Verif.Detector.Cosmics

/-!
# The two modes of the cosmic ray search on one full frame (detector.py 376-507): C201

Eight recipe templates keep the full frame. `build_trad_dark_full_frame.json`, `build_trad_dark_image.json` and `l1_to_l2a_noisemap.json` search it in
mode `full`; `l1_to_l2a_eng.json`, `l1_to_kgain.json`, `l1_to_l2a_nonlin.json`, `l1_to_l2a_tdd_vap_full.json` and `test.json` leave the default mode
`image`, which takes the whole frame for the image area. Here both modes run on one frame. `flagCosmics` is the model of `Verif/Detector/Cosmics.lean`.
-/

namespace Corgi.Cr

open Corgi.Det

variable {α : Type} [LinearOrder α]

/-! ## Specification -/

/-- Row `r` and column `c` are in the area, or one beyond its last row or column (the code's ends are inclusive). -/
def Within (im : Area) (r c : ℕ) : Prop := (im.r0 ≤ r ∧ r ≤ im.r0 + im.rows) ∧ (im.c0 ≤ c ∧ c ≤ im.c0 + im.cols)

/-- A hit that starts at row `i`, column `b` reaches the pixel by its streak in the row. -/
def ByStreak (p : Par) (i b r c : ℕ) : Prop := r = i ∧ b ≤ c ∧ c ≤ b + p.filter + p.tail

/-- Or by the square around its start. -/
def BySquare (p : Par) (i b r c : ℕ) : Prop := (i ≤ r + p.box ∧ r ≤ i + p.box) ∧ (b ≤ c + p.box ∧ c ≤ b + p.box)

/-! ## C201 -/

/-- **C201** Both modes on one frame whose rows go on far enough beyond the image area for every tail. Mode `full` has the hits that start in the area;
mode `image` has these and, in addition, the hits that start outside it and the parts of the squares outside it. -/
theorem C201_modes (d : Regions) (t : String) (im : Area) (hi : lookArea d t "image" = .ok im) (p : Par) (f : Img α) (S P : α)
    (hw : im.c0 + im.cols + p.filter + p.tail < f.nc) :
    ∃ mf mi, flagCosmics d t true p f S P = .ok mf ∧ flagCosmics d t false p f S P = .ok mi ∧ ∀ r c, r < f.nr → c < f.nc →
      (mf r c = true ↔ ∃ i b, i < f.nr ∧ Within im i b ∧ Starts f S P p.filter i b ∧
        (ByStreak p i b r c ∨ (BySquare p i b r c ∧ Within im r c))) ∧
      (mi r c = true ↔ mf r c = true ∨ ∃ i b, i < f.nr ∧ b < f.nc ∧ Starts f S P p.filter i b ∧
        ((¬ Within im i b ∧ (ByStreak p i b r c ∨ BySquare p i b r c)) ∨ (BySquare p i b r c ∧ ¬ Within im r c))) := by
  obtain ⟨mf, hf, kf⟩ := C29_full_partial d t im hi p f S P
  obtain ⟨mi, hm, ki⟩ := C29_image d t p f S P
  refine ⟨mf, mi, hf, hm, fun r c hr hc => ?_⟩
  have key : mf r c = true ↔ ∃ i b, i < f.nr ∧ Within im i b ∧ Starts f S P p.filter i b ∧
      (ByStreak p i b r c ∨ (BySquare p i b r c ∧ Within im r c)) := by
    rw [kf r c hc]
    constructor
    · rintro ⟨i, b, h1, h2, h3, h4, h5⟩
      refine ⟨i, b, h1, ⟨h2, h3⟩, h4, ?_⟩
      rcases h5 with h | h | ⟨h, h'⟩ | h
      · exact Or.inl h
      · exact Or.inr ⟨⟨h.1, h.2.1⟩, h.2.2⟩
      · have : (i + 1) * f.nc ≤ r * f.nc := Nat.mul_le_mul_right _ h
        rw [Nat.succ_mul] at this
        omega
      · omega
    · rintro ⟨i, b, h1, h2, h4, h5⟩
      refine ⟨i, b, h1, h2.1, h2.2, h4, ?_⟩
      rcases h5 with h | ⟨h, h'⟩
      · exact Or.inl h
      · exact Or.inr (Or.inl ⟨h.1, h.2, h'⟩)
  refine ⟨key, ?_⟩
  rw [ki r c hr hc, key]
  constructor
  · rintro ⟨i, b, h1, h2, h3, h4⟩
    by_cases hin : Within im i b
    · by_cases hpx : Within im r c
      · exact Or.inl ⟨i, b, h1, hin, h3, h4.imp_right fun h => ⟨h, hpx⟩⟩
      · rcases h4 with h | h
        · exact Or.inl ⟨i, b, h1, hin, h3, Or.inl h⟩
        · exact Or.inr ⟨i, b, h1, h2, h3, Or.inr ⟨h, hpx⟩⟩
    · exact Or.inr ⟨i, b, h1, h2, h3, Or.inl ⟨hin, h4⟩⟩
  · rintro (⟨i, b, h1, h2, h3, h4⟩ | ⟨i, b, h1, h2, h3, h4⟩)
    · exact ⟨i, b, h1, by have := h2.2.2; omega, h3, h4.imp_right And.left⟩
    · exact ⟨i, b, h1, h2, h3, by rcases h4 with h | h; exacts [h.2, Or.inr h.1]⟩

/-- **C201** A pixel of the area has one answer in both modes when no hit starts outside. -/
theorem C201_agree (d : Regions) (t : String) (im : Area) (hi : lookArea d t "image" = .ok im) (p : Par) (f : Img α) (S P : α)
    (hw : im.c0 + im.cols + p.filter + p.tail < f.nc)
    (hin : ∀ i b, i < f.nr → b < f.nc → Starts f S P p.filter i b → Within im i b) :
    ∃ mf mi, flagCosmics d t true p f S P = .ok mf ∧ flagCosmics d t false p f S P = .ok mi ∧
      ∀ r c, r < f.nr → c < f.nc → Within im r c → mi r c = mf r c := by
  obtain ⟨mf, mi, hf, hm, k⟩ := C201_modes d t im hi p f S P hw
  refine ⟨mf, mi, hf, hm, fun r c hr hc hpx => ?_⟩
  rw [Bool.eq_iff_iff, (k r c hr hc).2]
  constructor
  · rintro (h | ⟨i, b, h1, h2, h3, ⟨h, -⟩ | ⟨-, h⟩⟩)
    · exact h
    · exact absurd (hin i b h1 h2 h3) h
    · exact absurd hpx h
  · exact Or.inl

/-- **C201** The image pixels that only mode `image` flags belong to hits that start outside the area. -/
theorem C201_stray (d : Regions) (t : String) (im : Area) (hi : lookArea d t "image" = .ok im) (p : Par) (f : Img α) (S P : α)
    (hw : im.c0 + im.cols + p.filter + p.tail < f.nc) :
    ∃ mf mi, flagCosmics d t true p f S P = .ok mf ∧ flagCosmics d t false p f S P = .ok mi ∧
      ∀ r c, r < f.nr → c < f.nc → Within im r c → ((mi r c = true ∧ mf r c = false) ↔ mf r c = false ∧
        ∃ i b, i < f.nr ∧ b < f.nc ∧ ¬ Within im i b ∧ Starts f S P p.filter i b ∧ (ByStreak p i b r c ∨ BySquare p i b r c)) := by
  obtain ⟨mf, mi, hf, hm, k⟩ := C201_modes d t im hi p f S P hw
  refine ⟨mf, mi, hf, hm, fun r c hr hc hpx => ?_⟩
  rw [(k r c hr hc).2, and_comm]
  refine and_congr_right fun h0 => ?_
  rw [h0]
  constructor
  · rintro (h | ⟨i, b, h1, h2, h3, ⟨h, h'⟩ | ⟨-, h⟩⟩)
    · cases h
    · exact ⟨i, b, h1, h2, h, h3, h'⟩
    · exact absurd hpx h
  · rintro ⟨i, b, h1, h2, h, h3, h'⟩
    exact Or.inr ⟨i, b, h1, h2, h3, Or.inl ⟨h, h'⟩⟩

/-- **C201** The science detector with the step's defaults (l1_to_l2a.py 160-162): no tail is long enough to run into the next row, so mode `full`
flags nothing that mode `image` does not. -/
theorem C201_sci (f : Img α) (S P : α) (hc : f.nc = 2200) :
    ∃ mf mi, flagCosmics detectorAreas "SCI" true ⟨1, 3, 10⟩ f S P = .ok mf ∧ flagCosmics detectorAreas "SCI" false ⟨1, 3, 10⟩ f S P = .ok mi ∧
      ∀ r c, r < f.nr → c < f.nc → mf r c = true → mi r c = true := by
  obtain ⟨mf, mi, hf, hm, k⟩ := C201_modes detectorAreas "SCI" _ (by rfl) ⟨1, 3, 10⟩ f S P (by rw [hc]; decide)
  exact ⟨mf, mi, hf, hm, fun r c hr hc h => (k r c hr hc).2.2 (Or.inl h)⟩

/-- **C201** A geometry without image area, as the one that `l1_to_kgain.json` gives to the bias step (not to this one), is refused in mode `full`
and accepted in mode `image`. -/
theorem C201_no_area (d : Regions) (t : String) (e : Det.Err) (hi : lookArea d t "image" = .error e) (p : Par) (f : Img α) (S P : α) :
    flagCosmics d t true p f S P = .error e ∧ ∃ m, flagCosmics d t false p f S P = .ok m := by
  refine ⟨?_, (C29_image d t p f S P).imp fun _ h => h.1⟩
  unfold flagCosmics
  rw [if_pos rfl, hi]
  rfl

/-! ## Not vacuous -/

/-- An area of 2 rows and 3 columns inside a frame of 5 rows and 12 columns. -/
def innerGeom : Regions :=
  [("SCI", { frameRows := 5, frameCols := 12, areas := [("image", { rows := 2, cols := 3, r0 := 1, c0 := 3 })] })]

/-- A hit three columns before the area is flagged in the area by mode `image` only. -/
example : ∃ mf mi, flagCosmics innerGeom "SCI" true ⟨1, 1, 3⟩ (⟨5, 12, fun r c => if r = 1 ∧ c = 0 then 10 else 0⟩ : Img ℕ) 7 7 = .ok mf ∧
    flagCosmics innerGeom "SCI" false ⟨1, 1, 3⟩ (⟨5, 12, fun r c => if r = 1 ∧ c = 0 then 10 else 0⟩ : Img ℕ) 7 7 = .ok mi ∧
    mi 1 4 = true ∧ mf 1 4 = false := by
  have : lookArea innerGeom "SCI" "image" = .ok { rows := 2, cols := 3, r0 := 1, c0 := 3 } := by decide +kernel
  unfold flagCosmics
  rw [if_pos rfl, this]
  refine ⟨_, _, rfl, rfl, ?_⟩
  decide +kernel

/-- A hit in the area, flagged by both. -/
example : ∃ mf mi, flagCosmics innerGeom "SCI" true ⟨1, 1, 3⟩ (⟨5, 12, fun r c => if r = 1 ∧ c = 4 then 10 else 0⟩ : Img ℕ) 7 7 = .ok mf ∧
    flagCosmics innerGeom "SCI" false ⟨1, 1, 3⟩ (⟨5, 12, fun r c => if r = 1 ∧ c = 4 then 10 else 0⟩ : Img ℕ) 7 7 = .ok mi ∧
    mi 1 5 = true ∧ mf 1 5 = true ∧ mi 0 4 = true ∧ mf 0 4 = false := by
  have : lookArea innerGeom "SCI" "image" = .ok { rows := 2, cols := 3, r0 := 1, c0 := 3 } := by decide +kernel
  unfold flagCosmics
  rw [if_pos rfl, this]
  refine ⟨_, _, rfl, rfl, ?_⟩
  decide +kernel

/-- The hypotheses of `C201_agree` hold together: no pixel is bright enough to start a hit. -/
example : ∃ mf mi, flagCosmics innerGeom "SCI" true ⟨1, 1, 3⟩ (⟨5, 12, fun _ _ => 0⟩ : Img ℕ) 7 7 = .ok mf ∧
    flagCosmics innerGeom "SCI" false ⟨1, 1, 3⟩ (⟨5, 12, fun _ _ => 0⟩ : Img ℕ) 7 7 = .ok mi ∧ mi 1 4 = mf 1 4 := by
  obtain ⟨mf, mi, hf, hm, h⟩ := C201_agree innerGeom "SCI" { rows := 2, cols := 3, r0 := 1, c0 := 3 } (by decide +kernel) ⟨1, 1, 3⟩
    (⟨5, 12, fun _ _ => 0⟩ : Img ℕ) 7 7 (by decide) (by
      rintro i b - - ⟨k, hk, h, -⟩
      exact absurd h ((show ∀ k, k < 12 → ¬ 7 ≤ medFilt (fun _ => (0 : ℕ)) 12 2 k by decide +kernel) k hk))
  exact ⟨mf, mi, hf, hm, h 1 4 (by decide) (by decide) (by unfold Within; decide)⟩

end Corgi.Cr

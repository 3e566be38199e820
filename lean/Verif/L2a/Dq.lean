import Mathlib.Data.Nat.Bitwise
import Mathlib.Data.Nat.Basic

/-!
# Data-quality flags through L1 to L2b: model and C24

A DQ map is a function from pixels (row, column) to a non-negative integer whose bits are flags.
-/

namespace Corgi.Dq

abbrev Pix := ℕ × ℕ

/-- The DQ map. -/
abbrev Map := Pix → ℕ

/-- `get_flag_to_bit_map`, data.py 2626-2643. -/
def flagBit : String → Option ℕ
  | "bad_pixel_unspecified" => some 0
  | "data_replaced_by_filled_value" => some 1
  | "bad_pixel" => some 2
  | "hot_pixel" => some 3
  | "not_used" => some 4
  | "full_well_saturated_pixel" => some 5
  | "non_linear_pixel" => some 6
  | "pixel_affected_by_cosmic_ray" => some 7
  | "TBD" => some 8
  | _ => none

/-- What a step knows: which pixels are affected. -/
inductive Step
  /-- `prescan_biassub`, l1_to_l2a.py 60 and 74: cut out the area starting at (r0, c0) -/
  | crop (r0 c0 : ℕ)
  /-- `detect_cosmic_rays`, l1_to_l2a.py 253-277: saturated, hit -/
  | cosmics (sat cr : Pix → Bool)
  /-- `correct_nonlinearity`, l1_to_l2a.py 321-323: above the threshold -/
  | nonlin (over : Pix → Bool)
  /-- `dark_subtraction`, l2a_to_l2b.py 105-106: the dark's own flags -/
  | dark (dq : Map)
  /-- `flat_division`, l2a_to_l2b.py 138-141: flat field zero -/
  | flat (zero : Pix → Bool)
  /-- `correct_bad_pixels`, l2a_to_l2b.py 370-384: the bad pixel map -/
  | badPix (bp : Map)
  /-- steps that do not touch the flags: `convert_to_electrons`, `em_gain_division`, `add_photon_noise`,
  `desmear`, `cti_correction`, level upgrades -/
  | other

/-- `np.uint8` cast -/
def u8 (n : ℕ) : ℕ := n % 256

/-- The DQ map after a step. -/
def Step.run : Step → Map → Map
  | .crop r0 c0, q => fun p => q (p.1 + r0, p.2 + c0)
  | .cosmics sat cr, q => fun p => (q p ||| (if sat p then 32 else 0)) ||| (if cr p then 128 else 0)
  | .nonlin over, q => fun p => if over p then q p ||| 64 else q p
  | .dark d, q => fun p => q p ||| d p
  | .flat zero, q => fun p => if zero p then q p ||| 4 else q p
  | .badPix bp, q => fun p =>
    let m := u8 (q p) ||| u8 (bp p)
    if m ≠ 0 then m ||| 2 else m
  | .other, q => q

/-- A sequence of steps. -/
def runAll (ss : List Step) (q : Map) : Map := ss.foldl (fun q s => s.run q) q

/-- Where the pixels of the result of a step come from. -/
def Step.origin : Step → Pix → Pix
  | .crop r0 c0, p => (p.1 + r0, p.2 + c0)
  | _, p => p

/-- ... of a sequence. -/
def origin : List Step → Pix → Pix
  | [], p => p
  | s :: ss, p => s.origin (origin ss p)

/-- The step is `correct_bad_pixels`. -/
def Step.isBadPix : Step → Bool
  | .badPix _ => true
  | _ => false

/-! ## C24 -/

theorem testBit_u8 (n b : ℕ) : (u8 n).testBit b = (decide (b < 8) && n.testBit b) := by
  unfold u8
  rw [show (256 : ℕ) = 2 ^ 8 from rfl, Nat.testBit_mod_two_pow]

/-- One step keeps a flag, except flags of 256 or more in `correct_bad_pixels`. -/
theorem step_keeps (s : Step) (q : Map) (p : Pix) (b : ℕ) (hb : b < 8 ∨ s.isBadPix = false)
    (h : (q (s.origin p)).testBit b = true) : (s.run q p).testBit b = true := by
  cases s with
  | crop r0 c0 => exact h
  | cosmics sat cr => simp only [Step.run, Step.origin, Nat.testBit_or] at *; simp [h]
  | nonlin over =>
    simp only [Step.run, Step.origin] at *
    split
    · rw [Nat.testBit_or, h]; rfl
    · exact h
  | dark d => simp only [Step.run, Step.origin, Nat.testBit_or] at *; simp [h]
  | flat zero =>
    simp only [Step.run, Step.origin] at *
    split
    · rw [Nat.testBit_or, h]; rfl
    · exact h
  | badPix bp =>
    have hb' : b < 8 := by simpa [Step.isBadPix] using hb
    simp only [Step.run, Step.origin] at *
    have hm : (u8 (q p) ||| u8 (bp p)).testBit b = true := by
      rw [Nat.testBit_or, testBit_u8, h]; simp [hb']
    split
    · rw [Nat.testBit_or, hm]; rfl
    · exact hm
  | other => exact h

/-- **C24, part** Through any sequence of steps each of the eight flags below 256 stays set, and without
`correct_bad_pixels` every flag does. (Missing: flags of 256 and more through `correct_bad_pixels`, see
`C24_violated`.) -/
theorem C24_flags_kept_partial (ss : List Step) (q : Map) (p : Pix) (b : ℕ)
    (hb : b < 8 ∨ ∀ s ∈ ss, s.isBadPix = false) (h : (q (origin ss p)).testBit b = true) :
    (runAll ss q p).testBit b = true := by
  induction ss generalizing q p with
  | nil => exact h
  | cons s ss ih =>
    unfold runAll
    rw [List.foldl_cons]
    refine ih (s.run q) p (hb.imp id fun h s hs => h s (by simp [hs])) ?_
    exact step_keeps s q _ b (hb.imp id fun h => h s (by simp)) h

/-- **C24** exactly: `correct_bad_pixels` clears every flag of 256 or more. -/
theorem C24_high_flags_lost (bp q : Map) (p : Pix) (b : ℕ) (hb : 8 ≤ b) :
    ((Step.badPix bp).run q p).testBit b = false := by
  have hm : (u8 (q p) ||| u8 (bp p)).testBit b = false := by
    rw [Nat.testBit_or, testBit_u8, testBit_u8]
    have : ¬ b < 8 := by omega
    simp [this]
  simp only [Step.run]
  split
  · rw [Nat.testBit_or, hm, Bool.false_or]
    exact Nat.testBit_lt_two_pow (by
      calc 2 < 2 ^ 8 := by decide
        _ ≤ 2 ^ b := Nat.pow_le_pow_right (by decide) hb)
  · exact hm

/-- C24: no two names share a bit. -/
theorem C24_bits {s t : String} {b : ℕ} (hs : flagBit s = some b) (ht : flagBit t = some b) : s = t := by
  unfold flagBit at hs ht
  split at hs <;> split at ht <;> simp_all <;> omega

/-- **C24** is violated: a pixel with the defined flag "TBD" (bit 8) leaves `correct_bad_pixels` with no
flag at all; it is not even replaced by NaN. -/
theorem C24_violated : flagBit "TBD" = some 8 ∧
    ((fun _ => 256 : Map) (0, 0)).testBit 8 = true ∧
    runAll [.badPix fun _ => 0] (fun _ => 256) (0, 0) = 0 := by
  refine ⟨by decide +kernel, by decide +kernel, by decide +kernel⟩

/-- The values the steps set are those of the named flags. -/
theorem C24_named_flags :
    flagBit "full_well_saturated_pixel" = some 5 ∧ (32 : ℕ) = 1 <<< 5 ∧
    flagBit "pixel_affected_by_cosmic_ray" = some 7 ∧ (128 : ℕ) = 1 <<< 7 ∧
    flagBit "non_linear_pixel" = some 6 ∧ (64 : ℕ) = 1 <<< 6 ∧
    flagBit "bad_pixel" = some 2 ∧ (4 : ℕ) = 1 <<< 2 ∧
    flagBit "data_replaced_by_filled_value" = some 1 ∧ (2 : ℕ) = 1 <<< 1 := by decide +kernel

/-- **C24** A step only sets its own flags: a bit set after was set before or belongs to the step. -/
theorem C24_only_own_flags (s : Step) (q : Map) (p : Pix) (b : ℕ) (h : (s.run q p).testBit b = true) :
    (q (s.origin p)).testBit b = true ∨
    (match s with
      | .cosmics sat cr => (b = 5 ∧ sat p = true) ∨ (b = 7 ∧ cr p = true)
      | .nonlin over => b = 6 ∧ over p = true
      | .dark d => (d p).testBit b = true
      | .flat zero => b = 2 ∧ zero p = true
      | .badPix bp => (bp p).testBit b = true ∨ b = 1
      | _ => False) := by
  have t32 : ∀ b, (32 : ℕ).testBit b = true → b = 5 := fun b h => by
    rw [show (32 : ℕ) = 2 ^ 5 from rfl, Nat.testBit_two_pow] at h; simpa using (of_decide_eq_true h).symm
  have t128 : ∀ b, (128 : ℕ).testBit b = true → b = 7 := fun b h => by
    rw [show (128 : ℕ) = 2 ^ 7 from rfl, Nat.testBit_two_pow] at h; simpa using (of_decide_eq_true h).symm
  have t64 : ∀ b, (64 : ℕ).testBit b = true → b = 6 := fun b h => by
    rw [show (64 : ℕ) = 2 ^ 6 from rfl, Nat.testBit_two_pow] at h; simpa using (of_decide_eq_true h).symm
  have t4 : ∀ b, (4 : ℕ).testBit b = true → b = 2 := fun b h => by
    rw [show (4 : ℕ) = 2 ^ 2 from rfl, Nat.testBit_two_pow] at h; simpa using (of_decide_eq_true h).symm
  have t2 : ∀ b, (2 : ℕ).testBit b = true → b = 1 := fun b h => by
    rw [show (2 : ℕ) = 2 ^ 1 from rfl, Nat.testBit_two_pow] at h; simpa using (of_decide_eq_true h).symm
  cases s with
  | crop r0 c0 => exact Or.inl h
  | other => exact Or.inl h
  | cosmics sat cr =>
    simp only [Step.run, Nat.testBit_or, Bool.or_eq_true] at h
    rcases h with (h | h) | h
    · exact Or.inl h
    · cases hs : sat p <;> rw [hs] at h <;> simp at h
      exact Or.inr (Or.inl ⟨t32 b h, hs⟩)
    · cases hs : cr p <;> rw [hs] at h <;> simp at h
      exact Or.inr (Or.inr ⟨t128 b h, hs⟩)
  | nonlin over =>
    simp only [Step.run] at h
    split at h
    · rename_i ho
      rw [Nat.testBit_or, Bool.or_eq_true] at h
      exact h.imp id fun h => ⟨t64 b h, ho⟩
    · exact Or.inl h
  | dark d =>
    simp only [Step.run, Nat.testBit_or, Bool.or_eq_true] at h
    exact h
  | flat zero =>
    simp only [Step.run] at h
    split at h
    · rename_i ho
      rw [Nat.testBit_or, Bool.or_eq_true] at h
      exact h.imp id fun h => ⟨t4 b h, ho⟩
    · exact Or.inl h
  | badPix bp =>
    simp only [Step.run] at h
    have hm : (u8 (q p) ||| u8 (bp p)).testBit b = true →
        (q p).testBit b = true ∨ (bp p).testBit b = true := by
      intro h
      rw [Nat.testBit_or, testBit_u8, testBit_u8] at h
      simp at h
      rcases h with h | h
      · exact Or.inl h.2
      · exact Or.inr h.2
    split at h
    · rw [Nat.testBit_or, Bool.or_eq_true] at h
      rcases h with h | h
      · rcases hm h with h | h
        · exact Or.inl h
        · exact Or.inr (Or.inl h)
      · exact Or.inr (Or.inr (t2 b h))
    · rcases hm h with h | h
      · exact Or.inl h
      · exact Or.inr (Or.inl h)

/-- **C24** Each step sets its flags: saturated, hit, non-linear and flat-less pixels, the dark's flags, the
bad pixel map's eight low flags, and "replaced" wherever any of these is set after the bad pixel step. -/
theorem C24_sets_flags (q : Map) (p : Pix) :
    (∀ (sat cr : Pix → Bool), (sat p = true → ((Step.cosmics sat cr).run q p).testBit 5 = true) ∧
      (cr p = true → ((Step.cosmics sat cr).run q p).testBit 7 = true)) ∧
    (∀ over : Pix → Bool, over p = true → ((Step.nonlin over).run q p).testBit 6 = true) ∧
    (∀ (d : Map) (b : ℕ), (d p).testBit b = true → ((Step.dark d).run q p).testBit b = true) ∧
    (∀ zero : Pix → Bool, zero p = true → ((Step.flat zero).run q p).testBit 2 = true) ∧
    (∀ (bp : Map) (b : ℕ), b < 8 → ((q p).testBit b = true ∨ (bp p).testBit b = true) →
      ((Step.badPix bp).run q p).testBit b = true ∧ ((Step.badPix bp).run q p).testBit 1 = true) := by
  refine ⟨fun sat cr => ⟨fun h => ?_, fun h => ?_⟩, fun over h => ?_, fun d b h => ?_, fun z h => ?_,
    fun bp b hb h => ?_⟩
  · simp only [Step.run, h, if_true, Nat.testBit_or]
    simp [show Nat.testBit 32 5 = true from by decide]
  · simp only [Step.run, h, if_true, Nat.testBit_or]
    simp [show Nat.testBit 128 7 = true from by decide]
  · simp only [Step.run, h, if_true, Nat.testBit_or]
    simp [show Nat.testBit 64 6 = true from by decide]
  · simp only [Step.run, Nat.testBit_or, h, Bool.or_true]
  · simp only [Step.run, h, if_true, Nat.testBit_or]
    simp [show Nat.testBit 4 2 = true from by decide]
  · have hm : (u8 (q p) ||| u8 (bp p)).testBit b = true := by
      rw [Nat.testBit_or, testBit_u8, testBit_u8]
      rcases h with h | h <;> simp [h, hb]
    have h0 : u8 (q p) ||| u8 (bp p) ≠ 0 := by
      intro h0; rw [h0] at hm; simp at hm
    simp only [Step.run]
    rw [if_pos h0]
    exact ⟨by rw [Nat.testBit_or, hm]; rfl,
      by rw [Nat.testBit_or, show Nat.testBit 2 1 = true from by decide, Bool.or_true]⟩

/-- Not vacuous: a cropped frame with a cosmic-ray hit and a saturated pixel. -/
example : runAll [.crop 1 2, .cosmics (fun _ => true) (fun p => p = (0, 0)), .nonlin (fun _ => false),
    .dark (fun _ => 8), .flat (fun _ => true), .badPix (fun _ => 0)] (fun p => if p = (1, 2) then 1 else 0) (0, 0)
      = 1 + 32 + 128 + 8 + 4 + 2 := by decide +kernel

end Corgi.Dq

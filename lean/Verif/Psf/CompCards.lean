import Verif.L4.Crop
import Verif.Tda.SnMap

/-!
# Companion cards of cropped images

`update_companion_location_in_cropped_image` (`/repo/corgidrp/measure_companions.py` 467-494) and its
use in `forward_model_psf` (458-461), where the image was cropped to 100 by 100 pixels around the star
(424-425, `crop` in C38).

Positions in cards are whole numbers (C138). The significance is text: reading and writing it again
(`float`, `:5.1f`) is the parameter `sn`, of which only is used that it writes no comma.
-/

namespace Corgi.CompCards

open Corgi.SnMap Corgi.Crop

/-- `{n:d}` for an integer. -/
def intText (z : ℤ) : List Char := if z < 0 then '-' :: digitsOf z.natAbs else digitsOf z.natAbs

/-- `float(part)` of a whole number with blanks in front and perhaps a sign. -/
def readInt (part : List Char) : Option ℤ :=
  match part.dropWhile (· = ' ') with
  | '-' :: ds => (Corgi.Sorting.FrameId.toInt ds).map fun n => -(n : ℤ)
  | ds => (Corgi.Sorting.FrameId.toInt ds).map fun n => (n : ℤ)

/-- `int(round(old - old_host + new_host))` (lines 491-492). -/
def moved (old : ℤ) (oldHost newHost : ℚ) : ℤ := npRound (old - oldHost + newHost)

/-- Why a card is not updated. -/
inductive Err
  | keyError
  | valueError
deriving DecidableEq

/-- Lines 480-493 on the text of the card; hosts are `(x, y)`, cards are `sn,y,x`. -/
def update (sn : List Char → List Char) (card : Option (List Char)) (oldHost newHost : ℚ × ℚ) :
    Except Err (List Char) :=
  match card with
  | none => .error .keyError
  | some text =>
    match split ',' text with
    | s :: y :: x :: _ =>
      match readInt y, readInt x with
      | some y, some x =>
        .ok (sn s ++ ',' :: (padTo ' ' 4 (intText (moved y oldHost.2 newHost.2)) ++
          ',' :: padTo ' ' 4 (intText (moved x oldHost.1 newHost.1))))
      | _, _ => .error .valueError
    | _ => .error .valueError

/-- Spec: the card says that the companion is in row `y` and column `x`. -/
def Says (card : List Char) (y x : ℤ) : Prop :=
  ∃ s a b, ',' ∉ s ∧ ',' ∉ a ∧ ',' ∉ b ∧ card = s ++ ',' :: (a ++ ',' :: b) ∧ readInt a = some y ∧
    readInt b = some x

theorem toInt_digits (n : ℕ) : Corgi.Sorting.FrameId.toInt (digitsOf n) = some n := toInt_digitsOf n

theorem dropWhile_pad (k : ℕ) {ds : List Char} (h : ds.head? ≠ some ' ') :
    (List.replicate k ' ' ++ ds).dropWhile (· = ' ') = ds := by
  induction k with
  | zero =>
    rw [List.replicate_zero, List.nil_append]
    cases ds with
    | nil => rfl
    | cons c cs =>
      rw [List.dropWhile_cons, if_neg]
      simpa using h
  | succ k ih =>
    rw [List.replicate_succ, List.cons_append, List.dropWhile_cons, if_pos (by simp)]
    exact ih

/-- **C141.** Whole numbers, also negative ones, are read as they were written. -/
theorem C141_read (k : ℕ) (z : ℤ) : readInt (padTo ' ' k (intText z)) = some z := by
  unfold readInt padTo
  obtain ⟨c, cs, hc⟩ := List.exists_cons_of_ne_nil (digitsOf_ne_nil z.natAbs)
  have hd := digitsOf_digit z.natAbs c (by rw [hc]; simp)
  by_cases hz : z < 0
  · have ht : intText z = '-' :: digitsOf z.natAbs := by unfold intText; rw [if_pos hz]
    rw [ht, dropWhile_pad _ (by simp)]
    show (Corgi.Sorting.FrameId.toInt (digitsOf z.natAbs)).map (fun n => -(n : ℤ)) = some z
    rw [toInt_digits]
    show some (-((z.natAbs : ℕ) : ℤ)) = some z
    congr 1
    omega
  · have ht : intText z = digitsOf z.natAbs := by unfold intText; rw [if_neg hz]
    have hsp : (digitsOf z.natAbs).head? ≠ some ' ' := by
      rw [hc]
      simp only [List.head?_cons, ne_eq, Option.some.injEq]
      rintro rfl
      exact absurd hd (by decide +kernel)
    rw [ht, dropWhile_pad _ hsp]
    have hm : c ≠ '-' := by
      rintro rfl
      exact absurd hd (by decide +kernel)
    have : ∀ l : List Char, l = digitsOf z.natAbs → (match l with
        | '-' :: ds => (Corgi.Sorting.FrameId.toInt ds).map fun n => -(n : ℤ)
        | ds => (Corgi.Sorting.FrameId.toInt ds).map fun n => (n : ℤ)) = some z := by
      intro l hl
      split
      · rename_i ds
        rw [hc] at hl
        exact absurd (List.cons.inj hl).1.symm hm
      · rw [hl, toInt_digits]
        show some ((z.natAbs : ℕ) : ℤ) = some z
        congr 1
        omega
    exact this _ rfl

theorem comma_int (k : ℕ) (z : ℤ) : ',' ∉ padTo ' ' k (intText z) := by
  unfold padTo intText
  rw [List.mem_append]
  have hn : ',' ∉ digitsOf z.natAbs := fun h => absurd (digitsOf_digit _ _ h) (by decide +kernel)
  rintro (h | h)
  · exact absurd (List.eq_of_mem_replicate h) (by decide +kernel)
  · split_ifs at h
    · rcases List.mem_cons.1 h with h | h
      · exact absurd h (by decide +kernel)
      · exact hn h
    · exact hn h

/-- **C141.** A card with a position is always updated, and says the moved position. -/
theorem C141_update {sn : List Char → List Char} (hs : ∀ l, ',' ∉ sn l) {card : List Char} {y x : ℤ}
    (h : Says card y x) (oldHost newHost : ℚ × ℚ) :
    ∃ c, update sn (some card) oldHost newHost = .ok c ∧
      Says c (moved y oldHost.2 newHost.2) (moved x oldHost.1 newHost.1) := by
  obtain ⟨s, a, b, h1, h2, h3, rfl, h4, h5⟩ := h
  refine ⟨_, ?_, sn s, _, _, hs s, comma_int 4 _, comma_int 4 _, rfl, C141_read 4 _, C141_read 4 _⟩
  unfold update
  dsimp only
  rw [split_append h1, split_append h2, split_of_not_mem h3]
  dsimp only
  rw [h4, h5]

/-- **C141.** The cards of the source search (C138) are of this kind. -/
theorem C141_search_cards {sn : List Char} (h : ',' ∉ sn) (y x : ℕ) : Says (cardText sn y x) y x := by
  have e : ∀ n : ℕ, intText n = digitsOf n := by
    intro n; unfold intText; rw [if_neg (by omega)]; rfl
  refine ⟨sn, padTo ' ' 4 (intText y), padTo ' ' 4 (intText x), h, comma_int 4 _, comma_int 4 _, ?_,
    C141_read 4 _, C141_read 4 _⟩
  rw [e, e]
  rfl

/-- **C141.** Between hosts a whole number of pixels apart the distance to the host is kept exactly, -/
theorem C141_whole (old k : ℤ) (host : ℚ) : moved old host (host + k) = old + k := by
  unfold moved
  have : ((old : ℚ) - host + (host + k)) = ((old + k : ℤ) : ℚ) := by push_cast; ring
  rw [this, npRound_int]

/-- and otherwise up to half a pixel. -/
theorem C141_near (old : ℤ) (oldHost newHost : ℚ) :
    |((moved old oldHost newHost : ℚ) - newHost) - (old - oldHost)| ≤ 1 / 2 := by
  unfold moved
  have := npRound_near ((old : ℚ) - oldHost + newHost)
  have e : ((npRound ((old : ℚ) - oldHost + newHost) : ℚ) - newHost) - (old - oldHost)
      = (npRound ((old : ℚ) - oldHost + newHost) : ℚ) - (old - oldHost + newHost) := by ring
  rw [e]
  exact this

/-- **C141.** Failures: no card, or fewer than three parts; here, cards with two parts. -/
theorem C141_fails (sn : List Char → List Char) (oldHost newHost : ℚ × ℚ) :
    update sn none oldHost newHost = .error .keyError ∧
    ∀ a b : List Char, ',' ∉ a → ',' ∉ b →
      update sn (some (a ++ ',' :: b)) oldHost newHost = .error .valueError := by
  refine ⟨rfl, fun a b ha hb => ?_⟩
  unfold update
  dsimp only
  rw [split_append ha, split_of_not_mem hb]

/-! ## The fixed hosts of `forward_model_psf` -/

/-- What line 461 does to a coordinate. -/
def fixedHosts (old : ℤ) : ℤ := moved old 512 50

/-- Spec: where the pixel `old` is after the crop to 100 pixels around a star at `c` (C38). -/
def cropped (c : ℚ) (old : ℤ) : ℤ := old - startInd ((npRound (c - 1 / 2) : ℚ) + 1 / 2) 100

theorem fixedHosts_eq (old : ℤ) : fixedHosts old = old - 462 := by
  unfold fixedHosts
  have := C141_whole old (-462) 512
  norm_num at this
  rw [this]
  ring

theorem cropped_eq (c : ℚ) (old : ℤ) : cropped c old = old - (npRound (c - 1 / 2) - 49) := by
  unfold cropped
  have := startInd_eq (npRound (c - 1 / 2)) 50
  norm_num at this
  rw [this]
  ring

/-- **C141.** The cards follow the crop exactly if the star is between pixels 511 and 512. -/
theorem C141_fixed_iff (c : ℚ) (old : ℤ) : fixedHosts old = cropped c old ↔ 511 < c ∧ c < 512 := by
  rw [fixedHosts_eq, cropped_eq]
  have h1 : (old - 462 = old - (npRound (c - 1 / 2) - 49)) ↔ npRound (c - 1 / 2) = 511 := by omega
  rw [h1]
  have hne := npRound_near (c - 1 / 2)
  rw [abs_le] at hne
  constructor
  · intro h
    rw [h] at hne
    push_cast at hne
    have hl : c ≠ 511 := by
      rintro rfl
      have he := npRound_half 510
      have : ((510 : ℤ) : ℚ) + 1 / 2 = 511 - 1 / 2 := by norm_num
      rw [this, h] at he
      exact absurd he (by decide)
    have hr : c ≠ 512 := by
      rintro rfl
      have he := npRound_half 511
      have : ((511 : ℤ) : ℚ) + 1 / 2 = 512 - 1 / 2 := by norm_num
      rw [this, h] at he
      exact absurd he (by decide)
    exact ⟨lt_of_le_of_ne (by linarith) (Ne.symm hl), lt_of_le_of_ne (by linarith) hr⟩
  · rintro ⟨h2, h3⟩
    have a1 : (510 : ℚ) < npRound (c - 1 / 2) := by linarith
    have a2 : (npRound (c - 1 / 2) : ℚ) < 512 := by linarith
    have b1 : (510 : ℤ) < npRound (c - 1 / 2) := by exact_mod_cast a1
    have b2 : npRound (c - 1 / 2) < (512 : ℤ) := by exact_mod_cast a2
    omega

/-- **C141, violated.** For a star exactly at the fixed host position 512 the crop starts one pixel
later, and all cards are one pixel off. -/
theorem C141_violated_at_host (old : ℤ) : fixedHosts old = cropped 512 old + 1 := by
  rw [fixedHosts_eq, cropped_eq]
  have : npRound ((512 : ℚ) - 1 / 2) = 512 := by
    have hf : ⌊(512 : ℚ) - 1 / 2⌋ = 511 := by
      rw [Int.floor_eq_iff]; norm_num
    unfold npRound
    rw [hf, if_neg (by norm_num), if_neg (by norm_num), if_neg (by decide)]
    norm_num
  rw [this]
  ring

/-- **C141, violated.** A companion outside the crop keeps its card, with a position outside the
cropped image. -/
theorem C141_violated_outside {sn : List Char → List Char} (hs : ∀ l, ',' ∉ sn l) {s : List Char}
    (h : ',' ∉ s) : ∃ c, update sn (some (cardText s 400 512)) (512, 512) (50, 50) = .ok c ∧ Says c (-62) 50 := by
  obtain ⟨c, h1, h2⟩ := C141_update hs (C141_search_cards h 400 512) (512, 512) (50, 50)
  refine ⟨c, h1, ?_⟩
  have e1 : moved ((400 : ℕ) : ℤ) 512 50 = -62 := (fixedHosts_eq 400).trans (by norm_num)
  have e2 : moved ((512 : ℕ) : ℤ) 512 50 = 50 := (fixedHosts_eq 512).trans (by norm_num)
  rw [e1, e2] at h2
  exact h2

/-- **C141, violated.** The update is not idempotent: the header belongs to the image that was passed
in, so a second call moves the companion again. -/
theorem C141_violated_twice (old : ℤ) : fixedHosts (fixedHosts old) ≠ fixedHosts old := by
  rw [fixedHosts_eq, fixedHosts_eq]
  omega

example : update id (some " 12.3, 522, 502".toList) (512, 512) (100, 100) = .ok " 12.3, 110,  90".toList := by
  have h1 : moved 522 512 100 = 110 := by
    have := C141_whole 522 (-412) 512; norm_num at this; exact this
  have h2 : moved 502 512 100 = 90 := by
    have := C141_whole 502 (-412) 512; norm_num at this; exact this
  have e : split ',' " 12.3, 522, 502".toList = [" 12.3".toList, " 522".toList, " 502".toList] := by
    decide +kernel
  have r1 : readInt " 522".toList = some 522 := by decide +kernel
  have r2 : readInt " 502".toList = some 502 := by decide +kernel
  unfold update
  dsimp only
  rw [e]
  dsimp only
  rw [r1, r2]
  dsimp only
  rw [h1, h2]
  decide +kernel

end Corgi.CompCards

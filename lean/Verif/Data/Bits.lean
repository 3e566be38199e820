import Verif.L2a.Dq
import Mathlib.Tactic.IntervalCases

/-!
# Bit packing of DQ maps and the flag tables (data.py 2598-2681): model and C41

Arrays are two-dimensional (rows, columns), as functions of the index; numpy works on a further leading axis pixel by
pixel. A byte is a natural number below 256.
-/

namespace Corgi.Bits

abbrev Arr := ℕ → ℕ → ℕ

/-! ## Model -/

/-- `arr.astype('>u8').view('u1')`: byte `k` of a 64-bit value, most significant first; the last axis gets 8 times as long -/
def bytes (x : Arr) : Arr := fun i j => (x i (j / 8) % 2 ^ 64) / 256 ^ (7 - j % 8) % 256

/-- `np.unpackbits(…, bitorder='big')` of one byte, element `k` -/
def bitOf (b k : ℕ) : ℕ := b / 2 ^ (7 - k) % 2

inductive Axis
  | rows | last

/-- `unpackbits_64uint`, lines 2598-2611 -/
def unpack : Axis → Arr → Arr
  | .last, x => fun i j => bitOf (bytes x i (j / 8)) (j % 8)
  | .rows, x => fun i j => bitOf (bytes x (i / 8) j) (i % 8)

/-- `np.packbits(bitorder='big')`: eight elements to a byte; every non-zero element counts as 1 -/
def byteOf (f : ℕ → ℕ) : ℕ := (List.range 8).foldl (fun acc k => 2 * acc + if f k = 0 then 0 else 1) 0

/-- `.view('>u8')` of a byte array along the last axis -/
def words (b : Arr) : Arr := fun i j => (List.range 8).foldl (fun acc k => 256 * acc + b i (8 * j + k)) 0

/-- `packbits_64uint`, lines 2613-2624 -/
def pack : Axis → Arr → Arr
  | .last, u => words fun i j => byteOf fun k => u i (8 * j + k)
  | .rows, u => words fun i j => byteOf fun k => u (8 * i + k) j

/-- `get_flag_to_bit_map`, lines 2626-2643 -/
def flagToBit : List (String × ℕ) :=
  [("bad_pixel_unspecified", 0), ("data_replaced_by_filled_value", 1), ("bad_pixel", 2), ("hot_pixel", 3), ("not_used", 4),
    ("full_well_saturated_pixel", 5), ("non_linear_pixel", 6), ("pixel_affected_by_cosmic_ray", 7), ("TBD", 8)]

/-- `get_flag_to_value_map`, lines 2645-2655 -/
def flagToValue : List (String × ℕ) := flagToBit.map fun p => (p.1, 1 <<< p.2)
/-- `get_value_to_flag_map`, lines 2657-2669 -/
def valueToFlag : List (ℕ × String) := flagToValue.map fun p => (p.2, p.1)
/-- `get_bit_to_flag_map`, lines 2671-2681 -/
def bitToFlag : List (ℕ × String) := flagToBit.map fun p => (p.2, p.1)

/-! ## Proofs -/

theorem byteOf_eq (f : ℕ → ℕ) (b : ℕ) (hb : b < 256) (h : ∀ k < 8, (if f k = 0 then 0 else 1) = bitOf b k) : byteOf f = b := by
  have h0 := h 0 (by omega); have h1 := h 1 (by omega); have h2 := h 2 (by omega); have h3 := h 3 (by omega)
  have h4 := h 4 (by omega); have h5 := h 5 (by omega); have h6 := h 6 (by omega); have h7 := h 7 (by omega)
  have hr : List.range 8 = [0, 1, 2, 3, 4, 5, 6, 7] := rfl
  unfold byteOf
  rw [hr]
  simp only [List.foldl_cons, List.foldl_nil, h0, h1, h2, h3, h4, h5, h6, h7, bitOf]
  omega

theorem bitOf_lt (b k : ℕ) : bitOf b k < 2 := Nat.mod_lt _ (by omega)

theorem bytes_lt (x : Arr) (i j : ℕ) : bytes x i j < 256 := Nat.mod_lt _ (by omega)

theorem words_bytes (x : Arr) (i j : ℕ) : words (bytes x) i j = x i j % 2 ^ 64 := by
  have hr : List.range 8 = [0, 1, 2, 3, 4, 5, 6, 7] := rfl
  have e : ∀ k < 8, (8 * j + k) / 8 = j ∧ (8 * j + k) % 8 = k := fun k hk => by omega
  unfold words
  rw [hr]
  simp only [List.foldl_cons, List.foldl_nil, bytes, (e 0 (by omega)).1, (e 1 (by omega)).1, (e 2 (by omega)).1,
    (e 3 (by omega)).1, (e 4 (by omega)).1, (e 5 (by omega)).1, (e 6 (by omega)).1, (e 7 (by omega)).1,
    (e 0 (by omega)).2, (e 1 (by omega)).2, (e 2 (by omega)).2, (e 3 (by omega)).2, (e 4 (by omega)).2, (e 5 (by omega)).2,
    (e 6 (by omega)).2, (e 7 (by omega)).2]
  have hx : x i j % 2 ^ 64 < 2 ^ 64 := Nat.mod_lt _ (by positivity)
  generalize x i j % 2 ^ 64 = y at hx ⊢
  norm_num at hx ⊢
  omega

theorem bitOf_ite (b k : ℕ) : (if bitOf b k = 0 then 0 else 1) = bitOf b k := by
  have := bitOf_lt b k
  split <;> omega

/-- **C41** Packing inverts unpacking along either axis, for every 64-bit value. -/
theorem C41_roundtrip (ax : Axis) (x : Arr) (i j : ℕ) (hx : x i j < 2 ^ 64) : pack ax (unpack ax x) i j = x i j := by
  have key : pack ax (unpack ax x) = words (bytes x) := by
    cases ax with
    | last =>
      simp only [pack, unpack]
      congr 1
      funext i j
      refine byteOf_eq _ _ (bytes_lt x i j) fun k hk => ?_
      rw [show (8 * j + k) / 8 = j by omega, show (8 * j + k) % 8 = k by omega, bitOf_ite]
    | rows =>
      simp only [pack, unpack]
      congr 1
      funext i j
      refine byteOf_eq _ _ (bytes_lt x i j) fun k hk => ?_
      rw [show (8 * i + k) / 8 = i by omega, show (8 * i + k) % 8 = k by omega, bitOf_ite]
  rw [key, words_bytes, Nat.mod_eq_of_lt hx]

/-- Bit `b` of a number, by division. -/
theorem testBit_div (n b : ℕ) : (n.testBit b).toNat = n / 2 ^ b % 2 := by
  rw [Nat.testBit_eq_decide_div_mod_eq]
  have := Nat.mod_lt (n / 2 ^ b) (show 0 < 2 by omega)
  by_cases h : n / 2 ^ b % 2 = 1
  · simp [h]
  · have : n / 2 ^ b % 2 = 0 := by omega
    simp [this]

/-- **C41** Bit `b` of the value is element `63 - b`, along the last axis. -/
theorem C41_position (x : Arr) (i j b : ℕ) (hb : b < 64) (hx : x i j < 2 ^ 64) :
    unpack .last x i (64 * j + (63 - b)) = ((x i j).testBit b).toNat := by
  rw [testBit_div]
  simp only [unpack, bytes, bitOf]
  rw [show (64 * j + (63 - b)) / 8 / 8 = j by omega, show (64 * j + (63 - b)) / 8 % 8 = 7 - b / 8 by omega,
    show 7 - (7 - b / 8) = b / 8 by omega, show (64 * j + (63 - b)) % 8 = 7 - b % 8 by omega,
    show 7 - (7 - b % 8) = b % 8 by omega, Nat.mod_eq_of_lt hx]
  have h8 : (256 : ℕ) ^ (b / 8) = 2 ^ (8 * (b / 8)) := by rw [show (256 : ℕ) = 2 ^ 8 from rfl, ← pow_mul]
  have hb' : b = 8 * (b / 8) + b % 8 := by omega
  conv_rhs => rw [hb', pow_add, ← Nat.div_div_eq_div_mul]
  rw [h8]
  generalize x i j / 2 ^ (8 * (b / 8)) = y
  have hm : b % 8 < 8 := Nat.mod_lt _ (by omega)
  generalize b % 8 = m at hm
  have : m = 0 ∨ m = 1 ∨ m = 2 ∨ m = 3 ∨ m = 4 ∨ m = 5 ∨ m = 6 ∨ m = 7 := by omega
  rcases this with h | h | h | h | h | h | h | h <;> subst h <;> norm_num <;> omega

/-- **C41** Two values unpack to the same bits only if they are equal. -/
theorem C41_injective (ax : Axis) (x y : Arr) (hx : ∀ i j, x i j < 2 ^ 64) (hy : ∀ i j, y i j < 2 ^ 64)
    (h : unpack ax x = unpack ax y) : x = y := by
  funext i j
  rw [← C41_roundtrip ax x i j (hx i j), h, C41_roundtrip ax y i j (hy i j)]

/-- Setting an element of the unpacked array to 1, as the pipeline does, sets that bit and keeps the others. -/
theorem C41_set_bit (x : Arr) (i j b : ℕ) (hb : b < 64) (hx : x i j < 2 ^ 64) :
    pack .last (fun i' j' => if i' = i ∧ j' = 64 * j + (63 - b) then 1 else unpack .last x i' j') i j = x i j ||| 2 ^ b := by
  have hy : x i j ||| 2 ^ b < 2 ^ 64 := Nat.or_lt_two_pow hx (Nat.pow_lt_pow_right (by omega) hb)
  set y : Arr := fun i' j' => if i' = i ∧ j' = j then x i j ||| 2 ^ b else x i' j' with hyd
  have hyij : y i j = x i j ||| 2 ^ b := by simp [hyd]
  rw [← hyij, ← C41_roundtrip .last y i j (by rw [hyij]; exact hy)]
  have hloc : ∀ u w : Arr, (∀ t < 64, u i (64 * j + t) = w i (64 * j + t)) → pack .last u i j = pack .last w i j := by
    intro u w huw
    have hr : List.range 8 = [0, 1, 2, 3, 4, 5, 6, 7] := rfl
    have hb8 : ∀ k < 8, (byteOf fun m => u i (8 * (8 * j + k) + m)) = byteOf fun m => w i (8 * (8 * j + k) + m) := by
      intro k hk
      unfold byteOf
      rw [hr]
      have hm : ∀ m < 8, u i (8 * (8 * j + k) + m) = w i (8 * (8 * j + k) + m) := by
        intro m hm
        have := huw (8 * k + m) (by omega)
        rwa [show 64 * j + (8 * k + m) = 8 * (8 * j + k) + m by omega] at this
      simp only [List.foldl_cons, List.foldl_nil, hm 0 (by omega), hm 1 (by omega), hm 2 (by omega), hm 3 (by omega),
        hm 4 (by omega), hm 5 (by omega), hm 6 (by omega), hm 7 (by omega)]
    show words (fun i j => byteOf fun k => u i (8 * j + k)) i j = words (fun i j => byteOf fun k => w i (8 * j + k)) i j
    unfold words
    rw [hr]
    simp only [List.foldl_cons, List.foldl_nil, hb8 0 (by omega), hb8 1 (by omega), hb8 2 (by omega), hb8 3 (by omega),
      hb8 4 (by omega), hb8 5 (by omega), hb8 6 (by omega), hb8 7 (by omega)]
  apply hloc
  intro t ht
  have e1 := C41_position y i j (63 - t) (by omega) (by rw [hyij]; exact hy)
  have e2 := C41_position x i j (63 - t) (by omega) hx
  rw [show 63 - (63 - t) = t by omega] at e1 e2
  rw [e1, e2, hyij, Nat.testBit_or, Nat.testBit_two_pow]
  by_cases h : t = 63 - b
  · subst h
    rw [show 63 - (63 - b) = b by omega]
    simp
  · rw [if_neg (by omega)]
    have : ¬ b = 63 - t := by omega
    simp [this]

/-- **C41** The tables: names, bits and values determine each other; the value of bit `b` is `2^b`. -/
theorem C41_tables :
    (∀ n b, flagToBit.lookup n = some b ↔ bitToFlag.lookup b = some n) ∧
    (∀ n v, flagToValue.lookup n = some v ↔ valueToFlag.lookup v = some n) ∧
    (∀ n v, flagToValue.lookup n = some v ↔ ∃ b, flagToBit.lookup n = some b ∧ v = 2 ^ b) := by
  have lk : ∀ {α β : Type} [BEq α] [LawfulBEq α] (l : List (α × β)), (l.map Prod.fst).Nodup → ∀ a b,
      l.lookup a = some b ↔ (a, b) ∈ l := by
    intro α β _ _ l hl a b
    induction l with
    | nil => simp
    | cons p l ih =>
      obtain ⟨x, y⟩ := p
      rw [List.map_cons, List.nodup_cons] at hl
      rw [List.lookup_cons]
      by_cases h : a = x
      · subst h
        simp only [beq_self_eq_true, Option.some.injEq, List.mem_cons, Prod.mk.injEq, true_and]
        constructor
        · intro h; exact Or.inl h.symm
        · rintro (h | h)
          · exact h.symm
          · exact absurd (List.mem_map.2 ⟨_, h, rfl⟩) hl.1
      · have hb : (a == x) = false := by simpa using h
        rw [hb]
        simp only [List.mem_cons, Prod.mk.injEq, h, false_and, false_or]
        exact ih hl.2
  have n1 : (flagToBit.map Prod.fst).Nodup := by decide +kernel
  have n2 : (bitToFlag.map Prod.fst).Nodup := by decide +kernel
  have n3 : (flagToValue.map Prod.fst).Nodup := by decide +kernel
  have n4 : (valueToFlag.map Prod.fst).Nodup := by decide +kernel
  refine ⟨fun n b => ?_, fun n v => ?_, fun n v => ?_⟩
  · rw [lk _ n1, lk _ n2, bitToFlag, List.mem_map]
    constructor
    · intro h; exact ⟨_, h, rfl⟩
    · rintro ⟨⟨_, _⟩, h, he⟩; cases he; exact h
  · rw [lk _ n3, lk _ n4, valueToFlag, List.mem_map]
    constructor
    · intro h; exact ⟨_, h, rfl⟩
    · rintro ⟨⟨_, _⟩, h, he⟩; cases he; exact h
  · rw [lk _ n3, flagToValue, List.mem_map]
    constructor
    · rintro ⟨⟨m, b⟩, h, he⟩
      cases he
      exact ⟨b, (lk _ n1 _ _).2 h, Nat.one_shiftLeft b⟩
    · rintro ⟨b, h, rfl⟩
      exact ⟨(n, b), (lk _ n1 _ _).1 h, by rw [Nat.one_shiftLeft]⟩

/-- The table agrees with the one of C24, and all flags fit into 16 bits. -/
theorem C41_same_table : (∀ p ∈ flagToBit, Dq.flagBit p.1 = some p.2) ∧ ∀ p ∈ flagToValue, p.2 < 2 ^ 16 := by
  decide +kernel

example : pack .last (unpack .last fun _ _ => 2 ^ 63 + 5) 0 0 = 2 ^ 63 + 5 := C41_roundtrip _ _ _ _ (by norm_num)

end Corgi.Bits

import Mathlib.Algebra.Order.Ring.Rat
import Mathlib.Tactic.Linarith

/-!
# The input checks (check.py 10-383): model and C123

A value is what Python and numpy can tell apart here: whether it is a `numbers.Number`, an integer, a `bool`, a string,
a dictionary, and what `np.asarray` makes of it. A list is written as the array it becomes, or as `ragged` when numpy
refuses to make one (numpy 1.24 and later raise `ValueError`). The contents of arrays and strings play no part.
-/

namespace Corgi.Check

/-- A double. -/
inductive Fl | fin (q : ℚ) | nan | pinf | ninf
  deriving DecidableEq, Repr

/-- `dtype.kind`: bool, signed, unsigned, float, complex, text, bytes, object -/
inductive Kind | b | i | u | f | c | U | S | O
  deriving DecidableEq, Repr

inductive Val
  | bool (v : Bool)
  | npBool (v : Bool)
  | int (n : ℤ)
  | npInt (n : ℤ)
  | float (x : Fl)
  | complex (re im : Fl)
  /-- `Fraction` and finite `Decimal`, both of them `numbers.Number` -/
  | rat (q : ℚ)
  | str
  | bytes
  | dict
  | array (shape : List ℕ) (kind : Kind)
  | ragged
  /-- any other object, such as `None` -/
  | other
  deriving DecidableEq, Repr

/-- What is handed in as `vname` and `vexc`. -/
inductive Name | str | bytes | other
  deriving DecidableEq, Repr

inductive Exc | exception | cls | other
  deriving DecidableEq, Repr

inductive Msg
  | scalar | real | positive | nonneg | integer | length | realArray | realType | ndim (n : ℕ) | numeric | square
  | string | bool | dict
  deriving DecidableEq, Repr

/-- `CheckException`, the exception the caller asked for, Python's `TypeError` and numpy's `ValueError`. -/
inductive Err | check | vexc (m : Msg) | typeError | valueError
  deriving DecidableEq, Repr

/-- `isinstance(var, numbers.Number)`: `bool` is an `int`; numpy registers its integers and floats, not `np.bool_`. -/
def isNumber : Val → Bool
  | .bool _ | .int _ | .npInt _ | .float _ | .complex _ _ | .rat _ => true
  | _ => false

/-- `isinstance(var, int_types)`, line 17 -/
def isInt : Val → Bool
  | .bool _ | .int _ | .npInt _ => true
  | _ => false

/-- `np.asarray(var)`: shape and kind -/
def asarray : Val → Option (List ℕ × Kind)
  | .bool _ | .npBool _ => some ([], .b)
  | .int _ | .npInt _ => some ([], .i)
  | .float _ => some ([], .f)
  | .complex _ _ => some ([], .c)
  | .rat _ | .dict | .other => some ([], .O)
  | .str => some ([], .U)
  | .bytes => some ([], .S)
  | .array s k => some (s, k)
  | .ragged => none

/-- `np.iscomplexobj` looks only for a complex type, and `np.isrealobj` is its negation. -/
def isComplexKind (k : Kind) : Bool := decide (k = .c)

def isRealKind (k : Kind) : Bool := !isComplexKind k

def isRealObj (v : Val) : Bool := ((asarray v).map fun p => isRealKind p.2).getD true

/-- `var <= 0` for the values that are real numbers -/
def leZero : Val → Bool
  | .bool v => !v
  | .int n | .npInt n => decide (n ≤ 0)
  | .float (.fin q) => decide (q ≤ 0)
  | .float .ninf => true
  | .rat q => decide (q ≤ 0)
  | _ => false

/-- `var < 0` -/
def ltZero : Val → Bool
  | .int n | .npInt n => decide (n < 0)
  | .float (.fin q) => decide (q < 0)
  | .float .ninf => true
  | .rat q => decide (q < 0)
  | _ => false

/-- `_checkname` and `_checkexc`, lines 19-47 -/
def checkArgs (n : Name) (e : Exc) : Except Err Unit :=
  match n, e with
  | .other, _ => .error .check
  | _, .exception => .ok ()
  | _, _ => .error .check

/-- `raise vexc(vname + '...')`: bytes and text do not add. -/
def fail (n : Name) (m : Msg) : Err :=
  match n with
  | .bytes => .typeError
  | _ => .vexc m

/-- A list of tests in order, each raising when its condition holds. -/
def guard (n : Name) : List (Bool × Msg) → Except Err Unit
  | [] => .ok ()
  | (c, m) :: l => if c then .error (fail n m) else guard n l

def scalar (tests : Val → List (Bool × Msg)) (v : Val) (n : Name) (e : Exc) : Except Err Val :=
  match checkArgs n e with
  | .error x => .error x
  | .ok _ => match guard n (tests v) with
    | .error x => .error x
    | .ok _ => .ok v

def arrayCheck (tests : List ℕ → Kind → List (Bool × Msg)) (v : Val) (n : Name) (e : Exc) : Except Err Val :=
  match checkArgs n e with
  | .error x => .error x
  | .ok _ => match asarray v with
    | none => .error .valueError
    | some (s, k) => match guard n (tests s k) with
      | .error x => .error x
      | .ok _ => .ok (.array s k)

/-- Lines 50-72 -/
def realPositiveScalar := scalar fun v => [(!isNumber v, .scalar), (!isRealObj v, .real), (leZero v, .positive)]

/-- Lines 202-222 -/
def realScalar := scalar fun v => [(!isNumber v, .scalar), (!isRealObj v, .real)]

/-- Lines 225-247 -/
def realNonnegativeScalar := scalar fun v => [(!isNumber v, .scalar), (!isRealObj v, .real), (ltZero v, .nonneg)]

/-- Lines 250-272 -/
def positiveScalarInteger := scalar fun v => [(!isNumber v, .scalar), (!isInt v, .integer), (leZero v, .positive)]

/-- Lines 275-297 -/
def nonnegativeScalarInteger := scalar fun v => [(!isNumber v, .scalar), (!isInt v, .integer), (ltZero v, .nonneg)]

/-- Lines 300-320 -/
def scalarInteger := scalar fun v => [(!isNumber v, .scalar), (!isInt v, .integer)]

/-- Lines 323-341 -/
def string := scalar fun v => [(!decide (v = .str ∨ v = .bytes), .string)]

/-- Lines 344-362 -/
def boolean := scalar fun v => [(!decide (v = .bool true ∨ v = .bool false), .bool)]

/-- Lines 365-383 -/
def dictionary := scalar fun v => [(!decide (v = .dict), .dict)]

/-- Lines 75-99 -/
def realArray := arrayCheck fun s k =>
  [(decide (s.length = 0), .length), (!isRealKind k, .realArray), (!decide (k ∈ [Kind.b, .i, .u, .f]), .realType)]

/-- Lines 102-123, 126-147 and 177-198 with 1, 2 and 3 for `d` -/
def dArray (d : ℕ) := arrayCheck fun s k =>
  [(decide (s.length ≠ d), .ndim d), (!isRealKind k && !isComplexKind k, .numeric)]

/-- Lines 150-174 -/
def twoDSquareArray := arrayCheck fun s k =>
  [(decide (s.length ≠ 2), .ndim 2), (decide (s[0]? ≠ s[1]?), .square), (!isRealKind k && !isComplexKind k, .numeric)]

/-! ## Specification -/

/-- The real number a value stands for, if it is one: integers and finite floats and fractions, not truth values. -/
def number : Val → Option ℚ
  | .int n | .npInt n => some (n : ℚ)
  | .float (.fin q) => some q
  | .rat q => some q
  | _ => none

/-- The values that are integers. -/
def IsInteger (v : Val) : Prop := ∃ n : ℤ, v = .int n ∨ v = .npInt n

/-- Values that cannot be mistaken for a number: neither a truth value nor a float that is not finite. -/
def Plain : Val → Prop
  | .bool _ | .float .nan | .float .pinf | .float .ninf => False
  | _ => True

/-- Numbers, as array types. -/
def Numeric (k : Kind) : Prop := k = .b ∨ k = .i ∨ k = .u ∨ k = .f ∨ k = .c

/-! ## Tools -/

theorem guard_ok {n : Name} {l : List (Bool × Msg)} : guard n l = .ok () ↔ ∀ p ∈ l, p.1 = false := by
  induction l with
  | nil => simp [guard]
  | cons a l ih =>
    obtain ⟨c, m⟩ := a
    cases c <;> simp [guard, ih]

theorem checkArgs_ok {n : Name} {e : Exc} : checkArgs n e = .ok () ↔ n ≠ .other ∧ e = .exception := by
  cases n <;> cases e <;> simp [checkArgs]

theorem scalar_ok {t : Val → List (Bool × Msg)} {v w : Val} {n : Name} {e : Exc} :
    scalar t v n e = .ok w ↔ n ≠ .other ∧ e = .exception ∧ (∀ p ∈ t v, p.1 = false) ∧ w = v := by
  unfold scalar
  cases hc : checkArgs n e with
  | error x =>
    constructor
    · intro h; cases h
    · rintro ⟨h1, h2, -⟩
      have := checkArgs_ok.2 ⟨h1, h2⟩
      rw [hc] at this; cases this
  | ok u =>
    have hne := checkArgs_ok.1 hc
    cases hg : guard n (t v) with
    | error x =>
      constructor
      · intro h; cases h
      · rintro ⟨-, -, h, -⟩
        have := (guard_ok (n := n)).2 h
        rw [hg] at this; cases this
    | ok u =>
      have := guard_ok.1 hg
      constructor
      · intro h
        exact ⟨hne.1, hne.2, this, (Except.ok.inj h).symm⟩
      · rintro ⟨-, -, -, rfl⟩
        rfl

theorem array_ok {t : List ℕ → Kind → List (Bool × Msg)} {v w : Val} {n : Name} {e : Exc} :
    arrayCheck t v n e = .ok w ↔ n ≠ .other ∧ e = .exception ∧
      ∃ s k, asarray v = some (s, k) ∧ (∀ p ∈ t s k, p.1 = false) ∧ w = .array s k := by
  unfold arrayCheck
  cases hc : checkArgs n e with
  | error x =>
    constructor
    · intro h; cases h
    · rintro ⟨h1, h2, -⟩
      have := checkArgs_ok.2 ⟨h1, h2⟩
      rw [hc] at this; cases this
  | ok u =>
    have hne := checkArgs_ok.1 hc
    cases ha : asarray v with
    | none => simp
    | some p =>
      obtain ⟨s, k⟩ := p
      dsimp only
      cases hg : guard n (t s k) with
      | error x =>
        constructor
        · intro h; cases h
        · rintro ⟨-, -, s', k', h1, h, -⟩
          cases h1
          have := (guard_ok (n := n)).2 h
          rw [hg] at this; cases this
      | ok u =>
        have := guard_ok.1 hg
        constructor
        · intro h
          exact ⟨hne.1, hne.2, s, k, rfl, this, (Except.ok.inj h).symm⟩
        · rintro ⟨-, -, s', k', h1, -, rfl⟩
          cases h1
          rfl

/-! ## C123 -/

/-- The checks of scalars, with what each of them is meant to accept. -/
inductive Scalar : (Val → Name → Exc → Except Err Val) → (Val → Prop) → Prop
  | realPositive : Scalar realPositiveScalar fun v => ∃ q, number v = some q ∧ 0 < q
  | real : Scalar realScalar fun v => ∃ q, number v = some q
  | realNonneg : Scalar realNonnegativeScalar fun v => ∃ q, number v = some q ∧ 0 ≤ q
  | posInt : Scalar positiveScalarInteger fun v => IsInteger v ∧ ∃ q, number v = some q ∧ 0 < q
  | nonnegInt : Scalar nonnegativeScalarInteger fun v => IsInteger v ∧ ∃ q, number v = some q ∧ 0 ≤ q
  | int : Scalar scalarInteger IsInteger

/-- On everything but truth values and floats that are not finite, a check of a scalar accepts exactly what its name
says, and hands it back unchanged. -/
theorem C123_scalar_partial {f : Val → Name → Exc → Except Err Val} {P : Val → Prop} (hf : Scalar f P) {v w : Val}
    (hv : Plain v) : f v .str .exception = .ok w ↔ P v ∧ w = v := by
  cases hf
  all_goals
    first
      | unfold realPositiveScalar
      | unfold realScalar
      | unfold realNonnegativeScalar
      | unfold positiveScalarInteger
      | unfold nonnegativeScalarInteger
      | unfold scalarInteger
    rw [scalar_ok]
    rcases v with b | b | n | n | x | ⟨re, im⟩ | q | _ | _ | _ | ⟨s, k⟩ | _ | _ <;>
      first
        | (rcases x with q | _ | _ | _ <;>
            simp_all [Plain, isNumber, isRealObj, asarray, isRealKind, isComplexKind, leZero, ltZero, isInt, number,
              IsInteger])
        | simp_all [Plain, isNumber, isRealObj, asarray, isRealKind, isComplexKind, leZero, ltZero, isInt, number,
            IsInteger]

/-- NaN is a positive real, and so is infinity, and `True` is a positive integer. -/
theorem C123_violated_nan : realPositiveScalar (.float .nan) .str .exception = .ok (.float .nan) ∧
    realNonnegativeScalar (.float .nan) .str .exception = .ok (.float .nan) ∧
    realScalar (.float .nan) .str .exception = .ok (.float .nan) ∧
    realPositiveScalar (.float .pinf) .str .exception = .ok (.float .pinf) ∧
    positiveScalarInteger (.bool true) .str .exception = .ok (.bool true) := by decide

/-- Exactly what `real_positive_scalar` accepts. -/
theorem C123_positive {v w : Val} : realPositiveScalar v .str .exception = .ok w ↔
    w = v ∧ ((∃ q, number v = some q ∧ 0 < q) ∨ v = .bool true ∨ v = .float .nan ∨ v = .float .pinf) := by
  unfold realPositiveScalar
  rw [scalar_ok]
  rcases v with b | b | n | n | x | ⟨re, im⟩ | q | _ | _ | _ | ⟨s, k⟩ | _ | _
  all_goals
    first
      | (rcases x with q | _ | _ | _ <;>
          simp [isNumber, isRealObj, asarray, isRealKind, isComplexKind, leZero, number] <;> tauto)
      | (cases b <;> simp [isNumber, isRealObj, asarray, isRealKind, isComplexKind, leZero, number])
      | (simp [isNumber, isRealObj, asarray, isRealKind, isComplexKind, leZero, number] <;> tauto)

/-- What becomes of the values left out of `C123_scalar_partial`: the integer checks take truth values as zero and one,
the real ones too, and every float that is not finite is real unless it is minus infinity and a sign is asked for. -/
theorem C123_left_out (b : Bool) (x : Fl) (hx : ∀ q, x ≠ .fin q) :
    realScalar (.bool b) .str .exception = .ok (.bool b) ∧
    realNonnegativeScalar (.bool b) .str .exception = .ok (.bool b) ∧
    scalarInteger (.bool b) .str .exception = .ok (.bool b) ∧
    nonnegativeScalarInteger (.bool b) .str .exception = .ok (.bool b) ∧
    (positiveScalarInteger (.bool b) .str .exception = .ok (.bool b) ↔ b = true) ∧
    realScalar (.float x) .str .exception = .ok (.float x) ∧
    (realNonnegativeScalar (.float x) .str .exception = .ok (.float x) ↔ x ≠ .ninf) ∧
    scalarInteger (.float x) .str .exception = .error (.vexc .integer) ∧
    nonnegativeScalarInteger (.float x) .str .exception = .error (.vexc .integer) ∧
    positiveScalarInteger (.float x) .str .exception = .error (.vexc .integer) := by
  rcases x with q | _ | _ | _
  · exact absurd rfl (hx q)
  all_goals (cases b <;> decide)

/-- A complex number is never accepted as real, not even one with no imaginary part. -/
theorem C123_complex {f : Val → Name → Exc → Except Err Val} {P : Val → Prop} (hf : Scalar f P) {re im : Fl}
    {w : Val} {n : Name} {e : Exc} : f (.complex re im) n e ≠ .ok w := by
  cases hf
  all_goals
    first
      | unfold realPositiveScalar
      | unfold realScalar
      | unfold realNonnegativeScalar
      | unfold positiveScalarInteger
      | unfold nonnegativeScalarInteger
      | unfold scalarInteger
    intro h
    have := (scalar_ok.1 h).2.2.1
    simp [isNumber, isRealObj, asarray, isRealKind, isComplexKind, isInt] at this

/-- `real_array` accepts exactly what becomes an array with an axis and a real type; truth values count, and an axis may
be empty in spite of the message. -/
theorem C123_real_array {v w : Val} : realArray v .str .exception = .ok w ↔
    ∃ s k, asarray v = some (s, k) ∧ s ≠ [] ∧ Numeric k ∧ k ≠ .c ∧ w = .array s k := by
  unfold realArray
  rw [array_ok]
  simp only [ne_eq, reduceCtorEq, not_false_eq_true, true_and]
  constructor
  · rintro ⟨s, k, h1, h2, h3⟩
    refine ⟨s, k, h1, ?_, ?_, ?_, h3⟩
    · rintro rfl; simp at h2
    · cases k <;> simp [isRealKind, isComplexKind, Numeric] at h2 ⊢
    · rintro rfl; simp [isRealKind, isComplexKind] at h2
  · rintro ⟨s, k, h1, h2, h3, h4, h5⟩
    refine ⟨s, k, h1, ?_, h5⟩
    cases k <;> simp_all [isRealKind, isComplexKind, Numeric]

theorem C123_empty : realArray (.array [0] .f) .str .exception = .ok (.array [0] .f) := by decide

/-- The last test of the array checks never fails: nothing is both not real and not complex. -/
theorem C123_never_numeric (k : Kind) : (!isRealKind k && !isComplexKind k) = false := by
  cases k <;> rfl

/-- So the checks for one, two and three axes look at the number of axes alone. -/
theorem C123_axes {d : ℕ} {v w : Val} : dArray d v .str .exception = .ok w ↔
    ∃ s k, asarray v = some (s, k) ∧ s.length = d ∧ w = .array s k := by
  unfold dArray
  rw [array_ok]
  simp [C123_never_numeric]

theorem C123_square {v w : Val} : twoDSquareArray v .str .exception = .ok w ↔
    ∃ n k, asarray v = some ([n, n], k) ∧ w = .array [n, n] k := by
  unfold twoDSquareArray
  rw [array_ok]
  simp only [ne_eq, reduceCtorEq, not_false_eq_true, true_and]
  constructor
  · rintro ⟨s, k, h1, h2, rfl⟩
    match s, h1, h2 with
    | [], h1, h2 => simp at h2
    | [a], h1, h2 => simp at h2
    | [a, b], h1, h2 =>
      simp at h2
      obtain rfl := h2.1
      exact ⟨a, k, h1, rfl⟩
    | a :: b :: c :: s, h1, h2 => simp at h2
  · rintro ⟨n, k, h1, rfl⟩
    exact ⟨_, k, h1, by simp [C123_never_numeric], rfl⟩

/-- An array of text is a "real or complex" array. -/
theorem C123_violated_text (d : ℕ) : ∃ v s, asarray v = some (s, .U) ∧ ¬ Numeric .U ∧
    dArray d v .str .exception = .ok v :=
  ⟨.array (List.replicate d 1) .U, _, rfl, by simp [Numeric], C123_axes.2 ⟨_, _, rfl, by simp, rfl⟩⟩

/-- With numeric arrays only the checks do what they say. -/
theorem C123_axes_partial {d : ℕ} {s : List ℕ} {k : Kind} (hk : Numeric k) :
    dArray d (.array s k) .str .exception = .ok (.array s k) ↔ s.length = d ∧ Numeric k := by
  rw [C123_axes]
  constructor
  · rintro ⟨s', k', h1, h2, -⟩
    cases h1
    exact ⟨h2, hk⟩
  · rintro ⟨h, -⟩
    exact ⟨s, k, rfl, h, rfl⟩

theorem C123_string {v w : Val} : string v .str .exception = .ok w ↔ w = v ∧ (v = .str ∨ v = .bytes) := by
  unfold string
  rw [scalar_ok]
  simp only [ne_eq, reduceCtorEq, not_false_eq_true, true_and, List.mem_singleton, forall_eq, Bool.not_eq_false',
    decide_eq_true_eq]
  tauto

/-- `np.bool_`, what a comparison of numpy values gives, is not a `bool`. -/
theorem C123_boolean {v w : Val} : boolean v .str .exception = .ok w ↔ w = v ∧ ∃ b, v = .bool b := by
  unfold boolean
  rw [scalar_ok]
  simp only [ne_eq, reduceCtorEq, not_false_eq_true, true_and, List.mem_singleton, forall_eq, Bool.not_eq_false',
    decide_eq_true_eq]
  constructor
  · rintro ⟨h | h, rfl⟩
    · exact ⟨rfl, _, h⟩
    · exact ⟨rfl, _, h⟩
  · rintro ⟨rfl, b, rfl⟩
    cases b <;> simp

theorem C123_dictionary {v w : Val} : dictionary v .str .exception = .ok w ↔ w = v ∧ v = .dict := by
  unfold dictionary
  rw [scalar_ok]
  simp only [ne_eq, reduceCtorEq, not_false_eq_true, true_and, List.mem_singleton, forall_eq, Bool.not_eq_false',
    decide_eq_true_eq]
  tauto

/-- All the checks. -/
inductive Any : (Val → Name → Exc → Except Err Val) → Prop
  | scalar (t) : Any (scalar t)
  | array (t) : Any (arrayCheck t)

theorem C123_all : (Any realPositiveScalar ∧ Any realScalar ∧ Any realNonnegativeScalar ∧ Any positiveScalarInteger) ∧
    (Any nonnegativeScalarInteger ∧ Any scalarInteger ∧ Any string ∧ Any boolean ∧ Any dictionary) ∧
    Any realArray ∧ (∀ d, Any (dArray d)) ∧ Any twoDSquareArray :=
  ⟨⟨.scalar _, .scalar _, .scalar _, .scalar _⟩, ⟨.scalar _, .scalar _, .scalar _, .scalar _, .scalar _⟩,
    .array _, fun _ => .array _, .array _⟩

/-- A check called with a text name and an exception class either accepts, or raises that exception, or lets numpy's
`ValueError` for a ragged list through. -/
theorem C123_raises_partial {f : Val → Name → Exc → Except Err Val} (hf : Any f) (v : Val) :
    (∃ w, f v .str .exception = .ok w) ∨ (∃ m, f v .str .exception = .error (.vexc m)) ∨
      (v = .ragged ∧ f v .str .exception = .error .valueError) := by
  have hg : ∀ l, guard .str l = .ok () ∨ ∃ m, guard .str l = .error (.vexc m) := by
    intro l
    induction l with
    | nil => exact .inl rfl
    | cons a l ih =>
      obtain ⟨c, m⟩ := a
      cases c
      · simpa [guard] using ih
      · exact .inr ⟨m, rfl⟩
  cases hf with
  | scalar t =>
    unfold scalar
    rcases hg (t v) with h | ⟨m, h⟩
    · exact .inl ⟨v, by rw [h]; rfl⟩
    · exact .inr (.inl ⟨m, by rw [h]; rfl⟩)
  | array t =>
    unfold arrayCheck
    cases ha : asarray v with
    | none =>
      refine .inr (.inr ⟨?_, rfl⟩)
      cases v <;> simp [asarray] at ha ⊢
    | some p =>
      obtain ⟨s, k⟩ := p
      dsimp only
      rcases hg (t s k) with h | ⟨m, h⟩
      · exact .inl ⟨.array s k, by rw [h]; rfl⟩
      · exact .inr (.inl ⟨m, by rw [h]; rfl⟩)

/-- A ragged list raises numpy's exception, not the caller's, and a bytes name, though it is let through by
`_checkname`, turns every rejection into a `TypeError`. -/
theorem C123_violated_raises {t : List ℕ → Kind → List (Bool × Msg)} {u : Val → List (Bool × Msg)} :
    arrayCheck t .ragged .str .exception = .error .valueError ∧
    (∀ v x, scalar u v .bytes .exception = .error x → x = .typeError) := by
  refine ⟨rfl, fun v x h => ?_⟩
  have hg : ∀ l x, guard .bytes l = .error x → x = .typeError := by
    intro l x
    induction l with
    | nil => intro h; cases h
    | cons a l ih =>
      obtain ⟨c, m⟩ := a
      cases c
      · simpa [guard] using ih
      · intro h; exact (Except.error.inj h).symm
  unfold scalar at h
  cases hq : guard .bytes (u v) with
  | error y =>
    rw [hq] at h
    have h' : Except.error (α := Val) y = .error x := h
    cases h'
    exact hg _ _ hq
  | ok _ =>
    rw [hq] at h
    have h' : Except.ok (ε := Err) v = .error x := h
    cases h'

/-- A name that is not a string, or an exception that is not one, is always refused. -/
theorem C123_arguments {f : Val → Name → Exc → Except Err Val} (hf : Any f) {v : Val} {n : Name} {e : Exc}
    (h : n = .other ∨ e ≠ .exception) : f v n e = .error .check := by
  have : checkArgs n e = .error .check := by
    rcases h with rfl | h
    · cases e <;> rfl
    · cases n <;> cases e <;> simp_all [checkArgs]
  cases hf with
  | scalar t => unfold scalar; rw [this]
  | array t => unfold arrayCheck; rw [this]

/-- The message of a rejection is that of the first test that fails. -/
theorem C123_first {l : List (Bool × Msg)} {m : Msg} : guard .str l = .error (.vexc m) ↔
    ∃ pre post, l = pre ++ (true, m) :: post ∧ ∀ p ∈ pre, p.1 = false := by
  induction l with
  | nil => simp [guard]
  | cons a l ih =>
    obtain ⟨c, m'⟩ := a
    cases c
    · simp only [guard, Bool.false_eq_true, if_false, ih]
      constructor
      · rintro ⟨pre, post, rfl, h⟩
        exact ⟨(false, m') :: pre, post, rfl, by simpa using h⟩
      · rintro ⟨pre, post, h1, h2⟩
        cases pre with
        | nil => simp at h1
        | cons p pre =>
          simp at h1
          exact ⟨pre, post, h1.2, fun p hp => h2 p (List.mem_cons_of_mem _ hp)⟩
    · simp only [guard, if_true, fail]
      constructor
      · intro h
        cases h
        exact ⟨[], l, rfl, by simp⟩
      · rintro ⟨pre, post, h1, h2⟩
        cases pre with
        | nil => simp at h1; simp [h1.1]
        | cons p pre =>
          simp at h1
          have := h2 p (by simp)
          rw [← h1.1] at this
          cases this

example : realPositiveScalar (.int 3) .str .exception = .ok (.int 3) ∧
    realPositiveScalar (.int 0) .str .exception = .error (.vexc .positive) ∧
    realPositiveScalar .str .str .exception = .error (.vexc .scalar) ∧
    realPositiveScalar (.complex (.fin 1) (.fin 0)) .str .exception = .error (.vexc .real) ∧
    realNonnegativeScalar (.int 0) .str .exception = .ok (.int 0) ∧
    scalarInteger (.float (.fin 3)) .str .exception = .error (.vexc .integer) ∧
    boolean (.npBool true) .str .exception = .error (.vexc .bool) ∧
    realArray (.array [2, 3] .c) .str .exception = .error (.vexc .realArray) ∧
    realArray (.array [2, 3] .U) .str .exception = .error (.vexc .realType) ∧
    realArray (.float (.fin 1)) .str .exception = .error (.vexc .length) ∧
    twoDSquareArray (.array [2, 3] .f) .str .exception = .error (.vexc .square) ∧
    dArray 1 (.array [2, 3] .f) .str .exception = .error (.vexc (.ndim 1)) := by decide

example : Plain (.float (.fin 2)) ∧ ¬ Plain (.float .nan) := ⟨trivial, fun h => h⟩

end Corgi.Check

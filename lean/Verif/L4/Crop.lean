import Verif.Common.Except
import Verif.Common.Round
import Verif.Common.Forall2
import Mathlib.Tactic.Push
import Mathlib.Tactic.NormNum

/-!
# `crop` (l3_to_l4.py 271-400): model and C38

Arrays are modelled on their last two axes; the leading axes are inside the pixel type. Header values are rationals.
`ext` stands for all extension keywords that `crop` does not mention. History and warnings are left out. The function
works on a deep copy (line 297), so it returns new values and the input is not changed.
-/

namespace Corgi.Crop

structure Arr (α : Type) where
  rows : ℕ
  cols : ℕ
  px : ℕ → ℕ → α

structure Hdr (ε : Type) where
  lsam : Option String
  starX : Option ℚ
  starY : Option ℚ
  detX : Option ℤ
  detY : Option ℤ
  /-- CRPIX1/2 of the *primary* header -/
  cr1 : Option ℚ
  cr2 : Option ℚ
  naxis1 : ℤ
  naxis2 : ℤ
  ext : ε

structure Frame (α β γ ε : Type) where
  name : String
  ndim : ℕ
  hdr : Hdr ε
  data : Arr α
  err : Arr β
  dq : Arr γ

inductive Size
  | default | int (n : ℤ) | pair (w h : ℤ)
  deriving DecidableEq

/-- `float` and `int` are scalars -/
inductive Center
  | default | float (q : ℚ) | int (n : ℤ) | pair (x y : ℚ)
  deriving DecidableEq

inductive Err
  | user | value | key | type | empty
  deriving DecidableEq, Repr

variable {α β γ ε : Type}

/-- lines 299-300 -/
def evenOk : Size → Bool
  | .default => true
  | .int n => n % 2 == 0
  | .pair w h => w % 2 == 0 && h % 2 == 0

/-- lines 312-322 -/
def resolveSize (h : Hdr ε) : Size → Except Err (ℤ × ℤ)
  | .default => match h.lsam with
    | none => .error .key
    | some s => if s = "NFOV" then .ok (60, 60) else .error .user
  | .int n => .ok (n, n)
  | .pair w hh => .ok (w, hh)

/-- lines 323-331 (an integer is broadcast) -/
def resolveCenter (h : Hdr ε) : Center → Except Err (ℚ × ℚ)
  | .default => match h.starX, h.starY with
    | some x, some y => .ok (x, y)
    | _, _ => .error .value
  | .float q => .ok (q, q)
  | .int n => .ok (n, n)
  | .pair x y => .ok (x, y)

def isHalf (q : ℚ) : Bool := decide (Int.fract (q - 1 / 2) = 0)

/-- lines 332-337 -/
def roundCenter (c : ℚ × ℚ) : ℚ × ℚ :=
  if isHalf c.1 && isHalf c.2 then c
  else ((npRound (c.1 - 1 / 2) : ℚ) + 1 / 2, (npRound (c.2 - 1 / 2) : ℚ) + 1 / 2)

/-- `.astype(int)` -/
def trunc (q : ℚ) : ℤ := if 0 ≤ q then ⌊q⌋ else ⌈q⌉

/-- line 338 -/
def startInd (c : ℚ) (w : ℤ) : ℤ := trunc (c + 1 / 2 - (w : ℚ) / 2)
/-- line 339 -/
def endInd (c : ℚ) (w : ℤ) : ℤ := trunc (c + 1 / 2 + (w : ℚ) / 2)

/-- stop index of a python slice -/
def stopIdx (n : ℕ) (x : ℤ) : ℕ := if x < 0 then (n + x).toNat else min x.toNat n

/-- `a[..., y1:y2, x1:x2]` for `y1, x1` not negative -/
def sliceArr (a : Arr α) (x1 x2 y1 y2 : ℤ) : Arr α where
  rows := stopIdx a.rows y2 - y1.toNat
  cols := stopIdx a.cols x2 - x1.toNat
  px := fun r c => a.px (y1.toNat + r) (x1.toNat + c)

/-- `if key1 in hdr: hdr[key1] -= x; hdr[key2] -= y` -/
def shiftPair (k1 k2 : Option ℚ) (x y : ℤ) : Except Err (Option ℚ × Option ℚ) :=
  match k1, k2 with
  | some a, some b => .ok (some (a - x), some (b - y))
  | some _, none => .error .key
  | none, k => .ok (none, k)

/-- lines 385-389 -/
def shiftDet (k1 k2 : Option ℤ) (x y : ℤ) : Except Err (Option ℤ × Option ℤ) :=
  match k1, k2 with
  | some a, some b => .ok (some (a + x), some (b + y))
  | some _, none => .error .key
  | none, _ => .ok (some (0 + x), some (0 + y))

/-- lines 338-393: one frame, for a rounded centre -/
def cropFrame (s : ℤ × ℤ) (c : ℚ × ℚ) (f : Frame α β γ ε) : Except Err (Frame α β γ ε) :=
  let x1 := startInd c.1 s.1
  let y1 := startInd c.2 s.2
  let x2 := endInd c.1 s.1
  let y2 := endInd c.2 s.2
  if x1 < 0 ∨ (f.data.cols : ℤ) < x2 ∨ y1 < 0 ∨ (f.data.rows : ℤ) < y2 then .error .value
  else if f.ndim ≠ 2 ∧ f.ndim ≠ 3 then .error .value
  else match shiftPair f.hdr.starX f.hdr.starY x1 y1 with
    | .error e => .error e
    | .ok st => match shiftPair f.hdr.cr1 f.hdr.cr2 x1 y1 with
      | .error e => .error e
      | .ok cr => match shiftDet f.hdr.detX f.hdr.detY x1 y1 with
        | .error e => .error e
        | .ok dt =>
          .ok { name := f.name, ndim := f.ndim,
                hdr := { f.hdr with starX := st.1, starY := st.2, cr1 := cr.1, cr2 := cr.2, detX := dt.1, detY := dt.2,
                                    naxis1 := s.1, naxis2 := s.2 },
                data := sliceArr f.data x1 x2 y1 y2, err := sliceArr f.err x1 x2 y1 y2,
                dq := sliceArr f.dq x1 x2 y1 y2 }

/-- What the variable `centerxy` holds after an iteration: rounding a scalar integer gives a scalar `np.float64`. -/
def nextCenter (c : Center) (q : ℚ × ℚ) : Center :=
  match c with
  | .int _ => .float q.1
  | _ => .pair q.1 q.2

/-- lines 305-395: the loop; `sizexy` and `centerxy` persist from one frame to the next. -/
def cropLoop : List (Frame α β γ ε) → Size → Center → Except Err (List (Frame α β γ ε) × Center)
  | [], _, c => .ok ([], c)
  | f :: fs, s, c =>
    match resolveSize f.hdr s with
    | .error e => .error e
    | .ok sz => match resolveCenter f.hdr c with
      | .error e => .error e
      | .ok q => match cropFrame sz (roundCenter q) f with
        | .error e => .error e
        | .ok g => match cropLoop fs (.pair sz.1 sz.2) (nextCenter c (roundCenter q)) with
          | .error e => .error e
          | .ok r => .ok (g :: r.1, r.2)

/-- `crop`, lines 271-400. `list(centerxy)` of line 397 raises TypeError for a scalar. -/
def crop (ds : List (Frame α β γ ε)) (s : Size) (c : Center) : Except Err (List (Frame α β γ ε)) :=
  if evenOk s = false then .error .user
  else match cropLoop ds s c with
    | .error e => .error e
    | .ok ([], _) => .error .empty
    | .ok (_ :: _, .float _) => .error .type
    | .ok (g :: gs, _) => .ok (g :: gs)

/-! ## Specification -/

/-- `a` is the window of `b` whose first pixel is column `x`, row `y`. -/
def Window (x y w h : ℕ) (b a : Arr α) : Prop :=
  a.rows = h ∧ a.cols = w ∧ ∀ r c, a.px r c = b.px (y + r) (x + c)

/-- `g` shows the window of `f` that starts at `(x, y)`, and its coordinates denote the same places. -/
structure Cropped (x y w h : ℕ) (f g : Frame α β γ ε) : Prop where
  inside : x + w ≤ f.data.cols ∧ y + h ≤ f.data.rows
  data : Window x y w h f.data g.data
  err : ∀ r c, g.err.px r c = f.err.px (y + r) (x + c)
  dq : ∀ r c, g.dq.px r c = f.dq.px (y + r) (x + c)
  errSize : f.err.rows = f.data.rows ∧ f.err.cols = f.data.cols → g.err.rows = h ∧ g.err.cols = w
  dqSize : f.dq.rows = f.data.rows ∧ f.dq.cols = f.data.cols → g.dq.rows = h ∧ g.dq.cols = w
  star : g.hdr.starX = f.hdr.starX.map (· - (x : ℚ)) ∧ (f.hdr.starX.isSome → g.hdr.starY = f.hdr.starY.map (· - (y : ℚ)))
  crpix : g.hdr.cr1 = f.hdr.cr1.map (· - (x : ℚ)) ∧ (f.hdr.cr1.isSome → g.hdr.cr2 = f.hdr.cr2.map (· - (y : ℚ)))
  det : g.hdr.detX = some (f.hdr.detX.getD 0 + x) ∧ (f.hdr.detX.isSome → g.hdr.detY = some (f.hdr.detY.getD 0 + y)) ∧
    (f.hdr.detX = none → g.hdr.detY = some (y : ℤ))
  rest : g.name = f.name ∧ g.ndim = f.ndim ∧ g.hdr.ext = f.hdr.ext ∧ g.hdr.lsam = f.hdr.lsam
  naxis : g.hdr.naxis1 = w ∧ g.hdr.naxis2 = h

/-! ## Proofs -/

theorem isHalf_iff (q : ℚ) : isHalf q = true ↔ ∃ z : ℤ, q = z + 1 / 2 := by
  unfold isHalf
  rw [decide_eq_true_eq, Int.fract_eq_zero_iff]
  constructor
  · rintro ⟨z, hz⟩; exact ⟨z, by linarith⟩
  · rintro ⟨z, hz⟩; exact ⟨z, by linarith⟩

/-- The rounded centre is a pixel intersection, the nearest one to the requested centre. -/
theorem roundCenter_spec (c : ℚ × ℚ) : ∃ a b : ℤ, roundCenter c = ((a : ℚ) + 1 / 2, (b : ℚ) + 1 / 2) ∧
    a = npRound (c.1 - 1 / 2) ∧ b = npRound (c.2 - 1 / 2) := by
  unfold roundCenter
  split_ifs with h
  · rw [Bool.and_eq_true, isHalf_iff, isHalf_iff] at h
    obtain ⟨⟨a, ha⟩, b, hb⟩ := h
    refine ⟨a, b, Prod.ext ha hb, ?_, ?_⟩
    · rw [ha, add_sub_cancel_right, npRound_int]
    · rw [hb, add_sub_cancel_right, npRound_int]
  · exact ⟨_, _, rfl, rfl, rfl⟩

/-- C38: the start and the end of the window are rounded towards zero. -/
theorem C38_trunc (q : ℚ) : |(trunc q : ℚ)| ≤ |q| ∧ |q - trunc q| < 1 := by
  unfold trunc
  split_ifs with h
  · have h1 := Int.floor_le q
    have h2 := Int.lt_floor_add_one q
    have h3 : (0 : ℚ) ≤ ⌊q⌋ := by exact_mod_cast Int.floor_nonneg.2 h
    rw [abs_of_nonneg h3, abs_of_nonneg h, abs_of_nonneg (by linarith)]
    exact ⟨h1, by linarith⟩
  · have h1 := Int.le_ceil q
    have h2 := Int.ceil_lt_add_one q
    have h0 : q ≤ 0 := le_of_lt (not_le.1 h)
    have h3 : (⌈q⌉ : ℚ) ≤ 0 := by exact_mod_cast Int.ceil_le.2 (by simpa using h0)
    rw [abs_of_nonpos h3, abs_of_nonpos h0, abs_of_nonpos (by linarith)]
    exact ⟨by linarith, by linarith⟩

theorem trunc_int (z : ℤ) : trunc z = z := by unfold trunc; simp

theorem startInd_eq (a k : ℤ) : startInd ((a : ℚ) + 1 / 2) (2 * k) = a + 1 - k := by
  unfold startInd
  rw [← trunc_int (a + 1 - k)]
  congr 1
  push_cast; ring

theorem endInd_eq (a k : ℤ) : endInd ((a : ℚ) + 1 / 2) (2 * k) = a + 1 + k := by
  unfold endInd
  rw [← trunc_int (a + 1 + k)]
  congr 1
  push_cast; ring

theorem shiftPair_ok {k1 k2 : Option ℚ} {x y : ℤ} {r : Option ℚ × Option ℚ} (h : shiftPair k1 k2 x y = .ok r) :
    r.1 = k1.map (· - (x : ℚ)) ∧ (k1.isSome → r.2 = k2.map (· - (y : ℚ))) := by
  cases k1 <;> cases k2 <;> simp only [shiftPair, Except.ok.injEq, reduceCtorEq] at h <;> subst h <;> simp

theorem shiftDet_ok {k1 k2 : Option ℤ} {x y : ℤ} {r : Option ℤ × Option ℤ} (h : shiftDet k1 k2 x y = .ok r) :
    r.1 = some (k1.getD 0 + x) ∧ (k1.isSome → r.2 = some (k2.getD 0 + y)) ∧ (k1 = none → r.2 = some y) := by
  cases k1 <;> cases k2 <;> simp only [shiftDet, Except.ok.injEq, reduceCtorEq] at h <;> subst h <;> simp

/-- One frame: success gives the window around the centre. -/
theorem cropFrame_ok {a b : ℤ} {k l : ℕ} {f g : Frame α β γ ε}
    (h : cropFrame (2 * (k : ℤ), 2 * (l : ℤ)) ((a : ℚ) + 1 / 2, (b : ℚ) + 1 / 2) f = .ok g) :
    ∃ x y : ℕ, (x : ℤ) = a + 1 - k ∧ (y : ℤ) = b + 1 - l ∧ Cropped x y (2 * k) (2 * l) f g := by
  unfold cropFrame at h
  simp only [startInd_eq, endInd_eq] at h
  rcases ite_eq_iff.1 h with ⟨_, h⟩ | ⟨h1, h⟩
  · cases h
  rcases ite_eq_iff.1 h with ⟨_, h⟩ | ⟨h2, h⟩
  · cases h
  push Not at h1
  obtain ⟨h1, h3, h4, h5⟩ := h1
  obtain ⟨x, hx⟩ := Int.eq_ofNat_of_zero_le h1
  obtain ⟨y, hy⟩ := Int.eq_ofNat_of_zero_le h4
  cases hs : shiftPair f.hdr.starX f.hdr.starY (a + 1 - k) (b + 1 - l) with
  | error e => rw [hs] at h; cases h
  | ok st =>
  cases hc : shiftPair f.hdr.cr1 f.hdr.cr2 (a + 1 - k) (b + 1 - l) with
  | error e => rw [hs, hc] at h; cases h
  | ok cr =>
  cases hd : shiftDet f.hdr.detX f.hdr.detY (a + 1 - k) (b + 1 - l) with
  | error e => rw [hs, hc, hd] at h; cases h
  | ok dt =>
  rw [hs, hc, hd] at h
  simp only [Except.ok.injEq] at h
  subst h
  have ex : a + 1 + k = ((x + 2 * k : ℕ) : ℤ) := by push_cast; omega
  have ey : b + 1 + l = ((y + 2 * l : ℕ) : ℤ) := by push_cast; omega
  rw [hx, hy] at hs hc hd
  refine ⟨x, y, hx.symm, hy.symm, ?_⟩
  rw [hx, hy, ex, ey]
  have i1 : x + 2 * k ≤ f.data.cols := by omega
  have i2 : y + 2 * l ≤ f.data.rows := by omega
  have hr : ∀ {δ : Type _} (m : Arr δ), m.rows = f.data.rows →
      (sliceArr m (x : ℤ) ((x + 2 * k : ℕ) : ℤ) (y : ℤ) ((y + 2 * l : ℕ) : ℤ)).rows = 2 * l := by
    intro δ m hm
    simp only [sliceArr, stopIdx]
    rw [if_neg (by omega)]; simp only [Int.toNat_natCast]; omega
  have hcol : ∀ {δ : Type _} (m : Arr δ), m.cols = f.data.cols →
      (sliceArr m (x : ℤ) ((x + 2 * k : ℕ) : ℤ) (y : ℤ) ((y + 2 * l : ℕ) : ℤ)).cols = 2 * k := by
    intro δ m hm
    simp only [sliceArr, stopIdx]
    rw [if_neg (by omega)]; simp only [Int.toNat_natCast]; omega
  refine ⟨⟨i1, i2⟩, ⟨hr _ rfl, hcol _ rfl, fun r c => rfl⟩, fun r c => rfl, fun r c => rfl,
    fun hs => ⟨hr _ hs.1, hcol _ hs.2⟩, fun hs => ⟨hr _ hs.1, hcol _ hs.2⟩, ?_, ?_, ?_, ⟨rfl, rfl, rfl, rfl⟩, ?_, ?_⟩
  · have := shiftPair_ok hs
    simpa using this
  · have := shiftPair_ok hc
    simpa using this
  · exact shiftDet_ok hd
  · simp
  · simp

/-- The size that a call uses: given, or 60 for the first frame's NFOV. -/
def sizeOf (s : Size) : ℤ × ℤ := match s with
  | .default => (60, 60)
  | .int n => (n, n)
  | .pair w h => (w, h)

/-- The centre that a call uses: given, or the first frame's star. -/
def centerOf (f : Frame α β γ ε) (c : Center) : ℚ × ℚ := match c with
  | .default => (f.hdr.starX.getD 0, f.hdr.starY.getD 0)
  | .float q => (q, q)
  | .int n => (n, n)
  | .pair x y => (x, y)

theorem resolveSize_ok {h : Hdr ε} {s : Size} {z : ℤ × ℤ} (hz : resolveSize h s = .ok z) :
    z = sizeOf s ∧ (s = .default → h.lsam = some "NFOV") := by
  cases s with
  | default =>
    simp only [resolveSize] at hz
    split at hz
    · cases hz
    · rename_i n hn
      split_ifs at hz with h'
      cases hz
      exact ⟨rfl, fun _ => by rw [hn, h']⟩
  | int n => cases hz; exact ⟨rfl, fun h => by cases h⟩
  | pair w hh => cases hz; exact ⟨rfl, fun h => by cases h⟩

theorem resolveCenter_ok {f : Frame α β γ ε} {c : Center} {z : ℚ × ℚ} (hz : resolveCenter f.hdr c = .ok z) :
    z = centerOf f c ∧ (c = .default → f.hdr.starX.isSome ∧ f.hdr.starY.isSome) := by
  cases c with
  | default =>
    simp only [resolveCenter] at hz
    split at hz
    · rename_i x y hx hy
      cases hz
      simp [centerOf, hx, hy]
    · cases hz
  | float n => cases hz; exact ⟨rfl, fun h => by cases h⟩
  | int n => cases hz; exact ⟨rfl, fun h => by cases h⟩
  | pair w hh => cases hz; exact ⟨rfl, fun h => by cases h⟩

theorem roundCenter_idem (c : ℚ × ℚ) : roundCenter (roundCenter c) = roundCenter c := by
  obtain ⟨a, b, h, _⟩ := roundCenter_spec c
  rw [h]
  unfold roundCenter
  rw [if_pos]
  rw [Bool.and_eq_true, isHalf_iff, isHalf_iff]
  exact ⟨⟨a, rfl⟩, b, rfl⟩

/-- After the first frame every frame is cropped with the same size and centre. -/
theorem cropLoop_pair (fs : List (Frame α β γ ε)) (w h : ℤ) (q : ℚ × ℚ) (c : Center)
    (hc : c = .pair q.1 q.2 ∨ (c = .float q.1 ∧ q.2 = q.1)) (hq : roundCenter q = q) {r : List (Frame α β γ ε) × Center}
    (hr : cropLoop fs (.pair w h) c = .ok r) :
    List.Forall₂ (fun f g => cropFrame (w, h) q f = .ok g) fs r.1 ∧ ((fs ≠ [] ∨ c = .pair q.1 q.2) → r.2 = .pair q.1 q.2) ∧
      (fs = [] → r.2 = c) := by
  induction fs generalizing c r with
  | nil => cases hr; exact ⟨.nil, fun h => h.resolve_left (fun h => h rfl), fun _ => rfl⟩
  | cons f fs ih =>
    have hcen : resolveCenter f.hdr c = .ok q := by
      rcases hc with rfl | ⟨rfl, h2⟩
      · rfl
      · show Except.ok (q.1, q.1) = _
        rw [← h2]
        exact congrArg Except.ok (Prod.ext h2 rfl)
    have hnext : nextCenter c (roundCenter q) = .pair q.1 q.2 := by
      rw [hq]
      rcases hc with rfl | ⟨rfl, h2⟩ <;> rfl
    simp only [cropLoop, resolveSize, hcen, hnext] at hr
    rw [hq] at hr
    cases hg : cropFrame (w, h) q f with
    | error e => rw [hg] at hr; cases hr
    | ok g =>
      cases hl : cropLoop fs (.pair w h) (.pair q.1 q.2) with
      | error e => rw [hg, hl] at hr; cases hr
      | ok r' =>
        rw [hg, hl] at hr
        cases hr
        obtain ⟨i1, i2, i3⟩ := ih _ (Or.inl rfl) hl
        exact ⟨.cons hg i1, fun _ => i2 (Or.inr rfl), fun h => by cases h⟩

/-- What a successful call did. -/
theorem crop_ok {ds out : List (Frame α β γ ε)} {s : Size} {c : Center} (h : crop ds s c = .ok out) :
    ∃ f fs, ds = f :: fs ∧ evenOk s = true ∧ (s = .default → f.hdr.lsam = some "NFOV") ∧
      (c = .default → f.hdr.starX.isSome ∧ f.hdr.starY.isSome) ∧ ((∃ n, c = .int n) → fs ≠ []) ∧
      List.Forall₂ (fun f' g => cropFrame (sizeOf s) (roundCenter (centerOf f c)) f' = .ok g) ds out := by
  unfold crop at h
  rcases ite_eq_iff.1 h with ⟨_, h⟩ | ⟨he, hm⟩
  · cases h
  rw [Bool.not_eq_false] at he
  cases ds with
  | nil => simp only [cropLoop] at hm; cases hm
  | cons f fs =>
    refine ⟨f, fs, rfl, he, ?_⟩
    cases hl : cropLoop (f :: fs) s c with
    | error e => rw [hl] at hm; cases hm
    | ok r =>
      rw [hl] at hm
      simp only [cropLoop] at hl
      cases hs : resolveSize f.hdr s with
      | error e => rw [hs] at hl; cases hl
      | ok z =>
      cases hq : resolveCenter f.hdr c with
      | error e => rw [hs, hq] at hl; cases hl
      | ok q =>
      obtain ⟨hz1, hz2⟩ := resolveSize_ok hs
      obtain ⟨hq1, hq2⟩ := resolveCenter_ok hq
      rw [hs, hq] at hl
      dsimp only at hl
      cases hg : cropFrame z (roundCenter q) f with
      | error e => rw [hg] at hl; cases hl
      | ok g =>
      rw [hg] at hl
      dsimp only at hl
      cases hr : cropLoop fs (.pair z.1 z.2) (nextCenter c (roundCenter q)) with
      | error e => rw [hr] at hl; cases hl
      | ok r' =>
      rw [hr] at hl
      cases hl
      have hnc : nextCenter c (roundCenter q) = .pair (roundCenter q).1 (roundCenter q).2 ∨
          (nextCenter c (roundCenter q) = .float (roundCenter q).1 ∧ (roundCenter q).2 = (roundCenter q).1) := by
        cases c with
        | int n =>
          refine Or.inr ⟨rfl, ?_⟩
          obtain ⟨a, b, e1, e2, e3⟩ := roundCenter_spec q
          cases hq
          rw [e1, e2, e3]
        | default => exact Or.inl rfl
        | float _ => exact Or.inl rfl
        | pair _ _ => exact Or.inl rfl
      obtain ⟨i1, i2, i3⟩ := cropLoop_pair fs z.1 z.2 (roundCenter q) _ hnc (roundCenter_idem q) hr
      refine ⟨hz2, hq2, ?_, ?_⟩
      · rintro ⟨n, rfl⟩ rfl
        have h3 := i3 rfl
        simp only [nextCenter] at h3
        rw [h3] at hm
        cases hm
      · have hout : out = g :: r'.1 := by
          cases hc : r'.2 with
          | float _ => rw [hc] at hm; cases hm
          | default => rw [hc] at hm; cases hm; rfl
          | int _ => rw [hc] at hm; cases hm; rfl
          | pair _ _ => rw [hc] at hm; cases hm; rfl
        rw [hout, ← hz1, ← hq1]
        exact .cons hg i1

/-- The requested size is positive. -/
def Positive (s : Size) : Prop := 0 < (sizeOf s).1 ∧ 0 < (sizeOf s).2

theorem evenOk_sizeOf {s : Size} (h : evenOk s = true) (hp : Positive s) :
    ∃ k l : ℕ, 0 < k ∧ 0 < l ∧ sizeOf s = (2 * (k : ℤ), 2 * (l : ℤ)) := by
  obtain ⟨h1, h2⟩ := hp
  have he : (sizeOf s).1 % 2 = 0 ∧ (sizeOf s).2 % 2 = 0 := by
    cases s with
    | default => decide
    | int n => simpa [evenOk, sizeOf] using h
    | pair w hh => simpa [evenOk, sizeOf] using h
  refine ⟨((sizeOf s).1 / 2).toNat, ((sizeOf s).2 / 2).toNat, by omega, by omega, Prod.ext ?_ ?_⟩ <;> simp only <;> omega

/-- **C38** A call that returns crops every frame with one and the same window, which lies inside the image, has the
requested size, and is centred on the pixel intersection nearest to the requested centre or the *first* frame's star. -/
theorem C38_crop {ds out : List (Frame α β γ ε)} {s : Size} {c : Center} (h : crop ds s c = .ok out) (hp : Positive s) :
    ∃ f fs, ds = f :: fs ∧ ∃ x y w hh : ℕ, ((w : ℤ), (hh : ℤ)) = sizeOf s ∧ List.Forall₂ (Cropped x y w hh) ds out ∧
      (x : ℚ) + (w : ℚ) / 2 - 1 / 2 = npRound ((centerOf f c).1 - 1 / 2) + 1 / 2 ∧
      (y : ℚ) + (hh : ℚ) / 2 - 1 / 2 = npRound ((centerOf f c).2 - 1 / 2) + 1 / 2 := by
  obtain ⟨f, fs, rfl, he, _, _, _, hall⟩ := crop_ok h
  obtain ⟨k, l, hk, hl, hs⟩ := evenOk_sizeOf he hp
  obtain ⟨a, b, hr, ha, hb⟩ := roundCenter_spec (centerOf f c)
  rw [hs, hr] at hall
  have key : ∀ f' g : Frame α β γ ε, cropFrame (2 * (k : ℤ), 2 * (l : ℤ)) ((a : ℚ) + 1 / 2, (b : ℚ) + 1 / 2) f' = .ok g →
      0 ≤ a + 1 - k ∧ 0 ≤ b + 1 - l ∧ Cropped (a + 1 - k).toNat (b + 1 - l).toNat (2 * k) (2 * l) f' g := by
    intro f' g hg
    obtain ⟨x, y, hx, hy, hc⟩ := cropFrame_ok hg
    rw [← hx, ← hy]
    exact ⟨by omega, by omega, hc⟩
  cases hall with
  | cons h0 hrest =>
  obtain ⟨p1, p2, p3⟩ := key _ _ h0
  refine ⟨f, fs, rfl, (a + 1 - k).toNat, (b + 1 - l).toNat, 2 * k, 2 * l, by rw [hs]; push_cast; rfl, ?_, ?_, ?_⟩
  · exact .cons p3 (hrest.imp fun _ _ hh => (key _ _ hh).2.2)
  · rw [← ha]
    have : (((a + 1 - k).toNat : ℤ) : ℚ) = a + 1 - k := by rw [Int.toNat_of_nonneg p1]; push_cast; ring
    rw [Int.cast_natCast] at this
    rw [this]; push_cast; ring
  · rw [← hb]
    have : (((b + 1 - l).toNat : ℤ) : ℚ) = b + 1 - l := by rw [Int.toNat_of_nonneg p2]; push_cast; ring
    rw [Int.cast_natCast] at this
    rw [this]; push_cast; ring

/-- **C38** The centre of the window is within half a pixel of the requested one in both directions. -/
theorem C38_centre {ds out : List (Frame α β γ ε)} {s : Size} {c : Center} (h : crop ds s c = .ok out) (hp : Positive s) :
    ∃ f fs, ds = f :: fs ∧ ∃ x y w hh : ℕ, List.Forall₂ (Cropped x y w hh) ds out ∧
      |(x : ℚ) + ((w : ℚ) - 1) / 2 - (centerOf f c).1| ≤ 1 / 2 ∧ |(y : ℚ) + ((hh : ℚ) - 1) / 2 - (centerOf f c).2| ≤ 1 / 2 := by
  obtain ⟨f, fs, hd, x, y, w, hh, _, hall, h1, h2⟩ := C38_crop h hp
  refine ⟨f, fs, hd, x, y, w, hh, hall, ?_, ?_⟩
  · have := npRound_near ((centerOf f c).1 - 1 / 2)
    have e : (x : ℚ) + ((w : ℚ) - 1) / 2 - (centerOf f c).1 =
      npRound ((centerOf f c).1 - 1 / 2) - ((centerOf f c).1 - 1 / 2) := by linarith
    rwa [e]
  · have := npRound_near ((centerOf f c).2 - 1 / 2)
    have e : (y : ℚ) + ((hh : ℚ) - 1) / 2 - (centerOf f c).2 =
      npRound ((centerOf f c).2 - 1 / 2) - ((centerOf f c).2 - 1 / 2) := by linarith
    rwa [e]

/-- The frame can be cropped as far as its own dimensions and keywords are concerned. -/
def Wf (f : Frame α β γ ε) : Prop :=
  (f.ndim = 2 ∨ f.ndim = 3) ∧ (f.hdr.starX.isSome → f.hdr.starY.isSome) ∧ (f.hdr.cr1.isSome → f.hdr.cr2.isSome) ∧
    (f.hdr.detX.isSome → f.hdr.detY.isSome)

theorem shiftPair_succeeds {k1 k2 : Option ℚ} (h : k1.isSome → k2.isSome) (x y : ℤ) : ∃ r, shiftPair k1 k2 x y = .ok r := by
  cases k1 <;> cases k2 <;> simp [shiftPair] at *

theorem shiftDet_succeeds {k1 k2 : Option ℤ} (h : k1.isSome → k2.isSome) (x y : ℤ) : ∃ r, shiftDet k1 k2 x y = .ok r := by
  cases k1 <;> cases k2 <;> simp [shiftDet] at *

theorem cropFrame_succeeds {a b : ℤ} {k l : ℤ} {f : Frame α β γ ε} (hw : Wf f) (h1 : 0 ≤ a + 1 - k) (h2 : 0 ≤ b + 1 - l)
    (h3 : a + 1 + k ≤ f.data.cols) (h4 : b + 1 + l ≤ f.data.rows) :
    ∃ g, cropFrame (2 * k, 2 * l) ((a : ℚ) + 1 / 2, (b : ℚ) + 1 / 2) f = .ok g := by
  obtain ⟨hn, w1, w2, w3⟩ := hw
  unfold cropFrame
  simp only [startInd_eq, endInd_eq]
  rw [if_neg (by omega), if_neg (by omega)]
  obtain ⟨st, hs⟩ := shiftPair_succeeds w1 (a + 1 - k) (b + 1 - l)
  obtain ⟨cr, hc⟩ := shiftPair_succeeds w2 (a + 1 - k) (b + 1 - l)
  obtain ⟨dt, hd⟩ := shiftDet_succeeds w3 (a + 1 - k) (b + 1 - l)
  rw [hs, hc, hd]
  exact ⟨_, rfl⟩

/-- **C38** A region that is not inside some image raises ValueError (whatever the other arguments). -/
theorem C38_outside {a b k l : ℤ} {f : Frame α β γ ε}
    (h : a + 1 - k < 0 ∨ b + 1 - l < 0 ∨ (f.data.cols : ℤ) < a + 1 + k ∨ (f.data.rows : ℤ) < b + 1 + l) :
    cropFrame (2 * k, 2 * l) ((a : ℚ) + 1 / 2, (b : ℚ) + 1 / 2) f = .error .value := by
  unfold cropFrame
  simp only [startInd_eq, endInd_eq]
  rw [if_pos (by omega)]

theorem cropLoop_succeeds (fs : List (Frame α β γ ε)) (w h : ℤ) (q : ℚ × ℚ) (hq : roundCenter q = q)
    (hall : ∀ f ∈ fs, ∃ g, cropFrame (w, h) q f = .ok g) : ∃ gs, cropLoop fs (.pair w h) (.pair q.1 q.2) = .ok (gs, .pair q.1 q.2) := by
  induction fs with
  | nil => exact ⟨[], rfl⟩
  | cons f fs ih =>
    obtain ⟨g, hg⟩ := hall f (by simp)
    obtain ⟨gs, hgs⟩ := ih fun f' hf' => hall f' (by simp [hf'])
    refine ⟨g :: gs, ?_⟩
    simp only [cropLoop, resolveSize, resolveCenter, nextCenter]
    rw [show ((q.1, q.2) : ℚ × ℚ) = q from rfl, hq, hg]
    dsimp only
    rw [hgs]

/-- **C38** With a size and a centre given (as pairs), `crop` of well-formed frames succeeds iff there is a frame, the
size is even and the region is inside every frame. -/
theorem C38_succeeds_iff (ds : List (Frame α β γ ε)) (w h : ℤ) (cx cy : ℚ) (hwf : ∀ f ∈ ds, Wf f) :
    (∃ out, crop ds (.pair w h) (.pair cx cy) = .ok out) ↔
      ds ≠ [] ∧ 2 ∣ w ∧ 2 ∣ h ∧ ∀ f ∈ ds,
        0 ≤ npRound (cx - 1 / 2) + 1 - w / 2 ∧ npRound (cx - 1 / 2) + 1 + w / 2 ≤ f.data.cols ∧
        0 ≤ npRound (cy - 1 / 2) + 1 - h / 2 ∧ npRound (cy - 1 / 2) + 1 + h / 2 ≤ f.data.rows := by
  constructor
  · rintro ⟨out, ho⟩
    obtain ⟨f, fs, rfl, he, _, _, _, hall⟩ := crop_ok ho
    obtain ⟨a, b, hr, ha, hb⟩ := roundCenter_spec (centerOf f (.pair cx cy))
    simp only [centerOf] at ha hb
    have he' : w % 2 = 0 ∧ h % 2 = 0 := by simpa [evenOk] using he
    obtain ⟨k, rfl⟩ : (2 : ℤ) ∣ w := by omega
    obtain ⟨l, rfl⟩ : (2 : ℤ) ∣ h := by omega
    refine ⟨by simp, ⟨k, rfl⟩, ⟨l, rfl⟩, fun f' hf' => ?_⟩
    obtain ⟨g, _, hg⟩ := forall₂_left hall hf'
    rw [hr] at hg
    simp only [sizeOf] at hg
    by_contra hcon
    rw [C38_outside (by rw [← ha, ← hb] at hcon; omega)] at hg
    cases hg
  · rintro ⟨hne, ⟨k, rfl⟩, ⟨l, rfl⟩, hall⟩
    obtain ⟨a, b, hr, ha, hb⟩ := roundCenter_spec (cx, cy)
    simp only at ha hb
    rw [← ha, ← hb] at hall
    have hframe : ∀ f ∈ ds, ∃ g, cropFrame (2 * k, 2 * l) (roundCenter (cx, cy)) f = .ok g := by
      intro f hf
      rw [hr]
      have := hall f hf
      exact cropFrame_succeeds (hwf f hf) (by omega) (by omega) (by omega) (by omega)
    unfold crop
    rw [if_neg (by simp [evenOk])]
    cases ds with
    | nil => exact absurd rfl hne
    | cons f fs =>
      obtain ⟨g, hg⟩ := hframe f (by simp)
      obtain ⟨gs, hgs⟩ := cropLoop_succeeds fs (2 * k) (2 * l) (roundCenter (cx, cy)) (roundCenter_idem _)
        fun f' hf' => hframe f' (by simp [hf'])
      simp only [cropLoop, resolveSize, resolveCenter, nextCenter, hg, hgs]
      exact ⟨_, rfl⟩

/-! ### Sequences of crops -/

/-- `n` crops one after the other. -/
def crops (ds : List (Frame α β γ ε)) : List (Size × Center) → Except Err (List (Frame α β γ ε))
  | [] => .ok ds
  | (s, c) :: l => match crop ds s c with
    | .error e => .error e
    | .ok ds' => crops ds' l

/-- `g` shows `f` from `(x, y)` on, coordinates adjusted. -/
structure Shifted (x y : ℕ) (f g : Frame α β γ ε) : Prop where
  inside : g.data.cols = f.data.cols ∧ x = 0 ∨ x + g.data.cols ≤ f.data.cols
  data : ∀ r c, g.data.px r c = f.data.px (y + r) (x + c)
  err : ∀ r c, g.err.px r c = f.err.px (y + r) (x + c)
  dq : ∀ r c, g.dq.px r c = f.dq.px (y + r) (x + c)
  starX : g.hdr.starX = f.hdr.starX.map (· - (x : ℚ))
  starY : f.hdr.starX.isSome → g.hdr.starY = f.hdr.starY.map (· - (y : ℚ))
  cr1 : g.hdr.cr1 = f.hdr.cr1.map (· - (x : ℚ))
  cr2 : f.hdr.cr1.isSome → g.hdr.cr2 = f.hdr.cr2.map (· - (y : ℚ))
  ext : g.hdr.ext = f.hdr.ext

theorem Shifted.refl (f : Frame α β γ ε) : Shifted 0 0 f f := by
  refine ⟨Or.inl ⟨rfl, rfl⟩, ?_, ?_, ?_, ?_, ?_, ?_, ?_, rfl⟩ <;> simp

theorem Shifted.trans {x y w h x' y' : ℕ} {f g k : Frame α β γ ε} (h1 : Cropped x y w h f g) (h2 : Shifted x' y' g k) :
    Shifted (x + x') (y + y') f k := by
  have hc := h1.data.2.1
  refine ⟨Or.inr ?_, ?_, ?_, ?_, ?_, ?_, ?_, ?_, h2.ext.trans h1.rest.2.2.1⟩
  · have := h1.inside.1
    rcases h2.inside with ⟨p, rfl⟩ | p <;> omega
  · intro r c; rw [h2.data, h1.data.2.2]; congr 1 <;> omega
  · intro r c; rw [h2.err, h1.err]; congr 1 <;> omega
  · intro r c; rw [h2.dq, h1.dq]; congr 1 <;> omega
  · rw [h2.starX, h1.star.1, Option.map_map]
    congr 1; funext v; simp only [Function.comp]; push_cast; ring
  · intro hs
    rw [h2.starY (by rw [h1.star.1]; simpa using hs), h1.star.2 hs, Option.map_map]
    congr 1; funext v; simp only [Function.comp]; push_cast; ring
  · rw [h2.cr1, h1.crpix.1, Option.map_map]
    congr 1; funext v; simp only [Function.comp]; push_cast; ring
  · intro hs
    rw [h2.cr2 (by rw [h1.crpix.1]; simpa using hs), h1.crpix.2 hs, Option.map_map]
    congr 1; funext v; simp only [Function.comp]; push_cast; ring

/-- **C38** After any number of crops there is one offset such that every frame shows its original from there on, with
STARLOC and CRPIX (primary header) denoting the same places. -/
theorem C38_sequence {ds out : List (Frame α β γ ε)} {l : List (Size × Center)} (h : crops ds l = .ok out)
    (hp : ∀ s ∈ l, Positive s.1) : ∃ x y, List.Forall₂ (Shifted x y) ds out := by
  induction l generalizing ds with
  | nil =>
    cases h
    refine ⟨0, 0, ?_⟩
    exact List.forall₂_same.2 fun f _ => Shifted.refl f
  | cons sc l ih =>
    obtain ⟨s, c⟩ := sc
    simp only [crops] at h
    cases hc : crop ds s c with
    | error e => rw [hc] at h; cases h
    | ok ds' =>
      rw [hc] at h
      obtain ⟨x', y', h2⟩ := ih h fun s' hs' => hp s' (by simp [hs'])
      obtain ⟨f, fs, _, x, y, w, hh, _, h1, _⟩ := C38_crop hc (hp (s, c) (by simp))
      exact ⟨x + x', y + y', forall₂_trans (R := Cropped x y w hh) (S := Shifted x' y')
        (T := Shifted (x + x') (y + y')) (fun _ _ _ a b => Shifted.trans a b) h1 h2⟩

/-- **C38** DETPIX0X/Y are the detector coordinates of the first pixel after any number of crops (at least one), when
they were so before or were absent. -/
theorem C38_detpix {ds out : List (Frame α β γ ε)} {l : List (Size × Center)} (h : crops ds l = .ok out) (hl : l ≠ [])
    (hp : ∀ s ∈ l, Positive s.1) (hw : ∀ f ∈ ds, Wf f) :
    ∃ x y, List.Forall₂ (fun f g => Shifted x y f g ∧ g.hdr.detX = some (f.hdr.detX.getD 0 + (x : ℤ)) ∧
      g.hdr.detY = some ((if f.hdr.detX.isSome then f.hdr.detY.getD 0 else 0) + (y : ℤ))) ds out := by
  induction l generalizing ds with
  | nil => exact absurd rfl hl
  | cons sc l ih =>
    obtain ⟨s, c⟩ := sc
    simp only [crops] at h
    cases hc : crop ds s c with
    | error e => rw [hc] at h; cases h
    | ok ds' =>
      rw [hc] at h
      obtain ⟨f, fs, _, x, y, w, hh, _, h1, _⟩ := C38_crop hc (hp (s, c) (by simp))
      have hdet : ∀ f g : Frame α β γ ε, Cropped x y w hh f g → g.hdr.detX = some (f.hdr.detX.getD 0 + (x : ℤ)) ∧
          g.hdr.detY = some ((if f.hdr.detX.isSome then f.hdr.detY.getD 0 else 0) + (y : ℤ)) := by
        intro f g hfg
        refine ⟨hfg.det.1, ?_⟩
        cases hx : f.hdr.detX with
        | none => rw [hfg.det.2.2 hx]; simp
        | some v => rw [hfg.det.2.1 (by simp [hx])]; simp
      by_cases hl' : l = []
      · subst hl'
        cases h
        refine ⟨x, y, h1.imp fun f g hfg => ⟨?_, hdet f g hfg⟩⟩
        exact Shifted.trans hfg (Shifted.refl g)
      · have hw' : ∀ g ∈ ds', Wf g := by
          intro g hg
          obtain ⟨f, hf, hfg⟩ := forall₂_right h1 hg
          obtain ⟨n1, n2, n3, n4⟩ := hw f hf
          refine ⟨by rw [hfg.rest.2.1]; exact n1, ?_, ?_, ?_⟩
          · rw [hfg.star.1, Option.isSome_map]
            intro hs; rw [hfg.star.2 hs, Option.isSome_map]; exact n2 hs
          · rw [hfg.crpix.1, Option.isSome_map]
            intro hs; rw [hfg.crpix.2 hs, Option.isSome_map]; exact n3 hs
          · intro _; rw [(hdet f g hfg).2]; rfl
        obtain ⟨x', y', h2⟩ := ih h hl' (fun s' hs' => hp s' (by simp [hs'])) hw'
        refine ⟨x + x', y + y', forall₂_trans (fun _ _ _ a b => ⟨Shifted.trans a b.1, ?_, ?_⟩) h1 h2⟩
        · rw [b.2.1, (hdet _ _ a).1]; simp only [Option.getD_some]; push_cast; congr 1; ring
        · rw [b.2.2, (hdet _ _ a).1, (hdet _ _ a).2]; simp only [Option.isSome_some, if_true, Option.getD_some]
          push_cast; congr 1; ring

/-! ### Each frame around its own star -/

/-- **C38** Without a centre, every frame is cropped around the first frame's star: its own star ends at this place. -/
theorem C38_first_star {ds out : List (Frame α β γ ε)} {s : Size} (h : crop ds s .default = .ok out) (hp : Positive s) :
    ∃ f fs, ds = f :: fs ∧ ∃ x y w hh : ℕ, List.Forall₂ (fun f' g => Cropped x y w hh f' g ∧
      ∀ sx, f'.hdr.starX = some sx → g.hdr.starX = some (sx - x) ∧
        |(sx - x - ((w : ℚ) - 1) / 2) - (sx - f.hdr.starX.getD 0)| ≤ 1 / 2) ds out := by
  obtain ⟨f, fs, hd, x, y, w, hh, hall, h1, h2⟩ := C38_centre h hp
  refine ⟨f, fs, hd, x, y, w, hh, hall.imp fun f' g hc => ⟨hc, fun sx hs => ⟨?_, ?_⟩⟩⟩
  · rw [hc.star.1, hs]; rfl
  · simp only [centerOf] at h1
    rw [abs_sub_comm] at h1
    have e : (sx - x - ((w : ℚ) - 1) / 2) - (sx - f.hdr.starX.getD 0) = f.hdr.starX.getD 0 - (x + ((w : ℚ) - 1) / 2) := by ring
    rwa [e]

/-- **C38** If all frames have the star at the same place, every frame is centred on its own star within half a pixel. -/
theorem C38_own_star_partial {ds out : List (Frame α β γ ε)} {s : Size} (h : crop ds s .default = .ok out)
    (hp : Positive s) (hs : ∀ f ∈ ds, ∀ f' ∈ ds, f.hdr.starX = f'.hdr.starX ∧ f.hdr.starY = f'.hdr.starY) :
    ∀ g ∈ out, ∃ sx sy, g.hdr.starX = some sx ∧ g.hdr.starY = some sy ∧ |sx - ((g.data.cols : ℚ) - 1) / 2| ≤ 1 / 2 ∧
      |sy - ((g.data.rows : ℚ) - 1) / 2| ≤ 1 / 2 := by
  obtain ⟨f, fs, hd, x, y, w, hh, hall, h1, h2⟩ := C38_centre h hp
  obtain ⟨f0, fs0, hd0, _, _, hstar, _, _⟩ := crop_ok h
  rw [hd] at hd0
  cases hd0
  obtain ⟨hsx, hsy⟩ := hstar rfl
  obtain ⟨sx, hsx⟩ := Option.isSome_iff_exists.1 hsx
  obtain ⟨sy, hsy⟩ := Option.isSome_iff_exists.1 hsy
  simp only [centerOf, hsx, hsy, Option.getD_some] at h1 h2
  intro g hg
  obtain ⟨f', hf', hc⟩ := forall₂_right hall hg
  obtain ⟨e1, e2⟩ := hs f' hf' f (by rw [hd]; simp)
  rw [hsx] at e1
  rw [hsy] at e2
  refine ⟨sx - x, sy - y, by rw [hc.star.1, e1]; rfl, by rw [hc.star.2 (by rw [e1]; rfl), e2]; rfl, ?_, ?_⟩
  · rw [hc.data.2.1, abs_sub_comm]
    have e : ((w : ℚ) - 1) / 2 - (sx - x) = x + ((w : ℚ) - 1) / 2 - sx := by ring
    rwa [e]
  · rw [hc.data.1, abs_sub_comm]
    have e : ((hh : ℚ) - 1) / 2 - (sy - y) = y + ((hh : ℚ) - 1) / 2 - sy := by ring
    rwa [e]

/-! ### Witnesses -/

def sample (name : String) (sx sy : ℚ) : Frame ℕ ℕ ℕ Unit :=
  { name := name, ndim := 2,
    hdr := { lsam := some "NFOV", starX := some sx, starY := some sy, detX := none, detY := none, cr1 := none, cr2 := none,
             naxis1 := 100, naxis2 := 100, ext := () },
    data := ⟨100, 100, fun r c => 1000 * r + c⟩, err := ⟨100, 100, fun _ _ => 0⟩, dq := ⟨100, 100, fun _ _ => 0⟩ }

def stars (r : Except Err (List (Frame ℕ ℕ ℕ Unit))) : Option (List (Option ℚ × Option ℚ × ℕ × ℕ × ℕ)) :=
  match r with
  | .ok l => some (l.map fun g => (g.hdr.starX, g.hdr.starY, g.data.cols, g.data.rows, g.data.px 0 0))
  | .error _ => none

/-- **C38** is violated: the second frame is cropped around the first frame's star, its own star is at column 39.5 of 60. -/
theorem C38_violated : stars (crop [sample "a" (99/2) (99/2), sample "b" (119/2) (99/2)] .default .default) =
    some [(some (59/2), some (59/2), 60, 60, 20020), (some (79/2), some (59/2), 60, 60, 20020)] := by
  decide +kernel

/-- Also the size: a later frame that is not NFOV is cropped as if it were. -/
theorem C38_first_lsam : stars (crop [sample "a" (99/2) (99/2),
      { sample "b" (99/2) (99/2) with hdr := { (sample "b" (99/2) (99/2)).hdr with lsam := some "WFOV" } }] .default .default) ≠ none ∧
    crop [{ sample "b" (99/2) (99/2) with hdr := { (sample "b" (99/2) (99/2)).hdr with lsam := some "WFOV" } }]
      .default .default = .error .user := by
  constructor
  · decide +kernel
  · rfl

/-- A negative even size passes the check and gives a window counted from the other edge. -/
theorem C38_negative_size : stars (crop [sample "a" (1/2) (1/2)] (.int (-4)) .default) =
    some [(some (1/2 - 3), some (1/2 - 3), 96, 96, 3003)] := by
  decide +kernel

/-- An integer centre (not documented) works for two frames and raises TypeError for one. -/
theorem C38_integer_centre : stars (crop [sample "a" 10 10, sample "b" 10 10] (.int 4) (.int 10)) =
      some [(some 1, some 1, 4, 4, 9009), (some 1, some 1, 4, 4, 9009)] ∧
    stars (crop [sample "a" 10 10] (.int 4) (.int 10)) = none := by
  decide +kernel

/-- Not vacuous: two crops of two frames. -/
example : stars (crops [sample "a" (99/2) (99/2), sample "b" 50 49] [(.default, .default), (.pair 10 20, .float (31/2))]) =
    some [(some (37/2), some (47/2), 10, 20, 26031), (some 19, some 23, 10, 20, 26031)] := by
  decide +kernel

example : Wf (sample "a" 1 1) := by simp [Wf, sample]

end Corgi.Crop

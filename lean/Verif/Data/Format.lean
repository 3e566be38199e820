import Verif.Detector.NonLin

/-!
# What the constructors of calibration objects accept, and what their users need (C146)

The format checks of `NonLinearityCalibration` (`/repo/corgidrp/data.py` 773-781), `DetectorNoiseMaps` (1018-1028),
`AstrometricCalibration` (1258-1266) with its use in `distortion_correction` (`/repo/corgidrp/l3_to_l4.py` 34-77), `KGain`
(850-854), `FluxcalFactor` (1366-1386, 1401-1402), `FpamFsamCal` (1484-1489), `CoreThroughputCalibration` (1565-1607) and
`NDFilterSweetSpotDataset` (2455-2465).

Arrays are described by their shapes (and values where these are looked at); the constructor of `Image`, the records of
parents and DATATYPE are in C127-C129. The order of the distortion polynomial in the last entry is a natural number.
-/

namespace Corgi.Format

inductive Err
  | value | index | key | type
  deriving DecidableEq, Repr

/-! ## Model -/

/-- data.py 773-781, of a two-dimensional array: numbers of rows and columns, and the entry in the corner (`none` = NaN). -/
def nonLin {K : Type} (rows cols : ℕ) (corner : Option K) : Except Err Unit :=
  if rows < 2 ∨ cols < 2 then .error .value
  else if corner.isSome then .error .value
  else .ok ()

/-- data.py 1018-1028: shapes of data and flags, of the errors, and whether B_O and B_O_ERR are in the header. -/
def noiseMaps (data err dq : List ℕ) (bO bOErr : Bool) : Except Err Unit :=
  if data.length ≠ 3 ∨ data.head? ≠ some 3 then .error .value
  else if err.length ≠ 4 ∨ err.head? ≠ some 1 then .error .value
  else if dq.length ≠ 3 ∨ dq.head? ≠ some 3 then .error .value
  else if bO = false ∨ bOErr = false then .error .value
  else .ok ()

/-- The attributes of an `AstrometricCalibration`. -/
structure Astrom (V : Type) where
  boresight : List V
  platescale : List V
  northangle : V
  offset : List V
  coeffs : List V

/-- data.py 1262-1266: slices may be short, the entry with number 4 must exist. -/
def astrom {V : Type} (d : List V) : Except Err (Astrom V) :=
  match d[4]? with
  | none => .error .index
  | some n => .ok ⟨d.take 2, (d.take 4).drop 2, n, (d.take 7).drop 5, d.drop 7⟩

/-- `reshape(n, n)` -/
def reshape {V : Type} (n : ℕ) (l : List V) : Except Err (List V) := if l.length = n * n then .ok l else .error .value

/-- l3_to_l4.py 35-36, 54-73: the coefficients of the two polynomials; `order` reads the last entry. -/
def polynomials {V : Type} (order : V → ℕ) (coeffs : List V) : Except Err (List V × List V) :=
  match coeffs.getLast? with
  | none => .error .index
  | some v => do
    let n := order v
    let x ← reshape (n + 1) (coeffs.dropLast.take ((n + 1) ^ 2))
    let y ← reshape (n + 1) (coeffs.dropLast.drop ((n + 1) ^ 2))
    return (x, y)

/-- data.py 850-853, 1367-1368: one value. -/
def oneValue (shape : List ℕ) : Except Err Unit := if shape ≠ [1, 1] then .error .value else .ok ()

def isND (name : List Char) : Bool := ['N', 'D'].isPrefixOf name

/-- `nd_filter` of a `FluxcalFactor` (data.py 1371-1381): the cards FPAMNAME and FSAMNAME. -/
def ndFilter (fpam fsam : Option (List Char)) : Except Err (List Char) :=
  match fpam with
  | some n => .ok (if isND n then n else "ND0".toList)
  | none =>
    match fsam with
    | some n => .ok (if isND n then n else "ND0".toList)
    | none => .error .value

/-- What is given to `FpamFsamCal` instead of a path. -/
inductive Matrices
  | list (length : ℕ)
  | array (shape : List ℕ)

/-- data.py 1484-1489: the shape that is used; an empty input means the default matrices. -/
def fpamFsam : Matrices → Except Err (List ℕ)
  | .list 0 => .ok [2, 2, 2]
  | .list _ => .error .value
  | .array [] => .error .type
  | .array (0 :: _) => .ok [2, 2, 2]
  | .array sh => if sh ≠ [2, 2, 2] then .error .value else .ok sh

/-- An extension of a file: its name and the shape of its data. -/
structure Hdu where
  name : String
  shape : List ℕ

/-- `hdu_list[i]` with the name `n` -/
def named (hdus : List Hdu) (i : ℕ) (n : String) : Except Err Hdu :=
  match hdus[i]? with
  | none => .error .index
  | some h => if h.name = n then .ok h else .error .value

/-- data.py 1565-1607: EXTNAME, shape of the data, the other extensions. -/
def coreThroughput (extname : Option String) (data : List ℕ) (hdus : List Hdu) : Except Err Unit := do
  let _ ← match extname with
    | none => Except.error Err.key
    | some n => if n ≠ "PSFCUBE" then .error .value else .ok ()
  let ct ← named hdus 0 "CTEXCAM"
  let _ ← named hdus 1 "CTFPAM"
  let _ ← named hdus 2 "CTFSAM"
  if data.length ≠ 3 then .error .value
  else match ct.shape with
    | [] => .error .type
    | k :: rest =>
      if k ≠ 3 then .error .value
      else match rest with
        | [] => .error .index
        | n :: _ => if some n ≠ data.head? then .error .value else .ok ()

/-- data.py 2455-2459 -/
def sweetSpot (shape : List ℕ) : Except Err Unit :=
  if shape.length ≠ 2 ∨ shape[1]? ≠ some 3 then .error .value else .ok ()

/-! ## Non-linearity tables -/

/-- **C146.** The array of a table is accepted exactly if it has a count and a gain. -/
theorem C146_nonlin_iff {K : Type} (t : NonLin.Table K) :
    nonLin (K := K) (t.rows.length + 1) (t.gains.length + 1) none = .ok () ↔ t.rows ≠ [] ∧ t.gains ≠ [] := by
  unfold nonLin
  rw [← List.length_pos_iff_ne_nil, ← List.length_pos_iff_ne_nil]
  by_cases h : t.rows.length + 1 < 2 ∨ t.gains.length + 1 < 2
  · rw [if_pos h]
    constructor
    · intro h; cases h
    · omega
  · rw [if_neg h, if_neg (by simp)]
    refine ⟨fun _ => by omega, fun _ => rfl⟩

/-- **C146.** The smallest array that is accepted (two by two, as documented) cannot be used: every correction with a table of
a single gain or a single count fails. -/
theorem C146_violated_nonlin {K : Type} [Field K] [LinearOrder K] [IsStrictOrderedRing K] (t : NonLin.Table K)
    (h : t.gains.length = 1 ∨ t.rows.length = 1) (frame : List (Option K)) (g : K) :
    ∃ e, NonLin.relgains frame g (some t) = .error e := by
  have hc : ∃ e, NonLin.checkTable t = .error e := by
    cases hc : NonLin.checkTable t with
    | error e => exact ⟨e, rfl⟩
    | ok u =>
      have hg := (NonLin.checkTable_iff t).1 hc
      have h1 := hg.two_gains
      have h2 := hg.two_counts
      omega
  obtain ⟨e, he⟩ := hc
  refine ⟨e, ?_⟩
  show (NonLin.checkTable t >>= fun _ => _) = _
  rw [he]
  rfl

/-! ## Noise maps -/

/-- **C146.** Noise maps are accepted exactly with three maps, one layer of errors and a bias offset. -/
theorem C146_noise_maps_iff (data err dq : List ℕ) (bO bOErr : Bool) : noiseMaps data err dq bO bOErr = .ok () ↔
    (∃ r c, data = [3, r, c]) ∧ (∃ k r c, err = [1, k, r, c]) ∧ (∃ r c, dq = [3, r, c]) ∧ bO = true ∧ bOErr = true := by
  have key3 : ∀ l : List ℕ, (l.length ≠ 3 ∨ l.head? ≠ some 3) ↔ ¬ ∃ r c, l = [3, r, c] := by
    intro l
    match l with
    | [] => simp
    | [a] => simp
    | [a, b] => simp
    | [a, b, c] => simp
    | a :: b :: c :: d :: l => simp
  have key4 : (err.length ≠ 4 ∨ err.head? ≠ some 1) ↔ ¬ ∃ k r c, err = [1, k, r, c] := by
    match err with
    | [] => simp
    | [a] => simp
    | [a, b] => simp
    | [a, b, c] => simp
    | [a, b, c, d] => simp
    | a :: b :: c :: d :: e :: l => simp
  unfold noiseMaps
  by_cases h1 : data.length ≠ 3 ∨ data.head? ≠ some 3
  · rw [if_pos h1]
    exact ⟨fun h => (nomatch h), fun h => absurd h.1 ((key3 data).1 h1)⟩
  rw [if_neg h1]
  by_cases h2 : err.length ≠ 4 ∨ err.head? ≠ some 1
  · rw [if_pos h2]
    exact ⟨fun h => (nomatch h), fun h => absurd h.2.1 (key4.1 h2)⟩
  rw [if_neg h2]
  by_cases h3 : dq.length ≠ 3 ∨ dq.head? ≠ some 3
  · rw [if_pos h3]
    exact ⟨fun h => (nomatch h), fun h => absurd h.2.2.1 ((key3 dq).1 h3)⟩
  rw [if_neg h3]
  have k1 := not_not.1 (fun h => h1 ((key3 data).2 h))
  have k2 := not_not.1 (fun h => h2 (key4.2 h))
  have k3 := not_not.1 (fun h => h3 ((key3 dq).2 h))
  cases bO <;> cases bOErr <;> simp [k1, k2, k3]

/-! ## Astrometric calibrations -/

/-- **C146.** Five entries are enough for an `AstrometricCalibration`. -/
theorem C146_astrom_iff {V : Type} (d : List V) : (∃ a, astrom d = .ok a) ↔ 5 ≤ d.length := by
  unfold astrom
  cases h : d[4]? with
  | none =>
    rw [List.getElem?_eq_none_iff] at h
    constructor
    · rintro ⟨_, h⟩; cases h
    · omega
  | some v =>
    obtain ⟨h, _⟩ := List.getElem?_eq_some_iff.1 h
    exact ⟨fun _ => by omega, fun _ => ⟨_, rfl⟩⟩

/-- **C146.** The places of the entries: boresight, plate scale, north angle, offset, coefficients. -/
theorem C146_astrom_fields {V : Type} (b₁ b₂ p₁ p₂ n o₁ o₂ : V) (c : List V) :
    astrom (b₁ :: b₂ :: p₁ :: p₂ :: n :: o₁ :: o₂ :: c) = .ok ⟨[b₁, b₂], [p₁, p₂], n, [o₁, o₂], c⟩ := rfl

/-- **C146.** The distortion can be corrected exactly if there are two square sets of coefficients and the order. -/
theorem C146_distortion_iff {V : Type} (order : V → ℕ) (c : List V) : (∃ p, polynomials order c = .ok p) ↔
    ∃ v, c.getLast? = some v ∧ c.length = 2 * (order v + 1) ^ 2 + 1 := by
  unfold polynomials
  cases h : c.getLast? with
  | none =>
    constructor
    · rintro ⟨_, h⟩; cases h
    · rintro ⟨_, h, _⟩; cases h
  | some v =>
    have hne : c ≠ [] := by rintro rfl; cases h
    have hpos := List.length_pos_iff_ne_nil.2 hne
    simp only [Option.some.injEq, exists_eq_left', bind, Except.bind, reshape, pure, Except.pure]
    have hsq : (order v + 1) * (order v + 1) = (order v + 1) ^ 2 := (sq _).symm
    rw [List.length_take, List.length_drop, List.length_dropLast, hsq]
    generalize (order v + 1) ^ 2 = m
    by_cases h1 : min m (c.length - 1) = m
    · rw [if_pos h1]
      dsimp only
      by_cases h2 : c.length - 1 - m = m
      · rw [if_pos h2]
        exact ⟨fun _ => by omega, fun _ => ⟨_, rfl⟩⟩
      · rw [if_neg h2]
        constructor
        · rintro ⟨_, h⟩; cases h
        · intro h; omega
    · rw [if_neg h1]
      constructor
      · rintro ⟨_, h⟩; cases h
      · intro h; omega

/-- **C146.** An array with a distortion of order `n` has `2 (n + 1)² + 8` entries: 40 for the third order. The documented 37
entries are accepted by the constructor and fail when the distortion is corrected. -/
theorem C146_violated_length {V : Type} (order : V → ℕ) {d : List V} (hd : d.length = 37) :
    ∃ a, astrom d = .ok a ∧ ∀ v, a.coeffs.getLast? = some v → order v = 3 → ¬ ∃ p, polynomials order a.coeffs = .ok p := by
  obtain ⟨a, ha⟩ := (C146_astrom_iff d).2 (by omega)
  refine ⟨a, ha, fun v hv h3 => ?_⟩
  rw [C146_distortion_iff]
  rintro ⟨w, hw, hl⟩
  rw [hv] at hw
  have := Option.some.inj hw
  subst this
  have hc : a.coeffs = d.drop 7 := by
    unfold astrom at ha
    split at ha
    · cases ha
    · rw [← Except.ok.inj ha]
  rw [hc, List.length_drop, hd, h3] at hl
  omega

theorem C146_astrom_length {V : Type} (order : V → ℕ) {d : List V} {a : Astrom V} (ha : astrom d = .ok a) :
    (∃ p, polynomials order a.coeffs = .ok p) ↔ ∃ v, d.getLast? = some v ∧ d.length = 2 * (order v + 1) ^ 2 + 8 := by
  have hc : a.coeffs = d.drop 7 := by
    unfold astrom at ha
    split at ha
    · cases ha
    · rw [← Except.ok.inj ha]
  rw [C146_distortion_iff, hc, List.length_drop]
  constructor
  · rintro ⟨v, hv, hl⟩
    refine ⟨v, ?_, by omega⟩
    rw [List.getLast?_drop] at hv
    split at hv
    · cases hv
    · exact hv
  · rintro ⟨v, hv, hl⟩
    refine ⟨v, ?_, by omega⟩
    rw [List.getLast?_drop, if_neg (by omega)]
    exact hv

/-! ## One value, and the filters of a flux factor -/

theorem C146_one_value_iff (shape : List ℕ) : oneValue shape = .ok () ↔ shape = [1, 1] := by
  unfold oneValue
  split_ifs with h <;> simp_all

/-- Specification: the neutral density filter in the beam, by the names of the two mechanisms; if both have one, that in the
first. -/
def InBeam (fpam fsam : Option (List Char)) (n : List Char) : Prop :=
  (fpam = some n ∧ isND n = true) ∨
  ((∀ m, fpam = some m → isND m = false) ∧ fsam = some n ∧ isND n = true) ∨
  ((∀ m, fpam = some m → isND m = false) ∧ (∀ m, fsam = some m → isND m = false) ∧ n = "ND0".toList)

/-- **C146.** Names of neutral density filters are those that begin with the letters ND. -/
theorem C146_nd_name (n : List Char) : isND n = true ↔ ∃ rest, n = 'N' :: 'D' :: rest := by
  unfold isND
  rw [List.isPrefixOf_iff_prefix]
  constructor
  · rintro ⟨rest, rfl⟩
    exact ⟨rest, rfl⟩
  · rintro ⟨rest, rfl⟩
    exact ⟨rest, rfl⟩

/-- **C146.** A flux factor is refused exactly if neither name is in the header. -/
theorem C146_filter_accepts_iff (fpam fsam : Option (List Char)) :
    (∃ n, ndFilter fpam fsam = .ok n) ↔ fpam ≠ none ∨ fsam ≠ none := by
  unfold ndFilter
  cases fpam <;> cases fsam <;> simp

/-- **C146.** The filter is named correctly exactly unless it is in the second mechanism while the first has a name: then
`nd_filter` says that there is none. -/
theorem C146_violated_filter_iff {fpam fsam : Option (List Char)} {n : List Char} (h : ndFilter fpam fsam = .ok n) :
    InBeam fpam fsam n ↔ ¬ ∃ a b, fpam = some a ∧ isND a = false ∧ fsam = some b ∧ isND b = true ∧ b ≠ "ND0".toList := by
  have h0 : isND "ND0".toList = true := by decide +kernel
  unfold ndFilter at h
  cases fpam with
  | some a =>
    have := Except.ok.inj h
    subst this
    by_cases ha : isND a = true
    · rw [if_pos ha]
      simp [InBeam, ha]
    · have ha' : isND a = false := by simpa using ha
      rw [if_neg ha]
      cases fsam with
      | none => simp [InBeam, ha']
      | some b =>
        by_cases hb : isND b = true
        · by_cases hb0 : b = "ND0".toList
          · subst hb0
            constructor
            · rintro _ ⟨_, b, _, _, hb, _, hn⟩
              exact hn (Option.some.inj hb).symm
            · intro _
              exact Or.inr (Or.inl ⟨fun m hm => by rw [← Option.some.inj hm]; exact ha', rfl, h0⟩)
          · constructor
            · rintro (⟨h1, h2⟩ | ⟨_, h1, _⟩ | ⟨_, h1, _⟩)
              · rw [← Option.some.inj h1] at h2
                rw [ha'] at h2; cases h2
              · exact absurd (Option.some.inj h1) hb0
              · rw [h1 b rfl] at hb; cases hb
            · intro hn
              exact absurd ⟨a, b, rfl, ha', rfl, hb, hb0⟩ hn
        · have hb' : isND b = false := by simpa using hb
          constructor
          · rintro _ ⟨_, c, _, _, hc, hc2, _⟩
            rw [← Option.some.inj hc, hb'] at hc2; cases hc2
          · intro _
            exact Or.inr (Or.inr ⟨fun m hm => by rw [← Option.some.inj hm]; exact ha',
              fun m hm => by rw [← Option.some.inj hm]; exact hb', rfl⟩)
  | none =>
    cases fsam with
    | none => cases h
    | some b =>
      have := Except.ok.inj h
      subst this
      constructor
      · rintro _ ⟨_, _, ha, _⟩
        cases ha
      · intro _
        by_cases hb : isND b = true
        · rw [if_pos hb]
          exact Or.inr (Or.inl ⟨fun m hm => (nomatch hm), rfl, hb⟩)
        · rw [if_neg hb]
          exact Or.inr (Or.inr ⟨fun m hm => (nomatch hm), fun m hm => (by
            have := Option.some.inj hm
            subst this
            simpa using hb), rfl⟩)

/-! ## Matrices, core throughput, sweet spots -/

/-- **C146.** What is accepted: an empty list, an array without entries along its first axis, and two matrices of two by two. -/
theorem C146_matrices_iff (m : Matrices) : (∃ sh, fpamFsam m = .ok sh) ↔
    m = .list 0 ∨ (∃ l, m = .array (0 :: l)) ∨ m = .array [2, 2, 2] := by
  constructor
  · rintro ⟨sh, h⟩
    unfold fpamFsam at h
    split at h
    · exact Or.inl rfl
    · cases h
    · cases h
    · exact Or.inr (Or.inl ⟨_, rfl⟩)
    · split_ifs at h with h1
      push Not at h1
      exact Or.inr (Or.inr (by rw [h1]))
  · rintro (rfl | ⟨l, rfl⟩ | rfl)
    · exact ⟨_, rfl⟩
    · exact ⟨_, rfl⟩
    · exact ⟨[2, 2, 2], rfl⟩

/-- **C146.** Whatever is accepted, two matrices of two by two are used. -/
theorem C146_matrices {m : Matrices} {sh : List ℕ} (h : fpamFsam m = .ok sh) : sh = [2, 2, 2] := by
  unfold fpamFsam at h
  split at h
  · exact (Except.ok.inj h).symm
  · cases h
  · cases h
  · exact (Except.ok.inj h).symm
  · split_ifs at h with h1
    · push Not at h1
      rw [← Except.ok.inj h, h1]

/-- **C146.** A core throughput file is accepted exactly with a cube of PSFs and, first among the other extensions and in this
order, measurements of three rows and one column per PSF and the two positions. -/
theorem C146_core_throughput_iff (extname : Option String) (data : List ℕ) (hdus : List Hdu) :
    coreThroughput extname data hdus = .ok () ↔ extname = some "PSFCUBE" ∧ ∃ n r c more sf ss rest,
      data = [n, r, c] ∧ hdus = ⟨"CTEXCAM", 3 :: n :: more⟩ :: ⟨"CTFPAM", sf⟩ :: ⟨"CTFSAM", ss⟩ :: rest := by
  constructor
  · intro h
    unfold coreThroughput at h
    cases extname with
    | none => cases h
    | some e =>
      by_cases he : e = "PSFCUBE"
      · subst he
        refine ⟨rfl, ?_⟩
        simp only [ne_eq, not_true_eq_false, if_false, bind, Except.bind] at h
        rcases hdus with _ | ⟨⟨n0, s0⟩, _ | ⟨⟨n1, s1⟩, _ | ⟨⟨n2, s2⟩, rest⟩⟩⟩
        · cases h
        · unfold named at h
          simp only [List.getElem?_cons_zero, List.getElem?_cons_succ, List.getElem?_nil] at h
          split_ifs at h
        · unfold named at h
          simp only [List.getElem?_cons_zero, List.getElem?_cons_succ, List.getElem?_nil] at h
          split_ifs at h
        · unfold named at h
          simp only [List.getElem?_cons_zero, List.getElem?_cons_succ] at h
          split_ifs at h with h0 h1 h2 h3
          · dsimp only at h0 h1 h2 h
            cases s0 with
            | nil => cases h
            | cons k s0 =>
              dsimp only at h
              split_ifs at h with hk
              cases s0 with
              | nil => cases h
              | cons n s0 =>
                dsimp only at h
                split_ifs at h with hn
                have hk' : k = 3 := by simpa using hk
                have hn' : some n = data.head? := by simpa using hn
                have hl : data.length = 3 := by simpa using h3
                match data, hl, hn' with
                | [a, r, c], _, hn' =>
                  have := Option.some.inj hn'
                  subst h0 h1 h2 hk' this
                  exact ⟨n, r, c, s0, s1, s2, rest, rfl, rfl⟩
      · simp only [ne_eq, he, not_false_eq_true, if_true, bind, Except.bind] at h
        cases h
  · rintro ⟨rfl, n, r, c, more, sf, ss, rest, rfl, rfl⟩
    simp [coreThroughput, named, bind, Except.bind]

/-- **C146.** An incomplete file is not refused with the announced ValueError: without enough extensions or with a single row
of three measurements it is an IndexError, without EXTNAME a KeyError. -/
theorem C146_violated_errors : coreThroughput (some "PSFCUBE") [1, 5, 5] [⟨"CTEXCAM", [3, 1]⟩, ⟨"CTFPAM", [2]⟩] = .error .index ∧
    coreThroughput (some "PSFCUBE") [1, 5, 5] [⟨"CTEXCAM", [3]⟩, ⟨"CTFPAM", [2]⟩, ⟨"CTFSAM", [2]⟩] = .error .index ∧
    (∀ data hdus, coreThroughput none data hdus = .error .key) := by
  refine ⟨by decide +kernel, by decide +kernel, fun _ _ => rfl⟩

/-- **C146.** A sweet-spot table has three columns; it may have no row. -/
theorem C146_sweet_spot_iff (shape : List ℕ) : sweetSpot shape = .ok () ↔ ∃ n, shape = [n, 3] := by
  unfold sweetSpot
  match shape with
  | [] => simp
  | [a] => simp
  | [a, b] => simp
  | a :: b :: c :: l => simp

example : ndFilter (some "HOLE".toList) (some "ND475".toList) = .ok "ND0".toList := by decide +kernel
example : ∃ a b : List Char, isND a = false ∧ isND b = true ∧ b ≠ "ND0".toList := ⟨"HOLE".toList, "ND475".toList, by decide +kernel⟩
example : coreThroughput (some "PSFCUBE") [4, 19, 19] [⟨"CTEXCAM", [3, 4]⟩, ⟨"CTFPAM", [2]⟩, ⟨"CTFSAM", [2]⟩] = .ok () := by decide +kernel
example : ∃ p, polynomials (fun v : ℕ => v) (List.replicate 32 0 ++ [3]) = .ok p := (C146_distortion_iff _ _).2 ⟨3, by decide +kernel, by decide +kernel⟩
example : ∃ d : List ℕ, d.length = 37 ∧ (d.drop 7).getLast? = some 3 := ⟨List.replicate 36 0 ++ [3], by decide +kernel, by decide +kernel⟩

end Corgi.Format

import Mathlib.Data.Nat.Basic
import Mathlib.Data.Int.Basic
import Mathlib.Tactic.Ring
import Mathlib.Tactic.NormNum
import Mathlib.Tactic.IntervalCases
import Mathlib.Tactic.Push

/-!
# `format_ftimeutc` (data.py 2504-2546): model and C42

The parsed time string is given by its fields and the offset from UTC. `datetime` arithmetic is written with carries;
`instant_strictMono` shows that the fields are determined by the instant, so any correct calendar agrees. The result is
the list of its digits; the constant letter T after the eighth is left out. Years below 1000 are not claimed for `%Y`.
-/

namespace Corgi.Ftime

structure DT where
  year : ℕ
  month : ℕ
  day : ℕ
  hour : ℕ
  minute : ℕ
  second : ℕ
  micro : ℕ
  deriving DecidableEq

/-! ## Calendar -/

def leap (y : ℕ) : Bool := y % 4 == 0 && (y % 100 != 0 || y % 400 == 0)

/-- days in a month -/
def dim (y m : ℕ) : ℕ := match m with
  | 2 => if leap y then 29 else 28
  | 4 => 30 | 6 => 30 | 9 => 30 | 11 => 30
  | _ => 31

/-- What `datetime` accepts. -/
def Valid (t : DT) : Prop :=
  (1 ≤ t.year ∧ t.year ≤ 9999) ∧ (1 ≤ t.month ∧ t.month ≤ 12) ∧ (1 ≤ t.day ∧ t.day ≤ dim t.year t.month) ∧ t.hour < 24 ∧
    t.minute < 60 ∧ t.second < 60 ∧ t.micro < 1000000

instance (t : DT) : Decidable (Valid t) := by unfold Valid; infer_instance

/-! ## Model -/

def nextDay (t : DT) : Option DT :=
  if t.day < dim t.year t.month then some { t with day := t.day + 1 }
  else if t.month < 12 then some { t with month := t.month + 1, day := 1 }
  else if t.year < 9999 then some { t with year := t.year + 1, month := 1, day := 1 }
  else none

def prevDay (t : DT) : Option DT :=
  if 1 < t.day then some { t with day := t.day - 1 }
  else if 1 < t.month then some { t with month := t.month - 1, day := dim t.year (t.month - 1) }
  else if 1 < t.year then some { t with year := t.year - 1, month := 12, day := 31 }
  else none

/-- microseconds since midnight -/
def clock (t : DT) : ℤ := ((t.hour * 60 + t.minute) * 60 + t.second) * 1000000 + t.micro

/-- the same day with another time -/
def setClock (t : DT) (c : ℕ) : DT :=
  { t with hour := c / 3600000000, minute := c / 60000000 % 60, second := c / 1000000 % 60, micro := c % 1000000 }

/-- a datetime plus less than a day; `none` is OverflowError -/
def addMicros (t : DT) (d : ℤ) : Option DT :=
  let c := clock t + d
  if c < 0 then (prevDay t).map fun u => setClock u (c + 86400000000).toNat
  else if c < 86400000000 then some (setClock t c.toNat)
  else (nextDay t).map fun u => setClock u (c - 86400000000).toNat

/-- lines 2525-2527: `astimezone(timezone.utc)`, offset in microseconds -/
def toUtc (t : DT) : Option ℤ → Option DT
  | none => some t
  | some o => addMicros t (-o)

/-- line 2532 -/
def roundMicro (m : ℕ) : ℕ := (m + 50000) / 100000 * 100000

/-- lines 2535-2538 -/
def roundTime (t : DT) : Option DT :=
  if 1000000 ≤ roundMicro t.micro then addMicros { t with micro := 0 } 1000000
  else some { t with micro := roundMicro t.micro }

/-- `w` decimal digits -/
def digs : ℕ → ℕ → List ℕ
  | 0, _ => []
  | w + 1, n => n / 10 ^ w % 10 :: digs w (n % 10 ^ w)

/-- lines 2541-2545 -/
def name (t : DT) : List ℕ :=
  digs 4 t.year ++ (digs 2 t.month ++ (digs 2 t.day ++ (digs 2 t.hour ++ (digs 2 t.minute ++ (digs 2 t.second ++
    digs 1 (t.micro / 100000))))))

/-- `format_ftimeutc` -/
def format (t : DT) (off : Option ℤ) : Option (List ℕ) := match toUtc t off with
  | none => none
  | some u => (roundTime u).map name

/-! ## Specification -/

def daysBeforeYear (y : ℕ) : ℕ := (y - 1) * 365 + (y - 1) / 4 - (y - 1) / 100 + (y - 1) / 400

def daysBeforeMonth (y m : ℕ) : ℕ := ((List.range (m - 1)).map fun k => dim y (k + 1)).sum

/-- The ordinal of a day, 1 for January 1 of the year 1 (`date.toordinal`). -/
def ordinal (t : DT) : ℕ := daysBeforeYear t.year + daysBeforeMonth t.year t.month + t.day

/-- Microseconds on the time axis. -/
def instant (t : DT) : ℤ := ordinal t * 86400000000 + clock t

def lexLt : List ℕ → List ℕ → Prop
  | [], [] => False
  | [], _ :: _ => True
  | _ :: _, [] => False
  | a :: l, b :: m => a < b ∨ (a = b ∧ lexLt l m)

/-! ## Proofs -/

theorem dby_succ (y : ℕ) (h : 1 ≤ y) : daysBeforeYear (y + 1) = daysBeforeYear y + if leap y then 366 else 365 := by
  unfold daysBeforeYear leap
  by_cases h4 : y % 4 = 0 <;> by_cases h100 : y % 100 = 0 <;> by_cases h400 : y % 400 = 0 <;>
    simp [h4, h100, h400] <;> omega

theorem dby_mono {y z : ℕ} (h1 : 1 ≤ y) (h : y ≤ z) : daysBeforeYear y ≤ daysBeforeYear z := by
  induction z, h using Nat.le_induction with
  | base => exact le_refl _
  | succ z hz ih => rw [dby_succ z (h1.trans hz)]; omega

theorem dbm_succ (y m : ℕ) (h : 1 ≤ m) : daysBeforeMonth y (m + 1) = daysBeforeMonth y m + dim y m := by
  unfold daysBeforeMonth
  obtain ⟨k, rfl⟩ := Nat.exists_eq_add_of_le' h
  rw [Nat.add_sub_cancel, Nat.add_sub_cancel, List.range_succ, List.map_append, List.sum_append]
  simp

theorem dbm_one (y : ℕ) : daysBeforeMonth y 1 = 0 := rfl

theorem dbm_mono {y m k : ℕ} (h1 : 1 ≤ m) (h : m ≤ k) : daysBeforeMonth y m ≤ daysBeforeMonth y k := by
  induction k, h using Nat.le_induction with
  | base => exact le_refl _
  | succ z hz ih => rw [dbm_succ y z (h1.trans hz)]; omega

theorem dbm_13 (y : ℕ) : daysBeforeMonth y 13 = if leap y then 366 else 365 := by
  rw [dbm_succ y 12 (by omega), dbm_succ y 11 (by omega), dbm_succ y 10 (by omega), dbm_succ y 9 (by omega),
    dbm_succ y 8 (by omega), dbm_succ y 7 (by omega), dbm_succ y 6 (by omega), dbm_succ y 5 (by omega),
    dbm_succ y 4 (by omega), dbm_succ y 3 (by omega), dbm_succ y 2 (by omega), dbm_succ y 1 (by omega), dbm_one]
  simp only [dim]
  split <;> rfl

/-- The order of dates. -/
def dateLt (t u : DT) : Prop :=
  t.year < u.year ∨ (t.year = u.year ∧ (t.month < u.month ∨ (t.month = u.month ∧ t.day < u.day)))

theorem ordinal_lt {t u : DT} (ht : Valid t) (hu : Valid u) (h : dateLt t u) : ordinal t < ordinal u := by
  obtain ⟨hy, hm, hd, _⟩ := ht
  obtain ⟨hy', hm', hd', _⟩ := hu
  unfold ordinal
  have hle : daysBeforeMonth t.year t.month + t.day ≤ daysBeforeMonth t.year (t.month + 1) := by
    rw [dbm_succ _ _ hm.1]; omega
  rcases h with h | ⟨hy0, h | ⟨hm0, h⟩⟩
  · have h1 := dby_mono (y := t.year + 1) (by omega) h
    have h2 : daysBeforeMonth t.year (t.month + 1) ≤ daysBeforeMonth t.year 13 := dbm_mono (by omega) (by omega)
    rw [dby_succ _ hy.1] at h1
    rw [dbm_13] at h2
    omega
  · have := dbm_mono (y := t.year) (m := t.month + 1) (by omega) h
    rw [← hy0]; omega
  · rw [← hy0, ← hm0]; omega

theorem clock_bounds {t : DT} (ht : Valid t) : 0 ≤ clock t ∧ clock t < 86400000000 := by
  obtain ⟨_, _, _, h1, h2, h3, h4⟩ := ht
  unfold clock
  omega

/-- All fields in order. -/
def fieldsLt (t u : DT) : Prop :=
  dateLt t u ∨ ((t.year = u.year ∧ t.month = u.month ∧ t.day = u.day) ∧
    (t.hour < u.hour ∨ (t.hour = u.hour ∧ (t.minute < u.minute ∨ (t.minute = u.minute ∧
      (t.second < u.second ∨ (t.second = u.second ∧ t.micro < u.micro)))))))

theorem instant_lt {t u : DT} (ht : Valid t) (hu : Valid u) (h : fieldsLt t u) : instant t < instant u := by
  have hc := clock_bounds ht
  have hc' := clock_bounds hu
  rcases h with h | ⟨⟨h1, h2, h3⟩, h⟩
  · have := ordinal_lt ht hu h
    unfold instant
    omega
  · have : ordinal t = ordinal u := by unfold ordinal; rw [h1, h2, h3]
    unfold instant
    rw [this]
    obtain ⟨_, _, _, a1, a2, a3, a4⟩ := ht
    obtain ⟨_, _, _, b1, b2, b3, b4⟩ := hu
    unfold clock
    omega

theorem fields_total (t u : DT) : fieldsLt t u ∨ t = u ∨ fieldsLt u t := by
  by_cases h : t = u
  · exact Or.inr (Or.inl h)
  · obtain ⟨y, m, d, hh, mi, s, us⟩ := t
    obtain ⟨y', m', d', hh', mi', s', us'⟩ := u
    simp only [DT.mk.injEq] at h
    unfold fieldsLt dateLt
    simp only [DT.mk.injEq]
    omega

/-- Instants determine the fields, in order. -/
theorem instant_strictMono {t u : DT} (ht : Valid t) (hu : Valid u) : instant t < instant u ↔ fieldsLt t u := by
  constructor
  · intro h
    rcases fields_total t u with h1 | h1 | h1
    · exact h1
    · rw [h1] at h; exact absurd h (lt_irrefl _)
    · exact absurd (instant_lt hu ht h1) (not_lt.2 h.le)
  · exact instant_lt ht hu

theorem instant_inj {t u : DT} (ht : Valid t) (hu : Valid u) (h : instant t = instant u) : t = u := by
  rcases fields_total t u with h1 | h1 | h1
  · have := instant_lt ht hu h1; omega
  · exact h1
  · have := instant_lt hu ht h1; omega

theorem dim_pos (y m : ℕ) : 1 ≤ dim y m := by
  unfold dim; split <;> (try split) <;> omega

theorem nextDay_spec {t u : DT} (ht : Valid t) (h : nextDay t = some u) :
    Valid u ∧ ordinal u = ordinal t + 1 ∧ u.hour = t.hour ∧ u.minute = t.minute ∧ u.second = t.second ∧ u.micro = t.micro := by
  obtain ⟨hy, hm, hd, hr⟩ := ht
  unfold nextDay at h
  split_ifs at h with h1 h2 h3 <;> cases h
  · exact ⟨⟨hy, hm, ⟨by simp, h1⟩, hr⟩, by unfold ordinal; simp only; omega, rfl, rfl, rfl, rfl⟩
  · refine ⟨⟨hy, ⟨by simp, h2⟩, ⟨le_refl _, dim_pos _ _⟩, hr⟩, ?_, rfl, rfl, rfl, rfl⟩
    unfold ordinal; simp only
    rw [dbm_succ _ _ hm.1]; omega
  · refine ⟨⟨⟨by simp, h3⟩, ⟨le_refl _, by simp⟩, ⟨le_refl _, dim_pos _ _⟩, hr⟩, ?_, rfl, rfl, rfl, rfl⟩
    unfold ordinal; simp only
    have h12 : t.month = 12 := by omega
    have := dbm_succ t.year 12 (by omega)
    rw [dbm_13] at this
    rw [dby_succ _ hy.1, dbm_one, h12]
    rw [h12] at h1 hd
    omega

theorem prevDay_spec {t u : DT} (ht : Valid t) (h : prevDay t = some u) :
    Valid u ∧ ordinal u + 1 = ordinal t ∧ u.hour = t.hour ∧ u.minute = t.minute ∧ u.second = t.second ∧ u.micro = t.micro := by
  obtain ⟨hy, hm, hd, hr⟩ := ht
  unfold prevDay at h
  split_ifs at h with h1 h2 h3 <;> cases h
  · exact ⟨⟨hy, hm, ⟨by simp only; omega, by simp only; omega⟩, hr⟩, by unfold ordinal; simp only; omega, rfl, rfl, rfl, rfl⟩
  · refine ⟨⟨hy, ⟨by simp only; omega, by simp only; omega⟩, ⟨dim_pos _ _, le_refl _⟩, hr⟩, ?_, rfl, rfl, rfl, rfl⟩
    unfold ordinal; simp only
    have := dbm_succ t.year (t.month - 1) (by omega)
    rw [show t.month - 1 + 1 = t.month by omega] at this
    omega
  · refine ⟨⟨⟨by simp only; omega, by simp only; omega⟩, ⟨by simp, le_refl _⟩, ⟨by simp, by simp [dim]⟩, hr⟩, ?_, rfl, rfl, rfl, rfl⟩
    unfold ordinal; simp only
    have h12 : t.month = 1 := by omega
    have e1 := dby_succ (t.year - 1) (by omega)
    rw [show t.year - 1 + 1 = t.year by omega] at e1
    have e2 := dbm_succ (t.year - 1) 12 (by omega)
    rw [dbm_13] at e2
    have e3 : dim (t.year - 1) 12 = 31 := rfl
    rw [h12, dbm_one, e1]
    omega

theorem setClock_spec {t : DT} (ht : Valid t) {c : ℕ} (hc : c < 86400000000) :
    Valid (setClock t c) ∧ ordinal (setClock t c) = ordinal t ∧ clock (setClock t c) = c := by
  obtain ⟨hy, hm, hd, _⟩ := ht
  refine ⟨⟨hy, hm, hd, ?_⟩, rfl, ?_⟩
  · simp only [setClock]; omega
  · simp only [clock, setClock]; omega

theorem addMicros_spec {t u : DT} {d : ℤ} (ht : Valid t) (hd : -86400000000 ≤ d ∧ d ≤ 86400000000)
    (h : addMicros t d = some u) : Valid u ∧ instant u = instant t + d := by
  have hc := clock_bounds ht
  unfold addMicros at h
  dsimp only at h
  split_ifs at h with h1 h2
  · obtain ⟨v, hv, rfl⟩ := Option.map_eq_some_iff.1 h
    obtain ⟨a, b, _⟩ := prevDay_spec ht hv
    obtain ⟨a', b', c'⟩ := setClock_spec a (c := (clock t + d + 86400000000).toNat) (by omega)
    refine ⟨a', ?_⟩
    unfold instant; rw [b', c']; omega
  · cases h
    obtain ⟨a', b', c'⟩ := setClock_spec ht (c := (clock t + d).toNat) (by omega)
    refine ⟨a', ?_⟩
    unfold instant; rw [b', c']; omega
  · obtain ⟨v, hv, rfl⟩ := Option.map_eq_some_iff.1 h
    obtain ⟨a, b, _⟩ := nextDay_spec ht hv
    obtain ⟨a', b', c'⟩ := setClock_spec a (c := (clock t + d - 86400000000).toNat) (by omega)
    refine ⟨a', ?_⟩
    unfold instant; rw [b', c']; omega

theorem instant_setMicro (t : DT) (m : ℕ) : instant { t with micro := m } = instant t - t.micro + m := by
  unfold instant ordinal clock; simp only; ring

/-- **C42** The result is the time rounded to the nearest 0.1 s, halves up, with all fields in range. -/
theorem C42_round {t u : DT} (ht : Valid t) (h : roundTime t = some u) :
    Valid u ∧ instant u = (instant t + 50000) / 100000 * 100000 := by
  have hm := ht.2.2.2.2.2.2
  have hi : (instant t - t.micro) % 1000000 = 0 := by
    unfold instant clock; omega
  unfold roundTime at h
  split_ifs at h with h1
  · have hv : Valid { t with micro := 0 } := ⟨ht.1, ht.2.1, ht.2.2.1, ht.2.2.2.1, ht.2.2.2.2.1, ht.2.2.2.2.2.1, by simp⟩
    obtain ⟨a, b⟩ := addMicros_spec hv (by omega) h
    refine ⟨a, ?_⟩
    rw [b, instant_setMicro]
    unfold roundMicro at h1
    omega
  · cases h
    refine ⟨⟨ht.1, ht.2.1, ht.2.2.1, ht.2.2.2.1, ht.2.2.2.2.1, ht.2.2.2.2.2.1, by simp only; omega⟩, ?_⟩
    rw [instant_setMicro]
    unfold roundMicro at *
    omega

/-- **C42** Within 50 ms of the input. -/
theorem C42_within {t u : DT} (ht : Valid t) (h : roundTime t = some u) : |instant u - instant t| ≤ 50000 := by
  rw [(C42_round ht h).2, abs_le]
  omega

/-- **C42** Monotone. -/
theorem C42_monotone {t t' u u' : DT} (ht : Valid t) (ht' : Valid t') (h : roundTime t = some u) (h' : roundTime t' = some u')
    (hle : instant t ≤ instant t') : instant u ≤ instant u' := by
  rw [(C42_round ht h).2, (C42_round ht' h').2]
  omega

/-- **C42** It fails (OverflowError) exactly in the last 50 ms of the year 9999. -/
theorem C42_fails_iff {t : DT} (ht : Valid t) : roundTime t = none ↔
    t.year = 9999 ∧ t.month = 12 ∧ t.day = 31 ∧ t.hour = 23 ∧ t.minute = 59 ∧ t.second = 59 ∧ 950000 ≤ t.micro := by
  obtain ⟨hy, hm, hd, h1, h2, h3, h4⟩ := ht
  have hdim : dim t.year 12 = 31 := rfl
  unfold roundTime
  split_ifs with hr
  · unfold addMicros
    dsimp only
    have hc : clock { t with micro := 0 } = ((t.hour * 60 + t.minute) * 60 + t.second) * 1000000 := by
      unfold clock; simp
    rw [hc]
    unfold roundMicro at hr
    rw [if_neg (by omega)]
    split_ifs with h5
    · simp only [false_iff]; omega
    · rw [Option.map_eq_none_iff]
      unfold nextDay
      simp only
      split_ifs with a b c
      · simp only [false_iff]
        intro hh; rw [hh.2.1, hdim] at a; omega
      · simp only [false_iff]; omega
      · simp only [false_iff]; omega
      · simp only [true_iff]
        have : t.month = 12 := by omega
        rw [this, hdim] at a
        rw [this, hdim] at hd
        omega
  · unfold roundMicro at hr
    simp only [false_iff]; omega

/-- **C42** Times with an offset: the instant in UTC. -/
theorem C42_utc {t u : DT} {o : ℤ} (ht : Valid t) (ho : -86400000000 ≤ o ∧ o ≤ 86400000000) (h : toUtc t (some o) = some u) :
    Valid u ∧ instant u = instant t - o := by
  obtain ⟨a, b⟩ := addMicros_spec ht (d := -o) (by omega) h
  exact ⟨a, by omega⟩

theorem instant_bounds {u : DT} (hu : Valid u) : 86400000000 ≤ instant u ∧ instant u < 3652060 * 86400000000 := by
  have hc := clock_bounds hu
  constructor
  · have : 1 ≤ ordinal u := by
      unfold ordinal
      have := hu.2.2.1.1
      omega
    unfold instant
    omega
  · have hM : Valid ⟨9999, 12, 31, 23, 59, 59, 999999⟩ := by decide +kernel
    have hle : ¬ instant ⟨9999, 12, 31, 23, 59, 59, 999999⟩ < instant u := by
      rw [instant_strictMono hM hu]
      obtain ⟨hy, hm, hd, h1, h2, h3, h4⟩ := hu
      have hdim : dim u.year u.month ≤ 31 := by
        unfold dim
        split <;> (try split) <;> omega
      unfold fieldsLt dateLt
      dsimp only
      omega
    have e : instant ⟨9999, 12, 31, 23, 59, 59, 999999⟩ = 3652060 * 86400000000 - 1 := by decide +kernel
    omega

/-- **C42** The conversion to UTC fails (OverflowError) exactly if the instant is before the year 1 or after the year 9999. -/
theorem C42_utc_fails_iff {t : DT} {o : ℤ} (ht : Valid t) (ho : -86400000000 ≤ o ∧ o ≤ 86400000000) :
    toUtc t (some o) = none ↔ instant t - o < 86400000000 ∨ 3652060 * 86400000000 ≤ instant t - o := by
  cases h : toUtc t (some o) with
  | some u =>
    obtain ⟨hu, e⟩ := C42_utc ht ho h
    have := instant_bounds hu
    simp only [reduceCtorEq, false_iff]
    omega
  | none =>
    simp only [true_iff]
    obtain ⟨hy, hm, hd, hr⟩ := ht
    unfold toUtc addMicros at h
    dsimp only at h
    split_ifs at h with h1 h2
    · rw [Option.map_eq_none_iff] at h
      unfold prevDay at h
      split_ifs at h with a b c
      have e : ordinal t = 1 := by
        unfold ordinal
        have e1 : t.month = 1 := by omega
        have e2 : t.year = 1 := by omega
        have e3 : t.day = 1 := by omega
        rw [e1, e2, e3]
        rfl
      left
      unfold instant
      omega
    · rw [Option.map_eq_none_iff] at h
      unfold nextDay at h
      split_ifs at h with a b c
      have e1 : t.month = 12 := by omega
      have e2 : t.year = 9999 := by omega
      have e3 : t.day = 31 := by
        rw [e1, e2] at a hd
        have : dim 9999 12 = 31 := rfl
        omega
      have e : ordinal t = 3652059 := by
        unfold ordinal
        rw [e1, e2, e3]
        decide +kernel
      right
      unfold instant
      omega

/-- **C42** The calendar: the lengths of the months, and the leap years of the Gregorian rule. -/
theorem C42_calendar (y : ℕ) : (List.range 12).map (fun k => dim y (k + 1)) =
    [31, if 4 ∣ y ∧ (100 ∣ y → 400 ∣ y) then 29 else 28, 31, 30, 31, 30, 31, 31, 30, 31, 30, 31] := by
  have hl : leap y = true ↔ 4 ∣ y ∧ (100 ∣ y → 400 ∣ y) := by
    unfold leap
    simp only [Bool.and_eq_true, Bool.or_eq_true, beq_iff_eq, bne_iff_ne, Nat.dvd_iff_mod_eq_zero]
    tauto
  have h2 : dim y 2 = if 4 ∣ y ∧ (100 ∣ y → 400 ∣ y) then 29 else 28 := by
    unfold dim
    by_cases h : leap y = true
    · simp only [h, if_true]
      rw [if_pos (hl.1 h)]
    · simp only [h]
      rw [if_neg fun hh => h (hl.2 hh)]
      rfl
  rw [← h2]
  rfl

/-! ### Names -/

theorem digs_length (w n : ℕ) : (digs w n).length = w := by
  induction w generalizing n with
  | zero => rfl
  | succ w ih => simp [digs, ih]

theorem lexLt_append {a b l m : List ℕ} (h : a.length = b.length) :
    lexLt (a ++ l) (b ++ m) ↔ lexLt a b ∨ (a = b ∧ lexLt l m) := by
  induction a generalizing b with
  | nil =>
    cases b with
    | nil => simp [lexLt]
    | cons y b => simp at h
  | cons x a ih =>
    cases b with
    | nil => simp at h
    | cons y b =>
      simp only [List.cons_append, lexLt, List.cons.injEq]
      rw [ih (by simpa using h)]
      tauto

theorem digs_lt {w a b : ℕ} (ha : a < 10 ^ w) (hb : b < 10 ^ w) : (lexLt (digs w a) (digs w b) ↔ a < b) ∧
    (digs w a = digs w b ↔ a = b) := by
  induction w generalizing a b with
  | zero =>
    have : a = 0 ∧ b = 0 := by simp at ha hb; exact ⟨ha, hb⟩
    rw [this.1, this.2]; simp [digs, lexLt]
  | succ w ih =>
    have hp : 0 < 10 ^ w := by positivity
    have h1 : a / 10 ^ w < 10 := by rw [Nat.div_lt_iff_lt_mul hp, mul_comm, ← pow_succ]; exact ha
    have h2 : b / 10 ^ w < 10 := by rw [Nat.div_lt_iff_lt_mul hp, mul_comm, ← pow_succ]; exact hb
    have := ih (a := a % 10 ^ w) (b := b % 10 ^ w) (Nat.mod_lt _ hp) (Nat.mod_lt _ hp)
    have ea := Nat.div_add_mod a (10 ^ w)
    have eb := Nat.div_add_mod b (10 ^ w)
    have la := Nat.mod_lt a hp
    have lb := Nat.mod_lt b hp
    simp only [digs, lexLt, List.cons.injEq, Nat.mod_eq_of_lt h1, Nat.mod_eq_of_lt h2, this.1, this.2]
    generalize a / 10 ^ w = x at *
    generalize b / 10 ^ w = y at *
    generalize a % 10 ^ w = r at *
    generalize b % 10 ^ w = s at *
    generalize 10 ^ w = p at *
    constructor
    · constructor
      · rintro (h | ⟨h, h'⟩)
        · have : p * x + p ≤ p * y := by
            calc p * x + p = p * (x + 1) := by ring
              _ ≤ p * y := Nat.mul_le_mul_left _ h
          omega
        · subst h; omega
      · intro h
        by_contra hcon
        push Not at hcon
        rcases Nat.lt_or_ge y x with h3 | h3
        · have : p * y + p ≤ p * x := by
            calc p * y + p = p * (y + 1) := by ring
              _ ≤ p * x := Nat.mul_le_mul_left _ h3
          omega
        · have hxy : x = y := le_antisymm h3 hcon.1 |>.symm ▸ rfl
          have := hcon.2 hxy
          subst hxy
          omega
    · constructor
      · rintro ⟨rfl, rfl⟩; omega
      · intro h
        have hxy : x = y := by
          rcases Nat.lt_trichotomy x y with h3 | h3 | h3
          · have : p * x + p ≤ p * y := by
              calc p * x + p = p * (x + 1) := by ring
                _ ≤ p * y := Nat.mul_le_mul_left _ h3
            omega
          · exact h3
          · have : p * y + p ≤ p * x := by
              calc p * y + p = p * (y + 1) := by ring
                _ ≤ p * x := Nat.mul_le_mul_left _ h3
            omega
        subst hxy
        exact ⟨rfl, by omega⟩

theorem dim_le (y m : ℕ) : dim y m ≤ 31 := by
  unfold dim; split <;> (try split) <;> omega

/-- **C42** File names sort by time: for rounded times the alphabetical order of the names is the order of the instants. -/
theorem C42_name_order {t u : DT} (ht : Valid t) (hu : Valid u) (h1 : t.micro % 100000 = 0) (h2 : u.micro % 100000 = 0) :
    (lexLt (name t) (name u) ↔ instant t < instant u) ∧ (name t = name u ↔ t = u) := by
  rw [instant_strictMono ht hu]
  obtain ⟨a1, a2, a3, a4, a5, a6, a7⟩ := ht
  obtain ⟨b1, b2, b3, b4, b5, b6, b7⟩ := hu
  have l1 := dim_le t.year t.month
  have l2 := dim_le u.year u.month
  have dy := digs_lt (w := 4) (a := t.year) (b := u.year) (by omega) (by omega)
  have dm := digs_lt (w := 2) (a := t.month) (b := u.month) (by omega) (by omega)
  have dd := digs_lt (w := 2) (a := t.day) (b := u.day) (by omega) (by omega)
  have dh := digs_lt (w := 2) (a := t.hour) (b := u.hour) (by omega) (by omega)
  have dmi := digs_lt (w := 2) (a := t.minute) (b := u.minute) (by omega) (by omega)
  have ds := digs_lt (w := 2) (a := t.second) (b := u.second) (by omega) (by omega)
  have dt := digs_lt (w := 1) (a := t.micro / 100000) (b := u.micro / 100000) (by omega) (by omega)
  have len : ∀ (w n m : ℕ), (digs w n).length = (digs w m).length := fun w n m => by rw [digs_length, digs_length]
  constructor
  · unfold name
    rw [lexLt_append (len _ _ _), lexLt_append (len _ _ _), lexLt_append (len _ _ _), lexLt_append (len _ _ _),
      lexLt_append (len _ _ _), lexLt_append (len _ _ _), dy.1, dy.2, dm.1, dm.2, dd.1, dd.2, dh.1, dh.2, dmi.1, dmi.2,
      ds.1, ds.2, dt.1]
    unfold fieldsLt dateLt
    omega
  · constructor
    · intro h
      unfold name at h
      obtain ⟨e1, h⟩ := List.append_inj h (len _ _ _)
      obtain ⟨e2, h⟩ := List.append_inj h (len _ _ _)
      obtain ⟨e3, h⟩ := List.append_inj h (len _ _ _)
      obtain ⟨e4, h⟩ := List.append_inj h (len _ _ _)
      obtain ⟨e5, h⟩ := List.append_inj h (len _ _ _)
      obtain ⟨e6, e7⟩ := List.append_inj h (len _ _ _)
      have f1 := dy.2.1 e1
      have f2 := dm.2.1 e2
      have f3 := dd.2.1 e3
      have f4 := dh.2.1 e4
      have f5 := dmi.2.1 e5
      have f6 := ds.2.1 e6
      have f7 := dt.2.1 e7
      obtain ⟨y, m, d, hh, mi, s, us⟩ := t
      obtain ⟨y', m', d', hh', mi', s', us'⟩ := u
      simp only at f1 f2 f3 f4 f5 f6 f7 h1 h2
      simp only [DT.mk.injEq]
      omega
    · rintro rfl; rfl

theorem format_spec {t : DT} {off : Option ℤ} {n : List ℕ} (ht : Valid t)
    (ho : ∀ o, off = some o → -86400000000 ≤ o ∧ o ≤ 86400000000) (h : format t off = some n) :
    ∃ u, Valid u ∧ u.micro % 100000 = 0 ∧ n = name u ∧
      instant u = (instant t - off.getD 0 + 50000) / 100000 * 100000 := by
  unfold format at h
  cases hu : toUtc t off with
  | none => rw [hu] at h; cases h
  | some v =>
    rw [hu] at h
    obtain ⟨u, hru, rfl⟩ := Option.map_eq_some_iff.1 h
    have hv : Valid v ∧ instant v = instant t - off.getD 0 := by
      cases off with
      | none => cases hu; exact ⟨ht, by simp⟩
      | some o => exact C42_utc ht (ho o rfl) hu
    obtain ⟨a, b⟩ := C42_round hv.1 hru
    refine ⟨u, a, ?_, rfl, by rw [b, hv.2]⟩
    have : instant u % 100000 = 0 := by omega
    unfold instant clock at this
    omega

/-- **C42** The digits name the UTC instant of the input, rounded to the nearest 0.1 s: the name is that of the one
valid time with a whole number of tenths at that instant. -/
theorem C42_format {t u : DT} {off : Option ℤ} {n : List ℕ} (ht : Valid t)
    (ho : ∀ o, off = some o → -86400000000 ≤ o ∧ o ≤ 86400000000) (h : format t off = some n) (hu : Valid u)
    (hi : instant u = (instant t - off.getD 0 + 50000) / 100000 * 100000) : n = name u ∧ n.length = 15 := by
  obtain ⟨v, a, _, rfl, b⟩ := format_spec ht ho h
  rw [instant_inj hu a (hi.trans b.symm)]
  exact ⟨rfl, by simp [name, digs_length]⟩

/-- **C42** Two names sort as the two times do; they are equal exactly when both round to the same tenth of a second. -/
theorem C42_sorted {t t' : DT} {off off' : Option ℤ} {n n' : List ℕ} (ht : Valid t) (ht' : Valid t')
    (ho : ∀ o, off = some o → -86400000000 ≤ o ∧ o ≤ 86400000000)
    (ho' : ∀ o, off' = some o → -86400000000 ≤ o ∧ o ≤ 86400000000) (h : format t off = some n) (h' : format t' off' = some n') :
    (lexLt n n' → instant t - off.getD 0 < instant t' - off'.getD 0) ∧
    (instant t - off.getD 0 + 100000 ≤ instant t' - off'.getD 0 → lexLt n n') ∧
    (n = n' ↔ (instant t - off.getD 0 + 50000) / 100000 = (instant t' - off'.getD 0 + 50000) / 100000) := by
  obtain ⟨u, a, m, rfl, b⟩ := format_spec ht ho h
  obtain ⟨u', a', m', rfl, b'⟩ := format_spec ht' ho' h'
  obtain ⟨c, d⟩ := C42_name_order a a' m m'
  refine ⟨fun hl => ?_, fun hl => c.2 ?_, ?_⟩
  · have := c.1 hl
    omega
  · omega
  · rw [d]
    constructor
    · rintro rfl; omega
    · intro he
      exact instant_inj a a' (by rw [b, b', he])

/-- A time already in tenths is unchanged. -/
theorem C42_fixed {t : DT} (ht : Valid t) (h : t.micro % 100000 = 0) : roundTime t = some t := by
  have := ht.2.2.2.2.2.2
  have hr : roundMicro t.micro = t.micro := by unfold roundMicro; omega
  unfold roundTime
  rw [hr, if_neg (by omega)]

/-! ## Non-vacuity -/

/-- 2024-02-28T23:59:59.97 rounds into February 29. -/
example : format ⟨2024, 2, 28, 23, 59, 59, 970000⟩ none = some [2, 0, 2, 4, 0, 2, 2, 9, 0, 0, 0, 0, 0, 0, 0] := by decide

/-- 2025-12-31T23:59:59.95-01:00 -/
example : format ⟨2025, 12, 31, 23, 59, 59, 950000⟩ (some (-3600000000)) = some [2, 0, 2, 6, 0, 1, 0, 1, 0, 1, 0, 0, 0, 0, 0] := by
  decide

example : format ⟨2025, 3, 1, 0, 30, 12, 349999⟩ (some 3600000000) = some [2, 0, 2, 5, 0, 2, 2, 8, 2, 3, 3, 0, 1, 2, 3] := by
  decide

example : Valid ⟨2024, 2, 29, 0, 0, 0, 0⟩ ∧ ¬ Valid ⟨2023, 2, 29, 0, 0, 0, 0⟩ := by decide +kernel

example : format ⟨9999, 12, 31, 23, 59, 59, 950000⟩ none = none := by decide

end Corgi.Ftime

import Mathlib.Tactic.Common
import Mathlib.Tactic.IntervalCases

/-!
# The calendar of `datetime`

What `datetime.timestamp`, `datetime.astimezone` and `datetime.fromtimestamp` (used by
`smithy_core/utils.py` lines 18-31, 53-67, 187-213) do with dates: counting days from the 1st of
January of the year 1, and back.  Modelled from `datetime.py` of Python 3.11, lines 33-148.
-/

set_option autoImplicit false

namespace Verif.Timestamps

/-! ## Model -/

/-- A date, not necessarily one of the calendar. -/
structure Date where
  year : Nat
  month : Nat
  day : Nat
deriving Repr, DecidableEq

/-- `_is_leap`, datetime.py lines 42-44. -/
def isLeap (year : Nat) : Bool := year % 4 == 0 && (year % 100 != 0 || year % 400 == 0)

/-- `_DAYS_IN_MONTH`, datetime.py line 33; 0 outside 1..12 (the callers check the month first). -/
def daysInCommonMonth : Nat → Nat
  | 1 => 31 | 2 => 28 | 3 => 31 | 4 => 30 | 5 => 31 | 6 => 30
  | 7 => 31 | 8 => 31 | 9 => 30 | 10 => 31 | 11 => 30 | 12 => 31 | _ => 0

/-- `_days_in_month`, datetime.py lines 51-56. -/
def daysInMonth (year month : Nat) : Nat :=
  if month == 2 && isLeap year then 29 else daysInCommonMonth month

/-- `_DAYS_BEFORE_MONTH`, datetime.py lines 35-40. -/
def daysBeforeCommonMonth : Nat → Nat
  | 1 => 0 | 2 => 31 | 3 => 59 | 4 => 90 | 5 => 120 | 6 => 151
  | 7 => 181 | 8 => 212 | 9 => 243 | 10 => 273 | 11 => 304 | 12 => 334 | _ => 365

/-- `_days_before_month`, datetime.py lines 58-61. -/
def daysBeforeMonth (year month : Nat) : Nat :=
  daysBeforeCommonMonth month + if decide (2 < month) && isLeap year then 1 else 0

/-- `_days_before_year`, datetime.py lines 46-49 (years are positive). -/
def daysBeforeYear (year : Nat) : Nat :=
  let y := year - 1
  y * 365 + y / 4 - y / 100 + y / 400

/-- `_ymd2ord`, datetime.py lines 63-70, for dates of the calendar. -/
def toOrdinal (d : Date) : Nat := daysBeforeYear d.year + daysBeforeMonth d.year d.month + d.day

/-- The month and day of the day `n` of a year, counted from 0: the end of `_ord2ymd`, datetime.py
lines 133-148. -/
def monthDay (leap : Bool) (n : Nat) : Nat × Nat :=
  let month := (n + 50) >>> 5
  let preceding := daysBeforeCommonMonth month + if decide (2 < month) && leap then 1 else 0
  if n < preceding then
    let month := month - 1
    let preceding := preceding - (daysInCommonMonth month + if month == 2 && leap then 1 else 0)
    (month, n - preceding + 1)
  else (month, n - preceding + 1)

/-- `_ord2ymd`, datetime.py lines 88-148, for positive ordinals. -/
def ofOrdinal (n : Nat) : Date :=
  let n := n - 1
  let n400 := n / 146097
  let n := n % 146097
  let year := n400 * 400 + 1
  let n100 := n / 36524
  let n := n % 36524
  let n4 := n / 1461
  let n := n % 1461
  let n1 := n / 365
  let n := n % 365
  let year := year + (n100 * 100 + n4 * 4 + n1)
  if n1 == 4 || n100 == 4 then ⟨year - 1, 12, 31⟩
  else
    let (month, day) := monthDay (n1 == 3 && (n4 != 24 || n100 == 3)) n
    ⟨year, month, day⟩

/-! ## Specification -/

namespace Spec

/-- The leap years of the Gregorian calendar. -/
def Leap (y : Nat) : Prop := 4 ∣ y ∧ (¬ 100 ∣ y ∨ 400 ∣ y)

/-- The number of days of a month: thirty days hath September, ... -/
def monthLength (y : Nat) [Decidable (Leap y)] (m : Nat) : Nat :=
  if m ∈ [4, 6, 9, 11] then 30 else if m = 2 then (if Leap y then 29 else 28) else 31

instance (y : Nat) : Decidable (Leap y) := by unfold Leap; infer_instance

/-- The dates of the calendar, from the year 1 on. -/
def IsDate (d : Date) : Prop :=
  1 ≤ d.year ∧ 1 ≤ d.month ∧ d.month ≤ 12 ∧ 1 ≤ d.day ∧ d.day ≤ monthLength d.year d.month

instance (d : Date) : Decidable (IsDate d) := by unfold IsDate; infer_instance

/-- The day after a day. -/
def next (d : Date) : Date :=
  if d.day < monthLength d.year d.month then ⟨d.year, d.month, d.day + 1⟩
  else if d.month < 12 then ⟨d.year, d.month + 1, 1⟩
  else ⟨d.year + 1, 1, 1⟩

end Spec

open Spec

/-! ## Theorems -/

theorem isLeap_iff (y : Nat) : isLeap y = true ↔ Leap y := by
  simp only [isLeap, Leap, Bool.and_eq_true, beq_iff_eq, Bool.or_eq_true, bne_iff_ne, Nat.dvd_iff_mod_eq_zero]

theorem isLeap_false (y : Nat) : isLeap y = false ↔ ¬ Leap y := by
  rw [← isLeap_iff]; simp

theorem daysInMonth_eq (y m : Nat) (h1 : 1 ≤ m) (h2 : m ≤ 12) : daysInMonth y m = monthLength y m := by
  unfold daysInMonth monthLength
  have := isLeap_iff y
  by_cases hl : Leap y
  · have hb := this.2 hl
    simp only [hb, hl, if_true, Bool.and_true, beq_iff_eq]
    interval_cases m <;> rfl
  · have hb := (isLeap_false y).2 hl
    simp only [hb, hl, if_false, Bool.and_false, Bool.false_eq_true]
    interval_cases m <;> rfl

theorem daysBeforeYear_succ (y : Nat) (h : 1 ≤ y) :
    daysBeforeYear (y + 1) = daysBeforeYear y + if Leap y then 366 else 365 := by
  unfold daysBeforeYear
  obtain ⟨z, rfl⟩ : ∃ z, y = z + 1 := ⟨y - 1, by omega⟩
  split <;> rename_i hl <;> simp only [Leap] at hl <;> simp only [Nat.add_sub_cancel] <;> omega

theorem monthLength_cases (y m : Nat) (h1 : 1 ≤ m) (h2 : m ≤ 12) :
    daysBeforeMonth y m + monthLength y m =
      if m < 12 then daysBeforeMonth y (m + 1) else if Leap y then 366 else 365 := by
  rw [← daysInMonth_eq y m h1 h2]
  by_cases hl : Leap y
  · have hb := (isLeap_iff y).2 hl
    simp only [daysBeforeMonth, daysInMonth, hb, hl, if_true]
    interval_cases m <;> rfl
  · have hb := (isLeap_false y).2 hl
    simp only [daysBeforeMonth, daysInMonth, hb, hl, if_false]
    interval_cases m <;> rfl

/-- The days are counted one after the other. -/
theorem toOrdinal_next {d : Date} (h : IsDate d) : toOrdinal (next d) = toOrdinal d + 1 ∧ IsDate (next d) := by
  obtain ⟨y, m, a⟩ := d
  obtain ⟨h1, h2, h3, h4, h5⟩ := h
  simp only at h1 h2 h3 h4 h5
  have key := monthLength_cases y m h2 h3
  unfold next
  simp only
  split
  · rename_i hlt
    exact ⟨by simp only [toOrdinal]; omega, h1, h2, h3, by simp only; omega, by simp only; omega⟩
  · rename_i hge
    have ha : a = monthLength y m := by omega
    split
    · rename_i hm
      rw [if_pos hm] at key
      refine ⟨by simp only [toOrdinal]; omega, h1, by simp only; omega, by simp only; omega, by simp, ?_⟩
      simp only [monthLength]
      split
      · omega
      · split
        · split <;> omega
        · omega
    · rename_i hm
      have hm : m = 12 := by omega
      subst hm
      rw [if_neg (by omega)] at key
      refine ⟨?_, by simp, by simp, by simp, by simp, by simp [monthLength]⟩
      have := daysBeforeYear_succ y h1
      have hj : daysBeforeMonth (y + 1) 1 = 0 := by simp [daysBeforeMonth, daysBeforeCommonMonth]
      simp only [toOrdinal, hj, this]
      omega

theorem toOrdinal_first : toOrdinal ⟨1, 1, 1⟩ = 1 := by decide

/-- `monthDay` finds the month and the day within the year. -/
theorem monthDay_before (leap : Bool) (m a : Nat) (h1 : 1 ≤ m) (h2 : m ≤ 12) (h3 : 1 ≤ a)
    (h4 : a ≤ if m == 2 && leap then 29 else daysInCommonMonth m) :
    monthDay leap (daysBeforeCommonMonth m + (if decide (2 < m) && leap then 1 else 0) + a - 1) = (m, a) := by
  have sh : ∀ n : Nat, n >>> 5 = n / 32 := fun n => by rw [Nat.shiftRight_eq_div_pow]
  cases leap
  · interval_cases m <;>
    simp only [daysInCommonMonth, daysBeforeCommonMonth, Bool.and_false, Bool.false_eq_true, if_false] at h4 ⊢ <;>
    interval_cases a <;> decide
  · interval_cases m <;>
    simp only [daysInCommonMonth, daysBeforeCommonMonth, Bool.and_true, Nat.reduceBEq, Nat.reduceLT, decide_true, decide_false, Bool.false_eq_true, if_false, if_true] at h4 ⊢ <;>
    interval_cases a <;> decide

theorem dayOfYear_lt (y m a : Nat) (h1 : 1 ≤ m) (h2 : m ≤ 12) (h4 : a ≤ monthLength y m) :
    daysBeforeMonth y m + a ≤ if Leap y then 366 else 365 := by
  have h := monthLength_cases y m h1 h2
  have mono : ∀ m, 1 ≤ m → m ≤ 12 → daysBeforeMonth y m + monthLength y m ≤ if Leap y then 366 else 365 := by
    intro m h1 h2
    rw [← daysInMonth_eq y m h1 h2]
    by_cases hl : Leap y
    · have hb := (isLeap_iff y).2 hl
      simp only [daysBeforeMonth, daysInMonth, hb, hl, if_true]
      interval_cases m <;> decide
    · have hb := (isLeap_false y).2 hl
      simp only [daysBeforeMonth, daysInMonth, hb, hl, if_false]
      interval_cases m <;> decide
  have := mono m h1 h2
  omega

/-- The last day of a leap year that is the last of four. -/
theorem ofOrdinal_last (A B C n : Nat) (hB : B < 4) (hC : C < 25) (hCB : C ≠ 24 ∨ B = 3)
    (hn : n = 146097 * A + 36524 * B + 1461 * C + 1461) :
    ofOrdinal n = ⟨400 * A + 100 * B + 4 * C + 4, 12, 31⟩ := by
  subst hn
  unfold ofOrdinal
  simp only
  by_cases hC24 : C = 24
  · have hB3 : B = 3 := by omega
    have e1 : (146097 * A + 36524 * B + 1461 * C + 1461 - 1) / 146097 = A := by omega
    have e2 : (146097 * A + 36524 * B + 1461 * C + 1461 - 1) % 146097 = 146096 := by omega
    rw [e1, e2]
    simp
    omega
  · have e1 : (146097 * A + 36524 * B + 1461 * C + 1461 - 1) / 146097 = A := by omega
    have e2 : (146097 * A + 36524 * B + 1461 * C + 1461 - 1) % 146097 = 36524 * B + (1461 * C + 1460) := by omega
    have e3 : (36524 * B + (1461 * C + 1460)) / 36524 = B := by omega
    have e4 : (36524 * B + (1461 * C + 1460)) % 36524 = 1461 * C + 1460 := by omega
    have e5 : ∀ k, k < 1461 → (1461 * C + k) / 1461 = C := by intro k hk; omega
    have e6 : ∀ k, k < 1461 → (1461 * C + k) % 1461 = k := by intro k hk; omega
    rw [e1, e2, e3, e4, e5 _ (by decide), e6 _ (by decide)]
    simp
    omega

/-- All other days. -/
theorem ofOrdinal_other (A B C E n k : Nat) (hB : B < 4) (hC : C < 25) (hE : E < 4) (hn : n < 365)
    (hk : k = 146097 * A + (36524 * B + (1461 * C + (365 * E + n))) + 1) :
    ofOrdinal k = ⟨400 * A + 1 + (B * 100 + C * 4 + E), (monthDay (E == 3 && (C != 24 || B == 3)) n).1,
      (monthDay (E == 3 && (C != 24 || B == 3)) n).2⟩ := by
  subst hk
  unfold ofOrdinal
  simp only [Nat.add_sub_cancel]
  have e1 : (146097 * A + (36524 * B + (1461 * C + (365 * E + n)))) / 146097 = A := by omega
  have e2 : (146097 * A + (36524 * B + (1461 * C + (365 * E + n)))) % 146097 =
    36524 * B + (1461 * C + (365 * E + n)) := by omega
  have e3 : (36524 * B + (1461 * C + (365 * E + n))) / 36524 = B := by omega
  have e4 : (36524 * B + (1461 * C + (365 * E + n))) % 36524 = 1461 * C + (365 * E + n) := by omega
  have e5 : (1461 * C + (365 * E + n)) / 1461 = C := by omega
  have e6 : (1461 * C + (365 * E + n)) % 1461 = 365 * E + n := by omega
  have e7 : (365 * E + n) / 365 = E := by omega
  have e8 : (365 * E + n) % 365 = n := by omega
  rw [e1, e2, e3, e4, e5, e6, e7, e8]
  have hc : (E == 4 || B == 4) = false := by simp; omega
  rw [hc, Nat.mul_comm A 400]
  rfl

/-- The year within its cycles. -/
theorem year_cycles (z : Nat) : ∃ A B C E, B < 4 ∧ C < 25 ∧ E < 4 ∧ z = 400 * A + 100 * B + 4 * C + E ∧
    daysBeforeYear (z + 1) = 146097 * A + (36524 * B + (1461 * C + 365 * E)) ∧
    (Leap (z + 1) ↔ (E = 3 ∧ (C ≠ 24 ∨ B = 3))) := by
  refine ⟨z / 400, z % 400 / 100, z % 100 / 4, z % 4, by omega, by omega, by omega, by omega, ?_, ?_⟩
  · unfold daysBeforeYear
    simp only [Nat.add_sub_cancel]
    have e1 : z / 4 = 100 * (z / 400) + 25 * (z % 400 / 100) + z % 100 / 4 := by omega
    have e2 : z / 100 = 4 * (z / 400) + z % 400 / 100 := by omega
    have e3 : z = 400 * (z / 400) + 100 * (z % 400 / 100) + 4 * (z % 100 / 4) + z % 4 := by omega
    rw [e1, e2]
    omega
  · simp only [Leap]
    omega

/-- Every date is found again from its number. -/
theorem ofOrdinal_toOrdinal {d : Date} (h : IsDate d) : ofOrdinal (toOrdinal d) = d := by
  obtain ⟨y, m, a⟩ := d
  obtain ⟨h1, h2, h3, h4, h5⟩ := h
  simp only at h1 h2 h3 h4 h5
  have hdoy := dayOfYear_lt y m a h2 h3 h5
  obtain ⟨z, rfl⟩ : ∃ z, y = z + 1 := ⟨y - 1, by omega⟩
  obtain ⟨A, B, C, E, hB, hC, hE, hz, hY, hl⟩ := year_cycles z
  have hlb : isLeap (z + 1) = (E == 3 && (C != 24 || B == 3)) := by
    rw [Bool.eq_iff_iff, isLeap_iff, hl]
    simp
  have hmd := monthDay_before (isLeap (z + 1)) m a h2 h3 h4
    (by have := daysInMonth_eq (z + 1) m h2 h3; unfold daysInMonth at this; omega)
  have hbm : daysBeforeCommonMonth m + (if decide (2 < m) && isLeap (z + 1) then 1 else 0) =
    daysBeforeMonth (z + 1) m := rfl
  rw [hbm] at hmd
  have ho : toOrdinal ⟨z + 1, m, a⟩ = daysBeforeYear (z + 1) + daysBeforeMonth (z + 1) m + a := rfl
  rw [ho]
  generalize daysBeforeMonth (z + 1) m = N at *
  rw [hY]
  by_cases hlast : Leap (z + 1) ∧ N + a = 366
  · obtain ⟨hL, hlast⟩ := hlast
    obtain ⟨hE3, hCB⟩ := hl.1 hL
    have hLb := (isLeap_iff (z + 1)).2 hL
    have hma : m = 12 ∧ a = 31 := by
      have hh : ∀ k : Nat, k = 365 → monthDay true k = (12, 31) := by rintro _ rfl; decide
      rw [hLb, hh (N + a - 1) (by omega)] at hmd
      simp only [Prod.mk.injEq] at hmd
      omega
    rw [ofOrdinal_last A B C _ hB hC hCB (by omega), hma.1, hma.2]
    simp only [Date.mk.injEq, and_true]
    omega
  · have hlt : N + a - 1 < 365 := by
      by_cases hL : Leap (z + 1)
      · rw [if_pos hL] at hdoy
        have : N + a ≠ 366 := fun h => hlast ⟨hL, h⟩
        omega
      · rw [if_neg hL] at hdoy; omega
    rw [ofOrdinal_other A B C E (N + a - 1) _ hB hC hE hlt (by omega), ← hlb, hmd]
    simp only [Date.mk.injEq, and_true]
    omega

theorem toOrdinal_pos {d : Date} (h : IsDate d) : 1 ≤ toOrdinal d := by
  have := h.2.2.2.1
  unfold toOrdinal
  omega

/-- Every number belongs to a date: by counting from the first day. -/
theorem ordinal_surjective (n : Nat) (h : 1 ≤ n) : ∃ d, IsDate d ∧ toOrdinal d = n := by
  induction n, h using Nat.le_induction with
  | base => exact ⟨⟨1, 1, 1⟩, by decide, rfl⟩
  | succ n _ ih =>
    obtain ⟨d, h1, h2⟩ := ih
    obtain ⟨h3, h4⟩ := toOrdinal_next h1
    exact ⟨next d, h4, by omega⟩

theorem ofOrdinal_isDate (n : Nat) (h : 1 ≤ n) : IsDate (ofOrdinal n) := by
  obtain ⟨d, h1, rfl⟩ := ordinal_surjective n h
  rw [ofOrdinal_toOrdinal h1]
  exact h1

theorem toOrdinal_ofOrdinal (n : Nat) (h : 1 ≤ n) : toOrdinal (ofOrdinal n) = n := by
  obtain ⟨d, h1, rfl⟩ := ordinal_surjective n h
  rw [ofOrdinal_toOrdinal h1]

theorem toOrdinal_inj {d e : Date} (hd : IsDate d) (he : IsDate e) (h : toOrdinal d = toOrdinal e) : d = e := by
  rw [← ofOrdinal_toOrdinal hd, h, ofOrdinal_toOrdinal he]

/-- Numbers of days of a year lie between the numbers of its first and its last day. -/
theorem toOrdinal_year {d : Date} (h : IsDate d) :
    daysBeforeYear d.year < toOrdinal d ∧ toOrdinal d ≤ daysBeforeYear (d.year + 1) := by
  obtain ⟨h1, h2, h3, h4, h5⟩ := h
  have := dayOfYear_lt d.year d.month d.day h2 h3 h5
  rw [daysBeforeYear_succ _ h1]
  unfold toOrdinal
  omega

theorem daysBeforeYear_mono {y z : Nat} (h : y ≤ z) : daysBeforeYear y ≤ daysBeforeYear z := by
  induction z, h using Nat.le_induction with
  | base => exact Nat.le_refl _
  | succ z _ ih =>
    cases z with
    | zero =>
      have : daysBeforeYear 0 = daysBeforeYear (0 + 1) := by decide
      omega
    | succ z =>
      have := daysBeforeYear_succ (z + 1) (by omega)
      omega

/-- The years 1 to 9999 are the numbers 1 to 3652059. -/
theorem year_le_iff {d : Date} (h : IsDate d) : d.year ≤ 9999 ↔ toOrdinal d ≤ 3652059 := by
  obtain ⟨h1, h2⟩ := toOrdinal_year h
  constructor
  · intro hy
    have : daysBeforeYear (d.year + 1) ≤ daysBeforeYear 10000 := daysBeforeYear_mono (by omega)
    have e : daysBeforeYear 10000 = 3652059 := by decide
    omega
  · intro ho
    by_contra hy
    have : daysBeforeYear 10000 ≤ daysBeforeYear d.year := daysBeforeYear_mono (by omega)
    have e : daysBeforeYear 10000 = 3652059 := by decide
    omega

end Verif.Timestamps

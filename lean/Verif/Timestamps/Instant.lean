import Verif.Timestamps.Model

/-!
# Instants

The instant a `datetime` stands for, and that `ensure_utc` keeps it (C75).
-/

set_option autoImplicit false

namespace Verif.Timestamps

namespace Spec

/-- The number of days of a year. -/
def yearLength (y : Nat) : Nat := if Leap y then 366 else 365

/-- The number of days from the 1st of January 1970 to a date: the days of the years before its year,
those of the months before its month and its day, counted from the year 1; the 1st of January 1970 is then
number 719163. -/
def dayNumber (d : Date) : Int :=
  (((List.range' 1 (d.year - 1)).map yearLength).sum +
    ((List.range' 1 (d.month - 1)).map (monthLength d.year)).sum + d.day : Nat) - 719163

/-- The `datetime`s of Python: a date of the years 1 to 9999, a time of the day in microseconds, and an
offset of less than a day. -/
def Valid (dt : DateTime) : Prop :=
  IsDate dt.date ∧ dt.date.year ≤ 9999 ∧ dt.hour < 24 ∧ dt.minute < 60 ∧ dt.second < 60 ∧ dt.micro < 1000000 ∧
    ∀ o, dt.offset = some o → -86400000000 < o ∧ o < 86400000000

/-- The instant, in microseconds since the beginning of 1970 in UTC; naive `datetime`s are taken for UTC. -/
def instant (dt : DateTime) : Int :=
  dayNumber dt.date * 86400000000 +
    ((dt.hour * 3600 + dt.minute * 60 + dt.second) * 1000000 + dt.micro : Nat) - dt.offset.getD 0

/-- The instants that have a `datetime` in UTC: those of the years 1 to 9999. -/
def Representable (i : Int) : Prop := -62135596800000000 ≤ i ∧ i ≤ 253402300799999999

/-- `u` is the `datetime` in UTC of the instant `i`. -/
def UtcOf (i : Int) (u : DateTime) : Prop := Valid u ∧ u.offset = some 0 ∧ instant u = i

instance (i : Int) : Decidable (Representable i) := by unfold Representable; infer_instance

end Spec

open Spec

/-! ## Lemmas -/

theorem sum_yearLength (k : Nat) : ((List.range' 1 k).map yearLength).sum = daysBeforeYear (k + 1) := by
  induction k with
  | zero => rfl
  | succ k ih =>
    rw [List.range'_1_concat, List.map_append, List.sum_append, ih, daysBeforeYear_succ (k + 1) (by omega)]
    simp [yearLength, Nat.add_comm]

theorem sum_monthLength (y k : Nat) (h : k < 12) :
    ((List.range' 1 k).map (monthLength y)).sum = daysBeforeMonth y (k + 1) := by
  induction k with
  | zero => simp [daysBeforeMonth, daysBeforeCommonMonth]
  | succ k ih =>
    have := monthLength_cases y (k + 1) (by omega) (by omega)
    rw [if_pos (by omega)] at this
    rw [List.range'_1_concat, List.map_append, List.sum_append, ih (by omega)]
    simpa [Nat.add_comm] using this

theorem dayNumber_eq {d : Date} (h : IsDate d) : dayNumber d = (toOrdinal d : Int) - 719163 := by
  obtain ⟨h1, h2, h3, _, _⟩ := h
  unfold dayNumber toOrdinal
  rw [sum_yearLength, sum_monthLength _ _ (by omega)]
  rw [show d.year - 1 + 1 = d.year by omega, show d.month - 1 + 1 = d.month by omega]

/-- The epoch is day 0. -/
theorem dayNumber_epoch : dayNumber ⟨1970, 1, 1⟩ = 0 := by
  rw [dayNumber_eq (by decide)]
  decide

theorem wall_eq {dt : DateTime} (h : IsDate dt.date) :
    wall dt = instant dt + dt.offset.getD 0 + 62135596800000000 := by
  unfold wall instant
  rw [dayNumber_eq h]
  omega

theorem sinceEpoch_eq {dt : DateTime} (h : IsDate dt.date) : sinceEpoch dt = instant dt := by
  unfold sinceEpoch
  rw [wall_eq h]
  omega

/-- A number of microseconds within the years 1 to 9999 is that of a `datetime`. -/
theorem ofWall_ok (n : Int) (o : Option Int) (h0 : 0 ≤ n) (h1 : n < 315537897600000000)
    (ho : ∀ x, o = some x → -86400000000 < x ∧ x < 86400000000) :
    ∃ dt, ofWall n o = .ok dt ∧ Valid dt ∧ wall dt = n ∧ dt.offset = o := by
  unfold ofWall
  simp only
  have hd : 0 < n / 86400000000 + 1 ∧ n / 86400000000 + 1 ≤ 3652059 := by omega
  rw [if_pos hd]
  refine ⟨_, rfl, ?_, ?_, rfl⟩
  · have hp : 1 ≤ (n / 86400000000 + 1).toNat := by omega
    refine ⟨ofOrdinal_isDate _ hp, ?_, ?_, ?_, ?_, ?_, ho⟩
    · rw [year_le_iff (ofOrdinal_isDate _ hp), toOrdinal_ofOrdinal _ hp]
      omega
    · simp only; omega
    · simp only; omega
    · simp only; omega
    · simp only; omega
  · unfold wall
    simp only
    rw [toOrdinal_ofOrdinal _ (by omega)]
    omega

theorem ofWall_overflow (n : Int) (o : Option Int) (h : n < 0 ∨ 315537897600000000 ≤ n) :
    ofWall n o = .error .overflow := by
  unfold ofWall
  simp only
  rw [if_neg (by omega)]

theorem wall_range {dt : DateTime} (h : Valid dt) : 0 ≤ wall dt ∧ wall dt < 315537897600000000 := by
  obtain ⟨h1, h2, h3, h4, h5, h6, _⟩ := h
  have a := toOrdinal_pos h1
  have b := (year_le_iff h1).1 h2
  unfold wall
  omega

/-- The fields of a `datetime` are found again from their number. -/
theorem wall_inj {a b : DateTime} (ha : Valid a) (hb : Valid b) (hw : wall a = wall b)
    (ho : a.offset = b.offset) : a = b := by
  obtain ⟨h1, h2, h3, h4, h5, h6, _⟩ := ha
  obtain ⟨g1, g2, g3, g4, g5, g6, _⟩ := hb
  obtain ⟨d, h, m, s, u, o⟩ := a
  obtain ⟨d', h', m', s', u', o'⟩ := b
  simp only at *
  unfold wall at hw
  simp only at hw
  have hd : toOrdinal d = toOrdinal d' := by omega
  have := toOrdinal_inj h1 g1 hd
  subst this
  have : h = h' := by omega
  have : m = m' := by omega
  have : s = s' := by omega
  have : u = u' := by omega
  subst_vars
  rfl

/-- There is one `datetime` in UTC for an instant. -/
theorem utcOf_unique {i : Int} {u v : DateTime} (hu : UtcOf i u) (hv : UtcOf i v) : u = v := by
  refine wall_inj hu.1 hv.1 ?_ (hu.2.1.trans hv.2.1.symm)
  rw [wall_eq hu.1.1, wall_eq hv.1.1, hu.2.2, hv.2.2, hu.2.1, hv.2.1]

theorem utcOf_representable {i : Int} {u : DateTime} (h : UtcOf i u) : Representable i := by
  have := wall_range h.1
  rw [wall_eq h.1.1, h.2.2, h.2.1] at this
  simp only [Option.getD_some] at this
  unfold Representable
  omega

/-! ## Theorems -/

/-- **C75**: `ensure_utc` gives the `datetime` in UTC of the same instant, naive ones being taken for UTC; and
raises `OverflowError` exactly if that instant is before the year 1 or after the year 9999 in UTC. -/
theorem C75_ensure_utc {dt : DateTime} (h : Valid dt) :
    (Representable (instant dt) → ∃ u, ensureUtc dt = .ok u ∧ UtcOf (instant dt) u) ∧
    (¬ Representable (instant dt) → ensureUtc dt = .error .overflow) := by
  have hw := wall_eq h.1
  have hr := wall_range h
  unfold ensureUtc
  cases ho : dt.offset with
  | none =>
    rw [ho] at hw
    simp only [Option.getD_none] at hw
    constructor
    · intro _
      refine ⟨_, rfl, ⟨h.1, h.2.1, h.2.2.1, h.2.2.2.1, h.2.2.2.2.1, h.2.2.2.2.2.1, ?_⟩, rfl, ?_⟩
      · intro o ho'
        simp only [Option.some.injEq] at ho'
        omega
      · simp only [instant, ho, Option.getD_some, Option.getD_none]
    · intro hn
      exact absurd (by unfold Representable; omega) hn
  | some o =>
    rw [ho] at hw
    simp only [Option.getD_some] at hw
    simp only
    constructor
    · intro hi
      unfold Representable at hi
      obtain ⟨u, h1, h2, h3, h4⟩ := ofWall_ok (wall dt - o) (some 0) (by omega) (by omega)
        (by intro x hx; simp only [Option.some.injEq] at hx; omega)
      refine ⟨u, h1, h2, h4, ?_⟩
      have := wall_eq h2.1
      rw [h4] at this
      simp only [Option.getD_some] at this
      omega
    · intro hn
      unfold Representable at hn
      exact ofWall_overflow _ _ (by omega)

/-- What `ensure_utc` returns is left alone by it. -/
theorem ensureUtc_utc {i : Int} {u : DateTime} (h : UtcOf i u) : ensureUtc u = .ok u := by
  have hr := utcOf_representable h
  obtain ⟨v, h1, h2⟩ := (C75_ensure_utc h.1).1 (by rw [h.2.2]; exact hr)
  rw [h1, utcOf_unique h (by rw [h.2.2] at h2; exact h2)]

/-! ## The hypotheses are met -/

/-- Half past one in the night of the 1st of March 2024, two hours east of Greenwich. -/
def leapNight : DateTime := ⟨⟨2024, 3, 1⟩, 1, 30, 0, 5, some 7200000000⟩

theorem leapNight_valid : Valid leapNight := by
  refine ⟨by decide, by decide, by decide, by decide, by decide, by decide, ?_⟩
  intro o ho
  simp only [leapNight, Option.some.injEq] at ho
  omega

/-- It is half past eleven of the 29th of February in UTC. -/
example : ensureUtc leapNight = .ok ⟨⟨2024, 2, 29⟩, 23, 30, 0, 5, some 0⟩ := by decide +kernel

/-- The first `datetime` one hour east of Greenwich has none in UTC. -/
example : ensureUtc ⟨⟨1, 1, 1⟩, 0, 0, 0, 0, some 3600000000⟩ = .error .overflow := by decide +kernel

end Verif.Timestamps

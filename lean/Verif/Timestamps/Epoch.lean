import Verif.Timestamps.Instant
import Verif.EventStream.TimestampProps

/-!
# Timestamps in the format `epoch-seconds` (C77)

What `TimestampFormat.EPOCH_SECONDS` writes and reads: `smithy_core/types.py` lines 147-178,
`smithy_core/utils.py` lines 53-67 and 202-213.  Floats are rational numbers, rounded by `rnd`
(`EventStream/Float64.lean`).
-/

set_option autoImplicit false

namespace Verif.Timestamps

open Verif.EventStream (rnd truncRat roundHalfEven ulp)

/-! ## Model -/

/-- A number to be read: `int`, finite `float`, infinite `float`, NaN. -/
inductive Number where
  | int (n : Int)
  | float (q : Rat)
  | infinite
  | nan
deriving Repr, DecidableEq

/-- The microseconds of a number of seconds: `datetime._fromtimestamp`, datetime.py lines 1744-1751; the same is done
by `timedelta(seconds=...)`, lines 631-676 (rounding half to even both times). -/
def epochMicros : Number → Except Err Int
  | .int n => .ok (n * 1000000)
  | .float q => .ok (truncRat q * 1000000 + roundHalfEven (rnd ((q - truncRat q) * 1000000)))
  | .infinite => .error .overflow
  | .nan => .error .value

/-- The `datetime` in UTC for microseconds since 1970. -/
def ofEpoch (us : Int) : Except Err DateTime := ofWall (us + 62135596800000000) (some 0)

/-- `datetime.fromtimestamp(value, tz=UTC)`.  `supported` tells for which seconds the C library's `gmtime` works:
outside, `OverflowError` is raised; for years that `datetime` does not have, `ValueError`.  Simplification: the
`OSError` some platforms raise is left out. -/
def fromTimestamp (supported : Int → Bool) (v : Number) : Except Err DateTime :=
  match epochMicros v with
  | .error e => .error e
  | .ok us =>
    if supported (us / 1000000) then
      match ofEpoch us with
      | .ok u => .ok u
      | .error _ => .error .value
    else .error .overflow

/-- `epoch_zero + timedelta(seconds=value)`: `OverflowError` if too large. -/
def viaTimedelta (v : Number) : Except Err DateTime :=
  match epochMicros v with
  | .error e => .error e
  | .ok us => ofEpoch us

/-- `epoch_seconds_to_datetime`, utils.py lines 53-67. -/
def epochToDatetime (supported : Int → Bool) (v : Number) : Except Err DateTime :=
  match fromTimestamp supported v with
  | .error .overflow => viaTimedelta v
  | r => r

/-- What is given to `deserialize`: a number or a text. -/
inductive EpochInput where
  | number (v : Number)
  | text (t : Text)

/-- `TimestampFormat.EPOCH_SECONDS.deserialize`, types.py lines 172-178; `float` is Python's `float(text)`, `none`
for `ValueError`. -/
def readEpoch (supported : Int → Bool) (float : Text → Option Number) : EpochInput → Except Err DateTime
  | .number v => epochToDatetime supported v
  | .text t =>
    match float t with
    | none => .error .expectation
    | some v => epochToDatetime supported v

/-- `TimestampFormat.EPOCH_SECONDS.serialize`, types.py lines 154-157. -/
def writeEpoch (dt : DateTime) : Except Err Seconds := (ensureUtc dt).map serializeEpoch

/-- What was written, as it is read. -/
def Seconds.number : Seconds → Number
  | .int n => .int n
  | .float q => .float q

/-! ## Lemmas -/

open Spec

theorem ofEpoch_ok {i : Int} (h : Representable i) : ∃ u, ofEpoch i = .ok u ∧ UtcOf i u := by
  unfold Representable at h
  obtain ⟨u, h1, h2, h3, h4⟩ := ofWall_ok (i + 62135596800000000) (some 0) (by omega) (by omega)
    (by intro x hx; simp only [Option.some.injEq] at hx; omega)
  refine ⟨u, h1, h2, h4, ?_⟩
  have := wall_eq h2.1
  rw [h4] at this
  simp only [Option.getD_some] at this
  omega

theorem ofEpoch_overflow {i : Int} (h : ¬ Representable i) : ofEpoch i = .error .overflow := by
  unfold Representable at h
  exact ofWall_overflow _ _ (by omega)

theorem epochToDatetime_ok {supported : Int → Bool} {v : Number} {us : Int} (h : epochMicros v = .ok us)
    (hr : Representable us) : ∃ u, epochToDatetime supported v = .ok u ∧ UtcOf us u := by
  obtain ⟨u, h1, h2⟩ := ofEpoch_ok hr
  refine ⟨u, ?_, h2⟩
  unfold epochToDatetime fromTimestamp viaTimedelta
  rw [h]
  simp only [h1]
  split
  · rename_i heq
    split at heq <;> simp_all
  · rename_i heq
    split <;> simp_all

/-- Rounding is right to half a unit in the last place. -/
theorem rnd_err_abs (K : ℤ) (q : ℚ) (h : |q| < 2 ^ (K + 1)) : |rnd q - q| ≤ 2 ^ (K - 53) := by
  have pos : ∀ q : ℚ, 0 < q → q < 2 ^ (K + 1) → |rnd q - q| ≤ 2 ^ (K - 53) := by
    intro q hq hlt
    obtain ⟨k, a, b, hb, l1, l2, hab, hr, -⟩ := EventStream.rnd_pos_spec hq
    obtain ⟨d1, d2⟩ := EventStream.divRoundHalfEven_dist a b hb
    rw [hab] at d1 d2
    have hp : (0 : ℚ) < 2 ^ (k - 52) := by positivity
    have hk : k ≤ K := by
      have : (2 : ℚ) ^ k < 2 ^ (K + 1) := lt_of_le_of_lt l1 hlt
      have := (zpow_lt_zpow_iff_right₀ (by norm_num : (1 : ℚ) < 2)).1 this
      omega
    have hmono : (2 : ℚ) ^ (k - 53) ≤ 2 ^ (K - 53) := zpow_le_zpow_right₀ (by norm_num) (by omega)
    have h53 : (2 : ℚ) ^ (k - 52) = 2 * 2 ^ (k - 53) := by
      rw [show k - 52 = (k - 53) + 1 by ring, zpow_add₀ (by norm_num)]; ring
    refine le_trans ?_ hmono
    rw [hr, abs_le]
    have e : q / 2 ^ (k - 52) * 2 ^ (k - 52) = q := by field_simp
    constructor
    · have := mul_le_mul_of_nonneg_right d1 hp.le
      rw [sub_mul, e] at this
      linarith
    · have := mul_le_mul_of_nonneg_right d2 hp.le
      rw [add_mul, e] at this
      linarith
  rcases lt_trichotomy q 0 with hq | hq | hq
  · have := pos (-q) (by linarith) (by rwa [abs_of_neg hq] at h)
    rw [EventStream.rnd_neg] at this
    rw [abs_sub_comm]
    convert this using 2
    ring
  · subst hq
    rw [EventStream.rnd_zero]
    simp
    positivity
  · exact pos q hq (by rwa [abs_of_pos hq] at h)

/-- The microseconds read from the float nearest to `us / 10⁶`. -/
theorem epochMicros_err (us : ℤ) (E : ℚ) (hE : |rnd ((us : ℚ) / 1000000) - (us : ℚ) / 1000000| ≤ E) :
    ∃ us', epochMicros (.float (rnd ((us : ℚ) / 1000000))) = .ok us' ∧
      |(us' : ℚ) - us| ≤ E * 1000000 + 1000000 * ulp + 1 / 2 := by
  refine ⟨_, rfl, ?_⟩
  generalize ht : rnd ((us : ℚ) / 1000000) = t at *
  have h2 := EventStream.truncRat_near t
  have h3 := EventStream.rnd_err ((t - truncRat t) * 1000000)
  have h4 : |(t - truncRat t) * 1000000| ≤ 1000000 := by
    rw [abs_mul, abs_sub_comm]; norm_num; linarith
  have h5 : |rnd ((t - truncRat t) * 1000000) - (t - truncRat t) * 1000000| ≤ 1000000 * ulp :=
    le_trans h3 (by unfold ulp; gcongr)
  have h6 := EventStream.roundHalfEven_near (rnd ((t - truncRat t) * 1000000))
  push_cast
  rw [abs_le] at *
  constructor <;> linarith [hE.1, hE.2, h5.1, h5.2, h6.1, h6.2]

/-- Up to 2³³ seconds the microseconds come back exactly. -/
theorem epochMicros_exact (us : ℤ) (h : |us| < 8589934592000000) :
    epochMicros (.float (rnd ((us : ℚ) / 1000000))) = .ok us := by
  have hb : |(us : ℚ) / 1000000| < 2 ^ ((32 : ℤ) + 1) := by
    have : |(us : ℚ)| < 8589934592000000 := by exact_mod_cast h
    rw [abs_div, div_lt_iff₀ (by norm_num)]
    norm_num
    exact this
  obtain ⟨us', h1, h2⟩ := epochMicros_err us _ (rnd_err_abs 32 _ hb)
  have e : ((2 : ℚ) ^ ((32 : ℤ) - 53) * 1000000 + 1000000 * ulp + 1 / 2 : ℚ) < 1 := by
    rw [EventStream.ulp_val]; norm_num
  have h3 : |(us' : ℚ) - us| < 1 := lt_of_le_of_lt h2 e
  have h4 : |us' - us| < 1 := by exact_mod_cast h3
  rw [abs_lt] at h4
  rw [h1, show us' = us by omega]

theorem epochMicros_near (us : ℤ) (h : Representable us) :
    ∃ us', epochMicros (.float (rnd ((us : ℚ) / 1000000))) = .ok us' ∧ |us' - us| ≤ 15 := by
  have hb : |(us : ℚ) / 1000000| < 2 ^ ((37 : ℤ) + 1) := by
    unfold Representable at h
    have h' : |us| < 274877906944000000 := by rw [abs_lt]; omega
    have : |(us : ℚ)| < 274877906944000000 := by exact_mod_cast h'
    rw [abs_div, div_lt_iff₀ (by norm_num)]
    norm_num
    exact this
  obtain ⟨us', h1, h2⟩ := epochMicros_err us _ (rnd_err_abs 37 _ hb)
  refine ⟨us', h1, ?_⟩
  have e : ((2 : ℚ) ^ ((37 : ℤ) - 53) * 1000000 + 1000000 * ulp + 1 / 2 : ℚ) < 16 := by
    rw [EventStream.ulp_val]; norm_num
  have h3 : |(us' : ℚ) - us| < 16 := lt_of_le_of_lt h2 e
  have h4 : |us' - us| < 16 := by exact_mod_cast h3
  omega

/-! ## Theorems -/

/-- **C77**: a whole number of seconds is read as that instant, in UTC, on every platform; `ValueError` or
`OverflowError` is raised exactly for those without `datetime`. -/
theorem C77_read_int (supported : Int → Bool) (float : Text → Option Number) (n : Int) :
    (Representable (n * 1000000) →
      ∃ u, readEpoch supported float (.number (.int n)) = .ok u ∧ UtcOf (n * 1000000) u) ∧
    (¬ Representable (n * 1000000) → readEpoch supported float (.number (.int n)) = .error .value ∨
      readEpoch supported float (.number (.int n)) = .error .overflow) := by
  refine ⟨fun h => epochToDatetime_ok (v := .int n) rfl h, fun h => ?_⟩
  simp only [readEpoch, epochToDatetime, fromTimestamp, viaTimedelta, epochMicros, ofEpoch_overflow h]
  cases supported (n * 1000000 / 1000000)
  · exact .inr rfl
  · exact .inl rfl

/-- **C77**: a number of microseconds `us`, given as the nearest float to `us / 10⁶`, as number or as text, is read
as exactly that instant if it is within 2³³ seconds of 1970 (the years 1698 to 2242), and otherwise as one at most 15
microseconds away (but for the last microseconds of the year 9999). -/
theorem C77_read_float (supported : Int → Bool) (float : Text → Option Number) (input : EpochInput) (us : Int)
    (hin : input = .number (.float (rnd ((us : Rat) / 1000000))) ∨
      ∃ t, input = .text t ∧ float t = some (.float (rnd ((us : Rat) / 1000000)))) :
    (|us| < 8589934592000000 → ∃ u, readEpoch supported float input = .ok u ∧ UtcOf us u) ∧
    (Representable (us - 15) → Representable (us + 15) →
      ∃ u us', readEpoch supported float input = .ok u ∧ UtcOf us' u ∧ |us' - us| ≤ 15) := by
  have hread : readEpoch supported float input = epochToDatetime supported (.float (rnd ((us : Rat) / 1000000))) := by
    rcases hin with rfl | ⟨t, rfl, ht⟩
    · rfl
    · simp only [readEpoch, ht]
  rw [hread]
  constructor
  · intro h
    refine epochToDatetime_ok (epochMicros_exact us h) ?_
    rw [abs_lt] at h
    unfold Representable
    omega
  · intro h1 h2
    unfold Representable at h1 h2
    obtain ⟨us', h3, h4⟩ := epochMicros_near us (by unfold Representable; omega)
    rw [abs_le] at h4
    obtain ⟨u, h5, h6⟩ := epochToDatetime_ok (supported := supported) h3 (by unfold Representable; omega)
    exact ⟨u, us', h5, h6, by rw [abs_le]; omega⟩

/-- **C77**: a text that is no number is refused with the error of the library. -/
theorem C77_text_refused (supported : Int → Bool) (float : Text → Option Number) (t : Text) (h : float t = none) :
    readEpoch supported float (.text t) = .error .expectation := by
  simp only [readEpoch, h]

/-- **C77**: whether the platform's C library knows the time makes no difference to what is read. -/
theorem C77_platform (s₁ s₂ : Int → Bool) (float : Text → Option Number) (input : EpochInput) (u : DateTime)
    (h : readEpoch s₁ float input = .ok u) : readEpoch s₂ float input = .ok u := by
  have key : ∀ v, epochToDatetime s₁ v = .ok u → epochToDatetime s₂ v = .ok u := by
    intro v hv
    cases he : epochMicros v with
    | error e =>
      unfold epochToDatetime fromTimestamp viaTimedelta at hv
      rw [he] at hv
      cases e <;> simp at hv
    | ok us =>
      by_cases hr : Representable us
      · obtain ⟨v1, a1, b1⟩ := epochToDatetime_ok (supported := s₁) he hr
        obtain ⟨v2, a2, b2⟩ := epochToDatetime_ok (supported := s₂) he hr
        rw [hv] at a1
        simp only [Except.ok.injEq] at a1
        rw [a2, a1, utcOf_unique b1 b2]
      · unfold epochToDatetime fromTimestamp viaTimedelta at hv
        rw [he] at hv
        simp only [ofEpoch_overflow hr] at hv
        cases hs : s₁ (us / 1000000) <;> simp [hs] at hv
  cases input with
  | number v => exact key v h
  | text t =>
    simp only [readEpoch] at h ⊢
    cases hf : float t with
    | none => rw [hf] at h; simp at h
    | some v => rw [hf] at h; exact key v h

theorem truncRat_rnd_whole (i : ℤ) (h : Representable i) (hm : i % 1000000 = 0) :
    truncRat (rnd ((i : ℚ) / 1000000)) = i / 1000000 := by
  unfold Representable at h
  have e : ((i : ℚ) / 1000000) = ((i / 1000000 : ℤ) : ℚ) := by
    have : i = 1000000 * (i / 1000000) := by omega
    have h' : (i : ℚ) = 1000000 * ((i / 1000000 : ℤ) : ℚ) := by exact_mod_cast this
    rw [h']
    field_simp
  rw [e, EventStream.rnd_int (by omega), EventStream.truncRat_int]

/-- **C77**: a `datetime` of whole seconds is written as an `int`, the seconds since 1970 of its instant; any other as
the float nearest to them. -/
theorem C77_write {dt : DateTime} (h : Valid dt) (hr : Representable (instant dt)) :
    (instant dt % 1000000 = 0 → writeEpoch dt = .ok (.int (instant dt / 1000000))) ∧
    (instant dt % 1000000 ≠ 0 → writeEpoch dt = .ok (.float (rnd ((instant dt : Rat) / 1000000)))) := by
  obtain ⟨u, hu, hv, ho, hi⟩ := (C75_ensure_utc h).1 hr
  have hse := sinceEpoch_eq hv.1
  rw [hi] at hse
  have hmic : u.micro = instant dt % 1000000 := by
    have h6 := hv.2.2.2.2.2.1
    rw [← hi]
    unfold instant
    rw [ho]
    simp only [Option.getD_some]
    omega
  unfold writeEpoch
  rw [hu]
  simp only [Except.map, serializeEpoch, hse]
  constructor
  · intro hm
    rw [if_pos (by simp; omega), truncRat_rnd_whole _ hr hm]
  · intro hm
    rw [if_neg (by simp; omega)]

/-- **C77**: what was written is read back as the same instant to the microsecond if it is a whole second or within
2³³ seconds of 1970, and as one at most 15 microseconds away otherwise (but for the last microseconds of the year
9999). -/
theorem C77_epoch_round_trip (supported : Int → Bool) (float : Text → Option Number) {dt : DateTime} (h : Valid dt)
    (hr : Representable (instant dt)) :
    ∃ s, writeEpoch dt = .ok s ∧
      (instant dt % 1000000 = 0 ∨ |instant dt| < 8589934592000000 →
        ∃ u, readEpoch supported float (.number s.number) = .ok u ∧ UtcOf (instant dt) u) ∧
      (Representable (instant dt - 15) → Representable (instant dt + 15) →
        ∃ u us', readEpoch supported float (.number s.number) = .ok u ∧ UtcOf us' u ∧ |us' - instant dt| ≤ 15) := by
  obtain ⟨w1, w2⟩ := C77_write h hr
  by_cases hm : instant dt % 1000000 = 0
  · have e : instant dt / 1000000 * 1000000 = instant dt := by omega
    have hread := (C77_read_int supported float (instant dt / 1000000)).1 (by rw [e]; exact hr)
    rw [e] at hread
    refine ⟨_, w1 hm, fun _ => hread, fun _ _ => ?_⟩
    obtain ⟨u, a, b⟩ := hread
    exact ⟨u, _, a, b, by simp⟩
  · obtain ⟨r1, r2⟩ := C77_read_float supported float (.number (.float (rnd ((instant dt : Rat) / 1000000)))) (instant dt) (.inl rfl)
    refine ⟨_, w2 hm, ?_, r2⟩
    rintro (h0 | h0)
    · exact absurd h0 hm
    · exact r1 h0

/-- **C77** is false of the code beyond 2³³ seconds: one microsecond past the beginning of the year 2300 is read back as
two. -/
theorem C77_microsecond_fails :
    writeEpoch ⟨⟨2300, 1, 1⟩, 0, 0, 0, 1, some 0⟩ = .ok (.float (rnd (10413792000000001 / 1000000))) ∧
    readEpoch (fun _ => true) (fun _ => none) (.number (.float (rnd (10413792000000001 / 1000000)))) =
      .ok ⟨⟨2300, 1, 1⟩, 0, 0, 0, 2, some 0⟩ := by
  constructor <;> decide +kernel

/-- **C77** is false of the code for the last microsecond of the year 9999: it is written as the first second of the
year 10000, which cannot be read back. -/
theorem C77_last_microsecond_fails :
    writeEpoch ⟨⟨9999, 12, 31⟩, 23, 59, 59, 999999, some 0⟩ = .ok (.float 253402300800) ∧
    readEpoch (fun _ => true) (fun _ => none) (.number (.float 253402300800)) = .error .value := by
  constructor <;> decide +kernel

/-! ## The hypotheses are met -/

example : |instant leapNight| < 8589934592000000 ∧ instant leapNight % 1000000 ≠ 0 := by
  constructor <;> decide +kernel

example : readEpoch (fun _ => false) (fun _ => none) (.number (.float (rnd (1709249400000005 / 1000000)))) =
    .ok ⟨⟨2024, 2, 29⟩, 23, 30, 0, 5, some 0⟩ := by decide +kernel

example : Representable (instant ⟨⟨2300, 1, 1⟩, 0, 0, 0, 1, some 0⟩ - 15) ∧
    Representable (instant ⟨⟨2300, 1, 1⟩, 0, 0, 0, 1, some 0⟩ + 15) := by
  constructor <;> decide +kernel

end Verif.Timestamps

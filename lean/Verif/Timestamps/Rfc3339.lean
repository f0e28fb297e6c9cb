import Mathlib.Data.List.Induction
import Mathlib.Tactic.Ring
import Verif.Timestamps.Instant
import Verif.Timestamps.Digits

/-!
# Timestamps in the format `date-time` (C75)

What `TimestampFormat.DATE_TIME` writes and reads.
-/

set_option autoImplicit false

namespace Verif.Timestamps

open Verif.Numerals (natText natValue)

/-! ## Specification -/

namespace Spec

/-- A `date-time` of RFC 3339, section 5.6, with upper-case `Z`: date, separator, time, digits of the fraction
of the second (none: no fraction), and offset (none: `Z`; else whether it is negative, hours and minutes). -/
structure Rfc3339 where
  date : Date
  separator : Char
  hour : Nat
  minute : Nat
  second : Nat
  fraction : Text
  zone : Option (Bool × Nat × Nat)
deriving Repr, DecidableEq

/-- `time-secfrac`. -/
def fractionText (ds : Text) : Text := if ds = [] then [] else '.' :: ds

/-- `time-offset`. -/
def zoneText : Option (Bool × Nat × Nat) → Text
  | none => ['Z']
  | some (negative, h, m) => (if negative then '-' else '+') :: (fixed 2 h ++ ':' :: fixed 2 m)

/-- `time-hour ":" time-minute ":" time-second [time-secfrac]`. -/
def clockText (r : Rfc3339) : Text :=
  fixed 2 r.hour ++ ':' :: (fixed 2 r.minute ++ ':' :: (fixed 2 r.second ++ fractionText r.fraction))

/-- The text. -/
def Rfc3339.text (r : Rfc3339) : Text :=
  fixed 4 r.date.year ++ '-' :: (fixed 2 r.date.month ++ '-' :: (fixed 2 r.date.day ++ r.separator ::
    (clockText r ++ zoneText r.zone)))

/-- The restrictions of RFC 3339, section 5.7, without leap seconds and without the year 0; the separator is
`T`, `t` or a blank. -/
def Rfc3339.Ok (r : Rfc3339) : Prop :=
  IsDate r.date ∧ r.date.year ≤ 9999 ∧ r.separator ∈ ['T', 't', ' '] ∧ r.hour ≤ 23 ∧ r.minute ≤ 59 ∧ r.second ≤ 59 ∧
    (∀ c ∈ r.fraction, c ∈ ['0', '1', '2', '3', '4', '5', '6', '7', '8', '9']) ∧
    ∀ negative h m, r.zone = some (negative, h, m) → h ≤ 23 ∧ m ≤ 59

/-- The whole microseconds of the fraction `0.ds` of a second. -/
def fractionMicros (ds : Text) : Nat := natValue ds * 1000000 / 10 ^ ds.length

/-- The offset from UTC, in minutes. -/
def zoneMinutes : Option (Bool × Nat × Nat) → Int
  | none => 0
  | some (negative, h, m) => if negative then -((h * 60 + m : Nat) : Int) else (h * 60 + m : Nat)

/-- The instant the text denotes, in whole microseconds since 1970. -/
def Rfc3339.instant (r : Rfc3339) : Int :=
  dayNumber r.date * 86400000000 + ((r.hour * 3600 + r.minute * 60 + r.second) * 1000000 + fractionMicros r.fraction : Nat) -
    zoneMinutes r.zone * 60000000

end Spec

open Spec

/-! ## Lemmas -/

theorem isDigit_ascii (c : Char) (h : c ∈ ['0', '1', '2', '3', '4', '5', '6', '7', '8', '9']) :
    Scalars.Strict.ascii c = true := by
  simp only [List.mem_cons, List.not_mem_nil, or_false] at h
  rcases h with rfl | rfl | rfl | rfl | rfl | rfl | rfl | rfl | rfl | rfl <;> decide

theorem take_fixed (w n : Nat) (r : Text) : (fixed w n ++ r).take w = fixed w n := by
  rw [List.take_append_of_le_length (by rw [fixed_length])]
  exact List.take_of_length_le (by rw [fixed_length])

theorem drop_fixed (w n : Nat) (r : Text) : (fixed w n ++ r).drop w = r := List.drop_left' (fixed_length w n)

theorem natValue_from (t : Text) (a : Nat) :
    t.foldl (fun a c => 10 * a + (c.toNat - '0'.toNat)) a = a * 10 ^ t.length + natValue t := by
  induction t generalizing a with
  | nil => simp [natValue]
  | cons c t ih =>
    unfold natValue
    rw [List.foldl_cons, List.foldl_cons, ih, ih (10 * 0 + _), List.length_cons, Nat.pow_succ]
    ring_nf

theorem natValue_append' (s t : Text) : natValue (s ++ t) = natValue s * 10 ^ t.length + natValue t := by
  conv_lhs => unfold natValue
  rw [List.foldl_append, natValue_from]
  rfl

theorem natValue_lt (t : Text) (h : ∀ c ∈ t, Scalars.Strict.ascii c = true) : natValue t < 10 ^ t.length := by
  induction t using List.reverseRecOn with
  | nil => simp [natValue]
  | append_singleton t c ih =>
    have h1 := ih fun c hc => h c (by simp [hc])
    have h2 := h c (by simp)
    simp only [Scalars.Strict.ascii, Bool.and_eq_true, decide_eq_true_eq] at h2
    rw [natValue_append, List.length_append, List.length_singleton, Nat.pow_succ]
    have e : '0'.toNat = 48 := rfl
    have e9 : '9'.toNat = 57 := rfl
    omega

theorem parseFraction_text (c : Clock) (hc : c.micro = 0) (ds : Text) (h : ∀ c ∈ ds, Scalars.Strict.ascii c = true) :
    parseFraction c (fractionText ds) = .ok { c with micro := fractionMicros ds } := by
  by_cases hd : ds = []
  · subst hd
    obtain ⟨a, b, e, m⟩ := c
    simp only at hc
    subst hc
    simp [fractionText, parseFraction, fractionMicros, natValue]
  · have hl : 0 < ds.length := by cases ds with
      | nil => exact absurd rfl hd
      | cons _ _ => simp
    rw [fractionText, if_neg hd, parseFraction]
    have hlen : (ds.take 6).length = min 6 ds.length := by simp
    have hall : (ds.take 6).all Scalars.Strict.ascii = true := List.all_eq_true.2 fun c hc => h c (List.mem_of_mem_take hc)
    have hdg : digits (min 6 ds.length) (ds.take 6) = some (natValue (ds.take 6)) := by
      unfold digits
      rw [hlen, hall]
      simp [hl]
    have hrest : (ds.drop 6).all Scalars.Strict.ascii = true := List.all_eq_true.2 fun c hc => h c (List.mem_of_mem_drop hc)
    rw [hdg]
    simp only [beq_self_eq_true, Bool.true_or, Bool.not_true, Bool.false_eq_true, if_false, hrest, if_true]
    congr 1
    obtain ⟨a, b, e, m⟩ := c
    simp only [Clock.mk.injEq, true_and]
    unfold fractionMicros
    rcases Nat.lt_or_ge ds.length 6 with h6 | h6
    · have e1 : ds.take 6 = ds := List.take_of_length_le (by omega)
      rw [e1, Nat.min_eq_right (by omega)]
      have hp : 0 < 10 ^ ds.length := Nat.pow_pos (by omega)
      rw [Nat.eq_div_iff_mul_eq_left (by omega), Nat.mul_assoc, ← Nat.pow_add]
      · rw [show 6 - ds.length + ds.length = 6 by omega]
      · have : (1000000 : Nat) = 10 ^ (6 - ds.length) * 10 ^ ds.length := by
          rw [← Nat.pow_add, show 6 - ds.length + ds.length = 6 by omega]
        rw [this, ← Nat.mul_assoc]
        exact Nat.dvd_mul_left _ _
    · rw [Nat.min_eq_left h6, Nat.sub_self, Nat.pow_zero, Nat.mul_one]
      have e1 : natValue ds = natValue (ds.take 6) * 10 ^ (ds.drop 6).length + natValue (ds.drop 6) := by
        conv_lhs => rw [← List.take_append_drop 6 ds]
        rw [natValue_append']
      have e2 := natValue_lt (ds.drop 6) (fun c hc => h c (List.mem_of_mem_drop hc))
      rw [List.length_drop] at e1 e2
      have e3 : 10 ^ ds.length = 10 ^ (ds.length - 6) * 1000000 := by
        rw [show (1000000 : Nat) = 10 ^ 6 by rfl, ← Nat.pow_add, show ds.length - 6 + 6 = ds.length by omega]
      rw [e3, Nat.mul_div_mul_right _ _ (by omega), e1, Nat.add_comm, Nat.add_mul_div_right _ _ (Nat.pow_pos (by omega)),
        Nat.div_eq_of_lt e2, Nat.zero_add]

theorem parseClock_text (h m s : Nat) (ds : Text) (hh : h < 100) (hm : m < 100) (hs : s < 100)
    (hd : ∀ c ∈ ds, Scalars.Strict.ascii c = true) :
    parseClock (fixed 2 h ++ ':' :: (fixed 2 m ++ ':' :: (fixed 2 s ++ fractionText ds))) =
      .ok ⟨h, m, s, fractionMicros ds⟩ := by
  unfold parseClock
  rw [take_fixed, drop_fixed, digits_fixed 2 h (by omega) (by omega)]
  simp only [beq_self_eq_true, if_true]
  rw [take_fixed, drop_fixed, digits_fixed 2 m (by omega) (by omega)]
  simp only [bne_self_eq_false, Bool.and_false, Bool.false_eq_true, if_false]
  rw [take_fixed, drop_fixed, digits_fixed 2 s (by omega) (by omega)]
  simp only
  rw [parseFraction_text _ rfl ds hd]

theorem parseClock_zone (h m : Nat) (hh : h < 100) (hm : m < 100) :
    parseClock (fixed 2 h ++ ':' :: fixed 2 m) = .ok ⟨h, m, 0, 0⟩ := by
  unfold parseClock
  have e : fixed 2 m = fixed 2 m ++ [] := by simp
  rw [take_fixed, drop_fixed, digits_fixed 2 h (by omega) (by omega)]
  simp only [beq_self_eq_true, if_true]
  rw [e, take_fixed, drop_fixed, digits_fixed 2 m (by omega) (by omega)]

theorem find_append (c : Char) (p t : Text) (h : c ∉ p) : find c (p ++ c :: t) = some p.length := by
  unfold find
  rw [if_pos (by simp)]
  congr 1
  induction p with
  | nil => simp
  | cons a p ih =>
    simp only [List.mem_cons, not_or] at h
    rw [List.cons_append, List.takeWhile_cons_of_pos (by simp; exact fun hh => h.1 hh.symm), List.length_cons,
      ih h.2, List.length_cons]

theorem find_none (c : Char) (t : Text) (h : c ∉ t) : find c t = none := by
  unfold find
  rw [if_neg h]

theorem clockText_not_mem (r : Rfc3339) (h : ∀ c ∈ r.fraction, Scalars.Strict.ascii c = true) (c : Char)
    (hc : Scalars.Strict.ascii c = false) (h1 : c ≠ ':') (h2 : c ≠ '.') : c ∉ clockText r := by
  unfold clockText
  have hf : c ∉ fractionText r.fraction := by
    unfold fractionText
    split
    · simp
    · intro hm
      rcases List.mem_cons.1 hm with hm | hm
      · exact h2 hm
      · rw [h c hm] at hc
        exact absurd hc (by simp)
  have h3 := fun n => fixed_not_mem 2 n c hc
  simp only [List.mem_append, List.mem_cons, not_or]
  exact ⟨h3 _, h1, h3 _, h1, h3 _, hf⟩

theorem clockText_length (r : Rfc3339) : 2 ≤ (clockText r).length := by
  unfold clockText
  simp [fixed_length]

theorem parseTime_text (r : Rfc3339) (h : r.Ok) :
    parseTime (clockText r ++ zoneText r.zone) =
      .ok (⟨r.hour, r.minute, r.second, fractionMicros r.fraction⟩, some (zoneMinutes r.zone * 60000000)) := by
  obtain ⟨_, _, _, h1, h2, h3, h4, h5⟩ := h
  have hd : ∀ c ∈ r.fraction, Scalars.Strict.ascii c = true := fun c hc => isDigit_ascii c (h4 c hc)
  have hlen := clockText_length r
  have hclock : parseClock (clockText r) = .ok ⟨r.hour, r.minute, r.second, fractionMicros r.fraction⟩ :=
    parseClock_text _ _ _ _ (by omega) (by omega) (by omega) hd
  have n1 := clockText_not_mem r hd '-' (by decide) (by decide) (by decide)
  have n2 := clockText_not_mem r hd '+' (by decide) (by decide) (by decide)
  have n3 := clockText_not_mem r hd 'Z' (by decide) (by decide) (by decide)
  generalize clockText r = p at *
  unfold parseTime
  rw [if_neg (by rw [List.length_append]; omega)]
  cases hz : r.zone with
  | none =>
    have hp : zonePos (p ++ ['Z']) = some p.length := by
      unfold zonePos
      rw [find_none '-' _ (by simp [n1]), find_none '+' _ (by simp [n2]), find_append 'Z' p [] n3]
      rfl
    simp only [zoneText]
    rw [hp]
    simp only [List.take_left', hclock]
    simp [zoneMinutes, bind, Except.bind]
  | some z =>
    obtain ⟨negative, zh, zm⟩ := z
    obtain ⟨b1, b2⟩ := h5 negative zh zm hz
    have hs : ∀ c : Char, Scalars.Strict.ascii c = false → c ≠ ':' → c ∉ fixed 2 zh ++ ':' :: fixed 2 zm := by
      intro c hc h1
      have h3 := fun n => fixed_not_mem 2 n c hc
      simp only [List.mem_append, List.mem_cons, not_or]
      exact ⟨h3 _, h1, h3 _⟩
    have hzl : (fixed 2 zh ++ ':' :: fixed 2 zm).length = 5 := by simp [fixed_length]
    have hzc := parseClock_zone zh zm (by omega) (by omega)
    have hlast : (fixed 2 zh ++ ':' :: fixed 2 zm) ≠ [] := by intro h; rw [h] at hzl; simp at hzl
    have key : ∀ sg : Char, zonePos (p ++ sg :: (fixed 2 zh ++ ':' :: fixed 2 zm)) = some p.length →
        (sg == '-') = negative →
        (match zonePos (p ++ sg :: (fixed 2 zh ++ ':' :: fixed 2 zm)) with
          | none => (parseClock (p ++ sg :: (fixed 2 zh ++ ':' :: fixed 2 zm))).map fun c => (c, none)
          | some q => do
            let c ← parseClock ((p ++ sg :: (fixed 2 zh ++ ':' :: fixed 2 zm)).take q)
            if q + 1 == (p ++ sg :: (fixed 2 zh ++ ':' :: fixed 2 zm)).length &&
                (p ++ sg :: (fixed 2 zh ++ ':' :: fixed 2 zm)).getLast? == some 'Z' then Except.ok (c, some (0 : Int))
            else
              let z := (p ++ sg :: (fixed 2 zh ++ ':' :: fixed 2 zm)).drop (q + 1)
              if z.length == 0 || z.length == 1 || z.length == 3 then .error .value
              else
                let zc ← parseClock z
                let o ← zoneOffset ((p ++ sg :: (fixed 2 zh ++ ':' :: fixed 2 zm))[q]? == some '-') zc
                .ok (c, some o)) =
          .ok (⟨r.hour, r.minute, r.second, fractionMicros r.fraction⟩,
            some (zoneMinutes (some (negative, zh, zm)) * 60000000)) := by
      intro sg hp hsg
      rw [hp]
      generalize hZ : fixed 2 zh ++ ':' :: fixed 2 zm = Z at *
      have e1 : (p ++ sg :: Z).take p.length = p := List.take_left' rfl
      have e2 : (p ++ sg :: Z).drop (p.length + 1) = Z := by
        rw [← List.drop_drop, List.drop_left' rfl]; rfl
      have e3 : (p ++ sg :: Z)[p.length]? = some sg := by simp
      have e4 : (p.length + 1 == (p ++ sg :: Z).length) = false := by
        rw [List.length_append, List.length_cons, hzl, beq_eq_false_iff_ne]
        omega
      have e5 : (some sg == some '-') = negative := by rw [← hsg]; rfl
      simp only [e1, e2, e3, e4, hclock, hzl, hzc, e5, bind, Except.bind, Bool.false_and, Bool.false_eq_true, if_false,
        Nat.reduceBEq, Bool.or_self]
      have hzo : zoneOffset negative ⟨zh, zm, 0, 0⟩ = .ok (zoneMinutes (some (negative, zh, zm)) * 60000000) := by
        unfold zoneOffset zoneMinutes offsetOk
        cases negative
        · simp only [Bool.false_eq_true, if_false]
          rw [if_pos (by simp only [Bool.and_eq_true, decide_eq_true_eq]; omega)]
          exact congrArg Except.ok (by omega)
        · simp only [if_true]
          rw [if_pos (by simp only [Bool.and_eq_true, decide_eq_true_eq]; omega)]
          exact congrArg Except.ok (by omega)
      rw [hzo]
    cases negative
    · simp only [zoneText, Bool.false_eq_true, if_false]
      refine key '+' ?_ (by decide)
      unfold zonePos
      rw [find_none '-' _ ?_, find_append '+' p _ n2]
      · rfl
      · have := hs '-' (by decide) (by decide)
        simp only [List.mem_append, List.mem_cons, not_or] at this ⊢
        exact ⟨n1, by decide, this⟩
    · simp only [zoneText, if_true]
      refine key '-' ?_ (by decide)
      unfold zonePos
      rw [find_append '-' p _ n1]
      rfl

theorem four_chars (t : Text) (h : t.length = 4) : ∃ a b c d, t = [a, b, c, d] := by
  match t, h with
  | [a, b, c, d], _ => exact ⟨a, b, c, d, rfl⟩

theorem two_chars (t : Text) (h : t.length = 2) : ∃ a b, t = [a, b] := by
  match t, h with
  | [a, b], _ => exact ⟨a, b, rfl⟩

theorem make_ok (d : Date) (h m s u : Nat) (o : Option Int) (h1 : IsDate d) (h2 : d.year ≤ 9999) (h3 : h < 24)
    (h4 : m < 60) (h5 : s < 60) (h6 : u < 1000000) : make d h m s u o = .ok ⟨d, h, m, s, u, o⟩ := by
  unfold make
  obtain ⟨a1, a2, a3, a4, a5⟩ := h1
  rw [← daysInMonth_eq _ _ a2 a3] at a5
  rw [if_pos]
  simp only [dateOk, timeOk, Bool.and_eq_true, decide_eq_true_eq]
  omega

theorem fractionMicros_lt (ds : Text) (h : ∀ c ∈ ds, Scalars.Strict.ascii c = true) : fractionMicros ds < 1000000 := by
  unfold fractionMicros
  have := natValue_lt ds h
  rw [Nat.div_lt_iff_lt_mul (Nat.pow_pos (by omega)), Nat.mul_comm]
  exact Nat.mul_lt_mul_of_pos_left this (by omega)

/-- `datetime.fromisoformat` reads the fields of the text. -/
theorem fromIso_text (r : Rfc3339) (h : r.Ok) :
    fromIso r.text = .ok ⟨r.date, r.hour, r.minute, r.second, fractionMicros r.fraction,
      some (zoneMinutes r.zone * 60000000)⟩ := by
  have ht := parseTime_text r h
  obtain ⟨h1, h2, h3, h4, h5, h6, h7, h8⟩ := h
  have hd : ∀ c ∈ r.fraction, Scalars.Strict.ascii c = true := fun c hc => isDigit_ascii c (h7 c hc)
  have hmk := make_ok r.date r.hour r.minute r.second (fractionMicros r.fraction) (some (zoneMinutes r.zone * 60000000))
    h1 h2 (by omega) (by omega) (by omega) (fractionMicros_lt _ hd)
  have hne : clockText r ++ zoneText r.zone ≠ [] := by
    have := clockText_length r
    intro h
    rw [List.append_eq_nil_iff] at h
    rw [h.1] at this
    simp at this
  unfold Rfc3339.text
  generalize clockText r ++ zoneText r.zone = T at *
  have hmo : r.date.month < 100 := by have := h1.2.2.1; omega
  have hda : r.date.day < 100 := by
    have := h1.2.2.2.2
    have : monthLength r.date.year r.date.month ≤ 31 := by
      unfold monthLength; split
      · omega
      · split
        · split <;> omega
        · omega
    omega
  have dy := digits_fixed 4 r.date.year (by omega) (by omega)
  have dm := digits_fixed 2 r.date.month (by omega) (by omega)
  have dd := digits_fixed 2 r.date.day (by omega) (by omega)
  obtain ⟨a, b, c, d, e4⟩ := four_chars _ (fixed_length 4 r.date.year)
  obtain ⟨f, g, em⟩ := two_chars _ (fixed_length 2 r.date.month)
  obtain ⟨i, j, ed⟩ := two_chars _ (fixed_length 2 r.date.day)
  have hf : f ≠ 'W' := by
    have := fixed_ascii 2 r.date.month f (by rw [em]; simp)
    rintro rfl
    exact absurd this (by decide)
  rw [e4] at dy
  rw [em] at dm
  rw [ed] at dd
  rw [e4, em, ed]
  simp only [List.cons_append, List.nil_append]
  have hsep : findSeparator (a :: b :: c :: d :: '-' :: f :: g :: '-' :: i :: j :: r.separator :: T) = .ok 10 := by
    simp [findSeparator, hf]
  have hpd : parseDate [a, b, c, d, '-', f, g, '-', i, j] = .ok r.date := by
    simp [parseDate, dy, dm, dd, hf, orValue, bind, Except.bind]
  unfold fromIso
  rw [if_neg (by simp)]
  simp only [hsep, bind, Except.bind, List.take_succ_cons, List.take_zero, hpd, List.drop_succ_cons, List.drop_zero]
  cases T with
  | nil => exact absurd rfl hne
  | cons x T =>
    simp only [List.isEmpty_cons, Bool.false_eq_true, if_false, ht, hmk]

/-! ## Theorems -/

/-- **C75**: a `date-time` of RFC 3339 is read as the instant it denotes, in UTC, cut to whole microseconds;
`OverflowError` is raised exactly if that instant has no `datetime` in UTC. -/
theorem C75_read_rfc3339 (r : Rfc3339) (h : r.Ok) :
    (Representable r.instant → ∃ u, readDateTime r.text = .ok u ∧ UtcOf r.instant u) ∧
    (¬ Representable r.instant → readDateTime r.text = .error .overflow) := by
  have hi := fromIso_text r h
  obtain ⟨h1, h2, h3, h4, h5, h6, h7, h8⟩ := h
  have hd : ∀ c ∈ r.fraction, Scalars.Strict.ascii c = true := fun c hc => isDigit_ascii c (h7 c hc)
  have hv : Valid ⟨r.date, r.hour, r.minute, r.second, fractionMicros r.fraction,
      some (zoneMinutes r.zone * 60000000)⟩ := by
    refine ⟨h1, h2, ?_, ?_, ?_, fractionMicros_lt _ hd, ?_⟩
    · simp only; omega
    · simp only; omega
    · simp only; omega
    · intro o ho
      simp only [Option.some.injEq] at ho
      subst ho
      unfold zoneMinutes
      cases hz : r.zone with
      | none => simp
      | some z =>
        obtain ⟨negative, zh, zm⟩ := z
        obtain ⟨b1, b2⟩ := h8 negative zh zm hz
        cases negative
        · simp only [Bool.false_eq_true, if_false]; omega
        · simp only [if_true]; omega
  have hinst : instant ⟨r.date, r.hour, r.minute, r.second, fractionMicros r.fraction,
      some (zoneMinutes r.zone * 60000000)⟩ = r.instant := rfl
  have := C75_ensure_utc hv
  rw [hinst] at this
  unfold readDateTime
  rw [hi]
  exact this

/-- What is written for a `datetime` in UTC. -/
def written (u : DateTime) : Rfc3339 where
  date := u.date
  separator := 'T'
  hour := u.hour
  minute := u.minute
  second := u.second
  fraction := if u.micro = 0 then [] else fixed 6 u.micro
  zone := none

theorem ascii_isDigit (c : Char) (h : Scalars.Strict.ascii c = true) :
    c ∈ ['0', '1', '2', '3', '4', '5', '6', '7', '8', '9'] := by
  simp only [Scalars.Strict.ascii, Bool.and_eq_true, decide_eq_true_eq] at h
  have e : '0'.toNat = 48 := rfl
  have e9 : '9'.toNat = 57 := rfl
  have hk : ∀ k : Nat, c.toNat = k → c = Char.ofNat k := by
    rintro _ rfl
    exact (Char.ofNat_toNat c).symm
  have : c.toNat = 48 ∨ c.toNat = 49 ∨ c.toNat = 50 ∨ c.toNat = 51 ∨ c.toNat = 52 ∨ c.toNat = 53 ∨ c.toNat = 54 ∨
    c.toNat = 55 ∨ c.toNat = 56 ∨ c.toNat = 57 := by omega
  rcases this with h | h | h | h | h | h | h | h | h | h <;> (rw [hk _ h]; decide)

theorem written_ok {u : DateTime} (h : Valid u) : (written u).Ok := by
  obtain ⟨h1, h2, h3, h4, h5, h6, _⟩ := h
  refine ⟨h1, h2, by simp [written], by simp only [written]; omega, by simp only [written]; omega,
    by simp only [written]; omega, ?_, ?_⟩
  · intro c hc
    simp only [written] at hc
    split at hc
    · simp at hc
    · exact ascii_isDigit c (fixed_ascii 6 _ c hc)
  · simp [written]

theorem written_micros {u : DateTime} (h : Valid u) : fractionMicros (written u).fraction = u.micro := by
  obtain ⟨h1, h2, h3, h4, h5, h6, _⟩ := h
  unfold fractionMicros written
  simp only
  split
  · rename_i h0
    simp [natValue, h0]
  · rw [natValue_fixed 6 _ (by omega), fixed_length]
    exact Nat.mul_div_cancel _ (by decide)

/-- **C75**: every `datetime`, with whatever offset, is written as a `date-time` of RFC 3339 in UTC that denotes
its instant to the microsecond; except that, where the C library does not pad years, years before 1000 are
written with fewer than four digits. -/
theorem C75_write_rfc3339 (padYear : Bool) {dt : DateTime} (h : Valid dt) (hr : Representable (instant dt))
    (hy : padYear = true ∨ -30610224000000000 ≤ instant dt) :
    ∃ r : Rfc3339, writeDateTime padYear dt = .ok r.text ∧ r.Ok ∧ r.separator = 'T' ∧ r.zone = none ∧
      r.instant = instant dt ∧ (r.fraction = [] ∨ r.fraction.length = 6) := by
  obtain ⟨u, hu, huv⟩ := (C75_ensure_utc h).1 hr
  obtain ⟨hv, ho, hi⟩ := huv
  refine ⟨written u, ?_, written_ok hv, rfl, rfl, ?_, ?_⟩
  · unfold writeDateTime
    rw [hu]
    simp only [Except.map]
    congr 1
    have hm := written_micros hv
    obtain ⟨h1, h2, h3, h4, h5, h6, _⟩ := hv
    have hmo : u.date.month < 100 := by have := h1.2.2.1; omega
    have hda : u.date.day < 100 := by
      have := h1.2.2.2.2
      have : monthLength u.date.year u.date.month ≤ 31 := by
        unfold monthLength; split
        · omega
        · split
          · split <;> omega
          · omega
      omega
    have hyear : yearText padYear u.date.year = fixed 4 u.date.year := by
      unfold yearText
      split
      · exact pad_eq 4 _ (by omega) (by omega)
      · rename_i hp
        have hi' : -30610224000000000 ≤ instant dt := by
          rcases hy with hy | hy
          · exact absurd hy hp
          · exact hy
        rw [← hi] at hi'
        unfold instant at hi'
        rw [ho, dayNumber_eq h1] at hi'
        simp only [Option.getD_some] at hi'
        have h1000 : 1000 ≤ u.date.year := by
          by_contra hlt
          have a := (toOrdinal_year h1).2
          have b : daysBeforeYear (u.date.year + 1) ≤ daysBeforeYear 1000 := daysBeforeYear_mono (by omega)
          have e : daysBeforeYear 1000 = 364877 := by decide
          omega
        exact natText_eq_fixed _ 3 (by omega) (by omega)
    unfold serializeRfc3339 Rfc3339.text clockText zoneText
    rw [hyear, pad_eq 2 _ (by omega) (by omega), pad_eq 2 _ (by omega) (by omega), pad_eq 2 u.hour (by omega) (by omega),
      pad_eq 2 u.minute (by omega) (by omega), pad_eq 2 u.second (by omega) (by omega)]
    simp only [written, fractionText]
    by_cases h0 : u.micro = 0
    · simp [h0]
    · have : fixed 6 u.micro ≠ [] := by intro h; have := fixed_length 6 u.micro; rw [h] at this; simp at this
      simp only [h0, ne_eq, not_false_eq_true, if_true, if_false, this, pad_eq 6 u.micro (by omega) (by omega)]
      simp [List.append_assoc]
  · rw [← hi]
    unfold Rfc3339.instant instant
    rw [written_micros hv, ho]
    simp [written, zoneMinutes]
  · simp only [written]
    split
    · exact .inl rfl
    · exact .inr (fixed_length _ _)

/-- **C75**: reading what was written gives the same instant back, to the microsecond. -/
theorem C75_rfc3339_round_trip (padYear : Bool) {dt : DateTime} (h : Valid dt) (hr : Representable (instant dt))
    (hy : padYear = true ∨ -30610224000000000 ≤ instant dt) :
    ∃ t u, writeDateTime padYear dt = .ok t ∧ readDateTime t = .ok u ∧ UtcOf (instant dt) u := by
  obtain ⟨r, h1, h2, _, _, h3, _⟩ := C75_write_rfc3339 padYear h hr hy
  obtain ⟨u, h4, h5⟩ := (C75_read_rfc3339 r h2).1 (by rw [h3]; exact hr)
  exact ⟨r.text, u, h1, h4, h3 ▸ h5⟩

/-- **C75** is false of the code for years before 1000 where the C library does not pad them: the 1st of January
999 is written as `999-01-01T00:00:00Z`, and reading that fails. -/
theorem C75_early_year_fails :
    writeDateTime false ⟨⟨999, 1, 1⟩, 0, 0, 0, 0, none⟩ = .ok "999-01-01T00:00:00Z".toList ∧
    readDateTime "999-01-01T00:00:00Z".toList = .error .value := by
  constructor <;> decide +kernel

/-- **C75** is false of the code for two texts that RFC 3339 allows: a leap second, and a lower-case `z`. -/
theorem C75_leap_second_fails :
    readDateTime "2016-12-31T23:59:60Z".toList = .error .value ∧
    readDateTime "2016-12-31T23:59:59z".toList = .error .value := by
  constructor <;> decide +kernel

/-- Other texts than those of RFC 3339 are read as well: a date is taken for midnight, and a time without
offset for UTC. -/
theorem C75_other_forms_fails :
    readDateTime "20200229".toList = .ok ⟨⟨2020, 2, 29⟩, 0, 0, 0, 0, some 0⟩ ∧
    readDateTime "2020-W09-6T05".toList = .ok ⟨⟨2020, 2, 29⟩, 5, 0, 0, 0, some 0⟩ := by
  constructor <;> decide +kernel

/-! ## The hypotheses are met -/

def exampleText : Rfc3339 := ⟨⟨2024, 2, 29⟩, 'T', 23, 59, 1, "1234567".toList, some (true, 1, 30)⟩

example : exampleText.text = "2024-02-29T23:59:01.1234567-01:30".toList := by decide +kernel

example : exampleText.Ok ∧ Representable exampleText.instant := by
  refine ⟨⟨by decide, by decide, by decide, by decide, by decide, by decide, by decide, ?_⟩, by decide +kernel⟩
  intro n h m e
  simp only [exampleText, Option.some.injEq, Prod.mk.injEq] at e
  omega

example : readDateTime exampleText.text = .ok ⟨⟨2024, 3, 1⟩, 1, 29, 1, 123456, some 0⟩ := by decide +kernel

example : writeDateTime false leapNight = .ok "2024-02-29T23:30:00.000005Z".toList := by decide +kernel

example : Representable (instant leapNight) ∧ -30610224000000000 ≤ instant leapNight := by
  constructor <;> decide +kernel

end Verif.Timestamps

import Verif.EventStream.RndLemmas
import Verif.EventStream.Props
import Mathlib.Data.Rat.Floor

/-! # Timestamp headers with fractional seconds (C02, C01) -/

set_option autoImplicit false

namespace Verif.EventStream
open Spec

/-- `2^-53` -/
def ulp : ℚ := 2 ^ (-53 : ℤ)

theorem ulp_val : ulp = 1 / 9007199254740992 := by unfold ulp; norm_num

theorem truncRat_bounds (q : ℚ) :
    (0 ≤ q → 0 ≤ truncRat q ∧ (truncRat q : ℚ) ≤ q ∧ q < truncRat q + 1) ∧
    (q ≤ 0 → truncRat q ≤ 0 ∧ q ≤ truncRat q ∧ (truncRat q : ℚ) < q + 1) := by
  have hden : (0 : ℤ) < q.den := by exact_mod_cast q.den_pos
  have hdq : (0 : ℚ) < q.den := by exact_mod_cast q.den_pos
  have hq : (q.num : ℚ) / q.den = q := Rat.num_div_den q
  have key : (q.den : ℤ) * truncRat q + Int.tmod q.num q.den = q.num := Int.mul_tdiv_add_tmod q.num q.den
  have keyq : (q.den : ℚ) * truncRat q + Int.tmod q.num q.den = q.num := by exact_mod_cast key
  have hqm : q * q.den = q.num := by
    rw [eq_comm, ← div_eq_iff hdq.ne']; exact hq
  constructor
  · intro h
    have hn : 0 ≤ q.num := Rat.num_nonneg.2 h
    have t1 : 0 ≤ Int.tmod q.num q.den := Int.tmod_nonneg _ hn
    have t2 : Int.tmod q.num q.den < q.den := Int.tmod_lt_of_pos _ hden
    have t1q : (0 : ℚ) ≤ Int.tmod q.num q.den := by exact_mod_cast t1
    have t2q : (Int.tmod q.num q.den : ℚ) < q.den := by exact_mod_cast t2
    refine ⟨Int.tdiv_nonneg hn hden.le, ?_, ?_⟩
    · by_contra hc; push Not at hc; nlinarith
    · by_contra hc; push Not at hc; nlinarith
  · intro h
    have hn : q.num ≤ 0 := Rat.num_nonpos.2 h
    have t1 : Int.tmod q.num q.den ≤ 0 := by
      have := Int.tmod_nonneg (a := -q.num) q.den (by omega)
      rw [Int.neg_tmod] at this
      omega
    have t2 : -(q.den : ℤ) < Int.tmod q.num q.den := by
      have := Int.tmod_lt_of_pos (-q.num) hden
      rw [Int.neg_tmod] at this
      omega
    have t1q : (Int.tmod q.num q.den : ℚ) ≤ 0 := by exact_mod_cast t1
    have t2q : -(q.den : ℚ) < Int.tmod q.num q.den := by exact_mod_cast t2
    refine ⟨?_, ?_, ?_⟩
    · have := Int.tdiv_nonneg (a := -q.num) (b := q.den) (by omega) hden.le
      rw [Int.neg_tdiv] at this
      show Int.tdiv q.num q.den ≤ 0
      omega
    · by_contra hc; push Not at hc; nlinarith
    · by_contra hc; push Not at hc; nlinarith

theorem truncRat_near (q : ℚ) : |(truncRat q : ℚ) - q| < 1 := by
  obtain ⟨h1, h2⟩ := truncRat_bounds q
  rcases le_total 0 q with h | h
  · obtain ⟨_, a, b⟩ := h1 h; rw [abs_lt]; constructor <;> linarith
  · obtain ⟨_, a, b⟩ := h2 h; rw [abs_lt]; constructor <;> linarith

theorem roundHalfEven_near (q : ℚ) : |(roundHalfEven q : ℚ) - q| ≤ 1 / 2 := by
  have hq : (q.num : ℚ) / q.den = q := Rat.num_div_den q
  obtain ⟨d1, d2⟩ := divRoundHalfEven_dist q.num.natAbs q.den q.den_pos
  unfold roundHalfEven
  split
  · rename_i h
    have hz : (q.num.natAbs : ℚ) = (q.num : ℚ) := by
      rw [← Rat.intCast_natCast]; congr 1; omega
    rw [hz, hq] at d1 d2
    push_cast
    rw [abs_le]; constructor <;> linarith
  · rename_i h
    have hz : (q.num.natAbs : ℚ) = -(q.num : ℚ) := by
      rw [← Rat.intCast_natCast, ← Rat.intCast_neg]; congr 1; omega
    rw [hz, neg_div, hq] at d1 d2
    push_cast
    rw [abs_le]; constructor <;> linarith

/-- Error of the milliseconds before truncation. -/
theorem millis_err {x B : ℚ} (hx : |x| ≤ B) :
    |rnd (rnd x * 1000) - x * 1000| ≤ 2001 * B * ulp := by
  have hB : 0 ≤ B := le_trans (abs_nonneg _) hx
  have h1 : |rnd x - x| ≤ B * ulp := le_trans (rnd_err x) (by
    have := ulp_val
    unfold ulp at *
    gcongr)
  have h2 := rnd_err (rnd x * 1000)
  have hu : (0 : ℚ) < ulp := by rw [ulp_val]; norm_num
  have hu2 : ulp ≤ 1 / 1000 := by rw [ulp_val]; norm_num
  have h3 : |rnd x| ≤ B * (1 + ulp) := by
    have : |rnd x| ≤ |rnd x - x| + |x| := by
      have := abs_add_le (rnd x - x) x
      rwa [sub_add_cancel] at this
    nlinarith
  have h4 : |rnd x * 1000| ≤ 1000 * (B * (1 + ulp)) := by
    rw [abs_mul]; norm_num; linarith
  have h5 : |rnd (rnd x * 1000) - rnd x * 1000| ≤ 1000 * (B * (1 + ulp)) * ulp :=
    le_trans h2 (by unfold ulp at *; gcongr)
  have h6 : |rnd x * 1000 - x * 1000| ≤ 1000 * (B * ulp) := by
    rw [← sub_mul, abs_mul]; norm_num; linarith
  have h7 : |rnd (rnd x * 1000) - x * 1000| ≤
      |rnd (rnd x * 1000) - rnd x * 1000| + |rnd x * 1000 - x * 1000| := by
    have := abs_add_le (rnd (rnd x * 1000) - rnd x * 1000) (rnd x * 1000 - x * 1000)
    rwa [sub_add_sub_cancel] at this
  have h8 : B * ulp * ulp ≤ B * ulp * (1 / 1000) := by gcongr
  nlinarith

/-- Bound on the seconds of a `datetime`. -/
theorem seconds_bound {us : ℤ} (h1 : minMicros ≤ us) (h2 : us ≤ maxMicros) :
    |(us : ℚ) / 1000000| ≤ 253402300800 := by
  unfold minMicros at h1
  unfold maxMicros at h2
  have h1' : ((-62135596800000000 : ℤ) : ℚ) ≤ us := by exact_mod_cast h1
  have h2' : (us : ℚ) ≤ ((253402300799999999 : ℤ) : ℚ) := by exact_mod_cast h2
  push_cast at h1' h2'
  rw [abs_le]
  constructor
  · rw [le_div_iff₀ (by norm_num)]; linarith
  · rw [div_le_iff₀ (by norm_num)]; linarith

theorem timestampMillis_err {us : ℤ} (h1 : minMicros ≤ us) (h2 : us ≤ maxMicros) :
    |rnd (rnd ((us : ℚ) / 1000000) * 1000) - (us : ℚ) / 1000| ≤ 57 / 1000 := by
  have := millis_err (seconds_bound h1 h2)
  rw [show (us : ℚ) / 1000000 * 1000 = (us : ℚ) / 1000 by ring] at this
  refine le_trans this ?_
  rw [ulp_val]
  norm_num

theorem truncRat_tdiv {q : ℚ} {a : ℤ} {b : ℕ} (hb : 0 < b) (h : |q - (a : ℚ) / b| < 1) :
    |truncRat q - a.tdiv b| ≤ 1 := by
  have e : a.tdiv b = truncRat ((a : ℚ) / b) := by
    have hbq : (0 : ℚ) < b := by exact_mod_cast hb
    have hbz : (0 : ℤ) < b := by exact_mod_cast hb
    obtain ⟨t1, t2⟩ := truncRat_bounds ((a : ℚ) / b)
    have key : (b : ℤ) * a.tdiv b + a.tmod b = a := Int.mul_tdiv_add_tmod a b
    rcases le_total 0 a with ha | ha
    · have haq : (0 : ℚ) ≤ a := by exact_mod_cast ha
      obtain ⟨_, u1, u2⟩ := t1 (by positivity)
      rw [le_div_iff₀ hbq] at u1
      rw [div_lt_iff₀ hbq] at u2
      have u1' : truncRat ((a : ℚ) / b) * b ≤ a := by exact_mod_cast u1
      have u2' : a < (truncRat ((a : ℚ) / b) + 1) * b := by exact_mod_cast u2
      have v1 := Int.tmod_nonneg b ha
      have v2 := Int.tmod_lt_of_pos a hbz
      nlinarith
    · have haq : (a : ℚ) ≤ 0 := by exact_mod_cast ha
      obtain ⟨_, u1, u2⟩ := t2 (div_nonpos_of_nonpos_of_nonneg haq hbq.le)
      rw [div_le_iff₀ hbq] at u1
      rw [← sub_lt_iff_lt_add, lt_div_iff₀ hbq] at u2
      have u1' : a ≤ truncRat ((a : ℚ) / b) * b := by exact_mod_cast u1
      have u2' : (truncRat ((a : ℚ) / b) - 1) * b < a := by exact_mod_cast u2
      have v1 := Int.tmod_nonneg (a := -a) b (by omega)
      have v2 := Int.tmod_lt_of_pos (-a) hbz
      rw [Int.neg_tmod] at v1 v2
      nlinarith
  rw [e]
  generalize (a : ℚ) / b = p at h
  obtain ⟨q1, q2⟩ := truncRat_bounds q
  obtain ⟨p1, p2⟩ := truncRat_bounds p
  rw [abs_lt] at h
  have fin : (truncRat q : ℚ) < truncRat p + 2 ∧ (truncRat p : ℚ) < truncRat q + 2 := by
    rcases le_total 0 q with hq | hq <;> rcases le_total 0 p with hp | hp
    · obtain ⟨_, a1, a2⟩ := q1 hq; obtain ⟨_, b1, b2⟩ := p1 hp
      constructor <;> linarith
    · obtain ⟨a0, a1, a2⟩ := q1 hq; obtain ⟨b0, b1, b2⟩ := p2 hp
      constructor <;> linarith
    · obtain ⟨a0, a1, a2⟩ := q2 hq; obtain ⟨b0, b1, b2⟩ := p1 hp
      constructor <;> linarith
    · obtain ⟨a0, a1, a2⟩ := q2 hq; obtain ⟨b0, b1, b2⟩ := p2 hp
      constructor <;> linarith
  have f1 : truncRat q < truncRat p + 2 := by exact_mod_cast fin.1
  have f2 : truncRat p < truncRat q + 2 := by exact_mod_cast fin.2
  rw [abs_le]
  constructor <;> omega

/-- **C02**, proved part: every timestamp is written as its milliseconds (truncated towards zero) or as
an adjacent number of milliseconds. -/
theorem C02_written_within_one_partial (us : Int) (h1 : -62135596800000000 ≤ us) (h2 : us ≤ 253402300799999999) :
    |timestampMillis us - us.tdiv 1000| ≤ 1 := by
  unfold timestampMillis
  apply truncRat_tdiv (b := 1000) (by norm_num)
  exact lt_of_le_of_lt (timestampMillis_err h1 h2) (by norm_num)

/-- Error of reading milliseconds back. -/
theorem fromTimestamp_err {ms : ℤ} {B : ℚ} (hms : |(ms : ℚ) / 1000| ≤ B) :
    |((truncRat (rnd ((ms : ℚ) / 1000)) * 1000000 + roundHalfEven (rnd ((rnd ((ms : ℚ) / 1000)
      - truncRat (rnd ((ms : ℚ) / 1000))) * 1000000)) : ℤ) : ℚ) - ms * 1000| ≤
      B * ulp * 1000000 + 1000000 * ulp + 1 / 2 := by
  generalize ht : rnd ((ms : ℚ) / 1000) = t
  have h1 : |t - (ms : ℚ) / 1000| ≤ B * ulp := by
    rw [← ht]
    exact le_trans (rnd_err _) (by unfold ulp; gcongr)
  have h2 := truncRat_near t
  have h3 := rnd_err ((t - truncRat t) * 1000000)
  have h4 : |(t - truncRat t) * 1000000| ≤ 1000000 := by
    rw [abs_mul, abs_sub_comm]; norm_num; linarith
  have h5 : |rnd ((t - truncRat t) * 1000000) - (t - truncRat t) * 1000000| ≤ 1000000 * ulp :=
    le_trans h3 (by unfold ulp; gcongr)
  have h6 := roundHalfEven_near (rnd ((t - truncRat t) * 1000000))
  push_cast
  rw [abs_le] at *
  constructor <;> linarith [h1.1, h1.2, h5.1, h5.2, h6.1, h6.2]

theorem millis_bound {us : ℤ} (h1 : minMicros ≤ us) (h2 : us ≤ maxMicros) :
    |(timestampMillis us : ℚ) / 1000| ≤ 253402300801 := by
  have e1 := truncRat_near (rnd (rnd ((us : ℚ) / 1000000) * 1000))
  have e2 := timestampMillis_err h1 h2
  have e3 := seconds_bound h1 h2
  rw [show (us : ℚ) / 1000000 = (us : ℚ) / 1000 / 1000 by ring] at e3
  change |(timestampMillis us : ℚ) - _| < 1 at e1
  rw [abs_lt] at e1
  rw [abs_le] at e2 e3 ⊢
  constructor
  · rw [le_div_iff₀ (by norm_num)]; linarith [e1.1, e2.1, e3.1]
  · rw [div_le_iff₀ (by norm_num)]; linarith [e1.2, e2.2, e3.2]

/-- **C02**, proved part: every timestamp that is not within 100 microseconds of the first or last
`datetime` is read back as a timestamp less than 1.1 ms away. -/
theorem C02_read_back_close_partial (us : Int) (h1 : -62135596800000000 + 100 ≤ us) (h2 : us ≤ 253402300799999999 - 100) :
    ∃ us', readBack (.timestamp us) = .ok (.timestamp us') ∧ |us' - us| < 1100 := by
  have r1 : minMicros ≤ us := by unfold minMicros; omega
  have r2 : us ≤ maxMicros := by unfold maxMicros; omega
  have e1 := fromTimestamp_err (millis_bound r1 r2)
  have e2 := truncRat_bounds (rnd (rnd ((us : ℚ) / 1000000) * 1000))
  have e3 := timestampMillis_err r1 r2
  change (0 ≤ _ → 0 ≤ timestampMillis us ∧ (timestampMillis us : ℚ) ≤ _ ∧ _ < (timestampMillis us : ℚ) + 1) ∧
    (_ ≤ 0 → timestampMillis us ≤ 0 ∧ _ ≤ (timestampMillis us : ℚ) ∧ (timestampMillis us : ℚ) < _ + 1) at e2
  show ∃ us', readBack (.timestamp us) = .ok (.timestamp us') ∧ |us' - us| < 1100
  simp only [readBack, fromTimestamp]
  generalize timestampMillis us = ms at *
  generalize rnd (rnd ((us : ℚ) / 1000000) * 1000) = q at *
  have e4 : (253402300801 * ulp * 1000000 + 1000000 * ulp + 1 / 2 : ℚ) ≤ 29 := by
    rw [ulp_val]; norm_num
  generalize truncRat (rnd ((ms : ℚ) / 1000)) * 1000000 + roundHalfEven (rnd ((rnd ((ms : ℚ) / 1000)
      - truncRat (rnd ((ms : ℚ) / 1000))) * 1000000)) = us' at *
  have e5 := le_trans e1 e4
  rw [abs_le] at e3 e5
  have u1 : (ms : ℚ) * 1000 ≤ us + 57 ∨ us' ≤ 29 := by
    rcases le_total 0 q with h | h
    · left; linarith [(e2.1 h).2.1, e3.2]
    · right
      have := (e2.2 h).1
      have hz : (ms : ℚ) ≤ 0 := by exact_mod_cast this
      have : (us' : ℚ) ≤ 29 := by linarith
      exact_mod_cast this
  have u2 : (us : ℚ) - 57 ≤ (ms : ℚ) * 1000 ∨ -29 ≤ us' := by
    rcases le_total 0 q with h | h
    · right
      have := (e2.1 h).1
      have hz : (0 : ℚ) ≤ ms := by exact_mod_cast this
      have : (-29 : ℚ) ≤ us' := by linarith
      exact_mod_cast this
    · left; linarith [(e2.2 h).2.1, e3.1]
  have near : |(ms : ℚ) - q| < 1 := by
    rw [abs_lt]
    rcases le_total 0 q with h | h
    · obtain ⟨_, a, b⟩ := e2.1 h; constructor <;> linarith
    · obtain ⟨_, a, b⟩ := e2.2 h; constructor <;> linarith
  rw [abs_lt] at near
  have c1 : (us' : ℚ) - us < 1100 := by linarith
  have c2 : -1100 < (us' : ℚ) - us := by linarith
  have c1' : us' - us < 1100 := by exact_mod_cast c1
  have c2' : -1100 < us' - us := by exact_mod_cast c2
  have d1 : us' ≤ us + 86 ∨ us' ≤ 29 := by
    rcases u1 with h | h
    · left
      have : (us' : ℚ) ≤ us + 86 := by linarith
      exact_mod_cast this
    · exact .inr h
  have d2 : us - 86 ≤ us' ∨ -29 ≤ us' := by
    rcases u2 with h | h
    · left
      have : (us : ℚ) - 86 ≤ us' := by linarith
      exact_mod_cast this
    · exact .inr h
  have hr : minMicros ≤ us' ∧ us' ≤ maxMicros := by
    unfold minMicros maxMicros at *
    omega
  rw [if_pos hr]
  exact ⟨us', rfl, by rw [abs_lt]; exact ⟨c2', c1'⟩⟩

/-- **C02**, proved part: between the years 1828 and 2112 the timestamp read back is exactly the number
of milliseconds on the wire. -/
theorem C02_wire_read_exactly_partial (ms : Int) (h : |ms| ≤ 4503599626000) :
    fromTimestamp (rnd ((ms : ℚ) / 1000)) = .ok (ms * 1000) := by
  have hb : |(ms : ℚ) / 1000| ≤ 4503599626 := by
    rw [abs_le] at h ⊢
    have a : ((-4503599626000 : ℤ) : ℚ) ≤ ms := by exact_mod_cast h.1
    have b : (ms : ℚ) ≤ ((4503599626000 : ℤ) : ℚ) := by exact_mod_cast h.2
    push_cast at a b
    constructor
    · rw [le_div_iff₀ (by norm_num)]; linarith
    · rw [div_le_iff₀ (by norm_num)]; linarith
  have e1 := fromTimestamp_err hb
  have e4 : (4503599626 * ulp * 1000000 + 1000000 * ulp + 1 / 2 : ℚ) < 1 := by
    rw [ulp_val]; norm_num
  simp only [fromTimestamp]
  generalize truncRat (rnd ((ms : ℚ) / 1000)) * 1000000 + roundHalfEven (rnd ((rnd ((ms : ℚ) / 1000)
      - truncRat (rnd ((ms : ℚ) / 1000))) * 1000000)) = us' at *
  have e5 := lt_of_le_of_lt e1 e4
  have e6 : |us' - ms * 1000| < 1 := by exact_mod_cast e5
  obtain rfl : us' = ms * 1000 := by rw [abs_lt] at e6; omega
  rw [abs_le] at h
  rw [if_pos (by unfold minMicros maxMicros; omega)]

/-- **C02** is false of the code at the end of the range: the last `datetime` is written as the first
millisecond of the year 10000, which cannot be read back. -/
theorem C02_last_datetime_fails : timestampMillis 253402300799999999 = 253402300800000 ∧
    readBack (.timestamp 253402300799999999) = .error .valueError := by
  decide +kernel

/-- Not too close to the ends of the range of `datetime`. -/
def InRange : HeaderValue → Prop
  | .timestamp us => -62135596800000000 + 100 ≤ us ∧ us ≤ 253402300799999999 - 100
  | _ => True

/-- **C01**, arbitrary timestamps: every encoded message is decoded, with its payload, its header names
in order and every header unchanged, except that timestamps move by less than 1.1 ms. -/
theorem C01_frame_round_trip_close (m : EventMessage) (f rest : Bytes) (he : m.encode = .ok f)
    (hr : ∀ x ∈ m.headers, InRange x.2) :
    ∃ e, Event.decode (f ++ rest) = (.ok (some e), rest) ∧ e.message.payload = m.payload ∧
      e.message.headers.map Prod.fst = m.headers.map Prod.fst ∧
      ∀ i (h : i < m.headers.length), ∃ v, e.message.headers[i]? = some (m.headers[i].1, v) ∧
        (v = m.headers[i].2 ∨ ∃ us us', m.headers[i].2 = .timestamp us ∧ v = .timestamp us' ∧
          |us' - us| < 1100) := by
  let g : HeaderValue → HeaderValue := fun v => match readBack v with | .ok v' => v' | .error _ => v
  have hg : ∀ x ∈ m.headers, readBack x.2 = .ok (g x.2) := by
    intro x hx
    have := hr x hx
    obtain ⟨k, v⟩ := x
    show readBack v = .ok (match readBack v with | .ok v' => v' | .error _ => v)
    match v, this with
    | .timestamp us, h =>
      obtain ⟨us', h1, _⟩ := C02_read_back_close_partial us h.1 h.2
      rw [h1]
    | .bool _, _ | .byte _, _ | .short _, _ | .int _, _ | .long _, _ | .blob _, _ | .str _, _
    | .uuid _, _ | .other, _ => rfl
  obtain ⟨e, h1, h2⟩ := decode_encode rest g he hg
  refine ⟨e, h1, by rw [h2], by rw [h2]; simp, ?_⟩
  intro i hi
  have h3 := hg _ (List.getElem_mem hi)
  have h4 := hr _ (List.getElem_mem hi)
  refine ⟨g m.headers[i].2, by rw [h2]; simp [List.getElem?_eq_getElem hi], ?_⟩
  generalize m.headers[i] = x at *
  obtain ⟨k, v⟩ := x
  match v, h3, h4 with
  | .timestamp us, h3, h =>
    obtain ⟨us', h5, h6⟩ := C02_read_back_close_partial us h.1 h.2
    right
    simp only at h3
    rw [h5] at h3
    injection h3 with h3
    exact ⟨us, us', rfl, h3.symm, h6⟩
  | .bool _, h3, _ | .byte _, h3, _ | .short _, h3, _ | .int _, h3, _ | .long _, h3, _
  | .blob _, h3, _ | .str _, h3, _ | .uuid _, h3, _ | .other, h3, _ =>
    left; simp only [readBack] at h3; injection h3

example : (∃ f, sample.encode = .ok f) ∧ ∀ x ∈ sample.headers, InRange x.2 := by
  refine ⟨sample_encodes, ?_⟩
  intro x hx
  simp only [sample, List.mem_cons, List.not_mem_nil, or_false] at hx
  rcases hx with rfl | rfl | rfl | rfl <;>
    simp [InRange]

end Verif.EventStream

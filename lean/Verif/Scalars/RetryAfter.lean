import Verif.Scalars.PyInt
import Verif.EventStream.RndLemmas

/-!
# The retry-after header (C58)

Models `parse_retry_after` (smithy_aws_core/utils.py:14-35).  Seconds are binary64 numbers, represented
by the rational they denote (`Verif.EventStream.rnd` rounds to the nearest one).
-/

set_option autoImplicit false

namespace Verif.Scalars

open Verif.EventStream (rnd)

/-! ## Model -/

/-- Converting an integer to a float fails with `OverflowError` when it rounds to `2^1024` or more. -/
def overflows (n : Int) : Prop := (2 : ℚ) ^ 1024 ≤ |rnd (n : ℚ)|

instance (n : Int) : Decidable (overflows n) :=
  inferInstanceAs (Decidable ((2 : ℚ) ^ 1024 ≤ |rnd (n : ℚ)|))

/-- `parse_retry_after` (utils.py:14-35).  `field` is what the response has under `x-amz-retry-after`
(its values; utils.py:20-22), `int` is Python's `int`. -/
def parseRetryAfter (int : Text → Option Int) (field : Option (List Text)) :
    Option ℚ :=
  match field with
  | none => none
  | some values =>
    match int (HeaderText.asString values) with
    | none => none
    | some n =>
      if overflows n then none
      else
        let seconds := rnd (rnd (n : ℚ) / 1000)
        if seconds < 0 then none else some seconds

/-! ## Theorems -/

theorem rnd_neg_of_neg {q : ℚ} (h : q < 0) : rnd q < 0 := by
  have := EventStream.rnd_pos_pos (q := -q) (by linarith)
  rw [EventStream.rnd_neg] at this
  linarith

/-- **C58**: a delay is taken from the header exactly when the header is present and its text is a
numeral for a non-negative integer `n` that a float can hold; the delay is then `n` milliseconds. -/
theorem C58_iff {isSpace : Char → Bool} {digit : Char → Option Nat} (hcl : Classes isSpace digit)
    (limit : Nat) (field : Option (List Text)) (s : ℚ) :
    parseRetryAfter (pyInt isSpace digit limit) field = some s ↔
      ∃ values n, field = some values ∧
        Numeral isSpace digit limit (HeaderText.asString values) n ∧ 0 ≤ n ∧ ¬ overflows n ∧
        s = rnd (rnd (n : ℚ) / 1000) := by
  unfold parseRetryAfter
  cases field with
  | none => simp
  | some values =>
    cases hi : pyInt isSpace digit limit (HeaderText.asString values) with
    | none =>
      simp only [hi, reduceCtorEq, false_iff]
      rintro ⟨v, n, hv, hn, _⟩
      cases hv
      rw [(pyInt_iff hcl limit _ n).2 hn] at hi
      cases hi
    | some n =>
      have hnum := (pyInt_iff hcl limit _ n).1 hi
      have huniq : ∀ m, Numeral isSpace digit limit (HeaderText.asString values) m → m = n := by
        intro m hm
        have := (pyInt_iff hcl limit _ m).2 hm
        rw [hi] at this
        exact (Option.some.inj this).symm
      have hsign : rnd (rnd (n : ℚ) / 1000) < 0 ↔ n < 0 := by
        constructor
        · intro h
          by_contra hn
          have h1 : (0 : ℚ) ≤ n := by exact_mod_cast not_lt.1 hn
          have := EventStream.rnd_nonneg (div_nonneg (EventStream.rnd_nonneg h1) (by norm_num :
            (0 : ℚ) ≤ 1000))
          linarith
        · intro h
          have h1 : (n : ℚ) < 0 := by exact_mod_cast h
          exact rnd_neg_of_neg (div_neg_of_neg_of_pos (rnd_neg_of_neg h1) (by norm_num))
      simp only [hi]
      by_cases ho : overflows n
      · rw [if_pos ho]
        simp only [reduceCtorEq, false_iff]
        rintro ⟨v, m, hv, hm, _, hno, _⟩
        cases hv
        rw [huniq m hm] at hno
        exact hno ho
      · rw [if_neg ho]
        by_cases hn : rnd (rnd (n : ℚ) / 1000) < 0
        · rw [if_pos hn]
          simp only [reduceCtorEq, false_iff]
          rintro ⟨v, m, hv, hm, h0, _⟩
          cases hv
          rw [huniq m hm] at h0
          have := hsign.1 hn
          omega
        · rw [if_neg hn]
          constructor
          · intro h
            exact ⟨values, n, rfl, hnum, by by_contra h'; exact hn (hsign.2 (by omega)), ho,
              (Option.some.inj h).symm⟩
          · rintro ⟨v, m, hv, hm, _, _, hs⟩
            cases hv
            rw [hs, huniq m hm]

/-- **C58**: the delay is never negative, and differs from the number of milliseconds sent only by the
rounding of the division. -/
theorem C58_delay {isSpace : Char → Bool} {digit : Char → Option Nat} (hcl : Classes isSpace digit)
    (limit : Nat) (field : Option (List Text)) (s : ℚ)
    (h : parseRetryAfter (pyInt isSpace digit limit) field = some s) :
    0 ≤ s ∧ ∀ values n, field = some values →
      Numeral isSpace digit limit (HeaderText.asString values) n → n ≤ 2 ^ 53 →
      |s - n / 1000| ≤ n / 1000 * 2 ^ (-53 : ℤ) := by
  obtain ⟨values, n, hv, hn, h0, _, rfl⟩ := (C58_iff hcl limit field s).1 h
  have h1 : (0 : ℚ) ≤ n := by exact_mod_cast h0
  have h2 : (0 : ℚ) ≤ rnd (n : ℚ) / 1000 := div_nonneg (EventStream.rnd_nonneg h1) (by norm_num)
  refine ⟨EventStream.rnd_nonneg h2, ?_⟩
  intro values' m hv' hm hb
  rw [hv] at hv'
  cases hv'
  have : m = n := by
    have a := (pyInt_iff hcl limit _ m).2 hm
    rw [(pyInt_iff hcl limit _ n).2 hn] at a
    exact (Option.some.inj a).symm
  subst this
  have hex : rnd (m : ℚ) = m :=
    EventStream.rnd_float (EventStream.isFloat_int (by rw [abs_of_nonneg h0]; exact hb))
  have := EventStream.rnd_err (rnd (m : ℚ) / 1000)
  rw [abs_of_nonneg h2, hex] at this
  rw [hex]
  exact this

/-! ## The hypotheses are met -/

theorem numeral_1500 : Numeral HeaderText.blank asciiDigit 4300 " 1500".toList 1500 :=
  (pyInt_iff classes_ascii 4300 _ _).1 (by decide +kernel)

example : parseRetryAfter (pyInt HeaderText.blank asciiDigit 4300) (some [" 1500".toList]) =
    some (3 / 2) := by
  refine (C58_iff classes_ascii 4300 _ _).2 ⟨[" 1500".toList], 1500, rfl, numeral_1500, by norm_num,
    ?_, ?_⟩
  · unfold overflows
    have : rnd ((1500 : ℤ) : ℚ) = 1500 :=
      EventStream.rnd_float (EventStream.isFloat_int (by norm_num))
    rw [this]
    have h : (2 : ℚ) ^ 1024 ≥ 2 ^ 11 := pow_le_pow_right₀ (by norm_num) (by norm_num)
    rw [abs_of_nonneg (by norm_num)]
    have h2 : (2 : ℚ) ^ 11 = 2048 := by norm_num
    rw [h2] at h
    intro h'
    have := le_trans h h'
    norm_num at this
  · decide +kernel

end Verif.Scalars

import Mathlib.Tactic.Ring
import Mathlib.Tactic.FieldSimp
import Mathlib.Data.Rat.Defs
import Mathlib.Algebra.Field.Rat
import Mathlib.Algebra.Order.Ring.Rat
import Verif.Numerals
import Verif.Json.Grammar

/-!
# Decimal numbers in JSON

Models what `write_float` writes for a `Decimal` (smithy_json/_private/serializers.py:306-311):
`str(value.normalize())`, with the standard library's `Decimal` (_pydecimal.py, Python 3.11) in its default
context: 28 digits, rounding half to even.  Simplification: exponents far outside the range of the
context (below -999 999 or above 999 999) are not modelled.
-/

set_option autoImplicit false

namespace Verif.Json

open Verif.Numerals
open Verif.Scalars.Strict (JsonNumber ascii)

/-! ## Model -/

/-- A finite `Decimal`: sign, coefficient, exponent. -/
structure Dec where
  neg : Bool
  coeff : Nat
  exp : Int
  deriving DecidableEq, Repr

/-- The number of digits of the coefficient. -/
def Dec.digits (d : Dec) : Nat := (natText d.coeff).length

/-- `Decimal._fix` (_pydecimal.py:1671-1760) with a precision of 28 digits. -/
def Dec.fix (d : Dec) : Dec :=
  if d.digits ≤ 28 then d
  else
    let drop := d.digits - 28
    let q := d.coeff / 10 ^ drop
    let r := d.coeff % 10 ^ drop
    let up := if 2 * r = 10 ^ drop then q % 2 = 1 else 10 ^ drop < 2 * r
    if up then
      if q + 1 = 10 ^ 28 then { d with coeff := 10 ^ 27, exp := d.exp + drop + 1 }
      else { d with coeff := q + 1, exp := d.exp + drop }
    else { d with coeff := q, exp := d.exp + drop }

/-- Trailing zeros are removed (_pydecimal.py:2538-2543). -/
def stripZeros : Nat → Nat → Int → Nat × Int
  | 0, c, e => (c, e)
  | n + 1, c, e => if c % 10 = 0 then stripZeros n (c / 10) (e + 1) else (c, e)

/-- `Decimal.normalize` (_pydecimal.py:2521-2544). -/
def Dec.normalize (d : Dec) : Dec :=
  let d := d.fix
  if d.coeff = 0 then { d with coeff := 0, exp := 0 }
  else
    let r := stripZeros d.digits d.coeff d.exp
    { d with coeff := r.1, exp := r.2 }

/-- `Decimal.__str__` (_pydecimal.py:1041-1091). -/
def Dec.str (d : Dec) : Text :=
  let int := natText d.coeff
  let leftdigits : Int := d.exp + int.length
  let dotplace : Int := if d.exp ≤ 0 ∧ -6 < leftdigits then leftdigits else 1
  let parts : Text × Text :=
    if dotplace ≤ 0 then (['0'], '.' :: (List.replicate (-dotplace).toNat '0' ++ int))
    else if (int.length : Int) ≤ dotplace then
      (int ++ List.replicate (dotplace - int.length).toNat '0', [])
    else (int.take dotplace.toNat, '.' :: int.drop dotplace.toNat)
  let exp : Text :=
    if leftdigits = dotplace then []
    else 'E' :: (if leftdigits - dotplace < 0 then '-' else '+') :: natText (leftdigits - dotplace).natAbs
  (if d.neg then ['-'] else []) ++ parts.1 ++ parts.2 ++ exp

/-! ## Specification -/

/-- The number a `Decimal` stands for. -/
def Dec.value (d : Dec) : ℚ := (if d.neg then -1 else 1) * d.coeff * (10 : ℚ) ^ d.exp

/-- The exponent of a JSON number. -/
def expValue : Option (Char × Option Char × Text) → Int
  | none => 0
  | some (_, some '-', ds) => -(natValue ds : Int)
  | some (_, _, ds) => natValue ds

/-- The number a JSON number stands for. -/
def numberValue (n : JsonNumber) : ℚ :=
  (if n.neg then -1 else 1) *
    (natValue n.int + (match n.frac with | none => 0 | some f => natValue f / (10 : ℚ) ^ f.length)) *
    (10 : ℚ) ^ expValue n.exp

/-! ## Theorems -/

theorem natValue_append (a b : Text) : natValue (a ++ b) = natValue a * 10 ^ b.length + natValue b := by
  unfold natValue
  rw [List.foldl_append]
  generalize List.foldl (fun a c => 10 * a + (c.toNat - '0'.toNat)) 0 a = x
  induction b generalizing x with
  | nil => simp
  | cons c b ih =>
    simp only [List.foldl_cons, List.length_cons]
    rw [ih, ih (10 * 0 + (c.toNat - '0'.toNat))]
    ring

theorem natValue_zeros (n : Nat) : natValue (List.replicate n '0') = 0 := by
  induction n with
  | zero => rfl
  | succ n ih =>
    rw [List.replicate_succ', natValue_append, ih]
    rfl

theorem digits_pos (n : Nat) : 0 < (natText n).length := List.length_pos_of_ne_nil (natText_ne_nil n)

theorem stripZeros_value (n : Nat) : ∀ (c : Nat) (e : Int),
    ((stripZeros n c e).1 : ℚ) * (10 : ℚ) ^ (stripZeros n c e).2 = c * (10 : ℚ) ^ e := by
  induction n with
  | zero => intro c e; rfl
  | succ n ih =>
    intro c e
    simp only [stripZeros]
    split
    · rename_i h
      rw [ih]
      have hc : (c : ℚ) = ((c / 10 : Nat) : ℚ) * 10 := by
        have : c = c / 10 * 10 := by omega
        exact_mod_cast this
      rw [zpow_add₀ (by norm_num), zpow_one, hc]
      push_cast
      ring_nf
    · rfl

/-- Numbers of at most 28 digits keep their value. -/
theorem normalize_value (d : Dec) (h : d.digits ≤ 28) : d.normalize.value = d.value := by
  unfold Dec.normalize
  rw [show d.fix = d by unfold Dec.fix; rw [if_pos h]]
  by_cases hc : d.coeff = 0
  · simp only [hc, if_true, Dec.value]; simp
  · simp only [hc, if_false, Dec.value]
    rw [mul_assoc, stripZeros_value, mul_assoc]

/-- The parts of the text of a `Decimal`. -/
theorem str_number (d : Dec) : ∃ n : JsonNumber, n.Ok ascii ∧ d.str = n.text ∧ numberValue n = d.value := by
  obtain ⟨neg, c, e⟩ := d
  have hpos := digits_pos c
  have hasc := natText_ascii c
  have hval := natValue_natText c
  have hint := natText_head c
  simp only [Dec.str, Dec.value]
  generalize natText c = int at hpos hasc hval hint
  -- the exponent
  let expo : Int → Option (Char × Option Char × Text) := fun k =>
    some ('E', some (if k < 0 then '-' else '+'), natText k.natAbs)
  have expo_ok : ∀ k e sign ds, expo k = some (e, sign, ds) →
      (e = 'e' ∨ e = 'E') ∧ (∀ s, sign = some s → s = '+' ∨ s = '-') ∧
        Scalars.Strict.Digits ascii ds := by
    intro k e sign ds h
    simp only [expo, Option.some.injEq, Prod.mk.injEq] at h
    obtain ⟨rfl, rfl, rfl⟩ := h
    refine ⟨.inr rfl, ?_, natText_ne_nil _, natText_ascii _⟩
    intro s hs
    rw [← Option.some.inj hs]
    split <;> simp
  have expo_value : ∀ k, expValue (expo k) = k := by
    intro k
    by_cases h : k < 0
    · simp only [expo, h, if_true, expValue, natValue_natText]; omega
    · simp only [expo, h, if_false]
      show ((natValue (natText k.natAbs) : Nat) : Int) = k
      rw [natValue_natText]; omega
  by_cases hplain : e ≤ 0 ∧ -6 < e + int.length
  · simp only [hplain, and_self, if_true]
    by_cases h0 : e + int.length ≤ 0
    · -- 0.00ddd
      simp only [h0, if_true]
      refine ⟨⟨neg, ['0'], some (List.replicate (-(e + int.length)).toNat '0' ++ int), none⟩,
        ⟨.inl rfl, ?_, by simp⟩, ?_, ?_⟩
      · intro f hf
        rw [← Option.some.inj hf]
        refine ⟨by intro h; rw [List.append_eq_nil_iff] at h; rw [h.2] at hpos; simp at hpos, ?_⟩
        intro c hc
        rcases List.mem_append.1 hc with hc | hc
        · rw [(List.mem_replicate.1 hc).2]; decide
        · exact hasc c hc
      · simp only [JsonNumber.text]
      · simp only [numberValue, expValue, natValue_append, natValue_zeros, hval, List.length_append,
          List.length_replicate]
        have h1 : natValue ['0'] = 0 := rfl
        have h2 : ((-(e + (int.length : Int))).toNat + int.length : Nat) = (-e).toNat := by omega
        rw [h1, h2]
        have h3 : (10 : ℚ) ^ e = ((10 : ℚ) ^ (-e).toNat)⁻¹ := by
          rw [← zpow_natCast, ← zpow_neg]
          congr 1
          omega
        rw [h3]
        push_cast
        simp [div_eq_mul_inv]
    · simp only [h0, if_false]
      by_cases hlen : (int.length : Int) ≤ e + int.length
      · -- ddd
        have he : e = 0 := by omega
        subst he
        simp only [hlen, if_true]
        refine ⟨⟨neg, int, none, none⟩, ⟨hint, by simp, by simp⟩, ?_, ?_⟩
        · simp [JsonNumber.text]
        · simp [numberValue, expValue, hval]
      · -- d.dd
        simp only [hlen, if_false]
        have hk : (e + int.length).toNat < int.length := by omega
        have hk0 : 0 < (e + int.length).toNat := by omega
        have hkl : (e + (int.length : Int)).toNat = int.length - (-e).toNat := by omega
        generalize (e + (int.length : Int)).toNat = k at hk hk0 hkl
        refine ⟨⟨neg, int.take k, some (int.drop k), none⟩, ⟨?_, ?_, by simp⟩, ?_, ?_⟩
        · rcases hint with h | ⟨c, ds, h1, h2, h3⟩
          · rw [h] at hk; simp at hk; omega
          · refine .inr ⟨c, ds.take (k - 1), ?_, h2, fun d hd => h3 d (List.mem_of_mem_take hd)⟩
            rw [h1]
            obtain ⟨k, rfl⟩ : ∃ k', k = k' + 1 := ⟨k - 1, by omega⟩
            simp
        · intro f hf
          rw [← Option.some.inj hf]
          refine ⟨?_, fun c hc => hasc c (List.mem_of_mem_drop hc)⟩
          intro h
          have := congrArg List.length h
          simp at this
          omega
        · simp [JsonNumber.text]
        · have hv : (c : ℚ) = natValue (int.take k) * 10 ^ (int.drop k).length +
              natValue (int.drop k) := by
            rw [← hval]
            conv_lhs => rw [← List.take_append_drop k int]
            rw [natValue_append]
            push_cast
            rfl
          have hlen' : (int.drop k).length = (-e).toNat := by
            rw [List.length_drop]; omega
          rw [hlen'] at hv
          have h3 : (10 : ℚ) ^ e = ((10 : ℚ) ^ (-e).toNat)⁻¹ := by
            rw [← zpow_natCast, ← zpow_neg]
            congr 1
            omega
          simp only [numberValue, expValue, hlen', hv, h3, zpow_zero]
          have : (10 : ℚ) ^ (-e).toNat ≠ 0 := pow_ne_zero _ (by norm_num)
          field_simp
  · simp only [hplain, if_false]
    have hne : e + (int.length : Int) ≠ 1 := by omega
    simp only [show ¬ (1 : Int) ≤ 0 by omega, if_false, hne]
    have hz : (10 : ℚ) ^ (e + int.length - 1) = (10 : ℚ) ^ e * (10 : ℚ) ^ (int.length - 1) := by
      rw [← zpow_natCast, ← zpow_add₀ (by norm_num)]
      congr 1
      omega
    by_cases hlen : (int.length : Int) ≤ 1
    · have hl : int.length = 1 := by omega
      simp only [hlen, if_true]
      refine ⟨⟨neg, int, none, expo (e + int.length - 1)⟩, ⟨hint, by simp, expo_ok _⟩, ?_, ?_⟩
      · simp [JsonNumber.text, expo, hl]
      · simp only [numberValue, expo_value, hval, hl]
        simp
    · simp only [hlen, if_false]
      refine ⟨⟨neg, int.take 1, some (int.drop 1), expo (e + int.length - 1)⟩,
        ⟨?_, ?_, expo_ok _⟩, ?_, ?_⟩
      · rcases hint with h | ⟨c, ds, h1, h2, h3⟩
        · rw [h] at hlen; simp at hlen
        · refine .inr ⟨c, [], ?_, h2, by simp⟩
          rw [h1]; rfl
      · intro f hf
        rw [← Option.some.inj hf]
        refine ⟨?_, fun c hc => hasc c (List.mem_of_mem_drop hc)⟩
        intro h
        have := congrArg List.length h
        simp at this
        omega
      · simp [JsonNumber.text, expo]
      · have hv : (c : ℚ) = natValue (int.take 1) * 10 ^ (int.drop 1).length +
            natValue (int.drop 1) := by
          rw [← hval]
          conv_lhs => rw [← List.take_append_drop 1 int]
          rw [natValue_append]
          push_cast
          rfl
        have hlen' : (int.drop 1).length = int.length - 1 := List.length_drop
        rw [hlen'] at hv
        simp only [numberValue, expo_value, hlen', hv, hz]
        have : (10 : ℚ) ^ (int.length - 1) ≠ 0 := pow_ne_zero _ (by norm_num)
        field_simp

/-- A `Decimal` is written as a JSON number. -/
theorem str_isNumber (d : Dec) : IsNumber d.str := by
  obtain ⟨n, h1, h2, _⟩ := str_number d
  exact ⟨n, h1, h2⟩

/-! ## The hypotheses are met -/

example : (Dec.normalize ⟨true, 12300, -4⟩).str = "-1.23".toList ∧
    (Dec.normalize ⟨false, 100, 0⟩).str = "1E+2".toList ∧
    (Dec.normalize ⟨false, 5, -9⟩).str = "5E-9".toList ∧
    (Dec.normalize ⟨true, 0, -3⟩).str = "-0".toList := by decide +kernel

end Verif.Json

import Mathlib.Tactic.Common
import Verif.Common

/-!
# Base64

The codecs write blobs with `b64encode` (smithy_json/_private/serializers.py:94-95) and read them with
`b64decode` (smithy_json/_private/deserializers.py:115-119).  Both are functions of the standard library
(Python 3.11): the first is modelled by the table of RFC 4648, section 4; the second by the state
machine of `binascii.a2b_base64` in its default mode, which skips characters outside the alphabet and
stops at the padding.
-/

set_option autoImplicit false

namespace Verif.Base64

abbrev Text := List Char
abbrev Byte := Fin 256

/-! ## Model -/

/-- The alphabet (RFC 4648, table 1). -/
def charOf (n : Nat) : Char :=
  if n < 26 then Char.ofNat (65 + n)
  else if n < 52 then Char.ofNat (71 + n)
  else if n < 62 then Char.ofNat (n - 4)
  else if n = 62 then '+' else '/'

/-- The number of a character of the alphabet. -/
def valueOf (c : Char) : Option Nat :=
  if 65 ≤ c.toNat ∧ c.toNat ≤ 90 then some (c.toNat - 65)
  else if 97 ≤ c.toNat ∧ c.toNat ≤ 122 then some (c.toNat - 71)
  else if 48 ≤ c.toNat ∧ c.toNat ≤ 57 then some (c.toNat + 4)
  else if c = '+' then some 62 else if c = '/' then some 63 else none

/-- `b64encode(value).decode("utf-8")` (RFC 4648, section 4). -/
def encode : List Byte → Text
  | [] => []
  | [a] => [charOf (a / 4), charOf (a % 4 * 16), '=', '=']
  | [a, b] => [charOf (a / 4), charOf (a % 4 * 16 + b / 16), charOf (b % 16 * 4), '=']
  | a :: b :: c :: r =>
    charOf (a / 4) :: charOf (a % 4 * 16 + b / 16) :: charOf (b % 16 * 4 + c / 64) :: charOf (c % 64) ::
      encode r

/-- The loop of `binascii.a2b_base64`: the position in the group of four, the bits left over, the
number of pad characters just seen.  `none` is `binascii.Error`. -/
def decodeFrom : Nat → Nat → Nat → Text → Option (List Byte)
  | quad, _, _, [] => if quad = 0 then some [] else none
  | quad, left, pads, c :: r =>
    if c = '=' then
      if 2 ≤ quad ∧ 4 ≤ quad + (pads + 1) then some [] else decodeFrom quad left (pads + 1) r
    else
      match valueOf c with
      | none => decodeFrom quad left pads r
      | some v =>
        match quad with
        | 0 => decodeFrom 1 v 0 r
        | 1 => (decodeFrom 2 (v % 16) 0 r).map (Fin.ofNat 256 (left * 4 + v / 16) :: ·)
        | 2 => (decodeFrom 3 (v % 4) 0 r).map (Fin.ofNat 256 (left * 16 + v / 4) :: ·)
        | _ => (decodeFrom 0 0 0 r).map (Fin.ofNat 256 (left * 64 + v) :: ·)

/-- `b64decode(text)`. -/
def decode (t : Text) : Option (List Byte) := decodeFrom 0 0 0 t

/-! ## Theorems -/

theorem valueOf_charOf : ∀ n < 64, valueOf (charOf n) = some n ∧ charOf n ≠ '=' := by decide +kernel

theorem charOf_plain : ∀ n < 64, charOf n ≠ '"' ∧ charOf n ≠ '\\' ∧ 0x20 ≤ (charOf n).toNat := by
  decide +kernel

theorem step0 (left pads v : Nat) (r : Text) (h : v < 64) :
    decodeFrom 0 left pads (charOf v :: r) = decodeFrom 1 v 0 r := by
  obtain ⟨h1, h2⟩ := valueOf_charOf v h
  simp only [decodeFrom, h2, if_false, h1]

theorem step1 (left pads v : Nat) (r : Text) (h : v < 64) :
    decodeFrom 1 left pads (charOf v :: r) =
      (decodeFrom 2 (v % 16) 0 r).map (Fin.ofNat 256 (left * 4 + v / 16) :: ·) := by
  obtain ⟨h1, h2⟩ := valueOf_charOf v h
  simp only [decodeFrom, h2, if_false, h1]

theorem step2 (left pads v : Nat) (r : Text) (h : v < 64) :
    decodeFrom 2 left pads (charOf v :: r) =
      (decodeFrom 3 (v % 4) 0 r).map (Fin.ofNat 256 (left * 16 + v / 4) :: ·) := by
  obtain ⟨h1, h2⟩ := valueOf_charOf v h
  simp only [decodeFrom, h2, if_false, h1]

theorem step3 (left pads v : Nat) (r : Text) (h : v < 64) :
    decodeFrom 3 left pads (charOf v :: r) =
      (decodeFrom 0 0 0 r).map (Fin.ofNat 256 (left * 64 + v) :: ·) := by
  obtain ⟨h1, h2⟩ := valueOf_charOf v h
  simp only [decodeFrom, h2, if_false, h1]

theorem byte_eq (n : Nat) (a : Byte) (h : n = a.val) : Fin.ofNat 256 n = a := by
  subst h
  exact Fin.ofNat_val_eq_self a

/-- Decoding undoes encoding. -/
theorem decode_encode (bs : List Byte) : decode (encode bs) = some bs := by
  unfold decode
  induction bs using encode.induct with
  | case1 => rfl
  | case2 a =>
    have := a.isLt
    simp only [encode]
    rw [step0 _ _ _ _ (by omega), step1 _ _ _ _ (by omega)]
    rw [byte_eq _ a (by omega)]
    rfl
  | case3 a b =>
    have := a.isLt
    have := b.isLt
    simp only [encode]
    rw [step0 _ _ _ _ (by omega), step1 _ _ _ _ (by omega), step2 _ _ _ _ (by omega)]
    rw [byte_eq _ a (by omega), byte_eq _ b (by omega)]
    rfl
  | case4 a b c r ih =>
    have := a.isLt
    have := b.isLt
    have := c.isLt
    simp only [encode]
    rw [step0 _ _ _ _ (by omega), step1 _ _ _ _ (by omega), step2 _ _ _ _ (by omega),
      step3 _ _ _ _ (by omega), ih]
    rw [byte_eq _ a (by omega), byte_eq _ b (by omega), byte_eq _ c (by omega)]
    rfl

theorem encode_injective {a b : List Byte} (h : encode a = encode b) : a = b := by
  have := decode_encode a
  rw [h, decode_encode b] at this
  exact (Option.some.inj this).symm

/-! ## The hypotheses are met -/

example : encode [77, 97, 110, 77] = "TWFuTQ==".toList ∧ decode "TW\nFuTQ==".toList = some [77, 97, 110, 77] ∧
    decode "TWFuT".toList = none := by decide +kernel

end Verif.Base64

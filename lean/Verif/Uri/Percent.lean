import Verif.Text
import Mathlib.Tactic.Common

/-!
# Percent-encoding

`urllib.parse.quote(text, safe=...)` (Python standard library, called at smithy_http/utils.py:121-124,
smithy_http/serializers.py:681-695 and aws_sdk_signers/signers.py).  Text is its UTF-8 bytes;
`quote` raises on text that is not valid Unicode, which bytes cannot express.
-/

set_option autoImplicit false

namespace Verif.Uri

abbrev Bytes := List UInt8

/-- The code of an ASCII character. -/
def ch (c : Char) : UInt8 := UInt8.ofNat c.toNat

/-- ASCII text. -/
def asc (s : String) : Bytes := s.toList.map ch

/-- The characters `quote` never encodes: letters, digits, `_.-~`. -/
def unreserved (b : UInt8) : Bool :=
  (65 ≤ b.toNat && b.toNat ≤ 90) || (97 ≤ b.toNat && b.toNat ≤ 122) ||
    (48 ≤ b.toNat && b.toNat ≤ 57) || b = ch '_' || b = ch '.' || b = ch '-' || b = ch '~'

/-- Upper-case hexadecimal digit. -/
def hexDigit (n : Nat) : UInt8 := UInt8.ofNat (if n < 10 then 48 + n else 55 + n)

/-- One byte of `quote`. -/
def encodeByte (safe : UInt8 → Bool) (b : UInt8) : Bytes :=
  if unreserved b || safe b then [b]
  else [ch '%', hexDigit (b.toNat / 16), hexDigit (b.toNat % 16)]

/-- `quote(text, safe)`. -/
def quote (safe : UInt8 → Bool) (t : Bytes) : Bytes := t.flatMap (encodeByte safe)

/-- `safe=""`. -/
def noneSafe : UInt8 → Bool := fun _ => false

/-- `safe="/"`, the default of `quote`. -/
def slashSafe : UInt8 → Bool := fun b => b = ch '/'

/-! ## Decoding (specification) -/

def unhex (c : UInt8) : Option Nat :=
  let n := c.toNat
  if 48 ≤ n ∧ n ≤ 57 then some (n - 48)
  else if 65 ≤ n ∧ n ≤ 70 then some (n - 55)
  else if 97 ≤ n ∧ n ≤ 102 then some (n - 87)
  else none

/-- Percent-decoding as in RFC 3986, 2.1: `%` and two hexadecimal digits stand for a byte; anything
else for itself. -/
def unquote : Bytes → Bytes
  | [] => []
  | [c] => [c]
  | [c, d] => [c, d]
  | c :: h :: l :: rest =>
    if c = ch '%' then
      match unhex h, unhex l with
      | some a, some b => UInt8.ofNat (16 * a + b) :: unquote rest
      | _, _ => c :: unquote (h :: l :: rest)
    else c :: unquote (h :: l :: rest)

theorem unquote_cons (c : UInt8) (t : Bytes) (h : c ≠ ch '%') :
    unquote (c :: t) = c :: unquote t := by
  match t with
  | [] => simp [unquote]
  | [d] => simp [unquote]
  | a :: b :: rest => rw [unquote, if_neg h]

theorem forall_byte (p : UInt8 → Prop) (h : ∀ n < 256, p (UInt8.ofNat n)) : ∀ b, p b := by
  intro b
  have := h b.toNat b.toNat_lt
  rwa [UInt8.ofNat_toNat] at this

theorem hex_round_trip : ∀ b : UInt8, unhex (hexDigit (b.toNat / 16)) = some (b.toNat / 16) ∧
    unhex (hexDigit (b.toNat % 16)) = some (b.toNat % 16) := by
  apply forall_byte
  decide +kernel

theorem unquote_encodeByte (safe : UInt8 → Bool) (hs : safe (ch '%') = false) (b : UInt8)
    (t : Bytes) : unquote (encodeByte safe b ++ t) = b :: unquote t := by
  unfold encodeByte
  by_cases h : (unreserved b || safe b) = true
  · rw [if_pos h, List.singleton_append, unquote_cons]
    rintro rfl
    rw [hs] at h
    exact absurd h (by decide)
  · rw [if_neg h]
    obtain ⟨h1, h2⟩ := hex_round_trip b
    simp only [List.cons_append, List.nil_append, unquote, if_true, h1, h2]
    congr 1
    have : 16 * (b.toNat / 16) + b.toNat % 16 = b.toNat := by omega
    rw [this, UInt8.ofNat_toNat]

/-- Decoding what was encoded gives the text back. -/
theorem unquote_quote_append (safe : UInt8 → Bool) (hs : safe (ch '%') = false) (t u : Bytes) :
    unquote (quote safe t ++ u) = t ++ unquote u := by
  induction t with
  | nil => rfl
  | cons b t ih =>
    simp only [quote, List.flatMap_cons, List.append_assoc] at ih ⊢
    rw [unquote_encodeByte safe hs, ih]
    rfl

theorem unquote_quote (safe : UInt8 → Bool) (hs : safe (ch '%') = false) (t : Bytes) :
    unquote (quote safe t) = t := by
  have := unquote_quote_append safe hs t []
  simpa [unquote] using this

theorem hexDigit_unreserved : ∀ b : UInt8, unreserved (hexDigit (b.toNat / 16)) = true ∧
    unreserved (hexDigit (b.toNat % 16)) = true := by
  apply forall_byte
  decide +kernel

/-- Encoded text consists of unreserved characters, safe ones and `%`. -/
theorem mem_quote (safe : UInt8 → Bool) (t : Bytes) (c : UInt8) (h : c ∈ quote safe t) :
    unreserved c = true ∨ (safe c = true ∧ c ∈ t) ∨ c = ch '%' := by
  obtain ⟨b, hb, hc⟩ := List.mem_flatMap.1 h
  unfold encodeByte at hc
  by_cases hs : (unreserved b || safe b) = true
  · rw [if_pos hs] at hc
    simp only [List.mem_singleton] at hc
    subst hc
    rw [Bool.or_eq_true] at hs
    rcases hs with hs | hs
    · exact Or.inl hs
    · exact Or.inr (Or.inl ⟨hs, hb⟩)
  · rw [if_neg hs] at hc
    simp only [List.mem_cons, List.not_mem_nil, or_false] at hc
    rcases hc with rfl | rfl | rfl
    · exact Or.inr (Or.inr rfl)
    · exact Or.inl (hexDigit_unreserved b).1
    · exact Or.inl (hexDigit_unreserved b).2

/-- A reserved character other than `%` that is not safe does not occur in encoded text. -/
theorem not_mem_quote (safe : UInt8 → Bool) (t : Bytes) (c : UInt8) (h1 : unreserved c = false)
    (h2 : safe c = false) (h3 : c ≠ ch '%') : c ∉ quote safe t := by
  intro h
  rcases mem_quote safe t c h with h | ⟨h, -⟩ | h
  · rw [h1] at h; cases h
  · rw [h2] at h; cases h
  · exact h3 h

theorem quote_append (safe : UInt8 → Bool) (t u : Bytes) :
    quote safe (t ++ u) = quote safe t ++ quote safe u := by simp [quote]

theorem quote_eq_nil (safe : UInt8 → Bool) (t : Bytes) : quote safe t = [] ↔ t = [] := by
  constructor
  · intro h
    cases t with
    | nil => rfl
    | cons b t =>
      simp only [quote, List.flatMap_cons, List.append_eq_nil_iff, encodeByte] at h
      split at h <;> simp at h
  · rintro rfl; rfl

end Verif.Uri

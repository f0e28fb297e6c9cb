import Mathlib.Tactic.Common
import Verif.Common

/-!
# JSON strings (C42)

Models `_escape_string` (smithy_json/_private/serializers.py:31-53).  Strings are lists of Unicode scalar
values: a Python string with lone surrogates cannot be written at all, `encode("utf-8")` raises.
-/

set_option autoImplicit false

namespace Verif.Json

abbrev Text := List Char

/-! ## Model -/

/-- `_ESCAPE_MAP` (serializers.py:32-40). -/
def escapeMap : List (Char × Text) :=
  [('\\', ['\\', '\\']), ('"', ['\\', '"']), ('\n', ['\\', 'n']), ('\r', ['\\', 'r']),
   ('\t', ['\\', 't']), ('\x08', ['\\', 'b']), ('\x0c', ['\\', 'f'])]

/-- `_CHARS_TO_ESCAPE` (serializers.py:41) matches the character. -/
def toEscape (c : Char) : Bool := c = '\\' || c = '"' || decide (c.toNat ≤ 0x1f)

/-- A lower-case hexadecimal digit. -/
def hexDigit (n : Nat) : Char := Char.ofNat (if n < 10 then 48 + n else 87 + n)

/-- `f"{n:04x}"` of a number with at most four hexadecimal digits. -/
def hex4 (n : Nat) : Text :=
  [hexDigit (n / 4096 % 16), hexDigit (n / 256 % 16), hexDigit (n / 16 % 16), hexDigit (n % 16)]

/-- `_escape_char` (serializers.py:44-48). -/
def escapeChar (c : Char) : Text :=
  match escapeMap.lookup c with
  | some t => t
  | none => ['\\', 'u'] ++ hex4 c.toNat

/-- `_escape_string` (serializers.py:51-53). -/
def escapeString (s : Text) : Text := s.flatMap fun c => if toEscape c then escapeChar c else [c]

/-! ## Specification -/

/-- The two-character escapes of RFC 8259, section 7. -/
def shortEscapes : List (Char × Char) :=
  [('"', '"'), ('\\', '\\'), ('/', '/'), ('b', '\x08'), ('f', '\x0c'), ('n', '\n'), ('r', '\r'),
   ('t', '\t')]

/-- A hexadecimal digit. -/
def hexValue (c : Char) : Option Nat :=
  if '0'.toNat ≤ c.toNat ∧ c.toNat ≤ '9'.toNat then some (c.toNat - '0'.toNat)
  else if 'a'.toNat ≤ c.toNat ∧ c.toNat ≤ 'f'.toNat then some (c.toNat - 'a'.toNat + 10)
  else if 'A'.toNat ≤ c.toNat ∧ c.toNat ≤ 'F'.toNat then some (c.toNat - 'A'.toNat + 10)
  else none

/-- Four hexadecimal digits. -/
def hexValue4 (a b c d : Char) : Option Nat :=
  match hexValue a, hexValue b, hexValue c, hexValue d with
  | some a, some b, some c, some d => some (4096 * a + 256 * b + 16 * c + d)
  | _, _, _, _ => none

/-- What is between the quotes of a JSON string, and the string it stands for (RFC 8259, section 7). -/
inductive Chars : Text → Text → Prop
  | nil : Chars [] []
  | plain {c cs s} (h1 : c ≠ '"') (h2 : c ≠ '\\') (h3 : 0x20 ≤ c.toNat) (t : Chars cs s) :
      Chars (c :: cs) (c :: s)
  | short {e c cs s} (h : (e, c) ∈ shortEscapes) (t : Chars cs s) : Chars ('\\' :: e :: cs) (c :: s)
  | unicode {w x y z c cs s} (h : hexValue4 w x y z = some c.toNat) (t : Chars cs s) :
      Chars ('\\' :: 'u' :: w :: x :: y :: z :: cs) (c :: s)
  | pair {w x y z w' x' y' z' hi lo c cs s} (h1 : hexValue4 w x y z = some hi)
      (h2 : hexValue4 w' x' y' z' = some lo) (h3 : 0xD800 ≤ hi ∧ hi ≤ 0xDBFF)
      (h4 : 0xDC00 ≤ lo ∧ lo ≤ 0xDFFF)
      (h5 : c.toNat = 0x10000 + (hi - 0xD800) * 0x400 + (lo - 0xDC00)) (t : Chars cs s) :
      Chars ('\\' :: 'u' :: w :: x :: y :: z :: '\\' :: 'u' :: w' :: x' :: y' :: z' :: cs) (c :: s)

/-! ## Theorems -/

theorem charNat_inj {a b : Char} (h : a.toNat = b.toNat) : a = b := Char.toNat_inj.1 h

theorem not_surrogate (c : Char) : c.toNat < 0xD800 ∨ 0xDFFF < c.toNat := by
  rcases c.valid with h | h
  · exact .inl h
  · exact .inr h.1

theorem no_surrogate {c : Char} {n : Nat} (h : n = c.toNat) (hn : 0xD800 ≤ n ∧ n ≤ 0xDBFF) : False := by
  have := not_surrogate c
  omega

theorem hexValue_hexDigit (n : Nat) (h : n < 16) : hexValue (hexDigit n) = some n := by
  have : ∀ n < 16, hexValue (hexDigit n) = some n := by decide
  exact this n h

theorem hexValue4_hex4 (n : Nat) (h : n < 65536) :
    hexValue4 (hexDigit (n / 4096 % 16)) (hexDigit (n / 256 % 16)) (hexDigit (n / 16 % 16))
      (hexDigit (n % 16)) = some n := by
  simp only [hexValue4, hexValue_hexDigit _ (Nat.mod_lt _ (by omega : 0 < 16)), Option.some.injEq]
  omega

theorem chars_escaped (c : Char) (h : toEscape c = true) {cs s : Text} (t : Chars cs s) :
    Chars (escapeChar c ++ cs) (c :: s) := by
  unfold escapeChar
  cases hl : escapeMap.lookup c with
  | some e =>
    have : (c, e) ∈ escapeMap := by
      obtain ⟨l₁, l₂, hl, _⟩ := List.lookup_eq_some_iff.1 hl
      rw [hl]; simp
    simp only [escapeMap, List.mem_cons, List.not_mem_nil, or_false, Prod.mk.injEq] at this
    rcases this with ⟨rfl, rfl⟩ | ⟨rfl, rfl⟩ | ⟨rfl, rfl⟩ | ⟨rfl, rfl⟩ | ⟨rfl, rfl⟩ | ⟨rfl, rfl⟩ |
      ⟨rfl, rfl⟩ <;> exact .short (by simp [shortEscapes]) t
  | none =>
    have hn : c.toNat < 65536 := by
      simp only [toEscape, Bool.or_eq_true, decide_eq_true_eq] at h
      rcases h with (rfl | rfl) | h
      · decide
      · decide
      · omega
    exact .unicode (hexValue4_hex4 c.toNat hn) t

/-- **C42** what is written for a string is what a JSON string may contain, and stands for the
string. -/
theorem C42_escape (s : Text) : Chars (escapeString s) s := by
  induction s with
  | nil => exact .nil
  | cons c s ih =>
    rw [escapeString, List.flatMap_cons]
    by_cases h : toEscape c = true
    · rw [if_pos h]
      exact chars_escaped c h ih
    · rw [if_neg h]
      simp only [toEscape, Bool.or_eq_true, decide_eq_true_eq, not_or] at h
      exact .plain h.1.2 h.1.1 (by omega) ih

/-- The text between the quotes of a JSON string never ends early: where it ends, and what it stands
for, is determined by the text that follows the opening quote. -/
theorem chars_unique {cs s : Text} (h : Chars cs s) : ∀ {cs' s' r r' : Text}, Chars cs' s' →
    cs ++ '"' :: r = cs' ++ '"' :: r' → cs = cs' ∧ s = s' ∧ r = r' := by
  induction h with
  | nil =>
    intro cs' s' r r' h' e
    cases h' with
    | nil => simp only [List.nil_append, List.cons.injEq, true_and] at e; exact ⟨rfl, rfl, e⟩
    | plain h1 h2 h3 t => simp only [List.nil_append, List.cons_append, List.cons.injEq] at e
                          exact absurd e.1.symm h1
    | short h t => simp at e
    | unicode h t => simp at e
    | pair h1 h2 h3 h4 h5 t => simp at e
  | plain h1 h2 h3 t ih =>
    intro cs' s' r r' h' e
    cases h' with
    | nil => simp only [List.nil_append, List.cons_append, List.cons.injEq] at e; exact absurd e.1 h1
    | plain g1 g2 g3 t' =>
      simp only [List.cons_append, List.cons.injEq] at e
      obtain ⟨rfl, e⟩ := e
      obtain ⟨rfl, rfl, rfl⟩ := ih t' e
      exact ⟨rfl, rfl, rfl⟩
    | short h t' => simp only [List.cons_append, List.cons.injEq] at e; exact absurd e.1 h2
    | unicode h t' => simp only [List.cons_append, List.cons.injEq] at e; exact absurd e.1 h2
    | pair g1 g2 g3 g4 g5 t' => simp only [List.cons_append, List.cons.injEq] at e; exact absurd e.1 h2
  | short h t ih =>
    rename_i e1 c1 cs1 s1
    have hu : e1 ≠ 'u' := by
      rintro rfl
      simp [shortEscapes] at h
    intro cs' s' r r' h' e
    cases h' with
    | nil => simp at e
    | plain g1 g2 g3 t' => simp only [List.cons_append, List.cons.injEq] at e; exact absurd e.1.symm g2
    | short h' t' =>
      simp only [List.cons_append, List.cons.injEq, true_and] at e
      obtain ⟨rfl, e⟩ := e
      obtain ⟨rfl, rfl, rfl⟩ := ih t' e
      refine ⟨rfl, ?_, rfl⟩
      congr 1
      simp only [shortEscapes, List.mem_cons, List.not_mem_nil, or_false, Prod.mk.injEq] at h h'
      rcases h with ⟨rfl, rfl⟩ | ⟨rfl, rfl⟩ | ⟨rfl, rfl⟩ | ⟨rfl, rfl⟩ | ⟨rfl, rfl⟩ | ⟨rfl, rfl⟩ |
        ⟨rfl, rfl⟩ | ⟨rfl, rfl⟩ <;> simp at h' <;> exact h'.symm
    | unicode h' t' => simp only [List.cons_append, List.cons.injEq, true_and] at e
                       exact absurd e.1 hu
    | pair g1 g2 g3 g4 g5 t' => simp only [List.cons_append, List.cons.injEq, true_and] at e
                                exact absurd e.1 hu
  | unicode h t ih =>
    intro cs' s' r r' h' e
    cases h' with
    | nil => simp at e
    | plain g1 g2 g3 t' => simp only [List.cons_append, List.cons.injEq] at e; exact absurd e.1.symm g2
    | short h' t' =>
      simp only [List.cons_append, List.cons.injEq, true_and] at e
      rw [← e.1] at h'
      simp [shortEscapes] at h'
    | unicode h' t' =>
      simp only [List.cons_append, List.cons.injEq, true_and] at e
      obtain ⟨rfl, rfl, rfl, rfl, e⟩ := e
      obtain ⟨rfl, rfl, rfl⟩ := ih t' e
      rw [h] at h'
      rw [charNat_inj (Option.some.inj h')]
      exact ⟨rfl, rfl, rfl⟩
    | pair g1 g2 g3 g4 g5 t' =>
      simp only [List.cons_append, List.cons.injEq, true_and] at e
      obtain ⟨rfl, rfl, rfl, rfl, e⟩ := e
      rw [h] at g1
      exact (no_surrogate (Option.some.inj g1).symm g3).elim
  | pair h1 h2 h3 h4 h5 t ih =>
    intro cs' s' r r' h' e
    cases h' with
    | nil => simp at e
    | plain g1 g2 g3 t' => simp only [List.cons_append, List.cons.injEq] at e; exact absurd e.1.symm g2
    | short h' t' =>
      simp only [List.cons_append, List.cons.injEq, true_and] at e
      rw [← e.1] at h'
      simp [shortEscapes] at h'
    | unicode h' t' =>
      simp only [List.cons_append, List.cons.injEq, true_and] at e
      obtain ⟨rfl, rfl, rfl, rfl, e⟩ := e
      rw [h1] at h'
      exact (no_surrogate (Option.some.inj h') h3).elim
    | pair g1 g2 g3 g4 g5 t' =>
      simp only [List.cons_append, List.cons.injEq, true_and] at e
      obtain ⟨rfl, rfl, rfl, rfl, rfl, rfl, rfl, rfl, e⟩ := e
      obtain ⟨rfl, rfl, rfl⟩ := ih t' e
      rw [h1] at g1
      rw [h2] at g2
      obtain rfl := Option.some.inj g1
      obtain rfl := Option.some.inj g2
      rw [← h5] at g5
      rw [charNat_inj g5]
      exact ⟨rfl, rfl, rfl⟩

/-- **C42** reading a written string back: whatever follows the closing quote, the only JSON string
the text starts with is the one that was written. -/
theorem C42_round_trip (s rest cs s' rest' : Text) (h : Chars cs s')
    (e : ['"'] ++ escapeString s ++ ['"'] ++ rest = ['"'] ++ cs ++ ['"'] ++ rest') :
    s' = s ∧ rest' = rest := by
  simp only [List.append_assoc, List.cons_append, List.nil_append, List.cons.injEq, true_and] at e
  obtain ⟨_, h1, h2⟩ := chars_unique (C42_escape s) h e
  exact ⟨h1.symm, h2.symm⟩

/-- **C42** no control characters are written as they are, and strings without characters to escape
are written unchanged. -/
theorem C42_plain (s : Text) :
    (∀ c ∈ escapeString s, 0x20 ≤ c.toNat) ∧
    ((∀ c ∈ s, c ≠ '"' ∧ c ≠ '\\' ∧ 0x20 ≤ c.toNat) → escapeString s = s) := by
  constructor
  · have key : ∀ {cs s : Text}, Chars cs s → ∀ c ∈ cs, 0x20 ≤ c.toNat := by
      have hx : ∀ c n, hexValue c = some n → 0x20 ≤ c.toNat := by
        intro c n h
        unfold hexValue at h
        split at h
        · rename_i h'; have : '0'.toNat = 48 := rfl; omega
        split at h
        · rename_i h'; have : 'a'.toNat = 97 := rfl; omega
        split at h
        · rename_i h'; have : 'A'.toNat = 65 := rfl; omega
        · cases h
      have hx4 : ∀ w x y z n, hexValue4 w x y z = some n →
          0x20 ≤ w.toNat ∧ 0x20 ≤ x.toNat ∧ 0x20 ≤ y.toNat ∧ 0x20 ≤ z.toNat := by
        intro w x y z n h
        unfold hexValue4 at h
        split at h
        · rename_i h1 h2 h3 h4; exact ⟨hx _ _ h1, hx _ _ h2, hx _ _ h3, hx _ _ h4⟩
        · cases h
      have hb : 0x20 ≤ '\\'.toNat := by decide
      have hu : 0x20 ≤ 'u'.toNat := by decide
      intro cs s h
      induction h with
      | nil => simp
      | plain h1 h2 h3 t ih => simpa using ⟨h3, ih⟩
      | short h t ih =>
        simp only [List.mem_cons, forall_eq_or_imp]
        refine ⟨hb, ?_, ih⟩
        simp only [shortEscapes, List.mem_cons, List.not_mem_nil, or_false, Prod.mk.injEq] at h
        rcases h with ⟨rfl, _⟩ | ⟨rfl, _⟩ | ⟨rfl, _⟩ | ⟨rfl, _⟩ | ⟨rfl, _⟩ | ⟨rfl, _⟩ | ⟨rfl, _⟩ |
          ⟨rfl, _⟩ <;> decide
      | unicode h t ih =>
        obtain ⟨a, b, c, d⟩ := hx4 _ _ _ _ _ h
        simp only [List.mem_cons, forall_eq_or_imp]
        exact ⟨hb, hu, a, b, c, d, ih⟩
      | pair h1 h2 h3 h4 h5 t ih =>
        obtain ⟨a, b, c, d⟩ := hx4 _ _ _ _ _ h1
        obtain ⟨a', b', c', d'⟩ := hx4 _ _ _ _ _ h2
        simp only [List.mem_cons, forall_eq_or_imp]
        exact ⟨hb, hu, a, b, c, d, hb, hu, a', b', c', d', ih⟩
    exact key (C42_escape s)
  · intro h
    induction s with
    | nil => rfl
    | cons c s ih =>
      obtain ⟨h1, h2, h3⟩ := h c (by simp)
      have hc : toEscape c = false := by
        simp only [toEscape, h1, h2, decide_false, Bool.or_self, Bool.false_or, decide_eq_false_iff_not]
        omega
      rw [escapeString, List.flatMap_cons, hc]
      exact congrArg (c :: ·) (ih fun x hx => h x (List.mem_cons_of_mem _ hx))

/-! ## The hypotheses are met -/

example : escapeString "a\"\n\x01é".toList = "a\\\"\\n\\u0001é".toList := by decide +kernel

/-- The reader also understands escapes that are not written: `é` and a surrogate pair. -/
example : Chars "\\u00e9\\ud83d\\ude00\\/".toList "é😀/".toList :=
  .unicode (by decide) (.pair (hi := 0xd83d) (lo := 0xde00) (by decide) (by decide) (by decide)
    (by decide) (by decide) (.short (by decide) .nil))

end Verif.Json

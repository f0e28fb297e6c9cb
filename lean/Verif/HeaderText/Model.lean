import Verif.Common

/-!
# Header values as text

Models `split_header` and `_consume_until` (smithy_http/utils.py:9-106), `Field.as_string`
(smithy_http/__init__.py:54-71) and `quote_and_escape_field_value` (207-217).

Text is a list of characters.  The code walks an index through the string; here the rest of the
string is passed on instead.  `isSpace` stands for `str.isspace` on one character and is also what
`str.strip` removes (both are the Unicode whitespace characters).
-/

set_option autoImplicit false

namespace Verif.HeaderText

abbrev Text := List Char

/-- `_consume_until` (utils.py:65-106) with `escaped` the loop's own flag.  The second component is
what follows the end character, `none` if the end of the text was reached (`end_index + 1` is then
beyond the end). -/
def consumeUntil (stop : Char) (esc : Option Char) (skip escaped : Bool) :
    Text → Text × Option Text
  | [] => ([], none)
  | c :: cs =>
    if escaped then
      let r := consumeUntil stop esc skip false cs
      (c :: r.1, r.2)
    else if esc = some c then consumeUntil stop esc skip true cs
    else if c = stop then
      if skip then
        let r := consumeUntil stop esc false false cs
        (c :: r.1, r.2)
      else ([], some cs)
    else
      let r := consumeUntil stop esc skip false cs
      (c :: r.1, r.2)

theorem consumeUntil_length (stop : Char) (esc : Option Char) (cs : Text) :
    ∀ (skip escaped : Bool) (r rest : Text),
      consumeUntil stop esc skip escaped cs = (r, some rest) → rest.length < cs.length := by
  induction cs with
  | nil => intro _ _ _ _ h; simp [consumeUntil] at h
  | cons c cs ih =>
    intro skip escaped r rest h
    simp only [consumeUntil] at h
    rw [List.length_cons]
    split at h
    · simp only [Prod.mk.injEq] at h
      have := ih skip false _ _ (Prod.ext rfl h.2); omega
    · split at h
      · have := ih _ _ _ _ h; omega
      · split at h
        · split at h
          · simp only [Prod.mk.injEq] at h
            have := ih false false _ _ (Prod.ext rfl h.2); omega
          · simp only [Prod.mk.injEq, Option.some.injEq] at h
            rw [h.2]; omega
        · simp only [Prod.mk.injEq] at h
          have := ih skip false _ _ (Prod.ext rfl h.2); omega

/-- `str.strip`. -/
def strip (isSpace : Char → Bool) (t : Text) : Text :=
  ((t.dropWhile isSpace).reverse.dropWhile isSpace).reverse

inductive Err where
  /-- "expected end quote but reached end of value" (utils.py:44-48). -/
  | openQuote
  /-- "Found quote contents after end-quote" (51-56). -/
  | afterQuote
  deriving DecidableEq, Repr

/-- `split_header` (utils.py:9-62): the loop from the current index on. -/
def splitHeader (isSpace : Char → Bool) (dates : Bool) : Text → Except Err (List Text)
  | [] => .ok []
  | c :: cs =>
    if isSpace c then splitHeader isSpace dates cs
    else if c = '"' then
      match _h : consumeUntil '"' (some '\\') false false cs with
      | (_, none) => .error .openQuote
      | (entry, some rest) =>
        match _h' : consumeUntil ',' none false false rest with
        | (excess, rest') =>
          if strip isSpace excess ≠ [] then .error .afterQuote
          else
            match _h2 : rest' with
            | none => .ok [entry]
            | some rest' => (splitHeader isSpace dates rest').map (entry :: ·)
    else
      match _h : consumeUntil ',' none dates false (c :: cs) with
      | (entry, rest) =>
        let one := if strip isSpace entry ≠ [] then [strip isSpace entry] else []
        match _h2 : rest with
        | none => .ok one
        | some rest => (splitHeader isSpace dates rest).map (one ++ ·)
termination_by t => t.length
decreasing_by
  · simp
  · have h1 := consumeUntil_length _ _ _ _ _ _ _ _h
    have h2 := consumeUntil_length _ _ _ _ _ _ _ _h'
    simp only [List.length_cons]; omega
  · exact consumeUntil_length _ _ _ _ _ _ _ _h

/-- `str.replace` of one character by a text. -/
def replaceChar (a : Char) (b : Text) (t : Text) : Text :=
  t.flatMap fun c => if c = a then b else [c]

/-- `quote_and_escape_field_value` (`__init__.py`:207-217). -/
def quoteAndEscape (v : Text) : Text :=
  if v.any fun c => c = ',' || c = '"' then
    ['"'] ++ replaceChar '"' ['\\', '"'] (replaceChar '\\' ['\\', '\\'] v) ++ ['"']
  else v

/-- `Field.as_string` (`__init__.py`:54-71).  The `delimiter` argument is ignored by the code. -/
def asString : List Text → Text
  | [] => []
  | [v] => v
  | vs => List.intercalate [',', ' '] (vs.map quoteAndEscape)

end Verif.HeaderText

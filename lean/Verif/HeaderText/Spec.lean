import Verif.HeaderText.Model

/-!
# Header lists as RFC 9110 describes them

Section 5.6.1 (lists) and 5.6.4 (quoted strings): elements separated by commas, each surrounded by
optional blanks; an element is a quoted string, bare text, or nothing.
-/

set_option autoImplicit false

namespace Verif.HeaderText

/-- A character of a quoted string, written as it is or after a backslash. -/
inductive QChar where
  | plain (c : Char)
  | escaped (c : Char)

def QChar.char : QChar → Char
  | .plain c => c
  | .escaped c => c

def QChar.text : QChar → Text
  | .plain c => [c]
  | .escaped c => ['\\', c]

/-- Quotes and backslashes must be escaped, everything else may be. -/
def QChar.Ok : QChar → Prop
  | .plain c => c ≠ '"' ∧ c ≠ '\\'
  | .escaped _ => True

inductive Body where
  | nothing
  | bare (v : Text)
  | quoted (q : List QChar)

/-- An element between two commas. -/
structure Item where
  before : Text
  body : Body
  after : Text

def Body.text : Body → Text
  | .nothing => []
  | .bare v => v
  | .quoted q => ['"'] ++ q.flatMap QChar.text ++ ['"']

def Item.text (i : Item) : Text := i.before ++ i.body.text ++ i.after

/-- What the element means. -/
def Item.value (i : Item) : Option Text :=
  match i.body with
  | .nothing => none
  | .bare v => some v
  | .quoted q => some (q.map QChar.char)

/-- No blank at either end, and not empty. -/
def Trimmed (isSpace : Char → Bool) (v : Text) : Prop :=
  v ≠ [] ∧ (∀ c ∈ v.head?, isSpace c = false) ∧ (∀ c ∈ v.getLast?, isSpace c = false)

instance (isSpace : Char → Bool) (v : Text) : Decidable (Trimmed isSpace v) :=
  inferInstanceAs (Decidable (_ ∧ _ ∧ _))

/-- Well-formed elements.  In a list of unquoted HTTP dates (`dates`) every bare element has exactly
one comma and there are no empty elements; otherwise bare elements have no comma. -/
def Body.Ok (isSpace : Char → Bool) (dates : Bool) : Body → Prop
  | .nothing => dates = false
  | .bare v => Trimmed isSpace v ∧ v.head? ≠ some '"' ∧ v.count ',' = if dates then 1 else 0
  | .quoted q => ∀ c ∈ q, c.Ok

def Item.Ok (isSpace : Char → Bool) (dates : Bool) (i : Item) : Prop :=
  (∀ c ∈ i.before, isSpace c = true) ∧ (∀ c ∈ i.after, isSpace c = true) ∧
    i.body.Ok isSpace dates

/-- The header text: the elements with commas between them. -/
def listText (items : List Item) : Text := List.intercalate [','] (items.map Item.text)

end Verif.HeaderText

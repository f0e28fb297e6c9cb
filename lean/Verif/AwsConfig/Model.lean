import Verif.Dict
import Verif.Text
import Verif.HeaderText.Model

/-!
# Shared configuration files (C47): model of the parser

Models smithy_aws_core/config/file_parser.py:18-63 and 116-278.  Simplifications: text is a list of
characters; the numbers of lines in the messages of errors are left out; `crash` stands for an exception
other than `ConfigParseError` (a missing key, or text where a dictionary is needed).
-/

set_option autoImplicit false

namespace Verif.AwsConfig

open Verif.Dict Verif.Text

abbrev Text := List Char

/-! ## Text -/

/-- The characters `str.strip` removes: those with `str.isspace`. -/
def isSpace (c : Char) : Bool :=
  [0x9, 0xA, 0xB, 0xC, 0xD, 0x1C, 0x1D, 0x1E, 0x1F, 0x20, 0x85, 0xA0, 0x1680, 0x2000, 0x2001, 0x2002, 0x2003,
    0x2004, 0x2005, 0x2006, 0x2007, 0x2008, 0x2009, 0x200A, 0x2028, 0x2029, 0x202F, 0x205F, 0x3000].contains c.toNat

/-- The characters at which `str.splitlines` splits. -/
def isBreak (c : Char) : Bool :=
  [0xA, 0xB, 0xC, 0xD, 0x1C, 0x1D, 0x1E, 0x85, 0x2028, 0x2029].contains c.toNat

/-- `str.strip`. -/
def strip (t : Text) : Text := HeaderText.strip isSpace t

/-- `str.rstrip`. -/
def rstrip (t : Text) : Text := (t.reverse.dropWhile isSpace).reverse

/-- `str.splitlines` after the characters of a line; whether the last break was a carriage return, which
makes one break with a line feed. -/
def linesFrom (line : Text) (cr : Bool) : Text → List Text
  | [] => if line = [] then [] else [line]
  | c :: t =>
    if cr = true ∧ c = '\n' then linesFrom [] false t
    else if isBreak c then line :: linesFrom [] (c = '\r') t
    else linesFrom (line ++ [c]) false t

/-- `str.splitlines`. -/
def splitLines (t : Text) : List Text := linesFrom [] false t

/-- `str.lower` of identifiers, which are ASCII. -/
def lower (t : Text) : Text := t.map Char.toLower

/-! ## The parser -/

/-- The characters of `_VALID_IDENTIFIER_RE` (file_parser.py:18). -/
def identChar (c : Char) : Bool :=
  (65 ≤ c.toNat && c.toNat ≤ 90) || (97 ≤ c.toNat && c.toNat ≤ 122) || (48 ≤ c.toNat && c.toNat ≤ 57) ||
    ['_', '-', '/', '.', '%', '@', ':', '+'].contains c

/-- `_VALID_IDENTIFIER_RE.match` (file_parser.py:18) of text without spaces at the end (`$` would allow a
line feed there; all callers strip the text first). -/
def isIdent (t : Text) : Bool := !t.isEmpty && t.all identChar

/-- The value of a property: text, or sub-properties. -/
inductive Value where
  | text (t : Text)
  | subs (d : List (Text × Text))
  deriving DecidableEq, Repr

/-- `RawParsedSections` (file_parser.py:16). -/
abbrev Sections := List (Text × List (Text × Value))

inductive Err where
  | parse | crash
  deriving DecidableEq, Repr

/-- The local variables of `_parse_content` (file_parser.py:123-127). -/
structure St where
  sections : Sections
  section? : Option Text
  key : Option Text
  inSub : Bool
  ignore : Bool
  deriving DecidableEq, Repr

/-- `_strip_inline_comment` (file_parser.py:273-278) after a part of the value. -/
def stripInline (before : Text) : Text → Text
  | [] => before
  | c :: t =>
    if (c = '#' ∨ c = ';') ∧ (before.getLast? = some ' ' ∨ before.getLast? = some '\t') then
      rstrip before.dropLast
    else stripInline (before ++ [c]) t

/-- `_parse_section_line` (file_parser.py:202-211). -/
def parseSection (line : Text) : Except Err Text :=
  let r := cut ']' (strip line)
  match r.2 with
  | none => .error .parse
  | some _ =>
    let inner := strip (r.1.drop 1)
    if inner = [] then .error .parse else .ok inner

/-- `_parse_property_line` (file_parser.py:214-233). -/
def parseProperty (line : Text) : Except Err (Option Text × Text) :=
  let r := cut '=' line
  match r.2 with
  | none => .error .parse
  | some v =>
    let key := strip r.1
    let value := strip v
    if key = [] then .error .parse
    else if isIdent key = false then .ok (none, [])
    else .ok (some (lower key), stripInline [] value)

/-- `_handle_sub_property` (file_parser.py:236-270); the value of the property before and after. -/
def handleSub (line : Text) (old : Value) : Except Err Value :=
  let parent := match old with
    | .subs d => d
    | .text _ => []
  let r := cut '=' line
  match r.2 with
  | none => .error .parse
  | some v =>
    let key := strip r.1
    let value := strip v
    if key = [] then .error .parse
    else if isIdent key = false then .ok (.subs parent)
    else .ok (.subs (put parent (lower key) value))

/-- `sections[section][key]`. -/
def getValue (d : Sections) (s k : Text) : Option Value := (d.lookup s).bind fun p => p.lookup k

/-- `sections[section][key] = value`. -/
def setValue (d : Sections) (s k : Text) (v : Value) : Except Err Sections :=
  match d.lookup s with
  | none => .error .crash
  | some p => .ok (put d s (put p k v))

/-- A line that starts with a space or tab (file_parser.py:141-163). -/
def continuation (st : St) (line : Text) : Except Err St :=
  match st.section? with
  | none => .error .parse
  | some s =>
    if st.ignore then .ok st
    else
      match st.key with
      | none => .error .parse
      | some k =>
        match getValue st.sections s k with
        | none => .error .crash
        | some old =>
          let new := if st.inSub then handleSub (strip line) old
            else match old with
              | .text t => .ok (.text (t ++ '\n' :: strip line))
              | .subs _ => .error .crash
          match new with
          | .error e => .error e
          | .ok v =>
            match setValue st.sections s k v with
            | .error e => .error e
            | .ok d => .ok { st with sections := d }

/-- A property definition line (file_parser.py:182-197). -/
def property (st : St) (line : Text) : Except Err St :=
  match st.section? with
  | none => .error .parse
  | some s =>
    match parseProperty line with
    | .error e => .error e
    | .ok (some k, v) =>
      match setValue st.sections s k (.text v) with
      | .error e => .error e
      | .ok d => .ok { sections := d, section? := some s, key := some k, inSub := v = [], ignore := false }
    | .ok (none, _) => .ok { st with ignore := true }

/-- One line (file_parser.py:130-197). -/
def step (st : St) (line : Text) : Except Err St :=
  if strip line = [] then .ok st
  else if line.head? = some ' ' ∨ line.head? = some '\t' then continuation st line
  else if line.head? = some '#' ∨ line.head? = some ';' then .ok st
  else if (line.dropWhile isSpace).head? = some '[' then
    match parseSection line with
    | .error e => .error e
    | .ok name =>
      .ok { sections := if (st.sections.lookup name).isSome then st.sections else put st.sections name []
            section? := some name, key := none, inSub := false, ignore := false }
  else property st line

/-- The loop (file_parser.py:129-197). -/
def run (st : St) : List Text → Except Err St
  | [] => .ok st
  | l :: ls =>
    match step st l with
    | .error e => .error e
    | .ok st => run st ls

/-- `_parse_content` (file_parser.py:116-199). -/
def parse (content : Text) : Except Err Sections :=
  (run ⟨[], none, none, false, false⟩ (splitLines content)).map St.sections

/-- `parse_config_file` (file_parser.py:45-63) given what the file system reads. -/
def parseFile (content : Option Text) : Except Err Sections :=
  match content with
  | none => .ok []
  | some t => parse t

end Verif.AwsConfig

import Verif.Json.Decimal
import Verif.Json.Base64

/-!
# The JSON serializer (C43)

Models `JSONShapeSerializer`, the serializers of structures, lists and maps and `StreamingJSONEncoder`
(smithy_json/_private/serializers.py:56-336), and `InterceptingSerializer`
(smithy_core/serializers.py:243-350).  What a program does with a serializer is a `Call`: a value, or a
`with` block with the calls made on the serializer of the block.

Simplifications: the sink is the text written so far, as characters, not UTF-8 bytes; a call that raises
(data streams) is not modelled; a document is the calls its `serialize_contents`
(smithy_core/documents.py:274-330) makes; `repr` of a float and the formats of timestamps are parameters.
-/

set_option autoImplicit false

namespace Verif.Json

open Verif.Numerals
open Verif.Scalars.Strict (JsonNumber ascii Num)

/-! ## Model -/

/-- What the serializer looks at in a member's schema. -/
structure Member where
  name : Text
  jsonName : Option Text
  deriving DecidableEq, Repr

/-- `TimestampFormat` (smithy_core/types.py:127-145). -/
inductive Format where
  | dateTime | httpDate | epochSeconds
  deriving DecidableEq, Repr

/-- What `TimestampFormat.serialize` returns (smithy_core/types.py:147-161). -/
inductive Stamp (F : Type) where
  | text (t : Text)
  | int (n : Int)
  | float (x : Num F)

/-- Calls on a shape serializer.  `write_byte`, `write_short`, `write_long` and `write_big_integer` are
`write_integer`, and `write_double` is `write_float` (smithy_core/serializers.py:108-162). -/
inductive Call (F T : Type) where
  | null
  | boolean (b : Bool)
  | integer (n : Int)
  | float (x : Num F)
  | bigDecimal (x : Num Dec)
  | string (s : Text)
  | blob (bs : List Base64.Byte)
  | timestamp (trait : Option Format) (value : T)
  | struct (members : List (Member × Call F T))
  | list (elements : List (Call F T))
  | map (entries : List (Text × Call F T))

/-- `JSONSettings` and the functions of the standard library. -/
structure Settings (F T : Type) where
  useJsonName : Bool
  useTimestampFormat : Bool
  defaultFormat : Format
  repr : F → Text
  serialize : Format → T → Stamp F

section
variable {F T : Type}

/-- `write_string` (serializers.py:297-300). -/
def writeString (out s : Text) : Text := out ++ ['"'] ++ escapeString s ++ ['"']

/-- `write_key` (serializers.py:251-253). -/
def writeKey (out k : Text) : Text := writeString out k ++ [':']

/-- `write_float` (serializers.py:306-326); `finite` is the text of a finite number. -/
def writeFloat {A : Type} (finite : A → Text) (out : Text) : Num A → Text
  | .nan => out ++ ['N', 'a', 'N']
  | .inf false => out ++ "\"Infinity\"".toList
  | .inf true => out ++ "\"-Infinity\"".toList
  | .finite x => out ++ finite x

/-- `write_document_value` of a timestamp (serializers.py:258-269). -/
def writeStamp (st : Settings F T) (out : Text) : Stamp F → Text
  | .text t => writeString out t
  | .int n => out ++ intText n
  | .float x => writeFloat st.repr out x

/-- The format of a timestamp (serializers.py:98-101). -/
def Settings.format (st : Settings F T) (trait : Option Format) : Format :=
  if st.useTimestampFormat then trait.getD st.defaultFormat else st.defaultFormat

/-- The key of a member (serializers.py:147-149). -/
def Settings.key (st : Settings F T) (m : Member) : Text :=
  if st.useJsonName then m.jsonName.getD m.name else m.name

mutual
/-- The text after a call (serializers.py:61-106). -/
def write (st : Settings F T) (out : Text) : Call F T → Text
  | .null => out ++ ['n', 'u', 'l', 'l']
  | .boolean b => out ++ (if b then ['t', 'r', 'u', 'e'] else ['f', 'a', 'l', 's', 'e'])
  | .integer n => out ++ intText n
  | .float x => writeFloat st.repr out x
  | .bigDecimal x => writeFloat (fun d => d.normalize.str) out x
  | .string s => writeString out s
  | .blob bs => writeString out (Base64.encode bs)
  | .timestamp trait value => writeStamp st out (st.serialize (st.format trait) value)
  | .struct ms => writeMembers st true (out ++ ['{']) ms ++ ['}']
  | .list xs => writeElements st true (out ++ ['[']) xs ++ [']']
  | .map es => writeEntries st true (out ++ ['{']) es ++ ['}']
termination_by structural c => c
/-- `JSONStructSerializer` (serializers.py:112-155); `first` is `_is_first_member`. -/
def writeMembers (st : Settings F T) (first : Bool) (out : Text) : List (Member × Call F T) → Text
  | [] => out
  | (m, c) :: ms =>
    writeMembers st false
      (write st (writeKey (if first then out else out ++ [',']) (st.key m)) c) ms
/-- `JSONListSerializer` (serializers.py:158-191). -/
def writeElements (st : Settings F T) (first : Bool) (out : Text) : List (Call F T) → Text
  | [] => out
  | c :: cs => writeElements st false (write st (if first then out else out ++ [',']) c) cs
/-- `JSONMapSerializer` (serializers.py:194-226). -/
def writeEntries (st : Settings F T) (first : Bool) (out : Text) : List (Text × Call F T) → Text
  | [] => out
  | (k, c) :: es =>
    writeEntries st false (write st (writeKey (if first then out else out ++ [',']) k) c) es
end

/-! ## Specification -/

/-- The text is a JSON number of this value. -/
def NumberOf (t : Text) (q : ℚ) : Prop := ∃ n : JsonNumber, n.Ok ascii ∧ t = n.text ∧ numberValue n = q

/-- The text is a JSON number of this value, without fraction and exponent. -/
def IntegerOf (t : Text) (n : Int) : Prop :=
  ∃ m : JsonNumber, m.Ok ascii ∧ t = m.text ∧ m.frac = none ∧ m.exp = none ∧ numberValue m = n

/-- What the parameters are trusted for: a finite float is written as a number of the JSON grammar. -/
def Settings.Ok (st : Settings F T) : Prop := ∀ x, IsNumber (st.repr x)

/-- A float in JSON: infinities are strings, NaN has no JSON. -/
def floatJson {A : Type} (finite : A → Json → Prop) : Num A → Json → Prop
  | .nan, _ => False
  | .inf false, j => j = .str "Infinity".toList
  | .inf true, j => j = .str "-Infinity".toList
  | .finite x, j => finite x j

/-- A decimal number in JSON: the same number, if it has at most 28 digits. -/
def decimalJson (d : Dec) : Json → Prop
  | .num t => IsNumber t ∧ (d.digits ≤ 28 → NumberOf t d.value)
  | _ => False

/-- The name a member has in JSON. -/
def jsonKey (useJsonName : Bool) (m : Member) : Text :=
  match useJsonName, m.jsonName with
  | true, some n => n
  | _, _ => m.name

/-- The format of timestamps of a shape: that of its trait, if the settings heed it and it has one. -/
def stampFormat (st : Settings F T) (trait : Option Format) : Format :=
  match st.useTimestampFormat, trait with
  | true, some f => f
  | _, _ => st.defaultFormat

mutual
/-- The JSON value has the structure and the content of the value written. -/
def Mirrors (st : Settings F T) : Call F T → Json → Prop
  | .null, j => j = .null
  | .boolean b, j => j = .bool b
  | .integer n, j => ∃ t, j = .num t ∧ IntegerOf t n
  | .float x, j => floatJson (fun x j => j = .num (st.repr x)) x j
  | .bigDecimal x, j => floatJson decimalJson x j
  | .string s, j => j = .str s
  | .blob bs, j => ∃ t, j = .str t ∧ t = Base64.encode bs
  | .timestamp trait value, j =>
    match st.serialize (stampFormat st trait) value with
    | .text t => j = .str t
    | .int n => ∃ t, j = .num t ∧ IntegerOf t n
    | .float x => floatJson (fun x j => j = .num (st.repr x)) x j
  | .struct ms, j => ∃ es, j = .obj es ∧ MirrorsMembers st ms es
  | .list cs, j => ∃ xs, j = .arr xs ∧ MirrorsElements st cs xs
  | .map cs, j => ∃ es, j = .obj es ∧ MirrorsEntries st cs es
termination_by structural c => c
/-- One member of the object for every member written, in order, with its JSON name. -/
def MirrorsMembers (st : Settings F T) : List (Member × Call F T) → List (Text × Json) → Prop
  | [], es => es = []
  | (m, c) :: ms, es => ∃ j es', es = (jsonKey st.useJsonName m, j) :: es' ∧
      Mirrors st c j ∧ MirrorsMembers st ms es'
/-- One element of the array for every element written, in order. -/
def MirrorsElements (st : Settings F T) : List (Call F T) → List Json → Prop
  | [], xs => xs = []
  | c :: cs, xs => ∃ j xs', xs = j :: xs' ∧ Mirrors st c j ∧ MirrorsElements st cs xs'
/-- One member of the object for every entry written, in order, with its key. -/
def MirrorsEntries (st : Settings F T) : List (Text × Call F T) → List (Text × Json) → Prop
  | [], es => es = []
  | (k, c) :: cs, es => ∃ j es', es = (k, j) :: es' ∧ Mirrors st c j ∧ MirrorsEntries st cs es'
end

mutual
/-- No NaN is written. -/
def NoNan (st : Settings F T) : Call F T → Prop
  | .float x => x ≠ .nan
  | .bigDecimal x => x ≠ .nan
  | .timestamp trait value => st.serialize (stampFormat st trait) value ≠ .float .nan
  | .struct ms => NoNanMembers st ms
  | .list cs => NoNanElements st cs
  | .map es => NoNanEntries st es
  | _ => True
termination_by structural c => c
def NoNanMembers (st : Settings F T) : List (Member × Call F T) → Prop
  | [] => True
  | (_, c) :: ms => NoNan st c ∧ NoNanMembers st ms
def NoNanElements (st : Settings F T) : List (Call F T) → Prop
  | [] => True
  | c :: cs => NoNan st c ∧ NoNanElements st cs
def NoNanEntries (st : Settings F T) : List (Text × Call F T) → Prop
  | [] => True
  | (_, c) :: es => NoNan st c ∧ NoNanEntries st es
end

/-! ## Theorems -/

theorem noNum_cons {c : Char} (h : numChar c = false) (t : Text) : NoNum (c :: t) := by
  intro d r e
  rw [← (List.cons.inj e).1]; exact h

theorem noNum_append {a : Text} {c : Char} (ha : NoNum a) (hc : numChar c = false) (t : Text) :
    NoNum (a ++ c :: t) := by
  cases a with
  | nil => exact noNum_cons hc t
  | cons d r =>
    intro e u he
    simp only [List.cons_append, List.cons.injEq] at he
    rw [← he.1]; exact ha d r rfl

theorem int_number (n : Int) : IntegerOf (intText n) n := by
  refine ⟨⟨decide (n < 0), natText n.natAbs, none, none⟩, ⟨natText_head _, by simp, by simp⟩, ?_, rfl, rfl, ?_⟩
  · simp only [intText, JsonNumber.text]
    by_cases hn : n < 0
    · simp [hn]
    · simp [hn]
  · simp only [numberValue, natValue_natText, expValue, zpow_zero, mul_one, add_zero]
    by_cases hn : n < 0
    · simp only [hn, decide_true, if_true]
      have : (n : ℚ) = -(n.natAbs : ℚ) := by
        have : ((-(n.natAbs : Int) : Int) : ℚ) = n := by congr 1; omega
        rw [← this, Int.cast_neg]; rfl
      rw [this]; ring
    · simp only [hn, decide_false, Bool.false_eq_true, if_false, one_mul]
      have : (((n.natAbs : Int) : Int) : ℚ) = n := by congr 1; omega
      rw [← this]; rfl

theorem string_lexes (s : Text) : Lexes ('"' :: (escapeString s ++ ['"'])) [.str s] :=
  lexes_one (.str (C42_escape s))

theorem writeString_eq (out s : Text) : writeString out s = out ++ ('"' :: (escapeString s ++ ['"'])) := by
  simp [writeString]

/-- What is written for a value. -/
def Written (P : Json → Prop) (out text : Text) : Prop :=
  ∃ l j, text = out ++ l ∧ Lexes l (toks j) ∧ P j

theorem written_string (out s : Text) (P : Json → Prop) (h : P (.str s)) :
    Written P out (writeString out s) :=
  ⟨_, .str s, writeString_eq out s, string_lexes s, h⟩

theorem written_int (out : Text) (n : Int) :
    Written (fun j => ∃ t, j = .num t ∧ IntegerOf t n) out (out ++ intText n) := by
  have h := int_number n
  have h' : IsNumber (intText n) := by
    obtain ⟨m, h1, h2, _⟩ := h
    exact ⟨m, h1, h2⟩
  exact ⟨_, .num (intText n), rfl, lexes_one (.num h'), _, rfl, h⟩

theorem written_float {A : Type} (finite : A → Text) (P : A → Json → Prop)
    (h : ∀ x, IsNumber (finite x) ∧ P x (.num (finite x))) (out : Text) (x : Num A) (hx : x ≠ .nan) :
    Written (floatJson P x) out (writeFloat finite out x) := by
  have plain : ∀ s : Text, (∀ c ∈ s, c ≠ '"' ∧ c ≠ '\\' ∧ 0x20 ≤ c.toNat) → escapeString s = s := by
    intro s hs
    induction s with
    | nil => rfl
    | cons c s ih =>
      obtain ⟨h1, h2, h3⟩ := hs c (by simp)
      have : toEscape c = false := by
        simp only [toEscape, h1, h2, decide_false, Bool.or_false, Bool.false_or]
        exact decide_eq_false (by omega)
      have ih' := ih (fun d hd => hs d (by simp [hd]))
      simp only [escapeString, List.flatMap_cons, this] at ih' ⊢
      simp [ih']
  cases x with
  | nan => exact absurd rfl hx
  | inf b =>
    cases b with
    | false =>
      have e : writeFloat finite out (.inf false) = writeString out "Infinity".toList := by
        rw [writeString_eq, plain _ (by decide)]; rfl
      rw [e]
      exact written_string _ _ _ rfl
    | true =>
      have e : writeFloat finite out (.inf true) = writeString out "-Infinity".toList := by
        rw [writeString_eq, plain _ (by decide)]; rfl
      rw [e]
      exact written_string _ _ _ rfl
  | finite x => exact ⟨_, .num (finite x), rfl, lexes_one (.num (h x).1), (h x).2⟩

theorem key_eq (st : Settings F T) (m : Member) :
    st.key m = jsonKey st.useJsonName m := by
  unfold Settings.key jsonKey
  cases st.useJsonName <;> cases m.jsonName <;> rfl

theorem format_eq (st : Settings F T) (trait : Option Format) :
    st.format trait = stampFormat st trait := by
  unfold Settings.format stampFormat
  cases st.useTimestampFormat <;> cases trait <;> rfl

theorem lexes_key (k : Text) {r : Text} {ts : List Tok} (h : Lexes r ts) :
    Lexes ('"' :: (escapeString k ++ ['"']) ++ ':' :: r) (.str k :: .colon :: ts) :=
  lexes_append (string_lexes k) (lexes_punct ':' .colon (by decide) h) (noNum_cons (by decide) _)

theorem decimal_json (d : Dec) : IsNumber d.normalize.str ∧ decimalJson d (.num d.normalize.str) := by
  refine ⟨str_isNumber _, str_isNumber _, fun h => ?_⟩
  obtain ⟨n, h1, h2, h3⟩ := str_number d.normalize
  exact ⟨n, h1, h2, by rw [h3, normalize_value d h]⟩

mutual
theorem write_spec (st : Settings F T) (hst : st.Ok) :
    ∀ (c : Call F T) (out : Text), NoNan st c → Written (Mirrors st c) out (write st out c)
  | .null, out, _ => ⟨_, .null, rfl, lexes_one (.fixed (by decide)), rfl⟩
  | .boolean true, out, _ => ⟨_, .bool true, rfl, lexes_one (.fixed (by decide)), rfl⟩
  | .boolean false, out, _ => ⟨_, .bool false, rfl, lexes_one (.fixed (by decide)), rfl⟩
  | .integer n, out, _ => written_int out n
  | .float x, out, h => written_float st.repr (fun x j => j = .num (st.repr x)) (fun x => ⟨hst x, rfl⟩) out x h
  | .bigDecimal x, out, h => written_float _ _ decimal_json out x h
  | .string s, out, _ => written_string out s _ rfl
  | .blob bs, out, _ => written_string out _ _ ⟨_, rfl, rfl⟩
  | .timestamp trait value, out, h => by
    simp only [NoNan] at h
    rw [← format_eq] at h
    simp only [write, Mirrors, ← format_eq]
    generalize st.serialize (st.format trait) value = x at h
    cases x with
    | text t => exact written_string out t _ rfl
    | int n => exact written_int out n
    | float x =>
      exact written_float st.repr (fun x j => j = .num (st.repr x)) (fun x => ⟨hst x, rfl⟩) out x (fun e => h (by rw [e]))
  | .struct [], out, _ => by
    refine ⟨['{', '}'], .obj [], by simp [write, writeMembers], ?_, [], rfl, by simp [MirrorsMembers]⟩
    exact lexes_punct '{' .lbrace (by decide) (lexes_one (.fixed (by decide)))
  | .struct ((m, c) :: ms), out, h => by
    simp only [NoNan, NoNanMembers] at h
    obtain ⟨l, j, e, hl, hj⟩ := write_spec st hst c (writeKey (out ++ ['{']) (st.key m)) h.1
    obtain ⟨l', es, e', hn, hl', hes⟩ := writeMembers_spec st hst ms
      (write st (writeKey (out ++ ['{']) (st.key m)) c) h.2
    refine ⟨'{' :: (('"' :: (escapeString (st.key m) ++ ['"'])) ++ ':' :: (l ++ (l' ++ ['}']))),
      .obj ((st.key m, j) :: es), ?_, ?_, (st.key m, j) :: es, rfl, ?_⟩
    · simp only [write, writeMembers, if_true]
      rw [e', e, writeKey, writeString_eq]
      simp
    · simp only [toks]
      refine lexes_punct '{' .lbrace (by decide) (lexes_key _ ?_)
      rw [List.append_assoc]
      exact lexes_append hl (lexes_append hl' (lexes_one (.fixed (by decide)))
        (noNum_cons (by decide) _)) (noNum_append hn (by decide) [])
    · simp only [MirrorsMembers, ← key_eq]
      exact ⟨j, es, rfl, hj, hes⟩
  | .list [], out, _ => by
    refine ⟨['[', ']'], .arr [], by simp [write, writeElements], ?_, [], rfl, by simp [MirrorsElements]⟩
    exact lexes_punct '[' .lbracket (by decide) (lexes_one (.fixed (by decide)))
  | .list (c :: cs), out, h => by
    simp only [NoNan, NoNanElements] at h
    obtain ⟨l, j, e, hl, hj⟩ := write_spec st hst c (out ++ ['[']) h.1
    obtain ⟨l', xs, e', hn, hl', hxs⟩ := writeElements_spec st hst cs (write st (out ++ ['[']) c) h.2
    refine ⟨'[' :: (l ++ (l' ++ [']'])), .arr (j :: xs), ?_, ?_, j :: xs, rfl, ?_⟩
    · simp only [write, writeElements, if_true]
      rw [e', e]
      simp
    · simp only [toks]
      refine lexes_punct '[' .lbracket (by decide) ?_
      rw [List.append_assoc]
      exact lexes_append hl (lexes_append hl' (lexes_one (.fixed (by decide)))
        (noNum_cons (by decide) _)) (noNum_append hn (by decide) [])
    · simp only [MirrorsElements]
      exact ⟨j, xs, rfl, hj, hxs⟩
  | .map [], out, _ => by
    refine ⟨['{', '}'], .obj [], by simp [write, writeEntries], ?_, [], rfl, by simp [MirrorsEntries]⟩
    exact lexes_punct '{' .lbrace (by decide) (lexes_one (.fixed (by decide)))
  | .map ((k, c) :: ms), out, h => by
    simp only [NoNan, NoNanEntries] at h
    obtain ⟨l, j, e, hl, hj⟩ := write_spec st hst c (writeKey (out ++ ['{']) k) h.1
    obtain ⟨l', es, e', hn, hl', hes⟩ := writeEntries_spec st hst ms
      (write st (writeKey (out ++ ['{']) k) c) h.2
    refine ⟨'{' :: (('"' :: (escapeString k ++ ['"'])) ++ ':' :: (l ++ (l' ++ ['}']))),
      .obj ((k, j) :: es), ?_, ?_, (k, j) :: es, rfl, ?_⟩
    · simp only [write, writeEntries, if_true]
      rw [e', e, writeKey, writeString_eq]
      simp
    · simp only [toks]
      refine lexes_punct '{' .lbrace (by decide) (lexes_key _ ?_)
      rw [List.append_assoc]
      exact lexes_append hl (lexes_append hl' (lexes_one (.fixed (by decide)))
        (noNum_cons (by decide) _)) (noNum_append hn (by decide) [])
    · simp only [MirrorsEntries]
      exact ⟨j, es, rfl, hj, hes⟩
termination_by structural c => c
theorem writeMembers_spec (st : Settings F T) (hst : st.Ok) :
    ∀ (ms : List (Member × Call F T)) (out : Text), NoNanMembers st ms →
      ∃ l es, writeMembers st false out ms = out ++ l ∧ NoNum l ∧ Lexes l (moreMembers es) ∧
        MirrorsMembers st ms es
  | [], out, _ => ⟨[], [], by simp [writeMembers], (fun _ _ e => by cases e), .nil (by simp),
      by simp [MirrorsMembers]⟩
  | (m, c) :: ms, out, h => by
    simp only [NoNanMembers] at h
    obtain ⟨l, j, e, hl, hj⟩ := write_spec st hst c (writeKey (out ++ [',']) (st.key m)) h.1
    obtain ⟨l', es, e', hn, hl', hes⟩ := writeMembers_spec st hst ms
      (write st (writeKey (out ++ [',']) (st.key m)) c) h.2
    refine ⟨',' :: (('"' :: (escapeString (st.key m) ++ ['"'])) ++ ':' :: (l ++ l')),
      (st.key m, j) :: es, ?_, noNum_cons (by decide) _, ?_, ?_⟩
    · simp only [writeMembers, Bool.false_eq_true, if_false]
      rw [e', e, writeKey, writeString_eq]
      simp
    · simp only [moreMembers]
      exact lexes_punct ',' .comma (by decide) (lexes_key _ (lexes_append hl hl' hn))
    · simp only [MirrorsMembers, ← key_eq]
      exact ⟨j, es, rfl, hj, hes⟩
theorem writeElements_spec (st : Settings F T) (hst : st.Ok) :
    ∀ (cs : List (Call F T)) (out : Text), NoNanElements st cs →
      ∃ l xs, writeElements st false out cs = out ++ l ∧ NoNum l ∧ Lexes l (moreToks xs) ∧
        MirrorsElements st cs xs
  | [], out, _ => ⟨[], [], by simp [writeElements], (fun _ _ e => by cases e), .nil (by simp),
      by simp [MirrorsElements]⟩
  | c :: cs, out, h => by
    simp only [NoNanElements] at h
    obtain ⟨l, j, e, hl, hj⟩ := write_spec st hst c (out ++ [',']) h.1
    obtain ⟨l', xs, e', hn, hl', hxs⟩ := writeElements_spec st hst cs (write st (out ++ [',']) c) h.2
    refine ⟨',' :: (l ++ l'), j :: xs, ?_, noNum_cons (by decide) _, ?_, ?_⟩
    · simp only [writeElements, Bool.false_eq_true, if_false]
      rw [e', e]
      simp
    · simp only [moreToks]
      exact lexes_punct ',' .comma (by decide) (lexes_append hl hl' hn)
    · simp only [MirrorsElements]
      exact ⟨j, xs, rfl, hj, hxs⟩
theorem writeEntries_spec (st : Settings F T) (hst : st.Ok) :
    ∀ (es : List (Text × Call F T)) (out : Text), NoNanEntries st es →
      ∃ l js, writeEntries st false out es = out ++ l ∧ NoNum l ∧ Lexes l (moreMembers js) ∧
        MirrorsEntries st es js
  | [], out, _ => ⟨[], [], by simp [writeEntries], (fun _ _ e => by cases e), .nil (by simp),
      by simp [MirrorsEntries]⟩
  | (k, c) :: es, out, h => by
    simp only [NoNanEntries] at h
    obtain ⟨l, j, e, hl, hj⟩ := write_spec st hst c (writeKey (out ++ [',']) k) h.1
    obtain ⟨l', js, e', hn, hl', hes⟩ := writeEntries_spec st hst es
      (write st (writeKey (out ++ [',']) k) c) h.2
    refine ⟨',' :: (('"' :: (escapeString k ++ ['"'])) ++ ':' :: (l ++ l')),
      (k, j) :: js, ?_, noNum_cons (by decide) _, ?_, ?_⟩
    · simp only [writeEntries, Bool.false_eq_true, if_false]
      rw [e', e, writeKey, writeString_eq]
      simp
    · simp only [moreMembers]
      exact lexes_punct ',' .comma (by decide) (lexes_key _ (lexes_append hl hl' hn))
    · simp only [MirrorsEntries]
      exact ⟨j, js, rfl, hj, hes⟩
end

/-- C43: what is written for a value without NaN is a JSON text, of exactly one JSON value, and that
value has the structure and the content of the value written. -/
theorem C43_well_formed_partial (st : Settings F T) (hst : st.Ok) (c : Call F T) (h : NoNan st c) :
    ∃ j, IsJsonText (write st [] c) j ∧ Mirrors st c j ∧ ∀ j', IsJsonText (write st [] c) j' → j' = j := by
  obtain ⟨l, j, e, hl, hj⟩ := write_spec st hst c [] h
  rw [List.nil_append] at e
  rw [e]
  exact ⟨j, hl, hj, fun j' h' => jsonText_unique h' hl⟩

/-- C43 does not hold for NaN: what is written is no JSON text. -/
theorem C43_nan_fails (st : Settings F T) (j : Json) : ¬ IsJsonText (write st [] (.float .nan)) j := by
  intro h
  have e : write st [] (.float .nan) = ['N', 'a', 'N'] := rfl
  rw [e] at h
  unfold IsJsonText at h
  obtain ⟨t, ts, ht, _⟩ := toks_head j
  rw [ht] at h
  generalize hx : (['N', 'a', 'N'] : Text) = x at h
  cases h with
  | cons hw hl hn hr =>
    rename_i w l r
    cases w with
    | cons c w =>
      rw [List.cons_append, List.cons.injEq] at hx
      have := hw c (by simp)
      rw [← hx.1] at this
      exact absurd this (by decide)
    | nil =>
      rw [List.nil_append] at hx
      cases hl with
      | fixed h =>
        have : ∀ p ∈ fixedToks, p.1 ≠ [] ∧ p.1.head? ≠ some 'N' := by decide
        obtain ⟨h1, h2⟩ := this _ h
        cases l with
        | nil => exact h1 rfl
        | cons c l =>
          rw [List.cons_append, List.cons.injEq] at hx
          exact h2 (by simp [← hx.1])
      | num h =>
        obtain ⟨c, m, rfl, hc⟩ := number_head h
        rw [List.cons_append, List.cons.injEq] at hx
        rcases hc with hc | hc
        · rw [← hx.1] at hc; exact absurd hc (by decide)
        · rw [← hx.1] at hc; exact absurd hc (by decide)
      | str h =>
        rw [List.cons_append, List.cons.injEq] at hx
        exact absurd hx.1 (by decide)

/-- C43 does not hold for big decimals of more than 28 digits: another number is written. -/
theorem C43_digits_fails (st : Settings F T) :
    write st [] (.bigDecimal (.finite ⟨false, 10 ^ 28 + 1, 0⟩)) = "1E+28".toList := by
  show [] ++ (Dec.normalize ⟨false, 10 ^ 28 + 1, 0⟩).str = _
  decide +kernel

/-! ## The hypotheses are met -/

/-- Settings of a world with one float and one time. -/
def exampleSettings : Settings Unit Unit where
  useJsonName := true
  useTimestampFormat := true
  defaultFormat := .epochSeconds
  repr := fun _ => ['1', '.', '5']
  serialize
    | .epochSeconds, _ => .int 7
    | _, _ => .text ['t']

theorem exampleSettings_ok : exampleSettings.Ok := by
  intro x
  exact ⟨⟨false, ['1'], some ['5'], none⟩,
    ⟨.inr ⟨'1', [], rfl, by simp, by simp⟩, by simp [Scalars.Strict.Digits, ascii], by simp⟩, rfl⟩

/-- A structure with most kinds of values. -/
def exampleCall : Call Unit Unit :=
  .struct [(⟨['a'], some ['x', '"']⟩, .list [.null, .boolean true, .integer (-3)]),
    (⟨['b'], none⟩, .map [([], .float (.inf true)), (['k'], .float (.finite ())), (['n'], .list [])]),
    (⟨['c'], none⟩, .blob [1, 2]), (⟨['d'], none⟩, .timestamp none ()),
    (⟨['e'], none⟩, .timestamp (some .dateTime) ()), (⟨['f'], none⟩, .bigDecimal (.finite ⟨true, 15, -1⟩))]

example : NoNan exampleSettings exampleCall ∧ write exampleSettings [] exampleCall =
    ("{\"x\\\"\":[null,true,-3],\"b\":{\"\":\"-Infinity\",\"k\":1.5,\"n\":[]},\"c\":\"AQI=\",\"d\":7," ++
      "\"e\":\"t\",\"f\":-1.5}").toList := by
  refine ⟨?_, by decide +kernel⟩
  simp [exampleCall, NoNan, NoNanMembers, NoNanElements, NoNanEntries, exampleSettings, stampFormat]

end

end Verif.Json

import Verif.Json.Write

/-!
# The JSON deserializer (C44): model and specification

Models `BufferedParser` and `JSONShapeDeserializer` (smithy_json/_private/deserializers.py:62-262) and the
code generated for structures, unions, lists and maps that uses them (codegen/core/src/main/java/software/
amazon/smithy/python/codegen/generators: StructureGenerator.java:402-428 and 502-519,
UnionGenerator.java:160-200, ListGenerator.java:43-92, MapGenerator.java:46-92,
MemberDeserializerGenerator.java).

The parser is the `ijson` library; it is trusted to give the events of the JSON value of a text, with the
paths of its `parse` function.  Simplifications: `BufferedParser` is the list of events not yet taken, its
look-ahead does not take anything; a schema is what the deserializer asks of it (`View`), with references
to other schemas so that schemas may be recursive; enums are their plain values; the dataclass constructor
and the defaults of missing required members are left out: a structure is the dict of its arguments.  The
table of JSON names is not cached.
-/

set_option autoImplicit false

namespace Verif.Json

open Verif.Numerals
open Verif.Scalars.Strict (JsonNumber ascii Num)

/-! ## Model: events -/

/-- What `ijson` makes of a number: an `int` or a `Decimal`. -/
inductive PNum where
  | int (n : Int)
  | dec (d : Dec)
  deriving DecidableEq, Repr

/-- `int(text)` of an exponent. -/
def decExp : Text → Int
  | '-' :: ds => -(natValue ds : Int)
  | '+' :: ds => natValue ds
  | ds => natValue ds

/-- `Decimal(text)`: the digits without the point, the exponent less the digits after the point. -/
def decOf (t : Text) : Dec :=
  let neg := t.head? = some '-'
  let body := if neg then t.tail else t
  let mant := body.takeWhile fun c => c ≠ 'e' && c ≠ 'E'
  let exp := (body.dropWhile fun c => c ≠ 'e' && c ≠ 'E').tail
  let frac := (mant.dropWhile fun c => c ≠ '.').tail
  { neg := neg
    coeff := natValue (mant.takeWhile (fun c => c ≠ '.') ++ frac)
    exp := decExp exp - frac.length }

/-- Numbers without fraction and exponent are integers. -/
def numOf (t : Text) : PNum :=
  if t.any fun c => c = '.' || c = 'e' || c = 'E' then .dec (decOf t) else .int (intValue t)

/-- Type and value of an event (deserializers.py:25-37). -/
inductive Ev where
  | null
  | boolean (b : Bool)
  | number (x : PNum)
  | string (s : Text)
  | startMap
  | endMap
  | mapKey (k : Text)
  | startArray
  | endArray
  deriving DecidableEq, Repr

/-- `JSONParseEvent` (deserializers.py:42-45). -/
structure Event where
  path : Text
  ev : Ev
  deriving DecidableEq, Repr

/-- `".".join(path)` -/
def join : List Text → Text
  | [] => []
  | [x] => x
  | x :: y :: xs => x ++ '.' :: join (y :: xs)

mutual
/-- The events `ijson.parse` gives for a value, at a path. -/
def events (p : List Text) : Json → List Event
  | .null => [⟨join p, .null⟩]
  | .bool b => [⟨join p, .boolean b⟩]
  | .num t => [⟨join p, .number (numOf t)⟩]
  | .str s => [⟨join p, .string s⟩]
  | .arr xs => ⟨join p, .startArray⟩ :: (elementEvents (p ++ ["item".toList]) xs ++ [⟨join p, .endArray⟩])
  | .obj es => ⟨join p, .startMap⟩ :: (memberEvents p es ++ [⟨join p, .endMap⟩])
termination_by structural j => j
def elementEvents (p : List Text) : List Json → List Event
  | [] => []
  | x :: xs => events p x ++ elementEvents p xs
def memberEvents (p : List Text) : List (Text × Json) → List Event
  | [] => []
  | (k, x) :: es => ⟨join p, .mapKey k⟩ :: (events (p ++ [k]) x ++ memberEvents p es)
end

/-! ## Model: schemas and values -/

/-- What the deserializer asks of a schema. -/
inductive View (S : Type) where
  | boolean | integer | float | bigDecimal | string | blob
  | timestamp (trait : Option Format)
  | document
  | struct (members : List (Member × S))
  | union (members : List (Member × S))
  | list (sparse : Bool) (element : S)
  | map (sparse : Bool) (value : S)

def View.isDocument {S : Type} : View S → Bool
  | .document => true
  | _ => false

/-- The content of a document. -/
inductive Plain where
  | null
  | bool (b : Bool)
  | num (x : PNum)
  | str (s : Text)
  | arr (xs : List Plain)
  | obj (es : List (Text × Plain))

/-- Values of shapes.  `null` is `None` in a sparse list or map; a structure has the members that are not
`None`. -/
inductive Val (F T : Type) where
  | null
  | boolean (b : Bool)
  | integer (n : Int)
  | float (x : Num F)
  | bigDecimal (x : Num Dec)
  | string (s : Text)
  | blob (bs : List Base64.Byte)
  | timestamp (t : T)
  | document (p : Plain)
  | struct (members : List (Text × Val F T))
  | union (member : Text) (value : Val F T)
  | list (elements : List (Val F T))
  | map (entries : List (Text × Val F T))

/-- Errors. -/
inductive RErr where
  /-- `JSONTokenError` -/
  | token
  /-- `StopIteration`: no event is left -/
  | stop
  /-- `SerializationError` of a union -/
  | union
  /-- an error of `b64decode` or of the conversion of a timestamp -/
  | value
  /-- not in the code: the model's bound on steps -/
  | fuel
  deriving DecidableEq, Repr

/-- `d[k] = v` for a dict: an existing key keeps its place. -/
def put {V : Type} : List (Text × V) → Text → V → List (Text × V)
  | [], k, v => [(k, v)]
  | e :: d, k, v => if e.1 = k then (k, v) :: d else e :: put d k v

/-! ## Model: documents -/

/-- An open container of ijson's `ObjectBuilder`; a map with the last key. -/
inductive Frame where
  | arr (xs : List Plain)
  | obj (es : List (Text × Plain)) (key : Text)

/-- The open containers, innermost first, and the value when none is open.  In Python a container is put
into its parent when it is opened, here when it is closed; and all maps share the last key. -/
abbrev Builder := List Frame × Plain

def Frame.plain : Frame → Plain
  | .arr xs => .arr xs
  | .obj es _ => .obj es

/-- A value comes into the innermost container. -/
def attach : Builder → Plain → Builder
  | ([], _), v => ([], v)
  | (.arr xs :: fs, d), v => (.arr (xs ++ [v]) :: fs, d)
  | (.obj es k :: fs, d), v => (.obj (put es k v) k :: fs, d)

/-- `builder.event(type, value)`. -/
def feed (b : Builder) : Ev → Builder
  | .null => attach b .null
  | .boolean x => attach b (.bool x)
  | .number x => attach b (.num x)
  | .string s => attach b (.str s)
  | .startArray => (.arr [] :: b.1, b.2)
  | .startMap => (.obj [] [] :: b.1, b.2)
  | .mapKey k => match b with
    | (.obj es _ :: fs, d) => (.obj es k :: fs, d)
    | b => b
  | .endArray | .endMap => match b with
    | (f :: fs, d) => attach (fs, d) f.plain
    | b => b

/-- `builder.value`: the containers that are still open are in it. -/
def closeAll : List Frame → Plain → Plain
  | [], v => v
  | .arr xs :: fs, v => closeAll fs (.arr (xs ++ [v]))
  | .obj es k :: fs, v => closeAll fs (.obj (put es k v))

def builderValue : Builder → Plain
  | ([], v) => v
  | (f :: fs, _) => closeAll fs f.plain

/-- The loop of `read_document` and `_skip` (deserializers.py:165-168 and 259-262): the events before the
end of the container that started, and the ones after. -/
def untilEnd (path : Text) (stop : Ev) : List Event → Option (List Ev × List Event)
  | [] => none
  | e :: r =>
    if e.path = path ∧ e.ev = stop then some ([], r)
    else (untilEnd path stop r).map fun x => (e.ev :: x.1, x.2)

/-- `read_document` (deserializers.py:155-172). -/
def readDocument : List Event → Except RErr (Plain × List Event)
  | [] => .error .stop
  | e :: r =>
    match e.ev with
    | .startMap => match untilEnd e.path .endMap r with
      | none => .error .stop
      | some x => .ok (builderValue ((.startMap :: x.1).foldl feed ([], .null)), x.2)
    | .startArray => match untilEnd e.path .endArray r with
      | none => .error .stop
      | some x => .ok (builderValue ((.startArray :: x.1).foldl feed ([], .null)), x.2)
    | .null | .endMap | .endArray => .ok (.null, r)
    | .boolean b => .ok (.bool b, r)
    | .number x => .ok (.num x, r)
    | .string s | .mapKey s => .ok (.str s, r)

/-- `_skip` (deserializers.py:252-262). -/
def skip : List Event → Except RErr (List Event)
  | [] => .error .stop
  | e :: r =>
    match e.ev with
    | .startMap => match untilEnd e.path .endMap r with
      | none => .error .stop
      | some x => .ok x.2
    | .startArray => match untilEnd e.path .endArray r with
      | none => .error .stop
      | some x => .ok x.2
    | _ => .ok r

/-! ## Model: shapes -/

/-- `JSONSettings`, the schemas, and the functions of the standard library and of `TimestampFormat`. -/
structure Reader (S F T : Type) where
  view : S → View S
  useJsonName : Bool
  useTimestampFormat : Bool
  defaultFormat : Format
  /-- `float(Decimal)` -/
  float : Dec → Num F
  /-- `TimestampFormat.deserialize` (smithy_core/types.py:163-182); `none` if it raises -/
  deserialize : Format → Stamp F → Option T

section
variable {S F T : Type}

/-- `_resolve_member` and `_cache_json_names` (deserializers.py:206-223): in the dict of names, later
members replace earlier ones. -/
def Reader.resolve (rd : Reader S F T) (ms : List (Member × S)) (key : Text) : Option (Member × S) :=
  if rd.useJsonName then
    match ms.reverse.find? fun e => e.1.jsonName.getD e.1.name = key with
    | some e => ms.find? fun x => x.1.name = e.1.name
    | none => none
  else ms.find? fun x => x.1.name = key

/-- `read_boolean` (deserializers.py:109-113). -/
def readBoolean : Ev → Except RErr (Val F T)
  | .boolean b => .ok (.boolean b)
  | _ => .error .token

/-- `read_integer` (deserializers.py:121-125); a `bool` is an `int`. -/
def readInteger : Ev → Except RErr (Val F T)
  | .number (.int n) => .ok (.integer n)
  | .boolean b => .ok (.boolean b)
  | _ => .error .token

/-- `read_float` (deserializers.py:127-137). -/
def Reader.readFloat (rd : Reader S F T) : Ev → Except RErr (Val F T)
  | .number (.dec d) => .ok (.float (rd.float d))
  | .number (.int n) => .ok (.integer n)
  | .boolean b => .ok (.boolean b)
  | .string s | .mapKey s =>
    if s = "Infinity".toList then .ok (.float (.inf false))
    else if s = "-Infinity".toList then .ok (.float (.inf true))
    else if s = "NaN".toList then .ok (.float .nan)
    else .error .token
  | _ => .error .token

/-- `read_big_decimal` (deserializers.py:139-147). -/
def readBigDecimal : Ev → Except RErr (Val F T)
  | .number (.dec d) => .ok (.bigDecimal (.finite d))
  | .number (.int n) => .ok (.bigDecimal (.finite ⟨decide (n < 0), n.natAbs, 0⟩))
  | .boolean b => .ok (.bigDecimal (.finite ⟨false, if b then 1 else 0, 0⟩))
  | _ => .error .token

/-- `read_string` (deserializers.py:149-153). -/
def readString : Ev → Except RErr Text
  | .string s | .mapKey s => .ok s
  | _ => .error .token

/-- `read_blob` (deserializers.py:115-119). -/
def readBlob : Ev → Except RErr (Val F T)
  | .string s => match Base64.decode s with
    | some bs => .ok (.blob bs)
    | none => .error .value
  | _ => .error .token

/-- What `TimestampFormat.deserialize` is given for the result of `read_float`. -/
def toStamp : Val F T → Option (Stamp F)
  | .float x => some (.float x)
  | .integer n => some (.int n)
  | .boolean b => some (.int (if b then 1 else 0))
  | _ => none

/-- `read_timestamp` (deserializers.py:174-184). -/
def Reader.readTimestamp (rd : Reader S F T) (trait : Option Format) (e : Ev) : Except RErr (Val F T) :=
  let format := if rd.useTimestampFormat then trait.getD rd.defaultFormat else rd.defaultFormat
  let stamp : Except RErr (Option (Stamp F)) :=
    match format with
    | .epochSeconds => (rd.readFloat e).map toStamp
    | _ => (readString e).map fun t => some (.text t)
  match stamp with
  | .error e => .error e
  | .ok none => .error .value
  | .ok (some x) => match rd.deserialize format x with
    | some t => .ok (.timestamp t)
    | none => .error .value

/-- The shapes that take one event. -/
def Reader.readScalar (rd : Reader S F T) : View S → Ev → Except RErr (Val F T)
  | .boolean, e => readBoolean e
  | .integer, e => readInteger e
  | .float, e => rd.readFloat e
  | .bigDecimal, e => readBigDecimal e
  | .string, e => (readString e).map .string
  | .blob, e => readBlob e
  | .timestamp trait, e => rd.readTimestamp trait e
  | _, _ => .error .token

/-- The consumer of a structure (`kwargs[name] = value`, StructureGenerator.java:510-513) or of a union
(`_set_result`, UnionGenerator.java:179-182). -/
def consume (union : Bool) (acc : List (Text × Val F T)) (name : Text) (v : Val F T) :
    Except RErr (List (Text × Val F T)) :=
  if union then (if acc = [] then .ok [(name, v)] else .error .union)
  else .ok (put acc name v)

/-- What becomes of the members: a structure, or the one member of a union (UnionGenerator.java:164-171). -/
def finish (union : Bool) (acc : List (Text × Val F T)) : Except RErr (Val F T) :=
  if union then
    match acc with
    | [] => .error .union
    | e :: _ => .ok (.union e.1 e.2)
  else .ok (.struct acc)

mutual
/-- Reading a value of a shape: the value and the events left.  The first number bounds the steps. -/
def Reader.read (rd : Reader S F T) : Nat → S → List Event → Except RErr (Val F T × List Event)
  | 0, _, _ => .error .fuel
  | _ + 1, _, [] => .error .stop
  | n + 1, s, e :: r =>
    match rd.view s with
    | .document => (readDocument (e :: r)).map fun x => (.document x.1, x.2)
    | .struct ms =>
      if e.ev = .startMap then
        match rd.readMembers n false ms [] r with
        | .error err => .error err
        | .ok x => (finish false x.1).map fun v => (v, x.2)
      else .error .token
    | .union ms =>
      if e.ev = .startMap then
        match rd.readMembers n true ms [] r with
        | .error err => .error err
        | .ok x => (finish true x.1).map fun v => (v, x.2)
      else .error .token
    | .list sparse s' =>
      if e.ev = .startArray then (rd.readElements n sparse s' [] r).map fun x => (.list x.1, x.2)
      else .error .token
    | .map sparse s' =>
      if e.ev = .startMap then (rd.readEntries n sparse s' [] r).map fun x => (.map x.1, x.2)
      else .error .token
    | v => (rd.readScalar v e.ev).map fun x => (x, r)
/-- `read_struct` after its first event (deserializers.py:193-204). -/
def Reader.readMembers (rd : Reader S F T) : Nat → Bool → List (Member × S) → List (Text × Val F T) →
    List Event → Except RErr (List (Text × Val F T) × List Event)
  | 0, _, _, _, _ => .error .fuel
  | _ + 1, _, _, _, [] => .error .stop
  | n + 1, union, ms, acc, e :: r =>
    if e.ev = .endMap then .ok (acc, r)
    else
      match readString e.ev with
      | .error err => .error err
      | .ok key =>
        match rd.resolve ms key with
        | none =>
          match skip r with
          | .error err => .error err
          | .ok r' => rd.readMembers n union ms acc r'
        | some m =>
          match r with
          | [] => .error .stop
          | e' :: r' =>
            if e'.ev = .null ∧ (rd.view m.2).isDocument = false then rd.readMembers n union ms acc r'
            else
              match rd.read n m.2 (e' :: r') with
              | .error err => .error err
              | .ok x =>
                match consume union acc m.1.name x.1 with
                | .error err => .error err
                | .ok acc' => rd.readMembers n union ms acc' x.2
/-- `read_list` after its first event (deserializers.py:232-235) with the generated `_read_value`
(ListGenerator.java:84-89). -/
def Reader.readElements (rd : Reader S F T) : Nat → Bool → S → List (Val F T) → List Event →
    Except RErr (List (Val F T) × List Event)
  | 0, _, _, _, _ => .error .fuel
  | _ + 1, _, _, _, [] => .error .stop
  | n + 1, sparse, s, acc, e :: r =>
    if e.ev = .endArray then .ok (acc, r)
    else if e.ev = .null then rd.readElements n sparse s (if sparse then acc ++ [.null] else acc) r
    else
      match rd.read n s (e :: r) with
      | .error err => .error err
      | .ok x => rd.readElements n sparse s (acc ++ [x.1]) x.2
/-- `read_map` after its first event (deserializers.py:246-250) with the generated `_read_value`
(MapGenerator.java:84-89). -/
def Reader.readEntries (rd : Reader S F T) : Nat → Bool → S → List (Text × Val F T) → List Event →
    Except RErr (List (Text × Val F T) × List Event)
  | 0, _, _, _, _ => .error .fuel
  | _ + 1, _, _, _, [] => .error .stop
  | n + 1, sparse, s, acc, e :: r =>
    if e.ev = .endMap then .ok (acc, r)
    else
      match readString e.ev with
      | .error err => .error err
      | .ok key =>
        match r with
        | [] => .error .stop
        | e' :: r' =>
          if e'.ev = .null then
            rd.readEntries n sparse s (if sparse then put acc key .null else acc) r'
          else
            match rd.read n s (e' :: r') with
            | .error err => .error err
            | .ok x => rd.readEntries n sparse s (put acc key x.1) x.2
end

/-- Reading a value of a shape from the events of a text.  There are enough steps: see `read_spec`. -/
def Reader.run (rd : Reader S F T) (s : S) (evs : List Event) : Except RErr (Val F T) :=
  (rd.read (2 * evs.length + 2) s evs).map Prod.fst

end

/-! ## Model: the generated serializers -/

section
variable {S F T : Type}

mutual
/-- The calls made for the content of a document (smithy_core/documents.py:274-330). -/
def docCall : Plain → Call F T
  | .null => .null
  | .bool b => .boolean b
  | .num (.int n) => .integer n
  | .num (.dec d) => .bigDecimal (.finite d)
  | .str s => .string s
  | .arr xs => .list (docCalls xs)
  | .obj es => .map (docEntries es)
termination_by structural p => p
def docCalls : List Plain → List (Call F T)
  | [] => []
  | p :: ps => docCall p :: docCalls ps
def docEntries : List (Text × Plain) → List (Text × Call F T)
  | [] => []
  | (k, p) :: es => (k, docCall p) :: docEntries es
end

mutual
/-- The calls made for a value of a shape: `serialize_members` of structures writes the members that are
not `None` in the order of the schema (StructureGenerator.java:347-368), and lists and maps write every
element. -/
def Reader.callOf (rd : Reader S F T) (s : S) : Val F T → Call F T
  | .null => .null
  | .boolean b => .boolean b
  | .integer n => .integer n
  | .float x => .float x
  | .bigDecimal x => .bigDecimal x
  | .string t => .string t
  | .blob bs => .blob bs
  | .timestamp t => .timestamp (match rd.view s with | .timestamp trait => trait | _ => none) t
  | .document p => docCall p
  | .struct es => match rd.view s with
    | .struct ms => .struct (rd.memberCalls ms es)
    | _ => .null
  | .union k v => match rd.view s with
    | .union ms => match ms.find? fun e => e.1.name = k with
      | some m => .struct [(m.1, rd.callOf m.2 v)]
      | none => .null
    | _ => .null
  | .list vs => match rd.view s with
    | .list _ s' => .list (rd.elementCalls s' vs)
    | _ => .null
  | .map es => match rd.view s with
    | .map _ s' => .map (rd.entryCalls s' es)
    | _ => .null
termination_by structural v => v
def Reader.memberCalls (rd : Reader S F T) (ms : List (Member × S)) :
    List (Text × Val F T) → List (Member × Call F T)
  | [] => []
  | (k, v) :: es => match ms.find? fun e => e.1.name = k with
    | some m => (m.1, rd.callOf m.2 v) :: rd.memberCalls ms es
    | none => rd.memberCalls ms es
def Reader.elementCalls (rd : Reader S F T) (s : S) : List (Val F T) → List (Call F T)
  | [] => []
  | v :: vs => rd.callOf s v :: rd.elementCalls s vs
def Reader.entryCalls (rd : Reader S F T) (s : S) : List (Text × Val F T) → List (Text × Call F T)
  | [] => []
  | (k, v) :: es => (k, rd.callOf s v) :: rd.entryCalls s es
end

end

/-! ## Specification -/

section
variable {S F T : Type}

/-- Within a structure or union, names and JSON names are distinct. -/
def Reader.Ok (rd : Reader S F T) : Prop :=
  ∀ s ms, rd.view s = .struct ms ∨ rd.view s = .union ms →
    (ms.map fun e => e.1.name).Nodup ∧ (ms.map fun e => jsonKey rd.useJsonName e.1).Nodup

mutual
/-- The JSON value without the members that are unknown, and without the members that are null. -/
def Reader.strip (rd : Reader S F T) (s : S) : Json → Json
  | .obj es => match rd.view s with
    | .struct ms | .union ms => .obj (rd.stripMembers ms es)
    | .map _ s' => .obj (rd.stripEntries s' es)
    | _ => .obj es
  | .arr xs => match rd.view s with
    | .list _ s' => .arr (rd.stripElements s' xs)
    | _ => .arr xs
  | j => j
termination_by structural j => j
def Reader.stripMembers (rd : Reader S F T) (ms : List (Member × S)) :
    List (Text × Json) → List (Text × Json)
  | [] => []
  | (k, j) :: es => match ms.find? fun e => jsonKey rd.useJsonName e.1 = k with
    | none => rd.stripMembers ms es
    | some m => match j, (rd.view m.2).isDocument with
      | .null, false => rd.stripMembers ms es
      | _, _ => (k, rd.strip m.2 j) :: rd.stripMembers ms es
def Reader.stripElements (rd : Reader S F T) (s : S) : List Json → List Json
  | [] => []
  | j :: js => rd.strip s j :: rd.stripElements s js
def Reader.stripEntries (rd : Reader S F T) (s : S) : List (Text × Json) → List (Text × Json)
  | [] => []
  | (k, j) :: es => (k, rd.strip s j) :: rd.stripEntries s es
end

/-- A document at the top has no member with an empty name that is an object. -/
def RootOk : Json → Prop
  | .obj es => ∀ k x, (k, Json.obj x) ∈ es → k ≠ []
  | _ => True

/-- The reader fits the writer: the same settings, and reading the text of a float gives the float. -/
structure Fits (st : Settings F T) (rd : Reader S F T) : Prop where
  names : rd.useJsonName = st.useJsonName
  formats : rd.useTimestampFormat = st.useTimestampFormat
  default : rd.defaultFormat = st.defaultFormat
  floats : ∀ x, ∃ d, numOf (st.repr x) = .dec d ∧ rd.float d = .finite x

/-- The format of timestamps of a shape restores this one. -/
def Restores (st : Settings F T) (rd : Reader S F T) (trait : Option Format) (t : T) : Prop :=
  match stampFormat st trait with
  | .epochSeconds =>
    (∃ n, st.serialize .epochSeconds t = .int n ∧ rd.deserialize .epochSeconds (.int n) = some t) ∨
    ∃ x, st.serialize .epochSeconds t = .float (.finite x) ∧
      rd.deserialize .epochSeconds (.float (.finite x)) = some t
  | f => ∃ x, st.serialize f t = .text x ∧ rd.deserialize f (.text x) = some t

mutual
/-- Documents of JSON data whose decimals have at most 28 digits. -/
def Plain.Ok : Plain → Prop
  | .num (.dec d) => d.digits ≤ 28
  | .arr xs => Plain.OkList xs
  | .obj es => (es.map Prod.fst).Nodup ∧ Plain.OkEntries es
  | _ => True
termination_by structural p => p
def Plain.OkList : List Plain → Prop
  | [] => True
  | p :: ps => p.Ok ∧ Plain.OkList ps
def Plain.OkEntries : List (Text × Plain) → Prop
  | [] => True
  | (_, p) :: es => p.Ok ∧ Plain.OkEntries es
end

mutual
/-- The value is of the shape, and is one that JSON can carry: no NaN, finite big decimals of at most 28
digits, timestamps the format restores, and no null documents in lists and maps. -/
def Conforms (st : Settings F T) (rd : Reader S F T) (s : S) : Val F T → Prop
  | .null => False
  | .boolean _ => rd.view s = .boolean
  | .integer _ => rd.view s = .integer
  | .float x => rd.view s = .float ∧ x ≠ .nan
  | .bigDecimal x => rd.view s = .bigDecimal ∧ ∃ d : Dec, x = .finite d ∧ d.digits ≤ 28
  | .string _ => rd.view s = .string
  | .blob _ => rd.view s = .blob
  | .timestamp t => ∃ trait, rd.view s = .timestamp trait ∧ Restores st rd trait t
  | .document p => rd.view s = .document ∧ p.Ok
  | .struct es => ∃ ms, rd.view s = .struct ms ∧ ConformsMembers st rd ms es
  | .union k v => ∃ ms m, rd.view s = .union ms ∧ m ∈ ms ∧ m.1.name = k ∧ Conforms st rd m.2 v
  | .list vs => ∃ sparse s', rd.view s = .list sparse s' ∧ ConformsElements st rd sparse s' vs
  | .map es => ∃ sparse s', rd.view s = .map sparse s' ∧ (es.map Prod.fst).Nodup ∧
      ConformsEntries st rd sparse s' es
termination_by structural v => v
/-- Some of the members, in the order of the schema. -/
def ConformsMembers (st : Settings F T) (rd : Reader S F T) (ms : List (Member × S)) :
    List (Text × Val F T) → Prop
  | [] => True
  | (k, v) :: es => ∃ pre m post, ms = pre ++ m :: post ∧ m.1.name = k ∧ Conforms st rd m.2 v ∧
      ConformsMembers st rd post es
def ConformsElements (st : Settings F T) (rd : Reader S F T) (sparse : Bool) (s : S) :
    List (Val F T) → Prop
  | [] => True
  | v :: vs => ((v = .null ∧ sparse = true) ∨ (v ≠ .document .null ∧ Conforms st rd s v)) ∧
      ConformsElements st rd sparse s vs
def ConformsEntries (st : Settings F T) (rd : Reader S F T) (sparse : Bool) (s : S) :
    List (Text × Val F T) → Prop
  | [] => True
  | (_, v) :: es => ((v = .null ∧ sparse = true) ∨ (v ≠ .document .null ∧ Conforms st rd s v)) ∧
      ConformsEntries st rd sparse s es
end

/-- The number. -/
def PNum.value : PNum → ℚ
  | .int n => n
  | .dec d => d.value

mutual
/-- Equal documents: numbers are equal if their values are. -/
def SamePlain : Plain → Plain → Prop
  | .null, q => q = .null
  | .bool b, q => q = .bool b
  | .num x, q => ∃ y, q = .num y ∧ y.value = x.value
  | .str s, q => q = .str s
  | .arr xs, q => ∃ ys, q = .arr ys ∧ SamePlains xs ys
  | .obj es, q => ∃ fs, q = .obj fs ∧ SameFields es fs
termination_by structural p => p
def SamePlains : List Plain → List Plain → Prop
  | [], ys => ys = []
  | x :: xs, ys => ∃ y ys', ys = y :: ys' ∧ SamePlain x y ∧ SamePlains xs ys'
def SameFields : List (Text × Plain) → List (Text × Plain) → Prop
  | [], ys => ys = []
  | (k, x) :: xs, ys => ∃ y ys', ys = (k, y) :: ys' ∧ SamePlain x y ∧ SameFields xs ys'
end

mutual
/-- Equal values: as `==` compares them, decimals by their value. -/
def Same : Val F T → Val F T → Prop
  | .bigDecimal (.finite d), w => ∃ d' : Dec, w = .bigDecimal (.finite d') ∧ d'.value = d.value
  | .document p, w => ∃ q, w = .document q ∧ SamePlain p q
  | .struct es, w => ∃ fs, w = .struct fs ∧ SameEntries es fs
  | .union k v, w => ∃ x, w = .union k x ∧ Same v x
  | .list vs, w => ∃ ws, w = .list ws ∧ SameElements vs ws
  | .map es, w => ∃ fs, w = .map fs ∧ SameEntries es fs
  | v, w => w = v
termination_by structural v => v
def SameElements : List (Val F T) → List (Val F T) → Prop
  | [], ys => ys = []
  | x :: xs, ys => ∃ y ys', ys = y :: ys' ∧ Same x y ∧ SameElements xs ys'
def SameEntries : List (Text × Val F T) → List (Text × Val F T) → Prop
  | [], ys => ys = []
  | (k, x) :: xs, ys => ∃ y ys', ys = (k, y) :: ys' ∧ Same x y ∧ SameEntries xs ys'
end

end

end Verif.Json

import Verif.Uri.Query
import Verif.Json.Write

/-!
# The AWS query serializer (C46): model and specification

Models `QueryShapeSerializer` and the serializers of structures, lists and maps
(smithy_aws_core/_private/query/serializers.py:27-243), `InterceptingSerializer`
(smithy_core/serializers.py:243-350), and `AwsQueryClientProtocol.serialize_request`
(smithy_aws_core/aio/protocols.py:274-308).  What a program does with a serializer is a `Call`: a value, or
a `with` block with the calls made on the serializer of the block.

Simplifications: text is its UTF-8 bytes; the size given to `begin_list` is the number of elements, as in
generated code (ListGenerator.java:46); the children share the list of parameters, so a call is a
function of the parameters written before it; the texts of floats, decimals and timestamps are parameters
(C55 is about the floats).
-/

set_option autoImplicit false

namespace Verif.AwsQuery

open Verif.Uri Verif.Text
open Verif.Json (Format)
open Verif.Numerals

/-! ## Model -/

/-- What the serializer looks at in the schema of a member: name and `@xmlName`. -/
structure Member where
  name : Bytes
  xmlName : Option Bytes
  deriving DecidableEq, Repr

/-- Calls on a shape serializer. -/
inductive Call (F D T : Type) where
  | null
  | boolean (b : Bool)
  | integer (n : Int)
  | float (x : F)
  | bigDecimal (x : D)
  | string (s : Bytes)
  | blob (bs : List Base64.Byte)
  | timestamp (trait : Option Format) (value : T)
  | document
  | struct (members : List (Member × Call F D T))
  /-- `@xmlFlattened`, the `@xmlName` of the member, and the elements -/
  | list (flattened : Bool) (item : Option Bytes) (elements : List (Call F D T))
  /-- `@xmlFlattened`, the `@xmlName` of key and value, and the entries -/
  | map (flattened : Bool) (keyName valueName : Option Bytes) (entries : List (Bytes × Call F D T))

/-- The default format and the texts of values. -/
structure Settings (F D T : Type) where
  defaultFormat : Format
  /-- `serialize_float` of a float -/
  float : F → Bytes
  /-- `serialize_float` of a decimal -/
  decimal : D → Bytes
  /-- `str(format.serialize(value))` -/
  stamp : Format → T → Bytes

/-- `SerializationError`. -/
inductive QErr where
  | noPath | document
  deriving DecidableEq, Repr

section
variable {F D T : Type}

/-- ASCII text as bytes. -/
def bytes (t : List Char) : Bytes := t.map ch

/-- `_resolve_name` (serializers.py:32-36). -/
def resolveName (xmlName : Option Bytes) (default : Bytes) : Bytes :=
  match xmlName with
  | some n => n
  | none => default

/-- `str(index)`. -/
def index (i : Nat) : Bytes := bytes (natText i)

/-- `append` (serializers.py:78-83). -/
def append (path : List Bytes) (params : List (Bytes × Bytes)) (value : Bytes) :
    Except QErr (List (Bytes × Bytes)) :=
  if path = [] then .error .noPath else .ok (params ++ [(join (ch '.') path, value)])

/-- The path of an element of a list (serializers.py:199-203). -/
def elementPath (flattened : Bool) (item : Option Bytes) (i : Nat) : List Bytes :=
  if flattened then [index i] else [resolveName item (asc "member"), index i]

/-- The path of an entry of a map (serializers.py:236-240). -/
def entryPath (flattened : Bool) (i : Nat) : List Bytes :=
  if flattened then [index i] else [asc "entry", index i]

mutual
/-- A call on a `QueryShapeSerializer` with a path (serializers.py:85-128): the parameters after it. -/
def write (st : Settings F D T) (path : List Bytes) (params : List (Bytes × Bytes)) :
    Call F D T → Except QErr (List (Bytes × Bytes))
  | .null => .ok params
  | .boolean b => append path params (if b then asc "true" else asc "false")
  | .integer n => append path params (bytes (intText n))
  | .float x => append path params (st.float x)
  | .bigDecimal x => append path params (st.decimal x)
  | .string s => append path params s
  | .blob bs => append path params (bytes (Base64.encode bs))
  | .timestamp trait value => append path params (st.stamp (trait.getD st.defaultFormat) value)
  | .document => .error .document
  | .struct ms => writeMembers st path params ms
  | .list flattened item es =>
    match (if es.length = 0 then append path params [] else .ok params) with
    | .error err => .error err
    | .ok params => writeElements st flattened item 0 path params es
  | .map flattened keyName valueName es => writeEntries st flattened keyName valueName 0 path params es
termination_by structural c => c
/-- Calls on a `QueryStructSerializer` (serializers.py:168-169). -/
def writeMembers (st : Settings F D T) (path : List Bytes) (params : List (Bytes × Bytes)) :
    List (Member × Call F D T) → Except QErr (List (Bytes × Bytes))
  | [] => .ok params
  | (m, c) :: ms =>
    match write st (path ++ [resolveName m.xmlName m.name]) params c with
    | .error err => .error err
    | .ok params => writeMembers st path params ms
/-- Calls on a `QueryListSerializer` (serializers.py:199-203); the number is `_index`. -/
def writeElements (st : Settings F D T) (flattened : Bool) (item : Option Bytes) (i : Nat) (path : List Bytes)
    (params : List (Bytes × Bytes)) : List (Call F D T) → Except QErr (List (Bytes × Bytes))
  | [] => .ok params
  | c :: cs =>
    match write st (path ++ elementPath flattened item (i + 1)) params c with
    | .error err => .error err
    | .ok params => writeElements st flattened item (i + 1) path params cs
/-- Calls of `entry` of a `QueryMapSerializer` (serializers.py:235-243). -/
def writeEntries (st : Settings F D T) (flattened : Bool) (keyName valueName : Option Bytes) (i : Nat)
    (path : List Bytes) (params : List (Bytes × Bytes)) :
    List (Bytes × Call F D T) → Except QErr (List (Bytes × Bytes))
  | [] => .ok params
  | (k, c) :: es =>
    match append (path ++ entryPath flattened (i + 1) ++ [resolveName keyName (asc "key")]) params k with
    | .error err => .error err
    | .ok params =>
      match write st (path ++ entryPath flattened (i + 1) ++ [resolveName valueName (asc "value")]) params c with
      | .error err => .error err
      | .ok params => writeEntries st flattened keyName valueName (i + 1) path params es
end

/-- `safe="-_.~"` (serializers.py:29). -/
def querySafe (b : UInt8) : Bool := b = ch '-' || b = ch '_' || b = ch '.' || b = ch '~'

/-- The pairs with action and version (serializers.py:131-139). -/
def withAction (action version : Option Bytes) (params : List (Bytes × Bytes)) : List (Bytes × Bytes) :=
  (match action, version with
    | some a, some v => [(asc "Action", a), (asc "Version", v)]
    | _, _ => []) ++ params

/-- What `flush` writes (serializers.py:130-144). -/
def flush (action version : Option Bytes) (params : List (Bytes × Bytes)) : Bytes :=
  join (ch '&') ((withAction action version params).map fun p =>
    quote querySafe p.1 ++ [ch '='] ++ quote querySafe p.2)

/-- A request: method, path, header fields and body. -/
structure Request where
  method : Bytes
  path : Bytes
  fields : List (Bytes × Bytes)
  body : Bytes
  deriving DecidableEq

/-- `serialize_request` (protocols.py:274-308). -/
def serializeRequest (st : Settings F D T) (operation version : Bytes) (input : Call F D T) :
    Except QErr Request :=
  match write st [] [] input with
  | .error err => .error err
  | .ok params =>
    let body := flush (some operation) (some version) params
    .ok { method := asc "POST", path := asc "/",
          fields := [(asc "content-type", asc "application/x-www-form-urlencoded"),
                     (asc "content-length", bytes (natText body.length))],
          body := body }

/-! ## Specification -/

/-- The name a value is written under: its `@xmlName`, if it has one. -/
def named (xmlName : Option Bytes) (default : Bytes) : Bytes := xmlName.getD default

/-- A decimal number. -/
def decimal (n : Nat) : Bytes := (Nat.toDigits 10 n).map fun c => UInt8.ofNat c.toNat

/-- The text of a scalar. -/
def scalarText (st : Settings F D T) : Call F D T → Option Bytes
  | .boolean true => some (asc "true")
  | .boolean false => some (asc "false")
  | .integer n => some (if n < 0 then ch '-' :: decimal n.natAbs else decimal n.natAbs)
  | .float x => some (st.float x)
  | .bigDecimal x => some (st.decimal x)
  | .string s => some s
  | .blob bs => some ((Base64.encode bs).map ch)
  | .timestamp (some f) t => some (st.stamp f t)
  | .timestamp none t => some (st.stamp st.defaultFormat t)
  | _ => none

/-- A scalar, or the empty text that stands for an empty list, is at this path of names and numbers. -/
inductive At (st : Settings F D T) : Call F D T → List Bytes → Bytes → Prop
  | scalar {c v} : scalarText st c = some v → At st c [] v
  | empty {flattened item} : At st (.list flattened item []) [] []
  | member {ms m c p v} : (m, c) ∈ ms → At st c p v → At st (.struct ms) (named m.xmlName m.name :: p) v
  | flatElement {item es i c p v} : es[i]? = some c → At st c p v →
      At st (.list true item es) (decimal (i + 1) :: p) v
  | element {item es i c p v} : es[i]? = some c → At st c p v →
      At st (.list false item es) (named item (asc "member") :: decimal (i + 1) :: p) v
  | flatKey {kn vn es i k c} : es[i]? = some (k, c) →
      At st (.map true kn vn es) [decimal (i + 1), named kn (asc "key")] k
  | flatValue {kn vn es i k c p v} : es[i]? = some (k, c) → At st c p v →
      At st (.map true kn vn es) (decimal (i + 1) :: named vn (asc "value") :: p) v
  | key {kn vn es i k c} : es[i]? = some (k, c) →
      At st (.map false kn vn es) [asc "entry", decimal (i + 1), named kn (asc "key")] k
  | value {kn vn es i k c p v} : es[i]? = some (k, c) → At st c p v →
      At st (.map false kn vn es) (asc "entry" :: decimal (i + 1) :: named vn (asc "value") :: p) v

/-- Names without dots. -/
def Plain (n : Bytes) : Prop := ch '.' ∉ n

mutual
/-- The names of the members of a structure differ, as do those of key and value of a map, names have no
dots, and there are no documents. -/
def Call.Ok : Call F D T → Prop
  | .struct ms => (ms.map fun e => named e.1.xmlName e.1.name).Nodup ∧ MembersOk ms
  | .list _ item es => Plain (named item (asc "member")) ∧ ElementsOk es
  | .map _ kn vn es => Plain (named kn (asc "key")) ∧ Plain (named vn (asc "value")) ∧
      named kn (asc "key") ≠ named vn (asc "value") ∧ EntriesOk es
  | .document => False
  | _ => True
termination_by structural c => c
def MembersOk : List (Member × Call F D T) → Prop
  | [] => True
  | (m, c) :: ms => Plain (named m.xmlName m.name) ∧ c.Ok ∧ MembersOk ms
def ElementsOk : List (Call F D T) → Prop
  | [] => True
  | c :: cs => c.Ok ∧ ElementsOk cs
def EntriesOk : List (Bytes × Call F D T) → Prop
  | [] => True
  | (_, c) :: es => c.Ok ∧ EntriesOk es
end

end

end Verif.AwsQuery

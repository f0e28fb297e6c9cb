import Verif.Json.ReadProps

/-!
# Generated serializers and deserializers, for values of any depth: model and specification (C119, C120)

A generated client has a class for each structure and each member of a union, and two functions for each list and map
(codegen/core/src/main/java/software/amazon/smithy/python/codegen/generators: StructureGenerator.java, UnionGenerator.java,
ListGenerator.java, MapGenerator.java).  How the value of a member is written and read is decided by
MemberSerializerGenerator.java and MemberDeserializerGenerator.java.  This models what the code that they write does with
values of Python of any depth, over a model of a service whose shapes may refer to each other in cycles.  A serializer is the
tree of the calls that are made on it; the deserializer is that for JSON (smithy_json/_private/deserializers.py), whose
methods are those of `Verif.Json`.

Structures that are errors are in `Verif.Generated` (C100-C102), as are the values of defaults and corrections, which are
given here.
-/

set_option autoImplicit false

namespace Verif.GeneratedSerde

open Verif.Json (Text Format Plain Ev Event)
open Verif.Scalars.Strict (Num)

/-! ## Values and models of services -/

/-- Values of Python: floats are of type `F`, and `datetime`s of type `T`.  Simplified: the keys of a dict are texts, though
they may be members of an enum, which equal their texts (C95). -/
inductive Py (F T : Type) where
  | none
  | bool (b : Bool)
  | int (n : Int)
  | float (x : Num F)
  | decimal (x : Num Json.Dec)
  | str (t : Text)
  | bytes (bs : List Base64.Byte)
  | time (t : T)
  | document (p : Plain)
  /-- an instance of the class of an enum; it may be one that is not known, see C95 -/
  | strEnum (cls : Nat) (value : Text)
  | intEnum (cls : Nat) (value : Int)
  | list (xs : List (Py F T))
  | dict (es : List (Text × Py F T))
  /-- an instance of the class of a structure, with its attributes -/
  | object (cls : Nat) (fields : List (Text × Py F T))
  /-- an instance of the class of a member of a union, by the place of the member -/
  | variant (cls : Nat) (member : Nat) (value : Py F T)
  /-- an instance of the class for unknown members of a union -/
  | unknown (cls : Nat) (tag : Text)

variable {F T : Type}

/-- `v is None` -/
def Py.isNone : Py F T → Bool
  | .none => true
  | _ => false

/-- Shapes that neither refer to others nor have classes. -/
inductive Simple where
  | boolean | byte | short | integer | long | bigInteger | float | double | bigDecimal | string | blob | document
  deriving DecidableEq, Repr

/-- A member of a structure or a union: its name in the model, the name of the attribute (for structures), the trait
`jsonName`, its target, its own trait `timestampFormat`, whether it may be null for a client
(`NullableIndex.isMemberNullable` of the Smithy library), and the value of the trait `default`. -/
structure Member (F T : Type) where
  name : Text
  attr : Text
  jsonName : Option Text
  target : Nat
  format : Option Format
  nullable : Bool
  default : Option (Py F T)

/-- The member of a list, or the value of a map. -/
structure Element where
  target : Nat
  format : Option Format

/-- Shapes refer to each other by their place in the model. -/
inductive Shape (F T : Type) where
  | simple (t : Simple)
  | timestamp (format : Option Format)
  /-- a blob with the trait `streaming` -/
  | stream
  | enum
  | intEnum
  | list (sparse : Bool) (member : Element)
  | map (sparse : Bool) (value : Element)
  | struct (members : List (Member F T))
  | union (streaming : Bool) (members : List (Member F T))

/-- A model of a service, and the values for required members that a service does not send (C100), by their targets. -/
structure Model (F T : Type) where
  shapes : List (Shape F T)
  correction : Nat → Option (Py F T)

def Model.shape (m : Model F T) (id : Nat) : Option (Shape F T) := m.shapes[id]?

/-- The members of a structure or union. -/
def Model.members (m : Model F T) (id : Nat) : List (Member F T) :=
  match m.shape id with
  | some (.struct ms) => ms
  | some (.union _ ms) => ms
  | _ => []

/-! ## Schemas -/

/-- A schema: that of a shape, or that of a member of a shape.  What generated schemas have is C106. -/
inductive Ref where
  | shape (id : Nat)
  | member (id : Nat) (name : Text)
  deriving DecidableEq, Repr

/-- "member" and "value" -/
def memberName : Text := ['m', 'e', 'm', 'b', 'e', 'r']
def valueName : Text := ['v', 'a', 'l', 'u', 'e']

/-- The shape that a schema is for: for that of a member, its target. -/
def Model.target (m : Model F T) : Ref → Option Nat
  | .shape id => some id
  | .member id name => match m.shape id with
    | some (.list _ e) => if name = memberName then some e.target else none
    | some (.map _ e) => if name = valueName then some e.target else none
    | some (.struct ms) => (ms.find? fun x => x.name = name).map (·.target)
    | some (.union _ ms) => (ms.find? fun x => x.name = name).map (·.target)
    | _ => none

/-- The trait `timestampFormat` on a member itself. -/
def Model.ownFormat (m : Model F T) : Ref → Option Format
  | .shape _ => none
  | .member id name => match m.shape id with
    | some (.list _ e) => e.format
    | some (.map _ e) => e.format
    | some (.struct ms) => (ms.find? fun x => x.name = name).bind (·.format)
    | some (.union _ ms) => (ms.find? fun x => x.name = name).bind (·.format)
    | _ => none

/-- `schema.get_trait(TimestampFormatTrait)`: that of the member goes before that of its target. -/
def Model.format (m : Model F T) (s : Ref) : Option Format :=
  (m.ownFormat s).or (match (m.target s).bind m.shape with
    | some (.timestamp f) => f
    | _ => none)

/-- The schemas in `schema.members` for a structure or union, with what the JSON codec looks at. -/
def Model.schemas (m : Model F T) (id : Nat) : List (Json.Member × Ref) :=
  (m.members id).map fun x => (⟨x.name, x.jsonName⟩, .member id x.name)

/-- `schema.members[name]` for the names that generated functions for lists and maps ask for. -/
def Model.subschema (m : Model F T) (s : Ref) (name : Text) : Option Ref :=
  match m.target s with
  | none => none
  | some id => match m.shape id with
    | some (.list _ _) => if name = memberName then some (.member id name) else none
    | some (.map _ _) => if name = valueName then some (.member id name) else none
    | _ => none

/-- What the JSON deserializer asks of a schema. -/
def Model.view (m : Model F T) (s : Ref) : Json.View Ref :=
  match m.target s with
  | none => .boolean
  | some id => match m.shape id with
    | none => .boolean
    | some (.simple .boolean) => .boolean
    | some (.simple .byte) | some (.simple .short) | some (.simple .integer) | some (.simple .long)
    | some (.simple .bigInteger) | some .intEnum => .integer
    | some (.simple .float) | some (.simple .double) => .float
    | some (.simple .bigDecimal) => .bigDecimal
    | some (.simple .string) | some .enum => .string
    | some (.simple .blob) | some .stream => .blob
    | some (.simple .document) => .document
    | some (.timestamp _) => .timestamp (m.format s)
    | some (.list sparse _) => .list sparse (.member id memberName)
    | some (.map sparse _) => .map sparse (.member id valueName)
    | some (.struct _) => .struct (m.schemas id)
    | some (.union _ _) => .union (m.schemas id)

/-! ## Calls on a serializer -/

/-- The methods of `ShapeSerializer` and `ShapeDeserializer` for values without parts: `write_boolean` and `read_boolean`, and
so on (smithy_core/serializers.py:100-220, smithy_core/deserializers.py:72-194). -/
inductive Method where
  | boolean | byte | short | integer | long | bigInteger | float | double | bigDecimal | string | blob | document
  | timestamp | dataStream
  deriving DecidableEq, Repr

/-- `shape.getType().name().toLowerCase(Locale.ENGLISH)` for a simple shape (MemberSerializerGenerator.java:87-89,
MemberDeserializerGenerator.java:78-80). -/
def Simple.method : Simple → Method
  | .boolean => .boolean
  | .byte => .byte
  | .short => .short
  | .integer => .integer
  | .long => .long
  | .bigInteger => .bigInteger
  | .float => .float
  | .double => .double
  | .bigDecimal => .bigDecimal
  | .string => .string
  | .blob => .blob
  | .document => .document

/-- What a program does with a serializer: it writes a value with a schema, or opens a structure, a list or a map, and makes
calls on the serializer for it. -/
inductive Call (F T : Type) where
  | write (method : Method) (schema : Ref) (value : Py F T)
  | null (schema : Ref)
  | struct (schema : Ref) (members : List (Call F T))
  | list (schema : Ref) (size : Nat) (elements : List (Call F T))
  | map (schema : Ref) (size : Nat) (entries : List (Text × Call F T))

/-- The schema that a call is made with. -/
def Call.schema : Call F T → Ref
  | .write _ s _ => s
  | .null s => s
  | .struct s _ => s
  | .list s _ _ => s
  | .map s _ _ => s

inductive Err where
  | attributeError | typeError | keyError
  /-- `SerializationError` -/
  | serialization
  /-- `UnsupportedStreamError`, or what a deserializer raises for a stream -/
  | stream
  /-- an error of the JSON deserializer -/
  | json (e : Json.RErr)
  /-- `RecursionError`: the model's bound on steps -/
  | depth
  /-- not in the code: no such shape -/
  | noShape
  deriving DecidableEq, Repr

def each {A B : Type} (f : A → Except Err B) : List A → Except Err (List B)
  | [] => .ok []
  | x :: xs =>
    match f x with
    | .error e => .error e
    | .ok y =>
      match each f xs with
      | .error e => .error e
      | .ok ys => .ok (y :: ys)

/-! ## Generated serializers -/

/-- The target is a union with the trait `streaming`: an event stream. -/
def Model.isStream (m : Model F T) (x : Member F T) : Bool :=
  match m.shape x.target with
  | some (.union true _) => true
  | _ => false

/-- `isNullable` (StructureGenerator.java:382-388). -/
def Model.mayBeNone (m : Model F T) (x : Member F T) : Bool :=
  x.nullable && !((match m.shape x.target with | some (.simple .document) => true | _ => false) && x.default.isSome)

/-- `serialize_members` (StructureGenerator.java:347-370) of an object with these attributes, for some of its members, where
`call` writes the value of a member (`MemberSerializerGenerator`). -/
def Model.fieldCalls (m : Model F T) (call : Member F T → Py F T → Except Err (Call F T)) (fields : List (Text × Py F T)) :
    List (Member F T) → Except Err (List (Call F T))
  | [] => .ok []
  | x :: xs =>
    if m.isStream x then m.fieldCalls call fields xs
    else
      match fields.lookup x.attr with
      | none => .error .attributeError
      | some v =>
        if m.mayBeNone x && v.isNone then m.fieldCalls call fields xs
        else
          match call x v with
          | .error e => .error e
          | .ok c =>
            match m.fieldCalls call fields xs with
            | .error e => .error e
            | .ok cs => .ok (c :: cs)

/-- What is written for a member with this target (MemberSerializerGenerator.java:109-245), where `s` is the schema that is
written for it (98-107) and `v` the value of the property (67-85): for lists and maps a call of the function for the list
(ListGenerator.java:36-66) or map (MapGenerator.java:36-69), for structures and unions `write_struct`, which calls
`serialize_members` of the value (smithy_core/serializers.py:46-56): that of a structure, of a member of a union
(UnionGenerator.java:83-84) or of an unknown one (129-130).  The number bounds the depth.
Simplified: an object that is not a list (or a dict) is not iterated over. -/
def Model.memberCall (m : Model F T) : Nat → Nat → Ref → Py F T → Except Err (Call F T)
  | 0, _, _, _ => .error .depth
  | n + 1, id, s, v =>
    match m.shape id with
    | none => .error .noShape
    | some (.simple t) => .ok (.write t.method s v)
    | some (.timestamp _) => .ok (.write .timestamp s v)
    | some .stream => .ok (.write .dataStream s v)
    | some .enum => .ok (.write .string s v)
    | some .intEnum => .ok (.write .integer s v)
    | some (.list sparse e) =>
      match v, m.subschema s memberName with
      | .list xs, some ms =>
        match each (fun x => if sparse && x.isNone then .ok (.null ms) else m.memberCall n e.target ms x) xs with
        | .error err => .error err
        | .ok cs => .ok (.list s xs.length cs)
      | .list _, none => .error .keyError
      | _, _ => .error .typeError
    | some (.map sparse e) =>
      match v, m.subschema s valueName with
      | .dict es, some vs =>
        match each (fun x => if sparse && x.isNone then .ok (.null vs) else m.memberCall n e.target vs x) (es.map (·.2)) with
        | .error err => .error err
        | .ok cs => .ok (.map s es.length ((es.map (·.1)).zip cs))
      | .dict _, none => .error .keyError
      | _, _ => .error .attributeError
    | some (.struct _) | some (.union _ _) =>
      match v with
      | .object cls fields =>
        match m.shape cls with
        | some (.struct ms) =>
          match m.fieldCalls (fun x w => m.memberCall n x.target (.member cls x.name) w) fields ms with
          | .error err => .error err
          | .ok cs => .ok (.struct s cs)
        | _ => .error .noShape
      | .variant cls i w =>
        match (m.members cls)[i]? with
        | none => .error .noShape
        | some x =>
          match m.memberCall n x.target (.member cls x.name) w with
          | .error err => .error err
          | .ok c => .ok (.struct s [c])
      | .unknown _ _ => .error .serialization
      | _ => .error .attributeError

/-- `value.serialize(serializer)` (StructureGenerator.java:342-343, UnionGenerator.java:80-81 and 126-127): `write_struct` with
the schema of the class. -/
def Model.serialize (m : Model F T) (n : Nat) (v : Py F T) : Except Err (Call F T) :=
  match v with
  | .object cls _ => m.memberCall n cls (.shape cls) v
  | .variant cls _ _ => m.memberCall n cls (.shape cls) v
  | .unknown _ _ => .error .serialization
  | _ => .error .attributeError

/-! ## The calls on the JSON serializer -/

/-- What the JSON serializer (`Verif.Json.write`) is given by a call with this method.  `write_byte` and the like are
`write_integer`, and `write_double` is `write_float` (smithy_core/serializers.py:108-162).  An instance of an enum is a `str` or
an `int` (serializers.py:297-304 of smithy_json).  Simplified: values that the methods are not meant for, some of which would be
written, are not. -/
def Model.writeJson (m : Model F T) (s : Ref) : Method → Py F T → Option (Json.Call F T)
  | .boolean, .bool b => some (.boolean b)
  | .byte, .int n | .short, .int n | .integer, .int n | .long, .int n | .bigInteger, .int n => some (.integer n)
  | .integer, .intEnum _ n => some (.integer n)
  | .float, .float x | .double, .float x => some (.float x)
  | .bigDecimal, .decimal x => some (.bigDecimal x)
  | .string, .str t | .string, .strEnum _ t => some (.string t)
  | .blob, .bytes bs => some (.blob bs)
  | .timestamp, .time t => some (.timestamp (m.format s) t)
  | .document, .document p => some (Json.docCall p)
  | _, _ => none

/-- What `JSONStructSerializer.before` looks at in the schema of a member (serializers.py:141-152 of smithy_json). -/
def Model.jsonMember (m : Model F T) : Ref → Option Json.Member
  | .shape _ => none
  | .member id name => ((m.members id).find? fun x => x.name = name).map fun x => ⟨x.name, x.jsonName⟩

mutual
/-- The calls as the JSON serializer sees them. -/
def Model.jsonCall (m : Model F T) : Call F T → Option (Json.Call F T)
  | .write method s v => m.writeJson s method v
  | .null _ => some .null
  | .struct _ cs => (m.jsonMembers cs).map .struct
  | .list _ _ cs => (m.jsonElements cs).map .list
  | .map _ _ es => (m.jsonEntries es).map .map
termination_by structural c => c
def Model.jsonMembers (m : Model F T) : List (Call F T) → Option (List (Json.Member × Json.Call F T))
  | [] => some []
  | c :: cs =>
    match m.jsonMember c.schema, m.jsonCall c, m.jsonMembers cs with
    | some x, some y, some r => some ((x, y) :: r)
    | _, _, _ => none
def Model.jsonElements (m : Model F T) : List (Call F T) → Option (List (Json.Call F T))
  | [] => some []
  | c :: cs =>
    match m.jsonCall c, m.jsonElements cs with
    | some y, some r => some (y :: r)
    | _, _ => none
def Model.jsonEntries (m : Model F T) : List (Text × Call F T) → Option (List (Text × Json.Call F T))
  | [] => some []
  | (k, c) :: cs =>
    match m.jsonCall c, m.jsonEntries cs with
    | some y, some r => some ((k, y) :: r)
    | _, _ => none
end

/-! ## Generated deserializers -/

/-- A value that a method of the JSON deserializer returns, as a value of Python. -/
def ofVal : Json.Val F T → Py F T
  | .boolean b => .bool b
  | .integer n => .int n
  | .float x => .float x
  | .bigDecimal x => .decimal x
  | .string t => .str t
  | .blob bs => .bytes bs
  | .timestamp t => .time t
  | .document p => .document p
  | _ => .none

/-- `deserializer.read_…(schema)` for the methods that take one event.  `read_byte` and the like are `read_integer`, and
`read_double` is `read_float` (smithy_core/deserializers.py:88-143). -/
def Model.readMethod (m : Model F T) (rd : Json.Reader Ref F T) (s : Ref) : Method → Ev → Except Json.RErr (Json.Val F T)
  | .boolean, e => Json.readBoolean e
  | .byte, e | .short, e | .integer, e | .long, e | .bigInteger, e => Json.readInteger e
  | .float, e | .double, e => rd.readFloat e
  | .bigDecimal, e => Json.readBigDecimal e
  | .string, e => (Json.readString e).map .string
  | .blob, e => Json.readBlob e
  | .timestamp, e => rd.readTimestamp (m.format s) e
  | .document, _ | .dataStream, _ => .error .token

/-- The same with the event that comes next, and what the generated code makes of the result. -/
def Model.readOne (m : Model F T) (rd : Json.Reader Ref F T) (s : Ref) (method : Method) (wrap : Json.Val F T → Py F T) :
    List Event → Except Err (Py F T × List Event)
  | [] => .error (.json .stop)
  | e :: r =>
    match m.readMethod rd s method e.ev with
    | .error err => .error (.json err)
    | .ok v => .ok (wrap v, r)

/-- `Enum(value)` for a text (MemberDeserializerGenerator.java:188-196), which always gives an instance (C95). -/
def toEnum (cls : Nat) : Json.Val F T → Py F T
  | .string t => .strEnum cls t
  | v => ofVal v

/-- `Enum(value)` for a number (MemberDeserializerGenerator.java:136-144); `True` is 1. -/
def toIntEnum (cls : Nat) : Json.Val F T → Py F T
  | .integer n => .intEnum cls n
  | .boolean b => .intEnum cls (if b then 1 else 0)
  | v => ofVal v

/-- `isRequiredMember` (CodegenUtils.java:140-142). -/
def isRequired (x : Member F T) : Bool := !x.nullable && x.default.isNone

/-- The attributes of a class: the required members first (StructureGenerator.java:180-260), and no event streams
(268-283). -/
def Model.attributes (m : Model F T) (ms : List (Member F T)) : List (Member F T) :=
  (ms.filter fun x => !m.isStream x && isRequired x) ++ (ms.filter fun x => !m.isStream x && !isRequired x)

/-- The value of an attribute of `cls(**kwargs)`, after the corrections of required members that are missing
(StructureGenerator.java:404-421). -/
def Model.argument (m : Model F T) (kwargs : List (Text × Py F T)) (x : Member F T) : Except Err (Text × Py F T) :=
  match kwargs.lookup x.attr with
  | some v => .ok (x.attr, v)
  | none =>
    if isRequired x then
      match m.correction x.target with
      | some v => .ok (x.attr, v)
      | none => .error .typeError
    else .ok (x.attr, x.default.getD .none)

/-- `cls(**kwargs)`. -/
def Model.construct (m : Model F T) (cls : Nat) (ms : List (Member F T)) (kwargs : List (Text × Py F T)) :
    Except Err (Py F T) :=
  match each (m.argument kwargs) (m.attributes ms) with
  | .error e => .error e
  | .ok fields => .ok (.object cls fields)

/-- `schema.expect_member_index()` and the case for it: the member with its place. -/
def findMember (name : Text) : Nat → List (Member F T) → Option (Nat × Member F T)
  | _, [] => none
  | i, x :: xs => if x.name = name then some (i, x) else findMember name (i + 1) xs

mutual
/-- What is written to read a member with this target (MemberDeserializerGenerator.java:102-248) with its schema, on the JSON
deserializer: the value and the events left.  For lists and maps it is a call of the function for the list
(ListGenerator.java:68-100) or map (MapGenerator.java:71-100), for structures `deserialize` of the class
(StructureGenerator.java:403-421), and for unions that of the deserializer of the union (UnionGenerator.java:160-182); these
two do not use the schema of the member, but that of the class.  The number bounds the steps. -/
def Model.read (m : Model F T) (rd : Json.Reader Ref F T) : Nat → Nat → Ref → List Event → Except Err (Py F T × List Event)
  | 0, _, _, _ => .error .depth
  | n + 1, id, s, evs =>
    match m.shape id with
    | none => .error .noShape
    | some (.simple .document) =>
      match Json.readDocument evs with
      | .error e => .error (.json e)
      | .ok x => .ok (.document x.1, x.2)
    | some (.simple t) => m.readOne rd s t.method ofVal evs
    | some (.timestamp _) => m.readOne rd s .timestamp ofVal evs
    | some .stream => .error .stream
    | some .enum => m.readOne rd s .string (toEnum id) evs
    | some .intEnum => m.readOne rd s .integer (toIntEnum id) evs
    | some (.list sparse e) =>
      match m.subschema s memberName with
      | none => .error .keyError
      | some ms =>
        match evs with
        | [] => .error (.json .stop)
        | ev :: r =>
          if ev.ev = .startArray then
            match m.readElements rd n sparse e.target ms [] r with
            | .error err => .error err
            | .ok x => .ok (.list x.1, x.2)
          else .error (.json .token)
    | some (.map sparse e) =>
      match m.subschema s valueName with
      | none => .error .keyError
      | some vs =>
        match evs with
        | [] => .error (.json .stop)
        | ev :: r =>
          if ev.ev = .startMap then
            match m.readEntries rd n sparse e.target vs [] r with
            | .error err => .error err
            | .ok x => .ok (.dict x.1, x.2)
          else .error (.json .token)
    | some (.struct ms) =>
      match evs with
      | [] => .error (.json .stop)
      | ev :: r =>
        if ev.ev = .startMap then
          match m.readMembers rd n id [] r with
          | .error err => .error err
          | .ok x =>
            match m.construct id ms x.1 with
            | .error err => .error err
            | .ok v => .ok (v, x.2)
        else .error (.json .token)
    | some (.union _ _) =>
      match evs with
      | [] => .error (.json .stop)
      | ev :: r =>
        if ev.ev = .startMap then
          match m.readVariant rd n id none r with
          | .error err => .error err
          | .ok (none, _) => .error .serialization
          | .ok (some v, r') => .ok (v, r')
        else .error (.json .token)
/-- `read_struct` (deserializers.py:193-204 of smithy_json) with the `_consumer` of a structure
(StructureGenerator.java:411-415 and 502-519), which has no case for event streams: nothing is read for them. -/
def Model.readMembers (m : Model F T) (rd : Json.Reader Ref F T) : Nat → Nat → List (Text × Py F T) → List Event →
    Except Err (List (Text × Py F T) × List Event)
  | 0, _, _, _ => .error .depth
  | _ + 1, _, _, [] => .error (.json .stop)
  | n + 1, id, kwargs, e :: r =>
    if e.ev = .endMap then .ok (kwargs, r)
    else
      match Json.readString e.ev with
      | .error err => .error (.json err)
      | .ok key =>
        match rd.resolve (m.schemas id) key with
        | none =>
          match Json.skip r with
          | .error err => .error (.json err)
          | .ok r' => m.readMembers rd n id kwargs r'
        | some y =>
          match r with
          | [] => .error (.json .stop)
          | e' :: r' =>
            if e'.ev = .null ∧ (m.view y.2).isDocument = false then m.readMembers rd n id kwargs r'
            else
              match findMember y.1.name 0 (m.members id) with
              | none => .error .noShape
              | some (_, x) =>
                if m.isStream x then m.readMembers rd n id kwargs (e' :: r')
                else
                  match m.read rd n x.target (.member id x.name) (e' :: r') with
                  | .error err => .error err
                  | .ok v => m.readMembers rd n id (Json.put kwargs x.attr v.1) v.2
/-- `read_struct` with the `_consumer` of a union (UnionGenerator.java:173-182 and 192-200), which makes an instance of the class
of the member (86-88). -/
def Model.readVariant (m : Model F T) (rd : Json.Reader Ref F T) : Nat → Nat → Option (Py F T) → List Event →
    Except Err (Option (Py F T) × List Event)
  | 0, _, _, _ => .error .depth
  | _ + 1, _, _, [] => .error (.json .stop)
  | n + 1, id, result, e :: r =>
    if e.ev = .endMap then .ok (result, r)
    else
      match Json.readString e.ev with
      | .error err => .error (.json err)
      | .ok key =>
        match rd.resolve (m.schemas id) key with
        | none =>
          match Json.skip r with
          | .error err => .error (.json err)
          | .ok r' => m.readVariant rd n id result r'
        | some y =>
          match r with
          | [] => .error (.json .stop)
          | e' :: r' =>
            if e'.ev = .null ∧ (m.view y.2).isDocument = false then m.readVariant rd n id result r'
            else
              match findMember y.1.name 0 (m.members id) with
              | none => if result.isSome then .error .serialization
                else m.readVariant rd n id (some (.unknown id y.1.name)) (e' :: r')
              | some (i, x) =>
                match m.read rd n x.target (.member id x.name) (e' :: r') with
                | .error err => .error err
                | .ok v =>
                  if result.isSome then .error .serialization
                  else m.readVariant rd n id (some (.variant id i v.1)) v.2
/-- `read_list` (deserializers.py:232-235 of smithy_json) with `_read_value` (ListGenerator.java:84-89). -/
def Model.readElements (m : Model F T) (rd : Json.Reader Ref F T) : Nat → Bool → Nat → Ref → List (Py F T) → List Event →
    Except Err (List (Py F T) × List Event)
  | 0, _, _, _, _, _ => .error .depth
  | _ + 1, _, _, _, _, [] => .error (.json .stop)
  | n + 1, sparse, id, s, result, e :: r =>
    if e.ev = .endArray then .ok (result, r)
    else if e.ev = .null then m.readElements rd n sparse id s (if sparse then result ++ [.none] else result) r
    else
      match m.read rd n id s (e :: r) with
      | .error err => .error err
      | .ok v => m.readElements rd n sparse id s (result ++ [v.1]) v.2
/-- `read_map` (deserializers.py:246-250 of smithy_json) with `_read_value` (MapGenerator.java:84-89). -/
def Model.readEntries (m : Model F T) (rd : Json.Reader Ref F T) : Nat → Bool → Nat → Ref → List (Text × Py F T) →
    List Event → Except Err (List (Text × Py F T) × List Event)
  | 0, _, _, _, _, _ => .error .depth
  | _ + 1, _, _, _, _, [] => .error (.json .stop)
  | n + 1, sparse, id, s, result, e :: r =>
    if e.ev = .endMap then .ok (result, r)
    else
      match Json.readString e.ev with
      | .error err => .error (.json err)
      | .ok key =>
        match r with
        | [] => .error (.json .stop)
        | e' :: r' =>
          if e'.ev = .null then
            m.readEntries rd n sparse id s (if sparse then Json.put result key .none else result) r'
          else
            match m.read rd n id s (e' :: r') with
            | .error err => .error err
            | .ok v => m.readEntries rd n sparse id s (Json.put result key v.1) v.2
end

/-- `cls.deserialize(deserializer)` for the class of a structure, or that of the deserializer of a union, on the events of a
text.  There are enough steps. -/
def Model.deserialize (m : Model F T) (rd : Json.Reader Ref F T) (cls : Nat) (evs : List Event) : Except Err (Py F T) :=
  (m.read rd (2 * evs.length + 2) cls (.shape cls) evs).map Prod.fst

end Verif.GeneratedSerde

import Verif.GeneratedSerde.Props
import Verif.Xml.RoundTrip
import Verif.RestJson.Answer

/-!
# What callers of AWS Query operations get (C132): model and specification

The generated deserializers (`Verif.GeneratedSerde`) on the XML deserializer (`Verif.Xml`), and
`AwsQueryClientProtocol.deserialize_response` (smithy_aws_core/aio/protocols.py:310-346) with
`create_aws_query_error` (`Verif.Http.Errors`).

Simplified: generated code reads a member when the deserializer comes to it, here it is given what the deserializer read as a
whole; which of two errors is raised is not modelled.  The XML parser is not modelled: the body is an element.
-/

set_option autoImplicit false

namespace Verif.QueryAnswer

open Verif.Json (Text Format Dec)
open Verif.Scalars.Strict (Num)
open Verif.GeneratedSerde (Py Ref Model Shape Simple Member Err memberName valueName findMember)
open Verif.Xml (Val Reader View)

variable {F T : Type}

/-! ## Model -/

/-- The names of shapes, and the XML traits that schemas have: `@xmlName` of a shape; `@xmlName`, `@xmlAttribute` and
`@xmlFlattened` of a member; and the names of the key and value of a map. -/
structure Traits where
  name : Nat → Text
  xmlName : Nat → Option Text
  member : Nat → Text → Option Text × Bool × Bool
  tags : Nat → Text × Text

/-- The names of shapes, and the XML traits that they and members have in the model of the service. -/
structure Own where
  name : Nat → Text
  xmlName : Nat → Option Text
  member : Nat → Text → Option Text × Bool × Bool

def keyName : Text := ['k', 'e', 'y']

/-- The traits that the schema of a member has: its own, and those of its target that it has not itself (smithy_core/schemas.py:262-264).
`@xmlName` is the only one that shapes can have.  Without it a member has its own name (deserializers.py:49-53 of smithy_xml). -/
def Own.schemas (o : Own) (m : Model F T) : Traits where
  name := o.name
  xmlName := o.xmlName
  member := fun id n => ((o.member id n).1.or ((m.target (.member id n)).bind o.xmlName), (o.member id n).2)
  tags := fun id => ((o.member id keyName).1.getD keyName,
    ((o.member id valueName).1.or ((m.target (.member id valueName)).bind o.xmlName)).getD valueName)

/-- The members of a structure or union, as the XML deserializer sees them. -/
def Traits.members (t : Traits) (id : Nat) (ms : List (Member F T)) : List (Xml.Member × Ref) :=
  ms.map fun x => (⟨x.name, (t.member id x.name).1, (t.member id x.name).2.1, (t.member id x.name).2.2⟩, .member id x.name)

/-- What the XML deserializer asks of a schema (deserializers.py:33-53 and 105-330 of smithy_xml).  Structures and unions are read
with the schema of their class. -/
def view (m : Model F T) (t : Traits) (s : Ref) : View Ref :=
  match m.target s with
  | none => .document
  | some id => match m.shape id with
    | none => .document
    | some (.simple .boolean) => .boolean
    | some (.simple .byte) | some (.simple .short) | some (.simple .integer) | some (.simple .long)
    | some (.simple .bigInteger) | some .intEnum => .integer
    | some (.simple .float) | some (.simple .double) => .float
    | some (.simple .bigDecimal) => .bigDecimal
    | some (.simple .string) | some .enum => .string
    | some (.simple .blob) | some .stream => .blob
    | some (.simple .document) => .document
    | some (.timestamp _) => .timestamp (m.format s)
    | some (.list _ _) => .list (.member id memberName)
    | some (.map _ _) => .map (t.tags id).1 (t.tags id).2 (.member id valueName)
    | some (.struct ms) => .struct ⟨false, t.name id, t.xmlName id, t.members id ms⟩
    | some (.union _ ms) => .struct ⟨true, t.name id, t.xmlName id, t.members id ms⟩

mutual
/-- What the generated code makes of what it reads for a member with this target (MemberDeserializerGenerator.java:102-248): an
instance of an enum (136-144, 188-196), a list (ListGenerator.java:68-100) or dict (MapGenerator.java:71-100), an instance of the
class of a structure (StructureGenerator.java:403-421) or of a member of a union (UnionGenerator.java:160-182). -/
def fromVal (m : Model F T) (id : Nat) : Val (Num Dec) F T → Except Err (Py F T)
  | .boolean b => .ok (.bool b)
  | .integer n => match m.shape id with
    | some .intEnum => .ok (.intEnum id n)
    | _ => .ok (.int n)
  | .float x => .ok (.float x)
  | .bigDecimal x => .ok (.decimal x)
  | .string t => match m.shape id with
    | some .enum => .ok (.strEnum id t)
    | _ => .ok (.str t)
  | .blob bs => .ok (.bytes bs)
  | .timestamp t => .ok (.time t)
  | .list vs => match m.shape id with
    | some (.list _ e) =>
      match fromItems m e.target vs with
      | .error err => .error err
      | .ok xs => .ok (.list xs)
    | _ => .error .noShape
  | .map es => match m.shape id with
    | some (.map _ e) =>
      match fromEntries m e.target es with
      | .error err => .error err
      | .ok xs => .ok (.dict xs)
    | _ => .error .noShape
  | .struct kv => match m.shape id with
    | some (.struct ms) =>
      match fromMembers m ms kv with
      | .error err => .error err
      | .ok kwargs => m.construct id ms kwargs
    | _ => .error .noShape
  | .union k v => match m.shape id with
    | some (.union _ ms) =>
      match findMember k 0 ms with
      | none => .error .noShape
      | some (i, x) =>
        match fromVal m x.target v with
        | .error err => .error err
        | .ok v' => .ok (.variant id i v')
    | _ => .error .noShape
termination_by structural v => v
def fromItems (m : Model F T) (id : Nat) : List (Val (Num Dec) F T) → Except Err (List (Py F T))
  | [] => .ok []
  | v :: r =>
    match fromVal m id v with
    | .error err => .error err
    | .ok x =>
      match fromItems m id r with
      | .error err => .error err
      | .ok xs => .ok (x :: xs)
def fromEntries (m : Model F T) (id : Nat) : List (Text × Val (Num Dec) F T) → Except Err (List (Text × Py F T))
  | [] => .ok []
  | (k, v) :: r =>
    match fromVal m id v with
    | .error err => .error err
    | .ok x =>
      match fromEntries m id r with
      | .error err => .error err
      | .ok xs => .ok ((k, x) :: xs)
/-- `kwargs` (StructureGenerator.java:502-519). -/
def fromMembers (m : Model F T) (ms : List (Member F T)) : List (Text × Val (Num Dec) F T) → Except Err (List (Text × Py F T))
  | [] => .ok []
  | (k, v) :: r =>
    match findMember k 0 ms with
    | none => .error .noShape
    | some (_, x) =>
      match fromVal m x.target v with
      | .error err => .error err
      | .ok y =>
        match fromMembers m ms r with
        | .error err => .error err
        | .ok ys => .ok ((x.attr, y) :: ys)
end

/-- Errors of reading. -/
inductive QErr where
  | xml (e : Xml.XErr)
  | serde (e : Err)

/-- `shape.deserialize(XMLShapeDeserializer(..., wrapper_elements=...))`. -/
def receive (m : Model F T) (rd : Reader Ref (Num Dec) F T) (wrappers : List Text) (cls : Nat) (body : Xml.Elem) : Except QErr (Py F T) :=
  match rd.run wrappers (.shape cls) (Xml.events body) with
  | .error e => .error (.xml e)
  | .ok x =>
    match fromVal m cls x with
    | .error e => .error (.serde e)
    | .ok v => .ok v

mutual
/-- The element, as the function that looks for the code of an error sees it (`Element.text` is `None` where there is no text). -/
def plain : Xml.Elem → Http.Errors.Elem
  | .mk h cs => .mk h.tag (if h.text = [] then none else some h.text) (plains cs)
termination_by structural e => e
def plains : List Xml.Elem → List Http.Errors.Elem
  | [] => []
  | c :: cs => plain c :: plains cs
end

/-- What the call ends with. -/
inductive Outcome (F T D : Type) where
  | output (v : Py F T)
  | raised (e : Http.Errors.CallError (Py F T) D)

/-- `_response_wrapper_elements` (smithy_aws_core/aio/protocols.py:382-394). -/
def responseWrappers (name : Text) (ms : List (Member F T)) : List Text :=
  if ms.isEmpty then [name ++ "Response".toList] else [name ++ "Response".toList, name ++ "Result".toList]

/-- `deserialize_response` (smithy_aws_core/aio/protocols.py:310-346) for a body that is not empty; `name` is the name of the
operation, `out` the class of its output, and `registry` has the numbers of the classes of errors. -/
def answer {D : Type} (m : Model F T) (rd : Reader Ref (Num Dec) F T) (ns name : Text) (op : Http.Errors.Operation)
    (registry : Shapes.Registry Nat) (out : Nat) (delay : Option D) (status : Nat) (body : Xml.Elem) :
    Except (Http.Errors.Failure QErr) (Outcome F T D) :=
  if 200 ≤ status ∧ status < 300 then
    match receive m rd (responseWrappers name (m.members out)) out body with
    | .error e => .error (.codec e)
    | .ok v => .ok (.output v)
  else
    match Http.Errors.queryError ns op (registry.map fun cls => ⟨true, match receive m rd Http.Errors.errorWrappers cls body with
      | .error e => .error e
      | .ok v => .ok ⟨v, none⟩⟩) (some (plain body)) status delay with
    | .error e => .error e
    | .ok e => .ok (.raised e)

/-! ## Specification -/

/-- What a value of Python is in XML: the members that have a value, in any order; those that may be null and have no default may
be left out. -/
inductive Says (m : Model F T) : Nat → Py F T → Val (Num Dec) F T → Prop
  | boolean {id : Nat} {b : Bool} : m.shape id = some (.simple .boolean) → Says m id (.bool b) (.boolean b)
  | integer {id : Nat} {n : Int} {t : Simple} : m.shape id = some (.simple t) →
      t = .byte ∨ t = .short ∨ t = .integer ∨ t = .long ∨ t = .bigInteger → Says m id (.int n) (.integer n)
  | intEnum {id : Nat} {n : Int} : m.shape id = some .intEnum → Says m id (.intEnum id n) (.integer n)
  | float {id : Nat} {x : Num F} {t : Simple} : m.shape id = some (.simple t) → t = .float ∨ t = .double →
      Says m id (.float x) (.float x)
  | decimal {id : Nat} {d d' : Dec} : m.shape id = some (.simple .bigDecimal) → d'.value = d.value →
      Says m id (.decimal (.finite d)) (.bigDecimal (.finite d'))
  | special {id : Nat} {x : Num Dec} : m.shape id = some (.simple .bigDecimal) → (∀ d, x ≠ .finite d) →
      Says m id (.decimal x) (.bigDecimal x)
  | string {id : Nat} {t : Text} : m.shape id = some (.simple .string) → Says m id (.str t) (.string t)
  | enum {id : Nat} {t : Text} : m.shape id = some .enum → Says m id (.strEnum id t) (.string t)
  | blob {id : Nat} {bs : List Base64.Byte} : m.shape id = some (.simple .blob) → Says m id (.bytes bs) (.blob bs)
  | timestamp {id : Nat} {f : Option Format} {t : T} : m.shape id = some (.timestamp f) → Says m id (.time t) (.timestamp t)
  | list {id : Nat} {sparse : Bool} {e : GeneratedSerde.Element} {xs : List (Py F T)} {vs : List (Val (Num Dec) F T)} :
      m.shape id = some (.list sparse e) → xs.length = vs.length →
      (∀ (i : Nat) x v, xs[i]? = some x → vs[i]? = some v → Says m e.target x v) → Says m id (.list xs) (.list vs)
  | map {id : Nat} {sparse : Bool} {e : GeneratedSerde.Element} {xs : List (Text × Py F T)} {vs : List (Text × Val (Num Dec) F T)} :
      m.shape id = some (.map sparse e) → xs.map Prod.fst = vs.map Prod.fst →
      (∀ (i : Nat) x v, xs[i]? = some x → vs[i]? = some v → Says m e.target x.2 v.2) → Says m id (.dict xs) (.map vs)
  | object {id : Nat} {ms : List (Member F T)} {value : Member F T → Py F T} {written : Member F T → Option (Val (Num Dec) F T)}
      {kv : List (Text × Val (Num Dec) F T)} : m.shape id = some (.struct ms) → (∀ x ∈ ms, m.isStream x = false) →
      (∀ x ∈ ms, ∀ v, written x = some v → Says m x.target (value x) v) →
      (∀ x ∈ ms, written x = none → value x = .none ∧ x.nullable = true ∧ (x.default = none ∨ x.default = some .none)) →
      (∀ x ∈ ms, ∀ v, (x.name, v) ∈ kv ↔ written x = some v) →
      Says m id (.object id ((m.attributes ms).map fun x => (x.attr, value x))) (.struct kv)
  | variant {id : Nat} {streaming : Bool} {ms : List (Member F T)} {i : Nat} {x : Member F T} {v : Py F T} {u : Val (Num Dec) F T} :
      m.shape id = some (.union streaming ms) → ms[i]? = some x → Says m x.target v u → Says m id (.variant id i v) (.union x.name u)

/-- The names in XML: `@xmlName` of a member is the name of its element, and without it the member's own name is.  That of a structure
is the name of the outermost element. -/
def Own.modelled (o : Own) : Traits where
  name := o.name
  xmlName := o.xmlName
  member := o.member
  tags := fun id => ((o.member id "key".toList).1.getD "key".toList, (o.member id "value".toList).1.getD "value".toList)

/-- No member has a target with `@xmlName`, unless it has `@xmlName` too. -/
def Own.Apart (o : Own) (m : Model F T) : Prop :=
  ∀ id n target x, m.target (.member id n) = some target → o.xmlName target = some x → (o.member id n).1 ≠ none

/-- Members of structures and unions have different names, and the attributes of classes too. -/
structure NamesOk (m : Model F T) : Prop where
  names : ∀ id, ((m.members id).map (·.name)).Nodup
  attrs : ∀ id ms, m.shape id = some (.struct ms) → (ms.map (·.attr)).Nodup

end Verif.QueryAnswer

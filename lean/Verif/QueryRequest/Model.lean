import Verif.QueryAnswer.Model
import Verif.AwsQuery.RoundTrip
import Verif.RestJson.Url

/-!
# What services get from callers of AWS Query operations (C133): model and specification

The generated serializers (`Verif.GeneratedSerde`) on the serializer of AWS Query (`Verif.AwsQuery`), in
`AwsQueryClientProtocol.serialize_request` (smithy_aws_core/aio/protocols.py:274-308).
-/

set_option autoImplicit false

namespace Verif.QueryRequest

open Verif.Json (Text Format Dec)
open Verif.Scalars.Strict (Num)
open Verif.Uri (Bytes)
open Verif.GeneratedSerde (Py Ref Model Shape Simple Member Method Err memberName valueName)
open Verif.QueryAnswer (Own keyName NamesOk)
open Verif.Http.RestJson (utf8)
open Verif.AwsQuery.RoundTrip (Structures Texts shows)

variable {F T : Type}

/-! ## Model -/

/-- Calls on the serializer of AWS Query. -/
abbrev QCall (F T : Type) := AwsQuery.Call (Num F) (Num Dec) T

/-- What the serializer is given by a call with this method.  `write_byte` and the like are `write_integer`, and `write_double` is
`write_float` (smithy_core/serializers.py:108-162).  An instance of an enum is a `str` or an `int`.  Texts are encoded when the body is
(`quote`, serializers.py:27-29 of query).  Simplified: values that the methods are not meant for, some of which would be written, are
not. -/
def writeQuery (m : Model F T) (s : Ref) : Method → Py F T → Option (QCall F T)
  | .boolean, .bool b => some (.boolean b)
  | .byte, .int n | .short, .int n | .integer, .int n | .long, .int n | .bigInteger, .int n => some (.integer n)
  | .integer, .intEnum _ n => some (.integer n)
  | .float, .float x | .double, .float x => some (.float x)
  | .bigDecimal, .decimal x => some (.bigDecimal x)
  | .string, .str t | .string, .strEnum _ t => some (.string (utf8 t))
  | .blob, .bytes bs => some (.blob bs)
  | .timestamp, .time t => some (.timestamp (m.format s) t)
  | .document, .document _ => some .document
  | _, _ => none

/-- `@xmlName` in a schema (serializers.py:32-36). -/
def xmlName (o : Own) (m : Model F T) : Ref → Option Bytes
  | .shape id => (o.xmlName id).map utf8
  | .member id n => ((o.schemas m).member id n).1.map utf8

/-- `@xmlFlattened` in a schema (serializers.py:39-41). -/
def flattened (o : Own) : Ref → Bool
  | .shape _ => false
  | .member id n => (o.member id n).2.2

/-- What `QueryStructSerializer.before` looks at (serializers.py:168-169). -/
def queryMember (o : Own) (m : Model F T) : Ref → Option AwsQuery.Member
  | .shape _ => none
  | .member id n => some ⟨utf8 n, xmlName o m (.member id n)⟩

/-- `@xmlName` of a member of the schema of a list or map (serializers.py:185 and 220-221). -/
def memberXmlName (o : Own) (m : Model F T) (s : Ref) (name : Text) : Option Bytes :=
  (m.target s).bind fun id => xmlName o m (.member id name)

mutual
/-- The calls as the serializer sees them. -/
def queryCall (o : Own) (m : Model F T) : GeneratedSerde.Call F T → Option (QCall F T)
  | .write method s v => writeQuery m s method v
  | .null _ => some .null
  | .struct _ cs => (queryMembers o m cs).map .struct
  | .list s _ cs => (queryElements o m cs).map (.list (flattened o s) (memberXmlName o m s memberName))
  | .map s _ es => (queryEntries o m es).map
      (.map (flattened o s) (memberXmlName o m s keyName) (memberXmlName o m s valueName))
termination_by structural c => c
def queryMembers (o : Own) (m : Model F T) : List (GeneratedSerde.Call F T) → Option (List (AwsQuery.Member × QCall F T))
  | [] => some []
  | c :: cs =>
    match queryMember o m c.schema, queryCall o m c, queryMembers o m cs with
    | some x, some y, some r => some ((x, y) :: r)
    | _, _, _ => none
def queryElements (o : Own) (m : Model F T) : List (GeneratedSerde.Call F T) → Option (List (QCall F T))
  | [] => some []
  | c :: cs =>
    match queryCall o m c, queryElements o m cs with
    | some y, some r => some (y :: r)
    | _, _ => none
def queryEntries (o : Own) (m : Model F T) : List (Text × GeneratedSerde.Call F T) → Option (List (Bytes × QCall F T))
  | [] => some []
  | (k, c) :: cs =>
    match queryCall o m c, queryEntries o m cs with
    | some y, some r => some ((utf8 k, y) :: r)
    | _, _ => none
end

inductive RErr where
  | serde (e : Err)
  | query (e : AwsQuery.QErr)
  /-- not in the code: a value that the model does not write -/
  | value

/-- `serialize_request` (smithy_aws_core/aio/protocols.py:274-308) of an operation with this input.  The number bounds the depth. -/
def request (o : Own) (m : Model F T) (st : AwsQuery.Settings (Num F) (Num Dec) T) (n : Nat) (operation version : Text)
    (input : Py F T) : Except RErr AwsQuery.Request :=
  match m.serialize n input with
  | .error e => .error (.serde e)
  | .ok call =>
    match queryCall o m call with
    | none => .error .value
    | some c =>
      match AwsQuery.serializeRequest st (utf8 operation) (utf8 version) c with
      | .error e => .error (.query e)
      | .ok r => .ok r

/-! ## Specification -/

/-- The name of a member, and its `@xmlName`, in the model of the service. -/
def nameOf (o : Own) (id : Nat) (n : Text) : AwsQuery.Member := ⟨utf8 n, (o.member id n).1.map utf8⟩

/-- A list or map is flattened if the member with it has the trait. -/
def isFlat (o : Own) : Ref → Bool
  | .shape _ => false
  | .member id n => (o.member id n).2.2

/-- What a value of Python is to the service: enums are texts or numbers, and of a structure there are the members with a value, in the
order of the model.  Values have something to write: no empty structures or maps in others, no nulls in lists; and texts of floats,
decimals and times are such that the service reads them. -/
inductive Says (o : Own) (m : Model F T) (st : AwsQuery.Settings (Num F) (Num Dec) T) (tx : Texts (Num F) (Num Dec) T) :
    Nat → Ref → Py F T → QCall F T → Prop
  | boolean {id : Nat} {s : Ref} {b : Bool} : m.shape id = some (.simple .boolean) → Says o m st tx id s (.bool b) (.boolean b)
  | integer {id : Nat} {s : Ref} {n : Int} {t : Simple} : m.shape id = some (.simple t) →
      t = .byte ∨ t = .short ∨ t = .integer ∨ t = .long ∨ t = .bigInteger → Says o m st tx id s (.int n) (.integer n)
  | intEnum {id : Nat} {s : Ref} {n : Int} : m.shape id = some .intEnum → Says o m st tx id s (.intEnum id n) (.integer n)
  | float {id : Nat} {s : Ref} {x : Num F} {t : Simple} : m.shape id = some (.simple t) → t = .float ∨ t = .double →
      tx.float (st.float x) = some x → Says o m st tx id s (.float x) (.float x)
  | decimal {id : Nat} {s : Ref} {x : Num Dec} : m.shape id = some (.simple .bigDecimal) → tx.decimal (st.decimal x) = some x →
      Says o m st tx id s (.decimal x) (.bigDecimal x)
  | string {id : Nat} {s : Ref} {t : Text} : m.shape id = some (.simple .string) → Says o m st tx id s (.str t) (.string (utf8 t))
  | enum {id : Nat} {s : Ref} {t : Text} : m.shape id = some .enum → Says o m st tx id s (.strEnum id t) (.string (utf8 t))
  | blob {id : Nat} {s : Ref} {bs : List Base64.Byte} : m.shape id = some (.simple .blob) → Says o m st tx id s (.bytes bs) (.blob bs)
  | timestamp {id : Nat} {s : Ref} {f : Option Format} {t : T} : m.shape id = some (.timestamp f) →
      tx.stamp ((m.format s).getD st.defaultFormat) (st.stamp ((m.format s).getD st.defaultFormat) t) = some t →
      Says o m st tx id s (.time t) (.timestamp (m.format s) t)
  | list {id : Nat} {s : Ref} {sparse : Bool} {e : GeneratedSerde.Element} {xs : List (Py F T)} {cs : List (QCall F T)} :
      m.shape id = some (.list sparse e) → xs.length = cs.length →
      (∀ (i : Nat) x c, xs[i]? = some x → cs[i]? = some c → Says o m st tx e.target (.member id "member".toList) x c) →
      (∀ c ∈ cs, shows c = true) →
      Says o m st tx id s (.list xs) (.list (isFlat o s) (nameOf o id "member".toList).xmlName cs)
  | map {id : Nat} {s : Ref} {sparse : Bool} {e : GeneratedSerde.Element} {xs : List (Text × Py F T)} {cs : List (Bytes × QCall F T)} :
      m.shape id = some (.map sparse e) → xs.map (fun x => utf8 x.1) = cs.map Prod.fst →
      (∀ (i : Nat) x c, xs[i]? = some x → cs[i]? = some c → c.2 = .null → sparse = true ∧ x.2 = .none) →
      (∀ (i : Nat) x c, xs[i]? = some x → cs[i]? = some c → c.2 ≠ .null →
        Says o m st tx e.target (.member id "value".toList) x.2 c.2) →
      (∀ c ∈ cs, c.2 ≠ .null → shows c.2 = true) →
      Says o m st tx id s (.dict xs)
        (.map (isFlat o s) (nameOf o id "key".toList).xmlName (nameOf o id "value".toList).xmlName cs)
  | object {id : Nat} {s : Ref} {ms : List (Member F T)} {value : Member F T → Py F T} {written : Member F T → Option (QCall F T)} :
      m.shape id = some (.struct ms) → (∀ x ∈ ms, m.isStream x = false) →
      (∀ x ∈ ms, ∀ c, written x = some c → Says o m st tx x.target (.member id x.name) (value x) c) →
      (∀ x ∈ ms, ∀ c, written x = some c → shows c = true) →
      (∀ x ∈ ms, written x = none → value x = .none ∧ x.nullable = true ∧
        (x.default = none ∨ m.shape x.target ≠ some (.simple .document))) →
      Says o m st tx id s (.object id ((m.attributes ms).map fun x => (x.attr, value x)))
        (.struct (ms.filterMap fun x => (written x).map fun c => (nameOf o id x.name, c)))
  | variant {id : Nat} {s : Ref} {streaming : Bool} {ms : List (Member F T)} {i : Nat} {x : Member F T} {v : Py F T} {c : QCall F T} :
      m.shape id = some (.union streaming ms) → ms[i]? = some x → Says o m st tx x.target (.member id x.name) v c → shows c = true →
      Says o m st tx id s (.variant id i v) (.struct [(nameOf o id x.name, c)])

/-- The shape of a member, as the service sees it. -/
inductive ShapeFor (o : Own) (m : Model F T) : Ref → AwsQuery.RoundTrip.Shape Nat → Prop
  | boolean {s : Ref} {id : Nat} : m.target s = some id → m.shape id = some (.simple .boolean) → ShapeFor o m s .boolean
  | integer {s : Ref} {id : Nat} {t : Simple} : m.target s = some id → m.shape id = some (.simple t) →
      t = .byte ∨ t = .short ∨ t = .integer ∨ t = .long ∨ t = .bigInteger → ShapeFor o m s .integer
  | intEnum {s : Ref} {id : Nat} : m.target s = some id → m.shape id = some .intEnum → ShapeFor o m s .integer
  | float {s : Ref} {id : Nat} {t : Simple} : m.target s = some id → m.shape id = some (.simple t) → t = .float ∨ t = .double →
      ShapeFor o m s .float
  | decimal {s : Ref} {id : Nat} : m.target s = some id → m.shape id = some (.simple .bigDecimal) → ShapeFor o m s .bigDecimal
  | string {s : Ref} {id : Nat} : m.target s = some id → m.shape id = some (.simple .string) → ShapeFor o m s .string
  | enum {s : Ref} {id : Nat} : m.target s = some id → m.shape id = some .enum → ShapeFor o m s .string
  | blob {s : Ref} {id : Nat} : m.target s = some id → m.shape id = some (.simple .blob) → ShapeFor o m s .blob
  | timestamp {s : Ref} {id : Nat} {f : Option Format} : m.target s = some id → m.shape id = some (.timestamp f) →
      ShapeFor o m s (.timestamp (m.format s))
  | list {s : Ref} {id : Nat} {sparse : Bool} {e : GeneratedSerde.Element} {t : AwsQuery.RoundTrip.Shape Nat} : m.target s = some id →
      m.shape id = some (.list sparse e) → ShapeFor o m (.member id "member".toList) t →
      ShapeFor o m s (.list (isFlat o s) (nameOf o id "member".toList).xmlName t)
  | map {s : Ref} {id : Nat} {sparse : Bool} {e : GeneratedSerde.Element} {t : AwsQuery.RoundTrip.Shape Nat} : m.target s = some id →
      m.shape id = some (.map sparse e) → ShapeFor o m (.member id "value".toList) t →
      ShapeFor o m s (.map (isFlat o s) (nameOf o id "key".toList).xmlName (nameOf o id "value".toList).xmlName t)
  | struct {s : Ref} {id : Nat} {ms : List (Member F T)} : m.target s = some id → m.shape id = some (.struct ms) →
      ShapeFor o m s (.struct id)
  | union {s : Ref} {id : Nat} {streaming : Bool} {ms : List (Member F T)} : m.target s = some id →
      m.shape id = some (.union streaming ms) → ShapeFor o m s (.struct id)

/-- The service knows the members of the structures and unions, in the same order. -/
def Describes (o : Own) (m : Model F T) (structures : Structures Nat) : Prop :=
  ∀ id, List.Forall₂ (fun x y => y.1 = nameOf o id x.name ∧ ShapeFor o m (.member id x.name) y.2) (m.members id) (structures id)

end Verif.QueryRequest

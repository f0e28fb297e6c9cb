import Verif.Http.RestJson
import Verif.Http.HeaderValue
import Verif.GeneratedSerde.RoundTrip

/-!
# The output of an operation, from the service to the caller: model (C129)

What a generated class writes (`Verif.GeneratedSerde`) with `HTTPResponseSerializer` and the codec of smithy_json, and what the
class reads with `HTTPResponseDeserializer` (smithy_http/serializers.py:270-419 and 445-526, smithy_http/deserializers.py:41-235
and 263-280), as `RestJsonClientProtocol` has it (smithy_aws_core/aio/protocols.py:137-162).  The parts are those of C119 (the
generated code), C78 (texts of headers), C29 (where things are written), C79 (where they are read from) and C43 (JSON); here they
are put together.

Simplified: streams are refused, see C80 for them.  The status is a number in the code and its
numeral in the model of C29.
-/

set_option autoImplicit false

namespace Verif.RestJson

open Verif.GeneratedSerde (Py Ref Call Model Shape Simple)
open Verif.Timestamps (DateTime)
open Verif.Http (Binding Val Response)
open Verif.Http.Reading (Source REnv RErr Incoming Content)
open Verif.Http.HeaderValue (Kind Scalar)
open Verif.Numerals (natText intText intValue)
open Verif.Scalars.Strict (Num)

abbrev Text := List Char
abbrev Bytes := List UInt8

/-- A finite double.  Simplified: there is one zero. -/
abbrev Double := { q : Rat // ∃ m e : Int, |m| < 2 ^ 53 ∧ -1074 ≤ e ∧ e ≤ 971 ∧ q = m * 2 ^ e }

/-- A float, as `Verif.Http.HeaderValue` has it. -/
def toNum : Num Double → Num Rat
  | .nan => .nan
  | .inf b => .inf b
  | .finite x => .finite x.1

open Classical in
/-- `float` gives doubles only: no number but that of a double is met. -/
noncomputable def ofNum : Num Rat → Num Double
  | .nan => .nan
  | .inf b => .inf b
  | .finite q => if h : _ then .finite ⟨q, h⟩ else .nan

/-- Values of Python, with floats and `datetime`s. -/
abbrev P := Py Double DateTime

abbrev GMember := GeneratedSerde.Member Double DateTime

/-- A service and its client: the shapes, the HTTP traits of members (only these are taken from `traits`), whether a schema has
`MediaTypeTrait`, the settings of the codec, its parser, and what Python does with text. -/
structure World where
  model : Model Double DateTime
  traits : GMember → Http.Member
  media : Ref → Bool
  st : Json.Settings Double DateTime
  rd : Json.Reader Ref Double DateTime
  parse : Bytes → Option Json.Json
  hdr : Http.HeaderValue.Env
  lower : Text → Text
  /-- `int` of a text -/
  int : Text → Option Int

inductive Err where
  | serde (e : GeneratedSerde.Err)
  | header (e : Http.HeaderValue.Err)
  | split (e : HeaderText.Err)
  | http (e : Http.Err)
  | read (e : RErr GeneratedSerde.Err)
  /-- `SpecificShapeSerializer._invalid_state` and that of the deserializer, or not modelled -/
  | shape

/-- The shape of a member, as far as HTTP bindings ask. -/
def World.httpShape (w : World) (id : Nat) : Http.Shape :=
  match w.model.shape id with
  | some (.simple .string) => .string
  | some (.simple .blob) | some .stream => .blob
  | some .enum => .enum
  | some (.timestamp _) => .timestamp
  | some (.list _ _) => .list
  | some (.map _ _) => .map
  | some (.struct _) => .structure
  | some (.union _ _) => .union
  | _ => .scalar

/-- The schema of a member, as far as HTTP bindings ask. -/
def World.member (w : World) (x : GMember) : Http.Member :=
  { w.traits x with
    name := x.name
    shape := w.httpShape x.target
    streaming := w.model.isStream x }

/-- The members of a class, in the order of its schema. -/
def World.members (w : World) (cls : Nat) : List Http.Member := (w.model.members cls).map w.member

/-! ## Headers -/

/-- The format of timestamps, as `Verif.Http.HeaderValue` has it. -/
def format : Json.Format → Http.HeaderValue.Format
  | .dateTime => .dateTime
  | .httpDate => .httpDate
  | .epochSeconds => .epochSeconds

/-- Which method of `HTTPHeaderSerializer` and `HTTPHeaderDeserializer` is for a shape, and the traits that it looks at
(serializers.py:479-526, deserializers.py:172-208). -/
def World.kind (w : World) (id : Nat) (s : Ref) : Option Kind :=
  match w.model.shape id with
  | some (.simple .boolean) => some .boolean
  | some (.simple .byte) | some (.simple .short) | some (.simple .integer) | some (.simple .long)
  | some (.simple .bigInteger) | some .intEnum => some .integer
  | some (.simple .float) | some (.simple .double) => some .float
  | some (.simple .bigDecimal) => some .decimal
  | some (.simple .string) | some .enum => some (.string (w.media s))
  | some (.timestamp _) => some (.timestamp ((w.model.format s).map format))
  | _ => none

/-- A value, as these methods take it; instances of enums are `str` and `int`. -/
def scalarOf : P → Option Scalar
  | .bool b => some (.boolean b)
  | .int n | .intEnum _ n => some (.integer n)
  | .float x => some (.float (toNum x))
  | .decimal x => some (.decimal x)
  | .str t | .strEnum _ t => some (.string t)
  | .time t => some (.timestamp t)
  | _ => none

/-- The text of a header (serializers.py:479-526). -/
def World.headerText (w : World) (id : Nat) (s : Ref) (v : P) : Except Err Text :=
  match w.kind id s, scalarOf v with
  | some k, some x =>
    match Http.HeaderValue.write w.hdr k x with
    | .error e => .error (.header e)
    | .ok t => .ok t
  | _, _ => .error .shape

/-- What generated code makes of a value that it read (MemberDeserializerGenerator.java:136-144 and 188-196). -/
noncomputable def World.wrap (w : World) (id : Nat) : Scalar → P
  | .boolean b => .bool b
  | .integer n => match w.model.shape id with
    | some .intEnum => .intEnum id n
    | _ => .int n
  | .float x => .float (ofNum x)
  | .decimal x => .decimal x
  | .string t => match w.model.shape id with
    | some .enum => .strEnum id t
    | _ => .str t
  | .timestamp t => .time t

/-- A value read from the text of a header (deserializers.py:172-208). -/
noncomputable def World.headerRead (w : World) (id : Nat) (s : Ref) (t : Text) : Except Err P :=
  match w.kind id s with
  | none => .error .shape
  | some k =>
    match Http.HeaderValue.read w.hdr k t with
    | .error e => .error (.header e)
    | .ok x => .ok (w.wrap id x)

def each {A B : Type} (f : A → Except Err B) : List A → Except Err (List B)
  | [] => .ok []
  | x :: xs =>
    match f x with
    | .error e => .error e
    | .ok y =>
      match each f xs with
      | .error e => .error e
      | .ok ys => .ok (y :: ys)

/-! ## The service -/

/-- A call on the serializer of headers, with the schema it is made with (serializers.py:468-526). -/
def World.headerCall (w : World) : Call Double DateTime → Except Err Text
  | .write _ s v =>
    match w.model.target s with
    | none => .error .shape
    | some id => w.headerText id s v
  | _ => .error .shape

/-- A string that `CapturingSerializer` and `HTTPQueryMapValueSerializer` are given (serializers.py:548-561 and 712-724).  An
instance of an enum is a `str`. -/
def stringCall : Call Double DateTime → Except Err Text
  | .write .string _ (.str t) | .write .string _ (.strEnum _ t) => .ok t
  | _ => .error .shape

/-- An entry of a map of headers (serializers.py:529-545); the prefix is for `Verif.Http`. -/
def headerEntry (e : Text × Call Double DateTime) : Except Err (Text × Text) :=
  match stringCall e.2 with
  | .error err => .error err
  | .ok t => .ok (e.1, t)

/-- What a call on `HTTPResponseBindingSerializer` is (serializers.py:409-416): the member it is for, and the value as
`Verif.Http` has it.  The `i`-th call is known by its number to the codec.  A payload that is a blob or a string is written as it
is (serializers.py:308-324 and 422-442). -/
def World.toWrite (w : World) (cls i : Nat) (c : Call Double DateTime) : Except Err (Http.Member × Val) :=
  match c.schema with
  | .shape _ => .error .shape
  | .member _ name =>
    match (w.model.members cls).find? fun x => x.name = name with
    | none => .error .shape
    | some x =>
      match Http.matchResponse (w.member x) with
      | .header =>
        match c with
        | .list _ _ cs =>
          match each w.headerCall cs with
          | .error e => .error e
          | .ok ts => .ok (w.member x, .list ts)
        | _ =>
          match w.headerCall c with
          | .error e => .error e
          | .ok t => .ok (w.member x, .text t)
      | .status =>
        match c with
        | .write .byte _ (.int n) | .write .short _ (.int n) | .write .integer _ (.int n)
        | .write .integer _ (.intEnum _ n) => .ok (w.member x, .text (intText n))
        | _ => .error .shape
      | .payload =>
        match w.httpShape x.target, c with
        | .string, .write .string _ (.str t) => .ok (w.member x, .text t)
        | .blob, .write .blob _ (.bytes b) => .ok (w.member x, .blob (b.map UInt8.ofFin))
        | .string, _ | .blob, _ => .error .shape
        | _, _ => .ok (w.member x, .other i)
      | .prefixHeaders =>
        match c with
        | .map _ _ es =>
          match each headerEntry es with
          | .error e => .error e
          | .ok kvs => .ok (w.member x, .map kvs)
        | _ => .error .shape
      | _ => .ok (w.member x, .other i)

def World.toWrites (w : World) (cls : Nat) : Nat → List (Call Double DateTime) → Except Err (List (Http.Member × Val))
  | _, [] => .ok []
  | i, c :: cs =>
    match w.toWrite cls i c with
    | .error e => .error e
    | .ok x =>
      match w.toWrites cls (i + 1) cs with
      | .error e => .error e
      | .ok xs => .ok (x :: xs)

/-- The calls that the codec gets. -/
def bodyCalls (cs : List (Call Double DateTime)) (ws : List (Http.Member × Val)) : List (Call Double DateTime) :=
  ws.filterMap fun x => match x.2 with
    | .other i => cs[i]?
    | _ => none

/-- The codec, for these calls.  Only payloads are written without a structure around them (serializers.py:325-336). -/
def World.env (w : World) (cs : List (Call Double DateTime)) : Http.Env where
  lower := w.lower
  utf8 := Http.RestJson.utf8
  natText := natText
  mediaType := "application/json".toList
  encodeStruct := fun ws => match w.model.jsonMembers (bodyCalls cs ws) with
    | none => []
    | some jcs => Http.RestJson.utf8 (Json.write w.st [] (.struct jcs))
  encodeValues := fun ws => ((bodyCalls cs ws).filterMap w.model.jsonCall).flatMap fun jc =>
    Http.RestJson.utf8 (Json.write w.st [] jc)

/-- `output.serialize(HTTPResponseSerializer(...))`, and the response.  `errorStatus` and `code` are those of
`Http.serializeResponse`; the number bounds the depth. -/
def World.respond (w : World) (n cls : Nat) (v : P) (errorStatus : Option Text) (code : Text) (omitEmpty : Bool) :
    Except Err Response :=
  match w.model.serialize n v with
  | .error e => .error (.serde e)
  | .ok (.struct _ cs) =>
    match w.toWrites cls 0 cs with
    | .error e => .error e
    | .ok ws =>
      match Http.serializeResponse (w.env cs) errorStatus code omitEmpty (w.members cls) ws with
      | .error e => .error (.http e)
      | .ok r => .ok r
  | .ok _ => .error .shape

/-! ## The client -/

/-- `read_struct` of a JSON deserializer with the consumer of the class (deserializers.py:102-106 of smithy_http): the members that
it stores, with their values. -/
def World.decode (w : World) (cls : Nat) (b : Bytes) : Except GeneratedSerde.Err (List (Http.Member × P)) :=
  match w.parse b with
  | none => .error (.json .token)
  | some j =>
    match Json.events [] j with
    | [] => .error (.json .stop)
    | e :: r =>
      if e.ev = .startMap then
        match w.model.readMembers w.rd (2 * r.length + 4) cls [] r with
        | .error e => .error e
        | .ok x => .ok (x.1.filterMap fun kv =>
            ((w.model.members cls).find? fun y => y.attr = kv.1).map fun y => (w.member y, kv.2))
      else .error (.json .token)

def World.renv (w : World) (cls : Nat) : REnv P GeneratedSerde.Err where
  lower := w.lower
  int := w.int
  decode := fun b _ => w.decode cls b

/-- What `RawPayloadDeserializer` gives (deserializers.py:283-321): the bytes, or the text that they are in UTF-8. -/
def World.readRaw (w : World) (x : GMember) (b : Bytes) : Except Err P :=
  match w.model.shape x.target with
  | some (.simple .blob) => .ok (.bytes (b.map UInt8.toFin))
  | some (.simple .string) =>
    match EventStream.utf8Decode b with
    | none => .error .shape
    | some t => .ok (.str t.toList)
  | some .enum =>
    match EventStream.utf8Decode b with
    | none => .error .shape
    | some t => .ok (.strEnum x.target t.toList)
  | _ => .error .shape

/-- What the codec gives for a document that is the value of a member (deserializers.py:132-153). -/
def World.readDocument (w : World) (cls : Nat) (x : GMember) (b : Bytes) : Except Err P :=
  match w.parse b with
  | none => .error (.serde (.json .token))
  | some j =>
    match w.model.read w.rd (2 * (Json.events [] j).length + 4) x.target (.member cls x.name) (Json.events [] j) with
    | .error e => .error (.serde e)
    | .ok v => .ok v.1

/-- An entry of a map that is read from headers (deserializers.py:252-260, MapGenerator.java:84-89). -/
noncomputable def World.headerMapEntry (w : World) (id : Nat) (s : Ref) (kv : Text × Text) : Except Err (Text × P) :=
  match w.headerRead id s kv.2 with
  | .error err => .error err
  | .ok v => .ok (kv.1, v)

/-- What the consumer of the class reads for a member (StructureGenerator.java:502-519). -/
noncomputable def World.readSource (w : World) (cls : Nat) (x : GMember) : Source P → Except Err P
  | .header t => w.headerRead x.target (.member cls x.name) t
  | .headerList ts =>
    match w.model.shape x.target with
    | some (.list _ e) =>
      match w.kind e.target (.member x.target GeneratedSerde.memberName) with
      | none => .error .shape
      | some k =>
        match Http.HeaderValue.listValues w.hdr k ts with
        | .error err => .error (.split err)
        | .ok vs =>
          match each (w.headerRead e.target (.member x.target GeneratedSerde.memberName)) vs with
          | .error err => .error err
          | .ok xs => .ok (.list xs)
    | _ => .error .shape
  | .headerMap kvs =>
    match w.model.shape x.target with
    | some (.map _ e) =>
      match each (w.headerMapEntry e.target (.member x.target GeneratedSerde.valueName)) kvs with
      | .error err => .error err
      | .ok es => .ok (.dict (es.foldl (fun d kv => Json.put d kv.1 kv.2) []))
    | _ => .error .shape
  | .status t =>
    match w.model.shape x.target with
    | some (.simple .byte) | some (.simple .short) | some (.simple .integer) => .ok (.int (intValue t))
    | some .intEnum => .ok (.intEnum x.target (intValue t))
    | _ => .error .shape
  | .value v => .ok v
  | .raw c =>
    match Http.Reading.consumePayload c with
    | .error e => .error (.read e)
    | .ok b => w.readRaw x b
  | .document b => w.readDocument cls x b

/-- The consumer called with these members. -/
noncomputable def World.consume (w : World) (cls : Nat) : List (Text × P) → List (Http.Member × Source P) → Except Err (List (Text × P))
  | kwargs, [] => .ok kwargs
  | kwargs, (hm, src) :: r =>
    match (w.model.members cls).find? fun x => x.name = hm.name with
    | none => .error .shape
    | some x =>
      match w.readSource cls x src with
      | .error e => .error e
      | .ok v => w.consume cls (Json.put kwargs x.attr v) r

/-- `Output.deserialize(HTTPResponseDeserializer(...))`. -/
noncomputable def World.receive (w : World) (cls : Nat) (r : Incoming) (body : Option Content) : Except Err P :=
  match Http.Reading.readStruct (w.renv cls) r body (w.members cls) with
  | .error e => .error (.read e)
  | .ok calls =>
    match w.consume cls [] calls with
    | .error e => .error e
    | .ok kwargs =>
      match w.model.construct cls (w.model.members cls) kwargs with
      | .error e => .error (.serde e)
      | .ok v => .ok v

end Verif.RestJson

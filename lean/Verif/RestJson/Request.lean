import Verif.RestJson.Writing
import Verif.Uri.Pattern

/-!
# The input of an operation, from the caller to the request: model and specification (C130)

What a generated class writes (`Verif.GeneratedSerde`) with `HTTPRequestSerializer` and the codec of smithy_json
(smithy_http/serializers.py:52-267 and 445-695).  The parts are those of C119 (the generated code), C78 (texts), C97 (paths), C28
(queries), C29 (where things are written) and C43 (JSON); here they are put together.

Simplified: members bound to the host are refused.  The method is left out.
-/

set_option autoImplicit false

namespace Verif.RestJson

open Verif.GeneratedSerde (Py Ref Call Model Shape Simple Typed Same)
open Verif.Timestamps (DateTime)
open Verif.Http (Binding Val matchRequest)
open Verif.Http.HeaderValue (Kind Scalar)
open Verif.Http.RestJson (utf8)
open Verif.Uri.Pattern (LabelValue)
open Verif.Scalars.Strict (Num)

/-! ## Model -/

/-- Which method of `HTTPQuerySerializer` and `HTTPPathSerializer` is for a shape, and the traits that it looks at
(serializers.py:589-630 and 654-695): timestamps are in the date-time format unless told otherwise, and strings are never
encoded. -/
def World.urlKind (w : World) (id : Nat) (s : Ref) : Option Kind :=
  match w.kind id s with
  | some (.string _) => some (.string false)
  | some (.timestamp f) => some (.timestamp (some (f.getD .dateTime)))
  | k => k

/-- The text of a value in a URI (serializers.py:589-630 and 654-695). -/
def World.urlText (w : World) (id : Nat) (s : Ref) (v : P) : Except Err Text :=
  match w.urlKind id s, scalarOf v with
  | some k, some x =>
    match Http.HeaderValue.write w.hdr k x with
    | .error e => .error (.header e)
    | .ok t => .ok t
  | _, _ => .error .shape

/-- What is written for a label (serializers.py:654-695). -/
def World.labelValue (w : World) (id : Nat) (s : Ref) (v : P) : Except Err LabelValue :=
  match w.urlText id s v with
  | .error e => .error e
  | .ok t =>
    match w.urlKind id s, v with
    | _, .bool b => .ok (.boolean b)
    | some (.string _), _ => .ok (.text (utf8 t))
    | some (.timestamp _), _ => .ok (.timestamp (utf8 t))
    | _, _ => .ok (.number (utf8 t))

/-- A call on the serializer of the query, with the schema it is made with (serializers.py:580-630). -/
def World.urlCall (w : World) : Call Double DateTime → Except Err Text
  | .write _ s v =>
    match w.model.target s with
    | none => .error .shape
    | some id => w.urlText id s v
  | _ => .error .shape

/-- An entry of a map of query parameters: a string or a list (serializers.py:698-728).  Simplified: lists of lists are refused. -/
def paramEntry (e : Text × Call Double DateTime) : Except Err (Text × List Text) :=
  match e.2 with
  | .list _ _ cs =>
    match each stringCall cs with
    | .error err => .error err
    | .ok ts => .ok (e.1, ts)
  | c =>
    match stringCall c with
    | .error err => .error err
    | .ok t => .ok (e.1, [t])

/-- What a call on `HTTPRequestBindingSerializer` is: something for a label, or a value as `Verif.Http` has it. -/
inductive Item where
  | label (name : Bytes) (v : LabelValue)
  | write (u : Http.Member × Val)

/-- A call on `HTTPRequestBindingSerializer` (serializers.py:253-264).  A payload that is a string, an enum or a blob goes to
`RawPayloadSerializer` (108-130 and 422-442).  The `i`-th call is known by its number to the codec. -/
def World.toItem (w : World) (cls i : Nat) (c : Call Double DateTime) : Except Err Item :=
  match c.schema with
  | .shape _ => .error .shape
  | .member _ name =>
    match (w.model.members cls).find? fun x => x.name = name with
    | none => .error .shape
    | some x =>
      match matchRequest (w.member x) with
      | .label =>
        match c with
        | .write _ s v =>
          match w.model.target s with
          | none => .error .shape
          | some id =>
            match w.labelValue id s v with
            | .error e => .error e
            | .ok l => .ok (.label (utf8 x.name) l)
        | _ => .error .shape
      | .query =>
        match c with
        | .list _ _ cs =>
          match each w.urlCall cs with
          | .error e => .error e
          | .ok ts => .ok (.write (w.member x, .list ts))
        | _ =>
          match w.urlCall c with
          | .error e => .error e
          | .ok t => .ok (.write (w.member x, .text t))
      | .header =>
        match c with
        | .list _ _ cs =>
          match each w.headerCall cs with
          | .error e => .error e
          | .ok ts => .ok (.write (w.member x, .list ts))
        | _ =>
          match w.headerCall c with
          | .error e => .error e
          | .ok t => .ok (.write (w.member x, .text t))
      | .queryParams =>
        match c with
        | .map _ _ es =>
          match each paramEntry es with
          | .error e => .error e
          | .ok kvs => .ok (.write (w.member x, .multimap kvs))
        | _ => .error .shape
      | .prefixHeaders =>
        match c with
        | .map _ _ es =>
          match each headerEntry es with
          | .error e => .error e
          | .ok kvs => .ok (.write (w.member x, .map kvs))
        | _ => .error .shape
      | .payload =>
        match w.httpShape x.target, c with
        | .string, .write .string _ (.str t) | .enum, .write .string _ (.strEnum _ t) => .ok (.write (w.member x, .text t))
        | .blob, .write .blob _ (.bytes b) => .ok (.write (w.member x, .blob (b.map UInt8.ofFin)))
        | .string, _ | .enum, _ | .blob, _ => .error .shape
        | _, _ => .ok (.write (w.member x, .other i))
      | .body => .ok (.write (w.member x, .other i))
      | _ => .error .shape

def World.toItems (w : World) (cls : Nat) : Nat → List (Call Double DateTime) → Except Err (List Item)
  | _, [] => .ok []
  | i, c :: cs =>
    match w.toItem cls i c with
    | .error e => .error e
    | .ok x =>
      match w.toItems cls (i + 1) cs with
      | .error e => .error e
      | .ok xs => .ok (x :: xs)

def labelsIn (items : List Item) : List (Bytes × LabelValue) :=
  items.filterMap fun | .label n v => some (n, v) | .write _ => none

def writesIn (items : List Item) : List (Http.Member × Val) :=
  items.filterMap fun | .label _ _ => none | .write u => some u

/-- A request, without its method and host. -/
structure Request where
  fields : List (Fields.Field Text)
  path : Bytes
  query : Bytes
  body : Http.Body

/-- An error of the request: of what is written, or of the path. -/
inductive ReqErr where
  | write (e : Err)
  | path (e : Uri.Pattern.Err)

/-- `input.serialize(HTTPRequestSerializer(...))`, and the request (serializers.py:82-201).  `pattern` and `query` are the parts of
the URI of the operation; the number bounds the depth. -/
def World.request (w : World) (n cls : Nat) (v : P) (pattern query : Bytes) (omitEmpty : Bool) : Except ReqErr Request :=
  match w.model.serialize n v with
  | .error e => .error (.write (.serde e))
  | .ok (.struct _ cs) =>
    match w.toItems cls 0 cs with
    | .error e => .error (.write e)
    | .ok items =>
      match Http.serializeRequest (w.env cs) [] query omitEmpty (w.members cls) (writesIn items) with
      | .error e => .error (.write (.http e))
      | .ok r =>
        match Uri.Pattern.path pattern (labelsIn items) with
        | .error e => .error (.path e)
        | .ok path => .ok { fields := r.fields, path := path, query := r.query, body := r.body }
  | .ok _ => .error (.write .shape)

/-! ## Specification -/

/-- The HTTP bindings of a class: no header is one of those of the body.  There are no event streams and host labels, which are not
covered. -/
structure World.RequestSides (w : World) (cls : Nat) : Prop where
  streams : ∀ x ∈ w.model.members cls, w.model.isStream x = false
  hosts : ∀ x ∈ w.model.members cls, (w.traits x).hostLabel = false
  own : ∀ x ∈ w.model.members cls, ∀ a, (w.traits x).header = some a →
    w.lower a ≠ w.lower "content-type".toList ∧ w.lower a ≠ w.lower "content-length".toList

/-- The HTTP bindings of a class without a payload. -/
structure World.RequestBound (w : World) (cls : Nat) : Prop extends w.RequestSides cls where
  payload : ∀ x ∈ w.model.members cls, (w.traits x).payload = false

/-- Where a member of an input is, by its traits: a label of the path, a parameter of the query, many of them, a header, many of them
with a prefix, or else the body. -/
inductive Place where
  | label | query (key : Text) | params | header (name : Text) | prefixed (pre : Text) | body

def World.place (w : World) (x : GMember) : Place :=
  if (w.traits x).label then .label
  else match (w.traits x).query with
    | some k => .query k
    | none =>
      if (w.traits x).queryParams then .params
      else match (w.traits x).header with
        | some k => .header k
        | none => match (w.traits x).prefixHeaders with
          | some pre => .prefixed pre
          | none => .body

/-- The texts of an entry of a map of strings or of lists of strings, each with the key. -/
def entryOf (u : Text × P) : List (Text × Text) :=
  match u.2 with
  | .str t => [(u.1, t)]
  | .list xs => xs.filterMap fun v => match v with
    | .str t => some (u.1, t)
    | _ => none
  | _ => []

/-- The keys and texts of a map of strings or of lists of strings; there are none in `None`. -/
def entriesOf : P → List (Text × Text)
  | .dict es => es.flatMap entryOf
  | _ => []

/-- A value in a map of query parameters: a string or a list of strings, as its shape says. -/
inductive ParamOk (w : World) (id : Nat) : P → Prop
  | one {t : Text} : w.model.shape id = some (.simple .string) → ParamOk w id (.str t)
  | list {sparse : Bool} {e : GeneratedSerde.Element} {xs : List P} : w.model.shape id = some (.list sparse e) →
      w.model.shape e.target = some (.simple .string) → (∀ v ∈ xs, ∃ t, v = .str t) → ParamOk w id (.list xs)

/-- A value of a shape that its text in a URI restores: as in a header, but timestamps are in the date-time format unless told
otherwise. -/
inductive UrlOk (w : World) (nearest : Rat → Num Rat) (id : Nat) (s : Ref) : P → Prop
  | plain {v : P} : (∀ dt, v ≠ .time dt) → HeaderOk w nearest id s v → UrlOk w nearest id s v
  | time {f : Option Json.Format} {dt : DateTime} : w.model.target s = some id → w.model.shape id = some (.timestamp f) →
      TimeOk w (some (((w.model.ownFormat s).or f).getD .dateTime)) dt → UrlOk w nearest id s (.time dt)

/-- A value of an attribute of the input: `None`, if the member may be null and has no default; or one that the place that it is
bound to restores. -/
inductive RequestField (w : World) (nearest : Rat → Num Rat) (cls : Nat) (x : GMember) : P → Prop
  | absent : x.nullable = true →
      x.default = none ∨ (x.default = some .none ∧ w.model.shape x.target ≠ some (.simple .document)) →
      RequestField w nearest cls x .none
  | body {v : P} : w.place x = .body → Typed w.model w.st w.rd x.target (.member cls x.name) v → RequestField w nearest cls x v
  | label {v : P} : w.place x = .label → UrlOk w nearest x.target (.member cls x.name) v → RequestField w nearest cls x v
  | query {v : P} {k : Text} : w.place x = .query k → UrlOk w nearest x.target (.member cls x.name) v → RequestField w nearest cls x v
  | queries {k : Text} {sparse : Bool} {e : GeneratedSerde.Element} {xs : List P} : w.place x = .query k →
      w.model.shape x.target = some (.list sparse e) →
      (∀ v ∈ xs, UrlOk w nearest e.target (.member x.target GeneratedSerde.memberName) v) → RequestField w nearest cls x (.list xs)
  | header {v : P} {k : Text} : w.place x = .header k → HeaderOk w nearest x.target (.member cls x.name) v →
      RequestField w nearest cls x v
  | headers {k : Text} {sparse : Bool} {e : GeneratedSerde.Element} {xs : List P} : w.place x = .header k →
      w.model.shape x.target = some (.list sparse e) →
      (∀ v ∈ xs, HeaderOk w nearest e.target (.member x.target GeneratedSerde.memberName) v) → RequestField w nearest cls x (.list xs)
  | params {sparse : Bool} {e : GeneratedSerde.Element} {es : List (Text × P)} : w.place x = .params →
      w.model.shape x.target = some (.map sparse e) → (∀ u ∈ es, ParamOk w e.target u.2) → RequestField w nearest cls x (.dict es)
  | prefixed {pre : Text} {sparse : Bool} {e : GeneratedSerde.Element} {es : List (Text × P)} : w.place x = .prefixed pre →
      w.model.shape x.target = some (.map sparse e) → w.model.shape e.target = some (.simple .string) →
      (∀ u ∈ es, ∃ t, u.2 = .str t) →
      (∀ u ∈ es, w.lower (pre ++ u.1) ≠ w.lower "content-type".toList ∧ w.lower (pre ++ u.1) ≠ w.lower "content-length".toList) →
      RequestField w nearest cls x (.dict es)

/-- A reader of one text: that of headers (C78), for the format that URIs have. -/
noncomputable def World.urlRead (w : World) (id : Nat) (s : Ref) (t : Text) : Except Err P :=
  match w.urlKind id s with
  | none => .error .shape
  | some k =>
    match Http.HeaderValue.read w.hdr k t with
    | .error e => .error (.header e)
    | .ok x => .ok (w.wrap id x)

/-- The texts say the value: one text each for the elements of a list, none for `None`. -/
inductive Says (w : World) (read : Nat → Ref → Text → Except Err P) (id : Nat) (s : Ref) : List Text → P → Prop
  | none : Says w read id s [] .none
  | one {t : Text} {v v' : P} : read id s t = .ok v' → Same v v' → Says w read id s [t] v
  | list {sparse : Bool} {e : GeneratedSerde.Element} {ts : List Text} {xs : List P} : w.model.shape id = some (.list sparse e) →
      List.Forall₂ (fun t v => ∃ v', read e.target (.member id GeneratedSerde.memberName) t = .ok v' ∧ Same v v') ts xs →
      Says w read id s ts (.list xs)

/-- The texts of a member say its value; maps and the body have none. -/
def Reads (w : World) (cls : Nat) (x : GMember) (ts : List Text) (v : P) : Prop :=
  match w.place x with
  | .label | .query _ => Says w w.urlRead x.target (.member cls x.name) ts v
  | .header _ => Says w w.headerRead x.target (.member cls x.name) ts v
  | .params | .prefixed _ | .body => True

end Verif.RestJson

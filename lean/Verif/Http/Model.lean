import Verif.Fields.Model
import Verif.Uri.Query
import Verif.Uri.Path

/-!
# HTTP bindings

Models the binding matchers (smithy_http/bindings.py:55-172) and the request and response serializers
(smithy_http/serializers.py:52-781).

Simplifications, for the whole file:
* A member's traits are given by a record with the traits the code looks at.
* Scalar values (strings, numbers, booleans, timestamps) are given by their text, how it is made is
  left out, as is the base64 step for header strings with a media type (517-518).  The member's
  shape tells strings from other scalars where a serializer takes only one of them.
* Path labels are all encoded like strings; the code writes numbers and booleans as they are and
  leaves slashes in timestamps (654-695).
* The payload codec is a parameter: what it writes for a structure's members and for a value.
* A body is bytes, or a stream handed through unread.  Streams that are `Sized` without being bytes
  are left out.
-/

set_option autoImplicit false

namespace Verif.Http

open Verif.Fields (Kind Field Dict Heap)

abbrev Text := List Char
abbrev Bytes := List UInt8

/-- `ShapeType`, as far as the serializers distinguish. -/
inductive Shape where
  | blob | string | enum | timestamp | scalar | list | map | structure | union
  deriving DecidableEq, Repr

/-- Shapes written with `write_string`. -/
def Shape.isString (s : Shape) : Bool := s = .string || s = .enum

/-- A member schema: name, shape and the traits the code looks at. -/
structure Member where
  name : Text
  shape : Shape
  label : Bool := false
  query : Option Text := none
  queryParams : Bool := false
  header : Option Text := none
  prefixHeaders : Option Text := none
  payload : Bool := false
  hostLabel : Bool := false
  responseCode : Bool := false
  mediaType : Option Text := none
  streaming : Bool := false
  requiresLength : Bool := false
  deriving DecidableEq, Repr

/-- `Binding` (bindings.py:24-52). -/
inductive Binding where
  | header | query | payload | body | label | status | prefixHeaders | queryParams | host
  deriving DecidableEq, Repr

/-- `RequestBindingMatcher._do_match` (bindings.py:127-142). -/
def matchRequest (m : Member) : Binding :=
  if m.label then .label
  else if m.query.isSome then .query
  else if m.queryParams then .queryParams
  else if m.header.isSome then .header
  else if m.prefixHeaders.isSome then .prefixHeaders
  else if m.payload then .payload
  else if m.hostLabel then .host
  else .body

/-- `ResponseBindingMatcher._do_match` (bindings.py:163-172). -/
def matchResponse (m : Member) : Binding :=
  if m.responseCode then .status
  else if m.header.isSome then .header
  else if m.prefixHeaders.isSome then .prefixHeaders
  else if m.payload then .payload
  else .body

/-- `_BindingMatcher` (bindings.py:55-73); the response status is an argument of
`serializeResponse`. -/
structure Matcher where
  bindings : List Binding := []
  hasBody : Bool := false
  hasPayload : Bool := false
  payloadMember : Option Member := none
  eventStream : Option Member := none
  deriving DecidableEq, Repr

/-- One turn of the loop of `_BindingMatcher.__init__` (bindings.py:83-96). -/
def Matcher.add (f : Member → Binding) (a : Matcher) (m : Member) : Matcher :=
  let b := f m
  { bindings := a.bindings ++ [b]
    hasBody := a.hasBody || b == .body || b == .host
    hasPayload := a.hasPayload || b == .payload
    payloadMember := if b = .payload then some m else a.payloadMember
    eventStream := if m.streaming ∧ m.shape = .union then some m else a.eventStream }

/-- `_BindingMatcher.__init__` (bindings.py:75-99). -/
def Matcher.of (f : Member → Binding) (ms : List Member) : Matcher := ms.foldl (Matcher.add f) {}

/-- `should_write_body` (bindings.py:101-107). -/
def Matcher.shouldWriteBody (a : Matcher) (omitEmpty : Bool) : Bool :=
  a.hasBody || (!omitEmpty && !a.hasPayload)

/-- A member's value. -/
inductive Val where
  | text (t : Text)
  | list (ts : List Text)
  | map (kvs : List (Text × Text))
  /-- Map from text to lists of text. -/
  | multimap (kvs : List (Text × List Text))
  | blob (b : Bytes)
  /-- A stream of which nothing is known before it is sent. -/
  | stream (id : Nat)
  /-- Anything else; only the codec looks into it. -/
  | other (id : Nat)
  deriving DecidableEq, Repr

inductive Err where
  /-- `SpecificShapeSerializer._invalid_state` and `expect_trait`. -/
  | invalidShape
  /-- "This operation requires the the content length" (serializers.py:183-186). -/
  | lengthRequired
  /-- An error of `PathPattern.format`. -/
  | path (e : Uri.PathErr Text)
  deriving DecidableEq, Repr

/-- What the location-specific serializers collect. -/
structure Parts where
  headers : List (Text × Text) := []
  query : List (Text × Text) := []
  path : List (Text × Text) := []
  host : List (Text × Text) := []
  /-- What the payload serializer is given. -/
  payload : List (Member × Val) := []
  status : Option Text := none
  deriving DecidableEq, Repr

/-- `HTTPHeaderSerializer`, `HTTPHeaderMapSerializer` (serializers.py:445-561). -/
def headerEntries (m : Member) : Val → Except Err (List (Text × Text))
  | .text t => match m.header with | some k => .ok [(k, t)] | none => .error .invalidShape
  | .list ts =>
    match m.header with | some k => .ok (ts.map fun t => (k, t)) | none => .error .invalidShape
  | .map kvs =>
    match m.prefixHeaders with
    | some p => .ok (kvs.map fun kv => (p ++ kv.1, kv.2))
    | none => .error .invalidShape
  | _ => .error .invalidShape

/-- `HTTPQuerySerializer`, `HTTPQueryMapSerializer`, `HTTPQueryMapValueSerializer`
(serializers.py:564-630, 698-728). -/
def queryEntries (m : Member) : Val → Except Err (List (Text × Text))
  | .text t => match m.query with | some k => .ok [(k, t)] | none => .error .invalidShape
  | .list ts =>
    match m.query with | some k => .ok (ts.map fun t => (k, t)) | none => .error .invalidShape
  | .map kvs => .ok kvs
  | .multimap kvs => .ok (kvs.flatMap fun kv => kv.2.map fun v => (kv.1, v))
  | _ => .error .invalidShape

/-- `HTTPRequestBindingSerializer.before` (serializers.py:253-264) and the write to the serializer it
returns.  `HostPrefixSerializer` (731-761) takes strings only and writes them to the payload too. -/
def Parts.writeRequest (p : Parts) (m : Member) (v : Val) : Except Err Parts :=
  match matchRequest m with
  | .header | .prefixHeaders =>
    (headerEntries m v).map fun es => { p with headers := p.headers ++ es }
  | .query | .queryParams => (queryEntries m v).map fun es => { p with query := p.query ++ es }
  | .label =>
    match v with
    | .text t => .ok { p with path := p.path ++ [(m.name, t)] }
    | _ => .error .invalidShape
  | .host =>
    match v with
    | .text t =>
      if m.shape.isString then
        .ok { p with payload := p.payload ++ [(m, v)], host := p.host ++ [(m.name, t)] }
      else .error .invalidShape
    | _ => .error .invalidShape
  | _ => .ok { p with payload := p.payload ++ [(m, v)] }

/-- `HTTPResponseBindingSerializer.before` (serializers.py:409-416) and the write.
`HTTPResponseCodeSerializer` (764-781) takes integers only. -/
def Parts.writeResponse (p : Parts) (m : Member) (v : Val) : Except Err Parts :=
  match matchResponse m with
  | .header | .prefixHeaders =>
    (headerEntries m v).map fun es => { p with headers := p.headers ++ es }
  | .status =>
    match v with
    | .text t => if m.shape = .scalar then .ok { p with status := some t } else .error .invalidShape
    | _ => .error .invalidShape
  | _ => .ok { p with payload := p.payload ++ [(m, v)] }

/-- The members of a structure written one after the other. -/
def writeAll (w : Parts → Member → Val → Except Err Parts) :
    Parts → List (Member × Val) → Except Err Parts
  | p, [] => .ok p
  | p, (m, v) :: ws =>
    match w p m v with
    | .ok p => writeAll w p ws
    | .error e => .error e

/-! ## Messages -/

inductive Body where
  | bytes (b : Bytes)
  /-- A caller's stream, handed through. -/
  | stream (id : Nat)
  /-- The `AsyncBytesProvider` of an event stream. -/
  | events
  deriving DecidableEq, Repr

/-- The payload codec and Python's text functions. -/
structure Env where
  /-- `str.lower`. -/
  lower : Text → Text
  /-- `str.encode("utf-8")`. -/
  utf8 : Text → Bytes
  /-- `str(n)`. -/
  natText : Nat → Text
  /-- `Codec.media_type`. -/
  mediaType : Text
  /-- What the codec writes for a structure with these members. -/
  encodeStruct : List (Member × Val) → Bytes
  /-- What the codec writes for values written one after the other. -/
  encodeValues : List (Member × Val) → Bytes

/-- `RawPayloadSerializer` (serializers.py:422-442): the last value written; strings, blobs and streams
only. -/
def rawPayload (env : Env) (ws : List (Member × Val)) : Except Err (Option Body) :=
  ws.foldlM (init := none) fun _ w =>
    match w.2 with
    | .text t =>
      if w.1.shape.isString then .ok (some (.bytes (env.utf8 t))) else .error .invalidShape
    | .blob b => .ok (some (.bytes b))
    | .stream s => .ok (some (.stream s))
    | _ => .error .invalidShape

/-- `isinstance(payload, Sized)` and its length (serializers.py:128-129). -/
def sizeOf : Option Body → Option Nat
  | some (.bytes b) => some b.length
  | _ => none

/-- Payload, content type and length (serializers.py:91-170; response 296-358).  `raw` says which
shapes are written raw: blob, string and (requests only) enum. -/
def payloadOf (env : Env) (a : Matcher) (raw : Shape → Bool) (omitEmpty : Bool)
    (ws : List (Member × Val)) : Except Err (Body × Option Text × Option Nat × Bool) :=
  match a.eventStream, a.payloadMember with
  | some _, _ =>
    if ws = [] then .ok (.events, some "application/vnd.amazon.eventstream".toList, none, false)
    else .error .invalidShape
  | none, some pm =>
    if raw pm.shape then
      match rawPayload env ws with
      | .error e => .error e
      | .ok b =>
        let ct := match pm.mediaType with
          | some t => t
          | none => if pm.shape = .blob then "application/octet-stream".toList
              else "text/plain".toList
        .ok (b.getD (.bytes []), some ct, sizeOf b, pm.requiresLength)
    else
      let b := env.encodeValues ws
      .ok (.bytes b, some (pm.mediaType.getD env.mediaType), some b.length, pm.requiresLength)
  | none, none =>
    if a.shouldWriteBody omitEmpty then
      let b := env.encodeStruct ws
      .ok (.bytes b, some env.mediaType, some b.length, false)
    else .ok (.bytes (env.encodeValues ws), none, none, false)

/-- The headers added by the serializer (serializers.py:173-177). -/
def extraHeaders (env : Env) (ct : Option Text) (len : Option Nat) : List (Text × Text) :=
  (match ct with | some t => [("content-type".toList, t)] | none => []) ++
  (match len with | some n => [("content-length".toList, env.natText n)] | none => [])

/-- `tuples_to_fields` (`__init__.py`:220-235), as the list of fields. -/
def toFields (env : Env) (hs : List (Text × Text)) : List (Field Text) :=
  let r := Fields.ofTuples env.lower none [] [] hs
  Fields.fields r.1 r.2

/-- `name in fields`. -/
def hasField (env : Env) (fs : List (Field Text)) (name : Text) : Bool :=
  fs.any fun f => env.lower f.name = env.lower name

/-- A serialized request.  `host` has the labels written to the host prefix; filling them into the
endpoint trait's pattern (serializers.py:750-757) is left out, as is the method. -/
structure Request where
  fields : List (Field Text)
  path : Bytes
  query : Bytes
  host : List (Text × Text)
  body : Body

/-- `HTTPRequestSerializer.begin_struct` (serializers.py:82-201).  `_compute_content_length` (204-215)
never gives a length: `_seek` (218-224) returns nothing, so `end` is `None`.  Where it asks a reader
that cannot tell its position (aio/types.py:94-99), that raises instead; both are
`lengthRequired` here.  An
event stream's `SpecificShapeSerializer` refuses every write. -/
def serializeRequest (env : Env) (pattern : List (Uri.Piece Text)) (query : Bytes)
    (omitEmpty : Bool) (ms : List Member) (ws : List (Member × Val)) : Except Err Request :=
  match writeAll Parts.writeRequest {} ws with
  | .error e => .error e
  | .ok p =>
    let a := Matcher.of matchRequest ms
    match payloadOf env a (fun s => s = .blob || s = .string || s = .enum) omitEmpty p.payload with
    | .error e => .error e
    | .ok (body, ct, len, lengthRequired) =>
      let fields := toFields env (p.headers ++ extraHeaders env ct len)
      if lengthRequired && !hasField env fields "content-length".toList then .error .lengthRequired
      else
        match Uri.serializePath pattern (p.path.map fun x => (x.1, env.utf8 x.2)) with
        | .error e => .error (.path e)
        | .ok path =>
          .ok { fields := fields, path := path, host := p.host, body := body
                query := Uri.joinQuery (p.query.map fun x => (env.utf8 x.1, some (env.utf8 x.2)))
                  query }

structure Response where
  fields : List (Field Text)
  status : Text
  body : Body

/-- `HTTPResponseSerializer.begin_struct` (serializers.py:291-388).  `errorStatus` is
`_compute_response` (bindings.py:156-161), `code` the status of the operation's HTTP trait. -/
def serializeResponse (env : Env) (errorStatus : Option Text) (code : Text) (omitEmpty : Bool)
    (ms : List Member) (ws : List (Member × Val)) : Except Err Response :=
  match writeAll Parts.writeResponse {} ws with
  | .error e => .error e
  | .ok p =>
    let a := Matcher.of matchResponse ms
    match payloadOf env a (fun s => s = .blob || s = .string) omitEmpty p.payload with
    | .error e => .error e
    | .ok (body, ct, len, lengthRequired) =>
      let fields := toFields env (p.headers ++ extraHeaders env ct len)
      if lengthRequired && !hasField env fields "content-length".toList then .error .lengthRequired
      else
        .ok { fields := fields, body := body
              status := p.status.getD (errorStatus.getD code) }

end Verif.Http

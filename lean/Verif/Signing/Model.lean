import Verif.Signing.Query
import Verif.Uri.Dots
import Verif.Fields.Spec

/-!
# Signing requests with AWS Signature Version 4

Models `SigV4Signer` and `AsyncSigV4Signer` (aws_sdk_signers/signers.py:53-428 and 431-825) with the
requests they work on (aws_sdk_signers/_http.py).  The two signers are the same code up to
`_format_canonical_payload`; line numbers are those of `SigV4Signer`.

Requests, header collections, header objects and bodies are Python objects shared by reference: they
live in a `World` and are named by their addresses.  `Field` and `Fields` of aws_sdk_signers are line
by line those of smithy_http, which `Verif.Fields` models.

Not modelled: warnings; requests that are not `AWSRequest` (`deepcopy` of those copies the body).
-/

set_option autoImplicit false

namespace Verif.Signing

open Verif.Uri Verif.Text Verif.Fields

/-! ## The Python library -/

/-- What the signers use of Python's library.  All of it is arbitrary here; theorems that need more
say so. -/
structure Lib where
  /-- `str.lower`. -/
  lower : Bytes → Bytes
  /-- `str.upper`. -/
  upper : Bytes → Bytes
  /-- `str.split()`. -/
  words : Bytes → List Bytes
  /-- `bytes.decode("utf-8", errors="replace")`. -/
  decode : Bytes → Bytes
  /-- `str` of a port. -/
  decimal : Nat → Bytes
  /-- `sha256(data).hexdigest()`. -/
  sha256 : Bytes → Bytes
  /-- `hmac.new(key, msg, sha256).digest()`. -/
  hmac : Bytes → Bytes → Bytes
  /-- `bytes.hex`. -/
  hex : Bytes → Bytes

/-! ## Requests -/

/-- `URI` (_http.py:221-317); the fragment is not read. -/
structure Destination where
  scheme : Bytes
  username : Option Bytes
  password : Option Bytes
  host : Bytes
  port : Option Nat
  path : Option Bytes
  query : Option Bytes
  deriving DecidableEq, Repr

/-- A body. -/
inductive Body where
  /-- A file-like object that can be repositioned, with its position. -/
  | file (content : Bytes) (pos : Nat)
  /-- An iterator: what it yields next.  Iterating consumes it. -/
  | iterator (rest : List Bytes)
  /-- A collection of chunks, which can be iterated over again. -/
  | chunks (all : List Bytes)
  /-- Not of the kind of iterable the signer takes. -/
  | foreign
  deriving DecidableEq, Repr

/-- All objects. -/
structure World where
  objs : Heap Bytes
  colls : List (Dict Bytes)
  bodies : List Body
  deriving DecidableEq, Repr

/-- `AWSRequest` (_http.py:339-351): collection and body by address. -/
structure Request where
  destination : Destination
  method : Bytes
  body : Option Nat
  fields : Nat
  deriving DecidableEq, Repr

/-- `SigV4SigningProperties` (signers.py:44-50). -/
structure Properties where
  region : Bytes
  service : Bytes
  date : Option Bytes
  payloadSigning : Option Bool
  contentChecksum : Option Bool
  uriEncodePath : Option Bool
  deriving DecidableEq, Repr

/-- `AWSCredentialsIdentity` (aws_sdk_signers/_identity.py); `expired` is `is_expired` when it is
asked for. -/
structure Identity where
  accessKey : Bytes
  secretKey : Bytes
  token : Option Bytes
  expired : Bool
  deriving DecidableEq, Repr

inductive Error where
  | valueError
  | typeError
  deriving DecidableEq, Repr

/-- Which signer. -/
inductive Variant where
  | sync | async
  deriving DecidableEq, Repr

/-! ## Header collections -/

variable (lib : Lib)

/-- The collection at an address. -/
def World.coll (w : World) (c : Nat) : Dict Bytes := (w.colls[c]?).getD []

/-- Its fields, in order (`Fields.__iter__`, _http.py:208-209). -/
def World.fields (w : World) (c : Nat) : List (Field Bytes) := Fields.fields w.objs (w.coll c)

/-- `collection.set_field(Field(name, values))` for a new field (_http.py:138-151). -/
def World.setField (w : World) (c : Nat) (name : Bytes) (values : List Bytes) : World :=
  { w with
    objs := w.objs ++ [⟨name, values, .header⟩]
    colls := w.colls.modify c fun d => d.set (lib.lower name) w.objs.length }

/-- `name in collection` (_http.py:217-218). -/
def World.contains (w : World) (c : Nat) (name : Bytes) : Bool :=
  ((w.coll c).get (lib.lower name)).isSome

/-- `collection[name]` (_http.py:158-161); `none` is the `KeyError`. -/
def World.get (w : World) (c : Nat) (name : Bytes) : Option (Field Bytes) :=
  ((w.coll c).get (lib.lower name)).bind fun a => w.objs[a]?

/-- `quote_and_escape_field_value` (_http.py:372-383). -/
def quoteValue (v : Bytes) : Bytes :=
  if ch ',' ∈ v ∨ ch '"' ∈ v then
    [ch '"'] ++ (v.flatMap fun b =>
      if b = ch '\\' then [ch '\\', ch '\\'] else if b = ch '"' then [ch '\\', ch '"'] else [b]) ++
      [ch '"']
  else v

/-- `Field.as_string` (_http.py:65-83). -/
def asString (values : List Bytes) : Bytes :=
  match values with
  | [] => []
  | [v] => v
  | vs => join (ch ',') (vs.map quoteValue)

/-- The objects of a collection copied one by one, the copies going to the end of the heap. -/
def copyFields (objs : Heap Bytes) : Dict Bytes → Heap Bytes × Dict Bytes
  | [] => (objs, [])
  | (k, a) :: d =>
    match objs[a]? with
    | some f =>
      let r := copyFields (objs ++ [f]) d
      (r.1, (k, objs.length) :: r.2)
    | none => copyFields objs d

/-- `deepcopy(request)` (_http.py:353-369): the fields are copied, destination and body are shared. -/
def copyRequest (w : World) (r : Request) : World × Request :=
  let copy := copyFields w.objs (w.coll r.fields)
  ({ w with objs := copy.1, colls := w.colls ++ [copy.2] }, { r with fields := w.colls.length })

/-! ## Bodies -/

/-- What iterating over a body yields. -/
def Body.pending : Body → Bytes
  | .file content pos => content.drop pos
  | .iterator rest => rest.flatten
  | .chunks all => all.flatten
  | .foreign => []

/-- A body after iterating over it. -/
def Body.drain : Body → Body
  | .file content pos => .file content (max pos content.length)
  | .iterator _ => .iterator []
  | b => b

/-- `body.seek(position)`. -/
def Body.seek (pos : Nat) : Body → Body
  | .file content _ => .file content pos
  | b => b

/-! ## The canonical request -/

def nl : UInt8 := 10

/-- `HEADERS_EXCLUDED_FROM_SIGNING` (signers.py:26-34). -/
def excludedHeaders : List Bytes :=
  [asc "accept", asc "accept-encoding", asc "authorization", asc "connection", asc "expect",
    asc "user-agent", asc "x-amzn-trace-id"]

/-- `DEFAULT_PORTS.get(scheme)` (35). -/
def defaultPort (scheme : Bytes) : Option Nat :=
  if scheme = asc "http" then some 80 else if scheme = asc "https" then some 443 else none

/-- `URI.netloc` (_http.py:249-275). -/
def netloc (u : Destination) : Bytes :=
  let userinfo := match u.username with
    | some name => name ++ (match u.password with | some p => [ch ':'] ++ p | none => []) ++ [ch '@']
    | none => []
  let port := match u.port with | some p => [ch ':'] ++ lib.decimal p | none => []
  userinfo ++ u.host ++ port

/-- `_normalize_host_field` (signers.py:344-349). -/
def hostField (u : Destination) : Bytes :=
  if u.port.isSome && defaultPort u.scheme = u.port then netloc lib { u with port := none }
  else netloc lib u

/-- A `dict` from strings to strings: assignment keeps the place of an existing key. -/
def assign (d : List (Bytes × Bytes)) (k v : Bytes) : List (Bytes × Bytes) :=
  if d.any (fun x => x.1 = k) then d.map fun x => if x.1 = k then (k, v) else x else d ++ [(k, v)]

/-- `_normalize_signing_fields` (326-337). -/
def signingFields (dest : Destination) (fs : List (Field Bytes)) : List (Bytes × Bytes) :=
  let signable := fs.filter fun f => lib.lower f.name ∉ excludedHeaders
  let d := signable.foldl (fun d f => assign d (lib.lower f.name) (asString f.values)) []
  let d := if d.any (fun x => x.1 = asc "host") then d
    else d ++ [(asc "host", hostField lib dest)]
  sortPairs d

/-- `_format_canonical_path` (302-312). -/
def canonicalPath (path : Option Bytes) (p : Properties) : Bytes :=
  let path := path.getD (asc "/")
  if p.uriEncodePath.getD true then quote slashSafe (removeDots path true)
  else removeDots path false

/-- `_format_canonical_fields` (351-354). -/
def canonicalFields (fields : List (Bytes × Bytes)) : Bytes :=
  fields.flatMap fun x => x.1 ++ [ch ':'] ++ join (ch ' ') (lib.words x.2) ++ [nl]

def unsignedPayload : Bytes := asc "UNSIGNED-PAYLOAD"
def eventStreamType : Bytes := asc "application/vnd.amazon.eventstream"
def eventStreamHash : Bytes := asc "STREAMING-AWS4-HMAC-SHA256-EVENTS"
def emptyHash : Bytes := asc "e3b0c44298fc1c149afbf4c8996fb92427ae41e4649b934ca495991b7852b855"

/-- The buffer that replaces a body which cannot be repositioned: an `io.BytesIO` (416-421) or an
`AsyncBytesReader` around one (807-812), which cannot be repositioned either. -/
def bufferOf (v : Variant) (content : Bytes) : Body :=
  match v with
  | .sync => .file content 0
  | .async => .iterator [content]

/-- `_compute_payload_hash` (383-422, with 356-366; 775-813).  The buffer that replaces the body is a
new object.  An address without body (there is none in a program) is treated like a body of the wrong
kind. -/
def payloadHash (v : Variant) (w : World) (r : Request) (p : Properties) :
    World × Except Error (Request × Bytes) :=
  if r.destination.scheme = asc "https" && !p.payloadSigning.getD true then
    (w, .ok (r, unsignedPayload))
  else
    match r.body with
    | none => (w, .ok (r, emptyHash))
    | some b =>
      match (w.bodies[b]?).getD .foreign with
      | .foreign => (w, .error .typeError)
      | .file content pos =>
        let drained := w.bodies.modify b Body.drain
        ({ w with bodies := drained.modify b (Body.seek pos) },
          .ok (r, lib.sha256 (Body.file content pos).pending))
      | body =>
        let bodies := w.bodies.modify b Body.drain
        ({ w with bodies := bodies ++ [bufferOf v body.pending] },
          .ok ({ r with body := some bodies.length }, lib.sha256 body.pending))

/-- The part of `_format_canonical_payload` the two signers share (374-381, 766-773). -/
def hashedPayload (v : Variant) (w : World) (r : Request) (p : Properties) :
    World × Except Error (Request × Bytes) :=
  match payloadHash lib v w r p with
  | (w, .error e) => (w, .error e)
  | (w, .ok (r, hash)) =>
    (if p.contentChecksum.getD false then w.setField lib r.fields (asc "X-Amz-Content-SHA256") [hash]
      else w, .ok (r, hash))

/-- `_format_canonical_payload` (368-381; 748-773 of the asynchronous signer, which takes a hash
already present and does not hash event streams). -/
def canonicalPayload (v : Variant) (w : World) (r : Request) (p : Properties) :
    World × Except Error (Request × Bytes) :=
  match v with
  | .sync => hashedPayload lib v w r p
  | .async =>
    match (w.get lib r.fields (asc "X-Amz-Content-SHA256")).map Field.values with
    | some [hash] => (w, .ok (r, hash))
    | _ =>
      if (w.get lib r.fields (asc "Content-Type")).map (fun f => asString f.values) =
          some eventStreamType then
        (w.setField lib r.fields (asc "X-Amz-Content-SHA256") [eventStreamHash],
          .ok (r, eventStreamHash))
      else hashedPayload lib v w r p

/-- The text of the canonical request (248-255). -/
def canonicalText (dest : Destination) (method : Bytes) (fs : List (Field Bytes)) (p : Properties)
    (payload : Bytes) : Bytes :=
  let fields := signingFields lib dest fs
  lib.upper method ++ [nl] ++ canonicalPath dest.path p ++ [nl] ++
    canonicalQuery lib.decode dest.query ++ [nl] ++ canonicalFields lib fields ++ [nl] ++
    join (ch ';') (fields.map Prod.fst) ++ [nl] ++ payload

/-- `canonical_request` (216-255). -/
def canonicalRequest (v : Variant) (w : World) (r : Request) (p : Properties) :
    World × Except Error (Request × Bytes) :=
  match canonicalPayload lib v w r p with
  | (w, .error e) => (w, .error e)
  | (w, .ok (r, payload)) =>
    (w, .ok (r, canonicalText lib r.destination r.method (w.fields r.fields) p payload))

/-! ## The signature -/

/-- `_scope` (294-300).  A date is ASCII text, so that its first eight characters are its first eight
bytes. -/
def scope (date : Bytes) (p : Properties) : Bytes :=
  date.take 8 ++ [ch '/'] ++ p.region ++ [ch '/'] ++ p.service ++ asc "/aws4_request"

/-- `string_to_sign` (257-292). -/
def stringToSign (date : Bytes) (p : Properties) (canonical : Bytes) : Bytes :=
  asc "AWS4-HMAC-SHA256" ++ [nl] ++ date ++ [nl] ++ scope date p ++ [nl] ++ lib.sha256 canonical

/-- `_signature` (135-163). -/
def signature (secret date : Bytes) (p : Properties) (text : Bytes) : Bytes :=
  let kDate := lib.hmac (asc "AWS4" ++ secret) (date.take 8)
  let kRegion := lib.hmac kDate p.region
  let kService := lib.hmac kRegion p.service
  let kSigning := lib.hmac kService (asc "aws4_request")
  lib.hex (lib.hmac kSigning text)

/-- The value `generate_authorization_field` makes (113-133). -/
def authorization (credential : Bytes) (signed : List Bytes) (sig : Bytes) : Bytes :=
  asc "AWS4-HMAC-SHA256 Credential=" ++ credential ++ asc ", SignedHeaders=" ++
    join (ch ';') signed ++ asc ", Signature=" ++ sig

/-- `_apply_required_fields` (194-214). -/
def applyRequired (w : World) (c : Nat) (date : Bytes) (ident : Identity) : World :=
  let w := if w.contains lib c (asc "Date") || w.contains lib c (asc "X-Amz-Date") then w
    else w.setField lib c (asc "X-Amz-Date") [date]
  match ident.token with
  | none => w
  | some token => if w.contains lib c (asc "X-Amz-Security-Token") then w
    else w.setField lib c (asc "X-Amz-Security-Token") [token]

/-- `sign` (56-111); `now` is the clock as text. -/
def sign (v : Variant) (now : Bytes) (w : World) (r : Request) (ident : Identity) (p : Properties) :
    World × Except Error Request :=
  if ident.expired then (w, .error .valueError)
  else
    let date := p.date.getD now
    let copy := copyRequest w r
    let w := applyRequired lib copy.1 copy.2.fields date ident
    match canonicalRequest lib v w copy.2 p with
    | (w, .error e) => (w, .error e)
    | (w, .ok (r, canonical)) =>
      let sig := signature lib ident.secretKey date p (stringToSign lib date p canonical)
      let fields := signingFields lib r.destination (w.fields r.fields)
      let credential := ident.accessKey ++ [ch '/'] ++ scope date p
      (w.setField lib r.fields (asc "Authorization")
        [authorization credential (fields.map Prod.fst) sig], .ok r)

end Verif.Signing

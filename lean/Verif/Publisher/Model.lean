import Verif.EventStream.Model

/-!
# Model of the event publisher, receiver and event signer

Line numbers refer to
`/repo/packages/smithy-aws-event-stream/src/smithy_aws_event_stream/aio/__init__.py` (P) and
`/repo/packages/aws-sdk-signers/src/aws_sdk_signers/signers.py` (S).

The publisher is modelled with its concurrency: any number of `send` and `close` calls may be in
progress.  A coroutine runs without interruption between suspension points; these are the waits for the
identity, for the writer's `write` and for the writer's `close`.  `AsyncEventSigner._sign_payload`
takes a lock but its body never suspends (the coroutines it awaits contain no suspension point), so it
is atomic.  Cancellation of a call is not modelled.
-/

set_option autoImplicit false

namespace Verif.Publisher
open Verif.EventStream

/-- The hash functions used (S 956-957, 976-977: `sha256`, `hmac.new(..., sha256)`), left abstract except for
the length of the digest. -/
structure Crypto where
  sha256 : Bytes → Bytes
  hmac : Bytes → Bytes → Bytes
  hmac_length : ∀ k m, (hmac k m).length = 32

/-- The hex digit of a number below 16. -/
def hexDigit (n : Nat) : UInt8 := if n < 10 then UInt8.ofNat (48 + n) else UInt8.ofNat (87 + n)

/-- `binascii.hexlify` (S 936) and `hexdigest` (S 956-957) as bytes. -/
def hexlify (b : Bytes) : Bytes :=
  b.flatMap fun x => [hexDigit (x.toNat / 16), hexDigit (x.toNat % 16)]

/-- Signing configuration (P 31-37): the parts of the signing properties that enter the signature.
`date` is the optional fixed date (S 906); `format` is `strftime(SIGV4_TIMESTAMP_FORMAT)` of the current
time (S 907-909), left abstract. -/
structure SignCfg where
  crypto : Crypto
  region : Bytes
  service : Bytes
  date : Option Bytes
  format : Int → Bytes

/-- ASCII text as bytes. -/
def ascii (s : String) : Bytes := utf8Encode s

/-- `_scope` (S 979-985). -/
def scope (c : SignCfg) (timestamp : Bytes) : Bytes :=
  timestamp.take 8 ++ ascii "/" ++ c.region ++ ascii "/" ++ c.service ++ ascii "/aws4_request"

/-- `_event_string_to_sign` (S 942-958), as UTF-8. -/
def stringToSign (c : SignCfg) (timestamp encodedHeaders payload prior : Bytes) : Bytes :=
  ascii "AWS4-HMAC-SHA256-PAYLOAD\n" ++ timestamp ++ ascii "\n" ++ scope c timestamp ++ ascii "\n" ++
    prior ++ ascii "\n" ++ hexlify (c.crypto.sha256 encodedHeaders) ++ ascii "\n" ++
    hexlify (c.crypto.sha256 payload)

/-- `_sign_event` (S 960-977). -/
def signEvent (c : SignCfg) (secret timestamp sts : Bytes) : Bytes :=
  let kDate := c.crypto.hmac (ascii "AWS4" ++ secret) (timestamp.take 8)
  let kRegion := c.crypto.hmac kDate c.region
  let kService := c.crypto.hmac kRegion c.service
  let kSigning := c.crypto.hmac kService (ascii "aws4_request")
  c.crypto.hmac kSigning sts

/-- State of `AsyncEventSigner` (S 828-838). -/
structure Signer where
  prior : Bytes
  finalized : Bool := false
  deriving DecidableEq, Repr

/-- Exceptions a call can end with. -/
inductive PErr
  | osError          -- P 56, P 81
  | serialize        -- raised by the serializer or P 61
  | codec (e : Err)  -- raised by `encode`
  | signerFinalized  -- S 894-898
  | identity         -- raised by the identity resolver
  | write            -- raised by the writer (only seen from `close`)
  | closeWriter      -- raised by the writer's `close`
  deriving DecidableEq, Repr

/-- `_sign_payload` (S 884-940) at the moment `now` (microseconds): the signed message and the new
signer state. -/
def signPayload (c : SignCfg) (s : Signer) (secret : Bytes) (now : Int) (payload : Bytes)
    (isFinal : Bool) : Except PErr (EventMessage × Signer) :=
  if s.finalized then .error .signerFinalized
  else
    let timestamp := c.date.getD (c.format now)
    match ({} : HEnc).encodeHeaders [(":date", .timestamp now)] with
    | (_, some x) => .error (.codec x)
    | (e, none) =>
      match e.getResult with
      | .error x => .error (.codec x)
      | .ok encodedHeaders =>
        let sig := signEvent c secret timestamp
          (stringToSign c timestamp encodedHeaders payload s.prior)
        .ok ({ headers := [(":date", .timestamp now), (":chunk-signature", .blob sig)], payload },
          { prior := hexlify sig, finalized := isFinal })

/-- `sign` (S 840-852): the event's encoding becomes the payload. -/
def sign (c : SignCfg) (s : Signer) (secret : Bytes) (now : Int) (event : EventMessage) :
    Except PErr (EventMessage × Signer) :=
  match event.encode with
  | .error x => .error (.codec x)
  | .ok payload => signPayload c s secret now payload false

/-- `sign_empty` (S 854-882), applied to an empty event. -/
def signEmpty (c : SignCfg) (s : Signer) (secret : Bytes) (now : Int) :
    Except PErr (EventMessage × Signer) :=
  signPayload c s secret now [] true

/-! ## Publisher -/

/-- Who called `close`: the user, or `send` after a failed write (P 80). -/
inductive Caller
  | user
  | failedSend
  deriving DecidableEq, Repr

/-- Where a call in progress is suspended. -/
inductive Phase
  | sendIdentity (m : EventMessage)            -- P 66
  | sendWrite                                  -- P 78
  | closeIdentity (by_ : Caller)               -- P 92
  | closeWrite (by_ : Caller)                  -- P 103
  | closeWriter (by_ : Caller) (pending : Option PErr)  -- P 107; the exception re-raised by `finally`
  | done (result : Option PErr)
  deriving DecidableEq, Repr

/-- What the publisher does to its writer. -/
inductive Out
  | write (b : Bytes)
  | close
  deriving DecidableEq, Repr

/-- Publisher state (P 39-52) with the calls in progress and the calls made on the writer. -/
structure St where
  closed : Bool := false
  signer : Signer
  tasks : List Phase := []
  out : List Out := []
  deriving DecidableEq, Repr

/-- What can happen next: a call is made, or a suspended call resumes with the outcome of what it was
waiting for.  `send` carries what the serializer produced (P 58-63). -/
inductive Act
  | send (serialized : Option EventMessage)
  | close
  | identity (task : Nat) (secret : Option Bytes) (now : Int)
  | finished (task : Nat) (ok : Bool)
  deriving DecidableEq, Repr

/-- Set the phase of a task. -/
def St.setTask (s : St) (i : Nat) (p : Phase) : St := { s with tasks := s.tasks.set i p }

/-- Start writing (P 78, P 103): the call on the writer is made, then the task waits. -/
def St.write (s : St) (b : Bytes) : St := { s with out := s.out ++ [.write b] }

/-- The `finally` of `close` (P 104-107). -/
def St.finallyClose (s : St) (i : Nat) (c : Caller) (pending : Option PErr) : St :=
  St.setTask { s with out := s.out ++ [.close] } i (.closeWriter c pending)

/-- The result of the whole call once `close` has ended with `r`: a failing `close` inside `send`
propagates, otherwise `send` raises `OSError` (P 80-81). -/
def closeResult : Caller → Option PErr → Option PErr
  | .user, r => r
  | .failedSend, some e => some e
  | .failedSend, none => some .osError

/-- `close` (P 83-92) up to its first suspension, in task `i`. -/
def St.startClose (cfg : Option SignCfg) (s : St) (i : Nat) (c : Caller) : St :=
  if s.closed then s.setTask i (.done (closeResult c none))
  else
    let s := { s with closed := true }
    match cfg with
    | some _ => s.setTask i (.closeIdentity c)
    | none => s.finallyClose i c none

/-- `result.encode()` and the start of the write (P 75-78). -/
def St.encodeAndWrite (s : St) (i : Nat) (m : EventMessage) : St :=
  match m.encode with
  | .error x => s.setTask i (.done (some (.codec x)))
  | .ok b => (s.write b).setTask i .sendWrite

/-- One step of the publisher. -/
def step (cfg : Option SignCfg) (s : St) (a : Act) : St :=
  match a with
  | .send ser =>
    let i := s.tasks.length
    -- P 55-56, P 58-63
    if s.closed then { s with tasks := s.tasks ++ [.done (some .osError)] }
    else
      match ser with
      | none => { s with tasks := s.tasks ++ [.done (some .serialize)] }
      | some m =>
        match cfg with
        | some _ => { s with tasks := s.tasks ++ [.sendIdentity m] }
        | none => St.encodeAndWrite { s with tasks := s.tasks ++ [.sendWrite] } i m
  | .close =>
    let i := s.tasks.length
    St.startClose cfg { s with tasks := s.tasks ++ [.done none] } i .user
  | .identity i secret now =>
    match cfg with
    | none => s
    | some c =>
      match s.tasks[i]? with
      | some (.sendIdentity m) =>
        match secret with
        | none => s.setTask i (.done (some .identity))
        | some k =>
          match sign c s.signer k now m with
          | .error x => s.setTask i (.done (some x))
          | .ok (m', signer) => { s with signer }.encodeAndWrite i m'
      | some (.closeIdentity by_) =>
        match secret with
        | none => s.finallyClose i by_ (some .identity)
        | some k =>
          match signEmpty c s.signer k now with
          | .error x => s.finallyClose i by_ (some x)
          | .ok (m', signer) =>
            let s := { s with signer }
            match m'.encode with
            | .error x => s.finallyClose i by_ (some (.codec x))
            | .ok b => (s.write b).setTask i (.closeWrite by_)
      | _ => s
  | .finished i ok =>
    match s.tasks[i]? with
    | some .sendWrite =>
      if ok then s.setTask i (.done none) else s.startClose cfg i .failedSend
    | some (.closeWrite by_) => s.finallyClose i by_ (if ok then none else some .write)
    | some (.closeWriter by_ pending) =>
      s.setTask i (.done (closeResult by_ (if ok then pending else some .closeWriter)))
    | _ => s

/-- A publisher just constructed (P 39-52) with a signer holding the request's signature. -/
def St.init (initial : Bytes) : St := { signer := { prior := initial } }

/-- Run a publisher through a sequence of happenings. -/
def run (cfg : Option SignCfg) (initial : Bytes) (acts : List Act) : St :=
  acts.foldl (step cfg) (St.init initial)

/-! ## Receiver -/

/-- State of `AWSEventReceiver` (P 114-126) over a source holding `src`. -/
structure RSt where
  src : Bytes
  closed : Bool := false
  sourceClosed : Nat := 0
  deriving DecidableEq, Repr

/-- What `receive` ends with. `ε` are the exceptions and `α` the values of the event deserializer. -/
inductive RRes (α ε : Type)
  | value (v : α)
  | none
  | eventError (e : Err)
  | osError
  | raised (e : ε)
  deriving DecidableEq, Repr

/-- `close` (P 157-164). -/
def RSt.close (s : RSt) : RSt :=
  if s.closed then s else { s with closed := true, sourceClosed := s.sourceClosed + 1 }

/-- `receive` (P 128-155).  `deser` stands for the event deserializer and the check for an
exception-valued event (P 143-155); it sees only the event. -/
def receive {α ε : Type} (deser : Event → Except ε α) (s : RSt) : RRes α ε × RSt :=
  if s.closed then (.none, s)
  else
    match Event.decode s.src with
    | (.error x, rest) =>
      (if x.isEventError then .eventError x else .osError, { s with src := rest }.close)
    | (.ok none, rest) => (.none, { s with src := rest })
    | (.ok (some e), rest) =>
      match deser e with
      | .ok v => (.value v, { s with src := rest })
      | .error x => (.raised x, { s with src := rest })

/-- A call on a receiver. -/
inductive ROp
  | receive
  | close
  deriving DecidableEq, Repr

/-- Run calls on a receiver; the results of the `receive` calls in order. -/
def runR {α ε : Type} (deser : Event → Except ε α) (s : RSt) : List ROp → List (RRes α ε) × RSt
  | [] => ([], s)
  | .close :: ops => runR deser s.close ops
  | .receive :: ops =>
    let (r, s') := receive deser s
    let (rs, s'') := runR deser s' ops
    (r :: rs, s'')

end Verif.Publisher

import Verif.Publisher.Model
import Verif.EventStream.Spec

/-! Specification vocabulary for the publisher, the receiver and the signature chain. -/

set_option autoImplicit false

namespace Verif.Publisher.Spec
open Verif.EventStream Verif.EventStream.Spec Verif.Publisher

/-- No call on the writer comes after a `close` of the writer. -/
def NothingAfterClose (out : List Out) : Prop := ∀ a b, out = a ++ .close :: b → b = []

/-- No call is in progress. -/
def Idle (s : St) : Prop := ∀ p ∈ s.tasks, ∃ r, p = .done r

/-- The action is a call made by the user (and not the progress of an earlier one). -/
def IsCall : Act → Prop
  | .send _ | .close => True
  | _ => False

/-- Calls are made one after the other: a call is made only when no other is in progress. -/
def Sequential (cfg : Option SignCfg) (initial : Bytes) (acts : List Act) : Prop :=
  ∀ pre a post, acts = pre ++ a :: post → IsCall a → Idle (run cfg initial pre)

/-- A moment a `datetime` can represent (microseconds since the epoch). -/
def IsDatetime (now : Int) : Prop := -62135596800000000 ≤ now ∧ now ≤ 253402300799999999

/-- The byte strings handed to the writer, in order. -/
def written (out : List Out) : List Bytes :=
  out.filterMap fun | .write b => some b | .close => none

/-- The payload a signed frame carries: the encoding of an event, or nothing for the end frame. -/
def IsPayload : Option EventMessage → Bytes → Prop
  | some m, pl => m.encode = .ok pl
  | none, pl => pl = []

/-- The events that `send` was called with, in order of the calls. -/
def sent (acts : List Act) : List EventMessage :=
  acts.filterMap fun | .send (some m) => some m | _ => none

/-- Lower-case hexadecimal text of a byte string: two digits a byte, high half first. -/
def hex (b : Bytes) : Bytes :=
  let digits := utf8Encode "0123456789abcdef"
  (b.map fun x => [digits.getD (x.toNat / 16) 0, digits.getD (x.toNat % 16) 0]).flatten

/-- AWS SigV4 credential scope. -/
def credentialScope (c : SignCfg) (timestamp : Bytes) : Bytes :=
  (utf8Encode "/").intercalate [timestamp.take 8, c.region, c.service, utf8Encode "aws4_request"]

/-- AWS SigV4 string to sign of one event: six lines. -/
def eventStringToSign (c : SignCfg) (timestamp prior hdr pl : Bytes) : Bytes :=
  (utf8Encode "\n").intercalate [utf8Encode "AWS4-HMAC-SHA256-PAYLOAD", timestamp,
    credentialScope c timestamp, prior, hex (c.crypto.sha256 hdr), hex (c.crypto.sha256 pl)]

/-- AWS SigV4 signing key: the secret, then date, region, service and a constant, each keyed with the
digest before it. -/
def signingKey (c : SignCfg) (secret timestamp : Bytes) : Bytes :=
  [timestamp.take 8, c.region, c.service, utf8Encode "aws4_request"].foldl c.crypto.hmac
    (utf8Encode "AWS4" ++ secret)

/-- `Chain c p evs frames q`: `frames` are the signed frames of the events `evs`, the first signed with
previous signature `p`, each following one with the signature of the one before; `q` is the last one. -/
inductive Chain (c : SignCfg) : Bytes → List (Option EventMessage) → List Bytes → Bytes → Prop
  | nil {p} : Chain c p [] [] p
  | cons {p q secret timestamp hdr pl sig frame ev evs frames} {now : Int} :
      timestamp = c.date.getD (c.format now) →
      WireHeaders [(":date", .timestamp now)] hdr →
      IsPayload ev pl →
      sig = c.crypto.hmac (signingKey c secret timestamp) (eventStringToSign c timestamp p hdr pl) →
      EventMessage.encode ⟨[(":date", .timestamp now), (":chunk-signature", .blob sig)], pl⟩ =
        .ok frame →
      Chain c (hex sig) evs frames q →
      Chain c p (ev :: evs) (frame :: frames) q

end Verif.Publisher.Spec

import Verif.EventStream.Props
import Verif.Dict
import Verif.Common

/-!
# Events as shapes (C81)

`EventSerializer` (smithy_aws_event_stream/_private/serializers.py:34-179), which turns an event of a union into a
message, and `EventDeserializer` (_private/deserializers.py:30-181), which turns a message into an event, with the
union's generated deserializer (codegen UnionGenerator.java:160-200).  The frame in between is that of `Verif.EventStream`.
-/

set_option autoImplicit false

namespace Verif.EventStream.Shapes

open Verif.EventStream Verif.EventStream.Spec
open Verif.Dict (put update)

/-! ## Model -/

/-- The shapes of members that are told apart: those that a header can hold (an integer enumeration is written and
read as an integer), and all others. -/
inductive Kind
  | boolean | byte | short | integer | long | string | enum | blob | timestamp | other
  deriving DecidableEq, Repr

/-- A member of an event, with its event header, event payload and media type traits. -/
structure Member where
  name : String
  kind : Kind
  header : Bool := false
  payload : Bool := false
  mediaType : Option String := none
  deriving DecidableEq, Repr

/-- A structure: an event or an error of a union if it has a member name, else an input or output. -/
structure Struct where
  name : Option String
  error : Bool := false
  members : List Member
  deriving DecidableEq, Repr

/-- Values of members. Timestamps are microseconds since 1970; `other` is for what only a codec looks into. -/
inductive Val
  | bool (b : Bool)
  | int (i : Int)
  | str (s : String)
  | blob (b : Bytes)
  | timestamp (us : Int)
  | other (id : Nat)
  deriving DecidableEq, Repr

/-- Errors: those of the frame codec, `ExpectationNotMetError`, the error for a shape that cannot be written or read
here, `UnmodeledEventError`, `EventError` for an unknown message type, and errors of the payload codec. -/
inductive SErr
  | frame (e : Err)
  | expectation
  | shape
  | unmodeled (code message : String)
  | unknownMessage
  | keyError
  | codec
  deriving DecidableEq, Repr

/-- The payload codec: its media type; what it writes for a structure with these members, and for values written one
after the other; and the members it finds in a document. -/
structure Codec (V : Type) where
  mediaType : String
  encodeStruct : List (Member × Val) → Bytes
  encodeValues : List (Member × Val) → Bytes
  decode : Bytes → List Member → Except Unit (List (Member × V))

variable {V : Type}

/-- `get_payload_member` (_private/__init__.py:10-14). -/
def payloadMember (ms : List Member) : Option Member := ms.find? fun m => m.payload

/-- `EventHeaderSerializer` (serializers.py:117-150): the header for a value.  A value that is not of the type of its
shape is refused here; in Python it would be written as what it is. -/
def headerValue : Kind → Val → Except SErr HeaderValue
  | .boolean, .bool b => .ok (.bool b)
  | .byte, .int i => .ok (.byte i)
  | .short, .int i => .ok (.short i)
  | .integer, .int i => .ok (.int i)
  | .long, .int i => .ok (.long i)
  | .string, .str s => .ok (.str s)
  | .enum, .str s => .ok (.str s)
  | .blob, .blob b => .ok (.blob b)
  | .timestamp, .timestamp us => .ok (.timestamp us)
  | .other, _ => .error (.frame .invalidHeaderValue)
  | _, _ => .error .shape

/-- The writes that go to headers (serializers.py:173-176), in order. -/
def headerEntries : List (Member × Val) → Except SErr (List (String × HeaderValue))
  | [] => .ok []
  | (m, v) :: ws =>
    if m.header then
      match headerValue m.kind v with
      | .error e => .error e
      | .ok h =>
        match headerEntries ws with
        | .error e => .error e
        | .ok hs => .ok ((m.name, h) :: hs)
    else headerEntries ws

/-- The writes that go to the payload. -/
def payloadWrites (ws : List (Member × Val)) : List (Member × Val) := ws.filter fun w => !w.1.header

/-- `RawPayloadSerializer` (serializers.py:153-161). -/
def rawPayload : List (Member × Val) → Except SErr Bytes
  | [] => .ok []
  | (m, .str s) :: ws =>
    if m.kind = .string ∨ m.kind = .enum then (rawPayload ws).map (utf8Encode s ++ ·) else .error .shape
  | (m, .blob b) :: ws => if m.kind = .blob then (rawPayload ws).map (b ++ ·) else .error .shape
  | _ :: _ => .error .shape

/-- `_get_payload_media_type` (serializers.py:104-114). -/
def payloadMediaType (default : String) (m : Member) : String :=
  match m.mediaType with
  | some t => t
  | none =>
    match m.kind with
    | .string => "text/plain"
    | .blob => "application/octet-stream"
    | _ => default

/-- The payload and its media type (serializers.py:80-98). -/
def payloadOf (c : Codec V) (ms : List Member) (ws : List (Member × Val)) : Except SErr (Bytes × String) :=
  match payloadMember ms with
  | none => .ok (c.encodeStruct (payloadWrites ws), c.mediaType)
  | some pm =>
    if pm.kind = .blob ∨ pm.kind = .string then
      (rawPayload (payloadWrites ws)).map fun b => (b, payloadMediaType c.mediaType pm)
    else .ok (c.encodeValues (payloadWrites ws), payloadMediaType c.mediaType pm)

/-- The headers every message starts with (serializers.py:65-78). -/
def firstHeaders (clientMode : Bool) (s : Struct) : Except SErr (List (String × HeaderValue)) :=
  if s.error then
    match s.name with
    | none => .error .expectation
    | some n => .ok [(":message-type", .str "exception"), (":exception-type", .str n)]
  else .ok [(":message-type", .str "event"),
    (":event-type", .str (s.name.getD (if clientMode then "initial-request" else "initial-response")))]

/-- `EventSerializer.begin_struct` (serializers.py:52-102) of an event, or of an input or output; `ws` are the members
that are written.  Header and payload writes are told apart before anything is written, which only matters for which
of two errors is raised. -/
def serialize (c : Codec V) (clientMode : Bool) (s : Struct) (ws : List (Member × Val)) :
    Except SErr EventMessage :=
  match firstHeaders clientMode s, headerEntries ws, payloadOf c s.members ws with
  | .ok first, .ok entries, .ok (payload, mediaType) =>
    let headers := update first entries
    let headers := if payload = [] then headers else put headers ":content-type" (.str mediaType)
    match EventMessage.mk? headers payload with
    | .ok m => .ok m
    | .error e => .error (.frame e)
  | .error e, _, _ => .error e
  | _, .error e, _ => .error e
  | _, _, .error e => .error e

/-- What a consumer is handed to read a member from. -/
inductive Source (V : Type)
  | header (v : HeaderValue)
  | raw (b : Bytes)
  | document (b : Bytes)
  | value (v : V)
  deriving DecidableEq, Repr

/-- The members that have a header, in the order of the headers (deserializers.py:138-142). -/
def headerCalls (ms : List Member) : List (String × HeaderValue) → List (Member × Source V)
  | [] => []
  | (k, v) :: hs =>
    match ms.find? fun m => m.name = k with
    | some m => if m.header then (m, .header v) :: headerCalls ms hs else headerCalls ms hs
    | none => headerCalls ms hs

/-- `EventMessageDeserializer.read_struct` (deserializers.py:133-148), with the deserializer of the payload
(deserializers.py:96-108). -/
def readMembers (c : Codec V) (ms : List Member) (msg : EventMessage) : Except SErr (List (Member × Source V)) :=
  if msg.payload = [] then .ok (headerCalls ms msg.headers)
  else
    match payloadMember ms with
    | some pm =>
      if pm.kind = .blob ∨ pm.kind = .string then .ok (headerCalls ms msg.headers ++ [(pm, .raw msg.payload)])
      else .ok (headerCalls ms msg.headers ++ [(pm, .document msg.payload)])
    | none =>
      match c.decode msg.payload ms with
      | .error _ => .error .codec
      | .ok vs => .ok (headerCalls ms msg.headers ++ vs.map fun v => (v.1, .value v.2))

/-- The schema that a message is read for: a union with its variants, or a structure with its members. -/
inductive Target
  | union (variants : List Struct)
  | structure (s : Struct)

/-- What is read: a variant of the union with the calls for its members, a variant that is not known (the generated
deserializer keeps its name), or the members of an initial message. -/
inductive Outcome (V : Type)
  | variant (s : Struct) (calls : List (Member × Source V))
  | unknown (name : String)
  | initial (calls : List (Member × Source V))
  deriving DecidableEq, Repr

/-- `expect_type(str, headers[key])`. -/
def expectStr (headers : List (String × HeaderValue)) (key : String) : Except SErr String :=
  match headers.lookup key with
  | some (.str s) => .ok s
  | some _ => .error .expectation
  | none => .error .keyError

/-- `schema.members.get(name)`. -/
def variantNamed (vs : List Struct) (n : String) : Option Struct := vs.find? fun s => s.name = some n

/-- `EventDeserializer.read_struct` (deserializers.py:38-87) followed by the consumer.  A structure is taken to have
no member that is named by an event; where the schema is a union, an initial message has no headers to read and
its payload is read as the union's. -/
def readEvent (c : Codec V) (t : Target) (msg : EventMessage) : Except SErr (Outcome V) :=
  match msg.headers.lookup ":message-type" with
  | some (.str mt) =>
    if mt = "event" then
      match expectStr msg.headers ":event-type" with
      | .error e => .error e
      | .ok n =>
        if n = "initial-request" ∨ n = "initial-response" then
          (readMembers c (match t with | .union _ => [] | .structure s => s.members) msg).map .initial
        else
          match t with
          | .structure _ => .ok (.unknown n)
          | .union vs =>
            match variantNamed vs n with
            | some s => (readMembers c s.members msg).map (.variant s)
            | none => .ok (.unknown n)
    else if mt = "exception" then
      match expectStr msg.headers ":exception-type" with
      | .error e => .error e
      | .ok n =>
        match t with
        | .structure _ => .error .keyError
        | .union vs =>
          match variantNamed vs n with
          | some s => (readMembers c s.members msg).map (.variant s)
          | none => .error .keyError
    else if mt = "error" then
      match expectStr msg.headers ":error-code", expectStr msg.headers ":error-message" with
      | .ok code, .ok message => .error (.unmodeled code message)
      | .error e, _ => .error e
      | _, .error e => .error e
    else .error .unknownMessage
  | _ => .error .unknownMessage

/-- `EventHeaderDeserializer` (deserializers.py:151-181): the value of a header.  Every integer is an `int`, and so is
a boolean. -/
def readHeader : Kind → HeaderValue → Except SErr Val
  | .boolean, .bool b => .ok (.bool b)
  | .byte, v | .short, v | .integer, v | .long, v =>
    match v with
    | .byte i | .short i | .int i | .long i => .ok (.int i)
    | .bool b => .ok (.bool b)
    | _ => .error .expectation
  | .string, .str s | .enum, .str s => .ok (.str s)
  | .blob, .blob b => .ok (.blob b)
  | .timestamp, .timestamp us => .ok (.timestamp us)
  | .other, _ => .error .shape
  | _, _ => .error .expectation

/-! ## Specification -/

/-- A well-formed structure: members have different names, none of which starts with a colon, and at most one member
is the payload, which is no header. -/
structure WellFormed (s : Struct) : Prop where
  names : (s.members.map Member.name).Nodup
  noColon : ∀ m ∈ s.members, m.name.toList.head? ≠ some ':'
  payload : ∀ m ∈ s.members, ∀ m' ∈ s.members, m.payload = true → m'.payload = true → m = m'
  exclusive : ∀ m ∈ s.members, m.payload = true → m.header = false

/-- Values for members of a structure, each once. -/
structure Written (s : Struct) (ws : List (Member × Val)) : Prop where
  members : ∀ w ∈ ws, w.1 ∈ s.members
  once : (ws.map Prod.fst).Nodup

/-- Every member is handed what was written for it: `ws` are the writes, `calls` what the consumer of the structure is
handed. -/
structure Faithful (c : Codec V) (s : Struct) (ws : List (Member × Val)) (calls : List (Member × Source V)) : Prop where
  /-- A member that is a header is read as its value. -/
  header : ∀ m v, (m, v) ∈ ws → m.header = true → ∃ h, (m, .header h) ∈ calls ∧ readHeader m.kind h = .ok v
  /-- Nothing else is read from the headers. -/
  headerOnly : ∀ m h, (m, .header h) ∈ calls → m.header = true ∧ ∃ v, (m, v) ∈ ws ∧ readHeader m.kind h = .ok v
  /-- A blob or string that is the payload is handed its bytes. -/
  raw : ∀ m b, (m, .raw b) ∈ calls ↔ b ≠ [] ∧ m.payload = true ∧
    ((m.kind = .blob ∧ (m, .blob b) ∈ ws) ∨ (m.kind = .string ∧ ∃ t, (m, .str t) ∈ ws ∧ b = utf8Encode t))
  /-- Any other payload is handed the document that the codec made of it. -/
  document : ∀ m b, (m, .document b) ∈ calls ↔ b ≠ [] ∧ m ∈ s.members ∧ m.payload = true ∧ m.kind ≠ .blob ∧
    m.kind ≠ .string ∧ ((∃ v, (m, v) ∈ ws ∧ b = c.encodeValues [(m, v)]) ∨
      ((∀ v, (m, v) ∉ ws) ∧ b = c.encodeValues []))
  /-- Without a payload member, the codec finds the values in the document it made of all members but the headers. -/
  value : ∀ m x, (m, .value x) ∈ calls ↔ (∀ p ∈ s.members, p.payload = false) ∧
    c.encodeStruct (ws.filter fun w => !w.1.header) ≠ [] ∧
    ∃ found, c.decode (c.encodeStruct (ws.filter fun w => !w.1.header)) s.members = .ok found ∧ (m, x) ∈ found

/-- Timestamps that are sent as headers fall on whole seconds of the years 1 to 9999 (see C02). -/
def WholeSeconds (ws : List (Member × Val)) : Prop :=
  ∀ m us, (m, Val.timestamp us) ∈ ws → m.header = true → us % 1000000 = 0 ∧ -62135596800000000 ≤ us ∧ us ≤ 253402300799999999

/-- If the structure has a payload member, all other members that are written are headers. -/
def Bound (s : Struct) (ws : List (Member × Val)) : Prop :=
  ∀ pm ∈ s.members, pm.payload = true → ∀ w ∈ ws, w.1 ≠ pm → w.1.header = true

/-! ## Lemmas -/

theorem headerEntries_mem {ws : List (Member × Val)} {hs : List (String × HeaderValue)}
    (h : headerEntries ws = .ok hs) (k : String) (x : HeaderValue) :
    (k, x) ∈ hs ↔ ∃ w ∈ ws, w.1.header = true ∧ w.1.name = k ∧ headerValue w.1.kind w.2 = .ok x := by
  induction ws generalizing hs with
  | nil =>
    simp only [headerEntries, Except.ok.injEq] at h
    subst h
    simp
  | cons w ws ih =>
    obtain ⟨m, v⟩ := w
    simp only [headerEntries] at h
    by_cases hm : m.header = true
    · rw [if_pos hm] at h
      split at h
      · cases h
      · next y hy =>
        split at h
        · cases h
        · next hs' hhs =>
          simp only [Except.ok.injEq] at h
          subst h
          rw [List.mem_cons, ih hhs]
          simp only [List.mem_cons, exists_eq_or_imp, hm, hy, Prod.mk.injEq, Except.ok.injEq, true_and]
          constructor
          · rintro (⟨rfl, rfl⟩ | h)
            · exact .inl ⟨rfl, rfl⟩
            · exact .inr h
          · rintro (⟨rfl, rfl⟩ | h)
            · exact .inl ⟨rfl, rfl⟩
            · exact .inr h
    · rw [if_neg hm] at h
      rw [ih h]
      simp [hm]

theorem headerEntries_ok {ws : List (Member × Val)} {hs : List (String × HeaderValue)}
    (h : headerEntries ws = .ok hs) : ∀ w ∈ ws, w.1.header = true → ∃ x, headerValue w.1.kind w.2 = .ok x := by
  induction ws generalizing hs with
  | nil => simp
  | cons w ws ih =>
    obtain ⟨m, v⟩ := w
    simp only [headerEntries] at h
    by_cases hm : m.header = true
    · rw [if_pos hm] at h
      split at h
      · cases h
      · next y hy =>
        split at h
        · cases h
        · next hs' hhs =>
          intro w hw hwh
          rcases List.mem_cons.1 hw with rfl | hw
          · exact ⟨y, hy⟩
          · exact ih hhs w hw hwh
    · rw [if_neg hm] at h
      intro w hw hwh
      rcases List.mem_cons.1 hw with rfl | hw
      · exact absurd hwh hm
      · exact ih h w hw hwh

theorem headerEntries_keys {ws : List (Member × Val)} {hs : List (String × HeaderValue)}
    (h : headerEntries ws = .ok hs) : hs.map Prod.fst = (ws.filter fun w => w.1.header).map fun w => w.1.name := by
  induction ws generalizing hs with
  | nil =>
    simp only [headerEntries, Except.ok.injEq] at h
    subst h
    rfl
  | cons w ws ih =>
    obtain ⟨m, v⟩ := w
    simp only [headerEntries] at h
    by_cases hm : m.header = true
    · rw [if_pos hm] at h
      split at h
      · cases h
      · next y hy =>
        split at h
        · cases h
        · next hs' hhs =>
          simp only [Except.ok.injEq] at h
          subst h
          simp [hm, ih hhs]
    · rw [if_neg hm] at h
      rw [ih h]
      simp [hm]

theorem headerCalls_mem (ms : List Member) (hs : List (String × HeaderValue)) (m : Member) (src : Source V) :
    (m, src) ∈ headerCalls ms hs ↔ ∃ k v, (k, v) ∈ hs ∧ ms.find? (fun m => m.name = k) = some m ∧ m.header = true ∧
      src = .header v := by
  induction hs with
  | nil => simp [headerCalls]
  | cons e hs ih =>
    obtain ⟨k, v⟩ := e
    simp only [headerCalls]
    cases hf : ms.find? fun m => m.name = k with
    | none =>
      simp only
      rw [ih]
      constructor
      · rintro ⟨k', v', h1, h2⟩
        exact ⟨k', v', by simp [h1], h2⟩
      · rintro ⟨k', v', h1, h2⟩
        rcases List.mem_cons.1 h1 with h1 | h1
        · simp only [Prod.mk.injEq] at h1
          rw [h1.1, hf] at h2
          cases h2.1
        · exact ⟨k', v', h1, h2⟩
    | some m' =>
      simp only
      by_cases hm : m'.header = true
      · rw [if_pos hm, List.mem_cons, ih]
        constructor
        · rintro (h1 | ⟨k', v', h1, h2⟩)
          · simp only [Prod.mk.injEq] at h1
            obtain ⟨rfl, rfl⟩ := h1
            exact ⟨k, v, by simp, hf, hm, rfl⟩
          · exact ⟨k', v', by simp [h1], h2⟩
        · rintro ⟨k', v', h1, h2, h3, h4⟩
          rcases List.mem_cons.1 h1 with h1 | h1
          · simp only [Prod.mk.injEq] at h1
            obtain ⟨rfl, rfl⟩ := h1
            rw [hf] at h2
            simp only [Option.some.injEq] at h2
            exact .inl (by rw [h2, h4])
          · exact .inr ⟨k', v', h1, h2, h3, h4⟩
      · rw [if_neg hm, ih]
        constructor
        · rintro ⟨k', v', h1, h2⟩
          exact ⟨k', v', by simp [h1], h2⟩
        · rintro ⟨k', v', h1, h2, h3, h4⟩
          rcases List.mem_cons.1 h1 with h1 | h1
          · simp only [Prod.mk.injEq] at h1
            rw [h1.1, hf] at h2
            simp only [Option.some.injEq] at h2
            rw [h2] at hm
            exact absurd h3 hm
          · exact ⟨k', v', h1, h2, h3, h4⟩

theorem find_name {ms : List Member} (hn : (ms.map Member.name).Nodup) {m : Member} (hm : m ∈ ms) :
    ms.find? (fun x => x.name = m.name) = some m := by
  induction ms with
  | nil => cases hm
  | cons x ms ih =>
    rw [List.map_cons, List.nodup_cons] at hn
    rw [List.find?_cons]
    rcases List.mem_cons.1 hm with rfl | hm
    · simp
    · have : x.name ≠ m.name := fun h => hn.1 (h ▸ List.mem_map_of_mem hm)
      simp only [this, decide_false]
      exact ih hn.2 hm

theorem lookup_iff_mem {K W : Type} [BEq K] [LawfulBEq K] [DecidableEq K] {d : List (K × W)} (h : Dict.Keys d) (k : K)
    (v : W) : d.lookup k = some v ↔ (k, v) ∈ d := by
  induction d with
  | nil => simp
  | cons e d ih =>
    obtain ⟨a, b⟩ := e
    simp only [Dict.Keys, List.map_cons, List.nodup_cons] at h
    rw [Dict.lookup_cons, List.mem_cons]
    by_cases hk : k = a
    · subst hk
      rw [if_pos rfl]
      constructor
      · rintro h'
        cases h'
        exact .inl rfl
      · rintro (h' | h')
        · cases h'
          rfl
        · exact absurd (List.mem_map_of_mem (f := Prod.fst) h') h.1
    · rw [if_neg hk, ih h.2]
      simp [hk]

/-- The names the serializer uses itself start with a colon. -/
theorem colon_names (k : String) (h : k.toList.head? ≠ some ':') :
    k ≠ ":message-type" ∧ k ≠ ":event-type" ∧ k ≠ ":exception-type" ∧ k ≠ ":content-type" := by
  refine ⟨?_, ?_, ?_, ?_⟩ <;> (rintro rfl; exact h (by decide +kernel))

/-- What is in a serialized message. -/
theorem serialize_ok {c : Codec V} {clientMode : Bool} {s : Struct} {ws : List (Member × Val)} {msg : EventMessage}
    (h : serialize c clientMode s ws = .ok msg) (hwf : WellFormed s) (hw : Written s ws) :
    ∃ first mediaType, firstHeaders clientMode s = .ok first ∧ payloadOf c s.members ws = .ok (msg.payload, mediaType) ∧
      Dict.Keys msg.headers ∧
      (∀ k, k.toList.head? ≠ some ':' → ∀ x, (k, x) ∈ msg.headers ↔
        ∃ w ∈ ws, w.1.header = true ∧ w.1.name = k ∧ headerValue w.1.kind w.2 = .ok x) ∧
      (∀ w ∈ ws, w.1.header = true → ∃ x, headerValue w.1.kind w.2 = .ok x) ∧
      (∀ k, k.toList.head? = some ':' → k ≠ ":content-type" → msg.headers.lookup k = first.lookup k) ∧
      msg.headers.lookup ":content-type" = (if msg.payload = [] then none else some (.str mediaType)) := by
  unfold serialize at h
  split at h
  · next first entries payload mediaType h1 h2 h3 =>
    simp only at h
    split at h
    · next m hm =>
      simp only [Except.ok.injEq] at h
      subst h
      unfold EventMessage.mk? at hm
      split at hm
      · cases hm
      · simp only [Except.ok.injEq] at hm
        subst hm
        have hfirst : ∀ k, k.toList.head? ≠ some ':' → first.lookup k = none := by
          intro k hk
          obtain ⟨c1, c2, c3, c4⟩ := colon_names k hk
          unfold firstHeaders at h1
          split at h1
          · split at h1
            · cases h1
            · simp only [Except.ok.injEq] at h1
              subst h1
              simp [Dict.lookup_cons, c1, c3]
          · simp only [Except.ok.injEq] at h1
            subst h1
            simp [Dict.lookup_cons, c1, c2]
        have hkf : Dict.Keys first := by
          unfold firstHeaders at h1
          split at h1
          · split at h1
            · cases h1
            · simp only [Except.ok.injEq] at h1
              subst h1
              simp [Dict.Keys]
          · simp only [Except.ok.injEq] at h1
            subst h1
            simp [Dict.Keys]
        have hke : Dict.Keys entries := by
          unfold Dict.Keys
          rw [headerEntries_keys h2]
          have hmap : ((ws.filter fun w => w.1.header).map Prod.fst).Nodup :=
            (List.filter_sublist.map _).nodup hw.once
          have hnames : ∀ l : List Member, l.Nodup → (∀ m ∈ l, m ∈ s.members) → (l.map Member.name).Nodup := by
            intro l
            induction l with
            | nil => simp
            | cons x l ih =>
              intro hl hls
              rw [List.nodup_cons] at hl
              rw [List.map_cons, List.nodup_cons]
              refine ⟨fun hx => ?_, ih hl.2 fun m hm => hls m (by simp [hm])⟩
              rw [List.mem_map] at hx
              obtain ⟨y, hy, hyn⟩ := hx
              have e1 := find_name hwf.names (hls y (by simp [hy]))
              have e2 := find_name hwf.names (hls x (by simp))
              rw [hyn, e2] at e1
              cases e1
              exact hl.1 hy
          have := hnames _ hmap (fun m hm => by
            rw [List.mem_map] at hm
            obtain ⟨w, hw', rfl⟩ := hm
            exact hw.members w (List.mem_filter.1 hw').1)
          rw [List.map_map] at this
          exact this
        have hku : Dict.Keys (update first entries) := Dict.keys_update _ _ hkf
        have hlook : ∀ k, (update first entries).lookup k = (entries.lookup k).or (first.lookup k) := by
          intro k
          rw [Dict.lookup_update, Dict.lookup_reverse k entries hke]
        have hentries_colon : ∀ k, k.toList.head? = some ':' → entries.lookup k = none := by
          intro k hk
          rw [Dict.lookup_eq_none, headerEntries_keys h2, List.mem_map]
          rintro ⟨w, hw', rfl⟩
          exact hwf.noColon _ (hw.members w (List.mem_filter.1 hw').1) hk
        have hfin : ∀ k, k ≠ ":content-type" →
            (if payload = [] then update first entries
              else put (update first entries) ":content-type" (HeaderValue.str mediaType)).lookup k =
              (entries.lookup k).or (first.lookup k) := by
          intro k hk
          by_cases hp : payload = []
          · rw [if_pos hp, hlook]
          · rw [if_neg hp, Dict.lookup_put, if_neg hk, hlook]
        have hkfin : Dict.Keys (if payload = [] then update first entries
            else put (update first entries) ":content-type" (HeaderValue.str mediaType)) := by
          by_cases hp : payload = []
          · rw [if_pos hp]
            exact hku
          · rw [if_neg hp]
            exact Dict.keys_put _ _ _ hku
        refine ⟨first, mediaType, h1, h3, hkfin, ?_, headerEntries_ok h2, ?_, ?_⟩
        · intro k hk x
          obtain ⟨_, _, _, c4⟩ := colon_names k hk
          show (k, x) ∈ (if payload = [] then update first entries
            else put (update first entries) ":content-type" (HeaderValue.str mediaType)) ↔ _
          rw [← lookup_iff_mem hkfin, hfin k c4, hfirst k hk, Option.or_none, lookup_iff_mem hke, headerEntries_mem h2]
        · intro k hk hkc
          rw [hfin k hkc, hentries_colon k hk, Option.none_or]
        · have hfc : first.lookup ":content-type" = none := by
            unfold firstHeaders at h1
            split at h1
            · split at h1
              · cases h1
              · simp only [Except.ok.injEq] at h1
                subst h1
                simp [Dict.lookup_cons]
            · simp only [Except.ok.injEq] at h1
              subst h1
              simp [Dict.lookup_cons]
          by_cases hp : payload = []
          · simp only [if_pos hp]
            rw [hlook, hentries_colon _ (by decide +kernel), hfc]
            rfl
          · simp only [if_neg hp]
            rw [Dict.lookup_put, if_pos rfl]
    · cases h
  all_goals cases h

theorem readHeader_headerValue {k : Kind} {v : Val} {h : HeaderValue} (hv : headerValue k v = .ok h) :
    readHeader k h = .ok v := by
  cases k <;> cases v <;> simp only [headerValue, Except.ok.injEq, reduceCtorEq] at hv <;> subst hv <;> rfl

theorem headerValue_timestamp {k : Kind} {v : Val} {us : Int} (hv : headerValue k v = .ok (.timestamp us)) :
    v = .timestamp us := by
  cases k <;> cases v <;> simp_all [headerValue]

theorem payloadMember_some {ms : List Member} {pm : Member} (h : payloadMember ms = some pm) :
    pm ∈ ms ∧ pm.payload = true := ⟨List.mem_of_find?_eq_some h, by simpa using List.find?_some h⟩

theorem payloadMember_none {ms : List Member} (h : payloadMember ms = none) : ∀ p ∈ ms, p.payload = false := by
  unfold payloadMember at h
  rw [List.find?_eq_none] at h
  exact fun p hp => by simpa using h p hp

/-- Where a payload member exists and the others are headers, it is all that goes to the payload. -/
theorem payloadWrites_alone {s : Struct} {ws : List (Member × Val)} (hwf : WellFormed s) (hw : Written s ws)
    {pm : Member} (hpm : pm ∈ s.members) (hp : pm.payload = true) (hb : ∀ w ∈ ws, w.1 ≠ pm → w.1.header = true) :
    (∃ v, (pm, v) ∈ ws ∧ payloadWrites ws = [(pm, v)]) ∨ ((∀ v, (pm, v) ∉ ws) ∧ payloadWrites ws = []) := by
  unfold payloadWrites
  have hph := hwf.exclusive pm hpm hp
  obtain ⟨hmembers, honce⟩ := hw
  clear hwf
  induction ws with
  | nil => exact .inr (by simp)
  | cons w ws ih =>
    rw [List.map_cons, List.nodup_cons] at honce
    have hrest : ∀ x ∈ ws, x.1 ≠ pm → x.1.header = true := fun x hx => hb x (by simp [hx])
    obtain ⟨m, v⟩ := w
    by_cases hm : m = pm
    · subst hm
      left
      refine ⟨v, by simp, ?_⟩
      rw [List.filter_cons, if_pos (by simp [hph])]
      congr 1
      rw [List.filter_eq_nil_iff]
      intro x hx
      have : x.1 ≠ m := fun h => honce.1 (List.mem_map.2 ⟨x, hx, h⟩)
      simp [hrest x hx this]
    · have hmh := hb (m, v) (by simp) hm
      simp only at hmh
      rw [List.filter_cons, if_neg (by simp [hmh])]
      rcases ih hrest (fun w hw => hmembers w (by simp [hw])) honce.2 with ⟨u, h1, h2⟩ | ⟨h1, h2⟩
      · exact .inl ⟨u, by simp [h1], h2⟩
      · refine .inr ⟨fun u hu => ?_, h2⟩
        rcases List.mem_cons.1 hu with hu | hu
        · simp only [Prod.mk.injEq] at hu
          exact hm hu.1.symm
        · exact h1 u hu

/-- Reading a message for the structure it was made of. -/
theorem readMembers_faithful {c : Codec V} {clientMode : Bool} {s : Struct} {ws : List (Member × Val)}
    {msg : EventMessage} (h : serialize c clientMode s ws = .ok msg) (hwf : WellFormed s) (hw : Written s ws)
    (hb : ∀ pm ∈ s.members, pm.payload = true → ∀ w ∈ ws, w.1 ≠ pm → w.1.header = true)
    {calls : List (Member × Source V)} (hr : readMembers c s.members msg = .ok calls) : Faithful c s ws calls := by
  obtain ⟨first, mediaType, _, hpay, hkeys, hmem, hok, _, _⟩ := serialize_ok h hwf hw
  -- the calls for headers
  have hcalls : ∀ (m : Member) (x : HeaderValue), (m, Source.header x) ∈ (headerCalls s.members msg.headers :
      List (Member × Source V)) ↔ ∃ v, (m, v) ∈ ws ∧ m.header = true ∧ headerValue m.kind v = .ok x := by
    intro m x
    rw [headerCalls_mem]
    constructor
    · rintro ⟨k, v, h1, h2, h3, h4⟩
      simp only [Source.header.injEq] at h4
      subst h4
      have hm : m ∈ s.members := List.mem_of_find?_eq_some h2
      have hk : m.name = k := by simpa using List.find?_some h2
      subst hk
      rw [hmem _ (hwf.noColon m hm)] at h1
      obtain ⟨w, hw', h5, h6, h7⟩ := h1
      have hwm : w.1 = m := by
        have e1 := find_name hwf.names (hw.members w hw')
        rw [h6, h2] at e1
        exact (Option.some.inj e1).symm
      exact ⟨w.2, by rw [← hwm]; exact hw', h3, by rw [← hwm]; exact h7⟩
    · rintro ⟨v, h1, h2, h3⟩
      have hm := hw.members _ h1
      exact ⟨m.name, x, (hmem _ (hwf.noColon m hm) x).2 ⟨(m, v), h1, h2, rfl, h3⟩, find_name hwf.names hm, h2, rfl⟩
  have hnot : ∀ (m : Member) (src : Source V), (∀ x, src ≠ .header x) →
      (m, src) ∉ (headerCalls s.members msg.headers : List (Member × Source V)) := by
    intro m src hsrc hx
    rw [headerCalls_mem] at hx
    obtain ⟨_, v, _, _, _, h4⟩ := hx
    exact hsrc v h4
  have hraw0 : ∀ m b, (m, Source.raw b) ∉ (headerCalls s.members msg.headers : List (Member × Source V)) :=
    fun m b => hnot m _ (by simp)
  have hdoc0 : ∀ m b, (m, Source.document b) ∉ (headerCalls s.members msg.headers : List (Member × Source V)) :=
    fun m b => hnot m _ (by simp)
  have hval0 : ∀ m x, (m, Source.value x) ∉ (headerCalls s.members msg.headers : List (Member × Source V)) :=
    fun m b => hnot m _ (by simp)
  -- what comes from the headers is the same in all cases
  have hheader : ∀ tail : List (Member × Source V), calls = headerCalls s.members msg.headers ++ tail →
      (∀ m x, (m, Source.header x) ∉ tail) →
      (∀ m v, (m, v) ∈ ws → m.header = true → ∃ h, (m, .header h) ∈ calls ∧ readHeader m.kind h = .ok v) ∧
      (∀ m h, (m, .header h) ∈ calls → m.header = true ∧ ∃ v, (m, v) ∈ ws ∧ readHeader m.kind h = .ok v) := by
    rintro tail rfl htail
    constructor
    · intro m v hv hm
      obtain ⟨x, hx⟩ := hok _ hv hm
      exact ⟨x, by rw [List.mem_append, hcalls]; exact .inl ⟨v, hv, hm, hx⟩, readHeader_headerValue hx⟩
    · intro m x hx
      rw [List.mem_append] at hx
      rcases hx with hx | hx
      · rw [hcalls] at hx
        obtain ⟨v, h1, h2, h3⟩ := hx
        exact ⟨h2, v, h1, readHeader_headerValue h3⟩
      · exact absurd hx (htail m x)
  unfold payloadOf at hpay
  unfold readMembers at hr
  cases hpm : payloadMember s.members with
  | none =>
    rw [hpm] at hpay hr
    simp only [Except.ok.injEq, Prod.mk.injEq] at hpay
    have hnone := payloadMember_none hpm
    have hpl : msg.payload = c.encodeStruct (ws.filter fun w => !w.1.header) := hpay.1.symm
    have hnoraw : ∀ m, m ∈ s.members → m.payload ≠ true := fun m hm => by simp [hnone m hm]
    have wsraw : ∀ (m : Member) (v : Val), (m, v) ∈ ws → m.payload ≠ true := fun m v hv => hnoraw m (hw.members _ hv)
    by_cases hempty : msg.payload = []
    · rw [if_pos hempty] at hr
      simp only [Except.ok.injEq] at hr
      obtain ⟨f1, f2⟩ := hheader [] (by simp [hr]) (by simp)
      subst hr
      refine ⟨f1, f2, ?_, ?_, ?_⟩
      · intro m b
        refine iff_of_false (hraw0 m b) ?_
        rintro ⟨_, hp, ⟨_, hv⟩ | ⟨_, t, hv, _⟩⟩ <;> exact wsraw _ _ hv hp
      · intro m b
        refine iff_of_false (hdoc0 m b) ?_
        rintro ⟨_, hm, hp, _⟩
        exact hnoraw m hm hp
      · intro m x
        refine iff_of_false (hval0 m x) ?_
        rintro ⟨_, hne, _⟩
        exact hne (by rw [← hpl]; exact hempty)
    · rw [if_neg hempty] at hr
      simp only at hr
      split at hr
      · cases hr
      · next found hf =>
        simp only [Except.ok.injEq] at hr
        obtain ⟨f1, f2⟩ := hheader (found.map fun v => (v.1, .value v.2)) hr.symm (by simp)
        subst hr
        rw [hpl] at hf hempty
        refine ⟨f1, f2, ?_, ?_, ?_⟩
        · intro m b
          refine iff_of_false (by simp [hraw0]) ?_
          rintro ⟨_, hp, ⟨_, hv⟩ | ⟨_, t, hv, _⟩⟩ <;> exact wsraw _ _ hv hp
        · intro m b
          refine iff_of_false (by simp [hdoc0]) ?_
          rintro ⟨_, hm, hp, _⟩
          exact hnoraw m hm hp
        · intro m x
          rw [List.mem_append]
          constructor
          · rintro (hx | hx)
            · exact absurd hx (hval0 m x)
            · rw [List.mem_map] at hx
              obtain ⟨v, hv, hx⟩ := hx
              simp only [Prod.mk.injEq, Source.value.injEq] at hx
              exact ⟨hnone, hempty, found, hf, by rw [← hx.1, ← hx.2]; exact hv⟩
          · rintro ⟨_, _, found', hf', hx⟩
            rw [hf] at hf'
            cases hf'
            exact .inr (List.mem_map.2 ⟨(m, x), hx, rfl⟩)
  | some pm =>
    rw [hpm] at hpay hr
    obtain ⟨hpms, hpp⟩ := payloadMember_some hpm
    have huniq : ∀ m, m ∈ s.members → m.payload = true → m = pm := fun m hm hp => hwf.payload m hm pm hpms hp hpp
    have halone := payloadWrites_alone hwf hw hpms hpp (hb pm hpms hpp)
    simp only at hpay hr
    have hvalF : ∀ (m : Member) (x : V), ¬ ((∀ p ∈ s.members, p.payload = false) ∧
        c.encodeStruct (ws.filter fun w => !w.1.header) ≠ [] ∧
        ∃ found, c.decode (c.encodeStruct (ws.filter fun w => !w.1.header)) s.members = .ok found ∧
          (m, x) ∈ found) := by
      rintro m x ⟨hnone, _⟩
      simp [hnone pm hpms] at hpp
    by_cases hk : pm.kind = .blob ∨ pm.kind = .string
    · rw [if_pos hk] at hpay hr
      -- the payload
      have hbytes : ∀ b, b ≠ [] → (b = msg.payload ↔ ((pm.kind = .blob ∧ (pm, .blob b) ∈ ws) ∨
          (pm.kind = .string ∧ ∃ t, (pm, .str t) ∈ ws ∧ b = utf8Encode t))) := by
        intro b hbne
        have hval : ∀ v u, (pm, v) ∈ ws → payloadWrites ws = [(pm, u)] → v = u := by
          intro v u hv hu
          have : (pm, v) ∈ payloadWrites ws := List.mem_filter.2 ⟨hv, by simp [hwf.exclusive pm hpms hpp]⟩
          rw [hu, List.mem_singleton] at this
          exact (Prod.mk.inj this).2
        rcases halone with ⟨v, hv, hpw⟩ | ⟨hv, hpw⟩
        · rw [hpw] at hpay
          cases v <;> simp only [rawPayload] at hpay
          case str t =>
            by_cases hs : pm.kind = .string ∨ pm.kind = .enum
            · rw [if_pos hs] at hpay
              simp only [Except.map, List.append_nil, Except.ok.injEq, Prod.mk.injEq] at hpay
              have hks : pm.kind = .string := by rcases hk with hk | hk <;> simp_all
              rw [← hpay.1]
              constructor
              · rintro rfl
                exact .inr ⟨hks, t, hv, rfl⟩
              · rintro (⟨_, h2⟩ | ⟨_, t', h2, h3⟩)
                · have := hval _ _ h2 hpw
                  cases this
                · have := hval _ _ h2 hpw
                  cases this
                  exact h3
            · rw [if_neg hs] at hpay
              cases hpay
          case blob b' =>
            by_cases hs : pm.kind = .blob
            · rw [if_pos hs] at hpay
              simp only [Except.map, List.append_nil, Except.ok.injEq, Prod.mk.injEq] at hpay
              rw [← hpay.1]
              constructor
              · rintro rfl
                exact .inl ⟨hs, hv⟩
              · rintro (⟨_, h2⟩ | ⟨_, t', h2, h3⟩)
                · have := hval _ _ h2 hpw
                  cases this
                  rfl
                · have := hval _ _ h2 hpw
                  cases this
            · rw [if_neg hs] at hpay
              cases hpay
          all_goals cases hpay
        · rw [hpw] at hpay
          simp only [rawPayload, Except.map, Except.ok.injEq, Prod.mk.injEq] at hpay
          rw [← hpay.1]
          refine iff_of_false hbne ?_
          rintro (⟨_, h2⟩ | ⟨_, t, h2, _⟩)
          · exact hv _ h2
          · exact hv _ h2
      have hrawIff : ∀ m b, ((m = pm ∧ b = msg.payload ∧ b ≠ []) ↔ b ≠ [] ∧ m.payload = true ∧
          ((m.kind = .blob ∧ (m, .blob b) ∈ ws) ∨ (m.kind = .string ∧ ∃ t, (m, .str t) ∈ ws ∧ b = utf8Encode t))) := by
        intro m b
        constructor
        · rintro ⟨rfl, h1, h2⟩
          exact ⟨h2, hpp, (hbytes b h2).1 h1⟩
        · rintro ⟨h1, h2, h3⟩
          have hm : m ∈ s.members := by
            rcases h3 with ⟨_, h3⟩ | ⟨_, t, h3, _⟩ <;> exact hw.members _ h3
          have := huniq m hm h2
          subst this
          exact ⟨rfl, (hbytes b h1).2 h3, h1⟩
      have hdocF : ∀ m b, ¬ (b ≠ [] ∧ m ∈ s.members ∧ m.payload = true ∧ m.kind ≠ .blob ∧
          m.kind ≠ .string ∧ ((∃ v, (m, v) ∈ ws ∧ b = c.encodeValues [(m, v)]) ∨
            ((∀ v, (m, v) ∉ ws) ∧ b = c.encodeValues []))) := by
        rintro m b ⟨_, hm, hp, h1, h2, _⟩
        rw [huniq m hm hp] at h1 h2
        exact hk.elim h1 h2
      by_cases hempty : msg.payload = []
      · rw [if_pos hempty] at hr
        simp only [Except.ok.injEq] at hr
        obtain ⟨f1, f2⟩ := hheader [] (by simp [hr]) (by simp)
        subst hr
        refine ⟨f1, f2, ?_, fun m b => iff_of_false (hdoc0 m b) (hdocF m b),
          fun m x => iff_of_false (hval0 m x) (hvalF m x)⟩
        intro m b
        rw [← hrawIff]
        refine iff_of_false (hraw0 m b) ?_
        rintro ⟨_, h1, h2⟩
        exact h2 (h1.trans hempty)
      · rw [if_neg hempty] at hr
        simp only [Except.ok.injEq] at hr
        obtain ⟨f1, f2⟩ := hheader [(pm, .raw msg.payload)] hr.symm (by simp)
        subst hr
        refine ⟨f1, f2, ?_, fun m b => iff_of_false (by simp [hdoc0]) (hdocF m b),
          fun m x => iff_of_false (by simp [hval0]) (hvalF m x)⟩
        intro m b
        rw [← hrawIff, List.mem_append]
        simp only [hraw0, false_or, List.mem_singleton, Prod.mk.injEq, Source.raw.injEq]
        constructor
        · rintro ⟨rfl, rfl⟩
          exact ⟨rfl, rfl, hempty⟩
        · rintro ⟨rfl, rfl, _⟩
          exact ⟨rfl, rfl⟩
    · rw [if_neg hk] at hpay hr
      simp only [Except.ok.injEq, Prod.mk.injEq] at hpay
      rw [not_or] at hk
      have hrawF : ∀ m b, ¬ (b ≠ [] ∧ m.payload = true ∧ ((m.kind = .blob ∧ (m, .blob b) ∈ ws) ∨
          (m.kind = .string ∧ ∃ t, (m, .str t) ∈ ws ∧ b = utf8Encode t))) := by
        rintro m b ⟨_, hp, ⟨h1, h2⟩ | ⟨h1, t, h2, _⟩⟩
        · rw [huniq m (hw.members _ h2) hp] at h1
          exact hk.1 h1
        · rw [huniq m (hw.members _ h2) hp] at h1
          exact hk.2 h1
      have hdocIff : ∀ m b, ((m = pm ∧ b = msg.payload ∧ b ≠ []) ↔ (b ≠ [] ∧ m ∈ s.members ∧ m.payload = true ∧
          m.kind ≠ .blob ∧ m.kind ≠ .string ∧ ((∃ v, (m, v) ∈ ws ∧ b = c.encodeValues [(m, v)]) ∨
            ((∀ v, (m, v) ∉ ws) ∧ b = c.encodeValues [])))) := by
        intro m b
        constructor
        · rintro ⟨rfl, rfl, h2⟩
          refine ⟨h2, hpms, hpp, hk.1, hk.2, ?_⟩
          rw [← hpay.1]
          rcases halone with ⟨v, hv, hpw⟩ | ⟨hv, hpw⟩
          · exact .inl ⟨v, hv, by rw [hpw]⟩
          · exact .inr ⟨hv, by rw [hpw]⟩
        · rintro ⟨h1, hm, hp, _, _, h4⟩
          have := huniq m hm hp
          subst this
          refine ⟨rfl, ?_, h1⟩
          rw [← hpay.1]
          rcases halone with ⟨v, hv, hpw⟩ | ⟨hv, hpw⟩
          · rcases h4 with ⟨u, hu, h4⟩ | ⟨hno, _⟩
            · have : (m, u) ∈ payloadWrites ws := List.mem_filter.2 ⟨hu, by simp [hwf.exclusive m hpms hpp]⟩
              rw [hpw, List.mem_singleton] at this
              rw [hpw, h4, this]
            · exact absurd hv (hno v)
          · rcases h4 with ⟨u, hu, _⟩ | ⟨_, h4⟩
            · exact absurd hu (hv u)
            · rw [hpw, h4]
      by_cases hempty : msg.payload = []
      · rw [if_pos hempty] at hr
        simp only [Except.ok.injEq] at hr
        obtain ⟨f1, f2⟩ := hheader [] (by simp [hr]) (by simp)
        subst hr
        refine ⟨f1, f2, fun m b => iff_of_false (hraw0 m b) (hrawF m b), ?_,
          fun m x => iff_of_false (hval0 m x) (hvalF m x)⟩
        intro m b
        rw [← hdocIff]
        refine iff_of_false (hdoc0 m b) ?_
        rintro ⟨_, h1, h2⟩
        exact h2 (h1.trans hempty)
      · rw [if_neg hempty] at hr
        simp only [Except.ok.injEq] at hr
        obtain ⟨f1, f2⟩ := hheader [(pm, .document msg.payload)] hr.symm (by simp)
        subst hr
        refine ⟨f1, f2, fun m b => iff_of_false (by simp [hraw0]) (hrawF m b), ?_,
          fun m x => iff_of_false (by simp [hval0]) (hvalF m x)⟩
        intro m b
        rw [← hdocIff, List.mem_append]
        simp only [hdoc0, false_or, List.mem_singleton, Prod.mk.injEq, Source.document.injEq]
        constructor
        · rintro ⟨rfl, rfl⟩
          exact ⟨rfl, rfl, hempty⟩
        · rintro ⟨rfl, rfl, _⟩
          exact ⟨rfl, rfl⟩

theorem firstHeaders_str {clientMode : Bool} {s : Struct} {first : List (String × HeaderValue)}
    (h : firstHeaders clientMode s = .ok first) : ∀ k x, first.lookup k = some x → ∃ t, x = .str t := by
  unfold firstHeaders at h
  intro k x hx
  split at h
  · split at h
    · cases h
    · simp only [Except.ok.injEq] at h
      subst h
      simp only [Dict.lookup_cons] at hx
      split at hx
      · exact ⟨_, (Option.some.inj hx).symm⟩
      · split at hx
        · exact ⟨_, (Option.some.inj hx).symm⟩
        · cases hx
  · simp only [Except.ok.injEq] at h
    subst h
    simp only [Dict.lookup_cons] at hx
    split at hx
    · exact ⟨_, (Option.some.inj hx).symm⟩
    · split at hx
      · exact ⟨_, (Option.some.inj hx).symm⟩
      · cases hx

/-- The headers of a message made of a structure survive the frame. -/
theorem serialize_whole {c : Codec V} {clientMode : Bool} {s : Struct} {ws : List (Member × Val)}
    {msg : EventMessage} (h : serialize c clientMode s ws = .ok msg) (hwf : WellFormed s) (hw : Written s ws)
    (hts : WholeSeconds ws) : ∀ x ∈ msg.headers, WholeSecond x.2 := by
  obtain ⟨first, mediaType, hf, _, hkeys, hmem, _, hcolon, hct⟩ := serialize_ok h hwf hw
  rintro ⟨k, x⟩ hx
  by_cases hk : k.toList.head? = some ':'
  · have hl := (lookup_iff_mem hkeys k x).2 hx
    have : ∃ t, x = .str t := by
      by_cases hkc : k = ":content-type"
      · subst hkc
        rw [hct] at hl
        split at hl
        · cases hl
        · exact ⟨_, (Option.some.inj hl).symm⟩
      · rw [hcolon k hk hkc] at hl
        exact firstHeaders_str hf k x hl
    obtain ⟨t, rfl⟩ := this
    trivial
  · obtain ⟨w, hw', h1, _, h3⟩ := (hmem k hk x).1 hx
    cases x <;> try trivial
    next us =>
      have := headerValue_timestamp h3
      exact hts w.1 us (by rw [← this]; exact hw') h1

theorem readMembers_congr (c : Codec V) (ms : List Member) {a b : EventMessage} (h1 : a.headers = b.headers)
    (h2 : a.payload = b.payload) : readMembers c ms a = readMembers c ms b := by
  unfold readMembers
  rw [h1, h2]

theorem readEvent_congr (c : Codec V) (t : Target) {a b : EventMessage} (h1 : a.headers = b.headers)
    (h2 : a.payload = b.payload) : readEvent c t a = readEvent c t b := by
  unfold readEvent
  simp only [h1, readMembers_congr c _ h1 h2]

theorem variantNamed_mem {vs : List Struct} (hd : (vs.map Struct.name).Nodup) {s : Struct} (hs : s ∈ vs) {n : String}
    (hn : s.name = some n) : variantNamed vs n = some s := by
  unfold variantNamed
  induction vs with
  | nil => cases hs
  | cons v vs ih =>
    rw [List.map_cons, List.nodup_cons] at hd
    rw [List.find?_cons]
    rcases List.mem_cons.1 hs with rfl | hs
    · simp [hn]
    · have : v.name ≠ some n := fun h => hd.1 (by rw [h, ← hn]; exact List.mem_map_of_mem hs)
      simp [this, ih hd.2 hs]

/-- How a message made of an event or error is read. -/
theorem readEvent_serialize {c : Codec V} {clientMode : Bool} {s : Struct} {ws : List (Member × Val)}
    {msg : EventMessage} (h : serialize c clientMode s ws = .ok msg) (hwf : WellFormed s) (hw : Written s ws)
    {n : String} (hn : s.name = some n) (hni : s.error = false → n ≠ "initial-request" ∧ n ≠ "initial-response")
    (vs : List Struct) :
    readEvent c (.union vs) msg = match variantNamed vs n with
      | some s' => (readMembers c s'.members msg).map (.variant s')
      | none => if s.error then .error .keyError else .ok (.unknown n) := by
  obtain ⟨first, mediaType, hf, _, _, _, _, hcolon, _⟩ := serialize_ok h hwf hw
  have h1 := hcolon ":message-type" (by decide +kernel) (by decide +kernel)
  unfold firstHeaders at hf
  unfold readEvent
  rw [h1]
  cases he : s.error with
  | true =>
    rw [he] at hf
    simp only [hn, if_true, Except.ok.injEq] at hf
    have h2 := hcolon ":exception-type" (by decide +kernel) (by decide +kernel)
    subst hf
    have h3 : expectStr msg.headers ":exception-type" = .ok n := by
      unfold expectStr
      rw [h2]
      simp [Dict.lookup_cons]
    simp only [Dict.lookup_cons, if_true, h3]
    rw [if_neg (by decide +kernel)]
  | false =>
    rw [he] at hf
    simp only [hn, Bool.false_eq_true, if_false, Option.getD_some, Except.ok.injEq] at hf
    have h2 := hcolon ":event-type" (by decide +kernel) (by decide +kernel)
    subst hf
    have h3 : expectStr msg.headers ":event-type" = .ok n := by
      unfold expectStr
      rw [h2]
      simp [Dict.lookup_cons]
    simp only [Dict.lookup_cons, if_true, h3]
    obtain ⟨h4, h5⟩ := hni he
    rw [if_neg (by simp [h4, h5])]
    simp

/-! ## Theorems -/

/-- **C81.** An event or an error of a union, sent and received, is read as the variant it was sent as, and every
member is handed what was written for it, and nothing else is. -/
theorem C81_event_partial (c : Codec V) (clientMode : Bool) (vs : List Struct) (s : Struct) (ws : List (Member × Val))
    (n : String) (hs : s ∈ vs) (hd : (vs.map Struct.name).Nodup) (hn : s.name = some n)
    (hni : s.error = false → n ≠ "initial-request" ∧ n ≠ "initial-response")
    (hwf : WellFormed s) (hw : Written s ws) (hb : Bound s ws) (hts : WholeSeconds ws)
    (msg : EventMessage) (h : serialize c clientMode s ws = .ok msg) (f rest : Bytes) (he : msg.encode = .ok f)
    (hcodec : (∀ p ∈ s.members, p.payload = false) → c.encodeStruct (ws.filter fun w => !w.1.header) ≠ [] →
      ∃ found, c.decode (c.encodeStruct (ws.filter fun w => !w.1.header)) s.members = .ok found) :
    ∃ e calls, Event.decode (f ++ rest) = (.ok (some e), rest) ∧
      readEvent c (.union vs) e.message = .ok (.variant s calls) ∧ Faithful c s ws calls := by
  obtain ⟨e, h1, h2, h3⟩ := C01_frame_round_trip msg f rest he (serialize_whole h hwf hw hts)
  obtain ⟨first, mediaType, _, hpay, _⟩ := serialize_ok h hwf hw
  have hread : ∃ calls, readMembers c s.members msg = .ok calls := by
    unfold readMembers
    split
    · exact ⟨_, rfl⟩
    · next hne =>
      split
      · split <;> exact ⟨_, rfl⟩
      · next hpm =>
        unfold payloadOf at hpay
        rw [hpm] at hpay
        simp only [Except.ok.injEq, Prod.mk.injEq, payloadWrites] at hpay
        rw [← hpay.1] at hne
        obtain ⟨found, hf⟩ := hcodec (payloadMember_none hpm) hne
        rw [← hpay.1, hf]
        exact ⟨_, rfl⟩
  obtain ⟨calls, hcalls⟩ := hread
  refine ⟨e, calls, h1, ?_, readMembers_faithful h hwf hw hb hcalls⟩
  rw [readEvent_congr c _ h2 h3, readEvent_serialize h hwf hw hn hni, variantNamed_mem hd hs hn]
  simp only [hcalls]
  rfl

/-- **C81**, an event that the receiver's union does not have is read as an unknown event with its name. -/
theorem C81_unknown_event (c : Codec V) (clientMode : Bool) (vs : List Struct) (s : Struct) (ws : List (Member × Val))
    (n : String) (hs : ∀ v ∈ vs, v.name ≠ some n) (hn : s.name = some n) (herr : s.error = false)
    (hni : n ≠ "initial-request" ∧ n ≠ "initial-response")
    (hwf : WellFormed s) (hw : Written s ws) (hts : WholeSeconds ws)
    (msg : EventMessage) (h : serialize c clientMode s ws = .ok msg) (f rest : Bytes) (he : msg.encode = .ok f) :
    ∃ e, Event.decode (f ++ rest) = (.ok (some e), rest) ∧
      readEvent c (.union vs) e.message = .ok (.unknown n) := by
  obtain ⟨e, h1, h2, h3⟩ := C01_frame_round_trip msg f rest he (serialize_whole h hwf hw hts)
  refine ⟨e, h1, ?_⟩
  rw [readEvent_congr c _ h2 h3, readEvent_serialize h hwf hw hn fun _ => hni]
  have : variantNamed vs n = none := by
    unfold variantNamed
    rw [List.find?_eq_none]
    intro v hv
    simpa using hs v hv
  rw [this]
  simp [herr]

/-- **C81**, an error that the receiver's union does not have makes the receiver fail with a `KeyError`, although an
event that it does not have is let through. -/
theorem C81_unknown_error_fails (c : Codec V) (clientMode : Bool) (vs : List Struct) (s : Struct)
    (ws : List (Member × Val)) (n : String) (hs : ∀ v ∈ vs, v.name ≠ some n) (hn : s.name = some n)
    (herr : s.error = true) (hwf : WellFormed s) (hw : Written s ws) (hts : WholeSeconds ws)
    (msg : EventMessage) (h : serialize c clientMode s ws = .ok msg) (f rest : Bytes) (he : msg.encode = .ok f) :
    ∃ e, Event.decode (f ++ rest) = (.ok (some e), rest) ∧
      readEvent c (.union vs) e.message = .error .keyError := by
  obtain ⟨e, h1, h2, h3⟩ := C01_frame_round_trip msg f rest he (serialize_whole h hwf hw hts)
  refine ⟨e, h1, ?_⟩
  rw [readEvent_congr c _ h2 h3, readEvent_serialize h hwf hw hn (by simp [herr])]
  have : variantNamed vs n = none := by
    unfold variantNamed
    rw [List.find?_eq_none]
    intro v hv
    simpa using hs v hv
  rw [this]
  simp [herr]

/-- **C81**, the input or output of the operation, sent as the first message of the stream, is read as what was
written. -/
theorem C81_initial_partial (c : Codec V) (clientMode : Bool) (s : Struct) (ws : List (Member × Val))
    (hn : s.name = none) (herr : s.error = false)
    (hwf : WellFormed s) (hw : Written s ws) (hb : Bound s ws) (hts : WholeSeconds ws)
    (msg : EventMessage) (h : serialize c clientMode s ws = .ok msg) (f rest : Bytes) (he : msg.encode = .ok f)
    (hcodec : (∀ p ∈ s.members, p.payload = false) → c.encodeStruct (ws.filter fun w => !w.1.header) ≠ [] →
      ∃ found, c.decode (c.encodeStruct (ws.filter fun w => !w.1.header)) s.members = .ok found) :
    ∃ e calls, Event.decode (f ++ rest) = (.ok (some e), rest) ∧
      readEvent c (.structure s) e.message = .ok (.initial calls) ∧ Faithful c s ws calls := by
  obtain ⟨e, h1, h2, h3⟩ := C01_frame_round_trip msg f rest he (serialize_whole h hwf hw hts)
  obtain ⟨first, mediaType, hf, hpay, _, _, _, hcolon, _⟩ := serialize_ok h hwf hw
  have hread : ∃ calls, readMembers c s.members msg = .ok calls := by
    unfold readMembers
    split
    · exact ⟨_, rfl⟩
    · next hne =>
      split
      · split <;> exact ⟨_, rfl⟩
      · next hpm =>
        unfold payloadOf at hpay
        rw [hpm] at hpay
        simp only [Except.ok.injEq, Prod.mk.injEq, payloadWrites] at hpay
        rw [← hpay.1] at hne
        obtain ⟨found, hf⟩ := hcodec (payloadMember_none hpm) hne
        rw [← hpay.1, hf]
        exact ⟨_, rfl⟩
  obtain ⟨calls, hcalls⟩ := hread
  refine ⟨e, calls, h1, ?_, readMembers_faithful h hwf hw hb hcalls⟩
  rw [readEvent_congr c _ h2 h3]
  have h4 := hcolon ":message-type" (by decide +kernel) (by decide +kernel)
  have h5 := hcolon ":event-type" (by decide +kernel) (by decide +kernel)
  unfold firstHeaders at hf
  simp only [herr, hn, Bool.false_eq_true, if_false, Option.getD_none, Except.ok.injEq] at hf
  subst hf
  unfold readEvent
  have h6 : expectStr msg.headers ":event-type" =
      .ok (if clientMode then "initial-request" else "initial-response") := by
    unfold expectStr
    rw [h5]
    simp [Dict.lookup_cons]
  rw [h4]
  simp only [Dict.lookup_cons, if_true, h6]
  rw [if_pos (by cases clientMode <;> simp)]
  simp only [hcalls]
  rfl

/-- **C81**, a message that reports an error outside of the model is raised with its code and text, for any receiver. -/
theorem C81_unmodeled_error (c : Codec V) (t : Target) (msg : EventMessage) (code message : String)
    (h1 : msg.headers.lookup ":message-type" = some (.str "error"))
    (h2 : msg.headers.lookup ":error-code" = some (.str code))
    (h3 : msg.headers.lookup ":error-message" = some (.str message)) :
    readEvent c t msg = .error (.unmodeled code message) := by
  unfold readEvent expectStr
  rw [h1, h2, h3]
  simp only
  rw [if_neg (by decide +kernel), if_neg (by decide +kernel), if_pos trivial]

/-- The header that a value of a member of the kind is to be sent as: of the type that the kind has in the event stream
encoding. -/
inductive SentAs : Kind → Val → HeaderValue → Prop
  | boolean (b : Bool) : SentAs .boolean (.bool b) (.bool b)
  | byte (i : Int) : SentAs .byte (.int i) (.byte i)
  | short (i : Int) : SentAs .short (.int i) (.short i)
  | integer (i : Int) : SentAs .integer (.int i) (.int i)
  | long (i : Int) : SentAs .long (.int i) (.long i)
  | string (t : String) : SentAs .string (.str t) (.str t)
  | enum (t : String) : SentAs .enum (.str t) (.str t)
  | blob (b : Bytes) : SentAs .blob (.blob b) (.blob b)
  | timestamp (us : Int) : SentAs .timestamp (.timestamp us) (.timestamp us)

/-- **C81**, members bound to headers are sent under their names with the type of their kind, and the message has no other
headers but those that begin with a colon. -/
theorem C81_header_types (c : Codec V) (clientMode : Bool) (s : Struct) (ws : List (Member × Val)) (msg : EventMessage)
    (hwf : WellFormed s) (hw : Written s ws) (h : serialize c clientMode s ws = .ok msg) :
    (∀ m v, (m, v) ∈ ws → m.header = true → ∃ x, (m.name, x) ∈ msg.headers ∧ SentAs m.kind v x) ∧
    ∀ k x, (k, x) ∈ msg.headers → k.toList.head? = some ':' ∨
      ∃ m v, (m, v) ∈ ws ∧ m.header = true ∧ m.name = k ∧ SentAs m.kind v x := by
  obtain ⟨first, mediaType, _, _, _, hmem, hok, _, _⟩ := serialize_ok h hwf hw
  have hsent : ∀ {k : Kind} {v : Val} {x : HeaderValue}, headerValue k v = .ok x → SentAs k v x := by
    intro k v x hv
    cases k <;> cases v <;> simp only [headerValue, Except.ok.injEq, reduceCtorEq] at hv <;> subst hv <;> constructor
  refine ⟨fun m v hv hm => ?_, fun k x hx => ?_⟩
  · obtain ⟨x, hx⟩ := hok (m, v) hv hm
    exact ⟨x, (hmem m.name (hwf.noColon m (hw.members _ hv)) x).2 ⟨(m, v), hv, hm, rfl, hx⟩, hsent hx⟩
  · by_cases hk : k.toList.head? = some ':'
    · exact .inl hk
    · obtain ⟨w, w1, w2, w3, w4⟩ := (hmem k hk x).1 hx
      exact .inr ⟨w.1, w.2, w1, w2, w3, hsent w4⟩

/-- **C81**, the media type of the payload is stated exactly when there is a payload. -/
theorem C81_content_type (c : Codec V) (clientMode : Bool) (s : Struct) (ws : List (Member × Val)) (msg : EventMessage)
    (hwf : WellFormed s) (hw : Written s ws) (h : serialize c clientMode s ws = .ok msg) :
    msg.headers.lookup ":content-type" = (if msg.payload = [] then none else
      some (.str (match s.members.find? fun m => m.payload with
        | none => c.mediaType
        | some pm => match pm.mediaType, pm.kind with
          | some t, _ => t
          | none, .string => "text/plain"
          | none, .blob => "application/octet-stream"
          | none, _ => c.mediaType))) := by
  obtain ⟨first, mediaType, _, hpay, _, _, _, _, hct⟩ := serialize_ok h hwf hw
  rw [hct]
  split
  · rfl
  · congr 2
    unfold payloadOf payloadMember at hpay
    split at hpay
    · next hpm =>
      simp only [Except.ok.injEq, Prod.mk.injEq] at hpay
      exact hpay.2.symm
    · next pm hpm =>
      have : mediaType = payloadMediaType c.mediaType pm := by
        split at hpay
        · cases hraw : rawPayload (payloadWrites ws) with
          | error e =>
            rw [hraw] at hpay
            cases hpay
          | ok b =>
            rw [hraw] at hpay
            simp only [Except.map, Except.ok.injEq, Prod.mk.injEq] at hpay
            exact hpay.2.symm
        · simp only [Except.ok.injEq, Prod.mk.injEq] at hpay
          exact hpay.2.symm
      rw [this]
      unfold payloadMediaType
      cases pm.mediaType <;> cases pm.kind <;> rfl

/-- **C81**, a payload of no bytes is lost: the receiver is handed nothing for a member that was sent as an empty
string or blob. -/
theorem C81_empty_payload_fails (c : Codec V) (clientMode : Bool) (vs : List Struct) (s : Struct)
    (ws : List (Member × Val)) (n : String) (hs : s ∈ vs) (hd : (vs.map Struct.name).Nodup) (hn : s.name = some n)
    (hni : s.error = false → n ≠ "initial-request" ∧ n ≠ "initial-response")
    (hwf : WellFormed s) (hw : Written s ws) (hb : Bound s ws) (hts : WholeSeconds ws)
    (msg : EventMessage) (h : serialize c clientMode s ws = .ok msg) (f rest : Bytes) (he : msg.encode = .ok f)
    (m : Member) (hm : m.payload = true) (hv : (m, .str "") ∈ ws ∨ (m, .blob []) ∈ ws)
    (hk : m.kind = .string ∨ m.kind = .blob) :
    ∃ e calls, Event.decode (f ++ rest) = (.ok (some e), rest) ∧
      readEvent c (.union vs) e.message = .ok (.variant s calls) ∧ ∀ src, (m, src) ∉ calls := by
  have hmm : m ∈ s.members := by rcases hv with hv | hv <;> exact hw.members _ hv
  obtain ⟨e, calls, h1, h2, h3⟩ := C81_event_partial c clientMode vs s ws n hs hd hn hni hwf hw hb hts msg h f rest he
    (fun hp => by simp [hp m hmm] at hm)
  have hone : ∀ u v, (m, u) ∈ ws → (m, v) ∈ ws → u = v := by
    have honce := hw.once
    clear h h3 hts hb hw hv
    intro u v hu hv'
    induction ws with
    | nil => cases hu
    | cons w ws ih =>
      rw [List.map_cons, List.nodup_cons] at honce
      rcases List.mem_cons.1 hu with hu1 | hu1 <;> rcases List.mem_cons.1 hv' with hv1 | hv1
      · rw [← hv1] at hu1
        exact (Prod.mk.inj hu1).2
      · exact absurd (List.mem_map.2 ⟨(m, v), hv1, by rw [← hu1]⟩) honce.1
      · exact absurd (List.mem_map.2 ⟨(m, u), hu1, by rw [← hv1]⟩) honce.1
      · exact ih honce.2 hu1 hv1
  refine ⟨e, calls, h1, h2, ?_⟩
  intro src hsrc
  cases src with
  | header x =>
    have := (h3.headerOnly m x hsrc).1
    simp [hwf.exclusive m hmm hm] at this
  | raw b =>
    obtain ⟨h4, _, ⟨_, h5⟩ | ⟨_, t, h5, h6⟩⟩ := (h3.raw m b).1 hsrc
    · rcases hv with hv | hv
      · cases hone _ _ h5 hv
      · cases hone _ _ h5 hv
        exact h4 rfl
    · rcases hv with hv | hv
      · cases hone _ _ h5 hv
        exact h4 (by rw [h6]; decide +kernel)
      · cases hone _ _ h5 hv
  | document b =>
    obtain ⟨_, _, _, h5, h6, _⟩ := (h3.document m b).1 hsrc
    exact hk.elim h6 h5
  | value x =>
    obtain ⟨h4, _⟩ := (h3.value m x).1 hsrc
    simp [h4 m hmm] at hm

/-- **C81**, a header that holds a boolean is taken for an integer. -/
theorem C81_boolean_for_integer_fails : readHeader .integer (.bool true) = .ok (.bool true) := by decide +kernel

/-! ## The hypotheses are met -/

/-- A codec that writes a byte for every string, and finds the first member in any document. -/
def exCodec : Codec Nat where
  mediaType := "application/json"
  encodeStruct ws := ws.map fun _ => 7
  encodeValues ws := ws.map fun _ => 9
  decode b ms := .ok ((ms.take 1).map fun m => (m, b.length))

def exTitle : Member := { name := "title", kind := .string, header := true }
def exAt : Member := { name := "at", kind := .timestamp, header := true }
def exData : Member := { name := "data", kind := .blob, payload := true }
def exText : Member := { name := "text", kind := .string }
def exChunk : Struct := { name := some "chunk", members := [exTitle, exAt, exData] }
def exDone : Struct := { name := some "done", members := [exText, exTitle] }
def exFault : Struct := { name := some "fault", error := true, members := [exTitle] }
def exInput : Struct := { name := none, members := [exText, exTitle] }
def exWrites : List (Member × Val) := [(exTitle, .str "a"), (exAt, .timestamp 1000000), (exData, .blob [1, 2])]

theorem ex_chunk_ok : WellFormed exChunk ∧ Written exChunk exWrites ∧ Bound exChunk exWrites ∧
    WholeSeconds exWrites := by
  refine ⟨⟨by decide +kernel, by decide +kernel, by decide +kernel, by decide +kernel⟩,
    ⟨by decide +kernel, by decide +kernel⟩, by unfold Bound; decide +kernel, ?_⟩
  intro m us h1 h2
  simp only [exWrites, List.mem_cons, Prod.mk.injEq, reduceCtorEq, and_false, false_or, List.not_mem_nil, or_false,
    Val.timestamp.injEq] at h1
  obtain ⟨_, rfl⟩ := h1
  exact ⟨by decide +kernel, by decide +kernel, by decide +kernel⟩

/-- Made into a message, which has a frame, and read. -/
def exTrip (s : Struct) (ws : List (Member × Val)) (t : Target) : Except SErr (Outcome Nat) :=
  match serialize exCodec true s ws with
  | .error e => .error e
  | .ok msg =>
    match msg.encode with
    | .error e => .error (.frame e)
    | .ok _ => readEvent exCodec t msg

def exUnion : Target := .union [exDone, exChunk, exFault]

/-- An event with two headers and a payload. -/
example : exTrip exChunk exWrites exUnion = .ok (.variant exChunk
    [(exTitle, .header (.str "a")), (exAt, .header (.timestamp 1000000)), (exData, .raw [1, 2])]) := by
  decide +kernel

/-- An event with a header and a document. -/
example : exTrip exDone [(exText, .str "b"), (exTitle, .str "a")] exUnion = .ok (.variant exDone
    [(exTitle, .header (.str "a")), (exText, .value 1)]) := by
  decide +kernel

/-- An error. -/
example : exTrip exFault [(exTitle, .str "a")] exUnion = .ok (.variant exFault
    [(exTitle, .header (.str "a"))]) := by
  decide +kernel

/-- An event and an error that the receiver does not know, an input and an empty payload. -/
example : exTrip exDone [(exText, .str "b"), (exTitle, .str "a")] (.union [exChunk]) = .ok (.unknown "done") ∧
    exTrip exFault [] (.union [exChunk]) = .error .keyError ∧
    exTrip exInput [(exText, .str "b")] (.structure exInput) = .ok (.initial [(exText, .value 1)]) ∧
    exTrip exChunk [(exData, .blob [])] exUnion = .ok (.variant exChunk []) := by
  refine ⟨?_, ?_, ?_, ?_⟩ <;> decide +kernel

/-- The names of the variants are distinct, and none is that of an initial message. -/
example : ([exDone, exChunk, exFault].map Struct.name).Nodup ∧ exChunk.name = some "chunk" ∧
    "chunk" ≠ "initial-request" ∧ "chunk" ≠ "initial-response" := by
  refine ⟨?_, ?_, ?_, ?_⟩ <;> decide +kernel

end Verif.EventStream.Shapes

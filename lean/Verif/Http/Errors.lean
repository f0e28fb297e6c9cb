import Verif.Common
import Verif.Shapes.ErrorCode
import Verif.Shapes.Registry
import Verif.HeaderText.Model
import Mathlib.Tactic.Common

/-!
# Which exception an error response becomes (C32)

Models `_create_error` of the protocols with HTTP bindings (smithy_http/aio/protocols.py:177-255) with
the parts REST-JSON overrides (smithy_aws_core/aio/protocols.py:101-184), and the errors of the query
protocol (smithy_aws_core/_private/query/errors.py).  Parsing of JSON and XML is not modelled: the model
starts from the parsed value.  Delays are of an arbitrary type `D`, modeled errors of a type `M`.
-/

set_option autoImplicit false

namespace Verif.Http.Errors

open Verif.Text Verif.Shapes

/-! ## Model -/

inductive Fault where
  | client
  | server
  deriving DecidableEq, Repr

/-- A generic `CallError` (smithy_core/exceptions.py:18-58).  Of its message only the identifier or code
in it is kept. -/
structure Generic (D : Type) where
  fault : Fault
  mentions : Option Text
  throttling : Bool
  timeout : Bool
  retrySafe : Option Bool
  retryAfter : Option D
  deriving DecidableEq, Repr

/-- A modeled error: what deserializing gave and its `retry_after`. -/
structure Modeled (M D : Type) where
  value : M
  retryAfter : Option D
  deriving DecidableEq, Repr

inductive CallError (M D : Type) where
  | modeled (id : Text) (e : Modeled M D)
  | generic (e : Generic D)
  deriving DecidableEq, Repr

/-- The exceptions raised instead of returning a call error. -/
inductive Failure (E : Type) where
  /-- `SmithyError` of a malformed shape identifier -/
  | badId (e : Err)
  /-- the body could not be parsed, or the error could not be deserialized -/
  | codec (e : E)
  /-- `DiscriminatorError` -/
  | discriminator
  /-- `ExpectationNotMetError`: the class is not a `ModeledError` -/
  | expectation
  deriving DecidableEq, Repr

/-- A registered class: whether it derives from `ModeledError`, and what its `deserialize` gives for the
response at hand. -/
structure Class (M E D : Type) where
  isModeled : Bool
  deserialize : Except E (Modeled M D)

variable {M E D : Type}

/-- A parsed document, as far as its discriminator is concerned: a mapping, whose values are strings or
something else, or no mapping. -/
inductive Doc where
  | map (entries : List (Text × Option Text))
  | other
  deriving DecidableEq, Repr

/-- `map_document.get(key)` -/
def Doc.lookup (entries : List (Text × Option Text)) (key : Text) : Option (Option Text) :=
  (entries.find? fun e => e.1 = key).map Prod.snd

def typeKey : Text := "__type".toList

def codeKey : Text := "code".toList

/-- `parse_document_discriminator` (smithy_aws_core/utils.py:38-49). -/
def docDiscriminator (d : Doc) (ns : Option Text) : Except Err (Option ShapeId) :=
  match d with
  | .map es =>
    let code := match Doc.lookup es typeKey with
      | some v => some v
      | none => Doc.lookup es codeKey
    match code with
    | some (some t) => parseErrorCode t ns
    | _ => .ok none
  | .other => .ok none

/-- The parts of the protocol and of the response that `_create_error` uses. -/
structure Setup (M E D : Type) where
  registry : Registry (Class M E D)
  /-- `error_identifier.identify` -/
  identified : Except Err (Option ShapeId)
  /-- `_resolve_error_id` -/
  resolve : ShapeId → ShapeId
  /-- `_matches_content_type` -/
  contentMatches : Bool
  /-- `document.discriminator` of the parsed body -/
  bodyId : Except (Failure E) ShapeId
  retryAfter : Option D
  status : Nat

/-- `isinstance(error_shape, ModeledError)`, deserializing and setting the delay
(smithy_http/aio/protocols.py:220-239). -/
def deserializeError (s : Setup M E D) (id : ShapeId) (c : Class M E D) :
    Except (Failure E) (CallError M D) :=
  if c.isModeled then
    match c.deserialize with
    | .error e => .error (.codec e)
    | .ok m =>
      .ok (.modeled id.id (match s.retryAfter with
        | some d => { m with retryAfter := some d }
        | none => m))
  else .error .expectation

/-- The generic error (smithy_http/aio/protocols.py:241-255).  `is_throttle or is_timeout or None`. -/
def genericError (status : Nat) (mentions : Option Text) (retryAfter : Option D) : Generic D :=
  let isTimeout := status == 408
  let isThrottle := status == 429
  { fault := if status < 500 then .client else .server
    mentions := mentions
    throttling := isThrottle
    timeout := isTimeout
    retrySafe := if isThrottle || isTimeout then some true else none
    retryAfter := retryAfter }

/-- `_create_error` (smithy_http/aio/protocols.py:177-255). -/
def createError (s : Setup M E D) : Except (Failure E) (CallError M D) :=
  match s.identified with
  | .error e => .error (.badId e)
  | .ok id =>
    let id := match id with
      | some i => if s.registry.contains i.id then some i else some (s.resolve i)
      | none => none
    match (if id.isNone && s.contentMatches then
        match s.bodyId with
        | .error e => .error e
        | .ok d =>
          let d := if s.registry.contains d.id then d else s.resolve d
          .ok (if s.registry.contains d.id then some d else none)
      else .ok id : Except (Failure E) (Option ShapeId)) with
    | .error e => .error e
    | .ok id =>
      match id with
      | some i =>
        match s.registry.get i.id with
        | some c => deserializeError s i c
        | none => .ok (.generic (genericError s.status (some i.id) s.retryAfter))
      | none => .ok (.generic (genericError s.status none s.retryAfter))

/-- `_is_success` (smithy_http/aio/protocols.py:169-175). -/
def isSuccess (status : Nat) : Bool := 200 ≤ status && status < 300

def errorTypeName : Text := "x-amzn-errortype".toList

def contentTypeName : Text := "content-type".toList

def jsonType : Text := "application/json".toList

/-- An operation, as far as errors are concerned: its namespace and the identifiers of its error schemas,
with the code of their query error trait. -/
structure Operation where
  ns : Text
  errors : List (ShapeId × Option Text)

/-- A response: what its fields have under a name, and its parsed body. -/
structure Response (E : Type) where
  status : Nat
  field : Text → Option (List Text)
  body : Except E Doc

/-- `AWSErrorIdentifier.identify` (smithy_aws_core/aio/protocols.py:104-117). -/
def identify (op : Operation) (r : Response E) : Except Err (Option ShapeId) :=
  match r.field errorTypeName with
  | none => .ok none
  | some [] => .ok none
  | some (code :: _) => parseErrorCode code (some op.ns)

/-- `RestJsonClientProtocol._resolve_error_id` (smithy_aws_core/aio/protocols.py:175-184). -/
def resolveByName (op : Operation) (id : ShapeId) : ShapeId :=
  match op.errors.find? fun e => e.1.name = id.name with
  | some e => e.1
  | none => id

/-- `AWSJSONDocument.discriminator` of the body (smithy_aws_core/aio/protocols.py:122-134); `ns` is the
namespace of the service. -/
def bodyDiscriminator (ns : Option Text) (r : Response E) : Except (Failure E) ShapeId :=
  match r.body with
  | .error e => .error (.codec e)
  | .ok d =>
    match docDiscriminator d ns with
    | .error e => .error (.badId e)
    | .ok none => .error .discriminator
    | .ok (some id) => .ok id

/-- `_matches_content_type` (smithy_http/aio/protocols.py:270-273). -/
def matchesContentType (r : Response E) : Bool :=
  match r.field contentTypeName with
  | none => false
  | some vs => HeaderText.asString vs == jsonType

/-- `_create_error` of the REST-JSON protocol. -/
def restJson (ns : Text) (op : Operation) (registry : Registry (Class M E D)) (r : Response E)
    (retryAfter : Option D) : Except (Failure E) (CallError M D) :=
  createError
    { registry := registry, identified := identify op r, resolve := resolveByName op,
      contentMatches := matchesContentType r, bodyId := bodyDiscriminator (some ns) r,
      retryAfter := retryAfter, status := r.status }

/-! ### The query protocol -/

/-- An XML element: tag, text and children. -/
inductive Elem where
  | mk (tag : Text) (text : Option Text) (children : List Elem)

def Elem.tag : Elem → Text
  | .mk t _ _ => t

def Elem.text : Elem → Option Text
  | .mk _ t _ => t

def Elem.children : Elem → List Elem
  | .mk _ _ c => c

/-- `_local_name` (errors.py:36-40).  A tag that starts with a brace has a closing one. -/
def localName (tag : Text) : Text :=
  match tag with
  | '{' :: _ => ((cut '}' tag).2).getD []
  | _ => tag

/-- `_find_child` (errors.py:43-48). -/
def findChild (e : Elem) (name : Text) : Option Elem :=
  e.children.find? fun c => localName c.tag = name

/-- The loop over the wrapper elements after the first (errors.py:63-67). -/
def unwrap : List Text → Elem → Option Elem
  | [], e => some e
  | w :: ws, e =>
    match findChild e w with
    | none => none
    | some c => unwrap ws c

def codeTag : Text := "Code".toList

/-- `_parse_aws_query_error_code` (errors.py:51-70); the body is `none` if it is not well-formed. -/
def queryCode (body : Option Elem) (wrappers : List Text) : Option Text :=
  match body with
  | none => none
  | some e =>
    match (match wrappers with
      | [] => some e
      | w :: ws => if localName e.tag ≠ w then none else unwrap ws e) with
    | none => none
    | some e =>
      match findChild e codeTag with
      | none => none
      | some c => c.text

/-- `_resolve_aws_query_error_shape_id` (errors.py:73-89). -/
def queryId (code : Text) (op : Operation) (registry : Registry (Class M E D)) (ns : Text) :
    Except Err (Option ShapeId) :=
  match (match op.errors.find? fun e => e.2 = some code with
    | some e => if registry.contains e.1.id then some e.1 else none
    | none => none) with
  | some id => .ok (some id)
  | none =>
    match fromParts ns code none with
    | .error e => .error e
    | .ok id => .ok (if registry.contains id.id then some id else none)

/-- `_error_wrapper_elements` (smithy_aws_core/aio/protocols.py:395-396). -/
def errorWrappers : List Text := ["ErrorResponse".toList, "Error".toList]

/-- `create_aws_query_error` (errors.py:92-142) as the query protocol calls it
(smithy_aws_core/aio/protocols.py:356-374). -/
def queryError (ns : Text) (op : Operation) (registry : Registry (Class M E D)) (body : Option Elem)
    (status : Nat) (retryAfter : Option D) : Except (Failure E) (CallError M D) :=
  match queryCode body errorWrappers with
  | none => .ok (.generic (genericError status none retryAfter))
  | some code =>
    match queryId code op registry ns with
    | .error e => .error (.badId e)
    | .ok none => .ok (.generic (genericError status (some code) retryAfter))
    | .ok (some id) =>
      match registry.get id.id with
      | none => .error .expectation
      | some c =>
        if c.isModeled then
          match c.deserialize with
          | .error e => .error (.codec e)
          | .ok m =>
            .ok (.modeled id.id (match retryAfter with
              | some d => { m with retryAfter := some d }
              | none => m))
        else .error .expectation

/-! ## Specification -/

/-- What a generic error says about a status: the fault is the client's below 500, 408 is a timeout and
429 throttling, these two are safe to retry, and nothing is marked unsafe. -/
structure Classified (status : Nat) (retryAfter : Option D) (g : Generic D) : Prop where
  client : g.fault = .client ↔ status < 500
  server : g.fault = .server ↔ 500 ≤ status
  timeout : g.timeout = true ↔ status = 408
  throttling : g.throttling = true ↔ status = 429
  safe : g.retrySafe = some true ↔ status = 408 ∨ status = 429
  notUnsafe : g.retrySafe ≠ some false
  retryAfter : g.retryAfter = retryAfter

/-- The error codes a REST-JSON response carries: the first value of its header `x-amzn-errortype`; without
it, in a JSON body, the string under `__type`, or under `code` if there is no `__type`. -/
inductive Carries (ns : Text) (op : Operation) (r : Response E) : Text → Text → Prop where
  | header (code : Text) (more : List Text) (h : r.field "x-amzn-errortype".toList = some (code :: more)) :
    Carries ns op r code op.ns
  | type (code : Text) (es : List (Text × Option Text))
    (h : r.field "x-amzn-errortype".toList = none) (hc : r.field "content-type".toList =
      some ["application/json".toList]) (hb : r.body = .ok (.map es))
    (ht : Doc.lookup es "__type".toList = some (some code)) : Carries ns op r code ns
  | code (code : Text) (es : List (Text × Option Text))
    (h : r.field "x-amzn-errortype".toList = none) (hc : r.field "content-type".toList =
      some ["application/json".toList]) (hb : r.body = .ok (.map es))
    (ht : Doc.lookup es "__type".toList = none) (hcode : Doc.lookup es "code".toList = some (some code)) :
    Carries ns op r code ns

/-- The identifier stands for a registered class: itself, or, if it is not registered, the first error of
the operation with the same name. -/
def Stands (op : Operation) (registry : Registry (Class M E D)) (id : ShapeId) (tgt : Text) : Prop :=
  (registry.contains id.id = true ∧ tgt = id.id) ∨
  (registry.contains id.id = false ∧ ∃ before e after, op.errors = before ++ e :: after ∧
    (∀ b ∈ before, b.1.name ≠ id.name) ∧ e.1.name = id.name ∧ tgt = e.1.id ∧
    registry.contains e.1.id = true)

/-- The modeled error of a class, with the delay the response asks for, if any. -/
def Gives (registry : Registry (Class M E D)) (id : Text) (retryAfter : Option D)
    (result : Except (Failure E) (CallError M D)) : Prop :=
  ∃ c, registry.get id = some c ∧ ∀ m, c.isModeled = true → c.deserialize = .ok m →
    result = .ok (.modeled id ⟨m.value, retryAfter.or m.retryAfter⟩)

/-! ## Theorems -/

theorem genericError_classified (status : Nat) (mentions : Option Text) (retryAfter : Option D) :
    Classified status retryAfter (genericError status mentions retryAfter) := by
  refine ⟨?_, ?_, ?_, ?_, ?_, ?_, rfl⟩
  · simp only [genericError]; split <;> simp [*]
  · simp only [genericError]; split
    · simp; omega
    · simp; omega
  · simp [genericError]
  · simp [genericError]
  · simp only [genericError]
    split
    · next h =>
      simp only [true_iff]
      simp only [Bool.or_eq_true, beq_iff_eq] at h
      tauto
    · next h =>
      simp only [Bool.or_eq_true, beq_iff_eq] at h
      constructor
      · intro h; cases h
      · intro h'; exact absurd (by tauto) h
  · simp only [genericError]; split <;> simp

/-- **C32**: every call error that is not modeled is classified by the status, for the protocols with
HTTP bindings and for the query protocol. -/
theorem C32_generic (ns : Text) (op : Operation) (registry : Registry (Class M E D)) (r : Response E)
    (body : Option Elem) (retryAfter : Option D) (g : Generic D)
    (h : restJson ns op registry r retryAfter = .ok (.generic g) ∨
      queryError ns op registry body r.status retryAfter = .ok (.generic g)) :
    Classified r.status retryAfter g := by
  rcases h with h | h
  · unfold restJson createError at h
    simp only at h
    split at h
    · cases h
    · split at h
      · cases h
      · split at h
        · split at h
          · unfold deserializeError at h
            split at h
            · split at h <;> cases h
            · cases h
          · cases h; exact genericError_classified _ _ _
        · cases h; exact genericError_classified _ _ _
  · unfold queryError at h
    split at h
    · cases h; exact genericError_classified _ _ _
    · split at h
      · cases h
      · cases h; exact genericError_classified _ _ _
      · split at h
        · cases h
        · split at h
          · split at h <;> cases h
          · cases h

theorem contains_get (registry : Registry (Class M E D)) (id : Text)
    (h : registry.contains id = true) : ∃ c, registry.get id = some c :=
  (C40_missing_iff registry id).2.1 h

theorem get_contains (registry : Registry (Class M E D)) (id : Text) (c : Class M E D)
    (h : registry.get id = some c) : registry.contains id = true :=
  (C40_missing_iff registry id).2.2 ⟨c, h⟩

theorem resolve_stands (op : Operation) (registry : Registry (Class M E D)) (id : ShapeId) (tgt : Text) :
    Stands op registry id tgt ↔
      (let i := if registry.contains id.id then id else resolveByName op id
       registry.contains i.id = true ∧ tgt = i.id) := by
  unfold Stands
  by_cases hc : registry.contains id.id = true
  · simp only [hc, if_true, true_and, Bool.true_eq_false, false_and, or_false]
  · have hf : registry.contains id.id = false := by simpa using hc
    simp only [hf, Bool.false_eq_true, false_and, false_or, true_and, if_false]
    unfold resolveByName
    cases he : op.errors.find? fun e => e.1.name = id.name with
    | none =>
      simp only [hf, Bool.false_eq_true, false_and, iff_false]
      rintro ⟨before, e, after, h, _, hn, _⟩
      have := List.find?_eq_none.1 he e (by rw [h]; simp)
      exact this (by simpa using hn)
    | some e =>
      obtain ⟨h1, before, after, h2, h3⟩ := List.find?_eq_some_iff_append.1 he
      have h3' : ∀ b ∈ before, b.1.name ≠ id.name := fun b hb => by simpa using h3 b hb
      have h1' : e.1.name = id.name := by simpa using h1
      simp only
      constructor
      · rintro ⟨b', e', a', hs, hb', hn', rfl, hreg⟩
        have : e' = e := by
          have hf' : op.errors.find? (fun e => e.1.name = id.name) = some e' :=
            List.find?_eq_some_iff_append.2 ⟨by simpa using hn', b', a', hs,
              fun b hb => by simpa using hb' b hb⟩
          rw [he] at hf'; cases hf'; rfl
        subst this; exact ⟨hreg, rfl⟩
      · rintro ⟨hreg, rfl⟩
        exact ⟨before, e, after, h2, h3', h1', rfl, hreg⟩

theorem give (s : Setup M E D) (i : ShapeId) (c : Class M E D) (hc : s.registry.get i.id = some c) :
    Gives s.registry i.id s.retryAfter (deserializeError s i c) := by
  refine ⟨c, hc, fun m hm hd => ?_⟩
  unfold deserializeError
  rw [if_pos hm, hd]
  cases s.retryAfter <;> rfl

/-- What `createError` does once the identifier is known. -/
theorem createError_cases (s : Setup M E D) :
    (∀ i, s.identified = .ok (some i) →
      let i' := if s.registry.contains i.id then i else s.resolve i
      (∀ c, s.registry.get i'.id = some c → createError s = deserializeError s i' c) ∧
      (s.registry.contains i'.id = false →
        createError s = .ok (.generic (genericError s.status (some i'.id) s.retryAfter)))) ∧
    (∀ d, s.identified = .ok none → s.contentMatches = true → s.bodyId = .ok d →
      let d' := if s.registry.contains d.id then d else s.resolve d
      (∀ c, s.registry.get d'.id = some c → createError s = deserializeError s d' c) ∧
      (s.registry.contains d'.id = false →
        createError s = .ok (.generic (genericError s.status none s.retryAfter)))) ∧
    (s.identified = .ok none → s.contentMatches = false →
      createError s = .ok (.generic (genericError s.status none s.retryAfter))) := by
  refine ⟨?_, ?_, ?_⟩
  · intro i hi
    have hopt : (if s.registry.contains i.id then some i else some (s.resolve i)) =
        some (if s.registry.contains i.id then i else s.resolve i) := by split <;> rfl
    refine ⟨fun c hc => ?_, fun hn => ?_⟩
    · unfold createError
      simp only [hi, hopt, Option.isNone_some, Bool.false_and, Bool.false_eq_true, if_false, hc]
    · have hnone : s.registry.get (if s.registry.contains i.id then i else s.resolve i).id = none := by
        cases hg : s.registry.get (if s.registry.contains i.id then i else s.resolve i).id with
        | none => rfl
        | some c => rw [get_contains _ _ _ hg] at hn; cases hn
      unfold createError
      simp only [hi, hopt, Option.isNone_some, Bool.false_and, Bool.false_eq_true, if_false, hnone]
  · intro d hi hm hd
    refine ⟨fun c hc => ?_, fun hn => ?_⟩
    · have hcon := get_contains _ _ _ hc
      unfold createError
      simp only [hi, Option.isNone_none, hm, Bool.and_self, if_true, hd, hcon, hc]
    · unfold createError
      simp only [hi, Option.isNone_none, hm, Bool.and_self, if_true, hd, hn, Bool.false_eq_true, if_false]
  · intro hi hm
    unfold createError
    simp only [hi, hm, Bool.and_false, Bool.false_eq_true, if_false]

theorem asString_single_json : HeaderText.asString ["application/json".toList] = jsonType := by
  decide +kernel

theorem carries_identify (ns : Text) (op : Operation) (registry : Registry (Class M E D)) (r : Response E)
    (retryAfter : Option D) (code cns : Text) (h : Carries ns op r code cns) (id : ShapeId)
    (hid : parseErrorCode code (some cns) = .ok (some id)) :
    let i := if registry.contains id.id then id else resolveByName op id
    let s : Setup M E D :=
      { registry := registry, identified := identify op r, resolve := resolveByName op,
        contentMatches := matchesContentType r, bodyId := bodyDiscriminator (some ns) r,
        retryAfter := retryAfter, status := r.status }
    (∀ c, registry.get i.id = some c →
      restJson ns op registry r retryAfter = deserializeError s i c) ∧
    (registry.contains i.id = false →
      ∃ m, restJson ns op registry r retryAfter = .ok (.generic (genericError r.status m retryAfter))) := by
  intro i s
  obtain ⟨h1, h2, -⟩ := createError_cases s
  have body : ∀ es, r.field "x-amzn-errortype".toList = none →
      r.field "content-type".toList = some ["application/json".toList] → r.body = .ok (.map es) →
      docDiscriminator (.map es) (some ns) = .ok (some id) →
      (∀ c, registry.get i.id = some c →
        restJson ns op registry r retryAfter = deserializeError s i c) ∧
      (registry.contains i.id = false →
        ∃ m, restJson ns op registry r retryAfter =
          .ok (.generic (genericError r.status m retryAfter))) := by
    intro es hh hc hb hd
    have e1 : s.identified = .ok none := by
      show identify op r = _
      unfold identify errorTypeName
      rw [hh]
    have e2 : s.contentMatches = true := by
      show matchesContentType r = true
      unfold matchesContentType contentTypeName
      rw [hc]
      simp only [asString_single_json, beq_self_eq_true]
    have e3 : s.bodyId = .ok id := by
      show bodyDiscriminator (some ns) r = _
      unfold bodyDiscriminator
      rw [hb]
      simp only [hd]
    obtain ⟨g1, g2⟩ := h2 id e1 e2 e3
    exact ⟨g1, fun hn => ⟨none, g2 hn⟩⟩
  cases h with
  | header more hh =>
    have e1 : s.identified = .ok (some id) := by
      show identify op r = _
      unfold identify errorTypeName
      rw [hh]; exact hid
    obtain ⟨g1, g2⟩ := h1 id e1
    exact ⟨g1, fun hn => ⟨some i.id, g2 hn⟩⟩
  | type es hh hc hb ht =>
    refine body es hh hc hb ?_
    unfold docDiscriminator
    simp only [show Doc.lookup es typeKey = some (some code) from ht]
    exact hid
  | code es hh hc hb ht hcode =>
    refine body es hh hc hb ?_
    unfold docDiscriminator
    simp only [show Doc.lookup es typeKey = none from ht, show Doc.lookup es codeKey = some (some code)
      from hcode]
    exact hid

/-- **C32** for REST-JSON: if the code a response carries stands for a registered error, the response
becomes that error, with the delay the response asks for; if it stands for none, the response becomes a
generic call error, whose classification is `C32_generic`. -/
theorem C32_rest_json (ns : Text) (op : Operation) (registry : Registry (Class M E D)) (r : Response E)
    (retryAfter : Option D) (code cns : Text) (h : Carries ns op r code cns) (id : ShapeId)
    (hid : parseErrorCode code (some cns) = .ok (some id)) :
    (∀ tgt, Stands op registry id tgt →
      Gives registry tgt retryAfter (restJson ns op registry r retryAfter)) ∧
    ((∀ tgt, ¬ Stands op registry id tgt) →
      ∃ g, restJson ns op registry r retryAfter = .ok (.generic g)) := by
  obtain ⟨h1, h2⟩ := carries_identify ns op registry r retryAfter code cns h id hid
  refine ⟨fun tgt hto => ?_, fun hno => ?_⟩
  · obtain ⟨hreg, rfl⟩ := (resolve_stands op registry id tgt).1 hto
    obtain ⟨c, hc⟩ := contains_get registry _ hreg
    rw [h1 c hc]
    exact give (⟨registry, identify op r, resolveByName op, matchesContentType r,
      bodyDiscriminator (some ns) r, retryAfter, r.status⟩ : Setup M E D) _ c hc
  · have hn : registry.contains
        (if registry.contains id.id then id else resolveByName op id).id = false := by
      by_contra hne
      rw [Bool.not_eq_false] at hne
      exact hno _ ((resolve_stands op registry id _).2 ⟨hne, rfl⟩)
    obtain ⟨m, hm⟩ := h2 hn
    exact ⟨_, hm⟩

/-- **C32** for REST-JSON: a response without the header whose content type is not exactly JSON becomes a
generic call error, whatever its body. -/
theorem C32_rest_json_other (ns : Text) (op : Operation) (registry : Registry (Class M E D))
    (r : Response E) (retryAfter : Option D) (hh : r.field "x-amzn-errortype".toList = none)
    (hc : ∀ vs, r.field "content-type".toList = some vs →
      HeaderText.asString vs ≠ "application/json".toList) :
    ∃ g, restJson ns op registry r retryAfter = .ok (.generic g) := by
  obtain ⟨-, -, h3⟩ := createError_cases (M := M) (E := E) (D := D)
    { registry := registry, identified := identify op r, resolve := resolveByName op,
      contentMatches := matchesContentType r, bodyId := bodyDiscriminator (some ns) r,
      retryAfter := retryAfter, status := r.status }
  have e1 : identify op r = .ok none := by unfold identify errorTypeName; rw [hh]
  have e2 : matchesContentType r = false := by
    unfold matchesContentType contentTypeName
    cases hf : r.field "content-type".toList with
    | none => rfl
    | some vs =>
      simp only
      exact beq_eq_false_iff_ne.2 (hc vs hf)
  exact ⟨_, h3 e1 e2⟩

/-- **C32** fails for a JSON error body that carries no code: instead of a generic call error the
call ends with a `DiscriminatorError`, which says nothing about fault, throttling or timeout. -/
theorem C32_no_code_fails (ns : Text) (op : Operation) (registry : Registry (Class M E D))
    (r : Response E) (retryAfter : Option D) (d : Doc)
    (hh : r.field "x-amzn-errortype".toList = none)
    (hc : r.field "content-type".toList = some ["application/json".toList]) (hb : r.body = .ok d)
    (hd : d = .other ∨ ∃ es, d = .map es ∧ ((∃ v, Doc.lookup es "__type".toList = some v ∧ v = none) ∨
      (Doc.lookup es "__type".toList = none ∧ ∀ t, Doc.lookup es "code".toList ≠ some (some t)))) :
    restJson ns op registry r retryAfter = .error .discriminator := by
  have hdoc : docDiscriminator d (some ns) = .ok none := by
    rcases hd with rfl | ⟨es, rfl, ⟨v, hv, rfl⟩ | ⟨h1, h2⟩⟩
    · rfl
    · unfold docDiscriminator
      simp only [show Doc.lookup es typeKey = some none from hv]
    · unfold docDiscriminator
      simp only [show Doc.lookup es typeKey = none from h1]
      cases hk : Doc.lookup es codeKey with
      | none => rfl
      | some v =>
        cases v with
        | none => rfl
        | some t => exact absurd hk (h2 t)
  unfold restJson createError identify errorTypeName matchesContentType contentTypeName bodyDiscriminator
  simp only [hh, hc, hb, hdoc, asString_single_json, Option.isNone_none, beq_self_eq_true, Bool.and_self,
    if_true]

/-! ### The query protocol -/

/-- The first child with a local name. -/
def FirstChild (e : Elem) (name : Text) (c : Elem) : Prop :=
  ∃ before after, e.children = before ++ c :: after ∧ localName c.tag = name ∧
    ∀ b ∈ before, localName b.tag ≠ name

theorem findChild_iff (e : Elem) (name : Text) (c : Elem) :
    findChild e name = some c ↔ FirstChild e name c := by
  unfold findChild FirstChild
  rw [List.find?_eq_some_iff_append]
  constructor
  · rintro ⟨h1, b, a, h2, h3⟩
    exact ⟨b, a, h2, by simpa using h1, fun x hx => by simpa using h3 x hx⟩
  · rintro ⟨b, a, h2, h1, h3⟩
    exact ⟨by simpa using h1, b, a, h2, fun x hx => by simpa using h3 x hx⟩

/-- The code of a query error: the text of `Code` in `Error` in `ErrorResponse`. -/
def QueryCarries (body : Option Elem) (code : Text) : Prop :=
  ∃ root error c, body = some root ∧ localName root.tag = "ErrorResponse".toList ∧
    FirstChild root "Error".toList error ∧ FirstChild error "Code".toList c ∧ c.text = some code

/-- **C32**: the names of elements are compared without their XML namespace. -/
theorem C32_local_name (uri name : Text) (h : '}' ∉ uri) :
    localName ('{' :: uri ++ '}' :: name) = name ∧ ('{' ∉ name → localName name = name) := by
  constructor
  · have h2 : '}' ∉ '{' :: uri := by simp [h]
    simp only [localName, List.cons_append]
    rw [show '{' :: (uri ++ '}' :: name) = ('{' :: uri) ++ '}' :: name from rfl,
      Verif.Text.cut_append _ _ _ h2]
    rfl
  · intro hn
    cases name with
    | nil => rfl
    | cons c t =>
      have : c ≠ '{' := fun e => hn (by simp [e])
      unfold localName
      split
      · next heq => exact absurd (List.cons.inj heq).1 this
      · rfl

theorem queryCode_iff (body : Option Elem) (code : Text) :
    queryCode body errorWrappers = some code ↔ QueryCarries body code := by
  unfold queryCode QueryCarries errorWrappers codeTag
  cases body with
  | none => simp
  | some root =>
    simp only
    by_cases hr : localName root.tag = "ErrorResponse".toList
    · rw [if_neg (by simpa using hr)]
      unfold unwrap
      cases he : findChild root "Error".toList with
      | none =>
        simp only
        constructor
        · intro h; cases h
        · rintro ⟨r, e, c, hrr, _, hf, _⟩
          cases hrr
          rw [← findChild_iff, he] at hf; cases hf
      | some e =>
        simp only [unwrap]
        cases hc : findChild e "Code".toList with
        | none =>
          simp only
          constructor
          · intro h; cases h
          · rintro ⟨r, e', c, hrr, _, hf, hf2, _⟩
            cases hrr
            rw [← findChild_iff, he] at hf; cases hf
            rw [← findChild_iff, hc] at hf2; cases hf2
        | some c =>
          simp only
          constructor
          · intro h
            exact ⟨root, e, c, rfl, hr, (findChild_iff _ _ _).1 he, (findChild_iff _ _ _).1 hc, h⟩
          · rintro ⟨r, e', c', hrr, _, hf, hf2, ht⟩
            cases hrr
            rw [← findChild_iff, he] at hf; cases hf
            rw [← findChild_iff, hc] at hf2; cases hf2
            exact ht
    · rw [if_pos hr]
      simp only
      constructor
      · intro h; cases h
      · rintro ⟨r, e, c, hrr, hl, _⟩; cases hrr; exact absurd hl hr

/-- A query error code stands for a registered error: the first error of the operation declaring the code,
or else the shape of that name in the service's namespace. -/
def QueryStands (ns : Text) (op : Operation) (registry : Registry (Class M E D)) (code : Text)
    (tgt : Text) : Prop :=
  (∃ before e after, op.errors = before ++ e :: after ∧ (∀ b ∈ before, b.2 ≠ some code) ∧
    e.2 = some code ∧ registry.contains e.1.id = true ∧ tgt = e.1.id) ∨
  ((∀ before e after, op.errors = before ++ e :: after → (∀ b ∈ before, b.2 ≠ some code) →
      e.2 = some code → registry.contains e.1.id = false) ∧
    tgt = ns ++ '#' :: code ∧ registry.contains tgt = true)

theorem queryId_iff (ns code : Text) (op : Operation) (registry : Registry (Class M E D))
    (hns : ns ≠ [] ∧ '#' ∉ ns) (hcode : code ≠ [] ∧ '$' ∉ code) :
    (∀ tgt, QueryStands ns op registry code tgt →
      ∃ id, queryId code op registry ns = .ok (some id) ∧ id.id = tgt ∧ registry.contains tgt = true) ∧
    ((∀ tgt, ¬ QueryStands ns op registry code tgt) → queryId code op registry ns = .ok none) := by
  obtain ⟨f, hf, -, hfid⟩ := C37_from_parts ⟨ns, code, none⟩
    ⟨hns.1, hns.2, hcode.1, hcode.2, by simp⟩
  have hfid' : f.id = ns ++ '#' :: code := by
    have : f.str = ns ++ '#' :: code := by rw [hfid]; simp [Parts.text]
    exact this
  unfold queryId
  cases he : op.errors.find? fun e => e.2 = some code with
  | none =>
    have hall : ∀ e ∈ op.errors, e.2 ≠ some code := fun e h => by
      simpa using List.find?_eq_none.1 he e h
    simp only [hf]
    refine ⟨?_, ?_⟩
    · rintro tgt (⟨b, e, a, h1, _, h3, _⟩ | ⟨_, rfl, hreg⟩)
      · exact absurd h3 (hall e (by rw [h1]; simp))
      · rw [← hfid'] at hreg ⊢
        exact ⟨f, by rw [if_pos hreg], rfl, hreg⟩
    · intro hno
      have : ¬ registry.contains f.id = true := fun h => hno (ns ++ '#' :: code)
        (.inr ⟨fun b e a h1 _ h3 => absurd h3 (hall e (by rw [h1]; simp)), rfl, by rw [← hfid']; exact h⟩)
      rw [if_neg this]
  | some e =>
    obtain ⟨h1, before, after, h2, h3⟩ := List.find?_eq_some_iff_append.1 he
    have h1' : e.2 = some code := by simpa using h1
    have h3' : ∀ b ∈ before, b.2 ≠ some code := fun b hb => by simpa using h3 b hb
    have huniq : ∀ b e' a, op.errors = b ++ e' :: a → (∀ x ∈ b, x.2 ≠ some code) → e'.2 = some code →
        e' = e := by
      intro b e' a hs hb hcod
      have : op.errors.find? (fun e => e.2 = some code) = some e' :=
        List.find?_eq_some_iff_append.2 ⟨by simpa using hcod, b, a, hs, fun x hx => by simpa using hb x hx⟩
      rw [he] at this; cases this; rfl
    by_cases hreg : registry.contains e.1.id = true
    · simp only [if_pos hreg]
      refine ⟨?_, fun hno => ?_⟩
      · rintro tgt (⟨b, e', a, hs, hb, hcod, hreg', rfl⟩ | ⟨hno, _⟩)
        · rw [huniq b e' a hs hb hcod]; exact ⟨e.1, rfl, rfl, hreg⟩
        · have := hno before e after h2 h3' h1'
          rw [hreg] at this; cases this
      · exact absurd (.inl ⟨before, e, after, h2, h3', h1', hreg, rfl⟩) (hno e.1.id)
    · have hregf : registry.contains e.1.id = false := by simpa using hreg
      simp only [if_neg hreg, hf]
      refine ⟨?_, fun hno => ?_⟩
      · rintro tgt (⟨b, e', a, hs, hb, hcod, hreg', rfl⟩ | ⟨_, rfl, hr⟩)
        · rw [huniq b e' a hs hb hcod] at hreg'; exact absurd hreg' hreg
        · rw [← hfid'] at hr ⊢
          exact ⟨f, by rw [if_pos hr], rfl, hr⟩
      · have : ¬ registry.contains f.id = true := fun h => hno (ns ++ '#' :: code)
          (.inr ⟨fun b e' a hs hb hcod => by rw [huniq b e' a hs hb hcod]; exact hregf, rfl,
            by rw [← hfid']; exact h⟩)
        rw [if_neg this]

/-- **C32** for the query protocol: if the code stands for a registered error, the response becomes that
error with the delay asked for; otherwise, and if there is no code, a generic call error. -/
theorem C32_query (ns : Text) (hns : ns ≠ [] ∧ '#' ∉ ns) (op : Operation)
    (registry : Registry (Class M E D)) (body : Option Elem) (status : Nat) (retryAfter : Option D) :
    (∀ code tgt, QueryCarries body code → code ≠ [] ∧ '$' ∉ code → QueryStands ns op registry code tgt →
      Gives registry tgt retryAfter (queryError ns op registry body status retryAfter)) ∧
    (∀ code, QueryCarries body code → code ≠ [] ∧ '$' ∉ code →
      (∀ tgt, ¬ QueryStands ns op registry code tgt) →
      ∃ g, queryError ns op registry body status retryAfter = .ok (.generic g)) ∧
    ((∀ code, ¬ QueryCarries body code) →
      ∃ g, queryError ns op registry body status retryAfter = .ok (.generic g)) := by
  refine ⟨?_, ?_, ?_⟩
  · intro code tgt hc hcode hst
    obtain ⟨id, hid, rfl, hreg⟩ := (queryId_iff ns code op registry hns hcode).1 tgt hst
    obtain ⟨c, hcl⟩ := contains_get registry _ hreg
    refine ⟨c, hcl, fun m hm hd => ?_⟩
    unfold queryError
    rw [(queryCode_iff body code).2 hc]
    simp only [hid, hcl, hm, hd, if_true]
    cases retryAfter <;> rfl
  · intro code hc hcode hno
    have := (queryId_iff ns code op registry hns hcode).2 hno
    unfold queryError
    rw [(queryCode_iff body code).2 hc]
    simp only [this]
    exact ⟨_, rfl⟩
  · intro hno
    have : queryCode body errorWrappers = none := by
      cases h : queryCode body errorWrappers with
      | none => rfl
      | some code => exact absurd ((queryCode_iff body code).1 h) (hno code)
    unfold queryError
    rw [this]
    exact ⟨_, rfl⟩

/-- A query error code with a dollar sign at its end is no shape name: the call ends with an error about
the identifier instead of a generic call error. -/
theorem C32_query_code_fails :
    (queryError (M := Nat) (E := Nat) (D := Nat) "a".toList ⟨"a".toList, []⟩ (.alone [])
      (some (.mk "ErrorResponse".toList none [.mk "Error".toList none
        [.mk "Code".toList (some "Bad$".toList) []]])) 500 none) =
      .error (.badId (.invalid "a#Bad$".toList)) := by decide +kernel

/-- **C32**: a response counts as an error exactly outside the range of successful statuses. -/
theorem C32_success_iff (status : Nat) : isSuccess status = true ↔ 200 ≤ status ∧ status ≤ 299 := by
  simp only [isSuccess, Bool.and_eq_true, decide_eq_true_eq]; omega

/-! ## The hypotheses are met -/

def sampleRegistry : Registry (Class Nat Nat Nat) :=
  .alone [("com.example#NotFound".toList, ⟨true, .ok ⟨7, none⟩⟩)]

def notFound : ShapeId := ⟨"com.example#NotFound".toList, "com.example".toList, "NotFound".toList, none⟩

def sampleOp : Operation := ⟨"com.example".toList, [(notFound, some "NoSuchThing".toList)]⟩

def sampleResponse : Response Nat :=
  { status := 404
    field := fun n => if n = "content-type".toList then some ["application/json".toList] else none
    body := .ok (.map [("message".toList, some "x".toList), ("__type".toList,
      some "other#NotFound:http://x".toList)]) }

example : Carries "com.example".toList sampleOp sampleResponse "other#NotFound:http://x".toList
    "com.example".toList :=
  .type _ [("message".toList, some "x".toList), ("__type".toList,
      some "other#NotFound:http://x".toList)] (by decide +kernel) (by decide +kernel) rfl
    (by decide +kernel)

/-- A namespace the registry does not know is resolved by name. -/
example : restJson "com.example".toList sampleOp sampleRegistry sampleResponse (some 3) =
    .ok (.modeled "com.example#NotFound".toList ⟨7, some 3⟩) := by decide +kernel

def sampleBody : Elem :=
  .mk "{uri}ErrorResponse".toList none [.mk "{uri}Error".toList none
    [.mk "{uri}Code".toList (some "NoSuchThing".toList) []]]

example : queryError "com.example".toList sampleOp sampleRegistry (some sampleBody) 404 none =
    .ok (.modeled "com.example#NotFound".toList ⟨7, none⟩) := by decide +kernel

end Verif.Http.Errors

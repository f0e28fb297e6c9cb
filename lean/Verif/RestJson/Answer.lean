import Verif.RestJson.Examples
import Verif.Http.Errors

/-!
# What the caller of an operation gets: the output or the error that the service answered with (C131)

`HttpBindingClientProtocol.deserialize_response` (smithy_http/aio/protocols.py:118-153) of `RestJsonClientProtocol`: the output
(C129) of a response with a status that means success, or else an error, whose class is found as C32 has it.

Errors are structures here (`Verif.GeneratedSerde`): the member for the message, if there is one, is called `message` in the class and
has the default "" (StructureGenerator.java:268-278, smithy_core/exceptions.py:31).  That is how the generated class reads and
writes it; what else base classes have (C101) is left out.
-/

set_option autoImplicit false

namespace Verif.Shapes

/-- The registry with other classes. -/
def Registry.map {T U : Type} (f : T → U) : Registry T → Registry U
  | .alone types => .alone (types.map fun e => (e.1, f e.2))
  | .over types sub => .over (types.map fun e => (e.1, f e.2)) (sub.map f)

theorem inTypes_map {T U : Type} (f : T → U) (id : Text) : ∀ types : List (Text × T),
    inTypes (types.map fun e => (e.1, f e.2)) id = (inTypes types id).map f
  | [] => rfl
  | e :: es => by
    have ih := inTypes_map f id es
    unfold inTypes at ih ⊢
    by_cases h : e.1 = id
    · simp [h]
    · simp only [List.map_cons, List.find?_cons, h, decide_false]
      exact ih

theorem Registry.get_map {T U : Type} (f : T → U) (id : Text) : ∀ r : Registry T, (r.map f).get id = (r.get id).map f
  | .alone types => inTypes_map f id types
  | .over types sub => by
    simp only [Registry.map, Registry.get, inTypes_map, Option.isSome_map, get_map f id sub]
    split <;> rfl

theorem Registry.contains_map {T U : Type} (f : T → U) (id : Text) : ∀ r : Registry T, (r.map f).contains id = r.contains id
  | .alone types => by simp only [Registry.map, Registry.contains, inTypes_map, Option.isSome_map]
  | .over types sub => by simp only [Registry.map, Registry.contains, inTypes_map, Option.isSome_map, contains_map f id sub]

end Verif.Shapes

namespace Verif.RestJson

open Verif.GeneratedSerde (Py Ref Model Shape Simple Typed Same)
open Verif.Timestamps (DateTime)
open Verif.Http (Response)
open Verif.Http.Reading (Source REnv RErr Incoming Content)
open Verif.Http.RoundTrip (received)
open Verif.Http.Errors (Operation Doc CallError Modeled Failure Class Carries Stands isSuccess restJson C32_rest_json)
open Verif.Shapes (Registry ShapeId Parts Sent PlainCode PlainNs C59_parse)
open Verif.Scalars.Strict (Num)
open Verif.Numerals (natValue natText)

/-! ## Model -/

/-- The document of a body, as far as its discriminator is concerned.  Python's dictionaries have the last of the values of a key, these
the first; the theorems are about bodies that have the key once. -/
def docOf : Json.Json → Doc
  | .obj es => .map (es.map fun e => (e.1, match e.2 with | .str s => some s | _ => none))
  | _ => .other

/-- `response.fields`, asked for a name. -/
def World.field (w : World) (r : Incoming) (name : Text) : Option (List Text) :=
  (Http.Reading.find (w.renv 0) r.fields name).map (·.values)

/-- What the call ends with. -/
inductive Outcome (D : Type) where
  | output (v : P)
  | raised (e : CallError P D)

/-- `error_shape.deserialize(...)`: generated errors derive from `ModeledError`. -/
noncomputable def World.errorClass {D : Type} (w : World) (r : Incoming) (body : Bytes) (cls : Nat) : Class P Err D where
  isModeled := true
  deserialize := match w.receive cls r (some (.bytes body)) with
    | .error e => .error e
    | .ok v => .ok ⟨v, none⟩

/-- `deserialize_response` (smithy_http/aio/protocols.py:118-153, 169-255) once the body is in memory.  `ns` is the namespace of the service,
`registry` has the numbers of the classes, `out` is the class of the output, and `delay` what `parse_retry_after` gives. -/
noncomputable def World.answer {D : Type} (w : World) (ns : Text) (op : Operation) (registry : Registry Nat) (out : Nat)
    (delay : Option D) (r : Incoming) (body : Bytes) : Except (Failure Err) (Outcome D) :=
  if isSuccess (natValue r.status) then
    match w.receive out r (some (.bytes body)) with
    | .error e => .error (.codec e)
    | .ok v => .ok (.output v)
  else
    match restJson ns op (registry.map (w.errorClass r body))
        { status := natValue r.status, field := w.field r
          body := match w.parse body with
            | none => .error (.serde (.json .token))
            | some j => .ok (docOf j) } delay with
    | .error e => .error e
    | .ok e => .ok (.raised e)

/-! ## Specification -/

/-- The fields have what the response has under the names of the members, the length of the body, if they have a length, and those of the
response that start with the prefix of a member.  There may be others. -/
def Covers (w : World) (cls : Nat) (fields written : List (Fields.Field Text)) (body : Bytes) : Prop :=
  (∀ x ∈ w.model.members cls, ∀ name, (w.traits x).header = some name →
    (fields.find? fun f => w.lower f.name = w.lower name) = written.find? fun f => w.lower f.name = w.lower name) ∧
  (∀ f, (fields.find? fun f => w.lower f.name = w.lower "content-length".toList) = some f → f.values = [natText body.length]) ∧
  ∀ x ∈ w.model.members cls, ∀ p, (w.traits x).prefixHeaders = some p →
    (fields.filter fun f => (w.lower p).isPrefixOf (w.lower f.name)) = written.filter fun f => (w.lower p).isPrefixOf (w.lower f.name)

/-- The response names an error: in `x-amzn-errortype`, or, if there is no such header and the body is JSON, as `__type` of the body, or
else as `code` of the body.  The last argument is the namespace of names without one. -/
inductive Names (w : World) (ns : Text) (op : Operation) (fields : List (Fields.Field Text)) (body : Bytes) : Text → Text → Prop
  | header {text : Text} (f : Fields.Field Text) (more : List Text)
      (h : (fields.find? fun f => w.lower f.name = w.lower "x-amzn-errortype".toList) = some f) (hv : f.values = text :: more) :
      Names w ns op fields body text op.ns
  | type {text : Text} (f : Fields.Field Text) (js : List (Text × Json.Json))
      (h : ∀ f ∈ fields, w.lower f.name ≠ w.lower "x-amzn-errortype".toList)
      (hc : (fields.find? fun f => w.lower f.name = w.lower "content-type".toList) = some f)
      (hv : f.values = ["application/json".toList]) (hp : w.parse body = some (.obj js))
      (ht : js.filter (fun e => e.1 = "__type".toList) = [("__type".toList, .str text)]) : Names w ns op fields body text ns
  | code {text : Text} (f : Fields.Field Text) (js : List (Text × Json.Json))
      (h : ∀ f ∈ fields, w.lower f.name ≠ w.lower "x-amzn-errortype".toList)
      (hc : (fields.find? fun f => w.lower f.name = w.lower "content-type".toList) = some f)
      (hv : f.values = ["application/json".toList]) (hp : w.parse body = some (.obj js))
      (ht : js.filter (fun e => e.1 = "__type".toList) = [])
      (hcode : js.filter (fun e => e.1 = "code".toList) = [("code".toList, .str text)]) : Names w ns op fields body text ns

/-- The error that a response names stands for a registered class: the one with the identifier that is sent, or, if there is none, the
first error of the operation with that name.  `dns` is the namespace of names without one. -/
def Named (op : Operation) (dns : Text) (registry : Registry Nat) (sent : Sent) (tgt : Text) : Prop :=
  let id := sent.ns.getD dns ++ '#' :: sent.code
  (registry.contains id = true ∧ tgt = id) ∨
  (registry.contains id = false ∧ ∃ before e after, op.errors = before ++ e :: after ∧
    (∀ b ∈ before, b.1.name ≠ sent.code) ∧ e.1.name = sent.code ∧ tgt = e.1.id)

/-! ## Theorems -/

variable {w : World} {nearest : Rat → Num Rat} {cls : Nat}

theorem prefix_covers {cls' : Nat} {fields written : List (Fields.Field Text)} {b : Bytes} (h : Covers w cls fields written b)
    {x : GMember} (hx : x ∈ w.model.members cls) {p : Text} (hp : (w.traits x).prefixHeaders = some p) :
    Http.Reading.mapEntries (w.renv cls') fields ((w.member x).prefixHeaders.getD []) =
      Http.Reading.mapEntries (w.renv cls') written ((w.member x).prefixHeaders.getD []) := by
  have hp' : (w.member x).prefixHeaders = some p := hp
  have := h.2.2 x hx p hp
  unfold Http.Reading.mapEntries
  rw [hp', Option.getD_some]
  show List.map _ (fields.filter fun f => (w.lower p).isPrefixOf (w.lower f.name)) = List.map _ (written.filter _)
  rw [this]
  rfl

theorem readMember_covers (hb : w.Bound cls) {r : Incoming} {fields : List (Fields.Field Text)} {b : Bytes}
    (h : Covers w cls fields r.fields b)
    {x : GMember} (hx : x ∈ w.model.members cls) (body : Option Content) (a : Http.Matcher) :
    Http.Reading.readMember (w.renv cls) { r with fields := fields } body a (w.member x) =
      Http.Reading.readMember (w.renv cls) r body a (w.member x) := by
  unfold Http.Reading.readMember
  rcases loc_cases hb hx with ⟨_, hl⟩ | ⟨_, k, hk, hl⟩ | ⟨_, _, _, hl⟩ | ⟨_, _, p, hp, hl⟩
  · simp only [hl]
  · have hk' : (w.member x).header = some k := hk
    simp only [hl, hk', Option.getD_some]
    have : Http.Reading.find (w.renv cls) fields k = Http.Reading.find (w.renv cls) r.fields k := h.1 x hx k hk
    rw [this]
  · simp only [hl]
  · simp only [hl, prefix_covers h hx hp]

theorem readMembers_covers (hb : w.Bound cls) {r : Incoming} {fields : List (Fields.Field Text)} {b : Bytes}
    (h : Covers w cls fields r.fields b)
    (body : Option Content) (a : Http.Matcher) : ∀ xs : List GMember, (∀ x ∈ xs, x ∈ w.model.members cls) →
    Http.Reading.readMembers (w.renv cls) { r with fields := fields } body a (xs.map w.member) =
      Http.Reading.readMembers (w.renv cls) r body a (xs.map w.member)
  | [], _ => rfl
  | x :: xs, hx => by
    simp only [List.map_cons, Http.Reading.readMembers, readMember_covers hb h (hx x List.mem_cons_self),
      readMembers_covers hb h body a xs fun y hy => hx y (List.mem_cons_of_mem _ hy)]

/-- Other fields change nothing. -/
theorem receive_covers (hw : w.Ok nearest) (hb : w.Bound cls) {r : Incoming} {fields : List (Fields.Field Text)} {b : Bytes}
    (h : Covers w cls fields r.fields b)
    (he : (∃ x ∈ w.model.members cls, (w.traits x).responseCode = false ∧ (w.traits x).header = none ∧
      (w.traits x).prefixHeaders = none) →
      b ≠ [] ∧ Http.Reading.hasEmptyBody (w.renv cls) r (some (.bytes b)) = .ok false) :
    w.receive cls { r with fields := fields } (some (.bytes b)) = w.receive cls r (some (.bytes b)) := by
  have h2 : Http.Reading.readStruct (w.renv cls) { r with fields := fields } (some (.bytes b)) (w.members cls) =
      Http.Reading.readStruct (w.renv cls) r (some (.bytes b)) (w.members cls) := by
    unfold Http.Reading.readStruct Http.Reading.readBody
    have := readMembers_covers hb h (some (.bytes b)) (Http.Matcher.of Http.matchResponse (w.members cls)) (w.model.members cls) fun _ h => h
    rw [show (w.model.members cls).map w.member = w.members cls from rfl] at this
    by_cases hhas : (Http.Matcher.of Http.matchResponse (w.members cls)).hasBody = true
    · obtain ⟨hB, -⟩ := Http.add_spec Http.matchResponse (w.members cls) {}
      obtain ⟨hne, hempty⟩ := he (by
        rcases hB.1 hhas with h | ⟨m, hm, hl⟩
        · cases h
        · obtain ⟨x, hx, rfl⟩ := List.mem_map.1 hm
          rcases loc_cases hb hx with ⟨_, h'⟩ | ⟨_, _, _, h'⟩ | ⟨h1, h2, h3, h'⟩ | ⟨_, _, _, _, h'⟩
          · rw [h'] at hl; simp at hl
          · rw [h'] at hl; simp at hl
          · exact ⟨x, hx, h1, h2, h3⟩
          · rw [h'] at hl; simp at hl)
      have h1 : Http.Reading.hasEmptyBody (w.renv cls) { r with fields := fields } (some (.bytes b)) = .ok false := by
        unfold Http.Reading.hasEmptyBody
        cases hf : Http.Reading.find (w.renv cls) fields "content-length".toList with
        | none =>
          simp only [List.isEmpty_eq_false_iff.2 hne]
        | some f =>
          have h5 : f.values = [natText b.length] := h.2.1 f hf
          have h6 : (w.renv cls).int (HeaderText.asString [natText b.length]) = some (b.length : Int) := hw.int b.length
          have : b.length ≠ 0 := by simpa using hne
          simp only [h5, h6]
          simp [this]
      simp only [this, h1, hempty]
      rfl
    · simp only [this, hhas, Bool.false_eq_true, if_false]
  unfold World.receive
  rw [h2]

/-- The output, from fields and a body that may have other fields and members too. -/
theorem output_received (hw : w.Ok nearest) (hb : w.Bound cls) {ms : List GMember}
    (hs : w.model.shape cls = some (.struct ms)) {value : GMember → P} (hx : ∀ x ∈ ms, Field w nearest cls x (value x)) {v : P}
    (hv : v = .object cls ((w.model.attributes ms).map fun x => (x.attr, value x))) {n : Nat} (hn : v.depth ≤ n)
    (errorStatus : Option Text) (code : Text) (omitEmpty : Bool) :
    ∃ r bytes, w.respond n cls v errorStatus code omitEmpty = .ok r ∧ r.body = .bytes bytes ∧
      Covers w cls r.fields r.fields bytes ∧ Within w cls bytes bytes ∧
      ∀ fields body, Covers w cls fields r.fields body → Within w cls bytes body →
      ∃ v', w.receive cls { received r body with fields := fields } (some (.bytes body)) = .ok v' ∧ Same v v' := by
  obtain ⟨r, bytes, h1, h2, h3, hd, hl, h4⟩ := output_core hw hb hs hx hv hn errorStatus code omitEmpty
  refine ⟨r, bytes, h1, h2, ⟨fun _ _ _ _ => rfl, fun f hf => ?_, fun _ _ _ _ => rfl⟩, h3, fun fields body hf hin => ?_⟩
  · rcases Http.Reading.find_spec (w.renv cls) r.fields hd "content-length".toList with ⟨h, _⟩ | ⟨f', h5, h6, h7, h8⟩
    · rw [show Http.Reading.find (w.renv cls) r.fields "content-length".toList = some f from hf] at h
      cases h
    · rw [show Http.Reading.find (w.renv cls) r.fields "content-length".toList = some f from hf] at h5
      cases h5
      rcases hl with hl | hl
      · exact h8.trans hl
      · exact absurd h7 (hl _ h6)
  · obtain ⟨h5, v', h6, h7⟩ := h4 body hin _ (.inr rfl)
    refine ⟨v', ?_, h7⟩
    rw [receive_covers hw hb (r := received r body) hf fun h => ⟨(hin h).1, h5 h⟩, h6]

theorem toWrite_member {i : Nat} {c : GeneratedSerde.Call Double DateTime} {u : Http.Member × Http.Val}
    (h : w.toWrite cls i c = .ok u) : ∃ x ∈ w.model.members cls, u.1 = w.member x := by
  unfold World.toWrite at h
  split at h
  · cases h
  · split at h
    · cases h
    · next x hx =>
      refine ⟨x, List.mem_of_find?_eq_some hx, ?_⟩
      repeat' split at h
      all_goals first
        | cases h; rfl
        | cases h

theorem toWrites_member : ∀ {i : Nat} {cs : List (GeneratedSerde.Call Double DateTime)} {us : List (Http.Member × Http.Val)},
    w.toWrites cls i cs = .ok us → ∀ u ∈ us, ∃ x ∈ w.model.members cls, u.1 = w.member x
  | _, [], us, h => by cases h; intro u hu; cases hu
  | i, c :: cs, us, h => by
    unfold World.toWrites at h
    split at h
    · cases h
    · next u hu =>
      split at h
      · cases h
      · next us' hus =>
        cases h
        intro u' hu'
        rcases List.mem_cons.1 hu' with rfl | hu'
        · exact toWrite_member hu
        · exact toWrites_member hus u' hu'

/-- The status of the response, unless a member has it. -/
theorem respond_status {n : Nat} {v : P} {errorStatus : Option Text} {code : Text} {omitEmpty : Bool} {r : Response}
    (h : w.respond n cls v errorStatus code omitEmpty = .ok r) (hno : ∀ x ∈ w.model.members cls, (w.traits x).responseCode = false) :
    r.status = errorStatus.getD code := by
  unfold World.respond at h
  split at h
  · cases h
  · next cs _ =>
    split at h
    · cases h
    · next us hus =>
      split at h
      · cases h
      · next r' hr =>
        cases h
        obtain ⟨_, _, _, _, _, hs⟩ := Http.serializeResponse_ok hr
        have : us.filter (fun u => decide (Http.matchResponse u.1 = .status)) = [] := by
          rw [List.filter_eq_nil_iff]
          intro u hu
          obtain ⟨x, hx, e⟩ := toWrites_member hus u hu
          rw [e]
          have hf : (w.member x).responseCode = false := hno x hx
          unfold Http.matchResponse
          rw [hf]
          simp only [Bool.false_eq_true, if_false]
          repeat' split
          all_goals simp
        rw [hs]
        unfold Http.labelsOf
        rw [this]
        rfl
  · cases h

/-- **C131**, outputs: whoever calls an operation gets the output of a service that says that it succeeded, whatever other headers
there are, and whatever members that the class does not have there are in the body. -/
theorem C131_output_partial {D : Type} (hw : w.Ok nearest) (hb : w.Bound cls) {ms : List GMember}
    (hs : w.model.shape cls = some (.struct ms)) {value : GMember → P} (hx : ∀ x ∈ ms, Field w nearest cls x (value x)) {v : P}
    (hv : v = .object cls ((w.model.attributes ms).map fun x => (x.attr, value x))) {n : Nat} (hn : v.depth ≤ n)
    (errorStatus : Option Text) (code : Text) (omitEmpty : Bool) :
    ∃ r bytes, w.respond n cls v errorStatus code omitEmpty = .ok r ∧ r.body = .bytes bytes ∧
      Covers w cls r.fields r.fields bytes ∧ Within w cls bytes bytes ∧
      ((∀ x ∈ w.model.members cls, (w.traits x).responseCode = false) → r.status = errorStatus.getD code) ∧
      ∀ (ns : Text) (op : Operation) (registry : Registry Nat) (delay : Option D)
        (fields : List (Fields.Field Text)) (body : Bytes), Covers w cls fields r.fields body → Within w cls bytes body →
        200 ≤ natValue r.status → natValue r.status < 300 →
        ∃ v', w.answer ns op registry cls delay { received r body with fields := fields } body = .ok (.output v') ∧ Same v v' := by
  obtain ⟨r, bytes, h1, h2, h3, h3', h4⟩ := output_received hw hb hs hx hv hn errorStatus code omitEmpty
  refine ⟨r, bytes, h1, h2, h3, h3', respond_status h1, fun ns op registry delay fields body hf hin hlo hhi => ?_⟩
  obtain ⟨v', h5, h6⟩ := h4 fields body hf hin
  refine ⟨v', ?_, h6⟩
  unfold World.answer
  rw [if_pos (by simp [isSuccess, received, hlo, hhi]), h5]

/-- Identifiers of codes are written as their parts. -/
theorem parsed_text {code : Text} {ns : Option Text} {id : ShapeId} (h : Shapes.parseErrorCode code ns = .ok (some id)) :
    id.id = id.parts.text := by
  have key : ∀ t : Text, Shapes.parse t = .ok id → id.id = id.parts.text := by
    intro t ht
    obtain ⟨-, h2, h3⟩ := (Shapes.C37_parse_iff t id).1 ht
    rw [h2]
    exact h3
  unfold Shapes.parseErrorCode at h
  split at h
  · cases h
  · dsimp only at h
    split at h
    · cases hp : Shapes.parse (Text.cut ':' code).1 with
      | error e => rw [hp] at h; cases h
      | ok i =>
        rw [hp] at h
        cases h
        exact key _ hp
    · cases ns with
      | none => cases h
      | some ns =>
        dsimp only at h
        split at h
        · cases h
        · cases hp : Shapes.fromParts ns (Text.cut ':' code).1 none with
          | error e => rw [hp] at h; cases h
          | ok i =>
            rw [hp] at h
            cases h
            exact key _ hp

theorem docOf_entry {js : List (Text × Json.Json)} {key text : Text} (h : js.filter (fun e => e.1 = key) = [(key, .str text)]) :
    Http.Errors.Doc.lookup (js.map fun e => (e.1, match e.2 with | .str s => some s | _ => none)) key = some (some text) := by
  unfold Http.Errors.Doc.lookup
  rw [List.find?_map, Option.map_map]
  have : (js.find? ((fun e : Text × Option Text => decide (e.1 = key)) ∘ fun e : Text × Json.Json =>
      (e.1, match e.2 with | .str s => some s | _ => none))) = (js.filter fun e => e.1 = key).head? := by
    rw [List.head?_filter]
    rfl
  rw [this, h]
  rfl

theorem docOf_none {js : List (Text × Json.Json)} {key : Text} (h : js.filter (fun e => e.1 = key) = []) :
    Http.Errors.Doc.lookup (js.map fun e => (e.1, match e.2 with | .str s => some s | _ => none)) key = none := by
  unfold Http.Errors.Doc.lookup
  rw [List.find?_map, Option.map_map]
  have : (js.find? ((fun e : Text × Option Text => decide (e.1 = key)) ∘ fun e : Text × Json.Json =>
      (e.1, match e.2 with | .str s => some s | _ => none))) = (js.filter fun e => e.1 = key).head? := by
    rw [List.head?_filter]
    rfl
  rw [this, h]
  rfl

theorem field_none {R : Incoming} {name : Text} (h : ∀ f ∈ R.fields, w.lower f.name ≠ w.lower name) : w.field R name = none := by
  have : (R.fields.find? fun f => w.lower f.name = w.lower name) = none := by
    rw [List.find?_eq_none]
    intro f hf
    simpa using h f hf
  show ((R.fields.find? fun f => w.lower f.name = w.lower name).map (·.values)) = _
  rw [this]
  rfl

theorem field_some {R : Incoming} {name : Text} {f : Fields.Field Text}
    (h : (R.fields.find? fun f => w.lower f.name = w.lower name) = some f) : w.field R name = some f.values := by
  show ((R.fields.find? fun f => w.lower f.name = w.lower name).map (·.values)) = _
  rw [h]
  rfl

theorem names_carries {ns : Text} {op : Operation} {R : Incoming} {body : Bytes} {text dns : Text}
    (h : Names w ns op R.fields body text dns) :
    Carries ns op (⟨natValue R.status, w.field R, match w.parse body with
            | none => Except.error (Err.serde (.json .token))
            | some j => .ok (docOf j)⟩ : Http.Errors.Response Err) text dns := by
  cases h with
  | header f more h hv => exact .header _ more (by rw [← hv]; exact field_some h)
  | type f js h hc hv hp ht =>
    exact .type _ _ (field_none h) (by rw [← hv]; exact field_some hc) (by simp only [hp, docOf]) (docOf_entry ht)
  | code f js h hc hv hp ht hcode =>
    exact .code _ _ (field_none h) (by rw [← hv]; exact field_some hc) (by simp only [hp, docOf]) (docOf_none ht) (docOf_entry hcode)

/-- The error that a response names is raised, if its class can be read from the response. -/
theorem answer_raised {D : Type} {ns : Text} {op : Operation} {registry : Registry Nat} {out : Nat} {delay : Option D} {sent : Sent}
    {dns tgt : Text} {R : Incoming} {body : Bytes} {v' : P} (h6 : w.receive cls R (some (.bytes body)) = .ok v')
    (hst : ¬ (200 ≤ natValue R.status ∧ natValue R.status < 300)) (hc : PlainCode sent.code) (hns : ∀ n, sent.ns = some n → PlainNs n)
    (hon : PlainNs dns) (hnames : Names w ns op R.fields body sent.text dns) (hnamed : Named op dns registry sent tgt)
    (hget : registry.get tgt = some cls) :
    w.answer ns op registry out delay R body = .ok (.raised (.modeled tgt ⟨v', delay⟩)) := by
  obtain ⟨id, hid, hparts⟩ := C59_parse sent dns hc hns hon
  have hidt : id.id = sent.ns.getD dns ++ '#' :: sent.code := by
    rw [parsed_text hid, hparts]
    simp [Parts.text]
  have hidn : id.name = sent.code := congrArg Parts.name hparts
  have hcarries := names_carries (w := w) (ns := ns) (op := op) (R := R) (body := body) hnames
  unfold World.answer
  rw [if_neg (by intro h; obtain ⟨a, b⟩ := Bool.and_eq_true_iff.1 h; exact hst ⟨of_decide_eq_true a, of_decide_eq_true b⟩)]
  generalize hbody : (match w.parse body with
            | none => Except.error (Err.serde (.json .token))
            | some j => .ok (docOf j) : Except Err Doc) = bd at hcarries ⊢
  obtain ⟨hg, -⟩ := C32_rest_json (M := P) (D := D) ns op (registry.map (w.errorClass R body))
    ⟨natValue R.status, w.field R, bd⟩ delay sent.text dns hcarries id hid
  obtain ⟨c, hc1, hc2⟩ := hg tgt (by
    unfold Stands
    simp only [Registry.contains_map, hidt, hidn]
    rcases hnamed with h | ⟨h, before, e, after, a, b, c, d⟩
    · exact .inl h
    · refine .inr ⟨h, before, e, after, a, b, c, d, ?_⟩
      subst d
      have hd := Http.Errors.get_contains (registry.map (w.errorClass (D := D) R body)) e.1.id _
        (by rw [Registry.get_map, hget, Option.map_some])
      rwa [Registry.contains_map] at hd)
  rw [Registry.get_map, hget, Option.map_some, Option.some.injEq] at hc1
  subst hc1
  rw [hc2 ⟨v', none⟩ rfl (by unfold World.errorClass; rw [h6])]
  simp only [Option.or_none]

/-- **C131**, errors: whoever calls an operation gets the error of a service that says that it failed and names the error in
`x-amzn-errortype` or in the body, whatever other headers there are, and whatever members that the class does not have there are in
the body. -/
theorem C131_error_partial {D : Type} (hw : w.Ok nearest) (hb : w.Bound cls) {ms : List GMember}
    (hs : w.model.shape cls = some (.struct ms)) {value : GMember → P} (hx : ∀ x ∈ ms, Field w nearest cls x (value x)) {v : P}
    (hv : v = .object cls ((w.model.attributes ms).map fun x => (x.attr, value x))) {n : Nat} (hn : v.depth ≤ n)
    (errorStatus : Option Text) (code : Text) (omitEmpty : Bool) :
    ∃ r bytes, w.respond n cls v errorStatus code omitEmpty = .ok r ∧ r.body = .bytes bytes ∧
      Covers w cls r.fields r.fields bytes ∧ Within w cls bytes bytes ∧
      ((∀ x ∈ w.model.members cls, (w.traits x).responseCode = false) → r.status = errorStatus.getD code) ∧
      ∀ (ns : Text) (op : Operation) (registry : Registry Nat) (out : Nat) (delay : Option D) (sent : Sent) (dns tgt : Text)
        (fields : List (Fields.Field Text)) (body : Bytes), Covers w cls fields r.fields body → Within w cls bytes body →
        ¬ (200 ≤ natValue r.status ∧ natValue r.status < 300) →
        PlainCode sent.code → (∀ n, sent.ns = some n → PlainNs n) → PlainNs dns →
        Names w ns op fields body sent.text dns → Named op dns registry sent tgt → registry.get tgt = some cls →
        ∃ v', w.answer ns op registry out delay { received r body with fields := fields } body =
          .ok (.raised (.modeled tgt ⟨v', delay⟩)) ∧ Same v v' := by
  obtain ⟨r, bytes, h1, h2, h3, h3', h4⟩ := output_received hw hb hs hx hv hn errorStatus code omitEmpty
  refine ⟨r, bytes, h1, h2, h3, h3', respond_status h1,
    fun ns op registry out delay sent dns tgt fields body hf hin hst hc hns hon hnames hnamed hget => ?_⟩
  obtain ⟨v', h6, h5⟩ := h4 fields body hf hin
  exact ⟨v', answer_raised h6 hst hc hns hon hnames hnamed hget, h5⟩

namespace Example

open Verif.EventStream (rnd)

/-- An error: a message in the body, and a string in a header. -/
def failure : Model Double DateTime where
  shapes := [
    .struct [⟨"message".toList, "message".toList, none, 1, none, false, some (.str [])⟩,
      ⟨"field".toList, "field_".toList, none, 1, none, true, none⟩],
    .simple .string]
  correction := fun _ => some (.str [])

def failureTraits (x : GMember) : Http.Member :=
  { name := x.name, shape := .scalar, header := if x.name = "field".toList then some "X-Field".toList else none }

noncomputable def failing : World :=
  { world with model := failure, rd := { world.rd with view := failure.view }, traits := failureTraits }

theorem failure_ok : failure.Ok true := by
  have h : ∀ i, failure.members i = [] ∨ i = 0 := by
    intro i
    match i with
    | 0 => exact .inr rfl
    | 1 | _ + 2 => exact .inl rfl
  refine ⟨fun i => ?_, fun i => ?_, fun i => ?_⟩
  · rcases h i with h | rfl
    · rw [h]; exact List.nodup_nil
    · decide +kernel
  · rcases h i with h | rfl
    · rw [h]; exact List.nodup_nil
    · decide +kernel
  · intro ms hs
    rcases h i with h | rfl
    · simp only [Model.members, hs] at h
      rw [h]; exact List.nodup_nil
    · cases hs; decide +kernel

theorem failing_ok : failing.Ok fun q => .finite (rnd q) where
  names := failure_ok
  settings := world_ok.settings
  fits := ⟨rfl, rfl, rfl, world_ok.fits.4⟩
  view := rfl
  parse := world_ok.parse
  python := world_ok.python
  int := world_ok.int
  lower := world_ok.lower

theorem failure_cases {p : GMember → Prop} (h : ∀ i : Fin 2, p ((failure.members 0)[i])) : ∀ x ∈ failure.members 0, p x := by
  intro x hx
  obtain ⟨i, hi, rfl⟩ := List.getElem_of_mem hx
  exact h ⟨i, hi⟩

theorem failing_bound : failing.Bound 0 where
  streams := failure_cases (by decide +kernel)
  payload := fun _ _ => rfl
  prefixes := fun _ _ _ h => nomatch h
  headers := failure_cases fun i => failure_cases fun j a b ha hb h => by
    match i with
    | 0 => cases ha
    | 1 =>
      match j with
      | 0 => cases hb
      | 1 => rfl
  own := failure_cases fun i a ha => by
    match i with
    | 0 => cases ha
    | 1 => cases ha; refine ⟨?_, ?_⟩ <;> decide +kernel
  status := fun _ _ _ _ h => nomatch h

def reason (x : GMember) : P := if x.name = "message".toList then .str "no such thing".toList else .str "name".toList

theorem reason_field : ∀ x ∈ failure.members 0, Field failing (fun q => .finite (rnd q)) 0 x (reason x) := by
  refine failure_cases fun i => ?_
  match i with
  | 0 => exact .body (by decide +kernel) (by decide +kernel) rfl (.string rfl)
  | 1 => exact .header (k := "X-Field".toList) (by decide +kernel) (by decide +kernel) (.string rfl)

/-- An operation with an error. -/
def operation : Operation := ⟨"com.example".toList, [(⟨"com.example#Missing".toList, "com.example".toList, "Missing".toList, none⟩, none)]⟩

/-- The names of the members are not that of the error. -/
theorem failing_covers {fields written : List (Fields.Field Text)} {b : Bytes} (h : Covers failing 0 fields written b) :
    Covers failing 0 (⟨"X-Amzn-ErrorType".toList, ["Missing:http://example.com/".toList], .header⟩ :: fields) written b := by
  constructor
  · intro x hx name hn
    rw [← h.1 x hx name hn]
    refine List.find?_cons_of_neg ?_
    revert hn
    refine failure_cases (p := fun x => (failing.traits x).header = some name → _) (fun i h => ?_) x hx
    match i with
    | 0 => cases h
    | 1 => cases h; decide +kernel
  · refine ⟨fun f hf => ?_, fun _ _ _ h => nomatch h⟩
    refine h.2.1 f ?_
    rwa [List.find?_cons_of_neg (by decide +kernel)] at hf

/-- The hypotheses of the theorem are met: the caller gets the error, of the registered class. -/
example : ∃ r bytes, failing.respond 9 0 (.object 0 ((failure.attributes (failure.members 0)).map fun x => (x.attr, reason x)))
      (some "404".toList) "200".toList true = .ok r ∧ ∃ v',
    failing.answer "com.example".toList operation (.alone [("com.example#Missing".toList, 0)]) 5 (some 3)
      { received r bytes with fields := ⟨"X-Amzn-ErrorType".toList, ["Missing:http://example.com/".toList], .header⟩ :: r.fields } bytes =
      .ok (.raised (.modeled "com.example#Missing".toList ⟨v', some 3⟩)) ∧
    Same (.object 0 ((failure.attributes (failure.members 0)).map fun x => (x.attr, reason x))) v' := by
  obtain ⟨r, bytes, h1, -, h2, h2', h3, h4⟩ := C131_error_partial (D := Nat) failing_ok failing_bound (ms := failure.members 0) rfl
    reason_field rfl (n := 9) (by decide +kernel) (some "404".toList) "200".toList true
  have hs : r.status = "404".toList := h3 fun _ _ => rfl
  refine ⟨r, bytes, h1, h4 "com.example".toList operation _ 5 (some 3) ⟨none, "Missing".toList, some "http://example.com/".toList⟩
    operation.ns _ _ bytes (failing_covers h2) h2' ?_ ?_ ?_ ?_ (.header _ [] (List.find?_cons_of_pos (by decide +kernel)) ?_) ?_ ?_⟩
  · show ¬ (200 ≤ natValue r.status ∧ natValue r.status < 300)
    rw [hs]
    decide +kernel
  · refine ⟨?_, ?_, ?_, ?_⟩ <;> decide +kernel
  · intro n h; cases h
  · refine ⟨?_, ?_, ?_⟩ <;> decide +kernel
  · decide +kernel
  · exact .inl ⟨by decide +kernel, by decide +kernel⟩
  · rfl

/-- What the service writes for the error. -/
def written : List (Json.Member × Json.Call Double DateTime) := [(⟨"message".toList, none⟩, .string "no such thing".toList)]

theorem failing_responds : failing.respond 9 0 (.object 0 ((failure.attributes (failure.members 0)).map fun x => (x.attr, reason x)))
    (some "404".toList) "200".toList true =
      .ok ⟨[⟨"X-Field".toList, ["name".toList], .header⟩, ⟨"content-type".toList, ["application/json".toList], .header⟩,
        ⟨"content-length".toList, [natText 27], .header⟩], "404".toList,
        .bytes (Http.RestJson.utf8 (Json.write failing.st [] (.struct written)))⟩ := by
  with_unfolding_all rfl

/-- A body that says what the error is, and has what the client does not know. -/
noncomputable def body : Bytes := Http.RestJson.utf8 (Json.write failing.st [] (.struct ((⟨"__type".toList, none⟩, .string "a.b#Missing".toList) :: written)))

theorem body_parsed : failing.parse body = some (.obj [("__type".toList, .str "a.b#Missing".toList),
    ("message".toList, .str "no such thing".toList)]) := by
  obtain ⟨j, h1, ⟨es, rfl, _, _, rfl, rfl, _, _, rfl, rfl, rfl⟩, -⟩ := Json.C43_well_formed_partial failing.st failing_ok.settings
    (.struct ((⟨"__type".toList, none⟩, .string "a.b#Missing".toList) :: written)) ⟨trivial, trivial, trivial⟩
  exact failing_ok.parse _ _ h1

theorem written_parsed : failing.parse (Http.RestJson.utf8 (Json.write failing.st [] (.struct written))) =
    some (.obj [("message".toList, .str "no such thing".toList)]) := by
  obtain ⟨j, h1, ⟨es, rfl, _, _, rfl, rfl, rfl⟩, -⟩ := Json.C43_well_formed_partial failing.st failing_ok.settings
    (.struct written) ⟨trivial, trivial⟩
  exact failing_ok.parse _ _ h1

/-- A response that names the error in its body, with a member that the class does not have: the caller gets the error. -/
example : ∃ v',
    failing.answer "com.example".toList operation (.alone [("com.example#Missing".toList, 0)]) 5 (some 3)
      ⟨"404".toList, [⟨"X-Field".toList, ["name".toList], .header⟩, ⟨"Content-Type".toList, ["application/json".toList], .header⟩],
        .bytes body⟩ body =
      .ok (.raised (.modeled "com.example#Missing".toList ⟨v', some 3⟩)) ∧
    Same (.object 0 ((failure.attributes (failure.members 0)).map fun x => (x.attr, reason x))) v' := by
  obtain ⟨r, bytes, h1, hbytes, -, -, -, h4⟩ := C131_error_partial (D := Nat) failing_ok failing_bound (ms := failure.members 0) rfl
    reason_field rfl (n := 9) (by decide +kernel) (some "404".toList) "200".toList true
  cases Except.ok.inj (failing_responds.symm.trans h1)
  cases hbytes
  refine h4 "com.example".toList operation _ 5 (some 3) ⟨some "a.b".toList, "Missing".toList, none⟩
    "com.example".toList _ [⟨"X-Field".toList, ["name".toList], .header⟩, ⟨"Content-Type".toList, ["application/json".toList], .header⟩] body
    ⟨?_, ?_⟩ ?_ ?_ ?_ ?_ ?_ (.type ⟨"Content-Type".toList, ["application/json".toList], .header⟩ _ ?_ ?_ rfl body_parsed ?_) ?_ ?_
  · refine failure_cases fun i name h => ?_
    match i with
    | 0 => cases h
    | 1 => cases h; decide +kernel
  · refine ⟨fun f hf => ?_, fun _ _ _ h => nomatch h⟩
    rw [List.find?_eq_none.2 (by decide +kernel)] at hf
    cases hf
  · intro _
    refine ⟨?_, _, _, written_parsed, body_parsed, .extra (failure_cases (by decide +kernel)) (.keep .nil)⟩
    decide +kernel
  · decide +kernel
  · refine ⟨?_, ?_, ?_, ?_⟩ <;> decide +kernel
  · intro n h; cases h; refine ⟨?_, ?_, ?_⟩ <;> decide +kernel
  · refine ⟨?_, ?_, ?_⟩ <;> decide +kernel
  · decide +kernel
  · decide +kernel
  · with_unfolding_all rfl
  · exact .inr ⟨by decide +kernel, [], _, [], rfl, (fun _ h => nomatch h), by decide +kernel, by decide +kernel⟩
  · rfl

end Example

end Verif.RestJson

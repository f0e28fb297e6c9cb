import Verif.RestJson.RequestProps
import Verif.RestJson.Payload

/-!
# The input of an operation with a payload, from the caller to the request (C130)
-/

set_option autoImplicit false

namespace Verif.RestJson

open Verif.GeneratedSerde (Py Ref Model Shape Simple Typed Same Call find_name target_member core typed_notNone mem_attributes
  attr_inj lookup_field depth_entry)
open Verif.Timestamps (DateTime)
open Verif.Http (Binding Val matchRequest Matcher serializeRequest add_spec bodyOf headersOf extraHeaders toFields fieldValues valuesOf
  writeAll payloadOf hasField payloadMember_unique rawPayload_blob rawPayload_text)
open Verif.Http.RoundTrip (mem_of_fieldValues)
open Verif.Http.RestJson (utf8)
open Verif.Scalars.Strict (Num)
open Verif.Numerals (natText)
open Verif.Text (split)
open Verif.Uri (ch asc unquote segments intended IsGreedy EmptySegment PlainLiteral Piece labels parseQuery)
open Verif.Uri.Pattern (render filling)

/-! ## Specification -/

/-- The HTTP bindings of a class with a payload, as a model of Smithy has them: one member is the payload, and each of the others is
a label, in the query or in headers. -/
structure World.RequestCarries (w : World) (cls : Nat) (p : GMember) : Prop extends w.RequestSides cls where
  member : p ∈ w.model.members cls
  payload : (w.traits p).payload = true ∧ w.place p = .body
  others : ∀ x ∈ w.model.members cls, x ≠ p → w.place x ≠ .body

/-- A member that the codec writes as a payload: a document, structure, union, list or map. -/
def World.Structured (w : World) (x : GMember) : Prop :=
  (∃ ms, w.model.shape x.target = some (.struct ms)) ∨ (∃ s ms, w.model.shape x.target = some (.union s ms)) ∨
    (∃ s e, w.model.shape x.target = some (.list s e)) ∨ (∃ s e, w.model.shape x.target = some (.map s e)) ∨
    w.model.shape x.target = some (.simple .document)

/-- A value of the payload: a blob, a string, an enum, or what the codec restores.  It may be left out if the member may be null and
has no default (nor the default `null`, if it is a document); but a blob or text of which the length has to be known (`@requiresLength`) may not. -/
inductive RequestPayload (w : World) (cls : Nat) (x : GMember) : P → Prop
  | value {v : P} : PayloadOk w cls x v → RequestPayload w cls x v
  | enum {t : Text} : w.model.shape x.target = some .enum → RequestPayload w cls x (.strEnum x.target t)
  | absent : w.model.shape x.target = some (.simple .blob) ∨ w.model.shape x.target = some (.simple .string) ∨
        w.model.shape x.target = some .enum → (w.traits x).requiresLength = false →
      x.nullable = true → x.default = none ∨ x.default = some .none → RequestPayload w cls x .none
  | noDocument : w.model.shape x.target = some (.simple .document) → x.nullable = true → x.default = none → RequestPayload w cls x .none

/-- The content type of a payload: that of its `@mediaType`, if it has one. -/
def World.payloadType (w : World) (x : GMember) : Text :=
  match (w.traits x).mediaType with
  | some t => t
  | none => match w.model.shape x.target with
    | some (.simple .blob) => "application/octet-stream".toList
    | some (.simple .string) | some .enum => "text/plain".toList
    | _ => "application/json".toList

/-- The bytes are the value: those of a blob, the text in UTF-8, or a document from which an equal value is read.  There are none
for `None`. -/
def Carried (w : World) (cls : Nat) (x : GMember) (v : P) (bytes : Bytes) : Prop :=
  (∀ b, v = .bytes b → bytes = b.map UInt8.ofFin) ∧ (∀ t, v = .str t → bytes = utf8 t) ∧
  (∀ c t, v = .strEnum c t → bytes = utf8 t) ∧ (v = .none → bytes = []) ∧
  (w.Structured x → v ≠ .none → ∃ v', w.readDocument cls x bytes = .ok v' ∧ Same v v')

/-! ## Proofs -/

variable {w : World} {nearest : Rat → Num Rat} {cls : Nat} {p : GMember}

theorem requestCarries_loc (hb : w.RequestCarries cls p) : matchRequest (w.member p) = .payload := by
  rw [place_body hb.toRequestSides hb.member hb.payload.2, hb.payload.1]
  rfl

theorem requestCarries_others (hb : w.RequestCarries cls p) {x : GMember} (hx : x ∈ w.model.members cls) (hne : x ≠ p) :
    matchRequest (w.member x) ≠ .payload ∧ matchRequest (w.member x) ≠ .body ∧ matchRequest (w.member x) ≠ .host := by
  rcases place_sides hb.toRequestSides hx with ⟨_, h⟩ | ⟨_, _, h, _⟩ | ⟨_, h⟩ | ⟨_, _, h, _⟩ | ⟨_, _, h, _⟩ | ⟨h, _⟩
  · rw [h]; simp
  · rw [h]; simp
  · rw [h]; simp
  · rw [h]; simp
  · rw [h]; simp
  · exact absurd h (hb.others x hx hne)

/-- The value that the serializer of the body gets for the payload, and the bytes. -/
def SentBody (w : World) (p : GMember) (env : Http.Env) (val : Val) (bytes : Bytes) : Prop :=
  (w.httpShape p.target = .blob ∧ val = .blob bytes) ∨
  ((w.httpShape p.target = .string ∨ w.httpShape p.target = .enum) ∧ ∃ t, val = .text t ∧ bytes = env.utf8 t) ∨
  (w.httpShape p.target ≠ .blob ∧ w.httpShape p.target ≠ .string ∧ w.httpShape p.target ≠ .enum ∧
    bytes = env.encodeValues [(w.member p, val)])

theorem not_structured {x : GMember} (h : w.model.shape x.target = some (.simple .blob) ∨
    w.model.shape x.target = some (.simple .string) ∨ w.model.shape x.target = some .enum) : ¬ w.Structured x := by
  rintro (⟨_, h'⟩ | ⟨_, _, h'⟩ | ⟨_, _, h'⟩ | ⟨_, _, h'⟩ | h') <;> rw [h'] at h <;> simp at h

theorem structured_of {x : GMember} (h : (∃ ms, w.model.shape x.target = some (.struct ms)) ∨
    (∃ s ms, w.model.shape x.target = some (.union s ms)) ∨ (∃ s e, w.model.shape x.target = some (.list s e)) ∨
    (∃ s e, w.model.shape x.target = some (.map s e))) : w.Structured x := by
  rcases h with h | h | h | h
  exacts [.inl h, .inr (.inl h), .inr (.inr (.inl h)), .inr (.inr (.inr (.inl h)))]

theorem httpShape_codec {x : GMember} (h : w.Structured x) : w.httpShape x.target = .list ∨ w.httpShape x.target = .map ∨
    w.httpShape x.target = .union ∨ w.httpShape x.target = .structure ∨ w.httpShape x.target = .scalar := by
  unfold World.httpShape
  rcases h with ⟨_, h⟩ | ⟨_, _, h⟩ | ⟨_, _, h⟩ | ⟨_, _, h⟩ | h <;> rw [h] <;> simp

/-- The payload: the call for it, and what is written. -/
theorem payload_item (hw : w.Ok nearest) (hb : w.RequestCarries cls p) {v : P} (hv : RequestPayload w cls p v) (hne : v ≠ .none)
    {n : Nat} (hd : v.depth ≤ n) : v.isNone = false ∧ ∃ c, w.model.memberCall n p.target (.member cls p.name) v = .ok c ∧
      ∀ (all : List (Call Double DateTime)) (i : Nat), all[i]? = some c →
        ∃ val bytes, w.toItem cls i c = .ok (.write (w.member p, val)) ∧ SentBody w p (w.env all) val bytes ∧
          Carried w cls p v bytes := by
  have hfind : (w.model.members cls).find? (fun y => y.name = p.name) = some p := find_name hw.names hb.member
  have htgt : w.model.target (.member cls p.name) = some p.target := target_member hw.names hb.member
  have hl := requestCarries_loc hb
  cases hv with
  | absent => exact absurd rfl hne
  | noDocument => exact absurd rfl hne
  | @enum t hs =>
    simp only [Py.depth] at hd
    obtain ⟨n, rfl⟩ : ∃ n', n = n' + 1 := ⟨n - 1, by omega⟩
    have hsh : w.httpShape p.target = .enum := by simp only [World.httpShape, hs]
    exact ⟨rfl, .write .string (.member cls p.name) (.strEnum p.target t), by simp only [Model.memberCall, hs], fun all i _ =>
      ⟨.text t, utf8 t, by simp only [World.toItem, Call.schema, hfind, hl, hsh], .inr (.inl ⟨.inr hsh, t, rfl, rfl⟩),
        (fun _ h => nomatch h), (fun _ h => nomatch h), (fun c t' h => by cases h; rfl), (fun h => nomatch h),
        fun h => absurd h (not_structured (.inr (.inr hs)))⟩⟩
  | value hv =>
  cases hv with
  | absent => exact absurd rfl hne
  | @blob b hs =>
    simp only [Py.depth] at hd
    obtain ⟨n, rfl⟩ : ∃ n', n = n' + 1 := ⟨n - 1, by omega⟩
    have hsh : w.httpShape p.target = .blob := by simp only [World.httpShape, hs]
    exact ⟨rfl, .write .blob (.member cls p.name) (.bytes b), by simp only [Model.memberCall, hs, Simple.method], fun all i _ =>
      ⟨.blob (b.map UInt8.ofFin), b.map UInt8.ofFin, by simp only [World.toItem, Call.schema, hfind, hl, hsh], .inl ⟨hsh, rfl⟩,
        (fun _ h => by cases h; rfl), (fun _ h => nomatch h), (fun _ _ h => nomatch h), (fun h => nomatch h),
        fun h => absurd h (not_structured (.inl hs))⟩⟩
  | @string t hs =>
    simp only [Py.depth] at hd
    obtain ⟨n, rfl⟩ : ∃ n', n = n' + 1 := ⟨n - 1, by omega⟩
    have hsh : w.httpShape p.target = .string := by simp only [World.httpShape, hs]
    exact ⟨rfl, .write .string (.member cls p.name) (.str t), by simp only [Model.memberCall, hs, Simple.method], fun all i _ =>
      ⟨.text t, utf8 t, by simp only [World.toItem, Call.schema, hfind, hl, hsh], .inr (.inl ⟨.inl hsh, t, rfl, rfl⟩),
        (fun _ h => nomatch h), (fun _ h => by cases h; rfl), (fun _ _ h => nomatch h), (fun h => nomatch h),
        fun h => absurd h (not_structured (.inr (.inl hs)))⟩⟩
  | @document d hs hok hroot =>
    simp only [Py.depth] at hd
    obtain ⟨n, rfl⟩ : ∃ n', n = n' + 1 := ⟨n - 1, by omega⟩
    have hsh : w.httpShape p.target = .scalar := by simp only [World.httpShape, hs]
    obtain ⟨-, v', h1, h2⟩ := document_payload (cls := cls) hw hs hok hroot
    refine ⟨rfl, .write .document (.member cls p.name) (.document d), by simp only [Model.memberCall, hs, Simple.method], fun all i hi =>
      ⟨.other i, _, by simp only [World.toItem, Call.schema, hfind, hl, hsh],
        .inr (.inr ⟨by rw [hsh]; simp, by rw [hsh]; simp, by rw [hsh]; simp, ?_⟩),
        (fun _ h => nomatch h), (fun _ h => nomatch h), (fun _ _ h => nomatch h), (fun h => nomatch h), fun _ _ => ⟨v', h1, h2⟩⟩⟩
    simp [World.env, bodyCalls, hi, Model.jsonCall, Model.writeJson]
  | value hs h3 =>
    obtain ⟨hsh, hdoc⟩ := httpShape_structured hs
    obtain ⟨c, hc, hcs, hcw, jc, hj, hnn, hr⟩ := core hw.names hw.fits hw.view n _ _ v htgt h3 hd
    obtain ⟨j, h4, h5, _⟩ := Json.C43_well_formed_partial w.st hw.settings jc hnn
    obtain ⟨-, hread⟩ := hr j h5
    obtain ⟨v', h6, h7⟩ := hread [] [] (2 * (Json.events [] j).length + 4) (fun h => absurd h hdoc) (by
      have := Json.size_events j []
      omega)
    rw [List.append_nil] at h6
    have hsh1 : w.httpShape p.target ≠ .blob := by rintro h; rw [h] at hsh; simp at hsh
    have hsh2 : w.httpShape p.target ≠ .string := by rintro h; rw [h] at hsh; simp at hsh
    have hsh3 : w.httpShape p.target ≠ .enum := by rintro h; rw [h] at hsh; simp at hsh
    refine ⟨typed_notNone h3, c, hc, fun all i hi => ⟨.other i, utf8 (Json.write w.st [] jc), ?_, .inr (.inr ⟨hsh1, hsh2, hsh3, ?_⟩),
      ?_, ?_, ?_, fun h => absurd h hne, fun _ _ => ⟨v', ?_, h7⟩⟩⟩
    · simp only [World.toItem, hcs, hfind, hl]
      rcases hsh with h | h | h | h <;> simp only [h]
    · simp [World.env, bodyCalls, hi, hj]
    · rintro b rfl
      rcases hs with ⟨_, h⟩ | ⟨_, _, h⟩ | ⟨_, _, h⟩ | ⟨_, _, h⟩ <;> cases h3 <;> simp_all
    · rintro b rfl
      rcases hs with ⟨_, h⟩ | ⟨_, _, h⟩ | ⟨_, _, h⟩ | ⟨_, _, h⟩ <;> cases h3 <;> simp_all
    · rintro c b rfl
      rcases hs with ⟨_, h⟩ | ⟨_, _, h⟩ | ⟨_, _, h⟩ | ⟨_, _, h⟩ <;> cases h3 <;> simp_all
    · simp only [World.readDocument, hw.parse _ _ h4, h6]

/-- All calls, one after the other. -/
theorem toItems_each {R : GMember → Item → Prop} (all : List (Call Double DateTime)) :
    ∀ (xs : List GMember) (cs pre : List (Call Double DateTime)), all = pre ++ cs →
    List.Forall₂ (fun x c => ∀ i, all[i]? = some c → ∃ item, w.toItem cls i c = .ok item ∧ R x item) xs cs →
    ∃ items, w.toItems cls pre.length cs = .ok items ∧ List.Forall₂ R xs items
  | [], _, pre, _, .nil => ⟨[], rfl, .nil⟩
  | x :: xs, c :: cs, pre, hall, .cons h hrest => by
    obtain ⟨items, h1, h2⟩ := toItems_each all xs cs (pre ++ [c]) (by simp [hall]) hrest
    rw [List.length_append, List.length_singleton] at h1
    obtain ⟨item, hi, hp⟩ := h pre.length (by rw [hall]; simp)
    exact ⟨item :: items, by simp only [World.toItems, hi, h1], .cons hp h2⟩

theorem requestCarries_matcher (hb : w.RequestCarries cls p) : (Matcher.of matchRequest (w.members cls)).eventStream = none ∧
    (Matcher.of matchRequest (w.members cls)).payloadMember = some (w.member p) := by
  obtain ⟨-, -, h3⟩ := add_spec matchRequest (w.members cls) {}
  refine ⟨h3 (request_no_stream hb.toRequestSides), payloadMember_unique matchRequest _ _ {} ?_
    (.inl ⟨_, List.mem_map_of_mem hb.member, requestCarries_loc hb⟩)⟩
  intro m hm hl
  obtain ⟨x, hx, rfl⟩ := List.mem_map.1 hm
  by_cases hne : x = p
  · rw [hne]
  · exact absurd hl (requestCarries_others hb hx hne).1

/-- The body is what is written for the payload. -/
theorem bodyOf_request (hb : w.RequestCarries cls p) {ws : List (Http.Member × Val)} (hws : ∀ u ∈ ws, u.1 ∈ w.members cls) :
    bodyOf matchRequest ws = ws.filter fun u => u.1 = w.member p := by
  refine List.filter_congr fun u hu => ?_
  obtain ⟨x, hx, he⟩ := List.mem_map.1 (hws u hu)
  rw [← he]
  by_cases hm : x = p
  · rw [hm]; simp [requestCarries_loc hb]
  · obtain ⟨g1, g2, g3⟩ := requestCarries_others hb hx hm
    have : w.member x ≠ w.member p := fun h => g1 (h ▸ requestCarries_loc hb)
    simp [g1, g2, g3, this]

theorem values_alone (lower : Text → Text) (k t name : Text) : valuesOf lower [(k, t)] name = if lower k = lower name then [t] else [] :=
  valuesOf_same lower k name [t]

theorem extra_type {env : Http.Env} (h : env.lower "content-type".toList ≠ env.lower "content-length".toList) (t : Text)
    (len : Option Nat) : valuesOf env.lower (extraHeaders env (some t) len) "content-type".toList = [t] := by
  unfold extraHeaders
  rw [Http.valuesOf_append]
  cases len with
  | none => exact (List.append_nil _).trans ((values_alone _ _ _ _).trans (if_pos rfl))
  | some k =>
    show valuesOf env.lower [("content-type".toList, t)] _ ++ valuesOf env.lower [("content-length".toList, env.natText k)] _ = _
    rw [values_alone, values_alone, if_pos rfl, if_neg fun e => h e.symm]
    rfl

theorem extra_length {env : Http.Env} (h : env.lower "content-type".toList ≠ env.lower "content-length".toList) (t : Text)
    (len : Option Nat) : valuesOf env.lower (extraHeaders env (some t) len) "content-length".toList =
      match len with | some k => [env.natText k] | none => [] := by
  unfold extraHeaders
  rw [Http.valuesOf_append]
  cases len with
  | none =>
    show valuesOf env.lower [("content-type".toList, t)] _ ++ [] = []
    rw [values_alone, if_neg h]
    rfl
  | some k =>
    show valuesOf env.lower [("content-type".toList, t)] _ ++ valuesOf env.lower [("content-length".toList, env.natText k)] _ = _
    rw [values_alone, values_alone, if_pos rfl, if_neg h]
    rfl

/-- There is a request if its length is known or need not be. -/
theorem request_made {env : Http.Env} (query : Bytes) (omitEmpty : Bool) {ms : List Http.Member} {ws : List (Http.Member × Val)}
    (hwr : ∀ u ∈ ws, ∀ a : Http.Parts, ∃ a', a.writeRequest u.1 u.2 = .ok a' ∧ a'.path = a.path) {body : Http.Body}
    {ct : Option Text} {len : Option Nat} {req : Bool}
    (hpay : payloadOf env (Matcher.of matchRequest ms) (fun s => s = .blob || s = .string || s = .enum) omitEmpty
      (bodyOf matchRequest ws) = .ok (body, ct, len, req)) (hlen : req = true → ∃ k, len = some k) :
    ∃ hr, serializeRequest env [] query omitEmpty ms ws = .ok hr := by
  obtain ⟨a, ha, hpath⟩ := request_writeAll_ok ws hwr {}
  have hpath' : a.path = [] := hpath
  have h1 := Http.writeAll_request ws {} a ha
  have h2 : a.payload = bodyOf matchRequest ws := by rw [h1]; exact List.nil_append _
  have hhas : (req && !hasField env (toFields env (a.headers ++ extraHeaders env ct len)) "content-length".toList) = false := by
    cases req with
    | false => rfl
    | true =>
      obtain ⟨k, rfl⟩ := hlen rfl
      have : fieldValues env.lower (toFields env (a.headers ++ extraHeaders env ct (some k))) "content-length".toList ≠ [] := by
        rw [Http.fieldValues_toFields, Http.valuesOf_append]
        unfold extraHeaders
        simp only
        rw [Http.valuesOf_append, values_alone, if_pos rfl]
        intro h
        exact List.cons_ne_nil _ _ (List.append_eq_nil_iff.1 (List.append_eq_nil_iff.1 h).2).2
      obtain ⟨f, hf, he⟩ := mem_of_fieldValues _ _ _ this
      rw [show hasField env _ _ = true from List.any_eq_true.2 ⟨f, hf, decide_eq_true he⟩]
      rfl
  unfold serializeRequest
  rw [ha]
  simp only [h2, hpay, hhas, Bool.false_eq_true, if_false, hpath', List.map_nil]
  exact ⟨_, rfl⟩

theorem payloadType_raw (h : w.model.shape p.target = some (.simple .blob) ∨ w.model.shape p.target = some (.simple .string) ∨
      w.model.shape p.target = some .enum) :
    w.payloadType p = (w.member p).mediaType.getD
      (if (w.member p).shape = Http.Shape.blob then "application/octet-stream".toList else "text/plain".toList) := by
  show _ = (w.traits p).mediaType.getD
      (if w.httpShape p.target = Http.Shape.blob then "application/octet-stream".toList else "text/plain".toList)
  unfold World.payloadType World.httpShape
  cases (w.traits p).mediaType with
  | some t => rfl
  | none => rcases h with h | h | h <;> rw [h] <;> rfl

theorem payloadType_codec (h : w.Structured p) : (w.member p).mediaType.getD "application/json".toList = w.payloadType p := by
  show (w.traits p).mediaType.getD _ = _
  unfold World.payloadType
  cases (w.traits p).mediaType with
  | some t => rfl
  | none => rcases h with ⟨_, h⟩ | ⟨_, _, h⟩ | ⟨_, _, h⟩ | ⟨_, _, h⟩ | h <;> rw [h] <;> rfl

theorem payload_shape {v : P} (h : RequestPayload w cls p v) : (w.model.shape p.target = some (.simple .blob) ∨
    w.model.shape p.target = some (.simple .string) ∨ w.model.shape p.target = some .enum) ∨ w.Structured p := by
  cases h with
  | enum h => exact .inl (.inr (.inr h))
  | absent h => exact .inl h
  | noDocument h => exact .inr (.inr (.inr (.inr (.inr h))))
  | value h =>
    cases h with
    | blob h => exact .inl (.inl h)
    | string h => exact .inl (.inr (.inl h))
    | document h => exact .inr (.inr (.inr (.inr (.inr h))))
    | value h => exact .inr (structured_of h)
    | absent h => exact .inr (structured_of h)

theorem writes_fst (hb : w.RequestSides cls) {R : GMember → Item → Prop} {value : GMember → P} {texts : GMember → List Text} :
    ∀ (xs : List GMember) (items : List Item), (∀ x ∈ xs, x ∈ w.model.members cls) →
    (∀ x item, R x item → Fits w x (texts x) (entriesOf (value x)) item) → List.Forall₂ R xs items →
    ∃ ys : List GMember, ys.Sublist xs ∧ (writesIn items).map Prod.fst = ys.map w.member
  | [], _, _, _, .nil => ⟨[], .slnil, rfl⟩
  | x :: xs, item :: items, hm, hR, .cons hfit hrest => by
    obtain ⟨ys, h1, h2⟩ := writes_fst hb xs items (fun y hy => hm y (List.mem_cons_of_mem _ hy)) hR hrest
    have hf := hR _ _ hfit
    rcases place_sides hb (hm x List.mem_cons_self) with ⟨hp, -⟩ | ⟨k, hp, -⟩ | ⟨hp, -⟩ | ⟨k, hp, -⟩ | ⟨k, hp, -⟩ | ⟨hp, -⟩ <;> simp only [Fits, hp] at hf
    · obtain ⟨t, l, _, rfl, _⟩ := hf
      exact ⟨ys, h1.cons _, h2⟩
    all_goals
      first
      | subst hf
        exact ⟨x :: ys, h1.cons₂ _, by rw [writesIn_write, List.map_cons, List.map_cons, h2]⟩
      | obtain ⟨val, rfl, _⟩ := hf
        exact ⟨x :: ys, h1.cons₂ _, by rw [writesIn_write, List.map_cons, List.map_cons, h2]⟩
      | obtain ⟨val, rfl⟩ := hf
        exact ⟨x :: ys, h1.cons₂ _, by rw [writesIn_write, List.map_cons, List.map_cons, h2]⟩

/-- What the serializer makes of the payload that it gets. -/
theorem payloadOf_sent (hb : w.RequestCarries cls p) {cs : List (Call Double DateTime)}
    (hsh : (w.model.shape p.target = some (.simple .blob) ∨
      w.model.shape p.target = some (.simple .string) ∨ w.model.shape p.target = some .enum) ∨ w.Structured p)
    {val : Val} {bytes : Bytes} (h : SentBody w p (w.env cs) val bytes) (omitEmpty : Bool) :
    payloadOf (w.env cs) (Matcher.of matchRequest (w.members cls)) (fun s => s = .blob || s = .string || s = .enum) omitEmpty
      [(w.member p, val)] = .ok (.bytes bytes, some (w.payloadType p), some bytes.length, (w.member p).requiresLength) := by
  obtain ⟨e1, e2⟩ := requestCarries_matcher hb
  unfold payloadOf
  simp only [e1, e2]
  have hshape : (w.member p).shape = w.httpShape p.target := rfl
  rcases hsh with hsh | hsh
  · have ht := payloadType_raw hsh
    rcases h with ⟨h, rfl⟩ | ⟨h, t, rfl, rfl⟩ | ⟨h1, h2, h3, -⟩
    · rw [if_pos (by rw [hshape, h]; rfl), rawPayload_blob]
      rw [ht]
      cases (w.member p).mediaType <;> rfl
    · rw [if_pos (by rw [hshape]; rcases h with h | h <;> rw [h] <;> rfl), rawPayload_text,
        if_pos (by rw [hshape]; rcases h with h | h <;> rw [h] <;> rfl)]
      rw [ht]
      cases (w.member p).mediaType <;> rfl
    · unfold World.httpShape at h1 h2 h3
      rcases hsh with h | h | h <;> simp [h] at h1 h2 h3
  · have h4 := httpShape_codec hsh
    have hraw : ¬ (((w.member p).shape = .blob || (w.member p).shape = .string || (w.member p).shape = .enum) = true) := by
      rw [hshape]
      rcases h4 with h | h | h | h | h <;> rw [h] <;> decide
    rcases h with ⟨h, -⟩ | ⟨h, -⟩ | ⟨-, -, -, rfl⟩
    · rw [h] at h4; simp at h4
    · rcases h with h | h <;> rw [h] at h4 <;> simp at h4
    · rw [if_neg hraw, ← payloadType_codec hsh]
      rfl

/-- Nothing is written if there is no payload. -/
theorem payloadOf_absent (hb : w.RequestCarries cls p) {cs : List (Call Double DateTime)}
    (hv : RequestPayload w cls p .none) (omitEmpty : Bool) :
    ∃ len req, payloadOf (w.env cs) (Matcher.of matchRequest (w.members cls)) (fun s => s = .blob || s = .string || s = .enum) omitEmpty
      [] = .ok (.bytes [], some (w.payloadType p), len, req) ∧ (w.Structured p → len = some 0) ∧
      (¬ w.Structured p → len = none ∧ req = false) := by
  obtain ⟨e1, e2⟩ := requestCarries_matcher hb
  have hshape : (w.member p).shape = w.httpShape p.target := rfl
  have hcases : ((w.model.shape p.target = some (.simple .blob) ∨ w.model.shape p.target = some (.simple .string) ∨
      w.model.shape p.target = some .enum) ∧ (w.traits p).requiresLength = false) ∨ w.Structured p := by
    cases hv with
    | absent h h' => exact .inl ⟨h, h'⟩
    | noDocument h => exact .inr (.inr (.inr (.inr (.inr h))))
    | value h =>
      cases h with
      | value h h' => exact .inr (structured_of h)
      | absent h => exact .inr (structured_of h)
  unfold payloadOf
  simp only [e1, e2]
  rcases hcases with ⟨hsh, hreq⟩ | hsh
  · have ht := payloadType_raw hsh
    have hraw : ((w.member p).shape = .blob || (w.member p).shape = .string || (w.member p).shape = .enum) = true := by
      rw [hshape]
      unfold World.httpShape
      rcases hsh with h | h | h <;> rw [h] <;> rfl
    rw [if_pos hraw, show Http.rawPayload (w.env cs) [] = .ok none from rfl]
    rw [ht]
    exact ⟨none, (w.traits p).requiresLength, by cases (w.member p).mediaType <;> rfl, fun h => absurd h (not_structured hsh), fun _ => ⟨rfl, hreq⟩⟩
  · have h4 := httpShape_codec hsh
    have hraw : ¬ (((w.member p).shape = .blob || (w.member p).shape = .string || (w.member p).shape = .enum) = true) := by
      rw [hshape]
      rcases h4 with h | h | h | h | h <;> rw [h] <;> decide
    rw [if_neg hraw, ← payloadType_codec hsh]
    exact ⟨some 0, _, rfl, fun _ => rfl, fun h => absurd hsh h⟩

/-! ## The theorem -/

/-- **C130**, for an input with a payload: labels, query parameters and headers have the texts that say the values of the attributes
that are bound to them, maps add a parameter or a header for each entry, and the body is the payload: the bytes of a blob, the text of a string or an enum in UTF-8, or a document
from which an equal value is read; with a content type that fits, and its length.  There is no body if the payload is left out.
There is a request exactly if all labels have values and no segment that something follows is empty.
Missing: streams, host labels and the method. -/
theorem C130_payload_partial (hw : w.Ok nearest) (hb : w.RequestCarries cls p) {ms : List GMember}
    (hs : w.model.shape cls = some (.struct ms)) {value : GMember → P} (hx : ∀ x ∈ ms, x ≠ p → RequestField w nearest cls x (value x))
    (hp : RequestPayload w cls p (value p)) {v : P}
    (hv : v = .object cls ((w.model.attributes ms).map fun x => (x.attr, value x))) {n : Nat} (hn : v.depth ≤ n)
    {ps : List (Piece Bytes)} (hps : Uri.Pattern.Valid ps) (hlit : ∀ t, Piece.lit t ∈ ps → PlainLiteral t)
    (hself : ∀ x ∈ ms, w.place x = .label → utf8 x.name ≠ asc "self") (query : Bytes) (omitEmpty : Bool) :
    ∃ (texts : GMember → List Text) (fill : Bytes → Bytes),
      (∀ x ∈ ms, Reads w cls x (texts x) (value x)) ∧
      (∀ x ∈ ms, w.place x = .label → ∀ t, texts x = [t] → fill (utf8 x.name) = utf8 t) ∧
      ((∃ r, w.request n cls v (render ps) query omitEmpty = .ok r) ↔
        (∀ l ∈ labels ps, ∃ x ∈ ms, w.place x = .label ∧ utf8 x.name = l ∧ value x ≠ .none) ∧
        ¬ EmptySegment (intended (IsGreedy ps) fill ps)) ∧
      ∀ r, w.request n cls v (render ps) query omitEmpty = .ok r →
        ((split (ch '/') r.path).map unquote = segments (intended (IsGreedy ps) fill ps) ∧ ch '?' ∉ r.path ∧ ch '#' ∉ r.path) ∧
        parseQuery r.query = parseQuery query ++ ms.flatMap (fun x => match w.place x with
          | .query k => (texts x).map fun t => (utf8 k, some (utf8 t))
          | .params => (entriesOf (value x)).map fun e => (utf8 e.1, some (utf8 e.2))
          | _ => []) ∧
        (∀ name, w.lower name ≠ w.lower "content-type".toList → w.lower name ≠ w.lower "content-length".toList →
          fieldValues w.lower r.fields name = ms.flatMap fun x => match w.place x with
            | .header k => if w.lower k = w.lower name then texts x else []
            | .prefixed pre => (entriesOf (value x)).filterMap fun e => if w.lower (pre ++ e.1) = w.lower name then some e.2 else none
            | _ => []) ∧
        ∃ bytes, r.body = .bytes bytes ∧ Carried w cls p (value p) bytes ∧
          fieldValues w.lower r.fields "content-type".toList = [w.payloadType p] ∧
          (value p ≠ .none ∨ w.Structured p → fieldValues w.lower r.fields "content-length".toList = [natText bytes.length]) ∧
          (¬ (value p ≠ .none ∨ w.Structured p) → fieldValues w.lower r.fields "content-length".toList = []) := by
  subst hv
  have hms : w.model.members cls = ms := by simp only [Model.members, hs]
  have hpm : p ∈ ms := hms ▸ hb.member
  have hstr : ∀ x ∈ ms, w.model.isStream x = false := fun x h => hb.streams x (hms ▸ h)
  have hattr : ∀ x, x ∈ w.model.attributes ms ↔ x ∈ ms := fun x =>
    mem_attributes.trans ⟨fun h => h.1, fun h => ⟨h, hstr x h⟩⟩
  simp only [Py.depth] at hn
  obtain ⟨n, rfl⟩ : ∃ n', n = n' + 1 := ⟨n - 1, by omega⟩
  have hdepth : ∀ x ∈ ms, (value x).depth ≤ n := by
    intro x h
    have := depth_entry _ _ (List.mem_map_of_mem (f := fun x => (x.attr, value x)) ((hattr x).2 h))
    simp only at this
    omega
  have hlook : ∀ x ∈ ms, ((w.model.attributes ms).map fun x => (x.attr, value x)).lookup x.attr = some (value x) := fun x h =>
    lookup_field _ x ((hattr x).2 h) fun y hy he => attr_inj ms (hw.names.attrs cls ms hs) x h y ((hattr y).1 hy) he
  have hall : ∀ x, ∃ ts : List Text, x ∈ ms → Reads w cls x ts (value x) ∧ (value x = .none → ts = []) ∧
      (value x ≠ .none → (value x).isNone = false ∧ ∃ c, w.model.memberCall n x.target (.member cls x.name) (value x) = .ok c ∧
        ∀ (all : List (Call Double DateTime)) (i : Nat), all[i]? = some c → ∃ item, w.toItem cls i c = .ok item ∧ Fits w x ts (entriesOf (value x)) item ∧
          (x = p → ∃ val bytes, item = .write (w.member p, val) ∧ SentBody w p (w.env all) val bytes ∧
            Carried w cls p (value p) bytes)) := by
    intro x
    by_cases h : x ∈ ms
    · by_cases hne : value x = .none
      · refine ⟨[], fun _ => ⟨?_, fun _ => rfl, fun h' => absurd hne h'⟩⟩
        rw [hne]
        unfold Reads
        split <;> first | exact .none | trivial
      · by_cases hxp : x = p
        · subst hxp
          obtain ⟨h1, c, h2, h3⟩ := payload_item hw hb hp hne (hdepth x h)
          refine ⟨[], fun _ => ⟨by simp only [Reads, hb.payload.2], fun h' => absurd h' hne, fun _ => ⟨h1, c, h2, fun all i hi => ?_⟩⟩⟩
          obtain ⟨val, bytes, g1, g2, g3⟩ := h3 all i hi
          exact ⟨_, g1, by simp only [Fits, hb.payload.2]; exact ⟨_, rfl⟩, fun _ => ⟨val, bytes, rfl, g2, g3⟩⟩
        · obtain ⟨h1, c, ts, h2, h3, _, h5⟩ := field_item hw hb.toRequestSides hs h
            (fun h' => absurd h' (hb.others x (hms ▸ h) hxp)) (hx x h hxp) hne (hdepth x h)
          refine ⟨ts, fun _ => ⟨h3, fun h' => absurd h' hne, fun _ => ⟨h1, c, h2, fun all i _ => ?_⟩⟩⟩
          obtain ⟨item, g1, g2⟩ := h5 i
          exact ⟨item, g1, g2, fun h => absurd h hxp⟩
    · exact ⟨[], fun h' => absurd h' h⟩
  choose texts hall using hall
  obtain ⟨cs, hcs, hcall⟩ := fieldCalls_ok (w := w) (value := value)
    (call := fun x v => w.model.memberCall n x.target (.member cls x.name) v)
    (fields := (w.model.attributes ms).map fun x => (x.attr, value x)) ms (by
      intro x h
      refine ⟨hstr x h, hlook x h, ?_⟩
      by_cases hne : value x = .none
      · refine .inl ⟨?_, hne⟩
        have hnull : x.nullable = true → (x.default = none ∨
            (x.default = some .none ∧ w.model.shape x.target ≠ some (.simple .document))) → w.model.mayBeNone x = true := by
          rintro hnull (hdef | ⟨hdef, hdoc⟩)
          · simp [Model.mayBeNone, hnull, hdef]
          · unfold Model.mayBeNone
            split
            · rename_i h; exact absurd h hdoc
            · simp [hnull]
        by_cases hxp : x = p
        · subst hxp
          rw [hne] at hp
          cases hp with
          | absent h _ h1 h2 => exact hnull h1 (h2.imp id fun h' => ⟨h', by rcases h with h | h | h <;> rw [h] <;> simp⟩)
          | noDocument _ h1 h2 => exact hnull h1 (.inl h2)
          | value h =>
            cases h with
            | value _ h => exact absurd (typed_notNone h) (by simp [Py.isNone])
            | absent h h1 h2 => exact hnull h1 (h2.imp id fun h' => ⟨h', (httpShape_structured h).2⟩)
        · have hf := hx x h hxp
          rw [hne] at hf
          have hu : ∀ {id s}, ¬ UrlOk w nearest id s .none := by
            intro id s hu
            cases hu with
            | plain _ h => cases h
          cases hf with
          | absent h1 h2 => exact hnull h1 h2
          | body _ h => exact absurd (typed_notNone h) (by simp [Py.isNone])
          | label _ h => exact absurd h hu
          | query _ h => exact absurd h hu
          | header _ h => cases h
      · obtain ⟨h1, c, h2, _⟩ := (hall x h).2.2 hne
        exact .inr ⟨h1, c, h2⟩)
  obtain ⟨xs, hxs⟩ : ∃ xs, xs = ms.filter fun x => !(value x).isNone := ⟨_, rfl⟩
  rw [← hxs] at hcall
  have hin : ∀ x, x ∈ xs ↔ x ∈ ms ∧ value x ≠ .none := by
    intro x
    rw [hxs, List.mem_filter]
    constructor
    · rintro ⟨h, h'⟩
      refine ⟨h, fun he => ?_⟩
      rw [he] at h'
      exact absurd h' (by simp [Py.isNone])
    · rintro ⟨h, hne⟩
      exact ⟨h, by rw [((hall x h).2.2 hne).1]; rfl⟩
  have hnd : ms.Nodup := List.Nodup.of_map _ (hw.names.attrs cls ms hs)
  have hxnd : xs.Nodup := hxs ▸ hnd.filter _
  have hxm : ∀ x ∈ xs, x ∈ w.model.members cls := fun x h => hms ▸ ((hin x).1 h).1
  obtain ⟨items, hitems, hsent⟩ := toItems_each (w := w) (cls := cls) (R := fun x item => Fits w x (texts x) (entriesOf (value x)) item ∧
      (x = p → ∃ val bytes, item = .write (w.member p, val) ∧ SentBody w p (w.env cs) val bytes ∧ Carried w cls p (value p) bytes))
    cs xs cs [] rfl (forall₂_imp hcall fun x h c hc => by
      obtain ⟨_, c', h1, h2⟩ := (hall x ((hin x).1 h).1).2.2 ((hin x).1 h).2
      rw [hc] at h1
      cases h1
      exact h2 cs)
  have hfits : List.Forall₂ (fun x item => Fits w x (texts x) (entriesOf (value x)) item) xs items := hsent.imp fun _ _ h => h.1
  obtain ⟨ys, hys, hfst⟩ := writes_fst hb.toRequestSides (value := value) (texts := texts) xs items hxm (fun _ _ h => h) hfits
  have hyn : ((writesIn items).map Prod.fst).Nodup := by
    rw [hfst]
    exact (hxnd.sublist hys).map_on fun a ha b hb' h => member_inj hw (hxm a (hys.subset ha)) (hxm b (hys.subset hb')) h
  have hwm : ∀ u ∈ writesIn items, u.1 ∈ w.members cls := by
    intro u hu
    have : u.1 ∈ (writesIn items).map Prod.fst := List.mem_map_of_mem hu
    rw [hfst] at this
    obtain ⟨y, hy, he⟩ := List.mem_map.1 this
    rw [← he]
    exact List.mem_map_of_mem (hxm y (hys.subset hy))
  -- the body
  obtain ⟨bytes, len, req, hpay, hcar, hlen1, hlen2, hreqlen⟩ : ∃ bytes len req,
      payloadOf (w.env cs) (Matcher.of matchRequest (w.members cls)) (fun s => s = .blob || s = .string || s = .enum) omitEmpty
        (bodyOf matchRequest (writesIn items)) = .ok (.bytes bytes, some (w.payloadType p), len, req) ∧
      Carried w cls p (value p) bytes ∧ (value p ≠ .none ∨ w.Structured p → len = some bytes.length) ∧
      (¬ (value p ≠ .none ∨ w.Structured p) → len = none) ∧ (req = true → ∃ k, len = some k) := by
    rw [bodyOf_request hb hwm]
    by_cases hne : value p = .none
    · have hnil : ((writesIn items).filter fun u => u.1 = w.member p) = [] := by
        refine List.filter_eq_nil_iff.2 fun u hu he => ?_
        have : u.1 ∈ (writesIn items).map Prod.fst := List.mem_map_of_mem hu
        rw [hfst] at this
        obtain ⟨y, hy, he'⟩ := List.mem_map.1 this
        have hyp : y = p := member_inj hw (hxm y (hys.subset hy)) hb.member (he'.trans (of_decide_eq_true he))
        exact ((hin y).1 (hys.subset hy)).2 (hyp ▸ hne)
      rw [hne] at hp
      obtain ⟨len, req, h1, h2, h3⟩ := payloadOf_absent (cs := cs) hb hp omitEmpty
      refine ⟨[], len, req, by rw [hnil]; exact h1, ?_, ?_, ?_, ?_⟩
      · rw [hne]
        exact ⟨(fun _ h => nomatch h), (fun _ h => nomatch h), (fun _ _ h => nomatch h), fun _ => rfl, fun _ h => absurd rfl h⟩
      · rintro (h | h)
        · exact absurd hne h
        · exact h2 h
      · exact fun h => (h3 fun h' => h (.inr h')).1
      · intro hreq
        by_cases h : w.Structured p
        · exact ⟨_, h2 h⟩
        · rw [(h3 h).2] at hreq; cases hreq
    · obtain ⟨item, hi, _, hsb⟩ := forall₂_left hsent p ((hin p).2 ⟨hpm, hne⟩)
      obtain ⟨val, bytes, rfl, h1, h2⟩ := hsb rfl
      refine ⟨bytes, some bytes.length, (w.member p).requiresLength, ?_, h2, fun _ => rfl, fun h => absurd (.inl hne) h, fun _ => ⟨_, rfl⟩⟩
      rw [filter_single hyn (mem_writesIn.2 hi)]
      exact payloadOf_sent hb (payload_shape hp) h1 omitEmpty
  obtain ⟨hr, hreq⟩ := request_made (env := w.env cs) query omitEmpty (ms := w.members cls) (ws := writesIn items) (fun u hu a => by
    obtain ⟨x, h, hf⟩ := forall₂_right hfits _ (mem_writesIn.1 hu)
    exact request_write_ok hb.toRequestSides (hxm x h) hf a) hpay hreqlen
  simp only [List.length_nil] at hitems
  have hrequest : w.request (n + 1) cls (.object cls ((w.model.attributes ms).map fun x => (x.attr, value x))) (render ps) query
      omitEmpty = match Uri.Pattern.path (render ps) (labelsIn items) with
        | .error e => .error (.path e)
        | .ok path => .ok { fields := hr.fields, path := path, query := hr.query, body := hr.body } := by
    unfold World.request Model.serialize
    simp only [Model.memberCall, hs, hcs, hitems, hreq]
    cases Uri.Pattern.path (render ps) (labelsIn items) <;> rfl
  obtain ⟨hfill, hiff, hrest⟩ := request_rest hw hb.toRequestSides hs hxs hin (fun x h => (hall x h).2.1)
    (fun x h hne => ((hall x h).2.2 hne).1) (fun x h pre hpl => prefixed_own (hx x h fun he => by
      rw [he, hb.payload.2] at hpl; cases hpl) hpl) hfits hps hlit hself hreq
  refine ⟨texts, filling (labelsIn items), fun x h => (hall x h).1, hfill, ?_, ?_⟩
  · rw [hrequest, ← hiff]
    exact request_iff (f := fun path => { fields := hr.fields, path := path, query := hr.query, body := hr.body })
  · intro r hrr
    rw [hrequest] at hrr
    cases hpath : Uri.Pattern.path (render ps) (labelsIn items) with
    | error e => rw [hpath] at hrr; cases hrr
    | ok path =>
    rw [hpath] at hrr
    cases hrr
    obtain ⟨hP1, hP2, hP3, ct, len', req', hpay', hfv⟩ := hrest path hpath
    rw [hpay] at hpay'
    simp only [Except.ok.injEq, Prod.mk.injEq] at hpay'
    obtain ⟨hbody, rfl, rfl, -⟩ := hpay'
    have hlow : (w.env cs).lower "content-type".toList ≠ (w.env cs).lower "content-length".toList := hw.lower
    refine ⟨hP1, hP2, hP3, bytes, hbody.symm, hcar, ?_, fun h => ?_, fun h => ?_⟩
    · exact (hfv _ (.inl rfl)).trans (extra_type (env := w.env cs) hlow _ _)
    · refine (hfv _ (.inr rfl)).trans ((extra_length (env := w.env cs) hlow _ _).trans ?_)
      rw [hlen1 h]
      rfl
    · refine (hfv _ (.inr rfl)).trans ((extra_length (env := w.env cs) hlow _ _).trans ?_)
      rw [hlen2 h]

end Verif.RestJson

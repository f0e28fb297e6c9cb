import Verif.RestJson.Props

/-!
# The output of an operation with a payload, from the service to the caller (C129)
-/

set_option autoImplicit false

namespace Verif.RestJson

open Verif.GeneratedSerde (Py Ref Model Shape Simple Typed Same Call Good find_name target_member
  core typed_notNone mem_attributes attr_inj name_inj lookup_field each_fields depth_mem depth_entry lookup_put')
open Verif.Timestamps (DateTime)
open Verif.Http (Binding Val Response matchResponse Matcher serializeResponse serializeResponse_ok
  add_spec headersOf bodyOf named extraHeaders toFields fieldValues writeAll payloadOf hasField payloadMember_unique
  rawPayload_blob rawPayload_text)
open Verif.Http.Reading (Source REnv RErr Incoming Content readStruct readBody readMembers readMember
  readStruct_ok readMembers_mem readMember_fst readBody_value C79_payload find_spec)
open Verif.Http.RoundTrip (received namesOf ownNames fields_distinct C80_header C80_prefix_headers C80_status C80_payload_partial length_written
  knownEmpty_iff mem_of_fieldValues)
open Verif.Http.RestJson (utf8 utf8_inj utf8_nil not_jsonText_nil)
open Verif.Numerals (natText intText intValue)
open Verif.Scalars.Strict (Num)
open Verif.HeaderText (asString)

/-! ## Specification -/

/-- The HTTP bindings of a class with a payload, as a model of Smithy has them: one member is the payload, and each of the others is
in a header or headers or is the status.  Headers are different and none of them are those of the body, and there is one status at most.
There are no streams, which are not covered. -/
structure World.Carries (w : World) (cls : Nat) (p : GMember) : Prop where
  streams : ∀ x ∈ w.model.members cls, w.model.isStream x = false
  member : p ∈ w.model.members cls
  payload : (w.traits p).payload = true ∧ (w.traits p).responseCode = false ∧ (w.traits p).header = none ∧
    (w.traits p).prefixHeaders = none
  others : ∀ x ∈ w.model.members cls, x ≠ p → (w.traits x).responseCode = true ∨ (w.traits x).header ≠ none ∨
    (w.traits x).prefixHeaders ≠ none
  prefixes : w.PrefixOk cls
  headers : ∀ x ∈ w.model.members cls, ∀ y ∈ w.model.members cls, ∀ a b, (w.traits x).header = some a →
    (w.traits y).header = some b → w.lower a = w.lower b → x = y
  own : ∀ x ∈ w.model.members cls, ∀ a, (w.traits x).header = some a →
    w.lower a ≠ w.lower "content-type".toList ∧ w.lower a ≠ w.lower "content-length".toList
  status : ∀ x ∈ w.model.members cls, ∀ y ∈ w.model.members cls, (w.traits x).responseCode = true →
    (w.traits y).responseCode = true → x = y

/-- A value of the payload: a blob, a string, a document, or a structure, union, list or map that the codec restores, which may be left
out if the member may be null and has no default.  A document has no member with an empty name that is an object. -/
inductive PayloadOk (w : World) (cls : Nat) (x : GMember) : P → Prop
  | blob {b : List Base64.Byte} : w.model.shape x.target = some (.simple .blob) → PayloadOk w cls x (.bytes b)
  | string {t : Text} : w.model.shape x.target = some (.simple .string) → PayloadOk w cls x (.str t)
  | document {d : Json.Plain} : w.model.shape x.target = some (.simple .document) → d.Ok →
      (∀ es, d = .obj es → ∀ k y, (k, Json.Plain.obj y) ∈ es → k ≠ []) → PayloadOk w cls x (.document d)
  | value {v : P} : (∃ ms, w.model.shape x.target = some (.struct ms)) ∨ (∃ s ms, w.model.shape x.target = some (.union s ms)) ∨
        (∃ s e, w.model.shape x.target = some (.list s e)) ∨ (∃ s e, w.model.shape x.target = some (.map s e)) →
      Typed w.model w.st w.rd x.target (.member cls x.name) v → PayloadOk w cls x v
  | absent : (∃ ms, w.model.shape x.target = some (.struct ms)) ∨ (∃ s ms, w.model.shape x.target = some (.union s ms)) ∨
        (∃ s e, w.model.shape x.target = some (.list s e)) ∨ (∃ s e, w.model.shape x.target = some (.map s e)) →
      x.nullable = true → x.default = none ∨ x.default = some .none → PayloadOk w cls x .none

/-! ## Proofs -/

variable {w : World} {nearest : Rat → Num Rat} {cls : Nat} {p : GMember}

theorem carries_loc (hb : w.Carries cls p) : matchResponse (w.member p) = .payload := by
  obtain ⟨h1, h2, h3, h4⟩ := hb.payload
  simp only [matchResponse, World.member, h1, h2, h3, h4, Bool.false_eq_true, if_false, if_true,
    Option.isSome_none]

theorem carries_others (hb : w.Carries cls p) {x : GMember} (hx : x ∈ w.model.members cls) (hne : x ≠ p) :
    ((w.traits x).responseCode = true ∧ matchResponse (w.member x) = .status) ∨
    ((w.traits x).responseCode = false ∧ ∃ k, (w.traits x).header = some k ∧ matchResponse (w.member x) = .header) ∨
    ((w.traits x).responseCode = false ∧ ∃ p, (w.traits x).prefixHeaders = some p ∧ matchResponse (w.member x) = .prefixHeaders) := by
  cases h : (w.traits x).responseCode with
  | true => exact .inl ⟨rfl, loc_status h⟩
  | false =>
    cases hk : (w.traits x).header with
    | some k => exact .inr (.inl ⟨rfl, k, rfl, loc_header h hk⟩)
    | none =>
      rcases hb.others x hx hne with h' | h' | h'
      · rw [h] at h'; cases h'
      · exact absurd hk h'
      · obtain ⟨q, hq⟩ := Option.ne_none_iff_exists'.1 h'
        exact .inr (.inr ⟨rfl, q, hq, loc_prefixed h hk hq⟩)

theorem carries_payload (hb : w.Carries cls p) : ∀ m ∈ w.members cls, matchResponse m = .payload → m = w.member p := by
  intro m hm hl
  obtain ⟨x, hx, rfl⟩ := List.mem_map.1 hm
  by_cases hne : x = p
  · rw [hne]
  · rcases carries_others hb hx hne with ⟨_, h⟩ | ⟨_, _, _, h⟩ | ⟨_, _, _, h⟩ <;> rw [h] at hl <;> cases hl

theorem carries_nobody (hb : w.Carries cls p) : ∀ m ∈ w.members cls, matchResponse m ≠ .body := by
  intro m hm hl
  obtain ⟨x, hx, rfl⟩ := List.mem_map.1 hm
  by_cases hne : x = p
  · rw [hne, carries_loc hb] at hl; cases hl
  · rcases carries_others hb hx hne with ⟨_, h⟩ | ⟨_, _, _, h⟩ | ⟨_, _, _, h⟩ <;> rw [h] at hl <;> cases hl

theorem carries_stream (hb : w.Carries cls p) : ∀ m ∈ w.members cls, ¬(m.streaming = true ∧ m.shape = .union) := by
  rintro m hm ⟨h, _⟩
  obtain ⟨x, hx, rfl⟩ := List.mem_map.1 hm
  have := hb.streams x hx
  rw [show (w.member x).streaming = w.model.isStream x from rfl, this] at h
  cases h

/-- What is written for a member: as text from which an equal value is read, or, for the payload, as bytes from which one is
read. -/
def Sent (w : World) (cls : Nat) (p : GMember) (env : Http.Env) (x : GMember) (v : P) (u : Http.Member × Val) : Prop :=
  u.1 = w.member x ∧ (x ≠ p → Placed w cls x v u) ∧
  (x = p → ∃ bytes, ((w.httpShape p.target = .blob ∧ u.2 = .blob bytes ∧ ∀ b, v = .bytes b → bytes = b.map UInt8.ofFin) ∨
      (w.httpShape p.target = .string ∧ (∃ t, u.2 = .text t ∧ bytes = env.utf8 t) ∧ ∀ t, v = .str t → bytes = utf8 t) ∨
      (w.httpShape p.target ≠ .blob ∧ w.httpShape p.target ≠ .string ∧ w.httpShape p.target ≠ .enum ∧
        bytes = env.encodeValues [(w.member p, u.2)] ∧ bytes ≠ [])) ∧
    ∃ v', w.readSource cls p (if w.httpShape p.target = .blob ∨ w.httpShape p.target = .string then .raw (.bytes bytes)
      else .document bytes) = .ok v' ∧ Same v v')

theorem httpShape_structured {x : GMember}
    (h : (∃ ms, w.model.shape x.target = some (.struct ms)) ∨ (∃ s ms, w.model.shape x.target = some (.union s ms)) ∨
        (∃ s e, w.model.shape x.target = some (.list s e)) ∨ (∃ s e, w.model.shape x.target = some (.map s e))) :
    (w.httpShape x.target = .list ∨ w.httpShape x.target = .map ∨ w.httpShape x.target = .union ∨
      w.httpShape x.target = .structure) ∧ w.model.shape x.target ≠ some (.simple .document) := by
  unfold World.httpShape
  rcases h with ⟨_, h⟩ | ⟨_, _, h⟩ | ⟨_, _, h⟩ | ⟨_, _, h⟩ <;> rw [h] <;> simp

theorem bytes_back (b : List Base64.Byte) : (b.map UInt8.ofFin).map UInt8.toFin = b := by
  rw [List.map_map]
  exact (List.map_congr_left fun _ _ => rfl).trans (List.map_id _)

theorem document_root {st : Json.Settings Double DateTime} {d : Json.Plain} {j : Json.Json} (h : Json.Mirrors st (Json.docCall d) j)
    (hroot : ∀ es, d = .obj es → ∀ k y, (k, Json.Plain.obj y) ∈ es → k ≠ []) : Json.RootOk j := by
  cases d with
  | obj es =>
    simp only [Json.docCall, Json.Mirrors] at h
    obtain ⟨js, rfl, h⟩ := h
    intro k x hm
    obtain ⟨y, hy⟩ := Json.docEntries_obj st es js h k x hm
    exact hroot es rfl k y hy
  | num n =>
    cases n with
    | int n =>
      simp only [Json.docCall, Json.Mirrors] at h
      obtain ⟨t, rfl, _⟩ := h
      trivial
    | dec d =>
      simp only [Json.docCall, Json.Mirrors, Json.floatJson] at h
      cases j <;> first | trivial | cases h
  | arr xs =>
    simp only [Json.docCall, Json.Mirrors] at h
    obtain ⟨t, rfl, _⟩ := h
    trivial
  | _ =>
    simp only [Json.docCall, Json.Mirrors] at h
    subst h
    trivial

/-- A document that is the payload is read back. -/
theorem document_payload (hw : w.Ok nearest) {x : GMember} (hs : w.model.shape x.target = some (.simple .document)) {d : Json.Plain}
    (hd : d.Ok) (hroot : ∀ es, d = .obj es → ∀ k y, (k, Json.Plain.obj y) ∈ es → k ≠ []) :
    utf8 (Json.write w.st [] (Json.docCall d)) ≠ [] ∧
    ∃ v', w.readDocument cls x (utf8 (Json.write w.st [] (Json.docCall d))) = .ok v' ∧ Same (.document d) v' := by
  obtain ⟨j, h4, h5, _⟩ := Json.C43_well_formed_partial w.st hw.settings _ (Json.noNan_doc w.st d)
  obtain ⟨h1, -⟩ := Json.doc_round_trip w.st d j hd h5
  refine ⟨fun h0 => ?_, .document (Json.plainOf j), ?_, .document h1⟩
  · have := utf8_inj (h0.trans utf8_nil.symm)
    rw [this] at h4
    exact not_jsonText_nil h4
  · have hspec := Json.readDocument_spec j [] [] fun _ => document_root h5 hroot
    rw [List.append_nil] at hspec
    simp only [World.readDocument, hw.parse _ _ h4]
    rw [Model.read.eq_def]
    simp only [hs, hspec]

/-- The payload: the call for it, and what is written and read. -/
theorem payload_write (hw : w.Ok nearest) (hb : w.Carries cls p) {v : P} (hv : PayloadOk w cls p v) (hne : v ≠ .none) {n : Nat}
    (hd : v.depth ≤ n) : v.isNone = false ∧ ∃ c, w.model.memberCall n p.target (.member cls p.name) v = .ok c ∧
      ∀ (all : List (Call Double DateTime)) (i : Nat), all[i]? = some c →
        ∃ u, w.toWrite cls i c = .ok u ∧ Sent w cls p (w.env all) p v u := by
  have hfind : (w.model.members cls).find? (fun y => y.name = p.name) = some p := find_name hw.names hb.member
  have htgt : w.model.target (.member cls p.name) = some p.target := target_member hw.names hb.member
  have hl := carries_loc hb
  cases hv with
  | absent => exact absurd rfl hne
  | @blob b hs =>
    simp only [Py.depth] at hd
    obtain ⟨n, rfl⟩ : ∃ n', n = n' + 1 := ⟨n - 1, by omega⟩
    have hsh : w.httpShape p.target = .blob := by simp only [World.httpShape, hs]
    refine ⟨rfl, .write .blob (.member cls p.name) (.bytes b), by simp only [Model.memberCall, hs, Simple.method], fun all i _ =>
      ⟨(w.member p, .blob (b.map UInt8.ofFin)), by simp only [World.toWrite, Call.schema, hfind, hl, hsh], rfl,
        fun h => absurd rfl h, fun _ => ⟨b.map UInt8.ofFin, .inl ⟨hsh, rfl, fun b' h => by cases h; rfl⟩, .bytes b, ?_, .refl _⟩⟩⟩
    rw [if_pos (.inl hsh)]
    simp only [World.readSource, Http.Reading.consumePayload, World.readRaw, hs, bytes_back]
  | @string t hs =>
    simp only [Py.depth] at hd
    obtain ⟨n, rfl⟩ : ∃ n', n = n' + 1 := ⟨n - 1, by omega⟩
    have hsh : w.httpShape p.target = .string := by simp only [World.httpShape, hs]
    refine ⟨rfl, .write .string (.member cls p.name) (.str t), by simp only [Model.memberCall, hs, Simple.method], fun all i _ =>
      ⟨(w.member p, .text t), by simp only [World.toWrite, Call.schema, hfind, hl, hsh], rfl,
        fun h => absurd rfl h, fun _ => ⟨utf8 t, .inr (.inl ⟨hsh, ⟨t, rfl, rfl⟩, fun b' h => by cases h; rfl⟩), .str t, ?_, .refl _⟩⟩⟩
    rw [if_pos (.inr hsh)]
    simp only [World.readSource, Http.Reading.consumePayload, World.readRaw, hs, utf8, EventStream.utf8Decode_encode,
      String.toList_ofList]
  | @document d hs hok hroot =>
    simp only [Py.depth] at hd
    obtain ⟨n, rfl⟩ : ∃ n', n = n' + 1 := ⟨n - 1, by omega⟩
    have hsh : w.httpShape p.target = .scalar := by simp only [World.httpShape, hs]
    obtain ⟨h0, v', h1, h2⟩ := document_payload (cls := cls) hw hs hok hroot
    refine ⟨rfl, .write .document (.member cls p.name) (.document d), by simp only [Model.memberCall, hs, Simple.method], fun all i hi =>
      ⟨(w.member p, .other i), by simp only [World.toWrite, Call.schema, hfind, hl, hsh], rfl, fun h => absurd rfl h, fun _ =>
        ⟨_, .inr (.inr ⟨by rw [hsh]; simp, by rw [hsh]; simp, by rw [hsh]; simp, ?_, h0⟩), v', ?_, h2⟩⟩⟩
    · simp [World.env, bodyCalls, hi, Model.jsonCall, Model.writeJson]
    · rw [if_neg (by rw [hsh]; simp)]
      exact h1
  | value hs h3 =>
    obtain ⟨hsh, hdoc⟩ := httpShape_structured hs
    obtain ⟨c, hc, hcs, hcw, jc, hj, hnn, hr⟩ := core hw.names hw.fits hw.view n _ _ v htgt h3 hd
    obtain ⟨j, h4, h5, _⟩ := Json.C43_well_formed_partial w.st hw.settings jc hnn
    obtain ⟨-, hread⟩ := hr j h5
    obtain ⟨v', h6, h7⟩ := hread [] [] (2 * (Json.events [] j).length + 4) (fun h => absurd h hdoc) (by
      have := Json.size_events j []
      omega)
    rw [List.append_nil] at h6
    have hsh1 : w.httpShape p.target ≠ .blob := by rintro h; rw [h] at hsh; simp at hsh
    have hsh2 : w.httpShape p.target ≠ .string := by rintro h; rw [h] at hsh; simp at hsh
    have hsh3 : w.httpShape p.target ≠ .enum := by rintro h; rw [h] at hsh; simp at hsh
    refine ⟨typed_notNone h3, c, hc, fun all i hi => ⟨(w.member p, .other i), ?_, rfl, fun h => absurd rfl h, fun _ =>
      ⟨utf8 (Json.write w.st [] jc), .inr (.inr ⟨hsh1, hsh2, hsh3, ?_, ?_⟩), v', ?_, h7⟩⟩⟩
    · simp only [World.toWrite, hcs, hfind, hl]
      rcases hsh with h | h | h | h <;> simp only [h]
    · simp [World.env, bodyCalls, hi, hj]
    · intro h0
      have := utf8_inj (h0.trans utf8_nil.symm)
      rw [this] at h4
      exact not_jsonText_nil h4
    · rw [if_neg (by rintro (h | h); exacts [hsh1 h, hsh2 h])]
      simp only [World.readSource, World.readDocument, hw.parse _ _ h4, h6]

/-- All calls, one after the other. -/
theorem toWrites_each {R : GMember → Http.Member × Val → Prop} (all : List (Call Double DateTime)) :
    ∀ (xs : List GMember) (cs pre : List (Call Double DateTime)), all = pre ++ cs →
    List.Forall₂ (fun x c => ∀ i, all[i]? = some c → ∃ u, w.toWrite cls i c = .ok u ∧ R x u) xs cs →
    ∃ ws, w.toWrites cls pre.length cs = .ok ws ∧ List.Forall₂ R xs ws
  | [], _, pre, _, .nil => ⟨[], rfl, .nil⟩
  | x :: xs, c :: cs, pre, hall, .cons h hrest => by
    obtain ⟨ws, h1, h2⟩ := toWrites_each all xs cs (pre ++ [c]) (by simp [hall]) hrest
    rw [List.length_append, List.length_singleton] at h1
    obtain ⟨u, hu, hp⟩ := h pre.length (by rw [hall]; simp)
    exact ⟨u :: ws, by simp only [World.toWrites, hu, h1], .cons hp h2⟩

theorem sent_fst {env : Http.Env} {value : GMember → P} : ∀ {xs : List GMember} {ws : List (Http.Member × Val)},
    List.Forall₂ (fun x u => Sent w cls p env x (value x) u) xs ws → ws.map Prod.fst = xs.map w.member
  | [], _, .nil => rfl
  | _ :: _, _, .cons h hs => by rw [List.map_cons, List.map_cons, h.1, sent_fst hs]

theorem namesOf_sent (hb : w.Carries cls p) {env : Http.Env} {x : GMember} {v : P} {u : Http.Member × Val}
    (hp : Sent w cls p env x v u) : ∀ n ∈ namesOf matchResponse u, (w.traits x).header = some n ∨
      ∃ q key, (w.traits x).prefixHeaders = some q ∧ n = q ++ key := by
  by_cases hne : x = p
  · obtain ⟨m, val⟩ := u
    obtain ⟨rfl, -, -⟩ := hp
    intro n hn
    rw [hne] at hn
    simp [namesOf, headersOf, carries_loc hb] at hn
  · exact namesOf_placed (hp.2.1 hne)

theorem write_sent (hb : w.Carries cls p) {env : Http.Env} {x : GMember} {v : P} {u : Http.Member × Val}
    (hp : Sent w cls p env x v u) (a : Http.Parts) : ∃ a', a.writeResponse u.1 u.2 = .ok a' := by
  by_cases hne : x = p
  · rw [hp.1, hne]
    unfold Http.Parts.writeResponse
    rw [carries_loc hb]
    exact ⟨_, rfl⟩
  · exact write_ok (hp.2.1 hne) a

/-- The calls for members other than the payload. -/
theorem side_calls (hw : w.Ok nearest) (hb : w.Carries cls p) {errorStatus : Option Text} {code : Text} {omitEmpty : Bool}
    {env : Http.Env} (hlow : env.lower = w.lower) {value : GMember → P} {xs : List GMember} {ws : List (Http.Member × Val)}
    (hxs : ∀ x ∈ xs, x ∈ w.model.members cls) (hnd : xs.Nodup)
    (hws : List.Forall₂ (fun x u => Sent w cls p env x (value x) u) xs ws) {r : Response} {bytes : Bytes}
    (hr : serializeResponse env errorStatus code omitEmpty (w.members cls) ws = .ok r) {body : Option Content}
    {calls : List (Http.Member × Source P)}
    (hread : readStruct (w.renv cls) (received r bytes) body (w.members cls) = .ok calls)
    (hnv : ∀ u ∈ calls, ∀ v, u.2 ≠ .value v) {x : GMember} (hx : x ∈ w.model.members cls) (hxp : x ≠ p) :
    (x ∈ xs → ∃ v, Same (value x) v ∧ (∃ src, (w.member x, src) ∈ calls) ∧
      ∀ src, (w.member x, src) ∈ calls → w.readSource cls x src = .ok v) ∧
    (x ∉ xs → matchResponse (w.member x) ≠ .status → matchResponse (w.member x) ≠ .prefixHeaders →
      ∀ src, (w.member x, src) ∉ calls) := by
  have hmem : w.member x ∈ w.members cls := List.mem_map_of_mem hx
  have hnodup : (ws.map Prod.fst).Nodup := by
    rw [sent_fst hws]
    exact hnd.map_on fun a ha b hb' h => member_inj hw (hxs a ha) (hxs b hb') h
  have halone : ∀ pre post v, ws = pre ++ (w.member x, v) :: post → ∀ u ∈ pre ++ post, u.1 ≠ w.member x := by
    rintro pre post v rfl u hu he
    rw [List.map_append, List.map_cons] at hnodup
    have hn' := (List.nodup_middle.1 hnodup)
    rw [List.nodup_cons, ← List.map_append] at hn'
    exact hn'.1 (List.mem_map.2 ⟨u, hu, he⟩)
  have hother : ∀ u ∈ ws, u.1 ≠ w.member x → ∀ k, (w.traits x).header = some k →
      ∀ a ∈ namesOf matchResponse u, env.lower a ≠ env.lower k := by
    intro u hu hne k hk a ha hlower
    obtain ⟨y, hy, hp⟩ := forall₂_right hws u hu
    rw [hlow] at hlower
    rcases namesOf_sent hb hp a ha with hy' | ⟨p, key, hy', rfl⟩
    swap
    · obtain ⟨hcw, -, h2, -⟩ := hb.prefixes y (hxs y hy) p hy'
      refine h2 x hx k hk ?_
      rw [← hlower]
      exact lower_prefix hcw p key
    have := hb.headers y (hxs y hy) x hx a k hy' hk hlower
    exact hne (by rw [hp.1, this])
  have hown : ∀ k, (w.traits x).header = some k → ∀ a ∈ ownNames, env.lower a ≠ env.lower k := by
    intro k hk a ha
    obtain ⟨h1, h2⟩ := hb.own x hx k hk
    rw [hlow]
    simp only [ownNames, List.mem_cons, List.not_mem_nil, or_false] at ha
    rcases ha with rfl | rfl
    · exact fun e => h1 e.symm
    · exact fun e => h2 e.symm
  constructor
  · intro hxw
    obtain ⟨u, hu, hsent⟩ := forall₂_left hws x hxw
    obtain ⟨m, val⟩ := u
    obtain ⟨rfl, hp⟩ := hsent.2.1 hxp
    obtain ⟨pre, post, hsplit⟩ := List.append_of_mem hu
    have hal := halone pre post val hsplit
    have hal' : ∀ k, (w.traits x).header = some k → ∀ u ∈ pre ++ post, ∀ a ∈ namesOf matchResponse u, env.lower a ≠ env.lower k :=
      fun k hk u hu' => hother u (by rw [hsplit]; simp only [List.mem_append, List.mem_cons] at hu' ⊢; tauto) (hal u hu') k hk
    have hhead : matchResponse (w.member x) = .header → ∃ k, (w.traits x).header = some k := header_some
    rcases hp with ⟨hl, i, rfl⟩ | ⟨hl, hsh, t, v', rfl, hrd, hsame⟩ | ⟨hl, hsh, ts, v', rfl, hne, hrd, hsame⟩ |
      ⟨hl, hsh, t, v', rfl, hrd, hsame⟩ | ⟨hl, kvs, v', rfl, hnd', hrd, hsame⟩
    · exact absurd hl (carries_nobody hb _ hmem)
    · obtain ⟨k, hk⟩ := hhead hl
      have h := (C80_header env (w.renv cls) hlow.symm errorStatus code omitEmpty _ ws r hr matchResponse locates bytes body calls
        hread (w.member x) hmem hl k hk (hown k hk)).1 pre post t hsplit hsh (hal' k hk)
      refine ⟨v', hsame, ⟨.header t, (h _ (by simp)).2 rfl⟩, fun src hc => ?_⟩
      rw [(h src (hnv _ hc)).1 hc, hrd]
    · obtain ⟨k, hk⟩ := hhead hl
      have h := (C80_header env (w.renv cls) hlow.symm errorStatus code omitEmpty _ ws r hr matchResponse locates bytes body calls
        hread (w.member x) hmem hl k hk (hown k hk)).2.1 pre post ts hsplit hsh hne (hal' k hk)
      refine ⟨v', hsame, ⟨.headerList ts, (h _ (by simp)).2 rfl⟩, fun src hc => ?_⟩
      rw [(h src (hnv _ hc)).1 hc, hrd]
    · have h := (C80_status env (w.renv cls) errorStatus code omitEmpty _ ws r hr matchResponse locates bytes body calls
        hread (w.member x) hmem hl).1 pre post t hsplit (by
          intro u hu' hl'
          have huw : u ∈ ws := by rw [hsplit]; simp [hu']
          obtain ⟨y, hy, hp⟩ := forall₂_right hws u huw
          rw [hp.1] at hl'
          have hyx : y = x := hb.status y (hxs y hy) x hx (status_code hl') (status_code hl)
          exact hal u (by simp [hu']) (by rw [hp.1, hyx]))
      refine ⟨v', hsame, ⟨.status t, (h _ (by simp)).2 rfl⟩, fun src hc => ?_⟩
      rw [(h src (hnv _ hc)).1 hc, hrd]
    · obtain ⟨q, hp⟩ := prefix_some hl
      obtain ⟨hcw, h1, h2, h3, h4⟩ := hb.prefixes x hx q hp
      have h := (C80_prefix_headers env (w.renv cls) hlow.symm (hlow ▸ hcw) errorStatus code omitEmpty _ ws r hr matchResponse locates
        bytes body calls hread (w.member x) hmem hl q hp (by
          intro a ha
          rw [hlow]
          simp only [ownNames, List.mem_cons, List.not_mem_nil, or_false] at ha
          rcases ha with rfl | rfl
          · exact h3
          · exact h4)).1 pre post kvs hsplit (by rw [hlow]; exact hnd') (by
          intro u hu' a ha
          have huw : u ∈ ws := by
            rw [hsplit]
            simp only [List.mem_append, List.mem_cons] at hu' ⊢
            tauto
          obtain ⟨y, hy, hpl⟩ := forall₂_right hws u huw
          rw [hlow]
          rcases namesOf_sent hb hpl a ha with hy' | ⟨p', key, hy', rfl⟩
          · exact h2 y (hxs y hy) a hy'
          · exact absurd (by rw [hpl.1, h1 y (hxs y hy) (by rw [hy']; simp)]) (hal u hu'))
      refine ⟨v', hsame, ⟨.headerMap kvs, (h _ (by simp)).2 rfl⟩, fun src hc => ?_⟩
      rw [(h src (hnv _ hc)).1 hc, hrd]
  · intro hxw hst hpx src hc
    rcases carries_others hb hx hxp with ⟨_, h⟩ | ⟨_, k, hk, hl⟩ | ⟨_, _, _, hl⟩
    · exact hst h
    · refine (C80_header env (w.renv cls) hlow.symm errorStatus code omitEmpty _ ws r hr matchResponse locates bytes body calls
        hread (w.member x) hmem hl k hk (hown k hk)).2.2 (fun u hu => hother u hu ?_ k hk) src
          (hnv _ hc) hc
      intro he
      obtain ⟨y, hy, hp⟩ := forall₂_right hws u hu
      exact hxw (member_inj hw (hxs y hy) hx (hp.1.symm.trans he) ▸ hy)
    · exact hpx hl

theorem carries_matcher (hb : w.Carries cls p) : (Matcher.of matchResponse (w.members cls)).eventStream = none ∧
    (Matcher.of matchResponse (w.members cls)).payloadMember = some (w.member p) ∧
    (Matcher.of matchResponse (w.members cls)).hasBody = false := by
  obtain ⟨h1, -, h3⟩ := add_spec matchResponse (w.members cls) {}
  refine ⟨h3 (carries_stream hb), payloadMember_unique matchResponse _ _ {} (carries_payload hb)
    (.inl ⟨_, List.mem_map_of_mem hb.member, carries_loc hb⟩), ?_⟩
  cases h : (Matcher.of matchResponse (w.members cls)).hasBody with
  | false => rfl
  | true =>
    rcases h1.1 h with h | ⟨m, hm, hl⟩
    · cases h
    · rcases hl with hl | hl
      · exact absurd hl (carries_nobody hb m hm)
      · exfalso
        unfold matchResponse at hl
        repeat' split at hl
        all_goals cases hl

/-- The body is what is written for the payload. -/
theorem bodyOf_sent (hb : w.Carries cls p) {ws : List (Http.Member × Val)} (hws : ∀ u ∈ ws, u.1 ∈ w.members cls) :
    bodyOf matchResponse ws = ws.filter fun u => u.1 = w.member p := by
  refine List.filter_congr fun u hu => ?_
  have g1 := carries_nobody hb u.1 (hws u hu)
  have g2 : matchResponse u.1 ≠ .host := by
    unfold matchResponse
    repeat' split
    all_goals simp
  by_cases hm : u.1 = w.member p
  · simp [hm, carries_loc hb]
  · have : matchResponse u.1 ≠ .payload := fun h => hm (carries_payload hb u.1 (hws u hu) h)
    simp [g1, g2, hm, this]

theorem filter_single {A B : Type} [DecidableEq A] {m : A} {v : B} : ∀ {ws : List (A × B)}, (ws.map Prod.fst).Nodup → (m, v) ∈ ws →
    (ws.filter fun u => u.1 = m) = [(m, v)]
  | [], _, h => nomatch h
  | (m', v') :: ws, hn, h => by
    rw [List.map_cons, List.nodup_cons] at hn
    rcases List.mem_cons.1 h with he | h
    · cases he
      rw [List.filter_cons, if_pos (by simp), List.filter_eq_nil_iff.2]
      intro u hu
      have : u.1 ≠ m := fun he => hn.1 (List.mem_map.2 ⟨u, hu, he⟩)
      simpa using this
    · have : m' ≠ m := fun he => hn.1 (List.mem_map.2 ⟨(m, v), h, he.symm⟩)
      rw [List.filter_cons, if_neg (by simpa using this)]
      exact filter_single hn.2 h

/-- If there is a payload of known length the response is made. -/
theorem serialize_sent (hw : w.Ok nearest) {env : Http.Env} (hlow : env.lower = w.lower) (errorStatus : Option Text) (code : Text)
    (omitEmpty : Bool) {ws : List (Http.Member × Val)} (hwr : ∀ u ∈ ws, ∀ a : Http.Parts, ∃ a', a.writeResponse u.1 u.2 = .ok a')
    (hcl : ∀ u ∈ ws, ∀ a ∈ namesOf matchResponse u, env.lower a ≠ env.lower "content-length".toList) {bytes : Bytes}
    {ct : Option Text} {req : Bool}
    (hpay : payloadOf env (Matcher.of matchResponse (w.members cls)) (fun s => s = .blob || s = .string) omitEmpty
      (bodyOf matchResponse ws) = .ok (.bytes bytes, ct, some bytes.length, req)) :
    ∃ r, serializeResponse env errorStatus code omitEmpty (w.members cls) ws = .ok r ∧ r.body = .bytes bytes ∧
      r.fields = toFields env (headersOf matchResponse ws ++ extraHeaders env ct (some bytes.length)) := by
  obtain ⟨a, ha⟩ := writeAll_ok ws hwr {}
  obtain ⟨h1, h2, -⟩ := Http.writeAll_response ws {} a ha
  simp only [List.nil_append] at h1 h2
  have hlen : fieldValues env.lower (toFields env (headersOf matchResponse ws ++ extraHeaders env ct (some bytes.length)))
      "content-length".toList = [env.natText bytes.length] :=
    length_written (r := ⟨_, [], .events⟩) (by rw [hlow]; exact hw.lower) rfl hcl
  have hhas : hasField env (toFields env (headersOf matchResponse ws ++ extraHeaders env ct (some bytes.length)))
      "content-length".toList = true := by
    obtain ⟨f, hf, he⟩ := mem_of_fieldValues _ _ _ (fun h => List.cons_ne_nil _ _ (hlen.symm.trans h))
    exact List.any_eq_true.2 ⟨f, hf, decide_eq_true he⟩
  unfold serializeResponse
  simp only [ha, h1, h2, hpay, hhas, Bool.not_true, Bool.and_false, Bool.false_eq_true, if_false]
  exact ⟨_, rfl, rfl, rfl⟩

/-- The consumer is called for members of the class, and no values come from the codec. -/
theorem read_sent (hb : w.Carries cls p) {r : Incoming} {body : Option Content} {b : Bytes} (hbody : body.getD r.body = .bytes b)
    {e : Bool} (he : Http.Reading.hasEmptyBody (w.renv cls) r body = .ok e) :
    ∃ calls, readStruct (w.renv cls) r body (w.members cls) = .ok calls ∧
      ∀ u ∈ calls, u.1 ∈ w.members cls ∧ ∀ v, u.2 ≠ .value v := by
  obtain ⟨e1, e2, e3⟩ := carries_matcher hb
  have hone : ∀ m ∈ w.members cls, ∃ c, readMember (w.renv cls) r body (Matcher.of matchResponse (w.members cls)) m = .ok c ∧
      ∀ u ∈ c, u.1 ∈ w.members cls ∧ ∀ v, u.2 ≠ .value v := by
    intro m hm
    unfold readMember
    cases hl : matchResponse m with
    | payload =>
      simp only [e1, e2]
      obtain ⟨s, hs⟩ : ∃ s, Http.Reading.shouldReadPayload (w.renv cls) r body (w.member p) = .ok s := by
        unfold Http.Reading.shouldReadPayload
        split
        · rw [he]; exact ⟨_, rfl⟩
        · exact ⟨_, rfl⟩
      rw [hs]
      cases s with
      | false => exact ⟨[], rfl, by simp⟩
      | true =>
        simp only [Http.Reading.payloadSource, Http.Reading.bodyBytes, hbody]
        split
        · exact ⟨_, rfl, by simp [World.members]; exact ⟨p, hb.member, rfl⟩⟩
        · exact ⟨_, rfl, by simp [World.members]; exact ⟨p, hb.member, rfl⟩⟩
    | header =>
      simp only
      cases Http.Reading.find (w.renv cls) r.fields (m.header.getD []) with
      | none => exact ⟨[], rfl, by simp⟩
      | some f =>
        simp only
        by_cases hs : m.shape = .list
        · rw [if_pos hs]; exact ⟨_, rfl, by simp [hm]⟩
        · rw [if_neg hs]; exact ⟨_, rfl, by simp [hm]⟩
    | prefixHeaders => exact ⟨_, rfl, by simp [hm]⟩
    | status => exact ⟨_, rfl, by simp [hm]⟩
    | _ => exact ⟨[], rfl, by simp⟩
  have hall : ∀ ms : List Http.Member, (∀ m ∈ ms, m ∈ w.members cls) →
      ∃ cs, readMembers (w.renv cls) r body (Matcher.of matchResponse (w.members cls)) ms = .ok cs ∧
        ∀ u ∈ cs, u.1 ∈ w.members cls ∧ ∀ v, u.2 ≠ .value v := by
    intro ms
    induction ms with
    | nil => exact fun _ => ⟨[], rfl, by simp⟩
    | cons m ms ih =>
      intro h
      obtain ⟨cs, h1, h2⟩ := ih fun x hx => h x (List.mem_cons_of_mem _ hx)
      obtain ⟨c, h3, h4⟩ := hone m (h m List.mem_cons_self)
      refine ⟨c ++ cs, by simp only [readMembers, h3, h1], fun u hu => ?_⟩
      rcases List.mem_append.1 hu with hu | hu
      · exact h4 u hu
      · exact h2 u hu
  obtain ⟨cs, h1, h2⟩ := hall (w.members cls) fun _ h => h
  refine ⟨cs ++ [], ?_, by simpa using h2⟩
  unfold readStruct
  simp only [h1, readBody, e3, Bool.false_eq_true, if_false]

/-- The output with a payload, and the length that the response has. -/
theorem payload_core (hw : w.Ok nearest) (hb : w.Carries cls p) {ms : List GMember}
    (hs : w.model.shape cls = some (.struct ms)) {value : GMember → P} (hx : ∀ x ∈ ms, x ≠ p → Field w nearest cls x (value x))
    (hp : PayloadOk w cls p (value p)) {v : P}
    (hv : v = .object cls ((w.model.attributes ms).map fun x => (x.attr, value x))) {n : Nat} (hn : v.depth ≤ n)
    (errorStatus : Option Text) (code : Text) (omitEmpty : Bool) :
    ∃ r bytes, w.respond n cls v errorStatus code omitEmpty = .ok r ∧ r.body = .bytes bytes ∧
      (∀ b, value p = .bytes b → bytes = b.map UInt8.ofFin) ∧ (∀ t, value p = .str t → bytes = utf8 t) ∧
      Fields.Distinct w.lower r.fields ∧ fieldValues w.lower r.fields "content-length".toList = [natText bytes.length] ∧
      ∀ body, body = none ∨ body = some (.bytes bytes) →
      ∃ v', w.receive cls (received r bytes) body = .ok v' ∧ Same v v' := by
  subst hv
  have hms : w.model.members cls = ms := by simp only [Model.members, hs]
  have hpm : p ∈ ms := hms ▸ hb.member
  have hstr : ∀ x ∈ ms, w.model.isStream x = false := fun x h => hb.streams x (hms ▸ h)
  have hattr : ∀ x, x ∈ w.model.attributes ms ↔ x ∈ ms := fun x =>
    mem_attributes.trans ⟨fun h => h.1, fun h => ⟨h, hstr x h⟩⟩
  simp only [Py.depth] at hn
  obtain ⟨n, rfl⟩ : ∃ n', n = n' + 1 := ⟨n - 1, by omega⟩
  have hdepth : ∀ x ∈ ms, (value x).depth ≤ n := by
    intro x h
    have := depth_entry _ _ (List.mem_map_of_mem (f := fun x => (x.attr, value x)) ((hattr x).2 h))
    simp only at this
    omega
  have hlook : ∀ x ∈ ms, ((w.model.attributes ms).map fun x => (x.attr, value x)).lookup x.attr = some (value x) := fun x h =>
    lookup_field _ x ((hattr x).2 h) fun y hy he => attr_inj ms (hw.names.attrs cls ms hs) x h y ((hattr y).1 hy) he
  -- an attribute that is left out
  have habs : ∀ x ∈ ms, value x = .none → x.nullable = true ∧ (x.default = none ∨ (x.default = some .none ∧
      w.model.shape x.target ≠ some (.simple .document))) ∧ (x ≠ p → (w.traits x).responseCode = false ∧
        (w.traits x).prefixHeaders = none) := by
    intro x h hnone
    by_cases hxp : x = p
    · subst hxp
      rw [hnone] at hp
      cases hp with
      | value _ h => exact absurd (typed_notNone h) (by simp [Py.isNone])
      | absent h1 h2 h3 =>
        exact ⟨h2, h3.imp id fun h => ⟨h, (httpShape_structured h1).2⟩, fun h => absurd rfl h⟩
    · have hf := hx x h hxp
      rw [hnone] at hf
      cases hf with
      | absent h1 h2 h3 h4 => exact ⟨h1, h2, fun _ => ⟨h3, h4⟩⟩
      | body _ _ _ h => exact absurd (typed_notNone h) (by simp [Py.isNone])
      | header _ _ h => cases h
  have hwr : ∀ x ∈ ms, value x ≠ .none → (value x).isNone = false ∧
      ∃ c, w.model.memberCall n x.target (.member cls x.name) (value x) = .ok c ∧
        ∀ (all : List (Call Double DateTime)) (i : Nat), all[i]? = some c →
          ∃ u, w.toWrite cls i c = .ok u ∧ Sent w cls p (w.env all) x (value x) u := by
    intro x h hne
    by_cases hxp : x = p
    · subst hxp
      exact payload_write hw hb hp hne (hdepth x h)
    · obtain ⟨h1, c, h2, -, h3⟩ := field_write hw hs h (fun g1 g2 g3 => by
        rcases hb.others x (hms ▸ h) hxp with h' | h' | h'
        · rw [g1] at h'; cases h'
        · exact absurd g2 h'
        · exact absurd g3 h') (hx x h hxp) hne (hdepth x h)
      refine ⟨h1, c, h2, fun all i _ => ?_⟩
      obtain ⟨u, hu, hpl⟩ := h3 i
      exact ⟨u, hu, hpl.1, fun _ => hpl, fun h => absurd h hxp⟩
  -- what is written
  obtain ⟨cs, hcs, hcall⟩ := fieldCalls_ok (w := w) (value := value)
    (call := fun x v => w.model.memberCall n x.target (.member cls x.name) v)
    (fields := (w.model.attributes ms).map fun x => (x.attr, value x)) ms (by
      intro x h
      refine ⟨hstr x h, hlook x h, ?_⟩
      by_cases hne : value x = .none
      · refine .inl ⟨?_, hne⟩
        obtain ⟨hnull, hdef, -⟩ := habs x h hne
        rcases hdef with hdef | ⟨hdef, hdoc⟩
        · simp [Model.mayBeNone, hnull, hdef]
        · unfold Model.mayBeNone
          split
          · rename_i h; exact absurd h hdoc
          · simp [hnull]
      · obtain ⟨h1, c, h2, _⟩ := hwr x h hne
        exact .inr ⟨h1, c, h2⟩)
  obtain ⟨xs, hxs⟩ : ∃ xs, xs = ms.filter fun x => !(value x).isNone := ⟨_, rfl⟩
  rw [← hxs] at hcall
  have hin : ∀ x ∈ xs, x ∈ ms ∧ value x ≠ .none := by
    intro x h
    rw [hxs, List.mem_filter] at h
    refine ⟨h.1, fun he => ?_⟩
    rw [he] at h
    exact absurd h.2 (by simp [Py.isNone])
  have hout : ∀ x ∈ ms, x ∉ xs → value x = .none := by
    intro x h hno
    by_contra hne
    refine hno ?_
    rw [hxs, List.mem_filter]
    exact ⟨h, by rw [(hwr x h hne).1]; rfl⟩
  have hnd : ms.Nodup := List.Nodup.of_map _ (hw.names.attrs cls ms hs)
  have hxnd : xs.Nodup := hxs ▸ hnd.filter _
  have hxm : ∀ x ∈ xs, x ∈ w.model.members cls := fun x h => hms ▸ (hin x h).1
  obtain ⟨ws, hws, hsent⟩ := toWrites_each (w := w) (cls := cls) (R := fun x u => Sent w cls p (w.env cs) x (value x) u) cs xs cs [] rfl
    (forall₂_imp hcall fun x h c hc => by
      obtain ⟨_, c', h1, h2⟩ := hwr x (hin x h).1 (hin x h).2
      rw [hc] at h1
      cases h1
      exact h2 cs)
  have hwsm : ∀ u ∈ ws, u.1 ∈ w.members cls := by
    intro u hu
    obtain ⟨x, h, hp⟩ := forall₂_right hsent u hu
    rw [hp.1]
    exact List.mem_map_of_mem (hxm x h)
  have hnodup : (ws.map Prod.fst).Nodup := by
    rw [sent_fst hsent]
    exact hxnd.map_on fun a ha b hb' h => member_inj hw (hxm a ha) (hxm b hb') h
  have hcl : ∀ u ∈ ws, ∀ a ∈ namesOf matchResponse u, (w.env cs).lower a ≠ (w.env cs).lower "content-length".toList := by
    intro u hu a ha
    obtain ⟨x, h, hp⟩ := forall₂_right hsent u hu
    rcases namesOf_sent hb hp a ha with h' | ⟨q, key, h', rfl⟩
    · exact (hb.own x (hxm x h) a h').2
    · obtain ⟨hcw, -, -, -, h4⟩ := hb.prefixes x (hxm x h) q h'
      intro he
      refine h4 ?_
      rw [show w.lower "content-length".toList = w.lower (q ++ key) from he.symm]
      exact lower_prefix hcw q key
  obtain ⟨e1, e2, e3⟩ := carries_matcher hb
  have hshape : (w.member p).shape = w.httpShape p.target := rfl
  -- the body
  obtain ⟨bytes, ct, req, hpay, hblob, htext, hback⟩ : ∃ bytes ct req, payloadOf (w.env cs) (Matcher.of matchResponse (w.members cls))
      (fun s => s = .blob || s = .string) omitEmpty (bodyOf matchResponse ws) = .ok (.bytes bytes, ct, some bytes.length, req) ∧
      (∀ b, value p = .bytes b → bytes = b.map UInt8.ofFin) ∧ (∀ t, value p = .str t → bytes = utf8 t) ∧
      ((p ∈ xs ∧ ∃ u, (w.member p, u) ∈ ws ∧ ((w.httpShape p.target = .blob ∧ u = .blob bytes) ∨
          (w.httpShape p.target = .string ∧ ∃ t, u = .text t ∧ bytes = (w.env cs).utf8 t) ∨
          (w.httpShape p.target ≠ .blob ∧ w.httpShape p.target ≠ .string ∧ w.httpShape p.target ≠ .enum ∧
            bytes = (w.env cs).encodeValues [(w.member p, u)] ∧ bytes ≠ [])) ∧
          ∃ v', w.readSource cls p (if w.httpShape p.target = .blob ∨ w.httpShape p.target = .string then .raw (.bytes bytes)
            else .document bytes) = .ok v' ∧ Same (value p) v') ∨
        (p ∉ xs ∧ bytes = [] ∧ (w.httpShape p.target = .list ∨ w.httpShape p.target = .map ∨ w.httpShape p.target = .union ∨
          w.httpShape p.target = .structure))) := by
    rw [bodyOf_sent hb hwsm]
    by_cases hpx : p ∈ xs
    · obtain ⟨⟨m, u⟩, hu, hm, -, hsp⟩ := forall₂_left hsent p hpx
      simp only at hm
      subst hm
      obtain ⟨bytes, hbytes, hrb⟩ := hsp rfl
      simp only at hbytes hrb
      have hpv : (∃ b, value p = .bytes b) → w.httpShape p.target = .blob := by
        rintro ⟨b, he⟩
        rw [he] at hp
        cases hp with
        | blob h => simp only [World.httpShape, h]
        | value h1 h2 => cases h2 with
          | blob h => simp only [World.httpShape, h]
      have hpv' : (∃ t, value p = .str t) → w.httpShape p.target = .string := by
        rintro ⟨b, he⟩
        rw [he] at hp
        cases hp with
        | string h => simp only [World.httpShape, h]
        | value h1 h2 => cases h2 with
          | string h => simp only [World.httpShape, h]
      rw [filter_single hnodup hu]
      rcases hbytes with ⟨hsh, rfl, h3⟩ | ⟨hsh, ⟨t, rfl, rfl⟩, h3⟩ | ⟨h1, h2, h3, rfl, h5⟩
      · obtain ⟨ct, req, hpo⟩ : ∃ ct req, payloadOf (w.env cs) (Matcher.of matchResponse (w.members cls)) (fun s => s = .blob || s = .string)
            omitEmpty [(w.member p, .blob bytes)] = .ok (.bytes bytes, ct, some bytes.length, req) := by
          simp only [payloadOf, e1, e2, hshape, hsh, decide_true, Bool.true_or, if_true, rawPayload_blob, Option.getD_some, Http.sizeOf]
          exact ⟨_, _, rfl⟩
        refine ⟨bytes, ct, req, hpo, h3, fun t ht => ?_, .inl ⟨hpx, _, hu, .inl ⟨hsh, rfl⟩, hrb⟩⟩
        rw [hpv' ⟨t, ht⟩] at hsh; cases hsh
      · obtain ⟨ct, req, hpo⟩ : ∃ ct req, payloadOf (w.env cs) (Matcher.of matchResponse (w.members cls)) (fun s => s = .blob || s = .string)
            omitEmpty [(w.member p, .text t)] = .ok (.bytes ((w.env cs).utf8 t), ct, some ((w.env cs).utf8 t).length, req) := by
          simp only [payloadOf, e1, e2, hshape, hsh, decide_true, Bool.or_true, if_true, rawPayload_text, Http.Shape.isString,
            Option.getD_some, Http.sizeOf]
          exact ⟨_, _, rfl⟩
        refine ⟨_, ct, req, hpo, fun b hb' => ?_, h3, .inl ⟨hpx, _, hu, .inr (.inl ⟨hsh, _, rfl, rfl⟩), hrb⟩⟩
        rw [hpv ⟨b, hb'⟩] at hsh; cases hsh
      · obtain ⟨ct, req, hpo⟩ : ∃ ct req, payloadOf (w.env cs) (Matcher.of matchResponse (w.members cls)) (fun s => s = .blob || s = .string)
            omitEmpty [(w.member p, u)] = .ok (.bytes ((w.env cs).encodeValues [(w.member p, u)]), ct,
              some ((w.env cs).encodeValues [(w.member p, u)]).length, req) := by
          simp only [payloadOf, e1, e2, hshape, h1, h2, decide_false, Bool.or_false, Bool.false_eq_true, if_false]
          exact ⟨_, _, rfl⟩
        exact ⟨_, ct, req, hpo, fun b hb' => absurd (hpv ⟨b, hb'⟩) h1, fun t ht => absurd (hpv' ⟨t, ht⟩) h2,
          .inl ⟨hpx, _, hu, .inr (.inr ⟨h1, h2, h3, rfl, h5⟩), hrb⟩⟩
    · have hnone := hout p hpm hpx
      have hsh : w.httpShape p.target = .list ∨ w.httpShape p.target = .map ∨ w.httpShape p.target = .union ∨
          w.httpShape p.target = .structure := by
        rw [hnone] at hp
        cases hp with
        | value _ h => exact absurd (typed_notNone h) (by simp [Py.isNone])
        | absent h1 => exact (httpShape_structured h1).1
      have hfil : (ws.filter fun u => u.1 = w.member p) = [] := by
        refine List.filter_eq_nil_iff.2 fun u hu he => ?_
        obtain ⟨x, h, hs'⟩ := forall₂_right hsent u hu
        have he : u.1 = w.member p := by simpa using he
        exact hpx (member_inj hw (hxm x h) hb.member (hs'.1.symm.trans he) ▸ h)
      rw [hfil]
      have h1 : w.httpShape p.target ≠ .blob := by rintro h; rw [h] at hsh; simp at hsh
      have h2 : w.httpShape p.target ≠ .string := by rintro h; rw [h] at hsh; simp at hsh
      obtain ⟨ct, req, hpo⟩ : ∃ ct req, payloadOf (w.env cs) (Matcher.of matchResponse (w.members cls))
          (fun s => s = .blob || s = .string) omitEmpty [] = .ok (.bytes [], ct, some ([] : Bytes).length, req) := by
        simp only [payloadOf, e1, e2, hshape, h1, h2, decide_false, Bool.or_false, Bool.false_eq_true, if_false]
        exact ⟨_, _, rfl⟩
      exact ⟨[], ct, req, hpo, fun b hb' => (by rw [hnone] at hb'; cases hb'), fun b hb' => (by rw [hnone] at hb'; cases hb'),
        .inr ⟨hpx, rfl, hsh⟩⟩
  obtain ⟨r, hr, hbytes, hfields⟩ := serialize_sent (cls := cls) hw (env := w.env cs) rfl errorStatus code omitEmpty (fun u hu a => by
    obtain ⟨x, h, hp⟩ := forall₂_right hsent u hu
    exact write_sent hb hp a) hcl hpay
  have hrespond : w.respond (n + 1) cls (.object cls ((w.model.attributes ms).map fun x => (x.attr, value x)))
      errorStatus code omitEmpty = .ok r := by
    unfold World.respond Model.serialize
    simp only [Model.memberCall, hs, hcs]
    simp only [List.length_nil] at hws
    rw [hws]
    simp only [hr]
  have hd : Fields.Distinct w.lower r.fields := fields_distinct hr
  have hlen : fieldValues w.lower r.fields "content-length".toList = [natText bytes.length] :=
    length_written (env := w.env cs) hw.lower hfields hcl
  refine ⟨r, bytes, hrespond, hbytes, hblob, htext, hd, hlen, fun body hbody => ?_⟩
  have hgetD : body.getD (received r bytes).body = .bytes bytes := by rcases hbody with rfl | rfl <;> rfl
  obtain ⟨e, hempty⟩ : ∃ e, Http.Reading.hasEmptyBody (w.renv cls) (received r bytes) body = .ok e := by
    unfold Http.Reading.hasEmptyBody
    rcases find_spec (w.renv cls) (received r bytes).fields hd "content-length".toList with ⟨_, h2⟩ | ⟨f, h1, _, _, h4⟩
    · exfalso
      obtain ⟨f, hf, hfn⟩ := mem_of_fieldValues w.lower r.fields "content-length".toList (by rw [hlen]; simp)
      exact h2 f hf hfn
    · rw [h1]
      have h5 : f.values = [natText bytes.length] := h4.trans hlen
      have h6 : (w.renv cls).int (asString [natText bytes.length]) = some (bytes.length : Int) := hw.int bytes.length
      simp only [h5, h6]
      exact ⟨_, rfl⟩
  obtain ⟨calls, hread, hcalls⟩ := read_sent hb hgetD hempty
  -- the calls
  have hfor : ∀ x ∈ ms, (x ∈ xs → ∃ v, Same (value x) v ∧ (∃ src, (w.member x, src) ∈ calls) ∧
      ∀ src, (w.member x, src) ∈ calls → w.readSource cls x src = .ok v) ∧ (x ∉ xs → ∀ src, (w.member x, src) ∉ calls) := by
    intro x h
    by_cases hxp : x = p
    · subst hxp
      constructor
      · intro hxx
        rcases hback with ⟨-, u, hu, hcase, v', hrd, hsame⟩ | ⟨hno, -⟩
        · obtain ⟨-, hc⟩ := C80_payload_partial (w.env cs) (w.renv cls) rfl hw.lower hw.int errorStatus code omitEmpty
            (w.members cls) ws r hr matchResponse locates (carries_stream hb) hcl (w.member x) (List.mem_map_of_mem hb.member)
            (carries_loc hb) (carries_payload hb) (carries_nobody hb) hwsm u (filter_single hnodup hu) bytes hcase
          have hc := hc body hbody calls hread
          have hval : ∀ v : P, (if (w.member x).shape = .blob ∨ (w.member x).shape = .string then .raw (.bytes bytes)
              else .document bytes : Source P) ≠ .value v := by
            intro v
            split <;> simp
          exact ⟨v', hsame, ⟨_, (hc _ hval).2 rfl⟩, fun src hsrc => by rw [(hc src (hcalls _ hsrc).2).1 hsrc]; exact hrd⟩
        · exact absurd hxx hno
      · intro hno src hsrc
        rcases hback with ⟨hxx, -⟩ | ⟨-, hb0, hsh⟩
        · exact hno hxx
        · have hk := knownEmpty_iff (renv := w.renv cls) (env := w.env cs) rfl hw.lower hw.int hfields hcl body
          rcases (C79_payload (w.renv cls) (received r bytes) hd body (w.members cls) calls hread matchResponse locates
            (w.member x) (List.mem_map_of_mem hb.member) (carries_loc hb) (carries_payload hb) (carries_stream hb) src
            (hcalls _ hsrc).2).1 hsrc with ⟨h1, -⟩ | ⟨-, h2, -⟩
          · rw [hshape] at h1
            rcases hsh with h | h | h | h <;> rw [h] at h1 <;> simp at h1
          · exact h2 ⟨hsh, hk.2 hb0⟩
    · obtain ⟨g1, g2⟩ := side_calls hw hb (env := w.env cs) rfl hxm hxnd hsent hr hread (fun u hu => (hcalls u hu).2)
        (hms ▸ h) hxp
      refine ⟨g1, fun hno => ?_⟩
      obtain ⟨h1, h2⟩ := (habs x h (hout x h hno)).2.2 hxp
      refine g2 hno (fun hl => ?_) fun hl => ?_
      · rw [show (w.traits x).responseCode = true from status_code hl] at h1
        cases h1
      · obtain ⟨q, hq⟩ := prefix_some hl
        rw [show (w.traits x).prefixHeaders = some q from hq] at h2
        cases h2
  have hch : ∀ x, ∃ v, x ∈ xs → Same (value x) v ∧ (∃ src, (w.member x, src) ∈ calls) ∧
      ∀ src, (w.member x, src) ∈ calls → w.readSource cls x src = .ok v := by
    intro x
    by_cases h : x ∈ xs
    · obtain ⟨v, hv⟩ := (hfor x (hin x h).1).1 h
      exact ⟨v, fun _ => hv⟩
    · exact ⟨.none, fun h' => absurd h' h⟩
  choose val hval' using hch
  obtain ⟨kw, hkw, hlk⟩ := consume_ok hw hs (val := val) calls [] (by
    rintro ⟨m, src⟩ hu
    obtain ⟨x, hx', rfl⟩ := List.mem_map.1 (hcalls _ hu).1
    have h : x ∈ ms := hms ▸ hx'
    by_cases hxx : x ∈ xs
    · exact ⟨x, h, rfl, (hval' x hxx).2.2 src hu⟩
    · exact absurd hu ((hfor x h).2 hxx src))
  obtain ⟨fs, hfs, hf1, hf2⟩ := each_fields (value := value) (f := w.model.argument kw) (w.model.attributes ms) fun x hxa => by
    have h := (hattr x).1 hxa
    unfold Model.argument
    by_cases hxx : x ∈ xs
    · refine ⟨val x, ?_, (hval' x hxx).1⟩
      rw [(hlk x h).1 (hval' x hxx).2.1]
    · have hnone := hout x h hxx
      obtain ⟨hnull, hdef, -⟩ := habs x h hnone
      rw [(hlk x h).2 ((hfor x h).2 hxx), hnone]
      refine ⟨.none, ?_, .refl _⟩
      have : GeneratedSerde.isRequired x = false := by simp [GeneratedSerde.isRequired, hnull]
      simp only [List.lookup_nil, this, Bool.false_eq_true, if_false]
      rcases hdef with hdef | ⟨hdef, _⟩ <;> rw [hdef] <;> rfl
  refine ⟨.object cls fs, ?_, .object hf1 hf2⟩
  unfold World.receive
  rw [hread]
  simp only [hkw]
  rw [show w.model.construct cls (w.model.members cls) kw = .ok (.object cls fs) by
    rw [Model.construct, hms, hfs]]

/-- **C129** for an operation with a payload: the output that it returns to its caller is equal to the one that the service gave.
A blob that is the payload is the body of the response, and so is a string, in UTF-8.
A map that is bound to headers with a prefix is not `None`, and no two of its keys differ in case only.
Missing: streams, enums that are payloads (see `C80_enum_payload_fails`), and blobs and strings that
are left out (see `C129_absent_payload_fails`), or documents that are (see `C129_absent_document_fails`). -/
theorem C129_payload_partial (hw : w.Ok nearest) (hb : w.Carries cls p) {ms : List GMember}
    (hs : w.model.shape cls = some (.struct ms)) {value : GMember → P} (hx : ∀ x ∈ ms, x ≠ p → Field w nearest cls x (value x))
    (hp : PayloadOk w cls p (value p)) {v : P}
    (hv : v = .object cls ((w.model.attributes ms).map fun x => (x.attr, value x))) {n : Nat} (hn : v.depth ≤ n)
    (errorStatus : Option Text) (code : Text) (omitEmpty : Bool) :
    ∃ r bytes, w.respond n cls v errorStatus code omitEmpty = .ok r ∧ r.body = .bytes bytes ∧
      (∀ b, value p = .bytes b → bytes = b.map UInt8.ofFin) ∧ (∀ t, value p = .str t → bytes = utf8 t) ∧
      ∀ body, body = none ∨ body = some (.bytes bytes) →
      ∃ v', w.receive cls (received r bytes) body = .ok v' ∧ Same v v' := by
  obtain ⟨r, bytes, h1, h2, h3, h4, -, -, h5⟩ := payload_core hw hb hs hx hp hv hn errorStatus code omitEmpty
  exact ⟨r, bytes, h1, h2, h3, h4, h5⟩

end Verif.RestJson

import Mathlib.Data.List.Nodup
import Verif.Http.RoundTrip
import Verif.Json.ReadProps
import Verif.EventStream.Lemmas

/-!
# HTTP messages with JSON bodies (C115)

`HTTPRequestSerializer`, `HTTPResponseSerializer` and `HTTPResponseDeserializer`
(smithy_http/serializers.py:52-388, deserializers.py:41-153) with the codec of smithy_json, as
`RestJsonClientProtocol` uses them (smithy_aws_core/aio/protocols.py:137-162): the models of C29, C79 and
C80 with those of C43 and C44 in the place of their codec.
-/

set_option autoImplicit false

namespace Verif.Http.RestJson

open Verif.Http Verif.Http.Reading Verif.Http.RoundTrip
open Verif.Json (IsJsonText)

variable {S F T : Type}

/-! ## Model -/

/-- `str.encode("utf-8")`. -/
def utf8 (t : Text) : Bytes := EventStream.utf8Encode (String.ofList t)

/-- `JSONCodec` (smithy_json/__init__.py:20-61): the settings of serializer and deserializer, and `parse`,
the JSON value that ijson gives for a body.  `schema`, `jsonName` and `content` say what the members and
values of the model of HTTP bindings are for the codec. -/
structure Codec (S F T : Type) where
  st : Json.Settings F T
  rd : Json.Reader S F T
  schema : Member → S
  jsonName : Member → Option Text
  content : Val → Json.Val F T
  parse : Bytes → Option Json.Json

def Codec.member (c : Codec S F T) (m : Member) : Json.Member := ⟨m.name, c.jsonName m⟩

/-- The members of a structure, as its schema has them. -/
def Codec.members (c : Codec S F T) (ms : List Member) : List (Json.Member × S) :=
  ms.map fun m => (c.member m, c.schema m)

/-- What is written for a member. -/
def Codec.call (c : Codec S F T) (w : Member × Val) : Json.Call F T :=
  c.rd.callOf (c.schema w.1) (c.content w.2)

/-- The members written within `begin_struct` of a serializer of the codec
(smithy_http/serializers.py:147-157, 340-350). -/
def Codec.encodeStruct (c : Codec S F T) (ws : List (Member × Val)) : Bytes :=
  utf8 (Json.write c.st [] (.struct (ws.map fun w => (c.member w.1, c.call w))))

/-- Values written one after the other by a serializer of the codec. -/
def Codec.encodeValues (c : Codec S F T) (ws : List (Member × Val)) : Bytes :=
  utf8 (ws.foldl (fun out w => Json.write c.st out (c.call w)) [])

/-- `read_struct` of a deserializer of the codec: the members it hands to the consumer.  `s` is the
schema. -/
def Codec.decode (c : Codec S F T) (s : S) (b : Bytes) (ms : List Member) :
    Except Json.RErr (List (Member × Json.Val F T)) :=
  match c.parse b with
  | none => .error .token
  | some j =>
    match c.rd.run s (Json.events [] j) with
    | .error e => .error e
    | .ok (.struct es) =>
      .ok (es.filterMap fun e => (ms.find? fun m => m.name = e.1).map fun m => (m, e.2))
    | .ok _ => .error .token

/-- A shape read from the whole body. -/
def Codec.readValue (c : Codec S F T) (s : S) (b : Bytes) : Except Json.RErr (Json.Val F T) :=
  match c.parse b with
  | none => .error .token
  | some j => c.rd.run s (Json.events [] j)

/-! ## Specification -/

/-- The codec is one of this kind: schemas have different names, the settings of serializer and
deserializer are the same, numbers are written as JSON has them, and the parser knows JSON. -/
structure Codec.Ok (c : Codec S F T) : Prop where
  settings : c.st.Ok
  schemas : c.rd.Ok
  fits : Json.Fits c.st c.rd
  parse : ∀ t j, IsJsonText t j → c.parse (utf8 t) = some j

/-- The value is one of the member's shape that JSON can carry. -/
def Codec.Carries (c : Codec S F T) (w : Member × Val) : Prop :=
  Json.Conforms c.st c.rd (c.schema w.1) (c.content w.2)

/-! ## Lemmas -/

theorem utf8_inj {a b : Text} (h : utf8 a = utf8 b) : a = b := by
  have := congrArg EventStream.utf8Decode h
  unfold utf8 at this
  rw [EventStream.utf8Decode_encode, EventStream.utf8Decode_encode] at this
  exact String.ofList_injective (Option.some.inj this)

theorem utf8_nil : utf8 [] = [] := by decide +kernel

theorem not_jsonText_nil {j : Json.Json} (h : IsJsonText [] j) : False := by
  unfold IsJsonText at h
  obtain ⟨t, ts, ht, _⟩ := Json.toks_head j
  rw [ht] at h
  generalize hx : ([] : Json.Text) = x at h
  cases h with
  | cons hw hl hn hr =>
    rename_i w l r
    have hl0 : l = [] := by
      have := congrArg List.length hx
      simp only [List.length_nil, List.length_append] at this
      exact List.length_eq_zero_iff.1 (by omega)
    obtain ⟨d, m, he, -⟩ := Json.lexeme_head hl
    rw [hl0] at he
    cases he

/-- Whatever the serializers write, there is a parser. -/
theorem exists_parse : ∃ parse : Bytes → Option Json.Json, ∀ t j, IsJsonText t j → parse (utf8 t) = some j := by
  classical
  refine ⟨fun b => if h : ∃ p : Text × Json.Json, utf8 p.1 = b ∧ IsJsonText p.1 p.2 then some h.choose.2
    else none, ?_⟩
  intro t j hj
  have h : ∃ p : Text × Json.Json, utf8 p.1 = utf8 t ∧ IsJsonText p.1 p.2 := ⟨(t, j), rfl, hj⟩
  have hs := h.choose_spec
  have h2 := hs.2
  rw [utf8_inj hs.1] at h2
  simp only [dif_pos h]
  rw [Json.jsonText_unique h2 hj]

theorem find_member (c : Codec S F T) {ms : List Member} (hn : (ms.map Member.name).Nodup) {m : Member} (hm : m ∈ ms) :
    ((c.members ms).find? fun e => e.1.name = m.name) = some (c.member m, c.schema m) ∧
      (ms.find? fun x => x.name = m.name) = some m := by
  induction ms with
  | nil => cases hm
  | cons x xs ih =>
    simp only [List.map_cons, List.nodup_cons] at hn
    simp only [Codec.members, List.map_cons, List.find?_cons]
    by_cases hx : x.name = m.name
    · have : m = x := by
        rcases List.mem_cons.1 hm with h | h
        · exact h
        · exact absurd (List.mem_map.2 ⟨m, h, hx.symm⟩) hn.1
      subst this
      simp [Codec.member]
    · have : m ∈ xs := by
        rcases List.mem_cons.1 hm with rfl | h
        · exact absurd rfl hx
        · exact h
      have h' : decide ((c.member x).name = m.name) = false := decide_eq_false hx
      rw [h', decide_eq_false hx]
      exact ih hn.2 this

theorem names_nodup (c : Codec S F T) (hc : c.Ok) {s : S} {ms : List Member}
    (hs : c.rd.view s = .struct (c.members ms)) : (ms.map Member.name).Nodup := by
  have := (hc.schemas s _ (.inl hs)).1
  simpa [Codec.members, Function.comp_def, Codec.member] using this

theorem memberCalls_eq (c : Codec S F T) {ms : List Member} (hn : (ms.map Member.name).Nodup)
    (ws : List (Member × Val)) (hw : ∀ w ∈ ws, w.1 ∈ ms) :
    c.rd.memberCalls (c.members ms) (ws.map fun w => (w.1.name, c.content w.2)) =
      ws.map fun w => (c.member w.1, c.call w) := by
  induction ws with
  | nil => rfl
  | cons w ws ih =>
    simp only [List.map_cons, Json.Reader.memberCalls]
    rw [(find_member c hn (hw w (by simp))).1]
    simp only
    rw [ih fun x hx => hw x (by simp [hx])]
    rfl

theorem conformsMembers (c : Codec S F T) (ws : List (Member × Val)) (hc : ∀ w ∈ ws, c.Carries w) :
    ∀ ms : List Member, (ws.map Prod.fst).Sublist ms →
    Json.ConformsMembers c.st c.rd (c.members ms) (ws.map fun w => (w.1.name, c.content w.2)) := by
  induction ws with
  | nil => intro _ _; trivial
  | cons w ws ih =>
    intro ms hsub
    obtain ⟨pre, post, rfl, hp⟩ : ∃ pre post, ms = pre ++ w.1 :: post ∧ (ws.map Prod.fst).Sublist post := by
      simp only [List.map_cons] at hsub
      obtain ⟨r₁, r₂, rfl, hm, hr⟩ := List.cons_sublist_iff.1 hsub
      obtain ⟨a, b, rfl⟩ := List.append_of_mem hm
      exact ⟨a, b ++ r₂, by simp, hr.trans (List.sublist_append_right _ _)⟩
    simp only [List.map_cons, Json.ConformsMembers]
    refine ⟨c.members pre, (c.member w.1, c.schema w.1), c.members post, ?_, rfl, hc w (by simp), ?_⟩
    · simp [Codec.members]
    · exact ih (fun x hx => hc x (by simp [hx])) post hp

/-- What is read for what was written, member by member. -/
theorem sameEntries (c : Codec S F T) {ms : List Member} (hn : (ms.map Member.name).Nodup) :
    ∀ (ws : List (Member × Val)) (fs : List (Text × Json.Val F T)), (∀ w ∈ ws, w.1 ∈ ms) →
    Json.SameEntries (ws.map fun w => (w.1.name, c.content w.2)) fs →
    ∃ xs : List (Json.Val F T), xs.length = ws.length ∧
      (fs.filterMap fun e => (ms.find? fun m => m.name = e.1).map fun m => (m, e.2)) =
        (ws.map Prod.fst).zip xs ∧
      ∀ w x, (w, x) ∈ ws.zip xs → Json.Same (c.content w.2) x := by
  intro ws
  induction ws with
  | nil =>
    intro fs _ h
    simp only [List.map_nil, Json.SameEntries] at h
    subst h
    exact ⟨[], rfl, rfl, by simp⟩
  | cons w ws ih =>
    intro fs hw h
    simp only [List.map_cons, Json.SameEntries] at h
    obtain ⟨y, ys, rfl, h1, h2⟩ := h
    obtain ⟨xs, h3, h4, h5⟩ := ih ys (fun x hx => hw x (by simp [hx])) h2
    refine ⟨y :: xs, by simp [h3], ?_, ?_⟩
    · simp only [List.filterMap_cons, (find_member c hn (hw w (by simp))).2, Option.map_some, h4,
        List.map_cons, List.zip_cons_cons]
    · intro w' x' hm
      simp only [List.zip_cons_cons, List.mem_cons, Prod.mk.injEq] at hm
      rcases hm with ⟨rfl, rfl⟩ | hm
      · exact h1
      · exact h5 w' x' hm

theorem zip_lookup {K V : Type} [DecidableEq K] (d : V) : ∀ (ks : List K) (xs : List V), ks.Nodup →
    xs.length = ks.length → ks.zip xs = ks.map fun k => (k, ((ks.zip xs).lookup k).getD d) := by
  intro ks
  induction ks with
  | nil => intro xs _ _; rfl
  | cons k ks ih =>
    intro xs hn hl
    cases xs with
    | nil => cases hl
    | cons x xs =>
      simp only [List.nodup_cons] at hn
      simp only [List.zip_cons_cons, List.map_cons, List.lookup_cons_self, Option.getD_some, List.cons.injEq,
        true_and]
      rw [ih xs hn.2 (by simpa using hl)]
      refine List.map_congr_left fun k' hk' => ?_
      have : k' ≠ k := fun e => hn.1 (e ▸ hk')
      rw [← ih xs hn.2 (by simpa using hl), List.lookup_cons, beq_false_of_ne this]

/-- The JSON text of a structure. -/
theorem struct_text (c : Codec S F T) (hc : c.Ok) {s : S} {ms : List Member}
    (hs : c.rd.view s = .struct (c.members ms)) (ws : List (Member × Val))
    (hsub : (ws.map Prod.fst).Sublist ms) (hw : ∀ w ∈ ws, c.Carries w) :
    ∃ t j v', c.encodeStruct ws = utf8 t ∧ t ≠ [] ∧ IsJsonText t j ∧ (∀ j', IsJsonText t j' → j' = j) ∧
      Json.Mirrors c.st (.struct (ws.map fun w => (c.member w.1, c.call w))) j ∧
      c.rd.run s (Json.events [] j) = .ok v' ∧
      Json.Same (.struct (ws.map fun w => (w.1.name, c.content w.2))) v' := by
  have hn := names_nodup c hc hs
  have hmem : ∀ w ∈ ws, w.1 ∈ ms := fun w hm => hsub.subset (List.mem_map.2 ⟨w, hm, rfl⟩)
  have hconf : Json.Conforms c.st c.rd s (.struct (ws.map fun w => (w.1.name, c.content w.2))) :=
    ⟨_, hs, conformsMembers c ws hw ms hsub⟩
  have hcall : c.rd.callOf s (.struct (ws.map fun w => (w.1.name, c.content w.2))) =
      .struct (ws.map fun w => (c.member w.1, c.call w)) := by
    simp only [Json.Reader.callOf, hs]
    rw [memberCalls_eq c hn ws hmem]
  obtain ⟨j, h1, h2, v', h3, h4⟩ :=
    Json.C44_round_trip_partial c.st hc.settings c.rd hc.schemas hc.fits s _ hconf trivial
  have hnan := Json.noNan_call c.st c.rd hc.schemas _ s hconf
  obtain ⟨j', h5, h6, -⟩ := Json.C43_well_formed_partial c.st hc.settings _ hnan
  have := h2 j' h5
  subst this
  rw [hcall] at h1 h2 h6
  refine ⟨_, j', v', rfl, ?_, h1, h2, h6, h3, h4⟩
  intro h0
  rw [h0] at h1
  exact not_jsonText_nil h1

theorem mirrors_keys (c : Codec S F T) : ∀ (ws : List (Member × Val)) (es : List (Text × Json.Json)),
    Json.MirrorsMembers c.st (ws.map fun w => (c.member w.1, c.call w)) es →
    es.map Prod.fst = ws.map fun w =>
      if c.st.useJsonName then (c.jsonName w.1).getD w.1.name else w.1.name := by
  intro ws
  induction ws with
  | nil =>
    intro es h
    simp only [List.map_nil, Json.MirrorsMembers] at h
    rw [h]; rfl
  | cons w ws ih =>
    intro es h
    simp only [List.map_cons, Json.MirrorsMembers] at h
    obtain ⟨j, es', rfl, -, h2⟩ := h
    simp only [List.map_cons, ih es' h2, List.cons.injEq, and_true]
    simp only [Json.jsonKey, Codec.member]
    cases c.st.useJsonName <;> cases c.jsonName w.1 <;> rfl

/-! ## Theorems -/

/-- The body of a request is the JSON text of one object that has exactly the members bound to the body
(and to the host), in order, with their JSON names and values. -/
theorem C115_request (c : Codec S F T) (hc : c.Ok) (env : Env) (henv : env.encodeStruct = c.encodeStruct)
    (s : S) (ms : List Member) (hs : c.rd.view s = .struct (c.members ms)) (pattern : List (Uri.Piece Text))
    (query : Bytes) (omitEmpty : Bool) (ws : List (Member × Val)) (r : Request)
    (h : serializeRequest env pattern query omitEmpty ms ws = .ok r)
    (loc : Member → Binding) (hloc : ∀ m, Located requestPrecedence m (loc m))
    (hstream : ∀ m ∈ ms, ¬(m.streaming = true ∧ m.shape = .union))
    (hpay : ∀ m ∈ ms, loc m ≠ .payload) (hbody : ∃ m ∈ ms, loc m = .body ∨ loc m = .host)
    (hsub : (ws.map Prod.fst).Sublist ms) (hw : ∀ w ∈ ws, loc w.1 = .body ∨ loc w.1 = .host → c.Carries w) :
    ∃ t es, r.body = .bytes (utf8 t) ∧ IsJsonText t (.obj es) ∧ (∀ j, IsJsonText t j → j = .obj es) ∧
      Json.MirrorsMembers c.st ((ws.filter fun w => loc w.1 = .body ∨ loc w.1 = .host).map
        fun w => (c.member w.1, c.call w)) es ∧
      es.map Prod.fst = (ws.filter fun w => loc w.1 = .body ∨ loc w.1 = .host).map fun w =>
        if c.st.useJsonName then (c.jsonName w.1).getD w.1.name else w.1.name := by
  obtain ⟨ct, len, req, hp, -⟩ := serializeRequest_ok h
  have hlm := loc_request hloc
  obtain ⟨h1, h2, h3⟩ := add_spec matchRequest ms {}
  have e1 : (Matcher.of matchRequest ms).eventStream = none := h3 hstream
  have e2 : (Matcher.of matchRequest ms).payloadMember = none := (h2 (by rw [← hlm]; exact hpay)).1
  have e3 : (Matcher.of matchRequest ms).hasBody = true := h1.2 (.inr (by rw [← hlm]; exact hbody))
  have hmem : ∀ w ∈ ws, w.1 ∈ ms := fun w hm => hsub.subset (List.mem_map.2 ⟨w, hm, rfl⟩)
  have e4 : bodyOf matchRequest ws = ws.filter fun w => loc w.1 = .body ∨ loc w.1 = .host := by
    rw [← hlm]
    refine List.filter_congr fun w hw => ?_
    have g1 := hpay w.1 (hmem w hw)
    simp [g1]
  simp only [payloadOf, e1, e2, e4, Matcher.shouldWriteBody, e3, Bool.true_or, if_true, Except.ok.injEq,
    Prod.mk.injEq] at hp
  have hsub' : ((ws.filter fun w => loc w.1 = .body ∨ loc w.1 = .host).map Prod.fst).Sublist ms :=
    (List.filter_sublist.map _).trans hsub
  obtain ⟨t, j, v', g1, g2, g3, g4, g5, -⟩ := struct_text c hc hs _ hsub' (by
    intro w hm
    rw [List.mem_filter] at hm
    exact hw w hm.1 (by simpa using hm.2))
  simp only [Json.Mirrors] at g5
  obtain ⟨es, rfl, g5⟩ := g5
  refine ⟨t, es, by rw [← hp.1, henv, g1], g3, g4, g5, ?_⟩
  exact mirrors_keys c _ es g5

/-- What the service writes into the body of a response reaches the caller: every member bound to the body
that the service gave is read as the same value, and no other. -/
theorem C115_response (c : Codec S F T) (hc : c.Ok) (env : Env) (renv : REnv (Json.Val F T) Json.RErr)
    (s : S) (ms : List Member) (hs : c.rd.view s = .struct (c.members ms))
    (henv : env.encodeStruct = c.encodeStruct) (hrenv : renv.decode = c.decode s)
    (hlower : renv.lower = env.lower)
    (hnames : env.lower "content-type".toList ≠ env.lower "content-length".toList)
    (hint : ∀ n : Nat, renv.int (env.natText n) = some (n : Int))
    (errorStatus : Option Text) (code : Text) (omitEmpty : Bool) (ws : List (Member × Val))
    (r : Response) (h : serializeResponse env errorStatus code omitEmpty ms ws = .ok r)
    (loc : Member → Binding) (hloc : Locates loc)
    (hstream : ∀ m ∈ ms, ¬(m.streaming = true ∧ m.shape = .union))
    (hcl : ∀ w ∈ ws, ∀ n ∈ namesOf loc w, env.lower n ≠ env.lower "content-length".toList)
    (hpay : ∀ m ∈ ms, loc m ≠ .payload) (hbody : ∃ m ∈ ms, loc m = .body)
    (hsub : (ws.map Prod.fst).Sublist ms) (hw : ∀ w ∈ ws, loc w.1 = .body → c.Carries w) :
    ∃ bytes, r.body = .bytes bytes ∧
    ∀ body, (body = none ∨ body = some (.bytes bytes)) →
    ∀ calls : List (Member × Source (Json.Val F T)), readStruct renv (received r bytes) body ms = .ok calls →
    (∀ m v, (m, v) ∈ ws → loc m = .body → ∃ x, (m, .value x) ∈ calls ∧ Json.Same (c.content v) x) ∧
    (∀ m x, (m, .value x) ∈ calls → loc m = .body ∧ ∃ v, (m, v) ∈ ws ∧ Json.Same (c.content v) x) := by
  have hn := names_nodup c hc hs
  have hmem : ∀ w ∈ ws, w.1 ∈ ms := fun w hm => hsub.subset (List.mem_map.2 ⟨w, hm, rfl⟩)
  obtain ⟨bs, hbs⟩ : ∃ bs, bs = ws.filter fun w => loc w.1 = .body := ⟨_, rfl⟩
  have hsub' : (bs.map Prod.fst).Sublist ms := by
    rw [hbs]
    exact (List.filter_sublist.map _).trans hsub
  have hbmem : ∀ w ∈ bs, w.1 ∈ ms := fun w hm => hsub'.subset (List.mem_map.2 ⟨w, hm, rfl⟩)
  obtain ⟨t, j, v', g1, g2, g3, -, -, g6, g7⟩ := struct_text c hc hs bs hsub' (by
    intro w hm
    rw [hbs, List.mem_filter] at hm
    exact hw w hm.1 (by simpa using hm.2))
  simp only [Json.Same] at g7
  obtain ⟨fs, rfl, g7⟩ := g7
  obtain ⟨xs, k1, k2, k3⟩ := sameEntries c hn bs fs hbmem g7
  have hnd : (bs.map Prod.fst).Nodup := by
    refine hsub'.nodup ?_
    exact List.Nodup.of_map _ hn
  have hz := zip_lookup Json.Val.null (bs.map Prod.fst) xs hnd (by simpa using k1)
  have hdec : c.decode s (c.encodeStruct bs) ms =
      .ok (bs.map fun x => (x.1, (((bs.map Prod.fst).zip xs).lookup x.1).getD .null)) := by
    unfold Codec.decode
    rw [g1, hc.parse t j g3]
    simp only [g6, k2]
    exact congrArg _ (hz.trans (by rw [List.map_map]; rfl))
  have hsame : ∀ m v, (m, v) ∈ bs → Json.Same (c.content v) ((((bs.map Prod.fst).zip xs).lookup m).getD .null) := by
    intro m v hm
    obtain ⟨i, hi, he⟩ := List.mem_iff_getElem.1 hm
    have hi' : i < xs.length := by omega
    have hzi : ((bs.map Prod.fst).zip xs)[i]? = some (m, xs[i]) := by
      rw [List.getElem?_eq_getElem (by simp; omega)]
      simp [he]
    have : xs[i] = (((bs.map Prod.fst).zip xs).lookup m).getD .null := by
      rw [hz] at hzi
      rw [List.getElem?_map] at hzi
      obtain ⟨k, hk, hk'⟩ := Option.map_eq_some_iff.1 hzi
      simp only [Prod.mk.injEq] at hk'
      obtain ⟨rfl, hk'⟩ := hk'
      exact hk'.symm
    rw [← this]
    refine k3 (m, v) xs[i] ?_
    refine List.mem_iff_getElem.2 ⟨i, by simp; omega, by simp [he]⟩
  obtain ⟨bytes, hb, hrest⟩ := C80_body env renv hlower hnames hint errorStatus code omitEmpty ms ws r h loc hloc
    hstream hcl hpay hbody hmem (fun m _ => (((bs.map Prod.fst).zip xs).lookup m).getD .null) (by
      intro xs' hxs'
      rw [← hbs] at hxs'
      subst hxs'
      refine ⟨?_, ?_⟩
      · rw [henv, g1]
        intro h0
        exact g2 (utf8_inj (h0.trans utf8_nil.symm))
      · rw [henv, hrenv, hdec])
  refine ⟨bytes, hb, fun body hbd calls hread => ⟨fun m v hm hl => ?_, fun m x hx => ?_⟩⟩
  · refine ⟨_, (hrest body hbd calls hread m _).2 ⟨hl, v, hm, rfl⟩, hsame m v ?_⟩
    rw [hbs, List.mem_filter]
    exact ⟨hm, by simpa using hl⟩
  · obtain ⟨hl, v, hm, rfl⟩ := (hrest body hbd calls hread m x).1 hx
    refine ⟨hl, v, hm, hsame m v ?_⟩
    rw [hbs, List.mem_filter]
    exact ⟨hm, by simpa using hl⟩

/-- A member that is the payload and is written by the codec (a structure, union, list, map, document, number
and so on) is read from the document as the same value. -/
theorem C115_payload (c : Codec S F T) (hc : c.Ok) (env : Env) (renv : REnv (Json.Val F T) Json.RErr)
    (henv : env.encodeValues = c.encodeValues) (hlower : renv.lower = env.lower)
    (hnames : env.lower "content-type".toList ≠ env.lower "content-length".toList)
    (hint : ∀ n : Nat, renv.int (env.natText n) = some (n : Int))
    (errorStatus : Option Text) (code : Text) (omitEmpty : Bool) (ms : List Member) (ws : List (Member × Val))
    (r : Response) (h : serializeResponse env errorStatus code omitEmpty ms ws = .ok r)
    (loc : Member → Binding) (hloc : Locates loc)
    (hstream : ∀ m ∈ ms, ¬(m.streaming = true ∧ m.shape = .union))
    (hcl : ∀ w ∈ ws, ∀ n ∈ namesOf loc w, env.lower n ≠ env.lower "content-length".toList)
    (m : Member) (hm : m ∈ ms) (hl : loc m = .payload) (hu : ∀ x ∈ ms, loc x = .payload → x = m)
    (hbody : ∀ x ∈ ms, loc x ≠ .body) (hws : ∀ w ∈ ws, w.1 ∈ ms)
    (v : Val) (hv : (ws.filter fun w => w.1 = m) = [(m, v)])
    (hshape : m.shape ≠ .blob ∧ m.shape ≠ .string ∧ m.shape ≠ .enum) (hcar : c.Carries (m, v))
    (hroot : (c.content v).RootOk) :
    ∃ bytes, r.body = .bytes bytes ∧
    ∀ body, (body = none ∨ body = some (.bytes bytes)) →
    ∀ calls : List (Member × Source (Json.Val F T)), readStruct renv (received r bytes) body ms = .ok calls →
    (m, .document bytes) ∈ calls ∧
      ∃ x, c.readValue (c.schema m) bytes = .ok x ∧ Json.Same (c.content v) x := by
  obtain ⟨j, h1, h2, x, h3, h4⟩ :=
    Json.C44_round_trip_partial c.st hc.settings c.rd hc.schemas hc.fits (c.schema m) (c.content v) hcar hroot
  have hb : env.encodeValues [(m, v)] = utf8 (Json.write c.st [] (c.call (m, v))) := by
    rw [henv]; rfl
  obtain ⟨g1, g2⟩ := C80_payload_partial env renv hlower hnames hint errorStatus code omitEmpty ms ws r h loc hloc
    hstream hcl m hm hl hu hbody hws v hv (env.encodeValues [(m, v)]) (.inr (.inr ⟨hshape.1, hshape.2.1, hshape.2.2,
      rfl, by
        rw [hb]
        intro h0
        have := utf8_inj (h0.trans utf8_nil.symm)
        rw [Codec.call] at this
        rw [this] at h1
        exact not_jsonText_nil h1⟩))
  refine ⟨_, g1, fun body hbd calls hread => ⟨?_, x, ?_, h4⟩⟩
  · refine (g2 body hbd calls hread (.document _) (by simp)).2 ?_
    rw [if_neg (by simp [hshape.1, hshape.2.1])]
  · unfold Codec.readValue
    rw [hb, Codec.call, hc.parse _ j h1]
    exact h3

/-! ## The hypotheses are met -/

/-- A recursive structure with a header, a list with a JSON name and a child. -/
def exampleReader : Json.Reader Nat Unit Unit where
  view
    | 0 => .struct [(⟨['h'], none⟩, 3), (⟨['n'], some ['N', '"']⟩, 1), (⟨['c'], none⟩, 0)]
    | 1 => .list false 2
    | 2 => .integer
    | _ => .string
  useJsonName := true
  useTimestampFormat := true
  defaultFormat := .epochSeconds
  float := fun _ => .finite ()
  deserialize := fun _ _ => some ()

def mHeader : Member := { name := ['h'], shape := .string, header := some ['X'] }
def mNumbers : Member := { name := ['n'], shape := .list }
def mChild : Member := { name := ['c'], shape := .structure }

noncomputable def exampleCodec : Codec Nat Unit Unit where
  st := Json.exampleSettings
  rd := exampleReader
  schema m := if m.name = ['h'] then 3 else if m.name = ['n'] then 1 else 0
  jsonName m := if m.name = ['n'] then some ['N', '"'] else none
  content
    | .other 0 => .list [.integer 1, .integer (-2)]
    | .other 1 => .struct [(['n'], .list []), (['c'], .struct [])]
    | .text t => .string t
    | _ => .null
  parse := exists_parse.choose

theorem exampleCodec_ok : exampleCodec.Ok where
  settings := Json.exampleSettings_ok
  schemas := by
    intro s ms h
    match s with
    | 0 =>
      rcases h with h | h
      · cases h; decide
      · cases h
    | 1 | 2 | _ + 3 => rcases h with h | h <;> cases h
  fits :=
    have h : Json.numOf ['1', '.', '5'] = .dec ⟨false, 15, -1⟩ := by decide +kernel
    ⟨rfl, rfl, rfl, fun _ => ⟨⟨false, 15, -1⟩, h, rfl⟩⟩
  parse := exists_parse.choose_spec

example : exampleCodec.rd.view 0 = .struct (exampleCodec.members [mHeader, mNumbers, mChild]) := rfl
example : exampleCodec.Carries (mNumbers, .other 0) :=
  ⟨false, 2, rfl, .inr ⟨by simp, rfl⟩, .inr ⟨by simp, rfl⟩, trivial⟩
example : exampleCodec.Carries (mChild, .other 1) :=
  ⟨_, rfl, [(⟨['h'], none⟩, 3)], _, _, rfl, rfl, ⟨false, 2, rfl, trivial⟩, [], _, _, rfl, rfl, ⟨_, rfl, trivial⟩,
    trivial⟩
example : Json.write exampleCodec.st [] (.struct ([(mNumbers, Val.other 0), (mChild, .other 1)].map
    fun w => (exampleCodec.member w.1, exampleCodec.call w))) =
    "{\"N\\\"\":[1,-2],\"c\":{\"N\\\"\":[],\"c\":{}}}".toList := by decide +kernel

end Verif.Http.RestJson

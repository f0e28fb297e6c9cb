import Verif.Http.Props
import Verif.HeaderText.Model

/-!
# Reading responses (C79, C80)

`HTTPResponseDeserializer` (smithy_http/deserializers.py:41-153) with the deserializers it hands out for each
location: `HTTPHeaderMapDeserializer` (238-260), `HTTPResponseCodeDeserializer` (263-280),
`RawPayloadDeserializer` (283-321).  What a header's text means is the subject of `Verif.Http.HeaderValue`.
-/

set_option autoImplicit false

namespace Verif.Http.Reading

open Verif.Http
open Verif.Fields (Field)
open Verif.HeaderText (asString)

/-! ## Model -/

/-- A body: `bytes` or `bytearray`, a synchronous reader of which nothing is read yet, or an asynchronous stream. -/
inductive Content where
  | bytes (b : Bytes)
  | reader (seekable : Bool) (b : Bytes)
  | async (id : Nat)
deriving DecidableEq, Repr

/-- `HTTPResponse`, as far as it is read. -/
structure Incoming where
  status : Text
  fields : List (Field Text)
  body : Content

/-- What a consumer is handed to read a member from: one of the deserializers for a location, the codec's
deserializer for the whole body (`document`), or the codec's at the value of one member (`value`). -/
inductive Source (V : Type) where
  | header (t : Text)
  | headerList (values : List Text)
  | headerMap (entries : List (Text × Text))
  | status (t : Text)
  | raw (b : Content)
  | document (b : Bytes)
  | value (v : V)
deriving DecidableEq, Repr

/-- `ValueError` of `int`, `UnsupportedStreamError`, and errors of the codec. -/
inductive RErr (E : Type) where
  | value
  | unsupportedStream
  | codec (e : E)
deriving DecidableEq, Repr

/-- Python's `lower` and `int`, and `read_struct` of the codec: the members it finds in a body. -/
structure REnv (V E : Type) where
  lower : Text → Text
  int : Text → Option Int
  decode : Bytes → List Member → Except E (List (Member × V))

variable {V E : Type}

/-- `fields.entries.get(name.lower())` (deserializers.py:75), `fields[name]` (122). -/
def find (env : REnv V E) (fs : List (Field Text)) (name : Text) : Option (Field Text) :=
  fs.find? fun f => env.lower f.name = env.lower name

/-- `_has_empty_body` (deserializers.py:118-130). -/
def hasEmptyBody (env : REnv V E) (r : Incoming) (body : Option Content) : Except (RErr E) Bool :=
  match find env r.fields "content-length".toList with
  | some f =>
    match env.int (asString f.values) with
    | some n => .ok (n == 0)
    | none => .error .value
  | none =>
    match body with
    | some (.bytes b) => .ok b.isEmpty
    | some (.reader true b) => .ok b.isEmpty
    | _ => .ok false

/-- `_create_body_deserializer` (deserializers.py:142-153): the bytes the codec reads. -/
def bodyBytes (r : Incoming) (body : Option Content) : Except (RErr E) Bytes :=
  match body.getD r.body with
  | .bytes b => .ok b
  | .reader _ b => .ok b
  | .async _ => .error .unsupportedStream

/-- `_should_read_payload` (deserializers.py:108-116). -/
def shouldReadPayload (env : REnv V E) (r : Incoming) (body : Option Content) (m : Member) : Except (RErr E) Bool :=
  if m.shape = .list ∨ m.shape = .map ∨ m.shape = .union ∨ m.shape = .structure then
    (hasEmptyBody env r body).map not
  else .ok true

/-- `_create_payload_deserializer` (deserializers.py:132-140). -/
def payloadSource (r : Incoming) (body : Option Content) (m : Member) : Except (RErr E) (Source V) :=
  if m.shape = .blob ∨ m.shape = .string ∨ m.shape = .enum then .ok (.raw (body.getD r.body))
  else (bodyBytes r body).map .document

/-- `HTTPHeaderMapDeserializer.read_map` (deserializers.py:252-260). -/
def mapEntries (env : REnv V E) (fs : List (Field Text)) (pre : Text) : List (Text × Text) :=
  (fs.filter fun f => (env.lower pre).isPrefixOf (env.lower f.name)).map fun f =>
    (f.name.drop (env.lower pre).length, asString f.values)

/-- One turn of the loop of `read_struct` (deserializers.py:71-100). -/
def readMember (env : REnv V E) (r : Incoming) (body : Option Content) (a : Matcher) (m : Member) :
    Except (RErr E) (List (Member × Source V)) :=
  match matchResponse m with
  | .header =>
    match find env r.fields (m.header.getD []) with
    | none => .ok []
    | some f =>
      if m.shape = .list then .ok [(m, .headerList f.values)] else .ok [(m, .header (asString f.values))]
  | .prefixHeaders => .ok [(m, .headerMap (mapEntries env r.fields (m.prefixHeaders.getD [])))]
  | .status => .ok [(m, .status r.status)]
  | .payload =>
    match a.eventStream, a.payloadMember with
    | none, some pm =>
      match shouldReadPayload env r body pm with
      | .error e => .error e
      | .ok false => .ok []
      | .ok true => (payloadSource r body pm).map fun s => [(pm, s)]
    | _, _ => .ok []
  | _ => .ok []

/-- The members found by the codec (deserializers.py:102-106). -/
def readBody (env : REnv V E) (r : Incoming) (body : Option Content) (ms : List Member) (a : Matcher) :
    Except (RErr E) (List (Member × Source V)) :=
  if a.hasBody then
    match hasEmptyBody env r body with
    | .error e => .error e
    | .ok true => .ok []
    | .ok false =>
      match bodyBytes r body with
      | .error e => .error e
      | .ok b =>
        match env.decode b ms with
        | .error e => .error (.codec e)
        | .ok vs => .ok (vs.map fun v => (v.1, .value v.2))
  else .ok []

/-- The loop over the members. -/
def readMembers (env : REnv V E) (r : Incoming) (body : Option Content) (a : Matcher) :
    List Member → Except (RErr E) (List (Member × Source V))
  | [] => .ok []
  | m :: ms =>
    match readMember env r body a m with
    | .error e => .error e
    | .ok c =>
      match readMembers env r body a ms with
      | .error e => .error e
      | .ok cs => .ok (c ++ cs)

/-- `HTTPResponseDeserializer.read_struct` (deserializers.py:66-106): the calls of the consumer, in order. -/
def readStruct (env : REnv V E) (r : Incoming) (body : Option Content) (ms : List Member) :
    Except (RErr E) (List (Member × Source V)) :=
  let a := Matcher.of matchResponse ms
  match readMembers env r body a ms with
  | .error e => .error e
  | .ok cs =>
    match readBody env r body ms a with
    | .error e => .error e
    | .ok bs => .ok (cs ++ bs)

/-- `_consume_payload` (deserializers.py:311-321): what `read_string` and `read_blob` give. -/
def consumePayload : Content → Except (RErr E) Bytes
  | .bytes b => .ok b
  | .reader _ b => .ok b
  | .async _ => .error .unsupportedStream

/-- The value a member ends up with: a consumer stores what it reads under the member's name, so that the last call
counts. -/
def final (calls : List (Member × Source V)) (m : Member) : Option (Source V) :=
  (calls.reverse.lookup m)

/-! ## Specification -/

/-- `lower` works character by character. -/
def CharWise (lower : Text → Text) : Prop := ∃ f : Char → Char, ∀ t, lower t = t.map f

/-- There is a header of this name. -/
def HasHeader (lower : Text → Text) (r : Incoming) (name : Text) : Prop := ∃ f ∈ r.fields, lower f.name = lower name

/-! ## Lemmas -/

theorem find_spec (env : REnv V E) (fs : List (Field Text)) (hd : Fields.Distinct env.lower fs) (name : Text) :
    (find env fs name = none ∧ ∀ f ∈ fs, env.lower f.name ≠ env.lower name) ∨
    ∃ f, find env fs name = some f ∧ f ∈ fs ∧ env.lower f.name = env.lower name ∧
      f.values = fieldValues env.lower fs name := by
  unfold find
  cases h : fs.find? fun f => env.lower f.name = env.lower name with
  | none =>
    left
    rw [List.find?_eq_none] at h
    exact ⟨rfl, fun f hf => by simpa using h f hf⟩
  | some f =>
    right
    refine ⟨f, rfl, List.mem_of_find?_eq_some h, by simpa using List.find?_some h, ?_⟩
    have hname : env.lower f.name = env.lower name := by simpa using List.find?_some h
    have hmem := List.mem_of_find?_eq_some h
    clear h
    unfold fieldValues
    have key : ∀ fs : List (Field Text), Fields.Distinct env.lower fs → f ∈ fs →
        (fs.filter fun g => env.lower g.name = env.lower name) = [f] := by
      intro fs
      induction fs with
      | nil => intro _ h; cases h
      | cons g fs ih =>
        intro hd hm
        unfold Fields.Distinct at hd
        rw [List.pairwise_cons] at hd
        rw [List.filter_cons]
        rcases List.mem_cons.1 hm with rfl | hm
        · rw [if_pos (by simpa using hname)]
          congr 1
          rw [List.filter_eq_nil_iff]
          intro x hx
          have := hd.1 x hx
          rw [hname] at this
          simpa using this.symm
        · have hne := hd.1 f hm
          rw [hname] at hne
          rw [if_neg (by simpa using hne)]
          exact ih hd.2 hm
    rw [key fs hd hmem]
    simp

theorem readMembers_mem {env : REnv V E} {r : Incoming} {body : Option Content} {a : Matcher} {ms : List Member}
    {cs : List (Member × Source V)} (h : readMembers env r body a ms = .ok cs) (x : Member × Source V) :
    x ∈ cs ↔ ∃ m ∈ ms, ∃ c, readMember env r body a m = .ok c ∧ x ∈ c := by
  induction ms generalizing cs with
  | nil =>
    simp only [readMembers, Except.ok.injEq] at h
    subst h
    simp
  | cons m ms ih =>
    simp only [readMembers] at h
    cases h1 : readMember env r body a m with
    | error e => rw [h1] at h; cases h
    | ok c =>
      rw [h1] at h
      simp only at h
      cases h2 : readMembers env r body a ms with
      | error e => rw [h2] at h; cases h
      | ok cs' =>
        rw [h2] at h
        simp only [Except.ok.injEq] at h
        subst h
        rw [List.mem_append, ih h2]
        simp only [List.mem_cons, exists_eq_or_imp, h1, Except.ok.injEq]
        simp

theorem readMembers_ok {env : REnv V E} {r : Incoming} {body : Option Content} {a : Matcher} {ms : List Member}
    {cs : List (Member × Source V)} (h : readMembers env r body a ms = .ok cs) :
    ∀ m ∈ ms, ∃ c, readMember env r body a m = .ok c := by
  induction ms generalizing cs with
  | nil => simp
  | cons m ms ih =>
    simp only [readMembers] at h
    cases h1 : readMember env r body a m with
    | error e => rw [h1] at h; cases h
    | ok c =>
      rw [h1] at h
      simp only at h
      cases h2 : readMembers env r body a ms with
      | error e => rw [h2] at h; cases h
      | ok cs' =>
        intro x hx
        rcases List.mem_cons.1 hx with rfl | hx
        · exact ⟨c, h1⟩
        · exact ih h2 x hx

theorem readStruct_ok {env : REnv V E} {r : Incoming} {body : Option Content} {ms : List Member}
    {calls : List (Member × Source V)} (h : readStruct env r body ms = .ok calls) :
    ∃ cs bs, readMembers env r body (Matcher.of matchResponse ms) ms = .ok cs ∧
      readBody env r body ms (Matcher.of matchResponse ms) = .ok bs ∧ calls = cs ++ bs := by
  unfold readStruct at h
  simp only at h
  cases h1 : readMembers env r body (Matcher.of matchResponse ms) ms with
  | error e => rw [h1] at h; cases h
  | ok cs =>
    rw [h1] at h
    simp only at h
    cases h2 : readBody env r body ms (Matcher.of matchResponse ms) with
    | error e => rw [h2] at h; cases h
    | ok bs =>
      rw [h2] at h
      simp only [Except.ok.injEq] at h
      exact ⟨cs, bs, rfl, rfl, h.symm⟩

theorem payloadMember_loc (f : Member → Binding) (ms : List Member) : ∀ a : Matcher, ∀ pm,
    (ms.foldl (Matcher.add f) a).payloadMember = some pm → (pm ∈ ms ∧ f pm = .payload) ∨ a.payloadMember = some pm := by
  induction ms with
  | nil => intro a pm h; exact .inr h
  | cons m ms ih =>
    intro a pm h
    rw [List.foldl_cons] at h
    rcases ih _ pm h with ⟨h1, h2⟩ | h1
    · exact .inl ⟨by simp [h1], h2⟩
    · simp only [Matcher.add] at h1
      by_cases hm : f m = .payload
      · rw [if_pos hm] at h1
        simp only [Option.some.injEq] at h1
        subst h1
        exact .inl ⟨by simp, hm⟩
      · rw [if_neg hm] at h1
        exact .inr h1

/-- Only the payload member is read where a payload is bound. -/
theorem readMember_fst {env : REnv V E} {r : Incoming} {body : Option Content} {ms : List Member} {m' : Member}
    {c : List (Member × Source V)} (h : readMember env r body (Matcher.of matchResponse ms) m' = .ok c)
    {m : Member} {src : Source V} (hx : (m, src) ∈ c) :
    (m = m' ∧ matchResponse m' ≠ .payload) ∨ (matchResponse m' = .payload ∧ matchResponse m = .payload) := by
  unfold readMember at h
  split at h
  · next hl =>
    left
    split at h
    · simp only [Except.ok.injEq] at h
      subst h
      cases hx
    · split at h <;>
      · simp only [Except.ok.injEq] at h
        subst h
        simp only [List.mem_singleton, Prod.mk.injEq] at hx
        exact ⟨hx.1, by simp [hl]⟩
  · next hl =>
    left
    simp only [Except.ok.injEq] at h
    subst h
    simp only [List.mem_singleton, Prod.mk.injEq] at hx
    exact ⟨hx.1, by simp [hl]⟩
  · next hl =>
    left
    simp only [Except.ok.injEq] at h
    subst h
    simp only [List.mem_singleton, Prod.mk.injEq] at hx
    exact ⟨hx.1, by simp [hl]⟩
  · next hl =>
    right
    refine ⟨hl, ?_⟩
    split at h
    · next pm _ hpm =>
      have hpm' := payloadMember_loc matchResponse ms {} pm hpm
      simp only [reduceCtorEq, or_false] at hpm'
      split at h
      · cases h
      · simp only [Except.ok.injEq] at h
        subst h
        cases hx
      · cases hs : (payloadSource r body pm : Except (RErr E) (Source V)) with
        | error e => rw [hs] at h; cases h
        | ok s =>
          rw [hs] at h
          simp only [Except.map, Except.ok.injEq] at h
          subst h
          simp only [List.mem_singleton, Prod.mk.injEq] at hx
          rw [hx.1]
          exact hpm'.2
    · simp only [Except.ok.injEq] at h
      subst h
      cases hx
  · simp only [Except.ok.injEq] at h
    subst h
    cases hx

theorem readBody_value {env : REnv V E} {r : Incoming} {body : Option Content} {ms : List Member} {a : Matcher}
    {bs : List (Member × Source V)} (h : readBody env r body ms a = .ok bs) {x : Member × Source V} (hx : x ∈ bs) :
    ∃ b vs v, bodyBytes (E := E) r body = .ok b ∧ env.decode b ms = .ok vs ∧ (x.1, v) ∈ vs ∧ x.2 = .value v := by
  unfold readBody at h
  split at h
  · split at h
    · cases h
    · simp only [Except.ok.injEq] at h
      subst h
      cases hx
    · split at h
      · cases h
      · next b hb =>
        split at h
        · cases h
        · next vs hvs =>
          simp only [Except.ok.injEq] at h
          subst h
          rw [List.mem_map] at hx
          obtain ⟨v, hv, rfl⟩ := hx
          exact ⟨b, vs, v.2, hb, hvs, hv, rfl⟩
  · simp only [Except.ok.injEq] at h
    subst h
    cases hx

/-- The calls for a member that is bound elsewhere than to the payload, other than those of the codec. -/
theorem calls_iff {env : REnv V E} {r : Incoming} {body : Option Content} {ms : List Member}
    {calls : List (Member × Source V)} (h : readStruct env r body ms = .ok calls) {m : Member} (hm : m ∈ ms)
    (hl : matchResponse m ≠ .payload) {src : Source V} (hsrc : ∀ v, src ≠ .value v)
    {c : List (Member × Source V)} (hc : readMember env r body (Matcher.of matchResponse ms) m = .ok c) :
    (m, src) ∈ calls ↔ (m, src) ∈ c := by
  obtain ⟨cs, bs, h1, h2, rfl⟩ := readStruct_ok h
  rw [List.mem_append, readMembers_mem h1]
  constructor
  · rintro (⟨m', hm', c', hc', hx⟩ | hx)
    · rcases readMember_fst hc' hx with ⟨rfl, _⟩ | ⟨_, hp⟩
      · rw [hc] at hc'
        cases hc'
        exact hx
      · exact absurd hp hl
    · obtain ⟨_, _, v, _, _, _, hv⟩ := readBody_value h2 hx
      exact absurd hv (hsrc v)
  · exact fun hx => .inl ⟨m, hm, c, hc, hx⟩

theorem calls_member {env : REnv V E} {r : Incoming} {body : Option Content} {ms : List Member}
    {calls : List (Member × Source V)} (h : readStruct env r body ms = .ok calls) {m : Member} (hm : m ∈ ms) :
    ∃ c, readMember env r body (Matcher.of matchResponse ms) m = .ok c := by
  obtain ⟨cs, bs, h1, h2, rfl⟩ := readStruct_ok h
  exact readMembers_ok h1 m hm

theorem loc_eq {loc : Member → Binding} (hloc : ∀ m, Located responsePrecedence m (loc m)) (m : Member) :
    matchResponse m = loc m := by rw [loc_response hloc]

/-! ## Theorems -/

/-- **C79**, headers: a member bound to a header is read from the values of all fields of that name, whatever the
case, as one text or as a list; if there is none it is left out. -/
theorem C79_header (env : REnv V E) (r : Incoming) (hd : Fields.Distinct env.lower r.fields) (body : Option Content)
    (ms : List Member) (calls : List (Member × Source V)) (h : readStruct env r body ms = .ok calls)
    (loc : Member → Binding) (hloc : ∀ m, Located responsePrecedence m (loc m))
    (m : Member) (hm : m ∈ ms) (hl : loc m = .header) (k : Text) (hk : m.header = some k)
    (src : Source V) (hsrc : ∀ v, src ≠ .value v) :
    (m, src) ∈ calls ↔ HasHeader env.lower r k ∧
      src = if m.shape = .list then .headerList (fieldValues env.lower r.fields k)
        else .header (asString (fieldValues env.lower r.fields k)) := by
  have hb := loc_eq hloc m
  rw [hl] at hb
  have hc : ∀ c, readMember env r body (Matcher.of matchResponse ms) m = .ok c →
      ((m, src) ∈ calls ↔ (m, src) ∈ c) := fun c hc => calls_iff h hm (by simp [hb]) hsrc hc
  have hr : readMember env r body (Matcher.of matchResponse ms) m = match find env r.fields k with
    | none => .ok []
    | some f =>
      if m.shape = .list then .ok [(m, .headerList f.values)] else .ok [(m, .header (asString f.values))] := by
    unfold readMember
    rw [hb, hk]
    rfl
  rcases find_spec env r.fields hd k with ⟨h1, h2⟩ | ⟨f, h1, h2, h3, h4⟩
  · rw [h1] at hr
    rw [hc _ hr]
    simp only [List.not_mem_nil, false_iff, not_and]
    rintro ⟨f, hf, hfn⟩
    exact absurd hfn (h2 f hf)
  · rw [h1] at hr
    simp only [h4] at hr
    have hh : HasHeader env.lower r k := ⟨f, h2, h3⟩
    by_cases hlist : m.shape = .list
    · rw [if_pos hlist] at hr ⊢
      rw [hc _ hr]
      simp [hh]
    · rw [if_neg hlist] at hr ⊢
      rw [hc _ hr]
      simp [hh]

/-- **C79**, prefix headers: the entries of the map are the headers whose name starts with the prefix, whatever the
case, under the rest of their name as it was sent. -/
theorem C79_prefix_headers (env : REnv V E) (hlow : CharWise env.lower) (r : Incoming) (body : Option Content)
    (ms : List Member) (calls : List (Member × Source V)) (h : readStruct env r body ms = .ok calls)
    (loc : Member → Binding) (hloc : ∀ m, Located responsePrecedence m (loc m))
    (m : Member) (hm : m ∈ ms) (hl : loc m = .prefixHeaders) (p : Text) (hp : m.prefixHeaders = some p) :
    ∃ entries, (∀ src, (∀ v, src ≠ .value v) → ((m, src) ∈ calls ↔ src = .headerMap entries)) ∧
      ∀ key text, (key, text) ∈ entries ↔
        ∃ f ∈ r.fields, ∃ p', f.name = p' ++ key ∧ env.lower p' = env.lower p ∧ text = asString f.values := by
  have hb := loc_eq hloc m
  rw [hl] at hb
  have hr : readMember env r body (Matcher.of matchResponse ms) m =
      .ok [(m, .headerMap (mapEntries env r.fields p))] := by
    unfold readMember
    rw [hb, hp]
    rfl
  refine ⟨mapEntries env r.fields p, fun src hsrc => ?_, fun key text => ?_⟩
  · rw [calls_iff h hm (by simp [hb]) hsrc hr]
    simp
  · obtain ⟨lc, hlc⟩ := hlow
    unfold mapEntries
    simp only [List.mem_map, List.mem_filter, Prod.mk.injEq, List.isPrefixOf_iff_prefix, hlc, List.length_map]
    constructor
    · rintro ⟨f, ⟨hf, rest, hrest⟩, rfl, rfl⟩
      refine ⟨f, hf, f.name.take p.length, (List.take_append_drop _ _).symm, ?_, rfl⟩
      rw [List.map_take, ← hrest, List.take_left' (by simp)]
    · rintro ⟨f, hf, p', hname, hp', rfl⟩
      have hlen : p'.length = p.length := by simpa using congrArg List.length hp'
      refine ⟨f, ⟨hf, ?_⟩, ?_, rfl⟩
      · rw [hname, List.map_append, hp']
        exact List.prefix_append _ _
      · rw [hname, List.drop_left' hlen]

/-- **C79**, status: a member bound to the status is read from it. -/
theorem C79_status (env : REnv V E) (r : Incoming) (body : Option Content) (ms : List Member)
    (calls : List (Member × Source V)) (h : readStruct env r body ms = .ok calls)
    (loc : Member → Binding) (hloc : ∀ m, Located responsePrecedence m (loc m))
    (m : Member) (hm : m ∈ ms) (hl : loc m = .status) (src : Source V) (hsrc : ∀ v, src ≠ .value v) :
    (m, src) ∈ calls ↔ src = .status r.status := by
  have hb := loc_eq hloc m
  rw [hl] at hb
  have hr : readMember env r body (Matcher.of matchResponse ms) m = .ok [(m, .status r.status)] := by
    unfold readMember
    rw [hb]
  rw [calls_iff h hm (by simp [hb]) hsrc hr]
  simp

/-- The body is known to be empty: from the content length if there is one, else from the buffered body. -/
def KnownEmpty (env : REnv V E) (r : Incoming) (body : Option Content) : Prop :=
  (HasHeader env.lower r "content-length".toList ∧
    env.int (asString (fieldValues env.lower r.fields "content-length".toList)) = some 0) ∨
  (¬ HasHeader env.lower r "content-length".toList ∧ (body = some (.bytes []) ∨ body = some (.reader true [])))

theorem hasEmptyBody_iff (env : REnv V E) (r : Incoming) (hd : Fields.Distinct env.lower r.fields)
    (body : Option Content) (x : Bool) (h : hasEmptyBody env r body = .ok x) :
    x = true ↔ KnownEmpty env r body := by
  unfold hasEmptyBody at h
  unfold KnownEmpty
  rcases find_spec env r.fields hd "content-length".toList with ⟨h1, h2⟩ | ⟨f, h1, h2, h3, h4⟩
  · have hn : ¬ HasHeader env.lower r "content-length".toList := by
      rintro ⟨f, hf, hfn⟩
      exact h2 f hf hfn
    rw [h1] at h
    simp only at h
    simp only [hn, false_and, not_false_iff, true_and, false_or]
    split at h
    · simp only [Except.ok.injEq] at h
      subst h
      simp
    · simp only [Except.ok.injEq] at h
      subst h
      simp
    · next hn1 hn2 =>
      simp only [Except.ok.injEq] at h
      subst h
      simp only [Bool.false_eq_true, false_iff, not_or]
      exact ⟨fun hx => hn1 _ hx, fun hx => hn2 _ hx⟩
  · have hh : HasHeader env.lower r "content-length".toList := ⟨f, h2, h3⟩
    rw [h1] at h
    simp only [h4] at h
    simp only [hh, true_and, not_true, false_and, or_false]
    split at h
    · next n hn =>
      simp only [Except.ok.injEq] at h
      subst h
      rw [hn]
      simp
    · cases h

/-- **C79**, payload: the member bound to the payload is read from the body: blobs and strings from its bytes, all
others by the codec.  Lists, maps, unions and structures are left out if the body is empty. -/
theorem C79_payload (env : REnv V E) (r : Incoming) (hd : Fields.Distinct env.lower r.fields) (body : Option Content)
    (ms : List Member) (calls : List (Member × Source V)) (h : readStruct env r body ms = .ok calls)
    (loc : Member → Binding) (hloc : ∀ m, Located responsePrecedence m (loc m))
    (m : Member) (hm : m ∈ ms) (hl : loc m = .payload) (hu : ∀ m' ∈ ms, loc m' = .payload → m' = m)
    (hes : ∀ m' ∈ ms, ¬ (m'.streaming = true ∧ m'.shape = .union)) (src : Source V) (hsrc : ∀ v, src ≠ .value v) :
    (m, src) ∈ calls ↔
      ((m.shape = .blob ∨ m.shape = .string ∨ m.shape = .enum) ∧ src = .raw (body.getD r.body)) ∨
      (¬ (m.shape = .blob ∨ m.shape = .string ∨ m.shape = .enum) ∧
        ¬ ((m.shape = .list ∨ m.shape = .map ∨ m.shape = .union ∨ m.shape = .structure) ∧ KnownEmpty env r body) ∧
        ∃ b, (body.getD r.body = .bytes b ∨ ∃ s, body.getD r.body = .reader s b) ∧ src = .document b) := by
  have hb := loc_eq hloc m
  rw [hl] at hb
  have hpm : (Matcher.of matchResponse ms).payloadMember = some m :=
    payloadMember_unique matchResponse m ms {} (fun x hx hxp => hu x hx (by rw [← loc_eq hloc, hxp]))
      (.inl ⟨m, hm, hb⟩)
  have hev : (Matcher.of matchResponse ms).eventStream = none := (add_spec matchResponse ms {}).2.2 hes
  obtain ⟨cs, bs, h1, h2, rfl⟩ := readStruct_ok h
  have hr : readMember env r body (Matcher.of matchResponse ms) m =
      match shouldReadPayload env r body m with
      | .error e => .error e
      | .ok false => .ok []
      | .ok true => (payloadSource r body m).map fun s => [(m, s)] := by
    unfold readMember
    rw [hb, hpm, hev]
  obtain ⟨c, hc⟩ := readMembers_ok h1 m hm
  have hcalls : (m, src) ∈ cs ++ bs ↔ (m, src) ∈ c := by
    rw [List.mem_append, readMembers_mem h1]
    constructor
    · rintro (⟨m', hm', c', hc', hx⟩ | hx)
      · have : m' = m := by
          rcases readMember_fst hc' hx with ⟨rfl, _⟩ | ⟨hp, _⟩
          · rfl
          · exact hu m' hm' (by rw [← loc_eq hloc, hp])
        subst this
        rw [hc] at hc'
        cases hc'
        exact hx
      · obtain ⟨_, _, v, _, _, _, hv⟩ := readBody_value h2 hx
        exact absurd hv (hsrc v)
    · exact fun hx => .inl ⟨m, hm, c, hc, hx⟩
  rw [hcalls]
  rw [hr] at hc
  -- what is read
  have hps : ∀ s, (payloadSource r body m : Except (RErr E) (Source V)) = .ok s →
      (((m.shape = .blob ∨ m.shape = .string ∨ m.shape = .enum) ∧ s = .raw (body.getD r.body)) ∨
      (¬ (m.shape = .blob ∨ m.shape = .string ∨ m.shape = .enum) ∧
        ∃ b, (body.getD r.body = .bytes b ∨ ∃ s, body.getD r.body = .reader s b) ∧ s = .document b)) := by
    intro s hs
    unfold payloadSource at hs
    split at hs
    · next hraw =>
      simp only [Except.ok.injEq] at hs
      exact .inl ⟨hraw, hs.symm⟩
    · next hraw =>
      right
      refine ⟨hraw, ?_⟩
      unfold bodyBytes at hs
      split at hs
      · next b hb =>
        simp only [Except.map, Except.ok.injEq] at hs
        exact ⟨b, .inl hb, hs.symm⟩
      · next sk b hb =>
        simp only [Except.map, Except.ok.injEq] at hs
        exact ⟨b, .inr ⟨sk, hb⟩, hs.symm⟩
      · cases hs
  have fin : ∀ s, (payloadSource r body m : Except (RErr E) (Source V)) = .ok s →
      ¬ ((m.shape = .list ∨ m.shape = .map ∨ m.shape = .union ∨ m.shape = .structure) ∧ KnownEmpty env r body) →
      ((m, src) ∈ [(m, s)] ↔
      ((m.shape = .blob ∨ m.shape = .string ∨ m.shape = .enum) ∧ src = .raw (body.getD r.body)) ∨
      (¬ (m.shape = .blob ∨ m.shape = .string ∨ m.shape = .enum) ∧
        ¬ ((m.shape = .list ∨ m.shape = .map ∨ m.shape = .union ∨ m.shape = .structure) ∧ KnownEmpty env r body) ∧
        ∃ b, (body.getD r.body = .bytes b ∨ ∃ s, body.getD r.body = .reader s b) ∧ src = .document b)) := by
    intro s hs hne
    simp only [List.mem_singleton, Prod.mk.injEq, true_and]
    rcases hps s hs with ⟨hraw, rfl⟩ | ⟨hraw, b, hbb, rfl⟩
    · simp only [hraw, true_and, not_true, false_and, or_false]
    · simp only [hraw, false_and, false_or, not_false_iff, true_and, hne]
      constructor
      · rintro rfl
        exact ⟨b, hbb, rfl⟩
      · rintro ⟨b', hbb', rfl⟩
        rcases hbb with hb1 | ⟨s1, hb1⟩ <;> rcases hbb' with hb2 | ⟨s2, hb2⟩ <;> rw [hb1] at hb2 <;> cases hb2 <;> rfl
  unfold shouldReadPayload at hc
  by_cases hagg : m.shape = .list ∨ m.shape = .map ∨ m.shape = .union ∨ m.shape = .structure
  · have hnraw : ¬ (m.shape = .blob ∨ m.shape = .string ∨ m.shape = .enum) := by
      rcases hagg with hx | hx | hx | hx <;> simp [hx]
    rw [if_pos hagg] at hc
    cases he : hasEmptyBody env r body with
    | error e => rw [he] at hc; cases hc
    | ok x =>
      have hx := hasEmptyBody_iff env r hd body x he
      rw [he] at hc
      cases x with
      | true =>
        simp only [Except.map, Bool.not_true, Except.ok.injEq] at hc
        subst hc
        simp only [List.not_mem_nil, false_iff, hnraw, false_and, false_or, not_false_iff, true_and, not_and]
        intro hne
        exact absurd (hx.1 rfl) (hne hagg)
      | false =>
        simp only [Except.map, Bool.not_false] at hc
        have hne : ¬ KnownEmpty env r body := fun hk => by simpa using hx.2 hk
        cases hs : (payloadSource r body m : Except (RErr E) (Source V)) with
        | error e => rw [hs] at hc; cases hc
        | ok s =>
          rw [hs] at hc
          simp only [Except.ok.injEq] at hc
          subst hc
          exact fin s hs fun hk => hne hk.2
  · rw [if_neg hagg] at hc
    simp only at hc
    cases hs : (payloadSource r body m : Except (RErr E) (Source V)) with
    | error e => rw [hs] at hc; cases hc
    | ok s =>
      rw [hs] at hc
      simp only [Except.map, Except.ok.injEq] at hc
      subst hc
      exact fin s hs fun hk => hagg hk.1

/-- **C79**, body: the codec reads the whole body, if some member is bound to it and it is not empty, and every value
it finds is handed out. -/
theorem C79_body (env : REnv V E) (r : Incoming) (hd : Fields.Distinct env.lower r.fields) (body : Option Content)
    (ms : List Member) (calls : List (Member × Source V)) (h : readStruct env r body ms = .ok calls)
    (loc : Member → Binding) (hloc : ∀ m, Located responsePrecedence m (loc m)) (m : Member) (v : V) :
    (m, .value v) ∈ calls ↔ (∃ m' ∈ ms, loc m' = .body) ∧ ¬ KnownEmpty env r body ∧
      ∃ b vs, (body.getD r.body = .bytes b ∨ ∃ s, body.getD r.body = .reader s b) ∧ env.decode b ms = .ok vs ∧
        (m, v) ∈ vs := by
  obtain ⟨cs, bs, h1, h2, rfl⟩ := readStruct_ok h
  have hcs : (m, .value v) ∉ cs := by
    rw [readMembers_mem h1]
    rintro ⟨m', hm', c, hc, hx⟩
    unfold readMember at hc
    split at hc
    · split at hc
      · cases hc; cases hx
      · split at hc <;> (cases hc; simp at hx)
    · cases hc; simp at hx
    · cases hc; simp at hx
    · split at hc
      · split at hc
        · cases hc
        · cases hc; cases hx
        · next _ _ pm _ _ _ _ =>
          cases hs : (payloadSource r body pm : Except (RErr E) (Source V)) with
          | error e => rw [hs] at hc; cases hc
          | ok s =>
            rw [hs] at hc
            simp only [Except.map, Except.ok.injEq] at hc
            subst hc
            simp only [List.mem_singleton, Prod.mk.injEq] at hx
            obtain ⟨rfl, rfl⟩ := hx
            unfold payloadSource at hs
            split at hs
            · cases hs
            · cases hbb : (bodyBytes r body : Except (RErr E) Bytes) <;> rw [hbb] at hs <;> cases hs
      · cases hc; cases hx
    · cases hc; cases hx
  have hbody : (Matcher.of matchResponse ms).hasBody = true ↔ ∃ m' ∈ ms, loc m' = .body := by
    have := (add_spec matchResponse ms {}).1
    unfold Matcher.of
    rw [this, loc_response hloc]
    have hh : ∀ m, matchResponse m ≠ .host := by
      intro m
      unfold matchResponse
      repeat' split
      all_goals simp
    simp [hh]
  rw [List.mem_append]
  simp only [hcs, false_or]
  unfold readBody at h2
  by_cases hb : (Matcher.of matchResponse ms).hasBody = true
  · rw [if_pos hb] at h2
    simp only [hbody.1 hb, true_and]
    cases he : hasEmptyBody env r body with
    | error e => rw [he] at h2; cases h2
    | ok x =>
      have hx := hasEmptyBody_iff env r hd body x he
      rw [he] at h2
      cases x with
      | true =>
        simp only [Except.ok.injEq] at h2
        subst h2
        simp [hx.1 rfl]
      | false =>
        have hne : ¬ KnownEmpty env r body := fun hk => by simpa using hx.2 hk
        simp only at h2
        simp only [hne, not_false_iff, true_and]
        have fin : ∀ b, (bodyBytes r body : Except (RErr E) Bytes) = .ok b →
            (∀ b', (body.getD r.body = .bytes b' ∨ ∃ s, body.getD r.body = .reader s b') ↔ b' = b) →
            ((m, Source.value v) ∈ bs ↔
              ∃ b vs, (body.getD r.body = .bytes b ∨ ∃ s, body.getD r.body = .reader s b) ∧ env.decode b ms = .ok vs ∧
                (m, v) ∈ vs) := by
          intro b hb hiff
          rw [hb] at h2
          simp only at h2
          cases hdec : env.decode b ms with
          | error e => rw [hdec] at h2; cases h2
          | ok vs =>
            rw [hdec] at h2
            simp only [Except.ok.injEq] at h2
            subst h2
            constructor
            · intro hmem
              rw [List.mem_map] at hmem
              obtain ⟨y, hy, hye⟩ := hmem
              simp only [Prod.mk.injEq, Source.value.injEq] at hye
              obtain ⟨rfl, rfl⟩ := hye
              exact ⟨b, vs, (hiff b).2 rfl, hdec, hy⟩
            · rintro ⟨b', vs', hb', hdec', hmem⟩
              obtain rfl := (hiff b').1 hb'
              rw [hdec] at hdec'
              cases hdec'
              exact List.mem_map.2 ⟨(m, v), hmem, rfl⟩
        cases hcont : body.getD r.body with
        | bytes b =>
          rw [← hcont]
          refine fin b (by unfold bodyBytes; rw [hcont]) fun b' => ?_
          rw [hcont]
          simp [eq_comm]
        | reader s b =>
          rw [← hcont]
          refine fin b (by unfold bodyBytes; rw [hcont]) fun b' => ?_
          rw [hcont]
          simp [eq_comm]
        | async i =>
          have hbb : (bodyBytes r body : Except (RErr E) Bytes) = .error .unsupportedStream := by
            unfold bodyBytes; rw [hcont]
          rw [hbb] at h2
          cases h2
  · rw [if_neg hb] at h2
    simp only [Except.ok.injEq] at h2
    subst h2
    have : ¬ ∃ m' ∈ ms, loc m' = .body := fun hx => hb (hbody.2 hx)
    simp [this]

/-- **C79**: where the codec finds no member in the body that is bound elsewhere, every member is read from the place
it is bound to only. -/
theorem C79_bound_partial (env : REnv V E) (r : Incoming) (hd : Fields.Distinct env.lower r.fields)
    (body : Option Content) (ms : List Member) (calls : List (Member × Source V))
    (h : readStruct env r body ms = .ok calls)
    (loc : Member → Binding) (hloc : ∀ m, Located responsePrecedence m (loc m))
    (hdec : ∀ b vs, env.decode b ms = .ok vs → ∀ v ∈ vs, loc v.1 = .body) (m : Member) (src : Source V)
    (hx : (m, src) ∈ calls) :
    match loc m with
    | .header => (∃ t, src = .header t) ∨ ∃ vs, src = .headerList vs
    | .prefixHeaders => ∃ es, src = .headerMap es
    | .status => src = .status r.status
    | .payload => (∃ c, src = .raw c) ∨ ∃ b, src = .document b
    | .body => ∃ v, src = .value v
    | _ => False := by
  by_cases hv : ∃ v, src = .value v
  · obtain ⟨v, rfl⟩ := hv
    obtain ⟨_, _, b, vs, _, h2, h3⟩ := (C79_body env r hd body ms calls h loc hloc m v).1 hx
    rw [hdec b vs h2 _ h3]
    exact ⟨v, rfl⟩
  · have hsrc : ∀ v, src ≠ .value v := fun v hv' => hv ⟨v, hv'⟩
    obtain ⟨cs, bs, h1, h2, rfl⟩ := readStruct_ok h
    rw [List.mem_append] at hx
    rcases hx with hx | hx
    · rw [readMembers_mem h1] at hx
      obtain ⟨m', hm', c, hc, hx⟩ := hx
      have hfst := readMember_fst hc hx
      unfold readMember at hc
      split at hc
      · next hl =>
        simp only [hl, reduceCtorEq, not_false_iff, and_true, false_and, or_false, ne_eq] at hfst
        subst hfst
        rw [← loc_eq hloc, hl]
        split at hc
        · cases hc; cases hx
        · split at hc
          · cases hc
            simp only [List.mem_singleton, Prod.mk.injEq, true_and] at hx
            exact .inr ⟨_, hx⟩
          · cases hc
            simp only [List.mem_singleton, Prod.mk.injEq, true_and] at hx
            exact .inl ⟨_, hx⟩
      · next hl =>
        simp only [hl, reduceCtorEq, not_false_iff, and_true, false_and, or_false, ne_eq] at hfst
        subst hfst
        rw [← loc_eq hloc, hl]
        cases hc
        simp only [List.mem_singleton, Prod.mk.injEq, true_and] at hx
        exact ⟨_, hx⟩
      · next hl =>
        simp only [hl, reduceCtorEq, not_false_iff, and_true, false_and, or_false, ne_eq] at hfst
        subst hfst
        rw [← loc_eq hloc, hl]
        cases hc
        simp only [List.mem_singleton, Prod.mk.injEq, true_and] at hx
        exact hx
      · next hl =>
        simp only [hl, true_and, not_true, and_false, false_or, ne_eq] at hfst
        rw [← loc_eq hloc, hfst]
        split at hc
        · split at hc
          · cases hc
          · cases hc; cases hx
          · next _ _ pm _ _ _ _ =>
            cases hs : (payloadSource r body pm : Except (RErr E) (Source V)) with
            | error e => rw [hs] at hc; cases hc
            | ok s =>
              rw [hs] at hc
              simp only [Except.map, Except.ok.injEq] at hc
              subst hc
              simp only [List.mem_singleton, Prod.mk.injEq] at hx
              obtain ⟨rfl, rfl⟩ := hx
              unfold payloadSource at hs
              split at hs
              · cases hs
                exact .inl ⟨_, rfl⟩
              · cases hbb : (bodyBytes r body : Except (RErr E) Bytes) with
                | error e => rw [hbb] at hs; cases hs
                | ok b =>
                  rw [hbb] at hs
                  cases hs
                  exact .inr ⟨_, rfl⟩
        · cases hc; cases hx
      · cases hc; cases hx
    · obtain ⟨_, _, v, _, _, _, hv⟩ := readBody_value h2 hx
      exact absurd hv (hsrc v)

/-! ## The hypotheses are met -/

/-- An output with a header, a map of headers, the status and a member in the body. -/
def tagMember : Member := { name := "tag".toList, shape := .string, header := some "X-Tag".toList }
def metaMember : Member := { name := "meta".toList, shape := .map, prefixHeaders := some "X-Meta-".toList }
def codeMember : Member := { name := "code".toList, shape := .scalar, responseCode := true }
def textMember : Member := { name := "text".toList, shape := .string }

def exampleMembers : List Member := [tagMember, metaMember, codeMember, textMember]

/-- A codec that finds the given members in any body. -/
def exampleEnv (found : List (Member × Nat)) : REnv Nat Unit where
  lower := Fields.ascii
  int := fun t => if t = "0".toList then some 0 else some 1
  decode := fun _ _ => .ok found

def exampleResponse : Incoming where
  status := "200".toList
  fields := [⟨"x-tag".toList, ["a".toList], .header⟩, ⟨"X-META-Color".toList, ["red".toList], .header⟩]
  body := .bytes [0]

example : Fields.Distinct (exampleEnv []).lower exampleResponse.fields := by decide

example : CharWise Fields.ascii := ⟨Char.toLower, fun _ => rfl⟩

example : (readStruct (exampleEnv [(textMember, 7)]) exampleResponse none exampleMembers) =
    .ok [(tagMember, .header "a".toList), (metaMember, .headerMap [("Color".toList, "red".toList)]),
      (codeMember, .status "200".toList), (textMember, .value 7)] := by decide +kernel

/-- **C79** is false of the code in full: a key of the body that has the name of a member bound to a header, is
handed out for that member too, after the header, and replaces it. -/
theorem C79_body_overrides_header_fails :
    Located responsePrecedence tagMember .header ∧
    (readStruct (exampleEnv [(textMember, 7), (tagMember, 8)]) exampleResponse none exampleMembers).map
      (fun calls => final calls tagMember) = .ok (some (.value 8)) := by
  refine ⟨(C29_response_location _ _).2 (by decide), by decide +kernel⟩

/-- A codec that refuses an empty document, as JSON does. -/
def strictEnv : REnv Nat Unit where
  lower := Fields.ascii
  int := fun _ => some 1
  decode := fun b _ => if b = [] then .error () else .ok []

/-- An empty body that was not buffered and has no content length is not seen to be empty: the codec is asked to read
nothing. -/
theorem C79_empty_body_fails :
    readStruct strictEnv { exampleResponse with body := .bytes [] } none exampleMembers = .error (.codec ()) ∧
    (readStruct strictEnv { exampleResponse with body := .bytes [] } (some (.bytes [])) exampleMembers).isOk := by
  constructor <;> decide +kernel

end Verif.Http.Reading

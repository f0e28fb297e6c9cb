import Verif.RestJson.Writing
import Verif.GeneratedSerde.Any
import Verif.Http.RestJson

/-!
# The output of an operation, from the service to the caller: theorems (C129)
-/

set_option autoImplicit false

namespace Verif.RestJson

open Verif.GeneratedSerde (Py Ref Model Shape Simple Typed Same Call Good find_name target_member
  core typed_notNone mem_attributes attr_inj name_inj lookup_field each_fields depth_mem depth_entry lookup_put')
open Verif.Timestamps (DateTime)
open Verif.Http (Binding Val Response matchResponse Matcher serializeResponse serializeResponse_ok C29_response_location
  add_spec headersOf named extraHeaders toFields fieldValues writeAll payloadOf)
open Verif.Http.Reading (Source REnv RErr Incoming Content readStruct readBody readMembers readMember calls_iff
  readStruct_ok readMembers_mem readMember_fst readBody_value C79_body find_spec)
open Verif.Http.RoundTrip (received namesOf ownNames fields_distinct C80_header C80_prefix_headers C80_status C80_body length_written Locates)
open Verif.Http.RestJson (utf8 utf8_inj utf8_nil not_jsonText_nil)
open Verif.Numerals (natText intText intValue)
open Verif.Scalars.Strict (Num)
open Verif.HeaderText (asString)

variable {w : World} {nearest : Rat → Num Rat} {cls : Nat}

theorem locates : Locates matchResponse := fun m => (C29_response_location m _).2 rfl

theorem forall₂_imp {A B : Type} {R S : A → B → Prop} : ∀ {xs : List A} {ys : List B}, List.Forall₂ R xs ys →
    (∀ x ∈ xs, ∀ y, R x y → S x y) → List.Forall₂ S xs ys
  | [], _, .nil, _ => .nil
  | x :: _, _, .cons h hs, f => .cons (f x List.mem_cons_self _ h) (forall₂_imp hs fun y hy => f y (List.mem_cons_of_mem _ hy))

theorem forall₂_left {A B : Type} {R : A → B → Prop} : ∀ {xs : List A} {ys : List B}, List.Forall₂ R xs ys →
    ∀ x ∈ xs, ∃ y ∈ ys, R x y
  | [], _, .nil, x, hx => by cases hx
  | _ :: _, _, .cons h hs, x, hx => by
    rcases List.mem_cons.1 hx with rfl | hx
    · exact ⟨_, List.mem_cons_self, h⟩
    · obtain ⟨y, hy, hr⟩ := forall₂_left hs x hx
      exact ⟨y, List.mem_cons_of_mem _ hy, hr⟩

theorem forall₂_right {A B : Type} {R : A → B → Prop} : ∀ {xs : List A} {ys : List B}, List.Forall₂ R xs ys →
    ∀ y ∈ ys, ∃ x ∈ xs, R x y
  | [], _, .nil, x, hx => by cases hx
  | _ :: _, _, .cons h hs, x, hx => by
    rcases List.mem_cons.1 hx with rfl | hx
    · exact ⟨_, List.mem_cons_self, h⟩
    · obtain ⟨y, hy, hr⟩ := forall₂_right hs x hx
      exact ⟨y, List.mem_cons_of_mem _ hy, hr⟩

theorem placed_fst {value : GMember → P} : ∀ {xs : List GMember} {ws : List (Http.Member × Val)},
    List.Forall₂ (fun x u => Placed w cls x (value x) u) xs ws → ws.map Prod.fst = xs.map w.member
  | [], _, .nil => rfl
  | _ :: _, _, .cons h hs => by rw [List.map_cons, List.map_cons, h.1, placed_fst hs]

theorem member_inj (hw : w.Ok nearest) {x y : GMember} (hx : x ∈ w.model.members cls) (hy : y ∈ w.model.members cls)
    (h : w.member x = w.member y) : x = y :=
  name_inj _ (hw.names.names cls) y hy x hx (congrArg Http.Member.name h)

/-! ## The response -/

/-- A write that is placed is taken. -/
theorem write_ok {x : GMember} {v : P} {u : Http.Member × Val}
    (hp : Placed w cls x v u) (p : Http.Parts) : ∃ p', p.writeResponse u.1 u.2 = .ok p' := by
  obtain ⟨m, val⟩ := u
  obtain ⟨rfl, hp⟩ := hp
  have hh : matchResponse (w.member x) = .header → ∃ k, (w.member x).header = some k := header_some
  unfold Http.Parts.writeResponse
  rcases hp with ⟨h, i, rfl⟩ | ⟨h, _, t, v', rfl, _⟩ | ⟨h, _, ts, v', rfl, _⟩ | ⟨h, hs, t, v', rfl, _⟩ | ⟨h, kvs, v', rfl, _⟩
  · simp only [h]; exact ⟨_, rfl⟩
  · obtain ⟨k, hk⟩ := hh h
    simp only [h, Http.headerEntries, hk]; exact ⟨_, rfl⟩
  · obtain ⟨k, hk⟩ := hh h
    simp only [h, Http.headerEntries, hk]; exact ⟨_, rfl⟩
  · have : (w.member x).shape = .scalar := hs
    simp only [h, this, if_true]; exact ⟨_, rfl⟩
  · obtain ⟨p, hp⟩ := prefix_some h
    simp only [h, Http.headerEntries, hp]; exact ⟨_, rfl⟩

theorem writeAll_ok : ∀ (ws : List (Http.Member × Val)), (∀ u ∈ ws, ∀ p : Http.Parts, ∃ p', p.writeResponse u.1 u.2 = .ok p') →
    ∀ p : Http.Parts, ∃ p', writeAll Http.Parts.writeResponse p ws = .ok p'
  | [], _, p => ⟨p, rfl⟩
  | (m, v) :: ws, h, p => by
    obtain ⟨p', hp⟩ := h (m, v) List.mem_cons_self p
    obtain ⟨p'', hp'⟩ := writeAll_ok ws (fun u hu => h u (List.mem_cons_of_mem _ hu)) p'
    exact ⟨p'', by simp only [writeAll, hp, hp']⟩

theorem no_payload (hb : w.Bound cls) : ∀ m ∈ w.members cls, matchResponse m ≠ .payload := by
  intro m hm
  obtain ⟨x, hx, rfl⟩ := List.mem_map.1 hm
  rcases loc_cases hb hx with ⟨_, h⟩ | ⟨_, _, _, h⟩ | ⟨_, _, _, h⟩ | ⟨_, _, _, _, h⟩ <;> rw [h] <;> simp

theorem no_stream (hb : w.Bound cls) : ∀ m ∈ w.members cls, ¬(m.streaming = true ∧ m.shape = .union) := by
  rintro m hm ⟨h, _⟩
  obtain ⟨x, hx, rfl⟩ := List.mem_map.1 hm
  have := hb.streams x hx
  rw [show (w.member x).streaming = w.model.isStream x from rfl, this] at h
  cases h

theorem serialize_ok (hb : w.Bound cls) (env : Http.Env) (errorStatus : Option Text) (code : Text) (omitEmpty : Bool)
    {ws : List (Http.Member × Val)} (hws : ∀ u ∈ ws, ∃ x ∈ w.model.members cls, ∃ v, Placed w cls x v u) :
    ∃ r bytes, serializeResponse env errorStatus code omitEmpty (w.members cls) ws = .ok r ∧ r.body = .bytes bytes := by
  obtain ⟨p, hp⟩ := writeAll_ok ws (fun u hu p => by
    obtain ⟨x, hx, v, h⟩ := hws u hu
    exact write_ok h p) {}
  obtain ⟨_, h2, h3⟩ := add_spec matchResponse (w.members cls) {}
  have e1 : (Matcher.of matchResponse (w.members cls)).eventStream = none := h3 (no_stream hb)
  have e2 : (Matcher.of matchResponse (w.members cls)).payloadMember = none := (h2 (no_payload hb)).1
  unfold serializeResponse
  rw [hp]
  simp only [payloadOf, e1, e2]
  cases (Matcher.of matchResponse (w.members cls)).shouldWriteBody omitEmpty <;>
    simp only [if_true, Bool.false_eq_true, if_false, Bool.false_and] <;> exact ⟨_, _, rfl, rfl⟩

theorem namesOf_placed {x : GMember} {v : P} {u : Http.Member × Val}
    (hp : Placed w cls x v u) : ∀ n ∈ namesOf matchResponse u, (w.traits x).header = some n ∨
      ∃ p key, (w.traits x).prefixHeaders = some p ∧ n = p ++ key := by
  obtain ⟨m, val⟩ := u
  obtain ⟨rfl, hp⟩ := hp
  intro n hn
  rcases hp with ⟨h, _⟩ | ⟨h, _, t, _, rfl, _⟩ | ⟨h, _, ts, _, rfl, _⟩ | ⟨h, _⟩ | ⟨h, kvs, _, rfl, _⟩
  · simp [namesOf, headersOf, h] at hn
  · obtain ⟨k, hk⟩ := header_some h
    simp [namesOf, headersOf, h, named, hk] at hn
    rw [hn]
    exact .inl hk
  · obtain ⟨k, hk⟩ := header_some h
    simp [namesOf, headersOf, h, named, hk] at hn
    rw [hn.2]
    exact .inl hk
  · simp [namesOf, headersOf, h] at hn
  · obtain ⟨p, hp⟩ := prefix_some h
    simp only [namesOf, headersOf, h, named, hp, List.filter_cons, List.filter_nil, reduceCtorEq, or_true, decide_true, if_true,
      List.flatMap_cons, List.flatMap_nil, List.append_nil, Option.getD_some, List.map_map, List.mem_map] at hn
    obtain ⟨kv, _, rfl⟩ := hn
    exact .inr ⟨p, kv.1, hp, rfl⟩

/-! ## The document -/

theorem decode_ok (hw : w.Ok nearest) {ms : List GMember} (hs : w.model.shape cls = some (.struct ms)) {value : GMember → P}
    {xs : List GMember} {cs : List (Call Double DateTime)} (hx : ∀ x ∈ xs, x ∈ ms ∧ w.model.isStream x = false)
    (hn : (xs.map (·.attr)).Nodup)
    (hg : List.Forall₂ (fun x c => Good w.model w.st w.rd x.target (.member cls x.name) (value x) c) xs cs) :
    ∃ (b : Bytes) (js : List (Text × Json.Json)), (match w.model.jsonMembers cs with
        | none => []
        | some jcs => utf8 (Json.write w.st [] (.struct jcs))) = b ∧ b ≠ [] ∧ w.parse b = some (.obj js) ∧
      ∀ b' js', w.parse b' = some (.obj js') → Adds w cls js js' → ∃ vs : GMember → P,
        w.decode cls b' = .ok (xs.map fun x => (w.member x, vs x)) ∧ ∀ x ∈ xs, Same (value x) (vs x) := by
  have hms : w.model.members cls = ms := by simp only [Model.members, hs]
  obtain ⟨jcs, h1, h2, h3⟩ := read_written hw.names hw.fits hw.view xs cs (fun x h => ⟨hms ▸ (hx x h).1, (hx x h).2⟩) hn hg
  obtain ⟨j, h4, h5, _⟩ := Json.C43_well_formed_partial w.st hw.settings (.struct jcs) h2
  obtain ⟨js, rfl, h6⟩ := h5
  refine ⟨_, js, by simp only [h1], ?_, hw.parse _ _ h4, fun b' js' hp ha => ?_⟩
  · intro h0
    have := utf8_inj (h0.trans utf8_nil.symm)
    rw [this] at h4
    exact not_jsonText_nil h4
  have hsize := Json.memberSizes_events js' []
  obtain ⟨vs, h7, h8⟩ := h3 js h6 js' ha [] [] [] (2 * (Json.memberEvents [] js' ++ [(⟨Json.join [], .endMap⟩ : Json.Event)]).length + 4)
    (by rw [List.length_append]; omega) (by simp)
  refine ⟨vs, ?_, h8⟩
  · unfold World.decode
    rw [hp]
    simp only [Json.events, if_true, h7, List.nil_append, Except.ok.injEq]
    rw [List.filterMap_map]
    clear h1 h2 h3 h7 h8 hn hg
    induction xs with
    | nil => rfl
    | cons x xs ih =>
      have hfind : (w.model.members cls).find? (fun y => y.attr = x.attr) = some x := by
        rw [hms]
        cases hf : ms.find? (fun y => y.attr = x.attr) with
        | none =>
          rw [List.find?_eq_none] at hf
          exact absurd (decide_eq_true (Eq.refl x.attr)) (hf x (hx x List.mem_cons_self).1)
        | some y =>
          have h1 := List.mem_of_find?_eq_some hf
          have h2 : y.attr = x.attr := by simpa using List.find?_some hf
          rw [attr_inj ms (hw.names.attrs cls ms hs) x (hx x List.mem_cons_self).1 y h1 h2]
      have ih := ih fun y hy => hx y (List.mem_cons_of_mem _ hy)
      rw [List.filterMap_cons, List.map_cons, ih]
      simp only [Function.comp_apply, hfind, Option.map_some]

/-! ## The calls of the consumer -/

theorem readMembers_total {V E : Type} (env : REnv V E) (r : Incoming) (body : Option Content) (a : Matcher) :
    ∀ ms : List Http.Member, (∀ m ∈ ms, matchResponse m ≠ .payload) → ∃ cs, readMembers env r body a ms = .ok cs
  | [], _ => ⟨[], rfl⟩
  | m :: ms, h => by
    obtain ⟨cs, h1⟩ := readMembers_total env r body a ms fun x hx => h x (List.mem_cons_of_mem _ hx)
    have hm := h m List.mem_cons_self
    obtain ⟨c, hc⟩ : ∃ c, readMember env r body a m = .ok c := by
      unfold readMember
      cases hl : matchResponse m with
      | payload => exact absurd hl hm
      | header =>
        simp only
        cases Http.Reading.find env r.fields (m.header.getD []) with
        | none => exact ⟨_, rfl⟩
        | some f =>
          simp only
          by_cases hs : m.shape = .list
          · rw [if_pos hs]; exact ⟨_, rfl⟩
          · rw [if_neg hs]; exact ⟨_, rfl⟩
      | _ => exact ⟨_, rfl⟩
    exact ⟨c ++ cs, by simp only [readMembers, hc, h1]⟩

/-- The members for which the consumer is called. -/
theorem calls_members (hb : w.Bound cls) {r : Incoming} {body : Option Content} {calls : List (Http.Member × Source P)}
    (h : readStruct (w.renv cls) r body (w.members cls) = .ok calls)
    {m : Http.Member} {src : Source P} (hc : (m, src) ∈ calls) :
    (m ∈ w.members cls ∧ matchResponse m ≠ .body) ∨ ∃ v, src = .value v := by
  obtain ⟨cs, bs, h1, h2, rfl⟩ := readStruct_ok h
  rcases List.mem_append.1 hc with hc | hc
  · rw [readMembers_mem h1] at hc
    obtain ⟨m', hm', c, hr, hx⟩ := hc
    rcases readMember_fst hr hx with ⟨rfl, _⟩ | ⟨hp, _⟩
    · refine .inl ⟨hm', fun hl => ?_⟩
      unfold readMember at hr
      simp only [hl, Except.ok.injEq] at hr
      subst hr
      cases hx
    · exact absurd hp (no_payload hb m' hm')
  · obtain ⟨_, _, v, _, _, _, hv⟩ := readBody_value h2 hc
    exact .inr ⟨v, hv⟩

theorem consume_ok (hw : w.Ok nearest) {ms : List GMember} (hs : w.model.shape cls = some (.struct ms)) {val : GMember → P} :
    ∀ (calls : List (Http.Member × Source P)) (kwargs : List (Text × P)),
    (∀ u ∈ calls, ∃ x ∈ ms, u.1 = w.member x ∧ w.readSource cls x u.2 = .ok (val x)) →
    ∃ kw, w.consume cls kwargs calls = .ok kw ∧ ∀ x ∈ ms,
      ((∃ src, (w.member x, src) ∈ calls) → kw.lookup x.attr = some (val x)) ∧
      ((∀ src, (w.member x, src) ∉ calls) → kw.lookup x.attr = kwargs.lookup x.attr)
  | [], kwargs, _ => ⟨kwargs, rfl, fun x _ => ⟨fun ⟨_, h⟩ => (by cases h), fun _ => rfl⟩⟩
  | (hm, src) :: r, kwargs, h => by
    have hms : w.model.members cls = ms := by simp only [Model.members, hs]
    obtain ⟨x, hx, h1, h2⟩ := h (hm, src) List.mem_cons_self
    simp only at h1 h2
    subst h1
    obtain ⟨kw, h3, h4⟩ := consume_ok hw hs r (Json.put kwargs x.attr (val x)) fun u hu => h u (List.mem_cons_of_mem _ hu)
    have hfind : (w.model.members cls).find? (fun y => y.name = (w.member x).name) = some x :=
      find_name hw.names (hms ▸ hx)
    refine ⟨kw, by simp only [World.consume, hfind, h2, h3], fun y hy => ⟨?_, ?_⟩⟩
    · rintro ⟨src', hc⟩
      by_cases hr : ∃ src, (w.member y, src) ∈ r
      · exact (h4 y hy).1 hr
      · have hr' : ∀ src, (w.member y, src) ∉ r := fun s hs => hr ⟨s, hs⟩
        rcases List.mem_cons.1 hc with he | hc
        · have : y = x := member_inj hw (hms ▸ hy) (hms ▸ hx) (Prod.mk.inj he).1
          subst this
          rw [(h4 y hy).2 hr', lookup_put', if_pos rfl]
        · exact absurd hc (hr' src')
    · intro hno
      have hr' : ∀ src, (w.member y, src) ∉ r := fun s hs => hno s (List.mem_cons_of_mem _ hs)
      have hne : y.attr ≠ x.attr := by
        intro he
        have := attr_inj ms (hw.names.attrs cls ms hs) x hx y hy he
        subst this
        exact hno src List.mem_cons_self
      rw [(h4 y hy).2 hr', lookup_put', if_neg hne]

/-- The calls for the members of a response, where the codec hands out these values. -/
theorem calls_for (hw : w.Ok nearest) (hb : w.Bound cls) {errorStatus : Option Text} {code : Text} {omitEmpty : Bool}
    {env : Http.Env} (hlow : env.lower = w.lower) {value : GMember → P} {xs : List GMember} {ws : List (Http.Member × Val)}
    (hxs : ∀ x ∈ xs, x ∈ w.model.members cls) (hnd : xs.Nodup)
    (hws : List.Forall₂ (fun x u => Placed w cls x (value x) u) xs ws) {r : Response} {bytes : Bytes}
    (hr : serializeResponse env errorStatus code omitEmpty (w.members cls) ws = .ok r) {body : Option Content}
    {calls : List (Http.Member × Source P)}
    (hread : readStruct (w.renv cls) (received r bytes) body (w.members cls) = .ok calls) {vs : GMember → P}
    (hvs : ∀ x ∈ xs, matchResponse (w.member x) = .body → Same (value x) (vs x))
    (hval : ∀ m v, (m, .value v) ∈ calls ↔ ∃ x ∈ xs, matchResponse (w.member x) = .body ∧ m = w.member x ∧ v = vs x)
    {x : GMember} (hx : x ∈ w.model.members cls) :
    (x ∈ xs → ∃ v, Same (value x) v ∧ (∃ src, (w.member x, src) ∈ calls) ∧
      ∀ src, (w.member x, src) ∈ calls → w.readSource cls x src = .ok v) ∧
    (x ∉ xs → matchResponse (w.member x) ≠ .status → matchResponse (w.member x) ≠ .prefixHeaders →
      ∀ src, (w.member x, src) ∉ calls) := by
  have hmem : w.member x ∈ w.members cls := List.mem_map_of_mem hx
  have hnodup : (ws.map Prod.fst).Nodup := by
    rw [placed_fst hws]
    exact hnd.map_on fun a ha b hb' h => member_inj hw (hxs a ha) (hxs b hb') h
  have hnv : matchResponse (w.member x) ≠ .body → ∀ src, (w.member x, src) ∈ calls → ∀ v, src ≠ .value v := by
    rintro hl src hc v rfl
    obtain ⟨y, hy, hl', he, -⟩ := (hval _ _).1 hc
    rw [he] at hl
    exact hl hl'
  have halone : ∀ pre post v, ws = pre ++ (w.member x, v) :: post → ∀ u ∈ pre ++ post, u.1 ≠ w.member x := by
    rintro pre post v rfl u hu he
    rw [List.map_append, List.map_cons] at hnodup
    have hn' := (List.nodup_middle.1 hnodup)
    rw [List.nodup_cons, ← List.map_append] at hn'
    exact hn'.1 (List.mem_map.2 ⟨u, hu, he⟩)
  have hother : ∀ u ∈ ws, u.1 ≠ w.member x → ∀ k, (w.traits x).header = some k →
      ∀ a ∈ namesOf matchResponse u, env.lower a ≠ env.lower k := by
    intro u hu hne k hk a ha hlower
    obtain ⟨y, hy, hp⟩ := forall₂_right hws u hu
    rw [hlow] at hlower
    rcases namesOf_placed hp a ha with hy' | ⟨p, key, hy', rfl⟩
    swap
    · obtain ⟨hcw, -, h2, -⟩ := hb.prefixes y (hxs y hy) p hy'
      refine h2 x hx k hk ?_
      rw [← hlower]
      exact lower_prefix hcw p key
    have := hb.headers y (hxs y hy) x hx a k hy' hk hlower
    exact hne (by rw [hp.1, this])
  have hown : ∀ k, (w.traits x).header = some k → ∀ a ∈ ownNames, env.lower a ≠ env.lower k := by
    intro k hk a ha
    obtain ⟨h1, h2⟩ := hb.own x hx k hk
    rw [hlow]
    simp only [ownNames, List.mem_cons, List.not_mem_nil, or_false] at ha
    rcases ha with rfl | rfl
    · exact fun e => h1 e.symm
    · exact fun e => h2 e.symm
  constructor
  · intro hxw
    obtain ⟨u, hu, hp⟩ := forall₂_left hws x hxw
    obtain ⟨m, val⟩ := u
    obtain ⟨rfl, hp⟩ := hp
    obtain ⟨pre, post, hsplit⟩ := List.append_of_mem hu
    have hal := halone pre post val hsplit
    have hal' : ∀ k, (w.traits x).header = some k → ∀ u ∈ pre ++ post, ∀ a ∈ namesOf matchResponse u, env.lower a ≠ env.lower k :=
      fun k hk u hu' => hother u (by rw [hsplit]; simp only [List.mem_append, List.mem_cons] at hu' ⊢; tauto) (hal u hu') k hk
    have hhead : matchResponse (w.member x) = .header → ∃ k, (w.traits x).header = some k := by
      intro h
      rcases loc_cases hb hx with ⟨_, h'⟩ | ⟨_, k, hk, _⟩ | ⟨_, _, _, h'⟩ | ⟨_, _, _, _, h'⟩
      · rw [h] at h'; cases h'
      · exact ⟨k, hk⟩
      · rw [h] at h'; cases h'
      · rw [h] at h'; cases h'
    rcases hp with ⟨hl, i, rfl⟩ | ⟨hl, hsh, t, v', rfl, hrd, hsame⟩ | ⟨hl, hsh, ts, v', rfl, hne, hrd, hsame⟩ |
      ⟨hl, hsh, t, v', rfl, hrd, hsame⟩ | ⟨hl, kvs, v', rfl, hnd', hrd, hsame⟩
    · refine ⟨vs x, hvs x hxw hl, ⟨.value (vs x), (hval _ _).2 ⟨x, hxw, hl, rfl, rfl⟩⟩, fun src hc => ?_⟩
      rcases calls_members hb hread hc with ⟨_, h⟩ | ⟨v, rfl⟩
      · exact absurd hl h
      · obtain ⟨y, hy, _, he, rfl⟩ := (hval _ _).1 hc
        rw [member_inj hw hx (hxs y hy) he]
        rfl
    · obtain ⟨k, hk⟩ := hhead hl
      have h := (C80_header env (w.renv cls) hlow.symm errorStatus code omitEmpty _ ws r hr matchResponse locates bytes body calls
        hread (w.member x) hmem hl k hk (hown k hk)).1 pre post t hsplit hsh (hal' k hk)
      refine ⟨v', hsame, ⟨.header t, (h _ (by simp)).2 rfl⟩, fun src hc => ?_⟩
      rw [(h src (hnv (by rw [hl]; simp) src hc)).1 hc, hrd]
    · obtain ⟨k, hk⟩ := hhead hl
      have h := (C80_header env (w.renv cls) hlow.symm errorStatus code omitEmpty _ ws r hr matchResponse locates bytes body calls
        hread (w.member x) hmem hl k hk (hown k hk)).2.1 pre post ts hsplit hsh hne (hal' k hk)
      refine ⟨v', hsame, ⟨.headerList ts, (h _ (by simp)).2 rfl⟩, fun src hc => ?_⟩
      rw [(h src (hnv (by rw [hl]; simp) src hc)).1 hc, hrd]
    · have h := (C80_status env (w.renv cls) errorStatus code omitEmpty _ ws r hr matchResponse locates bytes body calls
        hread (w.member x) hmem hl).1 pre post t hsplit (by
          intro u hu' hl'
          have huw : u ∈ ws := by rw [hsplit]; simp [hu']
          obtain ⟨y, hy, hp⟩ := forall₂_right hws u huw
          rw [hp.1] at hl'
          have hyx : y = x := by
            refine hb.status y (hxs y hy) x hx ?_ ?_
            · rcases loc_cases hb (hxs y hy) with ⟨h, _⟩ | ⟨_, _, _, h'⟩ | ⟨_, _, _, h'⟩ | ⟨_, _, _, _, h'⟩
              · exact h
              · rw [hl'] at h'; cases h'
              · rw [hl'] at h'; cases h'
              · rw [hl'] at h'; cases h'
            · rcases loc_cases hb hx with ⟨h, _⟩ | ⟨_, _, _, h'⟩ | ⟨_, _, _, h'⟩ | ⟨_, _, _, _, h'⟩
              · exact h
              · rw [hl] at h'; cases h'
              · rw [hl] at h'; cases h'
              · rw [hl] at h'; cases h'
          exact hal u (by simp [hu']) (by rw [hp.1, hyx]))
      refine ⟨v', hsame, ⟨.status t, (h _ (by simp)).2 rfl⟩, fun src hc => ?_⟩
      rw [(h src (hnv (by rw [hl]; simp) src hc)).1 hc, hrd]
    · obtain ⟨p, hp⟩ := prefix_some hl
      obtain ⟨hcw, h1, h2, h3, h4⟩ := hb.prefixes x hx p hp
      have h := (C80_prefix_headers env (w.renv cls) hlow.symm (hlow ▸ hcw) errorStatus code omitEmpty _ ws r hr matchResponse locates
        bytes body calls hread (w.member x) hmem hl p hp (by
          intro a ha
          rw [hlow]
          simp only [ownNames, List.mem_cons, List.not_mem_nil, or_false] at ha
          rcases ha with rfl | rfl
          · exact h3
          · exact h4)).1 pre post kvs hsplit (by rw [hlow]; exact hnd') (by
          intro u hu' a ha
          have huw : u ∈ ws := by
            rw [hsplit]
            simp only [List.mem_append, List.mem_cons] at hu' ⊢
            tauto
          obtain ⟨y, hy, hpl⟩ := forall₂_right hws u huw
          rw [hlow]
          rcases namesOf_placed hpl a ha with hy' | ⟨p', key, hy', rfl⟩
          · exact h2 y (hxs y hy) a hy'
          · exact absurd (by rw [hpl.1, h1 y (hxs y hy) (by rw [hy']; simp)]) (hal u hu'))
      refine ⟨v', hsame, ⟨.headerMap kvs, (h _ (by simp)).2 rfl⟩, fun src hc => ?_⟩
      rw [(h src (hnv (by rw [hl]; simp) src hc)).1 hc, hrd]
  · intro hxw hst hpx src hc
    rcases loc_cases hb hx with ⟨_, h⟩ | ⟨_, k, hk, hl⟩ | ⟨_, _, _, hl⟩ | ⟨_, _, _, _, hl⟩
    · exact hst h
    · refine (C80_header env (w.renv cls) hlow.symm errorStatus code omitEmpty _ ws r hr matchResponse locates bytes body calls
        hread (w.member x) hmem hl k hk (hown k hk)).2.2 (fun u hu => hother u hu ?_ k hk) src
          (hnv (by rw [hl]; simp) src hc) hc
      intro he
      obtain ⟨y, hy, hp⟩ := forall₂_right hws u hu
      exact hxw (member_inj hw (hxs y hy) hx (hp.1.symm.trans he) ▸ hy)
    · rcases calls_members hb hread hc with ⟨_, h⟩ | ⟨v, rfl⟩
      · exact h hl
      · obtain ⟨y, hy, _, he, -⟩ := (hval _ _).1 hc
        exact hxw (member_inj hw hx (hxs y hy) he ▸ hy)
    · exact hpx hl

/-! ## The theorem -/

/-- Without a body there is no content length. -/
theorem no_length {env : Http.Env} {ws : List (Http.Member × Val)}
    (hcl : ∀ u ∈ ws, ∀ a ∈ namesOf matchResponse u, env.lower a ≠ env.lower "content-length".toList) :
    ∀ f ∈ toFields env (headersOf matchResponse ws ++ extraHeaders env none none), env.lower f.name ≠ env.lower "content-length".toList := by
  intro f hf
  obtain ⟨p, hp, he⟩ := Http.RoundTrip.toFields_name env _ f hf
  rw [show extraHeaders env none none = [] from rfl, List.append_nil, Http.RoundTrip.headersOf_flatMap, List.mem_flatMap] at hp
  obtain ⟨w, hw, hp⟩ := hp
  rw [he]
  exact hcl w hw _ (List.mem_map_of_mem hp)

/-- The output, from a body that may have other members too. -/
theorem output_core (hw : w.Ok nearest) (hb : w.Bound cls) {ms : List GMember}
    (hs : w.model.shape cls = some (.struct ms)) {value : GMember → P} (hx : ∀ x ∈ ms, Field w nearest cls x (value x)) {v : P}
    (hv : v = .object cls ((w.model.attributes ms).map fun x => (x.attr, value x))) {n : Nat} (hn : v.depth ≤ n)
    (errorStatus : Option Text) (code : Text) (omitEmpty : Bool) :
    ∃ r bytes, w.respond n cls v errorStatus code omitEmpty = .ok r ∧ r.body = .bytes bytes ∧
      Within w cls bytes bytes ∧ Fields.Distinct w.lower r.fields ∧
      (fieldValues w.lower r.fields "content-length".toList = [natText bytes.length] ∨
        ∀ f ∈ r.fields, w.lower f.name ≠ w.lower "content-length".toList) ∧
      ∀ b', Within w cls bytes b' → ∀ body, body = none ∨ body = some (.bytes b') →
      ((∃ x ∈ w.model.members cls, (w.traits x).responseCode = false ∧ (w.traits x).header = none ∧
        (w.traits x).prefixHeaders = none) →
        Http.Reading.hasEmptyBody (w.renv cls) (received r b') body = .ok false) ∧
      ∃ v', w.receive cls (received r b') body = .ok v' ∧ Same v v' := by
  subst hv
  have hms : w.model.members cls = ms := by simp only [Model.members, hs]
  have hstr : ∀ x ∈ ms, w.model.isStream x = false := fun x h => hb.streams x (hms ▸ h)
  have hattr : ∀ x, x ∈ w.model.attributes ms ↔ x ∈ ms := fun x =>
    mem_attributes.trans ⟨fun h => h.1, fun h => ⟨h, hstr x h⟩⟩
  simp only [Py.depth] at hn
  obtain ⟨n, rfl⟩ : ∃ n', n = n' + 1 := ⟨n - 1, by omega⟩
  have hdepth : ∀ x ∈ ms, (value x).depth ≤ n := by
    intro x h
    have := depth_entry _ _ (List.mem_map_of_mem (f := fun x => (x.attr, value x)) ((hattr x).2 h))
    simp only at this
    omega
  have hlook : ∀ x ∈ ms, ((w.model.attributes ms).map fun x => (x.attr, value x)).lookup x.attr = some (value x) := fun x h =>
    lookup_field _ x ((hattr x).2 h) fun y hy he => attr_inj ms (hw.names.attrs cls ms hs) x h y ((hattr y).1 hy) he
  have hwr : ∀ x ∈ ms, value x ≠ .none → _ := fun x h hne => field_write hw hs h (loc_body hb (hms ▸ h)) (hx x h) hne (hdepth x h)
  -- what is written
  obtain ⟨cs, hcs, hcall⟩ := fieldCalls_ok (w := w) (value := value)
    (call := fun x v => w.model.memberCall n x.target (.member cls x.name) v)
    (fields := (w.model.attributes ms).map fun x => (x.attr, value x)) ms (by
      intro x h
      refine ⟨hstr x h, hlook x h, ?_⟩
      by_cases hne : value x = .none
      · refine .inl ⟨?_, hne⟩
        have hf := hx x h
        rw [hne] at hf
        cases hf with
        | absent hnull hdef _ _ =>
          rcases hdef with hdef | ⟨hdef, hdoc⟩
          · simp [Model.mayBeNone, hnull, hdef]
          · unfold Model.mayBeNone
            split
            · rename_i h; exact absurd h hdoc
            · simp [hnull]
        | body _ _ _ h => exact absurd (typed_notNone h) (by simp [Py.isNone])
        | header _ _ h => cases h
      · obtain ⟨h1, c, h2, _⟩ := hwr x h hne
        exact .inr ⟨h1, c, h2⟩)
  obtain ⟨xs, hxs⟩ : ∃ xs, xs = ms.filter fun x => !(value x).isNone := ⟨_, rfl⟩
  rw [← hxs] at hcall
  have hin : ∀ x ∈ xs, x ∈ ms ∧ value x ≠ .none := by
    intro x h
    rw [hxs, List.mem_filter] at h
    refine ⟨h.1, fun he => ?_⟩
    rw [he] at h
    exact absurd h.2 (by simp [Py.isNone])
  have hout : ∀ x ∈ ms, x ∉ xs → value x = .none := by
    intro x h hno
    by_contra hne
    refine hno ?_
    rw [hxs, List.mem_filter]
    exact ⟨h, by rw [(hwr x h hne).1]; rfl⟩
  have hnd : ms.Nodup := List.Nodup.of_map _ (hw.names.attrs cls ms hs)
  have hxnd : xs.Nodup := hxs ▸ hnd.filter _
  have hxm : ∀ x ∈ xs, x ∈ w.model.members cls := fun x h => hms ▸ (hin x h).1
  obtain ⟨ws, hws, hplaced, hgood⟩ := toWrites_ok (w := w) (cls := cls) (value := value) cs xs cs [] rfl
    (forall₂_imp hcall fun x h c hc => by
      obtain ⟨_, c', h1, h2, h3⟩ := hwr x (hin x h).1 (hin x h).2
      rw [hc] at h1
      cases h1
      exact ⟨h2, h3⟩)
  obtain ⟨r, bytes, hr, hbytes⟩ := serialize_ok hb (w.env cs) errorStatus code omitEmpty (ws := ws) fun u hu => by
    obtain ⟨x, h, hp⟩ := forall₂_right hplaced u hu
    exact ⟨x, hxm x h, _, hp⟩
  have hrespond : w.respond (n + 1) cls (.object cls ((w.model.attributes ms).map fun x => (x.attr, value x)))
      errorStatus code omitEmpty = .ok r := by
    unfold World.respond Model.serialize
    simp only [Model.memberCall, hs, hcs]
    simp only [List.length_nil] at hws
    rw [hws]
    simp only [hr]
  -- the document
  have hxsb : ∀ x ∈ xs.filter (fun x => matchResponse (w.member x) = .body), x ∈ ms ∧ w.model.isStream x = false :=
    fun x h => ⟨(hin x (List.mem_filter.1 h).1).1, hstr x (hin x (List.mem_filter.1 h).1).1⟩
  obtain ⟨doc, js, hdoc, hdocne, hparse, hdecode⟩ := decode_ok hw hs hxsb
    ((hxnd.filter _).map_on fun a ha b hb' h => attr_inj ms (hw.names.attrs cls ms hs) b (hxsb b hb').1 a (hxsb a ha).1 h) hgood
  have hcl : ∀ u ∈ ws, ∀ a ∈ namesOf matchResponse u, (w.env cs).lower a ≠ (w.env cs).lower "content-length".toList := by
    intro u hu a ha
    obtain ⟨x, h, hp⟩ := forall₂_right hplaced u hu
    rcases namesOf_placed hp a ha with h' | ⟨p, key, h', rfl⟩
    · exact (hb.own x (hxm x h) a h').2
    · obtain ⟨hcw, -, -, -, h4⟩ := hb.prefixes x (hxm x h) p h'
      intro he
      refine h4 ?_
      rw [show w.lower "content-length".toList = w.lower (p ++ key) from he.symm]
      exact lower_prefix hcw p key
  obtain ⟨hB, hP, hE⟩ := add_spec matchResponse (w.members cls) {}
  have e1 : (Matcher.of matchResponse (w.members cls)).eventStream = none := hE (no_stream hb)
  have e2 : (Matcher.of matchResponse (w.members cls)).payloadMember = none := (hP (no_payload hb)).1
  have hbodyOf : Http.bodyOf matchResponse ws = ws.filter fun u => matchResponse u.1 = .body := by
    refine List.filter_congr fun u hu => ?_
    obtain ⟨x, h, hp⟩ := forall₂_right hplaced u hu
    rw [hp.1]
    rcases loc_cases hb (hxm x h) with ⟨_, h⟩ | ⟨_, _, _, h⟩ | ⟨_, _, _, h⟩ | ⟨_, _, _, _, h⟩ <;> rw [h] <;> simp
  obtain ⟨ct, len, req, hpay, hfields, -⟩ := serializeResponse_ok hr
  rw [hbodyOf] at hpay
  have henc : (w.env cs).encodeStruct (ws.filter fun u => matchResponse u.1 = .body) = doc := hdoc
  have hd : Fields.Distinct w.lower r.fields := fields_distinct hr
  have hbind : (∃ x ∈ w.model.members cls, (w.traits x).responseCode = false ∧ (w.traits x).header = none ∧
        (w.traits x).prefixHeaders = none) ↔
      ∃ x ∈ ms, matchResponse (w.member x) = .body := by
    rw [hms]
    refine exists_congr fun x => and_congr_right fun h => ?_
    rcases loc_cases hb (hms ▸ h) with ⟨h1, h2⟩ | ⟨_, k, h1, h2⟩ | ⟨h1, h2, h3, h4⟩ | ⟨h1, h2, p, h3, h4⟩
    · rw [h1, h2]; simp
    · rw [h1, h2]; simp
    · rw [h1, h2, h3, h4]; simp
    · rw [h3, h4]; simp
  have hB' : (∃ x ∈ ms, matchResponse (w.member x) = .body) → (Matcher.of matchResponse (w.members cls)).hasBody = true := by
    rintro ⟨x, h, hl⟩
    exact hB.2 (.inr ⟨w.member x, List.mem_map_of_mem (hms ▸ h), .inl hl⟩)
  have hlen : fieldValues w.lower r.fields "content-length".toList = [natText bytes.length] ∨
      ∀ f ∈ r.fields, w.lower f.name ≠ w.lower "content-length".toList := by
    by_cases hsw : (Matcher.of matchResponse (w.members cls)).shouldWriteBody omitEmpty = true
    · simp only [payloadOf, e1, e2, hsw, if_true, Except.ok.injEq, Prod.mk.injEq, henc, hbytes, Http.Body.bytes.injEq] at hpay
      obtain ⟨hpb, -, hpl, -⟩ := hpay
      subst hpb
      rw [← hpl] at hfields
      exact .inl (length_written (env := w.env cs) hw.lower hfields hcl)
    · simp only [payloadOf, e1, e2, hsw, Bool.false_eq_true, if_false, Except.ok.injEq, Prod.mk.injEq] at hpay
      obtain ⟨-, hct, hpl, -⟩ := hpay
      rw [← hpl, ← hct] at hfields
      refine .inr ?_
      rw [hfields]
      exact no_length hcl
  have hdb : (∃ x ∈ ms, matchResponse (w.member x) = .body) → bytes = doc := by
    intro hhas
    simp only [payloadOf, e1, e2, Matcher.shouldWriteBody, hB' hhas, Bool.true_or, if_true, Except.ok.injEq, Prod.mk.injEq, henc,
      hbytes, Http.Body.bytes.injEq] at hpay
    exact hpay.1.symm
  have hlen' : (∃ x ∈ ms, matchResponse (w.member x) = .body) →
      fieldValues w.lower r.fields "content-length".toList = [natText doc.length] := by
    intro hhas
    simp only [payloadOf, e1, e2, Matcher.shouldWriteBody, hB' hhas, Bool.true_or, if_true, Except.ok.injEq, Prod.mk.injEq, henc,
      hbytes, Http.Body.bytes.injEq] at hpay
    obtain ⟨-, -, hpl, -⟩ := hpay
    rw [← hpl] at hfields
    exact length_written (env := w.env cs) hw.lower hfields hcl
  refine ⟨r, bytes, hrespond, hbytes, ?_, hd, hlen, fun b' hb' body hbody => ?_⟩
  · intro h
    rw [hdb (hbind.1 h)]
    exact ⟨hdocne, js, js, hparse, hparse, adds_refl js⟩
  have hempty : (∃ x ∈ ms, matchResponse (w.member x) = .body) →
      Http.Reading.hasEmptyBody (w.renv cls) (received r b') body = .ok false := by
    intro hhas
    have hlen := hlen' hhas
    unfold Http.Reading.hasEmptyBody
    rcases find_spec (w.renv cls) (received r b').fields hd "content-length".toList with ⟨_, h2⟩ | ⟨f, h1, _, _, h4⟩
    · exfalso
      have := Http.RoundTrip.mem_of_fieldValues w.lower r.fields "content-length".toList (by
        rw [show fieldValues w.lower r.fields "content-length".toList = _ from hlen]; simp)
      obtain ⟨f, hf, hfn⟩ := this
      exact h2 f hf hfn
    · rw [h1]
      have h5 : f.values = [natText doc.length] := h4.trans hlen
      have h6 : (w.renv cls).int (asString [natText doc.length]) = some (doc.length : Int) := hw.int doc.length
      simp only [h5, h6]
      have : doc.length ≠ 0 := by simpa using hdocne
      simp [this]
  refine ⟨fun h => hempty (hbind.1 h), ?_⟩
  obtain ⟨vs, hdec, hvs⟩ : ∃ vs : GMember → P, ((∃ x ∈ ms, matchResponse (w.member x) = .body) →
      w.decode cls b' = .ok ((xs.filter fun x => matchResponse (w.member x) = .body).map fun x => (w.member x, vs x))) ∧
      ∀ x ∈ xs.filter (fun x => matchResponse (w.member x) = .body), Same (value x) (vs x) := by
    by_cases hhas : ∃ x ∈ ms, matchResponse (w.member x) = .body
    · obtain ⟨-, js1, js', hp1, hp2, ha⟩ := hb' (hbind.2 hhas)
      rw [hdb hhas, hparse] at hp1
      cases hp1
      obtain ⟨vs, h1, h2⟩ := hdecode b' js' hp2 ha
      exact ⟨vs, fun _ => h1, h2⟩
    · obtain ⟨vs, _, h2⟩ := hdecode doc js hparse (adds_refl js)
      exact ⟨vs, fun h => absurd h hhas, h2⟩
  obtain ⟨ccs, hccs⟩ := readMembers_total (w.renv cls) (received r b') body (Matcher.of matchResponse (w.members cls))
    (w.members cls) (no_payload hb)
  -- the calls
  obtain ⟨calls, hread, hval⟩ : ∃ calls, readStruct (w.renv cls) (received r b') body (w.members cls) = .ok calls ∧
      ∀ m v, (m, .value v) ∈ calls ↔ ∃ x ∈ xs, matchResponse (w.member x) = .body ∧ m = w.member x ∧ v = vs x := by
    by_cases hhas : ∃ x ∈ ms, matchResponse (w.member x) = .body
    · have e3 := hB' hhas
      have hbb : (Http.Reading.bodyBytes (received r b') body : Except (RErr GeneratedSerde.Err) Bytes) = .ok b' := by
        rcases hbody with rfl | rfl <;> rfl
      have hrb : readBody (w.renv cls) (received r b') body (w.members cls) (Matcher.of matchResponse (w.members cls)) =
          .ok ((xs.filter fun x => matchResponse (w.member x) = .body).map fun x => (w.member x, .value (vs x))) := by
        have hdec' : (w.renv cls).decode b' (w.members cls) = _ := hdec hhas
        unfold readBody
        simp only [e3, if_true, hempty hhas, hbb, hdec', List.map_map]
        rfl
      have hst : readStruct (w.renv cls) (received r b') body (w.members cls) = .ok (ccs ++
          (xs.filter fun x => matchResponse (w.member x) = .body).map fun x => (w.member x, .value (vs x))) := by
        unfold readStruct
        simp only [hccs, hrb]
      refine ⟨_, hst, fun m v => ?_⟩
      have hno : (m, .value v) ∉ ccs := by
        intro h
        rw [readMembers_mem hccs] at h
        obtain ⟨m', _, c, hc, hm'⟩ := h
        unfold readMember at hc
        split at hc
        · split at hc
          · cases hc; cases hm'
          · split at hc <;> (cases hc; simp at hm')
        · cases hc; simp at hm'
        · cases hc; simp at hm'
        · next hl => exact absurd hl (no_payload hb m' (by assumption))
        · cases hc; cases hm'
      rw [List.mem_append, or_iff_right hno, List.mem_map]
      constructor
      · rintro ⟨x, hxf, he⟩
        rw [List.mem_filter] at hxf
        simp only [Prod.mk.injEq, Source.value.injEq] at he
        exact ⟨x, hxf.1, by simpa using hxf.2, he.1.symm, he.2.symm⟩
      · rintro ⟨x, h, hl, rfl, rfl⟩
        exact ⟨x, List.mem_filter.2 ⟨h, by simpa using hl⟩, rfl⟩
    · have e3 : (Matcher.of matchResponse (w.members cls)).hasBody = false := by
        cases h : (Matcher.of matchResponse (w.members cls)).hasBody with
        | false => rfl
        | true =>
          rcases hB.1 h with h | ⟨m, hm, hl⟩
          · cases h
          · obtain ⟨x, hx', rfl⟩ := List.mem_map.1 hm
            rcases hl with hl | hl
            · exact absurd ⟨x, hms ▸ hx', hl⟩ hhas
            · rcases loc_cases hb hx' with ⟨_, h⟩ | ⟨_, _, _, h⟩ | ⟨_, _, _, h⟩ | ⟨_, _, _, _, h⟩ <;> rw [hl] at h <;> cases h
      have hst : readStruct (w.renv cls) (received r b') body (w.members cls) = .ok (ccs ++ []) := by
        unfold readStruct
        simp only [hccs, readBody, e3, Bool.false_eq_true, if_false]
      refine ⟨_, hst, fun m v => ?_⟩
      rw [C79_body (w.renv cls) (received r b') hd body _ _ hst matchResponse locates m v]
      constructor
      · rintro ⟨⟨m', hm', hl⟩, _⟩
        obtain ⟨x, hx', rfl⟩ := List.mem_map.1 hm'
        exact absurd ⟨x, hms ▸ hx', hl⟩ hhas
      · rintro ⟨x, h, hl, _⟩
        exact absurd ⟨x, (hin x h).1, hl⟩ hhas
  -- the object
  have hfor := fun (x : GMember) (h : x ∈ ms) => calls_for hw hb (env := w.env cs) rfl hxm hxnd hplaced hr hread
    (vs := vs) (fun x h hl => hvs x (List.mem_filter.2 ⟨h, by simpa using hl⟩)) hval (x := x) (hms ▸ h)
  have hch : ∀ x, ∃ v, x ∈ xs → Same (value x) v ∧ (∃ src, (w.member x, src) ∈ calls) ∧
      ∀ src, (w.member x, src) ∈ calls → w.readSource cls x src = .ok v := by
    intro x
    by_cases h : x ∈ xs
    · obtain ⟨v, hv⟩ := (hfor x (hin x h).1).1 h
      exact ⟨v, fun _ => hv⟩
    · exact ⟨.none, fun h' => absurd h' h⟩
  choose val hval' using hch
  have hnocall : ∀ x ∈ ms, x ∉ xs → ∀ src, (w.member x, src) ∉ calls := by
    intro x h hno
    have hf := hx x h
    rw [hout x h hno] at hf
    cases hf with
    | absent _ _ hc hp =>
      have hl : matchResponse (w.member x) ≠ .status ∧ matchResponse (w.member x) ≠ .prefixHeaders := by
        rcases loc_cases hb (hms ▸ h) with ⟨h', _⟩ | ⟨_, _, _, h'⟩ | ⟨_, _, _, h'⟩ | ⟨_, _, _, h', _⟩
        · rw [hc] at h'; cases h'
        · rw [h']; simp
        · rw [h']; simp
        · rw [hp] at h'; cases h'
      exact (hfor x h).2 hno hl.1 hl.2
    | body _ _ _ h => exact absurd (typed_notNone h) (by simp [Py.isNone])
    | header _ _ h => cases h
  obtain ⟨kw, hkw, hlk⟩ := consume_ok hw hs (val := val) calls [] (by
    rintro ⟨m, src⟩ hu
    have hm : ∃ x ∈ ms, m = w.member x := by
      rcases calls_members hb hread hu with ⟨h, _⟩ | ⟨v, rfl⟩
      · obtain ⟨x, hx', rfl⟩ := List.mem_map.1 h
        exact ⟨x, hms ▸ hx', rfl⟩
      · obtain ⟨x, h, _, he, _⟩ := (hval _ _).1 hu
        exact ⟨x, (hin x h).1, he⟩
    obtain ⟨x, h, rfl⟩ := hm
    by_cases hxx : x ∈ xs
    · exact ⟨x, h, rfl, (hval' x hxx).2.2 src hu⟩
    · exact absurd hu (hnocall x h hxx src))
  obtain ⟨fs, hfs, hf1, hf2⟩ := each_fields (value := value) (f := w.model.argument kw) (w.model.attributes ms) fun x hxa => by
    have h := (hattr x).1 hxa
    unfold Model.argument
    by_cases hxx : x ∈ xs
    · refine ⟨val x, ?_, (hval' x hxx).1⟩
      rw [(hlk x h).1 (hval' x hxx).2.1]
    · have hnone := hout x h hxx
      have hf := hx x h
      rw [(hlk x h).2 (hnocall x h hxx), hnone]
      rw [hnone] at hf
      cases hf with
      | absent hnull hdef _ _ =>
        refine ⟨.none, ?_, .refl _⟩
        have : GeneratedSerde.isRequired x = false := by simp [GeneratedSerde.isRequired, hnull]
        simp only [List.lookup_nil, this, Bool.false_eq_true, if_false]
        rcases hdef with hdef | ⟨hdef, _⟩ <;> rw [hdef] <;> rfl
      | body _ _ _ h => exact absurd (typed_notNone h) (by simp [Py.isNone])
      | header _ _ h => cases h
  refine ⟨.object cls fs, ?_, .object hf1 hf2⟩
  unfold World.receive
  rw [hread]
  simp only [hkw]
  rw [show w.model.construct cls (w.model.members cls) kw = .ok (.object cls fs) by
    rw [Model.construct, hms, hfs]]

/-- **C129**: the output that an operation returns to its caller is equal to the one that the service gave: in the response each
attribute is where the model binds it, and the client reads it from there.
A map that is bound to headers with a prefix is not `None`, and no two of its keys differ in case only.
Missing: event streams and payloads. -/
theorem C129_output_partial (hw : w.Ok nearest) (hb : w.Bound cls) {ms : List GMember}
    (hs : w.model.shape cls = some (.struct ms)) {value : GMember → P} (hx : ∀ x ∈ ms, Field w nearest cls x (value x)) {v : P}
    (hv : v = .object cls ((w.model.attributes ms).map fun x => (x.attr, value x))) {n : Nat} (hn : v.depth ≤ n)
    (errorStatus : Option Text) (code : Text) (omitEmpty : Bool) :
    ∃ r bytes, w.respond n cls v errorStatus code omitEmpty = .ok r ∧ r.body = .bytes bytes ∧
      ∀ body, body = none ∨ body = some (.bytes bytes) →
      ∃ v', w.receive cls (received r bytes) body = .ok v' ∧ Same v v' := by
  obtain ⟨r, bytes, h1, h2, h3, -, -, h4⟩ := output_core hw hb hs hx hv hn errorStatus code omitEmpty
  exact ⟨r, bytes, h1, h2, fun body hbody => (h4 bytes h3 body hbody).2⟩

end Verif.RestJson

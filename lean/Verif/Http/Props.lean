import Verif.Http.Spec
import Verif.Fields.Props
import Mathlib.Tactic.Common

set_option autoImplicit false

namespace Verif.Http

open Verif.Fields (Field merge)

/-! ## C29: one location for each member -/

theorem located_unique {prec : List ((Member → Bool) × Binding)} {m : Member} {a b : Binding}
    (ha : Located prec m a) (hb : Located prec m b) : a = b := by
  induction prec with
  | nil =>
    rcases ha with ⟨pre, t, post, h, _⟩ | ⟨ha, _⟩
    · simp at h
    · rcases hb with ⟨pre, t, post, h, _⟩ | ⟨hb, _⟩
      · simp at h
      · rw [ha, hb]
  | cons x prec ih =>
    have key : ∀ {c : Binding}, Located (x :: prec) m c →
        (x.1 m = true ∧ c = x.2) ∨ (x.1 m = false ∧ Located prec m c) := by
      intro c hc
      rcases hc with ⟨pre, t, post, h, ht, hpre⟩ | ⟨hc, hall⟩
      · cases pre with
        | nil =>
          simp only [List.nil_append, List.cons.injEq] at h
          obtain ⟨rfl, _⟩ := h
          exact .inl ⟨ht, rfl⟩
        | cons y pre =>
          simp only [List.cons_append, List.cons.injEq] at h
          obtain ⟨rfl, h⟩ := h
          exact .inr ⟨hpre _ (by simp), .inl ⟨pre, t, post, h, ht, fun z hz => hpre z (by simp [hz])⟩⟩
      · exact .inr ⟨hall x (by simp), .inr ⟨hc, fun z hz => hall z (by simp [hz])⟩⟩
    rcases key ha with ⟨h1, rfl⟩ | ⟨h1, ha⟩ <;> rcases key hb with ⟨h2, rfl⟩ | ⟨h2, hb⟩
    · rfl
    · rw [h1] at h2; cases h2
    · rw [h1] at h2; cases h2
    · exact ih ha hb

theorem located_cons {x : (Member → Bool) × Binding} {prec : List ((Member → Bool) × Binding)}
    {m : Member} {b : Binding} (hx : x.1 m = false) (h : Located prec m b) :
    Located (x :: prec) m b := by
  rcases h with ⟨pre, t, post, rfl, ht, hpre⟩ | ⟨hb, hall⟩
  · exact .inl ⟨x :: pre, t, post, rfl, ht, by simpa [hx] using hpre⟩
  · exact .inr ⟨hb, by simpa [hx] using hall⟩

theorem located_head {t : Member → Bool} {b : Binding} {prec : List ((Member → Bool) × Binding)}
    {m : Member} (h : t m = true) : Located ((t, b) :: prec) m b :=
  .inl ⟨[], t, prec, rfl, h, by simp⟩

theorem located_nil (m : Member) : Located [] m .body := .inr ⟨rfl, by simp⟩

/-- **C29**, requests: a member has one location, the first of the documented precedence. -/
theorem C29_request_location (m : Member) (b : Binding) :
    Located requestPrecedence m b ↔ matchRequest m = b := by
  have h : Located requestPrecedence m (matchRequest m) := by
    unfold matchRequest requestPrecedence
    repeat' split
    all_goals
      repeat' first
        | exact located_head (by assumption)
        | refine located_cons (Bool.eq_false_iff.2 (by assumption)) ?_
        | exact located_nil m
  exact ⟨fun hb => located_unique h hb, fun hb => hb ▸ h⟩

/-- **C29**, responses. -/
theorem C29_response_location (m : Member) (b : Binding) :
    Located responsePrecedence m b ↔ matchResponse m = b := by
  have h : Located responsePrecedence m (matchResponse m) := by
    unfold matchResponse responsePrecedence
    repeat' split
    all_goals
      repeat' first
        | exact located_head (by assumption)
        | refine located_cons (Bool.eq_false_iff.2 (by assumption)) ?_
        | exact located_nil m
  exact ⟨fun hb => located_unique h hb, fun hb => hb ▸ h⟩

/-- A member with two traits: the label wins. -/
example : Located requestPrecedence
    { name := "a".toList, shape := .string, label := true, header := some "X-A".toList } .label :=
  (C29_request_location _ _).2 (by decide)

/-! ## What each location holds -/

theorem matchRequest_ne_status (m : Member) : matchRequest m ≠ .status := by
  unfold matchRequest
  repeat' split
  all_goals simp

/-- One successful write to a request puts the value where its member is bound and nowhere else. -/
theorem writeRequest_spec (p p' : Parts) (m : Member) (v : Val) (h : p.writeRequest m v = .ok p') :
    p' = { p with
      headers := p.headers ++ headersOf matchRequest [(m, v)]
      query := p.query ++ queryOf matchRequest [(m, v)]
      path := p.path ++ labelsOf .label matchRequest [(m, v)]
      host := p.host ++ labelsOf .host matchRequest [(m, v)]
      payload := p.payload ++ bodyOf matchRequest [(m, v)] } := by
  have hs := matchRequest_ne_status m
  unfold Parts.writeRequest at h
  cases hb : matchRequest m <;> simp only [hb] at h hs <;>
    simp only [headersOf, queryOf, labelsOf, bodyOf, hb, List.filter] <;> simp
  case header =>
    cases v <;> simp only [headerEntries] at h <;> (try cases hh : m.header) <;>
      (try cases hp : m.prefixHeaders) <;> simp_all [Except.map, named] <;> exact h.symm
  case prefixHeaders =>
    cases v <;> simp only [headerEntries] at h <;> (try cases hh : m.header) <;>
      (try cases hp : m.prefixHeaders) <;> simp_all [Except.map, named] <;> exact h.symm
  case query =>
    cases v <;> simp only [queryEntries] at h <;> (try cases hh : m.query) <;>
      simp_all [Except.map, named] <;> exact h.symm
  case queryParams =>
    cases v <;> simp only [queryEntries] at h <;> (try cases hh : m.query) <;>
      simp_all [Except.map, named] <;> exact h.symm
  case label => cases v <;> simp_all [named] <;> exact h.symm
  case host =>
    cases v <;> simp only [reduceCtorEq] at h
    split at h
    · simp only [Except.ok.injEq] at h
      simp [named, ← h]
    · cases h
  case status => exact absurd rfl hs
  all_goals (simp only [Except.ok.injEq] at h; exact h.symm)

/-- One successful write to a response. -/
theorem writeResponse_spec (p p' : Parts) (m : Member) (v : Val)
    (h : p.writeResponse m v = .ok p') :
    p'.headers = p.headers ++ headersOf matchResponse [(m, v)] ∧
    p'.payload = p.payload ++ bodyOf matchResponse [(m, v)] ∧
    p'.status = ((labelsOf .status matchResponse [(m, v)]).getLast?.map Prod.snd).or p.status := by
  have hne : matchResponse m ≠ .query ∧ matchResponse m ≠ .queryParams ∧
      matchResponse m ≠ .label ∧ matchResponse m ≠ .host := by
    unfold matchResponse
    repeat' split
    all_goals simp
  unfold Parts.writeResponse at h
  cases hb : matchResponse m <;> simp only [hb] at h hne <;>
    simp only [headersOf, labelsOf, bodyOf, hb, List.filter] <;> simp
  case header =>
    cases v <;> simp only [headerEntries] at h <;> (try cases hh : m.header) <;>
      (try cases hp : m.prefixHeaders) <;> simp_all [Except.map, named] <;> simp [← h]
  case prefixHeaders =>
    cases v <;> simp only [headerEntries] at h <;> (try cases hh : m.header) <;>
      (try cases hp : m.prefixHeaders) <;> simp_all [Except.map, named] <;> simp [← h]
  case status =>
    cases v <;> simp only [reduceCtorEq] at h
    split at h
    · simp only [Except.ok.injEq] at h
      simp [named, ← h]
    · cases h
  all_goals first
    | (simp only [Except.ok.injEq] at h; simp [← h]; done)
    | simp at hne

section
variable (loc : Member → Binding) (w : Member × Val) (ws : List (Member × Val))

theorem headersOf_cons : headersOf loc (w :: ws) = headersOf loc [w] ++ headersOf loc ws := by
  simp only [headersOf, List.filter_cons]; split <;> simp

theorem queryOf_cons : queryOf loc (w :: ws) = queryOf loc [w] ++ queryOf loc ws := by
  simp only [queryOf, List.filter_cons]; split <;> simp

theorem labelsOf_cons (b : Binding) :
    labelsOf b loc (w :: ws) = labelsOf b loc [w] ++ labelsOf b loc ws := by
  simp only [labelsOf, List.filter_cons]; split <;> simp

theorem bodyOf_cons : bodyOf loc (w :: ws) = bodyOf loc [w] ++ bodyOf loc ws := by
  simp only [bodyOf, List.filter_cons]; split <;> simp

end

theorem writeAll_request (ws : List (Member × Val)) : ∀ (p p' : Parts),
    writeAll Parts.writeRequest p ws = .ok p' → p' = { p with
      headers := p.headers ++ headersOf matchRequest ws
      query := p.query ++ queryOf matchRequest ws
      path := p.path ++ labelsOf .label matchRequest ws
      host := p.host ++ labelsOf .host matchRequest ws
      payload := p.payload ++ bodyOf matchRequest ws } := by
  induction ws with
  | nil =>
    intro p p' h
    simp only [writeAll, Except.ok.injEq] at h
    simp [headersOf, queryOf, labelsOf, bodyOf, ← h]
  | cons w ws ih =>
    obtain ⟨m, v⟩ := w
    intro p p' h
    simp only [writeAll] at h
    cases hw : p.writeRequest m v with
    | error e => rw [hw] at h; cases h
    | ok q =>
      rw [hw] at h
      rw [ih q p' h, writeRequest_spec p q m v hw, headersOf_cons _ (m, v) ws,
        queryOf_cons _ (m, v) ws, labelsOf_cons _ (m, v) ws, labelsOf_cons _ (m, v) ws,
        bodyOf_cons _ (m, v) ws]
      simp only [List.append_assoc]

theorem writeAll_response (ws : List (Member × Val)) : ∀ (p p' : Parts),
    writeAll Parts.writeResponse p ws = .ok p' →
    p'.headers = p.headers ++ headersOf matchResponse ws ∧
    p'.payload = p.payload ++ bodyOf matchResponse ws ∧
    p'.status = ((labelsOf .status matchResponse ws).getLast?.map Prod.snd).or p.status := by
  induction ws with
  | nil =>
    intro p p' h
    simp only [writeAll, Except.ok.injEq] at h
    simp [headersOf, labelsOf, bodyOf, ← h]
  | cons w ws ih =>
    obtain ⟨m, v⟩ := w
    intro p p' h
    simp only [writeAll] at h
    cases hw : p.writeResponse m v with
    | error e => rw [hw] at h; cases h
    | ok q =>
      rw [hw] at h
      obtain ⟨h1, h2, h3⟩ := ih q p' h
      obtain ⟨g1, g2, g3⟩ := writeResponse_spec p q m v hw
      refine ⟨?_, ?_, ?_⟩
      · rw [h1, g1, headersOf_cons _ (m, v) ws, List.append_assoc]
      · rw [h2, g2, bodyOf_cons _ (m, v) ws, List.append_assoc]
      · rw [h3, g3, labelsOf_cons _ (m, v) ws, List.getLast?_append]
        cases (labelsOf .status matchResponse ws).getLast? <;> simp

/-! ## Header collections -/

theorem fieldValues_cons (lower : Text → Text) (g : Field Text) (c : List (Field Text))
    (name : Text) : fieldValues lower (g :: c) name =
      (if lower g.name = lower name then g.values else []) ++ fieldValues lower c name := by
  by_cases h : lower g.name = lower name <;> simp [fieldValues, List.filter_cons, h]

theorem fieldValues_merge (lower : Text → Text) (c : List (Field Text)) (f : Field Text)
    (hc : Fields.Distinct lower c) (name : Text) :
    fieldValues lower (merge lower c f) name =
      fieldValues lower c name ++ if lower f.name = lower name then f.values else [] := by
  unfold merge
  split
  · next hs =>
    induction c with
    | nil => simp [Fields.lookup] at hs
    | cons g c ih =>
      have hd : ∀ x ∈ c, lower g.name ≠ lower x.name := (List.pairwise_cons.1 hc).1
      rw [Fields.lookup_cons] at hs
      by_cases hg : lower g.name = lower f.name
      · have hrest : (c.map fun x => if Fields.same lower x.name f.name then
            { x with values := x.values ++ f.values } else x) = c := by
          conv => rhs; rw [← List.map_id c]
          refine List.map_congr_left fun x hx => ?_
          have : ¬ lower x.name = lower f.name := fun h => hd x hx (hg.trans h.symm)
          simp [Fields.same, this]
        simp only [List.map_cons, hrest]
        by_cases hn : lower f.name = lower name
        · have hnone : (c.filter fun x => lower x.name = lower name) = [] := by
            simp only [List.filter_eq_nil_iff, decide_eq_true_eq]
            exact fun x hx h => hd x hx ((hg.trans hn).trans h.symm)
          simp [fieldValues, Fields.same, hg, hn, hnone, List.filter_cons]
        · simp [fieldValues, Fields.same, hg, hn, List.filter_cons]
      · have hs' : (Fields.lookup lower c f.name).isSome := by
          simpa [Fields.same, hg] using hs
        have hsame : Fields.same lower g.name f.name = false := by simp [Fields.same, hg]
        rw [List.map_cons, if_neg (by simp [hsame]), fieldValues_cons, fieldValues_cons,
          ih (List.pairwise_cons.1 hc).2 hs', List.append_assoc]
  · simp only [fieldValues, List.filter_append, List.flatMap_append]
    congr 1
    by_cases hn : lower f.name = lower name <;> simp [List.filter_cons, hn]

theorem distinct_merge (lower : Text → Text) (c : List (Field Text)) (f : Field Text)
    (hc : Fields.Distinct lower c) : Fields.Distinct lower (merge lower c f) := by
  unfold merge
  split
  · unfold Fields.Distinct
    rw [List.pairwise_map]
    refine hc.imp fun {x y} h => ?_
    split <;> split <;> exact h
  · next hs =>
    unfold Fields.Distinct
    rw [List.pairwise_append]
    refine ⟨hc, by simp, fun x hx y hy => ?_⟩
    simp only [List.mem_singleton] at hy
    subst hy
    simp only [Fields.lookup, Option.not_isSome_iff_eq_none, List.find?_eq_none, Fields.same,
      decide_eq_true_eq] at hs
    exact hs x hx

theorem fieldValues_fold (lower : Text → Text) (hs : List (Text × Text)) (name : Text) :
    ∀ (c : List (Field Text)), Fields.Distinct lower c →
    fieldValues lower (hs.foldl (fun c t => merge lower c ⟨t.1, [t.2], .header⟩) c) name =
      fieldValues lower c name ++ valuesOf lower hs name := by
  induction hs with
  | nil => intro c _; simp [valuesOf]
  | cons t hs ih =>
    intro c hc
    rw [List.foldl_cons, ih _ (distinct_merge lower c _ hc), fieldValues_merge lower c _ hc]
    by_cases hn : lower t.1 = lower name <;> simp [valuesOf, List.filter_cons, hn]

/-- The fields made from a list of headers hold, under each name, the values given for it. -/
theorem fieldValues_toFields (env : Env) (hs : List (Text × Text)) (name : Text) :
    fieldValues env.lower (toFields env hs) name = valuesOf env.lower hs name := by
  simp only [toFields, Fields.C25_from_tuples, Option.getD_none]
  rw [fieldValues_fold env.lower hs name [] List.Pairwise.nil]
  simp [fieldValues]

theorem valuesOf_append (lower : Text → Text) (a b : List (Text × Text)) (name : Text) :
    valuesOf lower (a ++ b) name = valuesOf lower a name ++ valuesOf lower b name := by
  simp [valuesOf]

/-! ## C29: messages -/

theorem loc_request {loc : Member → Binding} (h : ∀ m, Located requestPrecedence m (loc m)) :
    loc = matchRequest := funext fun m => ((C29_request_location m _).1 (h m)).symm

theorem loc_response {loc : Member → Binding} (h : ∀ m, Located responsePrecedence m (loc m)) :
    loc = matchResponse := funext fun m => ((C29_response_location m _).1 (h m)).symm

/-- What a successful serialization went through. -/
theorem serializeRequest_ok {env : Env} {pattern : List (Uri.Piece Text)} {query : Bytes}
    {omitEmpty : Bool} {ms : List Member} {ws : List (Member × Val)} {r : Request}
    (h : serializeRequest env pattern query omitEmpty ms ws = .ok r) :
    ∃ ct len req, payloadOf env (Matcher.of matchRequest ms)
        (fun s => s = .blob || s = .string || s = .enum) omitEmpty (bodyOf matchRequest ws) =
          .ok (r.body, ct, len, req) ∧
      r.fields = toFields env (headersOf matchRequest ws ++ extraHeaders env ct len) ∧
      r.host = labelsOf .host matchRequest ws ∧
      Uri.serializePath pattern ((labelsOf .label matchRequest ws).map fun x =>
        (x.1, env.utf8 x.2)) = .ok r.path ∧
      r.query = Uri.joinQuery ((queryOf matchRequest ws).map fun x =>
        (env.utf8 x.1, some (env.utf8 x.2))) query ∧
      (req = true → hasField env r.fields "content-length".toList = true) := by
  unfold serializeRequest at h
  cases hw : writeAll Parts.writeRequest {} ws with
  | error e => rw [hw] at h; cases h
  | ok p =>
    have hp := writeAll_request ws {} p hw
    simp only [List.nil_append] at hp
    rw [hw] at h
    simp only at h
    cases hb : payloadOf env (Matcher.of matchRequest ms)
        (fun s => s = .blob || s = .string || s = .enum) omitEmpty p.payload with
    | error e => rw [hb] at h; cases h
    | ok x =>
      obtain ⟨body, ct, len, req⟩ := x
      rw [hb] at h
      simp only at h
      split at h
      · cases h
      · next hl =>
        split at h
        · cases h
        · next path hpath =>
          simp only [Except.ok.injEq] at h
          subst h
          subst hp
          refine ⟨ct, len, req, hb, rfl, rfl, hpath, rfl, fun hr => ?_⟩
          simpa [hr] using hl

theorem serializeResponse_ok {env : Env} {errorStatus : Option Text} {code : Text}
    {omitEmpty : Bool} {ms : List Member} {ws : List (Member × Val)} {r : Response}
    (h : serializeResponse env errorStatus code omitEmpty ms ws = .ok r) :
    ∃ ct len req, payloadOf env (Matcher.of matchResponse ms)
        (fun s => s = .blob || s = .string) omitEmpty (bodyOf matchResponse ws) =
          .ok (r.body, ct, len, req) ∧
      r.fields = toFields env (headersOf matchResponse ws ++ extraHeaders env ct len) ∧
      r.status = ((labelsOf .status matchResponse ws).getLast?.map Prod.snd).getD
        (errorStatus.getD code) := by
  unfold serializeResponse at h
  cases hw : writeAll Parts.writeResponse {} ws with
  | error e => rw [hw] at h; cases h
  | ok p =>
    obtain ⟨h1, h2, h3⟩ := writeAll_response ws {} p hw
    simp only [List.nil_append, Option.or_none] at h1 h2 h3
    rw [hw] at h
    simp only at h
    cases hb : payloadOf env (Matcher.of matchResponse ms)
        (fun s => s = .blob || s = .string) omitEmpty p.payload with
    | error e => rw [hb] at h; cases h
    | ok x =>
      obtain ⟨body, ct, len, req⟩ := x
      rw [hb] at h
      simp only at h
      split at h
      · cases h
      · simp only [Except.ok.injEq] at h
        subst h
        exact ⟨ct, len, req, by rw [← h2]; exact hb, by rw [← h1], by rw [← h3]⟩

theorem valuesOf_extra (env : Env) (ct : Option Text) (len : Option Nat) (name : Text)
    (h1 : env.lower name ≠ env.lower "content-type".toList)
    (h2 : env.lower name ≠ env.lower "content-length".toList) :
    valuesOf env.lower (extraHeaders env ct len) name = [] := by
  have h1' := h1.symm
  have h2' := h2.symm
  cases ct <;> cases len <;> simp only [extraHeaders, valuesOf] <;>
    simp only [List.nil_append, List.append_nil, List.cons_append, List.filter_cons, h1', h2',
      decide_false, List.filter_nil, List.map_nil, Bool.false_eq_true, if_false]

/-- **C29**, requests: whatever is written, each location of the request holds exactly the values of
the members the documented precedence binds there, in the order written.  (Content type and length
are C67.) -/
theorem C29_request_contents (env : Env) (pattern : List (Uri.Piece Text)) (query : Bytes)
    (omitEmpty : Bool) (ms : List Member) (ws : List (Member × Val)) (r : Request)
    (h : serializeRequest env pattern query omitEmpty ms ws = .ok r)
    (loc : Member → Binding) (hloc : ∀ m, Located requestPrecedence m (loc m)) :
    (∀ name, env.lower name ≠ env.lower "content-type".toList →
      env.lower name ≠ env.lower "content-length".toList →
      fieldValues env.lower r.fields name = valuesOf env.lower (headersOf loc ws) name) ∧
    Uri.parseQuery r.query = Uri.parseQuery query ++ (queryOf loc ws).map (fun x =>
      (env.utf8 x.1, some (env.utf8 x.2))) ∧
    Uri.serializePath pattern ((labelsOf .label loc ws).map fun x => (x.1, env.utf8 x.2)) =
      .ok r.path ∧
    r.host = labelsOf .host loc ws := by
  obtain ⟨ct, len, req, -, hf, hh, hp, hq, -⟩ := serializeRequest_ok h
  rw [loc_request hloc]
  refine ⟨fun name h1 h2 => ?_, ?_, hp, hh⟩
  · rw [hf, fieldValues_toFields, valuesOf_append, valuesOf_extra env ct len name h1 h2,
      List.append_nil]
  · rw [hq]
    refine Uri.C28_query_round_trip _ _ (.inr ?_)
    cases queryOf matchRequest ws <;> simp

/-- **C29**, responses; the status is the bound member's, else that of the error, else that of the
operation. -/
theorem C29_response_contents (env : Env) (errorStatus : Option Text) (code : Text)
    (omitEmpty : Bool) (ms : List Member) (ws : List (Member × Val)) (r : Response)
    (h : serializeResponse env errorStatus code omitEmpty ms ws = .ok r)
    (loc : Member → Binding) (hloc : ∀ m, Located responsePrecedence m (loc m)) :
    (∀ name, env.lower name ≠ env.lower "content-type".toList →
      env.lower name ≠ env.lower "content-length".toList →
      fieldValues env.lower r.fields name = valuesOf env.lower (headersOf loc ws) name) ∧
    r.status = ((labelsOf .status loc ws).getLast?.map Prod.snd).getD (errorStatus.getD code) := by
  obtain ⟨ct, len, req, -, hf, hs⟩ := serializeResponse_ok h
  rw [loc_response hloc]
  refine ⟨fun name h1 h2 => ?_, hs⟩
  rw [hf, fieldValues_toFields, valuesOf_append, valuesOf_extra env ct len name h1 h2,
    List.append_nil]

/-! ## Body and payload -/

theorem add_spec (f : Member → Binding) (ms : List Member) : ∀ a : Matcher,
    ((ms.foldl (Matcher.add f) a).hasBody = true ↔
      a.hasBody = true ∨ ∃ m ∈ ms, f m = .body ∨ f m = .host) ∧
    ((∀ m ∈ ms, f m ≠ .payload) →
      (ms.foldl (Matcher.add f) a).payloadMember = a.payloadMember ∧
      (ms.foldl (Matcher.add f) a).hasPayload = a.hasPayload) ∧
    ((∀ m ∈ ms, ¬(m.streaming = true ∧ m.shape = .union)) →
      (ms.foldl (Matcher.add f) a).eventStream = a.eventStream) := by
  induction ms with
  | nil => intro a; simp
  | cons m ms ih =>
    intro a
    obtain ⟨h1, h2, h3⟩ := ih (a.add f m)
    simp only [List.foldl_cons]
    refine ⟨?_, fun hp => ?_, fun hs => ?_⟩
    · rw [h1]
      simp only [Matcher.add, Bool.or_eq_true, beq_iff_eq, List.mem_cons, exists_eq_or_imp, or_assoc]
    · obtain ⟨g1, g2⟩ := h2 fun x hx => hp x (by simp [hx])
      have := hp m (by simp)
      rw [g1, g2]
      simp [Matcher.add, this]
    · rw [h3 fun x hx => hs x (by simp [hx])]
      simp only [Matcher.add]
      rw [if_neg (hs m (by simp))]

theorem payloadMember_unique (f : Member → Binding) (pm : Member) (ms : List Member) :
    ∀ a : Matcher, (∀ m ∈ ms, f m = .payload → m = pm) →
    ((∃ m ∈ ms, f m = .payload) ∨ a.payloadMember = some pm) →
    (ms.foldl (Matcher.add f) a).payloadMember = some pm := by
  induction ms with
  | nil => intro a _ h; simpa using h
  | cons m ms ih =>
    intro a hu he
    rw [List.foldl_cons]
    refine ih _ (fun x hx => hu x (by simp [hx])) ?_
    by_cases hm : f m = .payload
    · right
      obtain rfl := hu m (by simp) hm
      simp [Matcher.add, hm]
    · rcases he with ⟨x, hx, hxp⟩ | he
      · rcases List.mem_cons.1 hx with rfl | hx
        · exact absurd hxp hm
        · exact .inl ⟨x, hx, hxp⟩
      · right
        simp [Matcher.add, hm, he]

/-- **C29**: if no member is the payload and some member has no binding (or is a host label), the
body is the codec's encoding of exactly the members without a binding and the host labels. -/
theorem C29_body (env : Env) (pattern : List (Uri.Piece Text)) (query : Bytes)
    (omitEmpty : Bool) (ms : List Member) (ws : List (Member × Val)) (r : Request)
    (h : serializeRequest env pattern query omitEmpty ms ws = .ok r)
    (loc : Member → Binding) (hloc : ∀ m, Located requestPrecedence m (loc m))
    (hstream : ∀ m ∈ ms, ¬(m.streaming = true ∧ m.shape = .union))
    (hws : ∀ w ∈ ws, w.1 ∈ ms) (hpay : ∀ m ∈ ms, loc m ≠ .payload)
    (hbody : ∃ m ∈ ms, loc m = .body ∨ loc m = .host) :
    r.body = .bytes (env.encodeStruct (ws.filter fun w => loc w.1 = .body ∨ loc w.1 = .host)) := by
  obtain ⟨ct, len, req, hb, -⟩ := serializeRequest_ok h
  have hl := loc_request hloc
  subst hl
  obtain ⟨h1, h2, h3⟩ := add_spec matchRequest ms {}
  have e1 : (Matcher.of matchRequest ms).eventStream = none := h3 hstream
  have e2 : (Matcher.of matchRequest ms).payloadMember = none := (h2 hpay).1
  have e3 : (Matcher.of matchRequest ms).hasBody = true := h1.2 (.inr hbody)
  have e4 : bodyOf matchRequest ws =
      ws.filter fun w => matchRequest w.1 = .body ∨ matchRequest w.1 = .host := by
    refine List.filter_congr fun w hw => ?_
    have := hpay w.1 (hws w hw)
    simp [this]
  simp only [payloadOf, e1, e2, Matcher.shouldWriteBody, e3, Bool.true_or, if_true,
    Except.ok.injEq, Prod.mk.injEq] at hb
  rw [← hb.1, e4]

theorem rawPayload_blob (env : Env) (m : Member) (b : Bytes) :
    rawPayload env [(m, .blob b)] = .ok (some (.bytes b)) := rfl

theorem rawPayload_stream (env : Env) (m : Member) (s : Nat) :
    rawPayload env [(m, .stream s)] = .ok (some (.stream s)) := rfl

theorem rawPayload_text (env : Env) (m : Member) (t : Text) :
    rawPayload env [(m, .text t)] =
      if m.shape.isString then .ok (some (.bytes (env.utf8 t))) else .error .invalidShape := by
  cases h : m.shape.isString <;>
    simp [rawPayload, List.foldlM, bind, Except.bind, pure, Except.pure, h]

/-- **C29**, what holds of payload members: if one member is the payload, a blob or string, and
every other member is bound elsewhere, the body is that member's value as it is.
Missing: the case that some member has no binding, see `C29_payload_excludes_body_fails`. -/
theorem C29_payload_partial (env : Env) (pattern : List (Uri.Piece Text)) (query : Bytes)
    (omitEmpty : Bool) (ms : List Member) (ws : List (Member × Val)) (r : Request)
    (h : serializeRequest env pattern query omitEmpty ms ws = .ok r)
    (loc : Member → Binding) (hloc : ∀ m, Located requestPrecedence m (loc m))
    (hstream : ∀ m ∈ ms, ¬(m.streaming = true ∧ m.shape = .union))
    (hws : ∀ w ∈ ws, w.1 ∈ ms) (hbody : ∀ m ∈ ms, loc m ≠ .body ∧ loc m ≠ .host)
    (pm : Member) (hpm : pm ∈ ms) (hpay : loc pm = .payload)
    (huniq : ∀ m ∈ ms, loc m = .payload → m = pm)
    (hshape : pm.shape = .blob ∨ pm.shape = .string ∨ pm.shape = .enum) (v : Val)
    (hv : (ws.filter fun w => w.1 = pm) = [(pm, v)]) :
    (∀ b, v = .blob b → r.body = .bytes b) ∧ (∀ t, v = .text t → r.body = .bytes (env.utf8 t)) ∧
    (∀ s, v = .stream s → r.body = .stream s) := by
  obtain ⟨ct, len, req, hb, -⟩ := serializeRequest_ok h
  have hl := loc_request hloc
  subst hl
  have e1 : (Matcher.of matchRequest ms).eventStream = none :=
    (add_spec matchRequest ms {}).2.2 hstream
  have e2 : (Matcher.of matchRequest ms).payloadMember = some pm :=
    payloadMember_unique matchRequest pm ms {} huniq (.inl ⟨pm, hpm, hpay⟩)
  have e3 : bodyOf matchRequest ws = [(pm, v)] := by
    rw [← hv]
    refine List.filter_congr fun w hw => ?_
    obtain ⟨g1, g2⟩ := hbody w.1 (hws w hw)
    by_cases hp : w.1 = pm
    · simp [hp, hpay]
    · have : matchRequest w.1 ≠ .payload := fun hx => hp (huniq w.1 (hws w hw) hx)
      simp [g1, g2, hp, this]
  have e4 : (decide (pm.shape = .blob) || decide (pm.shape = .string) ||
      decide (pm.shape = .enum)) = true := by
    rcases hshape with h | h | h <;> simp [h]
  simp only [payloadOf, e1, e2, e3, e4, if_true] at hb
  refine ⟨?_, ?_, ?_⟩
  · rintro b rfl
    rw [rawPayload_blob] at hb
    dsimp only at hb
    exact (congrArg Prod.fst (Except.ok.inj hb)).symm
  · rintro t rfl
    rw [rawPayload_text] at hb
    by_cases hs : pm.shape.isString = true
    · rw [if_pos hs] at hb
      dsimp only at hb
      exact (congrArg Prod.fst (Except.ok.inj hb)).symm
    · rw [if_neg hs] at hb
      cases hb
  · rintro s rfl
    rw [rawPayload_stream] at hb
    dsimp only at hb
    exact (congrArg Prod.fst (Except.ok.inj hb)).symm

/-! ## Content type and length -/

/-- **C67**, what holds: if no member writes these headers, the request has at most one content
type, and a content length only with a body of that many bytes.
Missing: members bound to these headers, see `C67_content_type_fails`. -/
theorem C67_content_headers_partial (env : Env) (pattern : List (Uri.Piece Text)) (query : Bytes)
    (omitEmpty : Bool) (ms : List Member) (ws : List (Member × Val)) (r : Request)
    (h : serializeRequest env pattern query omitEmpty ms ws = .ok r)
    (hlower : env.lower "content-type".toList ≠ env.lower "content-length".toList)
    (loc : Member → Binding) (hloc : ∀ m, Located requestPrecedence m (loc m))
    (hct : valuesOf env.lower (headersOf loc ws) "content-type".toList = [])
    (hcl : valuesOf env.lower (headersOf loc ws) "content-length".toList = []) :
    (fieldValues env.lower r.fields "content-type".toList).length ≤ 1 ∧
    (fieldValues env.lower r.fields "content-length".toList = [] ∨
      ∃ b, r.body = .bytes b ∧
        fieldValues env.lower r.fields "content-length".toList = [env.natText b.length]) := by
  obtain ⟨ct, len, req, hb, hf, -⟩ := serializeRequest_ok h
  have hl := loc_request hloc
  subst hl
  have hlen : ∀ n, len = some n → ∃ b, r.body = .bytes b ∧ b.length = n := by
    rintro n rfl
    unfold payloadOf at hb
    split at hb
    · split at hb <;> simp at hb
    · split at hb
      · split at hb
        · cases hb
        · next b hraw =>
          simp only [Except.ok.injEq, Prod.mk.injEq] at hb
          obtain ⟨hb1, -, hb3, -⟩ := hb
          cases b with
          | none => simp [sizeOf] at hb3
          | some b =>
            cases b <;> simp [sizeOf] at hb3
            next bs => exact ⟨bs, by simpa using hb1.symm, hb3⟩
      · simp only [Except.ok.injEq, Prod.mk.injEq, Option.some.injEq] at hb
        exact ⟨_, hb.1.symm, hb.2.2.1⟩
    · split at hb
      · simp only [Except.ok.injEq, Prod.mk.injEq, Option.some.injEq] at hb
        exact ⟨_, hb.1.symm, hb.2.2.1⟩
      · simp at hb
  have hl1 := hlower
  have hl2 := hlower.symm
  rw [hf, fieldValues_toFields, fieldValues_toFields, valuesOf_append, valuesOf_append, hct, hcl,
    List.nil_append, List.nil_append]
  cases ct <;> cases len <;>
    simp only [extraHeaders, valuesOf, List.nil_append, List.append_nil, List.cons_append,
      List.filter_cons, List.filter_nil, hl1, hl2, decide_true, decide_false, if_true,
      Bool.false_eq_true, if_false, List.map_cons, List.map_nil, List.length_nil,
      List.length_cons, Nat.le_refl, Nat.zero_le, true_and, true_or, Nat.zero_add] <;>
  · next n =>
    obtain ⟨b, hb1, hb2⟩ := hlen _ rfl
    exact .inr ⟨b, hb1, by rw [hb2]⟩

/-! ## Concrete messages -/

/-- An environment for examples: ASCII, a codec that writes the names of the members. -/
def demo : Env where
  lower := List.map Char.toLower
  utf8 := List.map fun c => c.toNat.toUInt8
  natText n := (Nat.repr n).toList
  mediaType := "application/json".toList
  encodeStruct ws := ws.flatMap fun w => w.1.name.map fun c => c.toNat.toUInt8
  encodeValues ws := ws.flatMap fun w => w.1.name.map fun c => c.toNat.toUInt8

def mLabel : Member := { name := "id".toList, shape := .string, label := true }
def mHeader : Member := { name := "h".toList, shape := .list, header := some "X-H".toList }
def mQuery : Member := { name := "q".toList, shape := .string, query := some "q".toList }
def mParams : Member := { name := "ps".toList, shape := .map, queryParams := true }
def mBody : Member := { name := "b".toList, shape := .string }
def mPayload : Member := { name := "p".toList, shape := .blob, payload := true }
def mType : Member := { name := "t".toList, shape := .string, header := some "Content-Type".toList }

/-- What can be seen of a result. -/
def view (r : Except Err Request) :
    Except Err (List (Text × List Text) × Bytes × Bytes × Body) :=
  r.map fun r => (r.fields.map fun f => (f.name, f.values), r.path, r.query, r.body)

/-- The hypotheses of `C29_request_contents`, `C29_body` and `C67_content_headers_partial` are met
by a request using every kind of location. -/
example : view (serializeRequest demo [.lit (Uri.asc "/x/"), .label "id".toList false] [] true
    [mLabel, mHeader, mQuery, mBody]
    [(mLabel, .text "a/b".toList), (mHeader, .list ["1".toList, "2".toList]),
     (mQuery, .text "v".toList), (mBody, .text "z".toList)]) =
    .ok ([("X-H".toList, ["1".toList, "2".toList]),
      ("content-type".toList, ["application/json".toList]), ("content-length".toList, ["1".toList])],
      Uri.asc "/x/a%2Fb", Uri.asc "q=v", .bytes (Uri.asc "b")) := by decide +kernel

/-- Those of `C29_payload_partial`. -/
example : view (serializeRequest demo [.lit (Uri.asc "/")] [] true [mPayload, mQuery]
    [(mPayload, .blob [1, 2, 3]), (mQuery, .text "v".toList)]) =
    .ok ([("content-type".toList, ["application/octet-stream".toList]),
      ("content-length".toList, ["3".toList])], Uri.asc "/", Uri.asc "q=v", .bytes [1, 2, 3]) := by
  decide +kernel

/-- What is false of the code: with a payload member, a member without a binding is not kept out of
the body; written after the payload it replaces it. -/
theorem C29_payload_excludes_body_fails :
    view (serializeRequest demo [.lit (Uri.asc "/")] [] true [mPayload, mBody]
      [(mPayload, .blob [1, 2, 3]), (mBody, .text "z".toList)]) =
    .ok ([("content-type".toList, ["application/octet-stream".toList]),
      ("content-length".toList, ["1".toList])], Uri.asc "/", [], .bytes (Uri.asc "z")) := by
  decide +kernel

/-- What is false of the code: a member bound to `Content-Type` does not set the content type, the
serializer's own is added as a second value. -/
theorem C67_content_type_fails :
    view (serializeRequest demo [.lit (Uri.asc "/")] [] true [mPayload, mType]
      [(mPayload, .blob [1]), (mType, .text "image/png".toList)]) =
    .ok ([("Content-Type".toList, ["image/png".toList, "application/octet-stream".toList]),
      ("content-length".toList, ["1".toList])], Uri.asc "/", [], .bytes [1]) := by decide +kernel

/-- A payload that requires a length is refused when it is a stream, since the length is never
computed, whatever else is written without a content length. -/
theorem C67_stream_length_fails :
    view (serializeRequest demo [.lit (Uri.asc "/")] [] true [{ mPayload with requiresLength := true }]
      [({ mPayload with requiresLength := true }, .stream 7)]) = .error .lengthRequired := by
  decide +kernel

/-- What is false of the code: an entry of a query map with the name of a query member does not give
way to it, the parameter is sent twice. -/
theorem C68_query_map_conflict_fails :
    view (serializeRequest demo [.lit (Uri.asc "/")] [] true [mQuery, mParams]
      [(mQuery, .text "1".toList), (mParams, .map [("q".toList, "2".toList)])]) =
    .ok ([], Uri.asc "/", Uri.asc "q=1&q=2", .bytes []) := by decide +kernel

end Verif.Http

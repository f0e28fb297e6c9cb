import Mathlib.Data.List.Basic
import Mathlib.Data.List.Nodup
import Mathlib.Data.List.Count

/-!
# The tests of protocols that are generated (C140)

Models what the generated test of a request checks (codegen/core/src/main/java/software/amazon/smithy/python/codegen/
HttpProtocolTestGenerator.java:211-276, Python in a Java text) once the client has made the request.

Simplified: values of expected headers are given as `splitHeaders` (295-334) has split them.  How bodies are compared for their media type
(401-) is a function, so are `str.lower` (and `toLowerCase` of Java, taken to be the same) and `unquote` of `urllib.parse`, after
pluses were replaced.  `parse_qsl` of `None` is taken to be empty.
Fields are the entries of `Fields`: a list of lower-case names and their values.
-/

set_option autoImplicit false

namespace Verif.ProtocolTests

abbrev Text := List Char

/-! ## Model -/

/-- A request as the test sees it (`actual`, HttpProtocolTestGenerator.java:216-222). -/
structure Request where
  method : Text
  path : Text
  host : Text
  query : Option Text
  fields : List (Text × List Text)
  body : Text

/-- A test case of `@httpRequestTests`, as far as the assertions are made from it (HttpProtocolTestGenerator.java:263-274).
`headers` have their values split. -/
structure TestCase where
  method : Text
  uri : Text
  host : Text
  queryParams : List Text := []
  forbidQueryParams : List Text := []
  requireQueryParams : List Text := []
  headers : List (Text × List Text) := []
  forbidHeaders : List Text := []
  requireHeaders : List Text := []
  body : Option Text := none

/-- `str.split` at a character, as used in HttpProtocolTestGenerator.java:223. -/
def split (c : Char) : Text → List Text
  | [] => [[]]
  | x :: xs =>
    if x = c then [] :: split c xs
    else
      match split c xs with
      | [] => [[x]]
      | t :: ts => (x :: t) :: ts

/-- `actual_query_segments` (HttpProtocolTestGenerator.java:222-223). -/
def segments : Option Text → List Text
  | none => []
  | some [] => []
  | some (c :: cs) => split '&' (c :: cs)

/-- The name of a segment in `parse_qsl` (HttpProtocolTestGenerator.java:229): what is in front of the first `=`. -/
def segmentName : Text → Text
  | [] => []
  | c :: cs => if c = '=' then [] else c :: segmentName cs

/-- Its value there: what is after the first `=`, if there is one. -/
def segmentValue : Text → Option Text
  | [] => none
  | c :: cs => if c = '=' then some cs else segmentValue cs

/-- The names of `parse_qsl(query)`, in lower case (HttpProtocolTestGenerator.java:229): `parse_qsl` drops parameters without a value,
or with an empty one, unless told otherwise. -/
def queryKeys (lower unquote : Text → Text) (query : Option Text) : List Text :=
  (segments query).filterMap fun s =>
    match segmentValue s with
    | none => none
    | some v => if v = [] then none else some (lower (unquote (segmentName s)))

/-- The loop over expected segments (HttpProtocolTestGenerator.java:225-227); `false` is an `AssertionError`. -/
def takeAll : List Text → List Text → Bool
  | [], _ => true
  | e :: es, actual => if e ∈ actual then takeAll es (actual.erase e) else false

/-- The loop over required names (HttpProtocolTestGenerator.java:234-240); `remove` of one that is not there is a `ValueError`. -/
def takeKeys (lower : Text → Text) : List Text → List Text → Bool
  | [], _ => true
  | k :: ks, actual => if lower k ∈ actual then (if k ∈ actual then takeKeys lower ks (actual.erase k) else false) else false

/-- `actual.fields[name]` (packages/smithy-http/src/smithy_http/__init__.py:146-149); `none` is a `KeyError`. -/
def getField (lower : Text → Text) (fields : List (Text × List Text)) (name : Text) : Option (List Text) :=
  (fields.find? fun f => f.1 = lower name).map (·.2)

/-- The loop over required headers (HttpProtocolTestGenerator.java:253-256), which deletes them
(packages/smithy-http/src/smithy_http/__init__.py:151-154). -/
def delAll (lower : Text → Text) : List Text → List (Text × List Text) → Bool
  | [], _ => true
  | k :: ks, fields =>
    if (getField lower fields k).isSome then delAll lower ks (fields.filter fun f => f.1 ≠ lower k) else false

/-- Whether the test passes with this request (HttpProtocolTestGenerator.java:218-258). -/
def passes (lower unquote : Text → Text) (sameBody : Text → Text → Bool) (tc : TestCase) (r : Request) : Bool :=
  decide (r.method = tc.method) && decide (r.path = tc.uri) && decide (r.host = tc.host) &&
  takeAll tc.queryParams (segments r.query) &&
  ((tc.forbidQueryParams.map lower).all fun k => decide (lower k ∉ queryKeys lower unquote r.query)) &&
  takeKeys lower (tc.requireQueryParams.map lower) (queryKeys lower unquote r.query) &&
  ((tc.headers.flatMap fun h => h.2.map fun v => (lower h.1, v)).all fun kv =>
    match getField lower r.fields kv.1 with
    | none => false
    | some vs => decide (kv.2 ∈ vs)) &&
  ((tc.forbidHeaders.map lower).all fun k => (getField lower r.fields k).isNone) &&
  delAll lower (tc.requireHeaders.map lower) r.fields &&
  match tc.body with
  | none => true
  | some b => sameBody b r.body

/-! ## Specification -/

/-- The names of the parameters of a query, with values or without. -/
def names (unquote : Text → Text) (query : Option Text) : List Text :=
  ((segments query).filter (· ≠ [])).map fun s => unquote (segmentName s)

/-- A request meets a test case, where the values of its headers are to the expected ones as `R` says. -/
structure Meets (lower unquote : Text → Text) (sameBody : Text → Text → Bool) (R : List Text → List Text → Prop) (tc : TestCase)
    (r : Request) : Prop where
  method : r.method = tc.method
  path : r.path = tc.uri
  host : r.host = tc.host
  query : ∀ s, tc.queryParams.count s ≤ (segments r.query).count s
  forbidQuery : ∀ k ∈ tc.forbidQueryParams, ∀ n ∈ names unquote r.query, lower n ≠ lower k
  requireQuery : ∀ k, (tc.requireQueryParams.map lower).count k ≤ ((names unquote r.query).map lower).count k
  headers : ∀ h ∈ tc.headers, ∃ f ∈ r.fields, f.1 = lower h.1 ∧ R h.2 f.2
  forbidHeaders : ∀ k ∈ tc.forbidHeaders, ∀ f ∈ r.fields, f.1 ≠ lower k
  requireHeaders : ∀ k ∈ tc.requireHeaders, ∃ f ∈ r.fields, f.1 = lower k
  body : ∀ b, tc.body = some b → sameBody b r.body = true

/-- Every parameter of the query has a value. -/
def Valued (query : Option Text) : Prop :=
  ∀ s ∈ segments query, s ≠ [] → ∃ n v, s = n ++ '=' :: v ∧ '=' ∉ n ∧ v ≠ []

/-! ## Lemmas -/

theorem takeAll_iff : ∀ (es actual : List Text), takeAll es actual = true ↔ ∀ s, es.count s ≤ actual.count s
  | [], actual => by simp [takeAll]
  | e :: es, actual => by
    unfold takeAll
    by_cases h : e ∈ actual
    · rw [if_pos h, takeAll_iff es]
      have hc := List.count_pos_iff.2 h
      constructor
      · intro hs s
        have := hs s
        rw [List.count_erase] at this
        rw [List.count_cons]
        by_cases hse : e = s
        · subst hse
          simp at this ⊢
          omega
        · simp [hse] at this ⊢
          exact this
      · intro hs s
        have := hs s
        rw [List.count_cons] at this
        rw [List.count_erase]
        by_cases hse : e = s
        · subst hse
          simp at this ⊢
          omega
        · simp [hse] at this ⊢
          exact this
    · rw [if_neg h]
      refine ⟨(fun h => nomatch h), fun hs => ?_⟩
      have := hs e
      rw [List.count_cons_self, List.count_eq_zero_of_not_mem h] at this
      omega

theorem takeKeys_eq {lower : Text → Text} (hl : ∀ t, lower (lower t) = lower t) : ∀ (ks actual : List Text),
    takeKeys lower (ks.map lower) actual = takeAll (ks.map lower) actual
  | [], _ => rfl
  | k :: ks, actual => by
    rw [List.map_cons, takeKeys, takeAll, hl]
    by_cases h : lower k ∈ actual
    · rw [if_pos h, if_pos h, if_pos h, takeKeys_eq hl ks]
    · rw [if_neg h, if_neg h]

theorem getField_some {lower : Text → Text} {fields : List (Text × List Text)} (hn : (fields.map (·.1)).Nodup) {k : Text}
    {vs : List Text} : getField lower fields k = some vs ↔ (lower k, vs) ∈ fields := by
  induction fields with
  | nil => simp [getField]
  | cons f fs ih =>
    rw [List.map_cons, List.nodup_cons] at hn
    by_cases h : f.1 = lower k
    · have : getField lower (f :: fs) k = some f.2 := by simp [getField, h]
      rw [this, List.mem_cons]
      constructor
      · intro hv
        cases hv
        exact .inl (by rw [← h])
      · rintro (hv | hv)
        · rw [← hv]
        · exact absurd (List.mem_map.2 ⟨_, hv, h.symm⟩) hn.1
    · have : getField lower (f :: fs) k = getField lower fs k := by simp [getField, h]
      rw [this, ih hn.2, List.mem_cons]
      refine ⟨.inr, fun hv => hv.elim (fun hv => absurd ?_ h) id⟩
      rw [← hv]

theorem getField_none {lower : Text → Text} {fields : List (Text × List Text)} {k : Text} :
    (getField lower fields k).isNone = true ↔ ∀ f ∈ fields, f.1 ≠ lower k := by
  unfold getField
  rw [Option.isNone_iff_eq_none, Option.map_eq_none_iff, List.find?_eq_none]
  constructor
  · intro h f hf he
    exact h f hf (by simpa using he)
  · intro h f hf he
    exact h f hf (by simpa using he)

theorem getField_isSome {lower : Text → Text} {fields : List (Text × List Text)} {k : Text} :
    (getField lower fields k).isSome = true ↔ ∃ f ∈ fields, f.1 = lower k := by
  rw [← Option.not_isNone, Bool.not_eq_true', ← Bool.not_eq_true, getField_none]
  simp

theorem delAll_iff {lower : Text → Text} (hl : ∀ t, lower (lower t) = lower t) : ∀ (ks : List Text) (fields : List (Text × List Text)),
    (ks.map lower).Nodup → (delAll lower (ks.map lower) fields = true ↔ ∀ k ∈ ks, ∃ f ∈ fields, f.1 = lower k)
  | [], _, _ => by simp [delAll]
  | k :: ks, fields, hn => by
    rw [List.map_cons, List.nodup_cons] at hn
    rw [List.map_cons, delAll, hl]
    have hg := getField_isSome (lower := lower) (fields := fields) (k := lower k)
    rw [hl] at hg
    by_cases h : (getField lower fields (lower k)).isSome = true
    · rw [if_pos h, delAll_iff hl ks _ hn.2]
      constructor
      · intro hs j hj
        rcases List.mem_cons.1 hj with rfl | hj
        · exact hg.1 h
        · obtain ⟨f, hf, hfe⟩ := hs j hj
          exact ⟨f, (List.mem_filter.1 hf).1, hfe⟩
      · intro hs j hj
        obtain ⟨f, hf, hfe⟩ := hs j (List.mem_cons_of_mem _ hj)
        refine ⟨f, List.mem_filter.2 ⟨hf, ?_⟩, hfe⟩
        rw [decide_eq_true_eq, hfe]
        intro he
        exact hn.1 (List.mem_map.2 ⟨j, hj, he⟩)
    · rw [if_neg h]
      refine ⟨(fun h => nomatch h), fun hs => absurd (hg.2 (hs k List.mem_cons_self)) h⟩

theorem value_append {n v : Text} (h : '=' ∉ n) : segmentValue (n ++ '=' :: v) = some v := by
  induction n with
  | nil => simp [segmentValue]
  | cons c n ih =>
    have hc : ¬ c = '=' := fun e => h (e ▸ List.mem_cons_self)
    rw [List.cons_append, segmentValue, if_neg hc]
    exact ih fun hm => h (List.mem_cons_of_mem _ hm)

theorem filterMap_valued {f : Text → Text} : ∀ {ss : List Text},
    (∀ s ∈ ss, s ≠ [] → ∃ n v, s = n ++ '=' :: v ∧ '=' ∉ n ∧ v ≠ []) →
    (ss.filterMap fun s =>
      match segmentValue s with
      | none => none
      | some v => if v = [] then none else some (f s)) = (ss.filter (· ≠ [])).map f
  | [], _ => rfl
  | s :: ss, h => by
    have ih := filterMap_valued (f := f) (ss := ss) fun t ht => h t (List.mem_cons_of_mem _ ht)
    by_cases hs : s = []
    · subst hs
      rw [List.filterMap_cons_none (by rfl), ih]
      simp
    · obtain ⟨n, v, he, hn, hv⟩ := h s List.mem_cons_self hs
      have h1 : segmentValue s = some v := he ▸ value_append hn
      rw [List.filterMap_cons_some (b := f s) (by simp only [h1, if_neg hv]), ih]
      simp [hs]

theorem keys_valued {lower unquote : Text → Text} {query : Option Text} (h : Valued query) :
    queryKeys lower unquote query = (names unquote query).map lower := by
  unfold queryKeys names
  rw [filterMap_valued (f := fun s => lower (unquote (segmentName s))) h, List.map_map]
  rfl

/-! ## Theorems -/

/-- **C140**: for requests in which every parameter of the query has a value, the test passes exactly if the request meets the test case,
with all of the expected values in its headers. -/
theorem C140_passes_partial {lower unquote : Text → Text} (sameBody : Text → Text → Bool) (hl : ∀ t, lower (lower t) = lower t)
    {tc : TestCase} {r : Request} (hq : Valued r.query) (hf : (r.fields.map (·.1)).Nodup)
    (hh : ∀ h ∈ tc.headers, h.2 ≠ []) (hr : (tc.requireHeaders.map lower).Nodup) :
    passes lower unquote sameBody tc r = true ↔
      Meets lower unquote sameBody (fun expected actual => ∀ v ∈ expected, v ∈ actual) tc r := by
  have hH : ((tc.headers.flatMap fun h => h.2.map fun v => (lower h.1, v)).all fun kv =>
      match getField lower r.fields kv.1 with
      | none => false
      | some vs => decide (kv.2 ∈ vs)) = true ↔ ∀ h ∈ tc.headers, ∃ f ∈ r.fields, f.1 = lower h.1 ∧ ∀ v ∈ h.2, v ∈ f.2 := by
    rw [List.all_eq_true]
    constructor
    · intro ha h hm
      have key : ∀ v ∈ h.2, ∃ vs, (lower h.1, vs) ∈ r.fields ∧ v ∈ vs := by
        intro v hv
        have := ha (lower h.1, v) (List.mem_flatMap.2 ⟨h, hm, List.mem_map.2 ⟨v, hv, rfl⟩⟩)
        dsimp only at this
        cases hg : getField lower r.fields (lower h.1) with
        | none =>
          rw [hg] at this
          cases this
        | some vs =>
          rw [hg] at this
          have hm := (getField_some hf).1 hg
          rw [hl] at hm
          exact ⟨vs, hm, of_decide_eq_true this⟩
      obtain ⟨v0, hv0⟩ := List.exists_mem_of_ne_nil _ (hh h hm)
      obtain ⟨vs, hvs, -⟩ := key v0 hv0
      refine ⟨_, hvs, rfl, fun v hv => ?_⟩
      obtain ⟨ws, hws, hvw⟩ := key v hv
      have h1 := (getField_some (lower := lower) (k := lower h.1) hf).2 (by rw [hl]; exact hvs)
      have h2 := (getField_some (lower := lower) (k := lower h.1) hf).2 (by rw [hl]; exact hws)
      rw [h1] at h2
      cases h2
      exact hvw
    · intro hs kv hkv
      obtain ⟨h, hm, hkv⟩ := List.mem_flatMap.1 hkv
      obtain ⟨v, hv, rfl⟩ := List.mem_map.1 hkv
      obtain ⟨⟨n, vs⟩, hfm, hfn, hfv⟩ := hs h hm
      dsimp only at hfn hfv ⊢
      subst hfn
      rw [(getField_some (lower := lower) (k := lower h.1) hf).2 (by rw [hl]; exact hfm)]
      exact decide_eq_true (hfv v hv)
  have hQ : ((tc.forbidQueryParams.map lower).all fun k => decide (lower k ∉ queryKeys lower unquote r.query)) = true ↔
      ∀ k ∈ tc.forbidQueryParams, ∀ n ∈ names unquote r.query, lower n ≠ lower k := by
    simp only [List.all_map, List.all_eq_true, Function.comp_apply, decide_eq_true_eq, hl, keys_valued hq, List.mem_map, not_exists,
      not_and]
  have hF : ((tc.forbidHeaders.map lower).all fun k => (getField lower r.fields k).isNone) = true ↔
      ∀ k ∈ tc.forbidHeaders, ∀ f ∈ r.fields, f.1 ≠ lower k := by
    simp only [List.all_map, List.all_eq_true, Function.comp_apply, getField_none, hl]
  have hB : (match tc.body with
      | none => true
      | some b => sameBody b r.body) = true ↔ ∀ b, tc.body = some b → sameBody b r.body = true := by
    cases tc.body with
    | none => simp
    | some b => simp
  unfold passes
  rw [takeKeys_eq hl, Bool.and_eq_true, Bool.and_eq_true, Bool.and_eq_true, Bool.and_eq_true, Bool.and_eq_true, Bool.and_eq_true,
    Bool.and_eq_true, Bool.and_eq_true, Bool.and_eq_true, decide_eq_true_eq, decide_eq_true_eq, decide_eq_true_eq, hQ, hH, hF,
    delAll_iff hl _ _ hr, hB, takeAll_iff, takeAll_iff, keys_valued hq]
  constructor
  · rintro ⟨⟨⟨⟨⟨⟨⟨⟨⟨h1, h2⟩, h3⟩, h4⟩, h5⟩, h6⟩, h7⟩, h8⟩, h9⟩, h10⟩
    exact ⟨h1, h2, h3, h4, h5, h6, h7, h8, h9, h10⟩
  · rintro ⟨h1, h2, h3, h4, h5, h6, h7, h8, h9, h10⟩
    exact ⟨⟨⟨⟨⟨⟨⟨⟨⟨h1, h2⟩, h3⟩, h4⟩, h5⟩, h6⟩, h7⟩, h8⟩, h9⟩, h10⟩

/-- **C140**: so no request that is right is reported: one whose headers have the expected values and no others. -/
theorem C140_right_partial {lower unquote : Text → Text} (sameBody : Text → Text → Bool) (hl : ∀ t, lower (lower t) = lower t)
    {tc : TestCase} {r : Request} (hq : Valued r.query) (hf : (r.fields.map (·.1)).Nodup)
    (hh : ∀ h ∈ tc.headers, h.2 ≠ []) (hr : (tc.requireHeaders.map lower).Nodup)
    (h : Meets lower unquote sameBody (· = ·) tc r) : passes lower unquote sameBody tc r = true :=
  (C140_passes_partial sameBody hl hq hf hh hr).2 { h with
    headers := fun x hx => by
      obtain ⟨f, hfm, hfn, hfe⟩ := h.headers x hx
      exact ⟨f, hfm, hfn, fun v hv => hfe ▸ hv⟩ }

/-- What `segments` of a text are: its parts between `&`. -/
theorem C140_segments (q : Text) (hq : q ≠ []) :
    List.intercalate ['&'] (segments (some q)) = q ∧ ∀ s ∈ segments (some q), '&' ∉ s := by
  have hne : ∀ t : Text, split '&' t ≠ [] := by
    intro t
    cases t with
    | nil => simp [split]
    | cons c t =>
      unfold split
      split
      · simp
      · split <;> simp
  have key : ∀ t : Text, List.intercalate ['&'] (split '&' t) = t ∧ ∀ s ∈ split '&' t, '&' ∉ s := by
    intro t
    induction t with
    | nil => simp [split, List.intercalate]
    | cons c t ih =>
      unfold split
      by_cases hc : c = '&'
      · rw [if_pos hc]
        obtain ⟨x, xs, hx⟩ := List.exists_cons_of_ne_nil (hne t)
        rw [hx] at ih ⊢
        refine ⟨?_, fun s hs => ?_⟩
        · have := ih.1
          simp only [List.intercalate, List.intersperse_cons_cons, List.flatten_cons, List.nil_append] at this ⊢
          rw [this, hc]
          rfl
        · rcases List.mem_cons.1 hs with rfl | hs
          · simp
          · exact ih.2 s hs
      · rw [if_neg hc]
        obtain ⟨x, xs, hx⟩ := List.exists_cons_of_ne_nil (hne t)
        rw [hx] at ih ⊢
        refine ⟨?_, fun s hs => ?_⟩
        · have := ih.1
          cases xs with
          | nil => simpa [List.intercalate] using this
          | cons y ys => simpa [List.intercalate] using this
        · rcases List.mem_cons.1 hs with rfl | hs
          · intro hm
            rcases List.mem_cons.1 hm with rfl | hm
            · exact hc rfl
            · exact ih.2 x List.mem_cons_self hm
          · exact ih.2 s (List.mem_cons_of_mem _ hs)
  cases q with
  | nil => exact absurd rfl hq
  | cons c cs => exact key (c :: cs)

private def get (query : Option String) (fields : List (Text × List Text)) : Request :=
  ⟨"GET".toList, "/".toList, "example.com".toList, query.map String.toList, fields, []⟩

private def case : TestCase := { method := "GET".toList, uri := "/".toList, host := "example.com".toList }

/-- A forbidden parameter that has no value is not found. -/
theorem C140_forbidden_fails :
    passes id id (fun _ _ => true) { case with forbidQueryParams := ["debug".toList] } (get (some "debug") []) = true ∧
    ¬ Meets id id (fun _ _ => true) (· = ·) { case with forbidQueryParams := ["debug".toList] } (get (some "debug") []) := by
  refine ⟨by decide +kernel, fun h => ?_⟩
  have hn : "debug".toList ∈ names id (some "debug".toList) := by decide +kernel
  exact h.forbidQuery "debug".toList (by simp) "debug".toList hn rfl

/-- A required parameter that is empty is not found either. -/
theorem C140_required_fails :
    passes id id (fun _ _ => true) { case with requireQueryParams := ["token".toList] } (get (some "token=") []) = false ∧
    names id (get (some "token=") []).query = ["token".toList] := by
  refine ⟨?_, ?_⟩ <;> decide +kernel

/-- Other values of a header, besides those expected, are not reported. -/
theorem C140_values_fails :
    passes id id (fun _ _ => true) { case with headers := [("accept".toList, ["a".toList])] }
      (get none [("accept".toList, ["a".toList, "b".toList])]) = true ∧
    ¬ Meets id id (fun _ _ => true) (· = ·) { case with headers := [("accept".toList, ["a".toList])] }
      (get none [("accept".toList, ["a".toList, "b".toList])]) := by
  refine ⟨by decide +kernel, fun h => ?_⟩
  obtain ⟨f, hf, -, he⟩ := h.headers ("accept".toList, ["a".toList]) (by simp)
  have hf' : f = ("accept".toList, ["a".toList, "b".toList]) := List.mem_singleton.1 hf
  rw [hf'] at he
  exact absurd he (by decide +kernel)

/-- A required header that the test case lists twice is not found the second time. -/
theorem C140_twice_fails :
    passes id id (fun _ _ => true) { case with requireHeaders := ["z".toList, "z".toList] } (get none [("z".toList, ["1".toList])])
      = false ∧
    Meets id id (fun _ _ => true) (· = ·) { case with requireHeaders := ["z".toList, "z".toList] }
      (get none [("z".toList, ["1".toList])]) := by
  refine ⟨by decide +kernel, ⟨rfl, rfl, rfl, by simp [case], by simp [case], by simp [case], by simp [case], by simp [case], ?_,
    by simp [case]⟩⟩
  intro k hk
  refine ⟨("z".toList, ["1".toList]), by simp [get], ?_⟩
  simp only [List.mem_cons, List.not_mem_nil, or_false, or_self] at hk
  exact hk.symm

/-! ## Examples -/

private def listCase : TestCase :=
  { case with queryParams := ["a=1".toList, "a=1".toList], forbidQueryParams := ["c".toList], requireQueryParams := ["b".toList],
              headers := [("x".toList, ["1".toList, "2".toList])], forbidHeaders := ["y".toList], requireHeaders := ["z".toList] }

/-- Parameters are counted. -/
example : passes id id (fun _ _ => true) listCase
      (get (some "a=1&b=2&a=1") [("x".toList, ["1".toList, "2".toList]), ("z".toList, [])]) = true ∧
    passes id id (fun _ _ => true) listCase
      (get (some "a=1&b=2") [("x".toList, ["1".toList, "2".toList]), ("z".toList, [])]) = false := by
  refine ⟨?_, ?_⟩ <;> decide +kernel

/-- The hypotheses of `C140_passes_partial` hold. -/
example : Valued (get (some "a=1&b=2&a=1") []).query ∧ (∀ h ∈ listCase.headers, h.2 ≠ []) ∧
    (listCase.requireHeaders.map id).Nodup := by
  refine ⟨?_, by decide +kernel, by decide +kernel⟩
  have hs : segments (get (some "a=1&b=2&a=1") []).query = ["a=1".toList, "b=2".toList, "a=1".toList] := by decide +kernel
  intro s hm _
  rw [hs] at hm
  rcases List.mem_cons.1 hm with rfl | hm
  · exact ⟨['a'], ['1'], by decide +kernel, by decide, by simp⟩
  · rcases List.mem_cons.1 hm with rfl | hm
    · exact ⟨['b'], ['2'], by decide +kernel, by decide, by simp⟩
    · rw [List.mem_singleton.1 hm]
      exact ⟨['a'], ['1'], by decide +kernel, by decide, by simp⟩

end Verif.ProtocolTests

import Verif.Shapes.ShapeId

/-!
# Error codes (C59, C69)

Models `parse_error_code` (smithy_aws_core/utils.py:52-63) and `parse_rest_json_error_info`
(smithy_http/aio/restjson.py:17-60, with the constants of smithy_http/restjson.py:7-11).
-/

set_option autoImplicit false

namespace Verif.Shapes

open Verif.Text

/-! ## Model -/

/-- `parse_error_code` (utils.py:52-63).  `code.split(":")[0]` is the text before the first colon. -/
def parseErrorCode (code : Text) (defaultNs : Option Text) : Except Err (Option ShapeId) :=
  if code = [] then .ok none
  else
    let code := (cut ':' code).1
    if '#' ∈ code then (parse code).map some
    else
      match defaultNs with
      | none => .ok none
      | some ns => if code = [] ∨ ns = [] then .ok none else (fromParts ns code none).map some

/-- What can go wrong while reading a REST-JSON error. -/
inductive InfoErr where
  /-- `field.values[0]` of a header without values (restjson.py:32). -/
  | indexError
  /-- `json_body.items()` of a body that is not an object (restjson.py:46). -/
  | attributeError
  /-- `expect_type(str, value)` (restjson.py:49, 51). -/
  | notAString
  deriving DecidableEq, Repr

/-- The decoded body (restjson.py:35-43): absent (empty, not read, or not JSON), an object, or another
value; for the latter only truthiness matters. -/
inductive InfoBody where
  | absent
  | object (entries : List (Text × Option Text))
  | other (truthy : Bool)
  deriving DecidableEq, Repr

/-- `_REST_JSON_CODE_KEYS` (smithy_http/restjson.py:9). -/
def codeKeys : List Text := ["__type".toList, "code".toList]

/-- `_REST_JSON_MESSAGE_KEYS` (smithy_http/restjson.py:11). -/
def messageKeys : List Text := ["message".toList, "errormessage".toList, "error_message".toList]

/-- `_REST_JSON_CODE_HEADER` (smithy_http/restjson.py:7). -/
def errorTypeHeader : Text := "x-amzn-errortype".toList

/-- The code header: the first value of the first matching field (restjson.py:30-33).  `lower` is
`str.lower`. -/
def headerCode (lower : Text → Text) : List (Text × List Text) → Except InfoErr (Option Text)
  | [] => .ok none
  | (name, values) :: fs =>
    if lower name = errorTypeHeader then
      match values with
      | [] => .error .indexError
      | v :: _ => .ok (some v)
    else headerCode lower fs

/-- A string that is absent or empty is false in Python. -/
def falsy (t : Option Text) : Bool :=
  match t with
  | none => true
  | some t => t.isEmpty

/-- The loop over the body's entries (restjson.py:46-51); an entry's value is `none` if it is not a
string. -/
def bodyLoop (lower : Text → Text) :
    List (Text × Option Text) → Option Text → Option Text →
      Except InfoErr (Option Text × Option Text)
  | [], code, message => .ok (code, message)
  | (key, value) :: es, code, message =>
    match (if falsy code && codeKeys.contains (lower key) then
        match value with
        | none => .error .notAString
        | some v => .ok (some v)
      else (.ok code : Except InfoErr (Option Text))) with
    | .error e => .error e
    | .ok code =>
      match (if falsy message && messageKeys.contains (lower key) then
          match value with
          | none => .error .notAString
          | some v => .ok (some v)
        else (.ok message : Except InfoErr (Option Text))) with
      | .error e => .error e
      | .ok message => bodyLoop lower es code message

/-- `code.split("#")[1]` if there is a `#`, then `.split(":")[0]` (restjson.py:55-58). -/
def normalizeCode (code : Text) : Text :=
  let code := match split '#' code with
    | _ :: second :: _ => second
    | _ => code
  (cut ':' code).1

def unknown : Text := "Unknown".toList

/-- `t or "Unknown"` (restjson.py:60). -/
def orUnknown (t : Option Text) : Text := if falsy t then unknown else t.getD []

/-- `if code: ...` (restjson.py:55-58). -/
def normalizeIf (code : Option Text) : Option Text :=
  if falsy code then code else code.map normalizeCode

/-- `parse_rest_json_error_info` (restjson.py:17-60): code and message.  Reading the body is outside
the model: `body` is what reading and decoding it gave. -/
def errorInfo (lower : Text → Text) (fields : List (Text × List Text)) (body : InfoBody) :
    Except InfoErr (Text × Text) :=
  match headerCode lower fields with
  | .error e => .error e
  | .ok code =>
    match (match body with
      | .absent => (.ok (code, none) : Except InfoErr _)
      | .other false => .ok (code, none)
      | .other true => .error .attributeError
      | .object es => bodyLoop lower es code none) with
    | .error e => .error e
    | .ok (code, message) =>
      .ok (orUnknown (normalizeIf code), orUnknown message)

/-! ## Specification -/

/-- An error code as services send it: `namespace#Code:url`, namespace and url being optional. -/
structure Sent where
  ns : Option Text
  code : Text
  url : Option Text

def Sent.text (s : Sent) : Text :=
  (match s.ns with | none => [] | some n => n ++ ['#']) ++ s.code ++
    (match s.url with | none => [] | some u => ':' :: u)

/-- A code is not empty and has none of the characters that separate the parts. -/
def PlainCode (c : Text) : Prop := c ≠ [] ∧ '#' ∉ c ∧ ':' ∉ c ∧ '$' ∉ c

/-- A namespace is not empty and has none of the characters that separate the parts. -/
def PlainNs (n : Text) : Prop := n ≠ [] ∧ '#' ∉ n ∧ ':' ∉ n

/-- The first text that is not empty. -/
def firstNonEmpty : List Text → Option Text
  | [] => none
  | t :: ts => if t = [] then firstNonEmpty ts else some t

/-- The values of the entries whose name is one of `keys`. -/
def valuesAt (lower : Text → Text) (keys : List Text) (es : List (Text × Text)) : List Text :=
  (es.filter fun e => keys.contains (lower e.1)).map Prod.snd

/-! ## Theorems -/

theorem cut_fst_no_sep (sep : Char) (t : Text) : sep ∉ (cut sep t).1 := by
  cases h : cut sep t with
  | mk a b =>
    cases b with
    | none => obtain ⟨h1, h2⟩ := cut_none _ _ _ h; exact h2 ▸ h1
    | some b => exact (cut_some _ _ _ _ h).1

theorem cut_fst_mem (sep : Char) (t : Text) (c : Char) (hc : c ∈ (cut sep t).1) : c ∈ t := by
  cases h : cut sep t with
  | mk a b =>
    rw [h] at hc
    cases b with
    | none => obtain ⟨_, h2⟩ := cut_none _ _ _ h; exact h2 ▸ hc
    | some b => rw [(cut_some _ _ _ _ h).2]; simp [show c ∈ a from hc]

theorem cut_colon_fst (a : Text) (h : ':' ∉ a) (u : Option Text) :
    (cut ':' (a ++ (match u with | none => [] | some u => ':' :: u))).1 = a := by
  cases u with
  | none => simp [cut_of_not_mem _ _ h]
  | some u => simp [cut_append _ _ _ h]

/-- **C59**: the url is stripped and the code kept; the namespace is the one sent or else the default
one. -/
theorem C59_parse (s : Sent) (defaultNs : Text) (hc : PlainCode s.code)
    (hn : ∀ n, s.ns = some n → PlainNs n) (hd : PlainNs defaultNs) :
    ∃ r, parseErrorCode s.text (some defaultNs) = .ok (some r) ∧
      r.parts = ⟨s.ns.getD defaultNs, s.code, none⟩ := by
  obtain ⟨c1, c2, c3, c4⟩ := hc
  have hne : s.text ≠ [] := by simp [Sent.text, c1]
  unfold parseErrorCode
  rw [if_neg hne]
  cases hs : s.ns with
  | none =>
    have : (cut ':' s.text).1 = s.code := by
      unfold Sent.text; rw [hs]; exact cut_colon_fst _ c3 _
    simp only [this, if_neg c2, c1, hd.1, or_self, if_false]
    obtain ⟨r, h1, h2, _⟩ := C37_from_parts ⟨defaultNs, s.code, none⟩
      ⟨hd.1, hd.2.1, c1, c4, by simp⟩
    exact ⟨r, by rw [h1]; rfl, by rw [h2]; rfl⟩
  | some n =>
    obtain ⟨n1, n2, n3⟩ := hn n hs
    have : (cut ':' s.text).1 = n ++ ['#'] ++ s.code := by
      unfold Sent.text; rw [hs]
      exact cut_colon_fst _ (by simp [n3, c3]) _
    simp only [this]
    rw [if_pos (by simp)]
    obtain ⟨r, h1, h2, _⟩ := C37_from_parts ⟨n, s.code, none⟩ ⟨n1, n2, c1, c4, by simp⟩
    refine ⟨r, ?_, by rw [h2]; rfl⟩
    rw [show parse (n ++ ['#'] ++ s.code) = fromParts n s.code none from rfl, h1]; rfl

/-- **C59**: without a default namespace a code without namespace identifies nothing. -/
theorem C59_no_namespace (s : Sent) (hc : PlainCode s.code) (hn : s.ns = none) :
    parseErrorCode s.text none = .ok none := by
  obtain ⟨c1, c2, c3, c4⟩ := hc
  have : (cut ':' s.text).1 = s.code := by
    unfold Sent.text; rw [hn]; exact cut_colon_fst _ c3 _
  unfold parseErrorCode
  simp only [this, if_neg c2]
  split <;> rfl

/-- **C59**: reading the identifier found once more gives the same identifier. -/
theorem C59_idempotent (code : Text) (defaultNs d : Option Text) (r : ShapeId)
    (hd : ∀ n, defaultNs = some n → ':' ∉ n)
    (h : parseErrorCode code defaultNs = .ok (some r)) :
    parseErrorCode r.str d = .ok (some r) := by
  have key : ∀ t : Text, parse t = .ok r → ':' ∉ t → parseErrorCode r.str d = .ok (some r) := by
    intro t ht hcol
    obtain ⟨hv, h2, h3⟩ := (C37_parse_iff t r).1 ht
    rw [h3]
    have hhash : '#' ∈ t := by rw [← h2]; simp [Parts.text]
    have hne : t ≠ [] := fun e => by rw [e] at hhash; simp at hhash
    unfold parseErrorCode
    rw [if_neg hne]
    simp only [cut_of_not_mem _ _ hcol, if_pos hhash, ht, Except.map]
  unfold parseErrorCode at h
  split at h
  · cases h
  · simp only at h
    split at h
    · cases hp : parse (cut ':' code).1 with
      | error e => rw [hp] at h; cases h
      | ok s =>
        rw [hp] at h; cases h
        exact key _ hp (cut_fst_no_sep _ _)
    · split at h
      · cases h
      · next ns =>
        split at h
        · cases h
        · cases hp : fromParts ns (cut ':' code).1 none with
          | error e => rw [hp] at h; cases h
          | ok s =>
            rw [hp] at h; cases h
            refine key _ hp ?_
            simp only [List.mem_append, List.mem_singleton, not_or]
            exact ⟨⟨hd ns rfl, by decide⟩, cut_fst_no_sep _ _⟩

theorem split_second (a b rest : Text) (ha : '#' ∉ a) (hb : '#' ∉ b) (h : rest = [] ∨ ∃ r, rest = '#' :: r) :
    ∃ more, split '#' (a ++ '#' :: b ++ rest) = a :: b :: more := by
  rw [List.append_assoc, List.cons_append, split_append _ _ _ ha]
  rcases h with rfl | ⟨r, rfl⟩
  · rw [List.append_nil, split_of_not_mem _ _ hb]; exact ⟨[], rfl⟩
  · rw [split_append _ _ _ hb]; exact ⟨_, rfl⟩

/-- **C59** for REST-JSON error information: namespace and url are stripped and the code kept, if the
url has no fragment. -/
theorem C59_restjson_partial (s : Sent) (hc : PlainCode s.code)
    (hn : ∀ n, s.ns = some n → '#' ∉ n) (hu : ∀ u, s.url = some u → '#' ∉ u) :
    normalizeCode s.text = s.code := by
  obtain ⟨c1, c2, c3, c4⟩ := hc
  have htail : '#' ∉ s.code ++ (match s.url with | none => [] | some u => ':' :: u) := by
    cases hs : s.url with
    | none => simpa using c2
    | some u =>
      have := hu u hs
      simp [c2, this]
  unfold normalizeCode Sent.text
  cases hs : s.ns with
  | none =>
    simp only [List.nil_append]
    rw [split_of_not_mem _ _ htail]
    exact cut_colon_fst _ c3 _
  | some n =>
    have h1 := split_append '#' n (s.code ++ (match s.url with | none => [] | some u => ':' :: u))
      (hn n hs)
    rw [split_of_not_mem _ _ htail] at h1
    have h2 : n ++ ['#'] ++ s.code ++ (match s.url with | none => [] | some u => ':' :: u) =
        n ++ '#' :: (s.code ++ (match s.url with | none => [] | some u => ':' :: u)) := by simp
    simp only
    rw [h2, h1]
    exact cut_colon_fst _ c3 _

/-- A fragment in the url is taken for the code. -/
theorem C59_restjson_fragment_fails :
    normalizeCode (Sent.text ⟨none, "Foo".toList, some "http://example.com/#frag".toList⟩) =
      "frag".toList := by decide +kernel

theorem normalize_clean (code : Text) : '#' ∉ normalizeCode code ∧ ':' ∉ normalizeCode code := by
  refine ⟨?_, cut_fst_no_sep _ _⟩
  unfold normalizeCode
  intro h
  have h2 := cut_fst_mem _ _ _ h
  split at h2
  · next a b more hs => exact split_no_sep '#' code b (by rw [hs]; simp) h2
  · next hno =>
    by_cases hm : '#' ∈ code
    · obtain ⟨x, hx⟩ : ∃ x, split '#' code = [x] := by
        cases hs : split '#' code with
        | nil => exact absurd hs (split_ne_nil _ _)
        | cons x xs =>
          cases xs with
          | nil => exact ⟨x, rfl⟩
          | cons y ys => exact absurd hs (hno x y ys)
      have hj := join_split '#' code
      rw [hx] at hj
      have := split_no_sep '#' code x (by rw [hx]; simp)
      simp only [join] at hj
      exact this (hj ▸ hm)
    · exact hm h2

/-- **C59**: normalizing twice is normalizing once, for every text; what is left has no namespace
separator and no colon. -/
theorem C59_restjson_idempotent (code : Text) :
    normalizeCode (normalizeCode code) = normalizeCode code ∧
      '#' ∉ normalizeCode code ∧ ':' ∉ normalizeCode code := by
  refine ⟨?_, normalize_clean code⟩
  obtain ⟨h1, h2⟩ := normalize_clean code
  rw [normalizeCode]
  simp only [split_of_not_mem _ _ h1, cut_of_not_mem _ _ h2]

/-! ### Where the REST-JSON error information comes from (C69) -/

theorem falsy_some (t : Text) : falsy (some t) = decide (t = []) := by
  cases t <;> simp [falsy]

/-- The value of the loop, keeping what was found before. -/
def pick (found : Option Text) (later : List Text) : Option Text :=
  if falsy found then (match firstNonEmpty later with
    | some t => some t
    | none => match later.getLast? with
      | some t => some t
      | none => found) else found

theorem pick_skip (c : Option Text) (l : List Text) (h : falsy c = false) : pick c l = c := by
  simp [pick, h]

theorem pick_cons (c : Option Text) (v : Text) (l : List Text) (h : falsy c = true) :
    pick c (v :: l) = pick (some v) l := by
  simp only [pick, h, if_true, falsy_some, firstNonEmpty]
  by_cases hv : v = []
  · subst hv
    simp only [if_true, decide_true]
    cases firstNonEmpty l with
    | some t => rfl
    | none =>
      cases l with
      | nil => rfl
      | cons x xs => simp [List.getLast?_cons]
  · simp [hv]

theorem bodyLoop_spec (lower : Text → Text) (es : List (Text × Text)) :
    ∀ code message, bodyLoop lower (es.map fun e => (e.1, some e.2)) code message =
      .ok (pick code (valuesAt lower codeKeys es), pick message (valuesAt lower messageKeys es)) := by
  induction es with
  | nil =>
    intro code message
    simp only [List.map_nil, bodyLoop, valuesAt, List.filter_nil, pick, firstNonEmpty,
      List.getLast?_nil, ite_self]
  | cons e es ih =>
    intro code message
    obtain ⟨key, v⟩ := e
    have step : ∀ (keys : List Text) (found : Option Text),
        pick found (valuesAt lower keys ((key, v) :: es)) =
          pick (if falsy found && keys.contains (lower key) then some v else found)
            (valuesAt lower keys es) := by
      intro keys found
      cases hk : keys.contains (lower key) with
      | false => simp only [valuesAt, List.filter_cons, hk]; simp
      | true =>
        have : valuesAt lower keys ((key, v) :: es) = v :: valuesAt lower keys es := by
          simp only [valuesAt, List.filter_cons, hk]; simp
        rw [this]
        cases hf : falsy found with
        | true => simp only [Bool.and_self, if_true]; exact pick_cons _ _ _ hf
        | false =>
          simp only [Bool.false_and, Bool.false_eq_true, if_false]
          rw [pick_skip _ _ hf, pick_skip _ _ hf]
    rw [step codeKeys, step messageKeys, ← ih]
    simp only [List.map_cons, bodyLoop]
    cases falsy code && codeKeys.contains (lower key) <;>
      cases falsy message && messageKeys.contains (lower key) <;> rfl

theorem firstNonEmpty_none (l : List Text) (h : firstNonEmpty l = none) : ∀ t ∈ l, t = [] := by
  induction l with
  | nil => simp
  | cons x l ih =>
    simp only [firstNonEmpty] at h
    split at h
    · next hx =>
      intro t ht
      rcases List.mem_cons.1 ht with rfl | ht
      · exact hx
      · exact ih h t ht
    · cases h

theorem firstNonEmpty_ne (l : List Text) (t : Text) (h : firstNonEmpty l = some t) : t ≠ [] := by
  induction l with
  | nil => simp [firstNonEmpty] at h
  | cons x l ih =>
    simp only [firstNonEmpty] at h
    split at h
    · exact ih h
    · next hx => cases h; exact hx

/-- What is picked, up to the difference between nothing and an empty text. -/
theorem pick_value (found : Option Text) (l : List Text) :
    (match firstNonEmpty (found.toList ++ l) with
      | some t => pick found l = some t
      | none => falsy (pick found l) = true) := by
  cases hf : falsy found with
  | false =>
    cases found with
    | none => simp [falsy] at hf
    | some t =>
      rw [falsy_some, decide_eq_false_iff_not] at hf
      simp [firstNonEmpty, hf, pick, falsy_some]
  | true =>
    have h1 : firstNonEmpty (found.toList ++ l) = firstNonEmpty l := by
      cases found with
      | none => rfl
      | some t =>
        rw [falsy_some, decide_eq_true_iff] at hf
        simp [firstNonEmpty, hf]
    rw [h1]
    cases h2 : firstNonEmpty l with
    | some t => simp [pick, hf, h2]
    | none =>
      simp only [pick, hf, if_true, h2]
      cases h3 : l.getLast? with
      | none => exact hf
      | some t =>
        have := firstNonEmpty_none l h2 t (List.mem_of_getLast? h3)
        simp [falsy_some, this]

/-- The value of the first matching header, if it has one. -/
def headerSpec (lower : Text → Text) (fields : List (Text × List Text)) : List Text :=
  ((fields.find? fun f => lower f.1 = errorTypeHeader).bind fun f => f.2.head?).toList

theorem headerCode_spec (lower : Text → Text) (fields : List (Text × List Text))
    (h : ∀ f ∈ fields, f.2 ≠ []) :
    ∃ c, headerCode lower fields = .ok c ∧ c.toList = headerSpec lower fields := by
  induction fields with
  | nil => exact ⟨none, rfl, rfl⟩
  | cons f fs ih =>
    obtain ⟨name, values⟩ := f
    by_cases hn : lower name = errorTypeHeader
    · cases values with
      | nil => exact absurd rfl (h (name, []) (by simp))
      | cons v vs =>
        refine ⟨some v, by simp only [headerCode, if_pos hn], ?_⟩
        simp only [headerSpec]
        simp only [List.find?_cons, decide_eq_true hn]
        rfl
    · obtain ⟨c, h1, h2⟩ := ih fun f hf => h f (by simp [hf])
      refine ⟨c, by simp only [headerCode, if_neg hn, h1], ?_⟩
      rw [h2]
      simp only [headerSpec]
      simp only [List.find?_cons, decide_eq_false hn]

theorem orUnknown_falsy (t : Option Text) (h : falsy t = true) : orUnknown t = unknown := if_pos h

theorem orUnknown_some (t : Text) : orUnknown (some t) = if t = [] then unknown else t := by
  unfold orUnknown
  rw [falsy_some]
  by_cases h : t = []
  · rw [if_pos h, if_pos (by simpa using h)]
  · rw [if_neg h, if_neg (by simpa using h)]; rfl

theorem errorInfo_object (lower : Text → Text) (fields : List (Text × List Text))
    (es : List (Text × Text)) (hf : ∀ f ∈ fields, f.2 ≠ []) :
    errorInfo lower fields (.object (es.map fun e => (e.1, some e.2))) = .ok
      ((match firstNonEmpty (headerSpec lower fields ++ valuesAt lower codeKeys es) with
        | none => unknown
        | some c => if normalizeCode c = [] then unknown else normalizeCode c),
       (firstNonEmpty (valuesAt lower messageKeys es)).getD unknown) := by
  obtain ⟨c, h1, h2⟩ := headerCode_spec lower fields hf
  simp only [errorInfo, h1, bodyLoop_spec]
  have hc := pick_value c (valuesAt lower codeKeys es)
  have hm := pick_value none (valuesAt lower messageKeys es)
  rw [h2] at hc
  simp only [Option.toList_none, List.nil_append] at hm
  have e1 : orUnknown (normalizeIf (pick c (valuesAt lower codeKeys es))) =
      (match firstNonEmpty (headerSpec lower fields ++ valuesAt lower codeKeys es) with
        | none => unknown
        | some c => if normalizeCode c = [] then unknown else normalizeCode c) := by
    cases h : firstNonEmpty (headerSpec lower fields ++ valuesAt lower codeKeys es) with
    | none =>
      rw [h] at hc
      rw [normalizeIf, if_pos hc, orUnknown_falsy _ hc]
    | some t =>
      rw [h] at hc
      have hne := firstNonEmpty_ne _ _ h
      simp only at hc
      rw [hc, normalizeIf, if_neg (by rw [falsy_some]; simpa using hne), Option.map_some,
        orUnknown_some]
  have e2 : orUnknown (pick none (valuesAt lower messageKeys es)) =
      (firstNonEmpty (valuesAt lower messageKeys es)).getD unknown := by
    cases h : firstNonEmpty (valuesAt lower messageKeys es) with
    | none => rw [h] at hm; rw [orUnknown_falsy _ hm]; rfl
    | some t =>
      rw [h] at hm
      simp only at hm
      rw [hm, orUnknown_some, if_neg (firstNonEmpty_ne _ _ h)]; rfl
  rw [e1, e2]

/-- The first value of the first field with a given name, if there is one. -/
def valueOf (lower : Text → Text) (name : Text) (fields : List (Text × List Text)) : List Text :=
  ((fields.find? fun f => lower f.1 = name).bind fun f => f.2.head?).toList

/-- **C69**: the code of a REST-JSON error is the first one that is not empty among the header and the
body's code members in order, stripped of namespace and url; the message is the first one that is not
empty among the body's message members; a missing one is reported as unknown. -/
theorem C69_error_info (lower : Text → Text) (fields : List (Text × List Text))
    (es : List (Text × Text)) (hf : ∀ f ∈ fields, f.2 ≠ []) :
    errorInfo lower fields (.object (es.map fun e => (e.1, some e.2))) = .ok
      ((match firstNonEmpty (valueOf lower "x-amzn-errortype".toList fields ++
          valuesAt lower ["__type".toList, "code".toList] es) with
        | none => "Unknown".toList
        | some c => if normalizeCode c = [] then "Unknown".toList else normalizeCode c),
       (firstNonEmpty (valuesAt lower
          ["message".toList, "errormessage".toList, "error_message".toList] es)).getD
        "Unknown".toList) :=
  errorInfo_object lower fields es hf

theorem bodyLoop_filter (lower : Text → Text) (es : List (Text × Option Text)) : ∀ code message,
    bodyLoop lower es code message =
      bodyLoop lower (es.filter fun e => codeKeys.contains (lower e.1) || messageKeys.contains (lower e.1)) code message := by
  induction es with
  | nil => intro code message; rfl
  | cons e es ih =>
    intro code message
    obtain ⟨key, value⟩ := e
    cases hk : (codeKeys.contains (lower key) || messageKeys.contains (lower key)) with
    | false =>
      obtain ⟨h1, h2⟩ := Bool.or_eq_false_iff.1 hk
      rw [List.filter_cons_of_neg (by rw [hk]; simp)]
      rw [← ih]
      conv => lhs; unfold bodyLoop
      rw [h1, h2]
      simp only [Bool.and_false, Bool.false_eq_true, if_false]
    | true =>
      rw [List.filter_cons_of_pos (by rw [hk])]
      simp only [bodyLoop]
      split
      · rfl
      · split
        · rfl
        · exact ih _ _

/-- The texts at the members whose name is one of `keys`, in the order of the body. -/
def textsAt (lower : Text → Text) (keys : List Text) (es : List (Text × Option Text)) : List Text :=
  (es.filter fun e => keys.contains (lower e.1)).filterMap Prod.snd

theorem all_texts (es : List (Text × Option Text)) (h : ∀ e ∈ es, e.2 ≠ none) :
    ∃ ts : List (Text × Text), es = ts.map fun t => (t.1, some t.2) := by
  induction es with
  | nil => exact ⟨[], rfl⟩
  | cons e es ih =>
    obtain ⟨ts, ht⟩ := ih fun x hx => h x (List.mem_cons_of_mem _ hx)
    obtain ⟨k, v⟩ := e
    cases v with
    | none => exact absurd rfl (h (k, none) List.mem_cons_self)
    | some v => exact ⟨(k, v) :: ts, by rw [ht]; rfl⟩

theorem textsAt_map (lower : Text → Text) (keys : List Text) (ts : List (Text × Text)) :
    textsAt lower keys (ts.map fun t => (t.1, some t.2)) = valuesAt lower keys ts := by
  induction ts with
  | nil => rfl
  | cons t ts ih =>
    unfold textsAt valuesAt at ih ⊢
    rw [List.map_cons]
    cases h : keys.contains (lower t.1) with
    | false =>
      rw [List.filter_cons_of_neg (by simp only [h]; simp), List.filter_cons_of_neg (by simp only [h]; simp)]
      exact ih
    | true =>
      rw [List.filter_cons_of_pos (by simp only [h]), List.filter_cons_of_pos (by simp only [h])]
      exact congrArg (t.2 :: ·) ih

/-- **C69** for bodies with other members of any kind: only those for the code and the message have to be texts. -/
theorem C69_other_members (lower : Text → Text) (fields : List (Text × List Text)) (es : List (Text × Option Text))
    (hf : ∀ f ∈ fields, f.2 ≠ [])
    (hs : ∀ e ∈ es, e.2 = none → lower e.1 ∉ ["__type".toList, "code".toList, "message".toList, "errormessage".toList,
      "error_message".toList]) :
    errorInfo lower fields (.object es) = .ok
      ((match firstNonEmpty (valueOf lower "x-amzn-errortype".toList fields ++
          textsAt lower ["__type".toList, "code".toList] es) with
        | none => "Unknown".toList
        | some c => if normalizeCode c = [] then "Unknown".toList else normalizeCode c),
       (firstNonEmpty (textsAt lower
          ["message".toList, "errormessage".toList, "error_message".toList] es)).getD
        "Unknown".toList) := by
  let keep : Text × Option Text → Bool := fun e => codeKeys.contains (lower e.1) || messageKeys.contains (lower e.1)
  have e1 : errorInfo lower fields (.object es) = errorInfo lower fields (.object (es.filter keep)) := by
    unfold errorInfo
    cases headerCode lower fields with
    | error x => rfl
    | ok c =>
      simp only
      rw [bodyLoop_filter lower es]
  obtain ⟨ts, ht⟩ := all_texts (es.filter keep) (by
    intro e he hn
    obtain ⟨h1, h2⟩ := List.mem_filter.1 he
    refine hs e h1 hn ?_
    rcases Bool.or_eq_true_iff.1 h2 with h | h
    · have := List.contains_iff_mem.1 h
      simp only [codeKeys, List.mem_cons, List.not_mem_nil, or_false] at this ⊢
      rcases this with h | h
      · exact Or.inl h
      · exact Or.inr (Or.inl h)
    · have := List.contains_iff_mem.1 h
      simp only [messageKeys, List.mem_cons, List.not_mem_nil, or_false] at this ⊢
      exact Or.inr (Or.inr this))
  have e2 : ∀ keys, (∀ k, keys.contains k = true → (codeKeys.contains k || messageKeys.contains k) = true) →
      textsAt lower keys es = valuesAt lower keys ts := by
    intro keys hk
    rw [← textsAt_map, ← ht]
    unfold textsAt
    rw [List.filter_filter]
    congr 1
    refine List.filter_congr fun e _ => ?_
    cases h : keys.contains (lower e.1) with
    | false => rfl
    | true => simpa [keep] using hk _ h
  rw [e1, ht, C69_error_info lower fields ts hf,
    e2 ["__type".toList, "code".toList] (fun k h => Bool.or_eq_true_iff.2 (Or.inl h)),
    e2 ["message".toList, "errormessage".toList, "error_message".toList] (fun k h => Bool.or_eq_true_iff.2 (Or.inr h))]

/-- A code that is not a text stops the error from being read at all. -/
theorem C69_code_not_a_text_fails : errorInfo id [] (.object [("code".toList, none)]) = .error .notAString := by
  decide +kernel

/-- **C69** for a response whose body cannot be used: the code comes from the header alone. -/
theorem C69_no_body (lower : Text → Text) (fields : List (Text × List Text))
    (hf : ∀ f ∈ fields, f.2 ≠ []) :
    errorInfo lower fields .absent = errorInfo lower fields (.object []) := by
  obtain ⟨c, h1, _⟩ := headerCode_spec lower fields hf
  simp only [errorInfo, h1, bodyLoop]

/-- A body that is not a JSON object stops the error from being read at all. -/
theorem C69_other_body_fails (lower : Text → Text) :
    errorInfo lower [] (.other true) = .error .attributeError := rfl

/-! ## The hypotheses are met -/

example : PlainCode "FooError".toList := ⟨by decide, by decide, by decide, by decide⟩
example : PlainNs "aws.protocoltests".toList := ⟨by decide, by decide, by decide⟩

example : (parseErrorCode "aws.protocoltests#FooError:http://internal.amazon.com/x/#frag".toList
    none).map (·.map ShapeId.parts) =
    .ok (some ⟨"aws.protocoltests".toList, "FooError".toList, none⟩) := by decide +kernel

example : errorInfo id [("x-amzn-errortype".toList, ["ns#Foo:http://a".toList])]
    (.object [("code".toList, some "Bar".toList), ("message".toList, some "hi".toList)]) =
    .ok ("Foo".toList, "hi".toList) := by decide +kernel

/-- `{"code": "Bar", "retryable": true, "Message": "hi"}` -/
example : errorInfo (fun t => t.map Char.toLower) [] (.object [("code".toList, some "Bar".toList), ("retryable".toList, none),
      ("Message".toList, some "hi".toList)]) = .ok ("Bar".toList, "hi".toList) := by decide +kernel

example : ∀ e ∈ [("code".toList, some "Bar".toList), ("retryable".toList, none), ("Message".toList, some "hi".toList)],
    e.2 = none → (e.1.map Char.toLower) ∉ ["__type".toList, "code".toList, "message".toList, "errormessage".toList,
      "error_message".toList] := by decide +kernel

end Verif.Shapes

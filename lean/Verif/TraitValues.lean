import Verif.Literals
import Verif.GeneratedSchemas.Model

/-!
# Classes of traits

What the classes of traits make of the values that generated code gives them, and what is read from
them afterwards.
-/

set_option autoImplicit false

namespace Verif.TraitValues

open Verif.Literals

variable {F : Type}

/-! ## Model -/

/-- Exceptions. -/
inductive Err
  | assertion
  | value
  | key
  | type
  | attribute
deriving DecidableEq

/-- The argument of a class: a document, or a `DynamicTrait` (`smithy_core/traits.py:22-34`). -/
inductive Arg (F : Type)
  | plain (v : Val F)
  | dynamic (id : String) (v : Val F)

/-- An object of a class of traits, or of `DynamicTrait` if there is no class.  `attrs` are the
attributes that it has besides `document_value`; of enums there is the value, of a `PathPattern` the
pattern. -/
structure Trait (F : Type) where
  cls : Option String
  doc : Val F
  attrs : List (String × Val F)

/-- `Trait.__init__` (`smithy_core/traits.py:62-78`): the value of `document_value`. -/
def base (id : String) : Arg F → Except Err (Val F)
  | .plain v => .ok v
  | .dynamic i v => if i ≠ id then .error .value else .ok v

/-- `d.get(k)`. -/
def getKey (v : Val F) (k : String) : Except Err (Option (Val F)) :=
  match v with
  | .mapping d => .ok (d.lookup k.toList)
  | _ => .error .attribute

/-- `d[k]`. -/
def subscript (v : Val F) (k : String) : Except Err (Val F) :=
  match v with
  | .mapping d =>
    match d.lookup k.toList with
    | some v => .ok v
    | none => .error .key
  | _ => .error .type

/-- `assert isinstance(v, str)`. -/
def assertStr : Val F → Except Err Text
  | .str s => .ok s
  | _ => .error .assertion

/-- `assert isinstance(v, int)`; booleans are integers. -/
def assertInt : Val F → Except Err (Val F)
  | .int i => .ok (.int i)
  | .bool b => .ok (.bool b)
  | _ => .error .assertion

/-- `assert isinstance(v, Mapping)`. -/
def assertMapping : Val F → Except Err Unit
  | .mapping _ => .ok ()
  | _ => .error .assertion

/-- `uri.split("?", 1)` (`smithy_core/traits.py:244`): what is before the first question mark, and what
is after it. -/
def splitQuery : Text → Text × Option Text
  | [] => ([], none)
  | c :: t => if c = '?' then ([], some t) else (c :: (splitQuery t).1, (splitQuery t).2)

/-- `TimestampFormatTrait.__init__` (`smithy_core/traits.py:112-115`); values of the enum are in
`smithy_core/types.py:134-146`. -/
def initTimestampFormat (v : Val F) : Except Err (List (String × Val F)) := do
  let s ← assertStr v
  if s = "date-time".toList ∨ s = "http-date".toList ∨ s = "epoch-seconds".toList
  then .ok [("format", .str s)] else .error .value

/-- `ErrorTrait.__init__` (`smithy_core/traits.py:118-130`). -/
def initError (v : Val F) : Except Err (List (String × Val F)) := do
  let s ← assertStr v
  if s = "client".toList ∨ s = "server".toList then .ok [("fault", .str s)] else .error .value

/-- `HTTPTrait.__init__` (`smithy_core/traits.py:233-247`). -/
def initHttp (v : Val F) : Except Err (List (String × Val F)) := do
  assertMapping v
  let _ ← assertStr (← subscript v "method")
  let code ← assertInt ((← getKey v "code").getD (.int 200))
  let uri ← assertStr (← subscript v "uri")
  .ok [("code", code), ("path", .str (splitQuery uri).1),
    ("query", match (splitQuery uri).2 with | some q => .str q | none => .none)]

/-- `HTTPAPIKeyAuthTrait.__init__` (`smithy_core/traits.py:351-359`). -/
def initApiKey (v : Val F) : Except Err (List (String × Val F)) := do
  assertMapping v
  let s ← assertStr (← subscript v "in")
  let _ ← assertStr (← subscript v "name")
  match ← getKey v "scheme" with
  | none => .ok ()
  | some .none => .ok ()
  | some (.str _) => .ok ()
  | some _ => .error .assertion
  if s = "header".toList ∨ s = "query".toList then .ok [("location", .str s)] else .error .value

/-- All elements are strings. -/
def assertStrs : List (Val F) → Except Err Unit
  | [] => .ok ()
  | .str _ :: l => assertStrs l
  | _ :: _ => .error .assertion

/-- `assert isinstance(l, Sequence)` and of all its elements, `isinstance(val, str)`; the elements.
Strings are sequences, of their characters. -/
def assertTexts : Val F → Except Err (List (Val F))
  | .tuple l => do assertStrs l; .ok l
  | .str s => .ok (s.map fun c => .str [c])
  | _ => .error .assertion

/-- What counts as false in `value or {}` and `not value`. -/
def isFalse : Val F → Bool
  | .none => true
  | .bool b => !b
  | .int i => i == 0
  | .str s => s == []
  | .tuple l => match l with | [] => true | _ => false
  | .mapping d => match d with | [] => true | _ => false
  | .float _ => false

/-- `RestJson1Trait.__init__` after `super().__init__` (`smithy_aws_core/traits.py:29-46`).  It looks at
its argument, not at `document_value`.  Simplified: a floating point zero is taken for true. -/
def initRestJson1 : Arg F → Except Err (List (String × Val F))
  | .dynamic _ _ => .error .assertion
  | .plain v => do
    let v := if isFalse v then .mapping [] else v
    assertMapping v
    let http ← assertTexts ((← getKey v "http").getD (.tuple [.str "http/1.1".toList]))
    let events := (← getKey v "eventStreamHttp").getD .none
    if isFalse events then .ok [("http", .tuple http), ("event_stream_http", .tuple http)]
    else do
      let events ← assertTexts events
      .ok [("http", .tuple http), ("event_stream_http", .tuple events)]

/-- `cls(a)`.  Classes declared with `init=False` that have no `__init__` of their own inherit that of
`Trait`, which does not call `__post_init__`: the checks there are never made.  `AwsQueryTrait` is
declared without `init=False` (`smithy_aws_core/traits.py:49-52`): its `__init__` is made by
`dataclass`, keeps its argument as it is and calls `__post_init__`. -/
def construct (cls id : String) (a : Arg F) : Except Err (Trait F) :=
  if cls = "AwsQueryTrait" then
    match a with
    | .plain .none => .ok ⟨some cls, .none, []⟩
    | _ => .error .assertion
  else do
    let v ← base id a
    let attrs ←
      if cls = "TimestampFormatTrait" then initTimestampFormat v
      else if cls = "ErrorTrait" then initError v
      else if cls = "HTTPTrait" then initHttp v
      else if cls = "HTTPAPIKeyAuthTrait" then initApiKey v
      else if cls = "RestJson1Trait" then initRestJson1 a
      else .ok []
    .ok ⟨some cls, v, attrs⟩

/-- The class that is registered for an ID (`smithy_core/traits.py:58-60`), if `smithy_aws_core` has
been imported. -/
def classOf (id : String) : Option String :=
  (GeneratedSchemas.traitClasses.find? fun p => p.2 = id).map Prod.fst

/-- `Trait.new` (`smithy_core/traits.py:82-92`). -/
def new (id : String) (v : Val F) : Except Err (Trait F) :=
  match classOf id with
  | some cls => construct cls id (.plain v)
  | none => .ok ⟨none, v, []⟩

/-- Properties that return `document_value` (`smithy_core/traits.py:97-99, 176-178, 200-202, 259-261,
269-271, 291-293, 301-303, 377-379`). -/
def whole : List (String × String) :=
  [("DefaultTrait", "value"), ("MediaTypeTrait", "value"), ("JSONNameTrait", "value"),
    ("HTTPErrorTrait", "code"), ("HTTPHeaderTrait", "key"), ("HTTPPrefixHeadersTrait", "prefix"),
    ("HTTPQueryTrait", "key"), ("XMLNameTrait", "value")]

/-- Properties that return `document_value[k]` (`smithy_core/traits.py:220-223, 249-251, 329-331,
361-363, 389-391`, `smithy_aws_core/traits.py:62-68, 77-79`). -/
def parts : List ((String × String) × String) :=
  [(("LongPollTrait", "timeout_millis"), "timeoutMillis"), (("HTTPTrait", "method"), "method"),
    (("EndpointTrait", "host_prefix"), "hostPrefix"), (("HTTPAPIKeyAuthTrait", "name"), "name"),
    (("XMLNamespaceTrait", "uri"), "uri"), (("AwsQueryErrorTrait", "code"), "code"),
    (("AwsQueryErrorTrait", "http_response_code"), "httpResponseCode"), (("SigV4Trait", "name"), "name")]

/-- Properties that return `document_value.get(k)` (`smithy_core/traits.py:365-367, 393-395`). -/
def optional : List ((String × String) × String) :=
  [(("HTTPAPIKeyAuthTrait", "scheme"), "scheme"), (("XMLNamespaceTrait", "prefix"), "prefix")]

/-- Reading an attribute. -/
def read (t : Trait F) (name : String) : Except Err (Val F) :=
  match t.cls with
  | none => .error .attribute
  | some cls =>
    match t.attrs.lookup name with
    | some v => .ok v
    | none =>
      if (cls, name) ∈ whole then .ok t.doc
      else
        match parts.lookup (cls, name) with
        | some k => subscript t.doc k
        | none =>
          match optional.lookup (cls, name) with
          | some k => (getKey t.doc k).map fun v => v.getD .none
          | none => .error .attribute

/-- The trait that generated code makes of a node (SchemaGenerator.java:133-157): the value is left out
if the node is an empty object.  Nothing if the code cannot be evaluated. -/
def generated (L : Library F) (R : Reader F) (indent : Text) (id : String) (x : Node F) :
    Option (Except Err (Trait F)) :=
  match x with
  | .obj .nil => some (new id .none)
  | x => (eval R (write L indent x)).map (new id)

/-! ## Specification -/

/-- The node of a member. -/
def member : Members F → String → Option (Node F)
  | .nil, _ => none
  | .cons k x r, n => if n.toList = k then some x else member r n

/-- Strings of an array. -/
def texts : List Text → Nodes F
  | [] => .nil
  | s :: l => .cons (.str s) (texts l)

/-- What a trait with this value says, for the traits of Smithy and AWS that have values: by the name of
the attribute from which it is to be read. -/
inductive Says : String → Node F → String → Val F → Prop
  | timestampFormat (s : Text) (h : s = "date-time".toList ∨ s = "http-date".toList ∨
      s = "epoch-seconds".toList) : Says "smithy.api#timestampFormat" (.str s) "format" (.str s)
  | error (s : Text) (h : s = "client".toList ∨ s = "server".toList) :
      Says "smithy.api#error" (.str s) "fault" (.str s)
  | mediaType (s : Text) : Says "smithy.api#mediaType" (.str s) "value" (.str s)
  | jsonName (s : Text) : Says "smithy.api#jsonName" (.str s) "value" (.str s)
  | xmlName (s : Text) : Says "smithy.api#xmlName" (.str s) "value" (.str s)
  | httpHeader (s : Text) : Says "smithy.api#httpHeader" (.str s) "key" (.str s)
  | httpQuery (s : Text) : Says "smithy.api#httpQuery" (.str s) "key" (.str s)
  | httpPrefixHeaders (s : Text) : Says "smithy.api#httpPrefixHeaders" (.str s) "prefix" (.str s)
  | httpError (i : Int) : Says "smithy.api#httpError" (.num (.whole i)) "code" (.int i)
  | longPoll (l : Members F) (i : Int) (h : member l "timeoutMillis" = some (.num (.whole i))) :
      Says "smithy.api#longPoll" (.obj l) "timeout_millis" (.int i)
  | endpoint (l : Members F) (s : Text) (h : member l "hostPrefix" = some (.str s)) :
      Says "smithy.api#endpoint" (.obj l) "host_prefix" (.str s)
  | sigv4 (l : Members F) (s : Text) (h : member l "name" = some (.str s)) :
      Says "aws.auth#sigv4" (.obj l) "name" (.str s)
  | queryErrorCode (l : Members F) (s : Text) (h : member l "code" = some (.str s)) :
      Says "aws.protocols#awsQueryError" (.obj l) "code" (.str s)
  | queryErrorStatus (l : Members F) (i : Int)
      (h : member l "httpResponseCode" = some (.num (.whole i))) :
      Says "aws.protocols#awsQueryError" (.obj l) "http_response_code" (.int i)
  | xmlNamespaceUri (l : Members F) (s : Text) (h : member l "uri" = some (.str s)) :
      Says "smithy.api#xmlNamespace" (.obj l) "uri" (.str s)
  | xmlNamespacePrefix (l : Members F) (s : Text) (h : member l "prefix" = some (.str s)) :
      Says "smithy.api#xmlNamespace" (.obj l) "prefix" (.str s)
  | xmlNamespaceNoPrefix (l : Members F) (s : Text) (h : member l "prefix" = none)
      (hu : member l "uri" = some (.str s)) :
      Says "smithy.api#xmlNamespace" (.obj l) "prefix" .none
  | httpMethod (l : Members F) (m u : Text) (hm : member l "method" = some (.str m))
      (hu : member l "uri" = some (.str u))
      (hc : member l "code" = none ∨ ∃ i, member l "code" = some (.num (.whole i))) :
      Says "smithy.api#http" (.obj l) "method" (.str m)
  | httpCode (l : Members F) (m u : Text) (i : Int) (hm : member l "method" = some (.str m))
      (hu : member l "uri" = some (.str u)) (hc : member l "code" = some (.num (.whole i))) :
      Says "smithy.api#http" (.obj l) "code" (.int i)
  | httpNoCode (l : Members F) (m u : Text) (hm : member l "method" = some (.str m))
      (hu : member l "uri" = some (.str u)) (hc : member l "code" = none) :
      Says "smithy.api#http" (.obj l) "code" (.int 200)
  | httpPath (l : Members F) (m p q : Text) (hm : member l "method" = some (.str m))
      (hp : '?' ∉ p)
      (hu : member l "uri" = some (.str p) ∨ member l "uri" = some (.str (p ++ '?' :: q)))
      (hc : member l "code" = none ∨ ∃ i, member l "code" = some (.num (.whole i))) :
      Says "smithy.api#http" (.obj l) "path" (.str p)
  | httpQueryString (l : Members F) (m p q : Text) (hm : member l "method" = some (.str m))
      (hp : '?' ∉ p) (hu : member l "uri" = some (.str (p ++ '?' :: q)))
      (hc : member l "code" = none ∨ ∃ i, member l "code" = some (.num (.whole i))) :
      Says "smithy.api#http" (.obj l) "query" (.str q)
  | httpNoQueryString (l : Members F) (m p : Text) (hm : member l "method" = some (.str m))
      (hp : '?' ∉ p) (hu : member l "uri" = some (.str p))
      (hc : member l "code" = none ∨ ∃ i, member l "code" = some (.num (.whole i))) :
      Says "smithy.api#http" (.obj l) "query" .none
  | apiKeyLocation (l : Members F) (s n : Text) (hi : member l "in" = some (.str s))
      (h : s = "header".toList ∨ s = "query".toList) (hn : member l "name" = some (.str n))
      (hs : member l "scheme" = none ∨ ∃ c, member l "scheme" = some (.str c)) :
      Says "smithy.api#httpApiKeyAuth" (.obj l) "location" (.str s)
  | apiKeyName (l : Members F) (s n : Text) (hi : member l "in" = some (.str s))
      (h : s = "header".toList ∨ s = "query".toList) (hn : member l "name" = some (.str n))
      (hs : member l "scheme" = none ∨ ∃ c, member l "scheme" = some (.str c)) :
      Says "smithy.api#httpApiKeyAuth" (.obj l) "name" (.str n)
  | apiKeyScheme (l : Members F) (s n c : Text) (hi : member l "in" = some (.str s))
      (h : s = "header".toList ∨ s = "query".toList) (hn : member l "name" = some (.str n))
      (hs : member l "scheme" = some (.str c)) :
      Says "smithy.api#httpApiKeyAuth" (.obj l) "scheme" (.str c)
  | apiKeyNoScheme (l : Members F) (s n : Text) (hi : member l "in" = some (.str s))
      (h : s = "header".toList ∨ s = "query".toList) (hn : member l "name" = some (.str n))
      (hs : member l "scheme" = none) :
      Says "smithy.api#httpApiKeyAuth" (.obj l) "scheme" .none
  | restJsonHttp (l : Members F) (vs : List Text) (h : member l "http" = some (.arr (texts vs)))
      (he : member l "eventStreamHttp" = none ∨
        ∃ es, member l "eventStreamHttp" = some (.arr (texts es))) :
      Says "aws.protocols#restJson1" (.obj l) "http" (.tuple (vs.map .str))
  | restJsonNoHttp (l : Members F) (h : member l "http" = none)
      (he : member l "eventStreamHttp" = none ∨
        ∃ es, member l "eventStreamHttp" = some (.arr (texts es))) :
      Says "aws.protocols#restJson1" (.obj l) "http" (.tuple [.str "http/1.1".toList])
  | restJsonEvents (l : Members F) (es : List Text)
      (h : member l "http" = none ∨ ∃ vs, member l "http" = some (.arr (texts vs)))
      (he : member l "eventStreamHttp" = some (.arr (texts es))) (hne : es ≠ []) :
      Says "aws.protocols#restJson1" (.obj l) "event_stream_http" (.tuple (es.map .str))
  | restJsonNoEvents (l : Members F) (vs : List Text)
      (h : member l "http" = some (.arr (texts vs)))
      (he : member l "eventStreamHttp" = none ∨ member l "eventStreamHttp" = some (.arr .nil)) :
      Says "aws.protocols#restJson1" (.obj l) "event_stream_http" (.tuple (vs.map .str))

/-! ## Lemmas -/

theorem lookup_entries (n : String) : ∀ l : Members F,
    (entries l).lookup n.toList = (member l n).map value
  | .nil => rfl
  | .cons k x r => by
    rw [entries, member, Dict.lookup_cons]
    by_cases h : n.toList = k
    · rw [if_pos h, if_pos h]; rfl
    · rw [if_neg h, if_neg h, lookup_entries n r]

theorem sub_some {l : Members F} {n : String} {x : Node F} (h : member l n = some x) :
    subscript (.mapping (entries l)) n = .ok (value x) := by
  rw [subscript, lookup_entries, h]
  rfl

theorem getKey_eq (l : Members F) (n : String) :
    getKey (.mapping (entries l)) n = .ok ((member l n).map value) := by
  rw [getKey, lookup_entries]

theorem value_obj (l : Members F) : value (.obj l) = .mapping (entries l) := by
  simp only [value]

theorem value_str (s : Text) : value (F := F) (.str s) = .str s := by
  simp only [value]

theorem value_whole (i : Int) : value (F := F) (.num (.whole i)) = .int i := by
  simp only [value, numValue]

theorem values_texts : ∀ vs : List Text, values (F := F) (texts vs) = vs.map .str
  | [] => by simp only [texts, values, List.map_nil]
  | s :: vs => by simp only [texts, values, value, values_texts vs, List.map_cons]

theorem value_texts (vs : List Text) : value (F := F) (.arr (texts vs)) = .tuple (vs.map .str) := by
  rw [← values_texts]
  simp only [value]

theorem assertStrs_texts : ∀ vs : List Text, assertStrs (F := F) (vs.map .str) = .ok ()
  | [] => rfl
  | s :: vs => by
    rw [List.map_cons, assertStrs, assertStrs_texts vs]

theorem assertTexts_texts (vs : List Text) :
    assertTexts (F := F) (.tuple (vs.map .str)) = .ok (vs.map .str) := by
  rw [assertTexts, assertStrs_texts]
  rfl

theorem split_none {p : Text} (h : '?' ∉ p) : splitQuery p = (p, none) := by
  induction p with
  | nil => rfl
  | cons c p ih =>
    simp only [List.mem_cons, not_or] at h
    rw [splitQuery, if_neg (Ne.symm h.1), ih h.2]

theorem split_some {p : Text} (q : Text) (h : '?' ∉ p) : splitQuery (p ++ '?' :: q) = (p, some q) := by
  induction p with
  | nil => rfl
  | cons c p ih =>
    simp only [List.mem_cons, not_or] at h
    rw [List.cons_append, splitQuery, if_neg (Ne.symm h.1), ih h.2]

/-- Generated code calls `Trait.new` with the value of the node, but for the empty object. -/
theorem generated_eq {L : Library F} {R : Reader F} (A : Agree L R) (i : Text) (id : String)
    (x : Node F) (hi : ∀ c ∈ i, c = ' ') (hx : Fits x) (hne : x ≠ .obj .nil) :
    generated L R i id x = some (new id (value x)) := by
  have h := C112_literals_partial A x i hi hx
  unfold generated
  split
  · exact absurd rfl hne
  · rw [h]; rfl

theorem initHttp_ok {l : Members F} {m u : Text} (hm : member l "method" = some (.str m))
    (hu : member l "uri" = some (.str u))
    (hc : member l "code" = none ∨ ∃ i, member l "code" = some (.num (.whole i))) :
    initHttp (.mapping (entries l)) = .ok
      [("code", ((member l "code").map value).getD (.int 200)), ("path", .str (splitQuery u).1),
        ("query", match (splitQuery u).2 with | some q => .str q | none => .none)] := by
  unfold initHttp
  rw [sub_some hm, sub_some hu, getKey_eq]
  rcases hc with hc | ⟨i, hc⟩
  · rw [hc]
    simp only [value]
    rfl
  · rw [hc]
    simp only [value, numValue, Option.map_some]
    rfl

theorem initApiKey_ok {l : Members F} {s n : Text} (hi : member l "in" = some (.str s))
    (h : s = "header".toList ∨ s = "query".toList) (hn : member l "name" = some (.str n))
    (hs : member l "scheme" = none ∨ ∃ c, member l "scheme" = some (.str c)) :
    initApiKey (.mapping (entries l)) = .ok [("location", .str s)] := by
  unfold initApiKey
  rw [sub_some hi, sub_some hn, getKey_eq]
  have e : ∀ x : Except Err (List (String × Val F)),
      (if s = "header".toList ∨ s = "query".toList then x else .error .value) = x := fun x => if_pos h
  rcases hs with hs | ⟨c, hs⟩
  · rw [hs]
    simp only [value, Option.map_none]
    exact e _
  · rw [hs]
    simp only [value, Option.map_some]
    exact e _

/-- Values of members of `restJson1`. -/
theorem initRest_ok {l : Members F} (vs es : Option (List Text))
    (h : member l "http" = vs.map fun v => .arr (texts v))
    (he : member l "eventStreamHttp" = es.map fun v => .arr (texts v)) :
    initRestJson1 (.plain (.mapping (entries l))) = .ok
      [("http", .tuple ((vs.getD ["http/1.1".toList]).map .str)),
        ("event_stream_http", .tuple ((match es with
          | some (e :: es) => e :: es
          | _ => vs.getD ["http/1.1".toList]).map .str))] := by
  have hf : (if isFalse (.mapping (entries l)) then .mapping [] else .mapping (entries l)) =
      (.mapping (entries l) : Val F) := by
    cases l with
    | nil => rfl
    | cons k x r => simp only [entries, isFalse, Bool.false_eq_true, if_false]
  have h1 : ∀ w : List Text, assertTexts (F := F) (.tuple (w.map .str)) = .ok (w.map .str) :=
    assertTexts_texts
  have h2 : (((member l "http").map value).getD (.tuple [.str "http/1.1".toList])) =
      .tuple ((vs.getD ["http/1.1".toList]).map .str) := by
    rw [h]
    cases vs with
    | none => rfl
    | some v => simp only [Option.map_some, value_texts, Option.getD_some]
  have h3 : (((member l "eventStreamHttp").map value).getD .none) =
      (es.map fun e => Val.tuple (e.map .str)).getD .none := by
    rw [he]
    cases es with
    | none => rfl
    | some v => simp only [Option.map_some, value_texts, Option.getD_some]
  have e : ∀ (α β : Type) (a : α) (f : α → Except Err β), ((Except.ok a : Except Err α) >>= f) = f a :=
    fun _ _ _ _ => rfl
  unfold initRestJson1
  simp only [hf, getKey_eq, assertMapping, e, h2, h3, h1]
  cases es with
  | none => rfl
  | some w =>
    cases w with
    | nil => rfl
    | cons w ws =>
      simp only [Option.map_some, Option.getD_some, h1, e]
      rfl

theorem member_ne_nil {l : Members F} {n : String} {x : Node F} (h : member l n = some x) :
    l ≠ .nil := by
  rintro rfl
  cases h

theorem bind_ok {α β : Type} (a : α) (f : α → Except Err β) :
    ((Except.ok a : Except Err α) >>= f) = f a := rfl

theorem new_other {id cls : String} (h : classOf id = some cls) (h1 : cls ≠ "AwsQueryTrait")
    (h2 : cls ≠ "TimestampFormatTrait") (h3 : cls ≠ "ErrorTrait") (h4 : cls ≠ "HTTPTrait")
    (h5 : cls ≠ "HTTPAPIKeyAuthTrait") (h6 : cls ≠ "RestJson1Trait") (v : Val F) :
    new id v = .ok ⟨some cls, v, []⟩ := by
  unfold new
  rw [h]
  show construct cls id (.plain v) = _
  unfold construct
  rw [if_neg h1, base, bind_ok, if_neg h2, if_neg h3, if_neg h4, if_neg h5, if_neg h6,
    bind_ok]

theorem new_http {v : Val F} {l : List (String × Val F)} (h : initHttp v = .ok l) :
    new "smithy.api#http" v = .ok ⟨some "HTTPTrait", v, l⟩ := by
  have hc : classOf "smithy.api#http" = some "HTTPTrait" := by decide +kernel
  unfold new
  rw [hc]
  show construct "HTTPTrait" "smithy.api#http" (.plain v) = _
  unfold construct
  rw [if_neg (by decide +kernel), base, bind_ok, if_neg (by decide +kernel), if_neg (by decide +kernel), if_pos rfl,
    h, bind_ok]

theorem new_apiKey {v : Val F} {l : List (String × Val F)} (h : initApiKey v = .ok l) :
    new "smithy.api#httpApiKeyAuth" v = .ok ⟨some "HTTPAPIKeyAuthTrait", v, l⟩ := by
  have hc : classOf "smithy.api#httpApiKeyAuth" = some "HTTPAPIKeyAuthTrait" := by decide +kernel
  unfold new
  rw [hc]
  show construct "HTTPAPIKeyAuthTrait" "smithy.api#httpApiKeyAuth" (.plain v) = _
  unfold construct
  rw [if_neg (by decide +kernel), base, bind_ok, if_neg (by decide +kernel), if_neg (by decide +kernel),
    if_neg (by decide +kernel), if_pos rfl, h, bind_ok]

theorem new_rest {v : Val F} {l : List (String × Val F)} (h : initRestJson1 (.plain v) = .ok l) :
    new "aws.protocols#restJson1" v = .ok ⟨some "RestJson1Trait", v, l⟩ := by
  have hc : classOf "aws.protocols#restJson1" = some "RestJson1Trait" := by decide +kernel
  unfold new
  rw [hc]
  show construct "RestJson1Trait" "aws.protocols#restJson1" (.plain v) = _
  unfold construct
  rw [if_neg (by decide +kernel), base, bind_ok, if_neg (by decide +kernel), if_neg (by decide +kernel),
    if_neg (by decide +kernel), if_neg (by decide +kernel), if_pos rfl, h, bind_ok]

theorem read_attr {cls n : String} {d v : Val F} {l : List (String × Val F)}
    (h : l.lookup n = some v) : read ⟨some cls, d, l⟩ n = .ok v := by
  unfold read
  simp only [h]

theorem read_whole {cls n : String} {d : Val F} {l : List (String × Val F)}
    (h : l.lookup n = none) (h1 : (cls, n) ∈ whole) : read ⟨some cls, d, l⟩ n = .ok d := by
  unfold read
  simp only [h, h1, if_true]

theorem read_part {cls n k : String} {d : Val F} {l : List (String × Val F)}
    (h : l.lookup n = none) (h1 : (cls, n) ∉ whole) (h2 : parts.lookup (cls, n) = some k) :
    read ⟨some cls, d, l⟩ n = subscript d k := by
  unfold read
  simp only [h, h1, h2, if_false]

theorem read_optional {cls n k : String} {d : Val F} {l : List (String × Val F)}
    (h : l.lookup n = none) (h1 : (cls, n) ∉ whole) (h2 : parts.lookup (cls, n) = none)
    (h3 : optional.lookup (cls, n) = some k) :
    read ⟨some cls, d, l⟩ n = (getKey d k).map fun v => v.getD .none := by
  unfold read
  simp only [h, h1, h2, h3, if_false]

theorem rest_values {L : Library F} {R : Reader F} (A : Agree L R) (i : Text)
    (hi : ∀ c ∈ i, c = ' ') {l : Members F} (hx : Fits (.obj l)) (vs es : Option (List Text))
    (h : member l "http" = vs.map fun v => .arr (texts v))
    (he : member l "eventStreamHttp" = es.map fun v => .arr (texts v)) :
    ∃ t, generated L R i "aws.protocols#restJson1" (.obj l) = some (.ok t) ∧
      read t "http" = .ok (.tuple ((vs.getD ["http/1.1".toList]).map .str)) ∧
      read t "event_stream_http" = .ok (.tuple ((match es with
          | some (e :: es) => e :: es
          | _ => vs.getD ["http/1.1".toList]).map .str)) := by
  have hr := initRest_ok vs es h he
  cases l with
  | nil =>
    have h0 : initRestJson1 (F := F) (.plain .none) =
      initRestJson1 (.plain (.mapping (entries .nil))) := rfl
    have hg : generated L R i "aws.protocols#restJson1" (.obj .nil) =
      some (new "aws.protocols#restJson1" .none) := rfl
    rw [new_rest (h0.trans hr)] at hg
    exact ⟨_, hg, read_attr rfl, read_attr rfl⟩
  | cons k x r =>
    have hg := generated_eq A i "aws.protocols#restJson1" _ hi hx (by intro e; cases e)
    rw [value_obj, new_rest hr] at hg
    exact ⟨_, hg, read_attr rfl, read_attr rfl⟩

theorem http_values {L : Library F} {R : Reader F} (A : Agree L R) (i : Text)
    (hi : ∀ c ∈ i, c = ' ') {l : Members F} (hx : Fits (.obj l)) {m u : Text}
    (hm : member l "method" = some (.str m)) (hu : member l "uri" = some (.str u))
    (hc : member l "code" = none ∨ ∃ i, member l "code" = some (.num (.whole i))) :
    ∃ t, generated L R i "smithy.api#http" (.obj l) = some (.ok t) ∧
      read t "method" = .ok (.str m) ∧
      read t "code" = .ok (((member l "code").map value).getD (.int 200)) ∧
      read t "path" = .ok (.str (splitQuery u).1) ∧
      read t "query" = .ok (match (splitQuery u).2 with | some q => .str q | none => .none) := by
  have hg := generated_eq A i "smithy.api#http" _ hi hx (by intro e; cases e; cases hm)
  rw [value_obj, new_http (initHttp_ok hm hu hc)] at hg
  refine ⟨_, hg, ?_, ?_, ?_, ?_⟩
  · rw [read_part (k := "method") rfl (by decide +kernel) (by decide +kernel), sub_some hm, value_str]
  · exact read_attr rfl
  · exact read_attr rfl
  · exact read_attr rfl

theorem key_values {L : Library F} {R : Reader F} (A : Agree L R) (i : Text)
    (hi : ∀ c ∈ i, c = ' ') {l : Members F} (hx : Fits (.obj l)) {s n : Text}
    (hl : member l "in" = some (.str s))
    (h : s = "header".toList ∨ s = "query".toList) (hn : member l "name" = some (.str n))
    (hs : member l "scheme" = none ∨ ∃ c, member l "scheme" = some (.str c)) :
    ∃ t, generated L R i "smithy.api#httpApiKeyAuth" (.obj l) = some (.ok t) ∧
      read t "location" = .ok (.str s) ∧ read t "name" = .ok (.str n) ∧
      read t "scheme" = .ok (((member l "scheme").map value).getD .none) := by
  have hg := generated_eq A i "smithy.api#httpApiKeyAuth" _ hi hx (by intro e; cases e; cases hn)
  rw [value_obj, new_apiKey (initApiKey_ok hl h hn hs)] at hg
  refine ⟨_, hg, ?_, ?_, ?_⟩
  · exact read_attr rfl
  · rw [read_part (k := "name") rfl (by decide +kernel) (by decide +kernel), sub_some hn, value_str]
  · rw [read_optional (k := "scheme") rfl (by decide +kernel) (by decide +kernel) (by decide +kernel),
      getKey_eq]
    rfl

/-- Classes with a property that returns the value. -/
theorem whole_values {L : Library F} {R : Reader F} (A : Agree L R) (i : Text)
    (hi : ∀ c ∈ i, c = ' ') {x : Node F} (hx : Fits x) (hne : x ≠ .obj .nil) {id cls n : String}
    (h : classOf id = some cls) (hw : (cls, n) ∈ whole) :
    ∃ t, generated L R i id x = some (.ok t) ∧ read t n = .ok (value x) := by
  have hc : cls ∈ whole.map Prod.fst := List.mem_map_of_mem hw
  refine ⟨⟨some cls, value x, []⟩, ?_, read_whole rfl hw⟩
  rw [generated_eq A i _ _ hi hx hne,
    new_other h (by rintro rfl; exact absurd hc (by decide +kernel)) (by rintro rfl; exact absurd hc (by decide +kernel))
      (by rintro rfl; exact absurd hc (by decide +kernel)) (by rintro rfl; exact absurd hc (by decide +kernel))
      (by rintro rfl; exact absurd hc (by decide +kernel)) (by rintro rfl; exact absurd hc (by decide +kernel))]

/-- Classes with a property that returns a member of the value. -/
theorem part_values {L : Library F} {R : Reader F} (A : Agree L R) (i : Text)
    (hi : ∀ c ∈ i, c = ' ') {l : Members F} (hx : Fits (.obj l)) {id cls n k : String} {y : Node F}
    (h : classOf id = some cls) (hm : member l k = some y) (h1 : cls ≠ "AwsQueryTrait")
    (h2 : cls ≠ "TimestampFormatTrait") (h3 : cls ≠ "ErrorTrait") (h4 : cls ≠ "HTTPTrait")
    (h5 : cls ≠ "HTTPAPIKeyAuthTrait") (h6 : cls ≠ "RestJson1Trait")
    (hw : (cls, n) ∉ whole) (hp : parts.lookup (cls, n) = some k) :
    ∃ t, generated L R i id (.obj l) = some (.ok t) ∧ read t n = .ok (value y) := by
  refine ⟨⟨some cls, value (.obj l), []⟩, ?_, ?_⟩
  · rw [generated_eq A i _ _ hi hx (by intro e; cases e; cases hm), new_other h h1 h2 h3 h4 h5 h6]
  · rw [read_part rfl hw hp, value_obj, sub_some hm]

/-! ## Theorems -/

/-- What a trait says in the model is read from the object that generated code makes of it. -/
theorem C113_values {L : Library F} {R : Reader F} (A : Agree L R) (i : Text) (hi : ∀ c ∈ i, c = ' ')
    (id : String) (x : Node F) (hx : Fits x) (n : String) (v : Val F) (h : Says id x n v) :
    ∃ t, generated L R i id x = some (.ok t) ∧ read t n = .ok v := by
  have ws : ∀ {s : Text} {id cls n : String}, classOf id = some cls → (cls, n) ∈ whole →
      ∃ t, generated L R i id (.str s) = some (.ok t) ∧ read t n = .ok (.str s) := by
    intro s id cls n h hw
    rw [← value_str]
    exact whole_values A i hi (by simp only [Fits]) (by intro e; cases e) h hw
  cases h with
  | timestampFormat s h =>
    have hc : classOf "smithy.api#timestampFormat" = some "TimestampFormatTrait" := by decide +kernel
    refine ⟨⟨some "TimestampFormatTrait", .str s, [("format", .str s)]⟩, ?_, read_attr rfl⟩
    rw [generated_eq A i _ _ hi hx (by intro e; cases e), value_str]
    unfold new
    rw [hc]
    show some (construct "TimestampFormatTrait" _ _) = _
    unfold construct
    rw [if_neg (by decide +kernel), base, bind_ok, if_pos rfl, initTimestampFormat, assertStr, bind_ok,
      if_pos h, bind_ok]
  | error s h =>
    have hc : classOf "smithy.api#error" = some "ErrorTrait" := by decide +kernel
    refine ⟨⟨some "ErrorTrait", .str s, [("fault", .str s)]⟩, ?_, read_attr rfl⟩
    rw [generated_eq A i _ _ hi hx (by intro e; cases e), value_str]
    unfold new
    rw [hc]
    show some (construct "ErrorTrait" _ _) = _
    unfold construct
    rw [if_neg (by decide +kernel), base, bind_ok, if_neg (by decide +kernel), if_pos rfl, initError, assertStr,
      bind_ok, if_pos h, bind_ok]
  | mediaType s => exact ws (cls := "MediaTypeTrait") (by decide +kernel) (by decide +kernel)
  | jsonName s => exact ws (cls := "JSONNameTrait") (by decide +kernel) (by decide +kernel)
  | xmlName s => exact ws (cls := "XMLNameTrait") (by decide +kernel) (by decide +kernel)
  | httpHeader s => exact ws (cls := "HTTPHeaderTrait") (by decide +kernel) (by decide +kernel)
  | httpQuery s => exact ws (cls := "HTTPQueryTrait") (by decide +kernel) (by decide +kernel)
  | httpPrefixHeaders s => exact ws (cls := "HTTPPrefixHeadersTrait") (by decide +kernel) (by decide +kernel)
  | httpError j =>
    rw [← value_whole]
    exact whole_values A i hi hx (by intro e; cases e) (cls := "HTTPErrorTrait") (by decide +kernel)
      (by decide +kernel)
  | longPoll l j h =>
    rw [← value_whole]
    exact part_values A i hi hx (cls := "LongPollTrait") (by decide +kernel) h (by decide +kernel) (by decide +kernel)
      (by decide +kernel) (by decide +kernel) (by decide +kernel) (by decide +kernel) (by decide +kernel) (by decide +kernel)
  | endpoint l s h =>
    rw [← value_str]
    exact part_values A i hi hx (cls := "EndpointTrait") (by decide +kernel) h (by decide +kernel) (by decide +kernel)
      (by decide +kernel) (by decide +kernel) (by decide +kernel) (by decide +kernel) (by decide +kernel) (by decide +kernel)
  | sigv4 l s h =>
    rw [← value_str]
    exact part_values A i hi hx (cls := "SigV4Trait") (by decide +kernel) h (by decide +kernel) (by decide +kernel)
      (by decide +kernel) (by decide +kernel) (by decide +kernel) (by decide +kernel) (by decide +kernel) (by decide +kernel)
  | queryErrorCode l s h =>
    rw [← value_str]
    exact part_values A i hi hx (cls := "AwsQueryErrorTrait") (by decide +kernel) h (by decide +kernel)
      (by decide +kernel) (by decide +kernel) (by decide +kernel) (by decide +kernel) (by decide +kernel) (by decide +kernel) (by decide +kernel)
  | queryErrorStatus l j h =>
    rw [← value_whole]
    exact part_values A i hi hx (cls := "AwsQueryErrorTrait") (by decide +kernel) h (by decide +kernel)
      (by decide +kernel) (by decide +kernel) (by decide +kernel) (by decide +kernel) (by decide +kernel) (by decide +kernel) (by decide +kernel)
  | xmlNamespaceUri l s h =>
    rw [← value_str]
    exact part_values A i hi hx (cls := "XMLNamespaceTrait") (by decide +kernel) h (by decide +kernel)
      (by decide +kernel) (by decide +kernel) (by decide +kernel) (by decide +kernel) (by decide +kernel) (by decide +kernel) (by decide +kernel)
  | xmlNamespacePrefix l s h =>
    refine ⟨⟨some "XMLNamespaceTrait", value (.obj l), []⟩, ?_, ?_⟩
    · rw [generated_eq A i _ _ hi hx (by intro e; cases e; cases h),
        new_other (cls := "XMLNamespaceTrait") (by decide +kernel) (by decide +kernel) (by decide +kernel) (by decide +kernel)
          (by decide +kernel) (by decide +kernel) (by decide +kernel)]
    · rw [read_optional (k := "prefix") rfl (by decide +kernel) (by decide +kernel) (by decide +kernel), value_obj,
        getKey_eq, h, Option.map_some, value_str]
      rfl
  | xmlNamespaceNoPrefix l s h hu =>
    refine ⟨⟨some "XMLNamespaceTrait", value (.obj l), []⟩, ?_, ?_⟩
    · rw [generated_eq A i _ _ hi hx (by intro e; cases e; cases hu),
        new_other (cls := "XMLNamespaceTrait") (by decide +kernel) (by decide +kernel) (by decide +kernel) (by decide +kernel)
          (by decide +kernel) (by decide +kernel) (by decide +kernel)]
    · rw [read_optional (k := "prefix") rfl (by decide +kernel) (by decide +kernel) (by decide +kernel), value_obj,
        getKey_eq, h]
      rfl
  | httpMethod l m u hm hu hc =>
    obtain ⟨t, ht, h, -⟩ := http_values A i hi hx hm hu hc
    exact ⟨t, ht, h⟩
  | httpCode l m u j hm hu hc =>
    obtain ⟨t, ht, -, h, -⟩ := http_values A i hi hx hm hu (.inr ⟨j, hc⟩)
    rw [hc, Option.map_some, value_whole] at h
    exact ⟨t, ht, h⟩
  | httpNoCode l m u hm hu hc =>
    obtain ⟨t, ht, -, h, -⟩ := http_values A i hi hx hm hu (.inl hc)
    rw [hc] at h
    exact ⟨t, ht, h⟩
  | httpPath l m p q hm hp hu hc =>
    rcases hu with hu | hu
    · obtain ⟨t, ht, -, -, h, -⟩ := http_values A i hi hx hm hu hc
      rw [split_none hp] at h
      exact ⟨t, ht, h⟩
    · obtain ⟨t, ht, -, -, h, -⟩ := http_values A i hi hx hm hu hc
      rw [split_some q hp] at h
      exact ⟨t, ht, h⟩
  | httpQueryString l m p q hm hp hu hc =>
    obtain ⟨t, ht, -, -, -, h⟩ := http_values A i hi hx hm hu hc
    rw [split_some q hp] at h
    exact ⟨t, ht, h⟩
  | httpNoQueryString l m p hm hp hu hc =>
    obtain ⟨t, ht, -, -, -, h⟩ := http_values A i hi hx hm hu hc
    rw [split_none hp] at h
    exact ⟨t, ht, h⟩
  | apiKeyLocation l s k hl h hn hs =>
    obtain ⟨t, ht, h, -⟩ := key_values A i hi hx hl h hn hs
    exact ⟨t, ht, h⟩
  | apiKeyName l s k hl h hn hs =>
    obtain ⟨t, ht, -, h, -⟩ := key_values A i hi hx hl h hn hs
    exact ⟨t, ht, h⟩
  | apiKeyScheme l s k c hl h hn hs =>
    obtain ⟨t, ht, -, -, h⟩ := key_values A i hi hx hl h hn (.inr ⟨c, hs⟩)
    rw [hs, Option.map_some, value_str] at h
    exact ⟨t, ht, h⟩
  | apiKeyNoScheme l s k hl h hn hs =>
    obtain ⟨t, ht, -, -, h⟩ := key_values A i hi hx hl h hn (.inl hs)
    rw [hs] at h
    exact ⟨t, ht, h⟩
  | restJsonHttp l vs h he =>
    rcases he with he | ⟨es, he⟩
    · obtain ⟨t, ht, h, -⟩ := rest_values A i hi hx (some vs) none h he
      exact ⟨t, ht, h⟩
    · obtain ⟨t, ht, h, -⟩ := rest_values A i hi hx (some vs) (some es) h he
      exact ⟨t, ht, h⟩
  | restJsonNoHttp l h he =>
    rcases he with he | ⟨es, he⟩
    · obtain ⟨t, ht, h, -⟩ := rest_values A i hi hx none none h he
      exact ⟨t, ht, h⟩
    · obtain ⟨t, ht, h, -⟩ := rest_values A i hi hx none (some es) h he
      exact ⟨t, ht, h⟩
  | restJsonEvents l es h he hne =>
    obtain ⟨e, es, rfl⟩ := List.exists_cons_of_ne_nil hne
    rcases h with h | ⟨vs, h⟩
    · obtain ⟨t, ht, -, h⟩ := rest_values A i hi hx none (some (e :: es)) h he
      exact ⟨t, ht, h⟩
    · obtain ⟨t, ht, -, h⟩ := rest_values A i hi hx (some vs) (some (e :: es)) h he
      exact ⟨t, ht, h⟩
  | restJsonNoEvents l vs h he =>
    rcases he with he | he
    · obtain ⟨t, ht, -, h⟩ := rest_values A i hi hx (some vs) none h he
      exact ⟨t, ht, h⟩
    · obtain ⟨t, ht, -, h⟩ := rest_values A i hi hx (some vs) (some []) h he
      exact ⟨t, ht, h⟩

/-- Traits without a value, which is an empty object in the model, are made for every class but those
whose values must have something in them. -/
theorem C113_empty (L : Library F) (R : Reader F) (i : Text) (id cls : String)
    (h : classOf id = some cls) (h1 : id ≠ "smithy.api#timestampFormat") (h2 : id ≠ "smithy.api#error")
    (h3 : id ≠ "smithy.api#http") (h4 : id ≠ "smithy.api#httpApiKeyAuth") :
    ∃ t, generated L R i id (.obj .nil) = some (.ok t) ∧ t.cls = some cls := by
  have hm : (cls, id) ∈ GeneratedSchemas.traitClasses := by
    unfold classOf at h
    obtain ⟨p, hp, rfl⟩ := Option.map_eq_some_iff.1 h
    have := List.find?_some hp
    simp only [decide_eq_true_eq] at this
    rw [← this]
    exact List.mem_of_find?_eq_some hp
  show ∃ t, some (new id .none) = some (.ok t) ∧ _
  unfold new
  rw [h]
  show ∃ t, some (construct cls id (.plain .none)) = some (.ok t) ∧ _
  unfold construct
  by_cases hq : cls = "AwsQueryTrait"
  · rw [if_pos hq]
    exact ⟨_, rfl, rfl⟩
  · have e : ∀ c j : String, (∀ p ∈ GeneratedSchemas.traitClasses, p.1 = c → p.2 = j) → id ≠ j → cls ≠ c := by
      intro c j hj hne hc
      exact hne (hj _ hm hc)
    rw [if_neg hq, base, bind_ok, if_neg (e _ _ (by decide +kernel) h1), if_neg (e _ _ (by decide +kernel) h2),
      if_neg (e _ _ (by decide +kernel) h3), if_neg (e _ _ (by decide +kernel) h4)]
    split
    · exact ⟨_, rfl, rfl⟩
    · exact ⟨_, rfl, rfl⟩

/-- Of every trait without a class the value is kept as it is. -/
theorem C113_other (id : String) (v : Val F) (h : classOf id = none) :
    ∃ t, new id v = .ok t ∧ t.cls = none ∧ t.doc = v := by
  unfold new
  rw [h]
  exact ⟨_, rfl, rfl, rfl⟩

/-- Of every trait that can be made the value is kept as it is. -/
theorem C113_document (id : String) (v : Val F) (t : Trait F) (h : new id v = .ok t) : t.doc = v := by
  unfold new at h
  split at h
  · rename_i cls _
    unfold construct at h
    split at h
    · split at h
      · rename_i e; cases e; cases h; rfl
      · cases h
    · rw [base, bind_ok] at h
      have key : ∀ a : Except Err (List (String × Val F)),
          (a >>= fun attrs => .ok ⟨some cls, v, attrs⟩) = .ok t → t.doc = v := by
        intro a h
        cases a with
        | error e => cases h
        | ok a => cases h; rfl
      repeat' split at h
      all_goals exact key _ h
  · cases h; rfl

/-- A trait made without its class can be turned into one of its class, with the same result as making
it of its class in the first place; but not for `restJson1` and `awsQuery`. -/
theorem C113_dynamic_partial (cls id : String) (v : Val F) (h1 : cls ≠ "RestJson1Trait")
    (h2 : cls ≠ "AwsQueryTrait") : construct cls id (.dynamic id v) = construct cls id (.plain v) := by
  unfold construct
  rw [if_neg h2, if_neg h2]
  simp only [base, ne_eq, not_true_eq_false, if_false, if_neg h1]

/-- Traits of other IDs are refused. -/
theorem C113_dynamic_other (cls id other : String) (v : Val F) (h : other ≠ id) :
    ∃ e, construct cls id (.dynamic other v) = .error e := by
  unfold construct
  split
  · exact ⟨_, rfl⟩
  · rw [base, if_pos h]
    exact ⟨_, rfl⟩

theorem C113_dynamic_fails (v : Val F) :
    construct "RestJson1Trait" "aws.protocols#restJson1" (.dynamic "aws.protocols#restJson1" v) =
      .error .assertion ∧
    construct "AwsQueryTrait" "aws.protocols#awsQuery" (.dynamic "aws.protocols#awsQuery" v) =
      .error .assertion := ⟨rfl, rfl⟩

/-- Values of the wrong kind are taken: the checks of `__post_init__` are never made. -/
theorem C113_checked_fails (v : Val F) :
    ∃ t, construct "HTTPHeaderTrait" "smithy.api#httpHeader" (.plain v) = .ok t ∧
      read t "key" = .ok v := ⟨_, rfl, rfl⟩

/-- These classes are not those of the traits whose names they have: traits of the model that say the
same have no class. -/
theorem C113_names_fails (v : Val F) :
    (∃ t, new "smithy.api#default" v = .ok t ∧ t.cls = none ∧ read t "value" = .error .attribute) ∧
    (∃ t, new "smithy.api#idempotencyToken" v = .ok t ∧ t.cls = none) ∧
    (∃ t, new "smithy.api#unitType" v = .ok t ∧ t.cls = none) := by
  have h1 : classOf "smithy.api#default" = none := by decide +kernel
  have h2 : classOf "smithy.api#idempotencyToken" = none := by decide +kernel
  have h3 : classOf "smithy.api#unitType" = none := by decide +kernel
  unfold new
  rw [h1, h2, h3]
  exact ⟨⟨_, rfl, rfl, rfl⟩, ⟨_, rfl, rfl⟩, ⟨_, rfl, rfl⟩⟩

/-! ## Examples -/

namespace Example

/-- `@http(method: "GET", uri: "/things/{id}?sort", code: 204)`. -/
def http : Node Int :=
  .obj (.cons "method".toList (.str "GET".toList)
    (.cons "uri".toList (.str "/things/{id}?sort".toList)
      (.cons "code".toList (.num (.whole 204)) .nil)))

theorem http_fits : Fits http := by
  simp only [http, Fits, FitsMembers]
  refine ⟨by decide +kernel, trivial, trivial, ⟨by decide, by decide⟩, trivial⟩

example : Says "smithy.api#http" http "query" (.str "sort".toList) :=
  .httpQueryString _ "GET".toList "/things/{id}".toList "sort".toList rfl (by decide +kernel) rfl
    (.inr ⟨204, rfl⟩)

example : Says "smithy.api#http" http "code" (.int 204) :=
  .httpCode _ "GET".toList "/things/{id}?sort".toList 204 rfl rfl rfl

/-- The theorem applies to it. -/
example : ∃ t, generated Literals.Example.library Literals.Example.reader [] "smithy.api#http" http =
    some (.ok t) ∧ read t "path" = .ok (.str "/things/{id}".toList) :=
  C113_values Literals.Example.agree [] (fun _ h => by cases h) _ _ http_fits _ _
    (.httpPath _ "GET".toList "/things/{id}".toList "sort".toList rfl (by decide +kernel) (.inr rfl)
      (.inr ⟨204, rfl⟩))

/-- `@restJson1` without members. -/
example : ∃ t, generated Literals.Example.library Literals.Example.reader [] "aws.protocols#restJson1"
    (.obj .nil) = some (.ok t) ∧ read t "http" = .ok (.tuple [.str "http/1.1".toList]) :=
  C113_values Literals.Example.agree [] (fun _ h => by cases h) _ _
    (by simp only [Fits, FitsMembers]; exact ⟨by decide +kernel, trivial⟩) _ _
    (.restJsonNoHttp _ rfl (.inl rfl))

/-- `@required`, `@streaming` and `@awsQuery`. -/
example : classOf "smithy.api#required" = some "RequiredTrait" ∧
    classOf "smithy.api#streaming" = some "StreamingTrait" ∧
    classOf "aws.protocols#awsQuery" = some "AwsQueryTrait" := by
  refine ⟨?_, ?_, ?_⟩ <;> decide +kernel

example : Says (F := Int) "smithy.api#httpApiKeyAuth"
    (.obj (.cons "name".toList (.str "X-Key".toList) (.cons "in".toList (.str "header".toList) .nil)))
    "scheme" .none :=
  .apiKeyNoScheme _ "header".toList "X-Key".toList rfl (.inl rfl) rfl rfl

end Example

end Verif.TraitValues

import Verif.QueryAnswer.Texts

/-!
# What callers of AWS Query operations get (C132): what does not hold, and the hypotheses are met
-/

set_option autoImplicit false

namespace Verif.QueryAnswer

open Verif.Json (Text Format Dec)
open Verif.Scalars.Strict (Num)
open Verif.GeneratedSerde (Py Ref Model Shape Simple Member Err Same)
open Verif.Xml (Val Reader View Elem Head Ev events)
open Verif.Xml.RoundTrip (Writer Readable Typed AttributesDiffer Fits MayLead)
open Verif.Http.Errors (Operation C32_query FirstChild)
open Verif.Shapes (Registry)
open Verif.RestJson (Double)
open Verif.Timestamps (DateTime)

/-! ## What does not hold -/

section
variable {F T : Type} {m : Model F T} {rd : Reader Ref (Num Dec) F T}

theorem refused (ws : List Text) (w : Text) (h h' : Head) (hw : Xml.localName h'.tag ≠ w) (cs rest : List Elem) (cls : Nat) :
    receive m rd (Xml.localName h.tag :: w :: ws) cls (.mk h (.mk h' cs :: rest)) = .error (.xml .parse) := by
  have := Xml.C45_wrapper_refused rd (.shape cls) [h] w ws h' hw (Xml.allEvents cs ++ [.stop] ++ Xml.allEvents rest ++ [.stop])
  unfold receive
  simp only [List.map_cons, List.map_nil, List.cons_append, List.nil_append] at this
  have he : events (.mk h (.mk h' cs :: rest)) =
      .start h :: .start h' :: (Xml.allEvents cs ++ [.stop] ++ Xml.allEvents rest ++ [.stop]) := by
    simp [events, Xml.allEvents]
  rw [he, this]

/-- One could expect that the service can also write other elements before the output: order does not matter for the
elements in it.  It does here: a response whose first element is another, `ResponseMetadata` say, is refused. -/
theorem C132_order_fails {D : Type} (ns name : Text) (op : Operation) (registry : Registry Nat) (cls : Nat) (hms : m.members cls ≠ [])
    (delay : Option D) {status : Nat} (hlo : 200 ≤ status) (hhi : status ≤ 299) (h h' : Head)
    (hn : Xml.localName h.tag = name ++ "Response".toList) (hn' : Xml.localName h'.tag ≠ name ++ "Result".toList) (cs rest : List Elem) :
    answer m rd ns name op registry cls delay status (.mk h (.mk h' cs :: rest)) = .error (.codec (.xml .parse)) := by
  unfold answer
  have : responseWrappers name (m.members cls) = [name ++ "Response".toList, name ++ "Result".toList] := by
    unfold responseWrappers
    cases hm : m.members cls with
    | nil => exact absurd hm hms
    | cons x xs => rfl
  rw [if_pos ⟨hlo, by omega⟩, this, ← hn, refused [] _ h h' hn' cs rest cls]

/-- Nor can it write elements before the error, such as `RequestId`: the class of the error is still found, but then the response is
refused, and the caller gets no error of the service. -/
theorem C132_error_order_fails {D : Type} (ns name : Text) (hns : ns ≠ [] ∧ '#' ∉ ns) (op : Operation) (registry : Registry Nat)
    (out cls : Nat) (delay : Option D) {status : Nat} (hst : status < 200 ∨ 299 < status) (h h' he : Head)
    (hn : Xml.localName h.tag = "ErrorResponse".toList) (hn' : Xml.localName h'.tag ≠ "Error".toList)
    (hne : Xml.localName he.tag = "Error".toList) (inside cs rest : List Elem) {code tgt : Text} (hc : HasCode cs code)
    (hcode : code ≠ [] ∧ '$' ∉ code) (hnm : Named ns op registry code tgt) (hget : registry.get tgt = some cls) :
    answer m rd ns name op registry out delay status (.mk h (.mk h' inside :: .mk he cs :: rest)) = .error (.codec (.xml .parse)) := by
  unfold answer
  rw [if_neg (by omega)]
  generalize hf : (fun cls => (⟨true, match receive m rd Http.Errors.errorWrappers cls (.mk h (.mk h' inside :: .mk he cs :: rest)) with
      | .error e => .error e
      | .ok v => .ok ⟨v, none⟩⟩ : Http.Errors.Class (Py F T) QErr D)) = f
  have hcar : Http.Errors.QueryCarries (some (plain (.mk h (.mk h' inside :: .mk he cs :: rest)))) code := by
    obtain ⟨before, hh, ins, after, rfl, h1, h2, h3⟩ := hc
    refine ⟨_, plain (.mk he (before ++ .mk hh ins :: after)), plain (.mk hh ins), rfl, ?_, ?_, ?_, ?_⟩
    · simp only [plain, Http.Errors.Elem.tag, localName_eq, hn]
    · refine ⟨[plain (.mk h' inside)], plains rest, ?_, ?_, ?_⟩
      · simp only [plain, plains, Http.Errors.Elem.children, List.cons_append, List.nil_append]
      · simp only [plain, Http.Errors.Elem.tag, localName_eq, hne]
      · intro b hb
        rw [List.mem_singleton.1 hb]
        simp only [plain, Http.Errors.Elem.tag, localName_eq]
        exact hn'
    · refine ⟨before.map plain, after.map plain, ?_, ?_, ?_⟩
      · simp only [plain, Http.Errors.Elem.children, plains_map, List.map_append, List.map_cons]
      · simp only [plain, Http.Errors.Elem.tag, localName_eq, h1]
      · intro b hb
        obtain ⟨⟨h', i'⟩, hb', rfl⟩ := List.mem_map.1 hb
        simp only [plain, Http.Errors.Elem.tag, localName_eq]
        exact h3 h' i' hb'
    · simp only [plain, Http.Errors.Elem.text, h2, if_neg hcode.1]
  have hstand : Http.Errors.QueryStands ns op (registry.map f) code tgt := by
    unfold Http.Errors.QueryStands
    simp only [Registry.contains_map]
    exact hnm
  obtain ⟨id, hid, hidt, -⟩ := (Http.Errors.queryId_iff ns code op (registry.map f) hns hcode).1 tgt hstand
  have hq := (Http.Errors.queryCode_iff _ _).2 hcar
  have hr : receive m rd Http.Errors.errorWrappers cls (.mk h (.mk h' inside :: .mk he cs :: rest)) = .error (.xml .parse) := by
    have := refused (m := m) (rd := rd) [] "Error".toList h h' hn' inside (.mk he cs :: rest) cls
    rw [hn] at this
    exact this
  have hd : (f cls).deserialize = .error (.xml .parse) := by
    rw [← hf]
    simp only [hr]
  have hmod : (f cls).isModeled = true := by rw [← hf]
  unfold Http.Errors.queryError
  simp only [hq, hid, hidt, Registry.get_map, hget, Option.map_some, hd, hmod, if_true]

end

/-! ## The hypotheses are met -/

namespace Example

open Verif.Http.HeaderValue (exampleEnv exampleEnv_sane)
open Verif.EventStream (rnd)

/-- An output with a number, a flattened list of texts and a time that may be missing, and an error. -/
def model : Model Double DateTime where
  shapes := [
    .struct [⟨"Count".toList, "count".toList, none, 2, none, true, none⟩, ⟨"Tags".toList, "tags".toList, none, 3, none, true, none⟩,
      ⟨"When".toList, "when".toList, none, 4, none, true, none⟩],
    .simple .string, .simple .integer, .list false ⟨1, none⟩, .timestamp none,
    .struct [⟨"Message".toList, "message".toList, none, 1, none, false, some (.str [])⟩]]
  correction := fun _ => none

def own : Own where
  name := fun id => if id = 0 then "Out".toList else "Missing".toList
  xmlName := fun _ => none
  member := fun id name => (if id = 0 ∧ name = "Tags".toList then some "Tag".toList else none, false, decide (id = 0 ∧ name = "Tags".toList))

noncomputable def rd : Reader Ref (Num Dec) Double DateTime := { reader exampleEnv model (own.schemas model) with view := view model own.modelled }

noncomputable def client : Reader Ref (Num Dec) Double DateTime := { rd with view := view model (own.schemas model) }

theorem apart : own.Apart model := fun _ _ _ _ _ h => nomatch h

def w : Writer Ref (Num Dec) Double DateTime :=
  writer exampleEnv (fun q => .finite (rnd q)) (fun n => "{urn:x}".toList ++ n) (fun _ => "member".toList) (fun _ => ⟨false, ['0'], none, none⟩)
    fun _ => []

theorem names_ok : NamesOk model := by
  have h : ∀ id, model.members id = [] ∨ id = 0 ∨ id = 5 := by
    intro id
    match id with
    | 0 => exact .inr (.inl rfl)
    | 5 => exact .inr (.inr rfl)
    | 1 | 2 | 3 | 4 | _ + 6 => exact .inl rfl
  refine ⟨fun id => ?_, fun id ms hs => ?_⟩
  · rcases h id with h | rfl | rfl
    · rw [h]; exact List.nodup_nil
    · decide +kernel
    · decide +kernel
  · rcases h id with h | rfl | rfl
    · simp only [Model.members, hs] at h
      rw [h]; exact List.nodup_nil
    · cases hs; decide +kernel
    · cases hs; decide +kernel

theorem view_cases {s : Ref} {sh : Xml.Shape Ref} (h : rd.view s = .struct sh) :
    sh = ⟨false, "Out".toList, none, own.modelled.members 0 (model.members 0)⟩ ∨ sh = ⟨false, "Missing".toList, none, own.modelled.members 5 (model.members 5)⟩ := by
  have key : ∀ id, view model own.modelled (.shape id) = .struct sh →
      sh = ⟨false, "Out".toList, none, own.modelled.members 0 (model.members 0)⟩ ∨ sh = ⟨false, "Missing".toList, none, own.modelled.members 5 (model.members 5)⟩ := by
    intro id h
    match id with
    | 0 => cases h; exact .inl rfl
    | 5 => cases h; exact .inr rfl
    | 1 | 2 | 3 | 4 | _ + 6 => cases h
  cases ht : model.target s with
  | none =>
    have : view model own.modelled s = .struct sh := h
    unfold view at this
    rw [ht] at this
    cases this
  | some id =>
    refine key id ?_
    have : view model own.modelled s = .struct sh := h
    cases hs : model.shape id with
    | none =>
      unfold view at this
      rw [ht] at this
      simp only [hs] at this
      cases this
    | some shape =>
      rw [view_eq ht hs] at this
      rw [view_eq (s := .shape id) rfl hs]
      cases shape with
      | timestamp f => cases this
      | simple t => cases t <;> exact this
      | _ => exact this

theorem agree : Agree model own.modelled rd w where
  names := names_ok
  view := rfl
  elements := by
    intro s sh h
    rcases view_cases h with rfl | rfl
    · refine ⟨by decide +kernel, by decide +kernel, ?_⟩
      intro x hx hf
      have : x.2 = .member 0 "Tags".toList := by
        obtain ⟨i, hi, rfl⟩ := List.getElem_of_mem hx
        match i with
        | 0 => exact absurd hf Bool.false_ne_true
        | 1 => rfl
        | 2 => exact absurd hf Bool.false_ne_true
        | i + 3 => exact absurd hi (by simp [Traits.members, Model.members, model, Model.shape])
      rw [this]
      exact .inl ⟨_, rfl⟩
    · refine ⟨by decide +kernel, by decide +kernel, ?_⟩
      intro x hx hf
      obtain ⟨i, hi, rfl⟩ := List.getElem_of_mem hx
      match i with
      | 0 => exact absurd hf Bool.false_ne_true
      | i + 1 => exact absurd hi (by simp [Traits.members, Model.members, model, Model.shape])
  attributes := by
    intro s sh h
    rcases view_cases h with rfl | rfl <;> decide +kernel
  readable := C132_texts exampleEnv_sane model (own.schemas model) _ (fun _ => rfl) _ _ _ _

/-- `Out(count=12, tags=["a", "b"])`, and what it is in XML. -/
def out : Py Double DateTime := .object 0 [("count".toList, .int 12), ("tags".toList, .list [.str "a".toList, .str "b".toList]), ("when".toList, .none)]

def outVal : Val (Num Dec) Double DateTime := .struct [("Tags".toList, .list [.string "a".toList, .string "b".toList]), ("Count".toList, .integer 12)]

theorem plainFits (x : Xml.Member × Ref) (v : Val (Num Dec) Double DateTime) (h1 : x.1.isAttribute = false) (h2 : x.1.isFlattened = false) :
    Fits rd w x v := ⟨fun h => (by rw [h1] at h; cases h), fun _ h => (by rw [h2] at h; cases h)⟩

theorem out_typed : Typed rd w (.shape 0) outVal := by
  have hcount : (Numerals.natText 12).length ≤ exampleEnv.py.limit := by decide +kernel
  refine ⟨rfl, by decide +kernel, ?_, ?_, trivial⟩
  · refine ⟨(⟨"Tags".toList, some "Tag".toList, false, true⟩, .member 0 "Tags".toList), ?_, rfl, ⟨(fun h => nomatch h), fun _ _ => ⟨by simp, ?_⟩⟩,
      ⟨_, rfl⟩, ⟨_, rfl⟩, trivial⟩
    · exact List.mem_cons_of_mem _ List.mem_cons_self
    · exact .scalar _ _ ⟨.string [], [], rfl⟩
  · exact ⟨(⟨"Count".toList, none, false, false⟩, .member 0 "Count".toList), List.mem_cons_self, rfl, plainFits _ _ rfl rfl, _, rfl, hcount⟩

theorem out_says : Says model 0 out outVal := by
  refine .object (ms := model.members 0)
    (value := fun x => if x.name = "Count".toList then .int 12 else if x.name = "Tags".toList then .list [.str "a".toList, .str "b".toList] else .none)
    (written := fun x => if x.name = "Count".toList then some (.integer 12) else
      if x.name = "Tags".toList then some (.list [.string "a".toList, .string "b".toList]) else none) rfl ?_ ?_ ?_ ?_
  all_goals
    intro x hx
    obtain ⟨i, hi, rfl⟩ := List.getElem_of_mem hx
    have hi3 : i < 3 := hi
  · match i with
    | 0 | 1 | 2 => rfl
    | i + 3 => omega
  · intro v hv
    match i with
    | 0 => cases hv; exact .integer (t := .integer) rfl (.inr (.inr (.inl rfl)))
    | 1 =>
      cases hv
      refine .list (sparse := false) (e := ⟨1, none⟩) rfl rfl fun i x v hx hv => ?_
      match i with
      | 0 => cases hx; cases hv; exact .string rfl
      | 1 => cases hx; cases hv; exact .string rfl
      | i + 2 => cases hx
    | 2 => cases hv
    | i + 3 => omega
  · intro hw
    match i with
    | 0 => cases hw
    | 1 => cases hw
    | 2 => exact ⟨rfl, rfl, .inl rfl⟩
    | i + 3 => omega
  · intro v
    match i with
    | 0 =>
      constructor
      · intro h
        rcases List.mem_cons.1 h with h | h
        · cases h
        · cases List.mem_singleton.1 h; rfl
      · intro h; cases h; exact List.mem_cons_of_mem _ List.mem_cons_self
    | 1 =>
      constructor
      · intro h
        rcases List.mem_cons.1 h with h | h
        · cases h; rfl
        · cases List.mem_singleton.1 h
      · intro h; cases h; exact List.mem_cons_self
    | 2 =>
      constructor
      · intro h
        rcases List.mem_cons.1 h with h | h
        · cases h
        · cases List.mem_singleton.1 h
      · intro h; cases h
    | i + 3 => omega

def leaf (tag text : String) : Elem := .mk ⟨tag.toList, [], text.toList⟩ []

def node (tag : String) (cs : List Elem) : Elem := .mk ⟨tag.toList, [], "\n  ".toList⟩ cs

/-- The elements of the output, with one that the client does not know. -/
def children : List Elem := [leaf "{urn:x}Tag" "a", node "Other" [leaf "Tag" "c"], leaf "{urn:x}Tag" "b", leaf "{urn:x}Count" "12"]

/-! ### What does not hold: targets with `@xmlName` -/

/-- An output with one structure, which has `@xmlName`. -/
def nested : Model Double DateTime where
  shapes := [
    .struct [⟨"inner".toList, "inner".toList, none, 1, none, true, none⟩],
    .struct [⟨"text".toList, "text".toList, none, 2, none, true, none⟩],
    .simple .string]
  correction := fun _ => none

def nestedOwn : Own where
  name := fun id => if id = 0 then "Out".toList else "Inner".toList
  xmlName := fun id => if id = 1 then some "Renamed".toList else none
  member := fun _ _ => (none, false, false)

noncomputable def nestedReader : Reader Ref (Num Dec) Double DateTime :=
  { reader exampleEnv nested (nestedOwn.schemas nested) with view := view nested nestedOwn.modelled }

def nestedOut (v : Py Double DateTime) : Py Double DateTime := .object 0 [("inner".toList, v)]

def nestedVal : Val (Num Dec) Double DateTime := .struct [("inner".toList, .struct [("text".toList, .string "a".toList)])]

theorem nested_says : Says nested 0 (nestedOut (.object 1 [("text".toList, .str "a".toList)])) nestedVal := by
  refine .object (ms := nested.members 0) (value := fun _ => .object 1 [("text".toList, .str "a".toList)])
    (written := fun _ => some (.struct [("text".toList, .string "a".toList)])) rfl ?_ ?_ ?_ ?_
  all_goals
    intro x hx
    cases List.mem_singleton.1 hx
  · rfl
  · intro v hv
    cases hv
    refine .object (ms := nested.members 1) (value := fun _ => .str "a".toList) (written := fun _ => some (.string "a".toList)) rfl ?_ ?_ ?_ ?_
    all_goals
      intro x hx
      cases List.mem_singleton.1 hx
    · rfl
    · intro v hv; cases hv; exact .string rfl
    · intro h; cases h
    · intro v
      constructor
      · intro h; cases List.mem_singleton.1 h; rfl
      · intro h; cases h; exact List.mem_singleton.2 rfl
  · intro h; cases h
  · intro v
    constructor
    · intro h; cases List.mem_singleton.1 h; rfl
    · intro h; cases h; exact List.mem_singleton.2 rfl

/-- `inner` has no value in the output if its target has `@xmlName` and it has not: the client looks for an element with the name of the
target, and takes `inner` for one it does not know. -/
theorem C132_inherited_fails :
    (∃ v, Says nested 0 (nestedOut v) nestedVal ∧ v ≠ .none) ∧
    Holds nestedReader w 0 nestedVal [.mk ⟨"{urn:x}inner".toList, [], []⟩ [.mk ⟨"{urn:x}text".toList, [], "a".toList⟩ []]] ∧
    answer nested { nestedReader with view := view nested (nestedOwn.schemas nested) } "com.example".toList "Get".toList
      ⟨"com.example".toList, []⟩ (.alone []) 0 (some 3) 200
      (.mk ⟨"GetResponse".toList, [], []⟩ [.mk ⟨"GetResult".toList, [], []⟩
        [.mk ⟨"{urn:x}inner".toList, [], []⟩ [.mk ⟨"{urn:x}text".toList, [], "a".toList⟩ []]]]) = .ok (.output (nestedOut .none)) := by
  refine ⟨⟨_, nested_says, fun h => nomatch h⟩, ?_, ?_⟩
  · rfl
  · with_unfolding_all rfl

/-! ### The hypotheses are met -/

/-- The caller gets the output. -/
example : ∃ v', answer model client "com.example".toList "Get".toList ⟨"com.example".toList, []⟩ (.alone []) 0 (some 3) 200
      (node "{urn:x}GetResponse" [node "GetResult" children, node "ResponseMetadata" [leaf "RequestId" "1"]]) = .ok (.output v') ∧
    Same out v' :=
  C132_output_partial (D := Nat) agree apart (ms := model.members 0) rfl out_says out_typed (fun x hx => by rfl) _ _ _ _ _ (by decide) (by decide)
    (cs := children) rfl (.inside (by decide +kernel) (.last (by decide +kernel)))

/-- An error with its message, and what it is in XML. -/
def missing : Py Double DateTime := .object 5 [("message".toList, .str "gone".toList)]

theorem missing_says : Says model 5 missing (.struct [("Message".toList, .string "gone".toList)]) := by
  refine .object (ms := model.members 5) (value := fun _ => .str "gone".toList) (written := fun _ => some (.string "gone".toList)) rfl ?_ ?_ ?_ ?_
  all_goals
    intro x hx
    cases List.mem_singleton.1 hx
  · rfl
  · intro v hv; cases hv; exact .string rfl
  · intro h; cases h
  · intro v
    constructor
    · intro h; cases List.mem_singleton.1 h; rfl
    · intro h; cases h; exact List.mem_singleton.2 rfl

theorem missing_typed : Typed rd w (.shape 5) (.struct [("Message".toList, .string "gone".toList)]) :=
  ⟨rfl, by decide +kernel, ⟨(⟨"Message".toList, none, false, false⟩, .member 5 "Message".toList), List.mem_cons_self, rfl,
    plainFits _ _ rfl rfl, _, rfl⟩, trivial⟩

def errorChildren : List Elem := [leaf "Type" "Sender", leaf "Code" "NoSuchThing", leaf "{urn:x}Message" "gone"]

def operation : Operation := ⟨"com.example".toList,
  [(⟨"com.example#Missing".toList, "com.example".toList, "Missing".toList, none⟩, some "NoSuchThing".toList)]⟩

theorem operation_named : Named "com.example".toList operation (.alone [("com.example#Missing".toList, 5)]) "NoSuchThing".toList
    "com.example#Missing".toList :=
  .inl ⟨[], _, [], rfl, fun _ h => (by cases h), rfl, by decide +kernel, rfl⟩

theorem error_code : HasCode errorChildren "NoSuchThing".toList := by
  refine ⟨[leaf "Type" "Sender"], ⟨"Code".toList, [], "NoSuchThing".toList⟩, [], [leaf "{urn:x}Message" "gone"], rfl, by decide +kernel, rfl, ?_⟩
  intro h' i hb
  cases List.mem_singleton.1 hb
  decide +kernel

/-- The caller gets the error. -/
example : ∃ v', answer model client "com.example".toList "Get".toList operation (.alone [("com.example#Missing".toList, 5)]) 0 (some 3) 404
      (node "ErrorResponse" [node "Error" errorChildren, leaf "RequestId" "1"]) =
        .ok (.raised (.modeled "com.example#Missing".toList ⟨v', some 3⟩)) ∧
    Same missing v' :=
  C132_error_partial (D := Nat) agree apart (ms := model.members 5) rfl missing_says missing_typed (fun x hx => by rfl) _ _
    (by refine ⟨?_, ?_⟩ <;> decide +kernel) _ _ _ _ (by decide)
    (cs := errorChildren) rfl (.inside (by decide +kernel) (.last (by decide +kernel))) error_code
    (by refine ⟨?_, ?_⟩ <;> decide +kernel) operation_named rfl

/-- Not if the identifier of the request comes first. -/
example : answer model client "com.example".toList "Get".toList operation (.alone [("com.example#Missing".toList, 5)]) 0 (some 3) 404
      (node "ErrorResponse" [leaf "RequestId" "1", node "Error" errorChildren]) = .error (.codec (.xml .parse)) :=
  C132_error_order_fails (D := Nat) _ _ (by refine ⟨?_, ?_⟩ <;> decide +kernel) _ _ _ 5 _ (by decide) _ _ _ (by decide +kernel)
    (by decide +kernel) (by decide +kernel) _ _ _ error_code (by refine ⟨?_, ?_⟩ <;> decide +kernel) operation_named rfl

example : answer model client "com.example".toList "Get".toList operation (.alone []) 0 (some 3) 200
      (node "GetResponse" [leaf "ResponseMetadata" "1", node "GetResult" children]) = .error (.codec (.xml .parse)) :=
  C132_order_fails (D := Nat) _ _ _ _ _ (by simp [Model.members, Model.shape, model]) _ (by decide) (by decide) _ _ (by decide +kernel)
    (by decide +kernel) _ _

end Example

end Verif.QueryAnswer

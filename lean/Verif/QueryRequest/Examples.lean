import Verif.QueryRequest.Texts
import Verif.QueryAnswer.Examples

/-!
# What services get from callers of AWS Query operations (C133): what does not hold, and the hypotheses are met
-/

set_option autoImplicit false

namespace Verif.QueryRequest.Example

open Verif.Json (Text Format Dec)
open Verif.Scalars.Strict (Num)
open Verif.Uri (Bytes asc)
open Verif.GeneratedSerde (Py Ref Model Shape Simple Member)
open Verif.QueryAnswer (Own NamesOk TimeOk)
open Verif.Http.RestJson (utf8)
open Verif.Http.HeaderValue (exampleEnv exampleEnv_sane exampleEnv_shown)
open Verif.RestJson (Double)
open Verif.Timestamps (DateTime)
open Verif.AwsQuery.RoundTrip (Structures StructuresOk)

/-! ## What does not hold: targets with `@xmlName` -/

open Verif.QueryAnswer.Example (nested nestedOwn)

/-- A service with the model `nested`. -/
def nestedStructures : Structures Nat
  | 0 => [(⟨asc "inner", none⟩, .struct 1)]
  | 1 => [(⟨asc "text", none⟩, .string)]
  | _ => []

theorem nested_describes : Describes nestedOwn nested nestedStructures := by
  intro id
  match id with
  | 0 => exact .cons ⟨by decide +kernel, .struct (ms := nested.members 1) rfl rfl⟩ .nil
  | 1 => exact .cons ⟨by decide +kernel, .string (id := 2) rfl rfl⟩ .nil
  | 2 | _ + 3 => exact .nil

def nestedIn : Py Double DateTime := .object 0 [("inner".toList, .object 1 [("text".toList, .str "a".toList)])]

def nestedCall : QCall Double DateTime := .struct [(⟨asc "inner", none⟩, .struct [(⟨asc "text", none⟩, .string (asc "a"))])]

theorem nested_says : Says nestedOwn nested (settings exampleEnv) (texts exampleEnv) 0 (.shape 0) nestedIn nestedCall := by
  have h1 : (⟨asc "inner", none⟩ : AwsQuery.Member) = nameOf nestedOwn 0 "inner".toList := by decide +kernel
  have h2 : (⟨asc "text", none⟩ : AwsQuery.Member) = nameOf nestedOwn 1 "text".toList := by decide +kernel
  have h3 : asc "a" = utf8 "a".toList := by decide +kernel
  unfold nestedCall
  rw [h1, h2, h3]
  refine .object (ms := nested.members 0) (value := fun _ => .object 1 [("text".toList, .str "a".toList)])
    (written := fun _ => some (.struct [(nameOf nestedOwn 1 "text".toList, .string (utf8 "a".toList))])) rfl ?_ ?_ ?_ ?_
  all_goals
    intro x hx
    cases List.mem_singleton.1 hx
  · rfl
  · intro c hc
    cases hc
    refine .object (ms := nested.members 1) (value := fun _ => .str "a".toList) (written := fun _ => some (.string (utf8 "a".toList))) rfl ?_ ?_ ?_ ?_
    all_goals
      intro x hx
      cases List.mem_singleton.1 hx
    · rfl
    · intro c hc; cases hc; exact .string rfl
    · intro c hc; cases hc; rfl
    · intro h; cases h
  · intro c hc; cases hc; rfl
  · intro h; cases h

/-- A service does not get the value of a member whose target has `@xmlName`, if the member itself has not: its parameters are written
with the name of the target. -/
theorem C133_inherited_fails :
    Says nestedOwn nested (settings exampleEnv) (texts exampleEnv) 0 (.shape 0) nestedIn nestedCall ∧
    Describes nestedOwn nested nestedStructures ∧
    ∃ req : AwsQuery.Request, request nestedOwn nested (settings exampleEnv) 5 "Get".toList "2020".toList nestedIn = .ok req ∧
      req.body = asc "Action=Get&Version=2020&Renamed.text=a" ∧
      AwsQuery.RoundTrip.service (texts exampleEnv) .dateTime nestedStructures 5 0 (Uri.parseQuery req.body) =
        some (asc "Get", asc "2020", .struct []) := by
  refine ⟨nested_says, nested_describes, _, rfl, ?_, ?_⟩
  · decide +kernel
  · with_unfolding_all rfl

/-! ## The hypotheses are met -/

/-- An input with a number, a flattened list of texts, a time, a rate, a structure and an enum. -/
def model : Model Double DateTime where
  shapes := [
    .struct [⟨"Count".toList, "count".toList, none, 2, none, true, none⟩, ⟨"Tags".toList, "tags".toList, none, 3, none, true, none⟩,
      ⟨"When".toList, "when".toList, none, 4, none, true, none⟩, ⟨"Rate".toList, "rate".toList, none, 6, none, true, none⟩,
      ⟨"Inner".toList, "inner".toList, none, 5, none, true, none⟩],
    .simple .string, .simple .integer, .list false ⟨1, none⟩, .timestamp none,
    .struct [⟨"Kind".toList, "kind".toList, none, 7, none, true, none⟩], .simple .double, .enum]
  correction := fun _ => none

def own : Own where
  name := fun id => if id = 0 then "In".toList else "Inner".toList
  xmlName := fun _ => none
  member := fun id name => (if id = 0 ∧ name = "Tags".toList then some "Tag".toList else none, false, decide (id = 0 ∧ name = "Tags".toList))

def structures : Structures Nat
  | 0 => [(⟨asc "Count", none⟩, .integer), (⟨asc "Tags", some (asc "Tag")⟩, .list true none .string), (⟨asc "When", none⟩, .timestamp none),
      (⟨asc "Rate", none⟩, .float), (⟨asc "Inner", none⟩, .struct 5)]
  | 5 => [(⟨asc "Kind", none⟩, .string)]
  | _ => []

theorem apart : own.Apart model := fun _ _ _ _ _ h => nomatch h

theorem names_ok : NamesOk model := by
  have h : ∀ id, model.members id = [] ∨ id = 0 ∨ id = 5 := by
    intro id
    match id with
    | 0 => exact .inr (.inl rfl)
    | 5 => exact .inr (.inr rfl)
    | 1 | 2 | 3 | 4 | 6 | 7 | _ + 8 => exact .inl rfl
  refine ⟨fun id => ?_, fun id ms hs => ?_⟩
  · rcases h id with h | rfl | rfl
    · rw [h]; exact List.nodup_nil
    · decide +kernel
    · decide +kernel
  · rcases h id with h | rfl | rfl
    · simp only [Model.members, hs] at h
      rw [h]; exact List.nodup_nil
    · cases hs; decide +kernel
    · cases hs; decide +kernel

theorem describes : Describes own model structures := by
  intro id
  match id with
  | 0 =>
    refine .cons ⟨by decide +kernel, .integer (id := 2) (t := .integer) rfl rfl (.inr (.inr (.inl rfl)))⟩ (.cons ⟨by decide +kernel, ?_⟩
      (.cons ⟨by decide +kernel, .timestamp (id := 4) (f := none) rfl rfl⟩ (.cons ⟨by decide +kernel, .float (id := 6) (t := .double) rfl rfl (.inr rfl)⟩
        (.cons ⟨by decide +kernel, .struct (ms := model.members 5) rfl rfl⟩ .nil))))
    exact .list (id := 3) (sparse := false) (e := ⟨1, none⟩) rfl rfl (.string (id := 1) rfl rfl)
  | 5 => exact .cons ⟨by decide +kernel, .enum (id := 7) rfl rfl⟩ .nil
  | 1 | 2 | 3 | 4 | 6 | 7 | _ + 8 => exact .nil

theorem structures_ok : StructuresOk structures := by
  intro id
  match id with
  | 0 =>
    refine ⟨by decide +kernel, ?_⟩
    intro x hx
    simp only [structures, List.mem_cons, List.not_mem_nil, or_false] at hx
    rcases hx with rfl | rfl | rfl | rfl | rfl
    all_goals refine ⟨?_, ?_⟩
    all_goals first | trivial | (unfold AwsQuery.Plain; decide +kernel) | skip
    exact ⟨by unfold AwsQuery.Plain; decide +kernel, trivial⟩
  | 5 =>
    refine ⟨by decide +kernel, ?_⟩
    intro x hx
    cases List.mem_singleton.1 hx
    exact ⟨by unfold AwsQuery.Plain; decide +kernel, trivial⟩
  | 1 | 2 | 3 | 4 | 6 | 7 | _ + 8 => exact ⟨List.nodup_nil, fun _ h => nomatch h⟩

def time : DateTime := ⟨⟨2024, 2, 29⟩, 23, 59, 1, 500000, some 0⟩

theorem time_ok : TimeOk exampleEnv .dateTime time := by
  refine ⟨⟨by decide +kernel, by decide, by decide, by decide, by decide, by decide, ?_⟩, rfl, .inr (by decide +kernel)⟩
  rintro o h
  cases h
  decide

def rate : Num Double := .finite ⟨3 / 2, 3, -1, by norm_num, by norm_num, by norm_num, by norm_num⟩

theorem rate_ok : (texts exampleEnv).float ((settings exampleEnv).float rate) = some rate :=
  (C133_texts exampleEnv_sane).1 _ fun q hq => by
    cases hq
    exact exampleEnv_shown (by decide +kernel) (by decide +kernel)

theorem time_stamp : (texts exampleEnv).stamp .dateTime ((settings exampleEnv).stamp .dateTime time) = some time :=
  (C133_texts exampleEnv_sane).2.2.2 _ _ time_ok

/-- `In(count=12, tags=["a", "b"], when=..., rate=1.5, inner=Inner(kind=Kind("x")))`. -/
def values (x : Member Double DateTime) : Py Double DateTime :=
  if x.name = "Count".toList then .int 12 else if x.name = "Tags".toList then .list [.str "a".toList, .str "b".toList] else
    if x.name = "When".toList then .time time else if x.name = "Rate".toList then .float rate else
      .object 5 [("kind".toList, .strEnum 7 "x".toList)]

def input : Py Double DateTime := .object 0 ((model.attributes (model.members 0)).map fun x => (x.attr, values x))

def calls (x : Member Double DateTime) : QCall Double DateTime :=
  if x.name = "Count".toList then .integer 12 else
    if x.name = "Tags".toList then .list true none [.string (utf8 "a".toList), .string (utf8 "b".toList)] else
    if x.name = "When".toList then .timestamp none time else if x.name = "Rate".toList then .float rate else
      .struct [(nameOf own 5 "Kind".toList, .string (utf8 "x".toList))]

def call : QCall Double DateTime := .struct ((model.members 0).map fun x => (nameOf own 0 x.name, calls x))

theorem input_says : Says own model (settings exampleEnv) (texts exampleEnv) 0 (.shape 0) input call := by
  have : call = .struct ((model.members 0).filterMap fun x => (some (calls x)).map fun c => (nameOf own 0 x.name, c)) := rfl
  rw [this]
  refine .object (ms := model.members 0) (value := values) (written := fun x => some (calls x)) rfl ?_ ?_ ?_ ?_
  all_goals
    intro x hx
    obtain ⟨i, hi, rfl⟩ := List.getElem_of_mem hx
    have hi5 : i < 5 := hi
  · match i with
    | 0 | 1 | 2 | 3 | 4 => rfl
    | i + 5 => omega
  · intro c hc
    cases hc
    match i with
    | 0 => exact .integer (t := .integer) rfl (.inr (.inr (.inl rfl)))
    | 1 =>
      refine .list (sparse := false) (e := ⟨1, none⟩) (id := 3) (s := .member 0 "Tags".toList) rfl rfl (fun i x c hx hc => ?_) ?_
      · match i with
        | 0 => cases hx; cases hc; exact .string rfl
        | 1 => cases hx; cases hc; exact .string rfl
        | i + 2 => cases hx
      · intro c hc
        rcases List.mem_cons.1 hc with rfl | hc
        · rfl
        · cases List.mem_singleton.1 hc; rfl
    | 2 => exact .timestamp (id := 4) (s := .member 0 "When".toList) (f := none) rfl time_stamp
    | 3 => exact .float (t := .double) rfl (.inr rfl) rate_ok
    | 4 =>
      refine .object (ms := model.members 5) (value := fun _ => .strEnum 7 "x".toList) (written := fun _ => some (.string (utf8 "x".toList))) rfl ?_ ?_ ?_ ?_
      all_goals
        intro x hx
        cases List.mem_singleton.1 hx
      · rfl
      · intro c hc; cases hc; exact .enum rfl
      · intro c hc; cases hc; rfl
      · intro h; cases h
    | i + 5 => omega
  · intro c hc
    cases hc
    match i with
    | 0 | 1 | 2 | 3 | 4 => rfl
    | i + 5 => omega
  · intro hw; cases hw

/-- The service gets the input. -/
example : ∃ (req : AwsQuery.Request) (k : Nat), request own model (settings exampleEnv) 4 "Get".toList "2020".toList input = .ok req ∧
    ∀ depth, k ≤ depth → ∀ pairs, pairs.Perm (Uri.parseQuery req.body) →
      AwsQuery.RoundTrip.service (texts exampleEnv) .dateTime structures depth 0 pairs = some (utf8 "Get".toList, utf8 "2020".toList, call) :=
  C133_partial names_ok apart describes structures_ok (ms := model.members 0) rfl (by decide +kernel) _ _ input_says (by decide +kernel)

/-- Nothing else is written as the same request. -/
example (v : Py Double DateTime) (c : QCall Double DateTime) (hv : Says own model (settings exampleEnv) (texts exampleEnv) 0 (.shape 0) v c)
    (hd : v.depth ≤ 4) (h : request own model (settings exampleEnv) 4 "Get".toList "2020".toList input =
      request own model (settings exampleEnv) 4 "Get".toList "2020".toList v) : input = v :=
  C133_different_partial names_ok apart describes structures_ok (ms := model.members 0) rfl (by decide +kernel) _ _ input_says hv
    (by decide +kernel) hd h

end Verif.QueryRequest.Example

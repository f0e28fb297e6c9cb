import Verif.RestJson.RequestProps
import Verif.RestJson.Examples
import Verif.RestJson.RequestPayloadExamples

/-!
# The input of an operation, from the caller to the request: the hypotheses are met (C130)
-/

set_option autoImplicit false

namespace Verif.RestJson.Example

open Verif.GeneratedSerde (Py Ref Model Shape Simple Typed Same)
open Verif.Numerals
open Verif.Http.HeaderValue (exampleEnv)
open Verif.EventStream (rnd)
open Verif.Http.RestJson (utf8)
open Verif.Uri (ch asc PlainLiteral Piece labels intended IsGreedy EmptySegment)
open Verif.Uri.Pattern (render Valid)

/-- The structure as an input: the string and the timestamp are labels, the list is in the query, the number in a header. -/
def inputTraits (x : GMember) : Http.Member :=
  { name := x.name
    shape := if x.name = "nums".toList then .list else .scalar
    label := decide (x.name = "tag".toList) || decide (x.name = "at".toList)
    query := if x.name = "nums".toList then some "n".toList else none
    header := if x.name = "code".toList then some "X-Code".toList else if x.name = "more".toList then some "X-More".toList else none }

noncomputable def inputs : World := { world with traits := inputTraits }

theorem inputs_ok : inputs.Ok fun q => .finite (rnd q) where
  names := world_ok.names
  settings := world_ok.settings
  fits := world_ok.fits
  view := world_ok.view
  parse := world_ok.parse
  python := world_ok.python
  int := world_ok.int
  lower := world_ok.lower

theorem inputs_bound : inputs.RequestBound 0 where
  streams := world_bound.streams
  payload := fun _ _ => rfl
  hosts := fun _ _ => rfl
  own := members_cases fun i a ha => by
    have key : ∀ i : Fin 7, (inputTraits (model.members 0)[i]).header.map (List.map Char.toLower) ≠ some "content-type".toList ∧
        (inputTraits (model.members 0)[i]).header.map (List.map Char.toLower) ≠ some "content-length".toList := by
      decide +kernel
    have := key i
    rw [show (inputTraits _).header = _ from ha] at this
    refine ⟨fun h => this.1 ?_, fun h => this.2 ?_⟩
    · exact congrArg some (h.trans (by decide +kernel))
    · exact congrArg some (h.trans (by decide +kernel))

theorem inputs_field : ∀ x ∈ model.members 0, RequestField inputs (fun q => .finite (rnd q)) 0 x (value x) := by
  have short : ∀ n : Nat, n < 1000 → (natText n).length ≤ inputs.hdr.py.limit := by
    show ∀ n : Nat, n < 1000 → (natText n).length ≤ exampleEnv.py.limit
    decide +kernel
  refine members_cases fun i => ?_
  match i with
  | 0 => exact .label (by rfl) (.plain (fun _ h => nomatch (show Py.str _ = Py.time _ from h)) (.string rfl))
  | 1 =>
    refine .label (by rfl) (.time (f := none) (by rfl) rfl ?_)
    refine ⟨day_valid, rfl, ?_⟩
    show inputs.hdr.padYear = true ∨ -30610224000000000 ≤ Timestamps.Spec.instant day
    exact .inr (by decide +kernel)
  | 2 =>
    refine .queries (k := "n".toList) (sparse := false) (e := ⟨3, none⟩) (by rfl) rfl ?_
    intro v hv
    simp only [List.mem_cons, List.not_mem_nil, or_false] at hv
    rcases hv with rfl | rfl
    · exact .plain (fun _ h => nomatch h) (.integer rfl (by simp) (short _ (by decide)))
    · exact .plain (fun _ h => nomatch h) (.integer rfl (by simp) (short _ (by decide)))
  | 3 => exact .header (k := "X-Code".toList) (by rfl) (.integer rfl (by simp) (short _ (by decide)))
  | 4 => exact .body (by rfl) (.string rfl)
  | 5 => exact .body (by rfl) (.float (t := .double) rfl (.inr rfl) (fun h => nomatch h))
  | 6 => exact .absent rfl (.inl rfl)

/-- `/things/{tag}/{at}`. -/
def things : List (Piece Uri.Bytes) :=
  [.lit (asc "/things/"), .label (asc "tag") false, .lit (asc "/"), .label (asc "at") false]

theorem things_valid : Valid things ∧ ∀ t, Piece.lit t ∈ things → PlainLiteral t := by
  refine ⟨⟨?_, ?_⟩, ?_⟩
  · intro t ht
    have : t = asc "/things/" ∨ t = asc "/" := by simpa [things] using ht
    rcases this with rfl | rfl <;> decide +kernel
  · intro n g hn
    have : (n = asc "tag" ∧ g = false) ∨ (n = asc "at" ∧ g = false) := by simpa [things] using hn
    rcases this with ⟨rfl, _⟩ | ⟨rfl, _⟩
    · exact ⟨by decide +kernel, 116, by decide +kernel, by decide +kernel⟩
    · exact ⟨by decide +kernel, 97, by decide +kernel, by decide +kernel⟩
  · intro t ht
    have : t = asc "/things/" ∨ t = asc "/" := by simpa [things] using ht
    rcases this with rfl | rfl <;> (unfold PlainLiteral; decide +kernel)

/-- The hypotheses of the theorem are met. -/
example := C130_request_partial inputs_ok inputs_bound (ms := model.members 0) rfl inputs_field rfl (n := 9) (by decide +kernel)
  things_valid.1 things_valid.2 (members_cases fun i _ =>
    (by decide +kernel : ∀ i : Fin 7, utf8 (model.members 0)[i].name ≠ asc "self") i) (asc "list") true

/-- And there is a request. -/
example : ∃ r, inputs.request 9 0 (.object 0 ((model.attributes (model.members 0)).map fun x => (x.attr, value x))) (render things)
    (asc "list") true = .ok r ∧ r.path = asc "/things/a%2C%20%22b%22/2024-02-29T23%3A59%3A01Z" ∧ r.query = asc "list&n=1&n=-20" :=
  ⟨_, rfl, by decide +kernel, by decide +kernel⟩

end Verif.RestJson.Example

/-! ## Maps of query parameters and of headers -/

namespace Verif.RestJson.MapExample

open Verif.GeneratedSerde (Py Ref Model Shape Simple Typed Same)
open Verif.Timestamps (DateTime)
open Verif.EventStream (rnd)
open Verif.Http.RestJson (utf8)
open Verif.Uri (ch asc PlainLiteral Piece)
open Verif.Uri.Pattern (render Valid)

/-- An input (0): a string as a label, one in the query, a map of lists of strings for more of the query, a map of strings for
headers, and a string in the body. -/
def model : Model Double DateTime where
  shapes := [
    .struct [⟨"tag".toList, "tag".toList, none, 1, none, true, none⟩, ⟨"page".toList, "page".toList, none, 1, none, true, none⟩,
      ⟨"params".toList, "params".toList, none, 2, none, true, none⟩, ⟨"meta".toList, "meta".toList, none, 4, none, true, none⟩,
      ⟨"text".toList, "text".toList, none, 1, none, true, none⟩],
    .simple .string,
    .map false ⟨3, none⟩,
    .list false ⟨1, none⟩,
    .map false ⟨1, none⟩]
  correction := fun _ => some (.str [])

def traits (x : GMember) : Http.Member :=
  { name := x.name
    shape := .scalar
    label := decide (x.name = "tag".toList)
    query := if x.name = "page".toList then some "page".toList else none
    queryParams := decide (x.name = "params".toList)
    prefixHeaders := if x.name = "meta".toList then some "X-Meta-".toList else none }

noncomputable def world : World :=
  { Example.world with model := model, traits := traits, rd := { Example.world.rd with view := model.view } }

theorem model_ok : model.Ok true := by
  have h : ∀ i, model.members i = [] ∨ i = 0 := by
    intro i
    match i with
    | 0 => exact .inr rfl
    | 1 | 2 | 3 | 4 | _ + 5 => exact .inl rfl
  refine ⟨fun i => ?_, fun i => ?_, fun i => ?_⟩
  · rcases h i with h | rfl
    · rw [h]; exact List.nodup_nil
    · decide +kernel
  · rcases h i with h | rfl
    · rw [h]; exact List.nodup_nil
    · decide +kernel
  · intro ms hs
    rcases h i with h | rfl
    · simp only [Model.members, hs] at h
      rw [h]; exact List.nodup_nil
    · cases hs; decide +kernel

theorem world_ok : world.Ok fun q => .finite (rnd q) where
  names := model_ok
  settings := Example.world_ok.settings
  fits := ⟨Example.world_ok.fits.1, Example.world_ok.fits.2, Example.world_ok.fits.3, Example.world_ok.fits.4⟩
  view := rfl
  parse := Example.world_ok.parse
  python := Example.world_ok.python
  int := Example.world_ok.int
  lower := Example.world_ok.lower

theorem members_cases {p : GMember → Prop} (h : ∀ i : Fin 5, p ((model.members 0)[i])) : ∀ x ∈ model.members 0, p x := by
  intro x hx
  obtain ⟨i, hi, rfl⟩ := List.getElem_of_mem hx
  exact h ⟨i, hi⟩

theorem world_bound : world.RequestBound 0 where
  streams := members_cases (by show ∀ i, model.isStream _ = false; decide +kernel)
  payload := fun _ _ => rfl
  hosts := fun _ _ => rfl
  own := fun _ _ _ ha => nomatch ha

/-- The values; `params` are the parameters. -/
def value (params : List (Text × P)) (x : GMember) : P :=
  if x.name = "tag".toList then .str "a b".toList
  else if x.name = "page".toList then .str "1".toList
  else if x.name = "params".toList then .dict params
  else if x.name = "meta".toList then .dict [("a".toList, .str "x".toList), ("B".toList, .str "y, z".toList)]
  else .str "t".toList

theorem world_field {params : List (Text × P)} (hp : ∀ u ∈ params, ParamOk world 3 u.2) :
    ∀ x ∈ model.members 0, RequestField world (fun q => .finite (rnd q)) 0 x (value params x) := by
  refine members_cases fun i => ?_
  match i with
  | 0 => exact .label (by rfl) (.plain (fun _ h => nomatch (show Py.str _ = Py.time _ from h)) (.string rfl))
  | 1 => exact .query (k := "page".toList) (by rfl) (.plain (fun _ h => nomatch (show Py.str _ = Py.time _ from h)) (.string rfl))
  | 2 => exact .params (sparse := false) (e := ⟨3, none⟩) (by rfl) rfl hp
  | 3 =>
    refine .prefixed (pre := "X-Meta-".toList) (sparse := false) (e := ⟨1, none⟩)
      (es := [("a".toList, .str "x".toList), ("B".toList, .str "y, z".toList)]) (by rfl) rfl rfl ?_ ?_
    · intro u hu
      simp only [List.mem_cons, List.not_mem_nil, or_false] at hu
      rcases hu with rfl | rfl <;> exact ⟨_, rfl⟩
    · show ∀ u ∈ [("a".toList, (Py.str "x".toList : P)), ("B".toList, .str "y, z".toList)],
        List.map Char.toLower ("X-Meta-".toList ++ u.1) ≠ List.map Char.toLower "content-type".toList ∧
        List.map Char.toLower ("X-Meta-".toList ++ u.1) ≠ List.map Char.toLower "content-length".toList
      intro u hu
      simp only [List.mem_cons, List.not_mem_nil, or_false] at hu
      rcases hu with rfl | rfl <;> (refine ⟨?_, ?_⟩ <;> decide +kernel)
  | 4 => exact .body (by rfl) (.string rfl)

theorem params_ok (k a b : Text) : ∀ u ∈ [("q".toList, (Py.list [.str a, .str b] : P)), (k, .list [.str b])], ParamOk world 3 u.2 := by
  intro u hu
  simp only [List.mem_cons, List.not_mem_nil, or_false] at hu
  rcases hu with rfl | rfl <;> refine .list (sparse := false) (e := ⟨1, none⟩) rfl rfl fun v hv => ?_ <;>
    simp only [List.mem_cons, List.not_mem_nil, or_false] at hv
  · rcases hv with rfl | rfl <;> exact ⟨_, rfl⟩
  · exact ⟨_, hv⟩

/-- The hypotheses of the theorem are met. -/
example := C130_request_partial world_ok world_bound (ms := model.members 0) rfl
  (world_field (params_ok "r".toList "a".toList "b&c".toList)) rfl (n := 9) (by decide +kernel)
  PayloadExample.things_valid.1 PayloadExample.things_valid.2 (members_cases fun i _ =>
    (by decide +kernel : ∀ i : Fin 5, utf8 (model.members 0)[i].name ≠ asc "self") i) [] true

/-- And there is a request. -/
example : ∃ r, world.request 9 0 (.object 0 ((model.attributes (model.members 0)).map fun x => (x.attr,
      value [("q".toList, .list [.str "a".toList, .str "b&c".toList]), ("r".toList, .list [.str "b&c".toList])] x)))
    (render PayloadExample.things) [] true = .ok r ∧ r.path = asc "/things/a%20b" ∧
      r.query = asc "page=1&q=a&q=b%26c&r=b%26c" ∧ Http.fieldValues world.lower r.fields "x-meta-b".toList = ["y, z".toList] :=
  ⟨_, rfl, by decide +kernel, by decide +kernel, by decide +kernel⟩

/-- A parameter that is bound by its own member (`@httpQuery`) should have precedence over one of the same name in the map of
parameters (`@httpQueryParams`).  It does not: the query has both. -/
theorem C130_precedence_fails :
    ∃ (x y : GMember) (vs : GMember → P) (k a b : Text), x ∈ model.members 0 ∧ y ∈ model.members 0 ∧
      (world.traits x).query = some k ∧ vs x = .str a ∧ (world.traits y).queryParams = true ∧ vs y = .dict [(k, .list [.str b])] ∧
      a ≠ b ∧ ∃ r, world.request 9 0 (.object 0 ((model.attributes (model.members 0)).map fun x => (x.attr, vs x)))
        (render PayloadExample.things) [] true = .ok r ∧
        Uri.parseQuery r.query = [(utf8 k, some (utf8 a)), (utf8 k, some (utf8 b))] :=
  ⟨⟨"page".toList, "page".toList, none, 1, none, true, none⟩, ⟨"params".toList, "params".toList, none, 2, none, true, none⟩,
    value [("page".toList, .list [.str "2".toList])], "page".toList, "1".toList, "2".toList,
    List.mem_of_getElem? (i := 1) rfl, List.mem_of_getElem? (i := 2) rfl, by decide +kernel, by with_unfolding_all rfl,
    by decide +kernel, by with_unfolding_all rfl, by decide +kernel, _, rfl, by decide +kernel⟩

end Verif.RestJson.MapExample

import Verif.RestJson.RequestPayload
import Verif.RestJson.PayloadExamples

/-!
# The input of an operation with a payload: the hypotheses are met (C130)
-/

set_option autoImplicit false

namespace Verif.RestJson.PayloadExample

open Verif.GeneratedSerde (Py Ref Model Shape Simple Typed Same)
open Verif.Numerals (natText)
open Verif.EventStream (rnd)
open Verif.Http.HeaderValue (exampleEnv)
open Verif.Http.RestJson (utf8)
open Verif.Uri (ch asc PlainLiteral Piece)
open Verif.Uri.Pattern (render Valid)

/-- The structures as inputs: the string is a label, the number is in the query, and the rest is the payload. -/
def inputTraits (x : GMember) : Http.Member :=
  { name := x.name
    shape := .scalar
    label := x.name = "tag".toList
    query := if x.name = "code".toList then some "c".toList else none
    payload := x.name = "item".toList ∨ x.name = "data".toList }

noncomputable def inputs : World := { world with traits := inputTraits }

theorem inputs_ok : inputs.Ok fun q => .finite (rnd q) where
  names := world_ok.names
  settings := world_ok.settings
  fits := world_ok.fits
  view := world_ok.view
  parse := world_ok.parse
  python := world_ok.python
  int := world_ok.int
  lower := world_ok.lower

theorem place_data {cls : Nat} (hc : cls = 0 ∨ cls = 5) : ∀ x ∈ model.members cls, x ≠ item → x ≠ data → inputs.place x ≠ .body := by
  have key : ∀ x ∈ model.members 0 ++ model.members 5, x.name = "item".toList ∨ x.name = "data".toList ∨
      (inputTraits x).label = true ∨ (inputTraits x).query ≠ none := by decide +kernel
  intro x hx h1 h2 h
  have hm : x ∈ model.members 0 ++ model.members 5 := by
    rcases hc with rfl | rfl
    · exact List.mem_append_left _ hx
    · exact List.mem_append_right _ hx
  have hin : x.name = "item".toList → x = item := by
    intro hn
    rcases hc with rfl | rfl
    · exact GeneratedSerde.name_inj _ (model_ok.names 0) item (List.mem_of_getElem? (i := 2) rfl) x hx hn
    · have : ∀ x ∈ model.members 5, x.name ≠ "item".toList := by decide +kernel
      exact absurd hn (this x hx)
  have hdn : x.name = "data".toList → x = data := by
    intro hn
    rcases hc with rfl | rfl
    · have : ∀ x ∈ model.members 0, x.name ≠ "data".toList := by decide +kernel
      exact absurd hn (this x hx)
    · exact GeneratedSerde.name_inj _ (model_ok.names 5) data (List.mem_of_getElem? (i := 2) rfl) x hx hn
  unfold World.place at h
  change (if (inputTraits x).label then Place.label else match (inputTraits x).query with
    | some k => .query k | none => if (inputTraits x).queryParams then .params else match (inputTraits x).header with
      | some k => .header k | none => match (inputTraits x).prefixHeaders with | some pre => .prefixed pre | none => .body) = .body at h
  rcases key x hm with g | g | g | g
  · exact h1 (hin g)
  · exact h2 (hdn g)
  · rw [if_pos g] at h; cases h
  · cases hl : (inputTraits x).label with
    | true => rw [hl] at h; cases h
    | false =>
      rw [hl] at h
      cases hq : (inputTraits x).query with
      | none => exact g hq
      | some k => rw [hq] at h; cases h

theorem inputs_sides {cls : Nat} (hc : cls = 0 ∨ cls = 5) : inputs.RequestSides cls where
  streams := by
    refine members_cases hc (fun _ => ?_) (fun _ => ?_) <;>
      (show ∀ i, model.isStream _ = false; decide +kernel)
  hosts := fun _ _ => rfl
  own := fun _ _ _ ha => nomatch ha

theorem inputs_item : inputs.RequestCarries 0 item where
  toRequestSides := inputs_sides (.inl rfl)
  member := List.mem_of_getElem? (i := 2) rfl
  payload := ⟨by decide +kernel, rfl⟩
  others := fun x hx hne => place_data (.inl rfl) x hx hne fun h => by
    have : ∀ x ∈ model.members 0, x.name ≠ "data".toList := by decide +kernel
    exact this x hx (h ▸ rfl)

theorem inputs_data : inputs.RequestCarries 5 data where
  toRequestSides := inputs_sides (.inr rfl)
  member := List.mem_of_getElem? (i := 2) rfl
  payload := ⟨by decide +kernel, rfl⟩
  others := fun x hx hne => place_data (.inr rfl) x hx (fun h => by
    have : ∀ x ∈ model.members 5, x.name ≠ "item".toList := by decide +kernel
    exact this x hx (h ▸ rfl)) hne

theorem tag_request (cls : Nat) : RequestField inputs (fun q => .finite (rnd q)) cls
    ⟨"tag".toList, "tag".toList, none, 1, none, true, none⟩ (.str "a, b".toList) :=
  .label (by rfl) (.plain (fun _ h => nomatch h) (.string rfl))

theorem code_request (cls : Nat) : RequestField inputs (fun q => .finite (rnd q)) cls
    ⟨"code".toList, "code".toList, none, 3, none, true, none⟩ (.int 201) :=
  .query (k := "c".toList) (by rfl) (.plain (fun _ h => nomatch h) (.integer rfl (by simp) (by
    show (natText 201).length ≤ exampleEnv.py.limit
    decide +kernel)))

theorem input_item (v : P) : ∀ x ∈ model.members 0, x ≠ item → RequestField inputs (fun q => .finite (rnd q)) 0 x (value v x) := by
  intro x hx hne
  replace hx : x ∈ [(⟨"tag".toList, "tag".toList, none, 1, none, true, none⟩ : GMember),
    ⟨"code".toList, "code".toList, none, 3, none, true, none⟩, item] := hx
  rcases List.mem_cons.1 hx with rfl | hx
  · exact tag_request 0
  · rcases List.mem_cons.1 hx with rfl | hx
    · exact code_request 0
    · exact absurd (List.mem_singleton.1 hx) hne

theorem input_data (v : P) : ∀ x ∈ model.members 5, x ≠ data → RequestField inputs (fun q => .finite (rnd q)) 5 x (value v x) := by
  intro x hx hne
  replace hx : x ∈ [(⟨"tag".toList, "tag".toList, none, 1, none, true, none⟩ : GMember),
    ⟨"code".toList, "code".toList, none, 3, none, true, none⟩, data] := hx
  rcases List.mem_cons.1 hx with rfl | hx
  · exact tag_request 5
  · rcases List.mem_cons.1 hx with rfl | hx
    · exact code_request 5
    · exact absurd (List.mem_singleton.1 hx) hne

/-- `/things/{tag}`. -/
def things : List (Piece Uri.Bytes) := [.lit (asc "/things/"), .label (asc "tag") false]

theorem things_valid : Valid things ∧ ∀ t, Piece.lit t ∈ things → PlainLiteral t := by
  refine ⟨⟨?_, ?_⟩, ?_⟩
  · intro t ht
    have : t = asc "/things/" := by simpa [things] using ht
    subst this; decide +kernel
  · intro n g hn
    have : n = asc "tag" ∧ g = false := by simpa [things] using hn
    obtain ⟨rfl, _⟩ := this
    exact ⟨by decide +kernel, 116, by decide +kernel, by decide +kernel⟩
  · intro t ht
    have : t = asc "/things/" := by simpa [things] using ht
    subst this; unfold PlainLiteral; decide +kernel

theorem not_self {cls : Nat} (hc : cls = 0 ∨ cls = 5) : ∀ x ∈ model.members cls, inputs.place x = .label → utf8 x.name ≠ asc "self" :=
  members_cases hc (fun _ i _ => (by decide +kernel : ∀ i : Fin 3, utf8 (model.members 0)[i].name ≠ asc "self") i)
    (fun _ i _ => (by decide +kernel : ∀ i : Fin 3, utf8 (model.members 5)[i].name ≠ asc "self") i)

/-- The hypotheses of the theorem are met, by a structure, -/
example := C130_payload_partial inputs_ok inputs_item rfl (input_item thing) (.value (.value (.inl ⟨_, rfl⟩) thing_typed)) rfl (n := 9)
  (by decide +kernel) things_valid.1 things_valid.2 (not_self (.inl rfl)) (asc "list") true

/-- by a structure that is left out, -/
example := C130_payload_partial inputs_ok inputs_item rfl (input_item .none) (.value (.absent (.inl ⟨_, rfl⟩) rfl (.inl rfl))) rfl
  (n := 9) (by decide +kernel) things_valid.1 things_valid.2 (not_self (.inl rfl)) (asc "list") true

/-- by a blob, and by a blob that is left out. -/
example := C130_payload_partial inputs_ok inputs_data rfl (input_data (.bytes [0, 255])) (.value (.blob rfl)) rfl (n := 9)
  (by decide +kernel) things_valid.1 things_valid.2 (not_self (.inr rfl)) (asc "list") true

example := C130_payload_partial inputs_ok inputs_data rfl (input_data .none) (.absent (.inl rfl) rfl rfl (.inl rfl)) rfl (n := 9)
  (by decide +kernel) things_valid.1 things_valid.2 (not_self (.inr rfl)) (asc "list") true

/-- And there is a request. -/
example : ∃ r, inputs.request 9 5 (.object 5 ((model.attributes (model.members 5)).map fun x => (x.attr, value (.bytes [0, 255]) x)))
    (render things) (asc "list") true = .ok r ∧ r.path = asc "/things/a%2C%20b" ∧ r.query = asc "list&c=201" ∧
    r.body = .bytes [0, 255] :=
  ⟨_, rfl, by decide +kernel, by decide +kernel, by decide +kernel⟩

/-! ## A payload that is left out where its length has to be known -/

/-- There is no request then, although the length is zero. -/
theorem C130_required_length_fails (query : Bytes) (omitEmpty : Bool) :
    ∃ w : World, w.request 9 0 (.object 0 [("x".toList, .none)]) (render [.lit (asc "/")]) query omitEmpty =
        .error (.write (.http .lengthRequired)) ∧
      ∃ r, w.request 9 0 (.object 0 [("x".toList, .bytes [])]) (render [.lit (asc "/")]) query omitEmpty = .ok r ∧ r.body = .bytes [] :=
  ⟨{ blobbed with traits := fun x => { name := x.name, shape := .blob, payload := true, requiresLength := true } }, rfl, _, rfl, rfl⟩

/-! ## A document -/

theorem documented_input : documented.RequestCarries 0 doc where
  streams := documented_carries.streams
  hosts := fun _ _ => rfl
  own := fun _ _ _ h => nomatch h
  member := documented_carries.member
  payload := ⟨rfl, rfl⟩
  others := fun x hx hne => absurd (List.mem_singleton.1 (show x ∈ [doc] from hx)) hne

/-- A document as the payload of an input, and one that is left out, are what the theorem is about. -/
example : RequestPayload documented 0 doc (.document plain) ∧ RequestPayload documented 0 doc .none :=
  ⟨.value plain_ok, .noDocument rfl rfl rfl⟩

/-- There is a request, and it has a document that is read as an equal one. -/
example : ∃ r bytes v', documented.request 9 0 (.object 0 ((docModel.attributes (docModel.members 0)).map fun x =>
      (x.attr, .document plain))) (render [.lit (asc "/")]) [] true = .ok r ∧ r.body = .bytes bytes ∧
    documented.readDocument 0 doc bytes = .ok v' ∧ Same (.document plain) v' := by
  obtain ⟨r, hr⟩ : ∃ r, documented.request 9 0 (.object 0 ((docModel.attributes (docModel.members 0)).map fun x =>
      (x.attr, .document plain))) (render [.lit (asc "/")]) [] true = .ok r := ⟨_, rfl⟩
  obtain ⟨_, _, _, _, _, h⟩ := C130_payload_partial (value := fun _ => .document plain) documented_ok documented_input rfl
    (fun x hx hne => absurd (List.mem_singleton.1 (show x ∈ [doc] from hx)) hne) (.value plain_ok) rfl (n := 9) (by decide +kernel)
    (ps := [.lit (asc "/")]) ⟨fun t ht => (by cases List.mem_singleton.1 ht; decide +kernel), fun n g h => nomatch List.mem_singleton.1 h⟩
    (fun t ht => by cases List.mem_singleton.1 ht; unfold PlainLiteral; decide +kernel)
    (fun x hx h => by rw [List.mem_singleton.1 (show x ∈ [doc] from hx)] at h; cases h) [] true
  obtain ⟨-, -, -, bytes, h1, h2, -⟩ := h r hr
  obtain ⟨v', h3, h4⟩ := h2.2.2.2.2 (.inr (.inr (.inr (.inr rfl)))) (fun h => nomatch h)
  exact ⟨r, bytes, v', hr, h1, h3, h4⟩

end Verif.RestJson.PayloadExample

import Verif.RestJson.Payload
import Verif.RestJson.Examples

/-!
# The output of an operation with a payload: the hypotheses are met, and what is not restored (C129)
-/

set_option autoImplicit false

namespace Verif.RestJson.PayloadExample

open Verif.GeneratedSerde (Py Ref Model Shape Simple Typed Same)
open Verif.Timestamps (DateTime)
open Verif.Http.RoundTrip (received)
open Verif.Http.RestJson (utf8)
open Verif.RestJson.Example
open Verif.EventStream (rnd)

/-- Outputs with a string in a header, a number that is the status, and a payload: a structure of a string and a list of strings (0)
or a blob (5). -/
def model : Model Double DateTime where
  shapes := [
    .struct [⟨"tag".toList, "tag".toList, none, 1, none, true, none⟩, ⟨"code".toList, "code".toList, none, 3, none, true, none⟩,
      ⟨"item".toList, "item".toList, none, 4, none, true, none⟩],
    .simple .string,
    .list false ⟨1, none⟩,
    .simple .integer,
    .struct [⟨"name".toList, "name".toList, some "n".toList, 1, none, false, none⟩,
      ⟨"tags".toList, "tags".toList, none, 2, none, true, none⟩],
    .struct [⟨"tag".toList, "tag".toList, none, 1, none, true, none⟩, ⟨"code".toList, "code".toList, none, 3, none, true, none⟩,
      ⟨"data".toList, "data".toList, none, 6, none, true, none⟩],
    .simple .blob]
  correction := fun _ => some (.str [])

def traits (x : GMember) : Http.Member :=
  { name := x.name
    shape := .scalar
    header := if x.name = "tag".toList then some "X-Tag".toList else none
    payload := x.name = "item".toList ∨ x.name = "data".toList
    responseCode := x.name = "code".toList }

noncomputable def world : World :=
  { Example.world with model := model, traits := traits, rd := { Example.world.rd with view := model.view } }

theorem model_ok : model.Ok true := by
  have h : ∀ i, model.members i = [] ∨ i = 0 ∨ i = 4 ∨ i = 5 := by
    intro i
    match i with
    | 0 => exact .inr (.inl rfl)
    | 4 => exact .inr (.inr (.inl rfl))
    | 5 => exact .inr (.inr (.inr rfl))
    | 1 | 2 | 3 | 6 | _ + 7 => exact .inl rfl
  refine ⟨fun i => ?_, fun i => ?_, fun i => ?_⟩
  · rcases h i with h | rfl | rfl | rfl
    · rw [h]; exact List.nodup_nil
    all_goals decide +kernel
  · rcases h i with h | rfl | rfl | rfl
    · rw [h]; exact List.nodup_nil
    all_goals decide +kernel
  · intro ms hs
    rcases h i with h | rfl | rfl | rfl
    · simp only [Model.members, hs] at h
      rw [h]; exact List.nodup_nil
    all_goals cases hs; decide +kernel

theorem world_ok : world.Ok fun q => .finite (rnd q) where
  names := model_ok
  settings := Example.world_ok.settings
  fits := ⟨Example.world_ok.fits.1, Example.world_ok.fits.2, Example.world_ok.fits.3, Example.world_ok.fits.4⟩
  view := rfl
  parse := Example.world_ok.parse
  python := Example.world_ok.python
  int := Example.world_ok.int
  lower := Example.world_ok.lower

theorem members_cases {cls : Nat} (hc : cls = 0 ∨ cls = 5) {q : GMember → Prop}
    (h0 : cls = 0 → ∀ i : Fin 3, q ((model.members 0)[i])) (h5 : cls = 5 → ∀ i : Fin 3, q ((model.members 5)[i])) :
    ∀ x ∈ model.members cls, q x := by
  intro x hx
  rcases hc with rfl | rfl
  · obtain ⟨i, hi, rfl⟩ := List.getElem_of_mem hx
    exact h0 rfl ⟨i, hi⟩
  · obtain ⟨i, hi, rfl⟩ := List.getElem_of_mem hx
    exact h5 rfl ⟨i, hi⟩

theorem only_tag {x : GMember} {a : Text} (h : (world.traits x).header = some a) :
    x.name = "tag".toList ∧ a = "X-Tag".toList := by
  have h : (if x.name = "tag".toList then some "X-Tag".toList else none) = some a := h
  split at h
  · next hn => exact ⟨hn, (Option.some.inj h).symm⟩
  · cases h

theorem only_code {x : GMember} (h : (world.traits x).responseCode = true) : x.name = "code".toList :=
  of_decide_eq_true (p := x.name = "code".toList) h

theorem world_carries {cls : Nat} (hc : cls = 0 ∨ cls = 5) {p : GMember} (hp : p ∈ model.members cls)
    (hn : (traits p).payload = true ∧ (traits p).responseCode = false ∧ (traits p).header = none)
    (ho : ∀ x ∈ model.members cls, x.name = p.name ∨ (traits x).responseCode = true ∨ (traits x).header ≠ none) :
    world.Carries cls p where
  streams := by
    refine members_cases hc (fun _ => ?_) (fun _ => ?_) <;>
      (show ∀ i, model.isStream _ = false; decide +kernel)
  member := hp
  payload := ⟨hn.1, hn.2.1, hn.2.2, rfl⟩
  others := fun x hx hne => ((ho x hx).resolve_left fun h =>
    hne (GeneratedSerde.name_inj _ (model_ok.names cls) p hp x hx h)).imp id .inl
  prefixes := fun _ _ _ h => nomatch h
  headers := fun x hx y hy a b ha hb _ =>
    GeneratedSerde.name_inj _ (model_ok.names cls) y hy x hx ((only_tag ha).1.trans (only_tag hb).1.symm)
  own := fun x hx a ha => by
    rw [(only_tag ha).2]
    show List.map Char.toLower _ ≠ List.map Char.toLower _ ∧ List.map Char.toLower _ ≠ List.map Char.toLower _
    decide +kernel
  status := fun x hx y hy h1 h2 =>
    GeneratedSerde.name_inj _ (model_ok.names cls) y hy x hx ((only_code h1).trans (only_code h2).symm)

def item : GMember := ⟨"item".toList, "item".toList, none, 4, none, true, none⟩
def data : GMember := ⟨"data".toList, "data".toList, none, 6, none, true, none⟩

theorem carries_item : world.Carries 0 item :=
  world_carries (.inl rfl) (List.mem_of_getElem? (i := 2) rfl) (by decide +kernel) (by decide +kernel)

theorem carries_data : world.Carries 5 data :=
  world_carries (.inr rfl) (List.mem_of_getElem? (i := 2) rfl) (by decide +kernel) (by decide +kernel)

/-- An item, and the value of an output with this payload. -/
def thing : P := .object 4 ((model.attributes (model.members 4)).map fun x =>
  (x.attr, if x.name = "name".toList then .str "é\"".toList else .list [.str "a".toList, .str []]))

def value (payload : P) (x : GMember) : P :=
  if x.name = "tag".toList then .str "a, b".toList
  else if x.name = "code".toList then .int 201
  else payload

theorem tag_field (cls : Nat) : Field world (fun q => .finite (rnd q)) cls ⟨"tag".toList, "tag".toList, none, 1, none, true, none⟩
    (.str "a, b".toList) := .header (k := "X-Tag".toList) (by decide +kernel) (by decide +kernel) (.string rfl)

theorem code_field (cls : Nat) : Field world (fun q => .finite (rnd q)) cls ⟨"code".toList, "code".toList, none, 3, none, true, none⟩
    (.int 201) := .status (t := .integer) (by decide +kernel) rfl (by simp)

theorem value_item (v : P) : ∀ x ∈ model.members 0, x ≠ item → Field world (fun q => .finite (rnd q)) 0 x (value v x) := by
  intro x hx hne
  replace hx : x ∈ [(⟨"tag".toList, "tag".toList, none, 1, none, true, none⟩ : GMember),
    ⟨"code".toList, "code".toList, none, 3, none, true, none⟩, item] := hx
  rcases List.mem_cons.1 hx with rfl | hx
  · exact tag_field 0
  · rcases List.mem_cons.1 hx with rfl | hx
    · exact code_field 0
    · exact absurd (List.mem_singleton.1 hx) hne

theorem value_data (v : P) : ∀ x ∈ model.members 5, x ≠ data → Field world (fun q => .finite (rnd q)) 5 x (value v x) := by
  intro x hx hne
  replace hx : x ∈ [(⟨"tag".toList, "tag".toList, none, 1, none, true, none⟩ : GMember),
    ⟨"code".toList, "code".toList, none, 3, none, true, none⟩, data] := hx
  rcases List.mem_cons.1 hx with rfl | hx
  · exact tag_field 5
  · rcases List.mem_cons.1 hx with rfl | hx
    · exact code_field 5
    · exact absurd (List.mem_singleton.1 hx) hne

theorem thing_typed : Typed world.model world.st world.rd 4 (.member 0 "item".toList) thing := by
  refine .object (ms := model.members 4) rfl fun x hx => .present ?_
  replace hx : x ∈ [(⟨"name".toList, "name".toList, some "n".toList, 1, none, false, none⟩ : GMember),
    ⟨"tags".toList, "tags".toList, none, 2, none, true, none⟩] := hx
  rcases List.mem_cons.1 hx with rfl | hx
  · exact .string rfl
  · rw [List.mem_singleton.1 hx]
    refine .list (sparse := false) (e := ⟨1, none⟩) rfl fun y hy => ?_
    simp only [List.mem_cons, List.not_mem_nil, or_false] at hy
    rcases hy with rfl | rfl
    · exact .value (.string rfl) (fun h => nomatch h)
    · exact .value (.string rfl) (fun h => nomatch h)

/-- The hypotheses of the theorem are met, by a structure, -/
example : ∃ r bytes, world.respond 9 0 (.object 0 ((model.attributes (model.members 0)).map fun x => (x.attr, value thing x))) none
      "200".toList true = .ok r ∧ r.body = .bytes bytes ∧
    (∀ b, value thing item = .bytes b → bytes = b.map UInt8.ofFin) ∧ (∀ t, value thing item = .str t → bytes = utf8 t) ∧
    ∀ body, body = none ∨ body = some (.bytes bytes) → ∃ v', world.receive 0 (received r bytes) body = .ok v' ∧
      Same (.object 0 ((model.attributes (model.members 0)).map fun x => (x.attr, value thing x))) v' :=
  C129_payload_partial world_ok carries_item rfl (value_item thing) (.value (.inl ⟨_, rfl⟩) thing_typed) rfl (by decide +kernel) none
    "200".toList true

/-- by a structure that is left out, -/
example : ∃ r bytes, world.respond 9 0 (.object 0 ((model.attributes (model.members 0)).map fun x => (x.attr, value .none x))) none
      "200".toList true = .ok r ∧ r.body = .bytes bytes ∧
    (∀ b, value .none item = .bytes b → bytes = b.map UInt8.ofFin) ∧ (∀ t, value .none item = .str t → bytes = utf8 t) ∧
    ∀ body, body = none ∨ body = some (.bytes bytes) → ∃ v', world.receive 0 (received r bytes) body = .ok v' ∧
      Same (.object 0 ((model.attributes (model.members 0)).map fun x => (x.attr, value .none x))) v' :=
  C129_payload_partial world_ok carries_item rfl (value_item .none) (.absent (.inl ⟨_, rfl⟩) rfl (.inl rfl)) rfl (by decide +kernel) none
    "200".toList true

/-- and by a blob. -/
example : ∃ r bytes, world.respond 9 5 (.object 5 ((model.attributes (model.members 5)).map fun x => (x.attr, value (.bytes [0, 255]) x)))
      none "200".toList true = .ok r ∧ r.body = .bytes bytes ∧
    (∀ b, value (.bytes [0, 255]) data = .bytes b → bytes = b.map UInt8.ofFin) ∧
    (∀ t, value (.bytes [0, 255]) data = .str t → bytes = utf8 t) ∧
    ∀ body, body = none ∨ body = some (.bytes bytes) → ∃ v', world.receive 5 (received r bytes) body = .ok v' ∧
      Same (.object 5 ((model.attributes (model.members 5)).map fun x => (x.attr, value (.bytes [0, 255]) x))) v' :=
  C129_payload_partial world_ok carries_data rfl (value_data _) (.blob rfl) rfl (by decide +kernel) none "200".toList true

/-! ## Documents -/

/-- An output with one member, a nullable document. -/
def docModel : Model Double DateTime where
  shapes := [.struct [⟨"x".toList, "x".toList, none, 1, none, true, none⟩], .simple .document]
  correction := fun _ => some (.str [])

/-- The document is the payload.  Nothing is read from a body without bytes. -/
noncomputable def documented : World :=
  { Example.world with
    model := docModel
    traits := fun x => { name := x.name, shape := .scalar, payload := true }
    rd := { Example.world.rd with view := docModel.view }
    parse := fun t => if t = [] then none else Example.world.parse t }

def doc : GMember := ⟨"x".toList, "x".toList, none, 1, none, true, none⟩

theorem documented_ok : documented.Ok fun q => .finite (rnd q) where
  names := by
    have h : ∀ i, docModel.members i = [] ∨ i = 0 := by
      intro i
      match i with
      | 0 => exact .inr rfl
      | 1 | _ + 2 => exact .inl rfl
    refine ⟨fun i => ?_, fun i => ?_, fun i => ?_⟩
    · rcases h i with h | rfl
      · show (List.map _ (docModel.members i)).Nodup; rw [h]; exact List.nodup_nil
      · decide +kernel
    · rcases h i with h | rfl
      · show (List.map _ (docModel.members i)).Nodup; rw [h]; exact List.nodup_nil
      · decide +kernel
    · intro ms hs
      rcases h i with h | rfl
      · simp only [Model.members, show docModel.shape i = some (.struct ms) from hs] at h
        rw [h]; exact List.nodup_nil
      · cases hs; decide +kernel
  settings := Example.world_ok.settings
  fits := ⟨Example.world_ok.fits.1, Example.world_ok.fits.2, Example.world_ok.fits.3, Example.world_ok.fits.4⟩
  view := rfl
  parse := fun t j h => by
    show (if utf8 t = [] then none else Example.world.parse (utf8 t)) = _
    rw [if_neg]
    · exact Example.world_ok.parse t j h
    · intro h0
      have := Http.RestJson.utf8_inj (h0.trans Http.RestJson.utf8_nil.symm)
      rw [this] at h
      exact Http.RestJson.not_jsonText_nil h
  python := Example.world_ok.python
  int := Example.world_ok.int
  lower := Example.world_ok.lower

theorem documented_carries : documented.Carries 0 doc where
  streams := by
    intro x hx
    rw [List.mem_singleton.1 (show x ∈ [doc] from hx)]
    decide +kernel
  member := List.mem_of_getElem? (i := 0) rfl
  payload := ⟨rfl, rfl, rfl, rfl⟩
  others := fun x hx hne => absurd (List.mem_singleton.1 (show x ∈ [doc] from hx)) hne
  prefixes := fun _ _ _ h => nomatch h
  headers := fun _ _ _ _ _ _ h => nomatch h
  own := fun _ _ _ h => nomatch h
  status := fun _ _ _ _ h => nomatch h

/-- `{"a": [1, null], "": "b"}`. -/
def plain : Json.Plain := .obj [("a".toList, .arr [.num (.int 1), .null]), ([], .str "b".toList)]

theorem plain_ok : PayloadOk documented 0 doc (.document plain) := by
  refine .document rfl ?_ ?_
  · refine ⟨by decide +kernel, ⟨trivial, trivial, trivial⟩, trivial, trivial⟩
  · intro es h k y hm
    cases h
    simp at hm

/-- The hypotheses of the theorem are met by a document. -/
example : ∃ r bytes, documented.respond 9 0 (.object 0 ((docModel.attributes (docModel.members 0)).map fun x => (x.attr, .document plain)))
      none "200".toList true = .ok r ∧ r.body = .bytes bytes ∧
    (∀ b, (.document plain : P) = .bytes b → bytes = b.map UInt8.ofFin) ∧ (∀ t, (.document plain : P) = .str t → bytes = utf8 t) ∧
    ∀ body, body = none ∨ body = some (.bytes bytes) → ∃ v', documented.receive 0 (received r bytes) body = .ok v' ∧
      Same (.object 0 ((docModel.attributes (docModel.members 0)).map fun x => (x.attr, .document plain))) v' :=
  C129_payload_partial (value := fun _ => .document plain) documented_ok documented_carries rfl
    (fun x hx hne => absurd (List.mem_singleton.1 (show x ∈ [doc] from hx)) hne) plain_ok rfl (by decide +kernel) none "200".toList true

/-! ## What is not restored -/

/-- The client fails if the service has left out a document that is the payload: it looks for one in the empty body. -/
theorem C129_absent_document_fails : ∃ r e, documented.respond 9 0 (.object 0 [("x".toList, .none)]) none "200".toList true = .ok r ∧
    r.body = .bytes [] ∧ documented.receive 0 (received r []) none = .error e :=
  ⟨_, _, rfl, rfl, rfl⟩

/-- An output with one member, a nullable blob. -/
def one : Model Double DateTime where
  shapes := [.struct [⟨"x".toList, "x".toList, none, 1, none, true, none⟩], .simple .blob]
  correction := fun _ => some (.str [])

/-- The blob is the payload. -/
noncomputable def blobbed : World :=
  { Example.world with model := one, traits := fun x => { name := x.name, shape := .blob, payload := true } }

/-- The client has an empty blob for a payload that the service has left out. -/
theorem C129_absent_payload_fails : ∃ r, blobbed.respond 9 0 (.object 0 [("x".toList, .none)]) none "200".toList true = .ok r ∧
    blobbed.receive 0 (received r []) none = .ok (.object 0 [("x".toList, .bytes [])]) :=
  ⟨_, rfl, rfl⟩

end Verif.RestJson.PayloadExample

import Verif.GeneratedSerde.Nested
import Verif.GeneratedSerde.Examples

/-!
# What generated classes read from any JSON text: the hypotheses are met (C121)
-/

set_option autoImplicit false

namespace Verif.GeneratedSerde.Example

open Verif.Json (Text Format Plain Event)

/-- A structure (0) with a list of itself, a union, a document and a boolean with a default. -/
def calm : Model Unit Unit where
  shapes := [
    .struct [⟨['a'], ['a'], some ['x'], 1, none, true, none⟩, ⟨['b'], ['b', '_'], none, 2, none, false, none⟩,
      ⟨['d'], ['d'], some ['c', 'c'], 3, none, true, none⟩, ⟨['e'], ['e'], none, 4, none, false, some (.bool false)⟩],
    .list false ⟨0, none⟩,
    .union false [⟨['u'], [], none, 4, none, false, none⟩, ⟨['v'], [], some ['u', 'u'], 5, none, false, none⟩],
    .simple .document,
    .simple .boolean,
    .map true ⟨4, none⟩]
  correction := fun _ => some (.unknown 2 [])

def calmReader : Json.Reader Ref Unit Unit := { reader with view := calm.view }

theorem calm_ok : calm.Ok true := by
  have h : ∀ i, calm.members i = [] ∨ i = 0 ∨ i = 2 := by
    intro i
    match i with
    | 0 => exact .inr (.inl rfl)
    | 2 => exact .inr (.inr rfl)
    | 1 | 3 | 4 | 5 | _ + 6 => exact .inl rfl
  refine ⟨fun i => ?_, fun i => ?_, fun i => ?_⟩
  · rcases h i with h | rfl | rfl
    · rw [h]; exact List.nodup_nil
    · decide
    · decide
  · rcases h i with h | rfl | rfl
    · rw [h]; exact List.nodup_nil
    · decide
    · decide
  · intro ms hs
    rcases h i with h | rfl | rfl
    · simp only [Model.members, hs] at h
      rw [h]; exact List.nodup_nil
    · cases hs; decide
    · cases hs

theorem calm_noStreams : calm.NoStreams := by
  intro i ms hs
  match i with
  | 0 => cases hs; decide
  | 1 | 2 | 3 | 4 | 5 | _ + 6 => cases hs

/-- `{"e": false, "z": [], "x": [null, {}], "b": {"uu": {"k": null}, "q": 0, "u": null}, "cc": null, "e": true}` -/
def text : Json.Json :=
  .obj [(['e'], .bool false), (['z'], .arr []), (['x'], .arr [.null, .obj []]),
    (['b'], .obj [(['u', 'u'], .obj [(['k'], .null)]), (['q'], .num ['0']), (['u'], .null)]), (['c', 'c'], .null),
    (['e'], .bool true)]

/-- What is read from it: the last value; the list without `None`; the object in it with the correction for its required
member, and the default. -/
theorem text_read : calm.deserialize calmReader 0 (Json.events [] text) = .ok (.object 0 [
    (['b', '_'], .variant 2 1 (.dict [(['k'], .none)])),
    (['a'], .list [.object 0 [(['b', '_'], .unknown 2 []), (['a'], .none), (['d'], .none), (['e'], .bool false)]]),
    (['d'], .document .null), (['e'], .bool true)]) := by
  with_unfolding_all rfl

/-- `C121_reads` for it. -/
example : ∃ v, Reads calm calmReader 0 (.shape 0) text v :=
  ⟨_, (C121_reads calm_ok calm_noStreams rfl (.inl ⟨_, rfl⟩) text _).1 text_read⟩

/-- `C121_one_member`: two members of a union, or none. -/
example : (calm.deserialize calmReader 2 (Json.events [] (.obj [(['u'], .bool true), (['u', 'u'], .obj [])]))).isOk = false ∧
    (calm.deserialize calmReader 2 (Json.events [] (.obj [(['z'], .num ['1']), (['u'], .null)]))).isOk = false ∧
    (calm.deserialize calmReader 2 (Json.events [] (.obj [(['z'], .num ['1']), (['u'], .bool true)]))).isOk = true :=
  by refine ⟨?_, ?_, ?_⟩ <;> decide +kernel

/-- `C121_ignored`: a name that the structure does not have in JSON. -/
example : calm.Strange true 0 [(['z'], .null), (['d'], .bool true)] := by
  intro e he x hx
  simp only [List.mem_cons, List.not_mem_nil, or_false] at he
  have : x ∈ [(⟨['a'], ['a'], some ['x'], 1, none, true, none⟩ : Member Unit Unit), ⟨['b'], ['b', '_'], none, 2, none, false, none⟩,
      ⟨['d'], ['d'], some ['c', 'c'], 3, none, true, none⟩, ⟨['e'], ['e'], none, 4, none, false, some (.bool false)⟩] := hx
  simp only [List.mem_cons, List.not_mem_nil, or_false] at this
  rcases he with rfl | rfl <;> rcases this with rfl | rfl | rfl | rfl <;> decide

/-- `C121_order`: two orders. -/
example : [((['e'] : Text), Json.Json.bool true), (['x'], .arr [])].Perm [(['x'], .arr []), (['e'], .bool true)] ∧
    ([((['e'] : Text), Json.Json.bool true), (['x'], .arr [])].map Prod.fst).Nodup :=
  ⟨.swap .., by decide⟩

/-- `C121_nested`: `{"x": [{"e": true}], "e": true}` and `{"e": true, "x": [{"new": {}, "e": true}]}`. -/
theorem nested_same : SameContent calm true 0 (.obj [(['x'], .arr [.obj [(['e'], .bool true)]]), (['e'], .bool true)])
    (.obj [(['e'], .bool true), (['x'], .arr [.obj [(['n', 'e', 'w'], .obj []), (['e'], .bool true)]])]) := by
  have unknown : ∀ x ∈ calm.members 0, Json.jsonKey true ⟨x.name, x.jsonName⟩ ≠ ['n', 'e', 'w'] := by decide
  have target : ∀ x ∈ calm.members 0, Json.jsonKey true ⟨x.name, x.jsonName⟩ = ['x'] → x.target = 1 := by decide
  refine .trans (.object (.inl ⟨_, rfl⟩) (.kept ?_ (.kept (fun _ _ _ => .same) .nil))) (.order (.inl ⟨_, rfl⟩) (.swap ..) (by decide))
  intro x hx hk
  rw [target x hx hk]
  exact .list rfl (.cons (.object (.inl ⟨_, rfl⟩) (.added unknown (.kept (fun _ _ _ => .same) .nil))) .nil)

end Verif.GeneratedSerde.Example

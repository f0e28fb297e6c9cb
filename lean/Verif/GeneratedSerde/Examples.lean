import Verif.GeneratedSerde.RoundTrip

/-!
# Generated serializers and deserializers: the hypotheses are met (C119, C120)
-/

set_option autoImplicit false

namespace Verif.GeneratedSerde.Example

open Verif.Json (Text Format Plain Event)

abbrev P := Py Unit Unit

/-- A structure (0) with a sparse list of itself, a union that may be a map, and members of other kinds, one of which is an
event stream. -/
def model : Model Unit Unit where
  shapes := [
    .struct [⟨['a'], ['a'], some ['x'], 1, none, true, none⟩, ⟨['b'], ['b', '_'], none, 2, none, false, none⟩,
      ⟨['c'], ['c'], none, 6, some .dateTime, true, some .none⟩, ⟨['d'], ['d'], some ['c', 'c'], 7, none, true, none⟩,
      ⟨['e'], ['e'], none, 8, none, false, some (.decimal (.finite ⟨false, 1, 0⟩))⟩,
      ⟨['f'], ['f'], none, 9, none, true, none⟩, ⟨['g'], ['g'], none, 10, none, false, none⟩],
    .list true ⟨0, none⟩,
    .union false [⟨['u'], [], none, 3, none, false, none⟩, ⟨['v'], [], some ['u', 'u'], 4, none, false, none⟩],
    .simple .string,
    .map false ⟨5, none⟩,
    .intEnum,
    .timestamp none,
    .simple .document,
    .simple .bigDecimal,
    .union true [⟨['u'], [], none, 3, none, false, none⟩],
    .enum]
  correction := fun _ => some (.str [])

def reader : Json.Reader Ref Unit Unit where
  view := model.view
  useJsonName := true
  useTimestampFormat := true
  defaultFormat := .epochSeconds
  float := fun _ => .finite ()
  deserialize := fun _ _ => some ()

theorem model_ok : model.Ok true := by
  have h : ∀ i, model.members i = [] ∨ i = 0 ∨ i = 2 ∨ i = 9 := by
    intro i
    match i with
    | 0 => exact .inr (.inl rfl)
    | 2 => exact .inr (.inr (.inl rfl))
    | 9 => exact .inr (.inr (.inr rfl))
    | 1 | 3 | 4 | 5 | 6 | 7 | 8 | 10 | _ + 11 => exact .inl rfl
  refine ⟨fun i => ?_, fun i => ?_, fun i => ?_⟩
  · rcases h i with h | rfl | rfl | rfl
    · rw [h]; exact List.nodup_nil
    · decide
    · decide
    · decide
  · rcases h i with h | rfl | rfl | rfl
    · rw [h]; exact List.nodup_nil
    · decide
    · decide
    · decide
  · intro ms hs
    rcases h i with h | rfl | rfl | rfl
    · simp only [Model.members, hs] at h
      rw [h]; exact List.nodup_nil
    · cases hs; decide
    · cases hs
    · cases hs

theorem fits : Json.Fits Json.exampleSettings reader :=
  have h : Json.numOf ['1', '.', '5'] = .dec ⟨false, 15, -1⟩ := by decide +kernel
  ⟨rfl, rfl, rfl, fun _ => ⟨⟨false, 15, -1⟩, h, rfl⟩⟩

/-- The attributes of an object: those that are required are first. -/
def object (b g a c d e : P) : P :=
  .object 0 [(['b', '_'], b), (['g'], g), (['a'], a), (['c'], c), (['d'], d), (['e'], e)]

def inner : P := object (.variant 2 0 (.str ['s'])) (.strEnum 10 ['?']) .none .none .none (.decimal (.finite ⟨true, 150, -2⟩))

def outer : P := object (.variant 2 1 (.dict [(['k'], .intEnum 5 3), ([], .intEnum 5 (-1))])) (.strEnum 10 [])
  (.list [.none, inner]) (.time ()) (.document (.obj [([], .arr [.null])])) (.decimal (.finite ⟨false, 0, 0⟩))

/-- The value of a member, by its name. -/
def value (b g a c d e : P) (x : Member Unit Unit) : P :=
  if x.name = ['b'] then b else if x.name = ['g'] then g else if x.name = ['a'] then a
  else if x.name = ['c'] then c else if x.name = ['d'] then d else e

theorem typed_object {s : Ref} {b g a c d e : P}
    (h : ∀ x ∈ model.attributes (model.members 0), Attribute model Json.exampleSettings reader 0 x (value b g a c d e x)) :
    Typed model Json.exampleSettings reader 0 s (object b g a c d e) :=
  Typed.object (value := value b g a c d e) (ms := model.members 0) rfl h

theorem attributes_eq : model.attributes (model.members 0) =
    [⟨['b'], ['b', '_'], none, 2, none, false, none⟩, ⟨['g'], ['g'], none, 10, none, false, none⟩,
      ⟨['a'], ['a'], some ['x'], 1, none, true, none⟩, ⟨['c'], ['c'], none, 6, some .dateTime, true, some .none⟩,
      ⟨['d'], ['d'], some ['c', 'c'], 7, none, true, none⟩,
      ⟨['e'], ['e'], none, 8, none, false, some (.decimal (.finite ⟨false, 1, 0⟩))⟩] := rfl

theorem inner_typed {s : Ref} : Typed model Json.exampleSettings reader 0 s inner := by
  refine typed_object fun x hx => ?_
  rw [attributes_eq] at hx
  simp only [List.mem_cons, List.not_mem_nil, or_false] at hx
  rcases hx with rfl | rfl | rfl | rfl | rfl | rfl
  · exact .present (.variant (ms := model.members 2) rfl rfl (.string rfl))
  · exact .present (.enum rfl)
  · exact .absent rfl (.inl rfl)
  · exact .absent rfl (.inr ⟨rfl, by intro h; cases h⟩)
  · exact .absent rfl (.inl rfl)
  · exact .present (.decimal rfl (by decide +kernel))

theorem outer_typed : Typed model Json.exampleSettings reader 0 (.shape 0) outer := by
  refine typed_object fun x hx => ?_
  rw [attributes_eq] at hx
  simp only [List.mem_cons, List.not_mem_nil, or_false] at hx
  rcases hx with rfl | rfl | rfl | rfl | rfl | rfl
  · refine .present (.variant (ms := model.members 2) rfl rfl (.map rfl (by decide) ?_))
    intro x hx
    simp only [List.mem_cons, List.not_mem_nil, or_false] at hx
    rcases hx with rfl | rfl <;> exact .value (.intEnum rfl) (by intro h; cases h)
  · exact .present (.enum rfl)
  · refine .present (.list rfl ?_)
    intro x hx
    simp only [List.mem_cons, List.not_mem_nil, or_false] at hx
    rcases hx with rfl | rfl
    · exact .null
    · exact .value inner_typed (by intro h; cases h)
  · exact .present (.timestamp rfl ⟨_, rfl, rfl⟩)
  · exact .present (.document rfl ⟨by simp, ⟨trivial, trivial⟩, trivial⟩)
  · exact .present (.decimal rfl (by decide +kernel))

/-- The depth of the object, and that it is of a class. -/
example : outer.depth = 5 ∧ model.IsClass 0 ∧ model.IsClass 2 := ⟨rfl, .inl ⟨_, rfl⟩, .inr ⟨_, _, rfl⟩⟩

/-- `C119_round_trip_partial` for it. -/
example : ∃ c jc j, model.serialize 5 outer = .ok c ∧ model.jsonCall c = some jc ∧
    Json.IsJsonText (Json.write Json.exampleSettings [] jc) j ∧
    (∀ j', Json.IsJsonText (Json.write Json.exampleSettings [] jc) j' → j' = j) ∧
    ∃ v', model.deserialize reader 0 (Json.events [] j) = .ok v' ∧ Same outer v' :=
  C119_round_trip_partial model_ok Json.exampleSettings_ok fits rfl (.inl ⟨_, rfl⟩) outer_typed (by decide)

/-- The text of it. -/
example : ((model.serialize 5 outer).toOption.bind model.jsonCall).map (Json.write Json.exampleSettings []) = some
    ("{\"x\":[null,{\"b\":{\"u\":\"s\"},\"e\":-1.5,\"g\":\"?\"}],\"b\":{\"uu\":{\"k\":3,\"\":-1}}," ++
      "\"c\":\"t\",\"cc\":{\"\":[null]},\"e\":0,\"g\":\"\"}").toList := by
  decide +kernel

/-- `C119_unknown_fails`: the member `b` is a union. -/
example : ∃ e, model.serialize 7 (object (.unknown 2 ['z']) (.strEnum 10 []) .none .none .none .none) = .error e :=
  C119_unknown_fails model 0 7 2 ['z'] (model.members 0) (model.members 2) ⟨['b'], ['b', '_'], none, 2, none, false, none⟩ _
    rfl (.tail _ (.head _)) rfl rfl

/-- `C119_default_fails`: a member with a default that may be null. -/
example : ∃ (m : Model Unit Unit) (x : Member Unit Unit), m.shape 0 = some (.struct [x]) ∧
    m.shape x.target = some (.simple .string) ∧ x.nullable = true ∧ x.default = some (.str ['d']) :=
  ⟨⟨[.struct [⟨['a'], ['a'], none, 1, none, true, some (.str ['d'])⟩], .simple .string], fun _ => none⟩, _, rfl, rfl, rfl, rfl⟩

/-- `C120_unknown_fails` and `C120_ignored_partial`: a name that no member of the union has.  That of the member is not one
either if it has another in JSON. -/
example : model.Strange true 2 [(['z'], .null), (['v'], .bool true)] := by
  intro e he x hx
  simp only [List.mem_cons, List.not_mem_nil, or_false] at he
  have : x ∈ [(⟨['u'], [], none, 3, none, false, none⟩ : Member Unit Unit), ⟨['v'], [], some ['u', 'u'], 4, none, false, none⟩] :=
    hx
  simp only [List.mem_cons, List.not_mem_nil, or_false] at this
  rcases he with rfl | rfl <;> rcases this with rfl | rfl <;> decide

example : Typed model Json.exampleSettings reader 2 (.shape 2) (.variant 2 0 (.str ['s'])) :=
  .variant (ms := model.members 2) rfl rfl (.string rfl)

end Verif.GeneratedSerde.Example

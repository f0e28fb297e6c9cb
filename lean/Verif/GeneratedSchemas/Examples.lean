import Verif.GeneratedSchemas.Props

/-!
# The schemas of a generated client: examples, and where they do not say what the model does
-/

set_option autoImplicit false

namespace Verif.GeneratedSchemas

/-- A model in which shapes lead back to themselves: a list comes before its structure, and the
structure has itself as a member. -/
def sampleModel : List Shape :=
  [⟨"a#Trees", "LIST", [("smithy.api#sparse", .emptyObject)],
      [⟨"member", "a#Tree", [("smithy.api#xmlName", .value "tree")]⟩]⟩,
    ⟨"a#Tree", "STRUCTURE", [("smithy.api#documentation", .value "A tree.")],
      [⟨"kids", "a#Trees", [("smithy.api#required", .emptyObject)]⟩, ⟨"up", "a#Tree", []⟩,
        ⟨"data", "a#Bytes", []⟩, ⟨"size", "smithy.api#PrimitiveInteger", []⟩,
        ⟨"token", "smithy.api#String", [("smithy.api#idempotencyToken", .emptyObject)]⟩,
        ⟨"count", "smithy.api#Integer", [("smithy.api#default", .value "5")]⟩]⟩,
    ⟨"a#Bytes", "BLOB", [("smithy.api#streaming", .emptyObject)], []⟩]

def sampleName (id : String) : String :=
  if id = "a#Trees" then "TREES" else if id = "a#Tree" then "TREE" else "BYTES"

theorem sample_valid : Valid sampleName sampleModel := by
  constructor <;> decide +kernel

/-- Three members are put aside: the member of the list, and two of the structure. -/
theorem sample_deferred : ((writeAll sampleName [] sampleModel).2.map fun d =>
    (d.1.id, d.2.1.name, d.2.2)) =
    [("a#Trees", "member", 0), ("a#Tree", "up", 1), ("a#Tree", "data", 2)] := by
  decide +kernel

/-- They may be written in any order, here the reverse. -/
example : ∃ st, load sampleName sampleModel (writeAll sampleName [] sampleModel).2.reverse = some st ∧
    ∀ s ∈ sampleModel, Described sampleName sampleModel st s :=
  C106_schemas sample_valid _ (fun d => by rw [List.mem_reverse])

/-- The schema of a name in the module, and what is found from there. -/
def look (nm : String → String) (m : List Shape) (name : String) (path : List String) :
    Option Schema :=
  (load nm m (writeAll nm [] m).2).bind fun st =>
    (st.find (.schema name)).bind fun a => (st.objs[a]?).bind fun o => follow st o path

/-- `TREE.members["kids"].members["member"].members["up"].members["data"]` is the schema of a member
of `a#Tree` with the traits of its target. -/
example : (look sampleName sampleModel "TREE" ["kids", "member", "up", "data"]).map
    (fun c => { c with members := 0, target := none }) =
    some ⟨"a#Tree", some "data", "BLOB", [("smithy.api#streaming", none)], 0, none, some 2⟩ := by
  decide +kernel

example : (memberAt sampleModel (sampleModel[1]) ["kids", "member", "up", "data"]).map
    (fun p => (p.1.id, p.2.name)) = some ("a#Tree", "data") := by decide +kernel

/-- Traits of the member and of its target. -/
example : (look sampleName sampleModel "TREE" ["kids"]).map (·.traits) =
    some [("smithy.api#sparse", none), ("smithy.api#required", none)] := by decide +kernel

/-- Its stream is found. -/
example : (load sampleName sampleModel (writeAll sampleName [] sampleModel).2).map (fun st =>
    ((st.find (.schema "TREE")).bind fun a => (st.objs[a]?).bind fun o => streamMember st o).map
      (·.member)) = some (some (some "data")) := by decide +kernel

/-- C107, negative: the token in the sample is not found, since the class has the ID
`smithy.api#IdempotencyToken` and Smithy's trait has `smithy.api#idempotencyToken`. -/
theorem C107_idempotency_fails :
    ∃ (nm : String → String) (m : List Shape), Valid nm m ∧ ∃ s ∈ m, ∃ x ∈ s.members,
      (x.traits.lookup "smithy.api#idempotencyToken").isSome = true ∧
      ∃ st a o, load nm m (writeAll nm [] m).2 = some st ∧ st.find (.schema (nm s.id)) = some a ∧
        st.objs[a]? = some o ∧ idempotencyTokenMember st o = none := by
  refine ⟨sampleName, sampleModel, sample_valid, sampleModel[1], by decide +kernel,
    ⟨"token", "smithy.api#String", [("smithy.api#idempotencyToken", .emptyObject)]⟩,
    by decide +kernel, by decide +kernel, ?_⟩
  obtain ⟨st, h₁, h₂⟩ := C107_idempotency_never sample_valid (writeAll sampleName [] sampleModel).2
    (fun _ => Iff.rfl) (by decide +kernel)
  obtain ⟨a, o, h₃, h₄, h₅⟩ := h₂ (sampleModel[1]) (by decide +kernel)
  exact ⟨st, a, o, h₁, h₃, h₄, h₅⟩

/-- C107, negative: the default of a member is not found by its class, since the class has the ID
`smithy.appi#default`. -/
theorem C107_default_fails :
    (look sampleName sampleModel "TREE" ["count"]).map
      (fun c => (c.traits.lookup "smithy.api#default", getTrait c "DefaultTrait")) =
      some (some (some (.value "5")), none) := by decide +kernel

/-- C107, negative: in the schemas of the shapes that are built into Smithy, the traits of the
primitive types and of `Unit` cannot be found by the IDs that Smithy has for them; members inherit
them under the wrong ID. -/
theorem C107_prelude_fails :
    (start.objs.filter fun o => (o.traits.lookup "smithy.api#default").isSome ||
      (o.traits.lookup "smithy.api#unitType").isSome) = [] ∧
    (look sampleName sampleModel "TREE" ["size"]).map (·.traits) =
      some [("smithy.appi#default", some (.value "0"))] := by
  refine ⟨?_, ?_⟩ <;> decide +kernel

/-- C106, negative: the names of schemas are the names of shapes in upper snake case, which may be
the same for two shapes, here `FooBar` and `Foo_Bar`.  Then the name stands for the schema written
last, and members of the first shape's type are given the schema of the other. -/
def clashModel : List Shape :=
  [⟨"a#FooBar", "STRING", [], []⟩, ⟨"a#Foo_Bar", "INTEGER", [], []⟩,
    ⟨"a#Holder", "STRUCTURE", [], [⟨"text", "a#FooBar", []⟩]⟩]

def clashName (id : String) : String := if id = "a#Holder" then "HOLDER" else "FOO_BAR"

theorem C106_names_fails :
    (clashModel.map (·.id)).Nodup ∧ typeOf clashModel "a#FooBar" = some "STRING" ∧
    (look clashName clashModel "FOO_BAR" []).map (·.id) = some "a#Foo_Bar" ∧
    (look clashName clashModel "HOLDER" ["text"]).map (·.type) = some "INTEGER" := by
  refine ⟨?_, ?_, ?_, ?_⟩ <;> decide +kernel

end Verif.GeneratedSchemas

/-!
# Which types a package of types has (C126): model

Models codegen/plugins/types: CreateSyntheticService.java, DirectedPythonTypeCodegen.java, PythonTypeCodegenSettings.java and
PythonTypeCodegenPlugin.java.  Of Smithy itself, which is not in the repository, the model takes this: the shapes that a service
is connected to are its operations, their inputs, outputs and errors, and from there on the targets of members; when several
shapes of the same id are put into a model, one of them is there after.  Mixins and the transformations that Smithy's director
does by default are left out, and so is validation.
-/

set_option autoImplicit false

namespace Verif.TypeCodegen

abbrev Text := List Char

/-- An id of a shape: one of the user's model, or that of the input of a synthetic operation, which has a name made of a number
(CreateSyntheticService.java:71-72). -/
inductive Id where
  | named (space name : Text)
  | input (index : Nat)
deriving DecidableEq

/-- `shape.getId().getNamespace()` -/
def Id.space : Id → Text
  | .named s _ => s
  | .input _ => "smithy.synthetic".toList

inductive Kind where
  | structure_
  | union
  | enum
  | intEnum
  | operation
  | service
  | other
deriving DecidableEq

/-- A shape with the traits that are asked for, and the targets of its members. `blocked` says that it has one of the traits of
the list in CreateSyntheticService.java:39-40. -/
structure Shape where
  id : Id
  kind : Kind
  error : Bool
  input : Bool
  output : Bool
  blocked : Bool
  targets : List Id
deriving DecidableEq

/-- `Prelude.isPreludeShape` -/
def Shape.isPrelude (s : Shape) : Bool := s.id.space == "smithy.api".toList

/-- `shouldGenerate` (CreateSyntheticService.java:98-121). -/
def shouldGenerate (includeInputsAndOutputs : Bool) (s : Shape) : Bool :=
  if !(s.kind == .structure_ || s.kind == .union || s.kind == .enum || s.kind == .intEnum) || s.isPrelude then false
  else if !includeInputsAndOutputs && (s.input || s.output) then false
  else !s.blocked

/-- A synthetic operation: the number in its id, and the shapes it has as input, output or errors. -/
structure Op where
  index : Nat
  refs : List Id
deriving DecidableEq

/-- The loop of `transform` (CreateSyntheticService.java:54-82) over the shapes that `shouldGenerate` lets through: the
operations and the inputs that are added. -/
def synthesize : Nat → List Shape → List Op × List Shape
  | _, [] => ([], [])
  | index, s :: ss =>
    if s.error || s.input || s.output then
      let r := synthesize index ss
      (⟨index, [s.id]⟩ :: r.1, r.2)
    else
      let r := synthesize (index + 1) ss
      (⟨index, [.input index]⟩ :: r.1, ⟨.input index, .structure_, false, true, false, false, [s.id]⟩ :: r.2)

/-- Which of several shapes of the same id is in the model after. -/
structure Smithy where
  pick : List Op → Option Op
  pick_mem : ∀ l o, pick l = some o → o ∈ l
  pick_some : ∀ l, l ≠ [] → ∃ o, pick l = some o

/-- What the director works on: the shapes, and those that the operations of the service have. -/
structure World where
  shapes : List Shape
  roots : List Id

/-- `transform` (CreateSyntheticService.java:49-96). -/
def transform (sm : Smithy) (includeInputsAndOutputs : Bool) (selected model : List Shape) : World :=
  let r := synthesize 0 (selected.filter (shouldGenerate includeInputsAndOutputs))
  { shapes := model.filter (fun s => !(s.kind == .operation || s.kind == .service)) ++ r.2
    roots := r.1.flatMap fun o => match sm.pick (r.1.filter fun p => p.index == o.index) with
      | some p => p.refs
      | none => [] }

/-- `execute` (PythonTypeCodegenPlugin.java:26-49): the world for a service that is given, by what its operations have, or for
the synthetic one. -/
def execute (sm : Smithy) (service : Option (List Id)) (includeInputsAndOutputs : Bool) (selected model : List Shape) : World :=
  match service with
  | some roots => ⟨model, roots⟩
  | none => transform sm includeInputsAndOutputs selected model

/-- `directive.connectedShapes()`: Smithy's. -/
inductive Connected (w : World) : Shape → Prop
  | root {s : Shape} : s ∈ w.shapes → s.id ∈ w.roots → Connected w s
  | member {s t : Shape} : Connected w s → t ∈ w.shapes → t.id ∈ s.targets → Connected w t

inductive ArtifactType where
  | client
  | types
deriving DecidableEq

/-- `toPythonSettings` (PythonTypeCodegenSettings.java:66-74). -/
def artifactType : ArtifactType := .types

/-- `shouldGenerateStructure` (DirectedPythonTypeCodegen.java:97-103). -/
def shouldGenerateStructure (s : Shape) : Bool :=
  if s.id.space == "smithy.synthetic".toList then false
  else !(artifactType == .types && (s.input || s.output))

/-- A class is written for the shape, if it is connected (DirectedPythonTypeCodegen.java:80-127, 153-164): Smithy's director
calls `generateError` for structures that are errors, and `generateStructure` for others. -/
def hasClass (s : Shape) : Bool :=
  match s.kind with
  | .structure_ => s.error || shouldGenerateStructure s
  | .union => true
  | .enum => true
  | .intEnum => true
  | _ => false

/-- A schema is written for the shape, if it is connected (DirectedPythonTypeCodegen.java:64-75, SchemaGenerator.java:86-90,
without resources). -/
def hasSchema (s : Shape) : Bool :=
  !s.isPrelude &&
    match s.kind with
    | .operation => false
    | .service => false
    | .structure_ => shouldGenerateStructure s
    | _ => true

/-- The classes of the package. -/
def Generated (w : World) (s : Shape) : Prop := Connected w s ∧ hasClass s = true

end Verif.TypeCodegen

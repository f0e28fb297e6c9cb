import Verif.Schemas.Document

/-!
# Documents and shapes (C82, C83)

`Document.from_shape` with `_DocumentSerializer` (smithy_core/documents.py:336-346, 427-564), `Document.as_shape` with
`_DocumentDeserializer` (264-269, 567-644), and `serialize_contents` (271-334), together with the generated code that
writes and reads the members of shapes (codegen StructureGenerator.java, UnionGenerator.java, ListGenerator.java,
MapGenerator.java).
-/

set_option autoImplicit false

namespace Verif.Schemas.DocumentShapes

open Verif.Shapes Verif.Schemas Verif.Schemas.Document

/-! ## Model -/

/-- What is used of schemas: as for documents, and the members in their order, the sparse trait, the schema of plain
documents, and the scalars that the `as_...` method for a type of scalar accepts (documents.py:159-198). -/
structure ShapeEnv (S A : Type) extends Env S A where
  members : S → List (Text × S)
  sparse : S → Bool
  document : S
  accepts : Nat → A → Bool

/-- Values of shapes.  `null` is `None` in a sparse list or map; a structure has the members that are not `None`, in
the order of its schema.  A document stands for what it contains: documents are equal if that is (documents.py:418-424). -/
inductive Val (A : Type) where
  | null
  | scalar (a : A)
  | document (p : Plain A)
  | struct (members : List (Text × Val A))
  | union (member : Text) (value : Val A)
  | list (elements : List (Val A))
  | map (entries : List (Text × Val A))

/-- The serializers that hold a result: the one that `from_shape` makes, and those that are attributes of the classes
`_DocumentStructSerializer`, `_DocumentListSerializer` and `_DocumentMapSerializer` (documents.py:511, 530, 551), each of
which is shared by all objects of its class. -/
inductive Slot where
  | root | struct | list | map
  deriving DecidableEq, Repr

/-- Their results. -/
structure Slots (S A : Type) where
  root : Option (Doc S A)
  struct : Option (Doc S A)
  list : Option (Doc S A)
  map : Option (Doc S A)

section
variable {S A : Type}

/-- `serializer.result`. -/
def Slots.get (σ : Slots S A) : Slot → Option (Doc S A)
  | .root => σ.root
  | .struct => σ.struct
  | .list => σ.list
  | .map => σ.map

/-- `serializer.result = d`. -/
def Slots.set (σ : Slots S A) (slot : Slot) (d : Option (Doc S A)) : Slots S A :=
  match slot with
  | .root => { σ with root := d }
  | .struct => { σ with struct := d }
  | .list => { σ with list := d }
  | .map => { σ with map := d }

/-- `self._result[key] = self._delegate.expect_result(); self._delegate.result = None` (documents.py:524-526, 563-564). -/
def take (env : ShapeEnv S A) (slot : Slot) (d : Doc S A) (k : Text) (σ : Slots S A) :
    Except DErr (Doc S A × Slots S A) :=
  match σ.get slot with
  | none => .error .expectation
  | some c =>
    match setItem env.toEnv d (.name k) (.doc c) with
    | (_, .error e) => .error e
    | (d', .ok _) => .ok (d', σ.set slot none)

mutual
/-- A value is written to a `_DocumentSerializer` (documents.py:440-507). -/
def emit (env : ShapeEnv S A) (slot : Slot) (s : S) : Val A → Slots S A → Except DErr (Slots S A)
  | .null, σ => .ok (σ.set slot (some (newDoc env.toEnv s .null)))
  | .scalar a, σ => .ok (σ.set slot (some (newDoc env.toEnv s (.scalar a))))
  | .document p, σ => .ok (σ.set slot (some (newDoc env.toEnv env.document p)))
  | .struct es, σ =>
    match emitMembers env s (newDoc env.toEnv s (.map [])) es σ with
    | .error e => .error e
    | .ok r => .ok (r.2.set slot (some r.1))
  | .union k v, σ =>
    match env.member s k with
    | none => .error .key
    | some m =>
      match emit env .struct m v σ with
      | .error e => .error e
      | .ok σ =>
        match take env .struct (newDoc env.toEnv s (.map [])) k σ with
        | .error e => .error e
        | .ok r => .ok (r.2.set slot (some r.1))
  | .list vs, σ =>
    match env.member s "member".toList with
    | none => .error .key
    | some m =>
      match emitElements env m [] vs σ with
      | .error e => .error e
      | .ok r => .ok (r.2.set slot (some (.mk s (typeFor env.toEnv s .list) (.list r.1) none)))
  | .map es, σ =>
    match env.member s "value".toList with
    | none => .error .key
    | some m =>
      match emitEntries env m (newDoc env.toEnv s (.map [])) es σ with
      | .error e => .error e
      | .ok r => .ok (r.2.set slot (some r.1))
termination_by structural v => v
/-- The members of a structure are written to a `_DocumentStructSerializer` (documents.py:510-526). -/
def emitMembers (env : ShapeEnv S A) (s : S) (d : Doc S A) :
    List (Text × Val A) → Slots S A → Except DErr (Doc S A × Slots S A)
  | [], σ => .ok (d, σ)
  | (k, v) :: es, σ =>
    match env.member s k with
    | none => .error .key
    | some m =>
      match emit env .struct m v σ with
      | .error e => .error e
      | .ok σ =>
        match take env .struct d k σ with
        | .error e => .error e
        | .ok r => emitMembers env s r.1 es r.2
/-- The elements of a list are written to a `_DocumentListSerializer` (documents.py:529-547). -/
def emitElements (env : ShapeEnv S A) (m : S) (ds : List (Doc S A)) :
    List (Val A) → Slots S A → Except DErr (List (Doc S A) × Slots S A)
  | [], σ => .ok (ds, σ)
  | v :: vs, σ =>
    match emit env .list m v σ with
    | .error e => .error e
    | .ok σ =>
      match σ.get .list with
      | none => .error .expectation
      | some c => emitElements env m (ds ++ [c]) vs (σ.set .list none)
/-- The entries of a map are written to a `_DocumentMapSerializer` (documents.py:550-564). -/
def emitEntries (env : ShapeEnv S A) (m : S) (d : Doc S A) :
    List (Text × Val A) → Slots S A → Except DErr (Doc S A × Slots S A)
  | [], σ => .ok (d, σ)
  | (k, v) :: es, σ =>
    match emit env .map m v σ with
    | .error e => .error e
    | .ok σ =>
      match take env .map d k σ with
      | .error e => .error e
      | .ok r => emitEntries env m r.1 es r.2
end

/-- `Document.from_shape` (documents.py:336-346), where `σ` is what earlier calls have left in the shared serializers. -/
def fromShape (env : ShapeEnv S A) (σ : Slots S A) (s : S) (v : Val A) : Except DErr (Doc S A) :=
  match emit env .root s v { σ with root := none } with
  | .error e => .error e
  | .ok σ => match σ.root with
    | none => .error .expectation
    | some d => .ok d

/-- Errors of reading a shape: those of documents, `SerializationError` of a union without exactly one member, and the
model's bound on steps. -/
inductive RErr where
  | doc (e : DErr)
  | union
  | fuel
  deriving DecidableEq, Repr

/-- `is_none` (documents.py:155-157). -/
def isNone (d : Doc S A) : Bool :=
  match d.value, d.raw with
  | .null, none => true
  | _, _ => false

/-- `_DocumentDeserializer.read_struct` (documents.py:577-585) with the consumer of a structure or union. -/
def readMembersWith (env : ShapeEnv S A) (rd : S → Doc S A → Except RErr (Val A)) (d : Doc S A) :
    List (Text × S) → Except RErr (List (Text × Val A))
  | [] => .ok []
  | (k, m) :: ms =>
    match (asMap env.toEnv d).2 with
    | .error e => .error (.doc e)
    | .ok es =>
      match Dict.get es k with
      | none => readMembersWith env rd d ms
      | some c =>
        match rd m c with
        | .error e => .error e
        | .ok v => (readMembersWith env rd d ms).map ((k, v) :: ·)

/-- `read_list` (documents.py:587-592) with the generated `_read_value` (ListGenerator.java:84-89). -/
def readElementsWith (rd : Doc S A → Except RErr (Val A)) (sparse : Bool) :
    List (Doc S A) → Except RErr (List (Val A))
  | [] => .ok []
  | d :: ds =>
    if isNone d then (readElementsWith rd sparse ds).map fun vs => if sparse then .null :: vs else vs
    else
      match rd d with
      | .error e => .error e
      | .ok v => (readElementsWith rd sparse ds).map (v :: ·)

/-- `read_map` (documents.py:594-601) with the generated `_read_value` (MapGenerator.java:84-89). -/
def readEntriesWith (rd : Doc S A → Except RErr (Val A)) (sparse : Bool) :
    List (Text × Doc S A) → Except RErr (List (Text × Val A))
  | [] => .ok []
  | (k, d) :: es =>
    if isNone d then (readEntriesWith rd sparse es).map fun vs => if sparse then (k, .null) :: vs else vs
    else
      match rd d with
      | .error e => .error e
      | .ok v => (readEntriesWith rd sparse es).map ((k, v) :: ·)

/-- What becomes of the members of a union (UnionGenerator.java:164-182). -/
def unionOf : List (Text × Val A) → Except RErr (Val A)
  | [(k, v)] => .ok (.union k v)
  | _ => .error .union

/-- A scalar (documents.py:614-644). -/
def readScalar (env : ShapeEnv S A) (code : Nat) (d : Doc S A) : Except RErr (Val A) :=
  match d.value with
  | .scalar a => if env.accepts code a then .ok (.scalar a) else .error (.doc .expectation)
  | _ => .error (.doc .expectation)

/-- `Document.as_shape` (documents.py:264-269).  The number bounds the depth. -/
def read (env : ShapeEnv S A) : Nat → S → Doc S A → Except RErr (Val A)
  | 0, _, _ => .error .fuel
  | n + 1, s, d =>
    match env.kind s with
    | .free => .ok (.document d.latest)
    | .scalar code => readScalar env code d
    | .struct => (readMembersWith env (read env n) d (env.members s)).map .struct
    | .union =>
      match readMembersWith env (read env n) d (env.members s) with
      | .error e => .error e
      | .ok es => unionOf es
    | .list =>
      match (asList env.toEnv d).2, env.member s "member".toList with
      | .ok ds, some m => (readElementsWith (read env n m) (env.sparse s) ds).map .list
      | .error e, _ => .error (.doc e)
      | _, none => .error (.doc .key)
    | .map =>
      match (asMap env.toEnv d).2, env.member s "value".toList with
      | .ok es, some m => (readEntriesWith (read env n m) (env.sparse s) es).map .map
      | .error e, _ => .error (.doc e)
      | _, none => .error (.doc .key)

/-- The calls to a serializer that write a value: `write_null`, the method for a scalar, `begin_struct` with the members
and their schemas, `begin_list` and `begin_map`.  The schema is left out if it is that of a document, which tells nothing
about what is written. -/
inductive Call (S A : Type) where
  | null (schema : Option S)
  | scalar (schema : Option S) (a : A)
  | struct (schema : Option S) (members : List (S × Call S A))
  | list (schema : Option S) (elements : List (Call S A))
  | map (schema : Option S) (entries : List (Text × Call S A))

/-- Errors of writing a document: those of documents, and `SmithyError` for an unexpected type. -/
inductive CErr where
  | doc (e : DErr)
  | type
  deriving DecidableEq, Repr

/-- The schema unless it is that of a document. -/
def tag (env : ShapeEnv S A) (s : S) : Option S := if env.kind s = .free then none else some s

/-- A document of type `t` with a scalar (documents.py:279-330). -/
def scalarCall (env : ShapeEnv S A) (s : S) (t : Kind) (a : A) : Except CErr (Call S A) :=
  match t with
  | .scalar code => if env.accepts code a then .ok (.scalar (tag env s) a) else .error (.doc .expectation)
  | .free => .error .type
  | _ => .error (.doc .expectation)

/-- A document of type `t` with the given documents by name: each is written with its own schema
(documents.py:280-282, 290-296, 332-334). -/
def mapCall (env : ShapeEnv S A) (s : S) (t : Kind) (es : List (Text × S × Call S A)) : Except CErr (Call S A) :=
  match t with
  | .struct | .union => .ok (.struct (tag env s) (es.map fun e => (e.2.1, e.2.2)))
  | .map => .ok (.map (tag env s) (es.map fun e => (e.1, e.2.2)))
  | .free => .error .type
  | _ => .error (.doc .expectation)

/-- A document of type `t` with a list of documents (documents.py:283-289). -/
def listCall (env : ShapeEnv S A) (s : S) (t : Kind) (cs : List (Call S A)) : Except CErr (Call S A) :=
  match t with
  | .list => .ok (.list (tag env s) cs)
  | .free => .error .type
  | _ => .error (.doc .expectation)

/-- The schema of the documents in a plain map (documents.py:239-249). -/
def mapSchema (env : ShapeEnv S A) (s : S) (k : Text) : Option S :=
  match env.kind s with
  | .struct | .union => env.member s k
  | .map => env.member s "value".toList
  | _ => some s

/-- The schema of the documents in a plain list (documents.py:215-219). -/
def listSchema (env : ShapeEnv S A) (s : S) : Option S :=
  match env.kind s with
  | .list => env.member s "member".toList
  | _ => some s

mutual
/-- `serialize_contents` of a document with plain content (documents.py:274-330), which is wrapped first. -/
def plainCall (env : ShapeEnv S A) (s : S) : Plain A → Except CErr (Call S A)
  | .null => .ok (.null (tag env s))
  | .scalar a => scalarCall env s (typeFor env.toEnv s (env.kindOf a)) a
  | .map es =>
    match plainEntryCalls env s es with
    | .error e => .error e
    | .ok cs => mapCall env s (typeFor env.toEnv s .map) cs
  | .list xs =>
    match plainElementCalls env s xs with
    | .error e => .error e
    | .ok cs => listCall env s (typeFor env.toEnv s .list) cs
termination_by structural p => p
def plainEntryCalls (env : ShapeEnv S A) (s : S) :
    List (Text × Plain A) → Except CErr (List (Text × S × Call S A))
  | [] => .ok []
  | (k, p) :: es =>
    match mapSchema env s k with
    | none => .error (.doc .key)
    | some m =>
      match plainCall env m p with
      | .error e => .error e
      | .ok c => (plainEntryCalls env s es).map ((k, m, c) :: ·)
def plainElementCalls (env : ShapeEnv S A) (s : S) : List (Plain A) → Except CErr (List (Call S A))
  | [] => .ok []
  | p :: ps =>
    match listSchema env s with
    | none => .error (.doc .key)
    | some m =>
      match plainCall env m p with
      | .error e => .error e
      | .ok c => (plainElementCalls env s ps).map (c :: ·)
end

mutual
/-- `serialize_contents` (documents.py:274-330).  The serializers write a document that they are given by its contents
(`write_document` in smithy_json/_private/serializers.py and others). -/
def docCall (env : ShapeEnv S A) : Doc S A → Except CErr (Call S A)
  | .mk s _ .null none => .ok (.null (tag env s))
  | .mk s t .null (some (.map ps)) =>
    match plainEntryCalls env s ps with
    | .error e => .error e
    | .ok cs => mapCall env s t cs
  | .mk s t .null (some (.list ps)) =>
    match plainElementCalls env s ps with
    | .error e => .error e
    | .ok cs => listCall env s t cs
  | .mk _ _ .null (some _) => .error (.doc .expectation)
  | .mk s t (.scalar a) _ => scalarCall env s t a
  | .mk s t (.map es) _ =>
    match docEntryCalls env es with
    | .error e => .error e
    | .ok cs => mapCall env s t cs
  | .mk s t (.list ds) _ =>
    match docElementCalls env ds with
    | .error e => .error e
    | .ok cs => listCall env s t cs
termination_by structural d => d
def docEntryCalls (env : ShapeEnv S A) : List (Text × Doc S A) → Except CErr (List (Text × S × Call S A))
  | [] => .ok []
  | (k, d) :: es =>
    match docCall env d with
    | .error e => .error e
    | .ok c => (docEntryCalls env es).map ((k, d.schema, c) :: ·)
def docElementCalls (env : ShapeEnv S A) : List (Doc S A) → Except CErr (List (Call S A))
  | [] => .ok []
  | d :: ds =>
    match docCall env d with
    | .error e => .error e
    | .ok c => (docElementCalls env ds).map (c :: ·)
end

mutual
/-- The calls that write the value itself (the generated `serialize` and `serialize_members`, StructureGenerator.java,
UnionGenerator.java:80-104, ListGenerator.java:43-58, MapGenerator.java:46-61).  A document is written by its contents. -/
def valCall (env : ShapeEnv S A) (s : S) : Val A → Except CErr (Call S A)
  | .null => .ok (.null (tag env s))
  | .scalar a => .ok (.scalar (tag env s) a)
  | .document p => plainCall env env.document p
  | .struct es => (memberCalls env s es).map (.struct (tag env s))
  | .union k v =>
    match env.member s k with
    | none => .error (.doc .key)
    | some m => (valCall env m v).map fun c => .struct (tag env s) [(m, c)]
  | .list vs =>
    match env.member s "member".toList with
    | none => .error (.doc .key)
    | some m => (elementCalls env m vs).map (.list (tag env s))
  | .map es =>
    match env.member s "value".toList with
    | none => .error (.doc .key)
    | some m => (entryCalls env m es).map (.map (tag env s))
termination_by structural v => v
def memberCalls (env : ShapeEnv S A) (s : S) : List (Text × Val A) → Except CErr (List (S × Call S A))
  | [] => .ok []
  | (k, v) :: es =>
    match env.member s k with
    | none => .error (.doc .key)
    | some m =>
      match valCall env m v with
      | .error e => .error e
      | .ok c => (memberCalls env s es).map ((m, c) :: ·)
def elementCalls (env : ShapeEnv S A) (m : S) : List (Val A) → Except CErr (List (Call S A))
  | [] => .ok []
  | v :: vs =>
    match valCall env m v with
    | .error e => .error e
    | .ok c => (elementCalls env m vs).map (c :: ·)
def entryCalls (env : ShapeEnv S A) (m : S) : List (Text × Val A) → Except CErr (List (Text × Call S A))
  | [] => .ok []
  | (k, v) :: es =>
    match valCall env m v with
    | .error e => .error e
    | .ok c => (entryCalls env m es).map ((k, c) :: ·)
end

/-! ## Specification -/

mutual
/-- Nesting. -/
def Val.depth : Val A → Nat
  | .null | .scalar _ | .document _ => 1
  | .struct es => entriesDepth es + 1
  | .union _ v => v.depth + 1
  | .list vs => elementsDepth vs + 1
  | .map es => entriesDepth es + 1
termination_by structural v => v
def elementsDepth : List (Val A) → Nat
  | [] => 0
  | v :: vs => max v.depth (elementsDepth vs)
def entriesDepth : List (Text × Val A) → Nat
  | [] => 0
  | (_, v) :: es => max v.depth (entriesDepth es)
end

/-- Schemas are well-formed: the members of structures and unions have different names and are found by them; plain
documents have a document schema; and the type of a scalar is one whose method accepts it. -/
structure ShapeEnv.Ok (env : ShapeEnv S A) : Prop where
  names : ∀ s, ((env.members s).map Prod.fst).Nodup
  found : ∀ s, env.kind s = .struct ∨ env.kind s = .union → ∀ k m, env.member s k = some m ↔ (k, m) ∈ env.members s
  document : env.kind env.document = .free
  scalars : ∀ a, ∃ code, env.kindOf a = .scalar code ∧ env.accepts code a = true

mutual
/-- The value is one of the shape.  `None` is only found in sparse lists, and in sparse maps of scalars and documents;
a document in a list or map is not null. -/
def Conforms (env : ShapeEnv S A) (s : S) : Val A → Prop
  | .null => False
  | .scalar a => ∃ code, env.kind s = .scalar code ∧ env.accepts code a = true
  | .document _ => env.kind s = .free
  | .struct es => env.kind s = .struct ∧ (es.map Prod.fst).Sublist ((env.members s).map Prod.fst) ∧
    ConformsMembers env s es
  | .union k v => env.kind s = .union ∧ ∃ m, env.member s k = some m ∧ Conforms env m v
  | .list vs => env.kind s = .list ∧ ∃ m, env.member s "member".toList = some m ∧
    ConformsElements env m (env.sparse s) vs
  | .map es => env.kind s = .map ∧ (es.map Prod.fst).Nodup ∧ ∃ m, env.member s "value".toList = some m ∧
    ConformsEntries env m (env.sparse s) es
termination_by structural v => v
def ConformsMembers (env : ShapeEnv S A) (s : S) : List (Text × Val A) → Prop
  | [] => True
  | (k, v) :: es => (∃ m, env.member s k = some m ∧ Conforms env m v) ∧ ConformsMembers env s es
def ConformsElements (env : ShapeEnv S A) (m : S) (sparse : Bool) : List (Val A) → Prop
  | [] => True
  | v :: vs => ((v = .null ∧ sparse = true) ∨ (v ≠ .document .null ∧ Conforms env m v)) ∧
    ConformsElements env m sparse vs
def ConformsEntries (env : ShapeEnv S A) (m : S) (sparse : Bool) : List (Text × Val A) → Prop
  | [] => True
  | (_, v) :: es => ((v = .null ∧ sparse = true ∧ (env.kind m = .free ∨ ∃ code, env.kind m = .scalar code)) ∨
      (v ≠ .document .null ∧ Conforms env m v)) ∧ ConformsEntries env m sparse es
end

mutual
/-- The value as plain content of a document. -/
def Val.plain : Val A → Plain A
  | .null => .null
  | .scalar a => .scalar a
  | .document p => p
  | .struct es => .map (plainEntries es)
  | .union k v => .map [(k, v.plain)]
  | .list vs => .list (plainElements vs)
  | .map es => .map (plainEntries es)
termination_by structural v => v
def plainElements : List (Val A) → List (Plain A)
  | [] => []
  | v :: vs => v.plain :: plainElements vs
def plainEntries : List (Text × Val A) → List (Text × Plain A)
  | [] => []
  | (k, v) :: es => (k, v.plain) :: plainEntries es
end

mutual
/-- The value has no union anywhere. -/
def NoUnion : Val A → Prop
  | .null | .scalar _ | .document _ => True
  | .struct es => NoUnionEntries es
  | .union _ _ => False
  | .list vs => NoUnionElements vs
  | .map es => NoUnionEntries es
termination_by structural v => v
def NoUnionElements : List (Val A) → Prop
  | [] => True
  | v :: vs => NoUnion v ∧ NoUnionElements vs
def NoUnionEntries : List (Text × Val A) → Prop
  | [] => True
  | (_, v) :: es => NoUnion v ∧ NoUnionEntries es
end

mutual
/-- The calls write plain content. -/
def Writes : Call S A → Plain A → Prop
  | c, .null => ∃ s, c = .null s
  | c, .scalar a => ∃ s, c = .scalar s a
  | c, .map es => ∃ s cs, c = .map s cs ∧ WritesEntries cs es
  | c, .list ps => ∃ s cs, c = .list s cs ∧ WritesElements cs ps
termination_by structural _ p => p
def WritesEntries : List (Text × Call S A) → List (Text × Plain A) → Prop
  | cs, [] => cs = []
  | cs, (k, p) :: es => ∃ c cs', cs = (k, c) :: cs' ∧ Writes c p ∧ WritesEntries cs' es
def WritesElements : List (Call S A) → List (Plain A) → Prop
  | cs, [] => cs = []
  | cs, p :: ps => ∃ c cs', cs = c :: cs' ∧ Writes c p ∧ WritesElements cs' ps
end

/-! ## Lemmas -/

/-- The document with another schema. -/
def resch (env : ShapeEnv S A) (d : Doc S A) (s : S) : Doc S A :=
  match withSchema env.toEnv d s with
  | .ok d' => d'
  | .error _ => d

mutual
/-- The document made of a value. -/
def docOf (env : ShapeEnv S A) (s : S) : Val A → Doc S A
  | .null => newDoc env.toEnv s .null
  | .scalar a => newDoc env.toEnv s (.scalar a)
  | .document p => newDoc env.toEnv env.document p
  | .struct es => .mk s (typeFor env.toEnv s .map) (.map (memberDocs env s es)) none
  | .union k v => .mk s (typeFor env.toEnv s .map)
      (.map [(k, match env.member s k with | some m => resch env (docOf env m v) s | none => docOf env s v)]) none
  | .list vs => .mk s (typeFor env.toEnv s .list)
      (.list (match env.member s "member".toList with | some m => elementDocs env m vs | none => [])) none
  | .map es => .mk s (typeFor env.toEnv s .map)
      (.map (match env.member s "value".toList with | some m => entryDocs env m es | none => [])) none
termination_by structural v => v
def memberDocs (env : ShapeEnv S A) (s : S) : List (Text × Val A) → List (Text × Doc S A)
  | [] => []
  | (k, v) :: es =>
    (k, match env.member s k with | some m => resch env (docOf env m v) m | none => docOf env s v) :: memberDocs env s es
def elementDocs (env : ShapeEnv S A) (m : S) : List (Val A) → List (Doc S A)
  | [] => []
  | v :: vs => docOf env m v :: elementDocs env m vs
def entryDocs (env : ShapeEnv S A) (m : S) : List (Text × Val A) → List (Text × Doc S A)
  | [] => []
  | (k, v) :: es => (k, resch env (docOf env m v) m) :: entryDocs env m es
end


theorem get_set (σ : Slots S A) (slot : Slot) (d : Option (Doc S A)) : (σ.set slot d).get slot = d := by
  cases slot <;> rfl

theorem put_fresh {V : Type} (es : List (Text × V)) (k : Text) (v : V) (h : k ∉ es.map Prod.fst) :
    Dict.put es k v = es ++ [(k, v)] := by
  induction es with
  | nil => rfl
  | cons e es ih =>
    simp only [List.map_cons, List.mem_cons, not_or] at h
    rw [Dict.put, if_neg (fun h' => h.1 h'.symm), ih h.2]; rfl

theorem newDoc_schema (env : Env S A) (s : S) (p : Plain A) : (newDoc env s p).schema = s := by
  match p with
  | .null => rfl
  | .scalar _ => rfl
  | .map [] => rfl
  | .map (_ :: _) => rfl
  | .list [] => rfl
  | .list (_ :: _) => rfl

theorem wrapMap_free (env : Env S A) (s : S) (h : env.kind s = .free) (es : List (Text × Plain A)) :
    wrapMap env s es = .ok (es.map fun e => (e.1, newDoc env s e.2)) := by
  unfold wrapMap; rw [h]

theorem wrapList_free (env : Env S A) (s : S) (h : env.kind s = .free) (xs : List (Plain A)) :
    wrapList env s xs = .ok (xs.map (newDoc env s)) := by
  unfold wrapList; rw [h]

theorem with_plain (env : ShapeEnv S A) (ok : env.Ok) (s : S) (h : env.kind s = .free) (p : Plain A) (s' : S) :
    ∃ d', withSchema env.toEnv (newDoc env.toEnv s p) s' = .ok d' := by
  match p with
  | .null => exact ⟨.mk s' (typeFor env.toEnv s' .free) .null none, by
      simp [withSchema, newDoc, typeFor, Doc.type, h, Doc.value]⟩
  | .scalar a =>
    obtain ⟨c, hc, _⟩ := ok.scalars a
    exact ⟨.mk s' (typeFor env.toEnv s' (env.kindOf a)) (.scalar a) none, by
      simp [withSchema, newDoc, typeFor, Doc.type, h, Doc.value, hc]⟩
  | .map [] => exact ⟨.mk s' (typeFor env.toEnv s' .map) (.map []) none, by
      simp [withSchema, newDoc, typeFor, Doc.type, h, asMap]⟩
  | .map (e :: es) =>
    exact ⟨.mk s' (typeFor env.toEnv s' .map) (.map ((e :: es).map fun e => (e.1, newDoc env.toEnv s e.2))) none, by
      simp only [withSchema, newDoc, typeFor, Doc.type, h, asMap, wrapMap_free env.toEnv s h, if_true]⟩
  | .list [] => exact ⟨.mk s' (typeFor env.toEnv s' .list) (.list []) none, by
      simp [withSchema, newDoc, typeFor, Doc.type, h, asList]⟩
  | .list (x :: xs) =>
    exact ⟨.mk s' (typeFor env.toEnv s' .list) (.list ((x :: xs).map (newDoc env.toEnv s))) none, by
      simp only [withSchema, newDoc, typeFor, Doc.type, h, asList, wrapList_free env.toEnv s h, if_true]⟩

/-- The document made of a value takes any schema. -/
theorem with_docOf (env : ShapeEnv S A) (ok : env.Ok) (s : S) (v : Val A)
    (h : (v = .null ∧ (env.kind s = .free ∨ ∃ code, env.kind s = .scalar code)) ∨ Conforms env s v) (s' : S) :
    withSchema env.toEnv (docOf env s v) s' = .ok (resch env (docOf env s v) s') := by
  have key : ∃ d', withSchema env.toEnv (docOf env s v) s' = .ok d' := by
    rcases h with ⟨rfl, h⟩ | h
    · refine ⟨.mk s' (typeFor env.toEnv s' .free) .null none, ?_⟩
      rcases h with h | ⟨c, h⟩ <;> simp [withSchema, docOf, newDoc, typeFor, Doc.type, h, Doc.value]
    · match v, h with
      | .scalar a, h =>
        obtain ⟨c, hc, _⟩ := h
        refine ⟨.mk s' (typeFor env.toEnv s' (env.kindOf a)) (.scalar a) none, ?_⟩
        simp [withSchema, docOf, newDoc, typeFor, Doc.type, hc, Doc.value]
      | .document p, h => exact with_plain env ok _ ok.document p s'
      | .struct es, h =>
        refine ⟨.mk s' (typeFor env.toEnv s' .map) (.map (memberDocs env s es)) none, ?_⟩
        simp [withSchema, docOf, typeFor, Doc.type, h.1, asMap]
      | .union k v, h =>
        refine ⟨.mk s' (typeFor env.toEnv s' .map) (.map [(k, match env.member s k with
          | some m => resch env (docOf env m v) s | none => docOf env s v)]) none, ?_⟩
        simp [withSchema, docOf, typeFor, Doc.type, h.1, asMap]
      | .list vs, h =>
        obtain ⟨h1, m, hm, _⟩ := h
        refine ⟨.mk s' (typeFor env.toEnv s' .list) (.list (elementDocs env m vs)) none, ?_⟩
        simp only [withSchema, docOf, typeFor, Doc.type, h1, asList, hm, reduceCtorEq, if_false]
      | .map es, h =>
        obtain ⟨h1, _, m, hm, _⟩ := h
        refine ⟨.mk s' (typeFor env.toEnv s' .map) (.map (entryDocs env m es)) none, ?_⟩
        simp only [withSchema, docOf, typeFor, Doc.type, h1, asMap, hm, reduceCtorEq, if_false]
  obtain ⟨d', hd⟩ := key
  rw [hd, resch, hd]

theorem take_ok (env : ShapeEnv S A) (slot : Slot) (s : S) (t : Kind) (es : List (Text × Doc S A)) (k : Text)
    (σ : Slots S A) (c : Doc S A) (hc : σ.get slot = some c) (m : S)
    (hm : itemSchema env.toEnv s (.name k) = some m)
    (hw : withSchema env.toEnv c m = .ok (resch env c m)) (hk : k ∉ es.map Prod.fst) :
    take env slot (.mk s t (.map es) none) k σ =
      .ok (.mk s t (.map (es ++ [(k, resch env c m)])) none, σ.set slot none) := by
  simp [take, hc, setItem, Doc.schema, hm, stored, hw, asMap, Doc.put, put_fresh es k _ hk]

theorem keys_memberDocs (env : ShapeEnv S A) (s : S) (es : List (Text × Val A)) :
    (memberDocs env s es).map Prod.fst = es.map Prod.fst := by
  induction es with
  | nil => rfl
  | cons e es ih => obtain ⟨k, v⟩ := e; simp [memberDocs, ih]

theorem nodup_step {V W : Type} (ds : List (Text × V)) (k : Text) (v : V) (es : List (Text × W)) (w : W)
    (h : (ds.map Prod.fst ++ ((k, w) :: es).map Prod.fst).Nodup) :
    k ∉ ds.map Prod.fst ∧ ((ds ++ [(k, v)]).map Prod.fst ++ es.map Prod.fst).Nodup := by
  simp only [List.map_cons, List.map_append, List.map_nil, List.append_assoc, List.singleton_append] at h ⊢
  refine ⟨fun hk => ?_, h⟩
  rw [List.nodup_append] at h
  exact h.2.2 k hk k (by simp) rfl

mutual
/-- What is written to a serializer is the document made of the value, whatever was there before. -/
theorem emit_ok (env : ShapeEnv S A) (ok : env.Ok) : ∀ (v : Val A) (slot : Slot) (s : S) (σ : Slots S A),
    (v = .null ∨ Conforms env s v) →
    ∃ σ', emit env slot s v σ = .ok σ' ∧ σ'.get slot = some (docOf env s v)
  | .null, slot, s, σ, _ => ⟨_, rfl, get_set _ _ _⟩
  | .scalar a, slot, s, σ, _ => ⟨_, rfl, get_set _ _ _⟩
  | .document p, slot, s, σ, _ => ⟨_, rfl, get_set _ _ _⟩
  | .struct es, slot, s, σ, h => by
    obtain ⟨hk, hsub, hes⟩ : Conforms env s (.struct es) := by
      rcases h with h | h
      · cases h
      · exact h
    have hnd : (es.map Prod.fst).Nodup := hsub.nodup (ok.names s)
    obtain ⟨σ', h1⟩ := emitMembers_ok env ok es s (typeFor env.toEnv s .map) [] σ hk hes (by simpa using hnd)
    refine ⟨σ'.set slot (some (docOf env s (.struct es))), ?_, get_set _ _ _⟩
    rw [emit]
    simp only [newDoc, h1, List.nil_append, docOf]
  | .union k v, slot, s, σ, h => by
    obtain ⟨hk, m, hm, hv⟩ : Conforms env s (.union k v) := by
      rcases h with h | h
      · cases h
      · exact h
    obtain ⟨σ1, h1, h2⟩ := emit_ok env ok v .struct m σ (.inr hv)
    have ht := take_ok env .struct s (typeFor env.toEnv s .map) [] k σ1 _ h2 s (by simp [itemSchema, hk])
      (with_docOf env ok m v (.inr hv) s) (by simp)
    refine ⟨(σ1.set .struct none).set slot (some (docOf env s (.union k v))), ?_, get_set _ _ _⟩
    rw [emit]
    simp only [hm, h1, newDoc, ht, docOf, List.nil_append]
  | .list vs, slot, s, σ, h => by
    obtain ⟨hk, m, hm, hv⟩ : Conforms env s (.list vs) := by
      rcases h with h | h
      · cases h
      · exact h
    obtain ⟨σ', h1⟩ := emitElements_ok env ok vs m (env.sparse s) [] σ hv
    refine ⟨σ'.set slot (some (docOf env s (.list vs))), ?_, get_set _ _ _⟩
    rw [emit]
    simp only [hm, h1, List.nil_append, docOf]
  | .map es, slot, s, σ, h => by
    obtain ⟨hk, hnd, m, hm, hv⟩ : Conforms env s (.map es) := by
      rcases h with h | h
      · cases h
      · exact h
    obtain ⟨σ', h1⟩ := emitEntries_ok env ok es s m (typeFor env.toEnv s .map) (env.sparse s) [] σ hk hm hv
      (by simpa using hnd)
    refine ⟨σ'.set slot (some (docOf env s (.map es))), ?_, get_set _ _ _⟩
    rw [emit]
    simp only [hm, newDoc, h1, List.nil_append, docOf]
termination_by structural v => v

theorem emitMembers_ok (env : ShapeEnv S A) (ok : env.Ok) : ∀ (es : List (Text × Val A)) (s : S) (t : Kind)
    (ds : List (Text × Doc S A)) (σ : Slots S A), env.kind s = .struct → ConformsMembers env s es →
    (ds.map Prod.fst ++ es.map Prod.fst).Nodup →
    ∃ σ', emitMembers env s (.mk s t (.map ds) none) es σ =
      .ok (.mk s t (.map (ds ++ memberDocs env s es)) none, σ')
  | [], s, t, ds, σ, _, _, _ => ⟨σ, by rw [emitMembers, memberDocs, List.append_nil]⟩
  | (k, v) :: es, s, t, ds, σ, hk, h, hnd => by
    obtain ⟨⟨m, hm, hv⟩, hes⟩ := h
    obtain ⟨σ1, h1, h2⟩ := emit_ok env ok v .struct m σ (.inr hv)
    have hn := nodup_step ds k (resch env (docOf env m v) m) es v hnd
    have ht := take_ok env .struct s t ds k σ1 _ h2 m (by simp [itemSchema, hk, hm])
      (with_docOf env ok m v (.inr hv) m) hn.1
    obtain ⟨σ2, h3⟩ := emitMembers_ok env ok es s t (ds ++ [(k, resch env (docOf env m v) m)])
      (σ1.set .struct none) hk hes hn.2
    refine ⟨σ2, ?_⟩
    rw [emitMembers]
    simp only [hm, h1, ht, h3, memberDocs, List.append_assoc, List.singleton_append]

theorem emitElements_ok (env : ShapeEnv S A) (ok : env.Ok) : ∀ (vs : List (Val A)) (m : S) (sparse : Bool)
    (ds : List (Doc S A)) (σ : Slots S A), ConformsElements env m sparse vs →
    ∃ σ', emitElements env m ds vs σ = .ok (ds ++ elementDocs env m vs, σ')
  | [], m, sparse, ds, σ, _ => ⟨σ, by rw [emitElements, elementDocs, List.append_nil]⟩
  | v :: vs, m, sparse, ds, σ, h => by
    obtain ⟨hv, hvs⟩ := h
    obtain ⟨σ1, h1, h2⟩ := emit_ok env ok v .list m σ (hv.imp (·.1) (·.2))
    obtain ⟨σ2, h3⟩ := emitElements_ok env ok vs m sparse (ds ++ [docOf env m v]) (σ1.set .list none) hvs
    refine ⟨σ2, ?_⟩
    rw [emitElements]
    simp only [h1, h2, h3, elementDocs, List.append_assoc, List.singleton_append]

theorem emitEntries_ok (env : ShapeEnv S A) (ok : env.Ok) : ∀ (es : List (Text × Val A)) (s m : S) (t : Kind)
    (sparse : Bool) (ds : List (Text × Doc S A)) (σ : Slots S A), env.kind s = .map →
    env.member s "value".toList = some m → ConformsEntries env m sparse es →
    (ds.map Prod.fst ++ es.map Prod.fst).Nodup →
    ∃ σ', emitEntries env m (.mk s t (.map ds) none) es σ =
      .ok (.mk s t (.map (ds ++ entryDocs env m es)) none, σ')
  | [], s, m, t, sparse, ds, σ, _, _, _, _ => ⟨σ, by rw [emitEntries, entryDocs, List.append_nil]⟩
  | (k, v) :: es, s, m, t, sparse, ds, σ, hk, hm, h, hnd => by
    obtain ⟨hv, hes⟩ := h
    obtain ⟨σ1, h1, h2⟩ := emit_ok env ok v .map m σ (hv.imp (·.1) (·.2))
    have hn := nodup_step ds k (resch env (docOf env m v) m) es v hnd
    have ht := take_ok env .map s t ds k σ1 _ h2 m (by simp only [itemSchema, hk, hm])
      (with_docOf env ok m v (hv.imp (fun h => ⟨h.1, h.2.2⟩) (·.2)) m) hn.1
    obtain ⟨σ2, h3⟩ := emitEntries_ok env ok es s m t sparse (ds ++ [(k, resch env (docOf env m v) m)])
      (σ1.set .map none) hk hm hes hn.2
    refine ⟨σ2, ?_⟩
    rw [emitEntries]
    simp only [h1, ht, h3, entryDocs, List.append_assoc, List.singleton_append]
end

theorem fromShape_ok (env : ShapeEnv S A) (ok : env.Ok) (σ : Slots S A) (s : S) (v : Val A)
    (h : Conforms env s v) : fromShape env σ s v = .ok (docOf env s v) := by
  obtain ⟨σ', h1, h2⟩ := emit_ok env ok v .root s { σ with root := none } (.inr h)
  rw [fromShape, h1]
  have h2 : σ'.root = _ := h2
  simp only [h2]

mutual
/-- The document contains the value. -/
def Holds : Doc S A → Val A → Prop
  | d, .null => d.value = .null ∧ d.raw = none
  | d, .scalar a => d.value = .scalar a ∧ d.raw = none
  | d, .document p => d.latest = p ∧ d.Coherent
  | d, .struct es => ∃ ds, d.value = .map ds ∧ d.raw = none ∧ HoldsEntries ds es
  | d, .union k v => ∃ c, d.value = .map [(k, c)] ∧ d.raw = none ∧ Holds c v
  | d, .list vs => ∃ ds, d.value = .list ds ∧ d.raw = none ∧ HoldsElements ds vs
  | d, .map es => ∃ ds, d.value = .map ds ∧ d.raw = none ∧ HoldsEntries ds es
termination_by structural _ v => v
def HoldsElements : List (Doc S A) → List (Val A) → Prop
  | ds, [] => ds = []
  | ds, v :: vs => ∃ c ds', ds = c :: ds' ∧ Holds c v ∧ HoldsElements ds' vs
def HoldsEntries : List (Text × Doc S A) → List (Text × Val A) → Prop
  | ds, [] => ds = []
  | ds, (k, v) :: es => ∃ c ds', ds = (k, c) :: ds' ∧ Holds c v ∧ HoldsEntries ds' es
end

theorem plain_typed (env : ShapeEnv S A) (s : S) (h : env.kind s = .free) (p : Plain A) :
    (newDoc env.toEnv s p).Typed := by
  match p with
  | .null => exact ⟨fun es h => (by cases h), fun es h => by cases h⟩
  | .scalar a => exact ⟨fun es h => (by cases h), fun es h => by cases h⟩
  | .map [] => exact ⟨fun es _ => .inr (.inl (by simp [newDoc, Doc.type, typeFor, h])), fun es h => by cases h⟩
  | .map (_ :: _) => exact ⟨fun es _ => .inr (.inl (by simp [newDoc, Doc.type, typeFor, h])), fun es h => by cases h⟩
  | .list [] => exact ⟨fun es h => (by cases h), fun es _ => by simp [newDoc, Doc.type, typeFor, h]⟩
  | .list (_ :: _) => exact ⟨fun es h => (by cases h), fun es _ => by simp [newDoc, Doc.type, typeFor, h]⟩

/-- With another schema the content is the same. -/
theorem with_value (env : Env S A) (d d' : Doc S A) (s : S) (h : withSchema env d s = .ok d') (hr : d.raw = none) :
    d'.value = d.value ∧ d'.raw = none := by
  obtain ⟨s0, t, v, raw⟩ := d
  cases hr
  unfold withSchema at h
  cases t <;> cases v <;> simp only [Doc.type, Doc.value, Doc.raw, asMap, asList, reduceCtorEq] at h ⊢ <;>
    cases h <;> exact ⟨rfl, rfl⟩

theorem holds_with (env : ShapeEnv S A) (ok : env.Ok) (d d' : Doc S A) (v : Val A) (s : S) (h : Holds d v)
    (hd : ∀ p, v = .document p → d = newDoc env.toEnv env.document p)
    (hw : withSchema env.toEnv d s = .ok d') : Holds d' v := by
  cases v with
  | document p =>
    have hs := newDoc_spec env.toEnv env.document p
    cases hd p rfl
    obtain ⟨h1, h2⟩ := withSchema_spec env.toEnv _ hs.1 (plain_typed env _ ok.document p) s d' hw
    exact ⟨h2.trans hs.2, h1⟩
  | null => have := with_value env.toEnv d d' s hw h.2; exact ⟨this.1.trans h.1, this.2⟩
  | scalar a => have := with_value env.toEnv d d' s hw h.2; exact ⟨this.1.trans h.1, this.2⟩
  | struct es =>
    obtain ⟨ds, h1, h2, h3⟩ := h
    have := with_value env.toEnv d d' s hw h2; exact ⟨ds, this.1.trans h1, this.2, h3⟩
  | union k v =>
    obtain ⟨ds, h1, h2, h3⟩ := h
    have := with_value env.toEnv d d' s hw h2; exact ⟨ds, this.1.trans h1, this.2, h3⟩
  | list vs =>
    obtain ⟨ds, h1, h2, h3⟩ := h
    have := with_value env.toEnv d d' s hw h2; exact ⟨ds, this.1.trans h1, this.2, h3⟩
  | map es =>
    obtain ⟨ds, h1, h2, h3⟩ := h
    have := with_value env.toEnv d d' s hw h2; exact ⟨ds, this.1.trans h1, this.2, h3⟩

mutual
theorem holds_docOf (env : ShapeEnv S A) (ok : env.Ok) : ∀ (v : Val A) (s : S), v = .null ∨ Conforms env s v →
    Holds (docOf env s v) v
  | .null, s, _ => ⟨rfl, rfl⟩
  | .scalar a, s, _ => ⟨rfl, rfl⟩
  | .document p, s, _ => by
    have hs := newDoc_spec env.toEnv env.document p
    exact ⟨hs.2, hs.1⟩
  | .struct es, s, h => by
    obtain ⟨hk, _, hes⟩ : Conforms env s (.struct es) := h.resolve_left (fun h => by cases h)
    exact ⟨memberDocs env s es, rfl, rfl, holds_members env ok es s hes⟩
  | .union k v, s, h => by
    obtain ⟨hk, m, hm, hv⟩ : Conforms env s (.union k v) := h.resolve_left (fun h => by cases h)
    refine ⟨resch env (docOf env m v) s, ?_, rfl, ?_⟩
    · rw [docOf]; simp only [Doc.value, hm]
    · refine holds_with env ok (docOf env m v) _ v s (holds_docOf env ok v m (.inr hv)) ?_
        (with_docOf env ok m v (.inr hv) s)
      intro p hp; rw [hp, docOf]
  | .list vs, s, h => by
    obtain ⟨hk, m, hm, hv⟩ : Conforms env s (.list vs) := h.resolve_left (fun h => by cases h)
    refine ⟨elementDocs env m vs, ?_, rfl, holds_elements env ok vs m _ hv⟩
    rw [docOf]; simp only [Doc.value, hm]
  | .map es, s, h => by
    obtain ⟨hk, _, m, hm, hv⟩ : Conforms env s (.map es) := h.resolve_left (fun h => by cases h)
    refine ⟨entryDocs env m es, ?_, rfl, holds_entries env ok es m _ hv⟩
    rw [docOf]; simp only [Doc.value, hm]
termination_by structural v => v
theorem holds_members (env : ShapeEnv S A) (ok : env.Ok) : ∀ (es : List (Text × Val A)) (s : S),
    ConformsMembers env s es → HoldsEntries (memberDocs env s es) es
  | [], s, _ => rfl
  | (k, v) :: es, s, h => by
    obtain ⟨⟨m, hm, hv⟩, hes⟩ := h
    refine ⟨resch env (docOf env m v) m, memberDocs env s es, ?_, ?_, holds_members env ok es s hes⟩
    · rw [memberDocs]; simp only [hm]
    · refine holds_with env ok (docOf env m v) _ v m (holds_docOf env ok v m (.inr hv)) ?_
        (with_docOf env ok m v (.inr hv) m)
      intro p hp; rw [hp, docOf]
theorem holds_elements (env : ShapeEnv S A) (ok : env.Ok) : ∀ (vs : List (Val A)) (m : S) (sparse : Bool),
    ConformsElements env m sparse vs → HoldsElements (elementDocs env m vs) vs
  | [], m, sparse, _ => rfl
  | v :: vs, m, sparse, h =>
    ⟨docOf env m v, elementDocs env m vs, by rw [elementDocs],
      holds_docOf env ok v m (h.1.imp (·.1) (·.2)), holds_elements env ok vs m sparse h.2⟩
theorem holds_entries (env : ShapeEnv S A) (ok : env.Ok) : ∀ (es : List (Text × Val A)) (m : S) (sparse : Bool),
    ConformsEntries env m sparse es → HoldsEntries (entryDocs env m es) es
  | [], m, sparse, _ => rfl
  | (k, v) :: es, m, sparse, h => by
    obtain ⟨hv, hes⟩ := h
    refine ⟨resch env (docOf env m v) m, entryDocs env m es, by rw [entryDocs], ?_,
      holds_entries env ok es m sparse hes⟩
    refine holds_with env ok (docOf env m v) _ v m (holds_docOf env ok v m (hv.imp (·.1) (·.2))) ?_
        (with_docOf env ok m v (hv.imp (fun h => ⟨h.1, h.2.2⟩) (·.2)) m)
    intro p hp; rw [hp, docOf]
end

mutual
theorem holds_plain : ∀ (v : Val A) (d : Doc S A), Holds d v → d.latest = v.plain ∧ d.Coherent
  | .null, .mk s t w r, h => by obtain ⟨h1, h2⟩ := h; cases h1; cases h2; exact ⟨rfl, fun r h => by cases h⟩
  | .scalar a, .mk s t w r, h => by obtain ⟨h1, h2⟩ := h; cases h1; cases h2; exact ⟨rfl, fun r h => by cases h⟩
  | .document p, d, h => h
  | .struct es, .mk s t w r, h => by
    obtain ⟨ds, h1, h2, h3⟩ := h; cases h1; cases h2
    have := holds_plainEntries es ds h3
    exact ⟨by rw [Doc.latest, this.1, Val.plain], fun r h => (by cases h), this.2⟩
  | .union k v, .mk s t w r, h => by
    obtain ⟨c, h1, h2, h3⟩ := h; cases h1; cases h2
    have := holds_plain v c h3
    exact ⟨by rw [Doc.latest, latestMap, latestMap, this.1, Val.plain], fun r h => (by cases h), this.2, trivial⟩
  | .list vs, .mk s t w r, h => by
    obtain ⟨ds, h1, h2, h3⟩ := h; cases h1; cases h2
    have := holds_plainElements vs ds h3
    exact ⟨by rw [Doc.latest, this.1, Val.plain], fun r h => (by cases h), this.2⟩
  | .map es, .mk s t w r, h => by
    obtain ⟨ds, h1, h2, h3⟩ := h; cases h1; cases h2
    have := holds_plainEntries es ds h3
    exact ⟨by rw [Doc.latest, this.1, Val.plain], fun r h => (by cases h), this.2⟩
termination_by structural v => v
theorem holds_plainElements : ∀ (vs : List (Val A)) (ds : List (Doc S A)), HoldsElements ds vs →
    latestList ds = plainElements vs ∧ CoherentList ds
  | [], ds, h => by cases h; exact ⟨rfl, trivial⟩
  | v :: vs, ds, h => by
    obtain ⟨c, ds', rfl, h1, h2⟩ := h
    have h3 := holds_plain v c h1
    have h4 := holds_plainElements vs ds' h2
    exact ⟨by simp only [latestList, plainElements, h3.1, h4.1], h3.2, h4.2⟩
theorem holds_plainEntries : ∀ (es : List (Text × Val A)) (ds : List (Text × Doc S A)), HoldsEntries ds es →
    latestMap ds = plainEntries es ∧ CoherentMap ds
  | [], ds, h => by cases h; exact ⟨rfl, trivial⟩
  | (k, v) :: es, ds, h => by
    obtain ⟨c, ds', rfl, h1, h2⟩ := h
    have h3 := holds_plain v c h1
    have h4 := holds_plainEntries es ds' h2
    exact ⟨by simp only [latestMap, plainEntries, h3.1, h4.1], h3.2, h4.2⟩
end

theorem asMap_value (env : Env S A) (d : Doc S A) (es : List (Text × Doc S A)) (h : d.value = .map es) :
    (asMap env d).2 = .ok es := by
  obtain ⟨s, t, v, r⟩ := d; cases h; rfl

theorem asList_value (env : Env S A) (d : Doc S A) (es : List (Doc S A)) (h : d.value = .list es) :
    (asList env d).2 = .ok es := by
  obtain ⟨s, t, v, r⟩ := d; cases h; rfl

theorem holds_some (v : Val A) (d : Doc S A) (h : Holds d v) (h0 : v ≠ .null) (h1 : v ≠ .document .null) :
    isNone d = false := by
  obtain ⟨s, t, w, r⟩ := d
  cases v with
  | null => exact absurd rfl h0
  | scalar a => obtain ⟨h, _⟩ := h; cases h; rfl
  | document p =>
    obtain ⟨h, _⟩ := h
    cases w with
    | null =>
      cases r with
      | none => exact absurd (congrArg Val.document h.symm) h1
      | some r => rfl
    | scalar a => rfl
    | map es => rfl
    | list ds => rfl
  | struct es => obtain ⟨_, h, _⟩ := h; cases h; rfl
  | union k v => obtain ⟨_, h, _⟩ := h; cases h; rfl
  | list vs => obtain ⟨_, h, _⟩ := h; cases h; rfl
  | map es => obtain ⟨_, h, _⟩ := h; cases h; rfl

theorem holds_none (d : Doc S A) (h : Holds d .null) : isNone d = true := by
  obtain ⟨s, t, w, r⟩ := d
  obtain ⟨h1, h2⟩ := h; cases h1; cases h2; rfl

theorem keys_holds (es : List (Text × Val A)) (ds : List (Text × Doc S A)) (h : HoldsEntries ds es) :
    ds.map Prod.fst = es.map Prod.fst := by
  induction es generalizing ds with
  | nil => cases h; rfl
  | cons e es ih =>
    obtain ⟨k, v⟩ := e
    obtain ⟨c, ds', rfl, _, h2⟩ := h
    simp [ih ds' h2]

theorem get_none {V : Type} (ds : List (Text × V)) (k : Text) (h : k ∉ ds.map Prod.fst) : Dict.get ds k = none := by
  simp only [Dict.get, Option.map_eq_none_iff, List.find?_eq_none]
  intro x hx hk
  exact h (List.mem_map.2 ⟨x, hx, by simpa using hk⟩)

theorem get_cons {V : Type} (ds : List (Text × V)) (k j : Text) (v : V) :
    Dict.get ((k, v) :: ds) j = if k = j then some v else Dict.get ds j := by
  by_cases h : k = j <;> simp [Dict.get, h]

theorem readMembers_ok (env : ShapeEnv S A) (rd : S → Doc S A → Except RErr (Val A)) (d : Doc S A)
    (ds : List (Text × Doc S A)) (hd : d.value = .map ds) (ms : List (Text × S)) (es : List (Text × Val A))
    (hsub : (es.map Prod.fst).Sublist (ms.map Prod.fst)) (hnd : (ms.map Prod.fst).Nodup)
    (hin : ∀ k m v, (k, m) ∈ ms → (k, v) ∈ es → ∃ c, Dict.get ds k = some c ∧ rd m c = .ok v)
    (hout : ∀ k m, (k, m) ∈ ms → k ∉ es.map Prod.fst → Dict.get ds k = none) :
    readMembersWith env rd d ms = .ok es := by
  induction ms generalizing es with
  | nil =>
    rw [List.map_nil, List.sublist_nil, List.map_eq_nil_iff] at hsub
    rw [hsub]; rfl
  | cons m ms ih =>
    obtain ⟨k, m⟩ := m
    rw [List.map_cons, List.nodup_cons] at hnd
    rw [readMembersWith, asMap_value env.toEnv d ds hd]
    by_cases hk : k ∈ es.map Prod.fst
    · cases es with
      | nil => cases hk
      | cons e es =>
        obtain ⟨j, v⟩ := e
        have hj : j = k ∧ (es.map Prod.fst).Sublist (ms.map Prod.fst) := by
          simp only [List.map_cons] at hsub
          cases hsub with
          | cons _ h => exact absurd (h.subset hk) hnd.1
          | cons_cons _ h => exact ⟨rfl, h⟩
        obtain ⟨rfl, hs⟩ := hj
        obtain ⟨c, hc, hr⟩ := hin j m v (by simp) (by simp)
        have := ih es hs hnd.2 (fun k' m' v' h1 h2 => hin k' m' v' (by simp [h1]) (by simp [h2])) (by
          intro k' m' h1 h2
          refine hout k' m' (by simp [h1]) ?_
          simp only [List.map_cons, List.mem_cons, not_or]
          refine ⟨?_, h2⟩
          rintro rfl
          exact hnd.1 (List.mem_map.2 ⟨_, h1, rfl⟩))
        simp only [hc, hr, this]; rfl
    · have hs : (es.map Prod.fst).Sublist (ms.map Prod.fst) := by
        simp only [List.map_cons] at hsub
        generalize hq : es.map Prod.fst = q at hsub hk
        cases hsub with
        | cons _ h => exact h
        | cons_cons _ h => simp at hk
      simp only [hout k m (by simp) hk]
      exact ih es hs hnd.2 (fun k' m' v' h1 h2 => hin k' m' v' (by simp [h1]) h2)
        (fun k' m' h1 h2 => hout k' m' (by simp [h1]) h2)

theorem depth_mem (es : List (Text × Val A)) (k : Text) (v : Val A) (h : (k, v) ∈ es) : v.depth ≤ entriesDepth es := by
  induction es with
  | nil => cases h
  | cons e es ih =>
    obtain ⟨j, w⟩ := e
    rw [entriesDepth]
    rcases List.mem_cons.1 h with h | h
    · cases h; exact Nat.le_max_left _ _
    · exact Nat.le_trans (ih h) (Nat.le_max_right _ _)

theorem conforms_mem (env : ShapeEnv S A) (s : S) (es : List (Text × Val A)) (h : ConformsMembers env s es)
    (k : Text) (v : Val A) (hv : (k, v) ∈ es) : ∃ m, env.member s k = some m ∧ Conforms env m v := by
  induction es with
  | nil => cases hv
  | cons e es ih =>
    obtain ⟨j, w⟩ := e
    rcases List.mem_cons.1 hv with hv | hv
    · cases hv; exact h.1
    · exact ih h.2 hv

mutual
theorem read_holds (env : ShapeEnv S A) (ok : env.Ok) : ∀ (v : Val A) (n : Nat) (s : S) (d : Doc S A),
    Conforms env s v → Holds d v → v.depth ≤ n → read env n s d = .ok v
  | .null, n, s, d, h, _, _ => h.elim
  | .scalar a, 0, s, d, _, _, h => by rw [Val.depth] at h; omega
  | .scalar a, n + 1, s, d, ⟨c, h1, h2⟩, hd, _ => by
    simp only [read, h1, readScalar, hd.1, h2, if_true]
  | .document p, 0, s, d, _, _, h => by rw [Val.depth] at h; omega
  | .document p, n + 1, s, d, h, hd, _ => by
    have h : env.kind s = .free := h
    simp only [read, h, hd.1]
  | .struct es, 0, s, d, _, _, h => by rw [Val.depth] at h; omega
  | .struct es, n + 1, s, d, ⟨hk, hsub, hes⟩, hd, hn => by
    rw [Val.depth] at hn
    obtain ⟨ds, h1, h2, h3⟩ := hd
    have := readMembers_ok env (read env n) d ds h1 (env.members s) es hsub (ok.names s) (by
      intro k m v hm hv
      exact read_members env ok es n s ds hes h3 (hsub.nodup (ok.names s)) (by omega) k v hv m
        ((ok.found s (.inl hk) k m).2 hm)) (by
      intro k m hm hk'
      exact get_none ds k (by rw [keys_holds es ds h3]; exact hk'))
    simp only [read, hk, this]; rfl
  | .union k v, 0, s, d, _, _, h => by rw [Val.depth] at h; omega
  | .union k v, n + 1, s, d, ⟨hk, m, hm, hv⟩, hd, hn => by
    rw [Val.depth] at hn
    obtain ⟨c, h1, h2, h3⟩ := hd
    have hmem := (ok.found s (.inr hk) k m).1 hm
    have hr := read_holds env ok v n m c hv h3 (by omega)
    have := readMembers_ok env (read env n) d [(k, c)] h1 (env.members s) [(k, v)]
      (by
        simp only [List.map_cons, List.map_nil, List.singleton_sublist]
        exact List.mem_map.2 ⟨_, hmem, rfl⟩) (ok.names s) (by
      intro k' m' v' hm' hv'
      simp only [List.mem_singleton, Prod.mk.injEq] at hv'
      obtain ⟨rfl, rfl⟩ := hv'
      refine ⟨c, by rw [get_cons, if_pos rfl], ?_⟩
      have := (ok.found s (.inr hk) k' m').2 hm'
      rw [hm] at this
      cases this
      exact hr) (by
      intro k' m' hm' hk'
      exact get_none _ k' (by simpa using hk'))
    simp only [read, hk, this]; rfl
  | .list vs, 0, s, d, _, _, h => by rw [Val.depth] at h; omega
  | .list vs, n + 1, s, d, ⟨hk, m, hm, hv⟩, hd, hn => by
    rw [Val.depth] at hn
    obtain ⟨ds, h1, h2, h3⟩ := hd
    have := read_elements env ok vs n m (env.sparse s) ds hv h3 (by omega)
    simp only [read, hk, asList_value env.toEnv d ds h1, hm, this]; rfl
  | .map es, 0, s, d, _, _, h => by rw [Val.depth] at h; omega
  | .map es, n + 1, s, d, ⟨hk, _, m, hm, hv⟩, hd, hn => by
    rw [Val.depth] at hn
    obtain ⟨ds, h1, h2, h3⟩ := hd
    have := read_entries env ok es n m (env.sparse s) ds hv h3 (by omega)
    simp only [read, hk, asMap_value env.toEnv d ds h1, hm, this]; rfl
termination_by structural v => v
theorem read_members (env : ShapeEnv S A) (ok : env.Ok) : ∀ (es : List (Text × Val A)) (n : Nat) (s : S)
    (ds : List (Text × Doc S A)), ConformsMembers env s es → HoldsEntries ds es → (es.map Prod.fst).Nodup →
    entriesDepth es ≤ n → ∀ k v, (k, v) ∈ es → ∀ m, env.member s k = some m →
    ∃ c, Dict.get ds k = some c ∧ read env n m c = .ok v
  | [], n, s, ds, _, _, _, _, k, v, hv, _, _ => by cases hv
  | (j, w) :: es, n, s, ds, hes, h3, hnd, hn, k, v, hv, m, hm => by
    obtain ⟨c, ds', rfl, hc, hds⟩ := h3
    obtain ⟨⟨m', hm', hw⟩, hes⟩ := hes
    rw [entriesDepth] at hn
    simp only [List.map_cons, List.nodup_cons] at hnd
    by_cases hj : j = k
    · subst hj
      have : w = v := by
        rcases List.mem_cons.1 hv with hv | hv
        · cases hv; rfl
        · exact absurd (List.mem_map.2 ⟨_, hv, rfl⟩) hnd.1
      subst this
      rw [hm] at hm'
      cases hm'
      exact ⟨c, by rw [get_cons, if_pos rfl], read_holds env ok w n m c hw hc (by omega)⟩
    · have hv : (k, v) ∈ es := by
        rcases List.mem_cons.1 hv with hv | hv
        · cases hv; exact absurd rfl hj
        · exact hv
      obtain ⟨c', h1, h2⟩ := read_members env ok es n s ds' hes hds hnd.2 (by omega) k v hv m hm
      exact ⟨c', by rw [get_cons, if_neg hj, h1], h2⟩
theorem read_elements (env : ShapeEnv S A) (ok : env.Ok) : ∀ (vs : List (Val A)) (n : Nat) (m : S) (sparse : Bool)
    (ds : List (Doc S A)), ConformsElements env m sparse vs → HoldsElements ds vs → elementsDepth vs ≤ n →
    readElementsWith (read env n m) sparse ds = .ok vs
  | [], n, m, sparse, ds, _, h, _ => by cases h; rfl
  | v :: vs, n, m, sparse, ds, ⟨hv, hvs⟩, h, hn => by
    obtain ⟨c, ds', rfl, hc, hds⟩ := h
    rw [elementsDepth] at hn
    have ih := read_elements env ok vs n m sparse ds' hvs hds (by omega)
    rcases hv with ⟨rfl, rfl⟩ | ⟨h0, hv⟩
    · rw [readElementsWith, if_pos (holds_none c hc), ih]; rfl
    · have hnn : v ≠ .null := by rintro rfl; exact hv
      rw [readElementsWith, if_neg (by rw [holds_some v c hc hnn h0]; simp), ih,
        read_holds env ok v n m c hv hc (by omega)]; rfl
theorem read_entries (env : ShapeEnv S A) (ok : env.Ok) : ∀ (es : List (Text × Val A)) (n : Nat) (m : S) (sparse : Bool)
    (ds : List (Text × Doc S A)), ConformsEntries env m sparse es → HoldsEntries ds es → entriesDepth es ≤ n →
    readEntriesWith (read env n m) sparse ds = .ok es
  | [], n, m, sparse, ds, _, h, _ => by cases h; rfl
  | (k, v) :: vs, n, m, sparse, ds, ⟨hv, hvs⟩, h, hn => by
    obtain ⟨c, ds', rfl, hc, hds⟩ := h
    rw [entriesDepth] at hn
    have ih := read_entries env ok vs n m sparse ds' hvs hds (by omega)
    rcases hv with ⟨rfl, rfl, _⟩ | ⟨h0, hv⟩
    · rw [readEntriesWith, if_pos (holds_none c hc), ih]; rfl
    · have hnn : v ≠ .null := by rintro rfl; exact hv
      rw [readEntriesWith, if_neg (by rw [holds_some v c hc hnn h0]; simp), ih,
        read_holds env ok v n m c hv hc (by omega)]; rfl
end

theorem tag_free (env : ShapeEnv S A) (s : S) (h : env.kind s = .free) : tag env s = none := by
  rw [tag, if_pos h]

theorem docCall_newDoc (env : ShapeEnv S A) (s : S) (p : Plain A) :
    docCall env (newDoc env.toEnv s p) = plainCall env s p := by
  match p with
  | .null => rfl
  | .scalar _ => rfl
  | .map [] => simp only [newDoc, docCall, plainCall, docEntryCalls, plainEntryCalls]
  | .map (_ :: _) => simp only [newDoc, docCall, plainCall]
  | .list [] => simp only [newDoc, docCall, plainCall, docElementCalls, plainElementCalls]
  | .list (_ :: _) => simp only [newDoc, docCall, plainCall]

theorem docEntryCalls_new (env : ShapeEnv S A) (s : S) (h : env.kind s = .free) (es : List (Text × Plain A)) :
    docEntryCalls env (es.map fun e => (e.1, newDoc env.toEnv s e.2)) = plainEntryCalls env s es := by
  induction es with
  | nil => rw [List.map_nil, docEntryCalls, plainEntryCalls]
  | cons e es ih =>
    obtain ⟨k, p⟩ := e
    have hm : mapSchema env s k = some s := by unfold mapSchema; rw [h]
    simp only [List.map_cons, docEntryCalls, plainEntryCalls, hm, docCall_newDoc, newDoc_schema, ih]

theorem docElementCalls_new (env : ShapeEnv S A) (s : S) (h : env.kind s = .free) (ps : List (Plain A)) :
    docElementCalls env (ps.map (newDoc env.toEnv s)) = plainElementCalls env s ps := by
  induction ps with
  | nil => rw [List.map_nil, docElementCalls, plainElementCalls]
  | cons p ps ih =>
    have hm : listSchema env s = some s := by unfold listSchema; rw [h]
    simp only [List.map_cons, docElementCalls, plainElementCalls, hm, docCall_newDoc, ih]

/-- A document as a member whose schema is also that of a document is written as before. -/
theorem docCall_resch (env : ShapeEnv S A) (ok : env.Ok) (s m : S) (h : env.kind s = .free) (hm : env.kind m = .free)
    (p : Plain A) : docCall env (resch env (newDoc env.toEnv s p) m) = plainCall env s p := by
  have ht : tag env m = tag env s := by rw [tag_free env s h, tag_free env m hm]
  match p with
  | .null => simp [resch, withSchema, newDoc, Doc.type, typeFor, h, Doc.value, docCall, plainCall, ht]
  | .scalar a =>
    obtain ⟨c, hc, ha⟩ := ok.scalars a
    simp [resch, withSchema, newDoc, Doc.type, typeFor, h, hm, Doc.value, docCall, plainCall, ht, hc, scalarCall]
  | .map [] =>
    simp [resch, withSchema, newDoc, Doc.type, typeFor, h, hm, asMap, docCall, plainCall, ht, docEntryCalls,
      plainEntryCalls, mapCall]
  | .map (e :: es) =>
    have hw : resch env (newDoc env.toEnv s (.map (e :: es))) m =
        .mk m .map (.map ((e :: es).map fun e => (e.1, newDoc env.toEnv s e.2))) none := by
      simp only [resch, withSchema, newDoc, typeFor, Doc.type, h, hm, asMap, wrapMap_free env.toEnv s h, if_true]
    rw [hw, docCall, docEntryCalls_new env s h, plainCall]
    simp only [typeFor, h, if_true, mapCall, ht]
  | .list [] =>
    simp [resch, withSchema, newDoc, Doc.type, typeFor, h, hm, asList, docCall, plainCall, ht, docElementCalls,
      plainElementCalls, listCall]
  | .list (x :: xs) =>
    have hw : resch env (newDoc env.toEnv s (.list (x :: xs))) m =
        .mk m .list (.list ((x :: xs).map (newDoc env.toEnv s))) none := by
      simp only [resch, withSchema, newDoc, typeFor, Doc.type, h, hm, asList, wrapList_free env.toEnv s h, if_true]
    rw [hw, docCall, docElementCalls_new env s h, plainCall]
    simp only [typeFor, h, if_true, listCall, ht]

theorem with_schema (env : Env S A) (d d' : Doc S A) (s : S) (h : withSchema env d s = .ok d') : d'.schema = s := by
  unfold withSchema at h
  split at h
  iterate 3
    · split at h
      · cases h
      · cases h; rfl
  · split at h
    · cases h
    · cases h; rfl
  · split at h <;> cases h <;> rfl

/-- With the schema that it has already, the document made of a value stays as it is. -/
theorem resch_same (env : ShapeEnv S A) (s : S) (v : Val A) (hd : ∀ p, v ≠ .document p)
    (h : (v = .null ∧ (env.kind s = .free ∨ ∃ code, env.kind s = .scalar code)) ∨ Conforms env s v) :
    resch env (docOf env s v) s = docOf env s v := by
  rcases h with ⟨rfl, h⟩ | h
  · rcases h with h | ⟨c, h⟩ <;> simp [resch, withSchema, docOf, newDoc, typeFor, Doc.type, h, Doc.value]
  · match v, h with
    | .scalar a, h =>
      obtain ⟨c, hc, _⟩ := h
      simp [resch, withSchema, docOf, newDoc, typeFor, Doc.type, hc, Doc.value]
    | .document p, h => exact absurd rfl (hd p)
    | .struct es, h => simp [resch, withSchema, docOf, typeFor, Doc.type, h.1, asMap]
    | .union k v, h => simp [resch, withSchema, docOf, typeFor, Doc.type, h.1, asMap]
    | .list vs, h => simp [resch, withSchema, docOf, typeFor, Doc.type, h.1, asList]
    | .map es, h => simp [resch, withSchema, docOf, typeFor, Doc.type, h.1, asMap]

theorem docCall_child (env : ShapeEnv S A) (ok : env.Ok) (m : S) (v : Val A)
    (h : (v = .null ∧ (env.kind m = .free ∨ ∃ code, env.kind m = .scalar code)) ∨ Conforms env m v)
    (ih : docCall env (docOf env m v) = valCall env m v) :
    docCall env (resch env (docOf env m v) m) = valCall env m v := by
  by_cases hd : ∃ p, v = .document p
  · obtain ⟨p, rfl⟩ := hd
    have hm : env.kind m = .free := h.resolve_left (fun h => by cases h.1)
    rw [docOf, docCall_resch env ok _ m ok.document hm p, valCall]
  · rw [resch_same env m v (fun p hp => hd ⟨p, hp⟩) h, ih]

mutual
theorem docCall_docOf (env : ShapeEnv S A) (ok : env.Ok) : ∀ (v : Val A) (s : S), v = .null ∨ Conforms env s v →
    NoUnion v → docCall env (docOf env s v) = valCall env s v
  | .null, s, _, _ => rfl
  | .scalar a, s, h, _ => by
    obtain ⟨c, h1, h2⟩ : Conforms env s (.scalar a) := h.resolve_left (fun h => by cases h)
    simp [docOf, newDoc, docCall, scalarCall, typeFor, h1, h2, valCall]
  | .document p, s, _, _ => by rw [docOf, docCall_newDoc, valCall]
  | .struct es, s, h, hu => by
    obtain ⟨hk, _, hes⟩ : Conforms env s (.struct es) := h.resolve_left (fun h => by cases h)
    have h1 := docCall_members env ok es s hes hu
    rw [docOf, docCall, valCall, ← h1]
    cases docEntryCalls env (memberDocs env s es) with
    | error e => rfl
    | ok cs => simp only [typeFor, hk, reduceCtorEq, if_false, mapCall]; rfl
  | .union k v, s, _, hu => hu.elim
  | .list vs, s, h, hu => by
    obtain ⟨hk, m, hm, hv⟩ : Conforms env s (.list vs) := h.resolve_left (fun h => by cases h)
    have h1 := docCall_elements env ok vs m _ hv hu
    rw [docOf, docCall, valCall]
    simp only [hm, h1]
    cases elementCalls env m vs with
    | error e => rfl
    | ok cs => simp only [typeFor, hk, reduceCtorEq, if_false, listCall]; rfl
  | .map es, s, h, hu => by
    obtain ⟨hk, _, m, hm, hv⟩ : Conforms env s (.map es) := h.resolve_left (fun h => by cases h)
    have h1 := docCall_entries env ok es m _ hv hu
    rw [docOf, docCall, valCall]
    simp only [hm, ← h1]
    cases docEntryCalls env (entryDocs env m es) with
    | error e => rfl
    | ok cs => simp only [typeFor, hk, reduceCtorEq, if_false, mapCall]; rfl
termination_by structural v => v
theorem docCall_members (env : ShapeEnv S A) (ok : env.Ok) : ∀ (es : List (Text × Val A)) (s : S),
    ConformsMembers env s es → NoUnionEntries es →
    (docEntryCalls env (memberDocs env s es)).map (fun cs => cs.map fun e => (e.2.1, e.2.2)) = memberCalls env s es
  | [], s, _, _ => rfl
  | (k, v) :: es, s, ⟨⟨m, hm, hv⟩, hes⟩, ⟨hu, hus⟩ => by
    have h1 := docCall_child env ok m v (.inr hv) (docCall_docOf env ok v m (.inr hv) hu)
    have h2 := docCall_members env ok es s hes hus
    have h3 := with_schema _ _ _ _ (with_docOf env ok m v (.inr hv) m)
    rw [memberDocs, memberCalls, ← h2]
    simp only [hm, docEntryCalls, h1, h3]
    cases valCall env m v with
    | error e => rfl
    | ok c => cases docEntryCalls env (memberDocs env s es) <;> rfl
theorem docCall_elements (env : ShapeEnv S A) (ok : env.Ok) : ∀ (vs : List (Val A)) (m : S) (sparse : Bool),
    ConformsElements env m sparse vs → NoUnionElements vs →
    docElementCalls env (elementDocs env m vs) = elementCalls env m vs
  | [], m, sparse, _, _ => rfl
  | v :: vs, m, sparse, ⟨hv, hvs⟩, ⟨hu, hus⟩ => by
    rw [elementDocs, docElementCalls, elementCalls, docCall_docOf env ok v m (hv.imp (·.1) (·.2)) hu,
      docCall_elements env ok vs m sparse hvs hus]
theorem docCall_entries (env : ShapeEnv S A) (ok : env.Ok) : ∀ (es : List (Text × Val A)) (m : S) (sparse : Bool),
    ConformsEntries env m sparse es → NoUnionEntries es →
    (docEntryCalls env (entryDocs env m es)).map (fun cs => cs.map fun e => (e.1, e.2.2)) = entryCalls env m es
  | [], m, sparse, _, _ => rfl
  | (k, v) :: es, m, sparse, ⟨hv, hvs⟩, ⟨hu, hus⟩ => by
    have h1 := docCall_child env ok m v (hv.imp (fun h => ⟨h.1, h.2.2⟩) (·.2))
      (docCall_docOf env ok v m (hv.imp (·.1) (·.2)) hu)
    have h2 := docCall_entries env ok es m sparse hvs hus
    rw [entryDocs, entryCalls, ← h2]
    simp only [docEntryCalls, h1]
    cases valCall env m v with
    | error e => rfl
    | ok c => cases docEntryCalls env (entryDocs env m es) <;> rfl
end

mutual
theorem plainCall_ok (env : ShapeEnv S A) (ok : env.Ok) (s : S) (h : env.kind s = .free) :
    ∀ p : Plain A, ∃ c, plainCall env s p = .ok c ∧ Writes c p
  | .null => ⟨.null (tag env s), rfl, _, rfl⟩
  | .scalar a => by
    obtain ⟨c, hc, ha⟩ := ok.scalars a
    exact ⟨.scalar (tag env s) a, by simp [plainCall, typeFor, h, hc, scalarCall, ha], _, rfl⟩
  | .map es => by
    obtain ⟨cs, h1, h2⟩ := plainEntries_ok env ok s h es
    refine ⟨.map (tag env s) (cs.map fun e => (e.1, e.2.2)), ?_, _, _, rfl, h2⟩
    simp only [plainCall, h1, typeFor, h, if_true, mapCall]
  | .list ps => by
    obtain ⟨cs, h1, h2⟩ := plainElements_ok env ok s h ps
    refine ⟨.list (tag env s) cs, ?_, _, _, rfl, h2⟩
    simp only [plainCall, h1, typeFor, h, if_true, listCall]
termination_by structural p => p
theorem plainEntries_ok (env : ShapeEnv S A) (ok : env.Ok) (s : S) (h : env.kind s = .free) :
    ∀ es : List (Text × Plain A), ∃ cs, plainEntryCalls env s es = .ok cs ∧
      WritesEntries (cs.map fun e => (e.1, e.2.2)) es
  | [] => ⟨[], rfl, rfl⟩
  | (k, p) :: es => by
    obtain ⟨c, h1, h2⟩ := plainCall_ok env ok s h p
    obtain ⟨cs, h3, h4⟩ := plainEntries_ok env ok s h es
    have hm : mapSchema env s k = some s := by unfold mapSchema; rw [h]
    exact ⟨(k, s, c) :: cs, by simp only [plainEntryCalls, hm, h1, h3]; rfl, c, _, rfl, h2, h4⟩
theorem plainElements_ok (env : ShapeEnv S A) (ok : env.Ok) (s : S) (h : env.kind s = .free) :
    ∀ ps : List (Plain A), ∃ cs, plainElementCalls env s ps = .ok cs ∧ WritesElements cs ps
  | [] => ⟨[], rfl, rfl⟩
  | p :: ps => by
    obtain ⟨c, h1, h2⟩ := plainCall_ok env ok s h p
    obtain ⟨cs, h3, h4⟩ := plainElements_ok env ok s h ps
    have hm : listSchema env s = some s := by unfold listSchema; rw [h]
    exact ⟨c :: cs, by simp only [plainElementCalls, hm, h1, h3]; rfl, c, cs, rfl, h2, h4⟩
end

mutual
/-- All schemas of documents write plain content in the same way. -/
theorem plainCall_free (env : ShapeEnv S A) (s s' : S) (h : env.kind s = .free) (h' : env.kind s' = .free) :
    ∀ p : Plain A, plainCall env s p = plainCall env s' p
  | .null => by simp only [plainCall, tag_free env s h, tag_free env s' h']
  | .scalar a => by
    simp only [plainCall, typeFor, h, h', if_true, scalarCall, tag_free env s h, tag_free env s' h']
  | .map es => by
    have := plainEntries_free env s s' h h' es
    simp only [plainCall, typeFor, h, h', if_true, mapCall, tag_free env s h, tag_free env s' h']
    cases h1 : plainEntryCalls env s es <;> cases h2 : plainEntryCalls env s' es <;>
      simp_all [Except.map]
  | .list ps => by
    simp only [plainCall, typeFor, h, h', if_true, listCall, tag_free env s h, tag_free env s' h',
      plainElements_free env s s' h h' ps]
termination_by structural p => p
theorem plainEntries_free (env : ShapeEnv S A) (s s' : S) (h : env.kind s = .free) (h' : env.kind s' = .free) :
    ∀ es : List (Text × Plain A), (plainEntryCalls env s es).map (fun cs => cs.map fun e => (e.1, e.2.2)) =
      (plainEntryCalls env s' es).map (fun cs => cs.map fun e => (e.1, e.2.2))
  | [] => rfl
  | (k, p) :: es => by
    have h1 : mapSchema env s k = some s := by unfold mapSchema; rw [h]
    have h2 : mapSchema env s' k = some s' := by unfold mapSchema; rw [h']
    have h3 := plainEntries_free env s s' h h' es
    simp only [plainEntryCalls, h1, h2, plainCall_free env s s' h h' p]
    cases plainCall env s' p with
    | error e => rfl
    | ok c =>
      cases h4 : plainEntryCalls env s es <;> cases h5 : plainEntryCalls env s' es <;> simp_all [Except.map]
theorem plainElements_free (env : ShapeEnv S A) (s s' : S) (h : env.kind s = .free) (h' : env.kind s' = .free) :
    ∀ ps : List (Plain A), plainElementCalls env s ps = plainElementCalls env s' ps
  | [] => rfl
  | p :: ps => by
    have h1 : listSchema env s = some s := by unfold listSchema; rw [h]
    have h2 : listSchema env s' = some s' := by unfold listSchema; rw [h']
    simp only [plainElementCalls, h1, h2, plainCall_free env s s' h h' p, plainElements_free env s s' h h' ps]
end

mutual
theorem plainCall_val (env : ShapeEnv S A) (ok : env.Ok) : ∀ (v : Val A) (s : S), v = .null ∨ Conforms env s v →
    plainCall env s v.plain = valCall env s v
  | .null, s, _ => rfl
  | .scalar a, s, h => by
    obtain ⟨c, h1, h2⟩ : Conforms env s (.scalar a) := h.resolve_left (fun h => by cases h)
    simp [Val.plain, plainCall, scalarCall, typeFor, h1, h2, valCall]
  | .document p, s, h => by
    have hs : env.kind s = .free := h.resolve_left (fun h => by cases h)
    rw [Val.plain, valCall, plainCall_free env s _ hs ok.document]
  | .struct es, s, h => by
    obtain ⟨hk, _, hes⟩ : Conforms env s (.struct es) := h.resolve_left (fun h => by cases h)
    rw [Val.plain, plainCall, valCall, ← plainCall_members env ok es s hk hes]
    cases plainEntryCalls env s (plainEntries es) with
    | error e => rfl
    | ok cs => simp only [typeFor, hk, reduceCtorEq, if_false, mapCall]; rfl
  | .union k v, s, h => by
    obtain ⟨hk, m, hm, hv⟩ : Conforms env s (.union k v) := h.resolve_left (fun h => by cases h)
    have h1 : mapSchema env s k = some m := by unfold mapSchema; rw [hk]; exact hm
    rw [Val.plain, plainCall, valCall]
    simp only [plainEntryCalls, h1, hm, plainCall_val env ok v m (.inr hv)]
    cases valCall env m v with
    | error e => rfl
    | ok c => simp only [Except.map, typeFor, hk, reduceCtorEq, if_false, mapCall]; rfl
  | .list vs, s, h => by
    obtain ⟨hk, m, hm, hv⟩ : Conforms env s (.list vs) := h.resolve_left (fun h => by cases h)
    rw [Val.plain, plainCall, valCall]
    simp only [hm, plainCall_elements env ok vs s m _ (by unfold listSchema; rw [hk]; exact hm) hv]
    cases elementCalls env m vs with
    | error e => rfl
    | ok cs => simp only [typeFor, hk, reduceCtorEq, if_false, listCall]; rfl
  | .map es, s, h => by
    obtain ⟨hk, _, m, hm, hv⟩ : Conforms env s (.map es) := h.resolve_left (fun h => by cases h)
    rw [Val.plain, plainCall, valCall]
    simp only [hm, ← plainCall_entries env ok es s m _ (fun k => by unfold mapSchema; rw [hk]; exact hm) hv]
    cases plainEntryCalls env s (plainEntries es) with
    | error e => rfl
    | ok cs => simp only [typeFor, hk, reduceCtorEq, if_false, mapCall]; rfl
termination_by structural v => v
theorem plainCall_members (env : ShapeEnv S A) (ok : env.Ok) : ∀ (es : List (Text × Val A)) (s : S),
    env.kind s = .struct → ConformsMembers env s es →
    (plainEntryCalls env s (plainEntries es)).map (fun cs => cs.map fun e => (e.2.1, e.2.2)) = memberCalls env s es
  | [], s, _, _ => rfl
  | (k, v) :: es, s, hk, ⟨⟨m, hm, hv⟩, hes⟩ => by
    have h1 : mapSchema env s k = some m := by unfold mapSchema; rw [hk]; exact hm
    rw [plainEntries, memberCalls, ← plainCall_members env ok es s hk hes]
    simp only [hm, plainEntryCalls, h1, plainCall_val env ok v m (.inr hv)]
    cases valCall env m v with
    | error e => rfl
    | ok c => cases plainEntryCalls env s (plainEntries es) <;> rfl
theorem plainCall_elements (env : ShapeEnv S A) (ok : env.Ok) : ∀ (vs : List (Val A)) (s m : S) (sparse : Bool),
    listSchema env s = some m → ConformsElements env m sparse vs →
    plainElementCalls env s (plainElements vs) = elementCalls env m vs
  | [], s, m, sparse, _, _ => rfl
  | v :: vs, s, m, sparse, hm, ⟨hv, hvs⟩ => by
    rw [plainElements, plainElementCalls, elementCalls]
    simp only [hm, plainCall_val env ok v m (hv.imp (·.1) (·.2)), plainCall_elements env ok vs s m sparse hm hvs]
theorem plainCall_entries (env : ShapeEnv S A) (ok : env.Ok) : ∀ (es : List (Text × Val A)) (s m : S) (sparse : Bool),
    (∀ k, mapSchema env s k = some m) → ConformsEntries env m sparse es →
    (plainEntryCalls env s (plainEntries es)).map (fun cs => cs.map fun e => (e.1, e.2.2)) = entryCalls env m es
  | [], s, m, sparse, _, _ => rfl
  | (k, v) :: es, s, m, sparse, hm, ⟨hv, hvs⟩ => by
    rw [plainEntries, entryCalls, ← plainCall_entries env ok es s m sparse hm hvs]
    simp only [plainEntryCalls, hm, plainCall_val env ok v m (hv.imp (·.1) (·.2))]
    cases valCall env m v with
    | error e => rfl
    | ok c => cases plainEntryCalls env s (plainEntries es) <;> rfl
end

/-! ## Theorems -/

/-- **C82 (partial).**  A value of a shape that is made a document and read back from it is the same, and the plain
content of the document is that of the value, whatever earlier conversions have left behind.  Missing: `None` in sparse
maps of structures, unions, lists and maps, see `C82_null_in_map_fails`; null documents in lists and maps, see
`C82_null_document_fails`; several threads at once, see `C82_threads_fails`. -/
theorem C82_round_trip_partial (env : ShapeEnv S A) (ok : env.Ok) (σ : Slots S A) (s : S) (v : Val A)
    (h : Conforms env s v) :
    ∃ d, fromShape env σ s v = .ok d ∧ (∀ n, v.depth ≤ n → read env n s d = .ok v) ∧
      d.asValue.2 = v.plain := by
  have hd := holds_docOf env ok v s (.inr h)
  have hp := holds_plain v _ hd
  refine ⟨docOf env s v, fromShape_ok env ok σ s v h, fun n hn => read_holds env ok v n s _ h hd hn, ?_⟩
  rw [(asValue_spec _ hp.2).1, hp.1]

/-- **C82 (negative).**  `None` in a sparse map of structures, unions, lists or maps raises an exception. -/
theorem C82_null_in_map_fails (env : ShapeEnv S A) (σ : Slots S A) (s m : S) (k : Text) (hk : env.kind s = .map)
    (hm : env.member s "value".toList = some m)
    (h : env.kind m = .struct ∨ env.kind m = .union ∨ env.kind m = .map ∨ env.kind m = .list) :
    fromShape env σ s (.map [(k, .null)]) = .error .expectation := by
  have ht : take env .map (.mk s (typeFor env.toEnv s .map) (.map []) none) k
      (({ σ with root := none } : Slots S A).set .map (some (newDoc env.toEnv m .null))) = .error .expectation := by
    rw [take, get_set]
    simp only [setItem, Doc.schema, itemSchema, hk, hm, stored]
    rcases h with h | h | h | h <;>
      simp [withSchema, newDoc, Doc.type, typeFor, h, asMap, asList]
  rw [fromShape, emit]
  simp only [hm, newDoc, emitEntries, emit] at ht ⊢
  rw [ht]

/-- **C82 (negative).**  A null document in a list is lost; in a sparse list it becomes `None`. -/
theorem C82_null_document_fails (env : ShapeEnv S A) (σ : Slots S A) (s m : S) (n : Nat) (hk : env.kind s = .list)
    (hm : env.member s "member".toList = some m) (_hd : env.kind m = .free) :
    ∃ d, fromShape env σ s (.list [.document .null]) = .ok d ∧
      read env (n + 1) s d = .ok (if env.sparse s then .list [.null] else .list []) := by
  refine ⟨.mk s .list (.list [newDoc env.toEnv env.document .null]) none, ?_, ?_⟩
  · rw [fromShape, emit]
    simp [emitElements, emit, Slots.get, Slots.set, typeFor, hk]
    simp only [String.toList] at hm
    rw [show env.member s ['m', 'e', 'm', 'b', 'e', 'r'] = some m from hm]
  · rw [read]
    simp only [hk, asList, hm]
    cases h : env.sparse s <;> rfl

/-- **C82 (negative).**  A document in which a member is null explicitly is not read as a structure without the member,
as the other deserializers read it, but raises an exception. -/
theorem C82_null_member_fails (env : ShapeEnv S A) (ok : env.Ok) (s m : S) (k : Text) (n code : Nat) (t : Kind)
    (hs : env.kind s = .struct) (hm : env.member s k = some m) (hk : env.kind m = .scalar code) :
    read env (n + 2) s (.mk s t (.map [(k, newDoc env.toEnv m .null)]) none) = .error (.doc .expectation) := by
  have key : ∀ ms : List (Text × S), (ms.map Prod.fst).Nodup → (k, m) ∈ ms →
      readMembersWith env (read env (n + 1)) (.mk s t (.map [(k, newDoc env.toEnv m .null)]) none) ms =
        .error (.doc .expectation) := by
    intro ms hnd hin
    induction ms with
    | nil => cases hin
    | cons e ms ih =>
      obtain ⟨j, w⟩ := e
      rw [readMembersWith]
      simp only [asMap, get_cons]
      by_cases hj : k = j
      · have : w = m := by
          rcases List.mem_cons.1 hin with h | h
          · cases h; rfl
          · rw [List.map_cons, List.nodup_cons] at hnd
            exact absurd (List.mem_map.2 ⟨_, h, hj⟩) hnd.1
        subst this
        simp only [if_pos hj, read, hk, readScalar, newDoc, Doc.value]
      · rw [if_neg hj]
        rw [List.map_cons, List.nodup_cons] at hnd
        refine ih hnd.2 ?_
        rcases List.mem_cons.1 hin with h | h
        · cases h; exact absurd rfl hj
        · exact h
  rw [read]
  simp only [hs, key _ (ok.names s) ((ok.found s (.inl hs) k m).1 hm)]; rfl

/-- **C82 (negative).**  Two threads share the serializer of members.  If both have written the member of a structure
before either has taken it, the first document has the value of the second one, and the other thread's conversion raises
an exception, whatever the values are. -/
theorem C82_threads_fails (env : ShapeEnv S A) (ok : env.Ok) (σ : Slots S A) (s₁ s₂ m₁ m₂ : S) (k₁ k₂ : Text)
    (v₁ v₂ : Val A) (h₁ : env.kind s₁ = .struct) (hm₁ : env.member s₁ k₁ = some m₁)
    (hv₁ : Conforms env m₁ v₁) (hv₂ : Conforms env m₂ v₂) :
    ∃ σ₁ σ₂ σ₃ d, emit env .struct m₁ v₁ σ = .ok σ₁ ∧ emit env .struct m₂ v₂ σ₁ = .ok σ₂ ∧
      take env .struct (newDoc env.toEnv s₁ (.map [])) k₁ σ₂ = .ok (d, σ₃) ∧
      d.asValue.2 = .map [(k₁, v₂.plain)] ∧
      take env .struct (newDoc env.toEnv s₂ (.map [])) k₂ σ₃ = .error .expectation := by
  obtain ⟨σ₁, h1, _⟩ := emit_ok env ok v₁ .struct m₁ σ (.inr hv₁)
  obtain ⟨σ₂, h2, h3⟩ := emit_ok env ok v₂ .struct m₂ σ₁ (.inr hv₂)
  have hw := with_docOf env ok m₂ v₂ (.inr hv₂) m₁
  have ht := take_ok env .struct s₁ (typeFor env.toEnv s₁ .map) [] k₁ σ₂ _ h3 m₁ (by simp [itemSchema, h₁, hm₁]) hw
    (by simp)
  have hh := holds_with env ok _ _ v₂ m₁ (holds_docOf env ok v₂ m₂ (.inr hv₂)) (fun p hp => by rw [hp, docOf]) hw
  have hp := holds_plain _ _ hh
  have hc : Doc.Coherent (.mk s₁ (typeFor env.toEnv s₁ .map)
      (.map ([] ++ [(k₁, resch env (docOf env m₂ v₂) m₁)])) none) :=
    ⟨fun r h => (by cases h), hp.2, trivial⟩
  refine ⟨σ₁, σ₂, σ₂.set .struct none, _, h1, h2, ht, ?_, ?_⟩
  · rw [(asValue_spec _ hc).1, Doc.latest, List.nil_append, latestMap, latestMap, hp.1]
  · rw [take, get_set]

/-- **C83 (partial).**  Writing the document made of a value calls a serializer in the same way as writing the value
itself, with the same schemas in the same order.  Missing: unions, see `C83_union_fails`. -/
theorem C83_same_calls_partial (env : ShapeEnv S A) (ok : env.Ok) (σ : Slots S A) (s : S) (v : Val A)
    (h : Conforms env s v) (hu : NoUnion v) :
    ∃ d, fromShape env σ s v = .ok d ∧ docCall env d = valCall env s v :=
  ⟨docOf env s v, fromShape_ok env ok σ s v h, docCall_docOf env ok v s (.inr h) hu⟩

/-- **C83 (negative).**  The document made of a union with a scalar cannot be written, although the union can. -/
theorem C83_union_fails (env : ShapeEnv S A) (ok : env.Ok) (σ : Slots S A) (s m : S) (k : Text) (a : A) (code : Nat)
    (hs : env.kind s = .union) (hm : env.member s k = some m) (hk : env.kind m = .scalar code)
    (ha : env.accepts code a = true) :
    ∃ d, fromShape env σ s (.union k (.scalar a)) = .ok d ∧ docCall env d = .error (.doc .expectation) ∧
      valCall env s (.union k (.scalar a)) = .ok (.struct (some s) [(m, .scalar (some m) a)]) := by
  refine ⟨_, fromShape_ok env ok σ s _ ⟨hs, m, hm, code, hk, ha⟩, ?_, ?_⟩
  · simp [docOf, hm, docCall, docEntryCalls, resch, withSchema, newDoc, Doc.type, typeFor, hk, Doc.value, hs,
      scalarCall]
  · simp [valCall, hm, tag, hk, hs, Except.map]

/-- **C83.**  A document made of the plain content of a value with the schema of its shape (as a caller makes it by
hand) is written by the same calls as the value, unions included. -/
theorem C83_with_schema (env : ShapeEnv S A) (ok : env.Ok) (s : S) (v : Val A) (h : Conforms env s v) :
    docCall env (newDoc env.toEnv s v.plain) = valCall env s v := by
  rw [docCall_newDoc, plainCall_val env ok v s (.inr h)]

/-- **C83.**  A plain document (one without a schema of its own) is always written by the calls for its content: nothing
in it makes writing fail. -/
theorem C83_plain (env : ShapeEnv S A) (ok : env.Ok) (p : Plain A) :
    ∃ c, docCall env (newDoc env.toEnv env.document p) = .ok c ∧ Writes c p := by
  rw [docCall_newDoc]
  exact plainCall_ok env ok _ ok.document p

end

/-! ## The hypotheses are met -/

/-- Schemas of an example: a person with a name, friends (a sparse list of people), attributes and notes. -/
inductive Ex where
  | person | name | friends | friend | attrs | attr | notes | doc | choice | picked
  deriving DecidableEq, Repr

/-- Scalars of the example. -/
inductive Sc where
  | text (s : Text)
  | number (n : Int)
  deriving DecidableEq, Repr

def exKind : Ex → Kind
  | .person | .friend => .struct
  | .name | .attr | .picked => .scalar 0
  | .friends => .list
  | .attrs => .map
  | .notes | .doc => .free
  | .choice => .union

def exMembers : Ex → List (Text × Ex)
  | .person | .friend => [("name".toList, .name), ("friends".toList, .friends), ("attrs".toList, .attrs),
      ("notes".toList, .notes), ("choice".toList, .choice)]
  | .choice => [("picked".toList, .picked)]
  | _ => []

def exEnv : ShapeEnv Ex Sc where
  kind := exKind
  member s k := match s with
    | .friends => if k = "member".toList then some .friend else none
    | .attrs => if k = "value".toList then some .attr else none
    | s => Dict.get (exMembers s) k
  kindOf a := match a with | .text _ => .scalar 0 | .number _ => .scalar 1
  members := exMembers
  sparse s := s = .friends
  document := .doc
  accepts c a := match c, a with | 0, .text _ => true | 1, .number _ => true | _, _ => false

theorem exEnv_ok : exEnv.Ok where
  names s := by cases s <;> decide
  found s h k m := by
    have key : ∀ l : List (Text × Ex), (l.map Prod.fst).Nodup → (Dict.get l k = some m ↔ (k, m) ∈ l) := by
      intro l hl
      induction l with
      | nil => simp [Dict.get]
      | cons e l ih =>
        obtain ⟨j, w⟩ := e
        rw [List.map_cons, List.nodup_cons] at hl
        rw [get_cons]
        by_cases hj : j = k
        · subst hj
          rw [if_pos rfl]
          constructor
          · intro h; cases h; simp
          · intro h
            rcases List.mem_cons.1 h with h | h
            · cases h; rfl
            · exact absurd (List.mem_map.2 ⟨_, h, rfl⟩) hl.1
        · rw [if_neg hj, ih hl.2]
          constructor
          · intro h; exact List.mem_cons_of_mem _ h
          · intro h
            rcases List.mem_cons.1 h with h | h
            · cases h; exact absurd rfl hj
            · exact h
    cases s <;> first
      | exact key _ (by decide)
      | (exfalso; rcases h with h | h <;> cases h)
  document := rfl
  scalars a := by cases a <;> exact ⟨_, rfl, rfl⟩

/-- A person with a friend and no friend, an attribute, and a note with a map. -/
def exVal : Val Sc :=
  .struct [("name".toList, .scalar (.text "Ann".toList)),
    ("friends".toList, .list [.null, .struct [("name".toList, .scalar (.text "Bob".toList))]]),
    ("attrs".toList, .map [("a".toList, .scalar (.text "b".toList))]),
    ("notes".toList, .document (.map [("x".toList, .list [.scalar (.number 1), .null])]))]

example : Conforms exEnv .person exVal :=
  ⟨rfl, by decide, ⟨.name, rfl, 0, rfl, rfl⟩,
    ⟨.friends, rfl, rfl, .friend, rfl, .inl ⟨rfl, rfl⟩,
      .inr ⟨(fun h => by cases h), rfl, by decide, ⟨.name, rfl, 0, rfl, rfl⟩, trivial⟩, trivial⟩,
    ⟨.attrs, rfl, rfl, by decide, .attr, rfl, .inr ⟨(fun h => by cases h), 0, rfl, rfl⟩, trivial⟩,
    ⟨.notes, rfl, rfl⟩, trivial⟩

example : NoUnion exVal := ⟨trivial, ⟨trivial, ⟨trivial, trivial⟩, trivial⟩, ⟨trivial, trivial⟩, trivial, trivial⟩

/-- With a union. -/
example : Conforms exEnv .person (.struct [("choice".toList, .union "picked".toList (.scalar (.text [])))]) :=
  ⟨rfl, by decide, ⟨.choice, rfl, rfl, .picked, rfl, 0, rfl, rfl⟩, trivial⟩

end Verif.Schemas.DocumentShapes

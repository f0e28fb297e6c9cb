import Verif.Dict
import Verif.Common

/-!
# The schemas of a generated client: model

A generated client has a module with a schema for every shape of the model of the service, which
serializers, deserializers and protocols go by.  The module is written by `SchemaGenerator.java`
(codegen/core/src/main/java/software/amazon/smithy/python/codegen/generators).  This models what it
writes, and what Python makes of it with the classes of `smithy_core/schemas.py` and
`smithy_core/traits.py`.
-/

set_option autoImplicit false

namespace Verif.GeneratedSchemas

open Verif.Dict

/-! ## Models of services -/

/-- The value of a trait in the model of a service: an object without members, or anything else,
written as a text. -/
inductive Node
  | emptyObject
  | value (text : String)
  deriving DecidableEq, Repr

/-- A member: its name, its target, and the traits applied to the member itself. -/
structure Member where
  name : String
  target : String
  traits : List (String × Node)
  deriving DecidableEq, Repr

/-- A shape: its ID, its type, the traits applied to it, and its members. -/
structure Shape where
  id : String
  type : String
  traits : List (String × Node)
  members : List Member
  deriving DecidableEq, Repr

/-- Whether a shape is built into Smithy (`Prelude.isPreludeShape`): its namespace is `smithy.api`. -/
def isPrelude (id : String) : Bool := "smithy.api#".toList.isPrefixOf id.toList

/-! ## The module that is written -/

/-- A schema that is referred to: one of `smithy_core.prelude`, by the shape it is for, or one of the
module itself, by name.  Simplified: how names that occur in both are kept apart by importing one
under another name (`PythonWriter.java:390-430`) is left out. -/
inductive Ref
  | prelude (id : String)
  | schema (name : String)
  deriving DecidableEq, Repr

/-- A trait as it is written: its ID, and its value if one is written. -/
abbrev Written := String × Option Node

/-- The dictionary that is written for a member. -/
structure Entry where
  target : Ref
  traits : List Written
  deriving DecidableEq, Repr

/-- The statements of the module: `NAME = Schema(…)` or `NAME = Schema.collection(…)`, and
`NAME.members["…"] = Schema.member(…)`. -/
inductive Stmt
  | define (name : String) (id : String) (type : Option String) (traits : List Written)
      (members : List (String × Option Entry))
  | fill (container : String) (member : String) (target : Ref) (index : Nat)
      (traits : List Written)
  deriving DecidableEq, Repr

/-- `DEFAULT_TRAIT_FILTER` (SchemaGenerator.java:48-51). -/
def notWritten : List String :=
  ["smithy.api#documentation", "smithy.api#enum", "smithy.synthetic#enum"]

/-- `filterTraits` (SchemaGenerator.java:133-145): no value is written for an empty object. -/
def filterTraits (traits : List (String × Node)) : List Written :=
  (traits.filter fun t => !notWritten.contains t.1).map fun t =>
    (t.1, if t.2 = .emptyObject then none else some t.2)

/-- The schema of a shape, referred to.  The name is that of the shape in upper snake case
(PythonSymbolProvider.java:422-439); `nm` stands for it. -/
def ref (nm : String → String) (id : String) : Ref :=
  if isPrelude id then .prelude id else .schema (nm id)

/-- `writeSchemaMembers` (SchemaGenerator.java:159-210): members whose targets have not been written
yet are `None` for now, and are put aside with their places.  `index` is counted up for each. -/
def writeMembers (nm : String → String) (generated : List String) :
    List Member → Nat → List (String × Option Entry) × List (Member × Nat)
  | [], _ => ([], [])
  | x :: xs, index =>
    let (entries, deferred) := writeMembers nm generated xs (index + 1)
    if !generated.contains x.target && !isPrelude x.target then
      ((x.name, none) :: entries, (x, index) :: deferred)
    else ((x.name, some ⟨ref nm x.target, filterTraits x.traits⟩) :: entries, deferred)

/-- `writeShapeSchema` (SchemaGenerator.java:99-131).  The type of a structure is not written.
`Schema` is called instead of `Schema.collection` for shapes other than structures without members,
which makes no difference (`smithy_core/schemas.py:36-96, 217-238`). -/
def writeShape (nm : String → String) (generated : List String) (s : Shape) :
    Stmt × List (Member × Nat) :=
  let (entries, deferred) := writeMembers nm generated s.members 0
  (.define (nm s.id) s.id (if s.type = "STRUCTURE" then none else some s.type)
    (filterTraits s.traits) entries, deferred)

/-- A member that was put aside: the shape it belongs to, the member, and its place. -/
abbrev Deferred := Shape × Member × Nat

/-- `generateAll` up to `finalizeRecursiveShapes` (SchemaGenerator.java:67-93): the shapes one after
the other, in the order the Smithy library gives.  A shape counts as written when all of it is
(line 75). -/
def writeAll (nm : String → String) : List String → List Shape → List Stmt × List Deferred
  | _, [] => ([], [])
  | generated, s :: shapes =>
    let (stmt, deferred) := writeShape nm generated s
    let (stmts, rest) := writeAll nm (s.id :: generated) shapes
    (stmt :: stmts, deferred.map (fun d => (s, d.1, d.2)) ++ rest)

/-- `finalizeRecursiveShapes` for one member (SchemaGenerator.java:222-263). -/
def finalize (nm : String → String) (d : Deferred) : Stmt :=
  .fill (nm d.1.id) d.2.1.name (ref nm d.2.1.target) d.2.2 (filterTraits d.2.1.traits)

/-! ## What Python makes of it -/

/-- A `Schema` object (`smithy_core/schemas.py:24-34`).  `id` is the ID without the name of a member,
which is `member`.  `members` says where its dictionary of members is, and `target` where the schema
of its target is. -/
structure Schema where
  id : String
  member : Option String
  type : String
  traits : List Written
  members : Nat
  target : Option Nat
  index : Option Nat
  deriving DecidableEq, Repr

/-- The names that have a value, the schemas, and the dictionaries of members, which may be changed
and in which `None` may stand for a schema. -/
structure State where
  env : List (Ref × Nat)
  objs : List Schema
  dicts : List (List (String × Option Nat))
  deriving DecidableEq, Repr

/-- The schema object a name stands for. -/
def State.find (st : State) (r : Ref) : Option Nat := st.env.lookup r

/-- `Schema.member` (`smithy_core/schemas.py:241-271`): `dataclasses.replace` passes the dictionary
of members of the target on as it is.  There is no result where Python raises an exception. -/
def mkMember (st : State) (id : String) (member : String) (target index : Nat)
    (traits : List Written) : Option (State × Nat) :=
  match st.objs[target]? with
  | none => none
  | some t =>
    if t.target.isSome then none
    else some ({ st with objs := st.objs ++
      [⟨id, some member, t.type, update t.traits traits, t.members, some target, some index⟩] },
      st.objs.length)

/-- The members in `Schema.collection` (`smithy_core/schemas.py:218-230`). -/
def mkMembers (id : String) : State → List (String × Option Entry) → Nat →
    Option (State × List (String × Option Nat))
  | st, [], _ => some (st, [])
  | st, (n, none) :: entries, i =>
    match mkMembers id st entries (i + 1) with
    | none => none
    | some (st, d) => some (st, (n, none) :: d)
  | st, (n, some e) :: entries, i =>
    match st.find e.target with
    | none => none
    | some t =>
      match mkMember st id n t i e.traits with
      | none => none
      | some (st, a) =>
        match mkMembers id st entries (i + 1) with
        | none => none
        | some (st, d) => some (st, (n, some a) :: d)

/-- A statement of the module is run.  There is no result where Python raises an exception, such as
for a name that has no value. -/
def exec (st : State) : Stmt → Option State
  | .define name id type traits members =>
    match mkMembers id st members 0 with
    | none => none
    | some (st, d) => some
      ⟨(.schema name, st.objs.length) :: st.env,
        st.objs ++ [⟨id, none, type.getD "STRUCTURE", update [] traits, st.dicts.length, none, none⟩],
        st.dicts ++ [d]⟩
  | .fill container member target index traits =>
    match st.find (.schema container), st.find target with
    | some c, some t =>
      match st.objs[c]? with
      | none => none
      | some o =>
        match mkMember st o.id member t index traits with
        | none => none
        | some (st, a) =>
          match st.dicts[o.members]? with
          | none => none
          | some d => some { st with dicts := st.dicts.set o.members (put d member (some a)) }
    | _, _ => none

def run : State → List Stmt → Option State
  | st, [] => some st
  | st, s :: stmts =>
    match exec st s with
    | none => none
    | some st => run st stmts

/-- The schemas in `smithy_core/prelude.py:9-120`, with the traits as the classes there name them
(`smithy_core/traits.py:96, 164`). -/
def preludeSchemas : List (String × String × List Written) :=
  [("smithy.api#Blob", "BLOB", []), ("smithy.api#Boolean", "BOOLEAN", []),
    ("smithy.api#String", "STRING", []), ("smithy.api#Timestamp", "TIMESTAMP", []),
    ("smithy.api#Byte", "BYTE", []), ("smithy.api#Short", "SHORT", []),
    ("smithy.api#Integer", "INTEGER", []), ("smithy.api#Long", "LONG", []),
    ("smithy.api#Float", "FLOAT", []), ("smithy.api#Double", "DOUBLE", []),
    ("smithy.api#BigInteger", "BIG_INTEGER", []), ("smithy.api#BigDecimal", "BIG_DECIMAL", []),
    ("smithy.api#Document", "DOCUMENT", []),
    ("smithy.api#PrimitiveBoolean", "BOOLEAN", [("smithy.appi#default", some (.value "False"))]),
    ("smithy.api#PrimitiveByte", "BYTE", [("smithy.appi#default", some (.value "0"))]),
    ("smithy.api#PrimitiveShort", "SHORT", [("smithy.appi#default", some (.value "0"))]),
    ("smithy.api#PrimitiveInteger", "INTEGER", [("smithy.appi#default", some (.value "0"))]),
    ("smithy.api#PrimitiveLong", "LONG", [("smithy.appi#default", some (.value "0"))]),
    ("smithy.api#PrimitiveFloat", "FLOAT", [("smithy.appi#default", some (.value "0"))]),
    ("smithy.api#PrimitiveDouble", "DOUBLE", [("smithy.appi#default", some (.value "0"))]),
    ("smithy.api#Unit", "STRUCTURE", [("smithy.api#UnitTypeTrait", none)])]

/-- The state once `smithy_core.prelude` has been imported. -/
def start : State where
  env := preludeSchemas.zipIdx.map fun p => (.prelude p.1.1, p.2)
  objs := preludeSchemas.zipIdx.map fun p => ⟨p.1.1, none, p.1.2.1, p.1.2.2, p.2, none, none⟩
  dicts := preludeSchemas.map fun _ => []

/-- The module is written for the shapes in this order and then imported.  `order` is the order in
which the members that were put aside are written at the end: they are in a `HashMap`
(SchemaGenerator.java:61, 223). -/
def load (nm : String → String) (shapes : List Shape) (order : List Deferred) : Option State :=
  run start ((writeAll nm [] shapes).1 ++ order.map (finalize nm))

/-! ## How schemas are used -/

/-- The IDs the classes of `smithy_core/traits.py` and `smithy_aws_core/traits.py` are declared
with. -/
def traitClasses : List (String × String) :=
  [("DefaultTrait", "smithy.appi#default"), ("SparseTrait", "smithy.api#sparse"),
    ("TimestampFormatTrait", "smithy.api#timestampFormat"), ("ErrorTrait", "smithy.api#error"),
    ("RequiredTrait", "smithy.api#required"), ("InternalTrait", "smithy.api#internal"),
    ("SensitiveTrait", "smithy.api#sensitive"), ("StreamingTrait", "smithy.api#streaming"),
    ("RequiresLengthTrait", "smithy.api#requiresLength"),
    ("UnitTypeTrait", "smithy.api#UnitTypeTrait"), ("MediaTypeTrait", "smithy.api#mediaType"),
    ("EventHeaderTrait", "smithy.api#eventHeader"),
    ("EventPayloadTrait", "smithy.api#eventPayload"), ("JSONNameTrait", "smithy.api#jsonName"),
    ("IdempotencyTokenTrait", "smithy.api#IdempotencyToken"),
    ("LongPollTrait", "smithy.api#longPoll"), ("HTTPTrait", "smithy.api#http"),
    ("HTTPErrorTrait", "smithy.api#httpError"), ("HTTPHeaderTrait", "smithy.api#httpHeader"),
    ("HTTPLabelTrait", "smithy.api#httpLabel"), ("HTTPPayloadTrait", "smithy.api#httpPayload"),
    ("HTTPPrefixHeadersTrait", "smithy.api#httpPrefixHeaders"),
    ("HTTPQueryTrait", "smithy.api#httpQuery"),
    ("HTTPQueryParamsTrait", "smithy.api#httpQueryParams"),
    ("HTTPResponseCodeTrait", "smithy.api#httpResponseCode"),
    ("HTTPChecksumRequiredTrait", "smithy.api#httpChecksumRequired"),
    ("EndpointTrait", "smithy.api#endpoint"), ("HostLabelTrait", "smithy.api#hostLabel"),
    ("HTTPAPIKeyAuthTrait", "smithy.api#httpApiKeyAuth"), ("XMLNameTrait", "smithy.api#xmlName"),
    ("XMLNamespaceTrait", "smithy.api#xmlNamespace"),
    ("XMLFlattenedTrait", "smithy.api#xmlFlattened"),
    ("XMLAttributeTrait", "smithy.api#xmlAttribute"),
    ("RestJson1Trait", "aws.protocols#restJson1"), ("AwsQueryTrait", "aws.protocols#awsQuery"),
    ("AwsQueryErrorTrait", "aws.protocols#awsQueryError"), ("SigV4Trait", "aws.auth#sigv4")]

/-- `get_trait` with a class (`smithy_core/schemas.py:144-161`): the value of the trait, if it is
there. -/
def getTrait (s : Schema) (cls : String) : Option (Option Node) :=
  match traitClasses.lookup cls with
  | none => none
  | some id => s.traits.lookup id

/-- The members of a schema that have one, in order. -/
def State.membersOf (st : State) (s : Schema) : List Schema :=
  match st.dicts[s.members]? with
  | none => []
  | some d => d.filterMap fun p => p.2.bind fun a => st.objs[a]?

/-- `idempotency_token_member` of an operation with this input (`smithy_core/schemas.py:316-321`).
Simplified: `None` in the place of a member, which there is only before the module has been loaded,
is passed over. -/
def idempotencyTokenMember (st : State) (input : Schema) : Option Schema :=
  (st.membersOf input).find? fun x => (getTrait x "IdempotencyTokenTrait").isSome

/-- `input_stream_member` and `output_stream_member` (`smithy_core/schemas.py:324-337`). -/
def streamMember (st : State) (s : Schema) : Option Schema :=
  (st.membersOf s).find? fun x => (getTrait x "StreamingTrait").isSome

/-- `long_polling` (`smithy_core/schemas.py:340-343`). -/
def longPolling (operation : Schema) : Bool := (getTrait operation "LongPollTrait").isSome

end Verif.GeneratedSchemas

import Verif.GeneratedSchemas.Model

/-!
# What the schemas of a generated client have to say

The words of the statements about schemas, in terms of the model of the service.
-/

set_option autoImplicit false

namespace Verif.GeneratedSchemas

/-- The types of the shapes that are built into Smithy. -/
def preludeType : String → Option String
  | "smithy.api#Blob" => some "BLOB"
  | "smithy.api#Boolean" | "smithy.api#PrimitiveBoolean" => some "BOOLEAN"
  | "smithy.api#String" => some "STRING"
  | "smithy.api#Timestamp" => some "TIMESTAMP"
  | "smithy.api#Byte" | "smithy.api#PrimitiveByte" => some "BYTE"
  | "smithy.api#Short" | "smithy.api#PrimitiveShort" => some "SHORT"
  | "smithy.api#Integer" | "smithy.api#PrimitiveInteger" => some "INTEGER"
  | "smithy.api#Long" | "smithy.api#PrimitiveLong" => some "LONG"
  | "smithy.api#Float" | "smithy.api#PrimitiveFloat" => some "FLOAT"
  | "smithy.api#Double" | "smithy.api#PrimitiveDouble" => some "DOUBLE"
  | "smithy.api#BigInteger" => some "BIG_INTEGER"
  | "smithy.api#BigDecimal" => some "BIG_DECIMAL"
  | "smithy.api#Document" => some "DOCUMENT"
  | "smithy.api#Unit" => some "STRUCTURE"
  | _ => none

/-- A value as schemas have it: a trait that is just there, an empty object in the model, has none. -/
def valued : Node → Option Node
  | .emptyObject => none
  | .value text => some (.value text)

/-- Traits that schemas leave out: documentation, and the values of enums. -/
def LeftOut (t : String) : Prop :=
  t = "smithy.api#documentation" ∨ t = "smithy.api#enum" ∨ t = "smithy.synthetic#enum"

instance (t : String) : Decidable (LeftOut t) := by unfold LeftOut; infer_instance

/-- The trait of a shape or a member, as a schema has to have it. -/
def own (traits : List (String × Node)) (t : String) : Option (Option Node) :=
  if LeftOut t then none else (traits.lookup t).map valued

/-- The type of a shape, be it of the model or built in. -/
def typeOf (m : List Shape) (id : String) : Option String :=
  if isPrelude id then preludeType id else (m.find? (·.id = id)).map (·.type)

/-- The trait of a shape of the model.  Of the shapes that are built in, those of primitive types and
`Unit` have one, which is left open here (see `C107_prelude_fails`). -/
def inherited (m : List Shape) (id : String) (t : String) : Option (Option Node) :=
  if isPrelude id then none else (m.find? (·.id = id)).bind fun s => own s.traits t

/-- Whether a trait of a shape that is built in is left open. -/
def Open (id t : String) : Prop :=
  isPrelude id = true ∧ (t = "smithy.api#default" ∨ t = "smithy.appi#default" ∨
    t = "smithy.api#unitType" ∨ t = "smithy.api#UnitTypeTrait")

/-- A model that the Smithy library accepts: IDs of shapes differ, and so do the names of the members
of a shape and the traits of a shape or a member; the shapes are not those built in; and targets are
shapes of the model or built in.  `nm` gives the shapes different names. -/
structure Valid (nm : String → String) (m : List Shape) : Prop where
  ids : (m.map (·.id)).Nodup
  names : (m.map fun s => nm s.id).Nodup
  ownShapes : ∀ s ∈ m, isPrelude s.id = false
  members : ∀ s ∈ m, (s.members.map (·.name)).Nodup
  traits : ∀ s ∈ m, (s.traits.map (·.1)).Nodup ∧ ∀ x ∈ s.members, (x.traits.map (·.1)).Nodup
  targets : ∀ s ∈ m, ∀ x ∈ s.members, (typeOf m x.target).isSome = true

/-- The schema of a member: it has the ID of the shape with the name of the member, its place, the
type of its target and, by reference, the schema and the members of its target; its traits are those
of the member and, where the member has none of the kind, those of the target. -/
structure MemberDescribed (nm : String → String) (m : List Shape) (st : State) (s : Shape)
    (x : Member) (i : Nat) (c : Schema) : Prop where
  id : c.id = s.id
  member : c.member = some x.name
  index : c.index = some i
  type : typeOf m x.target = some c.type
  target : ∃ a t, st.find (ref nm x.target) = some a ∧ st.objs[a]? = some t ∧
    c.target = some a ∧ c.members = t.members
  traits : ∀ t, (own x.traits t = none → ¬ Open x.target t) →
    c.traits.lookup t = (own x.traits t).or (inherited m x.target t)

/-- The schema of a shape: it has its ID, type and traits, and a schema for each of its members, in
the order of the model. -/
def Described (nm : String → String) (m : List Shape) (st : State) (s : Shape) : Prop :=
  ∃ a o d, st.find (.schema (nm s.id)) = some a ∧ st.objs[a]? = some o ∧ o.id = s.id ∧
    o.member = none ∧ o.type = s.type ∧ o.target = none ∧ o.index = none ∧
    (∀ t, o.traits.lookup t = own s.traits t) ∧ st.dicts[o.members]? = some d ∧
    d.map (·.1) = s.members.map (·.name) ∧
    ∀ (i : Nat) (x : Member), s.members[i]? = some x → ∃ b c, d[i]? = some (x.name, some b) ∧
      st.objs[b]? = some c ∧ MemberDescribed nm m st s x i c

/-- The schema found by following names of members from a schema: `s.members[…].members[…]`. -/
def follow (st : State) : Schema → List String → Option Schema
  | s, [] => some s
  | s, n :: ns =>
    ((((st.dicts[s.members]?).bind fun d => d.lookup n).join).bind fun a => st.objs[a]?).bind
      fun c => follow st c ns

/-- The member found by following names of members from a shape of the model, with the shape it
belongs to; `none` if there is no such member. -/
def memberAt (m : List Shape) : Shape → List String → Option (Shape × Member)
  | _, [] => none
  | s, [n] => (s.members.find? (·.name = n)).map fun x => (s, x)
  | s, n :: ns =>
    (s.members.find? (·.name = n)).bind fun x =>
      (m.find? (·.id = x.target)).bind fun t => memberAt m t ns

/-- The IDs of the traits in the Smithy and AWS models that the classes are named for. -/
def smithyTraits : List (String × String) :=
  [("DefaultTrait", "smithy.api#default"), ("SparseTrait", "smithy.api#sparse"),
    ("TimestampFormatTrait", "smithy.api#timestampFormat"), ("ErrorTrait", "smithy.api#error"),
    ("RequiredTrait", "smithy.api#required"), ("InternalTrait", "smithy.api#internal"),
    ("SensitiveTrait", "smithy.api#sensitive"), ("StreamingTrait", "smithy.api#streaming"),
    ("RequiresLengthTrait", "smithy.api#requiresLength"),
    ("UnitTypeTrait", "smithy.api#unitType"), ("MediaTypeTrait", "smithy.api#mediaType"),
    ("EventHeaderTrait", "smithy.api#eventHeader"),
    ("EventPayloadTrait", "smithy.api#eventPayload"), ("JSONNameTrait", "smithy.api#jsonName"),
    ("IdempotencyTokenTrait", "smithy.api#idempotencyToken"),
    ("LongPollTrait", "smithy.api#longPoll"), ("HTTPTrait", "smithy.api#http"),
    ("HTTPErrorTrait", "smithy.api#httpError"), ("HTTPHeaderTrait", "smithy.api#httpHeader"),
    ("HTTPLabelTrait", "smithy.api#httpLabel"), ("HTTPPayloadTrait", "smithy.api#httpPayload"),
    ("HTTPPrefixHeadersTrait", "smithy.api#httpPrefixHeaders"),
    ("HTTPQueryTrait", "smithy.api#httpQuery"),
    ("HTTPQueryParamsTrait", "smithy.api#httpQueryParams"),
    ("HTTPResponseCodeTrait", "smithy.api#httpResponseCode"),
    ("HTTPChecksumRequiredTrait", "smithy.api#httpChecksumRequired"),
    ("EndpointTrait", "smithy.api#endpoint"), ("HostLabelTrait", "smithy.api#hostLabel"),
    ("HTTPAPIKeyAuthTrait", "smithy.api#httpApiKeyAuth"), ("XMLNameTrait", "smithy.api#xmlName"),
    ("XMLNamespaceTrait", "smithy.api#xmlNamespace"),
    ("XMLFlattenedTrait", "smithy.api#xmlFlattened"),
    ("XMLAttributeTrait", "smithy.api#xmlAttribute"),
    ("RestJson1Trait", "aws.protocols#restJson1"), ("AwsQueryTrait", "aws.protocols#awsQuery"),
    ("AwsQueryErrorTrait", "aws.protocols#awsQueryError"), ("SigV4Trait", "aws.auth#sigv4")]

end Verif.GeneratedSchemas

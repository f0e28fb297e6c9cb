import Verif.Dict
import Mathlib.Tactic.Common

/-!
# Structures of a generated client: model and specification (C100-C102)

Clients are Python code that is written by a generator.  This models the classes it writes for structures and errors
(codegen/core/src/main/java/software/amazon/smithy/python/codegen: generators/StructureGenerator.java,
generators/MemberErrorCorrectionGenerator.java, RequiredMemberTargetIndex.java, CodegenUtils.java,
PythonSymbolProvider.java) and what Python makes of them: the constructor of a data class, `deserialize` with the correction
of members that a service has left out, and `_smithy_default`.

The model of a service is a list of shapes, which refer to each other by their place.  What a deserializer reads for a member
is abstract here (`V`); see C44, C45 and C79 for it.
-/

set_option autoImplicit false

namespace Verif.Generated

open Verif.Dict

abbrev Text := List Char

/-! ## Models of services -/

/-- The value of the trait `default`.  Lists and maps are empty.  Simplified: numbers are whole. -/
inductive Node where
  | null
  | bool (b : Bool)
  | num (n : Int)
  | str (t : Text)
  | emptyList
  | emptyMap
  deriving DecidableEq, Repr

/-- A member of a structure: its name in the model of the service, its target, whether it may be null for a client
(`NullableIndex.isMemberNullable` of the Smithy library), and the trait `default`. -/
structure Member where
  name : Text
  target : Nat
  nullable : Bool
  default : Option Node
  deriving DecidableEq, Repr

/-- The traits `error` and `retryable` (with `throttling`). -/
structure ErrorTraits where
  fault : Text
  retryable : Option Bool
  deriving DecidableEq, Repr

structure Struct where
  error : Option ErrorTraits
  members : List Member
  deriving DecidableEq, Repr

inductive Kind where
  | boolean
  /-- byte, short, integer, long and bigInteger -/
  | integer
  /-- float and double -/
  | float
  | bigDecimal
  | string
  | blob (streaming : Bool)
  | timestamp
  | document
  | list
  | map
  | enum
  | intEnum
  | union (streaming : Bool)
  | struct (s : Struct)
  deriving DecidableEq, Repr

abbrev Model := List Kind

/-! ## Values of Python -/

/-- Values: those that are written into generated code, those that are read by a deserializer, and objects of generated
classes with their attributes. -/
inductive Value (V : Type) where
  | none
  | bool (b : Bool)
  | int (n : Int)
  | float (n : Int)
  | decimal (n : Int)
  | str (t : Text)
  | bytes (b : List UInt8)
  /-- `datetime` in UTC, in seconds since 1970 -/
  | time (seconds : Int)
  | document (n : Node)
  | emptyList
  | emptyMap
  /-- `cls(value)` for an enum -/
  | enum (cls : Nat) (value : Node)
  /-- `cls._corrected(value)` for an enum, see C95 -/
  | placeholder (cls : Nat) (value : Node)
  /-- the variant of a union that is not known -/
  | unknown (cls : Nat) (tag : Text)
  | read (v : V)
  | object (cls : Nat) (fields : List (Text × Value V))

/-- Expressions that the generator writes. -/
inductive Expr (V : Type) where
  | value (v : Value V)
  /-- `cls._smithy_default()` -/
  | smithyDefault (cls : Nat)

inductive Err where
  | typeError
  | attributeError
  | recursionError
  /-- There is no code, as the generator has failed. -/
  | noCode
  deriving DecidableEq, Repr

variable {V : Type}

/-! ## The generator -/

/-- What is taken from elsewhere: `CaseUtils.toSnakeCase` of the Smithy library, and the time that the text of a default for
a timestamp stands for (CodegenUtils.java:259-294). -/
structure Gen where
  snake : Text → Text
  instant : Text → Int

/-- `reserved-member-names.txt`. -/
def reserved : List Text :=
  ["and", "as", "assert", "async", "await", "break", "class", "continue", "def", "del", "elif", "else", "except", "finally",
    "for", "from", "global", "if", "import", "in", "is", "lambda", "nonlocal", "not", "or", "pass", "raise", "return", "try",
    "while", "with", "yield", "bool", "bytes", "bytearray", "dict", "float", "int", "list", "str", "datetime"].map String.toList

/-- `isErrorMessage` (CodegenUtils.java:53-56 and 127-130); names are ASCII. -/
def isMessage (s : Struct) (x : Member) : Bool :=
  ["errormessage".toList, "error_message".toList, "message".toList].contains (x.name.map Char.toLower) && s.error.isSome

/-- `toMemberName` (PythonSymbolProvider.java:138-155).  Lines 146-148 escape names that only errors reserve, but ask whether
the member, not the structure, has the trait `error`, which no member has. -/
def Gen.pyName (g : Gen) (s : Struct) (x : Member) : Text :=
  if isMessage s x then "message".toList
  else if reserved.contains (g.snake x.name) then g.snake x.name ++ ['_']
  else g.snake x.name

/-- `isRequiredMember` (CodegenUtils.java:140-142). -/
def isRequired (x : Member) : Bool := !x.nullable && x.default.isNone

/-- Not `filterEventStreamMember` (StructureGenerator.java:280-283, also 505-508). -/
def isStream (m : Model) (x : Member) : Bool := m[x.target]? == some (.union true)

/-- `filterPropertyMembers` (268-278). -/
def properties (m : Model) (s : Struct) : List Member := s.members.filter fun x => !isMessage s x && !isStream m x

/-- `getDefaultValue` (285-334) for a target of this kind, with the value of the Python literal that is written.  Defaults of
other types than the target's, which the Smithy library does not let pass, are `none`.  The default of a blob is a text in base64,
so that it is ASCII. -/
def Gen.declared (g : Gen) (cls : Nat) : Kind → Node → Value V
  | .document, n => .document n
  | _, .null => .none
  | .timestamp, .num n => .time n
  | .timestamp, .str t => .time (g.instant t)
  | .blob _, .str t => .bytes (t.map fun c => UInt8.ofNat c.toNat)
  | .enum, .str t => .enum cls (.str t)
  | .intEnum, .num n => .enum cls (.num n)
  | .boolean, .bool b => .bool b
  | .integer, .num n => .int n
  | .float, .num n => .int n
  | .bigDecimal, .num n => .int n
  | .string, .str t => .str t
  | .list, .emptyList => .emptyList
  | .map, .emptyMap => .emptyMap
  | _, _ => .none

/-- The default of an optional member (213-249). -/
def Gen.optional (g : Gen) (m : Model) (x : Member) : Value V :=
  match x.default, m[x.target]? with
  | some n, some k => g.declared x.target k n
  | _, _ => .none

/-- The loop over the members of a structure (MemberErrorCorrectionGenerator.java:185-192), where `visit` gives `none` if it
does not come to an end. -/
def every (visit : Nat → Option (Option (Expr V))) : List Member → Option Bool
  | [] => some true
  | x :: xs =>
    if isRequired x then
      match visit x.target with
      | none => none
      | some none => some false
      | some (some _) => every visit xs
    else every visit xs

/-- `MemberErrorCorrectionGenerator` (60-200), down to a depth: the expression for a missing member, or none.  `none` is for a
recursion that is deeper, and for a target that is not in the model. -/
def visit (m : Model) : Nat → Nat → Option (Option (Expr V))
  | 0, _ => none
  | n + 1, id =>
    match m[id]? with
    | none => none
    | some .boolean => some (some (.value (.bool false)))
    | some .integer => some (some (.value (.int 0)))
    | some .float => some (some (.value (.float 0)))
    | some .bigDecimal => some (some (.value (.decimal 0)))
    | some .string => some (some (.value (.str [])))
    | some (.blob streaming) => if streaming then some none else some (some (.value (.bytes [])))
    | some .timestamp => some (some (.value (.time 0)))
    | some .document => some (some (.value (.document .null)))
    | some .list => some (some (.value .emptyList))
    | some .map => some (some (.value .emptyMap))
    | some .enum => some (some (.value (.placeholder id (.str []))))
    | some .intEnum => some (some (.value (.placeholder id (.num (-1)))))
    | some (.union streaming) => if streaming then some none else some (some (.value (.unknown id [])))
    | some (.struct s) =>
      match every (visit m n) s.members with
      | none => none
      | some false => some none
      | some true => some (some (.smithyDefault id))

/-- `RequiredMemberTargetIndex` (RequiredMemberTargetIndex.java:26-47). -/
def isRequiredTarget (m : Model) (id : Nat) : Bool :=
  m.any fun k =>
    match k with
    | .struct s => s.members.any fun x => isRequired x && x.target == id
    | _ => false

/-- A class that is written for a structure: the fields of the data class with their defaults, the names that the consumer
assigns to by the index of the member, the expressions for members that are missing, and the arguments in `_smithy_default`. -/
structure Class (V : Type) where
  fields : List (Text × Option (Value V))
  consumer : List (Option Text)
  corrections : List (Text × Expr V)
  smithyDefault : Option (List (Text × Expr V))

/-- The fields of `CallError` and `ModeledError` (smithy_core/exceptions.py:19-67).  The base class that is generated for a
service has none of its own (ServiceErrorGenerator.java:34-42). -/
def errorFields : List (Text × Option (Value V)) :=
  [("fault".toList, some (.str "client".toList)), ("message".toList, some (.str [])), ("is_retry_safe".toList, some .none),
    ("retry_after".toList, some .none), ("is_throttling_error".toList, some (.bool false)),
    ("is_timeout_error".toList, some (.bool false))]

/-- An annotation in the body of a data class: it replaces a field of the same name; if it has no default, that of the field
is found as an attribute of the class (dataclasses.py:723-737 of Python 3.11).  Simplified: members that are sensitive are
written with `field(repr=False)`, which hides the attribute. -/
def annotate (fields : List (Text × Option (Value V))) (a : Text × Option (Value V)) : List (Text × Option (Value V)) :=
  put fields a.1 (a.2.or (fields.lookup a.1).join)

/-- The annotations that an error has besides its members (StructureGenerator.java:134-162). -/
def errorAnnotations (t : ErrorTraits) : List (Text × Option (Value V)) :=
  ("fault".toList, some (.str t.fault)) ::
    (match t.retryable with
    | none => []
    | some throttling => ("is_retry_safe".toList, some (.bool true)) ::
      if throttling then [("is_throttling_error".toList, some (.bool true))] else [])

/-- `writeProperties` (180-260): the required members first. -/
def Gen.annotations (g : Gen) (m : Model) (s : Struct) : List (Text × Option (Value V)) :=
  ((properties m s).filter isRequired).map (fun x => (g.pyName s x, none)) ++
    ((properties m s).filter fun x => !isRequired x).map fun x => (g.pyName s x, some (g.optional m x))

/-- The fields of a class (98-171). -/
def Gen.fields (g : Gen) (m : Model) (s : Struct) : List (Text × Option (Value V)) :=
  let base := match s.error with
    | none => []
    | some t => (errorAnnotations t).foldl annotate errorFields
  (g.annotations m s).foldl annotate base

/-- `errorCorrections` (440-451) for the required properties.  Simplified: a map in Java, which has the last expression if
several members have the same name. -/
def corrections (visit : Nat → Option (Option (Expr V))) : List (Text × Nat) → Option (List (Text × Expr V))
  | [] => some []
  | (name, target) :: xs =>
    match visit target, corrections visit xs with
    | some none, some r => some r
    | some (some e), some r => some ((name, e) :: r)
    | _, _ => none

/-- The class of a structure, if the generator comes to an end within the depth.  `_smithy_default` is written under the
conditions of lines 475-481; its arguments (490-500) are the expressions of the corrections, none of which is missing then. -/
def Gen.generate (g : Gen) (m : Model) (n : Nat) (id : Nat) : Option (Class V) :=
  match m[id]? with
  | some (.struct s) =>
    let required := ((properties m s).filter isRequired).map fun x => (g.pyName s x, x.target)
    match corrections (visit m n) required, (visit m n id : Option (Option (Expr V))) with
    | some cs, some own =>
      some {
        fields := g.fields m s
        consumer := s.members.map fun x => if isStream m x then none else some (g.pyName s x)
        corrections := cs
        smithyDefault := if isRequiredTarget m id then own.map fun _ => cs else none }
    | _, _ => none
  | _ => none

/-! ## Generated code -/

/-- The constructor of a data class with keyword arguments. -/
def construct (cls : Nat) (fields : List (Text × Option (Value V))) (kwargs : List (Text × Value V)) :
    Except Err (Value V) :=
  if kwargs.any fun k => (fields.lookup k.1).isNone then .error .typeError
  else if fields.any fun f => f.2.isNone && (kwargs.lookup f.1).isNone then .error .typeError
  else .ok (.object cls (fields.map fun f => (f.1, (kwargs.lookup f.1).getD (f.2.getD .none))))

def evalArgs (eval : Expr V → Except Err (Value V)) : List (Text × Expr V) → Except Err (List (Text × Value V))
  | [] => .ok []
  | (name, e) :: r =>
    match eval e with
    | .error x => .error x
    | .ok v =>
      match evalArgs eval r with
      | .error x => .error x
      | .ok vs => .ok ((name, v) :: vs)

/-- The value of an expression; calls may be nested `n` deep. -/
def eval (classes : Nat → Option (Class V)) : Nat → Expr V → Except Err (Value V)
  | _, .value v => .ok v
  | 0, .smithyDefault _ => .error .recursionError
  | n + 1, .smithyDefault id =>
    match classes id with
    | none => .error .noCode
    | some c =>
      match c.smithyDefault with
      | none => .error .attributeError
      | some args =>
        match evalArgs (eval classes n) args with
        | .error x => .error x
        | .ok kwargs => construct id c.fields kwargs

/-- `_consumer` (406-410 and 502-519) called for some members, given by their index, with the values that are read. -/
def consume (consumer : List (Option Text)) (reads : List (Nat × V)) : List (Text × Value V) :=
  reads.foldl (fun kwargs r =>
    match consumer[r.1]? with
    | some (some name) => put kwargs name (.read r.2)
    | _ => kwargs) []

/-- The corrections (453-463). -/
def correct (eval : Expr V → Except Err (Value V)) : List (Text × Expr V) → List (Text × Value V) →
    Except Err (List (Text × Value V))
  | [], kwargs => .ok kwargs
  | (name, e) :: cs, kwargs =>
    if (kwargs.lookup name).isSome then correct eval cs kwargs
    else
      match eval e with
      | .error x => .error x
      | .ok v => correct eval cs (put kwargs name v)

/-- `deserialize` (398-417) of the class of a structure, where the deserializer reads these members. -/
def Gen.deserialize (g : Gen) (m : Model) (n : Nat) (id : Nat) (reads : List (Nat × V)) : Except Err (Value V) :=
  match (g.generate m n id : Option (Class V)) with
  | none => .error .noCode
  | some c =>
    match correct (eval (g.generate m n) n) c.corrections (consume c.consumer reads) with
    | .error x => .error x
    | .ok kwargs => construct id c.fields kwargs

/-- `isNullable` (382-388). -/
def mayBeNone (m : Model) (x : Member) : Bool :=
  x.nullable && !(m[x.target]? == some .document && x.default.isSome)

/-- Whether a value is `None`. -/
def isNone : Value V → Bool
  | .none => true
  | _ => false

/-- `serialize_members` (347-370) of an object with these attributes: the members that are written, by their index, with the
values that the serializer is given.  Values that a serializer does not take, as `None`, are not looked at here. -/
def Gen.serializeFrom (g : Gen) (m : Model) (s : Struct) (fields : List (Text × Value V)) : Nat → List Member →
    Except Err (List (Nat × Value V))
  | _, [] => .ok []
  | i, x :: xs =>
    if isStream m x then g.serializeFrom m s fields (i + 1) xs
    else
      match fields.lookup (g.pyName s x) with
      | none => .error .attributeError
      | some v =>
        if mayBeNone m x && isNone v then g.serializeFrom m s fields (i + 1) xs
        else
          match g.serializeFrom m s fields (i + 1) xs with
          | .error e => .error e
          | .ok r => .ok ((i, v) :: r)

def Gen.serialize (g : Gen) (m : Model) (s : Struct) (fields : List (Text × Value V)) : Except Err (List (Nat × Value V)) :=
  g.serializeFrom m s fields 0 s.members

/-! ## Specification -/

/-- A member that is an attribute of the objects: it is not the message of an error, and no event stream. -/
def IsProperty (m : Model) (s : Struct) (x : Member) : Prop :=
  x ∈ s.members ∧ m[x.target]? ≠ some (.union true) ∧
    ¬ (s.error.isSome = true ∧
      x.name.map Char.toLower ∈ ["errormessage".toList, "error_message".toList, "message".toList])

/-- A member that a service has to send: it cannot be null and has no default. -/
def Required (x : Member) : Prop := x.nullable = false ∧ x.default = none

/-- Values that can stand for a member that is missing, as the specification of Smithy has them ("client error correction"):
false, zero, an empty text, blob, list or map, the beginning of 1970, a null document, a value that is not known for enums and
unions, and for a structure one that has such values for its required members. -/
inductive Corrected (g : Gen) (m : Model) : Nat → Value V → Prop
  | boolean {id : Nat} : m[id]? = some .boolean → Corrected g m id (.bool false)
  | integer {id : Nat} : m[id]? = some .integer → Corrected g m id (.int 0)
  | float {id : Nat} : m[id]? = some .float → Corrected g m id (.float 0)
  | bigDecimal {id : Nat} : m[id]? = some .bigDecimal → Corrected g m id (.decimal 0)
  | string {id : Nat} : m[id]? = some .string → Corrected g m id (.str [])
  | blob {id : Nat} : m[id]? = some (.blob false) → Corrected g m id (.bytes [])
  | timestamp {id : Nat} : m[id]? = some .timestamp → Corrected g m id (.time 0)
  | document {id : Nat} : m[id]? = some .document → Corrected g m id (.document .null)
  | list {id : Nat} : m[id]? = some .list → Corrected g m id .emptyList
  | map {id : Nat} : m[id]? = some .map → Corrected g m id .emptyMap
  | enum {id : Nat} : m[id]? = some .enum → Corrected g m id (.placeholder id (.str []))
  | intEnum {id : Nat} : m[id]? = some .intEnum → Corrected g m id (.placeholder id (.num (-1)))
  | union {id : Nat} : m[id]? = some (.union false) → Corrected g m id (.unknown id [])
  | struct {id : Nat} {s : Struct} (value : Member → Value V) (fields : List (Text × Value V)) :
      m[id]? = some (.struct s) →
      (∀ x, IsProperty m s x → fields.lookup (g.pyName s x) = some (value x)) →
      (∀ x, IsProperty m s x → Required x → Corrected g m x.target (value x)) →
      (∀ x, IsProperty m s x → ¬ Required x → value x = g.optional m x) →
      Corrected g m id (.object id fields)

/-- Shapes that nothing can stand for: blobs that are streamed, event streams, and structures that require one of these. -/
inductive Stuck (m : Model) : Nat → Prop
  | blob {id : Nat} : m[id]? = some (.blob true) → Stuck m id
  | union {id : Nat} : m[id]? = some (.union true) → Stuck m id
  | struct {id : Nat} {s : Struct} (x : Member) : m[id]? = some (.struct s) → x ∈ s.members → Required x →
      Stuck m x.target → Stuck m id

/-- What the Smithy library and the names in the model see to: targets exist, there is no cycle of structures that require each
other, and the attributes of a class have different names, which for errors are not those of the base classes.  They are not
those of methods either, which Python would take for defaults; this is not in the model. -/
structure Valid (g : Gen) (m : Model) (rank : Nat → Nat) : Prop where
  targets : ∀ (id : Nat) (s : Struct) (x : Member), m[id]? = some (.struct s) → x ∈ s.members → x.target < m.length
  acyclic : ∀ (id : Nat) (s : Struct) (x : Member), m[id]? = some (.struct s) → x ∈ s.members → Required x →
    rank x.target < rank id
  names : ∀ (id : Nat) (s : Struct), m[id]? = some (.struct s) →
    ((s.members.filter fun x => !isStream m x).map (g.pyName s)).Nodup
  errors : ∀ (id : Nat) (s : Struct) (x : Member), m[id]? = some (.struct s) → s.error.isSome = true → IsProperty m s x →
    g.pyName s x ∉ ["fault", "message", "is_retry_safe", "retry_after", "is_throttling_error", "is_timeout_error"].map
      String.toList
  methods : ∀ (id : Nat) (s : Struct) (x : Member), m[id]? = some (.struct s) → IsProperty m s x →
    g.pyName s x ∉ ["serialize", "serialize_members", "deserialize", "deserialize_kwargs", "args", "with_traceback",
      "add_note"].map String.toList

/-- The value that was read last for the member with this index. -/
def lastRead (reads : List (Nat × V)) (i : Nat) : Option V := reads.reverse.lookup i

end Verif.Generated

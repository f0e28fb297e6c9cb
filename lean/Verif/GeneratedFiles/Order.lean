import Mathlib.Tactic.Common
import Mathlib.Logic.Relation
import Mathlib.Data.List.Basic
import Mathlib.Data.List.Sort
import Mathlib.Order.Extension.Linear
import Verif.Common

/-!
# Importing a generated module (C117)

The module `models` of a generated client has the classes of structures, errors, enums and unions,
functions for lists and maps, and constants for operations.  When it is imported, Python runs its
statements one after the other; decorators, base classes, defaults and (before version 3.14) annotations
are evaluated then, in class bodies with the names of the class first.  Each name that is evaluated must
have been defined by then, and stand for what it was written for.
-/

set_option autoImplicit false

namespace Verif.GeneratedFiles.Order

/-! ## Model -/

abbrev Id := String

/-- The default of a member: none (or null), a number, text or truth value, a value of an enum, a time with
an offset of zero or another one, a document, or an empty list or map. -/
inductive Default
  | absent
  | plain
  | enumeration
  | time (utc : Bool)
  | document
  | collection
  deriving DecidableEq, Repr

/-- A member of a structure: its Python name, its target, and its default if it is not required
(`isRequiredMember`, CodegenUtils.java:140-142).  Members for the message of an error have no property
(StructureGenerator.java:268-278) and are left out. -/
structure Member where
  attr : String
  target : Id
  init : Option Default
  deriving DecidableEq, Repr

/-- What a shape is.  Simple shapes have the names in their Python type, enums their base class. -/
inductive Kind
  | simple (names : List String)
  | enumeration (base : String)
  | struct (members : List Member)
  | error (retryable throttling : Bool) (members : List Member)
  | union (streaming : Bool) (variants : List (String × Id))
  | list (element : Id)
  | map (value : Id)
  | operation (input output : Id) (errors : List Id)
  deriving DecidableEq, Repr

structure Shape where
  id : Id
  kind : Kind
  sensitive : Bool := false
  deriving DecidableEq, Repr

/-- What the module defines: the base class of errors, the class of a structure, error or enum, the type of
a union or the constant of an operation, the class of a member of a union, the class for members that are not
known, the deserializer of a union, and the functions of a list or map. -/
inductive Def
  | serviceError
  | shape (id : Id)
  | variant (union : Id) (tag : String)
  | unknown (union : Id)
  | reader (union : Id)
  | serialize (id : Id)
  | deserialize (id : Id)
  deriving DecidableEq, Repr

/-- What a name may stand for: something built in or imported, something that the module defines, the default
of a property, or a method. -/
inductive Obj
  | given (name : String)
  | defined (d : Def)
  | property (attr : String)
  | method (name : String)
  deriving DecidableEq, Repr

/-- In a class body: a name is evaluated, and meant to stand for something, or a name is bound. -/
inductive Item
  | use (name : String) (meant : Obj)
  | bind (name : String) (o : Obj)
  deriving DecidableEq, Repr

/-- A statement of the module: what is evaluated outside of the body of the class, the body, and what is
defined. -/
structure Stmt where
  outer : List (String × Obj)
  body : List Item
  defines : Def
  deriving DecidableEq, Repr

section Writing

/-
What is written depends on the names of what is defined (see C108), on the shapes, on which of them are
recursive (`TopologicalIndex.getRecursiveShapes`), and on whether Python evaluates annotations (before 3.14).
Names of imports are taken to be kept, see C109.
-/
variable (nm : Def → String) (m : List Shape) (rec : Id → Bool) (eager : Bool)

def given (t : String) : String × Obj := (t, .given t)

def named (d : Def) : String × Obj := (nm d, .defined d)

def kindOf (id : Id) : Option Kind := (m.find? (·.id = id)).map (·.kind)

/-- The names in the Python type of a shape (PythonSymbolProvider.java:163-199, 221-226, 248-294, 325-385,
408-410); operations are nobody's target.  The number is for Lean only: the theorems are for all of them. -/
def typeUses : Nat → Id → List (String × Obj)
  | 0, _ => []
  | n + 1, id =>
    match kindOf m id with
    | none => []
    | some (.simple ts) => ts.map given
    | some (.list e) => given "list" :: typeUses n e
    | some (.map v) => given "dict" :: given "str" :: typeUses n v
    | some (.operation _ _ _) => []
    | some _ => [named nm (.shape id)]

def Item.ofUse (u : String × Obj) : Item := .use u.1 u.2

/-- Annotations are evaluated unless they are quoted, or Python is newer. -/
def annotation (quoted : Bool) (us : List (String × Obj)) : List Item :=
  if eager && !quoted then us.map Item.ofUse else []

/-- A method: decorators and annotations are evaluated. -/
def method (name : String) (decorators annotations : List (String × Obj)) : List Item :=
  decorators.map Item.ofUse ++ annotation eager false annotations ++ [.bind name (.method name)]

def isSensitive (id : Id) : Bool := (m.find? (·.id = id)).any (·.sensitive)

/-- `filterEventStreamMember` (StructureGenerator.java:280-283). -/
def isStream (id : Id) : Bool :=
  match kindOf m id with
  | some (.union streaming _) => streaming
  | _ => false

/-- The names that are evaluated for a default (`getDefaultValue`, StructureGenerator.java:285-334;
`getDatetimeConstructor`, CodegenUtils.java:230-247).  That of a document is in a lambda expression. -/
def defaultUses (n : Nat) (x : Member) : Default → List (String × Obj)
  | .absent => []
  | .plain => []
  | .enumeration => [named nm (.shape x.target)]
  | .time utc => given "datetime" :: given "timezone" :: if utc then [] else [given "timedelta"]
  | .document => []
  | .collection => typeUses nm m n x.target

/-- `requiresField` (StructureGenerator.java:209-235). -/
def needsField (x : Member) (d : Default) : Bool :=
  isSensitive m x.target || d = .document || d = .collection

/-- A property (StructureGenerator.java:181-203 for required ones, 205-259 for others).  Python binds the
name before it evaluates the annotation. -/
def property (n : Nat) (x : Member) : List Item :=
  (match x.init with
    | none => if isSensitive m x.target then [.use "field" (.given "field"), .bind x.attr (.property x.attr)] else []
    | some d =>
      (if needsField m x d then [.use "field" (.given "field")] else []) ++
        (defaultUses nm m n x d).map Item.ofUse ++ [.bind x.attr (.property x.attr)]) ++
  annotation eager (rec x.target) (typeUses nm m n x.target)

/-- Required members come first (StructureGenerator.java:70-82). -/
def properties (n : Nat) (members : List Member) : List Item :=
  let written := members.filter fun x => !isStream m x.target
  (written.filter (·.init.isNone) ++ written.filter (·.init.isSome)).flatMap (property nm m rec eager n)

/-- The methods (StructureGenerator.java:336-351, 402-410, 474-488).  `_smithy_default` is only written for
some structures; here it always is. -/
def methods : List Item :=
  method eager "serialize" [] [given "ShapeSerializer"] ++
  method eager "serialize_members" [] [given "ShapeSerializer"] ++
  method eager "deserialize" [given "classmethod"] [given "ShapeDeserializer", given "Self"] ++
  method eager "deserialize_kwargs" [given "classmethod"]
    [given "ShapeDeserializer", given "dict", given "str", given "Any"] ++
  method eager "_smithy_default" [given "classmethod"] [given "Self"]

/-- The methods of the classes of members of unions (UnionGenerator.java:80-88, 126-134). -/
def variantMethods : List Item :=
  method eager "serialize" [] [given "ShapeSerializer"] ++
  method eager "serialize_members" [] [given "ShapeSerializer"] ++
  method eager "deserialize" [given "classmethod"] [given "ShapeDeserializer", given "Self"]

/-- The functions for a list or map (ListGenerator.java:43-61, 78-93; MapGenerator.java:46-64, 80-95). -/
def functions (n : Nat) (id : Id) : List Stmt :=
  [⟨if eager then given "ShapeSerializer" :: given "Schema" :: typeUses nm m n id else [], [], .serialize id⟩,
    ⟨if eager then given "ShapeDeserializer" :: given "Schema" :: typeUses nm m n id else [], [], .deserialize id⟩]

/-- What is written for a shape: nothing for simple ones; EnumGenerator.java:44, IntEnumGenerator.java:44,
StructureGenerator.java:98-122 and 124-171, UnionGenerator.java:62-104, 112-136, 141, 150-190, and
OperationGenerator.java:40-78.  The schemas that are given to operations are imported (C106) and left out. -/
def statements (n : Nat) (s : Shape) : List Stmt :=
  match s.kind with
  | .simple _ => []
  | .enumeration base => [⟨[given "UnknownEnumMixin", given base], [], .shape s.id⟩]
  | .struct members => [⟨[given "dataclass"], properties nm m rec eager n members ++ methods eager, .shape s.id⟩]
  | .error retryable throttling members =>
    [⟨[given "dataclass", named nm .serviceError],
      .bind "fault" (.property "fault") :: annotation eager false [given "Literal"] ++
      (if retryable then .bind "is_retry_safe" (.property "is_retry_safe") :: annotation eager false [given "bool"] ++
        (if throttling then .bind "is_throttling_error" (.property "is_throttling_error") ::
          annotation eager false [given "bool"] else []) else []) ++
      properties nm m rec eager n members ++ methods eager, .shape s.id⟩]
  | .union _ variants =>
    variants.map (fun v => ⟨[given "dataclass"],
      annotation eager (rec v.2) (typeUses nm m n v.2) ++ variantMethods eager, .variant s.id v.1⟩) ++
    [⟨[given "dataclass"], annotation eager false [given "str"] ++ variantMethods eager, .unknown s.id⟩,
      ⟨given "Union" :: (variants.map fun v => named nm (.variant s.id v.1)) ++ [named nm (.unknown s.id)], [],
        .shape s.id⟩,
      ⟨[], .bind "_result" (.property "_result") :: annotation eager false [named nm (.shape s.id)] ++
        method eager "deserialize" [] [given "ShapeDeserializer", named nm (.shape s.id)] ++
        method eager "_consumer" [] [given "Schema", given "ShapeDeserializer"] ++
        method eager "_set_result" [] [named nm (.shape s.id)], .reader s.id⟩]
  | .list _ => functions nm m eager n s.id
  | .map _ => functions nm m eager n s.id
  | .operation input output errors =>
    [⟨given "APIOperation" :: named nm (.shape input) :: named nm (.shape output) :: given "TypeRegistry" ::
      given "ShapeID" :: errors.map fun e => named nm (.shape e), [], .shape s.id⟩]

/-- The module: the base class of errors comes first (DirectedPythonClientCodegen.java:106,
ServiceErrorGenerator.java:31-44), then the shapes in the order in which they are generated. -/
def module_ (n : Nat) (order : List Shape) : List Stmt :=
  ⟨[given "ModeledError"], [], .serviceError⟩ :: order.flatMap (statements nm m rec eager n)

end Writing

/-! ### Python -/

/-- The names of the module, and those of each class.  Of bindings of the same name the first in the list
counts, which is the one that was made last. -/
structure State where
  globals : List (String × Obj)
  classes : List (Def × List (String × Obj))
  deriving DecidableEq, Repr

/-- A class body.  There is no result if a name is not bound, or not to what was meant. -/
def runBody (globals : List (String × Obj)) : List (String × Obj) → List Item → Option (List (String × Obj))
  | scope, [] => some scope
  | scope, .use t o :: items =>
    if (scope.lookup t).or (globals.lookup t) = some o then runBody globals scope items else none
  | scope, .bind t o :: items => runBody globals ((t, o) :: scope) items

def exec (nm : Def → String) (st : State) (s : Stmt) : Option State :=
  if s.outer.all fun u => st.globals.lookup u.1 = some u.2 then
    (runBody st.globals [] s.body).map fun scope =>
      ⟨named nm s.defines :: st.globals, (s.defines, scope) :: st.classes⟩
  else none

def run (nm : Def → String) : State → List Stmt → Option State
  | st, [] => some st
  | st, s :: stmts => (exec nm st s).bind fun st => run nm st stmts

/-- The module is imported: at first there are the names that are built in or imported. -/
def load (nm : Def → String) (m : List Shape) (rec : Id → Bool) (eager : Bool) (outside : List String) (n : Nat)
    (order : List Shape) : Option State :=
  run nm ⟨outside.map given, []⟩ (module_ nm m rec eager n order)

/-! ## Specification -/

/-- The shapes a shape refers to. -/
def targets : Kind → List Id
  | .simple _ => []
  | .enumeration _ => []
  | .struct members => members.map (·.target)
  | .error _ _ members => members.map (·.target)
  | .union _ variants => variants.map (·.2)
  | .list e => [e]
  | .map v => [v]
  | .operation input output errors => input :: output :: errors

def Refers (m : List Shape) (a b : Id) : Prop := ∃ s ∈ m, s.id = a ∧ b ∈ targets s.kind

/-- A shape is recursive if there is a way from it to itself. -/
def Recursive (m : List Shape) (a : Id) : Prop := Relation.TransGen (Refers m) a a

/-- The shape is a structure, error, enum or union, which has a class or type of its own. -/
def Kind.isClass : Kind → Bool
  | .enumeration _ => true
  | .struct _ => true
  | .error _ _ _ => true
  | .union _ _ => true
  | _ => false

/-- The members of a structure or error. -/
def Kind.members : Kind → List Member
  | .struct members => members
  | .error _ _ members => members
  | _ => []

/-- The Python type of a shape has the class of another in it: it is that shape, or a list or map of what has it
in it. -/
inductive Contains (m : List Shape) : Id → Id → Prop
  | self (s : Shape) : s ∈ m → s.kind.isClass → Contains m s.id s.id
  | list (s : Shape) (e c : Id) : s ∈ m → s.kind = .list e → Contains m e c → Contains m s.id c
  | map (s : Shape) (v c : Id) : s ∈ m → s.kind = .map v → Contains m v c → Contains m s.id c

/-- The class of `c` must have been defined when the code of `s` is run: it is in the type of a member that is not
recursive or of a list or map itself, which matters to Python before 3.14, or in a default, or in an operation. -/
inductive Needs (m : List Shape) (eager : Bool) (s : Shape) (c : Id) : Prop
  | member (x : Member) : eager → x ∈ s.kind.members → (∀ s' ∈ m, s'.id = x.target → ∀ vs, s'.kind ≠ .union true vs) →
      ¬ Recursive m x.target → Contains m x.target c → Needs m eager s c
  | variant (streaming : Bool) (vs : List (String × Id)) (v : String × Id) : eager → s.kind = .union streaming vs →
      v ∈ vs → ¬ Recursive m v.2 → Contains m v.2 c → Needs m eager s c
  | list (e : Id) : eager → s.kind = .list e → Contains m s.id c → Needs m eager s c
  | map (v : Id) : eager → s.kind = .map v → Contains m s.id c → Needs m eager s c
  | emptyDefault (x : Member) : x ∈ s.kind.members → x.init = some .collection → Contains m x.target c →
      Needs m eager s c
  | enumDefault (x : Member) : x ∈ s.kind.members → x.init = some .enumeration → c = x.target → Needs m eager s c
  | operation (input output : Id) (errors : List Id) : s.kind = .operation input output errors →
      (c = input ∨ c = output ∨ c ∈ errors) → Needs m eager s c

/-- The code of `a` comes before that of `b`. -/
def Before (order : List Shape) (a b : Id) : Prop :=
  ∃ xs s ys t zs, order = xs ++ s :: ys ++ t :: zs ∧ s.id = a ∧ t.id = b

/-- The module has this definition. -/
inductive Defined (m : List Shape) : Def → Prop
  | serviceError : Defined m .serviceError
  | shape (s : Shape) : s ∈ m → s.kind.isClass → Defined m (.shape s.id)
  | operation (s : Shape) (i o : Id) (es : List Id) : s ∈ m → s.kind = .operation i o es → Defined m (.shape s.id)
  | variant (s : Shape) (streaming : Bool) (vs : List (String × Id)) (v : String × Id) : s ∈ m →
      s.kind = .union streaming vs → v ∈ vs → Defined m (.variant s.id v.1)
  | unknown (s : Shape) (streaming : Bool) (vs : List (String × Id)) : s ∈ m → s.kind = .union streaming vs →
      Defined m (.unknown s.id)
  | reader (s : Shape) (streaming : Bool) (vs : List (String × Id)) : s ∈ m → s.kind = .union streaming vs →
      Defined m (.reader s.id)
  | serialize (s : Shape) (e : Id) : s ∈ m → s.kind = .list e ∨ s.kind = .map e → Defined m (.serialize s.id)
  | deserialize (s : Shape) (e : Id) : s ∈ m → s.kind = .list e ∨ s.kind = .map e → Defined m (.deserialize s.id)

/-- A model that Smithy accepts, with what the generator makes of it: the names of definitions differ from each
other and from those of what is built in and imported (`outside`), and no property has the name of either. -/
structure Valid (nm : Def → String) (m : List Shape) (rec : Id → Bool) (outside : List String) : Prop where
  ids : (m.map (·.id)).Nodup
  recursive : ∀ a, rec a = true ↔ Recursive m a
  enums : ∀ s ∈ m, ∀ x ∈ s.kind.members, x.init = some .enumeration →
    ∃ t ∈ m, ∃ base, t.id = x.target ∧ t.kind = .enumeration base
  collections : ∀ s ∈ m, ∀ x ∈ s.kind.members, x.init = some .collection →
    ∃ t ∈ m, t.id = x.target ∧ ∃ e, t.kind = .list e ∨ t.kind = .map e
  operations : ∀ s ∈ m, ∀ i o es, s.kind = .operation i o es → ∀ a, a = i ∨ a = o ∨ a ∈ es →
    ∃ t ∈ m, t.id = a ∧ t.kind.isClass
  names : ∀ d e, Defined m d → Defined m e → nm d = nm e → d = e
  apart : ∀ d, Defined m d → nm d ∉ outside
  common : ∀ t ∈ ["dataclass", "classmethod", "ShapeSerializer", "ShapeDeserializer", "Schema", "Self", "Any", "dict",
    "list", "str", "bool", "Literal", "Union", "ModeledError", "UnknownEnumMixin", "APIOperation", "TypeRegistry",
    "ShapeID"], t ∈ outside
  bases : ∀ s ∈ m, ∀ b, s.kind = .enumeration b → b ∈ outside
  types : ∀ s ∈ m, ∀ ts, s.kind = .simple ts → ∀ t ∈ ts, t ∈ outside
  field : ∀ s ∈ m, ∀ x ∈ s.kind.members, (∃ t ∈ m, t.id = x.target ∧ t.sensitive) ∨ x.init = some .document ∨
    x.init = some .collection → "field" ∈ outside
  times : ∀ s ∈ m, ∀ x ∈ s.kind.members, ∀ utc, x.init = some (.time utc) →
    "datetime" ∈ outside ∧ "timezone" ∈ outside ∧ (utc = false → "timedelta" ∈ outside)
  attrs : ∀ s ∈ m, ∀ x ∈ s.kind.members, x.attr ∉ outside ∧ ∀ d, Defined m d → x.attr ≠ nm d
  fixed : ∀ t ∈ ["fault", "is_retry_safe", "is_throttling_error", "_result", "serialize", "serialize_members",
    "deserialize", "deserialize_kwargs", "_smithy_default", "_consumer", "_set_result"], t ∉ outside ∧
    ∀ d, Defined m d → t ≠ nm d

/-! ## Lemmas -/

/-- The names that are evaluated in a class body, and those that are bound. -/
def bodyUses : List Item → List (String × Obj)
  | [] => []
  | .use t o :: items => (t, o) :: bodyUses items
  | .bind _ _ :: items => bodyUses items

def bodyBinds : List Item → List (String × Obj)
  | [] => []
  | .use _ _ :: items => bodyBinds items
  | .bind t o :: items => (t, o) :: bodyBinds items

theorem bodyUses_append (a b : List Item) : bodyUses (a ++ b) = bodyUses a ++ bodyUses b := by
  induction a with
  | nil => rfl
  | cons i a ih => cases i <;> simp [bodyUses, ih]

theorem bodyBinds_append (a b : List Item) : bodyBinds (a ++ b) = bodyBinds a ++ bodyBinds b := by
  induction a with
  | nil => rfl
  | cons i a ih => cases i <;> simp [bodyBinds, ih]

theorem bodyUses_map (us : List (String × Obj)) : bodyUses (us.map Item.ofUse) = us := by
  induction us with
  | nil => rfl
  | cons u us ih => simp [Item.ofUse, bodyUses, ih]

theorem bodyBinds_map (us : List (String × Obj)) : bodyBinds (us.map Item.ofUse) = [] := by
  induction us with
  | nil => rfl
  | cons u us ih => simp [Item.ofUse, bodyBinds, ih]

theorem lookup_none {l : List (String × Obj)} {t : String} (h : ∀ u ∈ l, u.1 ≠ t) : l.lookup t = none := by
  induction l with
  | nil => rfl
  | cons u l ih =>
    have h1 : (t == u.1) = false := by
      simpa using fun e => h u (by simp) e.symm
    rw [List.lookup_cons, h1]
    exact ih fun v hv => h v (by simp [hv])

theorem runBody_eq (g : List (String × Obj)) (items : List Item) : ∀ scope : List (String × Obj),
    (∀ b ∈ scope ++ bodyBinds items, ∀ u ∈ bodyUses items, b.1 ≠ u.1) →
    ((runBody g scope items).isSome ↔ ∀ u ∈ bodyUses items, g.lookup u.1 = some u.2) ∧
      ∀ r, runBody g scope items = some r → r = (bodyBinds items).reverse ++ scope := by
  induction items with
  | nil => intro scope _; simp [runBody, bodyUses, bodyBinds]
  | cons i items ih =>
    intro scope h
    cases i with
    | use t o =>
      have hn : scope.lookup t = none := by
        apply lookup_none
        intro b hb
        exact h b (by simp [hb]) (t, o) (by simp [bodyUses])
      obtain ⟨h1, h2⟩ := ih scope fun b hb u hu => h b (by simpa [bodyBinds] using hb) u (by simp [bodyUses, hu])
      rw [runBody, hn, Option.none_or]
      constructor
      · by_cases e : g.lookup t = some o
        · rw [if_pos e, h1]; simp [bodyUses, e]
        · rw [if_neg e]; simp [bodyUses, e]
      · intro r hr
        split at hr
        · exact h2 r hr
        · cases hr
    | bind t o =>
      obtain ⟨h1, h2⟩ := ih ((t, o) :: scope) fun b hb u hu =>
        h b (by simp [bodyBinds] at hb ⊢; tauto) u (by simpa [bodyUses] using hu)
      rw [runBody]
      exact ⟨h1, fun r hr => by rw [h2 r hr]; simp [bodyBinds]⟩

/-- All names that a statement evaluates. -/
def Stmt.uses (s : Stmt) : List (String × Obj) := s.outer ++ bodyUses s.body

/-- A statement in which the names are those of what is meant, and none of which is hidden by the class. -/
structure Written (nm : Def → String) (m : List Shape) (outside : List String) (s : Stmt) : Prop where
  uses : ∀ u ∈ s.uses, (∃ t ∈ outside, u = given t) ∨ ∃ d, Defined m d ∧ u = named nm d
  fresh : ∀ b ∈ bodyBinds s.body, b.1 ∉ outside ∧ ∀ d, Defined m d → b.1 ≠ nm d
  defines : Defined m s.defines

/-- Everything has been defined when it is needed. -/
def Avail (nm : Def → String) : List Def → List Stmt → Prop
  | _, [] => True
  | done, s :: stmts => (∀ d, named nm d ∈ s.uses → d ∈ done) ∧ Avail nm (s.defines :: done) stmts

theorem avail_congr {nm : Def → String} (stmts : List Stmt) : ∀ {D E : List Def}, (∀ d, d ∈ D ↔ d ∈ E) →
    (Avail nm D stmts ↔ Avail nm E stmts) := by
  induction stmts with
  | nil => intros; exact Iff.rfl
  | cons s stmts ih =>
    intro D E h
    simp only [Avail]
    rw [ih (D := s.defines :: D) (E := s.defines :: E) (by intro d; simp [h d])]
    simp only [h]

theorem avail_append {nm : Def → String} (a b : List Stmt) : ∀ D : List Def,
    (Avail nm D (a ++ b) ↔ Avail nm D a ∧ Avail nm (a.map (·.defines) ++ D) b) := by
  induction a with
  | nil => intro D; simp [Avail]
  | cons s a ih =>
    intro D
    simp only [List.cons_append, Avail, ih, and_assoc]
    rw [avail_congr b (D := a.map (·.defines) ++ s.defines :: D) (E := (s :: a).map (·.defines) ++ D)
      (by intro d; simp only [List.mem_append, List.map_cons, List.mem_cons]; tauto)]

section Run

variable {nm : Def → String} {m : List Shape} {outside : List String}

def start (nm : Def → String) (outside : List String) (done : List Def) : List (String × Obj) :=
  done.map (named nm) ++ outside.map given

theorem lookup_given (ha : ∀ d, Defined m d → nm d ∉ outside) (done : List Def) (hd : ∀ d ∈ done, Defined m d) {t : String} (ht : t ∈ outside) :
    (start nm outside done).lookup t = some (.given t) := by
  induction done with
  | nil =>
    simp only [start, List.map_nil, List.nil_append]
    clear ha hd
    induction outside with
    | nil => cases ht
    | cons x l ih =>
      rw [List.map_cons, List.lookup_cons]
      by_cases e : t = x
      · subst e; simp [given]
      · have : (t == (given x).1) = false := by simpa [given] using e
        rw [this]
        exact ih (by simpa [e] using ht)
  | cons d done ih =>
    simp only [start, List.map_cons, List.cons_append]
    rw [List.lookup_cons]
    have : (t == (named nm d).1) = false := by
      have : t ≠ nm d := fun e => ha d (hd d (by simp)) (e ▸ ht)
      simpa [named] using this
    rw [this]
    exact ih fun e he => hd e (by simp [he])

theorem lookup_named (hn : ∀ d e, Defined m d → Defined m e → nm d = nm e → d = e)
    (ha : ∀ d, Defined m d → nm d ∉ outside) (done : List Def) (hd : ∀ d ∈ done, Defined m d) (d : Def)
    (h0 : Defined m d) :
    (start nm outside done).lookup (nm d) = some (.defined d) ↔ d ∈ done := by
  induction done with
  | nil =>
    simp only [start, List.map_nil, List.nil_append, List.not_mem_nil, iff_false]
    rw [lookup_none]
    · simp
    · intro u hu
      obtain ⟨t, ht, rfl⟩ := List.mem_map.1 hu
      intro e
      exact ha d h0 (by rw [← e]; exact ht)
  | cons e done ih =>
    simp only [start, List.map_cons, List.cons_append]
    rw [List.lookup_cons]
    by_cases h : d = e
    · subst h; simp [named]
    · have : (nm d == (named nm e).1) = false := by
        have : nm d ≠ nm e := fun x => h (hn _ _ h0 (hd e (by simp)) x)
        simpa [named] using this
      rw [this]
      simp only [List.mem_cons, h, false_or]
      exact ih fun e he => hd e (by simp [he])

theorem exec_iff (hn : ∀ d e, Defined m d → Defined m e → nm d = nm e → d = e)
    (ha : ∀ d, Defined m d → nm d ∉ outside) {s : Stmt}
    (hs : Written nm m outside s) (done : List Def) (hd : ∀ d ∈ done, Defined m d) (cls : List (Def × List (String × Obj))) :
    ((∀ d, named nm d ∈ s.uses → d ∈ done) →
      exec nm ⟨start nm outside done, cls⟩ s =
        some ⟨start nm outside (s.defines :: done), (s.defines, (bodyBinds s.body).reverse) :: cls⟩) ∧
    (¬ (∀ d, named nm d ∈ s.uses → d ∈ done) → exec nm ⟨start nm outside done, cls⟩ s = none) := by
  have hu : ∀ u ∈ s.uses, ((start nm outside done).lookup u.1 = some u.2 ↔ ∀ d, u = named nm d → d ∈ done) := by
    intro u hu
    rcases hs.uses u hu with ⟨t, ht, rfl⟩ | ⟨d, h0, rfl⟩
    · simp only [given, lookup_given ha done hd ht, true_iff]
      intro d hd
      simp [named] at hd
    · simp only [named, lookup_named hn ha done hd d h0]
      constructor
      · intro h e he
        simp only [Prod.mk.injEq, Obj.defined.injEq] at he
        rw [← he.2]; exact h
      · intro h; exact h d rfl
  obtain ⟨h1, h2⟩ := runBody_eq (start nm outside done) s.body [] (by
    intro b hb u hu e
    rcases hs.uses u (by simp [Stmt.uses, hu]) with ⟨t, ht, rfl⟩ | ⟨d, h0, rfl⟩
    · exact (hs.fresh b (by simpa using hb)).1 (by rw [e]; exact ht)
    · exact (hs.fresh b (by simpa using hb)).2 d h0 e)
  constructor
  · intro h
    have hall : ∀ u ∈ s.uses, (start nm outside done).lookup u.1 = some u.2 := fun u g =>
      (hu u g).2 fun d e => h d (e ▸ g)
    rw [exec, if_pos (by simpa [Stmt.uses] using fun a b g => hall (a, b) (by simp [Stmt.uses, g]))]
    have := h1.2 fun u g => hall u (by simp [Stmt.uses, g])
    obtain ⟨r, hr⟩ := Option.isSome_iff_exists.1 this
    have e := h2 r hr
    rw [List.append_nil] at e
    simp only [hr, e, Option.map_some]
    rfl
  · intro h
    rw [exec]
    split
    · next g =>
      have : ¬ (runBody (start nm outside done) [] s.body).isSome := by
        intro k
        apply h
        intro d hd
        refine (hu _ hd).1 ?_ d rfl
        rcases List.mem_append.1 hd with hd | hd
        · simpa using List.all_eq_true.1 g _ hd
        · exact h1.1 k _ hd
      rw [Option.not_isSome_iff_eq_none.1 this]
      rfl
    · rfl

/-- The classes after the statements have been run. -/
def classesOf (stmts : List Stmt) (cls : List (Def × List (String × Obj))) : List (Def × List (String × Obj)) :=
  (stmts.map fun s => (s.defines, (bodyBinds s.body).reverse)).reverse ++ cls

theorem run_iff (hn : ∀ d e, Defined m d → Defined m e → nm d = nm e → d = e)
    (ha : ∀ d, Defined m d → nm d ∉ outside) (stmts : List Stmt) :
    (∀ s ∈ stmts, Written nm m outside s) → ∀ (done : List Def), (∀ d ∈ done, Defined m d) →
    ∀ (cls : List (Def × List (String × Obj))),
    ((run nm ⟨start nm outside done, cls⟩ stmts).isSome ↔ Avail nm done stmts) ∧
    ∀ st, run nm ⟨start nm outside done, cls⟩ stmts = some st → st.classes = classesOf stmts cls := by
  induction stmts with
  | nil => intro _ done _ cls; simp [run, Avail, classesOf]
  | cons s stmts ih =>
    intro hs done hd cls
    obtain ⟨h1, h2⟩ := exec_iff hn ha (hs s (by simp)) done hd cls
    by_cases h : ∀ d, named nm d ∈ s.uses → d ∈ done
    · simp only [run, h1 h, Option.bind_some, Avail]
      obtain ⟨i1, i2⟩ := ih (fun x hx => hs x (by simp [hx])) (s.defines :: done)
        (by simpa using ⟨(hs s (by simp)).defines, hd⟩)
        ((s.defines, (bodyBinds s.body).reverse) :: cls)
      refine ⟨by rw [i1]; exact ⟨fun k => ⟨h, k⟩, fun k => k.2⟩, fun st hst => ?_⟩
      rw [i2 st hst]
      simp [classesOf]
    · simp only [run, h2 h, Option.bind_none, Avail]
      refine ⟨by simp [h], by simp⟩

end Run

/-! ### Shapes -/

section Shapes

variable {nm : Def → String} {m : List Shape} {rec : Id → Bool} {eager : Bool} {outside : List String}

theorem named_inj {d e : Def} (h : named nm d = named nm e) : d = e := by
  simp only [named, Prod.mk.injEq, Obj.defined.injEq] at h
  exact h.2

theorem given_ne_named (t : String) (d : Def) : given t ≠ named nm d := by simp [given, named]

theorem named_not_given (d : Def) (t : String) : named nm d ≠ given t := by simp [given, named]

theorem kindOf_some {id : Id} {k : Kind} (h : kindOf m id = some k) : ∃ s ∈ m, s.id = id ∧ s.kind = k := by
  rw [kindOf, Option.map_eq_some_iff] at h
  obtain ⟨s, h1, h2⟩ := h
  exact ⟨s, List.mem_of_find?_eq_some h1, by simpa using List.find?_some h1, h2⟩

theorem eq_of_id (hm : (m.map (·.id)).Nodup) {s t : Shape} (hs : s ∈ m) (ht : t ∈ m) (h : s.id = t.id) : s = t :=
  List.inj_on_of_nodup_map hm hs ht h

theorem kindOf_mem (hm : (m.map (·.id)).Nodup) {s : Shape} (hs : s ∈ m) : kindOf m s.id = some s.kind := by
  rw [kindOf]
  cases h : m.find? (·.id = s.id) with
  | none => exact absurd (List.find?_eq_none.1 h s hs) (by simp)
  | some t =>
    rw [eq_of_id hm (List.mem_of_find?_eq_some h) hs (by simpa using List.find?_some h)]
    rfl

theorem typeUses_sound (n : Nat) : ∀ {id : Id} {d : Def}, named nm d ∈ typeUses nm m n id →
    ∃ c, d = .shape c ∧ Contains m id c := by
  induction n with
  | zero => intro id d h; simp [typeUses] at h
  | succ n ih =>
    intro id d h
    rw [typeUses] at h
    cases hk : kindOf m id with
    | none => simp [hk] at h
    | some k =>
      obtain ⟨s, hs, rfl, hsk⟩ := kindOf_some hk
      rw [hk] at h
      cases k with
      | simple ts =>
        simp only [List.mem_map] at h
        obtain ⟨t, -, ht⟩ := h
        exact absurd ht (given_ne_named t d)
      | list e =>
        simp only [List.mem_cons, named_not_given, false_or] at h
        obtain ⟨c, h1, h2⟩ := ih h
        exact ⟨c, h1, .list s e c hs hsk h2⟩
      | map v =>
        simp only [List.mem_cons, named_not_given, false_or] at h
        obtain ⟨c, h1, h2⟩ := ih h
        exact ⟨c, h1, .map s v c hs hsk h2⟩
      | operation => simp at h
      | enumeration b =>
        simp only [List.mem_singleton] at h
        exact ⟨s.id, named_inj h, .self s hs (by simp [hsk, Kind.isClass])⟩
      | struct ms =>
        simp only [List.mem_singleton] at h
        exact ⟨s.id, named_inj h, .self s hs (by simp [hsk, Kind.isClass])⟩
      | error a b ms =>
        simp only [List.mem_singleton] at h
        exact ⟨s.id, named_inj h, .self s hs (by simp [hsk, Kind.isClass])⟩
      | union a vs =>
        simp only [List.mem_singleton] at h
        exact ⟨s.id, named_inj h, .self s hs (by simp [hsk, Kind.isClass])⟩

theorem typeUses_complete (hm : (m.map (·.id)).Nodup) {a c : Id} (h : Contains m a c) :
    ∃ n, named nm (.shape c) ∈ typeUses nm m n a := by
  induction h with
  | self s hs hk =>
    refine ⟨1, ?_⟩
    rw [typeUses, kindOf_mem hm hs]
    cases hkk : s.kind <;> simp [hkk, Kind.isClass] at hk ⊢
  | list s e c hs hk _ ih =>
    obtain ⟨n, hn⟩ := ih
    refine ⟨n + 1, ?_⟩
    rw [typeUses, kindOf_mem hm hs, hk]
    simp [hn]
  | map s v c hs hk _ ih =>
    obtain ⟨n, hn⟩ := ih
    refine ⟨n + 1, ?_⟩
    rw [typeUses, kindOf_mem hm hs, hk]
    simp [hn]

/-- What the names in a type are. -/
theorem typeUses_written (hv : Valid nm m rec outside) (n : Nat) : ∀ id, ∀ u ∈ typeUses nm m n id,
    (∃ t ∈ outside, u = given t) ∨ ∃ d, Defined m d ∧ u = named nm d := by
  induction n with
  | zero => intro id u h; simp [typeUses] at h
  | succ n ih =>
    intro id u h
    rw [typeUses] at h
    cases hk : kindOf m id with
    | none => simp [hk] at h
    | some k =>
      obtain ⟨s, hs, rfl, hsk⟩ := kindOf_some hk
      rw [hk] at h
      cases k with
      | simple ts =>
        simp only [List.mem_map] at h
        obtain ⟨t, h1, rfl⟩ := h
        exact .inl ⟨t, hv.types s hs ts hsk t h1, rfl⟩
      | list e =>
        rcases List.mem_cons.1 h with rfl | h
        · exact .inl ⟨_, hv.common "list" (by simp), rfl⟩
        · exact ih e u h
      | map v =>
        rcases List.mem_cons.1 h with rfl | h
        · exact .inl ⟨_, hv.common "dict" (by simp), rfl⟩
        rcases List.mem_cons.1 h with rfl | h
        · exact .inl ⟨_, hv.common "str" (by simp), rfl⟩
        · exact ih v u h
      | operation => simp at h
      | enumeration b => exact .inr ⟨_, .shape s hs (by simp [hsk, Kind.isClass]), by simpa using h⟩
      | struct ms => exact .inr ⟨_, .shape s hs (by simp [hsk, Kind.isClass]), by simpa using h⟩
      | error a b ms => exact .inr ⟨_, .shape s hs (by simp [hsk, Kind.isClass]), by simpa using h⟩
      | union a vs => exact .inr ⟨_, .shape s hs (by simp [hsk, Kind.isClass]), by simpa using h⟩

theorem bodyUses_annotation (q : Bool) (us : List (String × Obj)) :
    bodyUses (annotation eager q us) = if eager && !q then us else [] := by
  unfold annotation
  split
  · exact bodyUses_map us
  · rfl

theorem bodyBinds_annotation (q : Bool) (us : List (String × Obj)) : bodyBinds (annotation eager q us) = [] := by
  unfold annotation
  split
  · exact bodyBinds_map us
  · rfl

theorem bodyUses_method (t : String) (ds as : List (String × Obj)) :
    bodyUses (method eager t ds as) = ds ++ if eager then as else [] := by
  simp [method, bodyUses_append, bodyUses_map, bodyUses_annotation, bodyUses]

theorem bodyBinds_method (t : String) (ds as : List (String × Obj)) :
    bodyBinds (method eager t ds as) = [(t, .method t)] := by
  simp [method, bodyBinds_append, bodyBinds_map, bodyBinds_annotation, bodyBinds]

theorem bodyUses_flatMap {α : Type} (f : α → List Item) (l : List α) :
    bodyUses (l.flatMap f) = l.flatMap fun x => bodyUses (f x) := by
  induction l with
  | nil => rfl
  | cons x l ih => simp [bodyUses_append, ih]

theorem bodyBinds_flatMap {α : Type} (f : α → List Item) (l : List α) :
    bodyBinds (l.flatMap f) = l.flatMap fun x => bodyBinds (f x) := by
  induction l with
  | nil => rfl
  | cons x l ih => simp [bodyBinds_append, ih]

/-- What a property needs. -/
theorem named_property {n : Nat} {x : Member} {d : Def} :
    named nm d ∈ bodyUses (property nm m rec eager n x) ↔
      (∃ f, x.init = some f ∧ named nm d ∈ defaultUses nm m n x f) ∨
      (eager = true ∧ rec x.target = false ∧ named nm d ∈ typeUses nm m n x.target) := by
  unfold property
  rw [bodyUses_append, bodyUses_annotation, List.mem_append]
  refine or_congr ?_ ?_
  · cases hx : x.init with
    | none =>
      simp only
      split <;> simp [bodyUses, named]
    | some f =>
      simp only [Option.some.injEq, exists_eq_left', bodyUses_append, bodyUses_map, bodyUses, List.append_nil,
        List.mem_append]
      constructor
      · rintro (h | h)
        · split at h <;> simp [bodyUses, named] at h
        · exact h
      · exact .inr
  · cases eager <;> cases rec x.target <;> simp

theorem mem_properties {n : Nat} {ms : List Member} {u : String × Obj} :
    u ∈ bodyUses (properties nm m rec eager n ms) ↔
      ∃ x ∈ ms, isStream m x.target = false ∧ u ∈ bodyUses (property nm m rec eager n x) := by
  unfold properties
  simp only [bodyUses_flatMap, List.mem_flatMap, List.mem_append, List.mem_filter]
  constructor
  · rintro ⟨x, (⟨⟨h1, h2⟩, -⟩ | ⟨⟨h1, h2⟩, -⟩), h⟩ <;> exact ⟨x, h1, by simpa using h2, h⟩
  · rintro ⟨x, h1, h2, h⟩
    refine ⟨x, ?_, h⟩
    cases x.init <;> simp [h1, h2]

theorem binds_property {n : Nat} {x : Member} : ∀ b ∈ bodyBinds (property nm m rec eager n x), b.1 = x.attr := by
  unfold property
  rw [bodyBinds_append, bodyBinds_annotation, List.append_nil]
  intro b hb
  cases hx : x.init with
  | none =>
    rw [hx] at hb
    simp only at hb
    split at hb
    · simp [bodyBinds] at hb; rw [hb]
    · simp [bodyBinds] at hb
  | some f =>
    rw [hx] at hb
    simp only [bodyBinds_append, bodyBinds_map, List.mem_append] at hb
    rcases hb with (hb | hb) | hb
    · split at hb <;> simp [bodyBinds] at hb
    · simp at hb
    · simp [bodyBinds] at hb; rw [hb]

theorem binds_properties {n : Nat} {ms : List Member} :
    ∀ b ∈ bodyBinds (properties nm m rec eager n ms), ∃ x ∈ ms, b.1 = x.attr := by
  intro b hb
  unfold properties at hb
  simp only [bodyBinds_flatMap, List.mem_flatMap, List.mem_append, List.mem_filter] at hb
  obtain ⟨x, (⟨⟨h1, -⟩, -⟩ | ⟨⟨h1, -⟩, -⟩), h⟩ := hb <;> exact ⟨x, h1, binds_property b h⟩

theorem uses_methods : ∀ u ∈ bodyUses (methods eager), ∃ t ∈ ["dataclass", "classmethod", "ShapeSerializer",
    "ShapeDeserializer", "Schema", "Self", "Any", "dict", "list", "str", "bool", "Literal", "Union", "ModeledError",
    "UnknownEnumMixin", "APIOperation", "TypeRegistry", "ShapeID"], u = given t := by
  cases eager <;> decide

theorem uses_variantMethods : ∀ u ∈ bodyUses (variantMethods eager), ∃ t ∈ ["dataclass", "classmethod",
    "ShapeSerializer", "ShapeDeserializer", "Schema", "Self", "Any", "dict", "list", "str", "bool", "Literal", "Union",
    "ModeledError", "UnknownEnumMixin", "APIOperation", "TypeRegistry", "ShapeID"], u = given t := by
  cases eager <;> decide

theorem binds_methods : ∀ b ∈ bodyBinds (methods eager), b.1 ∈ ["fault", "is_retry_safe", "is_throttling_error",
    "_result", "serialize", "serialize_members", "deserialize", "deserialize_kwargs", "_smithy_default", "_consumer",
    "_set_result"] := by
  cases eager <;> decide

theorem binds_variantMethods : ∀ b ∈ bodyBinds (variantMethods eager), b.1 ∈ ["fault", "is_retry_safe",
    "is_throttling_error", "_result", "serialize", "serialize_members", "deserialize", "deserialize_kwargs",
    "_smithy_default", "_consumer", "_set_result"] := by
  cases eager <;> decide

theorem isSensitive_iff {id : Id} (h : isSensitive m id = true) : ∃ t ∈ m, t.id = id ∧ t.sensitive = true := by
  unfold isSensitive at h
  cases hf : m.find? (·.id = id) with
  | none => simp [hf] at h
  | some t =>
    rw [hf] at h
    exact ⟨t, List.mem_of_find?_eq_some hf, by simpa using List.find?_some hf, by simpa using h⟩

theorem uses_property (hv : Valid nm m rec outside) {n : Nat} {s : Shape} (hs : s ∈ m) {x : Member}
    (hx : x ∈ s.kind.members) : ∀ u ∈ bodyUses (property nm m rec eager n x),
    (∃ t ∈ outside, u = given t) ∨ ∃ d, Defined m d ∧ u = named nm d := by
  intro u hu
  unfold property at hu
  rw [bodyUses_append, bodyUses_annotation, List.mem_append] at hu
  rcases hu with hu | hu
  · cases hi : x.init with
    | none =>
      rw [hi] at hu
      simp only at hu
      split at hu
      · next hsens =>
        simp only [bodyUses, List.mem_singleton] at hu
        exact .inl ⟨"field", hv.field s hs x hx (.inl (isSensitive_iff hsens)), hu⟩
      · simp [bodyUses] at hu
    | some f =>
      rw [hi] at hu
      simp only [bodyUses_append, bodyUses_map, bodyUses, List.append_nil, List.mem_append] at hu
      rcases hu with hu | hu
      · split at hu
        · next hf =>
          simp only [bodyUses, List.mem_singleton] at hu
          refine .inl ⟨"field", hv.field s hs x hx ?_, hu⟩
          simp only [needsField, Bool.or_eq_true, decide_eq_true_eq] at hf
          rcases hf with (hf | rfl) | rfl
          · exact .inl (isSensitive_iff hf)
          · exact .inr (.inl hi)
          · exact .inr (.inr hi)
        · simp [bodyUses] at hu
      · cases f with
        | absent => simp [defaultUses] at hu
        | plain => simp [defaultUses] at hu
        | document => simp [defaultUses] at hu
        | enumeration =>
          obtain ⟨t, ht, b, h1, h2⟩ := hv.enums s hs x hx hi
          refine .inr ⟨.shape x.target, ?_, by simpa [defaultUses] using hu⟩
          rw [← h1]
          exact .shape t ht (by simp [h2, Kind.isClass])
        | collection => exact typeUses_written hv n _ u hu
        | time utc =>
          obtain ⟨h1, h2, h3⟩ := hv.times s hs x hx utc hi
          simp only [defaultUses, List.mem_cons] at hu
          rcases hu with rfl | rfl | hu
          · exact .inl ⟨_, h1, rfl⟩
          · exact .inl ⟨_, h2, rfl⟩
          · cases utc with
            | true => simp at hu
            | false => exact .inl ⟨_, h3 rfl, by simpa using hu⟩
  · split at hu
    · exact typeUses_written hv n _ u hu
    · simp at hu

theorem uses_properties (hv : Valid nm m rec outside) {n : Nat} {s : Shape} (hs : s ∈ m) :
    ∀ u ∈ bodyUses (properties nm m rec eager n s.kind.members),
    (∃ t ∈ outside, u = given t) ∨ ∃ d, Defined m d ∧ u = named nm d := by
  intro u hu
  obtain ⟨x, hx, -, h⟩ := mem_properties.1 hu
  exact uses_property hv hs hx u h

theorem fresh_properties (hv : Valid nm m rec outside) {n : Nat} {s : Shape} (hs : s ∈ m) :
    ∀ b ∈ bodyBinds (properties nm m rec eager n s.kind.members), b.1 ∉ outside ∧ ∀ d, Defined m d → b.1 ≠ nm d := by
  intro b hb
  obtain ⟨x, hx, h⟩ := binds_properties b hb
  rw [h]
  exact hv.attrs s hs x hx

/-- The statements of the module are as they should be. -/
theorem written_statements (hv : Valid nm m rec outside) {n : Nat} {s : Shape} (hs : s ∈ m) :
    ∀ st ∈ statements nm m rec eager n s, Written nm m outside st := by
  have hc : ∀ t ∈ ["dataclass", "classmethod", "ShapeSerializer", "ShapeDeserializer", "Schema", "Self", "Any", "dict",
      "list", "str", "bool", "Literal", "Union", "ModeledError", "UnknownEnumMixin", "APIOperation", "TypeRegistry",
      "ShapeID"], (∃ t' ∈ outside, given t = given t') ∨ ∃ d, Defined m d ∧ given t = named nm d :=
    fun t ht => .inl ⟨t, hv.common t ht, rfl⟩
  have hm : ∀ u ∈ bodyUses (methods eager), (∃ t ∈ outside, u = given t) ∨ ∃ d, Defined m d ∧ u = named nm d := by
    intro u hu
    obtain ⟨t, ht, rfl⟩ := uses_methods u hu
    exact hc t ht
  have hw : ∀ u ∈ bodyUses (variantMethods eager),
      (∃ t ∈ outside, u = given t) ∨ ∃ d, Defined m d ∧ u = named nm d := by
    intro u hu
    obtain ⟨t, ht, rfl⟩ := uses_variantMethods u hu
    exact hc t ht
  have hty : ∀ id, ∀ u ∈ typeUses nm m n id, (∃ t ∈ outside, u = given t) ∨ ∃ d, Defined m d ∧ u = named nm d :=
    typeUses_written hv n
  intro st hst
  unfold statements at hst
  cases hk : s.kind with
  | simple ts => simp [hk] at hst
  | enumeration base =>
    simp only [hk, List.mem_singleton] at hst
    subst hst
    refine ⟨?_, by simp [bodyBinds], .shape s hs (by simp [hk, Kind.isClass])⟩
    intro u hu
    simp only [Stmt.uses, bodyUses, List.append_nil, List.mem_cons, List.not_mem_nil, or_false] at hu
    rcases hu with rfl | rfl
    · exact hc _ (by simp)
    · exact .inl ⟨base, hv.bases s hs base hk, rfl⟩
  | struct ms =>
    simp only [hk, List.mem_singleton] at hst
    subst hst
    have hms : s.kind.members = ms := by rw [hk]; rfl
    refine ⟨?_, ?_, .shape s hs (by simp [hk, Kind.isClass])⟩
    · intro u hu
      simp only [Stmt.uses, bodyUses_append, List.mem_append, List.mem_singleton] at hu
      rcases hu with rfl | hu | hu
      · exact hc _ (by simp)
      · exact uses_properties hv hs u (by rw [hms]; exact hu)
      · exact hm u hu
    · intro b hb
      simp only [bodyBinds_append, List.mem_append] at hb
      rcases hb with hb | hb
      · exact fresh_properties hv hs b (by rw [hms]; exact hb)
      · exact hv.fixed _ (binds_methods b hb)
  | error retryable throttling ms =>
    simp only [hk, List.mem_singleton] at hst
    subst hst
    have hms : s.kind.members = ms := by rw [hk]; rfl
    refine ⟨?_, ?_, .shape s hs (by simp [hk, Kind.isClass])⟩
    · intro u hu
      simp only [Stmt.uses, bodyUses_append, List.mem_append, List.mem_cons, List.not_mem_nil, bodyUses,
        List.cons_append, bodyUses_annotation] at hu
      rcases hu with rfl | rfl | hu | ((hu | hu) | hu) | hu
      · exact hc _ (by simp)
      · exact .inr ⟨_, .serviceError, rfl⟩
      · exact hu.elim
      · cases eager
        · simp at hu
        · simp only [Bool.not_false, Bool.and_self, if_true, List.mem_singleton] at hu
          subst hu
          exact hc _ (by simp)
      · have : u = given "bool" := by
          revert hu
          cases retryable <;> cases throttling <;> cases eager <;>
            simp [bodyUses, bodyUses_append, bodyUses_annotation]
        subst this
        exact hc _ (by simp)
      · exact uses_properties hv hs u (by rw [hms]; exact hu)
      · exact hm u hu
    · intro b hb
      simp only [bodyBinds_append, List.mem_append, bodyBinds, List.cons_append, List.mem_cons,
        bodyBinds_annotation, List.not_mem_nil, false_or] at hb
      rcases hb with rfl | (hb | hb) | hb
      · exact hv.fixed _ (by simp)
      · have : b.1 = "is_retry_safe" ∨ b.1 = "is_throttling_error" := by
          revert hb
          cases retryable <;> cases throttling <;>
            simp [bodyBinds, bodyBinds_append, bodyBinds_annotation] <;> (intro h; (try cases h) <;> simp_all)
        rcases this with e | e <;> rw [e] <;> exact hv.fixed _ (by simp)
      · exact fresh_properties hv hs b (by rw [hms]; exact hb)
      · exact hv.fixed _ (binds_methods b hb)
  | union streaming vs =>
    simp only [hk, List.mem_append, List.mem_map, List.mem_cons, List.not_mem_nil, or_false] at hst
    rcases hst with ⟨v, hv', rfl⟩ | rfl | rfl | rfl
    · refine ⟨?_, ?_, .variant s streaming vs v hs hk hv'⟩
      · intro u hu
        simp only [Stmt.uses, bodyUses_append, List.mem_append, List.mem_singleton, bodyUses_annotation] at hu
        rcases hu with rfl | hu | hu
        · exact hc _ (by simp)
        · split at hu
          · exact hty _ u hu
          · simp at hu
        · exact hw u hu
      · intro b hb
        simp only [bodyBinds_append, bodyBinds_annotation, List.nil_append] at hb
        exact hv.fixed _ (binds_variantMethods b hb)
    · refine ⟨?_, ?_, .unknown s streaming vs hs hk⟩
      · intro u hu
        simp only [Stmt.uses, bodyUses_append, List.mem_append, List.mem_singleton, bodyUses_annotation] at hu
        rcases hu with rfl | hu | hu
        · exact hc _ (by simp)
        · split at hu
          · simp only [List.mem_singleton] at hu
            subst hu
            exact hc _ (by simp)
          · simp at hu
        · exact hw u hu
      · intro b hb
        simp only [bodyBinds_append, bodyBinds_annotation, List.nil_append] at hb
        exact hv.fixed _ (binds_variantMethods b hb)
    · refine ⟨?_, by simp [bodyBinds], .shape s hs (by simp [hk, Kind.isClass])⟩
      intro u hu
      simp only [Stmt.uses, bodyUses, List.append_nil, List.mem_cons, List.mem_append, List.mem_map,
        List.not_mem_nil, or_false, List.cons_append] at hu
      rcases hu with rfl | ⟨v, hv', rfl⟩ | rfl
      · exact hc _ (by simp)
      · exact .inr ⟨_, .variant s streaming vs v hs hk hv', rfl⟩
      · exact .inr ⟨_, .unknown s streaming vs hs hk, rfl⟩
    · have h0 : Defined m (.shape s.id) := .shape s hs (by simp [hk, Kind.isClass])
      refine ⟨?_, ?_, .reader s streaming vs hs hk⟩
      · intro u hu
        simp only [Stmt.uses, bodyUses_append, List.mem_append, bodyUses_annotation, bodyUses_method,
          List.nil_append, bodyUses, List.cons_append] at hu
        have : u = named nm (.shape s.id) ∨ u = given "ShapeDeserializer" ∨ u = given "Schema" := by
          cases eager
          · simp at hu
          · simp at hu; tauto
        rcases this with rfl | rfl | rfl
        · exact .inr ⟨_, h0, rfl⟩
        · exact hc _ (by simp)
        · exact hc _ (by simp)
      · intro b hb
        simp only [bodyBinds_append, bodyBinds_annotation, bodyBinds_method, bodyBinds,
          List.cons_append, List.mem_cons, List.not_mem_nil, or_false, List.nil_append] at hb
        rcases hb with rfl | rfl | rfl | rfl <;> exact hv.fixed _ (by simp)
  | list e =>
    simp only [hk, functions, List.mem_cons, List.not_mem_nil, or_false] at hst
    rcases hst with rfl | rfl
    · refine ⟨?_, by simp [bodyBinds], .serialize s e hs (.inl hk)⟩
      intro u hu
      simp only [Stmt.uses, bodyUses, List.append_nil] at hu
      split at hu
      · simp only [List.mem_cons] at hu
        rcases hu with rfl | rfl | hu
        · exact hc _ (by simp)
        · exact hc _ (by simp)
        · exact hty _ u hu
      · simp at hu
    · refine ⟨?_, by simp [bodyBinds], .deserialize s e hs (.inl hk)⟩
      intro u hu
      simp only [Stmt.uses, bodyUses, List.append_nil] at hu
      split at hu
      · simp only [List.mem_cons] at hu
        rcases hu with rfl | rfl | hu
        · exact hc _ (by simp)
        · exact hc _ (by simp)
        · exact hty _ u hu
      · simp at hu
  | map e =>
    simp only [hk, functions, List.mem_cons, List.not_mem_nil, or_false] at hst
    rcases hst with rfl | rfl
    · refine ⟨?_, by simp [bodyBinds], .serialize s e hs (.inr hk)⟩
      intro u hu
      simp only [Stmt.uses, bodyUses, List.append_nil] at hu
      split at hu
      · simp only [List.mem_cons] at hu
        rcases hu with rfl | rfl | hu
        · exact hc _ (by simp)
        · exact hc _ (by simp)
        · exact hty _ u hu
      · simp at hu
    · refine ⟨?_, by simp [bodyBinds], .deserialize s e hs (.inr hk)⟩
      intro u hu
      simp only [Stmt.uses, bodyUses, List.append_nil] at hu
      split at hu
      · simp only [List.mem_cons] at hu
        rcases hu with rfl | rfl | hu
        · exact hc _ (by simp)
        · exact hc _ (by simp)
        · exact hty _ u hu
      · simp at hu
  | operation i o es =>
    simp only [hk, List.mem_singleton] at hst
    subst hst
    refine ⟨?_, by simp [bodyBinds], .operation s i o es hs hk⟩
    have hop : ∀ a, a = i ∨ a = o ∨ a ∈ es → Defined m (.shape a) := by
      intro a ha
      obtain ⟨t, ht, h1, h2⟩ := hv.operations s hs i o es hk a ha
      rw [← h1]
      exact .shape t ht h2
    intro u hu
    simp only [Stmt.uses, bodyUses, List.append_nil, List.mem_cons, List.mem_map] at hu
    rcases hu with rfl | rfl | rfl | rfl | rfl | ⟨e, he, rfl⟩
    · exact hc _ (by simp)
    · exact .inr ⟨_, hop i (.inl rfl), rfl⟩
    · exact .inr ⟨_, hop o (.inr (.inl rfl)), rfl⟩
    · exact hc _ (by simp)
    · exact hc _ (by simp)
    · exact .inr ⟨_, hop e (.inr (.inr he)), rfl⟩

theorem avail_of_forall (stmts : List Stmt) : ∀ {D : List Def},
    (∀ st ∈ stmts, ∀ d, named nm d ∈ st.uses → d ∈ D) → Avail nm D stmts := by
  induction stmts with
  | nil => intros; exact trivial
  | cons s stmts ih =>
    intro D h
    exact ⟨h s (by simp), ih fun st hst d hd => .tail _ (h st (by simp [hst]) d hd)⟩

theorem avail_mem (stmts : List Stmt) : ∀ {D : List Def}, Avail nm D stmts → ∀ st ∈ stmts, ∀ d,
    named nm d ∈ st.uses → d ∈ D ∨ ∃ st' ∈ stmts, st'.defines = d := by
  induction stmts with
  | nil => intro D _ st h; cases h
  | cons s stmts ih =>
    intro D h st hst d hd
    rcases List.mem_cons.1 hst with rfl | hst
    · exact .inl (h.1 d hd)
    · rcases ih h.2 st hst d hd with h' | ⟨st', h1, h2⟩
      · rcases List.mem_cons.1 h' with rfl | h'
        · exact .inr ⟨s, by simp, rfl⟩
        · exact .inl h'
      · exact .inr ⟨st', by simp [h1], h2⟩

theorem isStream_false {id : Id} (hm : (m.map (·.id)).Nodup) :
    isStream m id = false ↔ ∀ s' ∈ m, s'.id = id → ∀ vs, s'.kind ≠ .union true vs := by
  constructor
  · rintro h s' hs rfl vs hk
    simp [isStream, kindOf_mem hm hs, hk] at h
  · intro h
    unfold isStream
    split
    · next st vs hk =>
      obtain ⟨s, h1, h2, h3⟩ := kindOf_some hk
      cases st with
      | false => rfl
      | true => exact absurd h3 (h s h1 h2 vs)
    · rfl

/-- What the properties of a class need. -/
theorem properties_needs (hv : Valid nm m rec outside) {n : Nat} {s : Shape} (_hs : s ∈ m) {d : Def}
    (h : named nm d ∈ bodyUses (properties nm m rec eager n s.kind.members)) :
    ∃ c, d = .shape c ∧ Needs m eager s c := by
  obtain ⟨x, hx, h1, h2⟩ := mem_properties.1 h
  rcases named_property.1 h2 with ⟨f, hf, h3⟩ | ⟨he, hr, h3⟩
  · cases f with
    | enumeration =>
      simp only [defaultUses, List.mem_singleton] at h3
      exact ⟨x.target, named_inj h3, .enumDefault x hx hf rfl⟩
    | collection =>
      obtain ⟨c, e, hc⟩ := typeUses_sound n h3
      exact ⟨c, e, .emptyDefault x hx hf hc⟩
    | time utc => cases utc <;> simp [defaultUses, named_not_given] at h3
    | _ => simp [defaultUses] at h3
  · obtain ⟨c, e, hc⟩ := typeUses_sound n h3
    refine ⟨c, e, .member x he hx ((isStream_false hv.ids).1 h1) ?_ hc⟩
    rw [← hv.recursive]; simp [hr]

theorem no_named_methods {d : Def} : named nm d ∉ bodyUses (methods eager) := by
  intro h
  obtain ⟨t, -, e⟩ := uses_methods _ h
  exact named_not_given d t e

theorem no_named_variantMethods {d : Def} : named nm d ∉ bodyUses (variantMethods eager) := by
  intro h
  obtain ⟨t, -, e⟩ := uses_variantMethods _ h
  exact named_not_given d t e

/-- What a shape needs is enough for its statements. -/
theorem avail_of_needs (hv : Valid nm m rec outside) {s : Shape} (hs : s ∈ m) {D : List Def} (hD : .serviceError ∈ D)
    (h : ∀ c, Needs m eager s c → .shape c ∈ D) (n : Nat) : Avail nm D (statements nm m rec eager n s) := by
  have hp : ∀ d, named nm d ∈ bodyUses (properties nm m rec eager n s.kind.members) → d ∈ D := by
    intro d hd
    obtain ⟨c, rfl, hc⟩ := properties_needs hv hs hd
    exact h c hc
  unfold statements
  cases hk : s.kind with
  | simple ts => exact trivial
  | enumeration base =>
    refine ⟨?_, trivial⟩
    simp [Stmt.uses, bodyUses, named_not_given]
  | struct ms =>
    refine ⟨?_, trivial⟩
    intro d hd
    simp only [Stmt.uses, bodyUses_append, List.mem_append, List.mem_singleton, named_not_given, false_or,
      no_named_methods, or_false] at hd
    exact hp d (by rw [hk]; exact hd)
  | error retryable throttling ms =>
    refine ⟨?_, trivial⟩
    intro d hd
    have h1 : named nm d ∉ bodyUses (annotation eager false [given "Literal"]) := by
      cases eager <;> simp [bodyUses_annotation, named_not_given]
    have h2 : named nm d ∉ bodyUses (if retryable = true then
        .bind "is_retry_safe" (.property "is_retry_safe") :: annotation eager false [given "bool"] ++
        (if throttling = true then .bind "is_throttling_error" (.property "is_throttling_error") ::
          annotation eager false [given "bool"] else []) else []) := by
      cases retryable <;> cases throttling <;> cases eager <;>
        simp [bodyUses, bodyUses_append, bodyUses_annotation, named_not_given]
    simp only [Stmt.uses, bodyUses_append, List.mem_append, List.mem_cons, List.not_mem_nil, or_false, bodyUses,
      List.cons_append, named_not_given, false_or, no_named_methods, h1] at hd
    rcases hd with hd | hd | hd
    · rw [named_inj hd]; exact hD
    · exact absurd hd h2
    · exact hp d (by rw [hk]; exact hd)
  | union streaming vs =>
    simp only [avail_append]
    constructor
    · apply avail_of_forall
      intro st hst d hd
      obtain ⟨v, hv', rfl⟩ := List.mem_map.1 hst
      simp only [Stmt.uses, bodyUses_append, List.mem_append, List.mem_singleton, named_not_given, false_or,
        no_named_variantMethods, or_false, bodyUses_annotation] at hd
      split at hd
      · next hq =>
        simp only [Bool.and_eq_true, Bool.not_eq_true'] at hq
        obtain ⟨c, rfl, hc⟩ := typeUses_sound n hd
        refine h c (.variant streaming vs v hq.1 hk hv' ?_ hc)
        rw [← hv.recursive]; simp [hq.2]
      · simp at hd
    · refine ⟨?_, ?_, ?_, trivial⟩
      · intro d hd
        simp only [Stmt.uses, bodyUses_append, List.mem_append, List.mem_singleton, named_not_given, false_or,
          no_named_variantMethods, or_false, bodyUses_annotation] at hd
        split at hd <;> simp [named_not_given] at hd
      · intro d hd
        simp only [Stmt.uses, bodyUses, List.append_nil, List.mem_cons, List.mem_append, List.mem_map,
          List.not_mem_nil, or_false, List.cons_append, named_not_given, false_or] at hd
        rcases hd with ⟨v, hv', e⟩ | e
        · rw [← named_inj e]
          refine .tail _ (List.mem_append_left _ ?_)
          simp only [List.map_map, List.mem_map, Function.comp]
          exact ⟨v, hv', rfl⟩
        · rw [named_inj e]; exact .head _
      · intro d hd
        have : named nm d = named nm (.shape s.id) := by
          simp only [Stmt.uses, bodyUses_append, List.mem_append, bodyUses_annotation, bodyUses_method,
            List.nil_append, bodyUses, List.cons_append] at hd
          cases eager
          · simp at hd
          · simpa [named_not_given] using hd
        rw [named_inj this]
        exact .head _
  | list e =>
    apply avail_of_forall
    intro st hst d hd
    simp only [functions, List.mem_cons, List.not_mem_nil, or_false] at hst
    have : eager = true ∧ named nm d ∈ typeUses nm m n s.id := by
      rcases hst with rfl | rfl <;> cases eager <;> simp [Stmt.uses, bodyUses, named_not_given] at hd ⊢ <;> exact hd
    obtain ⟨c, rfl, hc⟩ := typeUses_sound n this.2
    exact h c (.list e this.1 hk hc)
  | map e =>
    apply avail_of_forall
    intro st hst d hd
    simp only [functions, List.mem_cons, List.not_mem_nil, or_false] at hst
    have : eager = true ∧ named nm d ∈ typeUses nm m n s.id := by
      rcases hst with rfl | rfl <;> cases eager <;> simp [Stmt.uses, bodyUses, named_not_given] at hd ⊢ <;> exact hd
    obtain ⟨c, rfl, hc⟩ := typeUses_sound n this.2
    exact h c (.map e this.1 hk hc)
  | operation i o es =>
    refine ⟨?_, trivial⟩
    intro d hd
    simp only [Stmt.uses, bodyUses, List.append_nil, List.mem_cons, List.mem_map, named_not_given, false_or] at hd
    rcases hd with e | e | ⟨a, ha, e⟩
    · rw [named_inj e]; exact h i (.operation i o es hk (.inl rfl))
    · rw [named_inj e]; exact h o (.operation i o es hk (.inr (.inl rfl)))
    · rw [← named_inj e]; exact h a (.operation i o es hk (.inr (.inr ha)))

/-- What a class needs is evaluated in its body. -/
theorem member_needs (hv : Valid nm m rec outside) {s : Shape} {D : List Def} {pre post : List Item}
    {outer : List (String × Obj)}
    (h : ∀ n d, named nm d ∈ (Stmt.mk outer (pre ++ properties nm m rec eager n s.kind.members ++ post)
      (.shape s.id)).uses → d ∈ D) {x : Member} (hx : x ∈ s.kind.members) (hs : isStream m x.target = false) :
    (eager → ¬ Recursive m x.target → ∀ c, Contains m x.target c → .shape c ∈ D) ∧
    (x.init = some .collection → ∀ c, Contains m x.target c → .shape c ∈ D) ∧
    (x.init = some .enumeration → .shape x.target ∈ D) := by
  have key : ∀ n d, named nm d ∈ bodyUses (property nm m rec eager n x) → d ∈ D := by
    intro n d hd
    apply h n d
    simp only [Stmt.uses, bodyUses_append, List.mem_append]
    exact .inr (.inl (.inr (mem_properties.2 ⟨x, hx, hs, hd⟩)))
  refine ⟨?_, ?_, ?_⟩
  · intro he hr c hc
    obtain ⟨n, hn⟩ := typeUses_complete (nm := nm) hv.ids hc
    refine key n _ (named_property.2 (.inr ⟨he, ?_, hn⟩))
    rw [← hv.recursive] at hr
    simpa using hr
  · intro hi c hc
    obtain ⟨n, hn⟩ := typeUses_complete (nm := nm) hv.ids hc
    exact key n _ (named_property.2 (.inl ⟨_, hi, hn⟩))
  · intro hi
    exact key 0 _ (named_property.2 (.inl ⟨_, hi, by simp [defaultUses]⟩))

theorem needs_of_avail (hv : Valid nm m rec outside) {s : Shape} (hs : s ∈ m) {D : List Def}
    (h : ∀ n, Avail nm D (statements nm m rec eager n s)) : ∀ c, Needs m eager s c → .shape c ∈ D := by
  have hcol : ∀ x ∈ s.kind.members, x.init = some .collection ∨ x.init = some .enumeration →
      isStream m x.target = false := by
    intro x hx hi
    rw [isStream_false hv.ids]
    intro s' hs' e vs hk
    rcases hi with hi | hi
    · obtain ⟨t, ht, h1, e', h2⟩ := hv.collections s hs x hx hi
      rw [eq_of_id hv.ids ht hs' (by rw [h1, e]), hk] at h2
      simp at h2
    · obtain ⟨t, ht, b, h1, h2⟩ := hv.enums s hs x hx hi
      rw [eq_of_id hv.ids ht hs' (by rw [h1, e]), hk] at h2
      simp at h2
  have hmem : ∀ x ∈ s.kind.members, isStream m x.target = false →
      (eager → ¬ Recursive m x.target → ∀ c, Contains m x.target c → .shape c ∈ D) ∧
      (x.init = some .collection → ∀ c, Contains m x.target c → .shape c ∈ D) ∧
      (x.init = some .enumeration → .shape x.target ∈ D) := by
    intro x hx hst
    cases hk : s.kind with
    | struct ms =>
      refine member_needs (pre := []) (post := methods eager) (outer := [given "dataclass"]) hv ?_ hx hst
      intro n d hd
      have := h n
      simp only [statements, hk] at this
      exact this.1 d (by simpa [hk, Kind.members] using hd)
    | error a b ms =>
      refine member_needs (pre := .bind "fault" (.property "fault") :: annotation eager false [given "Literal"] ++
        (if a then .bind "is_retry_safe" (.property "is_retry_safe") :: annotation eager false [given "bool"] ++
        (if b then .bind "is_throttling_error" (.property "is_throttling_error") ::
          annotation eager false [given "bool"] else []) else [])) (post := methods eager)
        (outer := [given "dataclass", named nm .serviceError]) hv ?_ hx hst
      intro n d hd
      have := h n
      simp only [statements, hk] at this
      refine this.1 d ?_
      simpa only [hk, Kind.members] using hd
    | _ => simp [hk, Kind.members] at hx
  intro c hc
  cases hc with
  | member x he hx hst hr hc => exact (hmem x hx ((isStream_false hv.ids).2 hst)).1 he hr c hc
  | emptyDefault x hx hi hc => exact (hmem x hx (hcol x hx (.inl hi))).2.1 hi c hc
  | enumDefault x hx hi hc => rw [hc]; exact (hmem x hx (hcol x hx (.inr hi))).2.2 hi
  | variant streaming vs v he hk hv' hr hc =>
    obtain ⟨n, hn⟩ := typeUses_complete (nm := nm) hv.ids hc
    have := h n
    simp only [statements, hk, avail_append] at this
    rcases avail_mem _ this.1 _ (List.mem_map.2 ⟨v, hv', rfl⟩) (.shape c) (by
      rw [← hv.recursive] at hr
      simp [Stmt.uses, bodyUses_append, bodyUses_annotation, he, hr, hn]) with h' | ⟨st', h1, h2⟩
    · exact h'
    · obtain ⟨w, -, rfl⟩ := List.mem_map.1 h1
      simp at h2
  | list e he hk hc =>
    obtain ⟨n, hn⟩ := typeUses_complete (nm := nm) hv.ids hc
    have := h n
    simp only [statements, hk, functions] at this
    exact this.1 _ (by simp [Stmt.uses, he, hn])
  | map v he hk hc =>
    obtain ⟨n, hn⟩ := typeUses_complete (nm := nm) hv.ids hc
    have := h n
    simp only [statements, hk, functions] at this
    exact this.1 _ (by simp [Stmt.uses, he, hn])
  | operation i o es hk hc =>
    have := h 0
    simp only [statements, hk] at this
    apply this.1
    rcases hc with rfl | rfl | hc
    · simp [Stmt.uses]
    · simp [Stmt.uses]
    · simp only [Stmt.uses, List.mem_append, List.mem_cons, List.mem_map]
      exact .inl (.inr (.inr (.inr (.inr (.inr ⟨c, hc, rfl⟩)))))

/-- What the statements of a shape define. -/
theorem defines_statements {n : Nat} {s : Shape} {c : Id} :
    .shape c ∈ (statements nm m rec eager n s).map (·.defines) ↔
      s.id = c ∧ (s.kind.isClass ∨ ∃ i o es, s.kind = .operation i o es) := by
  unfold statements
  cases hk : s.kind <;> simp [Kind.isClass, functions, eq_comm]

/-- What is needed is a class of the model. -/
theorem contains_class {a c : Id} (h : Contains m a c) : ∃ t ∈ m, t.id = c ∧ t.kind.isClass := by
  induction h with
  | self s hs hk => exact ⟨s, hs, rfl, hk⟩
  | list _ _ _ _ _ _ ih => exact ih
  | map _ _ _ _ _ _ ih => exact ih

theorem needs_class (hv : Valid nm m rec outside) {s : Shape} (hs : s ∈ m) {c : Id} (h : Needs m eager s c) :
    ∃ t ∈ m, t.id = c ∧ t.kind.isClass := by
  cases h with
  | member x he hx hst hr hc => exact contains_class hc
  | variant streaming vs v he hk hv' hr hc => exact contains_class hc
  | list e he hk hc => exact contains_class hc
  | map v he hk hc => exact contains_class hc
  | emptyDefault x hx hi hc => exact contains_class hc
  | enumDefault x hx hi hc =>
    obtain ⟨t, ht, b, h1, h2⟩ := hv.enums s hs x hx hi
    exact ⟨t, ht, by rw [h1, hc], by simp [h2, Kind.isClass]⟩
  | operation i o es hk hc => exact hv.operations s hs i o es hk c hc

theorem avail_order (hv : Valid nm m rec outside) (order : List Shape) : ∀ {D : List Def}, .serviceError ∈ D →
    (∀ s ∈ order, s ∈ m) →
    ((∀ n, Avail nm D (order.flatMap (statements nm m rec eager n))) ↔
      ∀ xs s ys, order = xs ++ s :: ys → ∀ c, Needs m eager s c → .shape c ∈ D ∨ ∃ t ∈ xs, t.id = c) := by
  induction order with
  | nil =>
    intro D _ _
    simp [Avail]
  | cons s order ih =>
    intro D hD hm
    have hs := hm s (by simp)
    simp only [List.flatMap_cons, avail_append]
    have e : ∀ n, (Avail nm ((statements nm m rec eager n s).map (·.defines) ++ D)
        (order.flatMap (statements nm m rec eager n))) ↔
        Avail nm ((statements nm m rec eager 0 s).map (·.defines) ++ D)
          (order.flatMap (statements nm m rec eager n)) := by
      intro n
      apply avail_congr
      intro d
      have : (statements nm m rec eager n s).map (·.defines) = (statements nm m rec eager 0 s).map (·.defines) := by
        unfold statements
        cases s.kind <;> simp [functions]
      rw [this]
    simp only [e, forall_and]
    rw [ih (D := (statements nm m rec eager 0 s).map (·.defines) ++ D) (by simp [hD])
      (fun t ht => hm t (by simp [ht]))]
    constructor
    · rintro ⟨h1, h2⟩ xs t ys heq c hc
      cases xs with
      | nil =>
        simp only [List.nil_append, List.cons.injEq] at heq
        rw [← heq.1] at hc
        exact .inl (needs_of_avail hv hs h1 c hc)
      | cons x xs =>
        simp only [List.cons_append, List.cons.injEq] at heq
        rcases h2 xs t ys heq.2 c hc with h | ⟨u, hu, h⟩
        · rw [List.mem_append, defines_statements] at h
          rcases h with h | h
          · exact .inr ⟨x, by simp, by rw [← heq.1]; exact h.1⟩
          · exact .inl h
        · exact .inr ⟨u, by simp [hu], h⟩
    · intro h
      refine ⟨?_, ?_⟩
      · apply avail_of_needs hv hs hD
        intro c hc
        rcases h [] s order rfl c hc with h | ⟨t, ht, -⟩
        · exact h
        · cases ht
      · intro xs t ys heq c hc
        rcases h (s :: xs) t ys (by simp [heq]) c hc with h' | ⟨u, hu, h'⟩
        · exact .inl (by simp [h'])
        · rcases List.mem_cons.1 hu with rfl | hu
          · have ht : t ∈ m := hm t (by simp [heq])
            obtain ⟨w, hw, h1, h2⟩ := needs_class hv ht hc
            left
            rw [List.mem_append, defines_statements]
            refine .inl ⟨h', .inl ?_⟩
            rw [eq_of_id hv.ids hs hw (by rw [h', h1])]
            exact h2
          · exact .inr ⟨u, hu, h'⟩

end Shapes

/-! ## Theorems -/

section Theorems

variable {nm : Def → String} {m : List Shape} {rec : Id → Bool} {eager : Bool} {outside : List String}

theorem written_module (hv : Valid nm m rec outside) {order : List Shape} (ho : ∀ s ∈ order, s ∈ m) (n : Nat) :
    ∀ st ∈ module_ nm m rec eager n order, Written nm m outside st := by
  intro st hst
  rcases List.mem_cons.1 hst with rfl | hst
  · refine ⟨?_, by simp [bodyBinds], .serviceError⟩
    intro u hu
    simp only [Stmt.uses, bodyUses, List.append_nil, List.mem_singleton] at hu
    subst hu
    exact .inl ⟨_, hv.common "ModeledError" (by simp), rfl⟩
  · obtain ⟨s, hs, h⟩ := List.mem_flatMap.1 hst
    exact written_statements hv (ho s hs) st h

theorem load_iff (hv : Valid nm m rec outside) {order : List Shape} (ho : ∀ s ∈ order, s ∈ m) (n : Nat) :
    (load nm m rec eager outside n order).isSome ↔
      Avail nm [.serviceError] (order.flatMap (statements nm m rec eager n)) := by
  have := (run_iff hv.names hv.apart _ (written_module (eager := eager) hv ho n) [] (by simp) []).1
  simp only [start, List.map_nil, List.nil_append] at this
  rw [load, this, module_, Avail]
  simp [Stmt.uses, bodyUses, named_not_given]

theorem split_unique {α : Type} {a : α} : ∀ {as bs xs ys : List α}, a ∉ as → a ∉ xs → as ++ a :: bs = xs ++ a :: ys →
    as = xs
  | [], _, [], _, _, _, _ => rfl
  | [], _, x :: xs, _, _, h, e => by simp at e h; exact absurd e.1 h.1
  | b :: as, _, [], _, h, _, e => by simp at e h; exact absurd e.1.symm h.1
  | b :: as, _, x :: xs, _, h1, h2, e => by
    simp only [List.cons_append, List.cons.injEq] at e
    rw [e.1, split_unique (fun h => h1 (by simp [h])) (fun h => h2 (by simp [h])) e.2]

/-- A generated module can be imported exactly if each class is defined before the code that needs it is run. -/
theorem C117_order_iff (hv : Valid nm m rec outside) {order : List Shape} (ho : order.Perm m) :
    (∀ n, (load nm m rec eager outside n order).isSome) ↔
      ∀ s ∈ m, ∀ c, Needs m eager s c → Before order c s.id := by
  have hin : ∀ s ∈ order, s ∈ m := fun s hs => ho.mem_iff.1 hs
  simp only [load_iff hv hin]
  rw [avail_order hv order (by simp) hin]
  simp only [List.mem_singleton, reduceCtorEq, false_or]
  constructor
  · intro h s hs c hc
    obtain ⟨xs, ys, e⟩ := List.append_of_mem (ho.mem_iff.2 hs)
    obtain ⟨t, ht, h1⟩ := h xs s ys e c hc
    obtain ⟨as, bs, e'⟩ := List.append_of_mem ht
    exact ⟨as, t, bs, s, ys, by rw [e, e'], h1, rfl⟩
  · intro h xs s ys e c hc
    obtain ⟨as, t, bs, s', zs, e', h1, h2⟩ := h s (hin s (by simp [e])) c hc
    have hnd : (order.map (·.id)).Nodup := (ho.map (·.id)).nodup_iff.2 hv.ids
    have hs' : s' = s := eq_of_id hv.ids (hin s' (by simp [e'])) (hin s (by simp [e])) h2
    subst hs'
    have hnd' : order.Nodup := hnd.of_map
    rw [e'] at e hnd'
    have h3 : s' ∉ as ++ t :: bs := fun hmem => (List.nodup_append.1 hnd').2.2 _ hmem _ (by simp) rfl
    have h4 : s' ∉ xs := by
      rw [e] at hnd'
      exact fun hmem => (List.nodup_append.1 hnd').2.2 _ hmem _ (by simp) rfl
    have : xs = as ++ t :: bs := (split_unique h3 h4 e).symm
    exact ⟨t, by simp [this], h1⟩

theorem before_trans {order : List Shape} (hn : (order.map (·.id)).Nodup) {a b c : Id} (h1 : Before order a b)
    (h2 : Before order b c) : Before order a c := by
  obtain ⟨xs, s, ys, t, zs, e1, rfl, rfl⟩ := h1
  obtain ⟨xs', t', ys', u, zs', e2, h, rfl⟩ := h2
  have ht : t' = t := eq_of_id hn (by simp [e2]) (by simp [e1]) h
  subst ht
  have hn' : order.Nodup := hn.of_map
  have k1 : t' ∉ xs ++ s :: ys := by
    rw [e1] at hn'
    exact fun hmem => (List.nodup_append.1 hn').2.2 _ hmem _ (by simp) rfl
  have e3 : order = xs' ++ t' :: (ys' ++ u :: zs') := by rw [e2]; simp
  have k2 : t' ∉ xs' := by
    rw [e3] at hn'
    exact fun hmem => (List.nodup_append.1 hn').2.2 _ hmem _ (by simp) rfl
  have := split_unique k1 k2 (e1.symm.trans e3)
  exact ⟨xs, s, ys ++ t' :: ys', u, zs', by rw [e2, ← this]; simp, rfl, rfl⟩

theorem before_irrefl {order : List Shape} (hn : (order.map (·.id)).Nodup) {a : Id} (h : Before order a a) : False := by
  obtain ⟨xs, s, ys, t, zs, e, rfl, h⟩ := h
  have : t = s := eq_of_id hn (by simp [e]) (by simp [e]) h
  subst this
  have hn' : order.Nodup := hn.of_map
  rw [e] at hn'
  exact (List.nodup_append.1 hn').2.2 t (by simp) t (by simp) rfl

theorem contains_reach {a c : Id} (h : Contains m a c) : Relation.ReflTransGen (Refers m) a c := by
  induction h with
  | self => exact .refl
  | list s e c hs hk _ ih => exact .head ⟨s, hs, rfl, by simp [hk, targets]⟩ ih
  | map s v c hs hk _ ih => exact .head ⟨s, hs, rfl, by simp [hk, targets]⟩ ih

/-- A list has one target: what is in a recursive one is recursive. -/
theorem recursive_contains (hm : (m.map (·.id)).Nodup) {a c : Id} (h : Contains m a c) (hr : Recursive m a) :
    Recursive m c := by
  have step : ∀ (s : Shape) (e : Id), s ∈ m → targets s.kind = [e] → Recursive m s.id → Recursive m e := by
    intro s e hs hk hr
    obtain ⟨b, ⟨t, ht, h1, h2⟩, h3⟩ := Relation.TransGen.head'_iff.1 hr
    rw [eq_of_id hm ht hs h1, hk, List.mem_singleton] at h2
    subst h2
    exact .tail' h3 ⟨s, hs, rfl, by simp [hk]⟩
  induction h with
  | self => exact hr
  | list s e c hs hk _ ih => exact ih (step s e hs (by simp [hk, targets]) hr)
  | map s v c hs hk _ ih => exact ih (step s v hs (by simp [hk, targets]) hr)

/-- Smithy's order: what is not recursive comes before what refers to it. -/
def Topological (m order : List Shape) : Prop :=
  ∀ s ∈ m, ∀ t ∈ m, t.id ∈ targets s.kind → ¬ Recursive m t.id → Before order t.id s.id

/-- In such an order, classes in a type that are not recursive come before what has the type. -/
theorem contains_before (hm : (m.map (·.id)).Nodup) {order : List Shape} (hn : (order.map (·.id)).Nodup)
    (ht : Topological m order) {a c : Id} (h : Contains m a c) : ¬ Recursive m c → c = a ∨ Before order c a := by
  have step : ∀ (s : Shape) (e c : Id), s ∈ m → targets s.kind = [e] → Contains m e c → ¬ Recursive m c →
      c = e ∨ Before order c e → Before order c s.id := by
    intro s e c hs hk hc hr ih
    have he : ¬ Recursive m e := fun h => hr (recursive_contains hm hc h)
    have : Before order e s.id := by
      obtain ⟨t, htm, rfl⟩ : ∃ t ∈ m, t.id = e := by
        cases hc with
        | self t h => exact ⟨t, h, rfl⟩
        | list t _ _ h => exact ⟨t, h, rfl⟩
        | map t _ _ h => exact ⟨t, h, rfl⟩
      exact ht s hs t htm (by simp [hk]) he
    rcases ih with rfl | ih
    · exact this
    · exact before_trans hn ih this
  induction h with
  | self => intro _; exact .inl rfl
  | list s e c hs hk hc ih => intro hr; exact .inr (step s e c hs (by simp [hk, targets]) hc hr (ih hr))
  | map s e c hs hk hc ih => intro hr; exact .inr (step s e c hs (by simp [hk, targets]) hc hr (ih hr))

theorem contains_target_mem {a c : Id} (hc : Contains m a c) : ∃ t ∈ m, t.id = a := by
  cases hc with
  | self t h => exact ⟨t, h, rfl⟩
  | list t _ _ h => exact ⟨t, h, rfl⟩
  | map t _ _ h => exact ⟨t, h, rfl⟩

theorem members_targets {k : Kind} {x : Member} (h : x ∈ k.members) : x.target ∈ targets k := by
  cases k <;> simp [Kind.members, targets] at h ⊢ <;> exact ⟨x, h, rfl⟩

theorem enum_not_recursive (hm : (m.map (·.id)).Nodup) {t : Shape} (ht : t ∈ m) {b : String}
    (hk : t.kind = .enumeration b) : ¬ Recursive m t.id := by
  intro h
  obtain ⟨_, ⟨u, hu, h1, h2⟩, -⟩ := Relation.TransGen.head'_iff.1 h
  rw [eq_of_id hm hu ht h1, hk] at h2
  simp [targets] at h2

/-- The module can be imported if it is written in Smithy's order, each list or map comes after the recursive classes
in its type (which Python 3.14 does not ask for), members whose default is an empty list or map have no recursive
classes in their types, and operations have no recursive input, output or errors. -/
theorem C117_partial (hv : Valid nm m rec outside) {order : List Shape} (ho : order.Perm m) (ht : Topological m order)
    (hlists : eager → ∀ s ∈ m, ∀ e, s.kind = .list e ∨ s.kind = .map e → ∀ c, Contains m s.id c → Recursive m c →
      Before order c s.id)
    (hdefaults : ∀ s ∈ m, ∀ x ∈ s.kind.members, x.init = some .collection → ∀ c, Contains m x.target c →
      ¬ Recursive m c)
    (hoperations : ∀ s ∈ m, ∀ i o es, s.kind = .operation i o es → ∀ a ∈ i :: o :: es, ¬ Recursive m a) :
    ∀ n, (load nm m rec eager outside n order).isSome := by
  rw [C117_order_iff hv ho]
  have hn : (order.map (·.id)).Nodup := (ho.map (·.id)).nodup_iff.2 hv.ids
  -- a target that is not recursive, or has nothing recursive in its type
  have direct : ∀ s ∈ m, ∀ a ∈ targets s.kind, ∀ c, Contains m a c → ¬ Recursive m c → Before order c s.id := by
    intro s hs a ha c hc hr
    obtain ⟨t, htm, rfl⟩ := contains_target_mem hc
    have h1 := ht s hs t htm ha fun h => hr (recursive_contains hv.ids hc h)
    rcases contains_before hv.ids hn ht hc hr with rfl | h2
    · exact h1
    · exact before_trans hn h2 h1
  have notrec : eager → ∀ s ∈ m, ∀ a ∈ targets s.kind, ¬ Recursive m a → ∀ c, Contains m a c → Before order c s.id := by
    intro he s hs a ha hr c hc
    obtain ⟨t, htm, e⟩ := contains_target_mem hc
    have h1 : Before order a s.id := e ▸ ht s hs t htm (e.symm ▸ ha) (e.symm ▸ hr)
    by_cases hrc : Recursive m c
    · cases hc with
      | self => exact absurd hrc hr
      | list t' e' _ h2 h3 h4 => exact before_trans hn (hlists he t' h2 e' (.inl h3) c (.list t' e' c h2 h3 h4) hrc) h1
      | map t' e' _ h2 h3 h4 => exact before_trans hn (hlists he t' h2 e' (.inr h3) c (.map t' e' c h2 h3 h4) hrc) h1
    · exact direct s hs a ha c hc hrc
  have self : eager → ∀ s ∈ m, ∀ e, s.kind = .list e ∨ s.kind = .map e → ∀ c, Contains m s.id c →
      Before order c s.id := by
    intro he s hs e hk c hc
    by_cases hrc : Recursive m c
    · exact hlists he s hs e hk c hc hrc
    · rcases contains_before hv.ids hn ht hc hrc with rfl | h
      · obtain ⟨t, htm, h1, h2⟩ := contains_class hc
        rw [eq_of_id hv.ids htm hs h1] at h2
        rcases hk with hk | hk <;> simp [hk, Kind.isClass] at h2
      · exact h
  intro s hs c hc
  cases hc with
  | member x he hx hst hr hc => exact notrec he s hs x.target (members_targets hx) hr c hc
  | variant streaming vs v he hk hv' hr hc =>
    exact notrec he s hs v.2 (by simp only [hk, targets, List.mem_map]; exact ⟨v, hv', rfl⟩) hr c hc
  | list e he hk hc => exact self he s hs e (.inl hk) c hc
  | map e he hk hc => exact self he s hs e (.inr hk) c hc
  | emptyDefault x hx hi hc =>
    exact direct s hs x.target (members_targets hx) c hc (hdefaults s hs x hx hi c hc)
  | enumDefault x hx hi hc =>
    subst hc
    obtain ⟨t, htm, b, h1, h2⟩ := hv.enums s hs x hx hi
    rw [← h1]
    exact ht s hs t htm (by rw [h1]; exact members_targets hx) (enum_not_recursive hv.ids htm h2)
  | operation i o es hk hc =>
    obtain ⟨t, htm, rfl, -⟩ := hv.operations s hs i o es hk c hc
    have : t.id ∈ i :: o :: es := by simpa using hc
    exact ht s hs t htm (by rw [hk]; exact this) (hoperations s hs i o es hk _ this)

/-- In Smithy's order recursive shapes are last.  Then a list or map that is not recursive and has a recursive class in
its type (say, the list of nodes that an operation returns) keeps the module from being imported before Python 3.14. -/
theorem C117_list_fails (hv : Valid nm m rec outside) {order : List Shape} (ho : order.Perm m)
    (hlast : ∀ s ∈ m, ∀ t ∈ m, ¬ Recursive m s.id → Recursive m t.id → Before order s.id t.id)
    {s : Shape} (hs : s ∈ m) {e : Id} (hk : s.kind = .list e ∨ s.kind = .map e) (hr : ¬ Recursive m s.id) {c : Id}
    (hc : Contains m s.id c) (hrc : Recursive m c) : ∃ n, load nm m rec true outside n order = none := by
  by_contra h
  have h' : ∀ n, (load nm m rec true outside n order).isSome := by
    intro n
    rw [Option.isSome_iff_ne_none]
    exact fun e => h ⟨n, e⟩
  rw [C117_order_iff hv ho] at h'
  have hn : (order.map (·.id)).Nodup := (ho.map (·.id)).nodup_iff.2 hv.ids
  have h1 : Before order c s.id := by
    rcases hk with hk | hk
    · exact h' s hs c (.list e rfl hk hc)
    · exact h' s hs c (.map e rfl hk hc)
  obtain ⟨t, htm, rfl, -⟩ := contains_class hc
  exact before_irrefl hn (before_trans hn h1 (hlast s hs t htm hr hrc))

/-- The same for operations with a recursive input, output or error, if nothing refers to operations: for these, in
each version of Python. -/
theorem C117_operation_fails (hv : Valid nm m rec outside) {order : List Shape} (ho : order.Perm m)
    (hlast : ∀ s ∈ m, ∀ t ∈ m, ¬ Recursive m s.id → Recursive m t.id → Before order s.id t.id)
    {s : Shape} (hs : s ∈ m) {i o : Id} {es : List Id} (hk : s.kind = .operation i o es)
    (hr : ∀ t ∈ m, s.id ∉ targets t.kind) {a : Id} (ha : a ∈ i :: o :: es) (hra : Recursive m a) :
    ∃ n, load nm m rec eager outside n order = none := by
  by_contra h
  have h' : ∀ n, (load nm m rec eager outside n order).isSome := by
    intro n
    rw [Option.isSome_iff_ne_none]
    exact fun e => h ⟨n, e⟩
  rw [C117_order_iff hv ho] at h'
  have hn : (order.map (·.id)).Nodup := (ho.map (·.id)).nodup_iff.2 hv.ids
  have ha' : a = i ∨ a = o ∨ a ∈ es := by simpa using ha
  have h1 : Before order a s.id := h' s hs a (.operation i o es hk ha')
  obtain ⟨t, htm, rfl, -⟩ := hv.operations s hs i o es hk a ha'
  refine before_irrefl hn (before_trans hn h1 (hlast s hs t htm ?_ hra))
  intro hrs
  obtain ⟨b, -, u, hu, h3, h4⟩ := Relation.TransGen.tail'_iff.1 hrs
  exact hr u hu h4

/-- A member whose default is an empty list or map with its own class in its type: the module cannot be imported,
in whatever order it is written. -/
theorem C117_default_fails (hv : Valid nm m rec outside) {order : List Shape} (ho : order.Perm m) {s : Shape}
    (hs : s ∈ m) {x : Member} (hx : x ∈ s.kind.members) (hi : x.init = some .collection)
    (hc : Contains m x.target s.id) : ∃ n, load nm m rec eager outside n order = none := by
  by_contra h
  have h' : ∀ n, (load nm m rec eager outside n order).isSome := by
    intro n
    rw [Option.isSome_iff_ne_none]
    exact fun e => h ⟨n, e⟩
  rw [C117_order_iff hv ho] at h'
  have hn : (order.map (·.id)).Nodup := (ho.map (·.id)).nodup_iff.2 hv.ids
  exact before_irrefl hn (h' s hs _ (.emptyDefault x hx hi hc))

/-- Other than by such defaults, there is always an order in which the module can be imported. -/
theorem C117_order_exists (hv : Valid nm m rec outside)
    (hdefaults : ∀ s ∈ m, ∀ x ∈ s.kind.members, x.init = some .collection → ¬ Recursive m x.target) :
    ∃ order : List Shape, order.Perm m ∧ ∀ n, (load nm m rec eager outside n order).isSome := by
  let R : Id → Id → Prop := fun a b => ∃ s ∈ m, s.id = b ∧ Needs m eager s a
  have reach : ∀ a b, R a b → Relation.TransGen (Refers m) b a := by
    rintro a b ⟨s, hs, rfl, h⟩
    have one : ∀ t, t ∈ targets s.kind → Refers m s.id t := fun t ht => ⟨s, hs, rfl, ht⟩
    have via : ∀ t ∈ targets s.kind, Contains m t a → Relation.TransGen (Refers m) s.id a :=
      fun t ht hc => .head' (one t ht) (contains_reach hc)
    cases h with
    | member x he hx hst hr hc => exact via _ (members_targets hx) hc
    | variant streaming vs v he hk hv' hr hc =>
      exact via v.2 (by simp only [hk, targets, List.mem_map]; exact ⟨v, hv', rfl⟩) hc
    | list e he hk hc =>
      rcases Relation.reflTransGen_iff_eq_or_transGen.1 (contains_reach hc) with e' | h
      · obtain ⟨t, htm, h1, h2⟩ := contains_class hc
        rw [eq_of_id hv.ids htm hs (by rw [h1, e']), hk] at h2
        simp [Kind.isClass] at h2
      · exact h
    | map e he hk hc =>
      rcases Relation.reflTransGen_iff_eq_or_transGen.1 (contains_reach hc) with e' | h
      · obtain ⟨t, htm, h1, h2⟩ := contains_class hc
        rw [eq_of_id hv.ids htm hs (by rw [h1, e']), hk] at h2
        simp [Kind.isClass] at h2
      · exact h
    | emptyDefault x hx hi hc => exact via _ (members_targets hx) hc
    | enumDefault x hx hi hc => subst hc; exact .single (one _ (members_targets hx))
    | operation i o es hk hc => exact .single (one _ (by rw [hk, targets]; simpa using hc))
  have reach' : ∀ a b, Relation.ReflTransGen R a b → Relation.ReflTransGen (Refers m) b a := by
    intro a b h
    induction h with
    | refl => exact .refl
    | tail _ h ih => exact (reach _ _ h).to_reflTransGen.trans ih
  have needed : ∀ a b, Relation.TransGen R a b → ∃ t ∈ m, t.id = a ∧ t.kind.isClass := by
    intro a b h
    obtain ⟨c, ⟨s, hs, -, hc⟩, -⟩ := Relation.TransGen.head'_iff.1 h
    exact needs_class hv hs hc
  have acyclic : ∀ a, ¬ Relation.TransGen R a a := by
    intro a h
    obtain ⟨ta, hta, h1, h2⟩ := needed a a h
    obtain ⟨b, hab, s, hs, rfl, hn⟩ := Relation.TransGen.tail'_iff.1 h
    rw [eq_of_id hv.ids hta hs h1] at h2
    have back := reach' _ _ hab
    have loop : ∀ t ∈ targets s.kind, Relation.ReflTransGen (Refers m) t b → Recursive m t := by
      intro t ht h3
      exact .tail' (h3.trans back) ⟨s, hs, rfl, ht⟩
    cases hn with
    | member x he hx hst hr hc => exact hr (loop _ (members_targets hx) (contains_reach hc))
    | variant streaming vs v he hk hv' hr hc =>
      exact hr (loop v.2 (by simp only [hk, targets, List.mem_map]; exact ⟨v, hv', rfl⟩) (contains_reach hc))
    | list e he hk hc => simp [hk, Kind.isClass] at h2
    | map e he hk hc => simp [hk, Kind.isClass] at h2
    | emptyDefault x hx hi hc => exact hdefaults s hs x hx hi (loop _ (members_targets hx) (contains_reach hc))
    | enumDefault x hx hi hc =>
      subst hc
      obtain ⟨t, htm, e, h3, h4⟩ := hv.enums s hs x hx hi
      exact enum_not_recursive hv.ids htm h4 (h3 ▸ loop _ (members_targets hx) .refl)
    | operation i o es hk hc => simp [hk, Kind.isClass] at h2
  have po : IsPartialOrder Id (Relation.ReflTransGen R) :=
    { refl := fun _ => .refl
      trans := fun _ _ _ => .trans
      antisymm := by
        intro a b h1 h2
        rcases Relation.reflTransGen_iff_eq_or_transGen.1 h1 with e | h1
        · exact e.symm
        · exact absurd (h1.trans_left h2) (acyclic a) }
  obtain ⟨le, hle, hext⟩ := extend_partialOrder (Relation.ReflTransGen R)
  classical
  let le' : Shape → Shape → Prop := fun s t => le s.id t.id
  have : IsTrans Shape le' := ⟨fun a b c h1 h2 => _root_.trans (r := le) h1 h2⟩
  have : Std.Total le' := ⟨fun a b => total_of le a.id b.id⟩
  refine ⟨m.insertionSort le', List.perm_insertionSort le' m, ?_⟩
  rw [C117_order_iff hv (List.perm_insertionSort le' m)]
  have hsorted := List.pairwise_insertionSort le' m
  intro s hs c hc
  obtain ⟨t, htm, rfl, -⟩ := needs_class hv hs hc
  have hr : R t.id s.id := ⟨s, hs, rfl, hc⟩
  have hlt : le t.id s.id := hext _ _ (.single hr)
  have hne : t.id ≠ s.id := fun e => acyclic t.id (.single (by simpa [e] using hr))
  have hs' : s ∈ m.insertionSort le' := (List.perm_insertionSort le' m).mem_iff.2 hs
  have ht' : t ∈ m.insertionSort le' := (List.perm_insertionSort le' m).mem_iff.2 htm
  obtain ⟨xs, ys, e⟩ := List.append_of_mem hs'
  rw [e] at ht' hsorted
  rcases List.mem_append.1 ht' with ht' | ht'
  · obtain ⟨as, bs, e'⟩ := List.append_of_mem ht'
    exact ⟨as, t, bs, s, ys, by rw [e, e'], rfl, rfl⟩
  · rcases List.mem_cons.1 ht' with rfl | ht'
    · exact absurd rfl hne
    · have : le s.id t.id := (List.pairwise_cons.1 (List.pairwise_append.1 hsorted).2.1).1 t ht'
      exact absurd (antisymm_of le hlt this) hne

theorem lookup_bound {l : List (String × Obj)} {t : String} {o : Obj} (h : (t, o) ∈ l) (hu : ∀ b ∈ l, b.1 = t → b.2 = o) :
    l.lookup t = some o := by
  induction l with
  | nil => cases h
  | cons b l ih =>
    rw [List.lookup_cons]
    by_cases e : t = b.1
    · simp [e, hu b (by simp) e.symm]
    · have : (t == b.1) = false := by simpa using e
      rw [this]
      refine ih ?_ fun b' hb' => hu b' (by simp [hb'])
      rcases List.mem_cons.1 h with rfl | h
      · exact absurd rfl e
      · exact h

theorem methods_names : ∀ b ∈ bodyBinds (methods eager),
    b.1 ∈ ["serialize", "serialize_members", "deserialize", "deserialize_kwargs", "_smithy_default"] := by
  cases eager <;> decide

theorem mem_bodyBinds_property {n : Nat} {x : Member} {b : String × Obj} :
    b ∈ bodyBinds (property nm m rec eager n x) ↔
      b = (x.attr, .property x.attr) ∧ (x.init.isSome ∨ isSensitive m x.target = true) := by
  unfold property
  rw [bodyBinds_append, bodyBinds_annotation, List.append_nil]
  cases x.init with
  | none =>
    simp only
    split <;> simp_all [bodyBinds]
  | some d =>
    simp only [bodyBinds_append, bodyBinds_map, List.append_nil, List.mem_append, Option.isSome_some, true_or, and_true]
    split <;> simp [bodyBinds]

/-- When the module has been imported, each class has under the name of a property what was written for it (its default,
or that it is not to be printed), and nothing if the member is required and not sensitive: dataclasses take whatever the
class has under the name for the default. -/
theorem C117_defaults_partial (hv : Valid nm m rec outside) {order : List Shape} (ho : order.Perm m) {n : Nat} {st : State}
    (hl : load nm m rec eager outside n order = some st) {s : Shape} (hs : s ∈ m)
    (hd : ∀ x ∈ s.kind.members, ∀ y ∈ s.kind.members, x.attr = y.attr → x = y)
    (hnames : ∀ x ∈ s.kind.members, x.attr ∉ ["serialize", "serialize_members", "deserialize", "deserialize_kwargs",
      "_smithy_default", "fault", "is_retry_safe", "is_throttling_error"])
    {x : Member} (hx : x ∈ s.kind.members) (hstream : ∀ s' ∈ m, s'.id = x.target → ∀ vs, s'.kind ≠ .union true vs) :
    (∃ scope, (Def.shape s.id, scope) ∈ st.classes) ∧
    ∀ scope, (Def.shape s.id, scope) ∈ st.classes → scope.lookup x.attr =
      if x.init.isSome ∨ ∃ t ∈ m, t.id = x.target ∧ t.sensitive then some (.property x.attr) else none := by
  have hin : ∀ s ∈ order, s ∈ m := fun s hs => ho.mem_iff.1 hs
  have hcls := (run_iff hv.names hv.apart _ (written_module (eager := eager) hv hin n) [] (by simp) []).2 st
    (by simpa [start, load] using hl)
  have hsens : isSensitive m x.target = true ↔ ∃ t ∈ m, t.id = x.target ∧ t.sensitive := by
    constructor
    · exact isSensitive_iff
    · rintro ⟨t, ht, h1, h2⟩
      unfold isSensitive
      cases hf : m.find? (·.id = x.target) with
      | none => exact absurd (List.find?_eq_none.1 hf t ht) (by simp [h1])
      | some u =>
        have : u = t := eq_of_id hv.ids (List.mem_of_find?_eq_some hf) ht
          (by rw [h1]; simpa using List.find?_some hf)
        simp [this, h2]
  -- the statement of the class
  obtain ⟨pre, outer, hpre, hst⟩ : ∃ pre outer, (∀ b ∈ bodyBinds pre, b.1 ∈ ["fault", "is_retry_safe",
      "is_throttling_error"]) ∧ statements nm m rec eager n s =
        [⟨outer, pre ++ properties nm m rec eager n s.kind.members ++ methods eager, .shape s.id⟩] := by
    cases hk : s.kind with
    | struct ms => exact ⟨[], [given "dataclass"], by simp [bodyBinds], by simp [statements, hk, Kind.members]⟩
    | error a b ms =>
      refine ⟨.bind "fault" (.property "fault") :: annotation eager false [given "Literal"] ++
        (if a then .bind "is_retry_safe" (.property "is_retry_safe") :: annotation eager false [given "bool"] ++
        (if b then .bind "is_throttling_error" (.property "is_throttling_error") ::
          annotation eager false [given "bool"] else []) else []), _, ?_, by simp only [statements, hk, Kind.members]; rfl⟩
      cases a <;> cases b <;> simp [bodyBinds, bodyBinds_append, bodyBinds_annotation]
    | _ => simp [hk, Kind.members] at hx
  have hmem : ∀ scope, (Def.shape s.id, scope) ∈ st.classes ↔ scope = (bodyBinds
      (pre ++ properties nm m rec eager n s.kind.members ++ methods eager)).reverse := by
    intro scope
    rw [hcls]
    simp only [classesOf, List.append_nil, List.mem_reverse, List.mem_map, Prod.mk.injEq, module_, List.mem_cons,
      List.mem_flatMap]
    constructor
    · rintro ⟨q, rfl | ⟨s', hs', hq⟩, h1, h2⟩
      · simp at h1
      · have : .shape s.id ∈ (statements nm m rec eager n s').map (·.defines) := List.mem_map.2 ⟨q, hq, h1⟩
        rw [defines_statements] at this
        rw [eq_of_id hv.ids (hin s' hs') hs this.1, hst, List.mem_singleton] at hq
        rw [← h2, hq]
    · rintro rfl
      exact ⟨_, .inr ⟨s, ho.mem_iff.2 hs, by rw [hst]; exact .head _⟩, rfl, rfl⟩
  refine ⟨⟨_, (hmem _).2 rfl⟩, ?_⟩
  intro scope hsc
  rw [(hmem scope).1 hsc]
  have hb : ∀ b, b ∈ (bodyBinds (pre ++ properties nm m rec eager n s.kind.members ++ methods eager)).reverse →
      b.1 = x.attr → b ∈ bodyBinds (property nm m rec eager n x) := by
    intro b hb e
    simp only [List.mem_reverse, bodyBinds_append, List.mem_append] at hb
    rcases hb with (hb | hb) | hb
    · have := hpre b hb
      rw [e] at this
      exact absurd this (fun h => hnames x hx (by simp at h ⊢; tauto))
    · unfold properties at hb
      simp only [bodyBinds_flatMap, List.mem_flatMap, List.mem_append, List.mem_filter] at hb
      obtain ⟨y, hy, h⟩ := hb
      have hy' : y ∈ s.kind.members := by rcases hy with hy | hy <;> exact hy.1.1
      have := (mem_bodyBinds_property.1 h).1
      rw [hd x hx y hy' (by rw [← e, this])]
      exact h
    · have : b.1 ∈ ["serialize", "serialize_members", "deserialize", "deserialize_kwargs", "_smithy_default"] :=
        methods_names b hb
      rw [e] at this
      exact absurd this (fun h => hnames x hx (by simp at h ⊢; tauto))
  simp only [← hsens]
  by_cases hc : x.init.isSome ∨ isSensitive m x.target = true
  · rw [if_pos hc]
    apply lookup_bound
    · simp only [List.mem_reverse, bodyBinds_append, List.mem_append]
      refine .inl (.inr ?_)
      unfold properties
      simp only [bodyBinds_flatMap, List.mem_flatMap, List.mem_append, List.mem_filter]
      refine ⟨x, ?_, mem_bodyBinds_property.2 ⟨rfl, hc⟩⟩
      have := (isStream_false hv.ids).2 hstream
      cases x.init <;> simp [hx, this]
    · intro b h1 h2
      rw [(mem_bodyBinds_property.1 (hb b h1 h2)).1]
  · rw [if_neg hc]
    apply lookup_none
    intro b h1 h2
    exact hc (mem_bodyBinds_property.1 (hb b h1 h2)).2

end Theorems

/-! ## Examples -/

section Examples

/-- For examples: all definitions of the module. -/
def allDefs (m : List Shape) : List Def :=
  .serviceError :: m.flatMap fun s => (statements (fun _ => "") m (fun _ => false) false 0 s).map (·.defines)

theorem defined_mem {m : List Shape} {d : Def} (h : Defined m d) : d ∈ allDefs m := by
  have add : ∀ s ∈ m, d ∈ (statements (fun _ => "") m (fun _ => false) false 0 s).map (·.defines) → d ∈ allDefs m :=
    fun s hs h => .tail _ (List.mem_flatMap.2 ⟨s, hs, h⟩)
  cases h with
  | serviceError => exact .head _
  | shape s hs hk => exact add s hs (defines_statements.2 ⟨rfl, .inl hk⟩)
  | operation s i o es hs hk => exact add s hs (defines_statements.2 ⟨rfl, .inr ⟨i, o, es, hk⟩⟩)
  | variant s b vs v hs hk hv =>
    refine add s hs ?_
    simp only [statements, hk, List.map_append, List.mem_append, List.map_map, List.mem_map, Function.comp]
    exact .inl ⟨v, hv, rfl⟩
  | unknown s b vs hs hk => exact add s hs (by simp [statements, hk])
  | reader s b vs hs hk => exact add s hs (by simp [statements, hk])
  | serialize s e hs hk => exact add s hs (by rcases hk with hk | hk <;> simp [statements, hk, functions])
  | deserialize s e hs hk => exact add s hs (by rcases hk with hk | hk <;> simp [statements, hk, functions])

/-- For examples: which come before which. -/
def beforeB : List Shape → Id → Id → Bool
  | [], _, _ => false
  | s :: r, a, b => (s.id = a && r.any (·.id = b)) || beforeB r a b

theorem before_of_beforeB {order : List Shape} {a b : Id} (h : beforeB order a b = true) : Before order a b := by
  induction order with
  | nil => cases h
  | cons s r ih =>
    simp only [beforeB, Bool.or_eq_true, Bool.and_eq_true, decide_eq_true_eq, List.any_eq_true] at h
    rcases h with ⟨h1, t, ht, h2⟩ | h
    · obtain ⟨ys, zs, e⟩ := List.append_of_mem ht
      exact ⟨[], s, ys, t, zs, by simp [e], h1, h2⟩
    · obtain ⟨xs, u, ys, t, zs, e, h1, h2⟩ := ih h
      exact ⟨s :: xs, u, ys, t, zs, by simp [e], h1, h2⟩

theorem contains_bound {m : List Shape} (f : Id → List Id)
    (hf : ∀ s ∈ m, (s.kind.isClass → s.id ∈ f s.id) ∧ ∀ e, s.kind = .list e ∨ s.kind = .map e → ∀ c ∈ f e, c ∈ f s.id)
    {a c : Id} (h : Contains m a c) : c ∈ f a := by
  induction h with
  | self s hs hk => exact (hf s hs).1 hk
  | list s e c hs hk _ ih => exact (hf s hs).2 e (.inl hk) c ih
  | map s e c hs hk _ ih => exact (hf s hs).2 e (.inr hk) c ih

theorem not_recursive_of_rank {m : List Shape} (rank : Id → Nat) (top : Nat)
    (h : ∀ s ∈ m, ∀ b ∈ targets s.kind, rank b ≤ rank s.id ∧ (rank s.id < top → rank b < rank s.id)) {a : Id}
    (ha : rank a < top) : ¬ Recursive m a := by
  have : ∀ a b, Relation.TransGen (Refers m) a b → rank b ≤ rank a ∧ (rank a < top → rank b < rank a) := by
    intro a b hab
    induction hab with
    | single h' => obtain ⟨s, hs, rfl, hb⟩ := h'; exact h s hs _ hb
    | tail _ h' ih =>
      obtain ⟨s, hs, rfl, hb⟩ := h'
      have := h s hs _ hb
      exact ⟨by omega, fun g => by have := ih.2 g; omega⟩
  intro hr
  have := (this a a hr).2 ha
  omega

/-- Names like those of the generator. -/
def exName : Def → String
  | .serviceError => "ServiceError"
  | .shape id => id
  | .variant u t => u ++ t
  | .unknown u => u ++ "Unknown"
  | .reader u => "_" ++ u ++ "Deserializer"
  | .serialize id => "_serialize_" ++ id
  | .deserialize id => "_deserialize_" ++ id

def exOutside : List String :=
  ["dataclass", "classmethod", "ShapeSerializer", "ShapeDeserializer", "Schema", "Self", "Any", "dict", "list", "str",
    "bool", "Literal", "Union", "ModeledError", "UnknownEnumMixin", "APIOperation", "TypeRegistry", "ShapeID", "StrEnum",
    "field", "datetime", "timezone", "timedelta"]

/-- A tree with a list of trees as children, a union in it, and an operation. -/
def exModel : List Shape :=
  [⟨"String", .simple ["str"], false⟩, ⟨"Secret", .simple ["str"], true⟩, ⟨"Time", .simple ["datetime"], false⟩,
    ⟨"Color", .enumeration "StrEnum", false⟩, ⟨"Names", .list "String", false⟩,
    ⟨"Inner", .struct [⟨"name", "String", none⟩, ⟨"color", "Color", some .enumeration⟩,
      ⟨"names", "Names", some .collection⟩, ⟨"secret", "Secret", none⟩, ⟨"time", "Time", some (.time true)⟩], false⟩,
    ⟨"Failure", .error true true [⟨"code", "String", some .plain⟩], false⟩,
    ⟨"Get", .operation "Inner" "Inner" ["Failure"], false⟩,
    ⟨"Choice", .union false [("Inner", "Inner"), ("Tree", "Tree")], false⟩,
    ⟨"Tree", .struct [⟨"left", "Tree", some .absent⟩, ⟨"children", "Trees", some .absent⟩,
      ⟨"choice", "Choice", some .absent⟩, ⟨"inner", "Inner", none⟩], false⟩,
    ⟨"Trees", .list "Tree", false⟩]

/-- The same, with a list of trees that is not recursive, and the output of an operation. -/
def exForest : List Shape :=
  [⟨"Inner", .struct [], false⟩, ⟨"Forest", .list "Tree", false⟩,
    ⟨"Output", .struct [⟨"forest", "Forest", none⟩], false⟩,
    ⟨"Get", .operation "Inner" "Output" [], false⟩,
    ⟨"Tree", .struct [⟨"left", "Tree", some .absent⟩], false⟩]

def exRec (a : Id) : Bool := a ∈ ["Choice", "Tree", "Trees"]

def exRank (a : Id) : Nat :=
  if a ∈ ["Choice", "Tree", "Trees"] then 9 else if a = "Get" then 3 else if a ∈ ["Inner", "Failure"] then 2
    else if a = "Names" then 1 else 0

theorem exModel_recursive : ∀ a, exRec a = true ↔ Recursive exModel a := by
  have step : ∀ a b, (∃ s ∈ exModel, s.id = a ∧ b ∈ targets s.kind) → Refers exModel a b := fun _ _ h => h
  intro a
  constructor
  · intro h
    have : a = "Choice" ∨ a = "Tree" ∨ a = "Trees" := by simpa [exRec] using h
    have tree : Refers exModel "Tree" "Tree" := step _ _ (by decide +kernel)
    rcases this with rfl | rfl | rfl
    · exact .tail (.single (step "Choice" "Tree" (by decide +kernel))) (step "Tree" "Choice" (by decide +kernel))
    · exact .single tree
    · exact .tail (.single (step "Trees" "Tree" (by decide +kernel))) (step "Tree" "Trees" (by decide +kernel))
  · intro h
    by_contra hr
    refine not_recursive_of_rank exRank 9 (by decide +kernel) ?_ h
    have : a ∉ ["Choice", "Tree", "Trees"] := by simpa [exRec] using hr
    unfold exRank
    rw [if_neg this]
    split
    · omega
    · split
      · omega
      · split <;> omega

def isEnum : Kind → Bool
  | .enumeration _ => true
  | _ => false

def isMap : Kind → Bool
  | .map _ => true
  | _ => false

def isList : Kind → Bool
  | .list _ => true
  | _ => false

def operands : Kind → List Id
  | .operation i o es => i :: o :: es
  | _ => []

def outsiders : Kind → List String
  | .enumeration b => [b]
  | .simple ts => ts
  | _ => []

/-- The hypotheses of `Valid` can be checked one by one. -/
theorem valid_of_checks {nm : Def → String} {m : List Shape} {rec : Id → Bool} {outside : List String}
    (recursive : ∀ a, rec a = true ↔ Recursive m a) (ids : (m.map (·.id)).Nodup)
    (enums : ∀ s ∈ m, ∀ x ∈ s.kind.members, x.init = some .enumeration →
      ∃ t ∈ m, t.id = x.target ∧ isEnum t.kind)
    (collections : ∀ s ∈ m, ∀ x ∈ s.kind.members, x.init = some .collection →
      ∃ t ∈ m, t.id = x.target ∧ ∃ e ∈ targets t.kind, t.kind = .list e ∨ t.kind = .map e)
    (operations : ∀ s ∈ m, ∀ a ∈ operands s.kind, ∃ t ∈ m, t.id = a ∧ t.kind.isClass)
    (outsiders : ∀ s ∈ m, ∀ t ∈ outsiders s.kind, t ∈ outside)
    (names : ∀ d ∈ allDefs m, ∀ e ∈ allDefs m, nm d = nm e → d = e) (apart : ∀ d ∈ allDefs m, nm d ∉ outside)
    (common : ∀ t ∈ exOutside, t ∈ outside)
    (attrs : ∀ s ∈ m, ∀ x ∈ s.kind.members, x.attr ∉ outside ∧ ∀ d ∈ allDefs m, x.attr ≠ nm d)
    (fixed : ∀ t ∈ ["fault", "is_retry_safe", "is_throttling_error", "_result", "serialize", "serialize_members",
      "deserialize", "deserialize_kwargs", "_smithy_default", "_consumer", "_set_result"], t ∉ outside ∧
      ∀ d ∈ allDefs m, t ≠ nm d) : Valid nm m rec outside where
  ids := ids
  recursive := recursive
  enums := by
    intro s hs x hx hi
    obtain ⟨t, ht, h1, h2⟩ := enums s hs x hx hi
    refine ⟨t, ht, ?_⟩
    cases hk : t.kind <;> simp [hk, isEnum] at h2
    exact ⟨_, h1, rfl⟩
  collections := by
    intro s hs x hx hi
    obtain ⟨t, ht, h1, e, -, h2⟩ := collections s hs x hx hi
    exact ⟨t, ht, h1, e, h2⟩
  operations := by
    intro s hs i o es hk a ha
    exact operations s hs a (by rw [hk]; simpa [operands] using ha)
  names := fun d e hd he => names d (defined_mem hd) e (defined_mem he)
  apart := fun d hd => apart d (defined_mem hd)
  common := fun t ht => common t (by
    simp only [exOutside, List.mem_cons, List.not_mem_nil, or_false] at ht ⊢
    tauto)
  bases := by
    intro s hs b hk
    exact outsiders s hs b (by simp [hk, Order.outsiders])
  types := by
    intro s hs ts hk t ht
    exact outsiders s hs t (by simpa [hk, Order.outsiders] using ht)
  field := fun _ _ _ _ _ => common _ (by decide)
  times := fun _ _ _ _ _ _ => ⟨common _ (by decide), common _ (by decide), fun _ => common _ (by decide)⟩
  attrs := fun s hs x hx => ⟨(attrs s hs x hx).1, fun d hd => (attrs s hs x hx).2 d (defined_mem hd)⟩
  fixed := fun t ht => ⟨(fixed t ht).1, fun d hd => (fixed t ht).2 d (defined_mem hd)⟩

theorem exModel_valid : Valid exName exModel exRec exOutside := by
  apply valid_of_checks exModel_recursive <;> decide +kernel

/-- What is in the types of the example. -/
def exIn (a : Id) : List Id :=
  if a = "Trees" then ["Tree"] else if a ∈ ["Color", "Inner", "Failure", "Choice", "Tree"] then [a] else []

theorem exModel_contains {a c : Id} (h : Contains exModel a c) : c ∈ exIn a := by
  refine contains_bound exIn ?_ h
  have : ∀ s ∈ exModel, (s.kind.isClass → s.id ∈ exIn s.id) ∧ ∀ e ∈ targets s.kind, s.kind = .list e ∨ s.kind = .map e →
      ∀ c ∈ exIn e, c ∈ exIn s.id := by decide +kernel
  intro s hs
  refine ⟨(this s hs).1, fun e he => (this s hs).2 e ?_ he⟩
  rcases he with he | he <;> simp [he, targets]

/-- The example meets the hypotheses of `C117_partial`. -/
example : ∀ n, (load exName exModel exRec true exOutside n exModel).isSome := by
  refine C117_partial exModel_valid (.refl _) ?_ ?_ ?_ ?_
  · have : ∀ s ∈ exModel, ∀ t ∈ exModel, t.id ∈ targets s.kind → exRec t.id = false → beforeB exModel t.id s.id := by
      decide +kernel
    intro s hs t ht h1 h2
    exact before_of_beforeB (this s hs t ht h1 (by rw [← exModel_recursive] at h2; simpa using h2))
  · intro _
    have : ∀ s ∈ exModel, isList s.kind = true →
        ∀ c ∈ exIn s.id, exRec c = true → beforeB exModel c s.id := by decide +kernel
    have nomap : ∀ s ∈ exModel, isMap s.kind = false := by decide +kernel
    intro s hs e hk c hc hr
    rcases hk with hk | hk
    · exact before_of_beforeB (this s hs (by simp [hk, isList]) c (exModel_contains hc) ((exModel_recursive c).2 hr))
    · have := nomap s hs
      simp [hk, isMap] at this
  · have : ∀ s ∈ exModel, ∀ x ∈ s.kind.members, x.init = some .collection → ∀ c ∈ exIn x.target, exRec c = false := by
      decide +kernel
    intro s hs x hx hi c hc
    rw [← exModel_recursive]
    simp [this s hs x hx hi c (exModel_contains hc)]
  · have : ∀ s ∈ exModel, ∀ a ∈ operands s.kind, exRec a = false := by decide +kernel
    intro s hs i o es hk a ha
    have := this s hs a (by rw [hk]; exact ha)
    rw [← exModel_recursive]
    simp [this]

/-- That of `C117_order_exists`, and what comes of the example. -/
example : ∃ order : List Shape, order.Perm exModel ∧ ∀ n, (load exName exModel exRec true exOutside n order).isSome := by
  refine C117_order_exists exModel_valid ?_
  have : ∀ s ∈ exModel, ∀ x ∈ s.kind.members, x.init = some .collection → exRec x.target = false := by decide +kernel
  intro s hs x hx hi
  rw [← exModel_recursive]
  simp [this s hs x hx hi]

/-- The properties of the class `Inner` are what they should be. -/
example : ((load exName exModel exRec true exOutside 3 exModel).map fun st => ["name", "color", "names", "secret"].map
    fun t => ((st.classes.find? (·.1 = .shape "Inner")).bind fun e => e.2.lookup t)) =
    some [none, some (.property "color"), some (.property "names"), some (.property "secret")] := by decide +kernel

def exForestRec (a : Id) : Bool := a = "Tree"

theorem exForest_recursive : ∀ a, exForestRec a = true ↔ Recursive exForest a := by
  intro a
  constructor
  · intro h
    have : a = "Tree" := by simpa [exForestRec] using h
    subst this
    exact .single (show ∃ s ∈ exForest, s.id = "Tree" ∧ "Tree" ∈ targets s.kind by decide +kernel)
  · intro h
    by_contra hr
    have hr' : a ≠ "Tree" := by simpa [exForestRec] using hr
    -- `Tree` is below all others, which go down
    have key : ∀ s ∈ exForest, ∀ b ∈ targets s.kind, b = "Tree" ∨
        (s.id = "Output" ∧ b = "Forest") ∨ (s.id = "Get" ∧ (b = "Inner" ∨ b = "Output")) := by decide +kernel
    have tree : ∀ s ∈ exForest, s.id = "Tree" → ∀ b ∈ targets s.kind, b = "Tree" := by decide +kernel
    have down : ∀ x y, Relation.TransGen (Refers exForest) x y → x = "Tree" → y = "Tree" := by
      intro x y h
      induction h with
      | single h => rintro rfl; obtain ⟨s, hs, h1, h2⟩ := h; exact tree s hs h1 _ h2
      | tail _ h ih => intro e; obtain ⟨s, hs, h1, h2⟩ := h; exact tree s hs (h1.trans (ih e)) _ h2
    have last : ∃ y, Relation.ReflTransGen (Refers exForest) a y ∧ Refers exForest y a :=
      Relation.TransGen.tail'_iff.1 h
    obtain ⟨y, h1, s, hs, h2, h3⟩ := last
    rcases key s hs a h3 with e | ⟨e1, e2⟩ | ⟨e1, e2 | e2⟩
    · exact hr' e
    · -- from `Forest` there is only `Tree`
      subst e2
      have : ∀ s ∈ exForest, s.id = "Forest" → ∀ b ∈ targets s.kind, b = "Tree" := by decide +kernel
      obtain ⟨z, ⟨u, hu, h4, h5⟩, h6⟩ := Relation.TransGen.head'_iff.1 h
      have hz := this u hu h4 z h5
      subst hz
      rcases Relation.reflTransGen_iff_eq_or_transGen.1 h6 with h7 | h7
      · exact absurd h7 (by decide +kernel)
      · exact absurd (down _ _ h7 rfl) (by decide +kernel)
    · subst e2
      have : ∀ s ∈ exForest, s.id = "Inner" → targets s.kind = [] := by decide +kernel
      obtain ⟨z, ⟨u, hu, h4, h5⟩, -⟩ := Relation.TransGen.head'_iff.1 h
      rw [this u hu h4] at h5
      cases h5
    · -- only `Get` refers to `Output`, and nothing to `Get`
      subst e2
      rw [← h2, e1] at h1
      rcases Relation.reflTransGen_iff_eq_or_transGen.1 h1 with h7 | h7
      · exact absurd h7 (by decide +kernel)
      · obtain ⟨z, -, u, hu, h8, h9⟩ := Relation.TransGen.tail'_iff.1 h7
        have : ∀ s ∈ exForest, "Get" ∉ targets s.kind := by decide +kernel
        exact this u hu h9

theorem exForest_valid : Valid exName exForest exForestRec exOutside := by
  apply valid_of_checks exForest_recursive <;> decide +kernel

/-- The list of trees keeps the module from being imported; from Python 3.14 on it does not, nor does it in another
order. -/
example : ∃ n, load exName exForest exForestRec true exOutside n exForest = none := by
  refine C117_list_fails exForest_valid (.refl _) ?_ (s := ⟨"Forest", .list "Tree", false⟩) (by decide +kernel) (.inl rfl)
    ?_ (c := "Tree") ?_ ?_
  · have : ∀ s ∈ exForest, ∀ t ∈ exForest, exForestRec s.id = false → exForestRec t.id = true →
        beforeB exForest s.id t.id := by decide +kernel
    intro s hs t ht h1 h2
    rw [← exForest_recursive] at h1 h2
    exact before_of_beforeB (this s hs t ht (by simpa using h1) h2)
  · rw [← exForest_recursive]; decide +kernel
  · exact .list ⟨"Forest", .list "Tree", false⟩ "Tree" "Tree" (by decide +kernel) rfl
      (.self ⟨"Tree", .struct [⟨"left", "Tree", some .absent⟩], false⟩ (by decide +kernel) rfl)
  · rw [← exForest_recursive]; decide +kernel

example : (load exName exForest exForestRec true exOutside 3 exForest) = none := by decide +kernel

example : (load exName exForest exForestRec false exOutside 3 exForest).isSome := by decide +kernel

example : (load exName exForest exForestRec true exOutside 3
    (exForest.filter (·.id = "Tree") ++ exForest.filter (·.id ≠ "Tree"))).isSome := by decide +kernel

/-- A tree whose children are `[]` by default. -/
def exDefault : List Shape :=
  [⟨"Tree", .struct [⟨"children", "Trees", some .collection⟩], false⟩, ⟨"Trees", .list "Tree", false⟩]

def exDefaultRec (a : Id) : Bool := a ∈ ["Tree", "Trees"]

theorem exDefault_valid : Valid exName exDefault exDefaultRec exOutside := by
  have hr : ∀ a, exDefaultRec a = true ↔ Recursive exDefault a := by
    have step : ∀ a b, (∃ s ∈ exDefault, s.id = a ∧ b ∈ targets s.kind) → Refers exDefault a b := fun _ _ h => h
    intro a
    constructor
    · intro h
      have : a = "Tree" ∨ a = "Trees" := by simpa [exDefaultRec] using h
      rcases this with rfl | rfl
      · exact .tail (.single (step "Tree" "Trees" (by decide +kernel))) (step "Trees" "Tree" (by decide +kernel))
      · exact .tail (.single (step "Trees" "Tree" (by decide +kernel))) (step "Tree" "Trees" (by decide +kernel))
    · intro h
      obtain ⟨_, ⟨s, hs, rfl, -⟩, -⟩ := Relation.TransGen.head'_iff.1 h
      have : ∀ s ∈ exDefault, exDefaultRec s.id = true := by decide +kernel
      exact this s hs
  apply valid_of_checks hr <;> decide +kernel

/-- It meets the hypotheses of `C117_default_fails`. -/
example (order : List Shape) (ho : order.Perm exDefault) :
    ∃ n, load exName exDefault exDefaultRec false exOutside n order = none :=
  C117_default_fails exDefault_valid ho (s := ⟨"Tree", .struct [⟨"children", "Trees", some .collection⟩], false⟩)
    (x := ⟨"children", "Trees", some .collection⟩) (by decide +kernel) (.head _) rfl
    (.list ⟨"Trees", .list "Tree", false⟩ "Tree" "Tree" (by decide +kernel) rfl
      (.self ⟨"Tree", .struct [⟨"children", "Trees", some .collection⟩], false⟩ (by decide +kernel) rfl))

example : (load exName exDefault exDefaultRec false exOutside 3 exDefault) = none ∧
    (load exName exDefault exDefaultRec false exOutside 3 exDefault.reverse) = none := by decide +kernel

/-- An operation with a recursive error. -/
def exCause : List Shape :=
  [⟨"Inner", .struct [], false⟩, ⟨"Get", .operation "Inner" "Inner" ["Tree"], false⟩,
    ⟨"Tree", .error false false [⟨"cause", "Tree", some .absent⟩], false⟩]

theorem exCause_recursive : ∀ a, exForestRec a = true ↔ Recursive exCause a := by
  intro a
  constructor
  · intro h
    have : a = "Tree" := by simpa [exForestRec] using h
    subst this
    exact .single (show ∃ s ∈ exCause, s.id = "Tree" ∧ "Tree" ∈ targets s.kind by decide +kernel)
  · intro h
    obtain ⟨_, ⟨s, hs, h1, h2⟩, -⟩ := Relation.TransGen.head'_iff.1 h
    obtain ⟨_, -, t, ht, -, h3⟩ := Relation.TransGen.tail'_iff.1 h
    subst h1
    have : ∀ s ∈ exCause, ∀ t ∈ exCause, ∀ b ∈ targets s.kind, s.id ∈ targets t.kind → exForestRec s.id = true := by
      decide +kernel
    exact this s hs t ht _ h2 h3

theorem exCause_valid : Valid exName exCause exForestRec exOutside := by
  apply valid_of_checks exCause_recursive <;> decide +kernel

example : ∃ n, load exName exCause exForestRec false exOutside n exCause = none := by
  refine C117_operation_fails exCause_valid (.refl _) ?_ (s := ⟨"Get", .operation "Inner" "Inner" ["Tree"], false⟩)
    (by decide +kernel) rfl (by decide +kernel) (a := "Tree") (by decide +kernel) ?_
  · have : ∀ s ∈ exCause, ∀ t ∈ exCause, exForestRec s.id = false → exForestRec t.id = true →
        beforeB exCause s.id t.id := by decide +kernel
    intro s hs t ht h1 h2
    rw [← exCause_recursive] at h1 h2
    exact before_of_beforeB (this s hs t ht (by simpa using h1) h2)
  · rw [← exCause_recursive]; decide +kernel

def exSingle (members : List Member) : List Shape :=
  [⟨"String", .simple ["str"], false⟩, ⟨"Secret", .simple ["str"], true⟩, ⟨"Time", .simple ["datetime"], false⟩,
    ⟨"Inner", .struct members, false⟩]

/-- Members may hide names that are needed later in the class: `field` with a sensitive member after it, `timezone` with
the default of a time after it, and `classmethod`.  Those called like a method lose their default to it.  None of these
names are reserved (reserved-member-names.txt). -/
theorem C117_hidden_fails :
    (load exName (exSingle [⟨"field", "String", some .absent⟩, ⟨"secret", "Secret", some .absent⟩]) exRec false exOutside 3
      (exSingle [⟨"field", "String", some .absent⟩, ⟨"secret", "Secret", some .absent⟩])) = none ∧
    (load exName (exSingle [⟨"timezone", "String", some .absent⟩, ⟨"time", "Time", some (.time true)⟩]) exRec false
      exOutside 3 (exSingle [⟨"timezone", "String", some .absent⟩, ⟨"time", "Time", some (.time true)⟩])) = none ∧
    (load exName (exSingle [⟨"classmethod", "String", some .absent⟩]) exRec false exOutside 3
      (exSingle [⟨"classmethod", "String", some .absent⟩])) = none ∧
    ((load exName (exSingle [⟨"serialize", "String", some .absent⟩]) exRec true exOutside 3
      (exSingle [⟨"serialize", "String", some .absent⟩])).bind fun st =>
        (st.classes.find? (·.1 = .shape "Inner")).bind fun e => e.2.lookup "serialize") = some (.method "serialize") := by
  refine ⟨?_, ?_, ?_, ?_⟩ <;> decide +kernel

/-- With other names all is well. -/
example : (load exName (exSingle [⟨"field_", "String", some .absent⟩, ⟨"secret", "Secret", some .absent⟩,
    ⟨"time", "Time", some (.time true)⟩]) exRec false exOutside 3
    (exSingle [⟨"field_", "String", some .absent⟩, ⟨"secret", "Secret", some .absent⟩,
      ⟨"time", "Time", some (.time true)⟩])).isSome := by decide +kernel

end Examples

end Verif.GeneratedFiles.Order

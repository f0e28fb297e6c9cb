import Verif.GeneratedSerde.RoundTrip

/-!
# What generated classes read from any JSON text: specification (C121)
-/

set_option autoImplicit false

namespace Verif.GeneratedSerde

open Verif.Json (Text Format Plain Event)

variable {F T : Type}

/-- No structure has an event stream as a member. -/
def Model.NoStreams (m : Model F T) : Prop :=
  ∀ id ms, m.shape id = some (.struct ms) → ∀ x ∈ ms, m.isStream x = false

/-- The shape is a document. -/
def Model.isDocument (m : Model F T) (id : Nat) : Bool :=
  match m.shape id with
  | some (.simple .document) => true
  | _ => false

/-- The members of a structure or union that an object gives a value for, in the order of the object: those with one of the
names in JSON, and not `null` unless they are documents. -/
def Model.given (m : Model F T) (useJsonName : Bool) (id : Nat) : List (Text × Json.Json) → List (Member F T × Json.Json)
  | [] => []
  | (key, j) :: es =>
    match (m.members id).find? fun x => Json.jsonKey useJsonName ⟨x.name, x.jsonName⟩ = key with
    | none => m.given useJsonName id es
    | some x =>
      if j.isNull && !m.isDocument x.target then m.given useJsonName id es
      else (x, j) :: m.given useJsonName id es

/-- A value that the codec reads (C44) is itself in Python, and documents, lists and the like are not asked for. -/
def plainValue : Json.Val F T → Py F T
  | .boolean b => .bool b
  | .integer n => .int n
  | .float x => .float x
  | .bigDecimal x => .decimal x
  | .string t => .str t
  | .blob bs => .bytes bs
  | .timestamp t => .time t
  | .document p => .document p
  | _ => .none

/-- For an enum of texts, a text is an instance of its class. -/
def enumValue (cls : Nat) : Json.Val F T → Py F T
  | .string t => .strEnum cls t
  | v => plainValue v

/-- For an enum of numbers, a number is an instance of its class; `true` and `false` are 1 and 0. -/
def intEnumValue (cls : Nat) : Json.Val F T → Py F T
  | .integer n => .intEnum cls n
  | .boolean true => .intEnum cls 1
  | .boolean false => .intEnum cls 0
  | v => plainValue v

/-- What is made of the value that the codec reads (C44) for a shape whose values have no parts, except documents. -/
def Model.wrap (m : Model F T) (id : Nat) : Option (Json.Val F T → Py F T) :=
  match m.shape id with
  | some (.simple .document) => none
  | some (.simple _) => some plainValue
  | some (.timestamp _) => some plainValue
  | some .enum => some (enumValue id)
  | some .intEnum => some (intEnumValue id)
  | _ => none

/-- A value must be given for the member: it cannot be absent, and has no default. -/
def Required (x : Member F T) : Bool := !x.nullable && x.default.isNone

/-- The attributes of an object: those that are required first. -/
def inOrder (ms : List (Member F T)) : List (Member F T) := ms.filter Required ++ ms.filter fun x => !Required x

/-- The value of an attribute: the last value that was read for the member; or if there is none, the correction for a required
member (C100), and the default for others. -/
def Model.Filled (m : Model F T) (given : List (Member F T × Py F T)) (x : Member F T) (v : Py F T) : Prop :=
  match given.reverse.find? fun e => e.1.name = x.name with
  | some e => v = e.2
  | none => if Required x then m.correction x.target = some v else v = x.default.getD .none

mutual
/-- What is read from a JSON value, for a shape and a schema. -/
inductive Reads (m : Model F T) (rd : Json.Reader Ref F T) : Nat → Ref → Json.Json → Py F T → Prop
  | scalar {id : Nat} {s : Ref} {j : Json.Json} {wrap : Json.Val F T → Py F T} {w : Json.Val F T} : m.wrap id = some wrap →
      rd.decode s j = .ok w → Reads m rd id s j (wrap w)
  | document {id : Nat} {s : Ref} {j : Json.Json} : m.shape id = some (.simple .document) →
      Reads m rd id s j (.document (Json.plainOf j))
  | list {id : Nat} {s : Ref} {sparse : Bool} {e : Element} {js : List Json.Json} {vs : List (Py F T)} :
      m.shape id = some (.list sparse e) → ReadsElements m rd sparse e.target (.member id memberName) js vs →
      Reads m rd id s (.arr js) (.list vs)
  | map {id : Nat} {s : Ref} {sparse : Bool} {e : Element} {es : List (Text × Json.Json)} {ps : List (Text × Py F T)} :
      m.shape id = some (.map sparse e) → ReadsEntries m rd sparse e.target (.member id valueName) es ps →
      Reads m rd id s (.obj es) (.dict (ps.foldl (fun d p => Json.put d p.1 p.2) []))
  | object {id : Nat} {s : Ref} {ms : List (Member F T)} {es : List (Text × Json.Json)}
      {given : List (Member F T × Py F T)} {field : Member F T → Py F T} : m.shape id = some (.struct ms) →
      ReadsMembers m rd id (m.given rd.useJsonName id es) given → (∀ x ∈ ms, m.Filled given x (field x)) →
      Reads m rd id s (.obj es) (.object id ((inOrder ms).map fun x => (x.attr, field x)))
  | variant {id : Nat} {s : Ref} {streaming : Bool} {ms : List (Member F T)} {es : List (Text × Json.Json)} {i : Nat}
      {x : Member F T} {j : Json.Json} {v : Py F T} : m.shape id = some (.union streaming ms) →
      m.given rd.useJsonName id es = [(x, j)] → ms[i]? = some x → Reads m rd x.target (.member id x.name) j v →
      Reads m rd id s (.obj es) (.variant id i v)
/-- The values of members, each with its own target and schema. -/
inductive ReadsMembers (m : Model F T) (rd : Json.Reader Ref F T) : Nat → List (Member F T × Json.Json) →
    List (Member F T × Py F T) → Prop
  | nil {id : Nat} : ReadsMembers m rd id [] []
  | cons {id : Nat} {x : Member F T} {j : Json.Json} {v : Py F T} {gs : List (Member F T × Json.Json)}
      {vs : List (Member F T × Py F T)} : Reads m rd x.target (.member id x.name) j v → ReadsMembers m rd id gs vs →
      ReadsMembers m rd id ((x, j) :: gs) ((x, v) :: vs)
/-- The elements of a list: `null` is `None` if it is sparse, and is left out if not. -/
inductive ReadsElements (m : Model F T) (rd : Json.Reader Ref F T) : Bool → Nat → Ref → List Json.Json → List (Py F T) → Prop
  | nil {sparse : Bool} {id : Nat} {s : Ref} : ReadsElements m rd sparse id s [] []
  | none {id : Nat} {s : Ref} {js : List Json.Json} {vs : List (Py F T)} : ReadsElements m rd true id s js vs →
      ReadsElements m rd true id s (.null :: js) (.none :: vs)
  | dropped {id : Nat} {s : Ref} {js : List Json.Json} {vs : List (Py F T)} : ReadsElements m rd false id s js vs →
      ReadsElements m rd false id s (.null :: js) vs
  | value {sparse : Bool} {id : Nat} {s : Ref} {j : Json.Json} {v : Py F T} {js : List Json.Json} {vs : List (Py F T)} :
      j.isNull = false → Reads m rd id s j v → ReadsElements m rd sparse id s js vs →
      ReadsElements m rd sparse id s (j :: js) (v :: vs)
/-- The entries of a map, likewise. -/
inductive ReadsEntries (m : Model F T) (rd : Json.Reader Ref F T) : Bool → Nat → Ref → List (Text × Json.Json) →
    List (Text × Py F T) → Prop
  | nil {sparse : Bool} {id : Nat} {s : Ref} : ReadsEntries m rd sparse id s [] []
  | none {id : Nat} {s : Ref} {key : Text} {es : List (Text × Json.Json)} {ps : List (Text × Py F T)} :
      ReadsEntries m rd true id s es ps → ReadsEntries m rd true id s ((key, .null) :: es) ((key, .none) :: ps)
  | dropped {id : Nat} {s : Ref} {key : Text} {es : List (Text × Json.Json)} {ps : List (Text × Py F T)} :
      ReadsEntries m rd false id s es ps → ReadsEntries m rd false id s ((key, .null) :: es) ps
  | value {sparse : Bool} {id : Nat} {s : Ref} {key : Text} {j : Json.Json} {v : Py F T} {es : List (Text × Json.Json)}
      {ps : List (Text × Py F T)} : j.isNull = false → Reads m rd id s j v → ReadsEntries m rd sparse id s es ps →
      ReadsEntries m rd sparse id s ((key, j) :: es) ((key, v) :: ps)
end

end Verif.GeneratedSerde

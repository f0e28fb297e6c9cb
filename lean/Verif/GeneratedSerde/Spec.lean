import Verif.GeneratedSerde.Model

/-!
# Generated serializers and deserializers: specification (C119, C120)
-/

set_option autoImplicit false

namespace Verif.GeneratedSerde

open Verif.Json (Text Format Plain Event)
open Verif.Scalars.Strict (Num)

variable {F T : Type}

/-- What the Smithy library and the names in the model see to: the members of a structure or union have different names and
different names in JSON, and the attributes of a class have different names. -/
structure Model.Ok (m : Model F T) (useJsonName : Bool) : Prop where
  names : ∀ id, ((m.members id).map (·.name)).Nodup
  keys : ∀ id, ((m.members id).map fun x => Json.jsonKey useJsonName ⟨x.name, x.jsonName⟩).Nodup
  attrs : ∀ id ms, m.shape id = some (.struct ms) → (ms.map (·.attr)).Nodup

/-! ## Values of a shape -/

mutual
/-- A value of Python is of a shape, and one that the JSON codec can carry (C44): no NaN, finite decimals of at most 28 digits,
timestamps that the format restores, and no null documents in lists and maps.  The schema says which format it is. -/
inductive Typed (m : Model F T) (st : Json.Settings F T) (rd : Json.Reader Ref F T) : Nat → Ref → Py F T → Prop
  | boolean {id : Nat} {s : Ref} {b : Bool} : m.shape id = some (.simple .boolean) → Typed m st rd id s (.bool b)
  | integer {id : Nat} {s : Ref} {n : Int} {t : Simple} :
      m.shape id = some (.simple t) → t = .byte ∨ t = .short ∨ t = .integer ∨ t = .long ∨ t = .bigInteger →
      Typed m st rd id s (.int n)
  | float {id : Nat} {s : Ref} {x : Num F} {t : Simple} : m.shape id = some (.simple t) → t = .float ∨ t = .double →
      x ≠ .nan → Typed m st rd id s (.float x)
  | decimal {id : Nat} {s : Ref} {d : Json.Dec} : m.shape id = some (.simple .bigDecimal) → d.digits ≤ 28 →
      Typed m st rd id s (.decimal (.finite d))
  | string {id : Nat} {s : Ref} {t : Text} : m.shape id = some (.simple .string) → Typed m st rd id s (.str t)
  | blob {id : Nat} {s : Ref} {bs : List Base64.Byte} : m.shape id = some (.simple .blob) → Typed m st rd id s (.bytes bs)
  | timestamp {id : Nat} {s : Ref} {f : Option Format} {t : T} : m.shape id = some (.timestamp f) →
      Json.Restores st rd ((m.ownFormat s).or f) t → Typed m st rd id s (.time t)
  | document {id : Nat} {s : Ref} {p : Plain} : m.shape id = some (.simple .document) → p.Ok →
      Typed m st rd id s (.document p)
  | enum {id : Nat} {s : Ref} {t : Text} : m.shape id = some .enum → Typed m st rd id s (.strEnum id t)
  | intEnum {id : Nat} {s : Ref} {n : Int} : m.shape id = some .intEnum → Typed m st rd id s (.intEnum id n)
  | list {id : Nat} {s : Ref} {sparse : Bool} {e : Element} {xs : List (Py F T)} :
      m.shape id = some (.list sparse e) → (∀ x ∈ xs, Slot m st rd sparse e.target (.member id memberName) x) →
      Typed m st rd id s (.list xs)
  | map {id : Nat} {s : Ref} {sparse : Bool} {e : Element} {es : List (Text × Py F T)} :
      m.shape id = some (.map sparse e) → (es.map Prod.fst).Nodup →
      (∀ x ∈ es, Slot m st rd sparse e.target (.member id valueName) x.2) → Typed m st rd id s (.dict es)
  | object {id : Nat} {s : Ref} {ms : List (Member F T)} {value : Member F T → Py F T} :
      m.shape id = some (.struct ms) → (∀ x ∈ m.attributes ms, Attribute m st rd id x (value x)) →
      Typed m st rd id s (.object id ((m.attributes ms).map fun x => (x.attr, value x)))
  | variant {id : Nat} {s : Ref} {streaming : Bool} {ms : List (Member F T)} {i : Nat} {x : Member F T} {v : Py F T} :
      m.shape id = some (.union streaming ms) → ms[i]? = some x → Typed m st rd x.target (.member id x.name) v →
      Typed m st rd id s (.variant id i v)
/-- A value in a list or a map, which may be `None` if the list or map is sparse. -/
inductive Slot (m : Model F T) (st : Json.Settings F T) (rd : Json.Reader Ref F T) : Bool → Nat → Ref → Py F T → Prop
  | null {id : Nat} {s : Ref} : Slot m st rd true id s .none
  | value {sparse : Bool} {id : Nat} {s : Ref} {v : Py F T} : Typed m st rd id s v → v ≠ .document .null →
      Slot m st rd sparse id s v
/-- A value of an attribute, which may be `None` if the member may be null and has no default but `None`. -/
inductive Attribute (m : Model F T) (st : Json.Settings F T) (rd : Json.Reader Ref F T) : Nat → Member F T → Py F T → Prop
  | absent {id : Nat} {x : Member F T} : x.nullable = true →
      x.default = none ∨ (x.default = some .none ∧ m.shape x.target ≠ some (.simple .document)) → Attribute m st rd id x .none
  | present {id : Nat} {x : Member F T} {v : Py F T} : Typed m st rd x.target (.member id x.name) v →
      Attribute m st rd id x v
end

/-- Equal values, as `==` compares them: decimals by their value, documents by their content, and objects by their class and
their attributes. -/
inductive Same : Py F T → Py F T → Prop
  | refl (v : Py F T) : Same v v
  | decimal {d d' : Json.Dec} : d'.value = d.value → Same (.decimal (.finite d)) (.decimal (.finite d'))
  | document {p q : Plain} : Json.SamePlain p q → Same (.document p) (.document q)
  | list {xs ys : List (Py F T)} : List.Forall₂ Same xs ys → Same (.list xs) (.list ys)
  | dict {es fs : List (Text × Py F T)} : es.map Prod.fst = fs.map Prod.fst →
      List.Forall₂ Same (es.map Prod.snd) (fs.map Prod.snd) → Same (.dict es) (.dict fs)
  | object {cls : Nat} {es fs : List (Text × Py F T)} : es.map Prod.fst = fs.map Prod.fst →
      List.Forall₂ Same (es.map Prod.snd) (fs.map Prod.snd) → Same (.object cls es) (.object cls fs)
  | variant {cls i : Nat} {v w : Py F T} : Same v w → Same (.variant cls i v) (.variant cls i w)

mutual
/-- How deep values are nested. -/
def Py.depth : Py F T → Nat
  | .list xs => 1 + depths xs
  | .dict es => 1 + entryDepths es
  | .object _ es => 1 + entryDepths es
  | .variant _ _ v => 1 + v.depth
  | _ => 1
termination_by structural v => v
def depths : List (Py F T) → Nat
  | [] => 0
  | x :: xs => max x.depth (depths xs)
def entryDepths : List (Text × Py F T) → Nat
  | [] => 0
  | (_, x) :: xs => max x.depth (entryDepths xs)
end

/-! ## What is written -/

/-- The method for a shape whose values have no parts: that of its type.  Enums are written as texts or numbers, and blobs that
are streamed as streams. -/
def MethodFor : Shape F T → Method → Prop
  | .simple .boolean, x => x = .boolean
  | .simple .byte, x => x = .byte
  | .simple .short, x => x = .short
  | .simple .integer, x => x = .integer
  | .simple .long, x => x = .long
  | .simple .bigInteger, x => x = .bigInteger
  | .simple .float, x => x = .float
  | .simple .double, x => x = .double
  | .simple .bigDecimal, x => x = .bigDecimal
  | .simple .string, x => x = .string
  | .simple .blob, x => x = .blob
  | .simple .document, x => x = .document
  | .timestamp _, x => x = .timestamp
  | .stream, x => x = .dataStream
  | .enum, x => x = .string
  | .intEnum, x => x = .integer
  | _, _ => False

mutual
/-- The calls say what the value is: with the schema that they are made with, by the method for the shape the schema is for;
lists and maps with their size and each element with the schema of the member; structures with those members that have a value,
in the order of the model, each with its own schema; and unions with the one member. -/
inductive Writes (m : Model F T) : Ref → Py F T → Call F T → Prop
  | value {s : Ref} {id : Nat} {shape : Shape F T} {method : Method} {v : Py F T} : m.target s = some id →
      m.shape id = some shape → MethodFor shape method → Writes m s v (.write method s v)
  | list {s : Ref} {id : Nat} {sparse : Bool} {e : Element} {xs : List (Py F T)} {cs : List (Call F T)} :
      m.target s = some id → m.shape id = some (.list sparse e) →
      WritesEach m sparse (xs.map fun x => (.member id memberName, x)) cs → Writes m s (.list xs) (.list s xs.length cs)
  | map {s : Ref} {id : Nat} {sparse : Bool} {e : Element} {es : List (Text × Py F T)} {cs : List (Call F T)} :
      m.target s = some id → m.shape id = some (.map sparse e) →
      WritesEach m sparse (es.map fun x => (.member id valueName, x.2)) cs →
      Writes m s (.dict es) (.map s es.length ((es.map Prod.fst).zip cs))
  | object {s : Ref} {id : Nat} {ms written : List (Member F T)} {fields : List (Text × Py F T)}
      {value : Member F T → Py F T} {cs : List (Call F T)} :
      m.target s = some id → m.shape id = some (.struct ms) →
      written.Sublist ms →
      (∀ x ∈ ms, x ∈ written ↔ m.isStream x = false ∧ fields.lookup x.attr ≠ some .none) →
      (∀ x ∈ written, fields.lookup x.attr = some (value x)) →
      WritesEach m false (written.map fun x => (.member id x.name, value x)) cs →
      Writes m s (.object id fields) (.struct s cs)
  | variant {s : Ref} {id : Nat} {streaming : Bool} {ms : List (Member F T)} {i : Nat} {x : Member F T} {v : Py F T}
      {c : Call F T} : m.target s = some id → m.shape id = some (.union streaming ms) → ms[i]? = some x →
      Writes m (.member id x.name) v c → Writes m s (.variant id i v) (.struct s [c])
/-- One call for each value; if they may be `None`, that is `write_null`. -/
inductive WritesEach (m : Model F T) : Bool → List (Ref × Py F T) → List (Call F T) → Prop
  | nil {sparse : Bool} : WritesEach m sparse [] []
  | null {s : Ref} {xs : List (Ref × Py F T)} {cs : List (Call F T)} : WritesEach m true xs cs →
      WritesEach m true ((s, .none) :: xs) (.null s :: cs)
  | value {sparse : Bool} {s : Ref} {v : Py F T} {c : Call F T} {xs : List (Ref × Py F T)} {cs : List (Call F T)} :
      Writes m s v c → WritesEach m sparse xs cs → WritesEach m sparse ((s, v) :: xs) (c :: cs)
end

end Verif.GeneratedSerde

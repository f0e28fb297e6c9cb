import Verif.RestJson.Model
import Verif.GeneratedSerde.Nested

/-!
# The output of an operation, from the service to the caller: specification (C129)
-/

set_option autoImplicit false

namespace Verif.RestJson

open Verif.GeneratedSerde (Py Ref Model Shape Simple Typed)
open Verif.Timestamps (DateTime)
open Verif.Timestamps.Spec
open Verif.Http.HeaderValue (Shown)
open Verif.Numerals (natText)
open Verif.Scalars.Strict (Num)
open Verif.HeaderText (Trimmed)
open Verif.EventStream (rnd)

/-- Service and client agree on JSON, and Python is as C43, C44 and C78 have it. -/
structure World.Ok (w : World) (nearest : Rat → Num Rat) : Prop where
  names : w.model.Ok w.rd.useJsonName
  settings : w.st.Ok
  fits : Json.Fits w.st w.rd
  view : w.rd.view = w.model.view
  parse : ∀ t j, Json.IsJsonText t j → w.parse (Http.RestJson.utf8 t) = some j
  python : w.hdr.Sane nearest
  int : ∀ n : Nat, w.int (natText n) = some (n : Int)
  lower : w.lower "content-type".toList ≠ w.lower "content-length".toList

/-- One member at most is a map of headers with a prefix, and no other header starts with it.  Names are put into lower case character by
character, as those in ASCII are. -/
def World.PrefixOk (w : World) (cls : Nat) : Prop :=
  ∀ x ∈ w.model.members cls, ∀ p, (w.traits x).prefixHeaders = some p → Http.Reading.CharWise w.lower ∧
    (∀ y ∈ w.model.members cls, (w.traits y).prefixHeaders ≠ none → y = x) ∧
    (∀ y ∈ w.model.members cls, ∀ a, (w.traits y).header = some a → ¬ w.lower p <+: w.lower a) ∧
    ¬ w.lower p <+: w.lower "content-type".toList ∧ ¬ w.lower p <+: w.lower "content-length".toList

/-- The HTTP bindings of a class, as a model of Smithy has them: different headers, none of those of the body, and one status at
most.  There are no event streams and payloads, which are not covered. -/
structure World.Bound (w : World) (cls : Nat) : Prop where
  streams : ∀ x ∈ w.model.members cls, w.model.isStream x = false
  payload : ∀ x ∈ w.model.members cls, (w.traits x).payload = false
  prefixes : w.PrefixOk cls
  headers : ∀ x ∈ w.model.members cls, ∀ y ∈ w.model.members cls, ∀ a b, (w.traits x).header = some a →
    (w.traits y).header = some b → w.lower a = w.lower b → x = y
  own : ∀ x ∈ w.model.members cls, ∀ a, (w.traits x).header = some a →
    w.lower a ≠ w.lower "content-type".toList ∧ w.lower a ≠ w.lower "content-length".toList
  status : ∀ x ∈ w.model.members cls, ∀ y ∈ w.model.members cls, (w.traits x).responseCode = true →
    (w.traits y).responseCode = true → x = y

/-- A `datetime` in UTC that the format restores: HTTP dates and epoch seconds have no fractions of a second here. -/
def TimeOk (w : World) (f : Option Json.Format) (dt : DateTime) : Prop :=
  Valid dt ∧ dt.offset = some 0 ∧
    match f with
    | none | some .httpDate => instant dt % 1000000 = 0 ∧ -59011459200000000 ≤ instant dt
    | some .dateTime => w.hdr.padYear = true ∨ -30610224000000000 ≤ instant dt
    | some .epochSeconds => instant dt % 1000000 = 0

/-- A value of a shape that the text of a header restores (C78). -/
inductive HeaderOk (w : World) (nearest : Rat → Num Rat) : Nat → Ref → P → Prop
  | boolean {id : Nat} {s : Ref} {b : Bool} : w.model.shape id = some (.simple .boolean) → HeaderOk w nearest id s (.bool b)
  | integer {id : Nat} {s : Ref} {n : Int} {t : Simple} : w.model.shape id = some (.simple t) →
      t = .byte ∨ t = .short ∨ t = .integer ∨ t = .long ∨ t = .bigInteger →
      (natText n.natAbs).length ≤ w.hdr.py.limit → HeaderOk w nearest id s (.int n)
  | intEnum {id : Nat} {s : Ref} {n : Int} : w.model.shape id = some .intEnum →
      (natText n.natAbs).length ≤ w.hdr.py.limit → HeaderOk w nearest id s (.intEnum id n)
  | float {id : Nat} {s : Ref} {x : Num Double} {t : Simple} : w.model.shape id = some (.simple t) → t = .float ∨ t = .double →
      (∀ q, x = .finite q → Shown w.hdr nearest q.1) → HeaderOk w nearest id s (.float x)
  | decimal {id : Nat} {s : Ref} {x : Num Json.Dec} : w.model.shape id = some (.simple .bigDecimal) →
      (∀ d, x = .finite d → d.digits ≤ 28) → HeaderOk w nearest id s (.decimal x)
  | string {id : Nat} {s : Ref} {t : Text} : w.model.shape id = some (.simple .string) → HeaderOk w nearest id s (.str t)
  | enum {id : Nat} {s : Ref} {t : Text} : w.model.shape id = some .enum → HeaderOk w nearest id s (.strEnum id t)
  | timestamp {id : Nat} {s : Ref} {f : Option Json.Format} {dt : DateTime} : w.model.target s = some id →
      w.model.shape id = some (.timestamp f) → TimeOk w ((w.model.ownFormat s).or f) dt → HeaderOk w nearest id s (.time dt)

/-- A value that may be the only one in a list: a text is not taken apart. -/
inductive Alone (w : World) (nearest : Rat → Num Rat) (s : Ref) : P → Prop
  | text {v : P} {t : Text} : (v = .str t ∨ ∃ c, v = .strEnum c t) → w.media s = false → Trimmed w.hdr.py.isSpace t →
      t.head? ≠ some '"' → ',' ∉ t → Alone w nearest s v
  | media {v : P} {t : Text} : (v = .str t ∨ ∃ c, v = .strEnum c t) → w.media s = true → t ≠ [] → Alone w nearest s v
  | number {v : P} : (∃ b, v = .bool b) ∨ (∃ n, v = .int n) ∨ (∃ c n, v = .intEnum c n) ∨ (∃ x, v = .float x) ∨
      (∃ x, v = .decimal x) → Alone w nearest s v
  | time {dt : DateTime} : (w.hdr.padYear = true ∨ -30610224000000000 ≤ instant dt) →
      Shown w.hdr nearest (rnd ((instant dt : Rat) / 1000000)) → Alone w nearest s (.time dt)

/-- A value of an attribute of the output: `None`, if the member may be null and has no default; or one that the place that it is
bound to restores.  What is bound to the status, or to headers with a prefix, always has a value. -/
inductive Field (w : World) (nearest : Rat → Num Rat) (cls : Nat) (x : GMember) : P → Prop
  | absent : x.nullable = true →
      x.default = none ∨ (x.default = some .none ∧ w.model.shape x.target ≠ some (.simple .document)) →
      (w.traits x).responseCode = false → (w.traits x).prefixHeaders = none → Field w nearest cls x .none
  | body {v : P} : (w.traits x).responseCode = false → (w.traits x).header = none → (w.traits x).prefixHeaders = none →
      Typed w.model w.st w.rd x.target (.member cls x.name) v → Field w nearest cls x v
  | header {v : P} {k : Text} : (w.traits x).responseCode = false → (w.traits x).header = some k →
      HeaderOk w nearest x.target (.member cls x.name) v → Field w nearest cls x v
  | headers {k : Text} {sparse : Bool} {e : GeneratedSerde.Element} {xs : List P} : (w.traits x).responseCode = false →
      (w.traits x).header = some k → w.model.shape x.target = some (.list sparse e) → xs ≠ [] →
      (∀ v ∈ xs, HeaderOk w nearest e.target (.member x.target GeneratedSerde.memberName) v) →
      (∀ v, xs = [v] → Alone w nearest (.member x.target GeneratedSerde.memberName) v) →
      Field w nearest cls x (.list xs)
  | prefixed {p : Text} {sparse : Bool} {e : GeneratedSerde.Element} {kvs : List (Text × Text)} : (w.traits x).responseCode = false →
      (w.traits x).header = none → (w.traits x).prefixHeaders = some p → w.model.shape x.target = some (.map sparse e) →
      w.model.shape e.target = some (.simple .string) → w.media (.member x.target GeneratedSerde.valueName) = false →
      (kvs.map fun kv => w.lower kv.1).Nodup → Field w nearest cls x (.dict (kvs.map fun kv => (kv.1, .str kv.2)))
  | status {n : Int} {t : Simple} : (w.traits x).responseCode = true → w.model.shape x.target = some (.simple t) →
      t = .byte ∨ t = .short ∨ t = .integer → Field w nearest cls x (.int n)
  | statusEnum {n : Int} : (w.traits x).responseCode = true → w.model.shape x.target = some .intEnum →
      Field w nearest cls x (.intEnum x.target n)

/-- The members of a JSON object, and others that the class does not have, anywhere among them.  The value of a member may have others
too, at any depth, and those of objects in it may be in another order (`SameContent`), if the model has no event streams. -/
inductive Adds (w : World) (cls : Nat) : List (Text × Json.Json) → List (Text × Json.Json) → Prop
  | nil : Adds w cls [] []
  | keep {e : Text × Json.Json} {js js' : List (Text × Json.Json)} : Adds w cls js js' → Adds w cls (e :: js) (e :: js')
  | inside {key : Text} {j k : Json.Json} {js js' : List (Text × Json.Json)} : w.model.NoStreams →
      (∀ x ∈ w.model.members cls, Json.jsonKey w.rd.useJsonName ⟨x.name, x.jsonName⟩ = key →
        GeneratedSerde.SameContent w.model w.rd.useJsonName x.target j k) →
      Adds w cls js js' → Adds w cls ((key, j) :: js) ((key, k) :: js')
  | extra {e : Text × Json.Json} {js js' : List (Text × Json.Json)} :
      (∀ x ∈ w.model.members cls, Json.jsonKey w.rd.useJsonName ⟨x.name, x.jsonName⟩ ≠ e.1) → Adds w cls js js' → Adds w cls js (e :: js')

/-- A body for which there is no need to be what the service wrote for the class: it may have other members, and if nothing of the class is in
the body it may be anything. -/
def Within (w : World) (cls : Nat) (written body : Bytes) : Prop :=
  (∃ x ∈ w.model.members cls, (w.traits x).responseCode = false ∧ (w.traits x).header = none ∧
    (w.traits x).prefixHeaders = none) →
    body ≠ [] ∧ ∃ js js', w.parse written = some (.obj js) ∧ w.parse body = some (.obj js') ∧ Adds w cls js js'

end Verif.RestJson

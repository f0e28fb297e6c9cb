import Verif.Fields.Model

/-!
# What a user of a header collection relies on

The collection is a list of fields in insertion order; two names are the same if they are equal
after lower-casing.
-/

set_option autoImplicit false

namespace Verif.Fields

variable {S : Type} [DecidableEq S] (lower : S → S)

/-- Same name up to case. -/
def same (a b : S) : Bool := lower a = lower b

/-- The field of that name. -/
def lookup (c : List (Field S)) (name : S) : Option (Field S) :=
  c.find? fun f => same lower f.name name

/-- Replace the field of the same name, or append. -/
def put (c : List (Field S)) (f : Field S) : List (Field S) :=
  if (lookup lower c f.name).isSome then c.map fun g => if same lower g.name f.name then f else g
  else c ++ [f]

/-- Append the values of `f` to the field of the same name, or add `f`. -/
def merge (c : List (Field S)) (f : Field S) : List (Field S) :=
  if (lookup lower c f.name).isSome then
    c.map fun g => if same lower g.name f.name then { g with values := g.values ++ f.values } else g
  else c ++ [f]

/-- No two names are the same. -/
def Distinct (c : List (Field S)) : Prop := c.Pairwise fun f g => lower f.name ≠ lower g.name

instance (c : List (Field S)) : Decidable (Distinct lower c) :=
  inferInstanceAs (Decidable (c.Pairwise _))

/-- Change the field of that name. -/
def specModify (c : List (Field S)) (name : S) (u : Field S → Field S) : List (Field S) × Res S :=
  if (lookup lower c name).isSome then
    (c.map fun g => if same lower g.name name then u g else g, .done)
  else (c, .failed .keyError)

def specStep (c : List (Field S)) : Op S → List (Field S) × Res S
  | .setItem name f => if same lower name f.name then (put lower c f, .done) else (c, .failed .valueError)
  | .setField f => (put lower c f, .done)
  | .get name => (c, match lookup lower c name with | some f => .field f | none => .failed .keyError)
  | .contains name => (c, .bool (c.any fun f => same lower f.name name))
  | .del name =>
    if (lookup lower c name).isSome then (c.filter fun f => !same lower f.name name, .done)
    else (c, .failed .keyError)
  | .extend fs =>
    if Distinct lower fs then (fs.foldl (merge lower) c, .done) else (c, .failed .valueError)
  | .add name v => specModify lower c name fun f => ⟨f.name, f.values ++ [v], f.kind⟩
  | .setValues name vs => specModify lower c name fun f => ⟨f.name, vs, f.kind⟩
  | .remove name v => specModify lower c name fun f => ⟨f.name, f.values.filter (· ≠ v), f.kind⟩
  | .iter => (c, .list c)
  | .byType k => (c, .list (c.filter fun f => f.kind = k))
  | .len => (c, .nat c.length)

def specRun (c : List (Field S)) : List (Op S) → List (Field S) × List (Res S)
  | [] => (c, [])
  | op :: ops =>
    let (c, r) := specStep lower c op
    let (c, rs) := specRun c ops
    (c, r :: rs)

end Verif.Fields

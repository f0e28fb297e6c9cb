import Verif.Common

/-!
# Header collections

Models `Field` and `Fields` (smithy_http/__init__.py:15-204) and `tuples_to_fields` (220-235).

`Field` objects are mutable and shared by reference, so they live in a heap and collections hold
their addresses.  `lower` stands for `str.lower` and is arbitrary.  A field's `name` and `kind` are
never reassigned (nothing in the repository does); `encoding` is left out.
-/

set_option autoImplicit false

namespace Verif.Fields

/-- `FieldPosition` (smithy_http/interfaces/__init__.py); other kinds are rejected by
`Field.__init__` (`__init__.py:34-35`) and cannot be built here. -/
inductive Kind where
  | header | trailer
  deriving DecidableEq, Repr

/-- `Field` (`__init__.py:15-92`). -/
structure Field (S : Type) where
  name : S
  values : List S
  kind : Kind
  deriving DecidableEq, Repr

section
variable {S : Type} [DecidableEq S]

/-- `Field.add` (38-40). -/
def Field.add (f : Field S) (v : S) : Field S := { f with values := f.values ++ [v] }

/-- `Field.set` (42-44). -/
def Field.set (f : Field S) (vs : List S) : Field S := { f with values := vs }

/-- `list.remove` until it raises (46-52). -/
def removeAll (v : S) : Nat → List S → List S
  | 0, l => l
  | n + 1, l => if v ∈ l then removeAll v n (l.erase v) else l

/-- `Field.remove` (46-52); the loop runs once per occurrence. -/
def Field.remove (f : Field S) (v : S) : Field S :=
  { f with values := removeAll v f.values.length f.values }

/-- `Field.as_tuples` (73-76). -/
def Field.asTuples (f : Field S) : List (S × S) := f.values.map fun v => (f.name, v)

/-! ## Dictionaries -/

/-- An `OrderedDict` from strings to addresses. -/
abbrev Dict (S : Type) := List (S × Nat)

/-- `d[k]`; `none` is the `KeyError`. -/
def Dict.get (d : Dict S) (k : S) : Option Nat := List.lookup k d

/-- `d[k] = v`: an existing key keeps its place. -/
def Dict.set (d : Dict S) (k : S) (a : Nat) : Dict S :=
  match d with
  | [] => [(k, a)]
  | (k', a') :: d => if k' = k then (k, a) :: d else (k', a') :: Dict.set d k a

/-- `del d[k]`. -/
def Dict.del (d : Dict S) (k : S) : Dict S := d.filter fun x => x.1 ≠ k

/-! ## Collections -/

inductive Err where
  | valueError
  | keyError
  deriving DecidableEq, Repr

/-- The heap. -/
abbrev Heap (S : Type) := List (Field S)

/-- Change the object at an address. -/
def Heap.update (h : Heap S) (a : Nat) (f : Field S → Field S) : Heap S :=
  match h[a]? with
  | some x => List.set h a (f x)
  | none => h

variable (lower : S → S)

/-- `Fields.__init__` (95-122): the keys are the lower-cased names, which must be unique. -/
def construct (h : Heap S) (addrs : List Nat) : Except Err (Dict S) :=
  let keys := addrs.filterMap fun a => (h[a]?).map fun f => (lower f.name, a)
  if (keys.map Prod.fst).Nodup then .ok (keys.foldl (fun d x => Dict.set d x.1 x.2) [])
  else .error .valueError

/-- `__setitem__` (128-137). -/
def setItem (h : Heap S) (d : Dict S) (name : S) (a : Nat) : Except Err (Dict S) :=
  match h[a]? with
  | some f => if lower name = lower f.name then .ok (d.set (lower name) a) else .error .valueError
  | none => .error .valueError

/-- `set_field` (124-126). -/
def setField (h : Heap S) (d : Dict S) (a : Nat) : Except Err (Dict S) :=
  match h[a]? with
  | some f => setItem lower h d f.name a
  | none => .error .valueError

/-- `__getitem__` (144-147). -/
def getItem (d : Dict S) (name : S) : Except Err Nat :=
  match d.get (lower name) with
  | some a => .ok a
  | none => .error .keyError

/-- `__contains__` (203-204). -/
def contains (d : Dict S) (name : S) : Bool := (d.get (lower name)).isSome

/-- `__delitem__` (149-152). -/
def delItem (d : Dict S) (name : S) : Except Err (Dict S) :=
  if contains lower d name then .ok (d.del (lower name)) else .error .keyError

/-- `__iter__` (194-195). -/
def fields (h : Heap S) (d : Dict S) : List (Field S) := d.filterMap fun x => h[x.2]?

/-- `get_by_type` (154-159). -/
def getByType (h : Heap S) (d : Dict S) (k : Kind) : List (Field S) :=
  (fields h d).filter fun f => f.kind = k

/-- `extend` (161-175), over the addresses of the other collection.  When the field found under the
other field's name is the same object and has values, the loop appends to the list it is iterating
over and never ends: `none`. -/
def extend (h : Heap S) (d : Dict S) : List Nat → Option (Heap S × Dict S)
  | [] => some (h, d)
  | a :: as =>
    match h[a]? with
    | none => extend h d as
    | some f =>
      match d.get (lower f.name) with
      | some b =>
        if b = a ∧ f.values ≠ [] then none
        else extend (Heap.update h b fun g => { g with values := g.values ++ f.values }) d as
      | none => extend h (d.set (lower f.name) a) as

/-- `tuples_to_fields` (220-235). -/
def ofTuples (kind : Option Kind) : Heap S → Dict S → List (S × S) → Heap S × Dict S
  | h, d, [] => (h, d)
  | h, d, (name, value) :: ts =>
    match d.get (lower name) with
    | some a => ofTuples kind (Heap.update h a fun f => f.add value) d ts
    | none =>
      ofTuples kind (h ++ [⟨name, [value], kind.getD .header⟩]) (d.set (lower name) h.length) ts

/-! ## A program working with one collection

Every field is created where it is put in (the way the serializers and the pipeline use `Fields`),
so no object is reachable twice. -/

inductive Op (S : Type) where
  | setItem (name : S) (f : Field S)
  | setField (f : Field S)
  | get (name : S)
  | contains (name : S)
  | del (name : S)
  | extend (fs : List (Field S))
  | add (name value : S)
  | setValues (name : S) (values : List S)
  | remove (name value : S)
  | iter
  | byType (kind : Kind)
  | len

inductive Res (S : Type) where
  | done
  | failed (e : Err)
  | field (f : Field S)
  | bool (b : Bool)
  | list (fs : List (Field S))
  | nat (n : Nat)
  deriving DecidableEq, Repr

structure St (S : Type) where
  heap : Heap S
  entries : Dict S

/-- Change a field reached through the collection: `fields[name].add(value)` and the like. -/
def St.modify (s : St S) (name : S) (f : Field S → Field S) : St S × Res S :=
  match getItem lower s.entries name with
  | .ok a => ({ s with heap := Heap.update s.heap a f }, .done)
  | .error e => (s, .failed e)

def St.step (s : St S) : Op S → St S × Res S
  | .setItem name f =>
    match setItem lower (s.heap ++ [f]) s.entries name s.heap.length with
    | .ok d => (⟨s.heap ++ [f], d⟩, .done)
    | .error e => (⟨s.heap ++ [f], s.entries⟩, .failed e)
  | .setField f =>
    match setField lower (s.heap ++ [f]) s.entries s.heap.length with
    | .ok d => (⟨s.heap ++ [f], d⟩, .done)
    | .error e => (⟨s.heap ++ [f], s.entries⟩, .failed e)
  | .get name =>
    match getItem lower s.entries name with
    | .ok a => (s, match s.heap[a]? with | some f => .field f | none => .failed .keyError)
    | .error e => (s, .failed e)
  | .contains name => (s, .bool (contains lower s.entries name))
  | .del name =>
    match delItem lower s.entries name with
    | .ok d => ({ s with entries := d }, .done)
    | .error e => (s, .failed e)
  | .extend fs =>
    let h := s.heap ++ fs
    let addrs := List.range' s.heap.length fs.length
    match construct lower h addrs with
    | .error e => (⟨h, s.entries⟩, .failed e)
    | .ok other =>
      match extend lower h s.entries (other.map Prod.snd) with
      | some (h, d) => (⟨h, d⟩, .done)
      | none => (s, .failed .valueError)
  | .add name value => s.modify lower name fun f => f.add value
  | .setValues name vs => s.modify lower name fun f => f.set vs
  | .remove name value => s.modify lower name fun f => f.remove value
  | .iter => (s, .list (fields s.heap s.entries))
  | .byType k => (s, .list (getByType s.heap s.entries k))
  | .len => (s, .nat s.entries.length)

def St.run (s : St S) : List (Op S) → St S × List (Res S)
  | [] => (s, [])
  | op :: ops =>
    let (s, r) := s.step lower op
    let (s, rs) := St.run s ops
    (s, r :: rs)

end

end Verif.Fields

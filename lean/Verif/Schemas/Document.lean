import Verif.Schemas.Dict
import Verif.Shapes.ShapeId

/-!
# Documents (C39)

Models `Document` (smithy_core/documents.py:58-424): a document keeps its content wrapped (`_value`),
plain (`_raw_value`) or both, and converts between the two when asked.

Simplifications: documents are trees, that is, a document that is assigned into another one is not used
elsewhere afterwards (the code shares the dict or list in that case), and plain values given by the
caller are not changed by the caller afterwards.  Not modelled: slices, `get`, assigning plain dicts and
lists of documents, changing the dict or list returned by `as_map` or `as_list`.  Conversion to and from
shapes is in `Verif/Schemas/DocumentShapes.lean`.
-/

set_option autoImplicit false

namespace Verif.Schemas.Document

open Verif.Shapes Verif.Schemas

/-! ## Model -/

/-- `DocumentValue` (documents.py:24-36). -/
inductive Plain (A : Type) where
  | null
  | scalar (a : A)
  | map (es : List (Text × Plain A))
  | list (xs : List (Plain A))

/-- Shape types as far as documents look at them; `free` are `DOCUMENT`, `OPERATION` and `SERVICE`. -/
inductive Kind where
  | struct | union | map | list | free
  | scalar (code : Nat)
  deriving DecidableEq, Repr

/-- What documents use of schemas and scalars. -/
structure Env (S A : Type) where
  /-- `schema.shape_type` -/
  kind : S → Kind
  /-- `schema.members[name]` -/
  member : S → Text → Option S
  /-- the type of a scalar (documents.py:107-127) -/
  kindOf : A → Kind

mutual
/-- A `Document` (documents.py:66-69). -/
inductive Doc (S A : Type) where
  | mk (schema : S) (type : Kind) (value : Value S A) (raw : Option (Plain A))
/-- `_value`. -/
inductive Value (S A : Type) where
  | null
  | scalar (a : A)
  | map (es : List (Text × Doc S A))
  | list (ds : List (Doc S A))
end

inductive DErr where
  /-- `KeyError` -/
  | key
  /-- `IndexError` -/
  | index
  /-- `ExpectationNotMetError` -/
  | expectation
  deriving DecidableEq, Repr

/-- Subscripts. -/
inductive DKey where
  | name (k : Text)
  | index (i : Int)
  deriving DecidableEq, Repr

/-- `d[k] = v` for a dict: an existing key keeps its place. -/
def Dict.put {V : Type} : Dict Text V → Text → V → Dict Text V
  | [], k, v => [(k, v)]
  | e :: d, k, v => if e.1 = k then (k, v) :: d else e :: Dict.put d k v

section
variable {S A : Type}

/-- `_schema` (documents.py:69). -/
def Doc.schema : Doc S A → S | .mk s _ _ _ => s
/-- `_type` (documents.py:68). -/
def Doc.type : Doc S A → Kind | .mk _ t _ _ => t
/-- `_value` (documents.py:66). -/
def Doc.value : Doc S A → Value S A | .mk _ _ v _ => v
/-- `_raw_value` (documents.py:67). -/
def Doc.raw : Doc S A → Option (Plain A) | .mk _ _ _ r => r

/-- The type a document gets (documents.py:99-127). -/
def typeFor (env : Env S A) (schema : S) (content : Kind) : Kind :=
  if env.kind schema = .free then content else env.kind schema

/-- `Document(value, schema=schema)` for a plain value (documents.py:71-127). -/
def newDoc (env : Env S A) (schema : S) : Plain A → Doc S A
  | .null => .mk schema (typeFor env schema .free) .null none
  | .scalar a => .mk schema (typeFor env schema (env.kindOf a)) (.scalar a) none
  | .map [] => .mk schema (typeFor env schema .map) (.map []) none
  | .map es => .mk schema (typeFor env schema .map) .null (some (.map es))
  | .list [] => .mk schema (typeFor env schema .list) (.list []) none
  | .list xs => .mk schema (typeFor env schema .list) .null (some (.list xs))

/-- `_wrap_map` (documents.py:239-249). -/
def wrapMap (env : Env S A) (schema : S) (es : List (Text × Plain A)) :
    Except DErr (List (Text × Doc S A)) :=
  match env.kind schema with
  | .struct | .union =>
    es.mapM fun e => match env.member schema e.1 with
      | none => .error .key
      | some m => .ok (e.1, newDoc env m e.2)
  | .map =>
    match env.member schema "value".toList with
    | none => .error .key
    | some m => .ok (es.map fun e => (e.1, newDoc env m e.2))
  | _ => .ok (es.map fun e => (e.1, newDoc env schema e.2))

/-- `_wrap_list` (documents.py:215-219). -/
def wrapList (env : Env S A) (schema : S) (xs : List (Plain A)) : Except DErr (List (Doc S A)) :=
  match env.kind schema with
  | .list =>
    match env.member schema "member".toList with
    | none => .error .key
    | some m => .ok (xs.map (newDoc env m))
  | _ => .ok (xs.map (newDoc env schema))

/-- `as_map` (documents.py:228-237). -/
def asMap (env : Env S A) : Doc S A → Doc S A × Except DErr (List (Text × Doc S A))
  | .mk s t (.map es) raw => (.mk s t (.map es) raw, .ok es)
  | .mk s t .null (some (.map es)) =>
    match wrapMap env s es with
    | .error e => (.mk s t .null (some (.map es)), .error e)
    | .ok ds => (.mk s t (.map ds) (some (.map es)), .ok ds)
  | d => (d, .error .expectation)

/-- `as_list` (documents.py:200-213). -/
def asList (env : Env S A) : Doc S A → Doc S A × Except DErr (List (Doc S A))
  | .mk s t (.list ds) raw => (.mk s t (.list ds) raw, .ok ds)
  | .mk s t .null (some (.list xs)) =>
    match wrapList env s xs with
    | .error e => (.mk s t .null (some (.list xs)), .error e)
    | .ok ds => (.mk s t (.list ds) (some (.list xs)), .ok ds)
  | d => (d, .error .expectation)

mutual
/-- `as_value` (documents.py:251-262), which also remembers the plain content. -/
def Doc.asValue : Doc S A → Doc S A × Plain A
  | .mk s t .null raw => (.mk s t .null raw, raw.getD .null)
  | .mk s t (.scalar a) (some r) => (.mk s t (.scalar a) (some r), r)
  | .mk s t (.scalar a) none => (.mk s t (.scalar a) none, .scalar a)
  | .mk s t (.map es) (some r) => (.mk s t (.map es) (some r), r)
  | .mk s t (.map es) none =>
    let r := asValueMap es
    (.mk s t (.map r.1) (some (.map r.2)), .map r.2)
  | .mk s t (.list ds) (some r) => (.mk s t (.list ds) (some r), r)
  | .mk s t (.list ds) none =>
    let r := asValueList ds
    (.mk s t (.list r.1) (some (.list r.2)), .list r.2)
termination_by structural d => d
/-- `as_value` of all values. -/
def asValueMap : List (Text × Doc S A) → List (Text × Doc S A) × List (Text × Plain A)
  | [] => ([], [])
  | (k, d) :: es =>
    let r := d.asValue
    let rest := asValueMap es
    ((k, r.1) :: rest.1, (k, r.2) :: rest.2)
/-- `as_value` of all elements. -/
def asValueList : List (Doc S A) → List (Doc S A) × List (Plain A)
  | [] => ([], [])
  | d :: ds =>
    let r := d.asValue
    let rest := asValueList ds
    (r.1 :: rest.1, r.2 :: rest.2)
end

/-- `_with_schema` (documents.py:392-398): the content of a document as a new document. -/
def withSchema (env : Env S A) (d : Doc S A) (schema : S) : Except DErr (Doc S A) :=
  match d.type with
  | .struct | .map | .union =>
    match (asMap env d).2 with
    | .error e => .error e
    | .ok es => .ok (.mk schema (typeFor env schema .map) (.map es) none)
  | .list =>
    match (asList env d).2 with
    | .error e => .error e
    | .ok ds => .ok (.mk schema (typeFor env schema .list) (.list ds) none)
  | _ =>
    match d.value with
    | .null => .ok (.mk schema (typeFor env schema .free) .null none)
    | .scalar a => .ok (.mk schema (typeFor env schema (env.kindOf a)) (.scalar a) none)
    | .map es => .ok (.mk schema (typeFor env schema .map) (.map es) none)
    | .list ds => .ok (.mk schema (typeFor env schema .list) (.list ds) none)

/-- Where a subscript of a list points to; negative ones count from the end. -/
def place (n : Nat) (i : Int) : Option Nat :=
  if 0 ≤ i then (if i < n then some i.toNat else none)
  else if -(n : Int) ≤ i then some (i + n).toNat else none

/-- The schema of what is assigned (documents.py:367-371, 380-382). -/
def itemSchema (env : Env S A) (schema : S) : DKey → Option S
  | .name k =>
    match env.kind schema with
    | .struct => env.member schema k
    | .map => env.member schema "value".toList
    | _ => some schema
  | .index _ =>
    match env.kind schema with
    | .list => env.member schema "member".toList
    | _ => some schema

/-- What is assigned: a plain value or a document. -/
inductive Item (S A : Type) where
  | plain (p : Plain A)
  | doc (d : Doc S A)

/-- The document that is stored (documents.py:373-376, 384-387). -/
def stored (env : Env S A) (schema : S) : Item S A → Except DErr (Doc S A)
  | .plain p => .ok (newDoc env schema p)
  | .doc d => withSchema env d schema

/-- The document with other wrapped content. -/
def Doc.put : Doc S A → Value S A → Option (Plain A) → Doc S A
  | .mk s t _ _, v, raw => .mk s t v raw

/-- `d[key] = item` (documents.py:361-390). -/
def setItem (env : Env S A) (d : Doc S A) (key : DKey) (item : Item S A) : Doc S A × Except DErr Unit :=
  match itemSchema env d.schema key with
  | none => (d, .error .key)
  | some schema =>
    match stored env schema item with
    | .error e => (d, .error e)
    | .ok v =>
      match key with
      | .name k =>
        match asMap env d with
        | (d, .error e) => (d, .error e)
        | (d, .ok es) => (d.put (.map (Dict.put es k v)) none, .ok ())
      | .index i =>
        match asList env d with
        | (d, .error e) => (d, .error e)
        | (d, .ok ds) =>
          match place ds.length i with
          | none => (d, .error .index)
          | some j => (d.put (.list (ds.set j v)) none, .ok ())

/-- `del d[key]` (documents.py:400-405). -/
def delItem (env : Env S A) (d : Doc S A) (key : DKey) : Doc S A × Except DErr Unit :=
  match key with
  | .name k =>
    match asMap env d with
    | (d, .error e) => (d, .error e)
    | (d, .ok es) =>
      match Dict.get es k with
      | none => (d, .error .key)
      | some _ => (d.put (.map (Dict.del es k)) none, .ok ())
  | .index i =>
    match asList env d with
    | (d, .error e) => (d, .error e)
    | (d, .ok ds) =>
      match place ds.length i with
      | none => (d, .error .index)
      | some j => (d.put (.list (ds.eraseIdx j)) none, .ok ())

/-- Something done to the document `d[k₁]...[kₙ]` (`__getitem__`, documents.py:352-357), which is part
of `d`. -/
def atPath {R : Type} (env : Env S A) (f : Doc S A → Doc S A × Except DErr R) :
    List DKey → Doc S A → Doc S A × Except DErr R
  | [], d => f d
  | .name k :: p, d =>
    match asMap env d with
    | (d, .error e) => (d, .error e)
    | (d, .ok es) =>
      match Dict.get es k with
      | none => (d, .error .key)
      | some c =>
        let r := atPath env f p c
        (d.put (.map (Dict.put es k r.1)) d.raw, r.2)
  | .index i :: p, d =>
    match asList env d with
    | (d, .error e) => (d, .error e)
    | (d, .ok ds) =>
      match place ds.length i with
      | none => (d, .error .index)
      | some j =>
        match ds[j]? with
        | none => (d, .error .index)
        | some c =>
          let r := atPath env f p c
          (d.put (.list (ds.set j r.1)) d.raw, r.2)

/-- What is done to a document. -/
inductive DOp (S A : Type) where
  /-- `d[k₁]...[kₙ].as_value()` -/
  | read (p : List DKey)
  /-- `d[k₁]...[kₙ][key] = item` -/
  | set (p : List DKey) (key : DKey) (item : Item S A)
  /-- `del d[k₁]...[kₙ][key]` -/
  | del (p : List DKey) (key : DKey)

/-- One operation; reading returns a value. -/
def dstep (env : Env S A) (d : Doc S A) : DOp S A → Doc S A × Except DErr (Option (Plain A))
  | .read p => atPath env (fun d => let r := d.asValue; (r.1, .ok (some r.2))) p d
  | .set p key item =>
    atPath env (fun d => let r := setItem env d key item; (r.1, r.2.map fun _ => none)) p d
  | .del p key =>
    atPath env (fun d => let r := delItem env d key; (r.1, r.2.map fun _ => none)) p d

/-- A history. -/
def drun (env : Env S A) : Doc S A → List (DOp S A) → Doc S A × List (Except DErr (Option (Plain A)))
  | d, [] => (d, [])
  | d, op :: ops =>
    let r := dstep env d op
    let rest := drun env r.1 ops
    (rest.1, r.2 :: rest.2)

/-! ## Specification -/

/-- An assignment to a plain value. -/
def Plain.assign : Plain A → DKey → Plain A → Option (Plain A)
  | .map es, .name k, v => some (.map (Dict.put es k v))
  | .list xs, .index i, v => (place xs.length i).map fun j => .list (xs.set j v)
  | _, _, _ => none

/-- A deletion from a plain value. -/
def Plain.remove : Plain A → DKey → Option (Plain A)
  | .map es, .name k => (Dict.get es k).map fun _ => .map (Dict.del es k)
  | .list xs, .index i => (place xs.length i).map fun j => .list (xs.eraseIdx j)
  | _, _ => none

/-- Something done to the part of a plain value at a path. -/
def Plain.at {R : Type} (f : Plain A → Option (Plain A × R)) :
    List DKey → Plain A → Option (Plain A × R)
  | [], p => f p
  | .name k :: path, .map es =>
    match Dict.get es k with
    | none => none
    | some c => (Plain.at f path c).map fun r => (.map (Dict.put es k r.1), r.2)
  | .index i :: path, .list xs =>
    match place xs.length i with
    | none => none
    | some j =>
      match xs[j]? with
      | none => none
      | some c => (Plain.at f path c).map fun r => (.list (xs.set j r.1), r.2)
  | _ :: _, _ => none

mutual
/-- The content of a document: the wrapped one if there is one. -/
def Doc.latest : Doc S A → Plain A
  | .mk _ _ .null raw => raw.getD .null
  | .mk _ _ (.scalar a) _ => .scalar a
  | .mk _ _ (.map es) _ => .map (latestMap es)
  | .mk _ _ (.list ds) _ => .list (latestList ds)
termination_by structural d => d
def latestMap : List (Text × Doc S A) → List (Text × Plain A)
  | [] => []
  | (k, d) :: es => (k, d.latest) :: latestMap es
def latestList : List (Doc S A) → List (Plain A)
  | [] => []
  | d :: ds => d.latest :: latestList ds
end

/-- What is assigned, as a plain value. -/
def Item.latest : Item S A → Plain A
  | .plain p => p
  | .doc d => d.latest

/-- The operations on plain values. -/
def pstep (p : Plain A) : DOp S A → Option (Plain A × Option (Plain A))
  | .read path => Plain.at (fun c => some (c, some c)) path p
  | .set path key item => Plain.at (fun c => (c.assign key item.latest).map fun c => (c, none)) path p
  | .del path key => Plain.at (fun c => (c.remove key).map fun c => (c, none)) path p

/-- A history of a plain value.  Operations that raise an exception change nothing. -/
inductive Follows : Plain A → List (DOp S A) → List (Except DErr (Option (Plain A))) → Plain A → Prop
  | nil (p) : Follows p [] [] p
  | ok {p op p' out ops outs q} (h : pstep p op = some (p', out)) (t : Follows p' ops outs q) :
      Follows p (op :: ops) (.ok out :: outs) q
  | error {p op e ops outs q} (t : Follows p ops outs q) : Follows p (op :: ops) (.error e :: outs) q

/-- None of the documents on the way to the part at a path remembers its plain content. -/
def Clear : List DKey → Doc S A → Prop
  | [], _ => True
  | .name k :: p, d => d.raw = none ∧ ∀ es c, d.value = .map es → Dict.get es k = some c → Clear p c
  | .index i :: p, d => d.raw = none ∧
    ∀ ds j c, d.value = .list ds → place ds.length i = some j → ds[j]? = some c → Clear p c

mutual
/-- What is remembered is the content; only maps and lists are kept unwrapped. -/
def Doc.Coherent : Doc S A → Prop
  | .mk _ _ .null raw => ∀ r, raw = some r → (∃ es, r = .map es) ∨ ∃ xs, r = .list xs
  | .mk _ _ (.scalar a) raw => ∀ r, raw = some r → r = .scalar a
  | .mk _ _ (.map es) raw => (∀ r, raw = some r → r = .map (latestMap es)) ∧ CoherentMap es
  | .mk _ _ (.list ds) raw => (∀ r, raw = some r → r = .list (latestList ds)) ∧ CoherentList ds
termination_by structural d => d
def CoherentMap : List (Text × Doc S A) → Prop
  | [] => True
  | (_, d) :: es => d.Coherent ∧ CoherentMap es
def CoherentList : List (Doc S A) → Prop
  | [] => True
  | d :: ds => d.Coherent ∧ CoherentList ds
end

/-- A document whose type is that of its content. -/
def Doc.Typed (d : Doc S A) : Prop :=
  (∀ es, d.latest = .map es → d.type = .struct ∨ d.type = .map ∨ d.type = .union) ∧
  (∀ xs, d.latest = .list xs → d.type = .list)

/-- What may be assigned. -/
def Item.Fine : Item S A → Prop
  | .plain _ => True
  | .doc d => d.Coherent ∧ d.Typed

/-- Histories in which no update goes through a document that remembers its plain content. -/
def Allowed (env : Env S A) : Doc S A → List (DOp S A) → Prop
  | _, [] => True
  | d, op :: ops =>
    (match op with
      | .read _ => True
      | .set p _ item => Clear p d ∧ item.Fine
      | .del p _ => Clear p d) ∧
    Allowed env (dstep env d op).1 ops

/-- The operation is on the document itself. -/
def DOp.TopLevel : DOp S A → Prop
  | .read _ => True
  | .set p _ item => p = [] ∧ item.Fine
  | .del p _ => p = []

end

/-! ## Theorems -/

section
variable {S A : Type}

theorem latestMap_eq (es : List (Text × Doc S A)) :
    latestMap es = es.map fun e => (e.1, e.2.latest) := by
  induction es with
  | nil => rfl
  | cons e es ih => rw [latestMap, ih]; rfl

theorem latestList_eq (ds : List (Doc S A)) : latestList ds = ds.map Doc.latest := by
  induction ds with
  | nil => rfl
  | cons d ds ih => rw [latestList, ih]; rfl

theorem coherentMap_iff (es : List (Text × Doc S A)) : CoherentMap es ↔ ∀ e ∈ es, e.2.Coherent := by
  induction es with
  | nil => simp [CoherentMap]
  | cons e es ih => obtain ⟨k, d⟩ := e; simp [CoherentMap, ih]

theorem coherentList_iff (ds : List (Doc S A)) : CoherentList ds ↔ ∀ d ∈ ds, d.Coherent := by
  induction ds with
  | nil => simp [CoherentList]
  | cons d ds ih => simp [CoherentList, ih]

mutual
theorem asValue_spec : ∀ d : Doc S A, d.Coherent →
    d.asValue.2 = d.latest ∧ d.asValue.1.Coherent ∧ d.asValue.1.latest = d.latest
  | .mk s t .null raw, h => ⟨rfl, h, rfl⟩
  | .mk s t (.scalar a) (some r), h => ⟨h r rfl, h, rfl⟩
  | .mk s t (.scalar a) none, h => ⟨rfl, h, rfl⟩
  | .mk s t (.map es) (some r), h => ⟨h.1 r rfl, h, rfl⟩
  | .mk s t (.map es) none, h => by
    obtain ⟨h1, h2, h3⟩ := asValueMap_spec es h.2
    refine ⟨congrArg Plain.map h1, ⟨fun r hr => ?_, h2⟩, congrArg Plain.map h3⟩
    rw [← Option.some.inj hr, h1]
    exact congrArg Plain.map h3.symm
  | .mk s t (.list ds) (some r), h => ⟨h.1 r rfl, h, rfl⟩
  | .mk s t (.list ds) none, h => by
    obtain ⟨h1, h2, h3⟩ := asValueList_spec ds h.2
    refine ⟨congrArg Plain.list h1, ⟨fun r hr => ?_, h2⟩, congrArg Plain.list h3⟩
    rw [← Option.some.inj hr, h1]
    exact congrArg Plain.list h3.symm
termination_by structural d => d
theorem asValueMap_spec : ∀ es : List (Text × Doc S A), CoherentMap es →
    (asValueMap es).2 = latestMap es ∧ CoherentMap (asValueMap es).1 ∧
      latestMap (asValueMap es).1 = latestMap es
  | [], _ => ⟨rfl, trivial, rfl⟩
  | (k, d) :: es, h => by
    obtain ⟨h1, h2, h3⟩ := asValue_spec d h.1
    obtain ⟨h4, h5, h6⟩ := asValueMap_spec es h.2
    refine ⟨?_, ⟨h2, h5⟩, ?_⟩
    · simp only [asValueMap, latestMap, h1, h4]
    · simp only [asValueMap, latestMap, h3, h6]
theorem asValueList_spec : ∀ ds : List (Doc S A), CoherentList ds →
    (asValueList ds).2 = latestList ds ∧ CoherentList (asValueList ds).1 ∧
      latestList (asValueList ds).1 = latestList ds
  | [], _ => ⟨rfl, trivial, rfl⟩
  | d :: ds, h => by
    obtain ⟨h1, h2, h3⟩ := asValue_spec d h.1
    obtain ⟨h4, h5, h6⟩ := asValueList_spec ds h.2
    refine ⟨?_, ⟨h2, h5⟩, ?_⟩
    · simp only [asValueList, latestList, h1, h4]
    · simp only [asValueList, latestList, h3, h6]
end

theorem newDoc_spec (env : Env S A) (schema : S) (p : Plain A) :
    (newDoc env schema p).Coherent ∧ (newDoc env schema p).latest = p := by
  match p with
  | .null => exact ⟨fun r h => (by cases h), rfl⟩
  | .scalar a => exact ⟨fun r h => (by cases h), rfl⟩
  | .map [] => exact ⟨⟨fun r h => (by cases h), trivial⟩, rfl⟩
  | .map (e :: es) => exact ⟨fun r h => (by cases h; exact Or.inl ⟨_, rfl⟩), rfl⟩
  | .list [] => exact ⟨⟨fun r h => (by cases h), trivial⟩, rfl⟩
  | .list (x :: xs) => exact ⟨fun r h => (by cases h; exact Or.inr ⟨_, rfl⟩), rfl⟩

theorem map_newDoc (f : Text × Plain A → Doc S A) (hf : ∀ e, (f e).Coherent ∧ (f e).latest = e.2)
    (es : List (Text × Plain A)) :
    CoherentMap (es.map fun e => (e.1, f e)) ∧ latestMap (es.map fun e => (e.1, f e)) = es := by
  induction es with
  | nil => exact ⟨trivial, rfl⟩
  | cons e es ih => exact ⟨⟨(hf e).1, ih.1⟩, by simp only [List.map_cons, latestMap, (hf e).2, ih.2]⟩

theorem list_newDoc (env : Env S A) (schema : S) (xs : List (Plain A)) :
    CoherentList (xs.map (newDoc env schema)) ∧ latestList (xs.map (newDoc env schema)) = xs := by
  induction xs with
  | nil => exact ⟨trivial, rfl⟩
  | cons x xs ih =>
    exact ⟨⟨(newDoc_spec env schema x).1, ih.1⟩, by
      simp only [List.map_cons, latestList, (newDoc_spec env schema x).2, ih.2]⟩

theorem mapM_spec (env : Env S A) (schema : S) (es : List (Text × Plain A)) :
    ∀ ds, (es.mapM fun e => match env.member schema e.1 with
      | none => Except.error DErr.key
      | some m => .ok (e.1, newDoc env m e.2)) = .ok ds → CoherentMap ds ∧ latestMap ds = es := by
  induction es with
  | nil => intro ds h; cases h; exact ⟨trivial, rfl⟩
  | cons e es ih =>
    intro ds h
    rw [List.mapM_cons] at h
    cases hm : env.member schema e.1 with
    | none => rw [hm] at h; cases h
    | some m =>
      rw [hm] at h
      generalize hr : (es.mapM fun e => match env.member schema e.1 with
        | none => Except.error DErr.key
        | some m => .ok (e.1, newDoc env m e.2)) = r at h ih
      cases r with
      | error e => cases h
      | ok ds' =>
        cases h
        obtain ⟨h1, h2⟩ := ih ds' rfl
        exact ⟨⟨(newDoc_spec env m e.2).1, h1⟩, by
          simp only [latestMap, (newDoc_spec env m e.2).2, h2]⟩

theorem wrapMap_spec (env : Env S A) (schema : S) (es : List (Text × Plain A)) (ds)
    (h : wrapMap env schema es = .ok ds) : CoherentMap ds ∧ latestMap ds = es := by
  unfold wrapMap at h
  have plain : ∀ m : S, .ok (es.map fun e => (e.1, newDoc env m e.2)) = (.ok ds : Except DErr _) →
      CoherentMap ds ∧ latestMap ds = es := by
    intro m h
    cases h
    exact map_newDoc (fun e => newDoc env m e.2) (fun e => newDoc_spec env m e.2) es
  cases hk : env.kind schema with
  | struct => rw [hk] at h; exact mapM_spec env schema es ds h
  | union => rw [hk] at h; exact mapM_spec env schema es ds h
  | map =>
    rw [hk] at h
    simp only at h
    cases hm : env.member schema "value".toList with
    | none => rw [hm] at h; cases h
    | some m => rw [hm] at h; exact plain m h
  | list => rw [hk] at h; exact plain schema h
  | free => rw [hk] at h; exact plain schema h
  | scalar c => rw [hk] at h; exact plain schema h

theorem wrapList_spec (env : Env S A) (schema : S) (xs : List (Plain A)) (ds)
    (h : wrapList env schema xs = .ok ds) : CoherentList ds ∧ latestList ds = xs := by
  unfold wrapList at h
  have plain : ∀ m : S, .ok (xs.map (newDoc env m)) = (.ok ds : Except DErr _) →
      CoherentList ds ∧ latestList ds = xs := by
    intro m h
    cases h
    exact list_newDoc env m xs
  cases hk : env.kind schema with
  | list =>
    rw [hk] at h
    simp only at h
    cases hm : env.member schema "member".toList with
    | none => rw [hm] at h; cases h
    | some m => rw [hm] at h; exact plain m h
  | struct => rw [hk] at h; exact plain schema h
  | union => rw [hk] at h; exact plain schema h
  | map => rw [hk] at h; exact plain schema h
  | free => rw [hk] at h; exact plain schema h
  | scalar c => rw [hk] at h; exact plain schema h

/-- `as_map` keeps the content. -/
theorem asMap_spec (env : Env S A) (d : Doc S A) (h : d.Coherent) :
    (asMap env d).1.Coherent ∧ (asMap env d).1.latest = d.latest ∧ (asMap env d).1.raw = d.raw ∧
    (asMap env d).1.schema = d.schema ∧
    ∀ es, (asMap env d).2 = .ok es → (asMap env d).1.value = .map es ∧ d.latest = .map (latestMap es) ∧
      CoherentMap es ∧ (d.raw = none → d.value = .map es) := by
  match d, h with
  | .mk s t (.map es) raw, h =>
    refine ⟨h, rfl, rfl, rfl, fun es' h' => ?_⟩
    cases h'
    exact ⟨rfl, rfl, h.2, fun _ => rfl⟩
  | .mk s t .null (some (.map es)), h =>
    simp only [asMap]
    cases hw : wrapMap env s es with
    | error e => exact ⟨h, rfl, rfl, rfl, fun es' h' => (by cases h')⟩
    | ok ds =>
      obtain ⟨h1, h2⟩ := wrapMap_spec env s es ds hw
      refine ⟨⟨fun r hr => ?_, h1⟩, congrArg Plain.map h2, rfl, rfl, fun es' h' => ?_⟩
      · rw [← Option.some.inj hr, h2]
      · cases h'
        exact ⟨rfl, congrArg Plain.map h2.symm, h1, fun hr => (by cases hr)⟩
  | .mk s t .null none, h => exact ⟨h, rfl, rfl, rfl, fun es' h' => (by cases h')⟩
  | .mk s t .null (some .null), h => exact ⟨h, rfl, rfl, rfl, fun es' h' => (by cases h')⟩
  | .mk s t .null (some (.scalar _)), h => exact ⟨h, rfl, rfl, rfl, fun es' h' => (by cases h')⟩
  | .mk s t .null (some (.list _)), h => exact ⟨h, rfl, rfl, rfl, fun es' h' => (by cases h')⟩
  | .mk s t (.scalar a) raw, h => exact ⟨h, rfl, rfl, rfl, fun es' h' => (by cases h')⟩
  | .mk s t (.list ds) raw, h => exact ⟨h, rfl, rfl, rfl, fun es' h' => (by cases h')⟩

/-- `as_list` keeps the content. -/
theorem asList_spec (env : Env S A) (d : Doc S A) (h : d.Coherent) :
    (asList env d).1.Coherent ∧ (asList env d).1.latest = d.latest ∧ (asList env d).1.raw = d.raw ∧
    (asList env d).1.schema = d.schema ∧
    ∀ ds, (asList env d).2 = .ok ds → (asList env d).1.value = .list ds ∧
      d.latest = .list (latestList ds) ∧ CoherentList ds ∧ (d.raw = none → d.value = .list ds) := by
  match d, h with
  | .mk s t (.list es) raw, h =>
    refine ⟨h, rfl, rfl, rfl, fun es' h' => ?_⟩
    cases h'
    exact ⟨rfl, rfl, h.2, fun _ => rfl⟩
  | .mk s t .null (some (.list es)), h =>
    simp only [asList]
    cases hw : wrapList env s es with
    | error e => exact ⟨h, rfl, rfl, rfl, fun es' h' => (by cases h')⟩
    | ok ds =>
      obtain ⟨h1, h2⟩ := wrapList_spec env s es ds hw
      refine ⟨⟨fun r hr => ?_, h1⟩, congrArg Plain.list h2, rfl, rfl, fun es' h' => ?_⟩
      · rw [← Option.some.inj hr, h2]
      · cases h'
        exact ⟨rfl, congrArg Plain.list h2.symm, h1, fun hr => (by cases hr)⟩
  | .mk s t .null none, h => exact ⟨h, rfl, rfl, rfl, fun es' h' => (by cases h')⟩
  | .mk s t .null (some .null), h => exact ⟨h, rfl, rfl, rfl, fun es' h' => (by cases h')⟩
  | .mk s t .null (some (.scalar _)), h => exact ⟨h, rfl, rfl, rfl, fun es' h' => (by cases h')⟩
  | .mk s t .null (some (.map _)), h => exact ⟨h, rfl, rfl, rfl, fun es' h' => (by cases h')⟩
  | .mk s t (.scalar a) raw, h => exact ⟨h, rfl, rfl, rfl, fun es' h' => (by cases h')⟩
  | .mk s t (.map ds) raw, h => exact ⟨h, rfl, rfl, rfl, fun es' h' => (by cases h')⟩

theorem withSchema_spec (env : Env S A) (d : Doc S A) (h : d.Coherent) (ht : d.Typed) (schema : S) (v)
    (hv : withSchema env d schema = .ok v) : v.Coherent ∧ v.latest = d.latest := by
  have rest : ¬(d.type = .struct ∨ d.type = .map ∨ d.type = .union) → d.type ≠ .list →
      (match d.value with
        | .null => Except.ok (.mk schema (typeFor env schema .free) .null none)
        | .scalar a => .ok (.mk schema (typeFor env schema (env.kindOf a)) (.scalar a) none)
        | .map es => .ok (.mk schema (typeFor env schema .map) (.map es) none)
        | .list ds => .ok (.mk schema (typeFor env schema .list) (.list ds) none)) =
        (.ok v : Except DErr _) →
      v.Coherent ∧ v.latest = d.latest := by
    intro h1 h2 hv
    match d, h, ht with
    | .mk s t .null none, h, ht => cases hv; exact ⟨fun r hr => (by cases hr), rfl⟩
    | .mk s t .null (some .null), h, ht =>
      rcases h _ rfl with ⟨_, h⟩ | ⟨_, h⟩ <;> cases h
    | .mk s t .null (some (.scalar a)), h, ht =>
      rcases h _ rfl with ⟨_, h⟩ | ⟨_, h⟩ <;> cases h
    | .mk s t .null (some (.map es)), h, ht => exact absurd (ht.1 es rfl) h1
    | .mk s t .null (some (.list xs)), h, ht => exact absurd (ht.2 xs rfl) h2
    | .mk s t (.scalar a) raw, h, ht => cases hv; exact ⟨fun r hr => (by cases hr), rfl⟩
    | .mk s t (.map es) raw, h, ht => cases hv; exact ⟨⟨fun r hr => (by cases hr), h.2⟩, rfl⟩
    | .mk s t (.list ds) raw, h, ht => cases hv; exact ⟨⟨fun r hr => (by cases hr), h.2⟩, rfl⟩
  have viaMap : (match (asMap env d).2 with
      | .error e => Except.error e
      | .ok es => .ok (.mk schema (typeFor env schema .map) (.map es) none)) =
        (.ok v : Except DErr (Doc S A)) →
      v.Coherent ∧ v.latest = d.latest := by
    intro hv
    cases hm : (asMap env d).2 with
    | error e => rw [hm] at hv; cases hv
    | ok es =>
      rw [hm] at hv
      cases hv
      obtain ⟨_, h1, h2, _⟩ := (asMap_spec env d h).2.2.2.2 es hm
      exact ⟨⟨fun r hr => (by cases hr), h2⟩, h1.symm⟩
  have viaList : (match (asList env d).2 with
      | .error e => Except.error e
      | .ok ds => .ok (.mk schema (typeFor env schema .list) (.list ds) none)) =
        (.ok v : Except DErr (Doc S A)) →
      v.Coherent ∧ v.latest = d.latest := by
    intro hv
    cases hm : (asList env d).2 with
    | error e => rw [hm] at hv; cases hv
    | ok es =>
      rw [hm] at hv
      cases hv
      obtain ⟨_, h1, h2, _⟩ := (asList_spec env d h).2.2.2.2 es hm
      exact ⟨⟨fun r hr => (by cases hr), h2⟩, h1.symm⟩
  unfold withSchema at hv
  cases hk : d.type with
  | struct => rw [hk] at hv; exact viaMap hv
  | union => rw [hk] at hv; exact viaMap hv
  | map => rw [hk] at hv; exact viaMap hv
  | list => rw [hk] at hv; exact viaList hv
  | free => rw [hk] at hv; exact rest (by rw [hk]; simp) (by rw [hk]; simp) hv
  | scalar c => rw [hk] at hv; exact rest (by rw [hk]; simp) (by rw [hk]; simp) hv

theorem put_get {V : Type} (d : Dict Text V) (k : Text) (v : V) (h : Dict.get d k = some v) :
    Dict.put d k v = d := by
  induction d with
  | nil => cases h
  | cons e d ih =>
    obtain ⟨j, w⟩ := e
    by_cases hj : j = k
    · simp only [Dict.get, List.find?_cons, hj, decide_true, Option.map_some, Option.some.injEq] at h
      simp only [Dict.put, hj, if_true, h]
    · simp only [Dict.get, List.find?_cons, hj, decide_false] at h
      simp only [Dict.put, hj, if_false, ih h]

theorem latestMap_put (es : List (Text × Doc S A)) (k : Text) (d : Doc S A) :
    latestMap (Dict.put es k d) = Dict.put (latestMap es) k d.latest := by
  induction es with
  | nil => rfl
  | cons e es ih =>
    obtain ⟨j, w⟩ := e
    by_cases hj : j = k
    · simp only [Dict.put, latestMap, hj, if_true]
    · simp only [Dict.put, latestMap, hj, if_false, ih]

theorem latestMap_get (es : List (Text × Doc S A)) (k : Text) :
    Dict.get (latestMap es) k = (Dict.get es k).map Doc.latest := by
  induction es with
  | nil => rfl
  | cons e es ih =>
    obtain ⟨j, w⟩ := e
    by_cases hj : j = k
    · simp [Dict.get, latestMap, hj]
    · simpa [Dict.get, latestMap, hj] using ih

theorem latestMap_del (es : List (Text × Doc S A)) (k : Text) :
    latestMap (Dict.del es k) = Dict.del (latestMap es) k := by
  rw [latestMap_eq, latestMap_eq, Dict.del, Dict.del, List.filter_map]
  rfl

theorem latestList_set (ds : List (Doc S A)) (j : Nat) (d : Doc S A) :
    latestList (ds.set j d) = (latestList ds).set j d.latest := by
  rw [latestList_eq, latestList_eq, List.map_set]

theorem latestList_erase (ds : List (Doc S A)) (j : Nat) :
    latestList (ds.eraseIdx j) = (latestList ds).eraseIdx j := by
  induction ds generalizing j with
  | nil => rfl
  | cons d ds ih =>
    cases j with
    | zero => rfl
    | succ j => simp only [List.eraseIdx_cons_succ, latestList, ih]

theorem latestList_length (ds : List (Doc S A)) : (latestList ds).length = ds.length := by
  rw [latestList_eq, List.length_map]

theorem latestList_get (ds : List (Doc S A)) (j : Nat) :
    (latestList ds)[j]? = (ds[j]?).map Doc.latest := by
  rw [latestList_eq, List.getElem?_map]

theorem coherentMap_get (es : List (Text × Doc S A)) (h : CoherentMap es) (k : Text) (c)
    (hc : Dict.get es k = some c) : c.Coherent := by
  rw [coherentMap_iff] at h
  simp only [Dict.get, Option.map_eq_some_iff] at hc
  obtain ⟨e, he, rfl⟩ := hc
  exact h e (List.mem_of_find?_eq_some he)

theorem coherentMap_put (es : List (Text × Doc S A)) (h : CoherentMap es) (k : Text) (d : Doc S A)
    (hd : d.Coherent) : CoherentMap (Dict.put es k d) := by
  induction es with
  | nil => exact ⟨hd, trivial⟩
  | cons e es ih =>
    obtain ⟨j, w⟩ := e
    by_cases hj : j = k
    · simp only [Dict.put, hj, if_true]; exact ⟨hd, h.2⟩
    · simp only [Dict.put, hj, if_false]; exact ⟨h.1, ih h.2⟩

theorem coherentList_set (ds : List (Doc S A)) (h : CoherentList ds) (j : Nat) (d : Doc S A)
    (hd : d.Coherent) : CoherentList (ds.set j d) := by
  rw [coherentList_iff] at h ⊢
  intro x hx
  rcases List.mem_or_eq_of_mem_set hx with hx | rfl
  · exact h x hx
  · exact hd

theorem put_map_coherent (d : Doc S A) (es : List (Text × Doc S A)) (h : CoherentMap es) (raw)
    (hr : ∀ r, raw = some r → r = .map (latestMap es)) : (d.put (.map es) raw).Coherent := by
  cases d; exact ⟨hr, h⟩

theorem put_list_coherent (d : Doc S A) (ds : List (Doc S A)) (h : CoherentList ds) (raw)
    (hr : ∀ r, raw = some r → r = .list (latestList ds)) : (d.put (.list ds) raw).Coherent := by
  cases d; exact ⟨hr, h⟩

theorem put_map_latest (d : Doc S A) (es : List (Text × Doc S A)) (raw) :
    (d.put (.map es) raw).latest = .map (latestMap es) := by cases d; rfl

theorem put_list_latest (d : Doc S A) (ds : List (Doc S A)) (raw) :
    (d.put (.list ds) raw).latest = .list (latestList ds) := by cases d; rfl

theorem raw_map (d : Doc S A) (h : d.Coherent) (es) (hv : d.value = .map es) (r)
    (hr : d.raw = some r) : r = .map (latestMap es) := by
  obtain ⟨s, t, v, raw⟩ := d
  cases hv
  exact h.1 r hr

theorem raw_list (d : Doc S A) (h : d.Coherent) (ds) (hv : d.value = .list ds) (r)
    (hr : d.raw = some r) : r = .list (latestList ds) := by
  obtain ⟨s, t, v, raw⟩ := d
  cases hv
  exact h.1 r hr

/-- An operation on documents does what one on plain values does, or raises and changes nothing. -/
def Matches {R : Type} (g : Plain A → Option (Plain A × R)) (d : Doc S A)
    (r : Doc S A × Except DErr R) : Prop :=
  r.1.Coherent ∧ match r.2 with
    | .ok x => g d.latest = some (r.1.latest, x)
    | .error _ => r.1.latest = d.latest

theorem stored_spec (env : Env S A) (schema : S) (item : Item S A) (hi : item.Fine) (v)
    (h : stored env schema item = .ok v) : v.Coherent ∧ v.latest = item.latest := by
  cases item with
  | plain p => cases h; exact newDoc_spec env schema p
  | doc d => exact withSchema_spec env d hi.1 hi.2 schema v h

theorem setItem_spec (env : Env S A) (d : Doc S A) (hd : d.Coherent) (key : DKey) (item : Item S A)
    (hi : item.Fine) :
    Matches (fun c => (c.assign key item.latest).map fun c => (c, (none : Option (Plain A)))) d
      ((setItem env d key item).1, (setItem env d key item).2.map fun _ => none) := by
  unfold setItem
  cases hs : itemSchema env d.schema key with
  | none => exact ⟨hd, rfl⟩
  | some schema =>
    cases hv : stored env schema item with
    | error e => simp only [hv]; exact ⟨hd, rfl⟩
    | ok v =>
      simp only [hv]
      obtain ⟨hvc, hvl⟩ := stored_spec env schema item hi v hv
      cases key with
      | name k =>
        obtain ⟨h1, h2, -, -, h5⟩ := asMap_spec env d hd
        simp only
        generalize asMap env d = r at h1 h2 h5
        obtain ⟨d', r⟩ := r
        cases r with
        | error e => exact ⟨h1, h2⟩
        | ok es =>
          obtain ⟨-, h6, h7, -⟩ := h5 es rfl
          refine ⟨put_map_coherent _ _ (coherentMap_put es h7 k v hvc) _ (fun r hr => by cases hr), ?_⟩
          simp only [Except.map, put_map_latest, h6, latestMap_put, hvl, Plain.assign, Option.map_some]
      | index i =>
        obtain ⟨h1, h2, -, -, h5⟩ := asList_spec env d hd
        simp only
        generalize asList env d = r at h1 h2 h5
        obtain ⟨d', r⟩ := r
        cases r with
        | error e => exact ⟨h1, h2⟩
        | ok ds =>
          obtain ⟨-, h6, h7, -⟩ := h5 ds rfl
          simp only
          cases hp : place ds.length i with
          | none => exact ⟨h1, h2⟩
          | some j =>
            refine ⟨put_list_coherent _ _ (coherentList_set ds h7 j v hvc) _
              (fun r hr => by cases hr), ?_⟩
            simp only [Except.map, put_list_latest, h6, latestList_set, hvl, Plain.assign,
              latestList_length, hp, Option.map_some]

theorem delItem_spec (env : Env S A) (d : Doc S A) (hd : d.Coherent) (key : DKey) :
    Matches (fun c => (c.remove key).map fun c => (c, (none : Option (Plain A)))) d
      ((delItem env d key).1, (delItem env d key).2.map fun _ => none) := by
  cases key with
  | name k =>
    obtain ⟨h1, h2, -, -, h5⟩ := asMap_spec env d hd
    simp only [delItem]
    generalize asMap env d = r at h1 h2 h5
    obtain ⟨d', r⟩ := r
    cases r with
    | error e => exact ⟨h1, h2⟩
    | ok es =>
      obtain ⟨-, h6, h7, -⟩ := h5 es rfl
      simp only
      cases hg : Dict.get es k with
      | none => exact ⟨h1, h2⟩
      | some c =>
        refine ⟨put_map_coherent _ _ ?_ _ (fun r hr => by cases hr), ?_⟩
        · rw [coherentMap_iff] at h7 ⊢
          exact fun e he => h7 e (List.mem_filter.1 he).1
        · simp only [Except.map, put_map_latest, h6, latestMap_del, Plain.remove, latestMap_get, hg,
            Option.map_some]
  | index i =>
    obtain ⟨h1, h2, -, -, h5⟩ := asList_spec env d hd
    simp only [delItem]
    generalize asList env d = r at h1 h2 h5
    obtain ⟨d', r⟩ := r
    cases r with
    | error e => exact ⟨h1, h2⟩
    | ok ds =>
      obtain ⟨-, h6, h7, -⟩ := h5 ds rfl
      simp only
      cases hp : place ds.length i with
      | none => exact ⟨h1, h2⟩
      | some j =>
        refine ⟨put_list_coherent _ _ ?_ _ (fun r hr => by cases hr), ?_⟩
        · rw [coherentList_iff] at h7 ⊢
          exact fun e he => h7 e (List.mem_of_mem_eraseIdx he)
        · simp only [Except.map, put_list_latest, h6, latestList_erase, Plain.remove,
            latestList_length, hp, Option.map_some]

/-- Operations at a path: either the documents on the way remember nothing or the operation changes
no content. -/
theorem atPath_spec {R : Type} (env : Env S A) (f : Doc S A → Doc S A × Except DErr R)
    (g : Plain A → Option (Plain A × R)) (hf : ∀ c : Doc S A, c.Coherent → Matches g c (f c))
    (reads : Prop) (hr : reads → ∀ c : Doc S A, c.Coherent → (f c).1.latest = c.latest) :
    ∀ (p : List DKey) (d : Doc S A), d.Coherent → (reads ∨ Clear p d) →
      Matches (Plain.at g p) d (atPath env f p d) ∧
        (reads → (atPath env f p d).1.latest = d.latest)
  | [], d, hd, _ => ⟨hf d hd, fun h => hr h d hd⟩
  | .name k :: p, d, hd, hclear => by
    obtain ⟨h1, h2, h3, -, h5⟩ := asMap_spec env d hd
    simp only [atPath]
    generalize asMap env d = r at h1 h2 h3 h5
    obtain ⟨d', r⟩ := r
    cases r with
    | error e => exact ⟨⟨h1, h2⟩, fun _ => h2⟩
    | ok es =>
      obtain ⟨h4, h6, h7, h8⟩ := h5 es rfl
      simp only at h1 h2 h3 h4
      simp only
      cases hg : Dict.get es k with
      | none => exact ⟨⟨h1, h2⟩, fun _ => h2⟩
      | some c =>
        have hc := coherentMap_get es h7 k c hg
        have hclear' : reads ∨ Clear p c := by
          rcases hclear with h | h
          · exact .inl h
          · exact .inr (h.2 es c (h8 h.1) hg)
        obtain ⟨⟨ih1, ih2⟩, ih3⟩ := atPath_spec env f g hf reads hr p c hc hclear'
        have hgl : Dict.get (latestMap es) k = some c.latest := by rw [latestMap_get, hg]; rfl
        simp only
        refine ⟨⟨put_map_coherent _ _ (coherentMap_put es h7 k _ ih1) _ ?_, ?_⟩, ?_⟩
        · intro r hraw
          rcases hclear with h | h
          · rw [raw_map d' h1 es h4 r hraw, latestMap_put, ih3 h, put_get _ _ _ hgl]
          · rw [h3, h.1] at hraw; cases hraw
        · cases hres : (atPath env f p c).2 with
          | ok x =>
            rw [hres] at ih2
            simp only at ih2
            simp only [put_map_latest, h6, Plain.at, hgl, ih2, Option.map_some, latestMap_put]
          | error e =>
            rw [hres] at ih2
            simp only at ih2
            simp only [put_map_latest, h6, latestMap_put, ih2, put_get _ _ _ hgl]
        · intro h
          rw [put_map_latest, h6, latestMap_put, ih3 h, put_get _ _ _ hgl]
  | .index i :: p, d, hd, hclear => by
    obtain ⟨h1, h2, h3, -, h5⟩ := asList_spec env d hd
    simp only [atPath]
    generalize asList env d = r at h1 h2 h3 h5
    obtain ⟨d', r⟩ := r
    cases r with
    | error e => exact ⟨⟨h1, h2⟩, fun _ => h2⟩
    | ok ds =>
      obtain ⟨h4, h6, h7, h8⟩ := h5 ds rfl
      simp only at h1 h2 h3 h4
      simp only
      cases hp : place ds.length i with
      | none => exact ⟨⟨h1, h2⟩, fun _ => h2⟩
      | some j =>
        simp only
        cases hg : ds[j]? with
        | none => exact ⟨⟨h1, h2⟩, fun _ => h2⟩
        | some c =>
          have hc : c.Coherent := (coherentList_iff ds).1 h7 c (List.mem_of_getElem? hg)
          have hclear' : reads ∨ Clear p c := by
            rcases hclear with h | h
            · exact .inl h
            · exact .inr (h.2 ds j c (h8 h.1) hp hg)
          obtain ⟨⟨ih1, ih2⟩, ih3⟩ := atPath_spec env f g hf reads hr p c hc hclear'
          have hgl : (latestList ds)[j]? = some c.latest := by rw [latestList_get, hg]; rfl
          have hsame : (latestList ds).set j c.latest = latestList ds := by
            obtain ⟨hlt, heq⟩ := List.getElem?_eq_some_iff.1 hgl
            rw [← heq, List.set_getElem_self]
          simp only
          refine ⟨⟨put_list_coherent _ _ (coherentList_set ds h7 j _ ih1) _ ?_, ?_⟩, ?_⟩
          · intro r hraw
            rcases hclear with h | h
            · rw [raw_list d' h1 ds h4 r hraw, latestList_set, ih3 h, hsame]
            · rw [h3, h.1] at hraw; cases hraw
          · cases hres : (atPath env f p c).2 with
            | ok x =>
              rw [hres] at ih2
              simp only at ih2
              simp only [put_list_latest, h6, Plain.at, latestList_length, hp, hgl, ih2,
                Option.map_some, latestList_set]
            | error e =>
              rw [hres] at ih2
              simp only at ih2
              simp only [put_list_latest, h6, latestList_set, ih2, hsame]
          · intro h
            rw [put_list_latest, h6, latestList_set, ih3 h, hsame]

theorem dstep_spec (env : Env S A) (d : Doc S A) (hd : d.Coherent) (op : DOp S A)
    (h : match op with
      | .read _ => True
      | .set p _ item => Clear p d ∧ item.Fine
      | .del p _ => Clear p d) :
    Matches (fun p => pstep p op) d (dstep env d op) := by
  cases op with
  | read p =>
    refine (atPath_spec env _ (fun c => some (c, some c)) ?_ True ?_ p d hd (.inl trivial)).1
    · intro c hc
      obtain ⟨h1, h2, h3⟩ := asValue_spec c hc
      refine ⟨h2, ?_⟩
      simp only [h1, h3]
    · intro _ c hc
      exact (asValue_spec c hc).2.2
  | set p key item =>
    exact (atPath_spec env _ _ (fun c hc => setItem_spec env c hc key item h.2) False (by simp) p d hd
      (.inr h.1)).1
  | del p key =>
    exact (atPath_spec env _ _ (fun c hc => delItem_spec env c hc key) False (by simp) p d hd
      (.inr h)).1

/-- **C39** (in part): whatever is read, assigned and deleted, and in whatever order, a document holds
what the same assignments and deletions make of the plain value, and every `as_value` returns that; an
operation that raises changes nothing.  Assignments and deletions must not go through a document whose
plain value was remembered (by `as_value`, or since it was made from a plain value), see
`C39_nested_fails`, and documents are not shared. -/
theorem C39_history_partial (env : Env S A) (schema : S) (p : Plain A) (ops : List (DOp S A))
    (h : Allowed env (newDoc env schema p) ops) :
    Follows p ops (drun env (newDoc env schema p) ops).2 (drun env (newDoc env schema p) ops).1.latest ∧
    (drun env (newDoc env schema p) ops).1.asValue.2 =
      (drun env (newDoc env schema p) ops).1.latest := by
  have key : ∀ (ops : List (DOp S A)) (d : Doc S A), d.Coherent → Allowed env d ops →
      Follows d.latest ops (drun env d ops).2 (drun env d ops).1.latest ∧
        (drun env d ops).1.Coherent := by
    intro ops
    induction ops with
    | nil => intro d hd _; exact ⟨.nil _, hd⟩
    | cons op ops ih =>
      intro d hd ha
      obtain ⟨h1, h2⟩ := dstep_spec env d hd op ha.1
      obtain ⟨h3, h4⟩ := ih _ h1 ha.2
      refine ⟨?_, h4⟩
      simp only [drun]
      cases hr : (dstep env d op).2 with
      | ok out =>
        rw [hr] at h2
        exact .ok h2 h3
      | error e =>
        rw [hr] at h2
        simp only at h2
        rw [h2] at h3
        exact .error h3
  obtain ⟨h1, h2⟩ := newDoc_spec env schema p
  obtain ⟨h3, h4⟩ := key ops _ h1 h
  rw [h2] at h3
  exact ⟨h3, (asValue_spec _ h4).1⟩

/-- **C39** for assignments to and deletions from the document itself, with any reads anywhere in
between: no other condition is needed. -/
theorem C39_top_level (env : Env S A) (schema : S) (p : Plain A) (ops : List (DOp S A))
    (h : ∀ op ∈ ops, op.TopLevel) :
    Follows p ops (drun env (newDoc env schema p) ops).2 (drun env (newDoc env schema p) ops).1.latest ∧
    (drun env (newDoc env schema p) ops).1.asValue.2 =
      (drun env (newDoc env schema p) ops).1.latest := by
  refine C39_history_partial env schema p ops ?_
  generalize newDoc env schema p = d
  induction ops generalizing d with
  | nil => trivial
  | cons op ops ih =>
    refine ⟨?_, ih (fun o ho => h o (List.mem_cons_of_mem _ ho)) _⟩
    have hop := h op (by simp)
    cases op with
    | read p => trivial
    | set p key item => obtain ⟨rfl, hf⟩ := hop; exact ⟨trivial, hf⟩
    | del p key => cases hop; trivial

theorem asMap_schema (env : Env S A) (d : Doc S A) : (asMap env d).1.schema = d.schema := by
  unfold asMap
  split
  · rfl
  · split <;> rfl
  · rfl

theorem asList_schema (env : Env S A) (d : Doc S A) : (asList env d).1.schema = d.schema := by
  unfold asList
  split
  · rfl
  · split <;> rfl
  · rfl

theorem put_schema (d : Doc S A) (v raw) : (d.put v raw).schema = d.schema := by cases d; rfl

theorem asValue_schema (d : Doc S A) : d.asValue.1.schema = d.schema := by
  obtain ⟨s, t, v, raw⟩ := d
  cases v <;> cases raw <;> rfl

theorem setItem_schema (env : Env S A) (d : Doc S A) (key item) :
    (setItem env d key item).1.schema = d.schema := by
  unfold setItem
  cases itemSchema env d.schema key with
  | none => rfl
  | some schema =>
    simp only
    cases stored env schema item with
    | error e => rfl
    | ok v =>
      cases key with
      | name k =>
        have h := asMap_schema env d
        simp only
        generalize asMap env d = r at h
        obtain ⟨d', r⟩ := r
        cases r with
        | error e => exact h
        | ok es => exact (put_schema _ _ _).trans h
      | index i =>
        have h := asList_schema env d
        simp only
        generalize asList env d = r at h
        obtain ⟨d', r⟩ := r
        cases r with
        | error e => exact h
        | ok ds =>
          simp only
          cases place ds.length i with
          | none => exact h
          | some j => exact (put_schema _ _ _).trans h

theorem delItem_schema (env : Env S A) (d : Doc S A) (key) :
    (delItem env d key).1.schema = d.schema := by
  cases key with
  | name k =>
    have h := asMap_schema env d
    simp only [delItem]
    generalize asMap env d = r at h
    obtain ⟨d', r⟩ := r
    cases r with
    | error e => exact h
    | ok es =>
      simp only
      cases Dict.get es k with
      | none => exact h
      | some c => exact (put_schema _ _ _).trans h
  | index i =>
    have h := asList_schema env d
    simp only [delItem]
    generalize asList env d = r at h
    obtain ⟨d', r⟩ := r
    cases r with
    | error e => exact h
    | ok ds =>
      simp only
      cases place ds.length i with
      | none => exact h
      | some j => exact (put_schema _ _ _).trans h

theorem atPath_schema {R : Type} (env : Env S A) (f : Doc S A → Doc S A × Except DErr R)
    (hf : ∀ c : Doc S A, (f c).1.schema = c.schema) (p : List DKey) (d : Doc S A) :
    (atPath env f p d).1.schema = d.schema := by
  cases p with
  | nil => exact hf d
  | cons k p =>
    cases k with
    | name k =>
      have h := asMap_schema env d
      simp only [atPath]
      generalize asMap env d = r at h
      obtain ⟨d', r⟩ := r
      cases r with
      | error e => exact h
      | ok es =>
        simp only
        cases Dict.get es k with
        | none => exact h
        | some c => exact (put_schema _ _ _).trans h
    | index i =>
      have h := asList_schema env d
      simp only [atPath]
      generalize asList env d = r at h
      obtain ⟨d', r⟩ := r
      cases r with
      | error e => exact h
      | ok ds =>
        simp only
        cases place ds.length i with
        | none => exact h
        | some j =>
          simp only
          cases ds[j]? with
          | none => exact h
          | some c => exact (put_schema _ _ _).trans h

theorem dstep_schema (env : Env S A) (d : Doc S A) (op) : (dstep env d op).1.schema = d.schema := by
  cases op with
  | read p => exact atPath_schema env _ (fun c => asValue_schema c) p d
  | set p key item =>
    refine atPath_schema env _ ?_ p d
    exact fun c => setItem_schema env c key item
  | del p key =>
    refine atPath_schema env _ ?_ p d
    exact fun c => delItem_schema env c key

theorem drun_schema (env : Env S A) (ops : List (DOp S A)) (d : Doc S A) :
    (drun env d ops).1.schema = d.schema := by
  induction ops generalizing d with
  | nil => rfl
  | cons op ops ih => exact (ih _).trans (dstep_schema env d op)

theorem asMap_open (env : Env S A) (d : Doc S A) (hd : d.Coherent) (ho : env.kind d.schema = .free)
    (es) (h : d.latest = .map es) : ∃ ds, (asMap env d).2 = .ok ds := by
  match d, hd, ho, h with
  | .mk s t (.map ds) raw, _, _, _ => exact ⟨ds, rfl⟩
  | .mk s t .null (some (.map es')), _, ho, h =>
    have ho' : env.kind s = .free := ho
    simp only [asMap, wrapMap, ho']
    exact ⟨_, rfl⟩
  | .mk s t .null none, _, _, h => cases h
  | .mk s t .null (some .null), _, _, h => cases h
  | .mk s t .null (some (.scalar _)), _, _, h => cases h
  | .mk s t .null (some (.list _)), _, _, h => cases h
  | .mk s t (.scalar _) raw, _, _, h => cases h
  | .mk s t (.list _) raw, _, _, h => cases h

theorem asList_open (env : Env S A) (d : Doc S A) (hd : d.Coherent) (ho : env.kind d.schema = .free)
    (es) (h : d.latest = .list es) : ∃ ds, (asList env d).2 = .ok ds := by
  match d, hd, ho, h with
  | .mk s t (.list ds) raw, _, _, _ => exact ⟨ds, rfl⟩
  | .mk s t .null (some (.list es')), _, ho, h =>
    have ho' : env.kind s = .free := ho
    simp only [asList, wrapList, ho']
    exact ⟨_, rfl⟩
  | .mk s t .null none, _, _, h => cases h
  | .mk s t .null (some .null), _, _, h => cases h
  | .mk s t .null (some (.scalar _)), _, _, h => cases h
  | .mk s t .null (some (.map _)), _, _, h => cases h
  | .mk s t (.scalar _) raw, _, _, h => cases h
  | .mk s t (.map _) raw, _, _, h => cases h

theorem setItem_open (env : Env S A) (d : Doc S A) (hd : d.Coherent) (ho : env.kind d.schema = .free)
    (key : DKey) (v : Plain A) (p) (h : d.latest.assign key v = some p) :
    (setItem env d key (.plain v)).2 = .ok () := by
  have hs : itemSchema env d.schema key = some d.schema := by
    cases key <;> simp only [itemSchema, ho]
  simp only [setItem, hs, stored]
  cases key with
  | name k =>
    cases hl : d.latest with
    | map es =>
      obtain ⟨ds, hds⟩ := asMap_open env d hd ho es hl
      simp only
      generalize asMap env d = r at hds
      obtain ⟨d', r⟩ := r
      cases hds
      rfl
    | null => rw [hl] at h; cases h
    | scalar a => rw [hl] at h; cases h
    | list xs => rw [hl] at h; cases h
  | index i =>
    cases hl : d.latest with
    | list es =>
      obtain ⟨ds, hds⟩ := asList_open env d hd ho es hl
      obtain ⟨_, h6, _⟩ := (asList_spec env d hd).2.2.2.2 ds hds
      rw [h6] at h
      simp only
      generalize asList env d = r at hds
      obtain ⟨d', r⟩ := r
      cases hds
      simp only [Plain.assign, latestList_length] at h
      simp only
      cases hp : place ds.length i with
      | none => rw [hp] at h; cases h
      | some j => rfl
    | null => rw [hl] at h; cases h
    | scalar a => rw [hl] at h; cases h
    | map xs => rw [hl] at h; cases h

theorem delItem_open (env : Env S A) (d : Doc S A) (hd : d.Coherent) (ho : env.kind d.schema = .free)
    (key : DKey) (p) (h : d.latest.remove key = some p) :
    (delItem env d key).2 = .ok () := by
  cases key with
  | name k =>
    cases hl : d.latest with
    | map es =>
      obtain ⟨ds, hds⟩ := asMap_open env d hd ho es hl
      obtain ⟨_, h6, _⟩ := (asMap_spec env d hd).2.2.2.2 ds hds
      rw [h6] at h
      simp only [delItem]
      generalize asMap env d = r at hds
      obtain ⟨d', r⟩ := r
      cases hds
      simp only [Plain.remove, latestMap_get] at h
      simp only
      cases hp : Dict.get ds k with
      | none => rw [hp] at h; cases h
      | some j => rfl
    | null => rw [hl] at h; cases h
    | scalar a => rw [hl] at h; cases h
    | list xs => rw [hl] at h; cases h
  | index i =>
    cases hl : d.latest with
    | list es =>
      obtain ⟨ds, hds⟩ := asList_open env d hd ho es hl
      obtain ⟨_, h6, _⟩ := (asList_spec env d hd).2.2.2.2 ds hds
      rw [h6] at h
      simp only [delItem]
      generalize asList env d = r at hds
      obtain ⟨d', r⟩ := r
      cases hds
      simp only [Plain.remove, latestList_length] at h
      simp only
      cases hp : place ds.length i with
      | none => rw [hp] at h; cases h
      | some j => rfl
    | null => rw [hl] at h; cases h
    | scalar a => rw [hl] at h; cases h
    | map xs => rw [hl] at h; cases h

/-- **C39**, what a document without a schema accepts: after any such history, plain values are assigned
and entries deleted exactly when the same can be done to the plain value. -/
theorem C39_open_accepts (env : Env S A) (schema : S) (ho : env.kind schema = .free) (p : Plain A)
    (ops : List (DOp S A)) (h : Allowed env (newDoc env schema p) ops) (key : DKey) (v : Plain A) :
    let d := (drun env (newDoc env schema p) ops).1
    ((setItem env d key (.plain v)).2 = .ok () ↔ (d.latest.assign key v).isSome) ∧
    ((delItem env d key).2 = .ok () ↔ (d.latest.remove key).isSome) := by
  intro d
  have hs : d.schema = schema := by
    refine (drun_schema env ops _).trans ?_
    match p with
    | .null => rfl
    | .scalar a => rfl
    | .map [] => rfl
    | .map (e :: es) => rfl
    | .list [] => rfl
    | .list (x :: xs) => rfl
  have hd : d.Coherent := by
    have key : ∀ (ops : List (DOp S A)) (d : Doc S A), d.Coherent → Allowed env d ops →
        (drun env d ops).1.Coherent := by
      intro ops
      induction ops with
      | nil => intro d hd _; exact hd
      | cons op ops ih => intro d hd ha; exact ih _ (dstep_spec env d hd op ha.1).1 ha.2
    exact key ops _ (newDoc_spec env schema p).1 h
  rw [← hs] at ho
  refine ⟨⟨fun hr => ?_, fun hr => ?_⟩, ⟨fun hr => ?_, fun hr => ?_⟩⟩
  · have := (setItem_spec env d hd key (.plain v) trivial).2
    rw [hr] at this
    simp only [Except.map, Option.map_eq_some_iff, Item.latest] at this
    obtain ⟨a, ha, _⟩ := this
    rw [ha]; rfl
  · obtain ⟨p, hp⟩ := Option.isSome_iff_exists.1 hr
    exact setItem_open env d hd ho key v p hp
  · have := (delItem_spec env d hd key).2
    rw [hr] at this
    simp only [Except.map, Option.map_eq_some_iff] at this
    obtain ⟨a, ha, _⟩ := this
    rw [ha]; rfl
  · obtain ⟨p, hp⟩ := Option.isSome_iff_exists.1 hr
    exact delItem_open env d hd ho key p hp

/-- Schemas that say nothing. -/
def openEnv : Env Unit Nat := ⟨fun _ => .free, fun _ _ => none, fun _ => .scalar 0⟩

/-- **C39** fails for nested assignments: with `d = Document({"a": {"b": 1}})`, after
`d["a"]["b"] = 2` `d.as_value()` still is `{"a": {"b": 1}}`, although `d["a"]["b"].as_value()` is 2. -/
theorem C39_nested_fails :
    let a : DKey := .name ['a']
    let b : DKey := .name ['b']
    let r := drun openEnv (newDoc openEnv () (.map [(['a'], .map [(['b'], .scalar 1)])]))
      [.set [a] b (.plain (.scalar 2)), .read [a, b], .read []]
    r.2 = [.ok none, .ok (some (.scalar 2)), .ok (some (.map [(['a'], .map [(['b'], .scalar 1)])]))] := by
  rfl

/-- The subscripts of a list: `j` itself, or `j` counted from the end. -/
theorem C39_subscripts (n : Nat) (i : Int) (j : Nat) :
    place n i = some j ↔ j < n ∧ (i = j ∨ i = (j : Int) - n) := by
  unfold place
  by_cases h : 0 ≤ i
  · rw [if_pos h]
    by_cases h2 : i < n
    · rw [if_pos h2, Option.some.injEq]; omega
    · rw [if_neg h2]; simp only [reduceCtorEq, false_iff]; omega
  · rw [if_neg h]
    by_cases h2 : -(n : Int) ≤ i
    · rw [if_pos h2, Option.some.injEq]; omega
    · rw [if_neg h2]; simp only [reduceCtorEq, false_iff]; omega

/-- An assignment replaces the value of the key and nothing else; a new key comes last. -/
theorem C39_assignment {V : Type} (d : Dict Text V) (k : Text) (v : V) :
    (∀ x, Dict.get (Dict.put d k v) x = if x = k then some v else Dict.get d x) ∧
      (Dict.put d k v).map Prod.fst =
        if k ∈ d.map Prod.fst then d.map Prod.fst else d.map Prod.fst ++ [k] := by
  induction d with
  | nil =>
    refine ⟨fun x => ?_, by simp [Dict.put]⟩
    by_cases hx : x = k
    · simp [Dict.put, Dict.get, hx]
    · rw [if_neg hx]
      have : ¬ k = x := fun h => hx h.symm
      simp [Dict.put, Dict.get, this]
  | cons e d ih =>
    by_cases he : e.1 = k
    · refine ⟨fun x => ?_, by simp [Dict.put, he]⟩
      by_cases hx : x = k
      · simp [Dict.put, Dict.get, he, hx]
      · have : ¬ k = x := fun h => hx h.symm
        simp [Dict.put, Dict.get, he, hx, this]
    · refine ⟨fun x => ?_, ?_⟩
      · by_cases hx : e.1 = x
        · have hxk : ¬ x = k := fun h => he (hx.trans h)
          simp [Dict.put, Dict.get, he, hx, hxk]
        · have := ih.1 x
          simp only [Dict.get] at this
          simp only [Dict.put, if_neg he, Dict.get, List.find?_cons, hx, decide_false]
          exact this
      · have hk : ¬ k = e.1 := fun h => he h.symm
        simp only [Dict.put, if_neg he, List.map_cons, ih.2, List.mem_cons, hk, false_or]
        split <;> simp

/-! ## The hypotheses are met -/

/-- A document made by assignments: reads and nested updates before the first `as_value`. -/
example :
    let a : DKey := .name ['a']
    let b : DKey := .name ['b']
    let ops : List (DOp Unit Nat) :=
      [.set [] a (.plain (.map [])), .set [a] b (.plain (.list [.scalar 1, .scalar 2])),
       .del [a] b, .read [a], .read [], .set [] b (.plain (.scalar 3)), .read []]
    Allowed openEnv (newDoc openEnv () (.map [])) ops ∧
      (drun openEnv (newDoc openEnv () (.map [])) ops).1.latest =
        .map [(['a'], .map []), (['b'], .scalar 3)] := by
  refine ⟨⟨⟨trivial, trivial⟩, ⟨⟨rfl, ?_⟩, trivial⟩, ⟨rfl, ?_⟩, trivial, trivial, ⟨trivial, trivial⟩,
    trivial, trivial⟩, rfl⟩ <;> intros <;> trivial

/-- A document with a schema rejects what is not a member. -/
example :
    let env : Env Bool Nat := ⟨fun s => if s then .struct else .scalar 0,
      fun s k => if s && decide (k = ['a']) then some false else none, fun _ => .scalar 0⟩
    let r := drun env (newDoc env true (.map []))
      [.set [] (.name ['a']) (.plain (.scalar 1)), .set [] (.name ['b']) (.plain (.scalar 1)), .read []]
    r.2 = [.ok none, .error .key, .ok (some (.map [(['a'], .scalar 1)]))] := by
  rfl

end

end Verif.Schemas.Document

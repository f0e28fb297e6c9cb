import Verif.Xml.Props

/-!
# XML responses are read as the service wrote them (C92)

Uses the model of the XML deserializer (Model.lean) and adds no model of code.  The specification is a
writer, the way a service writes the value of a shape as an element by the rules of the XML protocols: the
theorem says the deserializer gives back the value, whole, for every value of every shape.
-/

set_option autoImplicit false

namespace Verif.Xml.RoundTrip

open Verif.Json (put Format)
open Verif.Scalars.Strict (Num)

section
variable {S D F T : Type}

/-! ## Specification: writing -/

/-- What a service chooses: the namespace of its tags, the names of the items of lists and of the entries of
maps, and how it writes numbers and times; and which of those this is about. -/
structure Writer (S D F T : Type) where
  tag : Text → Text
  item : S → Text
  int : Int → Text
  float : F → Text
  decimal : D → Text
  time : Format → T → Text
  okInt : Int → Prop := fun _ => True
  okFloat : F → Prop := fun _ => True
  okDecimal : D → Prop := fun _ => True
  okTime : Format → T → Prop := fun _ _ => True

/-- What the service chooses can be read: a tag has the local name it was made for, numbers and times are
read as what was written, and no finite number is written like one of the special ones. -/
structure Readable (rd : Reader S D F T) (w : Writer S D F T) : Prop where
  tag : ∀ n, localName (w.tag n) = n
  int : ∀ n, w.okInt n → rd.int (w.int n) = some n
  float : ∀ x, w.okFloat x → rd.float (w.float x) = some (.finite x)
  special : ∀ x, w.okFloat x → w.float x ≠ "NaN".toList ∧ w.float x ≠ "Infinity".toList ∧ w.float x ≠ "-Infinity".toList
  decimal : ∀ x, w.okDecimal x → rd.decimal (w.decimal x) = some x
  time : ∀ f t, w.okTime f t → rd.deserialize f (w.time f t) = some t

/-- The format of the times of a shape: the one of its trait if the protocol goes by it, or the default. -/
def timeFormat (rd : Reader S D F T) : View S → Format
  | .timestamp (some f) => if rd.useTimestampFormat then f else rd.defaultFormat
  | _ => rd.defaultFormat

/-- The text of a scalar. -/
def Writer.text (w : Writer S D F T) (rd : Reader S D F T) (v : View S) : Val D F T → Text
  | .boolean b => if b then "true".toList else "false".toList
  | .integer n => w.int n
  | .float x => match x with
    | .nan => "NaN".toList
    | .inf neg => if neg then "-Infinity".toList else "Infinity".toList
    | .finite x => w.float x
  | .bigDecimal x => w.decimal x
  | .string t => t
  | .blob bs => Base64.encode bs
  | .timestamp t => w.time (timeFormat rd v) t
  | _ => []

/-- The member with a name. -/
def named (sh : Shape S) (k : Text) : Option (Member × S) := sh.members.find? fun m => m.1.name = k

/-- The attribute of a member, if it is written as one. -/
def Writer.attribute (w : Writer S D F T) (rd : Reader S D F T) (sh : Shape S) (e : Text × Val D F T) :
    Option (Text × Text) :=
  match named sh e.1 with
  | none => none
  | some m => if m.1.isAttribute then some (w.tag (elementName m.1), w.text rd (rd.view m.2) e.2) else none

/-- The tag, attributes and text of the element of a value. -/
def Writer.head (w : Writer S D F T) (rd : Reader S D F T) (s : S) (name : Text) : Val D F T → Head
  | .struct kv => match rd.view s with
    | .struct sh => ⟨w.tag name, kv.filterMap (w.attribute rd sh), []⟩
    | _ => ⟨w.tag name, [], []⟩
  | v => ⟨w.tag name, [], w.text rd (rd.view s) v⟩

/-- The elements of a member: none if it is an attribute, its items or entries if it is flattened, and
otherwise one.  `b` is what is in the element of the value, given how items and entries are called. -/
def Writer.member (w : Writer S D F T) (rd : Reader S D F T) (sh : Shape S) (k : Text) (v : Val D F T)
    (b : S → Text → List Elem) : List Elem :=
  match named sh k with
  | none => []
  | some m =>
    if m.1.isAttribute then []
    else if m.1.isFlattened then b m.2 (elementName m.1)
    else [.mk (w.head rd m.2 (elementName m.1) v) (b m.2 (w.item m.2))]

mutual
/-- The elements in the element of a value, with the name of items and entries. -/
def Writer.body (w : Writer S D F T) (rd : Reader S D F T) (s : S) (item : Text) : Val D F T → List Elem
  | .struct kv => match rd.view s with
    | .struct sh => w.members rd sh kv
    | _ => []
  | .union k v => match rd.view s with
    | .struct sh => w.member rd sh k v fun s i => w.body rd s i v
    | _ => []
  | .list vs => match rd.view s with
    | .list s' => w.items rd s' item vs
    | _ => []
  | .map es => match rd.view s with
    | .map keyTag valueTag s' => w.entries rd keyTag valueTag s' item es
    | _ => []
  | .boolean _ | .integer _ | .float _ | .bigDecimal _ | .string _ | .blob _ | .timestamp _ => []
termination_by structural v => v
/-- The elements of the members, in their order. -/
def Writer.members (w : Writer S D F T) (rd : Reader S D F T) (sh : Shape S) :
    List (Text × Val D F T) → List Elem
  | [] => []
  | (k, v) :: r => w.member rd sh k v (fun s i => w.body rd s i v) ++ w.members rd sh r
/-- The items of a list. -/
def Writer.items (w : Writer S D F T) (rd : Reader S D F T) (s : S) (item : Text) :
    List (Val D F T) → List Elem
  | [] => []
  | v :: r => .mk (w.head rd s item v) (w.body rd s (w.item s) v) :: w.items rd s item r
/-- The entries of a map. -/
def Writer.entries (w : Writer S D F T) (rd : Reader S D F T) (keyTag valueTag : Text) (s : S) (item : Text) :
    List (Text × Val D F T) → List Elem
  | [] => []
  | (k, v) :: r =>
    .mk ⟨w.tag item, [], []⟩
      [.mk ⟨w.tag keyTag, [], k⟩ [], .mk (w.head rd s valueTag v) (w.body rd s (w.item s) v)] ::
      w.entries rd keyTag valueTag s item r
end

/-- The element of a value. -/
def Writer.write (w : Writer S D F T) (rd : Reader S D F T) (s : S) (name : Text) (v : Val D F T) : Elem :=
  .mk (w.head rd s name v) (w.body rd s (w.item s) v)

/-! ## Specification: the values of a shape -/

/-- A scalar of a shape. -/
def Scalar (rd : Reader S D F T) (w : Writer S D F T) (v : View S) (x : Val D F T) : Prop :=
  match v with
  | .boolean => ∃ b, x = .boolean b
  | .integer => ∃ n, x = .integer n ∧ w.okInt n
  | .float => ∃ y, x = .float y ∧ ∀ q, y = .finite q → w.okFloat q
  | .bigDecimal => ∃ y, x = .bigDecimal y ∧ w.okDecimal y
  | .string => ∃ t, x = .string t
  | .blob => ∃ bs, x = .blob bs
  | .timestamp f => ∃ t, x = .timestamp t ∧ w.okTime (timeFormat rd (.timestamp f)) t
  | _ => False

/-- The shapes whose element, with its name, may be the first one in a flattened list or map: if the first
structure or union in it is an element with the name of that shape (`C45_flattened_structs_fails`), or if there
is none. -/
inductive MayLead (rd : Reader S D F T) (w : Writer S D F T) : S → Text → Prop
  | scalar (s : S) (name : Text) (h : ∃ x : Val D F T, Scalar rd w (rd.view s) x) : MayLead rd w s name
  | struct (s : S) (sh : Shape S) (h : rd.view s = .struct sh) : MayLead rd w s (sh.xmlName.getD sh.name)
  | list (s s' : S) (name : Text) (h : rd.view s = .list s') (h' : MayLead rd w s' (w.item s)) :
      MayLead rd w s name
  | map (s s' : S) (keyTag valueTag name : Text) (h : rd.view s = .map keyTag valueTag s')
      (h' : MayLead rd w s' valueTag) : MayLead rd w s name

/-- What may be flattened: lists and maps with something in them. -/
def Flat (rd : Reader S D F T) (w : Writer S D F T) (m : Member × S) (v : Val D F T) : Prop :=
  match rd.view m.2 with
  | .list s => v ≠ .list [] ∧ MayLead rd w s (elementName m.1)
  | .map _ valueTag s => v ≠ .map [] ∧ MayLead rd w s valueTag
  | _ => False

/-- What may be written in place: scalars but blobs as attributes, lists and maps flattened, and all values
as an element. -/
def Fits (rd : Reader S D F T) (w : Writer S D F T) (m : Member × S) (v : Val D F T) : Prop :=
  (m.1.isAttribute = true → Scalar rd w (rd.view m.2) v ∧ ∀ bs, v ≠ .blob bs) ∧
  (m.1.isAttribute = false → m.1.isFlattened = true → Flat rd w m v)

mutual
/-- The value is one of the shape. -/
def Typed (rd : Reader S D F T) (w : Writer S D F T) (s : S) : Val D F T → Prop
  | .struct kv => match rd.view s with
    | .struct sh => sh.union = false ∧ (kv.map Prod.fst).Nodup ∧ TypedMembers rd w sh kv
    | _ => False
  | .union k v => match rd.view s with
    | .struct sh => sh.union = true ∧
        ∃ m ∈ sh.members, m.1.name = k ∧ m.1.isAttribute = false ∧ Fits rd w m v ∧ Typed rd w m.2 v
    | _ => False
  | .list vs => match rd.view s with
    | .list s' => TypedItems rd w s' vs
    | _ => False
  | .map es => match rd.view s with
    | .map keyTag valueTag s' => keyTag ≠ valueTag ∧ (es.map Prod.fst).Nodup ∧ TypedEntries rd w s' es
    | _ => False
  | v => Scalar rd w (rd.view s) v
termination_by structural v => v
def TypedMembers (rd : Reader S D F T) (w : Writer S D F T) (sh : Shape S) : List (Text × Val D F T) → Prop
  | [] => True
  | (k, v) :: r => (∃ m ∈ sh.members, m.1.name = k ∧ Fits rd w m v ∧ Typed rd w m.2 v) ∧ TypedMembers rd w sh r
def TypedItems (rd : Reader S D F T) (w : Writer S D F T) (s : S) : List (Val D F T) → Prop
  | [] => True
  | v :: r => Typed rd w s v ∧ TypedItems rd w s r
def TypedEntries (rd : Reader S D F T) (w : Writer S D F T) (s : S) : List (Text × Val D F T) → Prop
  | [] => True
  | (_, v) :: r => Typed rd w s v ∧ TypedEntries rd w s r
end

/-- Members in the order they are read: the attributes in the order of the schema, then the elements, then the
flattened ones, both in their order.  A structure is a dict, so the order is only a way to write one down. -/
def arrange (sh : Shape S) (kv : List (Text × Val D F T)) : List (Text × Val D F T) :=
  (sh.members.filterMap fun m =>
    if m.1.isAttribute then (kv.lookup m.1.name).map fun v => (m.1.name, v) else none) ++
  kv.filter (fun e => (named sh e.1).any fun m => !m.1.isAttribute && !m.1.isFlattened) ++
  kv.filter (fun e => (named sh e.1).any fun m => !m.1.isAttribute && m.1.isFlattened)

mutual
/-- The value with the members of all structures in it in the order they are read. -/
def arranged (rd : Reader S D F T) (s : S) : Val D F T → Val D F T
  | .struct kv => match rd.view s with
    | .struct sh => .struct (arrange sh (arrangedMembers rd sh kv))
    | _ => .struct kv
  | .union k v => match rd.view s with
    | .struct sh => match named sh k with
      | some m => .union k (arranged rd m.2 v)
      | none => .union k v
    | _ => .union k v
  | .list vs => match rd.view s with
    | .list s' => .list (arrangedItems rd s' vs)
    | _ => .list vs
  | .map es => match rd.view s with
    | .map _ _ s' => .map (arrangedEntries rd s' es)
    | _ => .map es
  | .boolean b => .boolean b
  | .integer n => .integer n
  | .float x => .float x
  | .bigDecimal x => .bigDecimal x
  | .string t => .string t
  | .blob bs => .blob bs
  | .timestamp t => .timestamp t
termination_by structural v => v
def arrangedMembers (rd : Reader S D F T) (sh : Shape S) : List (Text × Val D F T) → List (Text × Val D F T)
  | [] => []
  | (k, v) :: r => (k, match named sh k with
      | some m => arranged rd m.2 v
      | none => v) :: arrangedMembers rd sh r
def arrangedItems (rd : Reader S D F T) (s : S) : List (Val D F T) → List (Val D F T)
  | [] => []
  | v :: r => arranged rd s v :: arrangedItems rd s r
def arrangedEntries (rd : Reader S D F T) (s : S) : List (Text × Val D F T) → List (Text × Val D F T)
  | [] => []
  | (k, v) :: r => (k, arranged rd s v) :: arrangedEntries rd s r
end

/-- No two attributes of a structure have the same name. -/
def AttributesDiffer (rd : Reader S D F T) : Prop :=
  ∀ s sh, rd.view s = .struct sh →
    ((sh.members.filter fun e => e.1.isAttribute).map fun e => elementName e.1).Nodup

/-! ## Lemmas: scalars and attributes -/

theorem scalar_text (rd : Reader S D F T) (w : Writer S D F T) (hw : Readable rd w) (v : View S) (x : Val D F T)
    (h : Scalar rd w v x) : rd.scalar v (w.text rd v x) = .ok x := by
  cases v <;> simp only [Scalar] at h
  case boolean =>
    obtain ⟨b, rfl⟩ := h
    cases b <;> rfl
  case integer =>
    obtain ⟨n, rfl, hn⟩ := h
    simp only [Writer.text, Reader.scalar, hw.int n hn, orValue]
  case float =>
    obtain ⟨y, rfl, hy⟩ := h
    cases y with
    | nan => rfl
    | inf b => cases b <;> rfl
    | finite x =>
      have hx := hy x rfl
      simp only [Writer.text, Reader.scalar, Reader.readFloat, if_neg (hw.special x hx).1, if_neg (hw.special x hx).2.1,
        if_neg (hw.special x hx).2.2, hw.float x hx]
  case bigDecimal =>
    obtain ⟨y, rfl, hy⟩ := h
    simp only [Writer.text, Reader.scalar, hw.decimal y hy, orValue]
  case string =>
    obtain ⟨t, rfl⟩ := h
    rfl
  case blob =>
    obtain ⟨bs, rfl⟩ := h
    simp only [Writer.text, Reader.scalar, Base64.decode_encode, orValue]
  case timestamp trait =>
    obtain ⟨t, rfl, ht⟩ := h
    have hf : (if rd.useTimestampFormat then trait.getD rd.defaultFormat else rd.defaultFormat) =
        timeFormat rd (.timestamp trait) := by
      cases trait <;> simp [timeFormat]
    simp only [Writer.text, Reader.scalar, hf, hw.time _ t ht, orValue]

theorem attrScalar_text (rd : Reader S D F T) (w : Writer S D F T) (hw : Readable rd w) (v : View S) (x : Val D F T)
    (h : Scalar rd w v x) (hb : ∀ bs, x ≠ .blob bs) : rd.attrScalar v (w.text rd v x) = .ok x := by
  have h1 := scalar_text rd w hw v x h
  cases v <;> first | exact h1 | skip
  obtain ⟨bs, rfl⟩ := h
  exact absurd rfl (hb bs)

theorem named_of_mem (sh : Shape S) (hn : (sh.members.map fun e => e.1.name).Nodup) (m : Member × S)
    (hm : m ∈ sh.members) : named sh m.1.name = some m := by
  unfold named
  generalize sh.members = ms at hn hm
  induction ms with
  | nil => simp at hm
  | cons a ms ih =>
    rw [List.map_cons, List.nodup_cons] at hn
    rcases List.mem_cons.1 hm with rfl | hm
    · simp
    · rw [List.find?_cons_of_neg, ih hn.2 hm]
      intro h
      exact hn.1 (List.mem_map.2 ⟨m, hm, (of_decide_eq_true h).symm⟩)

theorem nodup_map_inj {A B : Type} (f : A → B) (l : List A) (h : (l.map f).Nodup) (a b : A) (ha : a ∈ l)
    (hb : b ∈ l) (e : f a = f b) : a = b := by
  induction l with
  | nil => simp at ha
  | cons c l ih =>
    rw [List.map_cons, List.nodup_cons] at h
    rcases List.mem_cons.1 ha with ha | ha <;> rcases List.mem_cons.1 hb with hb | hb
    · rw [ha, hb]
    · exact absurd (List.mem_map.2 ⟨b, hb, (ha ▸ e).symm⟩) h.1
    · exact absurd (List.mem_map.2 ⟨a, ha, hb ▸ e⟩) h.1
    · exact ih h.2 ha hb

theorem put_fresh {V : Type} (d : List (Text × V)) (k : Text) (v : V) (h : k ∉ d.map Prod.fst) :
    put d k v = d ++ [(k, v)] := by
  induction d with
  | nil => rfl
  | cons e d ih =>
    simp only [List.map_cons, List.mem_cons, not_or] at h
    rw [put, if_neg (Ne.symm h.1), ih h.2, List.cons_append]

/-- Members of a structure, each with its value. -/
abbrev Given (S D F T : Type) := List ((Member × S) × Val D F T)

/-- As written down in a structure. -/
def plain (g : Given S D F T) : List (Text × Val D F T) := g.map fun x => (x.1.1.name, x.2)

theorem readAttributes_given (rd : Reader S D F T) (A : List (Text × Text)) (l : List (Text × Val D F T)) :
    ∀ (ms : List (Member × S)) (acc : List (Text × Val D F T)), (ms.map fun m => m.1.name).Nodup →
    (∀ m ∈ ms, m.1.name ∉ acc.map Prod.fst) →
    (∀ m ∈ ms, m.1.isAttribute = true →
      (l.lookup m.1.name = none ∧ A.find? (fun a => localName a.1 = m.1.xml) = none) ∨
      ∃ v a, l.lookup m.1.name = some v ∧ A.find? (fun a => localName a.1 = m.1.xml) = some a ∧
        rd.attrScalar (rd.view m.2) a.2 = .ok v) →
    rd.readAttributes false A acc ms = .ok (acc ++ ms.filterMap fun m =>
      if m.1.isAttribute then (l.lookup m.1.name).map fun v => (m.1.name, v) else none)
  | [], acc, _, _, _ => by simp [Reader.readAttributes]
  | m :: ms, acc, hn, hacc, h => by
    rw [List.map_cons, List.nodup_cons] at hn
    have h' := fun m' hm' => h m' (List.mem_cons_of_mem m hm')
    simp only [Reader.readAttributes, List.filterMap_cons]
    by_cases hm : m.1.isAttribute = true
    · simp only [hm, if_true]
      rcases h m List.mem_cons_self hm with ⟨h1, h2⟩ | ⟨v, a, h1, h2, h3⟩
      · simp only [h1, h2, Option.map_none]
        exact readAttributes_given rd A l ms acc hn.2 (fun m' hm' => hacc m' (List.mem_cons_of_mem _ hm')) h'
      · simp only [h1, h2, h3, Option.map_some, consume, Bool.false_eq_true, if_false,
          put_fresh acc m.1.name v (hacc m List.mem_cons_self)]
        rw [readAttributes_given rd A l ms (acc ++ [(m.1.name, v)]) hn.2 (fun m' hm' => by
          simp only [List.map_append, List.mem_append, List.map_cons, List.map_nil, List.mem_singleton, not_or]
          refine ⟨hacc m' (List.mem_cons_of_mem _ hm'), ?_⟩
          intro he
          exact hn.1 (List.mem_map.2 ⟨m', hm', he⟩)) h']
        simp
    · simp only [hm]
      exact readAttributes_given rd A l ms acc hn.2 (fun m' hm' => hacc m' (List.mem_cons_of_mem _ hm')) h'

/-- As read. -/
def result (rd : Reader S D F T) (g : Given S D F T) : List (Text × Val D F T) :=
  g.map fun x => (x.1.1.name, arranged rd x.1.2 x.2)

theorem arrangedMembers_plain (rd : Reader S D F T) (sh : Shape S)
    (hn : (sh.members.map fun e => e.1.name).Nodup) : ∀ g : Given S D F T, (∀ x ∈ g, x.1 ∈ sh.members) →
    arrangedMembers rd sh (plain g) = result rd g
  | [], _ => rfl
  | x :: g, h => by
    have ih := arrangedMembers_plain rd sh hn g fun y hy => h y (List.mem_cons_of_mem _ hy)
    unfold plain result at ih ⊢
    simp only [List.map_cons, arrangedMembers, named_of_mem sh hn x.1 (h x List.mem_cons_self), ih]

theorem lookup_result (rd : Reader S D F T) (g : Given S D F T) (hn : (g.map fun x => x.1.1.name).Nodup)
    (x : (Member × S) × Val D F T) (hx : x ∈ g) :
    (result rd g).lookup x.1.1.name = some (arranged rd x.1.2 x.2) := by
  induction g with
  | nil => simp at hx
  | cons y g ih =>
    rw [List.map_cons, List.nodup_cons] at hn
    unfold result at ih ⊢
    rcases List.mem_cons.1 hx with rfl | hx
    · simp
    · have : (x.1.1.name == y.1.1.name) = false := by
        simp only [beq_eq_false_iff_ne, ne_eq]
        intro he
        exact hn.1 (List.mem_map.2 ⟨x, hx, he⟩)
      rw [List.map_cons, List.lookup_cons, this, ih hn.2 hx]

theorem lookup_result_none (rd : Reader S D F T) (g : Given S D F T) (k : Text)
    (h : ∀ x ∈ g, x.1.1.name ≠ k) : (result rd g).lookup k = none := by
  induction g with
  | nil => rfl
  | cons y g ih =>
    unfold result at ih ⊢
    have : (k == y.1.1.name) = false := by
      simp only [beq_eq_false_iff_ne, ne_eq]
      exact fun he => h y List.mem_cons_self he.symm
    rw [List.map_cons, List.lookup_cons, this, ih fun x hx => h x (List.mem_cons_of_mem _ hx)]

theorem arranged_scalar (rd : Reader S D F T) (w : Writer S D F T) (s : S) (v : View S) (x : Val D F T) (h : Scalar rd w v x) :
    arranged rd s x = x := by
  cases v <;> simp only [Scalar] at h <;> first | obtain ⟨y, rfl⟩ := h; rfl | obtain ⟨y, rfl, _⟩ := h; rfl

/-! ## Lemmas: what is written for members -/

/-- The attribute of a given member. -/
def Writer.attributeOf (w : Writer S D F T) (rd : Reader S D F T) (x : (Member × S) × Val D F T) :
    Option (Text × Text) :=
  if x.1.1.isAttribute then some (w.tag (elementName x.1.1), w.text rd (rd.view x.1.2) x.2) else none

/-- The elements of a given member. -/
def Writer.elementsOf (w : Writer S D F T) (rd : Reader S D F T) (x : (Member × S) × Val D F T) : List Elem :=
  if x.1.1.isAttribute then []
  else if x.1.1.isFlattened then w.body rd x.1.2 (elementName x.1.1) x.2
  else [w.write rd x.1.2 (elementName x.1.1) x.2]

theorem member_eq (w : Writer S D F T) (rd : Reader S D F T) (sh : Shape S)
    (hn : (sh.members.map fun e => e.1.name).Nodup) (x : (Member × S) × Val D F T) (hx : x.1 ∈ sh.members) :
    w.member rd sh x.1.1.name x.2 (fun s i => w.body rd s i x.2) = w.elementsOf rd x := by
  simp only [Writer.member, named_of_mem sh hn x.1 hx, Writer.elementsOf, Writer.write]

theorem members_eq (w : Writer S D F T) (rd : Reader S D F T) (sh : Shape S)
    (hn : (sh.members.map fun e => e.1.name).Nodup) : ∀ g : Given S D F T, (∀ x ∈ g, x.1 ∈ sh.members) →
    w.members rd sh (plain g) = g.flatMap (w.elementsOf rd)
  | [], _ => rfl
  | x :: g, h => by
    simp only [plain, List.map_cons, Writer.members, List.flatMap_cons,
      member_eq w rd sh hn x (h x List.mem_cons_self)]
    congr 1
    exact members_eq w rd sh hn g fun y hy => h y (List.mem_cons_of_mem _ hy)

theorem attributes_eq (w : Writer S D F T) (rd : Reader S D F T) (sh : Shape S)
    (hn : (sh.members.map fun e => e.1.name).Nodup) : ∀ g : Given S D F T, (∀ x ∈ g, x.1 ∈ sh.members) →
    (plain g).filterMap (w.attribute rd sh) = g.filterMap (w.attributeOf rd)
  | [], _ => rfl
  | x :: g, h => by
    have ih := attributes_eq w rd sh hn g fun y hy => h y (List.mem_cons_of_mem _ hy)
    have hx : w.attribute rd sh (x.1.1.name, x.2) = w.attributeOf rd x := by
      simp only [Writer.attribute, named_of_mem sh hn x.1 (h x List.mem_cons_self), Writer.attributeOf]
    unfold plain at ih ⊢
    rw [List.map_cons, List.filterMap_cons, List.filterMap_cons, hx, ih]

theorem attributes_none (w : Writer S D F T) (rd : Reader S D F T) (hw : Readable rd w) (n : Text) :
    ∀ g : Given S D F T, (∀ x ∈ g, x.1.1.isAttribute = true → elementName x.1.1 ≠ n) →
    (g.filterMap (w.attributeOf rd)).find? (fun a => localName a.1 = n) = none
  | [], _ => rfl
  | x :: g, h => by
    have ih := attributes_none w rd hw n g fun y hy => h y (List.mem_cons_of_mem _ hy)
    by_cases hx : x.1.1.isAttribute = true
    · rw [List.filterMap_cons_some (b := (w.tag (elementName x.1.1), w.text rd (rd.view x.1.2) x.2))
        (by simp [Writer.attributeOf, hx]), List.find?_cons_of_neg, ih]
      simp only [decide_eq_true_eq, hw.tag]
      exact h x List.mem_cons_self hx
    · rw [List.filterMap_cons_none (by simp [Writer.attributeOf, hx]), ih]

theorem attributes_some (w : Writer S D F T) (rd : Reader S D F T) (hw : Readable rd w) :
    ∀ (g : Given S D F T) (x : (Member × S) × Val D F T), x ∈ g → x.1.1.isAttribute = true →
    (∀ y ∈ g, y.1.1.isAttribute = true → elementName y.1.1 = elementName x.1.1 → y = x) →
    (g.filterMap (w.attributeOf rd)).find? (fun a => localName a.1 = elementName x.1.1) =
      some (w.tag (elementName x.1.1), w.text rd (rd.view x.1.2) x.2)
  | y :: g, x, hm, ha, hd => by
    by_cases hy : y.1.1.isAttribute = true
    · rw [List.filterMap_cons_some (b := (w.tag (elementName y.1.1), w.text rd (rd.view y.1.2) y.2))
        (by simp [Writer.attributeOf, hy])]
      by_cases he : elementName y.1.1 = elementName x.1.1
      · have := hd y List.mem_cons_self hy he
        subst this
        rw [List.find?_cons_of_pos]
        simp [hw.tag]
      · rw [List.find?_cons_of_neg (by simpa [hw.tag] using he)]
        rcases List.mem_cons.1 hm with rfl | hm
        · exact absurd rfl he
        · exact attributes_some w rd hw g x hm ha fun z hz => hd z (List.mem_cons_of_mem _ hz)
    · rw [List.filterMap_cons_none (by simp [Writer.attributeOf, hy])]
      rcases List.mem_cons.1 hm with rfl | hm
      · exact absurd ha hy
      · exact attributes_some w rd hw g x hm ha fun z hz => hd z (List.mem_cons_of_mem _ hz)

theorem head_tag (w : Writer S D F T) (rd : Reader S D F T) (s : S) (name : Text) (v : Val D F T) :
    (w.head rd s name v).tag = w.tag name := by
  cases v <;> simp only [Writer.head]
  split <;> rfl

theorem resolve_member (rd : Reader S D F T) (hok : rd.Ok) (s : S) (sh : Shape S) (hv : rd.view s = .struct sh)
    (m : Member × S) (hm : m ∈ sh.members) (ha : m.1.isAttribute = false) :
    resolve sh.members (elementName m.1) = some m := by
  have h2 := (hok s sh hv).2.1
  have hmem : m ∈ (sh.members.filter fun e => !e.1.isAttribute) := List.mem_filter.2 ⟨hm, by simp [ha]⟩
  cases hr : resolve sh.members (elementName m.1) with
  | none =>
    unfold resolve at hr
    rw [List.find?_eq_none] at hr
    have := hr m (List.mem_reverse.2 hmem)
    simp [xml_eq] at this
  | some m' =>
    obtain ⟨h3, h4, h5⟩ := resolve_mem _ _ _ hr
    rw [xml_eq] at h5
    rw [nodup_map_inj (fun e : Member × S => elementName e.1) _ h2 m' m
      (List.mem_filter.2 ⟨h3, by simp [h4]⟩) hmem h5]

/-! ## Lemmas: reading the members -/

theorem addBuffer_fresh {A : Type} (bufs : List (Text × (Member × S) × List A)) (t : Text) (m : Member × S)
    (es : List A) (h : t ∉ bufs.map Prod.fst) : addBuffer bufs t m es = bufs ++ [(t, m, es)] := by
  induction bufs with
  | nil => rfl
  | cons b bs ih =>
    simp only [List.map_cons, List.mem_cons, not_or] at h
    rw [addBuffer, if_neg (Ne.symm h.1), ih h.2, List.cons_append]

theorem addBuffer_last {A : Type} (bufs : List (Text × (Member × S) × List A)) (t : Text) (m : Member × S)
    (es es' : List A) (h : t ∉ bufs.map Prod.fst) :
    addBuffer (bufs ++ [(t, m, es)]) t m es' = bufs ++ [(t, m, es ++ es')] := by
  induction bufs with
  | nil => simp [addBuffer]
  | cons b bs ih =>
    simp only [List.map_cons, List.mem_cons, not_or] at h
    rw [List.cons_append, addBuffer, if_neg (Ne.symm h.1), ih h.2, List.cons_append]

theorem decodeMembers_more (dec : S → Bool → Elem → Except XErr (Val D F T × Bool)) (u : Bool)
    (ms : List (Member × S)) (root : Bool) (acc : List (Text × Val D F T)) (bufs : Bufs S) (rest : List Elem)
    (m : Member × S) (t : Text) (hr : resolve ms t = some m) (hf : m.1.isFlattened = true)
    (hb : t ∉ bufs.map Prod.fst) : ∀ (es es0 : List Elem), (∀ e ∈ es, e.name = t) →
    decodeMembers dec u ms root acc (bufs ++ [(t, m, es0)]) (es ++ rest) =
      decodeMembers dec u ms root acc (bufs ++ [(t, m, es0 ++ es)]) rest
  | [], es0, _ => by simp
  | .mk h cs :: es, es0, he => by
    have h1 : localName h.tag = t := he _ List.mem_cons_self
    rw [List.cons_append]
    simp only [decodeMembers, h1, hr, hf, if_true, addBuffer_last bufs t m es0 _ hb]
    rw [decodeMembers_more dec u ms root acc bufs rest m t hr hf hb es _
      fun e h => he e (List.mem_cons_of_mem _ h)]
    simp

theorem decodeMembers_flat (dec : S → Bool → Elem → Except XErr (Val D F T × Bool)) (u : Bool)
    (ms : List (Member × S)) (root : Bool) (acc : List (Text × Val D F T)) (bufs : Bufs S) (rest : List Elem)
    (m : Member × S) (t : Text) (hr : resolve ms t = some m) (hf : m.1.isFlattened = true)
    (hb : t ∉ bufs.map Prod.fst) (es : List Elem) (hne : es ≠ []) (he : ∀ e ∈ es, e.name = t) :
    decodeMembers dec u ms root acc bufs (es ++ rest) =
      decodeMembers dec u ms root acc (bufs ++ [(t, m, es)]) rest := by
  cases es with
  | nil => exact absurd rfl hne
  | cons e es =>
    obtain ⟨h, cs⟩ := e
    have h1 : localName h.tag = t := he _ List.mem_cons_self
    rw [List.cons_append]
    simp only [decodeMembers, h1, hr, hf, if_true, addBuffer_fresh bufs t m _ hb]
    rw [decodeMembers_more dec u ms root acc bufs rest m t hr hf hb es _
      fun e h => he e (List.mem_cons_of_mem _ h)]
    simp

/-- The buffer of a given member. -/
def Writer.buffer (w : Writer S D F T) (rd : Reader S D F T) (x : (Member × S) × Val D F T) :
    Text × (Member × S) × List Elem :=
  (elementName x.1.1, x.1, w.body rd x.1.2 (elementName x.1.1) x.2)

/-- A member that is one element. -/
def isPlain (x : (Member × S) × Val D F T) : Bool := !x.1.1.isAttribute && !x.1.1.isFlattened

/-- A member that is flattened. -/
def isFlat (x : (Member × S) × Val D F T) : Bool := !x.1.1.isAttribute && x.1.1.isFlattened

theorem decodeMembers_given (dec : S → Bool → Elem → Except XErr (Val D F T × Bool)) (w : Writer S D F T)
    (rd : Reader S D F T) (hw : Readable rd w) (ms : List (Member × S)) :
    ∀ (g : Given S D F T) (acc : List (Text × Val D F T)) (bufs : Bufs S),
    (∀ x ∈ g, x.1.1.isAttribute = false → resolve ms (elementName x.1.1) = some x.1) →
    (∀ x ∈ g, isPlain x = true →
      dec x.1.2 false (w.write rd x.1.2 (elementName x.1.1) x.2) = .ok (arranged rd x.1.2 x.2, false)) →
    (∀ x ∈ g, isFlat x = true → w.body rd x.1.2 (elementName x.1.1) x.2 ≠ [] ∧
      ∀ e ∈ w.body rd x.1.2 (elementName x.1.1) x.2, e.name = elementName x.1.1) →
    (∀ x ∈ g, x.1.1.name ∉ acc.map Prod.fst) → (g.map fun x => x.1.1.name).Nodup →
    (∀ x ∈ g, isFlat x = true → elementName x.1.1 ∉ bufs.map Prod.fst) →
    (g.Pairwise fun x y => isFlat x = true → isFlat y = true → elementName x.1.1 ≠ elementName y.1.1) →
    decodeMembers dec false ms false acc bufs (g.flatMap (w.elementsOf rd)) =
      .ok (acc ++ result rd (g.filter isPlain), bufs ++ (g.filter isFlat).map (w.buffer rd), false)
  | [], acc, bufs, _, _, _, _, _, _, _ => by simp [decodeMembers, result]
  | x :: g, acc, bufs, h1, h2, h3, h4, h5, h6, h7 => by
    rw [List.map_cons, List.nodup_cons] at h5
    rw [List.pairwise_cons] at h7
    have h1' := fun y hy => h1 y (List.mem_cons_of_mem x hy)
    have h2' := fun y hy => h2 y (List.mem_cons_of_mem x hy)
    have h3' := fun y hy => h3 y (List.mem_cons_of_mem x hy)
    have h4' := fun y hy => h4 y (List.mem_cons_of_mem x hy)
    have h6' := fun y hy => h6 y (List.mem_cons_of_mem x hy)
    rw [List.flatMap_cons]
    by_cases ha : x.1.1.isAttribute = true
    · have he : w.elementsOf rd x = [] := by simp [Writer.elementsOf, ha]
      rw [he, List.nil_append, List.filter_cons_of_neg (by simp [isPlain, ha]),
        List.filter_cons_of_neg (by simp [isFlat, ha])]
      exact decodeMembers_given dec w rd hw ms g acc bufs h1' h2' h3' h4' h5.2 h6' h7.2
    · have ha' : x.1.1.isAttribute = false := by simpa using ha
      have hr := h1 x List.mem_cons_self ha'
      by_cases hf : x.1.1.isFlattened = true
      · have hx : isFlat x = true := by simp [isFlat, ha', hf]
        have he : w.elementsOf rd x = w.body rd x.1.2 (elementName x.1.1) x.2 := by
          simp [Writer.elementsOf, ha', hf]
        obtain ⟨hne, hnm⟩ := h3 x List.mem_cons_self hx
        rw [he, decodeMembers_flat dec false ms false acc bufs _ x.1 _ hr hf (h6 x List.mem_cons_self hx) _ hne hnm,
          decodeMembers_given dec w rd hw ms g acc _ h1' h2' h3' h4' h5.2
            (fun y hy hfy => by
              simp only [List.map_append, List.mem_append, List.map_cons, List.map_nil, List.mem_singleton, not_or]
              exact ⟨h6' y hy hfy, Ne.symm (h7.1 y hy hx hfy)⟩) h7.2,
          List.filter_cons_of_neg (by simp [isPlain, hf]), List.filter_cons_of_pos hx]
        simp [Writer.buffer]
      · have hf' : x.1.1.isFlattened = false := by simpa using hf
        have hx : isPlain x = true := by simp [isPlain, ha', hf']
        have he : w.elementsOf rd x = [w.write rd x.1.2 (elementName x.1.1) x.2] := by
          simp [Writer.elementsOf, ha', hf']
        have hd := h2 x List.mem_cons_self hx
        have ih := decodeMembers_given dec w rd hw ms g (acc ++ [(x.1.1.name, arranged rd x.1.2 x.2)]) bufs h1' h2' h3'
          (fun y hy => by
            simp only [List.map_append, List.mem_append, List.map_cons, List.map_nil, List.mem_singleton, not_or]
            refine ⟨h4' y hy, ?_⟩
            intro hyx
            exact h5.1 (List.mem_map.2 ⟨y, hy, hyx⟩)) h5.2 h6' h7.2
        rw [he, List.singleton_append]
        unfold Writer.write at hd ⊢
        simp only [decodeMembers, head_tag, hw.tag, hr, hf', hd, consume, Bool.false_eq_true, if_false,
          put_fresh acc x.1.1.name _ (h4 x List.mem_cons_self)]
        rw [ih, List.filter_cons_of_pos hx, List.filter_cons_of_neg (by simp [isFlat, hf'])]
        simp [result]

theorem decodeFlush_given (all : S → List Elem → Except XErr (Val D F T)) (w : Writer S D F T)
    (rd : Reader S D F T) : ∀ (g : Given S D F T) (acc : List (Text × Val D F T)),
    (∀ x ∈ g, all x.1.2 (w.body rd x.1.2 (elementName x.1.1) x.2) = .ok (arranged rd x.1.2 x.2)) →
    (∀ x ∈ g, x.1.1.name ∉ acc.map Prod.fst) → (g.map fun x => x.1.1.name).Nodup →
    decodeFlush all false acc (g.map (w.buffer rd)) = .ok (acc ++ result rd g)
  | [], acc, _, _, _ => by simp [result, decodeFlush]
  | x :: g, acc, h, hf, hn => by
    rw [List.map_cons, List.nodup_cons] at hn
    have ih := decodeFlush_given all w rd g (acc ++ [(x.1.1.name, arranged rd x.1.2 x.2)])
      (fun y hy => h y (List.mem_cons_of_mem _ hy))
      (fun y hy => by
        simp only [List.map_append, List.mem_append, List.map_cons, List.map_nil, List.mem_singleton, not_or]
        refine ⟨hf y (List.mem_cons_of_mem _ hy), ?_⟩
        intro hyx
        exact hn.1 (List.mem_map.2 ⟨y, hy, hyx⟩)) hn.2
    simp only [List.map_cons, decodeFlush, Writer.buffer, h x List.mem_cons_self, consume, Bool.false_eq_true,
      if_false, put_fresh acc x.1.1.name _ (hf x List.mem_cons_self)]
    rw [ih]
    simp [result]

/-! ## Lemmas: reading values -/

/-- What may be flattened, by the name of its items or entries. -/
def FlatAt (rd : Reader S D F T) (w : Writer S D F T) (s : S) (item : Text) (v : Val D F T) : Prop :=
  match rd.view s with
  | .list s' => v ≠ .list [] ∧ MayLead rd w s' item
  | .map _ valueTag s' => v ≠ .map [] ∧ MayLead rd w s' valueTag
  | _ => False

/-- The value is read from what is written for it. -/
def Reads (rd : Reader S D F T) (w : Writer S D F T) (s : S) (v : Val D F T) : Prop :=
  (∀ name n root, (root = true → MayLead rd w s name) → size (w.write rd s name v) ≤ n →
    ∃ root', rd.decode n false s root [w.write rd s name v] = .ok (arranged rd s v, root')) ∧
  ∀ item n, FlatAt rd w s item v → sizes (w.body rd s item v) ≤ n →
    (rd.decode n true s true (w.body rd s item v)).map Prod.fst = .ok (arranged rd s v) ∧
    w.body rd s item v ≠ [] ∧ ∀ e ∈ w.body rd s item v, e.name = item

theorem reads_scalar (rd : Reader S D F T) (w : Writer S D F T) (hw : Readable rd w) (s : S) (v : Val D F T)
    (h : Scalar rd w (rd.view s) v) (hh : ∀ name, w.head rd s name v = ⟨w.tag name, [], w.text rd (rd.view s) v⟩) :
    Reads rd w s v := by
  have hs := scalar_text rd w hw _ _ h
  rw [Reads, arranged_scalar rd w s _ _ h]
  refine ⟨?_, ?_⟩
  · intro name n root _ hn
    cases n with
    | zero => have := size_pos (w.write rd s name v); omega
    | succ n =>
      refine ⟨root, ?_⟩
      unfold Writer.write
      rw [hh]
      cases hv : rd.view s <;> rw [hv] at h hs <;> simp only [Scalar] at h <;>
        simp only [Reader.decode, hv, hs, Except.map]
  · intro item n hf
    unfold FlatAt at hf
    cases hv : rd.view s <;> rw [hv] at h hf <;> simp only [Scalar] at h <;> exact False.elim hf

theorem mayLead_struct (rd : Reader S D F T) (w : Writer S D F T) (s : S) (sh : Shape S)
    (hv : rd.view s = .struct sh) (name : Text) (h : MayLead rd w s name) : name = sh.rootName := by
  cases h with
  | scalar _ _ h => obtain ⟨x, h⟩ := h; simp only [hv, Scalar] at h
  | struct _ sh' h => rw [hv] at h; cases h; rfl
  | list _ _ _ h => rw [hv] at h; cases h
  | map _ _ _ _ _ h => rw [hv] at h; cases h

theorem mayLead_list (rd : Reader S D F T) (w : Writer S D F T) (s s' : S) (hv : rd.view s = .list s')
    (name : Text) (h : MayLead rd w s name) : MayLead rd w s' (w.item s) := by
  cases h with
  | scalar _ _ h => obtain ⟨x, h⟩ := h; simp only [hv, Scalar] at h
  | struct _ sh' h => rw [hv] at h; cases h
  | list _ _ _ h h' => rw [hv] at h; cases h; exact h'
  | map _ _ _ _ _ h => rw [hv] at h; cases h

theorem mayLead_map (rd : Reader S D F T) (w : Writer S D F T) (s s' : S) (keyTag valueTag : Text)
    (hv : rd.view s = .map keyTag valueTag s') (name : Text) (h : MayLead rd w s name) :
    MayLead rd w s' valueTag := by
  cases h with
  | scalar _ _ h => obtain ⟨x, h⟩ := h; simp only [hv, Scalar] at h
  | struct _ sh' h => rw [hv] at h; cases h
  | list _ _ _ h => rw [hv] at h; cases h
  | map _ _ _ _ _ h h' => rw [hv] at h; cases h; exact h'

theorem decode_again (rd : Reader S D F T) (n : Nat) (s : S) (root : Bool) (es : List Elem) (v : Val D F T)
    (root' : Bool) (P : Prop) (h : rd.decode n false s root es = .ok (v, root')) (hp : root = true → P) :
    root' = true → P := by
  cases root with
  | true => intro _; exact hp rfl
  | false =>
    have := decode_false rd n false s es _ h
    simp only at this
    rw [this]
    intro h; cases h

theorem sizes_append (a b : List Elem) : sizes (a ++ b) + 2 = sizes a + sizes b := by
  induction a with
  | nil => simp only [List.nil_append, sizes]; omega
  | cons e a ih => simp only [List.cons_append, sizes]; omega

theorem sizes_flatMap {A : Type} (f : A → List Elem) (l : List A) (x : A) (h : x ∈ l) :
    sizes (f x) ≤ sizes (l.flatMap f) := by
  induction l with
  | nil => simp at h
  | cons a l ih =>
    rw [List.flatMap_cons]
    have h1 := sizes_append (f a) (l.flatMap f)
    rcases List.mem_cons.1 h with rfl | h
    · have := sizes_length (l.flatMap f); omega
    · have := ih h; have := sizes_length (f a); omega

theorem nodup_filter_map {A B : Type} (f : A → B) (p : A → Bool) (l : List A) (h : (l.map f).Nodup) :
    ((l.filter p).map f).Nodup := h.sublist (List.Sublist.map f List.filter_sublist)

theorem arrange_result (rd : Reader S D F T) (sh : Shape S) (hn : (sh.members.map fun e => e.1.name).Nodup)
    (p : Member → Bool) : ∀ g : Given S D F T, (∀ x ∈ g, x.1 ∈ sh.members) →
    (result rd g).filter (fun e => (named sh e.1).any fun m => p m.1) = result rd (g.filter fun x => p x.1.1)
  | [], _ => rfl
  | x :: g, h => by
    have ih := arrange_result rd sh hn p g fun y hy => h y (List.mem_cons_of_mem _ hy)
    have hx := named_of_mem sh hn x.1 (h x List.mem_cons_self)
    unfold result at ih ⊢
    rw [List.map_cons, List.filter_cons, List.filter_cons]
    simp only [hx, Option.any_some]
    by_cases hp : p x.1.1 = true
    · simp only [hp, if_true, List.map_cons, ih]
    · simp only [hp, if_false, ih, Bool.false_eq_true]

theorem reads_struct (rd : Reader S D F T) (w : Writer S D F T) (hw : Readable rd w) (hok : rd.Ok)
    (had : AttributesDiffer rd) (s : S) (sh : Shape S) (hv : rd.view s = .struct sh) (hu : sh.union = false)
    (g : Given S D F T) (hnd : ((plain g).map Prod.fst).Nodup)
    (hg : ∀ x ∈ g, x.1 ∈ sh.members ∧ Fits rd w x.1 x.2 ∧ Reads rd w x.1.2 x.2) :
    Reads rd w s (.struct (plain g)) := by
  obtain ⟨hnames, helems, _⟩ := hok s sh hv
  have hattrs := had s sh hv
  have hmem : ∀ x ∈ g, x.1 ∈ sh.members := fun x hx => (hg x hx).1
  have hkeys : (plain g).map Prod.fst = g.map fun x => x.1.1.name := by simp [plain]
  rw [hkeys] at hnd
  have hsame : ∀ x ∈ g, ∀ y ∈ g, x.1 = y.1 → x = y := fun x hx y hy he =>
    nodup_map_inj (fun e : (Member × S) × Val D F T => e.1.1.name) _ hnd x y hx hy (by rw [he])
  refine ⟨?_, ?_⟩
  swap
  · intro item n hf
    simp only [FlatAt, hv] at hf
  intro name n root hroot hn
  cases n with
  | zero => have := size_pos (w.write rd s name (.struct (plain g))); omega
  | succ n =>
    -- what is written
    have hb : w.body rd s (w.item s) (.struct (plain g)) = g.flatMap (w.elementsOf rd) := by
      simp only [Writer.body, hv]
      exact members_eq w rd sh hnames _ hmem
    have hh : w.head rd s name (.struct (plain g)) = ⟨w.tag name, g.filterMap (w.attributeOf rd), []⟩ := by
      simp only [Writer.head, hv]
      rw [attributes_eq w rd sh hnames _ hmem]
    have hsz : sizes (g.flatMap (w.elementsOf rd)) ≤ n := by
      unfold Writer.write at hn
      rw [hb, size] at hn
      omega
    -- the attributes
    have hA := readAttributes_given rd (g.filterMap (w.attributeOf rd)) (result rd g) sh.members [] hnames (by simp)
      (fun m hm ha => by
        rw [xml_eq]
        by_cases hin : ∃ x ∈ g, x.1 = m
        · right
          obtain ⟨x, hx, rfl⟩ := hin
          obtain ⟨hs, hbl⟩ := ((hg x hx).2.1).1 ha
          refine ⟨_, _, lookup_result rd g hnd x hx, attributes_some w rd hw g x hx ha ?_, ?_⟩
          · intro y hy hya he
            exact hsame y hy x hx (nodup_map_inj (fun e : Member × S => elementName e.1) _ hattrs y.1 x.1
              (List.mem_filter.2 ⟨hmem y hy, by simpa using hya⟩)
              (List.mem_filter.2 ⟨hmem x hx, by simpa using ha⟩) he)
          · rw [arranged_scalar rd w _ _ _ hs]
            exact attrScalar_text rd w hw _ _ hs hbl
        · left
          refine ⟨lookup_result_none rd g _ ?_, attributes_none w rd hw _ _ ?_⟩
          · intro x hx he
            exact hin ⟨x, hx, nodup_map_inj (fun e : Member × S => e.1.name) _ hnames x.1 m (hmem x hx) hm he⟩
          · intro x hx hxa he
            exact hin ⟨x, hx, nodup_map_inj (fun e : Member × S => elementName e.1) _ hattrs x.1 m
              (List.mem_filter.2 ⟨hmem x hx, by simpa using hxa⟩)
              (List.mem_filter.2 ⟨hm, by simpa using ha⟩) he⟩)
    rw [List.nil_append] at hA
    -- the elements
    generalize hattr : (sh.members.filterMap fun m =>
      if m.1.isAttribute then ((result rd g).lookup m.1.name).map fun v => (m.1.name, v) else none) = attrs at hA
    have hkeysA : ∀ k ∈ attrs.map Prod.fst, ∃ m ∈ sh.members, m.1.isAttribute = true ∧ m.1.name = k := by
      intro k hk
      rw [← hattr] at hk
      obtain ⟨e, he, rfl⟩ := List.mem_map.1 hk
      obtain ⟨m, hm, hme⟩ := List.mem_filterMap.1 he
      by_cases ha : m.1.isAttribute = true
      · simp only [ha, if_true, Option.map_eq_some_iff] at hme
        obtain ⟨v, _, rfl⟩ := hme
        exact ⟨m, hm, ha, rfl⟩
      · simp [ha] at hme
    have hnotA : ∀ x ∈ g, x.1.1.isAttribute = false → x.1.1.name ∉ attrs.map Prod.fst := by
      intro x hx ha hk
      obtain ⟨m, hm, hma, hmn⟩ := hkeysA _ hk
      rw [nodup_map_inj (fun e : Member × S => e.1.name) _ hnames m x.1 hm (hmem x hx) hmn, ha] at hma
      cases hma
    have hfl : ∀ x ∈ g, isFlat x = true → ((fun s es => (rd.decode n true s true es).map Prod.fst) x.1.2
          (w.body rd x.1.2 (elementName x.1.1) x.2) = .ok (arranged rd x.1.2 x.2)) ∧
        w.body rd x.1.2 (elementName x.1.1) x.2 ≠ [] ∧
        ∀ e ∈ w.body rd x.1.2 (elementName x.1.1) x.2, e.name = elementName x.1.1 := by
      intro x hx hfx
      simp only [isFlat, Bool.and_eq_true, Bool.not_eq_true'] at hfx
      have hsx := sizes_flatMap (w.elementsOf rd) g x hx
      have he : w.elementsOf rd x = w.body rd x.1.2 (elementName x.1.1) x.2 := by
        simp [Writer.elementsOf, hfx.1, hfx.2]
      rw [he] at hsx
      exact ((hg x hx).2.2).2 (elementName x.1.1) n (((hg x hx).2.1).2 hfx.1 hfx.2) (by omega)
    let g' := g.filter fun x => !x.1.1.isAttribute
    have hg'el : g'.flatMap (w.elementsOf rd) = g.flatMap (w.elementsOf rd) := by
      clear hnd hsame hb hh hsz hA hattr hkeysA hnotA hfl hn hg hmem hkeys
      show (g.filter fun x => !x.1.1.isAttribute).flatMap (w.elementsOf rd) = _
      induction g with
      | nil => rfl
      | cons x g ih =>
        rw [List.filter_cons]
        by_cases ha : x.1.1.isAttribute = true
        · have he : w.elementsOf rd x = [] := by simp [Writer.elementsOf, ha]
          simp only [ha, Bool.not_true, Bool.false_eq_true, if_false, List.flatMap_cons, he, List.nil_append]
          exact ih
        · simp only [ha, Bool.not_false, if_true, List.flatMap_cons, ih]
    have hg'mem : ∀ x ∈ g', x ∈ g ∧ x.1.1.isAttribute = false := by
      intro x hx
      have := List.mem_filter.1 hx
      exact ⟨this.1, by simpa using this.2⟩
    have hg'p : g'.filter isPlain = g.filter isPlain := by
      show (g.filter _).filter _ = _
      rw [List.filter_filter]
      congr 1
      funext x
      simp only [isPlain]
      cases x.1.1.isAttribute <;> simp
    have hg'f : g'.filter isFlat = g.filter isFlat := by
      show (g.filter _).filter _ = _
      rw [List.filter_filter]
      congr 1
      funext x
      simp only [isFlat]
      cases x.1.1.isAttribute <;> simp
    have hM := decodeMembers_given (fun s r e => rd.decode n false s r [e]) w rd hw sh.members g' attrs []
      (fun x hx ha => resolve_member rd hok s sh hv x.1 (hmem x (hg'mem x hx).1) ha)
      (fun x hx hp => by
        simp only [isPlain, Bool.and_eq_true, Bool.not_eq_true'] at hp
        have hsx := sizes_flatMap (w.elementsOf rd) g x (hg'mem x hx).1
        have he : w.elementsOf rd x = [w.write rd x.1.2 (elementName x.1.1) x.2] := by
          simp [Writer.elementsOf, hp.1, hp.2]
        rw [he] at hsx
        simp only [sizes] at hsx
        obtain ⟨r', hr'⟩ := ((hg x (hg'mem x hx).1).2.2).1 (elementName x.1.1) n false (by simp) (by omega)
        have := decode_false rd n false _ _ _ hr'
        simp only at this
        rw [hr', this])
      (fun x hx hf => (hfl x (hg'mem x hx).1 hf).2)
      (fun x hx => hnotA x (hg'mem x hx).1 (hg'mem x hx).2)
      (nodup_filter_map _ _ g hnd)
      (by simp)
      (by
        have hp : g'.Pairwise fun x y => x.1.1.name ≠ y.1.1.name := by
          have := nodup_filter_map (fun x : (Member × S) × Val D F T => x.1.1.name)
            (fun x => !x.1.1.isAttribute) g hnd
          rw [List.nodup_iff_pairwise_ne, List.pairwise_map] at this
          exact this
        refine hp.imp_of_mem ?_
        intro x y hx hy hne _ _ he
        have := nodup_map_inj (fun e : Member × S => elementName e.1) _ helems x.1 y.1
          (List.mem_filter.2 ⟨hmem x (hg'mem x hx).1, by simp [(hg'mem x hx).2]⟩)
          (List.mem_filter.2 ⟨hmem y (hg'mem y hy).1, by simp [(hg'mem y hy).2]⟩) he
        exact hne (by rw [this]))
    rw [hg'el, hg'p, hg'f, List.nil_append] at hM
    have hFl := decodeFlush_given (fun s es => (rd.decode n true s true es).map Prod.fst) w rd (g.filter isFlat)
      (attrs ++ result rd (g.filter isPlain))
      (fun x hx => (hfl x (List.mem_filter.1 hx).1 (List.mem_filter.1 hx).2).1)
      (fun x hx hin => by
        obtain ⟨hxg, hfx⟩ := List.mem_filter.1 hx
        simp only [isFlat, Bool.and_eq_true, Bool.not_eq_true'] at hfx
        rw [List.map_append, List.mem_append] at hin
        rcases hin with hin | hin
        · exact hnotA x hxg hfx.1 hin
        · obtain ⟨e, he, hex⟩ := List.mem_map.1 hin
          obtain ⟨z, hz, rfl⟩ := List.mem_map.1 he
          obtain ⟨hzg, hpz⟩ := List.mem_filter.1 hz
          have := nodup_map_inj (fun e : (Member × S) × Val D F T => e.1.1.name) _ hnd z x hzg hxg hex
          subst this
          simp [isPlain, hfx.2] at hpz)
      (nodup_filter_map _ _ g hnd)
    have hres : arranged rd s (.struct (plain g)) = .struct (attrs ++ result rd (g.filter isPlain) ++
        result rd (g.filter isFlat)) := by
      simp only [arranged, hv]
      rw [arrangedMembers_plain rd sh hnames g hmem]
      unfold arrange
      rw [hattr, arrange_result rd sh hnames (fun m => !m.isAttribute && !m.isFlattened) g hmem,
        arrange_result rd sh hnames (fun m => !m.isAttribute && m.isFlattened) g hmem]
      rfl
    refine ⟨false, ?_⟩
    rw [hres]
    unfold Writer.write
    rw [hb, hh]
    have hcheck : ¬ (root = true ∧ localName (w.tag name) ≠ sh.rootName) := by
      rintro ⟨hr, hne⟩
      rw [hw.tag] at hne
      exact hne (mayLead_struct rd w s sh hv name (hroot hr))
    simp only [Reader.decode, hv, Reader.decodeStruct, if_neg hcheck, hu, hA, hM, hFl, finish,
      Bool.false_eq_true, if_false]
    rfl

theorem reads_union (rd : Reader S D F T) (w : Writer S D F T) (hw : Readable rd w) (hok : rd.Ok) (s : S)
    (sh : Shape S) (hv : rd.view s = .struct sh) (hu : sh.union = true) (m : Member × S) (v : Val D F T)
    (hm : m ∈ sh.members) (ha : m.1.isAttribute = false) (hfit : Fits rd w m v) (hr : Reads rd w m.2 v) :
    Reads rd w s (.union m.1.name v) := by
  obtain ⟨hnames, _, _⟩ := hok s sh hv
  refine ⟨?_, ?_⟩
  swap
  · intro item n hf
    simp only [FlatAt, hv] at hf
  intro name n root hroot hn
  cases n with
  | zero => have := size_pos (w.write rd s name (.union m.1.name v)); omega
  | succ n =>
    have hb : w.body rd s (w.item s) (.union m.1.name v) = w.elementsOf rd (m, v) := by
      simp only [Writer.body, hv]
      exact member_eq w rd sh hnames (m, v) hm
    have hh : w.head rd s name (.union m.1.name v) = ⟨w.tag name, [], []⟩ := rfl
    have hsz : sizes (w.elementsOf rd (m, v)) ≤ n := by
      unfold Writer.write at hn
      rw [hb, size] at hn
      omega
    have hres := resolve_member rd hok s sh hv m hm ha
    have hcheck : ¬ (root = true ∧ localName (w.tag name) ≠ sh.rootName) := by
      rintro ⟨hr, hne⟩
      rw [hw.tag] at hne
      exact hne (mayLead_struct rd w s sh hv name (hroot hr))
    have har : arranged rd s (.union m.1.name v) = .union m.1.name (arranged rd m.2 v) := by
      simp only [arranged, hv, named_of_mem sh hnames m hm]
    refine ⟨false, ?_⟩
    rw [har]
    unfold Writer.write
    rw [hb, hh]
    simp only [Reader.decode, hv, Reader.decodeStruct, if_neg hcheck, hu, readAttributes_nil]
    by_cases hf : m.1.isFlattened = true
    · have he : w.elementsOf rd (m, v) = w.body rd m.2 (elementName m.1) v := by
        simp [Writer.elementsOf, ha, hf]
      rw [he] at hsz ⊢
      obtain ⟨h1, h2, h3⟩ := hr.2 (elementName m.1) n (hfit.2 ha hf) hsz
      have hF := decodeMembers_flat (fun s r e => rd.decode n false s r [e]) true sh.members false [] [] [] m
        (elementName m.1) hres hf (by simp) _ h2 h3
      rw [List.append_nil] at hF
      rw [hF]
      simp only [decodeMembers, List.nil_append, decodeFlush, h1, consume, if_true, finish]
      rfl
    · have hf' : m.1.isFlattened = false := by simpa using hf
      have he : w.elementsOf rd (m, v) = [w.write rd m.2 (elementName m.1) v] := by
        simp [Writer.elementsOf, ha, hf']
      rw [he] at hsz ⊢
      simp only [sizes] at hsz
      obtain ⟨r', hr'⟩ := hr.1 (elementName m.1) n false (by simp) (by omega)
      have hr0 := decode_false rd n false _ _ _ hr'
      simp only at hr0
      rw [hr0] at hr'
      unfold Writer.write at hr' ⊢
      simp only [decodeMembers, head_tag, hw.tag, hres, hf', Bool.false_eq_true, if_false, hr', consume, if_true,
        decodeFlush, finish, Except.map]

theorem items_name (rd : Reader S D F T) (w : Writer S D F T) (hw : Readable rd w) (s : S) (item : Text) :
    ∀ vs : List (Val D F T), ∀ e ∈ w.items rd s item vs, e.name = item
  | [] => by simp [Writer.items]
  | v :: vs => by
    intro e he
    simp only [Writer.items] at he
    rcases List.mem_cons.1 he with rfl | he
    · simp only [Elem.name, head_tag, hw.tag]
    · exact items_name rd w hw s item vs e he

theorem entries_name (rd : Reader S D F T) (w : Writer S D F T) (hw : Readable rd w) (keyTag valueTag : Text)
    (s : S) (item : Text) : ∀ es : List (Text × Val D F T),
    ∀ e ∈ w.entries rd keyTag valueTag s item es, e.name = item
  | [] => by simp [Writer.entries]
  | (k, v) :: es => by
    intro e he
    simp only [Writer.entries] at he
    rcases List.mem_cons.1 he with rfl | he
    · simp only [Elem.name, hw.tag]
    · exact entries_name rd w hw keyTag valueTag s item es e he

mutual
theorem reads (rd : Reader S D F T) (w : Writer S D F T) (hw : Readable rd w) (hok : rd.Ok)
    (had : AttributesDiffer rd) : ∀ (v : Val D F T) (s : S), Typed rd w s v → Reads rd w s v
  | .boolean _, s, h => reads_scalar rd w hw s _ (by simpa only [Typed] using h) fun _ => rfl
  | .integer _, s, h => reads_scalar rd w hw s _ (by simpa only [Typed] using h) fun _ => rfl
  | .float _, s, h => reads_scalar rd w hw s _ (by simpa only [Typed] using h) fun _ => rfl
  | .bigDecimal _, s, h => reads_scalar rd w hw s _ (by simpa only [Typed] using h) fun _ => rfl
  | .string _, s, h => reads_scalar rd w hw s _ (by simpa only [Typed] using h) fun _ => rfl
  | .blob _, s, h => reads_scalar rd w hw s _ (by simpa only [Typed] using h) fun _ => rfl
  | .timestamp _, s, h => reads_scalar rd w hw s _ (by simpa only [Typed] using h) fun _ => rfl
  | .struct kv, s, h => by
    cases hv : rd.view s <;> simp only [Typed, hv] at h
    case struct sh =>
      obtain ⟨hu, ho, ht⟩ := h
      obtain ⟨g, rfl, hg⟩ := reads_members rd w hw hok had kv sh ht
      exact reads_struct rd w hw hok had s sh hv hu g ho hg
  | .union k v, s, h => by
    cases hv : rd.view s <;> simp only [Typed, hv] at h
    case struct sh =>
      obtain ⟨hu, m, hm, hk, ha, hf, ht⟩ := h
      rw [← hk]
      exact reads_union rd w hw hok s sh hv hu m v hm ha hf (reads rd w hw hok had v m.2 ht)
  | .list vs, s, h => by
    cases hv : rd.view s <;> simp only [Typed, hv] at h
    case list s' =>
      have hi := reads_items rd w hw hok had vs s' h
      refine ⟨?_, ?_⟩
      · intro name n root hroot hn
        unfold Writer.write at hn ⊢
        have hb : w.body rd s (w.item s) (.list vs) = w.items rd s' (w.item s) vs := by
          simp only [Writer.body, hv]
        rw [hb, size] at hn
        rw [hb]
        cases n with
        | zero => omega
        | succ n =>
          obtain ⟨r', hr'⟩ := hi (w.item s) n root [] (fun hr => mayLead_list rd w s s' hv name (hroot hr)) (fun e he => by
            have := size_mem _ e he; omega)
          refine ⟨r', ?_⟩
          simp only [Reader.decode, hv, Bool.false_eq_true, if_false, hr', Except.map, List.nil_append, arranged]
      · intro item n hf hn
        simp only [FlatAt, hv] at hf
        have hb : w.body rd s item (.list vs) = w.items rd s' item vs := by
          simp only [Writer.body, hv]
        rw [hb] at hn ⊢
        have hlen := sizes_length (w.items rd s' item vs)
        refine ⟨?_, ?_, items_name rd w hw s' item vs⟩
        · cases n with
          | zero => omega
          | succ n =>
            obtain ⟨r', hr'⟩ := hi item n true [] (fun _ => hf.2) (fun e he => by
              have := size_mem _ e he; omega)
            simp only [Reader.decode, hv, if_true, hr', Except.map, List.nil_append, arranged]
        · cases vs with
          | nil => exact absurd rfl hf.1
          | cons v vs => simp [Writer.items]
  | .map es, s, h => by
    cases hv : rd.view s <;> simp only [Typed, hv] at h
    case map keyTag valueTag s' =>
      obtain ⟨hkv, hnd, h⟩ := h
      have hi := reads_entries rd w hw hok had es s' h
      refine ⟨?_, ?_⟩
      · intro name n root hroot hn
        unfold Writer.write at hn ⊢
        have hb : w.body rd s (w.item s) (.map es) = w.entries rd keyTag valueTag s' (w.item s) es := by
          simp only [Writer.body, hv]
        rw [hb, size] at hn
        rw [hb]
        cases n with
        | zero => omega
        | succ n =>
          obtain ⟨r', hr'⟩ := hi keyTag valueTag hkv (w.item s) n root []
            (fun hr => mayLead_map rd w s s' keyTag valueTag hv name (hroot hr)) (fun e he => by
            have := size_mem _ e he; omega) (by simp) hnd
          refine ⟨r', ?_⟩
          simp only [Reader.decode, hv, Bool.false_eq_true, if_false, hr', Except.map, List.nil_append, arranged]
      · intro item n hf hn
        simp only [FlatAt, hv] at hf
        have hb : w.body rd s item (.map es) = w.entries rd keyTag valueTag s' item es := by
          simp only [Writer.body, hv]
        rw [hb] at hn ⊢
        have hlen := sizes_length (w.entries rd keyTag valueTag s' item es)
        refine ⟨?_, ?_, entries_name rd w hw keyTag valueTag s' item es⟩
        · cases n with
          | zero => omega
          | succ n =>
            obtain ⟨r', hr'⟩ := hi keyTag valueTag hkv item n true [] (fun _ => hf.2) (fun e he => by
              have := size_mem _ e he; omega) (by simp) hnd
            simp only [Reader.decode, hv, if_true, hr', Except.map, List.nil_append, arranged]
        · cases es with
          | nil => exact absurd rfl hf.1
          | cons e es => obtain ⟨k, v⟩ := e; simp [Writer.entries]
termination_by structural v => v
theorem reads_members (rd : Reader S D F T) (w : Writer S D F T) (hw : Readable rd w) (hok : rd.Ok)
    (had : AttributesDiffer rd) : ∀ (kv : List (Text × Val D F T)) (sh : Shape S), TypedMembers rd w sh kv →
    ∃ g : Given S D F T, kv = plain g ∧
      ∀ x ∈ g, x.1 ∈ sh.members ∧ Fits rd w x.1 x.2 ∧ Reads rd w x.1.2 x.2
  | [], _, _ => ⟨[], rfl, by simp⟩
  | (k, v) :: r, sh, h => by
    simp only [TypedMembers] at h
    obtain ⟨⟨m, hm, hk, hf, ht⟩, hr⟩ := h
    obtain ⟨g, hg1, hg2⟩ := reads_members rd w hw hok had r sh hr
    have hv := reads rd w hw hok had v m.2 ht
    refine ⟨(m, v) :: g, by simp [plain, hk, hg1], ?_⟩
    intro x hx
    rcases List.mem_cons.1 hx with rfl | hx
    · exact ⟨hm, hf, hv⟩
    · exact hg2 x hx
theorem reads_items (rd : Reader S D F T) (w : Writer S D F T) (hw : Readable rd w) (hok : rd.Ok)
    (had : AttributesDiffer rd) : ∀ (vs : List (Val D F T)) (s : S), TypedItems rd w s vs →
    ∀ (item : Text) (n : Nat) (root : Bool) (acc : List (Val D F T)), (root = true → MayLead rd w s item) →
      (∀ e ∈ w.items rd s item vs, size e ≤ n) →
      ∃ root', decodeElements (fun r e => rd.decode n false s r [e]) root acc (w.items rd s item vs) =
        .ok (acc ++ arrangedItems rd s vs, root')
  | [], s, _ => fun item n root acc _ _ => ⟨root, by simp [Writer.items, decodeElements, arrangedItems]⟩
  | v :: r, s, h => by
    intro item n root acc hroot hn
    simp only [TypedItems] at h
    simp only [Writer.items] at hn ⊢
    obtain ⟨r1, hr1⟩ := (reads rd w hw hok had v s h.1).1 item n root hroot (hn _ List.mem_cons_self)
    have hagain := decode_again rd n s root _ _ r1 _ hr1 hroot
    obtain ⟨r2, hr2⟩ := reads_items rd w hw hok had r s h.2 item n r1 (acc ++ [arranged rd s v]) hagain
      fun e he => hn e (List.mem_cons_of_mem _ he)
    refine ⟨r2, ?_⟩
    unfold Writer.write at hr1
    simp only [decodeElements, hr1, hr2, arrangedItems, List.append_assoc, List.singleton_append]
theorem reads_entries (rd : Reader S D F T) (w : Writer S D F T) (hw : Readable rd w) (hok : rd.Ok)
    (had : AttributesDiffer rd) : ∀ (es : List (Text × Val D F T)) (s : S), TypedEntries rd w s es →
    ∀ (keyTag valueTag : Text), keyTag ≠ valueTag →
    ∀ (item : Text) (n : Nat) (root : Bool) (acc : List (Text × Val D F T)),
      (root = true → MayLead rd w s valueTag) →
      (∀ e ∈ w.entries rd keyTag valueTag s item es, size e ≤ n) →
      (∀ e ∈ es, e.1 ∉ acc.map Prod.fst) → (es.map Prod.fst).Nodup →
      ∃ root', decodeEntries (fun r e => rd.decode n false s r [e]) keyTag valueTag root acc
        (w.entries rd keyTag valueTag s item es) = .ok (acc ++ arrangedEntries rd s es, root')
  | [], s, _ => fun _ _ _ _ _ root _ _ _ _ _ => ⟨root, by simp [Writer.entries, decodeEntries, arrangedEntries]⟩
  | (k, v) :: r, s, h => by
    intro keyTag valueTag hkv item n root acc hroot hn hfresh hnd
    simp only [TypedEntries] at h
    simp only [Writer.entries] at hn ⊢
    rw [List.map_cons, List.nodup_cons] at hnd
    have hsz := hn _ List.mem_cons_self
    simp only [size, sizes] at hsz
    obtain ⟨r1, hr1⟩ := (reads rd w hw hok had v s h.1).1 valueTag n root hroot (by
      unfold Writer.write; rw [size]; omega)
    have hagain := decode_again rd n s root _ _ r1 _ hr1 hroot
    obtain ⟨r2, hr2⟩ := reads_entries rd w hw hok had r s h.2 keyTag valueTag hkv item n r1
      (acc ++ [(k, arranged rd s v)]) hagain
      (fun e he => hn e (List.mem_cons_of_mem _ he))
      (fun e he => by
        simp only [List.map_append, List.mem_append, List.map_cons, List.map_nil, List.mem_singleton, not_or]
        refine ⟨hfresh e (List.mem_cons_of_mem _ he), ?_⟩
        intro hek
        exact hnd.1 (List.mem_map.2 ⟨e, he, hek⟩)) hnd.2
    refine ⟨r2, ?_⟩
    unfold Writer.write at hr1
    simp only [decodeEntries, decodeEntry, head_tag, hw.tag, if_true, if_neg (Ne.symm hkv), hr1,
      put_fresh acc k _ (hfresh (k, v) List.mem_cons_self), hr2, arrangedEntries, List.append_assoc, List.singleton_append]
end

/-! ## Theorems -/

/-- What a service writes for a value of a structure or union is read as that value, whole: every attribute,
element, item and entry in it, whatever order the service writes the members in.  Partial, for there are values
that are not: with a flattened list or map that has nothing in it (`C92_empty_flattened_fails`), or whose first
item is a structure with another name than the element (`C45_flattened_structs_fails`). -/
theorem C92_partial (rd : Reader S D F T) (w : Writer S D F T) (hw : Readable rd w) (hok : rd.Ok)
    (had : AttributesDiffer rd) (s : S) (sh : Shape S) (hv : rd.view s = .struct sh) (v : Val D F T)
    (ht : Typed rd w s v) :
    rd.run [] s (events (w.write rd s (sh.xmlName.getD sh.name) v)) = .ok (arranged rd s v) := by
  rw [run_decode]
  obtain ⟨r, hr⟩ := (reads rd w hw hok had v s ht).1 (sh.xmlName.getD sh.name) _ true
    (fun _ => .struct s sh hv) (Nat.le_refl _)
  rw [hr]
  rfl

/-- Within an element, so is every value, under any name. -/
theorem C92_inside_partial (rd : Reader S D F T) (w : Writer S D F T) (hw : Readable rd w) (hok : rd.Ok)
    (had : AttributesDiffer rd) (s : S) (name : Text) (v : Val D F T) (ht : Typed rd w s v) :
    rd.inner s (w.write rd s name v) = .ok (arranged rd s v) := by
  rw [inner_decode]
  obtain ⟨r, hr⟩ := (reads rd w hw hok had v s ht).1 name _ false (by simp) (Nat.le_refl _)
  rw [hr]
  rfl

/-- Elements the client does not know, anywhere in what the service writes, make no difference. -/
theorem C92_unknown_partial (rd : Reader S D F T) (w : Writer S D F T) (hw : Readable rd w) (hok : rd.Ok)
    (had : AttributesDiffer rd) (s : S) (sh : Shape S) (hv : rd.view s = .struct sh) (v : Val D F T)
    (ht : Typed rd w s v) (e : Elem)
    (he : rd.strip s e = rd.strip s (w.write rd s (sh.xmlName.getD sh.name) v)) :
    rd.run [] s (events e) = .ok (arranged rd s v) := by
  rw [C45_skip rd hok, he, ← C45_skip rd hok]
  exact C92_partial rd w hw hok had s sh hv v ht

/-- So it is read in the wrappers of a protocol, whatever follows, if it has no attributes. -/
theorem C92_wrapped_partial (rd : Reader S D F T) (w : Writer S D F T) (hw : Readable rd w) (hok : rd.Ok)
    (had : AttributesDiffer rd) (s : S) (outer : List Head) (name : Text) (v : Val D F T) (ht : Typed rd w s v)
    (hattrs : (w.head rd s name v).attrs = []) (rest : List Ev) :
    rd.run ((outer.map fun o => localName o.tag) ++ [name]) s
      (outer.map .start ++ events (w.write rd s name v) ++ rest) = .ok (arranged rd s v) := by
  have h := C45_wrapped rd s outer (w.head rd s name v) (w.body rd s (w.item s) v) rest
  have hh : { w.head rd s name v with attrs := [] } = w.head rd s name v := by rw [← hattrs]
  simp only at hh
  rw [hh, List.map_append, List.map_cons, List.map_nil, head_tag, hw.tag] at h
  unfold Writer.write
  rw [h]
  exact C92_inside_partial rd w hw hok had s name v ht

theorem perm_attributes (rd : Reader S D F T) (sh : Shape S) (hn : (sh.members.map fun e => e.1.name).Nodup)
    (g : Given S D F T) (hg : (g.map fun x => x.1.1.name).Nodup) (hm : ∀ x ∈ g, x.1 ∈ sh.members) :
    (sh.members.filterMap fun m => if m.1.isAttribute then
      ((result rd g).lookup m.1.name).map fun v => (m.1.name, v) else none).Perm
      (result rd (g.filter fun x => x.1.1.isAttribute)) := by
  generalize hms : sh.members = ms at hn hm
  clear hms
  induction ms generalizing g with
  | nil =>
    cases g with
    | nil => simp [result]
    | cons x g => have := hm x List.mem_cons_self; simp at this
  | cons m ms ih =>
    rw [List.map_cons, List.nodup_cons] at hn
    -- the others
    have hrest := ih (g.filter fun x => decide (x.1.1.name ≠ m.1.name)) (nodup_filter_map _ _ g hg) hn.2
      (fun x hx => by
        obtain ⟨hx, hne⟩ := List.mem_filter.1 hx
        rcases List.mem_cons.1 (hm x hx) with he | he
        · rw [he] at hne; simp at hne
        · exact he)
    have hlook : ∀ m' ∈ ms, (result rd (g.filter fun x => decide (x.1.1.name ≠ m.1.name))).lookup m'.1.name =
        (result rd g).lookup m'.1.name := by
      intro m' hm'
      have hne : m'.1.name ≠ m.1.name := fun he => hn.1 (List.mem_map.2 ⟨m', hm', he⟩)
      by_cases hin : ∃ x ∈ g, x.1.1.name = m'.1.name
      · obtain ⟨x, hx, he⟩ := hin
        rw [← he, lookup_result rd g hg x hx, lookup_result rd _ (nodup_filter_map _ _ g hg) x
          (List.mem_filter.2 ⟨hx, by simpa [he] using hne⟩)]
      · rw [lookup_result_none rd g, lookup_result_none rd]
        · intro x hx he
          exact hin ⟨x, (List.mem_filter.1 hx).1, he⟩
        · intro x hx he
          exact hin ⟨x, hx, he⟩
    have hfm : (ms.filterMap fun m' => if m'.1.isAttribute then
        ((result rd (g.filter fun x => decide (x.1.1.name ≠ m.1.name))).lookup m'.1.name).map fun v => (m'.1.name, v)
        else none) = ms.filterMap fun m' => if m'.1.isAttribute then
        ((result rd g).lookup m'.1.name).map fun v => (m'.1.name, v) else none :=
      List.filterMap_congr fun m' hm' => by rw [hlook m' hm']
    rw [hfm] at hrest
    rw [List.filterMap_cons]
    by_cases hin : ∃ x ∈ g, x.1.1.name = m.1.name
    · obtain ⟨x, hx, he⟩ := hin
      have hxm : x.1 = m := by
        rcases List.mem_cons.1 (hm x hx) with h | h
        · exact h
        · exact absurd (List.mem_map.2 ⟨x.1, h, he⟩) hn.1
      obtain ⟨a, b, rfl⟩ := List.append_of_mem hx
      have hothers : ∀ y ∈ a ++ b, y.1.1.name ≠ m.1.name := by
        intro y hy hye
        rw [List.map_append, List.map_cons, List.nodup_append, List.nodup_cons] at hg
        rcases List.mem_append.1 hy with h | h
        · exact hg.2.2 _ (List.mem_map.2 ⟨y, h, rfl⟩) _ List.mem_cons_self (by rw [hye, he])
        · exact hg.2.1.1 (List.mem_map.2 ⟨y, h, by rw [hye, he]⟩)
      have hfil : (a ++ x :: b).filter (fun x => decide (x.1.1.name ≠ m.1.name)) = a ++ b := by
        rw [List.filter_append, List.filter_cons_of_neg (by simp [he]), ← List.filter_append, List.filter_eq_self]
        intro y hy
        simpa using hothers y hy
      rw [hfil] at hrest
      rw [← he, lookup_result rd _ hg x hx]
      by_cases ha : m.1.isAttribute = true
      · have hax : x.1.1.isAttribute = true := by rw [hxm]; exact ha
        simp only [ha, if_true, Option.map_some]
        have hr : (result rd ((a ++ x :: b).filter fun x => x.1.1.isAttribute)).Perm
            ((x.1.1.name, arranged rd x.1.2 x.2) :: result rd ((a ++ b).filter fun x => x.1.1.isAttribute)) := by
          rw [List.filter_append, List.filter_cons_of_pos
            (p := fun x : (Member × S) × Val D F T => x.1.1.isAttribute) hax, List.filter_append]
          unfold result
          rw [List.map_append, List.map_cons, List.map_append]
          exact List.perm_middle
        exact (List.Perm.cons _ hrest).trans hr.symm
      · have hax : ¬ x.1.1.isAttribute = true := by rw [hxm]; exact ha
        have ha' : m.1.isAttribute = false := by simpa using ha
        rw [List.filter_append, List.filter_cons_of_neg
          (p := fun x : (Member × S) × Val D F T => x.1.1.isAttribute) hax, ← List.filter_append]
        simp only [ha', Bool.false_eq_true, if_false]
        exact hrest
    · have hnone : (result rd g).lookup m.1.name = none :=
        lookup_result_none rd g _ fun x hx he => hin ⟨x, hx, he⟩
      have hself : g.filter (fun x => decide (x.1.1.name ≠ m.1.name)) = g := by
        rw [List.filter_eq_self]
        intro x hx
        simpa using fun he => hin ⟨x, hx, he⟩
      rw [hself] at hrest
      simp only [hnone, Option.map_none, ite_self]
      exact hrest

theorem perm_kinds (l : Given S D F T) :
    (l.filter (fun x => x.1.1.isAttribute) ++ l.filter isPlain ++ l.filter isFlat).Perm l := by
  induction l with
  | nil => simp
  | cons x l ih =>
    by_cases ha : x.1.1.isAttribute = true
    · rw [List.filter_cons_of_pos (p := fun x : (Member × S) × Val D F T => x.1.1.isAttribute) ha, List.filter_cons_of_neg (by simp [isPlain, ha]),
        List.filter_cons_of_neg (by simp [isFlat, ha])]
      exact List.Perm.cons _ ih
    · by_cases hf : x.1.1.isFlattened = true
      · rw [List.filter_cons_of_neg (p := fun x : (Member × S) × Val D F T => x.1.1.isAttribute) ha, List.filter_cons_of_neg (by simp [isPlain, hf]),
          List.filter_cons_of_pos (by simp [isFlat, ha, hf])]
        exact List.perm_middle.trans (List.Perm.cons _ ih)
      · rw [List.filter_cons_of_neg (p := fun x : (Member × S) × Val D F T => x.1.1.isAttribute) ha, List.filter_cons_of_pos (by simp [isPlain, ha, hf]),
          List.filter_cons_of_neg (by simp [isFlat, hf]), List.append_assoc, List.cons_append]
        rw [List.append_assoc] at ih
        exact List.perm_middle.trans (List.Perm.cons _ ih)

theorem typedMembers_given (rd : Reader S D F T) (w : Writer S D F T) (sh : Shape S) :
    ∀ kv : List (Text × Val D F T), TypedMembers rd w sh kv →
    ∃ g : Given S D F T, kv = plain g ∧ ∀ x ∈ g, x.1 ∈ sh.members
  | [], _ => ⟨[], rfl, by simp⟩
  | (k, v) :: r, h => by
    simp only [TypedMembers] at h
    obtain ⟨⟨m, hm, hk, _⟩, hr⟩ := h
    obtain ⟨g, h1, h2⟩ := typedMembers_given rd w sh r hr
    refine ⟨(m, v) :: g, by simp [plain, hk, h1], ?_⟩
    intro x hx
    rcases List.mem_cons.1 hx with rfl | hx
    · exact hm
    · exact h2 x hx

/-- Arranging a structure only changes the order of its members: it has the same members, each with the
arranged value. -/
theorem C92_arranged (rd : Reader S D F T) (w : Writer S D F T) (hok : rd.Ok) (s : S) (sh : Shape S)
    (hv : rd.view s = .struct sh) (kv : List (Text × Val D F T)) (ht : Typed rd w s (.struct kv)) :
    ∃ kv', arranged rd s (.struct kv) = .struct kv' ∧
      kv'.Perm (kv.map fun e => (e.1, match named sh e.1 with
        | some m => arranged rd m.2 e.2
        | none => e.2)) := by
  obtain ⟨hnames, _, _⟩ := hok s sh hv
  simp only [Typed, hv] at ht
  obtain ⟨_, hnd, hm⟩ := ht
  obtain ⟨g, rfl, hmem⟩ := typedMembers_given rd w sh kv hm
  have hkeys : (plain g).map Prod.fst = g.map fun x => x.1.1.name := by simp [plain]
  rw [hkeys] at hnd
  refine ⟨arrange sh (arrangedMembers rd sh (plain g)), by simp only [arranged, hv], ?_⟩
  have hmap : ∀ kv : List (Text × Val D F T), (kv.map fun e => (e.1, match named sh e.1 with
        | some m => arranged rd m.2 e.2
        | none => e.2)) = arrangedMembers rd sh kv := by
    intro kv
    induction kv with
    | nil => rfl
    | cons e kv ih => rw [List.map_cons, ih]; rfl
  rw [hmap, arrangedMembers_plain rd sh hnames g hmem]
  unfold arrange
  rw [arrange_result rd sh hnames (fun m => !m.isAttribute && !m.isFlattened) g hmem,
    arrange_result rd sh hnames (fun m => !m.isAttribute && m.isFlattened) g hmem]
  refine List.Perm.trans (List.Perm.append_right _ (List.Perm.append_right _
    (perm_attributes rd sh hnames g hnd hmem))) ?_
  have := (perm_kinds g).map fun x => (x.1.1.name, arranged rd x.1.2 x.2)
  rw [List.map_append, List.map_append] at this
  exact this

end

/-! ## The hypotheses are met -/

/-- Numbers are digits, all other numbers and times the same. -/
def exReader : Reader Nat Unit Unit Unit where
  view
    | 0 => .struct ⟨false, "Out".toList, none,
        [(⟨"name".toList, some "Name".toList, false, false⟩, 1), (⟨"items".toList, none, false, true⟩, 2),
         (⟨"id".toList, none, true, false⟩, 4), (⟨"counts".toList, none, false, false⟩, 5),
         (⟨"choice".toList, none, false, false⟩, 6), (⟨"words".toList, none, false, true⟩, 7)]⟩
    | 2 => .list 3
    | 3 => .struct ⟨false, "Item".toList, some "items".toList, [(⟨"name".toList, none, false, false⟩, 1),
        (⟨"more".toList, none, false, false⟩, 0)]⟩
    | 4 => .integer
    | 5 => .map "key".toList "value".toList 4
    | 6 => .struct ⟨true, "Choice".toList, none, [(⟨"a".toList, none, false, false⟩, 8),
        (⟨"b".toList, none, false, true⟩, 7)]⟩
    | 7 => .list 1
    | 8 => .blob
    | _ => .string
  useTimestampFormat := true
  defaultFormat := .dateTime
  int t := some (Numerals.intValue t)
  float _ := some (.finite ())
  decimal _ := some ()
  deserialize _ _ := some ()

/-- Tags in a namespace. -/
def exWriter : Writer Nat Unit Unit Unit where
  tag n := "{urn:x}".toList ++ n
  item _ := "member".toList
  int := Numerals.intText
  float _ := "1.0".toList
  decimal _ := "1.0".toList
  time _ _ := "1970-01-01T00:00:00Z".toList

theorem ex_readable : Readable exReader exWriter where
  tag _ := rfl
  int n _ := congrArg some (Numerals.intValue_intText n)
  float _ _ := rfl
  special _ _ := by
    show "1.0".toList ≠ _ ∧ "1.0".toList ≠ _ ∧ "1.0".toList ≠ _
    decide +kernel
  decimal _ _ := rfl
  time _ _ _ := rfl

theorem ex_ok : exReader.Ok := by
  intro s sh h
  match s, h with
  | 0, h =>
    cases h
    refine ⟨by decide +kernel, by decide +kernel, ?_⟩
    intro m hm hf
    simp only [List.mem_cons, List.not_mem_nil, or_false] at hm
    rcases hm with rfl | rfl | rfl | rfl | rfl | rfl <;> first | exact .inl ⟨_, rfl⟩ | cases hf
  | 3, h =>
    cases h
    refine ⟨by decide +kernel, by decide +kernel, ?_⟩
    intro m hm hf
    simp only [List.mem_cons, List.not_mem_nil, or_false] at hm
    rcases hm with rfl | rfl <;> cases hf
  | 6, h =>
    cases h
    refine ⟨by decide +kernel, by decide +kernel, ?_⟩
    intro m hm hf
    simp only [List.mem_cons, List.not_mem_nil, or_false] at hm
    rcases hm with rfl | rfl <;> first | exact .inl ⟨_, rfl⟩ | cases hf
  | 1, h => cases h
  | 2, h => cases h
  | 4, h => cases h
  | 5, h => cases h
  | 7, h => cases h
  | 8, h => cases h
  | n + 9, h => cases h

theorem ex_attributes : AttributesDiffer exReader := by
  intro s sh h
  match s, h with
  | 0, h => cases h; decide +kernel
  | 3, h => cases h; decide +kernel
  | 6, h => cases h; decide +kernel
  | 1, h => cases h
  | 2, h => cases h
  | 4, h => cases h
  | 5, h => cases h
  | 7, h => cases h
  | 8, h => cases h
  | n + 9, h => cases h

/-- A value with an attribute, two flattened lists, a list in an item of one, a map and a union, its members in no
order. -/
def exValue : Val Unit Unit Unit :=
  .struct [("words".toList, .list [.string "a".toList, .string [], .string "a".toList]),
    ("items".toList, .list [.struct [("name".toList, .string "x".toList)],
      .struct [("more".toList, .struct [("name".toList, .string "y".toList)])]]),
    ("counts".toList, .map [("k".toList, .integer (-12)), ("l".toList, .integer 0)]),
    ("id".toList, .integer 7),
    ("choice".toList, .union "b".toList (.list [.string "b".toList]))]

theorem ex_plain (m : Member × Nat) (v : Val Unit Unit Unit) (h1 : m.1.isAttribute = false)
    (h2 : m.1.isFlattened = false) : Fits exReader exWriter m v :=
  ⟨fun h => (by rw [h1] at h; cases h), fun _ h => (by rw [h2] at h; cases h)⟩

theorem ex_typed : Typed exReader exWriter 0 exValue := by
  have hstring : ∀ t : Text, Typed exReader exWriter 1 (.string t) := fun t => ⟨t, rfl⟩
  have hinteger : ∀ n : Int, Typed exReader exWriter 4 (.integer n) := fun n => ⟨n, rfl, trivial⟩
  have hlead : MayLead exReader exWriter 1 "words".toList := .scalar _ _ ⟨.string [], [], rfl⟩
  have hlead' : MayLead exReader exWriter 1 "b".toList := .scalar _ _ ⟨.string [], [], rfl⟩
  have hitems : MayLead exReader exWriter 3 "items".toList :=
    MayLead.struct (rd := exReader) (w := exWriter) 3 ⟨false, "Item".toList, some "items".toList,
      [(⟨"name".toList, none, false, false⟩, 1), (⟨"more".toList, none, false, false⟩, 0)]⟩ rfl
  refine ⟨rfl, by decide +kernel, ?_, ?_, ?_, ?_, ?_, trivial⟩
  · exact ⟨(⟨"words".toList, none, false, true⟩, 7), by simp, rfl, ⟨by simp, fun _ _ => ⟨by simp, hlead⟩⟩,
      hstring _, hstring _, hstring _, trivial⟩
  · refine ⟨(⟨"items".toList, none, false, true⟩, 2), by simp, rfl, ⟨by simp, fun _ _ => ⟨by simp, hitems⟩⟩, ?_, ?_,
      trivial⟩
    · exact ⟨rfl, by decide +kernel,
        ⟨(⟨"name".toList, none, false, false⟩, 1), by simp, rfl, ex_plain _ _ rfl rfl, hstring _⟩, trivial⟩
    · exact ⟨rfl, by decide +kernel,
        ⟨(⟨"more".toList, none, false, false⟩, 0), by simp, rfl, ex_plain _ _ rfl rfl, rfl, by decide +kernel,
          ⟨(⟨"name".toList, some "Name".toList, false, false⟩, 1), by simp, rfl, ex_plain _ _ rfl rfl, hstring _⟩,
          trivial⟩, trivial⟩
  · exact ⟨(⟨"counts".toList, none, false, false⟩, 5), by simp, rfl, ex_plain _ _ rfl rfl, by decide +kernel,
      by decide +kernel, hinteger _, hinteger _, trivial⟩
  · exact ⟨(⟨"id".toList, none, true, false⟩, 4), by simp, rfl, ⟨fun _ => ⟨⟨7, rfl, trivial⟩, by simp⟩, by simp⟩, hinteger _⟩
  · exact ⟨(⟨"choice".toList, none, false, false⟩, 6), by simp, rfl, ex_plain _ _ rfl rfl, rfl,
      (⟨"b".toList, none, false, true⟩, 7), by simp, rfl, rfl, ⟨by simp, fun _ _ => ⟨by simp, hlead'⟩⟩, hstring _,
      trivial⟩

example : exReader.run [] 0 (events (exWriter.write exReader 0 "Out".toList exValue)) =
    .ok (arranged exReader 0 exValue) :=
  C92_partial exReader exWriter ex_readable ex_ok ex_attributes 0 _ rfl exValue ex_typed

/-- What is read: the attribute first, the flattened lists last. -/
example : arranged exReader 0 exValue = .struct [("id".toList, .integer 7),
    ("counts".toList, .map [("k".toList, .integer (-12)), ("l".toList, .integer 0)]),
    ("choice".toList, .union "b".toList (.list [.string "b".toList])),
    ("words".toList, .list [.string "a".toList, .string [], .string "a".toList]),
    ("items".toList, .list [.struct [("name".toList, .string "x".toList)],
      .struct [("more".toList, .struct [("name".toList, .string "y".toList)])]])] := rfl

example := C92_inside_partial exReader exWriter ex_readable ex_ok ex_attributes 0 "Other".toList exValue ex_typed
example := C92_arranged exReader exWriter ex_ok 0 _ rfl _ ex_typed
example := C92_unknown_partial exReader exWriter ex_readable ex_ok ex_attributes 0 _ rfl
  (.struct [("name".toList, .string "n".toList)])
  ⟨rfl, by decide +kernel, ⟨(⟨"name".toList, some "Name".toList, false, false⟩, 1), by simp, rfl,
    ex_plain _ _ rfl rfl, ⟨_, rfl⟩⟩, trivial⟩
  (.mk ⟨"{urn:x}Out".toList, [], []⟩ [node "Unknown" [leaf "Name" "m"], leaf "{urn:x}Name" "n"]) rfl
example := C92_wrapped_partial exReader exWriter ex_readable ex_ok ex_attributes 0
  [⟨"GetResponse".toList, [], []⟩] "GetResult".toList (.struct [("name".toList, .string "n".toList)])
  ⟨rfl, by decide +kernel, ⟨(⟨"name".toList, some "Name".toList, false, false⟩, 1), by simp, rfl,
    ex_plain _ _ rfl rfl, ⟨_, rfl⟩⟩, trivial⟩ rfl [.start ⟨"ResponseMetadata".toList, [], []⟩]

/-! ## What does not hold -/

/-- One could expect that a service can also send an empty flattened list.  There is nothing it can write for
it: the structure is the same with and without the member, and is read without. -/
theorem C92_empty_flattened_fails :
    exWriter.write exReader 0 "Out".toList (.struct [("words".toList, .list [])]) =
      exWriter.write exReader 0 "Out".toList (.struct []) ∧
    exReader.run [] 0 (events (exWriter.write exReader 0 "Out".toList (.struct [("words".toList, .list [])]))) =
      .ok (.struct []) := by
  refine ⟨rfl, ?_⟩
  rw [run_decode]
  rfl

/-- One could expect the attributes of the outermost element to be read in the wrappers of a protocol too.  They
are not: the opening of the wrappers has taken the element, and what is taken before has no attributes. -/
theorem C92_wrapped_attributes_fails :
    exReader.run [] 0 (events (exWriter.write exReader 0 "Out".toList (.struct [("id".toList, .integer 7)]))) =
      .ok (.struct [("id".toList, .integer 7)]) ∧
    exReader.run ["Out".toList] 0
      (events (exWriter.write exReader 0 "Out".toList (.struct [("id".toList, .integer 7)]))) = .ok (.struct []) := by
  refine ⟨?_, ?_⟩
  · rw [run_decode]
    rfl
  · have h := C45_wrapped exReader 0 [] ⟨"{urn:x}Out".toList, [("{urn:x}id".toList, "7".toList)], []⟩ [] []
    rw [List.append_nil] at h
    refine Eq.trans h ?_
    rw [inner_decode]
    rfl

end Verif.Xml.RoundTrip

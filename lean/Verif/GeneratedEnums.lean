import Verif.Generated.Structures
import Verif.Types.Enums

/-!
# The enums that are generated (C134)

Models what is written for the enums of a model, `EnumGenerator` and `IntEnumGenerator` (EnumGenerator.java:38-60,
IntEnumGenerator.java:38-60 with `toMemberName`, PythonSymbolProvider.java:138-155), and what Python makes of the
class that is written: the names that it changes in bodies of classes (private names, section 6.2.1 of the language
reference), `_EnumDict` and `EnumType.__new__` (CPython 3.11 enum.py:48-91, 234-350, 353-466, 485-540).  What the class
does with values is C95.

Simplifications: values are given as Python reads them from the literals that are written (C112), documentation is left
out, as it is an expression on its own or `__doc__`, names are ASCII, and `CaseUtils.toSnakeCase` of the Smithy library
is a parameter.
-/

set_option autoImplicit false

namespace Verif.GeneratedEnums

open Verif.Types.Enums (Data MemberType EnumClass Inst Obj nativeEq OfType)

abbrev Text := List Char

/-! ## Model -/

/-- An enum of a model: the name of its class, whether its values are texts or whole numbers, and its members with the
values of their trait `enumValue`. -/
structure Shape where
  name : Text
  type : MemberType
  members : List (Text × Data)

/-- `toMemberName` for members of enums (PythonSymbolProvider.java:143-154); such a member is no message of an error, as
its container is none (CodegenUtils.java:127-130). -/
def memberName (snake : Text → Text) (n : Text) : Text :=
  (if Generated.reserved.contains (snake n) then snake n ++ ['_'] else snake n).map Char.toUpper

/-- The assignments in the body of the class, in order (EnumGenerator.java:49-52, IntEnumGenerator.java:49-52). -/
def body (snake : Text → Text) (s : Shape) : List (Text × Data) :=
  s.members.map fun m => (memberName snake m.1, m.2)

/-- Private names of a class: Python puts the name of the class in front of names in its body that begin with two
underscores and do not end with two. -/
def mangle (cls key : Text) : Text :=
  if ['_', '_'].isPrefixOf key && !(['_', '_'].isSuffixOf key) && !(cls.dropWhile (· == '_')).isEmpty then
    '_' :: cls.dropWhile (· == '_') ++ key
  else key

/-- `_is_dunder` (enum.py:48-57). -/
def isDunder (k : Text) : Bool :=
  decide (4 < k.length) && ['_', '_'].isPrefixOf k && ['_', '_'].isSuffixOf k && k[2]? != some '_' &&
    k[k.length - 3]? != some '_'

/-- `_is_sunder` (enum.py:59-68). -/
def isSunder (k : Text) : Bool :=
  decide (2 < k.length) && ['_'].isPrefixOf k && ['_'].isSuffixOf k && k[1]? != some '_' &&
    k[k.length - 2]? != some '_'

/-- `_is_private` (enum.py:79-91); its third condition compares a text with a list, and always holds. -/
def isPrivate (cls k : Text) : Bool :=
  decide (('_' :: cls ++ ['_', '_']).length < k.length) && ('_' :: cls ++ ['_', '_']).isPrefixOf k &&
    !(['_', '_'].isSuffixOf k)

/-- Why there is no class. -/
inductive Failure where
  /-- `ValueError`: a name with an underscore on both sides. -/
  | reserved
  /-- `TypeError`: a name that is already there. -/
  | twice
  /-- `ValueError`: the names `mro` and `''`. -/
  | invalid
  /-- One of the names that `Enum` gives a meaning (enum.py:388-392); that meaning is not modelled. -/
  | hook
  deriving DecidableEq, Repr

/-- `_EnumDict` (enum.py:353-365): what was assigned, `none` for what is neither text nor number, and the names of
members. -/
structure Dict where
  items : List (Text × Option Data)
  members : List Text

/-- The names that `Enum` gives a meaning (enum.py:388-392). -/
def hooks : List Text :=
  ["_order_", "_generate_next_value_", "_numeric_repr_", "_missing_", "_ignore_", "_iter_member_", "_iter_member_by_value_",
    "_iter_member_by_def_"].map String.toList

/-- Assignment of an item of a `dict`. -/
def put (k : Text) (v : Option Data) : List (Text × Option Data) → List (Text × Option Data)
  | [] => [(k, v)]
  | (a, w) :: r => if a = k then (k, v) :: r else (a, w) :: put k v r

/-- `_EnumDict.__setitem__` (enum.py:367-466) for texts and numbers.  `_ignore` is empty, as only a hook fills it. -/
def setItem (cls : Text) (d : Dict) (key : Text) (v : Data) : Except Failure Dict :=
  if isPrivate cls key then .ok { d with items := put key (some v) d.items }
  else if isSunder key then .error (if hooks.contains key then .hook else .reserved)
  else if isDunder key then
    if key = "__order__".toList then .error .hook else .ok { d with items := put key (some v) d.items }
  else if d.members.contains key then .error .twice
  else if (d.items.map Prod.fst).contains key then .error .twice
  else .ok ⟨put key (some v) d.items, d.members ++ [key]⟩

/-- What is there before the first assignment: `__prepare__` (enum.py:485-497), and what Python puts into the body of
every class. -/
def start : Dict :=
  ⟨[("_generate_next_value_".toList, none), ("__module__".toList, none), ("__qualname__".toList, none)], []⟩

/-- The body of the class run. -/
def runBody (cls : Text) : Dict → List (Text × Data) → Except Failure Dict
  | d, [] => .ok d
  | d, (k, v) :: r =>
    match setItem cls d (mangle cls k) v with
    | .ok d' => runBody cls d' r
    | .error e => .error e

/-- The class while its members are made: values of members in order, their names, and the names of all members and
aliases with the position of the member that they stand for. -/
structure Made where
  values : List Data
  names : List Text
  byName : List (Text × Nat)

/-- `_proto_member.__set_name__` (enum.py:234-350): a member with a value that is there already is an alias.  No base has
attributes with names in capitals. -/
def addMember (m : Made) (k : Text) (v : Data) : Made :=
  match m.values.findIdx? (nativeEq · v) with
  | some i => { m with byName := m.byName ++ [(k, i)] }
  | none => ⟨m.values ++ [v], m.names ++ [k], m.byName ++ [(k, m.values.length)]⟩

/-- The members are made in the order of the items (enum.py:537-540). -/
def addMembers (members : List Text) : Made → List (Text × Option Data) → Made
  | m, [] => m
  | m, (k, some v) :: r => addMembers members (if members.contains k then addMember m k v else m) r
  | m, (_, none) :: r => addMembers members m r

/-- A class: what C95 needs of it, the names of its members in order, what names stand for, and all that was assigned. -/
structure Class where
  enum : EnumClass
  names : List Text
  byName : List (Text × Nat)
  items : List (Text × Option Data)

/-- `EnumType.__new__` (enum.py:499-540); `cls` numbers the class. -/
def newClass (cls : Nat) (type : MemberType) (d : Dict) : Except Failure Class :=
  if d.members.contains [] || d.members.contains "mro".toList then .error .invalid
  else
    .ok ⟨⟨cls, type, (addMembers d.members ⟨[], [], []⟩ d.items).values⟩,
      (addMembers d.members ⟨[], [], []⟩ d.items).names, (addMembers d.members ⟨[], [], []⟩ d.items).byName, d.items⟩

/-- Importing the module that has the generated class. -/
def define (snake : Text → Text) (cls : Nat) (s : Shape) : Except Failure Class :=
  match runBody s.name start (body snake s) with
  | .ok d => newClass cls s.type d
  | .error e => .error e

/-- `Cls.NAME`, outside of the class. -/
def Class.attr (c : Class) (k : Text) : Option Obj :=
  match c.byName.lookup k with
  | some i => (c.enum.values[i]?).map fun v => .inst (c.enum.member i v)
  | none =>
    match c.items.lookup k with
    | some (some v) => some (.plain v)
    | _ => none

/-! ## Specification -/

/-- The words that a name gets an underscore for. -/
def words : List Text :=
  ["and", "as", "assert", "async", "await", "bool", "break", "bytearray", "bytes", "class", "continue", "datetime", "def",
    "del", "dict", "elif", "else", "except", "finally", "float", "for", "from", "global", "if", "import", "in", "int", "is",
    "lambda", "list", "nonlocal", "not", "or", "pass", "raise", "return", "str", "try", "while", "with", "yield"].map
    String.toList

/-- The keywords of Python. -/
def keywords : List Text :=
  ["False", "None", "True", "and", "as", "assert", "async", "await", "break", "class", "continue", "def", "del", "elif",
    "else", "except", "finally", "for", "from", "global", "if", "import", "in", "is", "lambda", "nonlocal", "not", "or",
    "pass", "raise", "return", "try", "while", "with", "yield"].map String.toList

/-- The name of a member in Python: its name in snake case, an underscore if that is a word of the list, in capitals. -/
def NamedAs (snake : Text → Text) (n k : Text) : Prop :=
  (snake n ∈ words ∧ k = (snake n ++ ['_']).map Char.toUpper) ∨ (snake n ∉ words ∧ k = (snake n).map Char.toUpper)

/-- Names that neither Python nor `Enum` gives a meaning: they do not begin with two underscores, have no underscores
on both sides and do not begin with the name of the class between one underscore and two. -/
structure Usual (cls k : Text) : Prop where
  twofold : ¬ ['_', '_'] <+: k
  sides : ¬ (['_'] <+: k ∧ ['_'] <:+ k)
  own : ¬ ('_' :: cls ++ ['_', '_']) <+: k

/-- Enums of models that are valid, with names as usual. -/
structure Valid (snake : Text → Text) (s : Shape) : Prop where
  some_member : s.members ≠ []
  texts : s.type = .str → ∀ m ∈ s.members, ∃ t, m.2 = .str t
  numbers : s.type = .int → ∀ m ∈ s.members, ∃ n, m.2 = .int n
  distinct : (s.members.map Prod.snd).Nodup
  /-- Snake case leaves something of each name. -/
  named : ∀ m ∈ s.members, snake m.1 ≠ []
  usual : ∀ m ∈ s.members, ∀ k, NamedAs snake m.1 k → Usual s.name k

/-! ## Lemmas -/

theorem namedAs (snake : Text → Text) (n : Text) : NamedAs snake n (memberName snake n) := by
  have h : ∀ w : Text, Generated.reserved.contains w = true ↔ w ∈ words := by
    intro w
    rw [List.contains_iff_mem]
    have h1 : ∀ x ∈ Generated.reserved, x ∈ words := by decide +kernel
    have h2 : ∀ x ∈ words, x ∈ Generated.reserved := by decide +kernel
    exact ⟨h1 w, h2 w⟩
  unfold memberName NamedAs
  by_cases hw : Generated.reserved.contains (snake n) = true
  · rw [if_pos hw]
    exact .inl ⟨(h _).1 hw, rfl⟩
  · rw [if_neg hw]
    exact .inr ⟨fun x => hw ((h _).2 x), rfl⟩

theorem namedAs_unique {snake : Text → Text} {n k : Text} (h : NamedAs snake n k) : k = memberName snake n := by
  rcases h with ⟨h1, h2⟩ | ⟨h1, h2⟩ <;> rcases namedAs snake n with ⟨g1, g2⟩ | ⟨g1, g2⟩
  · rw [h2, g2]
  · exact absurd h1 g1
  · exact absurd g1 h1
  · rw [h2, g2]

theorem toUpper_not_lower (c : Char) : c.toUpper.isLower = false := by
  unfold Char.toUpper Char.isLower
  split
  · rename_i h
    obtain ⟨h1, h2⟩ := h
    rw [UInt32.le_iff_toNat_le] at h1 h2
    have ha : 'a'.val.toNat = 97 := rfl
    have hz : 'z'.val.toNat = 122 := rfl
    have hd : ('A'.val - 'a'.val).toNat = 4294967264 := rfl
    rw [Bool.eq_false_iff]
    intro hb
    simp only [ge_iff_le, Bool.and_eq_true, decide_eq_true_eq, UInt32.le_iff_toNat_le, UInt32.toNat_add] at hb
    omega
  · rename_i h
    rw [Bool.eq_false_iff]
    intro hb
    simp only [ge_iff_le, Bool.and_eq_true, decide_eq_true_eq] at hb
    exact h hb

theorem memberName_lower (snake : Text → Text) (n : Text) : (memberName snake n).any Char.isLower = false := by
  rw [List.any_eq_false]
  intro c hc
  obtain ⟨x, _, rfl⟩ := List.mem_map.1 hc
  simp [toUpper_not_lower]

theorem memberName_ne_nil {snake : Text → Text} {n : Text} (h : snake n ≠ []) : memberName snake n ≠ [] := by
  unfold memberName
  intro he
  have := List.map_eq_nil_iff.1 he
  by_cases hw : Generated.reserved.contains (snake n) = true
  · rw [if_pos hw] at this
    simp at this
  · rw [if_neg hw] at this
    exact h this

theorem mangle_usual {cls k : Text} (h : Usual cls k) : mangle cls k = k := by
  unfold mangle
  have : ['_', '_'].isPrefixOf k = false := by
    rw [Bool.eq_false_iff]
    exact fun x => h.twofold (List.isPrefixOf_iff_prefix.1 x)
  rw [this]
  rfl

theorem private_usual {cls k : Text} (h : Usual cls k) : isPrivate cls k = false := by
  unfold isPrivate
  have : ('_' :: cls ++ ['_', '_']).isPrefixOf k = false := by
    rw [Bool.eq_false_iff]
    exact fun x => h.own (List.isPrefixOf_iff_prefix.1 x)
  rw [this, Bool.and_false, Bool.false_and]

theorem dunder_usual {cls k : Text} (h : Usual cls k) : isDunder k = false := by
  unfold isDunder
  have : ['_', '_'].isPrefixOf k = false := by
    rw [Bool.eq_false_iff]
    exact fun x => h.twofold (List.isPrefixOf_iff_prefix.1 x)
  rw [this]
  simp

theorem sunder_usual {cls k : Text} (h : Usual cls k) : isSunder k = false := by
  unfold isSunder
  have : (['_'].isPrefixOf k && ['_'].isSuffixOf k) = false := by
    rw [Bool.eq_false_iff]
    intro x
    rw [Bool.and_eq_true] at x
    exact h.sides ⟨List.isPrefixOf_iff_prefix.1 x.1, List.isSuffixOf_iff_suffix.1 x.2⟩
  rw [Bool.and_assoc (decide _), this]
  simp

theorem setItem_usual {cls k : Text} (h : Usual cls k) (d : Dict) (v : Data) :
    setItem cls d k v =
      if d.members.contains k then .error .twice
      else if (d.items.map Prod.fst).contains k then .error .twice
      else .ok ⟨put k (some v) d.items, d.members ++ [k]⟩ := by
  unfold setItem
  rw [private_usual h, sunder_usual h, dunder_usual h]
  rfl

theorem put_fresh (k : Text) (v : Option Data) : ∀ l : List (Text × Option Data), k ∉ l.map Prod.fst →
    put k v l = l ++ [(k, v)] := by
  intro l
  induction l with
  | nil => intro _; rfl
  | cons x r ih =>
    obtain ⟨a, w⟩ := x
    intro h
    have h1 : ¬ a = k := fun e => h (by simp [e])
    have h2 : k ∉ r.map Prod.fst := fun e => h (by simp only [List.map_cons, List.mem_cons]; exact .inr e)
    rw [put, if_neg h1, ih h2]
    rfl

/-- The body run on from members that are there. -/
theorem runBody_usual (cls : Text) (r : List (Text × Data)) : ∀ (done : List (Text × Data)),
    (∀ x ∈ r, Usual cls x.1 ∧ x.1.any Char.isLower = false) →
    (done.map Prod.fst).Nodup →
    runBody cls ⟨start.items ++ done.map (fun x => (x.1, some x.2)), done.map Prod.fst⟩ r =
      if ((done ++ r).map Prod.fst).Nodup then
        .ok ⟨start.items ++ (done ++ r).map (fun x => (x.1, some x.2)), (done ++ r).map Prod.fst⟩
      else .error .twice := by
  induction r with
  | nil =>
    intro done _ hn
    rw [List.append_nil, if_pos hn]
    rfl
  | cons x r ih =>
    obtain ⟨k, v⟩ := x
    intro done h hn
    obtain ⟨hu, hl⟩ := h (k, v) List.mem_cons_self
    have hseed : k ∉ start.items.map Prod.fst := by
      have : ∀ s ∈ start.items.map Prod.fst, s.any Char.isLower = true := by decide +kernel
      intro hk
      have := this k hk
      rw [hl] at this
      cases this
    have hkeys : (start.items ++ done.map (fun x => (x.1, some x.2))).map Prod.fst =
        start.items.map Prod.fst ++ done.map Prod.fst := by
      simp [List.map_append, List.map_map, Function.comp_def]
    rw [runBody, mangle_usual hu, setItem_usual hu]
    dsimp only
    by_cases hm : k ∈ done.map Prod.fst
    · rw [if_pos (List.contains_iff_mem.2 hm)]
      rw [if_neg]
      intro hd
      rw [List.map_append, List.nodup_append] at hd
      exact hd.2.2 k hm k (by simp) rfl
    · rw [if_neg (by rw [List.contains_iff_mem]; exact hm), hkeys,
        if_neg (by rw [List.contains_iff_mem, List.mem_append]; rintro (a | a); exacts [hseed a, hm a])]
      dsimp only
      rw [put_fresh _ _ _ (by rw [hkeys, List.mem_append]; rintro (a | a); exacts [hseed a, hm a])]
      have hnext : ((done ++ [(k, v)]).map Prod.fst).Nodup := by
        rw [List.map_append, List.nodup_append]
        refine ⟨hn, by simp, ?_⟩
        intro a ha b hb e
        simp only [List.map_cons, List.map_nil, List.mem_singleton] at hb
        subst hb
        subst e
        exact hm ha
      have := ih (done ++ [(k, v)]) (fun x hx => h x (List.mem_cons_of_mem _ hx)) hnext
      simp only [List.map_append, List.map_cons, List.map_nil, List.append_assoc] at this ⊢
      exact this

/-- The members made of items that are all members, with values that differ. -/
theorem addMembers_fresh (members : List Text) (r : List (Text × Data)) : ∀ (done : List (Text × Data)),
    (∀ x ∈ r, x.1 ∈ members) → (∀ x ∈ done ++ r, Types.Enums.Plain x.2) → ((done ++ r).map Prod.snd).Nodup →
    addMembers members ⟨done.map Prod.snd, done.map Prod.fst, (done.map Prod.fst).zipIdx⟩
        (r.map fun x => (x.1, some x.2)) =
      ⟨(done ++ r).map Prod.snd, (done ++ r).map Prod.fst, ((done ++ r).map Prod.fst).zipIdx⟩ := by
  induction r with
  | nil => intro done _ _ _; simp [addMembers]
  | cons x r ih =>
    obtain ⟨k, v⟩ := x
    intro done hm hp hn
    have hnone : (done.map Prod.snd).findIdx? (nativeEq · v) = none := by
      rw [List.findIdx?_eq_none_iff]
      intro w hw
      rw [Bool.eq_false_iff]
      intro he
      obtain ⟨y, hy, rfl⟩ := List.mem_map.1 hw
      have := (Types.Enums.nativeEq_iff (hp y (List.mem_append_left _ hy)) (hp (k, v) (by simp))).1 he
      rw [List.map_append, List.nodup_append] at hn
      exact hn.2.2 y.2 hw v (by simp) this
    have hk : members.contains k = true := List.contains_iff_mem.2 (hm (k, v) List.mem_cons_self)
    rw [List.map_cons, addMembers, if_pos hk, addMember, hnone]
    dsimp only
    have := ih (done ++ [(k, v)]) (fun x hx => hm x (List.mem_cons_of_mem _ hx))
      (by intro x hx; exact hp x (by simpa using hx)) (by simpa using hn)
    simp only [List.map_append, List.map_cons, List.map_nil, List.append_assoc, List.zipIdx_append, List.zipIdx_cons,
      List.zipIdx_nil, List.length_map, Nat.zero_add] at this ⊢
    exact this

theorem lookup_zipIdx {l : List Text} (hn : l.Nodup) : ∀ (i j : Nat) (k : Text), l[i]? = some k →
    (l.zipIdx j).lookup k = some (j + i) := by
  induction l with
  | nil => intro i j k h; simp at h
  | cons a r ih =>
    intro i j k h
    rw [List.nodup_cons] at hn
    cases i with
    | zero =>
      simp only [List.getElem?_cons_zero, Option.some.injEq] at h
      subst h
      simp [List.zipIdx_cons]
    | succ i =>
      rw [List.getElem?_cons_succ] at h
      have hne : (k == a) = false := by
        rw [beq_eq_false_iff_ne]
        rintro rfl
        exact hn.1 (List.mem_of_getElem? h)
      rw [List.zipIdx_cons, List.lookup, hne]
      dsimp only
      rw [ih hn.2 i (j + 1) k h, Nat.add_right_comm, Nat.add_assoc]

/-! ## Properties -/

/-- The class of a valid enum, whatever the names are. -/
theorem define_eq {snake : Text → Text} {s : Shape} (hs : Valid snake s) (cls : Nat) :
    define snake cls s =
      if (s.members.map fun m => memberName snake m.1).Nodup then
        .ok ⟨⟨cls, s.type, s.members.map Prod.snd⟩, s.members.map fun m => memberName snake m.1,
          (s.members.map fun m => memberName snake m.1).zipIdx,
          start.items ++ (body snake s).map fun x => (x.1, some x.2)⟩
      else .error .twice := by
  have hfst : (body snake s).map Prod.fst = s.members.map fun m => memberName snake m.1 := by
    simp [body, Function.comp_def]
  have hsnd : (body snake s).map Prod.snd = s.members.map Prod.snd := by
    simp [body, Function.comp_def]
  have hrun := runBody_usual s.name (body snake s) [] (by
    intro x hx
    obtain ⟨m, hm, rfl⟩ := List.mem_map.1 hx
    exact ⟨hs.usual m hm _ (namedAs snake m.1), memberName_lower snake m.1⟩) (by simp)
  simp only [List.map_nil, List.append_nil, List.nil_append, hfst] at hrun
  unfold define
  have h0 : start = ⟨start.items, []⟩ := rfl
  rw [h0, hrun]
  by_cases hd : (s.members.map fun m => memberName snake m.1).Nodup
  · rw [if_pos hd, if_pos hd]
    dsimp only
    have hmade : addMembers (s.members.map fun m => memberName snake m.1) ⟨[], [], []⟩
        (start.items ++ (body snake s).map fun x => (x.1, some x.2)) =
        ⟨s.members.map Prod.snd, s.members.map fun m => memberName snake m.1,
          (s.members.map fun m => memberName snake m.1).zipIdx⟩ := by
      have h1 : ∀ (l : List (Text × Option Data)) (ms : List Text) (m : Made),
          addMembers ms m (start.items ++ l) = addMembers ms m l := fun _ _ _ => rfl
      rw [h1]
      have := addMembers_fresh (s.members.map fun m => memberName snake m.1) (body snake s) []
        (by intro x hx; rw [← hfst]; exact List.mem_map_of_mem hx)
        (by
          intro x hx
          rw [List.nil_append] at hx
          obtain ⟨m, hm, rfl⟩ := List.mem_map.1 hx
          cases ht : s.type with
          | str => obtain ⟨t, h⟩ := hs.texts ht m hm; simp only [h]; trivial
          | int => obtain ⟨t, h⟩ := hs.numbers ht m hm; simp only [h]; trivial)
        (by rw [List.nil_append, hsnd]; exact hs.distinct)
      simp only [List.map_nil, List.nil_append, List.zipIdx_nil, hfst, hsnd] at this
      exact this
    unfold newClass
    dsimp only
    rw [hmade, if_neg]
    rw [Bool.or_eq_true, List.contains_iff_mem, List.contains_iff_mem]
    rintro (h | h)
    · obtain ⟨m, hm, he⟩ := List.mem_map.1 h
      exact memberName_ne_nil (hs.named m hm) he
    · obtain ⟨m, hm, he⟩ := List.mem_map.1 h
      have := memberName_lower snake m.1
      rw [he] at this
      revert this
      decide +kernel
  · rw [if_neg hd, if_neg hd]

/-- C134, whether there is a class: a generated enum can be imported if, and only if, no two of its members have the same
name in Python, and no name is a keyword.  Names with underscores in special places are left out, see
`C134_underscores_fails`. -/
theorem C134_import_partial {snake : Text → Text} {s : Shape} (hs : Valid snake s) (cls : Nat) (names : List Text)
    (hn : List.Forall₂ (fun m k => NamedAs snake m.1 k) s.members names) :
    ((∃ c, define snake cls s = .ok c) ↔ names.Nodup) ∧ (¬ names.Nodup → define snake cls s = .error .twice) ∧
    ∀ k ∈ names, k ∉ keywords := by
  have hnames : names = s.members.map fun m => memberName snake m.1 := by
    generalize s.members = l at hn
    induction hn with
    | nil => rfl
    | cons h _ ih => rw [namedAs_unique h, ih]; rfl
  subst hnames
  rw [define_eq hs]
  refine ⟨?_, ?_, ?_⟩
  · by_cases h : (s.members.map fun m => memberName snake m.1).Nodup
    · rw [if_pos h]
      exact ⟨fun _ => h, fun _ => ⟨_, rfl⟩⟩
    · rw [if_neg h]
      exact ⟨(fun ⟨_, hc⟩ => nomatch hc), fun hc => absurd hc h⟩
  · intro h
    rw [if_neg h]
  · intro k hk hw
    obtain ⟨m, _, rfl⟩ := List.mem_map.1 hk
    have hl := memberName_lower snake m.1
    have : ∀ w ∈ keywords, w.any Char.isLower = true := by decide +kernel
    rw [this _ hw] at hl
    cases hl

/-- C134, what the class has: its members are those of the model in their order, each with its name and its value.  The
attribute with that name is the member, and the member is what the class gives for the value.  For all other values of the
type it gives instances that have the value and say that they are unknown. -/
theorem C134_members_partial {snake : Text → Text} {s : Shape} (hs : Valid snake s) (cls : Nat) (c : Class)
    (hc : define snake cls s = .ok c) :
    List.Forall₂ (fun m k => NamedAs snake m.1 k) s.members c.names ∧ c.enum.values = s.members.map Prod.snd ∧
    (∀ m ∈ s.members, ∀ k, NamedAs snake m.1 k → ∀ fresh, ∃ e, c.attr k = some (.inst e) ∧
      c.enum.make fresh (.plain m.2) = some e ∧ e.value = m.2 ∧ e.unknown = false) ∧
    (∀ d, OfType s.type d → (∀ m ∈ s.members, m.2 ≠ d) → ∀ fresh, ∃ e, c.enum.make fresh (.plain d) = some e ∧
      e.value = d ∧ e.unknown = true) := by
  rw [define_eq hs] at hc
  by_cases hd : (s.members.map fun m => memberName snake m.1).Nodup
  · rw [if_pos hd] at hc
    have hc := (Except.ok.inj hc).symm
    subst hc
    have hg : Types.Enums.Generated ⟨cls, s.type, s.members.map Prod.snd⟩ := by
      refine ⟨?_, ?_, ?_, hs.distinct⟩
      · intro h
        exact hs.some_member (List.map_eq_nil_iff.1 h)
      · intro ht v hv
        obtain ⟨m, hm, rfl⟩ := List.mem_map.1 hv
        exact hs.texts ht m hm
      · intro ht v hv
        obtain ⟨m, hm, rfl⟩ := List.mem_map.1 hv
        exact hs.numbers ht m hm
    refine ⟨?_, rfl, ?_, ?_⟩
    · generalize s.members = l
      induction l with
      | nil => exact .nil
      | cons m l ih => exact .cons (namedAs snake m.1) ih
    · intro m hm k hk fresh
      obtain ⟨i, hi⟩ := List.getElem?_of_mem hm
      have ht : OfType s.type m.2 := by
        cases ht : s.type with
        | str => obtain ⟨t, h⟩ := hs.texts ht m hm; rw [h]; trivial
        | int => obtain ⟨t, h⟩ := hs.numbers ht m hm; rw [h]; trivial
      obtain ⟨e, h1, h2, h3, h4, h5, _⟩ := Types.Enums.C95_any_value ⟨cls, s.type, s.members.map Prod.snd⟩ hg fresh m.2 ht
        (fun _ => 0)
      have hv : (s.members.map Prod.snd)[i]? = some m.2 := by rw [List.getElem?_map, hi]; rfl
      refine ⟨e, ?_, h1, h2, ?_⟩
      · unfold Class.attr
        dsimp only
        rw [namedAs_unique hk, lookup_zipIdx hd i 0 _ (by rw [List.getElem?_map, hi]; rfl)]
        dsimp only
        rw [Nat.zero_add, hv, h5 i hv]
        rfl
      · rw [Bool.eq_false_iff]
        exact fun h => h4.1 h (List.mem_map_of_mem hm)
    · intro d hdt hno fresh
      obtain ⟨e, h1, h2, _, h4, _⟩ := Types.Enums.C95_any_value ⟨cls, s.type, s.members.map Prod.snd⟩ hg fresh d hdt
        (fun _ => 0)
      refine ⟨e, h1, h2, h4.2 ?_⟩
      intro hmem
      obtain ⟨m, hm, he⟩ := List.mem_map.1 hmem
      exact hno m hm he
  · rw [if_neg hd] at hc
    cases hc

/-! ## Examples -/

/-- A snake case: underscores before capital letters that follow other letters. -/
def exampleSnake : Text → Text
  | [] => []
  | c :: r => c.toLower :: r.flatMap fun x => if x.isUpper then ['_', x.toLower] else [x]

/-- Three members, one of them named like a keyword. -/
def exampleShape : Shape :=
  ⟨"Color".toList, .str, [("darkRed".toList, .str [100, 114]), ("from".toList, .str [102]), ("_1x".toList, .str [])]⟩

theorem exampleShape_valid : Valid exampleSnake exampleShape where
  some_member := by simp [exampleShape]
  texts := by
    intro _ m hm
    simp only [exampleShape, List.mem_cons, List.not_mem_nil, or_false] at hm
    rcases hm with rfl | rfl | rfl <;> exact ⟨_, rfl⟩
  numbers := fun h => nomatch h
  distinct := by decide +kernel
  named := by decide +kernel
  usual := by
    intro m hm k hk
    rw [namedAs_unique hk]
    simp only [exampleShape, List.mem_cons, List.not_mem_nil, or_false] at hm
    rcases hm with rfl | rfl | rfl <;> refine ⟨?_, ?_, ?_⟩ <;> decide +kernel

/-- The class of that enum. -/
example : ∃ c, define exampleSnake 7 exampleShape = .ok c ∧
    c.names = ["DARK_RED".toList, "FROM_".toList, "_1X".toList] ∧
    c.enum.values = [.str [100, 114], .str [102], .str []] ∧
    c.attr "FROM_".toList = some (.inst (c.enum.member 1 (.str [102]))) := by
  refine ⟨_, define_eq exampleShape_valid 7, ?_, ?_, ?_⟩ <;> decide +kernel

/-- Names that snake case makes the same: the module cannot be imported. -/
theorem C134_same_name_fails :
    Valid exampleSnake ⟨"Color".toList, .str, [("darkRed".toList, .str [1]), ("dark_red".toList, .str [2])]⟩ ∧
    define exampleSnake 7 ⟨"Color".toList, .str, [("darkRed".toList, .str [1]), ("dark_red".toList, .str [2])]⟩ =
      .error .twice := by
  refine ⟨⟨by simp, ?_, (fun h => nomatch h), by decide +kernel, by decide +kernel, ?_⟩, ?_⟩
  · intro _ m hm
    simp only [List.mem_cons, List.not_mem_nil, or_false] at hm
    rcases hm with rfl | rfl <;> exact ⟨_, rfl⟩
  · intro m hm k hk
    rw [namedAs_unique hk]
    simp only [List.mem_cons, List.not_mem_nil, or_false] at hm
    rcases hm with rfl | rfl <;> refine ⟨?_, ?_, ?_⟩ <;> decide +kernel
  · rfl

/-- Names with underscores in special places: with one on both sides, the module cannot be imported; with two in front,
there is no member, no attribute, and the value is one that the class does not know. -/
theorem C134_underscores_fails :
    define exampleSnake 7 ⟨"Color".toList, .str, [("_red_".toList, .str [1])]⟩ = .error .reserved ∧
    ∃ c, define exampleSnake 7 ⟨"Color".toList, .str, [("__red".toList, .str [1]), ("blue".toList, .str [2])]⟩ = .ok c ∧
      c.names = ["BLUE".toList] ∧ c.attr "__RED".toList = none ∧
      c.enum.make 9 (.plain (.str [1])) = some (c.enum.unknown 9 (.str [1])) := by
  refine ⟨rfl, _, rfl, ?_, ?_, ?_⟩ <;> rfl

end Verif.GeneratedEnums

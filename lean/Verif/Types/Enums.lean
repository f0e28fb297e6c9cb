import Verif.Common
import Mathlib.Algebra.Order.Ring.Rat
import Mathlib.Tactic.Common

/-!
# Enums that know values they were not generated with (C95)

Models `UnknownEnumMixin` (smithy_core/types.py:69-124) mixed into `StrEnum` or `IntEnum` as the generated
enums are, on top of `Enum.__new__` and `Enum.__reduce_ex__` (CPython 3.11 enum.py:1095-1149, 1235-1236) and of
the rule by which Python picks the method that answers `a == b` (the right operand's first if its class is a
subclass of the left one's that overrides the method).

Simplifications: texts are lists of bytes, floats are finite and given as the rational they denote, objects of
other types than these are left out; classes and objects are numbered.
-/

set_option autoImplicit false

namespace Verif.Types.Enums

abbrev Text := List UInt8

/-! ## Model -/

/-- Plain Python values. -/
inductive Data where
  | str (t : Text)
  | int (n : Int)
  | bool (b : Bool)
  | float (q : Rat)
  deriving DecidableEq

/-- `_member_type_`. -/
inductive MemberType where
  | str
  | int
  deriving DecidableEq, Repr

/-- The value of a number; `True` is 1. -/
def Data.number : Data → Option Rat
  | .str _ => none
  | .int n => some n
  | .bool b => some (if b then 1 else 0)
  | .float q => some q

/-- `==` of plain values. -/
def nativeEq : Data → Data → Bool
  | .str a, .str b => a = b
  | a, b =>
    match a.number, b.number with
    | some x, some y => x = y
    | _, _ => false

/-- `isinstance(value, member_type)`; `bool` is a subclass of `int`. -/
def isInstance : Data → MemberType → Bool
  | .str _, .str => true
  | .int _, .int => true
  | .bool _, .int => true
  | _, _ => false

/-- An instance of an enum: class, identity, value and the two flags (types.py:85-86). -/
structure Inst where
  cls : Nat
  ident : Nat
  value : Data
  unknown : Bool
  corrected : Bool
  deriving DecidableEq

/-- An enum class: its number, data type, and the values of its members in order. -/
structure EnumClass where
  cls : Nat
  type : MemberType
  values : List Data

/-- The member at a position. -/
def EnumClass.member (c : EnumClass) (i : Nat) (v : Data) : Inst := ⟨c.cls, i, v, false, false⟩

/-- `_unknown` (types.py:88-95); `fresh` is the identity of the new object. -/
def EnumClass.unknown (c : EnumClass) (fresh : Nat) (v : Data) : Inst := ⟨c.cls, fresh, v, true, false⟩

/-- `_corrected` (types.py:97-101). -/
def EnumClass.corrected (c : EnumClass) (fresh : Nat) (v : Data) : Inst :=
  { c.unknown fresh v with corrected := true }

/-- What can be compared, and passed to an enum class. -/
inductive Obj where
  | plain (d : Data)
  | inst (e : Inst)
  deriving DecidableEq

def Obj.data : Obj → Data
  | .plain d => d
  | .inst e => e.value

/-- `getattr(other, "_smithy_corrected", False)` (types.py:110). -/
def Obj.isCorrected : Obj → Bool
  | .plain _ => false
  | .inst e => e.corrected

/-- `__eq__` (types.py:109-112) where it gives a truth value; `NotImplemented`, for values of unrelated
types, ends in `False`, as only different objects get so far. -/
def Inst.eq (e : Inst) (other : Obj) : Bool :=
  if e.corrected || other.isCorrected then Obj.inst e = other
  else nativeEq e.value other.data

/-- `a == b`. -/
def pyEq : Obj → Obj → Bool
  | .inst e, o => e.eq o
  | .plain d, .plain d' => nativeEq d d'
  | .plain d, .inst e =>
    match d, e.value with
    /- the class of `e` is a subclass of that of `d` -/
    | .str _, .str _ | .int _, .int _ | .int _, .bool _ => e.eq (.plain d)
    | _, _ => nativeEq d e.value

/-- `a != b` (types.py:114-116 and the same rule). -/
def pyNe (a b : Obj) : Bool := !pyEq a b

/-- `hash` (types.py:118-119): that of the value, a parameter. -/
def pyHash (hash : Data → Int) (o : Obj) : Int := hash o.data

/-- The reverse mapping looked up: the stored value is the left operand (enum.py:1105). -/
def EnumClass.find (c : EnumClass) (o : Obj) : Option Inst :=
  match c.values.zipIdx.find? (fun x => pyEq (.plain x.1) o) with
  | some (v, i) => some (c.member i v)
  | none => none

/-- `cls(value)` (enum.py:1095-1149 with `_missing_`, types.py:103-107); `none` is a `ValueError`.  An unknown
object keeps as its value what it was made from. -/
def EnumClass.make (c : EnumClass) (fresh : Nat) (o : Obj) : Option Inst :=
  match o with
  | .inst e =>
    if e.cls = c.cls then some e
    else
      match c.find o with
      | some m => some m
      | none => if isInstance e.value c.type then some (c.unknown fresh e.value) else none
  | .plain d =>
    match c.find o with
    | some m => some m
    | none => if isInstance d c.type then some (c.unknown fresh d) else none

/-- Pickling and loading again: `__reduce_ex__` (enum.py:1235-1236) gives class and value. -/
def EnumClass.pickled (c : EnumClass) (fresh : Nat) (e : Inst) : Option Inst := c.make fresh (.plain e.value)

/-! ## Specification -/

/-- Enums as they are generated: at least one member, values of the data type, no two the same. -/
structure Generated (c : EnumClass) : Prop where
  some_member : c.values ≠ []
  texts : c.type = .str → ∀ v ∈ c.values, ∃ t, v = .str t
  numbers : c.type = .int → ∀ v ∈ c.values, ∃ n, v = .int n
  distinct : c.values.Nodup

/-- Texts and whole numbers. -/
def Plain : Data → Prop
  | .str _ | .int _ => True
  | _ => False

/-- Plain values and instances of enums over them. -/
def Ordinary (o : Obj) : Prop := Plain o.data

/-- The values of the data type of an enum. -/
def OfType : MemberType → Data → Prop
  | .str, .str _ => True
  | .int, .int _ => True
  | _, _ => False

/-! ## Lemmas -/

theorem nativeEq_iff {a b : Data} (ha : Plain a) (hb : Plain b) : nativeEq a b = true ↔ a = b := by
  cases a <;> cases b <;> simp_all [nativeEq, Data.number, Plain]

theorem pyEq_iff {a b : Obj} (ha : Ordinary a) (hb : Ordinary b) :
    pyEq a b = true ↔ if a.isCorrected || b.isCorrected then a = b else a.data = b.data := by
  cases a with
  | inst e =>
    simp only [pyEq, Inst.eq]
    have he : (Obj.inst e).isCorrected = e.corrected := rfl
    rw [he]
    by_cases h : (e.corrected || b.isCorrected) = true
    · rw [if_pos h, if_pos h, decide_eq_true_iff]
    · rw [if_neg h, if_neg h]
      exact nativeEq_iff ha hb
  | plain d =>
    cases b with
    | plain d' =>
      simp only [pyEq, Obj.isCorrected, Bool.or_self, Bool.false_eq_true, if_false]
      exact nativeEq_iff ha hb
    | inst e =>
      simp only [Obj.isCorrected, Bool.false_or, reduceCtorEq]
      obtain ⟨cls, i, v, u, c⟩ := e
      cases d <;> cases v <;>
        simp_all [pyEq, Inst.eq, nativeEq, Obj.isCorrected, Obj.data, Data.number, Ordinary, Plain] <;>
        cases c <;> simp_all [eq_comm]

theorem find_some {c : EnumClass} {d : Data} (hg : Generated c) (hd : OfType c.type d) :
    (d ∈ c.values → ∃ i, c.values[i]? = some d ∧ c.find (.plain d) = some (c.member i d)) ∧
    (d ∉ c.values → c.find (.plain d) = none) := by
  have hpd : Plain d := by
    cases h : c.type <;> cases d <;> simp_all [OfType, Plain]
  have hpv : ∀ v ∈ c.values, Plain v := by
    intro v hv
    cases h : c.type with
    | str => obtain ⟨t, rfl⟩ := hg.texts h v hv; trivial
    | int => obtain ⟨t, rfl⟩ := hg.numbers h v hv; trivial
  have heq : ∀ v ∈ c.values, (pyEq (.plain v) (.plain d) = true ↔ v = d) := fun v hv =>
    nativeEq_iff (hpv v hv) hpd
  unfold EnumClass.find
  cases hf : c.values.zipIdx.find? (fun x => pyEq (.plain x.1) (.plain d)) with
  | none =>
    rw [List.find?_eq_none] at hf
    refine ⟨fun hm => ?_, fun _ => rfl⟩
    obtain ⟨i, hi⟩ := List.getElem?_of_mem hm
    have := hf (d, i) (List.mk_mem_zipIdx_iff_getElem?.2 hi)
    exact absurd ((heq d hm).2 rfl) this
  | some x =>
    have h1 := List.find?_some hf
    have h2 := List.mem_of_find?_eq_some hf
    obtain ⟨v, i⟩ := x
    have h3 := List.mk_mem_zipIdx_iff_getElem?.1 h2
    have hv : v ∈ c.values := List.mem_of_getElem? h3
    obtain rfl := (heq v hv).1 h1
    exact ⟨fun _ => ⟨i, h3, rfl⟩, fun hn => absurd hv hn⟩

/-! ## Theorems -/

/-- **C95**, from the wire: whatever text (or number, for enums of numbers) a service sends, the enum gives
an instance that has that value, equals it from both sides and has its hash.  It is the member with that
value if there is one and says it is unknown if there is none. -/
theorem C95_any_value (c : EnumClass) (hg : Generated c) (fresh : Nat) (d : Data) (hd : OfType c.type d)
    (hash : Data → Int) :
    ∃ e, c.make fresh (.plain d) = some e ∧ e.value = d ∧ e.corrected = false ∧
      (e.unknown = true ↔ d ∉ c.values) ∧ (∀ i, c.values[i]? = some d → e = c.member i d) ∧
      pyEq (.inst e) (.plain d) = true ∧ pyEq (.plain d) (.inst e) = true ∧
      pyHash hash (.inst e) = pyHash hash (.plain d) := by
  have hpd : Plain d := by
    cases h : c.type <;> cases d <;> simp_all [OfType, Plain]
  have hi : isInstance d c.type = true := by
    cases h : c.type <;> cases d <;> simp_all [OfType, isInstance]
  obtain ⟨h1, h2⟩ := find_some hg hd
  have both : ∀ e : Inst, e.value = d → e.corrected = false →
      pyEq (.inst e) (.plain d) = true ∧ pyEq (.plain d) (.inst e) = true := by
    intro e he hc
    have ho : Ordinary (.inst e) := by simpa [Ordinary, Obj.data, he] using hpd
    have ho' : Ordinary (.plain d) := hpd
    rw [pyEq_iff ho ho', pyEq_iff ho' ho]
    simp [Obj.isCorrected, hc, Obj.data, he]
  by_cases hm : d ∈ c.values
  · obtain ⟨i, hi1, hi2⟩ := h1 hm
    refine ⟨c.member i d, by simp [EnumClass.make, hi2], rfl, rfl, by simp [EnumClass.member, hm], ?_,
      (both _ rfl rfl).1, (both _ rfl rfl).2, rfl⟩
    intro j hj
    have hlt : i < c.values.length := by
      by_contra h; rw [List.getElem?_eq_none (by omega)] at hi1; cases hi1
    have : i = j := (List.getElem?_inj hlt hg.distinct).1 (hi1.trans hj.symm)
    rw [this]
  · refine ⟨c.unknown fresh d, by simp [EnumClass.make, h2 hm, hi], rfl, rfl,
      by simp [EnumClass.unknown, hm], ?_, (both _ rfl rfl).1, (both _ rfl rfl).2, rfl⟩
    intro j hj
    exact absurd (List.mem_of_getElem? hj) hm

/-- **C95**, instances: an enum gives back its own instances, the members, the unknown and the corrected. -/
theorem C95_own (c : EnumClass) (fresh : Nat) (e : Inst) (he : e.cls = c.cls) :
    c.make fresh (.inst e) = some e := by
  simp [EnumClass.make, he]

/-- **C95**, other types: a text is no value of an enum of numbers, nor a number one of an enum of texts. -/
theorem C95_wrong_type (c : EnumClass) (hg : Generated c) (fresh : Nat) (d : Data)
    (hd : (c.type = .int ∧ ∃ t, d = .str t) ∨ (c.type = .str ∧ ∀ t, d ≠ .str t)) :
    c.make fresh (.plain d) = none := by
  have hf : c.find (.plain d) = none := by
    unfold EnumClass.find
    have : c.values.zipIdx.find? (fun x => pyEq (.plain x.1) (.plain d)) = none := by
      rw [List.find?_eq_none]
      rintro ⟨v, i⟩ hx
      have hv : v ∈ c.values := List.mem_of_getElem? (List.mk_mem_zipIdx_iff_getElem?.1 hx)
      rcases hd with ⟨ht, t, rfl⟩ | ⟨ht, hn⟩
      · obtain ⟨n, rfl⟩ := hg.numbers ht v hv
        simp [pyEq, nativeEq, Data.number]
      · obtain ⟨s, rfl⟩ := hg.texts ht v hv
        cases d <;> simp_all [pyEq, nativeEq, Data.number]
    rw [this]
  rcases hd with ⟨ht, t, rfl⟩ | ⟨ht, hn⟩
  · simp [EnumClass.make, hf, ht, isInstance]
  · cases d <;> simp_all [EnumClass.make, isInstance]

/-- **C95**, placeholders, proved part: a value invented for a missing member says that it is unknown, and is
equal, from either side, to itself only, whatever members, unknown values, placeholders, texts and whole
numbers it is compared with.  Missing: `bool` and `float` operands (`C95_float_equal_fails`). -/
theorem C95_placeholder_partial (c : EnumClass) (fresh : Nat) (d : Data) (hd : Plain d) (o : Obj)
    (ho : Ordinary o) :
    (c.corrected fresh d).unknown = true ∧
    (pyEq (.inst (c.corrected fresh d)) o = true ↔ o = .inst (c.corrected fresh d)) ∧
    (pyEq o (.inst (c.corrected fresh d)) = true ↔ o = .inst (c.corrected fresh d)) := by
  have h1 : Ordinary (.inst (c.corrected fresh d)) := hd
  refine ⟨rfl, ?_, ?_⟩
  · rw [pyEq_iff h1 ho]
    simp [Obj.isCorrected, EnumClass.corrected, eq_comm]
  · rw [pyEq_iff ho h1]
    simp [Obj.isCorrected, EnumClass.corrected]

/-- **C95**, equality, proved part: `==` between texts, whole numbers and instances of enums of either is
reflexive, symmetric and transitive, `!=` is its negation, and equal values have equal hashes, so instances
can be keys of dictionaries that plain values are looked up in.  Missing as above. -/
theorem C95_equality_partial (hash : Data → Int) (x y z : Obj) (hx : Ordinary x) (hy : Ordinary y)
    (hz : Ordinary z) :
    pyEq x x = true ∧ (pyEq x y = true → pyEq y x = true) ∧
    (pyEq x y = true → pyEq y z = true → pyEq x z = true) ∧
    (pyEq x y = true → pyHash hash x = pyHash hash y) ∧ (pyNe x y = true ↔ ¬ pyEq x y = true) := by
  have hne : pyNe x y = true ↔ ¬ pyEq x y = true := by simp [pyNe]
  rw [hne, pyEq_iff hx hx, pyEq_iff hx hy, pyEq_iff hy hx, pyEq_iff hy hz, pyEq_iff hx hz]
  refine ⟨by simp, ?_, ?_, ?_, Iff.rfl⟩
  · cases x.isCorrected <;> cases y.isCorrected <;> simp +contextual
  · cases h1 : x.isCorrected <;> cases h2 : y.isCorrected <;> cases h3 : z.isCorrected <;>
      simp only [Bool.or_false, Bool.or_true, Bool.or_self, if_true, Bool.false_eq_true, if_false] <;>
      intro e1 e2 <;> (try exact e1.trans e2) <;> subst_vars <;> simp_all
  · cases x.isCorrected <;> cases y.isCorrected <;> simp only [Bool.or_false, Bool.or_true, Bool.or_self,
      if_true, Bool.false_eq_true, if_false, pyHash] <;> intro e <;> rw [e]

/-- **C95**, pickling, proved part: a member or an unknown value that is pickled and loaded is equal to what
it was, and unknown if it was.  Missing: placeholders (`C95_pickled_placeholder_fails`). -/
theorem C95_pickled_partial (c : EnumClass) (hg : Generated c) (fresh fresh' : Nat) (d : Data)
    (hd : OfType c.type d) (e : Inst) (he : c.make fresh (.plain d) = some e) :
    ∃ e', c.pickled fresh' e = some e' ∧ pyEq (.inst e) (.inst e') = true ∧ e'.unknown = e.unknown ∧
      (e.unknown = false → e' = e) := by
  obtain ⟨e1, h1, h2, h3, h4, h5, _⟩ := C95_any_value c hg fresh d hd (fun _ => 0)
  obtain rfl : e1 = e := Option.some.inj (h1.symm.trans he)
  obtain ⟨e2, g1, g2, g3, g4, g5, _⟩ := C95_any_value c hg fresh' d hd (fun _ => 0)
  have hpd : Plain d := by
    cases h : c.type <;> cases d <;> simp_all [OfType, Plain]
  refine ⟨e2, by rw [EnumClass.pickled, h2]; exact g1, ?_, ?_, ?_⟩
  · have o1 : Ordinary (.inst e1) := by simpa [Ordinary, Obj.data, h2] using hpd
    have o2 : Ordinary (.inst e2) := by simpa [Ordinary, Obj.data, g2] using hpd
    rw [pyEq_iff o1 o2]
    simp [Obj.isCorrected, h3, g3, Obj.data, h2, g2]
  · rw [Bool.eq_iff_iff, h4, g4]
  · intro hu
    have hm : d ∈ c.values := by
      by_contra hn
      rw [h4.2 hn] at hu
      cases hu
    obtain ⟨i, hi⟩ := List.getElem?_of_mem hm
    rw [h5 i hi, g5 i hi]

/-! ## The hypotheses are met -/

def color : EnumClass := ⟨0, .str, [.str [82], .str [71]]⟩
def code : EnumClass := ⟨1, .int, [.int 0, .int 200]⟩

example : Generated color := by
  refine ⟨by decide, ?_, (by intro h; cases h), by decide⟩
  intro _ v hv
  simp only [color, List.mem_cons, List.not_mem_nil, or_false] at hv
  rcases hv with rfl | rfl <;> exact ⟨_, rfl⟩

theorem code_generated : Generated code := by
  refine ⟨by decide, (by intro h; cases h), ?_, by decide⟩
  intro _ v hv
  simp only [code, List.mem_cons, List.not_mem_nil, or_false] at hv
  rcases hv with rfl | rfl <;> exact ⟨_, rfl⟩

example : OfType code.type (.int 418) ∧ code.make 7 (.plain (.int 418)) = some (code.unknown 7 (.int 418)) ∧
    code.make 7 (.plain (.int 200)) = some (code.member 1 (.int 200)) := by
  refine ⟨trivial, ?_, ?_⟩ <;> decide +kernel

/-! ## What does not hold -/

/-- `-1.0 == placeholder` and `False == placeholder` are true, the other way round false: the class of the
placeholder is no subclass of `float` or `bool`, so its `__eq__` is not asked first.  A dictionary with the
key `False` finds the placeholder. -/
theorem C95_float_equal_fails :
    pyEq (.plain (.float (-1))) (.inst (code.corrected 7 (.int (-1)))) = true ∧
    pyEq (.inst (code.corrected 7 (.int (-1)))) (.plain (.float (-1))) = false ∧
    pyEq (.plain (.bool false)) (.inst (code.corrected 7 (.int 0))) = true ∧
    pyEq (.inst (code.corrected 7 (.int 0))) (.plain (.bool false)) = false := by
  refine ⟨?_, ?_, ?_, ?_⟩ <;> decide +kernel

/-- A placeholder that is pickled and loaded is an unknown value as if a service had sent it, or even a
member. -/
theorem C95_pickled_placeholder_fails :
    code.pickled 8 (code.corrected 7 (.int (-1))) = some (code.unknown 8 (.int (-1))) ∧
    pyEq (.inst (code.corrected 7 (.int (-1)))) (.inst (code.unknown 8 (.int (-1)))) = false ∧
    code.pickled 8 (code.corrected 7 (.int 0)) = some (code.member 0 (.int 0)) := by
  refine ⟨?_, ?_, ?_⟩ <;> decide +kernel

end Verif.Types.Enums

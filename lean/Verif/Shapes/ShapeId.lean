import Verif.Text

/-!
# Shape identifiers (C37)

Models `ShapeID` (smithy_core/shapes.py:9-98).  Text is a list of characters.
-/

set_option autoImplicit false

namespace Verif.Shapes

open Verif.Text

abbrev Text := List Char

/-! ## Model -/

/-- A `ShapeID` object (shapes.py:12-15). -/
structure ShapeId where
  id : Text
  ns : Text
  name : Text
  member : Option Text
  deriving DecidableEq, Repr

inductive Err where
  /-- `SmithyError("Invalid shape id: ...")` -/
  | invalid (id : Text)
  /-- `ExpectationNotMetError` -/
  | noMember
  deriving DecidableEq, Repr

/-- `ShapeID.__init__` (shapes.py:17-32).  `split(c, 1)` is `cut`: the text before the first `c` and,
if there is one, the text after it. -/
def parse (id : Text) : Except Err ShapeId :=
  match cut '#' id with
  | (_, none) => .error (.invalid id)
  | (ns, some name) =>
    if ns = [] ∨ name = [] then .error (.invalid id)
    else
      match cut '$' name with
      | (_, none) => .ok ⟨id, ns, name, none⟩
      | (name, some member) =>
        if name = [] ∨ member = [] then .error (.invalid id)
        else .ok ⟨id, ns, name, some member⟩

/-- `ShapeID.__str__` (shapes.py:74-75). -/
def ShapeId.str (s : ShapeId) : Text := s.id

/-- `ShapeID.__eq__` between two identifiers (shapes.py:80-81). -/
def ShapeId.eq (s t : ShapeId) : Bool := s.id == t.str

/-- `ShapeID.from_parts` (shapes.py:86-98). -/
def fromParts (ns name : Text) (member : Option Text) : Except Err ShapeId :=
  match member with
  | some member => parse (ns ++ ['#'] ++ name ++ ['$'] ++ member)
  | none => parse (ns ++ ['#'] ++ name)

/-- `ShapeID.with_member` (shapes.py:63-72). -/
def ShapeId.withMember (s : ShapeId) (member : Text) : Except Err ShapeId :=
  fromParts s.ns s.name (some member)

/-- `ShapeID.expect_member` (shapes.py:53-61). -/
def ShapeId.expectMember (s : ShapeId) : Except Err Text :=
  match s.member with
  | none => .error .noMember
  | some m => .ok m

/-! ## Specification -/

/-- Namespace, name and member name of a shape. -/
structure Parts where
  ns : Text
  name : Text
  member : Option Text
  deriving DecidableEq, Repr

/-- Parts from which an identifier can be made: none is empty, the namespace has no `#` and the name no
`$`. -/
structure Parts.Valid (p : Parts) : Prop where
  ns_ne : p.ns ≠ []
  ns_hash : '#' ∉ p.ns
  name_ne : p.name ≠ []
  name_dollar : '$' ∉ p.name
  member_ne : p.member ≠ some []

/-- How parts are written. -/
def Parts.text (p : Parts) : Text :=
  p.ns ++ '#' :: p.name ++ (match p.member with | none => [] | some m => '$' :: m)

def ShapeId.parts (s : ShapeId) : Parts := ⟨s.ns, s.name, s.member⟩

/-! ## Theorems -/

theorem cut_none (sep : Char) (t a : Text) (h : cut sep t = (a, none)) : sep ∉ t ∧ a = t := by
  induction t generalizing a with
  | nil => simp only [cut, Prod.mk.injEq] at h; simp [← h.1]
  | cons c t ih =>
    simp only [cut] at h
    split at h
    · simp at h
    · next hc =>
      simp only [Prod.mk.injEq] at h
      obtain ⟨h1, h2⟩ := ih (cut sep t).1 (Prod.ext rfl h.2)
      refine ⟨?_, by rw [← h.1, h2]⟩
      simp only [List.mem_cons, not_or]
      exact ⟨fun e => hc e.symm, h1⟩

theorem cut_some (sep : Char) (t a b : Text) (h : cut sep t = (a, some b)) :
    sep ∉ a ∧ t = a ++ sep :: b := by
  induction t generalizing a with
  | nil => simp [cut] at h
  | cons c t ih =>
    simp only [cut] at h
    split at h
    · next hc =>
      simp only [Prod.mk.injEq, Option.some.injEq] at h
      rw [← h.1, ← h.2, hc]; simp
    · next hc =>
      simp only [Prod.mk.injEq] at h
      obtain ⟨h1, h2⟩ := ih (cut sep t).1 (Prod.ext rfl h.2)
      rw [← h.1]
      refine ⟨?_, by rw [List.cons_append, ← h2]⟩
      simp only [List.mem_cons, not_or]
      exact ⟨fun e => hc e.symm, h1⟩

/-- **C37**: parsing accepts a text exactly when it is the text of valid parts, and gives these parts
back; the identifier prints as the text it was made from. -/
theorem C37_parse_iff (t : Text) (s : ShapeId) :
    parse t = .ok s ↔ s.parts.Valid ∧ s.parts.text = t ∧ s.str = t := by
  constructor
  · intro h
    unfold parse at h
    split at h
    · cases h
    · next ns name hc =>
      obtain ⟨h1, h2⟩ := cut_some _ _ _ _ hc
      split at h
      · cases h
      · next hne =>
        simp only [not_or] at hne
        split at h
        · next a hd =>
          obtain ⟨h3, _⟩ := cut_none _ _ _ hd
          cases h
          exact ⟨⟨hne.1, h1, hne.2, h3, by simp [ShapeId.parts]⟩,
            by simp [Parts.text, ShapeId.parts, h2], rfl⟩
        · next a m hd =>
          obtain ⟨h3, h4⟩ := cut_some _ _ _ _ hd
          split at h
          · cases h
          · next hne' =>
            simp only [not_or] at hne'
            cases h
            refine ⟨⟨hne.1, h1, hne'.1, h3, ?_⟩, by simp [Parts.text, ShapeId.parts, h2, h4], rfl⟩
            simpa [ShapeId.parts] using hne'.2
  · rintro ⟨hv, ht, hs⟩
    obtain ⟨id, ns, name, member⟩ := s
    obtain ⟨v1, v2, v3, v4, v5⟩ := hv
    simp only [ShapeId.parts, ShapeId.str, Parts.text] at *
    subst hs
    unfold parse
    rw [← ht]
    cases member with
    | none =>
      simp only [List.append_nil]
      rw [cut_append _ _ _ v2]
      simp only [v1, v3, or_self, if_false]
      rw [cut_of_not_mem _ _ v4]
    | some m =>
      have hm : m ≠ [] := fun e => v5 (by rw [e])
      rw [List.append_assoc, List.cons_append, cut_append _ _ _ v2]
      simp only [v1, List.append_eq_nil_iff, List.cons_ne_nil, and_false, or_self, if_false]
      rw [cut_append _ _ _ v4]
      simp only [v3, hm, or_self, if_false]

/-- **C37**: an identifier made from valid parts has these parts and their text. -/
theorem C37_from_parts (p : Parts) (hp : p.Valid) :
    ∃ s, fromParts p.ns p.name p.member = .ok s ∧ s.parts = p ∧ s.str = p.text := by
  refine ⟨⟨p.text, p.ns, p.name, p.member⟩, ?_, rfl, rfl⟩
  have := (C37_parse_iff p.text ⟨p.text, p.ns, p.name, p.member⟩).2 ⟨hp, rfl, rfl⟩
  unfold fromParts
  rw [← this]
  cases hm : p.member with
  | none => simp [Parts.text, hm]
  | some m => simp [Parts.text, hm]

/-- **C37**: parsing is injective, and identifiers are equal exactly when their parts are. -/
theorem C37_injective (t u : Text) (s r : ShapeId) (hs : parse t = .ok s) (hr : parse u = .ok r) :
    (s.eq r = true ↔ s.parts = r.parts) ∧ (s.parts = r.parts ↔ t = u) := by
  obtain ⟨_, h2, h3⟩ := (C37_parse_iff t s).1 hs
  obtain ⟨_, h5, h6⟩ := (C37_parse_iff u r).1 hr
  have e1 : s.eq r = true ↔ t = u := by
    simp only [ShapeId.eq, beq_iff_eq]
    rw [h6, show s.id = t from h3]
  have e2 : s.parts = r.parts ↔ t = u := by
    constructor
    · intro h; rw [← h2, ← h5, h]
    · intro h; subst h; rw [hs] at hr; cases hr; rfl
  exact ⟨e1.trans e2.symm, e2⟩

/-- **C37**: texts without a `#`, or with an empty part, are rejected. -/
theorem C37_rejects (a b : Text) :
    ('#' ∉ a → parse a = .error (.invalid a)) ∧
    parse ('#' :: a) = .error (.invalid ('#' :: a)) ∧
    ('#' ∉ a → parse (a ++ ['#']) = .error (.invalid (a ++ ['#']))) ∧
    ('#' ∉ a → parse (a ++ '#' :: '$' :: b) = .error (.invalid (a ++ '#' :: '$' :: b))) ∧
    ('#' ∉ a → '$' ∉ b → parse (a ++ '#' :: b ++ ['$']) =
      .error (.invalid (a ++ '#' :: b ++ ['$']))) := by
  have key : ∀ t : Text, (∀ s, parse t ≠ .ok s) → parse t = .error (.invalid t) := by
    intro t h
    unfold parse at h ⊢
    repeat' split
    all_goals simp_all
  refine ⟨fun h => ?_, ?_, fun h => ?_, fun h => ?_, fun h hb => ?_⟩
  · apply key; intro s hs
    obtain ⟨_, h2, _⟩ := (C37_parse_iff _ s).1 hs
    apply h; rw [← h2]; simp [Parts.text]
  · simp [parse, cut]
  · unfold parse; rw [cut_append _ _ _ h]; simp
  · unfold parse; rw [cut_append _ _ _ h]
    simp only [cut, if_true, true_or, List.cons_ne_nil, or_false]
    split <;> rfl
  · unfold parse; rw [List.append_assoc, List.cons_append, cut_append _ _ _ h]
    dsimp only
    rw [cut_append _ _ _ hb]
    simp

/-- **C37**: adding a member to an identifier keeps its namespace and name and sets the member; an empty
member name is rejected. -/
theorem C37_with_member (t : Text) (s : ShapeId) (m : Text) (hs : parse t = .ok s) :
    (m ≠ [] → ∃ r, s.withMember m = .ok r ∧ r.parts = ⟨s.ns, s.name, some m⟩ ∧
      r.expectMember = .ok m) ∧
    (m = [] → ∃ i, s.withMember m = .error (.invalid i)) := by
  obtain ⟨hv, _, _⟩ := (C37_parse_iff t s).1 hs
  constructor
  · intro hm
    obtain ⟨r, h1, h2, _⟩ := C37_from_parts ⟨s.ns, s.name, some m⟩
      ⟨hv.ns_ne, hv.ns_hash, hv.name_ne, hv.name_dollar, by simpa using hm⟩
    refine ⟨r, h1, h2, ?_⟩
    have : r.member = some m := congrArg Parts.member h2
    simp [ShapeId.expectMember, this]
  · rintro rfl
    refine ⟨s.ns ++ '#' :: s.name ++ ['$'], ?_⟩
    have := (C37_rejects s.ns s.name).2.2.2.2 hv.ns_hash hv.name_dollar
    rw [← this]
    simp [ShapeId.withMember, fromParts]

/-! ## The hypotheses are met -/

def exampleParts : Parts := ⟨"com.example".toList, "Shape#odd".toList, some "mem$ber".toList⟩

example : exampleParts.Valid := ⟨by decide, by decide, by decide, by decide, by decide⟩

example : parse "com.example#Shape#odd$mem$ber".toList =
    .ok ⟨"com.example#Shape#odd$mem$ber".toList, exampleParts.ns, exampleParts.name,
      exampleParts.member⟩ := by decide +kernel

/-- Parts that are not valid can give an identifier with other parts. -/
example : (fromParts "a#b".toList "c".toList none).map ShapeId.parts =
    .ok ⟨"a".toList, "b#c".toList, none⟩ := by decide +kernel

end Verif.Shapes

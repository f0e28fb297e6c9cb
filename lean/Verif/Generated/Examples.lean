import Verif.Generated.Props

/-!
# Structures of a generated client: the hypotheses are met, and what does not hold (C100-C102)
-/

set_option autoImplicit false

namespace Verif.Generated

open Verif.Dict

/-! ## The hypotheses are met -/

/-- Names like `fooBar` become `foo_bar`. -/
def exampleGen : Gen where
  snake t := t.flatMap fun c => if c.isUpper then ['_', c.toLower] else [c]
  instant _ := 0

def exampleInner : Struct :=
  { error := none
    members := [⟨"name".toList, 0, false, none⟩, ⟨"itemCount".toList, 1, false, none⟩, ⟨"class".toList, 0, true, none⟩] }

def exampleOuter : Struct :=
  { error := none
    members := [⟨"inner".toList, 4, false, none⟩, ⟨"note".toList, 0, false, some (.str "hi".toList)⟩,
      ⟨"body".toList, 2, false, none⟩, ⟨"events".toList, 3, false, none⟩] }

def exampleError : Struct :=
  { error := some ⟨"server".toList, some true⟩
    members := [⟨"Message".toList, 0, true, none⟩, ⟨"code".toList, 1, false, none⟩] }

/-- A text, a number, a blob that is streamed, an event stream, two structures, one of which requires the other, and an
error. -/
def exampleModel : Model :=
  [.string, .integer, .blob true, .union true, .struct exampleInner, .struct exampleOuter, .struct exampleError]

def exampleRank (id : Nat) : Nat := if id = 5 then 2 else if id = 4 ∨ id = 6 then 1 else 0

theorem exampleModel_struct (id : Nat) (s : Struct) (h : exampleModel[id]? = some (.struct s)) :
    (id = 4 ∧ s = exampleInner) ∨ (id = 5 ∧ s = exampleOuter) ∨ (id = 6 ∧ s = exampleError) := by
  have hlt : id < 7 := by
    by_contra hc
    rw [List.getElem?_eq_none (by simp [exampleModel]; omega)] at h
    cases h
  match id, hlt, h with
  | 4, _, h => cases h; exact .inl ⟨rfl, rfl⟩
  | 5, _, h => cases h; exact .inr (.inl ⟨rfl, rfl⟩)
  | 6, _, h => cases h; exact .inr (.inr ⟨rfl, rfl⟩)
  | 0, _, h => cases h
  | 1, _, h => cases h
  | 2, _, h => cases h
  | 3, _, h => cases h

theorem exampleValid : Valid exampleGen exampleModel exampleRank where
  targets id s x h := by
    rcases exampleModel_struct id s h with ⟨rfl, rfl⟩ | ⟨rfl, rfl⟩ | ⟨rfl, rfl⟩ <;> revert x <;> decide
  acyclic id s x h hx := by
    unfold Required
    rcases exampleModel_struct id s h with ⟨rfl, rfl⟩ | ⟨rfl, rfl⟩ | ⟨rfl, rfl⟩ <;> revert x <;> decide
  names id s h := by
    rcases exampleModel_struct id s h with ⟨rfl, rfl⟩ | ⟨rfl, rfl⟩ | ⟨rfl, rfl⟩ <;> decide +kernel
  errors id s x h he hx := by
    rw [← mem_properties] at hx
    rcases exampleModel_struct id s h with ⟨rfl, rfl⟩ | ⟨rfl, rfl⟩ | ⟨rfl, rfl⟩
    · cases he
    · cases he
    · clear h he
      revert x
      decide +kernel
  methods id s x h hx := by
    rw [← mem_properties] at hx
    rcases exampleModel_struct id s h with ⟨rfl, rfl⟩ | ⟨rfl, rfl⟩ | ⟨rfl, rfl⟩ <;> clear h <;> revert x <;> decide +kernel

example : exampleGen.pyName exampleInner ⟨"class".toList, 0, true, none⟩ = "class_".toList ∧
    exampleGen.pyName exampleError ⟨"Message".toList, 0, true, none⟩ = "message".toList := by
  refine ⟨?_, ?_⟩ <;> decide +kernel

/-- A service that leaves out all but the body: the inner structure has empty values, the note its default. -/
example : exampleGen.deserialize exampleModel 3 5 [(2, "data")] = .ok (.object 5
    [("inner".toList, .object 4 [("name".toList, .str []), ("item_count".toList, .int 0), ("class_".toList, .none)]),
      ("body".toList, .read "data"), ("note".toList, .str "hi".toList)]) := rfl

/-- Without the body it is an error. -/
example : exampleGen.deserialize exampleModel 3 5 [(1, "data")] = .error .typeError := rfl

example : Stuck exampleModel 2 ∧ IsProperty exampleModel exampleOuter ⟨"body".toList, 2, false, none⟩ ∧
    ¬ Stuck exampleModel 4 := by
  refine ⟨.blob rfl, ⟨by decide, by decide, by decide⟩, ?_⟩
  rw [stuck_struct (s := exampleInner) rfl]
  rintro ⟨x, hx, hr, ht⟩
  simp only [exampleInner, List.mem_cons, List.not_mem_nil, or_false] at hx
  rcases hx with rfl | rfl | rfl
  · exact not_stuck_simple (k := .string) rfl nofun nofun nofun ht
  · exact not_stuck_simple (k := .integer) rfl nofun nofun nofun ht
  · exact absurd hr (by unfold Required; decide)

/-- An error of the service, with its message and without. -/
example : exampleGen.deserialize exampleModel 3 6 [(0, "try later"), (1, "7")] = .ok (.object 6
    [("fault".toList, .str "server".toList), ("message".toList, .read "try later"), ("is_retry_safe".toList, .bool true),
      ("retry_after".toList, .none), ("is_throttling_error".toList, .bool true), ("is_timeout_error".toList, .bool false),
      ("code".toList, .read "7")]) := rfl

/-- What is written for an object, and that it is read back. -/
example : exampleGen.serialize exampleModel exampleInner
      ([("name".toList, .str "a".toList), ("item_count".toList, .int 3), ("class_".toList, .none)] : List (Text × Value String)) =
    .ok [(0, .str "a".toList), (1, .int 3)] := rfl

example : ∃ w back, exampleGen.serialize exampleModel exampleInner
      ([("name".toList, .str "a".toList), ("item_count".toList, .int 3), ("class_".toList, .none)] : List (Text × Value String)) =
      .ok w ∧ exampleGen.deserialize exampleModel 3 4 w = .ok (.object 4 back) ∧
      back.lookup "name".toList = some (.read (.str "a".toList)) := by
  obtain ⟨w, back, h1, h2, h3⟩ := C102_round_trip_partial exampleValid (id := 4) (s := exampleInner) rfl (n := 3)
    (by decide)
    ([("name".toList, .str "a".toList), ("item_count".toList, .int 3), ("class_".toList, .none)] : List (Text × Value String))
    (by
      intro x hx _
      simp only [exampleInner, List.mem_cons, List.not_mem_nil, or_false] at hx
      rcases hx with rfl | rfl | rfl <;> exact nofun)
    (by
      intro x hx h
      have hx := hx.1
      simp only [exampleInner, List.mem_cons, List.not_mem_nil, or_false] at hx
      rcases hx with rfl | rfl | rfl <;> first | rfl | cases h)
    (by
      intro x hx _
      have hx := hx.1
      simp only [exampleInner, List.mem_cons, List.not_mem_nil, or_false] at hx
      rcases hx with rfl | rfl | rfl <;> exact .inl rfl)
  refine ⟨w, back, h1, h2, ?_⟩
  obtain ⟨v, hv, h⟩ := h3 ⟨"name".toList, 0, false, none⟩ ⟨by decide, by decide, by decide⟩
  cases hv
  rcases h with h | ⟨h, _⟩
  · exact h
  · cases h

/-! ## What does not hold -/

/-- C100: two members whose names differ only in how words are separated have the same attribute, and one value is lost. -/
theorem C100_same_name_fails : exampleGen.deserialize
      [.string, .struct { error := none, members := [⟨"fooBar".toList, 0, false, none⟩, ⟨"foo_bar".toList, 0, false, none⟩] }]
      3 1 [(0, "first"), (1, "second")] =
    .ok (.object 1 [("foo_bar".toList, .read "second")]) := rfl

/-- C100: the default of a blob is in base64 in the model of a service (here `hi`), but the attribute has the text as it is,
where the value would be `hi`. -/
theorem C100_blob_default_fails : exampleGen.deserialize (V := String)
      [.blob false, .struct { error := none, members := [⟨"data".toList, 0, false, some (.str "aGk=".toList)⟩] }] 3 1 [] =
    .ok (.object 1 [("data".toList, .bytes [97, 71, 107, 61])]) := rfl

/-- C101: an error with a member `retryAfter` has its value where the retry strategy looks for a delay, although the generator
has a list of names that are not to be used in errors. -/
theorem C101_reserved_fails : exampleGen.deserialize
      [.string, .struct { error := some ⟨"server".toList, none⟩, members := [⟨"retryAfter".toList, 0, true, none⟩] }]
      3 1 [(0, "a text")] =
    .ok (.object 1 [("fault".toList, .str "server".toList), ("message".toList, .str []), ("is_retry_safe".toList, .none),
      ("retry_after".toList, .read "a text"), ("is_throttling_error".toList, .bool false),
      ("is_timeout_error".toList, .bool false)]) := rfl

/-- C101: an error with a member `fault` no longer says who is at fault. -/
theorem C101_fault_fails : exampleGen.deserialize (V := String)
      [.string, .struct { error := some ⟨"server".toList, none⟩, members := [⟨"fault".toList, 0, true, none⟩] }] 3 1 [] =
    .ok (.object 1 [("fault".toList, .none), ("message".toList, .str []), ("is_retry_safe".toList, .none),
      ("retry_after".toList, .none), ("is_throttling_error".toList, .bool false),
      ("is_timeout_error".toList, .bool false)]) := rfl

/-- C102: where a member with a default may be null and is `None`, it is not written, and has its default when the object is
read back. -/
theorem C102_none_fails :
    let m : Model := [.string, .struct { error := none, members := [⟨"note".toList, 0, true, some (.str "hi".toList)⟩] }]
    exampleGen.serialize m { error := none, members := [⟨"note".toList, 0, true, some (.str "hi".toList)⟩] }
        [("note".toList, (.none : Value String))] = .ok [] ∧
      exampleGen.deserialize m 3 1 ([] : List (Nat × Value String)) =
        .ok (.object 1 [("note".toList, .str "hi".toList)]) := ⟨rfl, rfl⟩

end Verif.Generated

import Mathlib.Data.List.Basic

/-!
# What generated tests of responses check (C144)

Models the assertions of `generateResponseTest`, `assertResponseEqual` and `generateErrorResponseTest`
(codegen/core/src/main/java/software/amazon/smithy/python/codegen/HttpProtocolTestGenerator.java:470-486, 523-575), Python in Java texts, and
the names of classes of errors (codegen/core/src/main/java/software/amazon/smithy/python/codegen/PythonSymbolProvider.java:131-135 and 157-160).

Simplified: values of members, their `==`, and the comparison of streams (`compareMediaBlob`, C142) are parameters.  What the client
returns or raises for a response is given.  Names of shapes are ASCII.
-/

set_option autoImplicit false

namespace Verif.TestResponses

abbrev Text := List Char

/-! ## Model -/

/-- What the client does with the response: it returns an object or raises an exception of a class; both have members. -/
inductive Got (V : Type) where
  | returned (members : Text → V)
  | raised (cls : Text) (members : Text → V)

/-- How values are compared (HttpProtocolTestGenerator.java:550, 566-573). -/
structure Compare (V : Type) where
  /-- `==`. -/
  eq : V → V → Bool
  /-- `isinstance(…, AsyncByteStream)`. -/
  isStream : V → Bool
  /-- What is read from both is the same for the media type. -/
  sameStream : V → V → Bool

/-- Whether the assertions that `assertResponseEqual` writes hold (HttpProtocolTestGenerator.java:540-575).  `==` of the generated
dataclasses is `==` of all members. -/
def equalResponse {V : Type} (c : Compare V) (members : List Text) (stream : Option Text) (actual expected : Text → V) : Bool :=
  match stream with
  | none => members.all fun m => c.eq (actual m) (expected m)
  | some s =>
    members.all fun m =>
      if m = s then c.isStream (actual m) && c.sameStream (actual m) (expected m) else c.eq (actual m) (expected m)

/-- Whether the test of a response passes (HttpProtocolTestGenerator.java:471-478). -/
def responsePasses {V : Type} (c : Compare V) (members : List Text) (stream : Option Text) (expected : Text → V) : Got V → Bool
  | .raised _ _ => false
  | .returned actual => equalResponse c members stream actual expected

/-- Whether the test of an error passes (HttpProtocolTestGenerator.java:525-530).  The exception of `fail` is none that
`except Exception` catches. -/
def errorPasses {V : Type} (shapeName : Text) : Got V → Bool
  | .returned _ => false
  | .raised cls _ => cls = shapeName

/-- `StringUtils.capitalize` (used in PythonSymbolProvider.java:159). -/
def capitalize : Text → Text
  | [] => []
  | c :: cs => c.toUpper :: cs

/-- The name of the class of an error: the name that the service gives it, with a capital (PythonSymbolProvider.java:157-160, 359-362),
escaped if it is reserved (126-128, 134). -/
def className (reserved : List Text) (shapeName : Text) (rename : Option Text) : Text :=
  let name := capitalize (rename.getD shapeName)
  if name ∈ reserved then name ++ ['_'] else name

/-! ## Specification -/

/-- The client returned what is expected. -/
def Right {V : Type} (c : Compare V) (members : List Text) (stream : Option Text) (expected : Text → V) (got : Got V) : Prop :=
  ∃ actual, got = .returned actual ∧ ∀ m ∈ members,
    (stream ≠ some m → c.eq (actual m) (expected m) = true) ∧
    (stream = some m → c.isStream (actual m) = true ∧ c.sameStream (actual m) (expected m) = true)

/-! ## Theorems -/

/-- **C144**: the test of a response passes exactly if the client returned an object with the expected value of each member, and a stream
of the expected content. -/
theorem C144_response {V : Type} (c : Compare V) (members : List Text) (stream : Option Text) (expected : Text → V) (got : Got V) :
    responsePasses c members stream expected got = true ↔ Right c members stream expected got := by
  unfold Right
  cases got with
  | raised cls ms => simp [responsePasses]
  | returned actual =>
    simp only [responsePasses, Got.returned.injEq, exists_eq_left']
    cases stream with
    | none => simp [equalResponse, List.all_eq_true]
    | some s =>
      simp only [equalResponse, List.all_eq_true, Option.some.injEq, ne_eq]
      refine forall_congr' fun m => forall_congr' fun _ => ?_
      by_cases h : m = s
      · subst h
        simp
      · have h' : ¬ s = m := fun e => h e.symm
        simp [h, h']

/-- **C144**: the test of an error whose shape is not renamed, begins with a capital and is not reserved passes exactly if the client
raises an exception of the class of that error. -/
theorem C144_error_partial {V : Type} {reserved : List Text} {shapeName : Text} (hc : ∀ c, shapeName.head? = some c → c.toUpper = c)
    (hr : shapeName ∉ reserved) (got : Got V) :
    errorPasses shapeName got = true ↔ ∃ members, got = .raised (className reserved shapeName none) members := by
  have hn : className reserved shapeName none = shapeName := by
    have hcap : capitalize shapeName = shapeName := by
      cases shapeName with
      | nil => rfl
      | cons c cs => rw [capitalize, hc c rfl]
    unfold className
    dsimp only
    rw [Option.getD_none, hcap, if_neg hr]
  rw [hn]
  cases got with
  | returned ms => simp [errorPasses]
  | raised cls ms => simp [errorPasses]

/-- The test of an error that the service renames fails for clients that raise it, unless the names differ in the first letter only. -/
theorem C144_renamed_fails {V : Type} (reserved : List Text) (shapeName rename : Text) (h : capitalize rename ≠ shapeName)
    (h' : capitalize rename ++ ['_'] ≠ shapeName) (members : Text → V) :
    errorPasses shapeName (.raised (className reserved shapeName (some rename)) members) = false := by
  unfold errorPasses className
  dsimp only
  rw [Option.getD_some]
  by_cases hr : capitalize rename ∈ reserved
  · rw [if_pos hr]
    simpa using h'
  · rw [if_neg hr]
    simpa using h

/-- So does that of an error whose name begins with a small letter. -/
theorem C144_small_fails {V : Type} (reserved : List Text) (c : Char) (cs : Text) (h : c.toUpper ≠ c) (members : Text → V) :
    errorPasses (c :: cs) (.raised (className reserved (c :: cs) none) members) = false := by
  unfold errorPasses className
  dsimp only
  rw [Option.getD_none, capitalize]
  by_cases hr : c.toUpper :: cs ∈ reserved
  · rw [if_pos hr]
    simp [h]
  · rw [if_neg hr]
    simp [h]

/-- The test of an error passes whatever the members of the exception are. -/
theorem C144_content_fails {V : Type} (shapeName : Text) (members members' : Text → V) :
    errorPasses shapeName (.raised shapeName members) = true ∧ errorPasses shapeName (.raised shapeName members') = true := by
  simp [errorPasses]

/-! ## Examples -/

private def nat : Compare ℕ := ⟨fun a b => a == b, fun a => 10 < a, fun a b => a % 10 == b % 10⟩

/-- A stream, here a number above ten, is compared by its content. -/
example : responsePasses nat ["a".toList, "body".toList] (some "body".toList) (fun m => if m = "a".toList then 1 else 2)
      (.returned fun m => if m = "a".toList then 1 else 12) = true ∧
    responsePasses nat ["a".toList, "body".toList] none (fun m => if m = "a".toList then 1 else 2)
      (.returned fun m => if m = "a".toList then 1 else 12) = false := by
  refine ⟨?_, ?_⟩ <;> decide +kernel

/-- The hypotheses of `C144_error_partial`, `C144_renamed_fails` and `C144_small_fails` hold. -/
example : (∀ c, ("NotFound".toList).head? = some c → c.toUpper = c) ∧ capitalize "gone".toList ≠ "NotFound".toList ∧
    capitalize "gone".toList ++ ['_'] ≠ "NotFound".toList ∧ 'n'.toUpper ≠ 'n' := by
  refine ⟨?_, by decide +kernel, by decide +kernel, by decide⟩
  intro c hc
  have : ("NotFound".toList).head? = some 'N' := by decide +kernel
  rw [this] at hc
  cases hc
  decide

end Verif.TestResponses

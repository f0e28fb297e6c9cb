import Verif.ProtocolTests
import Mathlib.Data.List.Sort
import Mathlib.Data.List.Lex
import Mathlib.Data.Char
import Mathlib.Data.Prod.Lex

/-!
# How generated tests compare bodies (C142)

Models what `writeRequestBodyComparison` and `compareMediaBlob` write
(codegen/core/src/main/java/software/amazon/smithy/python/codegen/HttpProtocolTestGenerator.java:401-434), Python in a Java text.

Simplified: a body is its text, as decoding and reading it change nothing here.  `json.loads`, `==` of what it returns, and `unquote`
after pluses were replaced, are functions.  The expected body is written as a literal of bytes (407): that other characters than ASCII
make it a syntax error is not modelled.
-/

set_option autoImplicit false

namespace Verif.TestBodies

open Verif.ProtocolTests (Text segments segmentName segmentValue)

/-! ## Model -/

/-- How the assertion ends. -/
inductive Outcome where
  | passed
  | assertionError
  /-- What `json.loads` raises. -/
  | decodeError
  deriving DecidableEq

/-- What `json` does: `loads` (`none` is an exception), `==` of values, and the value `""` (HttpProtocolTestGenerator.java:416-418). -/
structure Json (V : Type) where
  loads : Text → Option V
  eq : V → V → Bool
  empty : V

/-- `parse_qsl(body, keep_blank_values=True)` (HttpProtocolTestGenerator.java:426-427). -/
def params (unquote : Text → Text) (body : Text) : List (Text ×ₗ Text) :=
  ((segments (some body)).filter (· ≠ [])).map fun s => toLex (unquote (segmentName s), unquote ((segmentValue s).getD []))

/-- `assert` (HttpProtocolTestGenerator.java:418, 428 and 433). -/
def assert (b : Bool) : Outcome := if b then .passed else .assertionError

/-- `compareMediaBlob` (HttpProtocolTestGenerator.java:411-434); `sorted` of tuples is in the order of their texts. -/
def compare {V : Type} (json : Json V) (unquote : Text → Text) (mediaType : Option Text) (actual expected : Text) : Outcome :=
  let contentType := mediaType.getD "application/octet-stream".toList
  if contentType = "application/json".toList ∨ "+json".toList <:+ contentType then
    match (if actual = [] then some json.empty else json.loads actual) with
    | none => .decodeError
    | some a =>
      match json.loads expected with
      | none => .decodeError
      | some e => assert (json.eq a e)
  else if contentType = "application/x-www-form-urlencoded".toList then
    assert (decide ((params unquote actual).insertionSort (· ≤ ·) = (params unquote expected).insertionSort (· ≤ ·)))
  else assert (decide (actual = expected))

/-- `writeRequestBodyComparison` (HttpProtocolTestGenerator.java:401-409): nothing is compared if the test case has no body. -/
def compareBody {V : Type} (json : Json V) (unquote : Text → Text) (mediaType : Option Text) (actual : Text) :
    Option Text → Outcome
  | none => .passed
  | some expected => compare json unquote mediaType actual expected

/-! ## Specification -/

/-- The media type is JSON: `application/json`, or one that ends in `+json`. -/
def IsJson (mediaType : Option Text) : Prop :=
  mediaType = some "application/json".toList ∨ ∃ t, mediaType = some (t ++ "+json".toList)

/-- The media type is that of forms. -/
def IsForm (mediaType : Option Text) : Prop := mediaType = some "application/x-www-form-urlencoded".toList

/-- A parameter of a form, escaped, with its value or without. -/
def paramText (escape : Text → Text) : Text × Option Text → Text
  | (n, none) => escape n
  | (n, some v) => escape n ++ '=' :: escape v

/-- The body of a form: its parameters with `&` between them. -/
def formText (escape : Text → Text) (ps : List (Text × Option Text)) : Text := List.intercalate ['&'] (ps.map (paramText escape))

/-- What a parameter says: without a value it is empty. -/
def meaning (p : Text × Option Text) : Text × Text := (p.1, p.2.getD [])

/-! ## Lemmas -/

theorem assert_passed {b : Bool} : assert b = .passed ↔ b = true := by
  cases b <;> simp [assert]

theorem json_iff (mediaType : Option Text) :
    (mediaType.getD "application/octet-stream".toList = "application/json".toList ∨
      "+json".toList <:+ mediaType.getD "application/octet-stream".toList) ↔ IsJson mediaType := by
  unfold IsJson
  cases mediaType with
  | none =>
    have h1 : ¬ "application/octet-stream".toList = "application/json".toList := by decide +kernel
    have h2 : ¬ "+json".toList <:+ "application/octet-stream".toList := by decide +kernel
    simp only [Option.getD_none, h1, h2, or_self, reduceCtorEq, exists_const]
  | some t =>
    simp only [Option.getD_some, Option.some.injEq]
    constructor
    · rintro (h | ⟨u, hu⟩)
      · exact .inl h
      · exact .inr ⟨u, hu.symm⟩
    · rintro (h | ⟨u, hu⟩)
      · exact .inl h
      · exact .inr ⟨u, hu.symm⟩

theorem form_iff (mediaType : Option Text) :
    mediaType.getD "application/octet-stream".toList = "application/x-www-form-urlencoded".toList ↔ IsForm mediaType := by
  unfold IsForm
  cases mediaType with
  | none =>
    have h1 : ¬ "application/octet-stream".toList = "application/x-www-form-urlencoded".toList := by decide +kernel
    simp only [Option.getD_none, h1, reduceCtorEq]
  | some t => simp only [Option.getD_some, Option.some.injEq]

theorem form_not_json {mediaType : Option Text} (h : IsForm mediaType) : ¬ IsJson mediaType := by
  rw [← json_iff]
  unfold IsForm at h
  subst h
  decide +kernel

theorem sorted_eq_iff {α : Type} [LinearOrder α] (l m : List α) :
    l.insertionSort (· ≤ ·) = m.insertionSort (· ≤ ·) ↔ l.Perm m := by
  constructor
  · intro h
    exact (List.perm_insertionSort (· ≤ ·) l).symm.trans (h ▸ List.perm_insertionSort (· ≤ ·) m)
  · intro h
    refine List.Perm.eq_of_pairwise (le := (· ≤ ·)) (fun a b _ _ => le_antisymm) (List.pairwise_insertionSort _ _)
      (List.pairwise_insertionSort _ _) ?_
    exact (List.perm_insertionSort _ l).trans (h.trans (List.perm_insertionSort _ m).symm)

/-! ## Theorems -/

variable {V : Type} (json : Json V) (unquote : Text → Text)

/-- **C142**: a body that is neither JSON nor a form has to be the same, character by character. -/
theorem C142_octets {mediaType : Option Text} (hj : ¬ IsJson mediaType) (hf : ¬ IsForm mediaType) (actual expected : Text) :
    compareBody json unquote mediaType actual (some expected) = .passed ↔ actual = expected := by
  unfold compareBody compare
  dsimp only
  rw [if_neg (by rw [json_iff]; exact hj), if_neg (by rw [form_iff]; exact hf), assert_passed, decide_eq_true_eq]

/-- **C142**: of forms, the parameters have to be the same, each as often, in any order. -/
theorem C142_form {mediaType : Option Text} (hf : IsForm mediaType) (actual expected : Text) :
    compareBody json unquote mediaType actual (some expected) = .passed ↔
      (params unquote actual).Perm (params unquote expected) := by
  unfold compareBody compare
  dsimp only
  rw [if_neg (by rw [json_iff]; exact form_not_json hf), if_pos (by rw [form_iff]; exact hf), assert_passed, decide_eq_true_eq,
    sorted_eq_iff]

/-- **C142**: the values of bodies in JSON have to be equal, if the body of the request is not empty. -/
theorem C142_json_partial {mediaType : Option Text} (hj : IsJson mediaType) {actual expected : Text} (ha : actual ≠ []) :
    compareBody json unquote mediaType actual (some expected) = .passed ↔
      ∃ a e, json.loads actual = some a ∧ json.loads expected = some e ∧ json.eq a e = true := by
  unfold compareBody compare
  dsimp only
  rw [if_pos (by rw [json_iff]; exact hj), if_neg ha]
  cases h1 : json.loads actual with
  | none => simp
  | some a =>
    cases h2 : json.loads expected with
    | none => simp
    | some e => simp [assert_passed]

/-- **C142**: nothing is asserted of the body if the test case has none. -/
theorem C142_no_body (mediaType : Option Text) (actual : Text) : compareBody json unquote mediaType actual none = .passed := rfl

/-- A test case that expects an empty body, of a media type that is JSON, is met by no request, also not by one whose body is empty:
`json.loads` of nothing is an exception. -/
theorem C142_empty_fails (h : json.loads [] = none) {mediaType : Option Text} (hj : IsJson mediaType) (actual : Text) :
    compareBody json unquote mediaType actual (some []) ≠ .passed := by
  unfold compareBody compare
  dsimp only
  rw [if_pos (by rw [json_iff]; exact hj), h]
  split <;> simp

/-- A request without a body meets a test case that expects the JSON text of the empty string. -/
theorem C142_missing_fails {expected : Text} (h : json.loads expected = some json.empty) (he : json.eq json.empty json.empty = true)
    {mediaType : Option Text} (hj : IsJson mediaType) :
    compareBody json unquote mediaType [] (some expected) = .passed := by
  unfold compareBody compare
  dsimp only
  rw [if_pos (by rw [json_iff]; exact hj), if_pos rfl, h]
  dsimp only
  rw [assert_passed, he]

/-! ### What the parameters of a form are -/

theorem split_append {x : Text} (hx : '&' ∉ x) (rest : Text) :
    ProtocolTests.split '&' (x ++ '&' :: rest) = x :: ProtocolTests.split '&' rest := by
  induction x with
  | nil => simp [ProtocolTests.split]
  | cons c x ih =>
    have hc : ¬ c = '&' := fun e => hx (e ▸ List.mem_cons_self)
    rw [List.cons_append, ProtocolTests.split, if_neg hc, ih fun hm => hx (List.mem_cons_of_mem _ hm)]

theorem split_one {x : Text} (hx : '&' ∉ x) : ProtocolTests.split '&' x = [x] := by
  induction x with
  | nil => rfl
  | cons c x ih =>
    have hc : ¬ c = '&' := fun e => hx (e ▸ List.mem_cons_self)
    rw [ProtocolTests.split, if_neg hc, ih fun hm => hx (List.mem_cons_of_mem _ hm)]

theorem split_intercalate : ∀ (xs : List Text), xs ≠ [] → (∀ x ∈ xs, '&' ∉ x) →
    ProtocolTests.split '&' (List.intercalate ['&'] xs) = xs
  | [], h, _ => absurd rfl h
  | [x], _, h => by
    have : List.intercalate ['&'] [x] = x := by simp [List.intercalate]
    rw [this, split_one (h x List.mem_cons_self)]
  | x :: y :: xs, _, h => by
    have : List.intercalate ['&'] (x :: y :: xs) = x ++ '&' :: List.intercalate ['&'] (y :: xs) := by simp [List.intercalate]
    rw [this, split_append (h x List.mem_cons_self), split_intercalate (y :: xs) (by simp) fun z hz => h z (List.mem_cons_of_mem _ hz)]

theorem name_append {n v : Text} (h : '=' ∉ n) : segmentName (n ++ '=' :: v) = n := by
  induction n with
  | nil => simp [segmentName]
  | cons c n ih =>
    have hc : ¬ c = '=' := fun e => h (e ▸ List.mem_cons_self)
    rw [List.cons_append, segmentName, if_neg hc, ih fun hm => h (List.mem_cons_of_mem _ hm)]

theorem name_plain {n : Text} (h : '=' ∉ n) : segmentName n = n ∧ segmentValue n = none := by
  induction n with
  | nil => exact ⟨rfl, rfl⟩
  | cons c n ih =>
    have hc : ¬ c = '=' := fun e => h (e ▸ List.mem_cons_self)
    have ih := ih fun hm => h (List.mem_cons_of_mem _ hm)
    rw [segmentName, segmentValue, if_neg hc, if_neg hc, ih.1, ih.2]
    exact ⟨rfl, rfl⟩

/-- **C142**: the parameters that are compared are those that the form was made from, also those with empty values and without. -/
theorem C142_params {unquote escape : Text → Text} (h : ∀ t, unquote (escape t) = t) (h0 : unquote [] = [])
    (hs : ∀ t, '&' ∉ escape t ∧ '=' ∉ escape t) (ps : List (Text × Option Text)) (hn : ∀ p ∈ ps, p.2 = none → p.1 ≠ []) :
    params unquote (formText escape ps) = (ps.map meaning).map toLex := by
  have hne : ∀ p ∈ ps, paramText escape p ≠ [] := by
    rintro ⟨n, _ | v⟩ hp he
    · refine hn _ hp rfl ?_
      have := h n
      rw [show escape n = [] from he, h0] at this
      exact this.symm
    · simp [paramText] at he
  unfold params formText
  cases ps with
  | nil => simp [List.intercalate, segments]
  | cons p ps =>
    have hx : ∀ x ∈ (p :: ps).map (paramText escape), '&' ∉ x := by
      intro x hx hm
      obtain ⟨⟨n, _ | v⟩, -, rfl⟩ := List.mem_map.1 hx
      · exact (hs _).1 hm
      · rcases List.mem_append.1 hm with hm | hm
        · exact (hs _).1 hm
        · rcases List.mem_cons.1 hm with hm | hm
          · exact absurd hm (by decide)
          · exact (hs _).1 hm
    have hsp := split_intercalate ((p :: ps).map (paramText escape)) (by simp) hx
    have hseg : segments (some (List.intercalate ['&'] ((p :: ps).map (paramText escape)))) = (p :: ps).map (paramText escape) := by
      generalize hq : List.intercalate ['&'] ((p :: ps).map (paramText escape)) = q at hsp
      cases q with
      | nil =>
        exfalso
        have := congrArg (·.head?) hsp
        simp only [ProtocolTests.split, List.map_cons, List.head?_cons, Option.some.injEq] at this
        exact hne p List.mem_cons_self this.symm
      | cons c cs => exact hsp
    rw [hseg, List.filter_eq_self.2 (by
      intro x hx
      obtain ⟨q, hq, rfl⟩ := List.mem_map.1 hx
      exact decide_eq_true (hne q hq)), List.map_map, List.map_map]
    refine List.map_congr_left fun q _ => ?_
    obtain ⟨n, _ | v⟩ := q
    · simp only [Function.comp_apply, paramText, meaning, (name_plain (hs n).2).1, (name_plain (hs n).2).2, Option.getD_none, h, h0]
    · simp only [Function.comp_apply, paramText, meaning, name_append (hs n).2, ProtocolTests.value_append (hs n).2,
        Option.getD_some, h]

/-- **C142**: so of two forms, the test passes exactly if they have the same parameters, in any order. -/
theorem C142_form_params {unquote escape : Text → Text} (h : ∀ t, unquote (escape t) = t) (h0 : unquote [] = [])
    (hs : ∀ t, '&' ∉ escape t ∧ '=' ∉ escape t) {mediaType : Option Text} (hf : IsForm mediaType)
    {ps qs : List (Text × Option Text)} (hp : ∀ p ∈ ps, p.2 = none → p.1 ≠ []) (hq : ∀ p ∈ qs, p.2 = none → p.1 ≠ []) :
    compareBody json unquote mediaType (formText escape ps) (some (formText escape qs)) = .passed ↔
      (ps.map meaning).Perm (qs.map meaning) := by
  rw [C142_form json unquote hf, C142_params h h0 hs ps hp, C142_params h h0 hs qs hq]
  generalize ps.map meaning = l
  generalize qs.map meaning = m
  exact ⟨fun hp => by
    have := hp.map (ofLex : Text ×ₗ Text → Text × Text)
    simpa [List.map_map, Function.comp_def] using this, fun hp => hp.map _⟩

/-! ### A number for a truth value -/

/-- Some of the values that `json.loads` returns, with `==` of Python: `True == 1`. -/
inductive Scalar where
  | bool (b : Bool)
  | int (n : Int)
  | str (t : Text)
  deriving DecidableEq

/-- `==` of Python for those (used in HttpProtocolTestGenerator.java:418). -/
def Scalar.eq : Scalar → Scalar → Bool
  | .bool a, .bool b => a = b
  | .int a, .int b => a = b
  | .str a, .str b => a = b
  | .bool a, .int b | .int b, .bool a => (if a then 1 else 0) = b
  | _, _ => false

/-- A body that is the number 1 meets a test case that expects `true`, however these are read, as values of Python are compared. -/
theorem C142_number_fails (loads : Text → Option Scalar) (h1 : loads "1".toList = some (.int 1))
    (h2 : loads "true".toList = some (.bool true)) :
    compareBody ⟨loads, Scalar.eq, .str []⟩ unquote (some "application/json".toList) "1".toList (some "true".toList) = .passed :=
  (C142_json_partial _ unquote (.inl rfl) (by simp)).2 ⟨_, _, h1, h2, rfl⟩

/-! ## Examples -/

private def loads (t : Text) : Option Scalar :=
  if t = "1".toList then some (.int 1) else if t = "true".toList then some (.bool true)
  else if t = "\"\"".toList then some (.str []) else none

private def py : Json Scalar := ⟨loads, Scalar.eq, .str []⟩

/-- The hypotheses of the theorems about JSON hold. -/
example : compareBody py id (some "application/json".toList) "1".toList (some "true".toList) = .passed ∧
    compareBody py id (some "application/json".toList) [] (some []) ≠ .passed ∧
    compareBody py id (some "application/x+json".toList) [] (some "\"\"".toList) = .passed :=
  ⟨C142_number_fails id loads (by decide +kernel) (by decide +kernel),
    C142_empty_fails py id (by decide +kernel) (.inl rfl) [],
    C142_missing_fails py id (by decide +kernel) (by decide +kernel) (.inr ⟨"application/x".toList, by decide +kernel⟩)⟩

/-- Escapes with the hypotheses of `C142_params`: of three characters. -/
private def esc (t : Text) : Text :=
  t.flatMap fun c => if c = '&' then ['%', 'a'] else if c = '=' then ['%', 'e'] else if c = '%' then ['%', '%'] else [c]

private def unesc : Text → Text
  | '%' :: 'a' :: t => '&' :: unesc t
  | '%' :: 'e' :: t => '=' :: unesc t
  | '%' :: '%' :: t => '%' :: unesc t
  | c :: t => c :: unesc t
  | [] => []

private theorem unesc_other {c : Char} (h : c ≠ '%') (t : Text) : unesc (c :: t) = c :: unesc t := by
  rw [unesc]
  all_goals (intro _ h' ; exact fun _ => h h')

private theorem unesc_esc (t : Text) : unesc (esc t) = t := by
  unfold esc
  induction t with
  | nil => rfl
  | cons c t ih =>
    rw [List.flatMap_cons]
    by_cases h1 : c = '&'
    · subst h1
      simp only [if_true, List.cons_append, List.nil_append]
      rw [unesc, ih]
    · rw [if_neg h1]
      by_cases h2 : c = '='
      · subst h2
        simp only [if_true, List.cons_append, List.nil_append]
        rw [unesc, ih]
      · rw [if_neg h2]
        by_cases h3 : c = '%'
        · subst h3
          simp only [if_true, List.cons_append, List.nil_append]
          rw [unesc, ih]
        · rw [if_neg h3, List.singleton_append, unesc_other h3, ih]

private theorem esc_safe (t : Text) : '&' ∉ esc t ∧ '=' ∉ esc t := by
  unfold esc
  constructor <;>
  · intro hm
    obtain ⟨c, -, hc⟩ := List.mem_flatMap.1 hm
    split at hc
    · simp at hc
    · split at hc
      · simp at hc
      · split at hc
        · simp at hc
        · exact absurd (List.mem_singleton.1 hc).symm (by assumption)

/-- A form with a parameter without a value. -/
example : compareBody py unesc (some "application/x-www-form-urlencoded".toList)
    (formText esc [("a".toList, none), ("b".toList, some "x&y".toList)])
    (some (formText esc [("b".toList, some "x&y".toList), ("a".toList, some [])])) = .passed :=
  (C142_form_params py unesc_esc rfl esc_safe rfl (by simp) (by simp)).2 (List.Perm.swap _ _ _)

/-- A body of text is compared as it is. -/
example : compareBody py id none "a".toList (some "a".toList) = .passed ∧ ¬ IsJson (some "text/plain".toList) := by
  refine ⟨(C142_octets py id ?_ ?_ _ _).2 rfl, ?_⟩
  · rw [← json_iff]; decide +kernel
  · rw [← form_iff]; decide +kernel
  · rw [← json_iff]; decide +kernel

end Verif.TestBodies

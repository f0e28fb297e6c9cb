import Mathlib.Data.List.Basic
import Mathlib.Data.List.Nodup

/-!
# Which tests of protocols are generated, and which of them run (C143)

Models `run`, `generateOperationTests`, `onlyIfProtocolMatches` and the names that `writeTestBlock` gives to tests
(codegen/core/src/main/java/software/amazon/smithy/python/codegen/HttpProtocolTestGenerator.java:123-167, 171-174, 438-441,
488-496, 578-607).

Simplified: `toSnakeCase` of Smithy is a function.  Of tests only the name and the test case are modelled, not the mark of those that are
expected to fail.
-/

set_option autoImplicit false

namespace Verif.TestCases

abbrev Text := List Char

/-! ## Model -/

/-- Whom a test case is for (HttpProtocolTestGenerator.java:131). -/
inductive AppliesTo where
  | client
  | server
  deriving DecidableEq

/-- A test case of `@httpRequestTests` or `@httpResponseTests`, with what decides whether it is generated
(HttpProtocolTestGenerator.java:144 and 579). -/
structure Case where
  id : Text
  protocol : Text
  appliesTo : Option AppliesTo
  deriving DecidableEq

/-- An error of an operation (HttpProtocolTestGenerator.java:157-158). -/
structure ErrorShape where
  serverOnly : Bool
  cases : List Case

/-- An operation with its tests (HttpProtocolTestGenerator.java:137-167). -/
structure Operation where
  name : Text
  requestTests : List Case
  responseTests : List Case
  errors : List ErrorShape

/-- The three kinds of tests (HttpProtocolTestGenerator.java:141-166). -/
inductive Kind where
  | request
  | response
  | error
  deriving DecidableEq

/-- A test that is written (by `writeTestBlock`, HttpProtocolTestGenerator.java:588-607). -/
structure Block where
  kind : Kind
  case : Case
  operation : Text
  deriving DecidableEq

/-- `getTestCasesFor(AppliesTo.CLIENT)` of Smithy (used in HttpProtocolTestGenerator.java:144, 151 and 160): those for clients, and those for all. -/
def forClient (cs : List Case) : List Case := cs.filter fun c => c.appliesTo = none ∨ c.appliesTo = some .client

/-- The tests of one kind, of the cases whose protocol matches (HttpProtocolTestGenerator.java:578-585). -/
def matching (protocol : Text) (kind : Kind) (operation : Text) (cs : List Case) : List Block :=
  ((forClient cs).filter fun c => c.protocol = protocol).map fun c => ⟨kind, c, operation⟩

/-- `generateOperationTests` (HttpProtocolTestGenerator.java:137-167). -/
def operationTests (protocol : Text) (op : Operation) : List Block :=
  matching protocol .request op.name op.requestTests ++ matching protocol .response op.name op.responseTests ++
    op.errors.flatMap fun e => if e.serverOnly then [] else matching protocol .error op.name e.cases

/-- `run` (HttpProtocolTestGenerator.java:123-135). -/
def generate (protocol : Text) (ops : List Operation) : List Block := ops.flatMap (operationTests protocol)

/-- The names of the kinds in names of tests (HttpProtocolTestGenerator.java:173, 440 and 495). -/
def Kind.text : Kind → Text
  | .request => "request".toList
  | .response => "response".toList
  | .error => "error".toList

/-- What is given to `writeTestBlock` as name (HttpProtocolTestGenerator.java:173, 440 and 495). -/
def label (b : Block) : Text := b.case.id ++ '_' :: (b.kind.text ++ '_' :: b.operation)

/-- The name of the function (HttpProtocolTestGenerator.java:603). -/
def functionName (snake : Text → Text) (b : Block) : Text := "test_".toList ++ snake (label b)

/-- The functions that the module has after its definitions were executed: of those with one name, the last. -/
def collected (snake : Text → Text) : List Block → List Block
  | [] => []
  | b :: bs => if functionName snake b ∈ bs.map (functionName snake) then collected snake bs else b :: collected snake bs

/-! ## Specification -/

/-- A test case of an operation that clients which speak the protocol have to meet. -/
inductive Due (protocol : Text) (ops : List Operation) : Kind → Case → Text → Prop where
  | request {op : Operation} {c : Case} : op ∈ ops → c ∈ op.requestTests → c.protocol = protocol → c.appliesTo ≠ some .server →
      Due protocol ops .request c op.name
  | response {op : Operation} {c : Case} : op ∈ ops → c ∈ op.responseTests → c.protocol = protocol → c.appliesTo ≠ some .server →
      Due protocol ops .response c op.name
  | error {op : Operation} {e : ErrorShape} {c : Case} : op ∈ ops → e ∈ op.errors → e.serverOnly = false → c ∈ e.cases →
      c.protocol = protocol → c.appliesTo ≠ some .server → Due protocol ops .error c op.name

/-! ## Lemmas -/

theorem mem_matching {protocol : Text} {kind : Kind} {operation : Text} {cs : List Case} {b : Block} :
    b ∈ matching protocol kind operation cs ↔
      b.kind = kind ∧ b.operation = operation ∧ b.case ∈ cs ∧ b.case.protocol = protocol ∧ b.case.appliesTo ≠ some .server := by
  unfold matching forClient
  simp only [List.mem_map, List.mem_filter, decide_eq_true_eq]
  have key : ∀ a : Option AppliesTo, (a = none ∨ a = some .client) ↔ a ≠ some .server := by
    rintro (_ | _ | _) <;> simp
  constructor
  · rintro ⟨c, ⟨⟨h1, h2⟩, h3⟩, rfl⟩
    exact ⟨rfl, rfl, h1, h3, (key _).1 h2⟩
  · rintro ⟨rfl, rfl, h1, h2, h3⟩
    exact ⟨b.case, ⟨⟨h1, (key _).2 h3⟩, h2⟩, rfl⟩

theorem last_underscore : ∀ {x x' y y' : Text}, '_' ∉ y → '_' ∉ y' → x ++ '_' :: y = x' ++ '_' :: y' → x = x' ∧ y = y'
  | [], [], y, y', _, _, h => by
    simp only [List.nil_append, List.cons.injEq, true_and] at h
    exact ⟨rfl, h⟩
  | [], c :: x', y, y', h1, _, h => by
    simp only [List.nil_append, List.cons_append, List.cons.injEq] at h
    exact absurd (h.2 ▸ List.mem_append_right _ List.mem_cons_self) h1
  | c :: x, [], y, y', _, h2, h => by
    simp only [List.nil_append, List.cons_append, List.cons.injEq] at h
    exact absurd (h.2 ▸ List.mem_append_right _ List.mem_cons_self) h2
  | c :: x, c' :: x', y, y', h1, h2, h => by
    simp only [List.cons_append, List.cons.injEq] at h
    obtain ⟨e1, e2⟩ := last_underscore h1 h2 h.2
    rw [h.1, e1, e2]
    exact ⟨rfl, rfl⟩

theorem kind_plain (k : Kind) : '_' ∉ k.text := by
  cases k <;> decide +kernel

theorem kind_injective {k k' : Kind} (h : k.text = k'.text) : k = k' := by
  cases k <;> cases k' <;> first | rfl | exact absurd h (by decide +kernel)

theorem collected_eq {snake : Text → Text} : ∀ {bs : List Block}, (bs.map (functionName snake)).Nodup → collected snake bs = bs
  | [], _ => rfl
  | b :: bs, h => by
    rw [List.map_cons, List.nodup_cons] at h
    rw [collected, if_neg h.1, collected_eq h.2]

/-! ## Theorems -/

/-- **C143**: a test is generated for exactly the test cases that clients have to meet. -/
theorem C143_generated (protocol : Text) (ops : List Operation) (b : Block) :
    b ∈ generate protocol ops ↔ Due protocol ops b.kind b.case b.operation := by
  unfold generate operationTests
  simp only [List.mem_flatMap, List.mem_append]
  constructor
  · rintro ⟨op, hop, (h | h) | ⟨e, he, h⟩⟩
    · obtain ⟨h1, h2, h3, h4, h5⟩ := mem_matching.1 h
      rw [h1, h2]
      exact .request hop h3 h4 h5
    · obtain ⟨h1, h2, h3, h4, h5⟩ := mem_matching.1 h
      rw [h1, h2]
      exact .response hop h3 h4 h5
    · cases hs : e.serverOnly with
      | true =>
        rw [hs, if_pos rfl] at h
        cases h
      | false =>
        rw [hs, if_neg (by simp)] at h
        obtain ⟨h1, h2, h3, h4, h5⟩ := mem_matching.1 h
        rw [h1, h2]
        exact .error hop he hs h3 h4 h5
  · obtain ⟨k, c, o⟩ := b
    rintro (⟨hop, h3, h4, h5⟩ | ⟨hop, h3, h4, h5⟩ | ⟨hop, he, hs, h3, h4, h5⟩)
    · exact ⟨_, hop, .inl (.inl (mem_matching.2 ⟨rfl, rfl, h3, h4, h5⟩))⟩
    · exact ⟨_, hop, .inl (.inr (mem_matching.2 ⟨rfl, rfl, h3, h4, h5⟩))⟩
    · refine ⟨_, hop, .inr ⟨_, he, ?_⟩⟩
      rw [hs, if_neg (by simp)]
      exact mem_matching.2 ⟨rfl, rfl, h3, h4, h5⟩

/-- **C143**: names tell tests apart: by test case, kind and operation, if no underscore is in the names of operations. -/
theorem C143_label_partial {b b' : Block} (h : '_' ∉ b.operation) (h' : '_' ∉ b'.operation) (e : label b = label b') :
    b.case.id = b'.case.id ∧ b.kind = b'.kind ∧ b.operation = b'.operation := by
  have key : ∀ x : Block, label x = (x.case.id ++ '_' :: x.kind.text) ++ '_' :: x.operation := by
    intro x
    simp [label]
  rw [key, key] at e
  obtain ⟨e1, e2⟩ := last_underscore h h' e
  obtain ⟨e3, e4⟩ := last_underscore (kind_plain _) (kind_plain _) e1
  exact ⟨e3, kind_injective e4, e2⟩

/-- **C143**: every test that is generated runs, if names of operations have no underscore, no operation has two test cases of one kind with
the same id, and changing the case of names leaves them different. -/
theorem C143_all_run_partial (snake : Text → Text) (protocol : Text) (ops : List Operation) (hops : ∀ op ∈ ops, '_' ∉ op.name)
    (hids : ((generate protocol ops).map fun b => (b.case.id, b.kind, b.operation)).Nodup)
    (hs : ∀ b ∈ generate protocol ops, ∀ b' ∈ generate protocol ops, snake (label b) = snake (label b') → label b = label b') :
    collected snake (generate protocol ops) = generate protocol ops := by
  refine collected_eq ?_
  have hplain : ∀ b ∈ generate protocol ops, '_' ∉ b.operation := by
    intro b hb
    have := (C143_generated protocol ops b).1 hb
    obtain ⟨k, c, o⟩ := b
    rcases this with ⟨hop, -, -, -⟩ | ⟨hop, -, -, -⟩ | ⟨hop, -, -, -, -, -⟩ <;> exact hops _ hop
  have hn := List.Nodup.of_map _ hids
  refine hn.map_on ?_
  intro b hb b' hb' e
  have e := hs b hb b' hb' (List.append_cancel_left e)
  obtain ⟨e1, e2, e3⟩ := C143_label_partial (hplain b hb) (hplain b' hb') e
  exact List.inj_on_of_nodup_map hids hb hb' (by rw [e1, e2, e3])

/-- **C143**: whatever the names, of each name one test runs. -/
theorem C143_each_name (snake : Text → Text) (bs : List Block) :
    ((collected snake bs).map (functionName snake)).Nodup ∧
    (∀ n, n ∈ (collected snake bs).map (functionName snake) ↔ n ∈ bs.map (functionName snake)) := by
  induction bs with
  | nil => simp [collected]
  | cons b bs ih =>
    unfold collected
    by_cases h : functionName snake b ∈ bs.map (functionName snake)
    · rw [if_pos h]
      refine ⟨ih.1, fun n => ?_⟩
      rw [ih.2, List.map_cons, List.mem_cons]
      exact ⟨.inr, fun hn => hn.elim (fun e => e ▸ h) id⟩
    · rw [if_neg h]
      refine ⟨?_, fun n => ?_⟩
      · rw [List.map_cons, List.nodup_cons]
        exact ⟨fun hm => h ((ih.2 _).1 hm), ih.1⟩
      · rw [List.map_cons, List.map_cons, List.mem_cons, List.mem_cons, ih.2]

private def case (id : String) : Case := ⟨id.toList, "p".toList, none⟩

private def one : Operation := ⟨"b_request_c".toList, [case "a"], [], []⟩

private def two : Operation := ⟨"c".toList, [case "a_request_b"], [], []⟩

/-- Two test cases, of two operations and with different ids, can have tests of the same name: the first never runs, whatever changes the
case of names. -/
theorem C143_lost_fails (snake : Text → Text) :
    generate "p".toList [one, two] =
      [⟨.request, case "a", "b_request_c".toList⟩, ⟨.request, case "a_request_b", "c".toList⟩] ∧
    collected snake (generate "p".toList [one, two]) = [⟨.request, case "a_request_b", "c".toList⟩] := by
  have hg : generate "p".toList [one, two] =
      [⟨.request, case "a", "b_request_c".toList⟩, ⟨.request, case "a_request_b", "c".toList⟩] := by decide +kernel
  have hl : label ⟨.request, case "a", "b_request_c".toList⟩ = label ⟨.request, case "a_request_b", "c".toList⟩ := by decide +kernel
  refine ⟨hg, ?_⟩
  have hn : functionName snake ⟨.request, case "a", "b_request_c".toList⟩ ∈
      [(⟨.request, case "a_request_b", "c".toList⟩ : Block)].map (functionName snake) := by
    unfold functionName
    rw [List.map_singleton, hl]
    exact List.mem_cons_self
  rw [hg, collected, if_pos hn]
  simp [collected]

/-! ## Examples -/

private def op : Operation :=
  ⟨"Get".toList, [case "A", ⟨"B".toList, "p".toList, some .server⟩, ⟨"C".toList, "q".toList, none⟩], [case "A"],
    [⟨false, [case "A"]⟩, ⟨true, [case "D"]⟩]⟩

/-- Three of these are generated, and run. -/
example : generate "p".toList [op] =
    [⟨.request, case "A", "Get".toList⟩, ⟨.response, case "A", "Get".toList⟩, ⟨.error, case "A", "Get".toList⟩] := by
  decide +kernel

example : collected id (generate "p".toList [op]) = generate "p".toList [op] :=
  C143_all_run_partial id _ _ (by decide +kernel) (by decide +kernel) (fun _ _ _ _ h => h)

end Verif.TestCases

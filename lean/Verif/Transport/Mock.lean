import Verif.Transport.Aiohttp
import Mathlib.Data.List.Induction

/-!
# The HTTP client for tests (C136)

Models `MockHTTPClient` (smithy_http/testing/mockhttp.py:16-98).  `send` has no `await`, so that its calls do not overlap.  The client
is its own deep copy (mockhttp.py:97-98), so the calls of a generated client (C104) and the test work with the same one.

The fields of a request are an object of their own, which other code may change in place: a request holds a reference to them.
-/

set_option autoImplicit false

namespace Verif.Transport.Mock

open Verif.Fields Verif.Transport.Aiohttp

variable {S B D X : Type}

/-! ## Model -/

/-- A queued response: the arguments of `add_response` (mockhttp.py:38-56). -/
structure Queued (S B : Type) where
  status : Int := 200
  headers : List (S × S) := []
  body : B
  deriving DecidableEq

/-- `HTTPRequest` (smithy_http/aio/__init__.py:14-20): destination, the reference to its fields, and the rest of it (the method and the
body). -/
structure Request (D X : Type) where
  destination : D
  fields : Nat
  rest : X
  deriving DecidableEq

/-- `HTTPResponse` (mockhttp.py:76-81): `body` is what the asynchronous iterable yields. -/
structure Response (S B : Type) where
  status : Int
  fields : List (Field S)
  body : List B
  deriving DecidableEq

/-- The client (mockhttp.py:34-36). -/
structure Client (S B D X : Type) where
  queue : List (Queued S B)
  captured : List (Request D X)

/-- What `send` returns for the response it takes from the queue (mockhttp.py:75-81). -/
def answer [DecidableEq S] (lower : S → S) (q : Queued S B) : Response S B :=
  ⟨q.status, fields (ofTuples lower none [] [] q.headers).1 (ofTuples lower none [] [] q.headers).2, [q.body]⟩

/-- `add_response` (mockhttp.py:38-56). -/
def Client.addResponse (c : Client S B D X) (q : Queued S B) : Client S B D X := { c with queue := c.queue ++ [q] }

/-- `send` (mockhttp.py:58-85); `none` is `MockHTTPClientError`.  `copy(request)` is a request with the same attributes: the same
reference to the fields. -/
def Client.send [DecidableEq S] (lower : S → S) (c : Client S B D X) (r : Request D X) :
    Client S B D X × Option (Response S B) :=
  let captured := c.captured ++ [r]
  match c.queue with
  | q :: queue => (⟨queue, captured⟩, some (answer lower q))
  | [] => (⟨[], captured⟩, none)

/-- `call_count` (mockhttp.py:87-90). -/
def Client.callCount (c : Client S B D X) : Nat := c.captured.length

/-- The objects that requests refer to. -/
abbrev Heap (S : Type) := Nat → List (Field S)

/-- What a test and the calls it makes do, in the order in which it happens. -/
inductive Op (S B D X : Type) where
  /-- `client.add_response(...)` -/
  | add (q : Queued S B)
  /-- `await client.send(request)` -/
  | send (r : Request D X)
  /-- Someone changes fields in place. -/
  | change (a : Nat) (fs : List (Field S))

/-- The client, the fields of requests, and what calls of `send` returned. -/
structure State (S B D X : Type) where
  client : Client S B D X := ⟨[], []⟩
  heap : Heap S
  results : List (Option (Response S B)) := []

/-- One step. -/
def State.step [DecidableEq S] (lower : S → S) (s : State S B D X) : Op S B D X → State S B D X
  | .add q => { s with client := s.client.addResponse q }
  | .send r =>
    let p := s.client.send lower r
    { s with client := p.1, results := s.results ++ [p.2] }
  | .change a fs => { s with heap := fun b => if b = a then fs else s.heap b }

/-- All steps, for a new client. -/
def run [DecidableEq S] (lower : S → S) (heap : Heap S) (ops : List (Op S B D X)) : State S B D X :=
  ops.foldl (State.step lower) { heap := heap }

/-- What a test sees in `captured_requests` (mockhttp.py:92-95): destination, fields and the rest. -/
def State.seen (s : State S B D X) : List (D × List (Field S) × X) :=
  s.client.captured.map fun r => (r.destination, s.heap r.fields, r.rest)

/-! ## Specification -/

/-- The responses that were added. -/
def added : List (Op S B D X) → List (Queued S B)
  | [] => []
  | .add q :: ops => q :: added ops
  | .send _ :: ops => added ops
  | .change _ _ :: ops => added ops

/-- The requests that were sent. -/
def sent : List (Op S B D X) → List (Request D X)
  | [] => []
  | .add _ :: ops => sent ops
  | .send r :: ops => r :: sent ops
  | .change _ _ :: ops => sent ops

/-- The fields of objects after the changes. -/
def after (heap : Heap S) : List (Op S B D X) → Heap S
  | [] => heap
  | .add _ :: ops => after heap ops
  | .send _ :: ops => after heap ops
  | .change a fs :: ops => after (fun b => if b = a then fs else heap b) ops

/-! ## Lemmas -/

theorem added_append (a b : List (Op S B D X)) : added (a ++ b) = added a ++ added b := by
  induction a with
  | nil => rfl
  | cons o a ih => cases o <;> simp [added, ih]

theorem sent_append (a b : List (Op S B D X)) : sent (a ++ b) = sent a ++ sent b := by
  induction a with
  | nil => rfl
  | cons o a ih => cases o <;> simp [sent, ih]

theorem after_append (heap : Heap S) (a b : List (Op S B D X)) : after heap (a ++ b) = after (after heap a) b := by
  induction a generalizing heap with
  | nil => rfl
  | cons o a ih => cases o <;> simp [after, ih]

section
variable [DecidableEq S] {lower : S → S}

theorem run_snoc (heap : Heap S) (ops : List (Op S B D X)) (o : Op S B D X) :
    run lower heap (ops ++ [o]) = (run lower heap ops).step lower o := by
  simp [run, List.foldl_append]

/-- What holds after every history: the responses given and those in the queue are those added, in order. -/
theorem run_inv (heap : Heap S) (ops : List (Op S B D X)) :
    (∃ given, added ops = given ++ (run lower heap ops).client.queue ∧
      (run lower heap ops).results.filterMap id = given.map (answer lower)) ∧
    (run lower heap ops).client.captured = sent ops ∧
    (run lower heap ops).results.length = (sent ops).length ∧
    (run lower heap ops).heap = after heap ops := by
  induction ops using List.reverseRecOn with
  | nil => exact ⟨⟨[], rfl, rfl⟩, rfl, rfl, rfl⟩
  | append_singleton ops o ih =>
    obtain ⟨⟨given, h1, h2⟩, h3, h4, h5⟩ := ih
    rw [run_snoc, added_append, sent_append, after_append]
    cases o with
    | add q =>
      refine ⟨⟨given, ?_, h2⟩, ?_, ?_, h5⟩
      · simp [added, State.step, Client.addResponse, h1]
      · simpa [sent, State.step, Client.addResponse] using h3
      · simpa [sent, State.step] using h4
    | change a fs =>
      refine ⟨⟨given, ?_, h2⟩, ?_, ?_, ?_⟩
      · simpa [added, State.step] using h1
      · simpa [sent, State.step] using h3
      · simpa [sent, State.step] using h4
      · simp [after, State.step, h5]
    | send r =>
      cases hq : (run lower heap ops).client.queue with
      | nil =>
        refine ⟨⟨given, ?_, ?_⟩, ?_, ?_, h5⟩
        · simp [added, State.step, Client.send, hq, h1]
        · simp only [State.step, Client.send, hq]
          rw [List.filterMap_append, h2]
          exact List.append_nil _
        · simp [sent, State.step, Client.send, hq, h3]
        · simp [sent, State.step, h4]
      | cons q queue =>
        refine ⟨⟨given ++ [q], ?_, ?_⟩, ?_, ?_, h5⟩
        · simp [added, State.step, Client.send, hq, h1]
        · simp only [State.step, Client.send, hq]
          rw [List.filterMap_append, h2, List.map_append]
          rfl
        · simp [sent, State.step, Client.send, hq, h3]
        · simp [sent, State.step, h4]

end

/-! ## Theorems -/

section
variable [DecidableEq S]

/-- **C136**: a call of `send` gets the first of the responses added before it that no call has got, with its status, and its body in one
piece, and fails exactly if there is none. -/
theorem C136_first_in_first_out (lower : S → S) (heap : Heap S) (ops : List (Op S B D X)) (r : Request D X) :
    ∃ result, (run lower heap (ops ++ [.send r])).results = (run lower heap ops).results ++ [result] ∧
      result.map (fun p => (p.status, p.body)) =
        ((added ops)[((run lower heap ops).results.filterMap id).length]?).map fun q => (q.status, [q.body]) := by
  obtain ⟨⟨given, h1, h2⟩, -⟩ := run_inv (lower := lower) heap ops
  rw [run_snoc, h2, List.length_map, h1]
  cases hq : (run lower heap ops).client.queue with
  | nil => exact ⟨none, by simp [State.step, Client.send, hq], by simp⟩
  | cons q queue => exact ⟨some (answer lower q), by simp [State.step, Client.send, hq], by simp [answer]⟩

/-- **C136**: no response is given twice, left out, or given before another that was added first. -/
theorem C136_in_order (lower : S → S) (heap : Heap S) (ops : List (Op S B D X)) :
    ((run lower heap ops).results.filterMap id).map (fun p => (p.status, p.body)) <+:
      (added ops).map fun q => (q.status, [q.body]) := by
  obtain ⟨⟨given, h1, h2⟩, -⟩ := run_inv (lower := lower) heap ops
  rw [h2, h1, List.map_map, List.map_append]
  exact ⟨_, rfl⟩

theorem answer_fields (lower : S → S) (q : Queued S B) (fs : List (Field S)) (hq : q.headers = headersList fs)
    (hd : Distinct lower fs) (hk : ∀ f ∈ fs, f.kind = .header) :
    (answer lower q).fields = fs.filter fun f => f.values ≠ [] := by
  have := C88_headers lower fs hd hk
  rw [responseFields, Verif.Fields.C25_from_tuples] at this
  unfold answer
  rw [hq, Verif.Fields.C25_from_tuples]
  exact this

/-- **C136**: the response that a call of `send` gets has the headers it was added with: the fields of which the list was made, in
order. -/
theorem C136_headers (lower : S → S) (heap : Heap S) (ops : List (Op S B D X)) (r : Request D X) (q : Queued S B)
    (fs : List (Field S)) (h : (added ops)[((run lower heap ops).results.filterMap id).length]? = some q)
    (hq : q.headers = headersList fs) (hd : Distinct lower fs) (hk : ∀ f ∈ fs, f.kind = .header) :
    (run lower heap (ops ++ [.send r])).results = (run lower heap ops).results ++
      [some ⟨q.status, fs.filter fun f => f.values ≠ [], [q.body]⟩] := by
  obtain ⟨⟨given, h1, h2⟩, -⟩ := run_inv (lower := lower) heap ops
  rw [h2, List.length_map, h1] at h
  rw [run_snoc, ← answer_fields lower q fs hq hd hk]
  cases hqs : (run lower heap ops).client.queue with
  | nil => rw [hqs] at h; simp at h
  | cons q' queue =>
    rw [hqs] at h
    simp only [List.getElem?_append_right (Nat.le_refl _), Nat.sub_self, List.getElem?_cons_zero, Option.some.injEq] at h
    subst h
    simp [State.step, Client.send, hqs, answer]

/-- **C136**: every request is recorded, those that failed too, in the order in which they were sent; what is seen of their destination,
method and body is what was sent, and the number of calls is their number. -/
theorem C136_recorded (lower : S → S) (heap : Heap S) (ops : List (Op S B D X)) :
    (run lower heap ops).client.callCount = (sent ops).length ∧
    ((run lower heap ops).seen.map fun x => (x.1, x.2.2)) = (sent ops).map fun r => (r.destination, r.rest) := by
  obtain ⟨-, h3, -, -⟩ := run_inv (lower := lower) heap ops
  refine ⟨by rw [Client.callCount, h3], ?_⟩
  rw [State.seen, h3, List.map_map]
  rfl

/-- **C136**: the fields that are seen are those that were sent, as long as no one changes the object. -/
theorem C136_fields_partial (lower : S → S) (heap : Heap S) (before later : List (Op S B D X)) (r : Request D X)
    (h : ∀ a fs, Op.change a fs ∈ later → a ≠ r.fields) :
    (run lower heap (before ++ .send r :: later)).seen[(sent before).length]? =
      some (r.destination, (run lower heap before).heap r.fields, r.rest) := by
  obtain ⟨-, h3, -, h5⟩ := run_inv (lower := lower) heap (before ++ .send r :: later)
  obtain ⟨-, -, -, h5'⟩ := run_inv (lower := lower) heap before
  have key : ∀ (l : List (Op S B D X)) (g : Heap S), (∀ a fs, Op.change a fs ∈ l → a ≠ r.fields) →
      after g l r.fields = g r.fields := by
    intro l
    induction l with
    | nil => intro g _; rfl
    | cons o l ih =>
      intro g hl
      have hl' : ∀ a fs, Op.change a fs ∈ l → a ≠ r.fields := fun a fs hm => hl a fs (List.mem_cons_of_mem _ hm)
      cases o with
      | add q => exact ih g hl'
      | send x => exact ih g hl'
      | change a fs =>
        simp only [after]
        rw [ih _ hl', if_neg (hl a fs List.mem_cons_self).symm]
  rw [State.seen, h3, h5, h5', sent_append, after_append]
  simp only [sent, after]
  rw [List.map_append, List.getElem?_append_right (by simp)]
  simp [key later _ h]

end

/-- **C136** is false of fields that are changed later: the recorded request shares them with the one that was sent, and shows the
change. -/
theorem C136_fields_fails : ∃ (heap : Heap String) (r : Request Nat Nat) (later : List (Op String Nat Nat Nat)),
    (run id heap (.send r :: later)).seen[0]? ≠ some (r.destination, heap r.fields, r.rest) :=
  ⟨fun _ => [], ⟨0, 0, 0⟩, [.change 0 [⟨"a", ["b"], .header⟩]], by decide +kernel⟩

/-! ## Examples -/

/-- Two responses, three requests: the third fails and is recorded. -/
def history : List (Op String Nat Nat Nat) :=
  [.add ⟨500, [], 7⟩, .send ⟨1, 0, 0⟩, .add ⟨200, [("a", "b")], 8⟩, .send ⟨2, 1, 0⟩, .send ⟨3, 1, 0⟩]

example : (run id (fun _ => []) history).results =
    [some ⟨500, [], [7]⟩, some ⟨200, [⟨"a", ["b"], .header⟩], [8]⟩, none] ∧
    (run id (fun _ => []) history).client.callCount = 3 := by
  refine ⟨?_, ?_⟩ <;> decide +kernel

/-- The hypotheses of `C136_headers` are met: a field with two values. -/
example : (run id (fun _ => []) (([.add ⟨201, [("a", "b"), ("a", "c"), ("d", "e")], 8⟩] : List (Op String Nat Nat Nat)) ++
    [.send ⟨2, 1, 0⟩])).results = [some ⟨201, [⟨"a", ["b", "c"], .header⟩, ⟨"d", ["e"], .header⟩], [8]⟩] :=
  C136_headers id (fun _ => []) _ ⟨2, 1, 0⟩ ⟨201, [("a", "b"), ("a", "c"), ("d", "e")], 8⟩
    [⟨"a", ["b", "c"], .header⟩, ⟨"d", ["e"], .header⟩] rfl (by decide +kernel) (by decide +kernel) (by decide +kernel)

end Verif.Transport.Mock

import Mathlib.Data.List.Basic
import Mathlib.Tactic.Common

/-!
# Opening and closing event streams (C85, C86)

Models `RequestPipeline.input_stream` and `duplex_stream` with the task that executes the request
(smithy_core/aio/client.py:119-150, 180-240, and of 242-593 the order of the steps and what an exception in each of them
leads to), and `DuplexEventStream` and `InputEventStream` (smithy_core/aio/eventstream.py:72-118, 152-184).

The tasks are interleaved in every way: the caller of the client, the task that executes the request, and the service.
Steps are finer than in the code, where only an `await` lets another task run.  Operations with an input stream are not
retried (client.py:86-88, 329-330), so there is one attempt.
-/

set_option autoImplicit false

namespace Verif.Pipeline.Streams

/-! ## Model -/

/-- The steps of executing a request (client.py:268-321, 384-533, 556-593) besides sending it. -/
inductive Stage where
  | readBeforeExecution | modifyBeforeSerialization | readBeforeSerialization | serialize
  | readAfterSerialization | modifyBeforeRetryLoop
  | readBeforeAttempt | resolveEndpoint | setServiceEndpoint | modifyBeforeSigning | readBeforeSigning
  | resolveAuth | getIdentity | sign | readAfterSigning | modifyBeforeTransmit | readBeforeTransmit
  | readAfterTransmit | modifyBeforeDeserialization | readBeforeDeserialization | deserialize | readAfterDeserialization
  | modifyBeforeAttemptCompletion | readAfterAttempt | modifyBeforeCompletion | readAfterExecution
  deriving DecidableEq, Repr

/-- Before the attempt (client.py:268-311). -/
def preparing : List Stage :=
  [.readBeforeExecution, .modifyBeforeSerialization, .readBeforeSerialization, .serialize, .readAfterSerialization,
    .modifyBeforeRetryLoop]

/-- In the attempt, before the request is sent (client.py:385-454). -/
def attempting : List Stage :=
  [.readBeforeAttempt, .resolveEndpoint, .setServiceEndpoint, .modifyBeforeSigning, .readBeforeSigning, .resolveAuth,
    .getIdentity, .sign, .readAfterSigning, .modifyBeforeTransmit, .readBeforeTransmit]

/-- After the response (client.py:484-524). -/
def reading : List Stage :=
  [.readAfterTransmit, .modifyBeforeDeserialization, .readBeforeDeserialization, .deserialize,
    .readAfterDeserialization]

/-- At the end of the attempt (client.py:551-570). -/
def finalizeAttempt : List Stage := [.modifyBeforeAttemptCompletion, .readAfterAttempt]

/-- At the end of the execution (client.py:572-593). -/
def finalizeExecution : List Stage := [.modifyBeforeCompletion, .readAfterExecution]

/-- Everything outside: interceptors, protocol, resolvers, signer, transport and service. -/
structure Env (R E : Type) where
  /-- whether the operation has an output stream, too -/
  duplex : Bool
  /-- what the caller gives -/
  input : R
  /-- a step before the request is sent or after the response; for an operation without auth, `getIdentity` and `sign`
  do nothing -/
  apply : Stage → R → Except E R
  /-- a hook of the end, with what it replaces the result by; an exception becomes the result (client.py:557-570) -/
  finish : Stage → Except E R → Except E R
  /-- whether the service answers before the end of the input -/
  early : Bool
  /-- its answer to a request, or an exception of the transport -/
  answer : R → Except E R
  /-- `asyncio.InvalidStateError` -/
  invalidState : E
  /-- `protocol.create_event_publisher` for a request -/
  makePublisher : R → Except E Unit
  /-- `protocol.create_event_receiver` -/
  makeReceiver : R → Except E Unit
  /-- `input_stream.close()` -/
  closeInput : Except E Unit
  /-- `output_stream.close()` -/
  closeOutput : Except E Unit

/-- Where the task that executes the request is. -/
inductive Exec (R E : Type) where
  | before (todo : List Stage) (r : R)
  | transmitting (r : R)
  | after (todo : List Stage) (r : R)
  | finishing (todo : List Stage) (result : Except E R)
  | done (result : Except E R)

/-- `request_future`. -/
inductive Fut (R : Type) where
  | pending
  | result (r : R)
  | cancelled

/-- Where the caller is: waiting for the stream, using it, in `await_output`, or in `close`. -/
inductive Caller (E : Type) where
  | opening
  | cancelled
  | openRaised (e : E)
  | open
  | awaiting
  | closingWait
  | closingInput
  | closingOutput
  | closed
  | closeRaised (e : E)

structure State (R E : Type) where
  exec : Exec R E
  future : Fut R
  /-- the request that the transport was told to send -/
  sent : Option R
  caller : Caller E
  /-- the request whose body the publisher writes to -/
  publisher : Option R
  inputClosed : Bool
  /-- `output_stream` of the stream is not `None` -/
  cached : Bool
  outputClosed : Bool

section
variable {R E : Type}

/-- When the client is called. -/
def init (env : Env R E) : State R E where
  exec := .before (preparing ++ attempting) env.input
  future := .pending
  sent := none
  caller := .opening
  publisher := none
  inputClosed := false
  cached := false
  outputClosed := false

/-- What is left to do after an exception in a step: an exception in an attempt also ends the attempt
(client.py:297-304, 314-321, 525-534). -/
def afterError (st : Stage) : List Stage :=
  if st ∈ preparing then finalizeExecution else finalizeAttempt ++ finalizeExecution

/-- The task that executes the request goes on.  It does nothing more when it is done, and waits while the service does
not answer. -/
def execStep (env : Env R E) (s : State R E) : Option (State R E) :=
  match s.exec with
  | .before (st :: todo) r =>
    match env.apply st r with
    | .ok r' => some { s with exec := .before todo r' }
    | .error e => some { s with exec := .finishing (afterError st) (.error e) }
  | .before [] r =>
    -- client.py:466-470; `set_result` raises if the future was cancelled
    match s.future with
    | .pending => some { s with exec := .transmitting r, sent := some r, future := .result r }
    | _ =>
      some { s with exec := .finishing (finalizeAttempt ++ finalizeExecution) (.error env.invalidState), sent := some r }
  | .transmitting r =>
    if env.early || s.inputClosed then
      match env.answer r with
      | .ok r' => some { s with exec := .after reading r' }
      | .error e => some { s with exec := .finishing (finalizeAttempt ++ finalizeExecution) (.error e) }
    else none
  | .after (st :: todo) r =>
    match env.apply st r with
    | .ok r' => some { s with exec := .after todo r' }
    | .error e => some { s with exec := .finishing (afterError st) (.error e) }
  | .after [] r => some { s with exec := .finishing (finalizeAttempt ++ finalizeExecution) (.ok r) }
  | .finishing (st :: todo) res => some { s with exec := .finishing todo (env.finish st res) }
  | .finishing [] res => some { s with exec := .done res }
  | .done _ => none

/-- `output_future` (client.py:145-150, 220-240), if it is done. -/
def output (env : Env R E) (s : State R E) : Option (Except E Unit) :=
  match s.exec with
  | .done (.ok r) => some (if env.duplex then env.makeReceiver r else .ok ())
  | .done (.error e) => some (.error e)
  | _ => none

/-- The caller goes on, unless it waits. -/
def callerStep (env : Env R E) (s : State R E) : Option (State R E) :=
  match s.caller with
  | .opening =>
    -- client.py:135-143, 202-218
    match s.future with
    | .result r =>
      match env.makePublisher r with
      | .ok _ => some { s with publisher := some r, caller := .open }
      | .error e => some { s with caller := .openRaised e }
    | _ => none
  | .awaiting =>
    -- eventstream.py:100-101, 172-174; the exception is the caller's, who still has the stream
    match output env s with
    | some (.ok _) => some { s with cached := true, caller := .open }
    | some (.error _) => some { s with caller := .open }
    | none => none
  | .closingWait =>
    -- eventstream.py:108-109
    match output env s with
    | some (.ok _) => some { s with cached := true, caller := .closingInput }
    | some (.error e) => some { s with caller := .closeRaised e }
    | none => none
  | .closingInput =>
    -- eventstream.py:111, 178
    match env.closeInput with
    | .ok _ =>
      some { s with inputClosed := true, caller := if env.duplex then .closingOutput else .closed }
    | .error e => some { s with caller := .closeRaised e }
  | .closingOutput =>
    -- eventstream.py:112
    match env.closeOutput with
    | .ok _ => some { s with outputClosed := true, caller := .closed }
    | .error e => some { s with caller := .closeRaised e }
  | _ => none

/-- The code goes on by itself. -/
inductive Step (env : Env R E) : State R E → State R E → Prop
  | exec {s s'} (h : execStep env s = some s') : Step env s s'
  | caller {s s'} (h : callerStep env s = some s') : Step env s s'

/-- Something the user decides: to cancel the call before the stream is there, to wait for the output, to close the
stream (eventstream.py:103-109, 176-178). -/
inductive User (env : Env R E) : State R E → State R E → Prop
  | cancel {s} (h : s.caller = .opening) (hf : s.future = .pending) :
      User env s { s with caller := .cancelled, future := .cancelled }
  | awaitOutput {s} (h : s.caller = .open) : User env s { s with caller := .awaiting }
  | close {s} (h : s.caller = .open) :
      User env s { s with caller := if env.duplex && !s.cached then .closingWait else .closingInput }

/-! ## Specification -/

/-- Any number of steps in any order. -/
inductive Steps (env : Env R E) : State R E → State R E → Prop
  | refl (s) : Steps env s s
  | step {s s' s''} (h : Steps env s s') (h' : Step env s' s'') : Steps env s s''
  | user {s s' s''} (h : Steps env s s') (h' : User env s' s'') : Steps env s s''

/-- What can happen when the client is called. -/
def Reach (env : Env R E) (s : State R E) : Prop := Steps env (init env) s

/-- Nothing goes on by itself any more: whoever waits now waits for ever, unless the user does something. -/
def Quiet (env : Env R E) (s : State R E) : Prop := ∀ s', ¬ Step env s s'

/-- The user has the stream. -/
def HasStream (s : State R E) : Prop :=
  match s.caller with
  | .opening | .cancelled | .openRaised _ => False
  | _ => True

/-- The steps before the request is sent, one after the other: what is sent, or the exception of the first that fails. -/
def prepare (env : Env R E) : List Stage → R → Except E R
  | [], r => .ok r
  | st :: todo, r =>
    match env.apply st r with
    | .ok r' => prepare env todo r'
    | .error e => .error e

/-- The seventeen steps that have to succeed before anything is sent. -/
def stagesBefore : List Stage :=
  [.readBeforeExecution, .modifyBeforeSerialization, .readBeforeSerialization, .serialize, .readAfterSerialization,
    .modifyBeforeRetryLoop, .readBeforeAttempt, .resolveEndpoint, .setServiceEndpoint, .modifyBeforeSigning,
    .readBeforeSigning, .resolveAuth, .getIdentity, .sign, .readAfterSigning, .modifyBeforeTransmit,
    .readBeforeTransmit]

/-! ## Lemmas -/

/-- What holds all the time. -/
structure Inv (env : Env R E) (s : State R E) : Prop where
  /-- before sending, nothing is sent, and what is left leads to what would be sent -/
  before : ∀ todo r, s.exec = .before todo r →
    s.sent = none ∧ (∀ x, s.future ≠ .result x) ∧ prepare env todo r = prepare env stagesBefore env.input
  /-- what was sent is what the steps made -/
  sent : ∀ r, s.sent = some r → prepare env stagesBefore env.input = .ok r
  /-- the future has what was sent -/
  future : ∀ r, s.future = .result r → s.sent = some r
  /-- the publisher has what was sent -/
  publisher : ∀ r, s.publisher = some r → s.sent = some r
  /-- whoever has the stream has a publisher -/
  stream : HasStream s → ∃ r, s.publisher = some r
  /-- if the steps fail nothing is sent -/
  failed : ∀ e, prepare env stagesBefore env.input = .error e → s.sent = none
  /-- if they succeed, either they are under way or it was sent -/
  succeeded : ∀ r, prepare env stagesBefore env.input = .ok r → (∃ todo x, s.exec = .before todo x) ∨ s.sent = some r
  /-- what was sent is in the future, unless that was cancelled -/
  told : ∀ r, s.sent = some r → s.future = .result r ∨ s.caller = .cancelled
  /-- the caller is waiting or cancelled or the future has a result -/
  waiting : (∀ r, s.future ≠ .result r) → (s.caller = .opening ∧ s.future = .pending) ∨ s.caller = .cancelled
  /-- while the request is under way -/
  transmitting : ∀ r, s.exec = .transmitting r → s.sent = some r
  /-- the future is cancelled by the caller only -/
  cancelled : s.future = .cancelled → s.caller = .cancelled
  caller_cancelled : s.caller = .cancelled → s.future = .cancelled

theorem inv_init (env : Env R E) : Inv env (init env) where
  before := by
    intro todo r h
    simp only [init, Exec.before.injEq] at h
    obtain ⟨rfl, rfl⟩ := h
    exact ⟨rfl, by simp [init], rfl⟩
  sent := by simp [init]
  future := by simp [init]
  publisher := by simp [init]
  stream := by simp [HasStream, init]
  failed := by simp [init]
  succeeded := fun _ _ => .inl ⟨_, _, rfl⟩
  told := by simp [init]
  waiting := fun _ => .inl ⟨rfl, rfl⟩
  transmitting := by simp [init]
  cancelled := by simp [init]
  caller_cancelled := by simp [init]

/-- A step of the task that leaves everything but its own place. -/
theorem Inv.move {env : Env R E} {s : State R E} (h : Inv env s) (x : Exec R E)
    (hb : ∀ todo r, x = .before todo r → s.sent = none ∧ (∀ x, s.future ≠ .result x) ∧
      prepare env todo r = prepare env stagesBefore env.input)
    (hs : ∀ r, prepare env stagesBefore env.input = .ok r → (∃ todo y, x = .before todo y) ∨ s.sent = some r)
    (ht : ∀ r, x ≠ .transmitting r) : Inv env { s with exec := x } where
  before := hb
  sent := h.sent
  future := h.future
  publisher := h.publisher
  stream := h.stream
  failed := h.failed
  succeeded := hs
  told := h.told
  waiting := h.waiting
  transmitting := fun r hr => absurd hr (ht r)
  cancelled := h.cancelled
  caller_cancelled := h.caller_cancelled

/-- If the task is past sending, the request was sent if it could be. -/
theorem Inv.past {env : Env R E} {s : State R E} (h : Inv env s) (hx : ∀ todo r, s.exec ≠ .before todo r) (r : R)
    (hr : prepare env stagesBefore env.input = .ok r) : s.sent = some r := by
  rcases h.succeeded r hr with ⟨todo, y, hy⟩ | hs
  · exact absurd hy (hx todo y)
  · exact hs

theorem Inv.exec {env : Env R E} {s s' : State R E} (h : Inv env s) (hs : execStep env s = some s') : Inv env s' := by
  simp only [execStep] at hs
  split at hs
  · rename_i st todo r hx
    obtain ⟨h1, h2, h3⟩ := h.before _ _ hx
    simp only [prepare] at h3
    split at hs
    · rename_i r' hr
      cases hs
      rw [hr] at h3
      refine h.move _ (fun todo' r'' he => ?_) (fun _ _ => .inl ⟨_, _, rfl⟩) (fun r => by simp)
      cases he
      exact ⟨h1, h2, h3⟩
    · rename_i e he
      cases hs
      rw [he] at h3
      exact h.move _ (by simp) (fun r hr => by rw [hr] at h3; cases h3) (fun r => by simp)
  · rename_i r hx
    obtain ⟨h1, h2, h3⟩ := h.before _ _ hx
    simp only [prepare] at h3
    have hf : ∀ e, ¬ prepare env stagesBefore env.input = .error e := fun e he => by rw [he] at h3; cases h3
    have hp : ∀ x, s.publisher ≠ some x := fun x hx => by have := h.publisher x hx; rw [h1] at this; cases this
    split at hs
    · rename_i hfut
      cases hs
      have hw := h.waiting (by rw [hfut]; simp)
      refine ⟨by simp, ?_, ?_, fun r hr => absurd hr (hp r), h.stream, fun e he => absurd he (hf e),
        ?_, ?_, ?_, ?_, by simp, ?_⟩
      · intro r' hr; cases hr; exact h3.symm
      · intro r' hr; cases hr; rfl
      · intro r' hr; rw [hr] at h3; cases h3; exact .inr rfl
      · intro r' hr; cases hr; exact .inl rfl
      · intro hn; exact absurd rfl (hn r)
      · intro r' hr; cases hr; rfl
      · intro hc
        have := h.caller_cancelled hc
        rw [hfut] at this; cases this
    · rename_i hfut
      cases hs
      have hw : s.caller = .cancelled := by
        rcases h.waiting h2 with hw | hw
        · exact absurd hw.2 hfut
        · exact hw
      refine ⟨by simp, ?_, fun r' hr => absurd hr (h2 r'), fun r hr => absurd hr (hp r), h.stream,
        fun e he => absurd he (hf e), ?_, fun r' _ => .inr hw, fun _ => .inr hw, by simp, h.cancelled,
        h.caller_cancelled⟩
      · intro r' hr; cases hr; exact h3.symm
      · intro r' hr; rw [hr] at h3; cases h3; exact .inr rfl
  · rename_i r hx
    have hpast : ∀ r, prepare env stagesBefore env.input = .ok r → s.sent = some r :=
      h.past (by rw [hx]; simp)
    split at hs
    · split at hs <;> cases hs <;>
        exact h.move _ (by simp) (fun r hr => .inr (hpast r hr)) (fun r => by simp)
    · cases hs
  · rename_i st todo r hx
    have hpast : ∀ r, prepare env stagesBefore env.input = .ok r → s.sent = some r :=
      h.past (by rw [hx]; simp)
    split at hs <;> cases hs <;>
      exact h.move _ (by simp) (fun r hr => .inr (hpast r hr)) (fun r => by simp)
  · rename_i r hx
    cases hs
    exact h.move _ (by simp) (fun r hr => .inr (h.past (by rw [hx]; simp) r hr)) (fun r => by simp)
  · rename_i st todo res hx
    cases hs
    exact h.move _ (by simp) (fun r hr => .inr (h.past (by rw [hx]; simp) r hr)) (fun r => by simp)
  · rename_i res hx
    cases hs
    exact h.move _ (by simp) (fun r hr => .inr (h.past (by rw [hx]; simp) r hr)) (fun r => by simp)
  · cases hs

/-- A step of the caller once the stream is there. -/
theorem Inv.use {env : Env R E} {s : State R E} (h : Inv env s) (hs : HasStream s) (c : Caller E) (i k o : Bool)
    (hc : c ≠ .cancelled) :
    Inv env { s with caller := c, inputClosed := i, cached := k, outputClosed := o } where
  before := h.before
  sent := h.sent
  future := h.future
  publisher := h.publisher
  stream := fun _ => h.stream hs
  failed := h.failed
  succeeded := h.succeeded
  told := fun r hr => by
    rcases h.told r hr with h | h
    · exact .inl h
    · rw [HasStream, h] at hs; exact hs.elim
  waiting := fun hn => by
    rcases h.waiting hn with h | h
    · rw [HasStream, h.1] at hs; exact hs.elim
    · rw [HasStream, h] at hs; exact hs.elim
  transmitting := h.transmitting
  cancelled := fun hf => by have := h.cancelled hf; rw [HasStream, this] at hs; exact hs.elim
  caller_cancelled := fun h => absurd h hc

theorem Inv.caller {env : Env R E} {s s' : State R E} (h : Inv env s) (hs : callerStep env s = some s') :
    Inv env s' := by
  simp only [callerStep] at hs
  split at hs
  · split at hs
    · rename_i r hr
      split at hs
      · cases hs
        refine ⟨h.before, h.sent, h.future, ?_, fun _ => ⟨_, rfl⟩, h.failed, h.succeeded, ?_, ?_, h.transmitting, ?_, ?_⟩
        · intro r' hr'; cases hr'; exact h.future r hr
        · intro r' hr'
          have := h.future r hr
          rw [this] at hr'; cases hr'
          exact .inl hr
        · intro hn; exact absurd hr (hn r)
        · intro hf; rw [show s.future = .result r from hr] at hf; cases hf
        · intro hf; cases hf
      · cases hs
        refine ⟨h.before, h.sent, h.future, h.publisher, fun hst => hst.elim, h.failed, h.succeeded, ?_, ?_, h.transmitting,
          ?_, ?_⟩
        · intro r' hr'
          have := h.future r hr
          rw [show s.sent = some r' from hr'] at this; cases this
          exact .inl hr
        · intro hn; exact absurd hr (hn r)
        · intro hf; rw [show s.future = .result r from hr] at hf; cases hf
        · intro hf; cases hf
    · cases hs
  · rename_i hc
    have hst : HasStream s := by rw [HasStream, hc]; trivial
    split at hs <;> cases hs <;> exact h.use hst _ _ _ _ (by simp)
  · rename_i hc
    have hst : HasStream s := by rw [HasStream, hc]; trivial
    split at hs <;> cases hs <;> exact h.use hst _ _ _ _ (by simp)
  · rename_i hc
    have hst : HasStream s := by rw [HasStream, hc]; trivial
    split at hs <;> cases hs
    · exact h.use hst _ _ _ _ (by cases env.duplex <;> simp)
    · exact h.use hst _ _ _ _ (by simp)
  · rename_i hc
    have hst : HasStream s := by rw [HasStream, hc]; trivial
    split at hs <;> cases hs <;> exact h.use hst _ _ _ _ (by simp)
  · cases hs

theorem Inv.user {env : Env R E} {s s' : State R E} (h : Inv env s) (hs : User env s s') : Inv env s' := by
  cases hs with
  | cancel hc hf =>
    refine ⟨fun todo r hx => ?_, h.sent, by simp, h.publisher, fun hst => hst.elim, h.failed, h.succeeded,
      fun r hr => ?_, fun _ => .inr rfl, h.transmitting, fun _ => rfl, fun _ => rfl⟩
    · obtain ⟨h1, _, h3⟩ := h.before todo r hx
      exact ⟨h1, by simp, h3⟩
    · exact .inr rfl
  | awaitOutput hc =>
    have hst : HasStream s := by rw [HasStream, hc]; trivial
    exact h.use hst _ _ _ _ (by simp)
  | close hc =>
    have hst : HasStream s := by rw [HasStream, hc]; trivial
    refine h.use hst _ _ _ _ ?_; split <;> simp

theorem Inv.steps {env : Env R E} {s s' : State R E} (h : Inv env s) (hs : Steps env s s') : Inv env s' := by
  induction hs with
  | refl => exact h
  | step _ h' ih =>
    cases h' with
    | exec h' => exact ih.exec h'
    | caller h' => exact ih.caller h'
  | user _ h' ih => exact ih.user h'

theorem inv {env : Env R E} {s : State R E} (h : Reach env s) : Inv env s := (inv_init env).steps h

theorem Steps.trans {env : Env R E} {s s' s'' : State R E} (h : Steps env s s') (h' : Steps env s' s'') :
    Steps env s s'' := by
  induction h' with
  | refl => exact h
  | step _ h2 ih => exact .step ih h2
  | user _ h2 ih => exact .user ih h2

/-- What is left to do for the task. -/
def execMeasure : Exec R E → Nat
  | .before todo _ => todo.length + 14
  | .transmitting _ => 13
  | .after todo _ => todo.length + 6
  | .finishing todo _ => todo.length + 1
  | .done _ => 0

/-- What is left to do for the caller, if the user decides nothing more. -/
def callerMeasure : Caller E → Nat
  | .opening => 1
  | .awaiting => 1
  | .closingWait => 3
  | .closingInput => 2
  | .closingOutput => 1
  | _ => 0

theorem afterError_length (st : Stage) : (afterError st).length ≤ 4 := by
  unfold afterError; split <;> simp [finalizeExecution, finalizeAttempt]

theorem execStep_measure {env : Env R E} {s s' : State R E} (h : execStep env s = some s') :
    execMeasure s'.exec < execMeasure s.exec ∧ s'.caller = s.caller := by
  simp only [execStep] at h
  split at h
  · rename_i st todo r hx
    have := afterError_length st
    split at h <;> cases h <;> simp only [hx, execMeasure, List.length_cons, and_true] <;> omega
  · rename_i r hx
    split at h <;> cases h <;>
      simp [hx, execMeasure, finalizeExecution, finalizeAttempt]
  · rename_i r hx
    split at h
    · split at h <;> cases h <;> simp [hx, execMeasure, finalizeExecution, finalizeAttempt, reading]
    · cases h
  · rename_i st todo r hx
    have := afterError_length st
    split at h <;> cases h <;> simp only [hx, execMeasure, List.length_cons, and_true] <;> omega
  · rename_i r hx
    cases h
    simp [hx, execMeasure, finalizeExecution, finalizeAttempt]
  · rename_i st todo r hx
    cases h
    simp [hx, execMeasure]
  · rename_i r hx
    cases h
    simp [hx, execMeasure]
  · cases h

theorem callerStep_measure {env : Env R E} {s s' : State R E} (h : callerStep env s = some s') :
    callerMeasure s'.caller < callerMeasure s.caller ∧ s'.exec = s.exec := by
  simp only [callerStep] at h
  split at h
  · rename_i hc
    split at h
    · split at h <;> cases h <;> simp [hc, callerMeasure]
    · cases h
  all_goals first
    | cases h
    | (rename_i hc
       split at h <;> cases h <;> cases env.duplex <;> simp [hc, callerMeasure])

/-- The steps of the code by itself are bounded. -/
def measure (s : State R E) : Nat := execMeasure s.exec + callerMeasure s.caller

theorem step_measure {env : Env R E} {s s' : State R E} (h : Step env s s') : measure s' < measure s := by
  cases h with
  | exec h => obtain ⟨h1, h2⟩ := execStep_measure h; simp only [measure, h2]; omega
  | caller h => obtain ⟨h1, h2⟩ := callerStep_measure h; simp only [measure, h2]; omega

theorem quiet_exec {env : Env R E} {s : State R E} (h : Quiet env s) : execStep env s = none := by
  cases hs : execStep env s with
  | none => rfl
  | some s' => exact absurd (.exec hs) (h s')

theorem quiet_caller {env : Env R E} {s : State R E} (h : Quiet env s) : callerStep env s = none := by
  cases hs : callerStep env s with
  | none => rfl
  | some s' => exact absurd (.caller hs) (h s')

theorem quiet_of {env : Env R E} {s : State R E} (h1 : execStep env s = none) (h2 : callerStep env s = none) :
    Quiet env s := by
  intro s' hs
  cases hs with
  | exec h => rw [h1] at h; cases h
  | caller h => rw [h2] at h; cases h

/-- From everywhere a state is reached, by the code alone, in which nothing goes on. -/
theorem settle (env : Env R E) (s : State R E) : ∃ s', Steps env s s' ∧ Quiet env s' := by
  generalize hn : measure s = n
  induction n using Nat.strongRecOn generalizing s with
  | _ n ih =>
    by_cases h : ∃ s', Step env s s'
    · obtain ⟨s', h⟩ := h
      have := step_measure h
      obtain ⟨s'', h1, h2⟩ := ih (measure s') (by omega) s' rfl
      exact ⟨s'', (Steps.step (.refl s) h).trans h1, h2⟩
    · exact ⟨s, .refl s, fun s' hs => h ⟨s', hs⟩⟩

/-- Where the task can stop. -/
theorem execStep_none {env : Env R E} {s : State R E} (h : execStep env s = none) :
    (∃ res, s.exec = .done res) ∨ (∃ r, s.exec = .transmitting r) ∧ env.early = false ∧ s.inputClosed = false := by
  simp only [execStep] at h
  split at h
  · split at h <;> cases h
  · split at h <;> cases h
  · rename_i r hx
    split at h
    · split at h <;> cases h
    · rename_i hc
      refine .inr ⟨⟨r, hx⟩, ?_⟩
      cases h1 : env.early <;> cases h2 : s.inputClosed <;> simp_all
  · split at h <;> cases h
  · cases h
  · cases h
  · cases h
  · rename_i res hx; exact .inl ⟨res, hx⟩

/-! ## Theorems: opening -/

/-- **C85.**  Whoever is given a stream is given one for the request that the transport was told to send, which is what
the steps before sending made of the input. -/
theorem C85_ready (env : Env R E) (s : State R E) (h : Reach env s) (hs : HasStream s) :
    ∃ r, s.publisher = some r ∧ s.sent = some r ∧ prepare env stagesBefore env.input = .ok r := by
  obtain ⟨r, hr⟩ := (inv h).stream hs
  exact ⟨r, hr, (inv h).publisher r hr, (inv h).sent r ((inv h).publisher r hr)⟩

/-- **C85 (partial).**  If the steps before sending succeed, the call does not wait for ever: when nothing goes on any
more, the caller has the stream or got an exception, or has cancelled the call.  This holds whether the service answers
before the end of the input or after it, and whatever it answers.  The code alone takes finitely many steps, in any
order, so that such a point is reached.  Missing: the case that a step fails, see `C85_failure_fails`. -/
theorem C85_opens_partial (env : Env R E) (r : R) (hr : prepare env stagesBefore env.input = .ok r) (s : State R E)
    (h : Reach env s) :
    (Quiet env s → s.caller ≠ .opening) ∧ (∀ s', Step env s s' → measure s' < measure s) ∧
    ∃ s', Steps env s s' ∧ Quiet env s' := by
  refine ⟨fun hq hc => ?_, fun _ => step_measure, settle env s⟩
  have hi := inv h
  have hsent : s.sent = some r := by
    refine hi.past (fun todo x hx => ?_) r hr
    rcases execStep_none (quiet_exec hq) with ⟨res, h⟩ | ⟨⟨r, h⟩, _⟩ <;> rw [h] at hx <;> cases hx
  have hf : s.future = .result r := by
    rcases hi.told r hsent with h | h
    · exact h
    · rw [hc] at h; cases h
  have := quiet_caller hq
  simp only [callerStep, hc, hf] at this
  split at this <;> cases this

/-- **C85 (negative).**  If any of the steps before sending raises an exception (a hook, the serializer, the endpoint
resolver, the identity resolver, the signer, ...), the caller never gets it: however long one waits, the caller is still
waiting unless it cancels the call, and there is a point where nothing goes on and it waits. -/
theorem C85_failure_fails (env : Env R E) (e : E) (he : prepare env stagesBefore env.input = .error e) :
    (∀ s, Reach env s → s.caller = .opening ∨ s.caller = .cancelled) ∧
    ∃ s, Reach env s ∧ Quiet env s ∧ s.caller = .opening ∧ ∃ res, s.exec = .done res := by
  have key : ∀ s, Inv env s → ∀ r, s.future ≠ .result r := fun s hi r hr => by
    have := hi.future r hr
    rw [hi.failed e he] at this; cases this
  refine ⟨fun s h => ?_, ?_⟩
  · rcases (inv h).waiting (key s (inv h)) with h | h
    · exact .inl h.1
    · exact .inr h
  · -- only the task goes on
    have run : ∀ n (s : State R E), Reach env s → s.caller = .opening → execMeasure s.exec = n →
        ∃ s', Reach env s' ∧ Quiet env s' ∧ s'.caller = .opening ∧ ∃ res, s'.exec = .done res := by
      intro n
      induction n using Nat.strongRecOn with
      | _ n ih =>
        intro s hs hc hn
        cases hx : execStep env s with
        | none =>
          refine ⟨s, hs, quiet_of hx ?_, hc, ?_⟩
          · simp only [callerStep, hc]
            cases hf : s.future with
            | result r => exact absurd hf (key s (inv hs) r)
            | _ => rfl
          · rcases execStep_none hx with h | ⟨⟨r, h⟩, _⟩
            · exact h
            · have := (inv hs).transmitting r h
              rw [(inv hs).failed e he] at this; cases this
        | some s' =>
          obtain ⟨h1, h2⟩ := execStep_measure hx
          exact ih _ (by omega) s' (.step hs (.exec hx)) (by rw [h2, hc]) rfl
    exact run _ (init env) (.refl _) rfl rfl

/-- **C85 (negative).**  A call that was cancelled before anything was sent sends its request all the same. -/
theorem C85_cancel_fails (env : Env R E) (r : R) (hr : prepare env stagesBefore env.input = .ok r) :
    ∃ s s', Reach env s ∧ s.caller = .cancelled ∧ s.sent = none ∧ Steps env s s' ∧ s'.sent = some r ∧
      s'.caller = .cancelled := by
  have h1 : Reach env { init env with caller := .cancelled, future := .cancelled } :=
    .user (.refl _) (.cancel rfl rfl)
  have run : ∀ n (s : State R E), Reach env s → s.caller = .cancelled → execMeasure s.exec = n →
      ∃ s', Steps env s s' ∧ s'.sent = some r ∧ s'.caller = .cancelled := by
    intro n
    induction n using Nat.strongRecOn with
    | _ n ih =>
      intro s hs hc hn
      cases hx : execStep env s with
      | none =>
        refine ⟨s, .refl _, (inv hs).past (fun todo x hy => ?_) r hr, hc⟩
        rcases execStep_none hx with ⟨res, h⟩ | ⟨⟨r, h⟩, _⟩ <;> rw [h] at hy <;> cases hy
      | some s' =>
        obtain ⟨h1, h2⟩ := execStep_measure hx
        obtain ⟨s'', h3, h4, h5⟩ := ih _ (by omega) s' (.step hs (.exec hx)) (by rw [h2, hc]) rfl
        exact ⟨s'', (Steps.step (.refl s) (.exec hx)).trans h3, h4, h5⟩
  obtain ⟨s', h2, h3, h4⟩ := run _ _ h1 rfl rfl
  exact ⟨_, s', h1, rfl, rfl, h2, h3, h4⟩

/-! ## Theorems: closing -/

/-- What holds about closing. -/
structure Closing (env : Env R E) (s : State R E) : Prop where
  order : s.outputClosed = true → s.inputClosed = true
  output : s.caller = .closingOutput → s.inputClosed = true ∧ env.duplex = true
  closed : s.caller = .closed → s.inputClosed = true ∧ (env.duplex = true → s.outputClosed = true)
  wait : s.caller = .closingWait → env.duplex = true ∧ s.inputClosed = false
  notYet : s.inputClosed = true → s.caller = .closingOutput ∨ s.caller = .closed ∨ ∃ e, s.caller = .closeRaised e

theorem Closing.exec {env : Env R E} {s s' : State R E} (h : Closing env s) (hs : execStep env s = some s') :
    Closing env s' := by
  have : s'.caller = s.caller ∧ s'.inputClosed = s.inputClosed ∧ s'.outputClosed = s.outputClosed := by
    simp only [execStep] at hs
    split at hs
    · split at hs <;> cases hs <;> exact ⟨rfl, rfl, rfl⟩
    · split at hs <;> cases hs <;> exact ⟨rfl, rfl, rfl⟩
    · split at hs
      · split at hs <;> cases hs <;> exact ⟨rfl, rfl, rfl⟩
      · cases hs
    · split at hs <;> cases hs <;> exact ⟨rfl, rfl, rfl⟩
    all_goals cases hs
    all_goals exact ⟨rfl, rfl, rfl⟩
  obtain ⟨h1, h2, h3⟩ := this
  exact ⟨by rw [h2, h3]; exact h.order, by rw [h1, h2]; exact h.output, by rw [h1, h2, h3]; exact h.closed,
    by rw [h1, h2]; exact h.wait, by rw [h1, h2]; exact h.notYet⟩

/-- The input stream is open while the caller does not close it. -/
theorem Closing.isOpen {env : Env R E} {s : State R E} (h : Closing env s) (h1 : s.caller ≠ .closingOutput)
    (h2 : s.caller ≠ .closed) (h3 : ∀ e, s.caller ≠ .closeRaised e) : s.inputClosed = false := by
  cases hi : s.inputClosed with
  | false => rfl
  | true => rcases h.notYet hi with h | h | ⟨e, h⟩
            · exact absurd h h1
            · exact absurd h h2
            · exact absurd h (h3 e)

theorem Closing.caller {env : Env R E} {s s' : State R E} (h : Closing env s) (hs : callerStep env s = some s') :
    Closing env s' := by
  simp only [callerStep] at hs
  split at hs
  · rename_i hc
    have hi := h.isOpen (by simp [hc]) (by simp [hc]) (by simp [hc])
    split at hs
    · split at hs <;> cases hs <;> exact ⟨h.order, by simp, by simp, by simp, by simp [hi]⟩
    · cases hs
  · rename_i hc
    have hi := h.isOpen (by simp [hc]) (by simp [hc]) (by simp [hc])
    split at hs <;> cases hs <;> exact ⟨h.order, by simp, by simp, by simp, by simp [hi]⟩
  · rename_i hc
    have hi := h.isOpen (by simp [hc]) (by simp [hc]) (by simp [hc])
    split at hs <;> cases hs <;> exact ⟨h.order, by simp, by simp, by simp, by simp [hi]⟩
  · rename_i hc
    have hi := h.isOpen (by simp [hc]) (by simp [hc]) (by simp [hc])
    split at hs <;> cases hs
    · cases hd : env.duplex <;> exact ⟨fun _ => rfl, by simp [hd], by simp [hd], by simp, by simp⟩
    · exact ⟨h.order, by simp, by simp, by simp, by simp [hi]⟩
  · rename_i hc
    obtain ⟨hi, hd⟩ := h.output hc
    split at hs <;> cases hs
    · exact ⟨fun _ => hi, by simp, fun _ => ⟨hi, fun _ => rfl⟩, by simp, fun _ => .inr (.inl rfl)⟩
    · exact ⟨h.order, by simp, by simp, by simp, fun _ => .inr (.inr ⟨_, rfl⟩)⟩
  · cases hs

theorem closing {env : Env R E} {s : State R E} (h : Reach env s) : Closing env s := by
  induction h with
  | refl => exact ⟨by simp [init], by simp [init], by simp [init], by simp [init], by simp [init]⟩
  | step _ h' ih =>
    cases h' with
    | exec h' => exact ih.exec h'
    | caller h' => exact ih.caller h'
  | user _ h' ih =>
    cases h' with
    | cancel hc hf =>
      have hi := ih.isOpen (by simp [hc]) (by simp [hc]) (by simp [hc])
      exact ⟨ih.order, by simp, by simp, by simp, by simp [hi]⟩
    | awaitOutput hc =>
      have hi := ih.isOpen (by simp [hc]) (by simp [hc]) (by simp [hc])
      exact ⟨ih.order, by simp, by simp, by simp, by simp [hi]⟩
    | close hc =>
      have hi := ih.isOpen (by simp [hc]) (by simp [hc]) (by simp [hc])
      refine ⟨ih.order, ?_, ?_, ?_, by simp [hi]⟩
      · split <;> simp
      · split <;> simp
      · split
        · rename_i hd; simp only [Bool.and_eq_true] at hd; exact fun _ => ⟨hd.1, hi⟩
        · simp

/-- **C86.**  Once `close` has returned, the input stream is closed and so is the output stream if there is one; the
input stream is always closed first. -/
theorem C86_closed (env : Env R E) (s : State R E) (h : Reach env s) :
    (s.caller = .closed → s.inputClosed = true ∧ (env.duplex = true → s.outputClosed = true)) ∧
    (s.outputClosed = true → s.inputClosed = true) :=
  ⟨(closing h).closed, (closing h).order⟩

/-- **C86 (partial).**  `close` does not wait for ever if the service answers before the end of the input, or if there is
no output stream, or if the output was awaited before.  Missing: a service that answers after the end of the input, see
`C86_late_answer_fails`. -/
theorem C86_close_partial (env : Env R E) (s : State R E) (h : Reach env s) (hq : Quiet env s)
    (hc : s.caller = .closingWait ∨ s.caller = .closingInput ∨ s.caller = .closingOutput) :
    env.early = false ∧ env.duplex = true ∧ s.caller = .closingWait ∧ s.inputClosed = false := by
  have hq' := quiet_caller hq
  rcases hc with hc | hc | hc
  · obtain ⟨hd, hi⟩ := (closing h).wait hc
    refine ⟨?_, hd, hc, hi⟩
    rcases execStep_none (quiet_exec hq) with ⟨res, hx⟩ | ⟨_, he, _⟩
    · simp only [callerStep, hc] at hq'
      have : ∃ o, output env s = some o := by
        simp only [output, hx]
        cases res <;> exact ⟨_, rfl⟩
      obtain ⟨o, ho⟩ := this
      rw [ho] at hq'
      cases o <;> cases hq'
    · exact he
  · simp only [callerStep, hc] at hq'
    split at hq' <;> cases hq'
  · simp only [callerStep, hc] at hq'
    split at hq' <;> cases hq'

/-- The caller can get the stream at once. -/
theorem opens_at_once (env : Env R E) (r : R) (hr : prepare env stagesBefore env.input = .ok r)
    (hp : env.makePublisher r = .ok ()) :
    ∃ s, Reach env s ∧ s.caller = .open ∧ s.exec = .transmitting r ∧ s.cached = false ∧ s.inputClosed = false ∧
      s.outputClosed = false := by
  have run : ∀ todo x, prepare env todo x = .ok r → Steps env { init env with exec := .before todo x }
      { init env with exec := .before [] r } := by
    intro todo
    induction todo with
    | nil => intro x hx; cases hx; exact .refl _
    | cons st todo ih =>
      intro x hx
      simp only [prepare] at hx
      cases ha : env.apply st x with
      | error e => rw [ha] at hx; cases hx
      | ok x' =>
        rw [ha] at hx
        refine (Steps.step (.refl _) (.exec ?_)).trans (ih x' hx)
        simp only [execStep, ha]
  refine ⟨{ init env with exec := .transmitting r, sent := some r, future := .result r, publisher := some r,
                          caller := .open }, .step (.step (run _ _ hr) (.exec rfl)) (.caller ?_), rfl, rfl, rfl, rfl, rfl⟩
  simp only [callerStep, init, hp]

/-- **C86 (negative).**  If the service answers only after the end of the input, closing a stream in both directions
whose output was not awaited waits for ever: `close` waits for the output before it closes the input. -/
theorem C86_late_answer_fails (env : Env R E) (r : R) (hr : prepare env stagesBefore env.input = .ok r)
    (hp : env.makePublisher r = .ok ()) (hd : env.duplex = true) (he : env.early = false) :
    ∃ s, Reach env s ∧ s.caller = .closingWait ∧ ∀ s', Steps env s s' → s' = s := by
  obtain ⟨s, h, hc, hx, hk, hi, _⟩ := opens_at_once env r hr hp
  refine ⟨_, .user h (.close hc), by simp [hd, hk], fun s' hs => ?_⟩
  simp only [hd, hk, Bool.not_false, Bool.and_true, if_true] at hs ⊢
  induction hs with
  | refl => rfl
  | step _ h' ih =>
    subst ih
    cases h' with
    | exec h' => simp only [execStep, hx, he, hi] at h'; cases h'
    | caller h' => simp only [callerStep, output, hx] at h'; cases h'
  | user _ h' ih =>
    subst ih
    cases h' with
    | cancel hc => cases hc
    | awaitOutput hc => cases hc
    | close hc => cases hc

/-- The rest of the execution, given the answer. -/
theorem answered (env : Env R E) (e : E) (s : State R E) (r : R) (hx : s.exec = .transmitting r)
    (he : env.early = true) (ha : env.answer r = .error e) (hf : ∀ st x, env.finish st x = x) :
    Steps env s { s with exec := .done (.error e) } := by
  have run : ∀ todo, Steps env { s with exec := .finishing todo (.error e) } { s with exec := .done (.error e) } := by
    intro todo
    induction todo with
    | nil => exact .step (.refl _) (.exec rfl)
    | cons st todo ih =>
      refine (Steps.step (.refl _) (.exec ?_)).trans ih
      simp only [execStep, hf]
  refine (Steps.step (.refl _) (.exec ?_)).trans (run (finalizeAttempt ++ finalizeExecution))
  simp only [execStep, hx, he, Bool.true_or, if_true, ha]

/-- **C86 (negative).**  If the call fails, closing a stream in both directions raises the exception of the call and
leaves the input stream open. -/
theorem C86_error_fails (env : Env R E) (r : R) (e : E) (hr : prepare env stagesBefore env.input = .ok r)
    (hp : env.makePublisher r = .ok ()) (hd : env.duplex = true) (he : env.early = true)
    (ha : env.answer r = .error e) (hf : ∀ st x, env.finish st x = x) :
    ∃ s, Reach env s ∧ s.caller = .closeRaised e ∧ s.inputClosed = false ∧ ∀ s', Steps env s s' → s' = s := by
  obtain ⟨s, h, hc, hx, hk, hi, _⟩ := opens_at_once env r hr hp
  have h1 : Reach env { s with caller := .closingWait } := by
    have := Steps.user h (.close hc)
    rwa [show (env.duplex && !s.cached) = true by rw [hd, hk]; rfl, if_pos rfl] at this
  have h2 := Steps.trans h1 (answered env e { s with caller := .closingWait } r hx he ha hf)
  refine ⟨{ s with exec := .done (.error e), caller := .closeRaised e }, .step h2 (.caller ?_), rfl, hi, fun s' hs => ?_⟩
  · simp only [callerStep, output]
  · induction hs with
    | refl => rfl
    | step _ h' ih =>
      subst ih
      cases h' with
      | exec h' => simp only [execStep] at h'; cases h'
      | caller h' => simp only [callerStep] at h'; cases h'
    | user _ h' ih =>
      subst ih
      cases h' with
      | cancel hc => cases hc
      | awaitOutput hc => cases hc
      | close hc => cases hc

/-- **C86 (negative).**  If closing the input stream raises an exception, the output stream is left open. -/
theorem C86_input_error_fails (env : Env R E) (e : E) (he : env.closeInput = .error e) (s : State R E)
    (h : Reach env s) : s.outputClosed = false := by
  suffices h : s.caller ≠ .closingOutput ∧ s.outputClosed = false from h.2
  induction h with
  | refl => simp [init]
  | @step s1 s2 _ h' ih =>
    cases h' with
    | exec h' =>
      have hcl : s2.caller = s1.caller ∧ s2.outputClosed = s1.outputClosed := by
        simp only [execStep] at h'
        split at h'
        · split at h' <;> cases h' <;> exact ⟨rfl, rfl⟩
        · split at h' <;> cases h' <;> exact ⟨rfl, rfl⟩
        · split at h'
          · split at h' <;> cases h' <;> exact ⟨rfl, rfl⟩
          · cases h'
        · split at h' <;> cases h' <;> exact ⟨rfl, rfl⟩
        all_goals first | (cases h'; done) | (cases h'; exact ⟨rfl, rfl⟩)
      rw [hcl.1, hcl.2]; exact ih
    | caller h' =>
      simp only [callerStep, he] at h'
      split at h'
      · split at h'
        · split at h' <;> cases h' <;> exact ⟨by simp, ih.2⟩
        · cases h'
      · split at h' <;> cases h' <;> exact ⟨by simp, ih.2⟩
      · split at h' <;> cases h' <;> exact ⟨by simp, ih.2⟩
      · cases h'; exact ⟨by simp, ih.2⟩
      · rename_i hc; exact absurd hc ih.1
      · cases h'
  | user _ h' ih =>
    cases h' with
    | cancel hc hf => exact ⟨by simp, ih.2⟩
    | awaitOutput hc => exact ⟨by simp, ih.2⟩
    | close hc => refine ⟨?_, ih.2⟩; split <;> simp

end

/-! ## The hypotheses are met -/

/-- A service that counts the steps; the n-th step fails if told so. -/
def exampleEnv (duplex early fail late : Bool) : Env Nat String where
  duplex := duplex
  input := 0
  apply := fun st n => if fail && st = .sign then .error "no credentials" else .ok (n + 1)
  finish := fun _ x => x
  early := early
  answer := fun n => if late then .error "timeout" else .ok (n + 1)
  invalidState := "invalid state"
  makePublisher := fun _ => .ok ()
  makeReceiver := fun _ => .ok ()
  closeInput := .ok ()
  closeOutput := .ok ()

example : prepare (exampleEnv true false false false) stagesBefore 0 = .ok 17 := rfl

example : prepare (exampleEnv true false true false) stagesBefore 0 = .error "no credentials" := rfl

/-- A stream can be closed in the end, and not before the hypotheses of `C86_late_answer_fails` are excluded. -/
example : (exampleEnv true false false false).makePublisher 17 = .ok () ∧ (exampleEnv true true false true).answer 17 =
    .error "timeout" := ⟨rfl, rfl⟩

end Verif.Pipeline.Streams

import Verif.Pipeline.Model

/-!
# What a caller and the author of an interceptor rely on

The documented order of hooks and steps, and where each step's message comes from, stated on the
trace alone.
-/

set_option autoImplicit false

namespace Verif.Pipeline

/-! ## Order -/

/-- Before the retry loop. -/
def beforeLoop : List Stage :=
  [.readBeforeExecution, .modifyBeforeSerialization, .readBeforeSerialization, .serialize,
   .readAfterSerialization, .modifyBeforeRetryLoop]

/-- One attempt, with or without authentication. -/
def attemptSteps (auth : Bool) : List Stage :=
  [.readBeforeAttempt, .resolveEndpoint, .setEndpoint, .modifyBeforeSigning, .readBeforeSigning,
   .resolveAuth] ++ (if auth then [.getIdentity, .sign] else []) ++
  [.readAfterSigning, .modifyBeforeTransmit, .readBeforeTransmit, .send, .readAfterTransmit,
   .modifyBeforeDeserialization, .readBeforeDeserialization, .deserialize,
   .readAfterDeserialization]

def attemptEnd : List Stage := [.modifyBeforeAttemptCompletion, .readAfterAttempt]

/-- A finished attempt: its steps up to some point, then its two completion hooks. -/
def IsAttempt (l : List Stage) : Prop :=
  ∃ auth p, p ≠ [] ∧ p <+: attemptSteps auth ∧ l = p ++ attemptEnd

/-- A round starts with a pause or not. -/
def IsPause (l : List Stage) : Prop := l = [] ∨ l = [.sleep]

/-- The retry loop after a token was obtained. -/
inductive Rounds : List Stage → Prop where
  | pauseFailed : Rounds [.sleep]
  | success {z a : List Stage} : IsPause z → IsAttempt a → Rounds (z ++ a ++ [.recordSuccess])
  | refused {z a : List Stage} : IsPause z → IsAttempt a → Rounds (z ++ a ++ [.refreshToken])
  | refusedWithPause {z a : List Stage} : IsPause z → IsAttempt a →
      Rounds (z ++ a ++ [.refreshToken, .sleepAfterRefusal])
  | rewindFailed {z a : List Stage} : IsPause z → IsAttempt a →
      Rounds (z ++ a ++ [.refreshToken, .rewindBody])
  | again {z a l : List Stage} : IsPause z → IsAttempt a → Rounds l →
      Rounds (z ++ a ++ [.refreshToken, .rewindBody] ++ l)

/-- What may follow the steps before the loop. -/
def IsLoop (retryable : Bool) (l : List Stage) : Prop :=
  if retryable then l = [.acquireToken] ∨ ∃ l', Rounds l' ∧ l = .acquireToken :: l'
  else IsAttempt l

def executionEnd : List Stage := [.modifyBeforeCompletion, .readAfterExecution]

/-- A finished execution: a non-empty initial part of the steps before the loop, the loop if that
part was complete and went well, then the two completion hooks. -/
def Documented (retryable : Bool) (l : List Stage) : Prop :=
  ∃ p loop, p ≠ [] ∧ p <+: beforeLoop ∧ (loop = [] ∨ p = beforeLoop ∧ IsLoop retryable loop) ∧
    l = p ++ loop ++ executionEnd

section
variable {I Q R O E : Type}

/-- The steps of an execution with those of its attempts in place. -/
def XEv.stages : XEv I Q R O E → List Stage
  | .step e => [e.stage]
  | .attempt _ evs => evs.map Ev.stage

def stagesOf (t : List (XEv I Q R O E)) : List Stage := t.flatMap XEv.stages

/-! ## Messages -/

/-- Steps whose result takes the place of the message they were given. -/
def Stage.replaces : Stage → Bool
  | .modifyBeforeSerialization | .serialize | .modifyBeforeRetryLoop | .setEndpoint
  | .modifyBeforeSigning | .sign | .modifyBeforeTransmit | .send | .modifyBeforeDeserialization
  | .deserialize | .modifyBeforeAttemptCompletion | .modifyBeforeCompletion => true
  | _ => false

/-- Steps that are not given the message: the resolvers, and the retry strategy's. -/
def Stage.isSide : Stage → Bool
  | .resolveEndpoint | .resolveAuth | .getIdentity => true
  | .acquireToken | .sleep | .refreshToken | .sleepAfterRefusal | .rewindBody | .recordSuccess => true
  | _ => false

/-- The message after a step: its result if it replaces the message, the failure if it raised. -/
def after (cur : Val I Q R O E) (e : Ev I Q R O E) : Val I Q R O E :=
  match e.ret with
  | .raised err => .outcome (.error err)
  | .ok v => if e.stage.replaces then v else cur
  | .aborted => cur

/-- Every step is given what the previous ones left. -/
def Flow : Val I Q R O E → List (Ev I Q R O E) → Prop
  | _, [] => True
  | cur, e :: es => (e.stage.isSide = false → e.arg = cur) ∧ Flow (after cur e) es

/-- What a sequence of steps leaves. -/
def leaves (cur : Val I Q R O E) (es : List (Ev I Q R O E)) : Val I Q R O E := es.foldl after cur

/-- During an execution: the request every attempt starts from, and the current message. -/
structure Reg (I Q R O E : Type) where
  start : Val I Q R O E
  cur : Val I Q R O E

/-- A refusal of the retry strategy leaves the outcome of the attempt; any other failure of the
retry machinery is the outcome. -/
def Reg.after (isRetryError : E → Bool) (r : Reg I Q R O E) : XEv I Q R O E → Reg I Q R O E
  | .step e =>
    if e.stage.isSide then
      match e.ret with
      | .raised err =>
        if e.stage = .refreshToken ∧ isRetryError err = true then r
        else { r with cur := .outcome (.error err) }
      | _ => r
    else ⟨Pipeline.after r.cur e, Pipeline.after r.cur e⟩
  | .attempt q evs => { r with cur := leaves (.request q) evs }

/-- When the steps of the retry machinery are taken and what they are given: the strategy is asked
for another attempt after a failed one and is given its error, success is recorded after a
successful one, and the body that is rewound is that of the request that entered the loop. -/
def SideOk (st : Stage) (arg : Val I Q R O E) (r : Reg I Q R O E) : Prop :=
  match st with
  | .refreshToken => arg = r.cur ∧ ∃ e, r.cur = .outcome (.error e)
  | .recordSuccess => ∃ o, r.cur = .outcome (.ok o)
  | .rewindBody => arg = r.start
  | _ => True

/-- Every step of the execution is given what the previous ones left, every attempt starts from
the request that entered the loop, and inside an attempt every step is given what the previous
ones left.  `serializeToo` says whether this includes the serializer. -/
def XFlow (serializeToo : Bool) (isRetryError : E → Bool) :
    Reg I Q R O E → List (XEv I Q R O E) → Prop
  | _, [] => True
  | r, x :: xs =>
    (match x with
      | .step e => (e.stage.isSide = false → (e.stage = .serialize → serializeToo = true) →
          e.arg = r.cur) ∧ SideOk e.stage e.arg r
      | .attempt q evs => Val.request q = r.start ∧ Flow (.request q) evs) ∧
    XFlow serializeToo isRetryError (r.after isRetryError x) xs

def xleaves (isRetryError : E → Bool) (r : Reg I Q R O E) (t : List (XEv I Q R O E)) :
    Reg I Q R O E := t.foldl (Reg.after isRetryError) r

/-- `l` ends with the two steps and has them nowhere else. -/
def EndsOnceWith (a b : Stage) (l : List Stage) : Prop :=
  ∃ l₀, l = l₀ ++ [a, b] ∧ a ∉ l₀ ∧ b ∉ l₀

/-- How many attempts a trace has. -/
def attempts : List (XEv I Q R O E) → Nat
  | [] => 0
  | .step _ :: t => attempts t
  | .attempt _ _ :: t => attempts t + 1

/-- What the caller sees, given the final message. -/
def observed (isSmithyError : E → Bool) (wrap : E → E) : Except E O → Out E O
  | .ok o => .ok o
  | .error e => .raised (if isSmithyError e then e else wrap e)

end

/-! ## Interceptors -/

section
variable {W E C V : Type}

/-- Modify hooks as documented: each is given the context holding the value its predecessor
returned. -/
def composed (put : C → V → C) : List (C → M W E V) → C → V → M W E V
  | [], _, v => M.pure v
  | h :: hs, c, v => M.bind (h (put c v)) (composed put hs c)

/-- Every hook ran, one after the other; for each, what it raised.  `fail` is how an error changes
the context the later ones see. -/
inductive AllRan (fail : C → E → C) :
    List (C → M W E Unit) → C → W → List (Option E) → W → Prop where
  | nil (c : C) (w : W) : AllRan fail [] c w [] w
  | ok {h : C → M W E Unit} {hs : List (C → M W E Unit)} {c : C} {w w₁ w₂ : W}
      {es : List (Option E)} : h c w = (.ok (), w₁) → AllRan fail hs c w₁ es w₂ →
      AllRan fail (h :: hs) c w (none :: es) w₂
  | raised {h : C → M W E Unit} {hs : List (C → M W E Unit)} {c : C} {w w₁ w₂ : W} {e : E}
      {es : List (Option E)} : h c w = (.raised e, w₁) → AllRan fail hs (fail c e) w₁ es w₂ →
      AllRan fail (h :: hs) c w (some e :: es) w₂

/-- The last error wins. -/
def lastError (es : List (Option E)) : Out E Unit :=
  match (es.filterMap id).getLast? with
  | none => .ok ()
  | some e => .raised e

end

end Verif.Pipeline

import Verif.Common

/-!
# The request pipeline and the interceptor chain

Models `smithy_core/aio/client.py` (`RequestPipeline`, lines 242-593) and
`smithy_core/interceptors.py` (`InterceptorChain`, lines 533-659).

Everything the pipeline calls (interceptor hooks, protocol, endpoint resolver, auth schemes,
retry strategy, transport) is a parameter: a function that may read and change an arbitrary
"world" `W` and may return, raise, or never come back (`aborted`: the task is cancelled while it
waits, a `BaseException` passes through, or one simply stops watching).  `except Exception` clauses
catch `raised` and nothing else.

The model records a trace: which step was taken, what it was given and what it returned or raised.
The traced code cannot read or change the trace.
-/

set_option autoImplicit false

namespace Verif.Pipeline

/-- How a computation ends. -/
inductive Out (E α : Type) where
  | ok (a : α)
  | raised (e : E)
  | aborted
  deriving DecidableEq, Repr

/-- Computations over a state. -/
def M (S E α : Type) : Type := S → Out E α × S

def M.pure {S E α : Type} (a : α) : M S E α := fun s => (.ok a, s)

def M.bind {S E α β : Type} (m : M S E α) (f : α → M S E β) : M S E β := fun s =>
  match m s with
  | (.ok a, s) => f a s
  | (.raised e, s) => (.raised e, s)
  | (.aborted, s) => (.aborted, s)

instance {S E : Type} : Monad (M S E) where
  pure := M.pure
  bind := M.bind

def M.raise {S E α : Type} (e : E) : M S E α := fun s => (.raised e, s)

/-- `try: m except Exception as e: h(e)`. -/
def M.catch {S E α : Type} (m : M S E α) (h : E → M S E α) : M S E α := fun s =>
  match m s with
  | (.ok a, s) => (.ok a, s)
  | (.raised e, s) => h e s
  | (.aborted, s) => (.aborted, s)

/-! ## Contexts and interceptors -/

section
variable (W I Q R O E : Type)

/-- `RequestContext` (interceptors.py:21-26); the property bag is part of the world. -/
structure ReqCtx where
  request : I
  treq : Q

/-- `ResponseContext` (interceptors.py:29-34). -/
structure RespCtx where
  request : I
  treq : Q
  tresp : R

/-- `OutputContext` (interceptors.py:37-45). -/
structure OutCtx where
  request : I
  response : Except E O
  treq : Option Q
  tresp : Option R

/-- `Interceptor` (interceptors.py:48-527): one method per hook. -/
structure Interceptor where
  readBeforeExecution : I → M W E Unit
  modifyBeforeSerialization : I → M W E I
  readBeforeSerialization : I → M W E Unit
  readAfterSerialization : ReqCtx I Q → M W E Unit
  modifyBeforeRetryLoop : ReqCtx I Q → M W E Q
  readBeforeAttempt : ReqCtx I Q → M W E Unit
  modifyBeforeSigning : ReqCtx I Q → M W E Q
  readBeforeSigning : ReqCtx I Q → M W E Unit
  readAfterSigning : ReqCtx I Q → M W E Unit
  modifyBeforeTransmit : ReqCtx I Q → M W E Q
  readBeforeTransmit : ReqCtx I Q → M W E Unit
  readAfterTransmit : RespCtx I Q R → M W E Unit
  modifyBeforeDeserialization : RespCtx I Q R → M W E R
  readBeforeDeserialization : RespCtx I Q R → M W E Unit
  readAfterDeserialization : OutCtx I Q R O E → M W E Unit
  modifyBeforeAttemptCompletion : OutCtx I Q R O E → M W E (Except E O)
  readAfterAttempt : OutCtx I Q R O E → M W E Unit
  modifyBeforeCompletion : OutCtx I Q R O E → M W E (Except E O)
  readAfterExecution : OutCtx I Q R O E → M W E Unit

/-- The methods as the base class defines them (interceptors.py:48-527): read hooks do nothing,
modify hooks return what the context holds. -/
def Interceptor.default : Interceptor W I Q R O E where
  readBeforeExecution _ := M.pure ()
  modifyBeforeSerialization i := M.pure i
  readBeforeSerialization _ := M.pure ()
  readAfterSerialization _ := M.pure ()
  modifyBeforeRetryLoop c := M.pure c.treq
  readBeforeAttempt _ := M.pure ()
  modifyBeforeSigning c := M.pure c.treq
  readBeforeSigning _ := M.pure ()
  readAfterSigning _ := M.pure ()
  modifyBeforeTransmit c := M.pure c.treq
  readBeforeTransmit _ := M.pure ()
  readAfterTransmit _ := M.pure ()
  modifyBeforeDeserialization c := M.pure c.tresp
  readBeforeDeserialization _ := M.pure ()
  readAfterDeserialization _ := M.pure ()
  modifyBeforeAttemptCompletion c := M.pure c.response
  readAfterAttempt _ := M.pure ()
  modifyBeforeCompletion c := M.pure c.response
  readAfterExecution _ := M.pure ()

end

/-! ## `InterceptorChain` -/

/-- The shape of every `read_*` of the chain except the last: call each, stop at the first
exception (interceptors.py:549-551, 559-565, 573-575, 583-589, 597-603, 613-623, 633-637). -/
def chainRead {W E C : Type} : List (C → M W E Unit) → C → M W E Unit
  | [], _ => M.pure ()
  | h :: hs, c => M.bind (h c) fun _ => chainRead hs c

/-- The shape of every `modify_*`: each hook is given the *same* context, and the value of the
last one is returned (interceptors.py:553-557, 567-571, 577-581, 591-595, 605-611, 625-631,
639-645). -/
def chainModify {W E C V : Type} : List (C → M W E V) → C → V → M W E V
  | [], _, v => M.pure v
  | h :: hs, c, _ => M.bind (h c) fun v => chainModify hs c v

/-- `read_after_execution` (interceptors.py:647-659): every hook runs; an exception becomes the
`response` later hooks see; the latest is raised at the end. -/
def chainReadAfterExecution {W I Q R O E : Type} :
    List (OutCtx I Q R O E → M W E Unit) → OutCtx I Q R O E → Option E → M W E Unit
  | [], _, none => M.pure ()
  | [], _, some e => M.raise e
  | h :: hs, c, ex => fun w =>
    match h c w with
    | (.ok _, w) => chainReadAfterExecution hs c ex w
    | (.raised e, w) => chainReadAfterExecution hs { c with response := .error e } (some e) w
    | (.aborted, w) => (.aborted, w)

/-- `InterceptorChain` (interceptors.py:533-659).  `modify_before_completion` delegates to
`modify_before_attempt_completion` (line 644). -/
def chain {W I Q R O E : Type} (is : List (Interceptor W I Q R O E)) : Interceptor W I Q R O E where
  readBeforeExecution := chainRead (is.map (·.readBeforeExecution))
  modifyBeforeSerialization i := chainModify (is.map (·.modifyBeforeSerialization)) i i
  readBeforeSerialization := chainRead (is.map (·.readBeforeSerialization))
  readAfterSerialization := chainRead (is.map (·.readAfterSerialization))
  modifyBeforeRetryLoop c := chainModify (is.map (·.modifyBeforeRetryLoop)) c c.treq
  readBeforeAttempt := chainRead (is.map (·.readBeforeAttempt))
  modifyBeforeSigning c := chainModify (is.map (·.modifyBeforeSigning)) c c.treq
  readBeforeSigning := chainRead (is.map (·.readBeforeSigning))
  readAfterSigning := chainRead (is.map (·.readAfterSigning))
  modifyBeforeTransmit c := chainModify (is.map (·.modifyBeforeTransmit)) c c.treq
  readBeforeTransmit := chainRead (is.map (·.readBeforeTransmit))
  readAfterTransmit := chainRead (is.map (·.readAfterTransmit))
  modifyBeforeDeserialization c := chainModify (is.map (·.modifyBeforeDeserialization)) c c.tresp
  readBeforeDeserialization := chainRead (is.map (·.readBeforeDeserialization))
  readAfterDeserialization := chainRead (is.map (·.readAfterDeserialization))
  modifyBeforeAttemptCompletion c :=
    chainModify (is.map (·.modifyBeforeAttemptCompletion)) c c.response
  readAfterAttempt := chainRead (is.map (·.readAfterAttempt))
  modifyBeforeCompletion c := chainModify (is.map (·.modifyBeforeAttemptCompletion)) c c.response
  readAfterExecution c := chainReadAfterExecution (is.map (·.readAfterExecution)) c none

/-! ## The trace -/

/-- The steps of an execution. -/
inductive Stage where
  | readBeforeExecution | modifyBeforeSerialization | readBeforeSerialization | serialize
  | readAfterSerialization | modifyBeforeRetryLoop
  | acquireToken | sleep
  | readBeforeAttempt | resolveEndpoint | setEndpoint | modifyBeforeSigning | readBeforeSigning
  | resolveAuth | getIdentity | sign | readAfterSigning | modifyBeforeTransmit
  | readBeforeTransmit | send | readAfterTransmit | modifyBeforeDeserialization
  | readBeforeDeserialization | deserialize | readAfterDeserialization
  | modifyBeforeAttemptCompletion | readAfterAttempt
  | refreshToken | sleepAfterRefusal | rewindBody | recordSuccess
  | modifyBeforeCompletion | readAfterExecution
  deriving DecidableEq, Repr

/-- The message a step was given or returned. -/
inductive Val (I Q R O E : Type) where
  | input (i : I)
  | request (q : Q)
  | response (r : R)
  | outcome (o : Except E O)
  | nothing
  deriving DecidableEq

structure Ev (I Q R O E : Type) where
  stage : Stage
  arg : Val I Q R O E
  ret : Out E (Val I Q R O E)
  deriving DecidableEq

/-- An execution's trace: steps, and attempts with the request they started from. -/
inductive XEv (I Q R O E : Type) where
  | step (e : Ev I Q R O E)
  | attempt (start : Q) (evs : List (Ev I Q R O E))
  deriving DecidableEq

def Out.map {E α β : Type} (f : α → β) : Out E α → Out E β
  | .ok a => .ok (f a)
  | .raised e => .raised e
  | .aborted => .aborted

/-- State of an attempt: the world, its trace, and the `transport_request` of the local variable
`request_context`, which the `except` clause reads. -/
structure AttS (W I Q R O E : Type) where
  w : W
  trace : List (Ev I Q R O E)
  cur : Q

/-- State of an execution. -/
structure ExecS (W I Q R O E : Type) where
  w : W
  trace : List (XEv I Q R O E)

section
variable {W I Q R O E : Type}

/-- Take a step inside an attempt. -/
def astep {α : Type} (st : Stage) (arg : Val I Q R O E) (val : α → Val I Q R O E)
    (m : M W E α) : M (AttS W I Q R O E) E α := fun s =>
  ((m s.w).1, { s with w := (m s.w).2, trace := s.trace ++ [⟨st, arg, (m s.w).1.map val⟩] })

/-- Take a step of the execution. -/
def xstep {α : Type} (st : Stage) (arg : Val I Q R O E) (val : α → Val I Q R O E)
    (m : M W E α) : M (ExecS W I Q R O E) E α := fun s =>
  ((m s.w).1, { w := (m s.w).2, trace := s.trace ++ [.step ⟨st, arg, (m s.w).1.map val⟩] })

def noVal {α : Type} : α → Val I Q R O E := fun _ => .nothing

/-- Run an attempt. -/
def runAttempt {α : Type} (q : Q) (m : M (AttS W I Q R O E) E α) : M (ExecS W I Q R O E) E α :=
  fun s =>
    let r := m { w := s.w, trace := [], cur := q }
    (r.1, { w := r.2.w, trace := s.trace ++ [.attempt q r.2.trace] })

/-- `request_context = replace(request_context, transport_request=...)`. -/
def setCur (q : Q) : M (AttS W I Q R O E) E Unit := fun s => (.ok (), { s with cur := q })

end

/-! ## What the pipeline is given -/

/-- An auth option: `AuthOption` (interfaces/auth.py). -/
structure AuthOption (K P : Type) where
  schemeId : K
  identityProperties : P
  signerProperties : P

/-- An auth scheme, as used in client.py:421-447. -/
structure Scheme (W Q E P D : Type) where
  identityProperties : M W E P
  getIdentity : P → M W E D
  signerProperties : M W E P
  sign : Q → D → P → M W E Q

/-- The call and the pipeline's collaborators.  `T` is the type of retry tokens, `N` of endpoints,
`K` of scheme ids, `P` of property bags, `D` of identities. -/
structure Env (W I Q R O E T N K P D : Type) where
  input : I
  hooks : Interceptor W I Q R O E
  serialize : I → M W E Q
  resolveEndpoint : I → M W E N
  setEndpoint : Q → N → M W E Q
  authOptions : M W E (List (AuthOption K P))
  supported : K → Option (Scheme W Q E P D)
  /-- `dict.update`. -/
  update : P → P → P
  send : Q → M W E R
  isTimeout : E → Bool
  timeoutError : E
  deserialize : Q → R → M W E O
  /-- `call.retryable()` (client.py:86-88). -/
  retryable : Bool
  acquire : M W E T
  hasDelay : T → Bool
  sleep : T → M W E Unit
  refresh : T → E → M W E T
  isRetryError : E → Bool
  /-- `call.operation.long_polling and retry_error.retry_after is not None`. -/
  backsOff : E → Bool
  sleepAfterRefusal : E → M W E Unit
  rewind : Q → M W E Unit
  recordSuccess : T → M W E Unit
  isSmithyError : E → Bool
  wrap : E → E

section
variable {W I Q R O E T N K P D : Type}

/-- `_resolve_auth` (client.py:536-549). -/
def pickScheme (supported : K → Option (Scheme W Q E P D)) :
    List (AuthOption K P) → Option (AuthOption K P × Scheme W Q E P D)
  | [] => none
  | o :: os => match supported o.schemeId with
    | some s => some (o, s)
    | none => pickScheme supported os

def resolveAuth (env : Env W I Q R O E T N K P D) :
    M W E (Option (AuthOption K P × Scheme W Q E P D)) :=
  M.bind env.authOptions fun os => M.pure (pickScheme env.supported os)

/-- Identity resolution (client.py:421-430). -/
def identityOf (env : Env W I Q R O E T N K P D) (o : AuthOption K P) (s : Scheme W Q E P D) :
    M W E D :=
  M.bind s.identityProperties fun p => s.getIdentity (env.update p o.identityProperties)

/-- Signing (client.py:432-447).  The signer's properties are updated with the option's *identity*
properties (line 435), as in the code. -/
def signWith (env : Env W I Q R O E T N K P D) (o : AuthOption K P) (s : Scheme W Q E P D) (q : Q)
    (d : D) : M W E Q :=
  M.bind s.signerProperties fun p => s.sign q d (env.update p o.identityProperties)

/-- `transport.send` with the translation of timeouts (client.py:458-480).  The branch for input
event streams starts the same call in a task and awaits it; it differs only in resolving a future
in between. -/
def sendRequest (env : Env W I Q R O E T N K P D) (q : Q) : M W E R := fun w =>
  match env.send q w with
  | (.raised e, w) => (.raised (if env.isTimeout e then env.timeoutError else e), w)
  | r => r

/-- Identity and signature, if a scheme was found (client.py:418-447). -/
def authenticate (env : Env W I Q R O E T N K P D) (q : Q) :
    Option (AuthOption K P × Scheme W Q E P D) → M (AttS W I Q R O E) E Q
  | some (o, s) => do
    let d ← astep .getIdentity .nothing noVal (identityOf env o s)
    let q ← astep .sign (.request q) .request (signWith env o s q d)
    setCur q
    pure q
  | none => pure q

/-- From the end of signing to the response (client.py:449-480). -/
def transmit (env : Env W I Q R O E T N K P D) (i : I) (q : Q) :
    M (AttS W I Q R O E) E (Q × R) := do
  astep .readAfterSigning (.request q) noVal (env.hooks.readAfterSigning ⟨i, q⟩)
  let q ← astep .modifyBeforeTransmit (.request q) .request (env.hooks.modifyBeforeTransmit ⟨i, q⟩)
  setCur q
  astep .readBeforeTransmit (.request q) noVal (env.hooks.readBeforeTransmit ⟨i, q⟩)
  let r ← astep .send (.request q) .response (sendRequest env q)
  pure (q, r)

/-- The part of an attempt inside `try` before the transport response is there
(client.py:385-480); returns the request that was sent and the response. -/
def attemptRequest (env : Env W I Q R O E T N K P D) (i : I) (q : Q) :
    M (AttS W I Q R O E) E (Q × R) := do
  astep .readBeforeAttempt (.request q) noVal (env.hooks.readBeforeAttempt ⟨i, q⟩)
  let n ← astep .resolveEndpoint (.input env.input) noVal (env.resolveEndpoint env.input)
  let q ← astep .setEndpoint (.request q) .request (env.setEndpoint q n)
  setCur q
  let q ← astep .modifyBeforeSigning (.request q) .request (env.hooks.modifyBeforeSigning ⟨i, q⟩)
  setCur q
  astep .readBeforeSigning (.request q) noVal (env.hooks.readBeforeSigning ⟨i, q⟩)
  let auth ← astep .resolveAuth .nothing noVal (resolveAuth env)
  let q ← authenticate env q auth
  transmit env i q

/-- The rest of the `try` block (client.py:484-524). -/
def attemptResponse (env : Env W I Q R O E T N K P D) (i : I) (q : Q) (r : R) :
    M (AttS W I Q R O E) E (OutCtx I Q R O E) := do
  let h := env.hooks
  astep .readAfterTransmit (.response r) noVal (h.readAfterTransmit ⟨i, q, r⟩)
  let r ← astep .modifyBeforeDeserialization (.response r) .response
    (h.modifyBeforeDeserialization ⟨i, q, r⟩)
  astep .readBeforeDeserialization (.response r) noVal (h.readBeforeDeserialization ⟨i, q, r⟩)
  let o ← astep .deserialize (.response r) (fun o => .outcome (.ok o)) (env.deserialize q r)
  let ctx : OutCtx I Q R O E := ⟨i, .ok o, some q, some r⟩
  astep .readAfterDeserialization (.outcome (.ok o)) noVal (h.readAfterDeserialization ctx)
  pure ctx

/-- `_finalize_attempt` (client.py:551-570). -/
def finalizeAttempt (env : Env W I Q R O E T N K P D) (c : OutCtx I Q R O E) :
    M (AttS W I Q R O E) E (OutCtx I Q R O E) :=
  M.bind (M.catch (astep .modifyBeforeAttemptCompletion (.outcome c.response) .outcome
    (env.hooks.modifyBeforeAttemptCompletion c)) fun e => M.pure (.error e)) fun r =>
  M.catch (M.bind (astep .readAfterAttempt (.outcome r) noVal
    (env.hooks.readAfterAttempt { c with response := r })) fun _ => M.pure { c with response := r })
    fun e => M.pure { c with response := .error e }

/-- `_handle_attempt` (client.py:377-534). -/
def handleAttempt (env : Env W I Q R O E T N K P D) (i : I) (q : Q) :
    M (AttS W I Q R O E) E (OutCtx I Q R O E) :=
  M.bind (M.catch (M.bind (attemptRequest env i q) fun x => attemptResponse env i x.1 x.2)
    fun e s => (.ok ⟨i, .error e, some s.cur, none⟩, s)) (finalizeAttempt env)

/-- After a failed attempt (client.py:350-372): ask the strategy; go on with the new token, or
raise what the attempt raised. -/
def afterFailure (env : Env W I Q R O E T N K P D) (q : Q) (t : T) (e : E)
    (again : T → M (ExecS W I Q R O E) E (OutCtx I Q R O E)) :
    M (ExecS W I Q R O E) E (OutCtx I Q R O E) :=
  M.bind (M.catch (xstep .refreshToken (.outcome (.error e)) noVal (env.refresh t e)) fun re =>
    if env.isRetryError re then
      M.bind (if env.backsOff re then
        xstep .sleepAfterRefusal .nothing noVal (env.sleepAfterRefusal re) else M.pure ())
        fun _ => M.raise e
    else M.raise re) fun t =>
  M.bind (xstep .rewindBody (.request q) noVal (env.rewind q)) fun _ => again t

/-- The loop of `_retry` (client.py:337-375).  `fuel` bounds the number of attempts one watches;
running out of it is `aborted`.  `copy(request_context.transport_request)` (line 345) is the
identity on values; that the copy is shallow is not modelled here. -/
def retryLoop (env : Env W I Q R O E T N K P D) (i : I) (q : Q) :
    Nat → T → M (ExecS W I Q R O E) E (OutCtx I Q R O E)
  | 0, _ => fun s => (.aborted, s)
  | fuel + 1, t =>
    M.bind (if env.hasDelay t then xstep .sleep .nothing noVal (env.sleep t) else M.pure ())
      fun _ => M.bind (runAttempt q (handleAttempt env i q)) fun c =>
        match c.response with
        | .error e => afterFailure env q t e (retryLoop env i q fuel)
        | .ok _ =>
          M.bind (xstep .recordSuccess .nothing noVal (env.recordSuccess t)) fun _ => M.pure c

/-- `_retry` (client.py:323-375). -/
def retry (env : Env W I Q R O E T N K P D) (fuel : Nat) (i : I) (q : Q) :
    M (ExecS W I Q R O E) E (OutCtx I Q R O E) :=
  if env.retryable then
    M.bind (xstep .acquireToken .nothing noVal env.acquire) fun t => retryLoop env i q fuel t
  else runAttempt q (handleAttempt env i q)

/-- The first `try` block of `_handle_execution` (client.py:268-296).  `serialize_request` is given
`call.input` (line 284), not the request the hook returned. -/
def prepare (env : Env W I Q R O E T N K P D) : M (ExecS W I Q R O E) E (I × Q) := do
  let h := env.hooks
  xstep .readBeforeExecution (.input env.input) noVal (h.readBeforeExecution env.input)
  let i ← xstep .modifyBeforeSerialization (.input env.input) .input
    (h.modifyBeforeSerialization env.input)
  xstep .readBeforeSerialization (.input i) noVal (h.readBeforeSerialization i)
  let q ← xstep .serialize (.input env.input) .request (env.serialize env.input)
  pure (i, q)

/-- The second `try` block (client.py:306-313). -/
def transmitPhase (env : Env W I Q R O E T N K P D) (fuel : Nat) (i : I) (q : Q) :
    M (ExecS W I Q R O E) E (OutCtx I Q R O E) := do
  xstep .readAfterSerialization (.request q) noVal (env.hooks.readAfterSerialization ⟨i, q⟩)
  let q ← xstep .modifyBeforeRetryLoop (.request q) .request
    (env.hooks.modifyBeforeRetryLoop ⟨i, q⟩)
  retry env fuel i q

/-- `_handle_execution` (client.py:263-321).  In the second handler the context's
`transport_request` may be the one before or after `modify_before_retry_loop`; no step depends on
it, and the model leaves it out (`none`). -/
def handleExecution (env : Env W I Q R O E T N K P D) (fuel : Nat) :
    M (ExecS W I Q R O E) E (OutCtx I Q R O E) := fun s =>
  match prepare env s with
  | (.raised e, s) => (.ok ⟨env.input, .error e, none, none⟩, s)
  | (.aborted, s) => (.aborted, s)
  | (.ok (i, q), s) =>
    match transmitPhase env fuel i q s with
    | (.raised e, s) => (.ok ⟨i, .error e, none, none⟩, s)
    | r => r

/-- `_finalize_execution` (client.py:572-593). -/
def finalizeExecution (env : Env W I Q R O E T N K P D) (c : OutCtx I Q R O E) :
    M (ExecS W I Q R O E) E (OutCtx I Q R O E) :=
  M.bind (M.catch (xstep .modifyBeforeCompletion (.outcome c.response) .outcome
    (env.hooks.modifyBeforeCompletion c)) fun e => M.pure (.error e)) fun r =>
  M.catch (M.bind (xstep .readAfterExecution (.outcome r) noVal
    (env.hooks.readAfterExecution { c with response := r })) fun _ => M.pure { c with response := r })
    fun e => M.pure { c with response := .error e }

/-- `_execute_request` (client.py:242-261): what the caller gets. -/
def execute (env : Env W I Q R O E T N K P D) (fuel : Nat) : M (ExecS W I Q R O E) E O := do
  let c ← handleExecution env fuel
  let c ← finalizeExecution env c
  match c.response with
  | .error e => M.raise (if env.isSmithyError e then e else env.wrap e)
  | .ok o => pure o

end

end Verif.Pipeline

import Verif.Common

/-!
# The configuration of a generated client and the calls of its operations

A generated client holds a configuration object.  Every call of an operation makes a deep copy of
it, lets the plugins of the operation change the copy, and works with the copy from then on
(`ClientGenerator.java:75-90, 239-268`).  The model has Python objects on a heap, with
`copy.deepcopy` and the classes of this code base that say themselves how they are copied.
-/

set_option autoImplicit false

namespace Verif.Client

/-- Where an object is. -/
scoped notation "Addr" => Nat

/-- A value held by an object: one that cannot change and that `deepcopy` returns as it is
(`None`, numbers, strings, bytes, functions, classes; `copy.py:182-199`), written as a text, or an
object. -/
inductive Val
  | prim (text : String)
  | ref (a : Addr)
  deriving DecidableEq, Repr

/-- An object: its class and the values it holds by name.  The items of a list are held by their
positions and those of a dictionary by their keys. -/
structure Obj where
  cls : String
  fields : List (String × Val)
  deriving DecidableEq, Repr

/-- All objects there are; the address of an object is its position. -/
abbrev Heap := List Obj

/-- What becomes of an attribute when an object makes its own deep copy: the copy gets the same
value, a deep copy of it, an empty new object, or a shallow copy (`copy.copy`). -/
inductive Act
  | share
  | copy
  | fresh (cls : String)
  | shallow
  deriving DecidableEq, Repr

/-- How objects of a class are copied: as `copy.deepcopy` does without help, by returning the object
itself, or by making a new object of the attributes named. -/
inductive Hook
  | plain
  | itself
  | rebuild (acts : List (String × Act))
  deriving DecidableEq, Repr

/-- The classes with a `__deepcopy__` that occur in configurations
(`smithy_core/aio/retries.py:118-119, 260-261`, `smithy_http/testing/mockhttp.py:97-98`,
`smithy_http/aio/crt.py:366-370` with the constructor at 154-162, and
`smithy_http/aio/aiohttp.py:161-165`). -/
def hook : String → Hook
  | "SimpleRetryStrategy" => .itself
  | "StandardRetryStrategy" => .itself
  | "MockHTTPClient" => .itself
  | "AWSCRTHTTPClient" => .rebuild
      [("_config", .copy), ("_eventloop", .share), ("_client_bootstrap", .share),
        ("_tls_ctx", .fresh "ClientTlsContext"), ("_socket_options", .fresh "SocketOptions"),
        ("_connections", .fresh "dict")]
  | "AIOHTTPClient" => .rebuild [("_config", .copy), ("_session", .shallow)]
  | _ => .plain

/-- What has been copied already, and to what: the `memo` of `copy.deepcopy`. -/
abbrev Memo := List (Addr × Addr)

/-- The values of an object, copied one after the other. -/
def copyVals (dc : Heap → Memo → Val → Option (Heap × Memo × Val)) :
    List (String × Val) → Heap → Memo → Option (Heap × Memo × List (String × Val))
  | [], h, m => some (h, m, [])
  | (n, v) :: fs, h, m =>
    match dc h m v with
    | none => none
    | some (h, m, w) =>
      match copyVals dc fs h m with
      | none => none
      | some (h, m, ws) => some (h, m, (n, w) :: ws)

/-- An attribute of an object that makes its own deep copy.  A deep copy of it is made with a new
memo (`deepcopy(self._config)` at `smithy_http/aio/crt.py:369` and
`smithy_http/aio/aiohttp.py:163`; `copy(self._session)` at `smithy_http/aio/aiohttp.py:164`). -/
def rebuilt (dc : Heap → Memo → Val → Option (Heap × Memo × Val)) (h : Heap) :
    Act → Val → Option (Heap × Val)
  | .share, v => some (h, v)
  | .copy, v => (dc h [] v).map fun r => (r.1, r.2.2)
  | .fresh cls, _ => some (h ++ [⟨cls, []⟩], .ref h.length)
  | .shallow, .prim p => some (h, .prim p)
  | .shallow, .ref s => h[s]?.map fun o => (h ++ [o], .ref h.length)

/-- The attributes of an object that makes its own deep copy, one after the other. -/
def rebuild (dc : Heap → Memo → Val → Option (Heap × Memo × Val)) (o : Obj) :
    List (String × Act) → Heap → Option (Heap × List (String × Val))
  | [], h => some (h, [])
  | (n, act) :: acts, h =>
    match o.fields.lookup n with
    | none => none
    | some v =>
      match rebuilt dc h act v with
      | none => none
      | some (h, w) =>
        match rebuild dc o acts h with
        | none => none
        | some (h, ws) => some (h, (n, w) :: ws)

/-- `copy.deepcopy` (`copy.py:128-178, 201-208, 227-233, 259-284`).  An object without a `__deepcopy__` gets
a new object of its class, which is entered into the memo before the values are copied, so that
objects that occur more than once are copied once.  An object that makes its own copy is entered
afterwards, and one that is its own copy is not.  `fuel` is the depth Python's stack allows; there
is no result when it is exceeded.  Simplified: tuples and objects whose class defines how they are
reduced are copied as objects with values, and classes that cannot be copied are left out. -/
def deepcopy (hk : String → Hook) : Nat → Heap → Memo → Val → Option (Heap × Memo × Val)
  | 0, _, _, _ => none
  | _ + 1, h, m, .prim p => some (h, m, .prim p)
  | fuel + 1, h, m, .ref a =>
    match m.lookup a with
    | some b => some (h, m, .ref b)
    | none =>
      match h[a]? with
      | none => none
      | some o =>
        match hk o.cls with
        | .itself => some (h, m, .ref a)
        | .plain =>
          match copyVals (deepcopy hk fuel) o.fields (h ++ [⟨o.cls, []⟩]) ((a, h.length) :: m) with
          | none => none
          | some (h', m', ws) => some (h'.set h.length ⟨o.cls, ws⟩, m', .ref h.length)
        | .rebuild acts =>
          match rebuild (deepcopy hk fuel) o acts h with
          | none => none
          | some (h', ws) => some (h' ++ [⟨o.cls, ws⟩], (a, h'.length) :: m, .ref h'.length)

/-- A callable that changes objects: a plugin, given the configuration at an address. -/
abbrev Plugin := Heap → Addr → Heap

/-- The value an attribute, an item, or an entry has. -/
def step (h : Heap) (v : Val) (n : String) : Option Val :=
  match v with
  | .prim _ => none
  | .ref a => h[a]?.bind fun o => o.fields.lookup n

/-- The value found by following names from a value: `config.a.b.c`. -/
def walk (h : Heap) : Val → List String → Option Val
  | v, [] => some v
  | v, n :: ns => (step h v n).bind fun w => walk h w ns

/-- `config.a.b.c = value` with an object to change that is found by following names; nothing is
changed when there is none. -/
def assign (h : Heap) (v : Val) (path : List String) (n : String) (value : Val) : Heap :=
  match walk h v path with
  | some (.ref a) =>
    match h[a]? with
    | some o => h.set a ⟨o.cls, (n, value) :: o.fields.filter (·.1 ≠ n)⟩
    | none => h
  | _ => h

/-- `user_agent_plugin`, a plugin of every HTTP service: a new interceptor is added to the list of
the configuration (`smithy_http/plugins/__init__.py:14-15`, `UserAgentIntegration.java:33`). -/
def userAgentPlugin : Plugin := fun h config =>
  match walk h (.ref config) ["interceptors"] with
  | some (.ref l) =>
    match h[l]? with
    | some o =>
      (h.set l ⟨o.cls, o.fields ++ [(toString o.fields.length, .ref h.length)]⟩) ++
        [⟨"UserAgentInterceptor", []⟩]
    | none => h
  | _ => h

/-- The constructor of a client: the plugins of the service and then those given are run on the
configuration itself, which is the caller's own object when there is one
(`ClientGenerator.java:76-87`). -/
def construct (servicePlugins given : List Plugin) (h : Heap) (config : Addr) : Heap :=
  (servicePlugins ++ given).foldl (fun h p => p h config) h

/-- The first part of a call: the configuration is copied and the plugins of the operation and then
those given are run on the copy (`ClientGenerator.java:240-247`). -/
def prepare (hk : String → Hook) (fuel : Nat) (operationPlugins given : List Plugin) (h : Heap)
    (config : Addr) : Option (Heap × Addr) :=
  match deepcopy hk fuel h [] (.ref config) with
  | some (h', _, .ref b) => some ((operationPlugins ++ given).foldl (fun h p => p h b) h', b)
  | _ => none

end Verif.Client

import Verif.Client.Spec
import Verif.GeneratedDocs
import Mathlib.Data.List.Induction

/-!
# The configuration class of a generated client (C118)

`ConfigGenerator` writes a class `Config` with a setting for each property that the protocol, the auth
traits of the service, and the plugins of integrations ask for.  Each setting is an optional keyword
argument of the constructor.  Modelled are the settings a service gets, what the constructor makes of the
arguments it is called with, on the heap of `Verif.Client`, and two pieces of the text of the module.
-/

set_option autoImplicit false

namespace Verif.GeneratedConfig

open Verif.Client (Val Obj Heap Reach Closed)

/-! ## Model -/

mutual
/-- The Python expressions that settings have as defaults: something that exists already, an object made
by calling a class, or a dictionary. -/
inductive Expr
  | known (v : Val)
  | new (cls : String) (args : Args)
  | dict (entries : Args)
/-- Arguments of a call by their names, or entries of a dictionary by their keys. -/
inductive Args
  | nil
  | cons (n : String) (e : Expr) (rest : Args)
end

/-- Arguments or entries from a list of them. -/
def Args.of : List (String × Expr) → Args
  | [] => .nil
  | (n, e) :: r => .cons n e (Args.of r)

/-- An entry of a dictionary is set: a key that is there gets the new value, others are added at the
end. -/
def put (k : String) (v : Val) : List (String × Val) → List (String × Val)
  | [] => [(k, v)]
  | (n, w) :: r => if n = k then (n, v) :: r else (n, w) :: put k v r

/-- The entries of a dictionary that is written with these keys and values. -/
def entries (vs : List (String × Val)) : List (String × Val) :=
  vs.foldl (fun d e => put e.1 e.2 d) []

mutual
/-- An expression is evaluated.  Simplified: an object that is made holds what its class is called with;
`AIOHTTPClient()` and the like make further objects of their own, which are left out. -/
def eval (h : Heap) : Expr → Heap × Val
  | .known v => (h, v)
  | .new cls args =>
    let r := evalArgs h args
    (r.1 ++ [⟨cls, r.2⟩], .ref r.1.length)
  | .dict es =>
    let r := evalArgs h es
    (r.1 ++ [⟨"dict", entries r.2⟩], .ref r.1.length)
/-- Expressions are evaluated from left to right. -/
def evalArgs (h : Heap) : Args → Heap × List (String × Val)
  | .nil => (h, [])
  | .cons n e rest =>
    let r := eval h e
    let s := evalArgs r.1 rest
    (s.1, (n, r.2) :: s.2)
end

/-- A `ConfigProperty` (ConfigProperty.java:20-35): its name, whether it is declared as nullable, and what
its initializer does: `self.x = x` (line 107, the default), or `self.x = x or e`.  Other initializers do not
occur.  Left out are the type and the documentation. -/
structure Property where
  name : String
  nullable : Bool
  default : Option Expr

/-- A `RuntimeClientPlugin`, as far as it matters for configurations: whether it is for the service
(RuntimeClientPlugin.java:100-102), its properties, and its auth scheme, by the ID of the trait. -/
structure Plugin where
  matchesService : Bool
  properties : List Property
  scheme : Option (String × Expr)

/-- An operation of the service, with whether its input or its output is a stream of events. -/
structure Operation where
  input : String
  output : String
  inputStream : Bool
  outputStream : Bool

/-- What the generator knows: the service's name and the endpoint prefix of its `@service` trait if it has
one; whether the integrations for AWS are used; whether the application protocol is HTTP, and the versions
in its configuration; what the protocol generator writes to make the protocol; the auth traits of the
service; the operations; and the plugins of all integrations in their order. -/
structure Service where
  name : String
  endpointPrefix : Option String
  aws : Bool
  http : Bool
  versions : List String
  protocol : Expr
  authTraits : List String
  operations : List Operation
  plugins : List Plugin

/-- `endpoint_resolver or …`: the resolver that the generator writes, unless the integration for AWS
replaces it (ConfigGenerator.java:93-98, AwsStandardRegionalEndpointsIntegration.java:55-67). -/
def endpointResolver (s : Service) : Expr :=
  if s.aws then
    .new "StandardRegionalEndpointsResolver"
      (.cons "endpoint_prefix" (.known (.prim (s.endpointPrefix.getD s.name))) .nil)
  else .new "StaticEndpointResolver" .nil

/-- `BASE_PROPERTIES` (ConfigGenerator.java:45-99). -/
def baseProperties (s : Service) : List Property :=
  [⟨"interceptors", false, some (.new "list" .nil)⟩,
    ⟨"retry_strategy", true, none⟩,
    ⟨"endpoint_uri", true, none⟩,
    ⟨"endpoint_resolver", false, some (endpointResolver s)⟩]

/-- `usesHttp2` (ConfigGenerator.java:176-201). -/
def usesHttp2 (s : Service) : Bool :=
  (s.versions.map (·.toList.map Char.toLower)).contains ['h', '2'] ||
    s.operations.any fun o => o.inputStream || o.outputStream

/-- `getProtocolProperties` with `HTTP_PROPERTIES` (ConfigGenerator.java:103-112, 122-174). -/
def protocolProperties (s : Service) : List Property :=
  (if s.http then [⟨"http_request_config", true, none⟩] else []) ++
  [⟨"protocol", true, some s.protocol⟩,
    ⟨"transport", true,
      if s.http then
        if usesHttp2 s then some (.new "AWSCRTHTTPClient" .nil) else some (.new "AIOHTTPClient" .nil)
      else none⟩]

/-- `writeDefaultAuthSchemes` (ConfigGenerator.java:240-258). -/
def defaultAuthSchemes (s : Service) : Expr :=
  .dict (Args.of ((s.plugins.filter (·.matchesService)).filterMap (·.scheme)))

/-- `getAuthProperties` (ConfigGenerator.java:203-238). -/
def authProperties (s : Service) : List Property :=
  [⟨"auth_schemes", false, some (defaultAuthSchemes s)⟩,
    ⟨"auth_scheme_resolver", false, some (.new "HTTPAuthSchemeResolver" .nil)⟩]

/-- All properties in the order they are added in (ConfigGenerator.java:312-332). -/
def added (s : Service) : List Property :=
  baseProperties s ++ protocolProperties s ++
  (if s.authTraits.isEmpty then [] else authProperties s) ++
  (s.plugins.filter (·.matchesService)).flatMap (·.properties)

/-- A property is added to a `TreeSet` that is sorted by names: nothing happens if there is one with its
name.  Simplified: strings are compared by code points and not by UTF-16 code units. -/
def add (p : Property) : List Property → List Property
  | [] => [p]
  | q :: qs =>
    if p.name < q.name then p :: q :: qs
    else if p.name = q.name then q :: qs
    else q :: add p qs

/-- `finalProperties` of `generateConfig` (ConfigGenerator.java:310-334). -/
def properties (s : Service) : List Property := (added s).foldl (fun l p => add p l) []

/-- `bool(x)`.  Of an object it is what its class says, `b`, by what the object holds (`__bool__`,
`__len__`, or always true). -/
def truthy (b : Obj → Bool) (h : Heap) : Val → Bool
  | .prim t => !["None", "False", "0", "0.0", "''", "b''"].contains t
  | .ref a =>
    match h[a]? with
    | none => true
    | some o => b o

/-- One line of the constructor: the setting's parameter, which is `None` if there is no argument for it,
is assigned to the attribute (ConfigGenerator.java:376-386). -/
def initializeOne (b : Obj → Bool) (kw : List (String × Val)) (st : Heap × List (String × Val))
    (p : Property) : Heap × List (String × Val) :=
  let given := (kw.lookup p.name).getD (.prim "None")
  match p.default with
  | none => (st.1, st.2 ++ [(p.name, given)])
  | some e =>
    if truthy b st.1 given then (st.1, st.2 ++ [(p.name, given)])
    else
      let r := eval st.1 e
      (r.1, st.2 ++ [(p.name, r.2)])

/-- Why a call cannot be made. -/
inductive Error
  | typeError
  deriving DecidableEq, Repr

/-- `Config(**kw)` (ConfigGenerator.java:343-361, 376-386): arguments for parameters that there are not, or
for the same one twice, are an error; else a new object is made and its attributes are set one after the
other.  The result is the heap and where the object is. -/
def config (b : Obj → Bool) (s : Service) (kw : List (String × Val)) (h : Heap) :
    Except Error (Heap × Nat) :=
  if (kw.all fun e => (properties s).any (·.name == e.1)) && decide (kw.map (·.1)).Nodup then
    let st := (properties s).foldl (initializeOne b kw) (h ++ [⟨"Config", []⟩], [])
    .ok (st.1.set h.length ⟨"Config", st.2⟩, h.length)
  else .error .typeError

/-- `Config.set_auth_scheme(scheme)`, with the scheme's ID (ConfigGenerator.java:395-417). -/
def setAuthScheme (id : String) (scheme : Val) (h : Heap) (config : Nat) : Heap :=
  match Verif.Client.walk h (.ref config) ["auth_schemes"] with
  | some (.ref d) =>
    match h[d]? with
    | some o => h.set d ⟨o.cls, put id scheme o.fields⟩
    | none => h
  | _ => h

/-- The beginning of the first line of the module (ConfigGenerator.java:288). -/
def unionOpen : List Char :=
  ['_', 'S', 'e', 'r', 'v', 'i', 'c', 'e', 'I', 'n', 't', 'e', 'r', 'c', 'e', 'p', 't', 'o', 'r', ' ', '=',
    ' ', 'U', 'n', 'i', 'o', 'n', '[']

/-- The class of interceptors (ConfigGenerator.java:297). -/
def interceptorOpen : List Char :=
  ['I', 'n', 't', 'e', 'r', 'c', 'e', 'p', 't', 'o', 'r', '[']

/-- The end of the type of an interceptor (ConfigGenerator.java:297). -/
def interceptorClose : List Char :=
  [',', ' ', 'A', 'n', 'y', ',', ' ', 'A', 'n', 'y', ']']

/-- The first line of the module, `writeInterceptorsType` (ConfigGenerator.java:280-305). -/
def interceptorsType (ops : List Operation) : List Char :=
  unionOpen ++ go ops
where
  /-- The operations; the bracket is closed after the last. -/
  go : List Operation → List Char
    | [] => []
    | [o] => one o ++ [']']
    | o :: os => one o ++ [',', ' '] ++ go os
  /-- The interceptors for one operation. -/
  one (o : Operation) : List Char :=
    interceptorOpen ++ o.input.toList ++ [',', ' '] ++ o.output.toList ++ interceptorClose

/-- The text of the class as it gets into the module: if the service has auth traits the section is written
again, as a template (ConfigGenerator.java:316-320, 340-362, 395-399). -/
def section' (s : Service) (text : List Char) : Option (List Char) :=
  if s.authTraits.isEmpty then some text else Verif.GeneratedDocs.format text

/-! ### The plugins of this code base that have properties or auth schemes -/

/-- `AwsAuthIntegration` (AwsAuthIntegration.java:34-87, 160-164). -/
def awsAuth (sigv4 : Option String) : Plugin :=
  { matchesService := sigv4.isSome
    properties := [⟨"aws_credentials_identity_resolver", true, none⟩, ⟨"region", true, none⟩,
      ⟨"aws_access_key_id", true, none⟩, ⟨"aws_secret_access_key", true, none⟩,
      ⟨"aws_session_token", true, none⟩]
    scheme := some ("aws.auth#sigv4",
      .new "SigV4AuthScheme" (.cons "service" (.known (.prim (sigv4.getD ""))) .nil)) }

/-- `HttpApiKeyAuth` (HttpApiKeyAuth.java:32-73, 151-169): the name, the location, and the scheme of the trait. -/
def apiKeyAuth (trait : Option (String × String × Option String)) : Plugin :=
  { matchesService := trait.isSome
    properties := [⟨"api_key", true, none⟩,
      ⟨"api_key_identity_resolver", true, some (.new "APIKeyIdentityResolver" .nil)⟩]
    scheme := some ("smithy.api#httpApiKeyAuth",
      .new "APIKeyAuthScheme" (.cons "name" (.known (.prim (trait.getD ("", "", none)).1))
        (.cons "location" (.known (.prim (trait.getD ("", "", none)).2.1))
          (match (trait.getD ("", "", none)).2.2 with
            | none => .nil
            | some scheme => .cons "scheme" (.known (.prim scheme)) .nil)))) }

/-- `AwsUserAgentIntegration` (AwsUserAgentIntegration.java:37-52, 87-108). -/
def userAgent : Plugin :=
  { matchesService := true
    properties := [⟨"user_agent_extra", true, none⟩, ⟨"sdk_ua_app_id", true, none⟩]
    scheme := none }

/-- `AwsStandardRegionalEndpointsIntegration` (AwsStandardRegionalEndpointsIntegration.java:21-30). -/
def regionalEndpoints : Plugin :=
  { matchesService := true, properties := [⟨"region", true, none⟩], scheme := none }

/-! ## Specification -/

/-- A version of HTTP that needs the CRT client is configured, or an operation has a stream of events. -/
def Http2 (s : Service) : Prop :=
  (∃ v ∈ s.versions, v = "h2" ∨ v = "H2") ∨
    ∃ o ∈ s.operations, o.inputStream = true ∨ o.outputStream = true

/-- The names of settings that plugins cannot take. -/
def Taken (s : Service) (n : String) : Prop :=
  n = "interceptors" ∨ n = "retry_strategy" ∨ n = "endpoint_uri" ∨ n = "endpoint_resolver" ∨
  n = "protocol" ∨ n = "transport" ∨ (s.http = true ∧ n = "http_request_config") ∨
  (s.authTraits ≠ [] ∧ (n = "auth_schemes" ∨ n = "auth_scheme_resolver"))

/-- The plugin's properties for the service in the order of the plugins. -/
def pluginProperties (s : Service) : List Property :=
  s.plugins.flatMap fun p => if p.matchesService then p.properties else []

/-- The schemes of the plugins for the service in the order of the plugins. -/
def schemes (s : Service) : List (String × Expr) :=
  s.plugins.flatMap fun p => if p.matchesService then p.scheme.toList else []

/-- The settings of a service: their names, whether they are declared as nullable, and what they are
initialised with if nothing is given. -/
inductive Setting (s : Service) : String → Bool → Option Expr → Prop
  | interceptors : Setting s "interceptors" false (some (.new "list" .nil))
  | retryStrategy : Setting s "retry_strategy" true none
  | endpointUri : Setting s "endpoint_uri" true none
  | staticEndpoints (h : s.aws = false) :
      Setting s "endpoint_resolver" false (some (.new "StaticEndpointResolver" .nil))
  | regionalEndpoints (t : String) (h : s.aws = true)
      (ht : s.endpointPrefix = some t ∨ s.endpointPrefix = none ∧ t = s.name) :
      Setting s "endpoint_resolver" false (some (.new "StandardRegionalEndpointsResolver"
        (.cons "endpoint_prefix" (.known (.prim t)) .nil)))
  | requestConfig (h : s.http = true) : Setting s "http_request_config" true none
  | protocol : Setting s "protocol" true (some s.protocol)
  | crt (h : s.http = true) (h2 : Http2 s) :
      Setting s "transport" true (some (.new "AWSCRTHTTPClient" .nil))
  | aiohttp (h : s.http = true) (h2 : ¬ Http2 s) :
      Setting s "transport" true (some (.new "AIOHTTPClient" .nil))
  | transport (h : s.http = false) : Setting s "transport" true none
  | authSchemes (h : s.authTraits ≠ []) :
      Setting s "auth_schemes" false (some (.dict (Args.of (schemes s))))
  | authSchemeResolver (h : s.authTraits ≠ []) :
      Setting s "auth_scheme_resolver" false (some (.new "HTTPAuthSchemeResolver" .nil))
  | plugin (before : List Property) (p : Property) (after : List Property)
      (h : pluginProperties s = before ++ p :: after) (first : ∀ q ∈ before, q.name ≠ p.name)
      (free : ¬ Taken s p.name) : Setting s p.name p.nullable p.default

mutual
/-- The value is what the expression says, and all objects that the expression makes are new: they are not
among the first `lo`. -/
inductive Denotes (h : Heap) (lo : Nat) : Expr → Val → Prop
  | known (v : Val) : Denotes h lo (.known v) v
  | new (cls : String) (args : Args) (a : Nat) (vs : List (String × Val)) (hlo : lo ≤ a)
      (ha : h[a]? = some ⟨cls, vs⟩) (hvs : DenoteAll h lo args vs) : Denotes h lo (.new cls args) (.ref a)
  | dict (es : Args) (a : Nat) (ws vs : List (String × Val)) (hlo : lo ≤ a)
      (ha : h[a]? = some ⟨"dict", ws⟩) (hvs : DenoteAll h lo es vs)
      (once : (ws.map (·.1)).Nodup) (last : ∀ k, ws.lookup k = vs.reverse.lookup k) :
      Denotes h lo (.dict es) (.ref a)
/-- The values are what the expressions say, one after the other. -/
inductive DenoteAll (h : Heap) (lo : Nat) : Args → List (String × Val) → Prop
  | nil : DenoteAll h lo .nil []
  | cons (n : String) (e : Expr) (rest : Args) (v : Val) (vs : List (String × Val))
      (he : Denotes h lo e v) (hr : DenoteAll h lo rest vs) :
      DenoteAll h lo (.cons n e rest) ((n, v) :: vs)
end

mutual
/-- The values that exist already and that an expression uses. -/
inductive Uses : Expr → Val → Prop
  | known (v : Val) : Uses (.known v) v
  | new (cls : String) (args : Args) (v : Val) (h : UsesAny args v) : Uses (.new cls args) v
  | dict (es : Args) (v : Val) (h : UsesAny es v) : Uses (.dict es) v
/-- The values that exist already and that some of the expressions use. -/
inductive UsesAny : Args → Val → Prop
  | here (n : String) (e : Expr) (rest : Args) (v : Val) (h : Uses e v) : UsesAny (.cons n e rest) v
  | there (n : String) (e : Expr) (rest : Args) (v : Val) (h : UsesAny rest v) :
      UsesAny (.cons n e rest) v
end

/-- The constructor can be called with these arguments: they are for settings, and none is for the same
setting as another. -/
def Callable (s : Service) (kw : List (String × Val)) : Prop :=
  (∀ e ∈ kw, ∃ null d, Setting s e.1 null d) ∧ (kw.map (·.1)).Nodup

/-- The arguments exist. -/
def Exist (h : Heap) (kw : List (String × Val)) : Prop :=
  ∀ n a, (n, Val.ref a) ∈ kw → a < h.length

/-- The attribute of an object. -/
def attr (h : Heap) (a : Nat) (n : String) : Option Val := h[a]?.bind fun o => o.fields.lookup n

/-! ## Lemmas -/

theorem find_add (n : String) (p : Property) : ∀ l : List Property,
    l.Pairwise (fun a b => a.name < b.name) →
    (add p l).find? (·.name == n) = (l ++ [p]).find? (·.name == n) := by
  intro l hl
  induction l with
  | nil => simp [add]
  | cons q qs ih =>
    rw [List.pairwise_cons] at hl
    rw [add]
    by_cases h1 : p.name < q.name
    · rw [if_pos h1]
      by_cases hp : p.name = n
      · have hnone : (q :: qs).find? (·.name == n) = none := by
          rw [List.find?_eq_none]
          intro x hx
          rw [List.mem_cons] at hx
          have : p.name < x.name := by
            rcases hx with rfl | hx
            · exact h1
            · exact String.lt_trans h1 (hl.1 x hx)
          intro hn
          have hn' : x.name = n := by simpa using hn
          rw [hn', hp] at this
          exact String.lt_irrefl _ this
        rw [List.find?_append, hnone, List.find?_cons]
        simp [hp]
      · rw [List.find?_append, List.find?_cons]
        have hp' : (p.name == n) = false := by simpa using hp
        simp [hp']
    · rw [if_neg h1]
      by_cases h2 : p.name = q.name
      · rw [if_pos h2]
        by_cases hq : q.name = n
        · simp [hq]
        · have hp' : (p.name == n) = false := by rw [h2]; simpa using hq
          rw [List.find?_append]
          simp [hp']
      · rw [if_neg h2, List.find?_cons, List.cons_append, List.find?_cons]
        cases hq : (q.name == n)
        · simp only
          exact ih hl.2
        · rfl

theorem mem_add (p : Property) : ∀ (l : List Property) (x : Property), x ∈ add p l → x = p ∨ x ∈ l := by
  intro l
  induction l with
  | nil => intro x hx; simpa [add] using hx
  | cons q qs ih =>
    intro x hx
    rw [add] at hx
    split at hx
    · simpa using hx
    · split at hx
      · exact Or.inr hx
      · rw [List.mem_cons] at hx
        rcases hx with rfl | hx
        · simp
        · rcases ih x hx with h | h
          · exact Or.inl h
          · exact Or.inr (List.mem_cons_of_mem _ h)

theorem sorted_add (p : Property) : ∀ l : List Property, l.Pairwise (fun a b => a.name < b.name) →
    (add p l).Pairwise (fun a b => a.name < b.name) := by
  intro l hl
  induction l with
  | nil => simp [add]
  | cons q qs ih =>
    rw [List.pairwise_cons] at hl
    rw [add]
    by_cases h1 : p.name < q.name
    · rw [if_pos h1, List.pairwise_cons]
      refine ⟨?_, List.pairwise_cons.mpr hl⟩
      intro x hx
      rw [List.mem_cons] at hx
      rcases hx with rfl | hx
      · exact h1
      · exact String.lt_trans h1 (hl.1 x hx)
    · rw [if_neg h1]
      by_cases h2 : p.name = q.name
      · rw [if_pos h2]
        exact List.pairwise_cons.mpr hl
      · rw [if_neg h2, List.pairwise_cons]
        refine ⟨?_, ih hl.2⟩
        intro x hx
        rcases mem_add p qs x hx with rfl | hx
        · by_cases h3 : q.name < x.name
          · exact h3
          · exact absurd (String.le_antisymm (String.not_lt.mp h3) (String.not_lt.mp h1)) h2
        · exact hl.1 x hx

theorem foldl_add (ps : List Property) : ∀ l : List Property,
    l.Pairwise (fun a b => a.name < b.name) →
    (ps.foldl (fun l p => add p l) l).Pairwise (fun a b => a.name < b.name) ∧
    ∀ n, (ps.foldl (fun l p => add p l) l).find? (·.name == n) = (l ++ ps).find? (·.name == n) := by
  induction ps with
  | nil => intro l hl; simpa using hl
  | cons p ps ih =>
    intro l hl
    rw [List.foldl_cons]
    obtain ⟨h1, h2⟩ := ih (add p l) (sorted_add p l hl)
    refine ⟨h1, ?_⟩
    intro n
    rw [h2 n, List.find?_append, find_add n p l hl, ← List.find?_append, List.append_assoc]
    rfl

theorem properties_sorted (s : Service) : (properties s).Pairwise (fun a b => a.name < b.name) :=
  (foldl_add (added s) [] List.Pairwise.nil).1

theorem properties_find (s : Service) (n : String) :
    (properties s).find? (·.name == n) = (added s).find? (·.name == n) := by
  have := (foldl_add (added s) [] List.Pairwise.nil).2 n
  rw [List.nil_append] at this
  exact this

theorem char_toLower (c : Char) :
    (c.toLower = 'h' ↔ c = 'h' ∨ c = 'H') ∧ (c.toLower = '2' ↔ c = '2') := by
  have key : ∀ d : Char, c.toLower = d ↔
      (65 ≤ c.toNat ∧ c.toNat ≤ 90 ∧ c.toNat + 32 = d.toNat) ∨ (¬ (65 ≤ c.toNat ∧ c.toNat ≤ 90) ∧ c = d) := by
    intro d
    rw [Char.toLower]
    split
    · rename_i h
      have h1 : 65 ≤ c.toNat ∧ c.toNat ≤ 90 := h
      constructor
      · rintro rfl
        left
        refine ⟨h1.1, h1.2, ?_⟩
        show c.toNat + 32 = (c.val + 32).toNat
        rw [UInt32.toNat_add]
        show _ = (c.toNat + 32) % _
        omega
      · rintro (⟨_, _, h⟩ | ⟨h, _⟩)
        · apply Char.ext
          apply UInt32.toNat.inj
          show (c.val + 32).toNat = d.toNat
          rw [UInt32.toNat_add, ← h]
          show (c.toNat + 32) % _ = _
          omega
        · exact absurd h1 h
    · rename_i h
      have h1 : ¬ (65 ≤ c.toNat ∧ c.toNat ≤ 90) := h
      constructor
      · intro hc; exact Or.inr ⟨h1, hc⟩
      · rintro (⟨a, b, _⟩ | ⟨_, h⟩)
        · exact absurd ⟨a, b⟩ h1
        · exact h
  have nat : ∀ d : Char, c = d ↔ c.toNat = d.toNat := fun d => 
    ⟨fun h => by rw [h], fun h => Char.ext (UInt32.toNat.inj h)⟩
  refine ⟨?_, ?_⟩
  · rw [key, nat, nat]
    show _ ∨ (_ ∧ c.toNat = 104) ↔ c.toNat = 104 ∨ c.toNat = 72
    have : ('h' : Char).toNat = 104 := rfl
    omega
  · rw [key, nat]
    have : ('2' : Char).toNat = 50 := rfl
    omega

theorem lower_h2 (v : String) : v.toList.map Char.toLower = ['h', '2'] ↔ v = "h2" ∨ v = "H2" := by
  constructor
  · intro h
    match hv : v.toList with
    | [] => rw [hv] at h; simp at h
    | [a] => rw [hv] at h; simp at h
    | [a, b] =>
      rw [hv] at h
      simp only [List.map_cons, List.map_nil, List.cons.injEq, and_true] at h
      have hb := (char_toLower b).2.mp h.2
      rcases (char_toLower a).1.mp h.1 with ha | ha
      · left; rw [← String.toList_inj, hv, ha, hb]; decide +kernel
      · right; rw [← String.toList_inj, hv, ha, hb]; decide +kernel
    | a :: b :: c :: r => rw [hv] at h; simp at h
  · rintro (rfl | rfl) <;> decide +kernel

theorem usesHttp2_iff (s : Service) : usesHttp2 s = true ↔ Http2 s := by
  rw [usesHttp2, Http2, Bool.or_eq_true]
  apply or_congr
  · rw [List.contains_iff_mem, List.mem_map]
    exact exists_congr fun v => and_congr_right fun _ => lower_h2 v
  · rw [List.any_eq_true]
    exact exists_congr fun o => and_congr_right fun _ => by rw [Bool.or_eq_true]

/-- The properties that are not those of plugins. -/
def fixed (s : Service) : List Property :=
  baseProperties s ++ protocolProperties s ++ (if s.authTraits.isEmpty then [] else authProperties s)

theorem pluginProperties_eq (s : Service) :
    (s.plugins.filter (·.matchesService)).flatMap (·.properties) = pluginProperties s := by
  rw [pluginProperties]
  induction s.plugins with
  | nil => rfl
  | cons p ps ih =>
    rw [List.filter_cons, List.flatMap_cons, ← ih]
    cases p.matchesService <;> simp

theorem schemes_eq (s : Service) :
    (s.plugins.filter (·.matchesService)).filterMap (·.scheme) = schemes s := by
  rw [schemes]
  induction s.plugins with
  | nil => rfl
  | cons p ps ih =>
    rw [List.filter_cons, List.flatMap_cons, ← ih]
    cases p.matchesService
    · simp
    · cases hs : p.scheme <;> simp [hs]

theorem added_eq (s : Service) : added s = fixed s ++ pluginProperties s := by
  rw [added, fixed, pluginProperties_eq]

theorem fixed_nodup (s : Service) : ((fixed s).map (·.name)).Nodup := by
  have key : ∀ http auth : Bool, ((["interceptors", "retry_strategy", "endpoint_uri", "endpoint_resolver"] ++
      ((if http then ["http_request_config"] else []) ++ ["protocol", "transport"]) ++
      if auth then [] else ["auth_schemes", "auth_scheme_resolver"]) : List String).Nodup := by
    decide +kernel
  have := key s.http s.authTraits.isEmpty
  rw [fixed, protocolProperties, List.map_append, List.map_append, List.map_append]
  cases hh : s.http <;> cases ha : s.authTraits.isEmpty <;> rw [hh, ha] at this <;> exact this

theorem fixed_names (s : Service) (n : String) : (∃ p ∈ fixed s, p.name = n) ↔ Taken s n := by
  rw [fixed, protocolProperties, Taken]
  cases s.http <;> cases s.authTraits <;>
    simp [baseProperties, authProperties, or_and_right, exists_or, @eq_comm _ _ n] <;> grind

theorem find_of_nodup {n : String} {p : Property} : ∀ {l : List Property}, (l.map (·.name)).Nodup → p ∈ l →
    p.name = n → l.find? (·.name == n) = some p := by
  intro l hl hp hn
  induction l with
  | nil => cases hp
  | cons q qs ih =>
    rw [List.map_cons, List.nodup_cons] at hl
    rw [List.mem_cons] at hp
    rw [List.find?_cons]
    rcases hp with rfl | hp
    · simp [hn]
    · have : q.name ≠ n := by
        rintro h
        exact hl.1 (List.mem_map.mpr ⟨p, hp, by rw [hn, h]⟩)
      have h' : (q.name == n) = false := by simpa using this
      rw [h']
      exact ih hl.2 hp

theorem fixed_setting {s : Service} {p : Property} (hp : p ∈ fixed s) :
    Setting s p.name p.nullable p.default := by
  rw [fixed, List.mem_append, List.mem_append] at hp
  rcases hp with (hp | hp) | hp
  · rw [baseProperties] at hp
    simp only [List.mem_cons, List.not_mem_nil, or_false] at hp
    rcases hp with rfl | rfl | rfl | rfl
    · exact .interceptors
    · exact .retryStrategy
    · exact .endpointUri
    · show Setting s "endpoint_resolver" false (some (endpointResolver s))
      rw [endpointResolver]
      cases ha : s.aws
      · exact .staticEndpoints ha
      · refine .regionalEndpoints _ ha ?_
        cases he : s.endpointPrefix
        · right; exact ⟨rfl, rfl⟩
        · left; rfl
  · rw [protocolProperties, List.mem_append] at hp
    rcases hp with hp | hp
    · cases hh : s.http
      · rw [hh] at hp; simp at hp
      · rw [hh] at hp
        simp only [if_true, List.mem_cons, List.not_mem_nil, or_false] at hp
        subst hp
        exact .requestConfig hh
    · simp only [List.mem_cons, List.not_mem_nil, or_false] at hp
      rcases hp with rfl | rfl
      · exact .protocol
      · cases hh : s.http
        · exact .transport hh
        · by_cases h2 : usesHttp2 s = true
          · simp only [if_true, h2]
            exact .crt hh ((usesHttp2_iff s).mp h2)
          · simp only [if_true, h2]
            exact .aiohttp hh (fun h => h2 ((usesHttp2_iff s).mpr h))
  · cases ht : s.authTraits with
    | nil => rw [ht] at hp; simp at hp
    | cons t ts =>
      rw [ht] at hp
      have hne : s.authTraits ≠ [] := by rw [ht]; simp
      rw [List.isEmpty_cons, authProperties] at hp
      simp only [Bool.false_eq_true, if_false, List.mem_cons, List.not_mem_nil, or_false] at hp
      rcases hp with rfl | rfl
      · show Setting s "auth_schemes" false (some (defaultAuthSchemes s))
        rw [defaultAuthSchemes, schemes_eq]
        exact .authSchemes hne
      · exact .authSchemeResolver hne

theorem setting_fixed {s : Service} {n : String} {null : Bool} {d : Option Expr} (h : Setting s n null d)
    (ht : Taken s n) : (⟨n, null, d⟩ : Property) ∈ fixed s := by
  rw [fixed]
  cases h with
  | interceptors => simp [baseProperties]
  | retryStrategy => simp [baseProperties]
  | endpointUri => simp [baseProperties]
  | staticEndpoints h => simp [baseProperties, endpointResolver, h]
  | regionalEndpoints t h hp =>
    have : s.endpointPrefix.getD s.name = t := by
      rcases hp with hp | ⟨hp, rfl⟩ <;> rw [hp] <;> rfl
    simp [baseProperties, endpointResolver, h, this]
  | requestConfig h => simp [protocolProperties, h]
  | protocol => simp [protocolProperties]
  | crt h h2 =>
    have := (usesHttp2_iff s).mpr h2
    simp [protocolProperties, h, this]
  | aiohttp h h2 =>
    have : usesHttp2 s = false := by
      cases hu : usesHttp2 s
      · rfl
      · exact absurd ((usesHttp2_iff s).mp hu) h2
    simp [protocolProperties, h, this]
  | transport h => simp [protocolProperties, h]
  | authSchemes h =>
    simp [authProperties, h, defaultAuthSchemes, schemes_eq]
  | authSchemeResolver h => simp [authProperties, h]
  | plugin before p after hp first free => exact absurd ht free

theorem setting_taken {s : Service} {n : String} {null : Bool} {d : Option Expr} (h : Setting s n null d) :
    Taken s n ∨ ∃ before p after, pluginProperties s = before ++ p :: after ∧
      (∀ q ∈ before, q.name ≠ p.name) ∧ ¬ Taken s p.name ∧ p.name = n ∧ p.nullable = null ∧
      p.default = d := by
  cases h
  case plugin before p after hp first free => exact Or.inr ⟨before, p, after, hp, first, free, rfl, rfl, rfl⟩
  all_goals left; simp [Taken, *]

/-- The settings are the first properties of their names. -/
theorem setting_iff (s : Service) (n : String) (null : Bool) (d : Option Expr) :
    Setting s n null d ↔ (properties s).find? (·.name == n) = some ⟨n, null, d⟩ := by
  rw [properties_find, added_eq, List.find?_append]
  constructor
  · intro h
    rcases setting_taken h with ht | ⟨before, p, after, hp, first, free, hn, hnull, hd⟩
    · rw [find_of_nodup (fixed_nodup s) (setting_fixed h ht) rfl]
      rfl
    · have hnone : (fixed s).find? (·.name == n) = none := by
        rw [List.find?_eq_none]
        intro x hx hxn
        exact free ((fixed_names s p.name).mp ⟨x, hx, by rw [hn]; simpa using hxn⟩)
      rw [hnone, Option.none_or, hp, List.find?_append]
      have hb : before.find? (·.name == n) = none := by
        rw [List.find?_eq_none]
        intro x hx hxn
        exact first x hx (by rw [hn]; simpa using hxn)
      rw [hb, Option.none_or, List.find?_cons]
      subst hn hnull hd
      simp
  · intro h
    cases hf : (fixed s).find? (·.name == n) with
    | some p =>
      rw [hf, Option.some_or] at h
      cases h
      exact fixed_setting (List.mem_of_find?_eq_some hf)
    | none =>
      rw [hf, Option.none_or, List.find?_eq_some_iff_append] at h
      obtain ⟨_, before, after, hp, first⟩ := h
      refine .plugin before ⟨n, null, d⟩ after hp ?_ ?_
      · intro q hq
        have := first q hq
        simpa using this
      · intro ht
        obtain ⟨x, hx, hxn⟩ := (fixed_names s n).mpr ht
        rw [List.find?_eq_none] at hf
        exact hf x hx (by simpa using hxn)

theorem setting_name (s : Service) (n : String) :
    (∃ null d, Setting s n null d) ↔ (properties s).any (·.name == n) = true := by
  constructor
  · rintro ⟨null, d, h⟩
    rw [setting_iff] at h
    rw [List.any_eq_true]
    exact ⟨_, List.mem_of_find?_eq_some h, by simp⟩
  · intro h
    rw [List.any_eq_true, ← List.find?_isSome, Option.isSome_iff_exists] at h
    obtain ⟨p, hp⟩ := h
    have hn : p.name = n := by simpa using List.find?_some hp
    refine ⟨p.nullable, p.default, ?_⟩
    rw [setting_iff, hp, ← hn]

/-! ### Dictionaries -/

theorem lookup_put (k : String) (v : Val) (j : String) : ∀ l : List (String × Val),
    (put k v l).lookup j = if j = k then some v else l.lookup j := by
  intro l
  induction l with
  | nil =>
    rw [put, List.lookup_cons]
    by_cases h : j = k
    · simp [h]
    · have : (j == k) = false := by simpa using h
      simp [this, h]
  | cons e r ih =>
    obtain ⟨n, w⟩ := e
    rw [put]
    by_cases hn : n = k
    · rw [if_pos hn, List.lookup_cons, List.lookup_cons]
      by_cases h : j = k
      · simp [h, hn]
      · have : (j == n) = false := by rw [hn]; simpa using h
        simp [this, h]
    · rw [if_neg hn, List.lookup_cons, List.lookup_cons, ih]
      cases hj : (j == n)
      · rfl
      · have hj' : j = n := by simpa using hj
        simp [hj', hn]

theorem names_put (k : String) (v : Val) : ∀ l : List (String × Val),
    (put k v l).map (·.1) = if k ∈ l.map (·.1) then l.map (·.1) else l.map (·.1) ++ [k] := by
  intro l
  induction l with
  | nil => simp [put]
  | cons e r ih =>
    obtain ⟨n, w⟩ := e
    rw [put]
    by_cases hn : n = k
    · simp [hn]
    · rw [if_neg hn, List.map_cons, ih]
      have : ¬ k = n := fun h => hn h.symm
      by_cases hk : k ∈ r.map (·.1)
      · rw [if_pos hk, if_pos (by rw [List.map_cons]; exact List.mem_cons_of_mem _ hk), List.map_cons]
      · rw [if_neg hk, if_neg (by rw [List.map_cons, List.mem_cons]; simp only [not_or]; exact ⟨this, hk⟩),
          List.map_cons]
        rfl

theorem mem_put (k : String) (v : Val) (e : String × Val) : ∀ l : List (String × Val),
    e ∈ put k v l → e = (k, v) ∨ e ∈ l := by
  intro l
  induction l with
  | nil => intro h; simpa [put] using h
  | cons f r ih =>
    obtain ⟨n, w⟩ := f
    intro h
    rw [put] at h
    by_cases hn : n = k
    · rw [if_pos hn, List.mem_cons] at h
      rcases h with h | h
      · left; rw [h, hn]
      · exact Or.inr (List.mem_cons_of_mem _ h)
    · rw [if_neg hn, List.mem_cons] at h
      rcases h with h | h
      · right; rw [h]; exact List.mem_cons_self
      · rcases ih h with h | h
        · exact Or.inl h
        · exact Or.inr (List.mem_cons_of_mem _ h)

theorem entries_append (vs : List (String × Val)) (k : String) (v : Val) :
    entries (vs ++ [(k, v)]) = put k v (entries vs) := by
  rw [entries, List.foldl_append]
  rfl

theorem entries_spec (vs : List (String × Val)) : ((entries vs).map (·.1)).Nodup ∧
    (∀ k, (entries vs).lookup k = vs.reverse.lookup k) ∧ ∀ e ∈ entries vs, e ∈ vs := by
  induction vs using List.reverseRecOn with
  | nil => simp [entries]
  | append_singleton vs e ih =>
    obtain ⟨k, v⟩ := e
    obtain ⟨h1, h2, h3⟩ := ih
    rw [entries_append]
    refine ⟨?_, ?_, ?_⟩
    · rw [names_put]
      split
      · exact h1
      · rename_i hk
        rw [List.nodup_append]
        refine ⟨h1, by simp, ?_⟩
        intro a ha b hb
        rw [List.mem_singleton] at hb
        rintro rfl
        exact hk (hb ▸ ha)
    · intro j
      rw [lookup_put, List.reverse_append, List.reverse_singleton, List.singleton_append, List.lookup_cons, h2]
      by_cases h : j = k
      · simp [h]
      · have : (j == k) = false := by simpa using h
        simp [this, h]
    · intro e he
      rcases mem_put k v e _ he with h | h
      · rw [h]; simp
      · exact List.mem_append_left _ (h3 e h)

/-! ### Expressions -/

theorem getElem?_prefix {h h' : Heap} (hp : h <+: h') {a : Nat} {o : Obj} (ha : h[a]? = some o) :
    h'[a]? = some o := by
  obtain ⟨r, rfl⟩ := hp
  obtain ⟨hlt, _⟩ := List.getElem?_eq_some_iff.mp ha
  rw [List.getElem?_append_left hlt, ha]

theorem prefix_old {h h' : Heap} (hp : h <+: h') {a : Nat} (ha : a < h.length) : h'[a]? = h[a]? := by
  obtain ⟨r, rfl⟩ := hp
  exact List.getElem?_append_left ha

mutual
theorem denotes_mono {h h' : Heap} {lo lo' : Nat} (hlo : lo' ≤ lo)
    (keep : ∀ a o, lo ≤ a → h[a]? = some o → h'[a]? = some o) {e : Expr} {v : Val}
    (hd : Denotes h lo e v) : Denotes h' lo' e v := by
  match hd with
  | .known v => exact .known v
  | .new cls args a vs h1 h2 h3 =>
    exact .new cls args a vs (Nat.le_trans hlo h1) (keep a _ h1 h2) (denoteAll_mono hlo keep h3)
  | .dict es a ws vs h1 h2 h3 h4 h5 =>
    exact .dict es a ws vs (Nat.le_trans hlo h1) (keep a _ h1 h2) (denoteAll_mono hlo keep h3) h4 h5

theorem denoteAll_mono {h h' : Heap} {lo lo' : Nat} (hlo : lo' ≤ lo)
    (keep : ∀ a o, lo ≤ a → h[a]? = some o → h'[a]? = some o) {es : Args} {vs : List (String × Val)}
    (hd : DenoteAll h lo es vs) : DenoteAll h' lo' es vs := by
  match hd with
  | .nil => exact .nil
  | .cons n e rest v vs h1 h2 =>
    exact .cons n e rest v vs (denotes_mono hlo keep h1) (denoteAll_mono hlo keep h2)
end

mutual
theorem eval_spec (h : Heap) (e : Expr) : h <+: (eval h e).1 ∧
    Denotes (eval h e).1 h.length e (eval h e).2 := by
  match e with
  | .known v => exact ⟨List.prefix_refl h, .known v⟩
  | .new cls args =>
    obtain ⟨h1, h2⟩ := evalArgs_spec h args
    rw [eval]
    refine ⟨h1.trans (List.prefix_append _ _), ?_⟩
    refine .new cls args _ (evalArgs h args).2 h1.length_le ?_ ?_
    · simp
    · exact denoteAll_mono (Nat.le_refl _) (fun a o _ ha => getElem?_prefix (List.prefix_append _ _) ha) h2
  | .dict es =>
    obtain ⟨h1, h2⟩ := evalArgs_spec h es
    obtain ⟨g1, g2, _⟩ := entries_spec (evalArgs h es).2
    rw [eval]
    refine ⟨h1.trans (List.prefix_append _ _), ?_⟩
    refine .dict es _ (entries (evalArgs h es).2) (evalArgs h es).2 h1.length_le ?_ ?_ g1 g2
    · simp
    · exact denoteAll_mono (Nat.le_refl _) (fun a o _ ha => getElem?_prefix (List.prefix_append _ _) ha) h2

theorem evalArgs_spec (h : Heap) (es : Args) : h <+: (evalArgs h es).1 ∧
    DenoteAll (evalArgs h es).1 h.length es (evalArgs h es).2 := by
  match es with
  | .nil => exact ⟨List.prefix_refl h, .nil⟩
  | .cons n e rest =>
    obtain ⟨h1, h2⟩ := eval_spec h e
    obtain ⟨h3, h4⟩ := evalArgs_spec (eval h e).1 rest
    rw [evalArgs]
    refine ⟨h1.trans h3, .cons n e rest _ _ ?_ ?_⟩
    · exact denotes_mono (Nat.le_refl _) (fun a o _ ha => getElem?_prefix h3 ha) h2
    · exact denoteAll_mono h1.length_le (fun a o _ ha => ha) h4
end

/-- The objects from `lo` on hold only objects from `lo` on and those of `used`. -/
def Holds (lo : Nat) (used : Val → Prop) (h : Heap) : Prop :=
  ∀ a o, lo ≤ a → h[a]? = some o → ∀ n b, (n, Val.ref b) ∈ o.fields → lo ≤ b ∨ used (.ref b)

theorem holds_snoc {lo : Nat} {used : Val → Prop} {h : Heap} (hh : Holds lo used h) (o : Obj)
    (ho : ∀ n b, (n, Val.ref b) ∈ o.fields → lo ≤ b ∨ used (.ref b)) : Holds lo used (h ++ [o]) := by
  intro a p ha hp n b hb
  by_cases hlt : a < h.length
  · rw [List.getElem?_append_left hlt] at hp
    exact hh a p ha hp n b hb
  · rw [List.getElem?_append_right (by omega)] at hp
    rw [List.getElem?_singleton] at hp
    split at hp
    · cases hp
      exact ho n b hb
    · cases hp

mutual
theorem eval_holds (lo : Nat) (used : Val → Prop) (h : Heap) (e : Expr) (hlo : lo ≤ h.length)
    (hu : ∀ v, Uses e v → used v) (hh : Holds lo used h) :
    Holds lo used (eval h e).1 ∧ ∀ b, (eval h e).2 = .ref b → lo ≤ b ∨ used (.ref b) := by
  match e with
  | .known v =>
    refine ⟨hh, ?_⟩
    intro b hb
    rw [eval] at hb
    exact Or.inr (hb ▸ hu v (.known v))
  | .new cls args =>
    obtain ⟨h1, h2⟩ := evalArgs_holds lo used h args hlo (fun v hv => hu v (.new cls args v hv)) hh
    rw [eval]
    refine ⟨holds_snoc h1 _ h2, ?_⟩
    intro b hb
    cases hb
    exact Or.inl (Nat.le_trans hlo (evalArgs_spec h args).1.length_le)
  | .dict es =>
    obtain ⟨h1, h2⟩ := evalArgs_holds lo used h es hlo (fun v hv => hu v (.dict es v hv)) hh
    rw [eval]
    refine ⟨holds_snoc h1 _ (fun n b hb => h2 n b ((entries_spec _).2.2 _ hb)), ?_⟩
    intro b hb
    cases hb
    exact Or.inl (Nat.le_trans hlo (evalArgs_spec h es).1.length_le)

theorem evalArgs_holds (lo : Nat) (used : Val → Prop) (h : Heap) (es : Args) (hlo : lo ≤ h.length)
    (hu : ∀ v, UsesAny es v → used v) (hh : Holds lo used h) :
    Holds lo used (evalArgs h es).1 ∧
      ∀ n b, (n, Val.ref b) ∈ (evalArgs h es).2 → lo ≤ b ∨ used (.ref b) := by
  match es with
  | .nil =>
    refine ⟨hh, ?_⟩
    intro n b hb
    cases hb
  | .cons n e rest =>
    obtain ⟨h1, h2⟩ := eval_holds lo used h e hlo (fun v hv => hu v (.here n e rest v hv)) hh
    obtain ⟨h3, h4⟩ := evalArgs_holds lo used (eval h e).1 rest
      (Nat.le_trans hlo (eval_spec h e).1.length_le) (fun v hv => hu v (.there n e rest v hv)) h1
    rw [evalArgs]
    refine ⟨h3, ?_⟩
    intro m b hb
    rw [List.mem_cons] at hb
    rcases hb with hb | hb
    · rw [Prod.mk.injEq] at hb
      exact h2 b hb.2.symm
    · exact h4 m b hb
end

theorem closed_snoc {h : Heap} (hc : Closed h) (o : Obj)
    (ho : ∀ n b, (n, Val.ref b) ∈ o.fields → b < h.length) : Closed (h ++ [o]) := by
  intro a p hp n b hb
  rw [List.length_append, List.length_singleton]
  by_cases hlt : a < h.length
  · rw [List.getElem?_append_left hlt] at hp
    exact Nat.lt_succ_of_lt (hc a p hp n b hb)
  · rw [List.getElem?_append_right (by omega), List.getElem?_singleton] at hp
    split at hp
    · cases hp
      exact Nat.lt_succ_of_lt (ho n b hb)
    · cases hp

mutual
theorem eval_closed (h : Heap) (e : Expr) (hu : ∀ a, Uses e (.ref a) → a < h.length) (hc : Closed h) :
    Closed (eval h e).1 ∧ ∀ b, (eval h e).2 = .ref b → b < (eval h e).1.length := by
  match e with
  | .known v =>
    refine ⟨hc, ?_⟩
    intro b hb
    rw [eval] at hb ⊢
    exact hu b (hb ▸ .known v)
  | .new cls args =>
    obtain ⟨h1, h2⟩ := evalArgs_closed h args (fun a ha => hu a (.new cls args _ ha)) hc
    rw [eval]
    refine ⟨closed_snoc h1 _ h2, ?_⟩
    intro b hb
    cases hb
    simp
  | .dict es =>
    obtain ⟨h1, h2⟩ := evalArgs_closed h es (fun a ha => hu a (.dict es _ ha)) hc
    rw [eval]
    refine ⟨closed_snoc h1 _ (fun n b hb => h2 n b ((entries_spec _).2.2 _ hb)), ?_⟩
    intro b hb
    cases hb
    simp

theorem evalArgs_closed (h : Heap) (es : Args) (hu : ∀ a, UsesAny es (.ref a) → a < h.length)
    (hc : Closed h) : Closed (evalArgs h es).1 ∧
      ∀ n b, (n, Val.ref b) ∈ (evalArgs h es).2 → b < (evalArgs h es).1.length := by
  match es with
  | .nil =>
    refine ⟨hc, ?_⟩
    intro n b hb
    cases hb
  | .cons n e rest =>
    obtain ⟨h1, h2⟩ := eval_closed h e (fun a ha => hu a (.here n e rest _ ha)) hc
    obtain ⟨h3, h4⟩ := evalArgs_closed (eval h e).1 rest
      (fun a ha => Nat.lt_of_lt_of_le (hu a (.there n e rest _ ha)) (eval_spec h e).1.length_le) h1
    rw [evalArgs]
    refine ⟨h3, ?_⟩
    intro m b hb
    rw [List.mem_cons] at hb
    rcases hb with hb | hb
    · rw [Prod.mk.injEq] at hb
      exact Nat.lt_of_lt_of_le (h2 b hb.2.symm) (evalArgs_spec (eval h e).1 rest).1.length_le
    · exact h4 m b hb
end

/-! ### The constructor -/

/-- The argument for a setting. -/
def argument (kw : List (String × Val)) (n : String) : Val := (kw.lookup n).getD (.prim "None")

/-- What an attribute has been set to. -/
def Result (b : Obj → Bool) (kw : List (String × Val)) (h h' : Heap) (p : Property) (v : Val) : Prop :=
  (p.default = none → v = argument kw p.name) ∧
  ∀ e, p.default = some e →
    (truthy b h (argument kw p.name) = true → v = argument kw p.name) ∧
    (truthy b h (argument kw p.name) = false → Denotes h' h.length e v)

theorem mem_of_lookup {n : String} {v : Val} : ∀ {l : List (String × Val)}, l.lookup n = some v → (n, v) ∈ l := by
  intro l
  induction l with
  | nil => intro h; cases h
  | cons e r ih =>
    obtain ⟨m, w⟩ := e
    intro h
    rw [List.lookup_cons] at h
    cases hm : (n == m)
    · rw [hm] at h
      exact List.mem_cons_of_mem _ (ih h)
    · rw [hm] at h
      have : n = m := by simpa using hm
      cases h
      rw [this]
      exact List.mem_cons_self

theorem lookup_of_mem {n : String} {v : Val} : ∀ {l : List (String × Val)}, (l.map (·.1)).Nodup → (n, v) ∈ l →
    l.lookup n = some v := by
  intro l hl hm
  induction l with
  | nil => cases hm
  | cons e r ih =>
    obtain ⟨m, w⟩ := e
    rw [List.map_cons, List.nodup_cons] at hl
    rw [List.lookup_cons]
    rw [List.mem_cons] at hm
    rcases hm with hm | hm
    · cases hm
      simp
    · have : (n == m) = false := by
        have : n ≠ m := by
          rintro rfl
          exact hl.1 (List.mem_map.mpr ⟨_, hm, rfl⟩)
        simpa using this
      rw [this]
      exact ih hl.2 hm

theorem argument_mem {kw : List (String × Val)} {n : String} {a : Nat} (h : argument kw n = .ref a) :
    (n, Val.ref a) ∈ kw := by
  rw [argument] at h
  cases hl : kw.lookup n with
  | none => rw [hl] at h; cases h
  | some v =>
    rw [hl] at h
    have h' : v = .ref a := h
    rw [h'] at hl
    exact mem_of_lookup hl

theorem truthy_prefix (b : Obj → Bool) {h h' : Heap} (hp : h <+: h') {v : Val}
    (hv : ∀ a, v = .ref a → a < h.length) : truthy b h' v = truthy b h v := by
  cases v with
  | prim t => rfl
  | ref a => rw [truthy, truthy, prefix_old hp (hv a rfl)]

theorem one_spec (b : Obj → Bool) (kw : List (String × Val)) (h : Heap)
    (hkw : ∀ n a, (n, Val.ref a) ∈ kw → a < h.length) (st : Heap × List (String × Val)) (hp : h <+: st.1)
    (p : Property) : ∃ h' v, initializeOne b kw st p = (h', st.2 ++ [(p.name, v)]) ∧ st.1 <+: h' ∧
      Result b kw h h' p v := by
  have ht : truthy b st.1 (argument kw p.name) = truthy b h (argument kw p.name) :=
    truthy_prefix b hp fun a ha => hkw p.name a (argument_mem ha)
  rw [initializeOne]
  show ∃ h' v, (match p.default with
    | none => (st.1, st.2 ++ [(p.name, argument kw p.name)])
    | some e => if truthy b st.1 (argument kw p.name) = true then
        (st.1, st.2 ++ [(p.name, argument kw p.name)])
      else ((eval st.1 e).1, st.2 ++ [(p.name, (eval st.1 e).2)])) = _ ∧ _ ∧ _
  cases hd : p.default with
  | none =>
    refine ⟨_, _, rfl, List.prefix_refl _, fun _ => rfl, ?_⟩
    intro e he
    rw [hd] at he
    cases he
  | some e =>
    simp only
    cases hb : truthy b st.1 (argument kw p.name)
    · rw [if_neg (by simp)]
      refine ⟨_, _, rfl, (eval_spec st.1 e).1, ?_, ?_⟩
      · intro h0; rw [hd] at h0; cases h0
      · intro e' he'
        rw [hd] at he'
        cases he'
        refine ⟨fun h1 => ?_, fun _ => ?_⟩
        · rw [← ht, hb] at h1; cases h1
        · exact denotes_mono hp.length_le (fun _ _ _ ha => ha) (eval_spec st.1 e).2
    · rw [if_pos rfl]
      refine ⟨_, _, rfl, List.prefix_refl _, fun _ => rfl, ?_⟩
      intro e' he'
      refine ⟨fun _ => rfl, fun h1 => ?_⟩
      rw [← ht, hb] at h1; cases h1

theorem result_mono {b : Obj → Bool} {kw : List (String × Val)} {h h' h'' : Heap} {p : Property} {v : Val}
    (keep : ∀ a o, h.length ≤ a → h'[a]? = some o → h''[a]? = some o) (hr : Result b kw h h' p v) :
    Result b kw h h'' p v :=
  ⟨hr.1, fun e he => ⟨(hr.2 e he).1, fun ht =>
    denotes_mono (Nat.le_refl _) keep ((hr.2 e he).2 ht)⟩⟩

theorem fold_spec (b : Obj → Bool) (kw : List (String × Val)) (h : Heap)
    (hkw : ∀ n a, (n, Val.ref a) ∈ kw → a < h.length) : ∀ (ps : List Property)
    (st : Heap × List (String × Val)), h <+: st.1 →
    st.1 <+: (ps.foldl (initializeOne b kw) st).1 ∧
    ((ps.foldl (initializeOne b kw) st).2.map (·.1)) = st.2.map (·.1) ++ ps.map (·.name) ∧
    (∀ e ∈ st.2, e ∈ (ps.foldl (initializeOne b kw) st).2) ∧
    ∀ p ∈ ps, ∃ v, (p.name, v) ∈ (ps.foldl (initializeOne b kw) st).2 ∧
      Result b kw h (ps.foldl (initializeOne b kw) st).1 p v := by
  intro ps
  induction ps with
  | nil =>
    intro st _
    refine ⟨List.prefix_refl _, by simp, fun _ he => he, ?_⟩
    intro p hp
    cases hp
  | cons p ps ih =>
    intro st hp
    rw [List.foldl_cons]
    obtain ⟨h', v, he, hpre, hres⟩ := one_spec b kw h hkw st hp p
    rw [he]
    obtain ⟨g1, g2, g3, g4⟩ := ih (h', st.2 ++ [(p.name, v)]) (hp.trans hpre)
    refine ⟨hpre.trans g1, ?_, ?_, ?_⟩
    · rw [g2]; simp
    · intro e he
      exact g3 e (List.mem_append_left _ he)
    · intro q hq
      rw [List.mem_cons] at hq
      rcases hq with rfl | hq
      · refine ⟨v, g3 _ (by simp), result_mono ?_ hres⟩
        intro a o _ ha
        exact getElem?_prefix g1 ha
      · exact g4 q hq

theorem one_holds (b : Obj → Bool) (kw : List (String × Val)) (lo : Nat) (used : Val → Prop)
    (hkw : ∀ n a, (n, Val.ref a) ∈ kw → used (.ref a)) (p : Property)
    (hp : ∀ e v, p.default = some e → Uses e v → used v) (st : Heap × List (String × Val))
    (hlo : lo ≤ st.1.length) (h1 : Holds lo used st.1)
    (h2 : ∀ n b, (n, Val.ref b) ∈ st.2 → lo ≤ b ∨ used (.ref b)) :
    lo ≤ (initializeOne b kw st p).1.length ∧ Holds lo used (initializeOne b kw st p).1 ∧
    ∀ n c, (n, Val.ref c) ∈ (initializeOne b kw st p).2 → lo ≤ c ∨ used (.ref c) := by
  have hg : ∀ n c, (n, Val.ref c) ∈ st.2 ++ [(p.name, argument kw p.name)] → lo ≤ c ∨ used (.ref c) := by
    intro n c hc
    rw [List.mem_append, List.mem_singleton, Prod.mk.injEq] at hc
    rcases hc with hc | ⟨_, hc⟩
    · exact h2 n c hc
    · exact Or.inr (hkw _ _ (argument_mem hc.symm))
  rw [initializeOne]
  cases hd : p.default with
  | none => exact ⟨hlo, h1, hg⟩
  | some e =>
    simp only
    split
    · exact ⟨hlo, h1, hg⟩
    · obtain ⟨g1, g2⟩ := eval_holds lo used st.1 e hlo (fun v hv => hp e v hd hv) h1
      refine ⟨Nat.le_trans hlo (eval_spec st.1 e).1.length_le, g1, ?_⟩
      intro n c hc
      rw [List.mem_append, List.mem_singleton, Prod.mk.injEq] at hc
      rcases hc with hc | ⟨_, hc⟩
      · exact h2 n c hc
      · exact g2 c hc.symm

theorem fold_holds (b : Obj → Bool) (kw : List (String × Val)) (lo : Nat) (used : Val → Prop)
    (hkw : ∀ n a, (n, Val.ref a) ∈ kw → used (.ref a)) : ∀ (ps : List Property)
    (_ : ∀ p ∈ ps, ∀ e v, p.default = some e → Uses e v → used v) (st : Heap × List (String × Val))
    (_ : lo ≤ st.1.length) (_ : Holds lo used st.1)
    (_ : ∀ n b, (n, Val.ref b) ∈ st.2 → lo ≤ b ∨ used (.ref b)),
    Holds lo used (ps.foldl (initializeOne b kw) st).1 ∧
    ∀ n c, (n, Val.ref c) ∈ (ps.foldl (initializeOne b kw) st).2 → lo ≤ c ∨ used (.ref c) := by
  intro ps
  induction ps with
  | nil => intro _ st _ h1 h2; exact ⟨h1, h2⟩
  | cons p ps ih =>
    intro hu st hlo h1 h2
    rw [List.foldl_cons]
    obtain ⟨g1, g2, g3⟩ := one_holds b kw lo used hkw p (hu p List.mem_cons_self) st hlo h1 h2
    exact ih (fun q hq => hu q (List.mem_cons_of_mem _ hq)) _ g1 g2 g3

theorem one_closed (b : Obj → Bool) (kw : List (String × Val)) (p : Property)
    (st : Heap × List (String × Val)) (hkw : ∀ n a, (n, Val.ref a) ∈ kw → a < st.1.length)
    (hp : ∀ e a, p.default = some e → Uses e (.ref a) → a < st.1.length) (h1 : Closed st.1)
    (h2 : ∀ n c, (n, Val.ref c) ∈ st.2 → c < st.1.length) :
    st.1.length ≤ (initializeOne b kw st p).1.length ∧ Closed (initializeOne b kw st p).1 ∧
    ∀ n c, (n, Val.ref c) ∈ (initializeOne b kw st p).2 → c < (initializeOne b kw st p).1.length := by
  have hg : ∀ n c, (n, Val.ref c) ∈ st.2 ++ [(p.name, argument kw p.name)] → c < st.1.length := by
    intro n c hc
    rw [List.mem_append, List.mem_singleton, Prod.mk.injEq] at hc
    rcases hc with hc | ⟨_, hc⟩
    · exact h2 n c hc
    · exact hkw _ _ (argument_mem hc.symm)
  rw [initializeOne]
  cases hd : p.default with
  | none => exact ⟨Nat.le_refl _, h1, hg⟩
  | some e =>
    simp only
    split
    · exact ⟨Nat.le_refl _, h1, hg⟩
    · obtain ⟨g1, g2⟩ := eval_closed st.1 e (fun a ha => hp e a hd ha) h1
      refine ⟨(eval_spec st.1 e).1.length_le, g1, ?_⟩
      intro n c hc
      rw [List.mem_append, List.mem_singleton, Prod.mk.injEq] at hc
      rcases hc with hc | ⟨_, hc⟩
      · exact Nat.lt_of_lt_of_le (h2 n c hc) (eval_spec st.1 e).1.length_le
      · exact g2 c hc.symm

theorem fold_closed (b : Obj → Bool) (kw : List (String × Val)) : ∀ (ps : List Property)
    (st : Heap × List (String × Val)) (_ : ∀ n a, (n, Val.ref a) ∈ kw → a < st.1.length)
    (_ : ∀ p ∈ ps, ∀ e a, p.default = some e → Uses e (.ref a) → a < st.1.length) (_ : Closed st.1)
    (_ : ∀ n c, (n, Val.ref c) ∈ st.2 → c < st.1.length),
    Closed (ps.foldl (initializeOne b kw) st).1 ∧
    ∀ n c, (n, Val.ref c) ∈ (ps.foldl (initializeOne b kw) st).2 →
      c < (ps.foldl (initializeOne b kw) st).1.length := by
  intro ps
  induction ps with
  | nil => intro st _ _ h1 h2; exact ⟨h1, h2⟩
  | cons p ps ih =>
    intro st hkw hu h1 h2
    rw [List.foldl_cons]
    obtain ⟨g0, g1, g2⟩ := one_closed b kw p st hkw (hu p List.mem_cons_self) h1 h2
    exact ih _ (fun n a ha => Nat.lt_of_lt_of_le (hkw n a ha) g0)
      (fun q hq e a he ha => Nat.lt_of_lt_of_le (hu q (List.mem_cons_of_mem _ hq) e a he ha) g0) g1 g2

theorem properties_nodup (s : Service) : ((properties s).map (·.name)).Nodup := by
  rw [List.Nodup, List.pairwise_map]
  refine (properties_sorted s).imp ?_
  intro p q h he
  rw [he] at h
  exact String.lt_irrefl _ h

theorem config_ok (s : Service) (kw : List (String × Val)) :
    Callable s kw ↔ ((kw.all fun e => (properties s).any (·.name == e.1)) &&
      decide (kw.map (·.1)).Nodup) = true := by
  rw [Callable, Bool.and_eq_true, decide_eq_true_eq, List.all_eq_true]
  apply and_congr
  · exact forall_congr' fun e => forall_congr' fun _ => setting_name s e.1
  · exact Iff.rfl

theorem mem_setting {s : Service} {p : Property} (hp : p ∈ properties s) :
    Setting s p.name p.nullable p.default := by
  rw [setting_iff]
  exact find_of_nodup (properties_nodup s) hp rfl

theorem setting_mem {s : Service} {n : String} {null : Bool} {d : Option Expr} (h : Setting s n null d) :
    (⟨n, null, d⟩ : Property) ∈ properties s := by
  rw [setting_iff] at h
  exact List.mem_of_find?_eq_some h

/-- The heap and the attributes after the constructor's body. -/
def body (b : Obj → Bool) (s : Service) (kw : List (String × Val)) (h : Heap) : Heap × List (String × Val) :=
  (properties s).foldl (initializeOne b kw) (h ++ [⟨"Config", []⟩], [])

theorem config_eq (b : Obj → Bool) (s : Service) (kw : List (String × Val)) (h : Heap)
    (hc : Callable s kw) : config b s kw h =
      .ok ((body b s kw h).1.set h.length ⟨"Config", (body b s kw h).2⟩, h.length) := by
  rw [config, if_pos ((config_ok s kw).mp hc)]
  rfl

theorem of_config {b : Obj → Bool} {s : Service} {kw : List (String × Val)} {h h' : Heap} {c : Nat}
    (hc : config b s kw h = .ok (h', c)) : Callable s kw ∧ c = h.length ∧
      h' = (body b s kw h).1.set h.length ⟨"Config", (body b s kw h).2⟩ := by
  by_cases hk : Callable s kw
  · rw [config_eq b s kw h hk] at hc
    cases hc
    exact ⟨hk, rfl, rfl⟩
  · rw [config, if_neg (fun h0 => hk ((config_ok s kw).mpr h0))] at hc
    cases hc

theorem exist_snoc {h : Heap} {kw : List (String × Val)} (hkw : Exist h kw) (o : Obj) :
    ∀ n a, (n, Val.ref a) ∈ kw → a < (h ++ [o]).length := by
  intro n a ha
  have := hkw n a ha
  rw [List.length_append, List.length_singleton]
  omega

theorem body_spec (b : Obj → Bool) (s : Service) (kw : List (String × Val)) (h : Heap) (hkw : Exist h kw) :
    (h ++ [⟨"Config", []⟩]) <+: (body b s kw h).1 ∧
    ((body b s kw h).2.map (·.1)) = (properties s).map (·.name) ∧
    ∀ p ∈ properties s, ∃ v, (p.name, v) ∈ (body b s kw h).2 ∧
      Result b kw (h ++ [⟨"Config", []⟩]) (body b s kw h).1 p v := by
  obtain ⟨h1, h2, _, h4⟩ := fold_spec b kw (h ++ [⟨"Config", []⟩]) (exist_snoc hkw _) (properties s)
    (h ++ [⟨"Config", []⟩], []) (List.prefix_refl _)
  exact ⟨h1, by rw [body, h2]; rfl, h4⟩

theorem attr_config {b : Obj → Bool} {s : Service} {kw : List (String × Val)} {h h' : Heap} {c : Nat}
    (hkw : Exist h kw) (hc : config b s kw h = .ok (h', c)) :
    c = h.length ∧ h'[c]? = some ⟨"Config", (body b s kw h).2⟩ ∧ h.length < h'.length ∧
    (∀ a < h.length, h'[a]? = h[a]?) ∧
    ∀ n null d, Setting s n null d → ∃ v, attr h' c n = some v ∧
      (d = none → v = argument kw n) ∧
      ∀ e, d = some e → (truthy b h (argument kw n) = true → v = argument kw n) ∧
        (truthy b h (argument kw n) = false → Denotes h' (h.length + 1) e v) := by
  obtain ⟨_, rfl, rfl⟩ := of_config hc
  obtain ⟨h1, h2, h3⟩ := body_spec b s kw h hkw
  have hlen : h.length < (body b s kw h).1.length := by
    have := h1.length_le
    rw [List.length_append, List.length_singleton] at this
    omega
  have hobj : ((body b s kw h).1.set h.length ⟨"Config", (body b s kw h).2⟩)[h.length]? =
      some ⟨"Config", (body b s kw h).2⟩ := by
    rw [List.getElem?_set_self hlen]
  refine ⟨rfl, hobj, ?_, ?_, ?_⟩
  · rw [List.length_set]; exact hlen
  · intro a ha
    rw [List.getElem?_set_ne (by omega)]
    exact prefix_old ((List.prefix_append _ _).trans h1) ha
  · intro n null d hs
    obtain ⟨v, hv, hr1, hr2⟩ := h3 _ (setting_mem hs)
    have hnd : ((body b s kw h).2.map (·.1)).Nodup := by rw [h2]; exact properties_nodup s
    have ht : truthy b (h ++ [⟨"Config", []⟩]) (argument kw n) = truthy b h (argument kw n) :=
      truthy_prefix b (List.prefix_append _ _) fun a ha => hkw n a (argument_mem ha)
    refine ⟨v, ?_, hr1, ?_⟩
    · rw [attr, hobj]
      exact lookup_of_mem hnd hv
    · intro e he
      obtain ⟨g1, g2⟩ := hr2 e he
      rw [ht] at g1 g2
      refine ⟨g1, fun hf => ?_⟩
      have := g2 hf
      rw [List.length_append, List.length_singleton] at this
      refine denotes_mono (Nat.le_refl _) ?_ this
      intro a o ha hao
      rw [List.getElem?_set_ne (by omega)]
      exact hao

/-! ## Theorems -/

theorem truthy_none (b : Obj → Bool) (h : Heap) : truthy b h (.prim "None") = false := by
  show (!["None", "False", "0", "0.0", "''", "b''"].contains "None") = false
  decide +kernel

/-- C118: the constructor can be called exactly with arguments for the settings of the service, each at
most once. -/
theorem C118_callable (b : Obj → Bool) (s : Service) (kw : List (String × Val)) (h : Heap) :
    (∃ h' c, config b s kw h = .ok (h', c)) ↔ Callable s kw := by
  constructor
  · rintro ⟨h', c, hc⟩
    exact (of_config hc).1
  · intro hc
    exact ⟨_, _, config_eq b s kw h hc⟩

/-- C118: a setting has one meaning. -/
theorem C118_unique (s : Service) (n : String) {null null' : Bool} {d d' : Option Expr}
    (h : Setting s n null d) (h' : Setting s n null' d') : null = null' ∧ d = d' := by
  rw [setting_iff] at h h'
  rw [h] at h'
  cases h'
  exact ⟨rfl, rfl⟩

/-- C118: a new object has each setting as an attribute.  An argument that counts as true is the attribute
itself, and so is any argument for a setting without a default; settings that get no argument, or `None`,
have their default, made of new objects, or are `None`; nothing that existed before is changed.  What is
missing for the whole property are arguments that count as false, for settings with a default
(`C118_false_fails`). -/
theorem C118_partial (b : Obj → Bool) (s : Service) (kw : List (String × Val)) (h h' : Heap) (c : Nat)
    (hkw : Exist h kw) (hc : config b s kw h = .ok (h', c)) :
    c = h.length ∧ (∃ o, h'[c]? = some o ∧ o.cls = "Config") ∧ (∀ a < h.length, h'[a]? = h[a]?) ∧
    ∀ n null d, Setting s n null d → ∃ v, attr h' c n = some v ∧
      (∀ w, kw.lookup n = some w → truthy b h w = true ∨ d = none → v = w) ∧
      (kw.lookup n = none ∨ kw.lookup n = some (.prim "None") →
        (d = none → v = .prim "None") ∧ ∀ e, d = some e → Denotes h' (h.length + 1) e v) := by
  obtain ⟨h1, h2, _, h3, h4⟩ := attr_config hkw hc
  refine ⟨h1, ⟨_, h2, rfl⟩, h3, ?_⟩
  intro n null d hs
  obtain ⟨v, hv, hr1, hr2⟩ := h4 n null d hs
  refine ⟨v, hv, ?_, ?_⟩
  · intro w hw ht
    have ha : argument kw n = w := by rw [argument, hw]; rfl
    rw [ha] at hr1 hr2
    cases d with
    | none => exact hr1 rfl
    | some e =>
      rcases ht with ht | ht
      · exact (hr2 e rfl).1 ht
      · cases ht
  · intro hw
    have ha : argument kw n = .prim "None" := by
      rcases hw with hw | hw <;> rw [argument, hw] <;> rfl
    rw [ha] at hr1 hr2
    exact ⟨hr1, fun e he => (hr2 e he).2 (truthy_none b h)⟩

/-- C118: an argument that counts as false is replaced by the default if there is one. -/
theorem C118_replaced (b : Obj → Bool) (s : Service) (kw : List (String × Val)) (h h' : Heap) (c : Nat)
    (hkw : Exist h kw) (hc : config b s kw h = .ok (h', c)) (n : String) (null : Bool) (e : Expr)
    (hs : Setting s n null (some e)) (w : Val) (hw : kw.lookup n = some w) (hf : truthy b h w = false) :
    ∃ v, attr h' c n = some v ∧ Denotes h' (h.length + 1) e v := by
  obtain ⟨_, _, _, _, h4⟩ := attr_config hkw hc
  obtain ⟨v, hv, _, hr2⟩ := h4 n null _ hs
  have ha : argument kw n = w := by rw [argument, hw]; rfl
  rw [ha] at hr2
  exact ⟨v, hv, (hr2 e rfl).2 hf⟩

/-- C118: settings that are declared as not nullable are never `None`, if the plugins' have defaults, as
the documentation of `ConfigProperty` demands (ConfigProperty.java:145-148). -/
theorem C118_not_null (b : Obj → Bool) (s : Service) (kw : List (String × Val)) (h h' : Heap) (c : Nat)
    (hkw : Exist h kw) (hc : config b s kw h = .ok (h', c))
    (hp : ∀ p ∈ pluginProperties s, p.nullable = false →
      ∃ e, p.default = some e ∧ ¬ ∃ v, e = .known v ∧ v = .prim "None")
    (n : String) (d : Option Expr) (hs : Setting s n false d) :
    ∃ v, attr h' c n = some v ∧ v ≠ .prim "None" := by
  have hd : ∃ e, d = some e ∧ ¬ ∃ v, e = Expr.known v ∧ v = .prim "None" := by
    generalize hnull : false = null at hs
    cases hs
    case plugin before p after hb first free =>
      exact hp p (by rw [hb]; simp) hnull.symm
    all_goals first | exact Bool.noConfusion hnull | exact ⟨_, rfl, by rintro ⟨v, h, _⟩; cases h⟩
  obtain ⟨e, rfl, he⟩ := hd
  obtain ⟨_, _, _, _, h4⟩ := attr_config hkw hc
  obtain ⟨v, hv, _, hr2⟩ := h4 n false _ hs
  refine ⟨v, hv, ?_⟩
  obtain ⟨g1, g2⟩ := hr2 e rfl
  cases ht : truthy b h (argument kw n)
  · rintro rfl
    have := g2 ht
    cases this
    exact he ⟨_, rfl, rfl⟩
  · rw [g1 ht]
    intro hn
    rw [hn] at ht
    rw [truthy_none] at ht
    cases ht

/-- The values that a configuration is made of and that exist already: the arguments, and what the
defaults of its settings use. -/
def Material (s : Service) (kw : List (String × Val)) (v : Val) : Prop :=
  (∃ n, (n, v) ∈ kw) ∨ ∃ n null e, Setting s n null (some e) ∧ Uses e v

theorem reach_snoc {h : Heap} {u : Val} {x : Nat} {o : Obj} {n : String} {y : Nat} (hr : Reach h u x)
    (ho : h[x]? = some o) (hy : (n, Val.ref y) ∈ o.fields) : Reach h u y := by
  induction hr with
  | here a => exact .there ho hy (.here y)
  | there ho' hv _ ih => exact .there ho' hv (ih ho)

/-- C118: whatever can be reached from a configuration is new, or could be reached before from an argument
or from something the defaults use. -/
theorem C118_own (b : Obj → Bool) (s : Service) (kw : List (String × Val)) (h h' : Heap) (c : Nat)
    (hm : ∀ a, Material s kw (.ref a) → a < h.length)
    (hc : config b s kw h = .ok (h', c)) (a : Nat) (ha : Reach h' (.ref c) a) :
    h.length ≤ a ∨ ∃ v, Material s kw v ∧ Reach h v a := by
  have hkw : Exist h kw := fun n a ha => hm a (Or.inl ⟨n, ha⟩)
  obtain ⟨rfl, hobj, _, hold, _⟩ := attr_config hkw hc
  obtain ⟨_, _, hh'⟩ := of_config hc
  obtain ⟨g1, g2⟩ := fold_holds b kw (h.length + 1) (fun v => Material s kw v)
    (fun n a ha => Or.inl ⟨n, ha⟩) (properties s)
    (fun p hp e v he hv => Or.inr ⟨p.name, p.nullable, e, he ▸ mem_setting hp, hv⟩)
    (h ++ [⟨"Config", []⟩], []) (by simp)
    (by
      intro a o ha hao
      rw [List.getElem?_eq_none (by simpa using ha)] at hao
      cases hao)
    (by intro n b hb; cases hb)
  have good : ∀ (v : Val) (x : Nat), Reach h' v x →
      (∀ y, v = .ref y → h.length ≤ y ∨ ∃ u, Material s kw u ∧ Reach h u y) →
      h.length ≤ x ∨ ∃ u, Material s kw u ∧ Reach h u x := by
    intro v x hr
    induction hr with
    | here y => intro hy; exact hy y rfl
    | @there y o n w x ho hw _ ih =>
      intro hy
      apply ih
      rintro z rfl
      have later : h.length + 1 ≤ z ∨ Material s kw (.ref z) →
          h.length ≤ z ∨ ∃ u, Material s kw u ∧ Reach h u z := by
        rintro (hz | hz)
        · left; omega
        · right; exact ⟨_, hz, .here z⟩
      rcases Nat.lt_trichotomy y h.length with hlt | heq | hgt
      · rw [hold y hlt] at ho
        rcases hy y rfl with hge | ⟨u, hu, hru⟩
        · omega
        · right
          exact ⟨u, hu, reach_snoc hru ho hw⟩
      · subst heq
        rw [hobj] at ho
        cases ho
        exact later (g2 n z hw)
      · rw [hh', List.getElem?_set_ne (by omega)] at ho
        exact later (g1 y o hgt ho n z hw)
  exact good _ a ha (by rintro y hy; cases hy; left; exact Nat.le_refl _)

theorem closed_config {b : Obj → Bool} {s : Service} {kw : List (String × Val)} {h h' : Heap} {c : Nat}
    (hclosed : Closed h) (hm : ∀ a, Material s kw (.ref a) → a < h.length)
    (hc : config b s kw h = .ok (h', c)) : Closed h' := by
  have hkw : Exist h kw := fun n a ha => hm a (Or.inl ⟨n, ha⟩)
  obtain ⟨_, _, rfl⟩ := of_config hc
  obtain ⟨g1, g2⟩ := fold_closed b kw (properties s) (h ++ [⟨"Config", []⟩], []) (exist_snoc hkw _)
    (by
      intro p hp e a he ha
      have := hm a (Or.inr ⟨p.name, p.nullable, e, he ▸ mem_setting hp, ha⟩)
      show a < (h ++ [_]).length
      rw [List.length_append, List.length_singleton]
      omega)
    (closed_snoc hclosed _ (by intro n b hb; cases hb)) (by intro n b hb; cases hb)
  intro a o ho n z hz
  rw [List.length_set]
  by_cases ha : h.length = a
  · subst ha
    rw [List.getElem?_set] at ho
    split at ho
    · split at ho
      · cases ho
        exact g2 n z hz
      · cases ho
    · exact g1 _ o ho n z hz
  · rw [List.getElem?_set_ne ha] at ho
    exact g1 a o ho n z hz

/-- C118: two configurations, of the same service or of different ones, have in common only what could be
reached from the arguments of the later one or from what its defaults use. -/
theorem C118_apart (b : Obj → Bool) (s₁ s₂ : Service) (kw₁ kw₂ : List (String × Val)) (h h₁ h₂ : Heap)
    (c₁ c₂ : Nat) (hclosed : Closed h) (hm₁ : ∀ a, Material s₁ kw₁ (.ref a) → a < h.length)
    (hc₁ : config b s₁ kw₁ h = .ok (h₁, c₁)) (hm₂ : ∀ a, Material s₂ kw₂ (.ref a) → a < h₁.length)
    (hc₂ : config b s₂ kw₂ h₁ = .ok (h₂, c₂)) (a : Nat) (ha₁ : Reach h₂ (.ref c₁) a)
    (ha₂ : Reach h₂ (.ref c₂) a) : ∃ v, Material s₂ kw₂ v ∧ Reach h₁ v a := by
  rcases C118_own b s₂ kw₂ h₁ h₂ c₂ hm₂ hc₂ a ha₂ with hge | hr
  · exfalso
    have hkw₁ : Exist h kw₁ := fun n a ha => hm₁ a (Or.inl ⟨n, ha⟩)
    have hkw₂ : Exist h₁ kw₂ := fun n a ha => hm₂ a (Or.inl ⟨n, ha⟩)
    obtain ⟨rfl, _, hlt, _, _⟩ := attr_config hkw₁ hc₁
    obtain ⟨_, _, _, hold, _⟩ := attr_config hkw₂ hc₂
    have below : ∀ (v : Val) (x : Nat), Reach h₂ v x → (∀ y, v = .ref y → y < h₁.length) → x < h₁.length := by
      intro v x hr
      induction hr with
      | here y => intro hy; exact hy y rfl
      | @there y o n w x ho hw _ ih =>
        intro hy
        apply ih
        rintro z rfl
        rw [hold y (hy y rfl)] at ho
        exact closed_config hclosed hm₁ hc₁ y o ho n z hw
    have := below _ a ha₁ (by rintro y hy; cases hy; exact hlt)
    omega
  · exact hr

/-- C118: `set_auth_scheme` on a configuration that was made without `auth_schemes`, or with a dictionary:
the scheme is found by its ID afterwards, the others as before, and no object but the dictionary changes,
which is a new one if none was given. -/
theorem C118_set_auth_scheme (b : Obj → Bool) (s : Service) (kw : List (String × Val)) (h h' : Heap)
    (c : Nat) (hkw : Exist h kw) (hauth : s.authTraits ≠ []) (hc : config b s kw h = .ok (h', c))
    (hg : kw.lookup "auth_schemes" = none ∨ ∃ a, kw.lookup "auth_schemes" = some (.ref a)) (id : String)
    (scheme : Val) :
    ∃ d, attr h' c "auth_schemes" = some (.ref d) ∧
      (kw.lookup "auth_schemes" = none → h.length < d) ∧
      attr (setAuthScheme id scheme h' c) d id = some scheme ∧
      (∀ k, k ≠ id → attr (setAuthScheme id scheme h' c) d k = attr h' d k) ∧
      ∀ a, a ≠ d → (setAuthScheme id scheme h' c)[a]? = h'[a]? := by
  obtain ⟨hcl, hobj, _, hold, h4⟩ := attr_config hkw hc
  obtain ⟨v, hv, _, hr2⟩ := h4 _ _ _ (.authSchemes hauth)
  obtain ⟨g1, g2⟩ := hr2 _ rfl
  have hd : ∃ d o, v = .ref d ∧ h'[d]? = some o ∧ (kw.lookup "auth_schemes" = none → h.length < d) := by
    cases ht : truthy b h (argument kw "auth_schemes")
    · have := g2 ht
      cases this with
      | dict _ a ws vs hlo ha _ _ _ => exact ⟨a, _, rfl, ha, fun _ => hlo⟩
    · rcases hg with hg | ⟨a, hg⟩
      · rw [argument, hg] at ht
        have := truthy_none b h
        rw [show (none : Option Val).getD (.prim "None") = .prim "None" from rfl, this] at ht
        cases ht
      · have hv' : v = .ref a := by rw [g1 ht, argument, hg]; rfl
        have ha := hkw _ _ (mem_of_lookup hg)
        refine ⟨a, h[a], hv', ?_, ?_⟩
        · rw [hold a ha, List.getElem?_eq_getElem ha]
        · intro hn; rw [hg] at hn; cases hn
  obtain ⟨d, o, rfl, ho, hnew⟩ := hd
  have hw : Verif.Client.walk h' (.ref c) ["auth_schemes"] = some (.ref d) := by
    rw [Verif.Client.walk, Verif.Client.step]
    have : (h'[c]?.bind fun o => o.fields.lookup "auth_schemes") = some (.ref d) := hv
    rw [this]
    rfl
  have hset : setAuthScheme id scheme h' c = h'.set d ⟨o.cls, put id scheme o.fields⟩ := by
    rw [setAuthScheme, hw]
    simp only
    rw [ho]
  have hlt : d < h'.length := (List.getElem?_eq_some_iff.mp ho).1
  refine ⟨d, hv, hnew, ?_, ?_, ?_⟩
  · rw [hset, attr, List.getElem?_set_self hlt]
    show (put id scheme o.fields).lookup id = _
    rw [lookup_put, if_pos rfl]
  · intro k hk
    rw [hset, attr, attr, List.getElem?_set_self hlt, ho]
    show (put id scheme o.fields).lookup k = o.fields.lookup k
    rw [lookup_put, if_neg hk]
  · intro a ha
    rw [hset, List.getElem?_set_ne (fun h => ha h.symm)]

/-! ### What does not hold -/

/-- Lists and dictionaries count as true if they are not empty, and other objects always. -/
def python (o : Obj) : Bool :=
  if o.cls = "list" ∨ o.cls = "dict" then !o.fields.isEmpty else true

/-- C118 fails for arguments that count as false: the configuration of any service does not use the empty
list of interceptors it is given, so what is added to that list later has no effect. -/
theorem C118_false_fails (s : Service) (h h' : Heap) (a c : Nat) (ha : h[a]? = some ⟨"list", []⟩)
    (hc : config python s [("interceptors", .ref a)] h = .ok (h', c)) :
    ∃ d, attr h' c "interceptors" = some (.ref d) ∧ d ≠ a ∧ h'[d]? = some ⟨"list", []⟩ := by
  have hlt := (List.getElem?_eq_some_iff.mp ha).1
  have hkw : Exist h [("interceptors", Val.ref a)] := by
    intro n x hx
    rw [List.mem_singleton] at hx
    cases hx
    exact hlt
  have hf : truthy python h (.ref a) = false := by
    rw [truthy, ha]
    decide +kernel
  obtain ⟨v, hv, hd⟩ := C118_replaced python s _ h h' c hkw hc "interceptors" _ _ .interceptors (.ref a)
    (by rw [List.lookup_cons]; simp) hf
  cases hd with
  | new _ _ d vs hlo hd hvs =>
    cases hvs
    exact ⟨d, hv, by omega, hd⟩

/-- C118 fails for auth schemes: a configuration that is given an empty dictionary, so that there would be
no schemes, gets the default ones. -/
theorem C118_no_schemes_fails (s : Service) (hauth : s.authTraits ≠ []) (h h' : Heap) (a c : Nat)
    (ha : h[a]? = some ⟨"dict", []⟩) (hc : config python s [("auth_schemes", .ref a)] h = .ok (h', c))
    (id : String) (hid : id ∈ (schemes s).map (·.1)) :
    ∃ d, attr h' c "auth_schemes" = some (.ref d) ∧ (attr h' d id).isSome = true := by
  have hlt := (List.getElem?_eq_some_iff.mp ha).1
  have hkw : Exist h [("auth_schemes", Val.ref a)] := by
    intro n x hx
    rw [List.mem_singleton] at hx
    cases hx
    exact hlt
  have hf : truthy python h (.ref a) = false := by
    rw [truthy, ha]
    decide +kernel
  obtain ⟨v, hv, hd⟩ := C118_replaced python s _ h h' c hkw hc "auth_schemes" _ _ (.authSchemes hauth) (.ref a)
    (by rw [List.lookup_cons]; simp) hf
  cases hd with
  | dict _ d ws vs hlo hd hvs _ last =>
    refine ⟨d, hv, ?_⟩
    rw [attr, hd]
    show (ws.lookup id).isSome = true
    rw [last]
    have names : ∀ (l : List (String × Expr)) (vs : List (String × Val)),
        DenoteAll h' (h.length + 1) (Args.of l) vs → vs.map (·.1) = l.map (·.1) := by
      intro l
      induction l with
      | nil => intro vs hv; rw [Args.of] at hv; cases hv; rfl
      | cons e r ih =>
        obtain ⟨n, e⟩ := e
        intro vs hv
        rw [Args.of] at hv
        cases hv with
        | cons _ _ _ v vs _ hr => rw [List.map_cons, List.map_cons, ih vs hr]
    have hmem : id ∈ vs.reverse.map (·.1) := by
      rw [List.map_reverse, List.mem_reverse, names _ _ hvs]
      exact hid
    generalize vs.reverse = l at hmem
    induction l with
    | nil => cases hmem
    | cons e r ih =>
      obtain ⟨m, w⟩ := e
      rw [List.lookup_cons]
      cases hm : (id == m)
      · rw [List.map_cons, List.mem_cons] at hmem
        rcases hmem with hmem | hmem
        · rw [show id = m from hmem] at hm; simp at hm
        · exact ih hmem
      · rfl

/-- A service with nothing special. -/
def plainService : Service :=
  { name := "Weather", endpointPrefix := none, aws := false, http := true, versions := ["h1"]
    protocol := .new "RestJsonClientProtocol" (.cons "service_schema" (.known (.ref 0)) .nil)
    authTraits := [], operations := [⟨"GetCityInput", "GetCityOutput", false, false⟩], plugins := [] }

/-- C118 fails for properties of plugins that have the name of another property: they are ignored, with
their defaults. -/
theorem C118_plugin_name_fails :
    ∃ (s : Service) (p : Property), p ∈ pluginProperties s ∧ ¬ Setting s p.name p.nullable p.default := by
  let p : Property := ⟨"transport", true, some (.new "MyTransport" .nil)⟩
  let s : Service := { plainService with plugins := [⟨true, [p], none⟩] }
  refine ⟨s, p, by simp [s, p, pluginProperties], ?_⟩
  intro h
  have h2 : ¬ Http2 s := by
    rw [← usesHttp2_iff]
    decide +kernel
  have := (C118_unique s "transport" h (.aiohttp rfl h2)).2
  rw [Option.some.injEq, Expr.new.injEq] at this
  exact absurd this.1 (by decide +kernel)

/-! ### The text of the module -/

/-- How many brackets are open at the end of a text that begins with `n` open ones; there is no result when
one is closed that is not open. -/
def opened : List Char → Nat → Option Nat
  | [], n => some n
  | c :: r, n =>
    if c = '[' then opened r (n + 1)
    else if c = ']' then (if n = 0 then none else opened r (n - 1))
    else opened r n

/-- The text has no brackets. -/
def NoBrackets (t : List Char) : Prop := ∀ c ∈ t, c ≠ '[' ∧ c ≠ ']'

theorem opened_append (a b : List Char) (n : Nat) : opened (a ++ b) n = (opened a n).bind (opened b) := by
  induction a generalizing n with
  | nil => rfl
  | cons c r ih =>
    rw [List.cons_append, opened, opened]
    by_cases h1 : c = '['
    · rw [if_pos h1, if_pos h1, ih]
    · rw [if_neg h1, if_neg h1]
      by_cases h2 : c = ']'
      · rw [if_pos h2, if_pos h2]
        by_cases h3 : n = 0
        · rw [if_pos h3, if_pos h3]; rfl
        · rw [if_neg h3, if_neg h3, ih]
      · rw [if_neg h2, if_neg h2, ih]

theorem opened_none {t : List Char} (h : NoBrackets t) (n : Nat) : opened t n = some n := by
  induction t with
  | nil => rfl
  | cons c r ih =>
    have := h c List.mem_cons_self
    rw [opened, if_neg this.1, if_neg this.2]
    exact ih fun d hd => h d (List.mem_cons_of_mem _ hd)

theorem opened_one (o : Operation) (hi : NoBrackets o.input.toList) (ho : NoBrackets o.output.toList)
    (n : Nat) : opened (interceptorsType.one o) n = some n := by
  have h1 : opened interceptorOpen n = some (n + 1) := by simp [opened, interceptorOpen]
  have h2 : opened [',', ' '] (n + 1) = some (n + 1) := by simp [opened]
  have h3 : opened interceptorClose (n + 1) = some n := by simp [opened, interceptorClose]
  rw [interceptorsType.one]
  rw [opened_append, opened_append, opened_append, opened_append]
  rw [h1, Option.bind_some, opened_none hi, Option.bind_some, h2, Option.bind_some, opened_none ho,
    Option.bind_some, h3]

theorem opened_go (ops : List Operation) (hn : ∀ o ∈ ops, NoBrackets o.input.toList ∧ NoBrackets o.output.toList)
    (hne : ops ≠ []) (n : Nat) : opened (interceptorsType.go ops) (n + 1) = some n := by
  induction ops with
  | nil => exact absurd rfl hne
  | cons o os ih =>
    have ho := hn o List.mem_cons_self
    cases os with
    | nil =>
      rw [interceptorsType.go, opened_append, opened_one o ho.1 ho.2, Option.bind_some]
      simp [opened]
    | cons p ps =>
      rw [interceptorsType.go, opened_append, opened_append, opened_one o ho.1 ho.2, Option.bind_some]
      · have : opened [',', ' '] (n + 1) = some (n + 1) := by simp [opened]
        rw [this, Option.bind_some]
        exact ih (fun q hq => hn q (List.mem_cons_of_mem _ hq)) (by simp)
      · simp

/-- C118: the brackets of the line before the class are closed exactly if the service has operations. -/
theorem C118_interceptors_iff (ops : List Operation)
    (hn : ∀ o ∈ ops, NoBrackets o.input.toList ∧ NoBrackets o.output.toList) :
    opened (interceptorsType ops) 0 = some 0 ↔ ops ≠ [] := by
  have e : opened unionOpen 0 = some 1 := by decide +kernel
  rw [interceptorsType, opened_append, e, Option.bind_some]
  constructor
  · rintro h rfl
    simp [interceptorsType.go, opened] at h
  · intro hne
    exact opened_go ops hn hne 0

/-- C118 fails for services without operations: a bracket is never closed, so that the module with the
configuration cannot be imported. -/
theorem C118_no_operations_fails : opened (interceptorsType []) 0 = some 1 := by decide +kernel

/-- C118: the class of a service with auth traits is written as it was generated exactly if there is no
dollar sign in it. -/
theorem C118_section_iff (s : Service) (hauth : s.authTraits ≠ []) (t : List Char) :
    section' s t = some t ↔ '$' ∉ t := by
  have he : s.authTraits.isEmpty = false := by
    cases h : s.authTraits with
    | nil => exact absurd h hauth
    | cons a r => rfl
  rw [section', he]
  simp only [Bool.false_eq_true, if_false]
  have short : ∀ (n : Nat) (t u : List Char), t.length ≤ n → Verif.GeneratedDocs.format t = some u →
      u.length ≤ t.length ∧ ('$' ∈ t → u.length < t.length) ∧ ('$' ∉ t → u = t) := by
    intro n
    induction n with
    | zero =>
      intro t u ht hf
      have : t = [] := List.length_eq_zero_iff.mp (by omega)
      subst this
      rw [Verif.GeneratedDocs.format] at hf
      cases hf
      simp
    | succ n ih =>
      intro t u ht hf
      cases t with
      | nil =>
        rw [Verif.GeneratedDocs.format] at hf
        cases hf
        simp
      | cons c r =>
        by_cases hc : c = '$'
        · subst hc
          cases r with
          | nil => simp [Verif.GeneratedDocs.format] at hf
          | cons d r =>
            by_cases hd : d = '$'
            · subst hd
              simp only [Verif.GeneratedDocs.format, Option.map_eq_some_iff] at hf
              obtain ⟨w, hw, rfl⟩ := hf
              have := ih r w (by simp only [List.length_cons] at ht; omega) hw
              simp only [List.length_cons, List.mem_cons, true_or, not_true_eq_false, false_implies]
              refine ⟨by omega, fun _ => by omega, trivial⟩
            · simp [Verif.GeneratedDocs.format, hd] at hf
        · have hf' : (Verif.GeneratedDocs.format r).map (c :: ·) = some u := by
            rw [← hf, Verif.GeneratedDocs.format]
            · simp [hc]
            · simp [hc]
          rw [Option.map_eq_some_iff] at hf'
          obtain ⟨w, hw, rfl⟩ := hf'
          obtain ⟨i1, i2, i3⟩ := ih r w (by simp only [List.length_cons] at ht; omega) hw
          simp only [List.length_cons, List.mem_cons]
          refine ⟨by omega, ?_, ?_⟩
          · rintro (h | h)
            · exact absurd h.symm hc
            · have := i2 h; omega
          · intro h
            rw [i3 (fun h' => h (Or.inr h'))]
  have total : ∀ t : List Char, '$' ∉ t → Verif.GeneratedDocs.format t = some t := by
    intro t
    induction t with
    | nil => intro _; rw [Verif.GeneratedDocs.format]
    | cons c r ih =>
      intro h
      rw [List.mem_cons, not_or] at h
      rw [Verif.GeneratedDocs.format, ih h.2]
      · rfl
      · intro r' hc; exact absurd hc.symm h.1
      · intro hc; exact h.1 hc.symm
  constructor
  · intro hf hm
    have := (short t.length t t (Nat.le_refl _) hf).2.1 hm
    omega
  · exact total t

/-- C118 fails for names with dollar signs: the scheme for keys in the header `x$$key` has the name `x$key`
in the generated class. -/
theorem C118_dollar_fails (s : Service) (hauth : s.authTraits ≠ []) :
    section' s "name=\"x$$key\",".toList = some "name=\"x$key\",".toList := by
  have he : s.authTraits.isEmpty = false := by
    cases h : s.authTraits with
    | nil => exact absurd h hauth
    | cons a r => rfl
  rw [section', he]
  decide +kernel

/-! ## Examples -/

example : unionOpen = "_ServiceInterceptor = Union[".toList ∧ interceptorOpen = "Interceptor[".toList ∧
    interceptorClose = ", Any, Any]".toList := by
  refine ⟨?_, ?_, ?_⟩ <;> decide +kernel

/-- A service of AWS with a stream of events, whose requests can be signed or have an API key. -/
def awsService : Service :=
  { name := "Transcribe", endpointPrefix := some "transcribestreaming", aws := true, http := true
    versions := ["http/1.1"]
    protocol := .new "RestJsonClientProtocol" (.cons "service_schema" (.known (.ref 0)) .nil)
    authTraits := ["aws.auth#sigv4", "smithy.api#httpApiKeyAuth"]
    operations := [⟨"StartInput", "StartOutput", true, true⟩]
    plugins := [apiKeyAuth (some ("x-key", "HEADER", none)), awsAuth (some "transcribe"), userAgent,
      regionalEndpoints] }

/-- What there is before: the schema of the service, an interceptor in a list, an empty dictionary. -/
def before : Heap :=
  [⟨"Schema", []⟩, ⟨"MyInterceptor", []⟩, ⟨"list", [("0", .ref 1)]⟩, ⟨"dict", []⟩]

/-- The settings of the service, in the order of the parameters. -/
example : (properties awsService).map (·.name) =
    ["api_key", "api_key_identity_resolver", "auth_scheme_resolver", "auth_schemes", "aws_access_key_id",
      "aws_credentials_identity_resolver", "aws_secret_access_key", "aws_session_token",
      "endpoint_resolver", "endpoint_uri", "http_request_config", "interceptors", "protocol", "region",
      "retry_strategy", "sdk_ua_app_id", "transport", "user_agent_extra"] := by decide +kernel

/-- A configuration with a list of interceptors, a region and an empty dictionary of schemes. -/
def given : List (String × Val) :=
  [("interceptors", .ref 2), ("region", .prim "us-west-2"), ("auth_schemes", .ref 3)]

/-- The list and the region are used, the dictionary is not, and there are defaults for the others. -/
example : ∃ h', config python awsService given before = .ok (h', 4) ∧ attr h' 4 "interceptors" = some (.ref 2) ∧
    attr h' 4 "region" = some (.prim "us-west-2") ∧ attr h' 4 "retry_strategy" = some (.prim "None") ∧
    attr h' 4 "auth_schemes" = some (.ref 9) ∧
    h'[9]? = some ⟨"dict", [("smithy.api#httpApiKeyAuth", .ref 7), ("aws.auth#sigv4", .ref 8)]⟩ ∧
    h'[8]? = some ⟨"SigV4AuthScheme", [("service", .prim "transcribe")]⟩ ∧
    attr h' 4 "transport" = some (.ref 12) ∧ h'[12]? = some ⟨"AWSCRTHTTPClient", []⟩ ∧
    attr h' 4 "endpoint_resolver" = some (.ref 10) ∧
    h'[10]? = some ⟨"StandardRegionalEndpointsResolver", [("endpoint_prefix", .prim "transcribestreaming")]⟩ ∧
    attr h' 4 "protocol" = some (.ref 11) ∧
    h'[11]? = some ⟨"RestJsonClientProtocol", [("service_schema", .ref 0)]⟩ := by
  refine ⟨((config python awsService given before).toOption.getD ([], 0)).1, ?_⟩
  refine ⟨?_, ?_, ?_, ?_, ?_, ?_, ?_, ?_, ?_, ?_, ?_, ?_, ?_⟩ <;> decide +kernel

/-- The hypotheses of the theorems are met. -/
example : Exist before given ∧ Closed before ∧ Callable awsService given ∧ awsService.authTraits ≠ [] := by
  refine ⟨?_, ?_, ?_, by decide⟩
  · intro n a ha
    simp only [given, List.mem_cons, Prod.mk.injEq, Val.ref.injEq, List.not_mem_nil, or_false, reduceCtorEq,
      and_false, false_or] at ha
    show a < 4
    omega
  · intro a o ho n b hb
    match a with
    | 0 => cases ho; cases hb
    | 1 => cases ho; cases hb
    | 2 =>
      cases ho
      rw [List.mem_singleton] at hb
      cases hb
      decide
    | 3 => cases ho; cases hb
    | a + 4 => cases ho
  · rw [config_ok]
    decide +kernel

/-- There is no parameter `auth_schemes` without auth traits, and none called `timeout`. -/
example : config python plainService [("auth_schemes", .ref 3)] before = .error .typeError ∧
    config python awsService [("timeout", .prim "3")] before = .error .typeError := by
  refine ⟨?_, ?_⟩ <;> decide +kernel

end Verif.GeneratedConfig

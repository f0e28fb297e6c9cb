import Mathlib.Tactic.Common
import Verif.Common
import Verif.Dict

/-!
# Auth schemes of generated clients

Which auth scheme a generated client uses for an operation: what the model of the service says, the
resolver and the configuration that are generated, and the choice that the client makes at run time.
-/

set_option autoImplicit false

namespace Verif.GeneratedAuth

/-! ## What models of services say

The rules of Smithy for effective auth schemes.  They are implemented by `ServiceIndex` of Smithy's
library, which is not in the repository. -/

/-- IDs of traits. -/
abbrev Id := String

/-- An operation of a service. -/
structure Operation where
  name : String
  /-- The schemes listed by its own `@auth` trait, if it has one. -/
  auth : Option (List Id)
  /-- It has the trait `@optionalAuth`. -/
  optional : Bool
deriving DecidableEq

/-- A service. -/
structure Service where
  /-- Traits of the service that define auth schemes, in order of their IDs. -/
  traits : List Id
  /-- The schemes listed by the `@auth` trait of the service, if it has one. -/
  auth : Option (List Id)
  operations : List Operation

/-- Effective schemes of a service, in order of priority: those that are listed, or else all. -/
def Service.effective (s : Service) : List Id := s.auth.getD s.traits

/-- Effective schemes of an operation, in order of priority: those listed for the operation, or else
those of the service. -/
def Service.effectiveFor (s : Service) (o : Operation) : List Id := o.auth.getD s.effective

/-- `smithy.api#noAuth`. -/
def noAuth : Id := "smithy.api#noAuth"

/-- Effective schemes with `smithy.api#noAuth` added where requests need not be signed. -/
def Service.effectiveAware (s : Service) (o : Operation) : List Id :=
  if s.effectiveFor o = [] ∨ o.optional then s.effectiveFor o ++ [noAuth] else s.effectiveFor o

/-! ## The generator -/

/-- A scheme that a plugin of the code generator brings along (AuthScheme.java:19-55).  `obj` stands
for the object that `initializeScheme` makes. -/
structure Scheme (V : Type) where
  trait : Id
  http : Bool
  obj : V

/-- A plugin of the generator (RuntimeClientPlugin.java:34-53): whether it is for the service at hand,
and its auth scheme. -/
structure Plugin (V : Type) where
  matchesService : Bool
  scheme : Option (Scheme V)

/-- Schemes of the plugins that are for the service. -/
def schemes {V : Type} (ps : List (Plugin V)) : List (Scheme V) :=
  ps.filterMap fun p => if p.matchesService then p.scheme else none

/-- `supportedAuthSchemes` (HttpAuthGenerator.java:39-50), by their IDs. -/
def supported {V : Type} (ps : List (Plugin V)) : List Id :=
  ((schemes ps).filter Scheme.http).map Scheme.trait

/-- Statements that add options. -/
inductive Simple
  /-- `if (option := generator(auth_parameters)) is not None: auth_options.append(option)`
  (HttpAuthGenerator.java:125-126).  Functions that make options are known by the ID of the scheme. -/
  | offer (scheme : Id)
  /-- `return auth_options` (129). -/
  | ret

/-- Statements of the method `resolve_auth_scheme` that is generated. -/
inductive Stmt
  | simple (s : Simple)
  /-- `if auth_parameters.operation == name:` and what is below it (110-111). -/
  | ifOperation (name : String) (body : List Simple)

/-- `writeAuthOptions` (HttpAuthGenerator.java:117-132). -/
def writeAuthOptions (ids : List Id) : List Simple := ids.map .offer ++ [.ret]

/-- `writeOperationAuthOptions` (HttpAuthGenerator.java:93-115). -/
def writeOperationAuthOptions {V : Type} (s : Service) (ps : List (Plugin V)) : List Stmt :=
  (s.operations.filter fun o => o.auth.isSome).map fun o =>
    .ifOperation o.name (writeAuthOptions ((s.effectiveFor o).filter (supported ps).contains))

/-- The body of `resolve_auth_scheme` (HttpAuthGenerator.java:58-91). -/
def writeResolver {V : Type} (s : Service) (ps : List (Plugin V)) : List Stmt :=
  writeOperationAuthOptions s ps ++
    (writeAuthOptions (s.effective.filter (supported ps).contains)).map .simple

/-- `effective_auth_schemes` of the operation object that is generated
(OperationGenerator.java:95-105). -/
def writeAuthSchemes (s : Service) (o : Operation) : List Id := s.effectiveAware o

/-! ## Generated code at run time -/

/-- Values that are compared by generated code: operation objects and strings. -/
inductive Value
  | operation (o : Operation)
  | str (s : String)

/-- `==` of Python.  `APIOperation` is a dataclass (schemas.py:287-288), whose `__eq__` compares objects
of the same class only; a string and an object of another class are never equal.  Simplified: two
operations are equal if they are the same operation of the model. -/
def pyEq : Value → Value → Bool
  | .operation a, .operation b => a = b
  | .str a, .str b => a = b
  | _, _ => false

/-- Running statements that add options, with those collected so far, and then what follows. -/
def execSimple (next : List Id → Option (List Id)) : List Simple → List Id → Option (List Id)
  | [], acc => next acc
  | .offer i :: r, acc => execSimple next r (acc ++ [i])
  | .ret :: _, acc => some acc

/-- Running statements with options collected so far.  `op` is `auth_parameters.operation`, the
operation object (client.py:412-416, auth.py:22).  The functions that make options always return one
with the ID of their scheme and no properties (HttpApiKeyAuth.java:90-97, AwsAuthIntegration.java:103-110).
The result is nothing if the end is reached without `return`. -/
def exec (op : Value) : List Stmt → List Id → Option (List Id)
  | [], _ => none
  | .simple c :: r, acc => execSimple (exec op r) [c] acc
  | .ifOperation n body :: r, acc =>
    if pyEq op (.str n) then execSimple (exec op r) body acc else exec op r acc

/-- `resolve_auth_scheme` of the resolver that is generated (HttpAuthGenerator.java:76-83). -/
def generatedResolver {V : Type} (s : Service) (ps : List (Plugin V)) (o : Operation) : List Id :=
  (exec (.operation o) (writeResolver s ps) []).getD []

/-- `DefaultAuthResolver.resolve_auth_scheme` (auth.py:43-57) for the operation object that is
generated. -/
def defaultResolver (s : Service) (o : Operation) : List Id := writeAuthSchemes s o

/-- The dictionary that `auth_schemes` is initialized with (ConfigGenerator.java:244-256). -/
def defaultSchemes {V : Type} (ps : List (Plugin V)) : List (Id × V) :=
  Dict.update [] ((schemes ps).map fun c => (c.trait, c.obj))

/-- `self.auth_schemes = auth_schemes or {…}` (ConfigGenerator.java:244). -/
def initAuthSchemes {V : Type} (ps : List (Plugin V)) : Option (List (Id × V)) → List (Id × V)
  | none => defaultSchemes ps
  | some [] => defaultSchemes ps
  | some (e :: d) => e :: d

/-- `set_auth_scheme` (ConfigGenerator.java:405-415). -/
def setAuthScheme {V : Type} (d : List (Id × V)) (id : Id) (v : V) : List (Id × V) := Dict.put d id v

/-- The configuration object as far as auth goes.  Without auth traits on the service it does not have
the attributes (ConfigGenerator.java:315-320). -/
structure Config (V : Type) where
  auth : Option ((Operation → List Id) × List (Id × V))

/-- `Config(auth_scheme_resolver=…, auth_schemes=…)` (ConfigGenerator.java:229-244, 315-320).  Any
resolver that is given is true, as objects are that define neither `__bool__` nor `__len__`.
Simplified: without auth traits the parameters do not exist, and passing them is an error, which is not
modelled. -/
def config {V : Type} (s : Service) (ps : List (Plugin V)) (resolver : Option (Operation → List Id))
    (given : Option (List (Id × V))) : Config V :=
  ⟨if s.traits = [] then none
    else some (resolver.getD (generatedResolver s ps), initAuthSchemes ps given)⟩

/-- `_resolve_auth` (client.py:536-549). -/
def resolveAuth {V : Type} (d : List (Id × V)) : List Id → Option (Id × V)
  | [] => none
  | i :: r =>
    match d.lookup i with
    | some v => some (i, v)
    | none => resolveAuth d r

/-- The scheme of a call: from `auth_scheme_resolver=config.auth_scheme_resolver` and
`supported_auth_schemes=config.auth_schemes` (ClientGenerator.java:264-265).  The error stands for
`AttributeError`. -/
def callAuth {V : Type} (c : Config V) (o : Operation) : Except Unit (Option (Id × V)) :=
  match c.auth with
  | none => .error ()
  | some (resolver, d) => .ok (resolveAuth d (resolver o))

/-! ## Specification -/

/-- What should be offered for an operation: those of its effective schemes that the client has, in
order of priority. -/
def Offers {V : Type} (s : Service) (ps : List (Plugin V)) (o : Operation) (l : List Id) : Prop :=
  l = (s.effectiveFor o).filter fun i => ∃ p ∈ ps, p.matchesService ∧
    ∃ c, p.scheme = some c ∧ c.http ∧ c.trait = i

/-- The first of a list that a dictionary has, with what it has. -/
def First {V : Type} (d : List (Id × V)) (l : List Id) : Option (Id × V) → Prop
  | some (i, v) => ∃ before after, l = before ++ i :: after ∧ d.lookup i = some v ∧
      ∀ j ∈ before, d.lookup j = none
  | none => ∀ j ∈ l, d.lookup j = none

/-! ## Lemmas -/

variable {V : Type}

theorem mem_supported (ps : List (Plugin V)) (i : Id) :
    (supported ps).contains i = true ↔ ∃ p ∈ ps, p.matchesService ∧
      ∃ c, p.scheme = some c ∧ c.http ∧ c.trait = i := by
  simp only [supported, schemes, List.contains_iff_mem, List.mem_map, List.mem_filter,
    List.mem_filterMap]
  constructor
  · rintro ⟨c, ⟨⟨p, hp, hc⟩, hh⟩, rfl⟩
    by_cases hm : p.matchesService
    · rw [if_pos hm] at hc; exact ⟨p, hp, hm, c, hc, hh, rfl⟩
    · rw [if_neg hm] at hc; cases hc
  · rintro ⟨p, hp, hm, c, hc, hh, rfl⟩
    exact ⟨c, ⟨⟨p, hp, by rw [if_pos hm]; exact hc⟩, hh⟩, rfl⟩

theorem filter_supported (ps : List (Plugin V)) (l : List Id) :
    l.filter (supported ps).contains = l.filter fun i => ∃ p ∈ ps, p.matchesService ∧
      ∃ c, p.scheme = some c ∧ c.http ∧ c.trait = i := by
  apply List.filter_congr
  intro i _
  rw [Bool.eq_iff_iff, mem_supported]
  simp

theorem exec_options (op : Value) : ∀ (ids acc : List Id),
    exec op ((writeAuthOptions ids).map .simple) acc = some (acc ++ ids)
  | [], acc => by simp [writeAuthOptions, exec, execSimple]
  | i :: ids, acc => by
    have ih := exec_options op ids (acc ++ [i])
    simp only [writeAuthOptions, List.map_cons, List.cons_append, exec, execSimple] at ih ⊢
    rw [ih]
    simp

/-- Operation objects equal no name. -/
theorem exec_operations (o : Operation) (f : Operation → List Simple) (r : List Stmt) (acc : List Id) :
    ∀ l : List Operation, exec (.operation o) (l.map (fun p => .ifOperation p.name (f p)) ++ r) acc =
      exec (.operation o) r acc
  | [] => rfl
  | p :: l => by
    simp only [List.map_cons, List.cons_append, exec, pyEq]
    exact exec_operations o f r acc l

theorem generated_eq (s : Service) (ps : List (Plugin V)) (o : Operation) :
    generatedResolver s ps o = s.effective.filter (supported ps).contains := by
  rw [generatedResolver, writeResolver, writeOperationAuthOptions, exec_operations o
    (fun o => writeAuthOptions ((s.effectiveFor o).filter (supported ps).contains)), exec_options]
  rfl

theorem resolveAuth_first (d : List (Id × V)) : ∀ l : List Id, First d l (resolveAuth d l)
  | [] => by simp [resolveAuth, First]
  | i :: l => by
    rw [resolveAuth]
    cases h : d.lookup i with
    | some v => exact ⟨[], l, rfl, h, by simp⟩
    | none =>
      have ih := resolveAuth_first d l
      show First d (i :: l) (resolveAuth d l)
      cases hr : resolveAuth d l with
      | none =>
        rw [hr] at ih
        intro j hj
        rcases List.mem_cons.1 hj with rfl | hj
        · exact h
        · exact ih j hj
      | some e =>
        rw [hr] at ih
        obtain ⟨a, b, h1, h2, h3⟩ := ih
        refine ⟨i :: a, b, by rw [h1]; rfl, h2, fun j hj => ?_⟩
        rcases List.mem_cons.1 hj with rfl | hj
        · exact h
        · exact h3 j hj

/-- `First` determines the result. -/
theorem first_unique (d : List (Id × V)) : ∀ (l : List Id) (x y : Option (Id × V)),
    First d l x → First d l y → x = y := by
  have key : ∀ (l : List Id) (x : Option (Id × V)), First d l x → x = resolveAuth d l := by
    intro l
    induction l with
    | nil =>
      intro x hx
      cases x with
      | none => rfl
      | some e => obtain ⟨a, b, h, _⟩ := hx; simp at h
    | cons i l ih =>
      intro x hx
      rw [resolveAuth]
      cases h : d.lookup i with
      | some v =>
        cases x with
        | none => have := hx i List.mem_cons_self; rw [h] at this; cases this
        | some e =>
          obtain ⟨a, b, h1, h2, h3⟩ := hx
          cases a with
          | nil =>
            obtain ⟨rfl, _⟩ := List.cons.inj h1
            rw [h] at h2
            cases h2
            rfl
          | cons c a =>
            obtain ⟨rfl, _⟩ := List.cons.inj h1
            have := h3 i List.mem_cons_self
            rw [h] at this; cases this
      | none =>
        show x = resolveAuth d l
        apply ih
        cases x with
        | none => exact fun j hj => hx j (List.mem_cons_of_mem _ hj)
        | some e =>
          obtain ⟨a, b, h1, h2, h3⟩ := hx
          cases a with
          | nil =>
            obtain ⟨rfl, _⟩ := List.cons.inj h1
            rw [h] at h2; cases h2
          | cons c a =>
            obtain ⟨rfl, h4⟩ := List.cons.inj h1
            exact ⟨a, b, h4, h2, fun j hj => h3 j (List.mem_cons_of_mem _ hj)⟩
  intro l x y hx hy
  rw [key l x hx, key l y hy]

theorem lookup_defaults (ps : List (Plugin V)) (i : Id) :
    (defaultSchemes ps).lookup i = ((schemes ps).reverse.find? (·.trait = i)).map Scheme.obj := by
  rw [defaultSchemes, Dict.lookup_update, ← List.map_reverse]
  generalize (schemes ps).reverse = l
  induction l with
  | nil => rfl
  | cons c l ih =>
    simp only [List.map_cons, Dict.lookup_cons, List.find?_cons] at ih ⊢
    by_cases h : i = c.trait
    · rw [if_pos h]
      simp [h]
    · rw [if_neg h, ih]
      simp [Ne.symm h]

/-- A supported scheme is in the default configuration. -/
theorem default_has (ps : List (Plugin V)) {i : Id} (h : (supported ps).contains i = true) :
    ∃ v, (defaultSchemes ps).lookup i = some v := by
  rw [lookup_defaults]
  cases hf : (schemes ps).reverse.find? (·.trait = i) with
  | some c => exact ⟨c.obj, rfl⟩
  | none =>
    exfalso
    rw [List.find?_eq_none] at hf
    simp only [supported, List.contains_iff_mem, List.mem_map, List.mem_filter] at h
    obtain ⟨c, ⟨hc, _⟩, hi⟩ := h
    exact hf c (List.mem_reverse.2 hc) (by simp [hi])

/-! ## Properties -/

/-- The resolver that is generated offers, for an operation without an `@auth` trait of its own,
exactly the effective schemes of the operation that the client has, in order of priority.  What is
missing: operations with the trait, for which it is false (below). -/
theorem C111_operations_partial (s : Service) (ps : List (Plugin V)) (o : Operation)
    (h : o.auth = none) : Offers s ps o (generatedResolver s ps o) := by
  rw [Offers, generated_eq, filter_supported, Service.effectiveFor, h]
  rfl

/-- It offers the same for all operations, also those with `@auth` traits: the operation is compared
with a name, which it never equals. -/
theorem C111_same_fails (s : Service) (ps : List (Plugin V)) (o o' : Operation) :
    generatedResolver s ps o = generatedResolver s ps o' := by
  rw [generated_eq, generated_eq]

/-- SigV4 and API keys. -/
private def both : List (Plugin Nat) :=
  [⟨true, some ⟨"smithy.api#httpApiKeyAuth", true, 1⟩⟩, ⟨true, some ⟨"aws.auth#sigv4", true, 2⟩⟩]

private def open_ : Operation := ⟨"Open", some [], false⟩
private def keyed : Operation := ⟨"Keyed", some ["smithy.api#httpApiKeyAuth"], false⟩
private def plain : Operation := ⟨"Plain", none, false⟩

private def service : Service :=
  ⟨["aws.auth#sigv4", "smithy.api#httpApiKeyAuth"], none, [open_, keyed, plain]⟩

/-- An operation that must not be signed, and one that is to be signed with an API key, are signed
with SigV4. -/
theorem C111_operation_fails :
    ¬ Offers service both open_ (generatedResolver service both open_) ∧
    callAuth (config service both none none) open_ = .ok (some ("aws.auth#sigv4", 2)) ∧
    ¬ Offers service both keyed (generatedResolver service both keyed) ∧
    callAuth (config service both none none) keyed = .ok (some ("aws.auth#sigv4", 2)) := by
  have h1 : generatedResolver service both open_ = ["aws.auth#sigv4", "smithy.api#httpApiKeyAuth"] := by
    decide +kernel
  have h2 : generatedResolver service both keyed = ["aws.auth#sigv4", "smithy.api#httpApiKeyAuth"] := by
    decide +kernel
  refine ⟨?_, by decide +kernel, ?_, by decide +kernel⟩
  · rw [h1]
    intro h
    have := congrArg List.length h
    simp [Service.effectiveFor, open_] at this
  · rw [h2]
    intro h
    have := congrArg List.length h
    have h3 := List.length_filter_le (fun i => decide (∃ p ∈ both, p.matchesService ∧
      ∃ c, p.scheme = some c ∧ c.http ∧ c.trait = i)) (service.effectiveFor keyed)
    rw [← this] at h3
    exact absurd h3 (by decide)

/-- Clients given `DefaultAuthResolver` use, for every operation, the first of its effective schemes
(with `smithy.api#noAuth` where requests need not be signed) that is in the configuration. -/
theorem C111_default_resolver (s : Service) (ps : List (Plugin V)) (given : Option (List (Id × V)))
    (o : Operation) (hs : s.traits ≠ []) :
    ∃ r, callAuth (config s ps (some (defaultResolver s)) given) o = .ok r ∧
      First (initAuthSchemes ps given)
        (if s.effectiveFor o = [] ∨ o.optional then s.effectiveFor o ++ ["smithy.api#noAuth"]
          else s.effectiveFor o) r := by
  refine ⟨_, ?_, resolveAuth_first _ _⟩
  rw [config, if_neg hs]
  rfl

/-- In the configuration that is generated, a client uses the first scheme that its resolver offers,
and signs nothing only if nothing is offered. -/
theorem C111_first (s : Service) (ps : List (Plugin V)) (o : Operation) (hs : s.traits ≠ []) :
    ∃ r, callAuth (config s ps none none) o = .ok r ∧
      r.map Prod.fst = (generatedResolver s ps o).head? := by
  refine ⟨_, by rw [config, if_neg hs]; rfl, ?_⟩
  show (resolveAuth (defaultSchemes ps) (generatedResolver s ps o)).map Prod.fst = _
  rw [generated_eq]
  cases h : s.effective.filter (supported ps).contains with
  | nil => rfl
  | cons i l =>
    have hi : (supported ps).contains i = true :=
      (List.mem_filter.1 (h ▸ List.mem_cons_self : i ∈ s.effective.filter (supported ps).contains)).2
    obtain ⟨v, hv⟩ := default_has ps hi
    rw [resolveAuth, hv]
    rfl

/-- So operations without an `@auth` trait are signed with the first of their effective schemes that
the client has. -/
theorem C111_signed_partial (s : Service) (ps : List (Plugin V)) (o : Operation) (hs : s.traits ≠ [])
    (h : o.auth = none) : ∃ r l, callAuth (config s ps none none) o = .ok r ∧
      Offers s ps o l ∧ r.map Prod.fst = l.head? := by
  obtain ⟨r, h1, h2⟩ := C111_first s ps o hs
  exact ⟨r, _, h1, C111_operations_partial s ps o h, h2⟩

/-- Schemes and a resolver that the caller gives are the ones that are used. -/
theorem C111_given (s : Service) (ps : List (Plugin V)) (resolver : Option (Operation → List Id))
    (given : List (Id × V)) (o : Operation) (hs : s.traits ≠ []) (hg : given ≠ []) :
    ∃ r, callAuth (config s ps resolver (some given)) o = .ok r ∧
      First given (resolver.getD (generatedResolver s ps) o) r := by
  cases given with
  | nil => exact absurd rfl hg
  | cons e d =>
    refine ⟨_, ?_, resolveAuth_first _ _⟩
    rw [config, if_neg hs]
    rfl

/-- After `set_auth_scheme` the scheme that was set is used wherever one with its ID was, and all
other choices are as before. -/
theorem C111_set (d : List (Id × V)) (l : List Id) (i j : Id) (v w w' : V)
    (h : d.lookup i = some w') (hr : resolveAuth d l = some (j, w)) :
    resolveAuth (setAuthScheme d i v) l = some (j, if j = i then v else w) := by
  have hp := resolveAuth_first d l
  rw [hr] at hp
  obtain ⟨a, b, h1, h2, h3⟩ := hp
  refine first_unique _ l _ _ (resolveAuth_first _ _) ⟨a, b, h1, ?_, fun k hk => ?_⟩
  · rw [setAuthScheme, Dict.lookup_put]
    by_cases hj : j = i
    · rw [if_pos hj, if_pos hj]
    · rw [if_neg hj, if_neg hj, h2]
  · rw [setAuthScheme, Dict.lookup_put]
    have hk' : k ≠ i := by
      rintro rfl
      rw [h3 k hk] at h
      cases h
    rw [if_neg hk']
    exact h3 k hk

/-- Asking for no auth schemes with `auth_schemes={}` has no effect. -/
theorem C111_none_given_fails (s : Service) (ps : List (Plugin V))
    (resolver : Option (Operation → List Id)) :
    config s ps resolver (some []) = config s ps resolver none := rfl

/-- No operation of a service without auth traits can be called: the configuration does not have the
attributes that are read for every call. -/
theorem C111_no_auth_fails (s : Service) (ps : List (Plugin V))
    (resolver : Option (Operation → List Id)) (given : Option (List (Id × V))) (o : Operation)
    (h : s.traits = []) : callAuth (config s ps resolver given) o = .error () := by
  rw [config, if_pos h]
  rfl

/-! ## Examples -/

example : generatedResolver service both plain = ["aws.auth#sigv4", "smithy.api#httpApiKeyAuth"] := by
  decide +kernel

example : callAuth (config service both none none) plain = .ok (some ("aws.auth#sigv4", 2)) := by
  decide +kernel

/-- With the resolver of `smithy_core` the traits of operations count. -/
example : callAuth (config service both (some (defaultResolver service)) none) open_ = .ok none ∧
    callAuth (config service both (some (defaultResolver service)) none) keyed =
      .ok (some ("smithy.api#httpApiKeyAuth", 1)) := by
  refine ⟨?_, ?_⟩ <;> decide +kernel

example : defaultResolver service ⟨"Either", none, true⟩ =
    ["aws.auth#sigv4", "smithy.api#httpApiKeyAuth", "smithy.api#noAuth"] := by decide +kernel

example : (defaultSchemes both).lookup "aws.auth#sigv4" = some 2 ∧
    resolveAuth (setAuthScheme (defaultSchemes both) "aws.auth#sigv4" 3)
      (generatedResolver service both plain) = some ("aws.auth#sigv4", 3) := by
  refine ⟨?_, ?_⟩ <;> decide +kernel

/-- A service without auth traits. -/
example : (⟨[], none, [plain]⟩ : Service).traits = [] := rfl

end Verif.GeneratedAuth

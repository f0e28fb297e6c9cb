import Mathlib.Data.List.Basic
import Mathlib.Data.List.Nodup

/-!
# The plugins that generated clients come with (C139)

Models `RuntimeClientPlugin` with its builder (codegen/core/src/main/java/software/amazon/smithy/python/codegen/integrations/
RuntimeClientPlugin.java:34-250), which plugins `ClientGenerator` writes into constructors (ClientGenerator.java:64-72) and operations
(ClientGenerator.java:227-234), and `generatePluginFiles` (PythonIntegration.java:50-58).

Simplified: the model is fixed, so predicates are about a service and the operation.  Of a plugin only the predicates, the reference to the
Python callable and the files are there.  What plugins do to configurations when they run is in C104 and C105.
-/

set_option autoImplicit false

namespace Verif.ClientPlugins

abbrev Text := List Char

section
variable {Service Operation Symbol File : Type}

/-! ## Model -/

/-- The predicates of a builder or plugin (RuntimeClientPlugin.java:38-39 and 178-179).  `operation` is `none` where it is the object
`OPERATION_ALWAYS_FALSE` (36). -/
structure Predicates (Service Operation : Type) where
  service : Service → Bool
  operation : Option (Service → Operation → Bool)

/-- A new builder (RuntimeClientPlugin.java:178-179). -/
def fresh : Predicates Service Operation := ⟨fun _ => true, none⟩

/-- `operationPredicate` (RuntimeClientPlugin.java:206-210). -/
def Predicates.onOperations (_ : Predicates Service Operation) (p : Service → Operation → Bool) : Predicates Service Operation :=
  ⟨fun _ => false, some p⟩

/-- `servicePredicate` (RuntimeClientPlugin.java:246-250). -/
def Predicates.onServices (_ : Predicates Service Operation) (p : Service → Bool) : Predicates Service Operation := ⟨p, none⟩

/-- `appliesOnlyToOperations` (RuntimeClientPlugin.java:223-226); `name` gives the name of an operation. -/
def Predicates.onlyTo (name : Operation → Text) (b : Predicates Service Operation) (names : List Text) : Predicates Service Operation :=
  (b.onOperations fun _ o => decide (name o ∈ names)).onServices fun _ => false

/-- A call of one of the methods of the builder. -/
inductive Call (Service Operation : Type) where
  | services (p : Service → Bool)
  | operations (p : Service → Operation → Bool)
  | only (names : List Text)

def call (name : Operation → Text) (b : Predicates Service Operation) : Call Service Operation → Predicates Service Operation
  | .services p => b.onServices p
  | .operations p => b.onOperations p
  | .only names => b.onlyTo name names

/-- The predicates after some calls of the methods of a new builder. -/
def build (name : Operation → Text) (calls : List (Call Service Operation)) : Predicates Service Operation :=
  calls.foldl (call name) fresh

/-- `toBuilder` (RuntimeClientPlugin.java:157-172): a new builder with the predicate that is not always false. -/
def Predicates.toBuilder (p : Predicates Service Operation) : Predicates Service Operation :=
  match p.operation with
  | none => fresh.onServices p.service
  | some o => fresh.onOperations o

/-- `matchesService` (RuntimeClientPlugin.java:100-102). -/
def Predicates.matchesService (p : Predicates Service Operation) (s : Service) : Bool := p.service s

/-- `matchesOperation` (RuntimeClientPlugin.java:113-115). -/
def Predicates.matchesOperation (p : Predicates Service Operation) (s : Service) (o : Operation) : Bool :=
  match p.operation with
  | none => false
  | some f => f s o

/-- A plugin: when it applies, the callable, and the files it writes. -/
structure Plugin (Service Operation Symbol File : Type) where
  predicates : Predicates Service Operation
  callable : Option Symbol
  files : List File

variable [DecidableEq Symbol]

/-- `LinkedHashSet.add` of each, in order. -/
def addAll : List Symbol → List Symbol → List Symbol
  | set, [] => set
  | set, x :: xs => addAll (if x ∈ set then set else set ++ [x]) xs

/-- The default plugins in the constructor of the client (ClientGenerator.java:64-72); the plugins of each integration, in order. -/
def clientPlugins (integrations : List (List (Plugin Service Operation Symbol File))) (s : Service) : List Symbol :=
  addAll [] ((integrations.flatten.filter fun p => p.predicates.matchesService s).filterMap (·.callable))

/-- The default plugins of an operation (ClientGenerator.java:227-234). -/
def operationPlugins (integrations : List (List (Plugin Service Operation Symbol File))) (s : Service) (o : Operation) : List Symbol :=
  addAll [] ((integrations.flatten.filter fun p => p.predicates.matchesOperation s o).filterMap (·.callable))

omit [DecidableEq Symbol] in
/-- `generatePluginFiles` (PythonIntegration.java:50-58): the files that are written. -/
def pluginFiles (integrations : List (List (Plugin Service Operation Symbol File))) (s : Service) : List File :=
  (integrations.flatten.filter fun p => p.predicates.matchesService s).flatMap (·.files)

/-! ## Specification -/

/-- What the calls of a builder say: the last one counts. -/
def Says (name : Operation → Text) (calls : List (Call Service Operation)) : (Service → Bool) × (Service → Operation → Bool) :=
  match calls.getLast? with
  | none => (fun _ => true, fun _ _ => false)
  | some (.services p) => (p, fun _ _ => false)
  | some (.operations p) => (fun _ => false, p)
  | some (.only names) => (fun _ => false, fun _ o => decide (name o ∈ names))

/-- `result` is the elements of `all`, each once, in the order in which they come first. -/
structure InOrder (all result : List Symbol) : Prop where
  same : ∀ x, x ∈ result ↔ x ∈ all
  once : result.Nodup
  order : result.Pairwise fun a b => all.idxOf a < all.idxOf b

/-! ## Lemmas -/

omit [DecidableEq Symbol] in
theorem build_append (name : Operation → Text) (calls : List (Call Service Operation)) (c : Call Service Operation) :
    build name (calls ++ [c]) = call name (build name calls) c := by
  simp [build]

theorem addAll_spec : ∀ (xs before set : List Symbol), InOrder before set → InOrder (before ++ xs) (addAll set xs)
  | [], before, set, h => by
    rw [List.append_nil]
    exact h
  | x :: xs, before, set, h => by
    rw [addAll, show before ++ x :: xs = (before ++ [x]) ++ xs by simp]
    apply addAll_spec xs
    by_cases hx : x ∈ set
    · rw [if_pos hx]
      refine ⟨fun y => ?_, h.once, ?_⟩
      · rw [List.mem_append, List.mem_singleton, h.same]
        exact ⟨.inl, fun hy => hy.elim id fun hy => hy ▸ (h.same x).1 hx⟩
      · refine h.order.imp_of_mem fun {a b} ha hb hab => ?_
        rw [List.idxOf_append_of_mem ((h.same a).1 ha), List.idxOf_append_of_mem ((h.same b).1 hb)]
        exact hab
    · rw [if_neg hx]
      have hxb : x ∉ before := fun hb => hx ((h.same x).2 hb)
      refine ⟨fun y => ?_, ?_, ?_⟩
      · rw [List.mem_append, List.mem_append, h.same]
      · rw [List.nodup_append]
        refine ⟨h.once, by simp, ?_⟩
        intro a ha b hb
        rw [List.mem_singleton.1 hb]
        rintro rfl
        exact hx ha
      · rw [List.pairwise_append]
        refine ⟨?_, by simp, ?_⟩
        · refine h.order.imp_of_mem fun {a b} ha hb hab => ?_
          rw [List.idxOf_append_of_mem ((h.same a).1 ha), List.idxOf_append_of_mem ((h.same b).1 hb)]
          exact hab
        · intro a ha b hb
          rw [List.mem_singleton.1 hb, List.idxOf_append_of_mem ((h.same a).1 ha), List.idxOf_append_of_notMem hxb]
          exact Nat.lt_of_lt_of_le (List.idxOf_lt_length_of_mem ((h.same a).1 ha)) (Nat.le_add_right _ _)

theorem addAll_nil (xs : List Symbol) : InOrder xs (addAll [] xs) := by
  have := addAll_spec xs [] [] ⟨fun _ => Iff.rfl, List.nodup_nil, .nil⟩
  rwa [List.nil_append] at this

/-! ## Theorems -/

omit [DecidableEq Symbol] in
/-- **C139**: a plugin applies where the last call of its builder says, unless that is `appliesOnlyToOperations`. -/
theorem C139_applies_partial (name : Operation → Text) (calls : List (Call Service Operation))
    (h : ∀ names, calls.getLast? ≠ some (.only names)) (s : Service) :
    (build name calls).matchesService s = (Says name calls).1 s ∧
    ∀ o, (build name calls).matchesOperation s o = (Says name calls).2 s o := by
  rcases List.eq_nil_or_concat calls with rfl | ⟨cs, c, rfl⟩
  · exact ⟨rfl, fun _ => rfl⟩
  · rw [List.concat_eq_append] at h ⊢
    rw [build_append]
    unfold Says
    rw [List.getLast?_append, List.getLast?_singleton] at *
    cases c with
    | services p => exact ⟨rfl, fun _ => rfl⟩
    | operations p => exact ⟨rfl, fun _ => rfl⟩
    | only names => exact absurd rfl (h names)

omit [DecidableEq Symbol] in
/-- The claim is false of `appliesOnlyToOperations`: after it a plugin applies to nothing, whatever the names. -/
theorem C139_only_fails (name : Operation → Text) (calls : List (Call Service Operation)) (names : List Text) (s : Service) :
    (build name (calls ++ [.only names])).matchesService s = false ∧
    ∀ o, (build name (calls ++ [.only names])).matchesOperation s o = false ∧
      (Says name (calls ++ [.only names])).2 s o = decide (name o ∈ names) := by
  rw [build_append]
  refine ⟨rfl, fun o => ⟨rfl, ?_⟩⟩
  unfold Says
  rw [List.getLast?_append, List.getLast?_singleton]
  rfl

omit [DecidableEq Symbol] in
/-- **C139**: a plugin does not apply to a client and to its operations too, so it does not run twice for a call. -/
theorem C139_exclusive (name : Operation → Text) (calls : List (Call Service Operation)) (s t : Service) (o : Operation)
    (h : (build name calls).matchesOperation s o = true) : (build name calls).matchesService t = false := by
  rcases List.eq_nil_or_concat calls with rfl | ⟨cs, c, rfl⟩
  · cases h
  · rw [List.concat_eq_append, build_append] at h ⊢
    cases c with
    | services p => cases h
    | operations p => rfl
    | only names => rfl

omit [DecidableEq Symbol] in
/-- **C139**: a copy of a plugin by its builder applies where the plugin does. -/
theorem C139_copy (name : Operation → Text) (calls : List (Call Service Operation)) (s : Service) :
    (build name calls).toBuilder.matchesService s = (build name calls).matchesService s ∧
    ∀ o, (build name calls).toBuilder.matchesOperation s o = (build name calls).matchesOperation s o := by
  rcases List.eq_nil_or_concat calls with rfl | ⟨cs, c, rfl⟩
  · exact ⟨rfl, fun _ => rfl⟩
  · rw [List.concat_eq_append, build_append]
    cases c with
    | services p => exact ⟨rfl, fun _ => rfl⟩
    | operations p => exact ⟨rfl, fun _ => rfl⟩
    | only names => exact ⟨rfl, fun _ => rfl⟩

/-- **C139**: the constructor of a client has every callable of a plugin that applies to the service, once, in the order of integrations
and of their plugins, and no other. -/
theorem C139_client (integrations : List (List (Plugin Service Operation Symbol File))) (s : Service) :
    (∀ x, x ∈ clientPlugins integrations s ↔
      ∃ ps ∈ integrations, ∃ p ∈ ps, p.predicates.matchesService s = true ∧ p.callable = some x) ∧
    (clientPlugins integrations s).Nodup ∧
    (clientPlugins integrations s).Pairwise fun a b =>
      ((integrations.flatten.filter fun p => p.predicates.matchesService s).filterMap (·.callable)).idxOf a <
        ((integrations.flatten.filter fun p => p.predicates.matchesService s).filterMap (·.callable)).idxOf b := by
  have h := addAll_nil ((integrations.flatten.filter fun p => p.predicates.matchesService s).filterMap (·.callable))
  refine ⟨fun x => ?_, h.once, h.order⟩
  refine (h.same x).trans ?_
  simp only [List.mem_filterMap, List.mem_filter, List.mem_flatten]
  constructor
  · rintro ⟨p, ⟨⟨ps, hps, hp⟩, hm⟩, hc⟩
    exact ⟨ps, hps, p, hp, hm, hc⟩
  · rintro ⟨ps, hps, p, hp, hm, hc⟩
    exact ⟨p, ⟨⟨ps, hps, hp⟩, hm⟩, hc⟩

/-- **C139**: so have operations those of the plugins that apply to them. -/
theorem C139_operation (integrations : List (List (Plugin Service Operation Symbol File))) (s : Service) (o : Operation) :
    (∀ x, x ∈ operationPlugins integrations s o ↔
      ∃ ps ∈ integrations, ∃ p ∈ ps, p.predicates.matchesOperation s o = true ∧ p.callable = some x) ∧
    (operationPlugins integrations s o).Nodup ∧
    (operationPlugins integrations s o).Pairwise fun a b =>
      ((integrations.flatten.filter fun p => p.predicates.matchesOperation s o).filterMap (·.callable)).idxOf a <
        ((integrations.flatten.filter fun p => p.predicates.matchesOperation s o).filterMap (·.callable)).idxOf b := by
  have h := addAll_nil ((integrations.flatten.filter fun p => p.predicates.matchesOperation s o).filterMap (·.callable))
  refine ⟨fun x => ?_, h.once, h.order⟩
  refine (h.same x).trans ?_
  simp only [List.mem_filterMap, List.mem_filter, List.mem_flatten]
  constructor
  · rintro ⟨p, ⟨⟨ps, hps, hp⟩, hm⟩, hc⟩
    exact ⟨ps, hps, p, hp, hm, hc⟩
  · rintro ⟨ps, hps, p, hp, hm, hc⟩
    exact ⟨p, ⟨⟨ps, hps, hp⟩, hm⟩, hc⟩

omit [DecidableEq Symbol] in
/-- **C139**: the files of the plugins that apply to the service are written, and no others. -/
theorem C139_files_partial (integrations : List (List (Plugin Service Operation Symbol File))) (s : Service) (f : File) :
    f ∈ pluginFiles integrations s ↔ ∃ ps ∈ integrations, ∃ p ∈ ps, p.predicates.matchesService s = true ∧ f ∈ p.files := by
  unfold pluginFiles
  simp only [List.mem_flatMap, List.mem_filter, List.mem_flatten]
  constructor
  · rintro ⟨p, ⟨⟨ps, hps, hp⟩, hm⟩, hf⟩
    exact ⟨ps, hps, p, hp, hm, hf⟩
  · rintro ⟨ps, hps, p, hp, hm, hf⟩
    exact ⟨p, ⟨⟨ps, hps, hp⟩, hm⟩, hf⟩

/-- Files of a plugin for operations are not written, so the operation uses a callable of a module that is not there. -/
theorem C139_files_fails (name : Operation → Text) (x : Symbol) (f : File) (s : Service) (o : Operation) :
    let p : Plugin Service Operation Symbol File := ⟨build name [.operations fun _ _ => true], some x, [f]⟩
    x ∈ operationPlugins [[p]] s o ∧ f ∉ pluginFiles [[p]] s := by
  refine ⟨?_, ?_⟩
  · rw [(C139_operation _ _ _).1]
    exact ⟨_, List.mem_singleton.2 rfl, _, List.mem_singleton.2 rfl, rfl, rfl⟩
  · rw [C139_files_partial]
    rintro ⟨ps, hps, p, hp, hm, -⟩
    rw [List.mem_singleton] at hps
    subst hps
    rw [List.mem_singleton] at hp
    subst hp
    cases hm

end

/-! ## Examples -/

private def plugin (calls : List (Call Text Text)) (x : String) : Plugin Text Text String String := ⟨build id calls, some x, [x]⟩

/-- Services are told apart, and a callable that two plugins have comes once. -/
example :
    clientPlugins [[plugin [] "user_agent", plugin [.services (· = "DynamoDB".toList)] "retry"], [plugin [] "accept", plugin [] "user_agent"],
      [plugin [.operations fun _ o => o = "Get".toList] "get"]] "DynamoDB".toList = ["user_agent", "retry", "accept"] ∧
    clientPlugins [[plugin [] "user_agent", plugin [.services (· = "DynamoDB".toList)] "retry"]] "S3".toList = ["user_agent"] ∧
    operationPlugins [[plugin [] "user_agent"], [plugin [.operations fun _ o => o = "Get".toList] "get"]] "S3".toList "Get".toList =
      ["get"] := by
  refine ⟨?_, ?_, ?_⟩ <;> decide +kernel

/-- The hypothesis of `C139_applies_partial` holds. -/
example : (build (Service := Text) (id : Text → Text) [.only ["Get".toList], .operations fun _ o => o = "Put".toList]).matchesOperation
    "S3".toList "Put".toList = true :=
  ((C139_applies_partial id _ (by intro names h; cases h) _).2 _).trans (by decide +kernel)

end Verif.ClientPlugins

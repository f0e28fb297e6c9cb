import Verif.Common
import Mathlib.Tactic.Common

/-!
# Cached identities (C50)

Models `CachingIdentityResolver` (smithy_core/aio/identity.py:15-31), and the caches of
`ContainerCredentialsResolver`, `IMDSCredentialsResolver` and `EnvironmentCredentialsResolver`
(smithy_aws_core/identity/container.py, imds.py, environment.py), for any number of callers running at
the same time.  Between two suspensions a coroutine runs without interruption, so a step of the model is
a stretch of one coroutine: from its call to the point where it waits for the source, and from the answer
of the source to its end.
-/

set_option autoImplicit false

namespace Verif.Identity

/-! ## Model -/

/-- An identity: some value and the time at which it expires (interfaces/identity.py:13-17). -/
structure Ident (V : Type) where
  value : V
  expiration : Option Int
  deriving DecidableEq, Repr

variable {V E : Type}

/-- `Identity.is_expired` (smithy_core/interfaces/identity.py:23-28). -/
def Ident.isExpired (x : Ident V) (now : Int) : Bool :=
  match x.expiration with
  | none => false
  | some e => now ≥ e

/-- How the resolvers differ: when a cached identity is returned, and what `invalidate` leaves of the
cache. -/
structure Kind (V : Type) where
  usable : Ident V → Int → Bool
  invalidated : Option (Ident V) → Option (Ident V)

/-- `CachingIdentityResolver` (smithy_core/aio/identity.py:18-31). -/
def caching : Kind V := ⟨fun x now => !x.isExpired now, fun _ => none⟩

/-- The container and instance metadata resolvers (container.py:177-182, 202-213;
imds.py:200-205, 227-238): identities without expiration are not reused. -/
def metadata : Kind V :=
  ⟨fun x now => match x.expiration with | none => false | some e => now < e, fun _ => none⟩

/-- The environment resolver (environment.py:16-42): what is cached is always returned, and `invalidate`
is the default one, which does nothing (smithy_core/aio/interfaces/identity.py:22-27). -/
def environment : Kind V := ⟨fun _ _ => true, id⟩

/-- A resolver while it is used: the clock, the cache, and the callers waiting for the source. -/
structure St (V : Type) where
  now : Int
  cached : Option (Ident V)
  waiting : List Nat
  deriving DecidableEq, Repr

def init (now : Int) : St V := ⟨now, none, []⟩

/-- What can happen: a caller calls `get_identity`, the source answers a caller or fails, a waiting
caller is cancelled, someone calls `invalidate`, the clock is another. -/
inductive Ev (V E : Type) where
  | call (i : Nat)
  | answer (i : Nat) (r : Except E (Ident V))
  | cancel (i : Nat)
  | invalidate
  | clock (t : Int)
  deriving DecidableEq, Repr

/-- What can be seen: a caller gets an identity or an exception, the source is asked. -/
inductive Out (V E : Type) where
  | returned (i : Nat) (x : Ident V)
  | raised (i : Nat) (e : E)
  | asked (i : Nat)
  deriving DecidableEq, Repr

/-- One step. -/
def St.step (k : Kind V) (s : St V) : Ev V E → St V × Option (Out V E)
  | .call i =>
    match s.cached with
    | some x =>
      if k.usable x s.now then (s, some (.returned i x))
      else ({ s with waiting := i :: s.waiting }, some (.asked i))
    | none => ({ s with waiting := i :: s.waiting }, some (.asked i))
  | .answer i r =>
    if s.waiting.contains i then
      let s := { s with waiting := s.waiting.erase i }
      match r with
      | .ok x => ({ s with cached := some x }, some (.returned i x))
      | .error e => (s, some (.raised i e))
    else (s, none)
  | .cancel i => ({ s with waiting := s.waiting.erase i }, none)
  | .invalidate => ({ s with cached := k.invalidated s.cached }, none)
  | .clock t => ({ s with now := t }, none)

/-- A run: the state at its end and, for every event, the time and what could be seen. -/
def run (k : Kind V) (s : St V) : List (Ev V E) → St V × List (Int × Option (Out V E))
  | [] => (s, [])
  | e :: es =>
    let r := s.step k e
    let q := run k r.1 es
    (q.1, (s.now, r.2) :: q.2)

/-! ## Specification -/

/-- At a time an identity is out of date. -/
def Expired (x : Ident V) (now : Int) : Prop := ∃ e, x.expiration = some e ∧ e ≤ now

/-- The time after some events. -/
def clockAfter (start : Int) : List (Ev V E) → Int
  | [] => start
  | .clock t :: es => clockAfter t es
  | _ :: es => clockAfter start es

/-- The observations of a run, started with nothing cached. -/
def observed (k : Kind V) (start : Int) (es : List (Ev V E)) : List (Int × Option (Out V E)) :=
  (run k (init start) es).2

/-- The source was asked by a caller and answered it with an identity, at the event after `before`: an
event that stores the identity. -/
def Stores (k : Kind V) (start : Int) (before : List (Ev V E)) (e : Ev V E) (x : Ident V) : Prop :=
  ∃ i, e = .answer i (.ok x) ∧
    ∃ t, (observed k start (before ++ [e])).getLast? = some (t, some (.returned i x))

/-- Since `before`, no event of `es` stores an identity or invalidates. -/
def Quiet (k : Kind V) (start : Int) (before es : List (Ev V E)) : Prop :=
  ∀ a e b, es = a ++ e :: b → e ≠ .invalidate ∧ ∀ x, ¬ Stores k start (before ++ a) e x

/-- What a caller calling after the events `es` sees, and when. -/
def onCall (k : Kind V) (start : Int) (es : List (Ev V E)) (i : Nat) : Option (Int × Option (Out V E)) :=
  (observed k start (es ++ [.call i])).getLast?

/-! ## Theorems -/

theorem run_append (k : Kind V) (s : St V) (a b : List (Ev V E)) :
    run k s (a ++ b) = ((run k (run k s a).1 b).1, (run k s a).2 ++ (run k (run k s a).1 b).2) := by
  induction a generalizing s with
  | nil => rfl
  | cons e a ih => simp only [List.cons_append, run, ih]

theorem observed_last (k : Kind V) (start : Int) (es : List (Ev V E)) (e : Ev V E) :
    (observed k start (es ++ [e])).getLast? =
      some ((run k (init start) es).1.now, ((run k (init start) es).1.step k e).2) := by
  unfold observed
  rw [run_append]
  simp [run]

theorem now_eq (k : Kind V) (s : St V) (es : List (Ev V E)) : (run k s es).1.now = clockAfter s.now es := by
  induction es generalizing s with
  | nil => rfl
  | cons e es ih =>
    have h : (run k s (e :: es)).1.now = clockAfter (s.step k e).1.now es := ih _
    rw [h]
    cases e with
    | call i =>
      simp only [St.step]
      split
      · split <;> rfl
      · rfl
    | answer i r =>
      simp only [St.step]
      split
      · split <;> rfl
      · rfl
    | cancel i => rfl
    | invalidate => rfl
    | clock t => rfl

theorem now_init (k : Kind V) (start : Int) (es : List (Ev V E)) :
    (run k (init start) es).1.now = clockAfter start es := now_eq k (init start) es

theorem expired_iff (x : Ident V) (now : Int) : Expired x now ↔ x.isExpired now = true := by
  unfold Expired Ident.isExpired
  cases h : x.expiration with
  | none => simp
  | some e => simp

theorem run_snoc (k : Kind V) (s : St V) (es : List (Ev V E)) (e : Ev V E) :
    (run k s (es ++ [e])).1 = ((run k s es).1.step k e).1 := by
  rw [run_append]; simp [run]

/-- An event that neither stores nor invalidates leaves the cache as it is. -/
theorem step_cached (k : Kind V) (start : Int) (before : List (Ev V E)) (e : Ev V E)
    (h1 : e ≠ .invalidate) (h2 : ∀ x, ¬ Stores k start before e x) :
    (run k (init start) (before ++ [e])).1.cached = (run k (init start) before).1.cached := by
  rw [run_snoc]
  cases e with
  | call i =>
    simp only [St.step]
    split
    · split <;> rfl
    · rfl
  | answer i r =>
    by_cases hw : (run k (init start) before).1.waiting.contains i = true
    · cases r with
      | ok x =>
        refine absurd ⟨i, rfl, (run k (init start) before).1.now, ?_⟩ (h2 x)
        rw [observed_last]; simp only [St.step, if_pos hw]
      | error e => simp only [St.step, if_pos hw]
    · simp only [St.step, if_neg hw]
  | cancel i => rfl
  | invalidate => exact absurd rfl h1
  | clock t => rfl

theorem quiet_cached (k : Kind V) (start : Int) (before es : List (Ev V E))
    (h : Quiet k start before es) :
    (run k (init start) (before ++ es)).1.cached = (run k (init start) before).1.cached := by
  induction es generalizing before with
  | nil => simp
  | cons e es ih =>
    have h0 := h [] e es rfl
    rw [show before ++ e :: es = (before ++ [e]) ++ es by simp, ih]
    · refine step_cached k start before e h0.1 fun x hx => h0.2 x (by simpa using hx)
    · intro a e' b hab
      have := h (e :: a) e' b (by rw [hab]; rfl)
      simpa using this

theorem stores_cached (k : Kind V) (start : Int) (before : List (Ev V E)) (e : Ev V E) (x : Ident V)
    (h : Stores k start before e x) : (run k (init start) (before ++ [e])).1.cached = some x := by
  obtain ⟨i, rfl, t, ht⟩ := h
  rw [observed_last] at ht
  rw [run_snoc]
  simp only [St.step] at ht ⊢
  split at ht
  · next hw => rw [if_pos hw]
  · cases ht

/-- Whatever is cached was stored, and since then nothing was stored and, for resolvers whose
`invalidate` empties the cache, nobody invalidated. -/
theorem cached_stored (k : Kind V) (hk : k.invalidated = fun _ => none) (start : Int)
    (es : List (Ev V E)) (x : Ident V) (h : (run k (init start) es).1.cached = some x) :
    ∃ a e b, es = a ++ e :: b ∧ Stores k start a e x ∧ Quiet k start (a ++ [e]) b := by
  induction hn : es.length generalizing es with
  | zero =>
    rw [List.length_eq_zero_iff.1 hn] at h
    simp [run, init] at h
  | succ n ih =>
    have hne : es ≠ [] := fun e => by rw [e] at hn; simp at hn
    obtain ⟨es', e, rfl⟩ : ∃ es' e, es = es' ++ [e] :=
      ⟨es.dropLast, es.getLast hne, (List.dropLast_concat_getLast hne).symm⟩
    by_cases hs : Stores k start es' e x
    · refine ⟨es', e, [], rfl, hs, ?_⟩
      intro a e' b hab; simp at hab
    · have hsome : ∀ y, Stores k start es' e y → y = x := by
        intro y hy
        have := stores_cached k start es' e y hy
        rw [h] at this; cases this; rfl
      have hnone : ∀ y, ¬ Stores k start es' e y := fun y hy => hs (hsome y hy ▸ hy)
      have hinv : e ≠ .invalidate := by
        rintro rfl
        rw [run_snoc] at h
        simp [St.step, hk] at h
      rw [step_cached k start es' e hinv hnone] at h
      obtain ⟨a, e1, b, rfl, h1, h2⟩ := ih es' h (by simpa using hn)
      refine ⟨a, e1, b ++ [e], by simp, h1, ?_⟩
      intro a' e' b' hab
      rcases List.eq_nil_or_concat b' with rfl | ⟨b'', e'', rfl⟩
      · obtain ⟨rfl, h⟩ := List.append_inj' hab rfl
        cases h
        refine ⟨hinv, fun y => ?_⟩
        have := hnone y
        simpa using this
      · have : b = a' ++ e' :: b'' := by
          have h' : b ++ [e] = (a' ++ e' :: b'') ++ [e''] := by simpa using hab
          exact (List.append_inj' h' rfl).1
        exact h2 a' e' b'' this

/-- **C50**: if the source only answers with identities that are not expired when it answers, no caller
is ever given an expired identity, whatever the interleaving. -/
theorem C50_fresh (start : Int) (es : List (Ev V E))
    (hsource : ∀ a i x b, es = a ++ .answer i (.ok x) :: b → ¬ Expired x (clockAfter start a))
    (i : Nat) (x : Ident V) (t : Int)
    (h : (t, some (.returned i x)) ∈ observed caching start es) : ¬ Expired x t := by
  have key : ∀ (s : St V) (pre : List (Ev V E)) (es' : List (Ev V E)), es = pre ++ es' →
      s = (run caching (init start) pre).1 → (t, some (.returned i x)) ∈ (run caching s es').2 →
      ¬ Expired x t := by
    intro s pre es'
    induction es' generalizing s pre with
    | nil => intro _ _ hm; simp [run] at hm
    | cons e es' ih =>
      intro he hs hm
      simp only [run] at hm
      rcases List.mem_cons.1 hm with hm | hm
      · obtain ⟨rfl, hout⟩ := Prod.mk.inj hm
        cases e with
        | call j =>
          simp only [St.step] at hout
          split at hout
          · next y hy =>
            split at hout
            · next hu =>
              cases hout
              rw [expired_iff]
              simpa [caching] using hu
            · cases hout
          · cases hout
        | answer j r =>
          simp only [St.step] at hout
          split at hout
          · cases r with
            | ok y =>
              cases hout
              have := hsource pre i x es' he
              rwa [← now_init caching, ← hs] at this
            | error e => cases hout
          · cases hout
        | cancel j => cases hout
        | invalidate => cases hout
        | clock u => cases hout
      · exact ih _ (pre ++ [e]) (by rw [he]; simp) (by rw [run_snoc, hs]) hm
  exact key (init start) [] es rfl rfl h

/-- **C50**: a caller makes the resolver ask its source only when nothing is stored (nothing was, or it
was invalidated since), or what was stored last is expired. -/
theorem C50_asks_only_if_needed (start : Int) (es : List (Ev V E)) (i : Nat) (t : Int)
    (h : onCall (caching (V := V)) start es i = some (t, some (.asked i))) (a : List (Ev V E))
    (e : Ev V E) (b : List (Ev V E)) (x : Ident V) (hes : es = a ++ e :: b)
    (hs : Stores caching start a e x) (hq : Quiet caching start (a ++ [e]) b) :
    Expired x (clockAfter start es) := by
  have hc : (run caching (init start) es).1.cached = some x := by
    rw [hes, show a ++ e :: b = (a ++ [e]) ++ b by simp, quiet_cached _ _ _ _ hq,
      stores_cached _ _ _ _ _ hs]
  unfold onCall at h
  rw [observed_last] at h
  simp only [St.step, hc] at h
  obtain ⟨_, h'⟩ := Prod.mk.inj (Option.some.inj h)
  split at h'
  · cases h'
  · next hu =>
    rw [expired_iff, ← now_init caching]
    simpa [caching] using hu

/-- **C50**: until it expires, is invalidated or replaced, the identity stored last is returned, without
asking the source. -/
theorem C50_reused (start : Int) (a : List (Ev V E)) (e : Ev V E) (b : List (Ev V E)) (x : Ident V)
    (hs : Stores (caching (V := V)) start a e x) (hq : Quiet caching start (a ++ [e]) b) (i : Nat)
    (hx : ¬ Expired x (clockAfter start (a ++ e :: b))) :
    onCall caching start (a ++ e :: b) i =
      some (clockAfter start (a ++ e :: b), some (.returned i x)) := by
  have hc : (run caching (init start) (a ++ e :: b)).1.cached = some x := by
    rw [show a ++ e :: b = (a ++ [e]) ++ b by simp, quiet_cached _ _ _ _ hq,
      stores_cached _ _ _ _ _ hs]
  unfold onCall
  rw [observed_last, ← now_init caching]
  have hu : (caching (V := V)).usable x (run caching (init start) (a ++ e :: b)).1.now = true := by
    rw [expired_iff, ← now_init caching] at hx
    simpa [caching] using hx
  simp only [St.step, hc, hu, if_true]

/-- **C50**: after `invalidate`, until the source answers a caller, every call asks the source. -/
theorem C50_asks_after_invalidate (start : Int) (a b : List (Ev V E))
    (hq : ∀ a' e b' x, b = a' ++ e :: b' → ¬ Stores (caching (V := V)) start (a ++ .invalidate :: a') e x)
    (i : Nat) :
    onCall caching start (a ++ .invalidate :: b) i =
      some (clockAfter start (a ++ .invalidate :: b), some (.asked i)) := by
  have hc : (run caching (init start) (a ++ .invalidate :: b)).1.cached = none := by
    cases h : (run caching (init start) (a ++ .invalidate :: b)).1.cached with
    | none => rfl
    | some x =>
      exfalso
      obtain ⟨a1, e1, b1, heq, hst, hqu⟩ := cached_stored caching rfl start _ x h
      rcases List.append_eq_append_iff.1 heq with ⟨c, rfl, hc⟩ | ⟨c, rfl, hc⟩
      · cases c with
        | nil =>
          obtain ⟨rfl, rfl⟩ := List.cons.inj hc
          obtain ⟨j, hj, _⟩ := hst; cases hj
        | cons e' c =>
          obtain ⟨rfl, rfl⟩ := List.cons.inj hc
          exact hq c e1 b1 x rfl (by simpa using hst)
      · cases c with
        | nil =>
          obtain ⟨rfl, rfl⟩ := List.cons.inj hc
          obtain ⟨j, hj, _⟩ := hst; cases hj
        | cons e' c =>
          obtain ⟨rfl, rfl⟩ := List.cons.inj hc
          exact (hqu c .invalidate b rfl).1 rfl
  unfold onCall
  rw [observed_last, ← now_init caching]
  simp only [St.step, hc]

/-- **C50** is false with callers running at the same time: an answer to a question asked before
`invalidate` is stored after it, and handed to later callers, which do not ask the source again. -/
theorem C50_invalidate_fails :
    observed (caching (V := Nat)) 0 [.call 1, .invalidate, .answer 1 (.ok ⟨7, some 100⟩), .call 2] =
      [(0, some (.asked 1)), (0, none), (0, some (.returned 1 ⟨7, some 100⟩)),
        (0, (some (.returned 2 ⟨7, some 100⟩) : Option (Out Nat Nat)))] := by decide +kernel

theorem environment_usable (x : Ident V) (t : Int) : environment.usable x t = true := rfl

theorem metadata_usable (x : Ident V) (t : Int) :
    metadata.usable x t = match x.expiration with | none => false | some e => decide (t < e) := by
  cases h : x.expiration <;> simp [metadata, h]

/-- The environment resolver keeps its identity when it is invalidated: once it returned an identity it
returns the same one for ever, and never looks at the environment again. -/
theorem C50_environment_fails (start : Int) (a : List (Ev V E)) (e : Ev V E) (b : List (Ev V E))
    (x : Ident V) (hs : Stores (environment (V := V)) start a e x)
    (hq : ∀ e' ∈ b, ∀ j r, e' ≠ .answer j r) (i : Nat) :
    ∃ t, onCall environment start (a ++ e :: b) i = some (t, some (.returned i x)) := by
  have hc : ∀ es : List (Ev V E), (∀ e' ∈ es, ∀ j r, e' ≠ .answer j r) →
      (run environment (init start) (a ++ [e] ++ es)).1.cached = some x := by
    intro es
    induction hn : es.length generalizing es with
    | zero =>
      intro _
      rw [List.length_eq_zero_iff.1 hn, List.append_nil]
      exact stores_cached _ _ _ _ _ hs
    | succ n ih =>
      intro hall
      have hne : es ≠ [] := fun e => by rw [e] at hn; simp at hn
      obtain ⟨es', e', rfl⟩ : ∃ es' e', es = es' ++ [e'] :=
        ⟨es.dropLast, es.getLast hne, (List.dropLast_concat_getLast hne).symm⟩
      have hprev := ih es' (by simpa using hn) fun y hy => hall y (by simp [hy])
      rw [← List.append_assoc, run_snoc]
      cases e' with
      | call j => simp only [St.step, hprev, environment_usable, if_true]
      | answer j r => exact absurd rfl (hall (.answer j r) (by simp) j r)
      | cancel j => exact hprev
      | invalidate => exact hprev
      | clock t => exact hprev
  unfold onCall
  rw [observed_last, show a ++ e :: b = a ++ [e] ++ b by simp]
  simp only [St.step, hc b hq, environment_usable, if_true]
  exact ⟨_, rfl⟩

/-- **C50** for the container and instance metadata resolvers: an identity with an expiration is given
out of the cache exactly as long as it is not expired, and one without is always asked for again. -/
theorem C50_metadata (start : Int) (a : List (Ev V E)) (e : Ev V E) (b : List (Ev V E)) (x : Ident V)
    (hs : Stores (metadata (V := V)) start a e x) (hq : Quiet metadata start (a ++ [e]) b) (i : Nat) :
    (x.expiration ≠ none ∧ ¬ Expired x (clockAfter start (a ++ e :: b)) →
        onCall metadata start (a ++ e :: b) i =
          some (clockAfter start (a ++ e :: b), some (.returned i x))) ∧
      (x.expiration = none ∨ Expired x (clockAfter start (a ++ e :: b)) →
        onCall metadata start (a ++ e :: b) i =
          some (clockAfter start (a ++ e :: b), some (.asked i))) := by
  have hc : (run metadata (init start) (a ++ e :: b)).1.cached = some x := by
    rw [show a ++ e :: b = (a ++ [e]) ++ b by simp, quiet_cached _ _ _ _ hq,
      stores_cached _ _ _ _ _ hs]
  unfold onCall
  rw [observed_last, ← now_init metadata]
  refine ⟨fun hx => ?_, fun hx => ?_⟩
  · have hu : (metadata (V := V)).usable x (run metadata (init start) (a ++ e :: b)).1.now = true := by
      obtain ⟨h1, h2⟩ := hx
      cases hexp : x.expiration with
      | none => exact absurd hexp h1
      | some u =>
        have : ¬ u ≤ (run metadata (init start) (a ++ e :: b)).1.now := fun h => h2 ⟨u, hexp, h⟩
        simp only [metadata_usable, hexp, decide_eq_true_eq]
        omega
    simp only [St.step, hc, hu, if_true]
  · have hu : (metadata (V := V)).usable x (run metadata (init start) (a ++ e :: b)).1.now = false := by
      rcases hx with hx | ⟨u, hexp, hle⟩
      · simp [metadata_usable, hx]
      · simp only [metadata_usable, hexp, decide_eq_false_iff_not]; omega
    simp only [St.step, hc, hu, Bool.false_eq_true, if_false]

/-! ## The hypotheses are met -/

/-- Two callers wait at the same time, the second answer replaces the first, the identity is reused and
asked for again once it is expired. -/
example : observed (caching (V := Nat)) 0
    [.call 1, .call 2, .answer 2 (.ok ⟨5, some 10⟩), .answer 1 (.ok ⟨6, some 20⟩), .clock 19, .call 3,
      .clock 20, .call 4, .answer 4 (.error "down")] =
    [(0, some (.asked 1)), (0, some (.asked 2)), (0, some (.returned 2 ⟨5, some 10⟩)),
      (0, some (.returned 1 ⟨6, some 20⟩)), (0, none), (19, some (.returned 3 ⟨6, some 20⟩)), (19, none),
      (20, some (.asked 4)), (20, some (.raised 4 "down"))] := by decide +kernel

example : Stores (E := Nat) (caching (V := Nat)) 0 [.call 1] (.answer 1 (.ok ⟨7, none⟩)) ⟨7, none⟩ :=
  ⟨1, rfl, 0, by decide +kernel⟩

example : Quiet (E := Nat) (caching (V := Nat)) 0 [.call 1, .answer 1 (.ok ⟨7, none⟩)] [.clock 3] := by
  intro a e b h
  cases a with
  | nil => cases h; exact ⟨by simp, fun x ⟨i, hi, _⟩ => by cases hi⟩
  | cons _ a => simp at h

end Verif.Identity

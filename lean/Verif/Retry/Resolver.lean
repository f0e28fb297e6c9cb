import Mathlib.Tactic.Common
import Mathlib.Data.List.Dedup
import Mathlib.Data.List.Nodup
import Mathlib.Data.List.Perm.Subperm
import Verif.Common

/-!
# Which retry strategy a client uses

Every generated client has a `RetryStrategyResolver` of its own and asks it, in every call of an
operation, for the strategy that the configuration of the call asks for
(`ClientGenerator.java:89, 251-253`).  The strategy holds the retry quota, so that "how many retries
may the client still make" is shared by exactly the calls that get the same strategy object.
-/

set_option autoImplicit false

namespace Verif.Retry.Resolver

/-! ## Model -/

/-- The two classes of strategies the resolver makes
(`smithy_core/aio/retries.py:64-119, 122-261`). -/
inductive Kind
  | simple
  | standard
  deriving DecidableEq, Repr

/-- A strategy object: which object it is, and the settings it was made with.  Everything else an
object of these classes holds, its quota and its backoff, is made together with the object
(`smithy_core/aio/retries.py:79-80, 166-180`), so that the identity stands for it. -/
structure Strategy where
  id : Nat
  kind : Kind
  maxAttempts : Int
  deriving DecidableEq, Repr

/-- What a configuration gives as its retry strategy: a strategy object, options, nothing, or an
object of another type (`smithy_core/aio/retries.py:27-45`).  The class of a strategy object is not
restricted in the code (any object with the members of the protocol `RetryStrategy` counts); the
model has those of the two classes. -/
inductive Given
  | strategy (s : Strategy)
  | options (mode : String) (maxAttempts : Option Int)
  | none
  | other
  deriving DecidableEq, Repr

inductive Error
  | typeError
  | valueError
  deriving DecidableEq, Repr

/-- The arguments that the results are kept by: the resolver, whose identity counts, and the two
settings (`smithy_core/aio/retries.py:47-50`, `functools.py:448-477`). -/
structure Key where
  resolver : Nat
  mode : String
  maxAttempts : Option Int
  deriving DecidableEq, Repr

/-- What the process remembers: the results of `_create_retry_strategy`, the one used last first.
There is one memory for all resolvers because the decorator is applied to the function of the class
(`smithy_core/aio/retries.py:47-48`).  `made` counts the strategy objects made, which names them. -/
structure State where
  links : List (Key × Strategy)
  made : Nat
  deriving DecidableEq, Repr

/-- `lru_cache` used without arguments remembers 128 results (`functools.py:508-512`). -/
def maxsize : Nat := 128

/-- The strategy made for the settings, as object number `n`: `max_attempts` is only passed on when
it is not `None`, so that the default of the class applies
(`smithy_core/aio/retries.py:51-61, 69, 141, 161-164`). -/
def create (n : Nat) (mode : String) (maxAttempts : Option Int) : Except Error Strategy :=
  if mode = "simple" then .ok ⟨n, .simple, maxAttempts.getD 5⟩
  else if mode = "standard" then
    if maxAttempts.getD 3 < 0 then .error .valueError
    else .ok ⟨n, .standard, maxAttempts.getD 3⟩
  else .error .valueError

/-- `_create_retry_strategy` with its `lru_cache`: a remembered result is moved to the front and
given; otherwise the strategy is made, put at the front, and the result used longest ago is dropped
when there are more than `maxsize`.  An error is not remembered (`functools.py:566-621`). -/
def cached (k : Key) (s : State) : State × Except Error Strategy :=
  match s.links.lookup k with
  | some r => ({ s with links := (k, r) :: s.links.filter (·.1 ≠ k) }, .ok r)
  | none =>
    match create s.made k.mode k.maxAttempts with
    | .error e => (s, .error e)
    | .ok r => (⟨((k, r) :: s.links).take maxsize, s.made + 1⟩, .ok r)

/-- `resolve_retry_strategy` (`smithy_core/aio/retries.py:27-45`); the defaults of
`RetryStrategyOptions` are at `smithy_core/retries.py:20-24`. -/
def resolve (resolver : Nat) (given : Given) (s : State) : State × Except Error Strategy :=
  match given with
  | .strategy r => (s, .ok r)
  | .none => cached ⟨resolver, "standard", none⟩ s
  | .other => (s, .error .typeError)
  | .options mode maxAttempts => cached ⟨resolver, mode, maxAttempts⟩ s

/-- One request: which resolver is asked and for what. -/
structure Request where
  resolver : Nat
  given : Given
  deriving DecidableEq, Repr

/-- The requests of all clients of a process in the order they are made in.  There is no `await`
between the parts of one (`smithy_core/aio/retries.py:27-45`), so that on an event loop no two
overlap. -/
def run (s : State) : List Request → State
  | [] => s
  | q :: qs => run (resolve q.resolver q.given s).1 qs

/-- Nothing is remembered when the process starts. -/
def initial : State := ⟨[], 0⟩

/-- What the request gets when it is made after the others. -/
def after (history : List Request) (q : Request) : Except Error Strategy :=
  (resolve q.resolver q.given (run initial history)).2

/-! ## Specification -/

/-- The strategy a request without a strategy object describes, as a client reads the documentation
of `RetryStrategyOptions`: mode `standard` when there is nothing, at most 3 attempts in `standard`
and 5 in `simple` when the number is left out. -/
def Describes : Given → Option (Kind × Int)
  | .none => some (.standard, 3)
  | .options "standard" none => some (.standard, 3)
  | .options "standard" (some n) => if 0 ≤ n then some (.standard, n) else none
  | .options "simple" none => some (.simple, 5)
  | .options "simple" (some n) => some (.simple, n)
  | _ => none

/-- Which settings of which client the request is for, if it gets a strategy the resolver keeps. -/
def subject (q : Request) : Option (Nat × String × Option Int) :=
  match q.given with
  | .none => some (q.resolver, "standard", none)
  | .options mode n => if (Describes q.given).isSome then some (q.resolver, mode, n) else none
  | _ => none

/-- How many other clients' or other settings' strategies are asked for in `between`. -/
def others (q : Request) (between : List Request) : Nat :=
  ((between.filterMap subject).filter (fun k => some k ≠ subject q)).dedup.length

/-! ## Lemmas -/

def keyOf (k : Nat × String × Option Int) : Key := ⟨k.1, k.2.1, k.2.2⟩

theorem keyOf_inj {a b : Nat × String × Option Int} (h : keyOf a = keyOf b) : a = b := by
  obtain ⟨a1, a2, a3⟩ := a
  obtain ⟨b1, b2, b3⟩ := b
  simp only [keyOf, Key.mk.injEq] at h
  obtain ⟨rfl, rfl, rfl⟩ := h
  rfl

/-- Whether a strategy can be made for the settings, and which. -/
theorem create_describes (n : Nat) (mode : String) (m : Option Int) :
    (create n mode m).toOption.map (fun r => (r.kind, r.maxAttempts)) =
        Describes (.options mode m) ∧
      ∀ r, create n mode m = .ok r → r.id = n := by
  by_cases h₁ : mode = "simple"
  · subst h₁
    cases m <;> simp [create, Describes, Except.toOption]
  · by_cases h₂ : mode = "standard"
    · subst h₂
      cases m with
      | none => simp [create, Describes, Except.toOption]
      | some k =>
        by_cases h : k < 0
        · simp [create, Describes, Except.toOption, h]
        · simp [create, Describes, Except.toOption, h, Int.not_lt.mp h]
    · rw [create, if_neg h₁, if_neg h₂]
      refine ⟨?_, by simp⟩
      unfold Describes
      split <;> simp_all [Except.toOption]

/-- A request either has a subject, and then is one of `cached`, or leaves the memory as it is. -/
theorem resolve_cases (q : Request) (s : State) :
    (∃ k, subject q = some k ∧ resolve q.resolver q.given s = cached (keyOf k) s) ∨
      (subject q = none ∧
        ((∃ r, resolve q.resolver q.given s = (s, .ok r) ∧ q.given = .strategy r) ∨
          (q.given = .other ∧ resolve q.resolver q.given s = (s, .error .typeError)) ∨
          ∃ mode m, q.given = .options mode m ∧ Describes q.given = none ∧
            resolve q.resolver q.given s = cached ⟨q.resolver, mode, m⟩ s)) := by
  obtain ⟨i, g⟩ := q
  cases g with
  | strategy r => exact .inr ⟨rfl, .inl ⟨r, rfl, rfl⟩⟩
  | none => exact .inl ⟨_, rfl, rfl⟩
  | other => exact .inr ⟨rfl, .inr (.inl ⟨rfl, rfl⟩)⟩
  | options mode m =>
    cases h : Describes (.options mode m) with
    | none => exact .inr ⟨by simp [subject, h], .inr (.inr ⟨mode, m, rfl, rfl, rfl⟩)⟩
    | some d => exact .inl ⟨(i, mode, m), by simp [subject, h], rfl⟩

/-- What is true of the memory at any time. -/
structure Good (s : State) : Prop where
  nodup : (s.links.map (·.1)).Nodup
  size : s.links.length ≤ 128
  ids : (s.links.map (·.2.id)).Nodup
  bound : ∀ p ∈ s.links, p.2.id < s.made
  describes : ∀ p ∈ s.links,
    Describes (.options p.1.mode p.1.maxAttempts) = some (p.2.kind, p.2.maxAttempts)

theorem good_initial : Good initial :=
  ⟨by simp [initial], by simp [initial], by simp [initial], by simp [initial], by simp [initial]⟩

theorem lookup_mem {l : List (Key × Strategy)} {k : Key} {r : Strategy}
    (h : l.lookup k = some r) : (k, r) ∈ l := by
  induction l with
  | nil => simp at h
  | cons x xs ih =>
    obtain ⟨k', r'⟩ := x
    rw [List.lookup_cons] at h
    by_cases hk : k = k'
    · subst hk
      simp at h
      subst h
      simp
    · rw [beq_eq_false_iff_ne.mpr hk] at h
      exact List.mem_cons_of_mem _ (ih h)

theorem lookup_none {l : List (Key × Strategy)} {k : Key} (h : l.lookup k = none) :
    k ∉ l.map (·.1) := by
  induction l with
  | nil => simp
  | cons x xs ih =>
    obtain ⟨k', r'⟩ := x
    rw [List.lookup_cons] at h
    by_cases hk : k = k'
    · subst hk
      simp at h
    · rw [beq_eq_false_iff_ne.mpr hk] at h
      simp only [List.map_cons, List.mem_cons, not_or]
      exact ⟨hk, ih h⟩

theorem lookup_of_mem {l : List (Key × Strategy)} (hl : (l.map (·.1)).Nodup) {k : Key}
    {r : Strategy} (h : (k, r) ∈ l) : l.lookup k = some r := by
  induction l with
  | nil => simp at h
  | cons x xs ih =>
    obtain ⟨k', r'⟩ := x
    simp only [List.map_cons, List.nodup_cons] at hl
    rw [List.lookup_cons]
    by_cases hk : k = k'
    · subst hk
      rcases List.mem_cons.mp h with h | h
      · simp only [Prod.mk.injEq, true_and] at h
        simp [h]
      · exact absurd (List.mem_map_of_mem (f := (·.1)) h) hl.1
    · rw [beq_eq_false_iff_ne.mpr hk]
      rcases List.mem_cons.mp h with h | h
      · simp only [Prod.mk.injEq] at h
        exact absurd h.1 hk
      · exact ih hl.2 h

/-- Moving a pair to the front only changes the order. -/
theorem touch_perm {l : List (Key × Strategy)} (hl : (l.map (·.1)).Nodup) {k : Key}
    {r : Strategy} (h : l.lookup k = some r) :
    ((k, r) :: l.filter (·.1 ≠ k)).Perm l := by
  induction l with
  | nil => simp at h
  | cons x xs ih =>
    obtain ⟨k', r'⟩ := x
    simp only [List.map_cons, List.nodup_cons] at hl
    rw [List.lookup_cons] at h
    by_cases hk : k = k'
    · subst hk
      simp only [beq_self_eq_true, Option.some.injEq] at h
      subst h
      have : xs.filter (·.1 ≠ k) = xs := by
        apply List.filter_eq_self.mpr
        intro p hp
        have : p.1 ≠ k := fun hpk => hl.1 (hpk ▸ List.mem_map_of_mem (f := (·.1)) hp)
        simpa using this
      rw [List.filter_cons_of_neg (by simp), this]
    · rw [beq_eq_false_iff_ne.mpr hk] at h
      rw [List.filter_cons_of_pos (by simpa using fun h => hk h.symm)]
      exact (List.Perm.swap _ _ _).trans ((ih hl.2 h).cons _)

theorem good_cached {s : State} (hs : Good s) (k : Key) : Good (cached k s).1 := by
  unfold cached
  cases h : s.links.lookup k with
  | some r =>
    have hp := touch_perm hs.nodup h
    exact ⟨(hp.map _).nodup_iff.mpr hs.nodup, hp.length_eq ▸ hs.size,
      (hp.map _).nodup_iff.mpr hs.ids, fun p hpm => hs.bound p (hp.subset hpm),
      fun p hpm => hs.describes p (hp.subset hpm)⟩
  | none =>
    have hc := create_describes s.made k.mode k.maxAttempts
    cases hr : create s.made k.mode k.maxAttempts with
    | error e => exact hs
    | ok r =>
      rw [hr] at hc
      have hid := hc.2 r rfl
      have hsub : (((k, r) :: s.links).take maxsize).Sublist ((k, r) :: s.links) :=
        List.take_sublist _ _
      refine ⟨?_, ?_, ?_, ?_, ?_⟩
      · apply List.Nodup.sublist (hsub.map _)
        exact List.nodup_cons.mpr ⟨lookup_none h, hs.nodup⟩
      · exact List.length_take_le _ _
      · apply List.Nodup.sublist (hsub.map _)
        refine List.nodup_cons.mpr ⟨?_, hs.ids⟩
        intro hmem
        obtain ⟨p, hp, hpe⟩ := List.mem_map.mp hmem
        have := hs.bound p hp
        simp only at hpe
        omega
      · intro p hp
        show p.2.id < s.made + 1
        rcases List.mem_cons.mp (hsub.subset hp) with rfl | hp
        · simp only
          omega
        · have := hs.bound p hp
          omega
      · intro p hp
        rcases List.mem_cons.mp (hsub.subset hp) with rfl | hp
        · exact hc.1.symm
        · exact hs.describes p hp

theorem good_resolve {s : State} (hs : Good s) (q : Request) :
    Good (resolve q.resolver q.given s).1 := by
  unfold resolve
  split
  · exact hs
  · exact good_cached hs _
  · exact hs
  · exact good_cached hs _

theorem good_run {s : State} (hs : Good s) (h : List Request) : Good (run s h) := by
  induction h generalizing s with
  | nil => exact hs
  | cons q qs ih => exact ih (good_resolve hs q)

theorem run_append (s : State) (a b : List Request) : run s (a ++ b) = run (run s a) b := by
  induction a generalizing s with
  | nil => rfl
  | cons q qs ih => exact ih _

/-- What `cached` gives is what it then remembers, and it is remembered first. -/
theorem cached_head {s : State} (k : Key) {r : Strategy} (h : (cached k s).2 = .ok r) :
    ∃ rest, (cached k s).1.links = (k, r) :: rest := by
  unfold cached at h ⊢
  cases hl : s.links.lookup k with
  | some r' =>
    simp only [hl, Except.ok.injEq] at h
    subst h
    exact ⟨_, rfl⟩
  | none =>
    simp only [hl] at h ⊢
    cases hr : create s.made k.mode k.maxAttempts with
    | error e => simp [hr] at h
    | ok r' =>
      simp only [hr, Except.ok.injEq] at h
      subst h
      exact ⟨s.links.take 127, rfl⟩

/-- A request with a subject succeeds, with what the settings describe. -/
theorem cached_describes {s : State} (hs : Good s) (k : Key) :
    (cached k s).2.toOption.map (fun r => (r.kind, r.maxAttempts)) =
      Describes (.options k.mode k.maxAttempts) := by
  unfold cached
  cases h : s.links.lookup k with
  | some r =>
    exact (hs.describes _ (lookup_mem h)).symm
  | none =>
    have hc := (create_describes s.made k.mode k.maxAttempts).1
    cases hr : create s.made k.mode k.maxAttempts with
    | error e => simpa [hr] using hc
    | ok r => simpa [hr] using hc

/-- A request whose settings describe nothing leaves the memory as it is. -/
theorem cached_nothing {s : State} (hs : Good s) (k : Key)
    (h : Describes (.options k.mode k.maxAttempts) = none) : (cached k s).1 = s := by
  have hd := cached_describes hs k
  rw [h] at hd
  unfold cached at hd ⊢
  cases hl : s.links.lookup k with
  | some r => simp [hl, Except.toOption] at hd
  | none =>
    simp only [hl] at hd ⊢
    cases hr : create s.made k.mode k.maxAttempts with
    | error e => rfl
    | ok r => simp [hr, Except.toOption] at hd

/-- How far back in the memory a key is: only keys used since are before it. -/
def Ahead (s : State) (k : Key) (r : Strategy) (used : List Key) : Prop :=
  ∃ pre rest, s.links = pre ++ (k, r) :: rest ∧ ∀ p ∈ pre, p.1 ∈ used ∧ p.1 ≠ k

theorem ahead_length {s : State} (hs : Good s) {k : Key} {r : Strategy} {used : List Key}
    {pre rest : List (Key × Strategy)} (hl : s.links = pre ++ (k, r) :: rest)
    (hp : ∀ p ∈ pre, p.1 ∈ used ∧ p.1 ≠ k) :
    pre.length ≤ ((used.filter (· ≠ k)).dedup).length := by
  have hnd : (pre.map (·.1)).Nodup := by
    have := hs.nodup
    rw [hl, List.map_append] at this
    exact this.of_append_left
  have hsub : (pre.map (·.1)) ⊆ (used.filter (· ≠ k)).dedup := by
    intro x hx
    obtain ⟨p, hpm, rfl⟩ := List.mem_map.mp hx
    simp only [List.mem_dedup, List.mem_filter, decide_eq_true_eq]
    exact hp p hpm
  simpa using (hnd.subperm hsub).length_le

theorem ahead_cached {s : State} (hs : Good s) {k j : Key} {r : Strategy} {used : List Key}
    (ha : Ahead s k r used) (hn : (((used ++ [j]).filter (· ≠ k)).dedup).length < 128) :
    Ahead (cached j s).1 k r (used ++ [j]) := by
  obtain ⟨pre, rest, hl, hp⟩ := ha
  have hkm : s.links.lookup k = some r := lookup_of_mem hs.nodup (by rw [hl]; simp)
  by_cases hjk : j = k
  · subst hjk
    refine ⟨[], s.links.filter (·.1 ≠ j), ?_, by simp⟩
    simp only [cached, hkm, List.nil_append]
  · unfold cached
    cases hjl : s.links.lookup j with
    | some rj =>
      refine ⟨(j, rj) :: pre.filter (·.1 ≠ j), rest.filter (·.1 ≠ j), ?_, ?_⟩
      · simp only [hl, List.filter_append, List.cons_append, List.cons.injEq, true_and]
        rw [List.filter_cons_of_pos (by simpa using fun h : k = j => hjk h.symm)]
      · intro p hpm
        rcases List.mem_cons.mp hpm with rfl | hpm
        · exact ⟨by simp, hjk⟩
        · have := hp p (List.mem_of_mem_filter hpm)
          exact ⟨List.mem_append_left _ this.1, this.2⟩
    | none =>
      simp only
      cases hr : create s.made j.mode j.maxAttempts with
      | error e =>
        exact ⟨pre, rest, hl, fun p hpm => ⟨List.mem_append_left _ (hp p hpm).1, (hp p hpm).2⟩⟩
      | ok rj =>
        have hnd : (((j, rj) :: s.links).map (·.1)).Nodup :=
          List.nodup_cons.mpr ⟨lookup_none hjl, hs.nodup⟩
        have hlen : pre.length + 1 ≤ (((used ++ [j]).filter (· ≠ k)).dedup).length := by
          have hnd' : (((j, rj) :: pre).map (·.1)).Nodup := by
            rw [hl, ← List.cons_append, List.map_append] at hnd
            exact hnd.of_append_left
          have hsub : (((j, rj) :: pre).map (·.1)) ⊆ ((used ++ [j]).filter (· ≠ k)).dedup := by
            intro x hx
            obtain ⟨p, hpm, rfl⟩ := List.mem_map.mp hx
            simp only [List.mem_dedup, List.mem_filter, decide_eq_true_eq]
            rcases List.mem_cons.mp hpm with rfl | hpm
            · exact ⟨by simp, hjk⟩
            · exact ⟨List.mem_append_left _ (hp p hpm).1, (hp p hpm).2⟩
          simpa using (hnd'.subperm hsub).length_le
        refine ⟨(j, rj) :: pre, rest.take (126 - pre.length), ?_, ?_⟩
        · show ((j, rj) :: s.links).take 128 = _
          rw [hl, ← List.cons_append, List.take_append, List.take_of_length_le (by simp; omega)]
          congr 1
          have : 128 - ((j, rj) :: pre).length = (126 - pre.length) + 1 := by
            simp only [List.length_cons]
            omega
          rw [this, List.take_succ_cons]
        · intro p hpm
          rcases List.mem_cons.mp hpm with rfl | hpm
          · exact ⟨by simp, hjk⟩
          · exact ⟨List.mem_append_left _ (hp p hpm).1, (hp p hpm).2⟩

theorem dedup_length_mono {a b : List Key} (h : a ⊆ b) : a.dedup.length ≤ b.dedup.length :=
  ((List.nodup_dedup a).subperm
    (fun _ hx => List.mem_dedup.mpr (h (List.mem_dedup.mp hx)))).length_le

theorem ahead_run {s : State} (hs : Good s) {k : Key} {r : Strategy} (used : List Key)
    (ha : Ahead s k r used) (between : List Request)
    (hn : (((used ++ (between.filterMap subject).map keyOf).filter (· ≠ k)).dedup).length < 128) :
    ∃ used', Ahead (run s between) k r used' := by
  induction between generalizing s used with
  | nil => exact ⟨used, ha⟩
  | cons q qs ih =>
    show ∃ used', Ahead (run (resolve q.resolver q.given s).1 qs) k r used'
    rcases resolve_cases q s with ⟨j, hj, hq⟩ | ⟨hj, hq⟩
    · rw [hq]
      rw [List.filterMap_cons_some hj] at hn
      refine ih (good_cached hs _) (used ++ [keyOf j]) (ahead_cached hs ha ?_) (by simpa using hn)
      refine Nat.lt_of_le_of_lt (dedup_length_mono ?_) hn
      intro x hx
      simp only [List.mem_filter, List.mem_append, List.map_cons, List.mem_cons] at hx ⊢
      tauto
    · have hsame : (resolve q.resolver q.given s).1 = s := by
        rcases hq with ⟨_, h, _⟩ | ⟨_, h⟩ | ⟨mode, m, hg, hd, h⟩
        · rw [h]
        · rw [h]
        · rw [h]
          rw [hg] at hd
          exact cached_nothing hs _ hd
      rw [hsame]
      rw [List.filterMap_cons_none hj] at hn
      exact ih hs used ha hn

theorem others_eq (q : Request) {k : Nat × String × Option Int} (hk : subject q = some k)
    (between : List Request) :
    (((between.filterMap subject).map keyOf).filter (· ≠ keyOf k)).dedup.length =
      others q between := by
  have h₁ : ((between.filterMap subject).map keyOf).filter (· ≠ keyOf k) =
      ((between.filterMap subject).filter (fun x => some x ≠ subject q)).map keyOf := by
    rw [List.filter_map]
    congr 1
    apply List.filter_congr
    intro x _
    rw [hk]
    simp only [Function.comp_apply, ne_eq, Option.some.injEq, decide_not]
    by_cases hx : x = k
    · simp [hx]
    · have : keyOf x ≠ keyOf k := fun h => hx (keyOf_inj h)
      simp [hx, this]
  rw [h₁, List.dedup_map_of_injective (fun a b h => keyOf_inj h), List.length_map]
  rfl

/-- Every object that is remembered belongs to the settings `f` says. -/
def Owns (f : Nat → Key) (s : State) : Prop :=
  ∀ p ∈ s.links, f p.2.id = p.1

theorem owns_cached {f : Nat → Key} {s : State} (hs : Good s) (hf : Owns f s) (k : Key) :
    ∃ f', Owns f' (cached k s).1 ∧ s.made ≤ (cached k s).1.made ∧ (∀ n < s.made, f' n = f n) ∧
      ∀ r, (cached k s).2 = .ok r → f' r.id = k ∧ r.id < (cached k s).1.made := by
  unfold cached
  cases hl : s.links.lookup k with
  | some r =>
    refine ⟨f, ?_, Nat.le_refl _, fun _ _ => rfl, ?_⟩
    · intro p hp
      exact hf p ((touch_perm hs.nodup hl).subset hp)
    · intro r' hr'
      simp only [Except.ok.injEq] at hr'
      subst hr'
      exact ⟨hf _ (lookup_mem hl), hs.bound _ (lookup_mem hl)⟩
  | none =>
    simp only
    have hc := (create_describes s.made k.mode k.maxAttempts).2
    cases hr : create s.made k.mode k.maxAttempts with
    | error e => exact ⟨f, hf, Nat.le_refl _, fun _ _ => rfl, by simp⟩
    | ok r =>
      have hid := hc r hr
      refine ⟨fun n => if n = s.made then k else f n, ?_, Nat.le_succ _, ?_, ?_⟩
      · intro p hp
        rcases List.mem_cons.mp (List.mem_of_mem_take hp) with rfl | hp
        · simp [hid]
        · have := hs.bound p hp
          simp only
          rw [if_neg (by omega)]
          exact hf p hp
      · intro n hn
        simp only
        rw [if_neg (by omega)]
      · intro r' hr'
        simp only [Except.ok.injEq] at hr'
        subst hr'
        simp [hid]

theorem owns_resolve {f : Nat → Key} {s : State} (hs : Good s) (hf : Owns f s) (q : Request) :
    ∃ f', Owns f' (resolve q.resolver q.given s).1 ∧
      s.made ≤ (resolve q.resolver q.given s).1.made ∧ (∀ n < s.made, f' n = f n) ∧
      ∀ r k, subject q = some k → (resolve q.resolver q.given s).2 = .ok r →
        f' r.id = keyOf k ∧ r.id < (resolve q.resolver q.given s).1.made := by
  rcases resolve_cases q s with ⟨k, hk, hq⟩ | ⟨hk, hq⟩
  · obtain ⟨f', h₁, h₂, h₃, h₄⟩ := owns_cached hs hf (keyOf k)
    refine ⟨f', by rw [hq]; exact h₁, by rw [hq]; exact h₂, h₃, ?_⟩
    intro r k' hk' hr
    rw [hk] at hk'
    cases hk'
    rw [hq] at hr ⊢
    exact h₄ r hr
  · have hsame : (resolve q.resolver q.given s).1 = s := by
      rcases hq with ⟨_, h, _⟩ | ⟨_, h⟩ | ⟨mode, m, hg, hd, h⟩
      · rw [h]
      · rw [h]
      · rw [h]
        rw [hg] at hd
        exact cached_nothing hs _ hd
    rw [hsame]
    refine ⟨f, hf, Nat.le_refl _, fun _ _ => rfl, ?_⟩
    intro r k hk'
    rw [hk] at hk'
    cases hk'

theorem owns_run {f : Nat → Key} {s : State} (hs : Good s) (hf : Owns f s) (h : List Request) :
    ∃ f', Owns f' (run s h) ∧ s.made ≤ (run s h).made ∧ ∀ n < s.made, f' n = f n := by
  induction h generalizing s f with
  | nil => exact ⟨f, hf, Nat.le_refl _, fun _ _ => rfl⟩
  | cons q qs ih =>
    obtain ⟨f₁, h₁, hm₁, he₁, _⟩ := owns_resolve hs hf q
    obtain ⟨f₂, h₂, hm₂, he₂⟩ := ih (good_resolve hs q) h₁
    exact ⟨f₂, h₂, Nat.le_trans hm₁ hm₂,
      fun n hn => (he₂ n (Nat.lt_of_lt_of_le hn hm₁)).trans (he₁ n hn)⟩

/-- A request that gets a strategy without giving one has a subject. -/
theorem subject_of_ok {s : State} (hs : Good s) {q : Request} {r : Strategy}
    (hg : ∀ s, q.given ≠ .strategy s) (hq : (resolve q.resolver q.given s).2 = .ok r) :
    ∃ k, subject q = some k := by
  rcases resolve_cases q s with ⟨k, hk, _⟩ | ⟨_, h⟩
  · exact ⟨k, hk⟩
  · rcases h with ⟨r', _, h⟩ | ⟨_, h⟩ | ⟨mode, m, hg', hd, h⟩
    · exact absurd h (hg r')
    · rw [h] at hq
      cases hq
    · rw [h] at hq
      have := cached_describes hs ⟨q.resolver, mode, m⟩
      rw [hg'] at hd
      rw [hq] at this
      simp only [Except.toOption, Option.map_some] at this
      rw [hd] at this
      cases this

/-! ## Theorems -/

/-- A strategy object that is configured is the one that is used, whatever happened before. -/
theorem C103_given (history : List Request) (resolver : Nat) (s : Strategy) :
    after history ⟨resolver, .strategy s⟩ = .ok s :=
  rfl

/-- Whatever happened before, a client that configures options or nothing gets a strategy of the
mode and with the number of attempts the options describe, and an error if they describe none. -/
theorem C103_described (history : List Request) (resolver : Nat) (given : Given)
    (hg : ∀ s, given ≠ .strategy s) :
    (after history ⟨resolver, given⟩).toOption.map (fun s => (s.kind, s.maxAttempts)) =
      Describes given := by
  have hs := good_run good_initial history
  cases given with
  | strategy s => exact absurd rfl (hg s)
  | none => exact cached_describes hs ⟨resolver, "standard", none⟩
  | other => rfl
  | options mode m => exact cached_describes hs ⟨resolver, mode, m⟩

/-- A client gets the same strategy object again when it asks for the same settings again, as long
as fewer than 128 other settings, its own or those of other clients, have been asked for since. -/
theorem C103_reused_partial (history between : List Request) (q : Request) (s : Strategy)
    (hq : after history q = .ok s) (hothers : others q between < 128) :
    after (history ++ q :: between) q = .ok s := by
  have hs := good_run good_initial history
  rcases resolve_cases q (run initial history) with ⟨k, hk, hr⟩ | ⟨_, hr⟩
  · have hq' : (cached (keyOf k) (run initial history)).2 = .ok s := by
      rw [← hr]
      exact hq
    obtain ⟨rest, hrest⟩ := cached_head _ hq'
    have hs' := good_cached hs (keyOf k)
    have ha : Ahead (cached (keyOf k) (run initial history)).1 (keyOf k) s [] :=
      ⟨[], rest, by simpa using hrest, by simp⟩
    obtain ⟨used, pre, rest', hl, _⟩ :=
      ahead_run hs' [] ha between (by rw [List.nil_append, others_eq q hk]; exact hothers)
    have hs'' := good_run hs' between
    have hlook := lookup_of_mem hs''.nodup (k := keyOf k) (r := s) (by rw [hl]; simp)
    have hrun : run initial (history ++ q :: between) =
        run (cached (keyOf k) (run initial history)).1 between := by
      rw [run_append, ← hr]
      rfl
    rcases resolve_cases q (run initial (history ++ q :: between)) with ⟨k', hk', hr'⟩ | ⟨h', _⟩
    · rw [hk] at hk'
      cases hk'
      show (resolve q.resolver q.given (run initial (history ++ q :: between))).2 = _
      rw [hr', hrun, cached, hlook]
    · rw [hk] at h'
      cases h'
  · rcases hr with ⟨r, h, hg⟩ | ⟨_, h⟩ | ⟨mode, m, hg, hd, h⟩
    · have hsr : r = s := by
        have : after history q = .ok r := by
          show (resolve q.resolver q.given (run initial history)).2 = _
          rw [h]
        rw [hq] at this
        exact (Except.ok.inj this).symm
      subst hsr
      show (resolve q.resolver q.given _).2 = _
      rw [hg]
      rfl
    · rw [after, h] at hq
      cases hq
    · rw [after, h] at hq
      have := cached_describes hs ⟨q.resolver, mode, m⟩
      rw [hg] at hd
      rw [hq] at this
      simp only [Except.toOption, Option.map_some] at this
      rw [hd] at this
      cases this

/-- Clients do not share a strategy, and so neither a quota, that they have not been given: two
requests for options, by different clients or for different settings, never get the same object, in
whatever order and however far apart they are made. -/
theorem C103_apart (history between : List Request) (q₁ q₂ : Request) (s₁ s₂ : Strategy)
    (h₁ : ∀ s, q₁.given ≠ .strategy s) (h₂ : ∀ s, q₂.given ≠ .strategy s)
    (hq₁ : after history q₁ = .ok s₁) (hq₂ : after (history ++ q₁ :: between) q₂ = .ok s₂)
    (hne : subject q₁ ≠ subject q₂) : s₁.id ≠ s₂.id := by
  have hs := good_run good_initial history
  obtain ⟨k₁, hk₁⟩ := subject_of_ok hs h₁ hq₁
  have hs₂ := good_run good_initial (history ++ q₁ :: between)
  obtain ⟨k₂, hk₂⟩ := subject_of_ok hs₂ h₂ hq₂
  obtain ⟨f₀, hf₀, _, _⟩ := owns_run (f := fun _ => keyOf k₁) good_initial (by simp [Owns, initial])
    history
  obtain ⟨f₁, hf₁, _, _, hr₁⟩ := owns_resolve hs hf₀ q₁
  obtain ⟨f₂, hf₂, _, he₂⟩ := owns_run (good_resolve hs q₁) hf₁ between
  have hrun : run initial (history ++ q₁ :: between) =
      run (resolve q₁.resolver q₁.given (run initial history)).1 between := by
    rw [run_append]
    rfl
  obtain ⟨f₃, _, _, he₃, hr₃⟩ := owns_resolve (good_run (good_resolve hs q₁) between) hf₂ q₂
  obtain ⟨ho₁, hlt₁⟩ := hr₁ s₁ k₁ hk₁ hq₁
  have ho₂ := (hr₃ s₂ k₂ hk₂ (by rw [← hrun]; exact hq₂)).1
  intro hid
  have hmade : s₁.id < (run (resolve q₁.resolver q₁.given (run initial history)).1 between).made :=
    Nat.lt_of_lt_of_le hlt₁ (by assumption)
  have := he₃ s₁.id hmade
  rw [hid, ho₂, ← hid, he₂ _ hlt₁, ho₁] at this
  exact hne (by rw [hk₁, hk₂, keyOf_inj this])

/-! ## The hypotheses are met -/

/-- A client asks for nothing, then another one, then the first again: the same object. -/
example :
    after [] ⟨0, .none⟩ = .ok ⟨0, .standard, 3⟩ ∧
      others ⟨0, .none⟩ [⟨1, .none⟩, ⟨0, .options "simple" (some 2)⟩, ⟨0, .other⟩] = 2 ∧
      after ([] ++ ⟨0, .none⟩ :: [⟨1, .none⟩, ⟨0, .options "simple" (some 2)⟩, ⟨0, .other⟩])
        ⟨0, .none⟩ = .ok ⟨0, .standard, 3⟩ := by
  refine ⟨?_, ?_, ?_⟩ <;> decide +kernel

/-- Leaving the options out and giving empty ones is the same settings. -/
example : after [⟨0, .none⟩] ⟨0, .options "standard" none⟩ = .ok ⟨0, .standard, 3⟩ := by
  decide +kernel

/-- Two clients with the same settings get objects of their own. -/
example :
    after [⟨0, .none⟩] ⟨1, .none⟩ = .ok ⟨1, .standard, 3⟩ ∧
      subject ⟨0, .none⟩ ≠ subject ⟨1, .none⟩ := by
  refine ⟨?_, ?_⟩ <;> decide +kernel

/-! ## What does not hold -/

/-- A client that asks for the same settings again does not always get the same strategy again:
when 128 other clients have made a call in between, the strategy has been dropped and a new one is
made, whose quota is full again. -/
theorem C103_reused_fails :
    ¬ ∀ (history between : List Request) (q : Request) (s : Strategy),
      after history q = .ok s → after (history ++ q :: between) q = .ok s := by
  intro h
  have := h [] ((List.range 128).map fun i => ⟨i + 1, .none⟩) ⟨0, .none⟩ ⟨0, .standard, 3⟩
    (by decide +kernel)
  revert this
  decide +kernel

/-- The number 128 is exact: 127 other clients are not enough, 128 are. -/
theorem C103_reused_sharp :
    others ⟨0, .none⟩ ((List.range 127).map fun i => ⟨i + 1, .none⟩) = 127 ∧
      others ⟨0, .none⟩ ((List.range 128).map fun i => ⟨i + 1, .none⟩) = 128 ∧
      after (⟨0, .none⟩ :: (List.range 127).map fun i => ⟨i + 1, .none⟩) ⟨0, .none⟩ =
        .ok ⟨0, .standard, 3⟩ ∧
      after (⟨0, .none⟩ :: (List.range 128).map fun i => ⟨i + 1, .none⟩) ⟨0, .none⟩ =
        .ok ⟨129, .standard, 3⟩ := by
  refine ⟨?_, ?_, ?_, ?_⟩ <;> decide +kernel

/-- A negative number of attempts is refused in the mode `standard` but not in the mode `simple`. -/
theorem C103_negative_fails :
    after [] ⟨0, .options "standard" (some (-1))⟩ = .error .valueError ∧
      after [] ⟨0, .options "simple" (some (-1))⟩ = .ok ⟨0, .simple, -1⟩ := by
  refine ⟨?_, ?_⟩ <;> decide +kernel

end Verif.Retry.Resolver

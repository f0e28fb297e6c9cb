import Verif.Common
import Mathlib.Tactic.Common

/-!
# Chains of identity resolvers (C51)

Models `ChainedIdentityResolver` (smithy_core/aio/identity.py:34-68) and `IdentityChain.get_identity` and
`invalidate` (smithy_aws_core/identity/chain/__init__.py:220-249).

What a resolver does is arbitrary: it sees and changes the state of the world, in which whatever other
tasks do until it answers is included, and answers with an identity, with an identity error or with
another exception.
-/

set_option autoImplicit false

namespace Verif.Identity.Chain

variable {R W I X Y : Type}

/-! ## Model -/

/-- The answer of a resolver: an identity, a `SmithyIdentityError`, or another exception. -/
inductive Answer (I X Y : Type) where
  | identity (x : I)
  | identityError (e : X)
  | other (e : Y)
  deriving DecidableEq, Repr

/-- What a chain raises. -/
inductive Raised (R X Y : Type) where
  /-- `IdentityChainError` with the failures, or the `SmithyIdentityError` of `ChainedIdentityResolver`
  (which has none). -/
  | exhausted (failures : List (String × R × X))
  | other (e : Y)
  deriving DecidableEq, Repr

/-- The loop of `IdentityChain.get_identity` (chain/__init__.py:222-244), with the failures so far.
`name` gives the name of a resolver's provider, or of its class. -/
def resolve (ask : R → W → W × Answer I X Y) (name : R → String) (failures : List (String × R × X)) :
    List R → W → W × Except (Raised R X Y) I
  | [], w => (w, .error (.exhausted failures))
  | r :: rs, w =>
    match ask r w with
    | (w, .identity x) => (w, .ok x)
    | (w, .identityError e) => resolve ask name (failures ++ [(name r, r, e)]) rs w
    | (w, .other e) => (w, .error (.other e))

/-- `IdentityChain.get_identity` (chain/__init__.py:220-244). -/
def chain (ask : R → W → W × Answer I X Y) (name : R → String) (rs : List R) (w : W) :
    W × Except (Raised R X Y) I := resolve ask name [] rs w

/-- `ChainedIdentityResolver._get_identity` (aio/identity.py:51-62): the failures are only logged. -/
def chained (ask : R → W → W × Answer I X Y) : List R → W → W × Except (Raised R X Y) I
  | [], w => (w, .error (.exhausted []))
  | r :: rs, w =>
    match ask r w with
    | (w, .identity x) => (w, .ok x)
    | (w, .identityError _) => chained ask rs w
    | (w, .other e) => (w, .error (.other e))

/-- `invalidate` of both (chain/__init__.py:246-249, aio/identity.py:67-68): an exception ends the loop. -/
def invalidateAll (inv : R → W → W × Option Y) : List R → W → W × Option Y
  | [], w => (w, none)
  | r :: rs, w =>
    match inv r w with
    | (w, none) => invalidateAll inv rs w
    | (w, some e) => (w, some e)

/-- A chain used as a resolver: its own error is an identity error (chain/exceptions.py:41,
aio/identity.py:62). -/
def asResolver {Z : Type} (wrap : List (String × R × X) → Z) :
    W × Except (Raised R X Y) I → W × Answer I Z Y
  | (w, .ok x) => (w, .identity x)
  | (w, .error (.exhausted fs)) => (w, .identityError (wrap fs))
  | (w, .error (.other e)) => (w, .other e)

/-! ## Specification -/

/-- Asking these resolvers one after the other, beginning with the world `w`, every one of them fails
with an identity error, and the world is `w'` in the end. -/
inductive AllFail (ask : R → W → W × Answer I X Y) : List R → W → List X → W → Prop where
  | nil (w : W) : AllFail ask [] w [] w
  | cons (r : R) (rs : List R) (w w1 w2 : W) (e : X) (es : List X) (h : ask r w = (w1, .identityError e))
      (hs : AllFail ask rs w1 es w2) : AllFail ask (r :: rs) w (e :: es) w2

/-- The resolvers before one of the list fail, it is the last one asked, and this is what it does. -/
def FirstOther (ask : R → W → W × Answer I X Y) (rs : List R) (w w' : W) (a : Answer I X Y) : Prop :=
  ∃ before r after es w1, rs = before ++ r :: after ∧ AllFail ask before w es w1 ∧ ask r w1 = (w', a)

/-- The failures reported: name of the provider, resolver, error. -/
def report (name : R → String) (rs : List R) (es : List X) : List (String × R × X) :=
  (rs.zip es).map fun p => (name p.1, p.1, p.2)

/-! ## Theorems -/

section
variable (ask : R → W → W × Answer I X Y) (name : R → String)

/-- A chain does one of three things. -/
theorem resolve_cases (fs : List (String × R × X)) (rs : List R) (w : W) :
    (∃ x w', resolve ask name fs rs w = (w', .ok x) ∧ FirstOther ask rs w w' (.identity x)) ∨
    (∃ e w', resolve ask name fs rs w = (w', .error (.other e)) ∧ FirstOther ask rs w w' (.other e)) ∨
    (∃ es w', resolve ask name fs rs w = (w', .error (.exhausted (fs ++ report name rs es))) ∧
      AllFail ask rs w es w') := by
  induction rs generalizing fs w with
  | nil => exact .inr (.inr ⟨[], w, by simp [resolve, report], .nil w⟩)
  | cons r rs ih =>
    cases h : ask r w with
    | mk w1 a =>
      cases a with
      | identity x => exact .inl ⟨x, w1, by simp [resolve, h], [], r, rs, [], w, rfl, .nil w, h⟩
      | other e => exact .inr (.inl ⟨e, w1, by simp [resolve, h], [], r, rs, [], w, rfl, .nil w, h⟩)
      | identityError e =>
        have hr : resolve ask name fs (r :: rs) w = resolve ask name (fs ++ [(name r, r, e)]) rs w1 := by
          simp [resolve, h]
        rw [hr]
        rcases ih (fs ++ [(name r, r, e)]) w1 with
          ⟨x, w', h1, b, r', a', es, w2, h2, h3, h4⟩ | ⟨x, w', h1, b, r', a', es, w2, h2, h3, h4⟩ |
            ⟨es, w', h1, h2⟩
        · exact .inl ⟨x, w', h1, r :: b, r', a', e :: es, w2, by rw [h2]; rfl, .cons _ _ _ _ _ _ _ h h3, h4⟩
        · exact .inr (.inl ⟨x, w', h1, r :: b, r', a', e :: es, w2, by rw [h2]; rfl,
            .cons _ _ _ _ _ _ _ h h3, h4⟩)
        · refine .inr (.inr ⟨e :: es, w', ?_, .cons _ _ _ _ _ _ _ h h2⟩)
          rw [h1]
          simp [report]

theorem allFail_unique {rs : List R} {w : W} {es es' : List X} {w1 w2 : W}
    (h : AllFail ask rs w es w1) (h' : AllFail ask rs w es' w2) : es = es' ∧ w1 = w2 := by
  induction h generalizing es' w2 with
  | nil w => cases h'; exact ⟨rfl, rfl⟩
  | cons r rs w w1 w2 e es hr hs ih =>
    cases h' with
    | cons _ _ _ w1' _ e' es'' hr' hs' =>
      rw [hr] at hr'
      cases hr'
      obtain ⟨rfl, rfl⟩ := ih hs'
      exact ⟨rfl, rfl⟩

/-- Only one of the three can be. -/
theorem firstOther_not_allFail {rs : List R} {w w' w2 : W} {a : Answer I X Y} {es : List X}
    (ha : ∀ e, a ≠ .identityError e) (h : FirstOther ask rs w w' a) (h2 : AllFail ask rs w es w2) :
    False := by
  obtain ⟨b, r, c, es', w1, rfl, hb, hr⟩ := h
  induction hb generalizing es with
  | nil w =>
    cases h2 with
    | cons _ _ _ _ _ e _ hr' _ => rw [hr] at hr'; cases hr'; exact ha e rfl
  | cons r' rs w w1' w2' e es' hr' hs ih =>
    cases h2 with
    | cons _ _ _ _ _ e' es'' h3 h4 =>
      rw [hr'] at h3; cases h3
      exact ih h4 hr

theorem firstOther_unique {rs : List R} {w w1 w2 : W} {a b : Answer I X Y}
    (ha : ∀ e, a ≠ .identityError e) (hb : ∀ e, b ≠ .identityError e)
    (h : FirstOther ask rs w w1 a) (h' : FirstOther ask rs w w2 b) : w1 = w2 ∧ a = b := by
  obtain ⟨p, r, q, es, u, rfl, hp, hr⟩ := h
  obtain ⟨p', r', q', es', u', heq, hp', hr'⟩ := h'
  induction hp generalizing p' es' with
  | nil w =>
    cases hp' with
    | nil =>
      obtain ⟨rfl, rfl⟩ := List.cons.inj heq
      rw [hr] at hr'; cases hr'; exact ⟨rfl, rfl⟩
    | cons _ _ _ _ _ e _ h3 _ =>
      obtain ⟨rfl, -⟩ := List.cons.inj heq
      rw [hr] at h3; cases h3; exact absurd rfl (ha e)
  | cons r0 rs w w1' w2' e es0 h0 hs ih =>
    cases hp' with
    | nil =>
      obtain ⟨rfl, -⟩ := List.cons.inj heq
      rw [h0] at hr'; cases hr'; exact absurd rfl (hb e)
    | cons _ rs' _ _ _ e' _ h3 h4 =>
      obtain ⟨rfl, heq2⟩ := List.cons.inj heq
      rw [h0] at h3; cases h3
      exact ih hr _ _ heq2 h4

/-- **C51**: a chain returns an identity exactly if some resolver does and all before it fail with an
identity error; the world is then as that resolver left it, so nothing is asked of the later ones. -/
theorem C51_first (rs : List R) (w w' : W) (x : I) :
    chain ask name rs w = (w', .ok x) ↔ FirstOther ask rs w w' (.identity x) := by
  constructor
  · intro h
    rcases resolve_cases ask name [] rs w with ⟨y, w1, h1, h2⟩ | ⟨y, w1, h1, h2⟩ | ⟨es, w1, h1, h2⟩ <;>
      (unfold chain at h; rw [h1] at h; cases h)
    exact h2
  · intro h
    rcases resolve_cases ask name [] rs w with ⟨y, w1, h1, h2⟩ | ⟨y, w1, h1, h2⟩ | ⟨es, w1, h1, h2⟩
    · obtain ⟨rfl, h3⟩ := firstOther_unique ask (by simp) (by simp) h h2
      cases h3; exact h1
    · obtain ⟨rfl, h3⟩ := firstOther_unique ask (by simp) (by simp) h h2
      cases h3
    · exact (firstOther_not_allFail ask (by simp) h h2).elim

/-- **C51**: an exception that is no identity error reaches the caller at once: exactly if the resolvers
before the one that raised it failed with identity errors. -/
theorem C51_other (rs : List R) (w w' : W) (e : Y) :
    chain ask name rs w = (w', .error (.other e)) ↔ FirstOther ask rs w w' (.other e) := by
  constructor
  · intro h
    rcases resolve_cases ask name [] rs w with ⟨y, w1, h1, h2⟩ | ⟨y, w1, h1, h2⟩ | ⟨es, w1, h1, h2⟩ <;>
      (unfold chain at h; rw [h1] at h; cases h)
    exact h2
  · intro h
    rcases resolve_cases ask name [] rs w with ⟨y, w1, h1, h2⟩ | ⟨y, w1, h1, h2⟩ | ⟨es, w1, h1, h2⟩
    · obtain ⟨rfl, h3⟩ := firstOther_unique ask (by simp) (by simp) h h2
      cases h3
    · obtain ⟨rfl, h3⟩ := firstOther_unique ask (by simp) (by simp) h h2
      cases h3; exact h1
    · exact (firstOther_not_allFail ask (by simp) h h2).elim

/-- **C51**: the chain fails exactly if all its resolvers fail with identity errors, and reports every
one of them, in order, under the name of its provider. -/
theorem C51_exhausted (rs : List R) (w w' : W) (fs : List (String × R × X)) :
    chain ask name rs w = (w', .error (.exhausted fs)) ↔
      ∃ es, AllFail ask rs w es w' ∧ fs = report name rs es := by
  constructor
  · intro h
    rcases resolve_cases ask name [] rs w with ⟨y, w1, h1, h2⟩ | ⟨y, w1, h1, h2⟩ | ⟨es, w1, h1, h2⟩ <;>
      (unfold chain at h; rw [h1] at h; cases h)
    exact ⟨es, h2, rfl⟩
  · rintro ⟨es, h, rfl⟩
    rcases resolve_cases ask name [] rs w with ⟨y, w1, h1, h2⟩ | ⟨y, w1, h1, h2⟩ | ⟨es', w1, h1, h2⟩
    · exact (firstOther_not_allFail ask (by simp) h2 h).elim
    · exact (firstOther_not_allFail ask (by simp) h2 h).elim
    · obtain ⟨rfl, rfl⟩ := allFail_unique ask h h2
      exact h1

/-- Without the names. -/
def bare : Except (Raised R X Y) I → Except (Raised R X Y) I
  | .error (.exhausted _) => .error (.exhausted [])
  | r => r

/-- **C51** for `ChainedIdentityResolver`: it returns and raises the same, except that its own error does
not tell the failures. -/
theorem C51_chained (rs : List R) (w : W) :
    chained ask rs w = ((chain ask name rs w).1, bare (chain ask name rs w).2) := by
  have key : ∀ fs, chained ask rs w = ((resolve ask name fs rs w).1, bare (resolve ask name fs rs w).2) := by
    induction rs generalizing w with
    | nil => intro fs; rfl
    | cons r rs ih =>
      intro fs
      cases h : ask r w with
      | mk w1 a =>
        cases a with
        | identity x => simp [chained, resolve, h, bare]
        | other e => simp [chained, resolve, h, bare]
        | identityError e => simp only [chained, resolve, h]; exact ih w1 _
  exact key []

/-- A failed chain has as many failures as resolvers. -/
theorem C51_all_reported (rs : List R) (w w' : W) (fs : List (String × R × X))
    (h : chain ask name rs w = (w', .error (.exhausted fs))) : fs.map (fun f => f.2.1) = rs ∧
      fs.map (fun f => f.1) = rs.map name := by
  obtain ⟨es, h1, rfl⟩ := (C51_exhausted ask name rs w w' fs).1 h
  have hl : ∀ {rs : List R} {w w' : W} {es : List X}, AllFail ask rs w es w' → rs.length = es.length := by
    intro rs w w' es h
    induction h with
    | nil => rfl
    | cons _ _ _ _ _ _ _ _ _ ih => simp [ih]
  have hl := hl h1
  unfold report
  clear h h1
  induction rs generalizing es with
  | nil => simp
  | cons r rs ih =>
    cases es with
    | nil => simp at hl
    | cons e es =>
      have := ih es (by simpa using hl)
      simp only [List.zip_cons_cons, List.map_cons]
      exact ⟨by rw [this.1], by rw [this.2]⟩

/-- **C51** nested: a chain that is the next resolver of a chain behaves as if its own resolvers stood
there: the first resolver of the two lists that does not fail decides. -/
theorem C51_nested {Z : Type} (wrap : List (String × R × X) → Z) (rs : List R) (w w' : W) (x : I) :
    asResolver wrap (chain ask name rs w) = (w', .identity x) ↔ FirstOther ask rs w w' (.identity x) := by
  rw [← C51_first ask name]
  cases h : chain ask name rs w with
  | mk w1 r =>
    cases r with
    | ok y => simp [asResolver]
    | error e => cases e <;> simp [asResolver]
end

/-- The calls of `invalidate`, written down in order by resolvers that do not raise. -/
def logged (inv : R → W → W × Option Y) : R → W × List R → (W × List R) × Option Y :=
  fun r s => (((inv r s.1).1, s.2 ++ [r]), (inv r s.1).2)

/-- **C51**: if no resolver raises, `invalidate` reaches every resolver of the chain, once and in order. -/
theorem C51_invalidate (inv : R → W → W × Option Y) (rs : List R) (w : W) (log : List R)
    (h : ∀ r ∈ rs, ∀ u, (inv r u).2 = none) :
    (invalidateAll (logged inv) rs (w, log)).2 = none ∧
      (invalidateAll (logged inv) rs (w, log)).1.2 = log ++ rs := by
  induction rs generalizing w log with
  | nil => simp [invalidateAll]
  | cons r rs ih =>
    have h1 : (inv r w).2 = none := h r (by simp) w
    have := ih (inv r w).1 (log ++ [r]) fun r' hr' => h r' (by simp [hr'])
    have h2 : invalidateAll (logged inv) (r :: rs) (w, log) =
        invalidateAll (logged inv) rs ((inv r w).1, log ++ [r]) := by
      simp only [invalidateAll, logged, h1]
    rw [h2, this.1, this.2]
    simp

/-- An exception of a resolver keeps `invalidate` from the resolvers after it. -/
theorem C51_invalidate_fails :
    invalidateAll (logged fun (r : Nat) (w : Nat) => (w, if r = 1 then some "closed" else none)) [1, 2]
      (0, []) = ((0, [1]), some "closed") := by decide +kernel

/-! ## The hypotheses are met -/

/-- The world counts the questions. -/
def demo : Nat → Nat → Nat × Answer String String String
  | 0, w => (w + 1, .identityError "none here")
  | 1, w => (w + 1, if w < 2 then .identityError "not yet" else .identity "me")
  | _, w => (w + 1, .other "bug")

example : chain demo toString [0, 1] 0 =
    (2, .error (.exhausted [("0", 0, "none here"), ("1", 1, "not yet")])) := by decide +kernel
example : chain demo toString [0, 0, 1, 2] 0 = (3, .ok "me") := by decide +kernel
example : chain demo toString [0, 2, 1] 0 = (2, .error (.other "bug")) := by decide +kernel

end Verif.Identity.Chain

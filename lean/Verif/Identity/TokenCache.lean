import Verif.Common
import Mathlib.Tactic.Common

/-!
# Metadata tokens (C54)

Models `TokenCache` (smithy_aws_core/identity/imds.py:79-145) for any number of callers running at the same
time, with the `asyncio.Lock` it uses (asyncio/locks.py; lines of Python 3.11.10).  Between two suspensions a
coroutine runs without interruption, so a step of the model is a stretch of one coroutine.  The clock is
read once in a stretch, and may be set to anything between stretches.
-/

set_option autoImplicit false

namespace Verif.Identity.TokenCache

/-! ## Model -/

/-- The future a caller waits on for the lock: pending; done, so that the caller will run; cancelled; or
done, and the caller cancelled before it ran. -/
inductive Wait where
  | pending
  | woken
  | cancelled
  | wokenCancelled
  deriving DecidableEq, Repr

/-- The cache: the clock, the token with the time it was created (imds.py:83-86), whether the lock is
held, the callers waiting for the lock, and those waiting for the answer to a request for a token. -/
structure St (V : Type) where
  now : Int
  token : Option (V × Int)
  locked : Bool
  waiters : List (Nat × Wait)
  inflight : List Nat
  deriving DecidableEq, Repr

def init {V : Type} (now : Int) : St V := ⟨now, none, false, [], []⟩

/-- What can happen: a caller calls `get_token`; a caller whose future is done runs; a caller waiting for
the lock is cancelled; the request of a caller is answered, with whatever status, or fails, or is
cancelled; the clock changes. -/
inductive Ev (V : Type) where
  | call (i : Nat)
  | run (i : Nat)
  | cancel (i : Nat)
  | answer (i : Nat) (status : Nat) (body : V)
  | fail (i : Nat)
  | clock (t : Int)
  deriving DecidableEq, Repr

/-- What can be seen: a request for a token is sent, answered or fails; `get_token` returns or raises. -/
inductive Obs (V : Type) where
  | sent (i : Nat)
  | answered (i : Nat) (body : V)
  | failed (i : Nat)
  | returned (i : Nat) (token : V)
  | raised (i : Nat)
  | assertion (i : Nat)
  deriving DecidableEq, Repr

variable {V : Type}

/-- `_should_refresh` (imds.py:111-112), with `Token.is_expired` (imds.py:88-89). -/
def St.shouldRefresh (ttl : Int) (s : St V) : Bool :=
  match s.token with
  | none => true
  | some (_, created) => s.now - created ≥ ttl

/-- `Lock._wake_up_first` (asyncio/locks.py:142-155). -/
def wakeFirst : List (Nat × Wait) → List (Nat × Wait)
  | (i, .pending) :: ws => (i, .woken) :: ws
  | ws => ws

/-- `Lock.release` (asyncio/locks.py:125-140). -/
def St.release (s : St V) : St V := { s with locked := false, waiters := wakeFirst s.waiters }

/-- The end of `get_token` (imds.py:144-145). -/
def St.finish (s : St V) (i : Nat) : Obs V :=
  match s.token with
  | none => .assertion i
  | some (v, _) => .returned i v

/-- `_refresh` once the lock is held (imds.py:116-137): either the token is fine, or a request is sent. -/
def St.enter (ttl : Int) (s : St V) (i : Nat) : St V × List (Obs V) :=
  if !s.shouldRefresh ttl then (s.release, [s.finish i])
  else ({ s with inflight := i :: s.inflight }, [.sent i])

/-- `w.cancelled()` of the future. -/
def Wait.isCancelled : Wait → Bool
  | .cancelled => true
  | _ => false

/-- `Task.cancel` of a caller waiting for the lock: its future is cancelled, or, if that is done already,
the task raises when it runs. -/
def cancelOne (i : Nat) (x : Nat × Wait) : Nat × Wait :=
  if x.1 = i then
    match x.2 with
    | .pending => (x.1, .cancelled)
    | .woken => (x.1, .wokenCancelled)
    | w => (x.1, w)
  else x

def St.remove (s : St V) (i : Nat) : List (Nat × Wait) := s.waiters.filter fun w => w.1 ≠ i

/-- One step.  `call` is `get_token` (imds.py:141-143) and the first part of `Lock.acquire`
(asyncio/locks.py:93-107); `run` is the rest of it (asyncio/locks.py:109-123); `answer` is the rest of
`_refresh` (imds.py:137-139), which does not look at the status, and the end of `get_token`. -/
def St.step (ttl : Int) (s : St V) : Ev V → St V × List (Obs V)
  | .call i =>
    if i ∈ s.inflight ∨ i ∈ s.waiters.map Prod.fst then (s, [])
    else if !s.shouldRefresh ttl then (s, [s.finish i])
    else if !s.locked && s.waiters.all (fun w => w.2.isCancelled) then
      St.enter ttl { s with locked := true } i
    else ({ s with waiters := s.waiters ++ [(i, .pending)] }, [])
  | .run i =>
    match s.waiters.lookup i with
    | some .woken => St.enter ttl { s with waiters := s.remove i, locked := true } i
    | some .cancelled | some .wokenCancelled =>
      let ws := s.remove i
      ({ s with waiters := if s.locked then ws else wakeFirst ws }, [.raised i])
    | some .pending | none => (s, [])
  | .cancel i => ({ s with waiters := s.waiters.map (cancelOne i) }, [])
  | .answer i _ body =>
    if i ∈ s.inflight then
      let s' : St V := St.release { s with token := some (body, s.now), inflight := s.inflight.erase i }
      (s', [.answered i body, s'.finish i])
    else (s, [])
  | .fail i =>
    if i ∈ s.inflight then
      (St.release { s with inflight := s.inflight.erase i }, [.failed i, .raised i])
    else (s, [])
  | .clock t => ({ s with now := t }, [])

/-- What is seen, each with the time at which it is seen. -/
abbrev History (V : Type) := List (Int × Obs V)

def advance (ttl : Int) (p : St V × History V) (e : Ev V) : St V × History V :=
  let r := p.1.step ttl e
  (r.1, p.2 ++ r.2.map fun o => (p.1.now, o))

def run (ttl : Int) (now : Int) (evs : List (Ev V)) : St V × History V := evs.foldl (advance ttl) (init now, [])

/-! ## Specification

All of it is about what is seen. -/

/-- The last token that was received, and when. -/
def latest : History V → Option (V × Int)
  | h => h.foldl (fun l o => match o.2 with | .answered _ v => some (v, o.1) | _ => l) none

/-- The callers whose requests are neither answered nor failed. -/
def outstanding (h : History V) : List Nat :=
  h.foldl (fun l o => match o.2 with
    | .sent i => i :: l
    | .answered i _ => l.erase i
    | .failed i => l.erase i
    | _ => l) []

/-- What must hold when something is seen at a time, after what was seen before: no request is sent while
another one is out, nor before the last token expired; what is returned is the last token that was
received, and it has not expired. -/
def Fine (ttl : Int) (before : History V) (t : Int) : Obs V → Prop
  | .sent _ => outstanding before = [] ∧ ∀ v c, latest before = some (v, c) → c + ttl ≤ t
  | .returned _ v => ∃ c, latest before = some (v, c) ∧ t < c + ttl
  | .assertion _ => False
  | _ => True

/-! ## Theorems -/

theorem latest_snoc (h : History V) (t : Int) (o : Obs V) :
    latest (h ++ [(t, o)]) = match o with | .answered _ v => some (v, t) | _ => latest h := by
  simp only [latest, List.foldl_append, List.foldl_cons, List.foldl_nil]

theorem outstanding_snoc (h : History V) (t : Int) (o : Obs V) :
    outstanding (h ++ [(t, o)]) = match o with
      | .sent i => i :: outstanding h
      | .answered i _ => (outstanding h).erase i
      | .failed i => (outstanding h).erase i
      | _ => outstanding h := by
  simp only [outstanding, List.foldl_append, List.foldl_cons, List.foldl_nil]

/-- The caller will not take the lock when it runs next. -/
def Quiet (x : Nat × Wait) : Prop := x.2 = .pending ∨ x.2 = .cancelled

/-- What holds between steps. -/
structure Inv (s : St V) (h : History V) : Prop where
  token : latest h = s.token
  out : outstanding h = s.inflight
  one : s.inflight.length ≤ 1
  lock : s.locked = true ↔ s.inflight ≠ []
  head : s.locked = false → ∀ i w ws, s.waiters = (i, w) :: ws → w ≠ .pending
  tail : ∀ x ∈ s.waiters.tail, Quiet x
  held : s.locked = true → ∀ x ∈ s.waiters, Quiet x

theorem wakeFirst_tail (ws : List (Nat × Wait)) : (wakeFirst ws).tail = ws.tail := by
  unfold wakeFirst
  split <;> rfl

theorem filter_tail (p : Nat × Wait → Bool) (ws : List (Nat × Wait)) (h : ∀ x ∈ ws.tail, Quiet x) :
    ∀ x ∈ (ws.filter p).tail, Quiet x := by
  cases ws with
  | nil => simp
  | cons y ws =>
    intro x hx
    rw [List.filter_cons] at hx
    split at hx
    · exact h x (List.mem_filter.1 hx).1
    · exact h x (List.mem_filter.1 (List.mem_of_mem_tail hx)).1

/-- Everything seen is fine. -/
def AllFine (ttl : Int) (h : History V) : Prop :=
  ∀ pre t o post, h = pre ++ (t, o) :: post → Fine ttl pre t o

theorem allFine_snoc (ttl : Int) (h : History V) (t : Int) (o : Obs V) (hh : AllFine ttl h)
    (ho : Fine ttl h t o) : AllFine ttl (h ++ [(t, o)]) := by
  intro pre t' o' post he
  rcases List.append_eq_append_iff.1 he with ⟨a, ha, hb⟩ | ⟨c, hc, hd⟩
  · cases a with
    | nil =>
      simp only [List.append_nil] at ha
      subst ha
      have := List.cons.inj hb
      simp only [List.nil_append] at hb
      obtain ⟨h1, -⟩ := List.cons.inj hb
      cases h1
      exact ho
    | cons x a => simp at hb
  · cases c with
    | nil =>
      simp only [List.append_nil] at hc
      subst hc
      obtain ⟨h1, -⟩ := List.cons.inj hd
      cases h1
      exact ho
    | cons x c =>
      obtain ⟨rfl, h2⟩ := List.cons.inj hd
      exact hh pre t' o' c hc

theorem wakeFirst_head (ws : List (Nat × Wait)) (i : Nat) (w : Wait) (ws' : List (Nat × Wait))
    (h : wakeFirst ws = (i, w) :: ws') : w ≠ .pending := by
  unfold wakeFirst at h
  split at h
  · obtain ⟨h1, -⟩ := List.cons.inj h
    cases h1
    simp
  · next hn =>
    rintro rfl
    exact hn i ws' h

theorem shouldRefresh_false (ttl : Int) (s : St V) (h : s.shouldRefresh ttl = false) :
    ∃ v c, s.token = some (v, c) ∧ s.now < c + ttl := by
  unfold St.shouldRefresh at h
  split at h
  · cases h
  · next v c ht =>
    refine ⟨v, c, ht, ?_⟩
    simp at h
    omega

theorem shouldRefresh_true (ttl : Int) (s : St V) (h : s.shouldRefresh ttl = true) (v : V) (c : Int)
    (ht : s.token = some (v, c)) : c + ttl ≤ s.now := by
  unfold St.shouldRefresh at h
  rw [ht] at h
  simp at h
  omega

/-- `_refresh` with the lock just taken. -/
theorem enter_ok (ttl : Int) (s : St V) (i : Nat) (h : History V) (hf : AllFine ttl h)
    (ht : latest h = s.token) (ho : outstanding h = s.inflight) (hl : s.locked = true) (hi : s.inflight = [])
    (hq : ∀ x ∈ s.waiters, Quiet x) :
    Inv (s.enter ttl i).1 (h ++ (s.enter ttl i).2.map fun o => (s.now, o)) ∧
      AllFine ttl (h ++ (s.enter ttl i).2.map fun o => (s.now, o)) := by
  unfold St.enter
  by_cases hr : s.shouldRefresh ttl = true
  · simp only [hr, Bool.not_true, Bool.false_eq_true, if_false, List.map_cons, List.map_nil]
    refine ⟨⟨?_, ?_, ?_, ?_, ?_, fun x hx => hq x (List.mem_of_mem_tail hx), fun _ => hq⟩, allFine_snoc _ _ _ _ hf ⟨by rw [ho, hi], ?_⟩⟩
    · rw [latest_snoc]; exact ht
    · rw [outstanding_snoc]; simp [ho]
    · simp [hi]
    · simp [hl]
    · intro hl'
      simp only at hl'
      rw [hl] at hl'
      cases hl'
    · intro v c hv
      rw [ht] at hv
      exact shouldRefresh_true ttl s hr v c hv
  · have hr' : s.shouldRefresh ttl = false := by simpa using hr
    obtain ⟨v, c, hv, hlt⟩ := shouldRefresh_false ttl s hr'
    simp only [hr', Bool.not_false, if_true, List.map_cons, List.map_nil, St.finish, hv]
    refine ⟨⟨?_, ?_, ?_, ?_, ?_, ?_, by simp [St.release]⟩, allFine_snoc _ _ _ _ hf ⟨c, by rw [ht, hv], hlt⟩⟩
    · rw [latest_snoc]; exact ht.trans (by rfl)
    · rw [outstanding_snoc]; exact ho
    · simp [St.release, hi]
    · simp [St.release, hi]
    · intro _ j w ws hw
      exact wakeFirst_head _ _ _ _ hw
    · intro x hx
      simp only [St.release, wakeFirst_tail] at hx
      exact hq x (List.mem_of_mem_tail hx)

theorem lookup_mem (ws : List (Nat × Wait)) (i : Nat) (w : Wait) (h : ws.lookup i = some w) : (i, w) ∈ ws := by
  induction ws with
  | nil => cases h
  | cons y ws ih =>
    obtain ⟨j, w'⟩ := y
    rw [List.lookup_cons] at h
    split at h
    · next he =>
      have : i = j := by simpa using he
      cases h; subst this; simp
    · exact List.mem_cons_of_mem _ (ih h)

theorem step_ok (ttl : Int) (hp : 0 < ttl) (s : St V) (h : History V) (e : Ev V) (hi : Inv s h)
    (hf : AllFine ttl h) :
    Inv (s.step ttl e).1 (h ++ (s.step ttl e).2.map fun o => (s.now, o)) ∧
      AllFine ttl (h ++ (s.step ttl e).2.map fun o => (s.now, o)) := by
  have nothing : ∀ s' : St V, s'.token = s.token → s'.inflight = s.inflight → s'.locked = s.locked →
      (s'.locked = false → ∀ i w ws, s'.waiters = (i, w) :: ws → w ≠ .pending) →
      (∀ x ∈ s'.waiters.tail, Quiet x) → (s'.locked = true → ∀ x ∈ s'.waiters, Quiet x) →
      Inv s' (h ++ ([] : List (Obs V)).map fun o => (s.now, o)) ∧
      AllFine ttl (h ++ ([] : List (Obs V)).map fun o => (s.now, o)) := by
    intro s' h1 h2 h3 h4 h5 h6
    simp only [List.map_nil, List.append_nil]
    exact ⟨⟨hi.token.trans h1.symm, hi.out.trans h2.symm, by rw [h2]; exact hi.one, by rw [h2, h3]; exact hi.lock, h4, h5, h6⟩, hf⟩
  have unlocked : s.locked = false → s.inflight = [] := by
    intro hl
    by_contra hn
    rw [hi.lock.2 hn] at hl
    cases hl
  cases e with
  | call i =>
    simp only [St.step]
    split
    · exact nothing s rfl rfl rfl hi.head hi.tail hi.held
    · split
      · next hr =>
        obtain ⟨v, c, hv, hlt⟩ := shouldRefresh_false ttl s (by simpa using hr)
        simp only [List.map_cons, List.map_nil, St.finish, hv]
        refine ⟨⟨?_, ?_, hi.one, hi.lock, hi.head, hi.tail, hi.held⟩,
          allFine_snoc _ _ _ _ hf ⟨c, by rw [hi.token, hv], hlt⟩⟩
        · rw [latest_snoc]; exact hi.token
        · rw [outstanding_snoc]; exact hi.out
      · split
        · next hc =>
          have hl : s.locked = false := by
            rw [Bool.and_eq_true] at hc
            simpa using hc.1
          exact enter_ok ttl { s with locked := true } i h hf hi.token hi.out rfl (unlocked hl) (by
            rw [Bool.and_eq_true, List.all_eq_true] at hc
            intro x hx
            have := hc.2 x hx
            right
            revert this
            cases x.2 <;> simp [Wait.isCancelled])
        · next hc =>
          refine nothing _ rfl rfl rfl ?_ ?_ ?_
          · intro hl j w ws hw
            simp only at hl hw
            cases hws : s.waiters with
            | nil => rw [hws, hl] at hc; simp at hc
            | cons x xs =>
              rw [hws] at hw
              obtain ⟨rfl, -⟩ := List.cons.inj hw
              exact hi.head hl _ _ _ hws
          · intro x hx
            simp only at hx
            cases hws : s.waiters with
            | nil => rw [hws] at hx; simp at hx
            | cons y ys =>
              rw [hws, List.cons_append, List.tail_cons, List.mem_append, List.mem_singleton] at hx
              rcases hx with hx | rfl
              · exact hi.tail x (by rw [hws]; exact hx)
              · exact .inl rfl
          · intro hl x hx
            simp only [List.mem_append, List.mem_singleton] at hx
            rcases hx with hx | rfl
            · exact hi.held hl x hx
            · exact .inl rfl
  | run i =>
    simp only [St.step]
    cases hlk : s.waiters.lookup i with
    | none => exact nothing s rfl rfl rfl hi.head hi.tail hi.held
    | some w =>
      have raised : Inv { s with waiters := if s.locked then s.remove i else wakeFirst (s.remove i) }
            (h ++ ([.raised i] : List (Obs V)).map fun o => (s.now, o)) ∧
          AllFine ttl (h ++ ([.raised i] : List (Obs V)).map fun o => (s.now, o)) := by
        simp only [List.map_cons, List.map_nil]
        refine ⟨⟨?_, ?_, hi.one, hi.lock, ?_, ?_, ?_⟩, allFine_snoc _ _ _ _ hf trivial⟩
        · rw [latest_snoc]; exact hi.token
        · rw [outstanding_snoc]; exact hi.out
        · intro hl j w ws hw
          simp only at hl hw
          rw [hl] at hw
          exact wakeFirst_head _ _ _ _ hw
        · have := filter_tail (fun w => w.1 ≠ i) s.waiters hi.tail
          intro x hx
          simp only at hx
          split at hx
          · exact this x hx
          · rw [wakeFirst_tail] at hx
            exact this x hx
        · intro hl x hx
          simp only at hl hx
          rw [hl] at hx
          exact hi.held hl x (List.mem_filter.1 hx).1
      cases w with
      | pending => exact nothing s rfl rfl rfl hi.head hi.tail hi.held
      | cancelled => exact raised
      | wokenCancelled => exact raised
      | woken =>
        have hm : (i, Wait.woken) ∈ s.waiters := lookup_mem _ _ _ hlk
        have hl : s.locked = false := by
          by_contra hl
          have := hi.held (by simpa using hl) _ hm
          unfold Quiet at this
          simp at this
        refine enter_ok ttl { s with waiters := s.remove i, locked := true } i h hf hi.token hi.out rfl
            (unlocked hl) ?_
        intro x hx
        cases hws : s.waiters with
        | nil => rw [hws] at hm; cases hm
        | cons y ys =>
          have htl := hi.tail
          rw [hws] at htl hm
          have hy : y = (i, .woken) := by
            rcases List.mem_cons.1 hm with hm | hm
            · exact hm.symm
            · have := htl _ hm
              unfold Quiet at this
              simp at this
          simp only [St.remove, hws, hy] at hx
          simp only [ne_eq, not_true_eq_false, decide_false, Bool.false_eq_true, not_false_eq_true,
            List.filter_cons_of_neg] at hx
          exact htl x (List.mem_filter.1 hx).1
  | cancel i =>
    have quiet : ∀ y, Quiet y → Quiet (cancelOne i y) := by
      rintro ⟨j, w⟩ (rfl | rfl) <;> unfold cancelOne Quiet <;> (simp only; split <;> simp)
    simp only [St.step]
    refine nothing _ rfl rfl rfl ?_ ?_ ?_
    · intro hl j w ws hw
      cases hws : s.waiters with
      | nil => simp [hws] at hw
      | cons x xs =>
        obtain ⟨j', w'⟩ := x
        have := hi.head hl j' w' xs hws
        simp only [hws, List.map_cons] at hw
        obtain ⟨hx, -⟩ := List.cons.inj hw
        unfold cancelOne at hx
        split at hx
        · cases w' <;> simp at hx this <;> (rw [← hx.2]; simp)
        · cases hx; exact this
    · intro x hx
      simp only [← List.map_tail, List.mem_map] at hx
      obtain ⟨y, hy, rfl⟩ := hx
      exact quiet y (hi.tail y hy)
    · intro hl x hx
      simp only [List.mem_map] at hx
      obtain ⟨y, hy, rfl⟩ := hx
      exact quiet y (hi.held hl y hy)
  | answer i status body =>
    simp only [St.step]
    split
    · next hm =>
      have hin : s.inflight = [i] := by
        have h1 := hi.one
        match hs : s.inflight with
        | [] => rw [hs] at hm; cases hm
        | [x] => rw [hs] at hm; simp at hm; rw [hm]
        | _ :: _ :: _ => rw [hs] at h1; simp at h1
      simp only [List.map_cons, List.map_nil, St.release, St.finish]
      have he : h ++ [(s.now, Obs.answered i body), (s.now, .returned i body)] =
          (h ++ [(s.now, .answered i body)]) ++ [(s.now, .returned i body)] := by simp
      rw [he]
      refine ⟨⟨?_, ?_, ?_, ?_, ?_, ?_, by simp⟩, allFine_snoc _ _ _ _ (allFine_snoc _ _ _ _ hf trivial) ⟨s.now, ?_, by omega⟩⟩
      · rw [latest_snoc, latest_snoc]
      · rw [outstanding_snoc, outstanding_snoc]; simp [hi.out]
      · simp [hin]
      · simp [hin]
      · intro _ j w ws hw
        exact wakeFirst_head _ _ _ _ hw
      · intro x hx
        simp only [wakeFirst_tail] at hx
        exact hi.tail x hx
      · rw [latest_snoc]
    · exact nothing s rfl rfl rfl hi.head hi.tail hi.held
  | fail i =>
    simp only [St.step]
    split
    · next hm =>
      have hin : s.inflight = [i] := by
        have h1 := hi.one
        match hs : s.inflight with
        | [] => rw [hs] at hm; cases hm
        | [x] => rw [hs] at hm; simp at hm; rw [hm]
        | _ :: _ :: _ => rw [hs] at h1; simp at h1
      simp only [List.map_cons, List.map_nil, St.release]
      have he : h ++ [(s.now, (Obs.failed i : Obs V)), (s.now, .raised i)] =
          (h ++ [(s.now, .failed i)]) ++ [(s.now, .raised i)] := by simp
      rw [he]
      refine ⟨⟨?_, ?_, ?_, ?_, ?_, ?_, by simp⟩, allFine_snoc _ _ _ _ (allFine_snoc _ _ _ _ hf trivial) trivial⟩
      · rw [latest_snoc, latest_snoc]; exact hi.token
      · rw [outstanding_snoc, outstanding_snoc]; simp [hi.out]
      · simp [hin]
      · simp [hin]
      · intro _ j w ws hw
        exact wakeFirst_head _ _ _ _ hw
      · intro x hx
        simp only [wakeFirst_tail] at hx
        exact hi.tail x hx
    · exact nothing s rfl rfl rfl hi.head hi.tail hi.held
  | clock t => exact nothing _ rfl rfl rfl hi.head hi.tail hi.held

theorem run_ok (ttl : Int) (hp : 0 < ttl) (now : Int) (evs : List (Ev V)) :
    Inv (run ttl now evs).1 (run ttl now evs).2 ∧ AllFine ttl (run ttl now evs).2 := by
  have key : ∀ (evs : List (Ev V)) (p : St V × History V), Inv p.1 p.2 ∧ AllFine ttl p.2 →
      Inv (evs.foldl (advance ttl) p).1 (evs.foldl (advance ttl) p).2 ∧
        AllFine ttl (evs.foldl (advance ttl) p).2 := by
    intro evs
    induction evs with
    | nil => intro p h; exact h
    | cons e evs ih =>
      intro p h
      exact ih _ (step_ok ttl hp p.1 p.2 e h.1 h.2)
  refine key evs _ ⟨⟨rfl, rfl, by simp [init], by simp [init], by simp [init], by simp [init], by simp [init]⟩, ?_⟩
  intro pre t o post he
  simp at he

/-- **C54**: in every history, no request for a token is sent while another is out, or while the last
token received has not expired; every token returned is the last one received, and has not expired then;
and the assertion in `get_token` holds. -/
theorem C54_token_cache (ttl : Int) (hp : 0 < ttl) (now : Int) (evs : List (Ev V)) (pre post : History V)
    (t : Int) (o : Obs V) (h : (run ttl now evs).2 = pre ++ (t, o) :: post) : Fine ttl pre t o :=
  (run_ok ttl hp now evs).2 pre t o post h

/-- **C54**: nobody waits for nothing: while someone waits for the lock, a request is out, or someone who
waits can run, and after that fewer wait. -/
theorem C54_no_lost_wakeup (ttl : Int) (hp : 0 < ttl) (now : Int) (evs : List (Ev V)) :
    let s := (run ttl now evs).1
    s.waiters ≠ [] → outstanding (run ttl now evs).2 ≠ [] ∨
      ∃ i, (s.step ttl (.run i)).1.waiters.length < s.waiters.length := by
  intro s hw
  obtain ⟨hi, -⟩ := run_ok ttl hp now evs
  by_cases hl : s.locked = true
  · left; rw [hi.out]; exact hi.lock.1 hl
  · right
    have hl' : s.locked = false := by simpa using hl
    cases hws : s.waiters with
    | nil => exact absurd hws hw
    | cons x ws =>
      obtain ⟨i, w⟩ := x
      have hne := hi.head hl' i w ws hws
      refine ⟨i, ?_⟩
      have hlk : s.waiters.lookup i = some w := by rw [hws]; simp
      have hrem : (s.remove i).length < s.waiters.length := by
        unfold St.remove
        rw [hws, List.filter_cons_of_neg (by simp)]
        exact Nat.lt_succ_of_le (List.length_filter_le _ _)
      have hwl : ∀ l, (wakeFirst l).length = l.length := by
        intro l
        unfold wakeFirst
        split <;> simp
      rw [← hws]
      simp only [St.step, hlk]
      cases w with
      | pending => exact absurd rfl hne
      | woken =>
        simp only [St.enter]
        split
        · simp only [St.release, hwl]; exact hrem
        · exact hrem
      | cancelled => simp only [hl']; rw [if_neg (by simp), hwl]; exact hrem
      | wokenCancelled => simp only [hl']; rw [if_neg (by simp), hwl]; exact hrem

/-- What is not so: the answer's status is not looked at, so that an error is kept as a token for as long
as a token lasts. -/
theorem C54_status_fails (ttl : Int) (hp : 0 < ttl) (body : V) :
    (run ttl 0 [.call 0, .answer 0 403 body, .call 1]).2 =
      [(0, .sent 0), (0, .answered 0 body), (0, .returned 0 body), (0, .returned 1 body)] := by
  have h : ¬ (0 - 0 ≥ ttl) := by omega
  simp [run, advance, St.step, St.enter, St.shouldRefresh, St.finish, St.release, init, wakeFirst, hp]

/-- What is not so: the age of a token is counted from when it was received, not from when it was asked
for; a token can be returned however long ago it was asked for, and so also when that is longer than it
lasts. -/
theorem C54_age_fails (ttl delay : Int) (hp : 0 < ttl) (body : V) :
    (run ttl 0 [.call 0, .clock delay, .answer 0 200 body, .call 1]).2 =
      [(0, .sent 0), (delay, .answered 0 body), (delay, .returned 0 body), (delay, .returned 1 body)] := by
  simp [run, advance, St.step, St.enter, St.shouldRefresh, St.finish, St.release, init, wakeFirst, hp]

/-! ## The hypotheses are met -/

/-- Three callers share one request, one of them after it was woken; another request is sent once the
token has expired. -/
example : (run (V := Nat) 5 0 [.call 0, .call 1, .call 2, .cancel 1, .answer 0 200 7, .run 1, .run 2,
    .clock 4, .call 3, .clock 5, .call 4, .call 5, .fail 4, .run 5]).2 =
    [(0, .sent 0), (0, .answered 0 7), (0, .returned 0 7), (0, .raised 1), (0, .returned 2 7),
      (4, .returned 3 7), (5, .sent 4), (5, .failed 4), (5, .raised 4), (5, .sent 5)] := by decide +kernel

end Verif.Identity.TokenCache

import Verif.Provider.Model

/-!
# What users of the provider rely on

Everything is read off the calls made and the log of how they ended.
-/

set_option autoImplicit false

namespace Verif.Provider

variable {α : Type}

/-- The chunks whose `write` returned normally, in the order in which the writes returned. -/
def acceptedOf (calls : List (Call α)) (log : List (Nat × Res α)) : List α :=
  log.filterMap fun e =>
    match calls[e.1]?, e.2 with
    | some (.write c), .ok => some c
    | _, _ => none

/-- The chunks handed to readers, in order. -/
def deliveredOf (log : List (Nat × Res α)) : List α :=
  log.filterMap fun e =>
    match e.2 with
    | .item c => some c
    | _ => none

def St.accepted (s : St α) : List α := acceptedOf s.calls s.log
def St.delivered (s : St α) : List α := deliveredOf s.log

/-- Did task `i`'s call end? -/
def St.ended (s : St α) (i : Nat) : Prop := i ∈ s.log.map Prod.fst

/-- Nobody abandons the buffered data with `close(flush=False)`. -/
def NoAbandon (acts : List (Act α)) : Prop := Act.call (Call.close false) ∉ acts

/-- A state in which the event loop has nothing to resume: every unfinished call is suspended and
has not been notified. -/
def St.Idle (s : St α) : Prop := ∀ i, (i, true) ∉ s.waiters

/-- Calls still in progress. -/
def St.pending (s : St α) (i : Nat) (c : Call α) : Prop := s.calls[i]? = some c ∧ ¬ s.ended i

def Call.isRead : Call α → Bool
  | .read => true
  | _ => false

/-- One producer and one consumer, each making its calls one after the other: a read starts only
when every earlier read has ended, and a write, flush or close starts only when every earlier
write, flush and close has ended. -/
def Sequential : St α → List (Act α) → Prop
  | _, [] => True
  | s, .call c :: acts => (∀ i c', s.pending i c' → c'.isRead ≠ c.isRead) ∧ Sequential (s.start c) acts
  | s, .resume i :: acts => Sequential (s.resume i) acts

/-- What a fair event loop and a consumer that keeps reading will do next: resume a notified
task, or, when no read is in progress and something is buffered, read. -/
def Useful (s : St α) (a : Act α) : Prop :=
  (∃ i, a = .resume i ∧ (i, true) ∈ s.waiters) ∨
  (a = .call .read ∧ (∀ i, ¬ s.pending i .read) ∧ s.data ≠ [])

def UsefulRun : St α → List (Act α) → Prop
  | _, [] => True
  | s, a :: acts => Useful s a ∧ UsefulRun (s.step a) acts

end Verif.Provider

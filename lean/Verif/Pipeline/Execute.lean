import Verif.Pipeline.Attempt

/-! # The trace of an execution -/

set_option autoImplicit false

namespace Verif.Pipeline

variable {W I Q R O E T N K P D : Type} {b : Bool}

/-- What the completion hooks add to an execution. -/
def XEndPost : Out E (OutCtx I Q R O E) → List Stage → Reg I Q R O E → Prop
  | .ok c, l, r => l = executionEnd ∧ r.cur = .outcome c.response
  | .raised _, _, _ => False
  | .aborted, l, _ => l <+: executionEnd

theorem tr_finalizeExecution {ire : E → Bool} (env : Env W I Q R O E T N K P D)
    (c : OutCtx I Q R O E) (r : Reg I Q R O E) (hr : r.cur = .outcome c.response) :
    Tr (execSys b W I Q R O ire) (finalizeExecution env c) r XEndPost := by
  refine Tr.bind (P := fun o l (v : Reg I Q R O E) => match o with
    | .ok r => l = [.modifyBeforeCompletion] ∧ v.cur = .outcome r
    | .raised _ => False
    | .aborted => l = [.modifyBeforeCompletion])
    (Tr.catch (tr_xstep rfl fun _ => hr.symm) ?_ ?_ ?_) ?_ ?_ ?_
  · rintro r l v ⟨h1, h2⟩
    exact ⟨h1, by rw [h2.2]; rfl⟩
  · rintro e l v ⟨h1, h2, h3⟩
    refine Tr.pure _ ⟨?_, h3⟩
    rw [prefix_single h1 h2, List.append_nil]
  · rintro l v ⟨h1, h2⟩
    exact prefix_single h1 h2
  · rintro r l v ⟨rfl, h⟩
    refine Tr.catch (P := fun o l (v : Reg I Q R O E) => match o with
      | .ok c => l = [.readAfterExecution] ∧ v.cur = .outcome c.response
      | .raised e => l = [.readAfterExecution] ∧ v.cur = .outcome (.error e)
      | .aborted => l = [.readAfterExecution])
      (Tr.bind (tr_xstep rfl fun _ => h.symm) ?_ ?_ ?_) ?_ ?_ ?_
    · rintro _ l v' ⟨rfl, -, rfl⟩
      exact Tr.pure _ ⟨rfl, h⟩
    · rintro e l v ⟨h1, h2, h3⟩
      exact ⟨prefix_single h1 h2, h3⟩
    · rintro l v ⟨h1, h2⟩
      exact prefix_single h1 h2
    · rintro c l v ⟨rfl, h⟩
      exact ⟨rfl, h⟩
    · rintro e l v ⟨rfl, h⟩
      exact Tr.pure _ ⟨rfl, h⟩
    · rintro l v rfl
      exact List.prefix_rfl
  · rintro e l v h
    exact h.elim
  · rintro l v rfl
    exact ⟨[.readAfterExecution], rfl⟩

/-- What a finished or interrupted execution looks like. -/
def ExecPost (env : Env W I Q R O E T N K P D) : Out E O → List Stage → Reg I Q R O E → Prop :=
  fun o l r => match o with
    | .aborted => ∃ l', Documented env.retryable l' ∧ l <+: l'
    | o => Documented env.retryable l ∧ ∃ x, r.cur = .outcome x ∧
        o = observed env.isSmithyError env.wrap x

theorem documented_of_body {b : Bool} {l : List Stage} (h : BodyLang b l) :
    Documented b (l ++ executionEnd) := by
  obtain ⟨p, loop, h1, h2, h3, rfl⟩ := h
  exact ⟨p, loop, h1, h2, h3, rfl⟩

theorem tr_execute (env : Env W I Q R O E T N K P D) (fuel : Nat) (r : Reg I Q R O E)
    (hr : r.cur = .input env.input) (hb : b = true → UnchangedInput env) :
    Tr (execSys b W I Q R O env.isRetryError) (execute env fuel) r (ExecPost env) := by
  refine Tr.bind (tr_handleExecution env fuel r hr hb) ?_ ?_ ?_
  · rintro c l r' ⟨h1, h2⟩
    refine Tr.bind (tr_finalizeExecution env c r' h2) ?_ ?_ ?_
    · rintro c' l' r'' ⟨rfl, h3⟩
      cases hc : c'.response with
      | error e =>
        refine Tr.raise _ ?_
        refine ⟨?_, .error e, by rw [h3, hc], rfl⟩
        rw [List.append_nil]; exact documented_of_body h1
      | ok o =>
        refine Tr.pure _ ?_
        refine ⟨?_, .ok o, by rw [h3, hc], rfl⟩
        rw [List.append_nil]; exact documented_of_body h1
    · rintro e l' r'' h
      exact h.elim
    · rintro l' r'' h
      exact ⟨_, documented_of_body h1, (List.prefix_append_right_inj l).2 h⟩
  · rintro e l r' h
    exact h.elim
  · rintro l r' ⟨l', h1, h2⟩
    exact ⟨_, documented_of_body h1, h2.trans (List.prefix_append _ _)⟩

/-! ## A property of the entries of the trace -/

/-- Unless it is cut off, `m` adds entries with the property only. -/
def Adds {α : Type} (G : XEv I Q R O E → Prop) (m : M (ExecS W I Q R O E) E α) : Prop :=
  ∀ s, (m s).1 ≠ .aborted → (∀ x ∈ s.trace, G x) → ∀ x ∈ (m s).2.trace, G x

section
variable {G : XEv I Q R O E → Prop} {α β : Type}

theorem Adds.pure (a : α) : Adds G (M.pure a : M (ExecS W I Q R O E) E α) := fun _ _ h => h

theorem Adds.raise (e : E) : Adds G (M.raise e : M (ExecS W I Q R O E) E α) := fun _ _ h => h

theorem Adds.bind {m : M (ExecS W I Q R O E) E α} {f : α → M (ExecS W I Q R O E) E β}
    (hm : Adds G m) (hf : ∀ a, Adds G (f a)) : Adds G (M.bind m f) := by
  intro s ha h
  have h1 := hm s
  simp only [M.bind] at ha ⊢
  generalize m s = x at h1 ha
  obtain ⟨o, s'⟩ := x
  cases o with
  | ok a => exact hf a s' ha (h1 (by simp) h)
  | raised e => exact h1 (by simp) h
  | aborted => exact absurd rfl ha

theorem Adds.catch {m : M (ExecS W I Q R O E) E α} {f : E → M (ExecS W I Q R O E) E α}
    (hm : Adds G m) (hf : ∀ a, Adds G (f a)) : Adds G (M.catch m f) := by
  intro s ha h
  have h1 := hm s
  simp only [M.catch] at ha ⊢
  generalize m s = x at h1 ha
  obtain ⟨o, s'⟩ := x
  cases o with
  | raised a => exact hf a s' ha (h1 (by simp) h)
  | ok e => exact h1 (by simp) h
  | aborted => exact absurd rfl ha

theorem Adds.step (hG : ∀ e, G (.step e)) (st : Stage) (arg : Val I Q R O E)
    (val : α → Val I Q R O E) (m : M W E α) : Adds G (xstep st arg val m) := by
  intro s _ h x hx
  simp only [xstep, List.mem_append, List.mem_singleton] at hx
  rcases hx with hx | rfl
  · exact h x hx
  · exact hG _

/-- Attempts that were not cut off. -/
def GoodAttempt (x : XEv I Q R O E) : Prop :=
  match x with
  | .step _ => True
  | .attempt _ evs => IsAttempt (evs.map Ev.stage)

theorem adds_runAttempt (env : Env W I Q R O E T N K P D) (i : I) (q : Q) :
    Adds GoodAttempt (runAttempt q (handleAttempt env i q)) := by
  intro s ha h x hx
  obtain ⟨t, h1, -, h3⟩ := tr_handleAttempt env i q { w := s.w, trace := [], cur := q }
  have h1' : (handleAttempt env i q { w := s.w, trace := [], cur := q }).2.trace = t := h1
  simp only [runAttempt, h1', List.mem_append, List.mem_singleton] at hx ha
  rcases hx with hx | rfl
  · exact h x hx
  · have e : t.flatMap (attSys W I Q R O E).stages = t.map Ev.stage := by
      rw [List.map_eq_flatMap]; rfl
    rw [e] at h3
    generalize (handleAttempt env i q { w := s.w, trace := [], cur := q }).1 = o at h3 ha
    cases o with
    | ok c => exact h3.1
    | raised e => exact h3.elim
    | aborted => exact absurd rfl ha

theorem adds_step (st : Stage) (arg : Val I Q R O E)
    (val : α → Val I Q R O E) (m : M W E α) : Adds GoodAttempt (xstep st arg val m) :=
  Adds.step (fun _ => trivial) st arg val m

theorem adds_retryLoop (env : Env W I Q R O E T N K P D) (i : I) (q : Q) (fuel : Nat) :
    ∀ t, Adds GoodAttempt (retryLoop env i q fuel t) := by
  induction fuel with
  | zero => intro t s ha; exact absurd rfl ha
  | succ fuel ih =>
    intro t
    refine Adds.bind ?_ fun _ => Adds.bind (adds_runAttempt env i q) fun c => ?_
    · split
      · exact adds_step _ _ _ _
      · exact Adds.pure _
    · cases c.response with
      | ok o => exact Adds.bind (adds_step _ _ _ _) fun _ => Adds.pure _
      | error e =>
        refine Adds.bind (Adds.catch (adds_step _ _ _ _) fun re => ?_) fun t =>
          Adds.bind (adds_step _ _ _ _) fun _ => ih t
        split
        · refine Adds.bind ?_ fun _ => Adds.raise _
          split
          · exact adds_step _ _ _ _
          · exact Adds.pure _
        · exact Adds.raise _

theorem adds_execute (env : Env W I Q R O E T N K P D) (fuel : Nat) :
    Adds GoodAttempt (execute env fuel) := by
  have hprep : Adds GoodAttempt (prepare env) :=
    Adds.bind (adds_step _ _ _ _) fun _ => Adds.bind (adds_step _ _ _ _) fun _ =>
      Adds.bind (adds_step _ _ _ _) fun _ => Adds.bind (adds_step _ _ _ _) fun _ => Adds.pure _
  have htrans : ∀ i q, Adds GoodAttempt (transmitPhase env fuel i q) := fun i q =>
    Adds.bind (adds_step _ _ _ _) fun _ => Adds.bind (adds_step _ _ _ _) fun q => by
      unfold retry
      split
      · exact Adds.bind (adds_step _ _ _ _) fun t => adds_retryLoop env i q fuel t
      · exact adds_runAttempt env i q
  refine Adds.bind ?_ fun c => Adds.bind ?_ fun c => ?_
  · intro s ha h
    have h1 := hprep s
    simp only [handleExecution] at ha ⊢
    generalize prepare env s = x at h1 ha
    obtain ⟨o, s'⟩ := x
    cases o with
    | raised e => exact h1 (by simp) h
    | aborted => exact absurd rfl ha
    | ok x =>
      obtain ⟨i, q⟩ := x
      have h2 := htrans i q s'
      simp only at ha ⊢
      generalize transmitPhase env fuel i q s' = y at h2 ha
      obtain ⟨o, s''⟩ := y
      cases o with
      | ok c => exact h2 (by simp) (h1 (by simp) h)
      | raised e => exact h2 (by simp) (h1 (by simp) h)
      | aborted => exact absurd rfl ha
  · exact Adds.bind (Adds.catch (adds_step _ _ _ _) fun _ => Adds.pure _) fun r =>
      Adds.catch (Adds.bind (adds_step _ _ _ _) fun _ => Adds.pure _) fun _ => Adds.pure _
  · cases c.response with
    | ok o => exact Adds.pure _
    | error e => exact Adds.raise _

end

end Verif.Pipeline

import Verif.Pipeline.Execute

/-! # C22, C23, C24, C65, C66 and C13 for the request pipeline -/

set_option autoImplicit false

namespace Verif.Pipeline

variable {W I Q R O E T N K P D : Type}

/-! ## C23: order -/

/-- C23: a call that returns or raises took the documented steps in the documented order (up to the
step that failed), with the completion hooks last; a call that was cut off took an initial part of
such a sequence. -/
theorem C23_documented_order (env : Env W I Q R O E T N K P D) (fuel : Nat) (w : W) :
    ((execute env fuel ⟨w, []⟩).1 ≠ .aborted →
      Documented env.retryable (stagesOf (execute env fuel ⟨w, []⟩).2.trace)) ∧
    ((execute env fuel ⟨w, []⟩).1 = .aborted →
      ∃ l, Documented env.retryable l ∧ stagesOf (execute env fuel ⟨w, []⟩).2.trace <+: l) := by
  obtain ⟨t, h1, -, h3⟩ := tr_execute (b := false) env fuel ⟨.input env.input, .input env.input⟩ rfl
    (by simp) ⟨w, []⟩
  have h1' : (execute env fuel ⟨w, []⟩).2.trace = t := h1
  have e : t.flatMap (execSys false W I Q R O env.isRetryError).stages = stagesOf t := rfl
  rw [h1']
  rw [e] at h3
  generalize (execute env fuel ⟨w, []⟩).1 = o at h3
  cases o with
  | ok a => exact ⟨fun _ => h3.1, by simp⟩
  | raised a => exact ⟨fun _ => h3.1, by simp⟩
  | aborted => exact ⟨by simp, fun _ => h3⟩

/-- C23: each attempt in the trace of a call that was not cut off is a complete one. -/
theorem C23_attempts_complete (env : Env W I Q R O E T N K P D) (fuel : Nat) (w : W)
    (h : (execute env fuel ⟨w, []⟩).1 ≠ .aborted) (q : Q) (evs : List (Ev I Q R O E))
    (hm : .attempt q evs ∈ (execute env fuel ⟨w, []⟩).2.trace) : IsAttempt (evs.map Ev.stage) :=
  adds_execute env fuel ⟨w, []⟩ h (by simp) _ hm

/-! ## C65: messages -/

/-- C65: every step is given what the previous ones left (the serializer excepted), every attempt
starts from the request that entered the retry loop, the retry strategy is given the error of the
attempt that failed, and the caller gets what the last step left. -/
theorem C65_message_flow (env : Env W I Q R O E T N K P D) (fuel : Nat) (w : W) :
    XFlow false env.isRetryError ⟨.input env.input, .input env.input⟩
      (execute env fuel ⟨w, []⟩).2.trace ∧
    ((execute env fuel ⟨w, []⟩).1 ≠ .aborted → ∃ x,
      (xleaves env.isRetryError ⟨.input env.input, .input env.input⟩
        (execute env fuel ⟨w, []⟩).2.trace).cur = .outcome x ∧
      (execute env fuel ⟨w, []⟩).1 = observed env.isSmithyError env.wrap x) := by
  obtain ⟨t, h1, h2, h3⟩ := tr_execute (b := false) env fuel ⟨.input env.input, .input env.input⟩ rfl
    (by simp) ⟨w, []⟩
  have h1' : (execute env fuel ⟨w, []⟩).2.trace = t := h1
  rw [h1']
  refine ⟨(xflow_iff _ _ _).1 h2, fun h => ?_⟩
  generalize (execute env fuel ⟨w, []⟩).1 = o at h3 h
  cases o with
  | ok a => exact h3.2
  | raised a => exact h3.2
  | aborted => exact absurd rfl h

/-! ## C24: what is serialized -/

/-- C24, partial: if `modify_before_serialization` returns its input unchanged, the serializer too is
given what the previous steps left.  Missing: a hook that changes the input, see
`C24_modified_input_not_serialized_fails`. -/
theorem C24_unchanged_input_serialized_partial (env : Env W I Q R O E T N K P D) (fuel : Nat)
    (w : W) (h : UnchangedInput env) :
    XFlow true env.isRetryError ⟨.input env.input, .input env.input⟩
      (execute env fuel ⟨w, []⟩).2.trace := by
  obtain ⟨t, h1, h2, -⟩ := tr_execute (b := true) env fuel ⟨.input env.input, .input env.input⟩ rfl
    (fun _ => h) ⟨w, []⟩
  have h1' : (execute env fuel ⟨w, []⟩).2.trace = t := h1
  rw [h1']
  exact (xflow_iff _ _ _).1 h2

/-! ## A concrete client -/

/-- Numbers for inputs, requests, responses and outputs, strings for errors; the world is the list
of requests that were sent.  Serialization is the identity; the transport answers with the request
if `good` accepts the number of requests sent before. -/
def toy (hooks : Interceptor (List Nat) Nat Nat Nat Nat String) (good : Nat → Bool) (retryable : Bool)
    (maxAttempts : Nat) :
    Env (List Nat) Nat Nat Nat Nat String Nat Nat Nat Nat Nat where
  input := 10
  hooks := hooks
  serialize := M.pure
  resolveEndpoint _ := M.pure 0
  setEndpoint q _ := M.pure q
  authOptions := M.pure [⟨7, 0, 0⟩, ⟨8, 100, 200⟩]
  supported k := if k = 8 then some ⟨M.pure 1, fun p => M.pure p, M.pure 2,
    fun q d p => M.pure (q + d + p)⟩ else none
  update a b := a + b
  send q w := if good w.length then (.ok q, w ++ [q]) else (.raised "refused", w ++ [q])
  isTimeout _ := false
  timeoutError := ""
  deserialize _ r := M.pure r
  retryable := retryable
  acquire := M.pure 1
  hasDelay t := t ≥ 2
  sleep _ := M.pure ()
  refresh t _ := if t < maxAttempts then M.pure (t + 1) else M.raise "no more"
  isRetryError e := e = "no more"
  backsOff _ := false
  sleepAfterRefusal _ := M.pure ()
  rewind _ := M.pure ()
  recordSuccess _ := M.pure ()
  isSmithyError _ := true
  wrap e := e

/-- No interceptors. -/
def noHooks : Interceptor (List Nat) Nat Nat Nat Nat String := chain []

/-- Two failures, then success: three attempts, in the documented order. -/
example : (execute (toy noHooks (· ≥ 2) true 3) 5 ⟨[], []⟩).1 = .ok 213 ∧
    attempts (execute (toy noHooks (· ≥ 2) true 3) 5 ⟨[], []⟩).2.trace = 3 ∧
    (execute (toy noHooks (· ≥ 2) true 3) 5 ⟨[], []⟩).2.w = [213, 213, 213] := by decide +kernel

/-- One failure too many: the error of the last attempt, not the strategy's. -/
example : (execute (toy noHooks (· ≥ 3) true 3) 5 ⟨[], []⟩).1 = .raised "refused" := by decide +kernel

/-- A hook that adds one to the input. -/
def bump : Interceptor (List Nat) Nat Nat Nat Nat String :=
  { noHooks with modifyBeforeSerialization := fun i => M.pure (i + 1) }

/-- C24 is false: the hook returns 11, the serializer is given 10 (and the request sent carries 10). -/
theorem C24_modified_input_not_serialized_fails :
    ∃ env : Env (List Nat) Nat Nat Nat Nat String Nat Nat Nat Nat Nat,
      (execute env 1 ⟨[], []⟩).2.trace.take 4 = [.step ⟨.readBeforeExecution, .input 10, .ok .nothing⟩,
        .step ⟨.modifyBeforeSerialization, .input 10, .ok (.input 11)⟩,
        .step ⟨.readBeforeSerialization, .input 11, .ok .nothing⟩,
        .step ⟨.serialize, .input 10, .ok (.request 10)⟩] ∧
      ¬ XFlow true env.isRetryError ⟨.input env.input, .input env.input⟩
        (execute env 1 ⟨[], []⟩).2.trace := by
  have h4 : (execute (toy bump (fun _ => true) false 1) 1 ⟨[], []⟩).2.trace.take 4 =
      [.step ⟨.readBeforeExecution, .input 10, .ok .nothing⟩,
        .step ⟨.modifyBeforeSerialization, .input 10, .ok (.input 11)⟩,
        .step ⟨.readBeforeSerialization, .input 11, .ok .nothing⟩,
        .step ⟨.serialize, .input 10, .ok (.request 10)⟩] := by decide +kernel
  refine ⟨toy bump (fun _ => true) false 1, h4, ?_⟩
  rw [← List.take_append_drop 4 (execute _ _ _).2.trace, h4]
  rintro ⟨-, -, -, ⟨h, -⟩, -⟩
  have h1 : (Val.input 10 : Val Nat Nat Nat Nat String) = .input 11 := h rfl (fun _ => rfl)
  simp at h1

/-- The hypothesis of `C24_unchanged_input_serialized_partial` holds of a client without
interceptors. -/
example : UnchangedInput (toy noHooks (fun _ => true) true 3) := by
  intro w i h
  cases h
  rfl

/-! ## C22: completion -/

theorem documented_ends {b : Bool} {l : List Stage} (h : Documented b l) :
    EndsOnceWith .modifyBeforeCompletion .readAfterExecution l := by
  have hpre : ∀ p, p <+: beforeLoop → Stage.modifyBeforeCompletion ∉ p ∧ Stage.readAfterExecution ∉ p := by
    intro p hp
    exact ⟨fun h => by have := hp.subset h; simp [beforeLoop] at this,
      fun h => by have := hp.subset h; simp [beforeLoop] at this⟩
  have hatt : ∀ l, IsAttempt l → Stage.modifyBeforeCompletion ∉ l ∧ Stage.readAfterExecution ∉ l := by
    rintro l ⟨auth, p, -, hp, rfl⟩
    constructor <;>
    · intro h
      rw [List.mem_append] at h
      rcases h with h | h
      · have := hp.subset h
        cases auth <;> simp [attemptSteps] at this
      · simp [attemptEnd] at h
  have hpause : ∀ l, IsPause l → Stage.modifyBeforeCompletion ∉ l ∧ Stage.readAfterExecution ∉ l := by
    rintro l (rfl | rfl) <;> simp
  have hr : ∀ l, Rounds l → Stage.modifyBeforeCompletion ∉ l ∧ Stage.readAfterExecution ∉ l := by
    intro l hl
    induction hl with
    | pauseFailed => simp
    | success hz ha => simp [hpause _ hz, hatt _ ha]
    | refused hz ha => simp [hpause _ hz, hatt _ ha]
    | refusedWithPause hz ha => simp [hpause _ hz, hatt _ ha]
    | rewindFailed hz ha => simp [hpause _ hz, hatt _ ha]
    | again hz ha _ ih => simp [hpause _ hz, hatt _ ha, ih]
  obtain ⟨p, loop, -, h2, h3, rfl⟩ := h
  refine ⟨p ++ loop, rfl, ?_⟩
  have hl : Stage.modifyBeforeCompletion ∉ loop ∧ Stage.readAfterExecution ∉ loop := by
    rcases h3 with rfl | ⟨-, h⟩
    · simp
    · cases b with
      | false => exact hatt _ h
      | true =>
        rcases h with rfl | ⟨l', h, rfl⟩
        · simp
        · simp [hr _ h]
  simp [hpre _ h2, hl]

theorem isAttempt_ends {l : List Stage} (h : IsAttempt l) :
    EndsOnceWith .modifyBeforeAttemptCompletion .readAfterAttempt l := by
  obtain ⟨auth, p, -, hp, rfl⟩ := h
  refine ⟨p, rfl, fun h => ?_, fun h => ?_⟩
  all_goals
    have := hp.subset h
    cases auth <;> simp [attemptSteps] at this

/-- C22, partial: a call that returns or raises runs `modify_before_completion` and
`read_after_execution` exactly once, last and in this order; each of its attempts runs
`modify_before_attempt_completion` and `read_after_attempt` exactly once, last and in this order.
Missing: a call cut off by cancellation, see `C22_cancelled_call_fails`. -/
theorem C22_completion_once_partial (env : Env W I Q R O E T N K P D) (fuel : Nat) (w : W)
    (h : (execute env fuel ⟨w, []⟩).1 ≠ .aborted) :
    EndsOnceWith .modifyBeforeCompletion .readAfterExecution
      (stagesOf (execute env fuel ⟨w, []⟩).2.trace) ∧
    ∀ q evs, .attempt q evs ∈ (execute env fuel ⟨w, []⟩).2.trace →
      EndsOnceWith .modifyBeforeAttemptCompletion .readAfterAttempt (evs.map Ev.stage) :=
  ⟨documented_ends ((C23_documented_order env fuel w).1 h), fun q evs hm =>
    isAttempt_ends (C23_attempts_complete env fuel w h q evs hm)⟩

theorem finalizeExecution_spec (env : Env W I Q R O E T N K P D) (c : OutCtx I Q R O E)
    (s : ExecS W I Q R O E) (h : (finalizeExecution env c s).1 ≠ .aborted) :
    ∃ c' b m ret, (finalizeExecution env c s).1 = .ok c' ∧
      (finalizeExecution env c s).2.trace = s.trace ++
        [.step ⟨.modifyBeforeCompletion, .outcome c.response, m⟩,
         .step ⟨.readAfterExecution, .outcome b, ret⟩] ∧
      (m = .ok (.outcome b) ∨ ∃ e, m = .raised e ∧ b = .error e) ∧
      ((∃ e, ret = .raised e ∧ c'.response = .error e) ∨ ((∃ v, ret = .ok v) ∧ c'.response = b)) := by
  have key : ∀ (s' : ExecS W I Q R O E) (b : Except E O) (m : Out E (Val I Q R O E)),
      s'.trace = s.trace ++ [.step ⟨.modifyBeforeCompletion, .outcome c.response, m⟩] →
      (m = .ok (.outcome b) ∨ ∃ e, m = .raised e ∧ b = .error e) →
      let f := M.catch (M.bind (xstep .readAfterExecution (.outcome b) noVal
        (env.hooks.readAfterExecution { c with response := b })) fun _ =>
          (M.pure { c with response := b } : M (ExecS W I Q R O E) E (OutCtx I Q R O E)))
        fun e => M.pure { c with response := .error e }
      (f s').1 ≠ .aborted →
      ∃ c' b m ret, (f s').1 = .ok c' ∧ (f s').2.trace = s.trace ++
        [.step ⟨.modifyBeforeCompletion, .outcome c.response, m⟩,
         .step ⟨.readAfterExecution, .outcome b, ret⟩] ∧
      (m = .ok (.outcome b) ∨ ∃ e, m = .raised e ∧ b = .error e) ∧
      ((∃ e, ret = .raised e ∧ c'.response = .error e) ∨ ((∃ v, ret = .ok v) ∧ c'.response = b)) := by
    intro s' b m htr hm f hf
    simp only [f, M.catch, M.bind, xstep] at hf ⊢
    generalize env.hooks.readAfterExecution { c with response := b } s'.w = x at hf ⊢
    obtain ⟨o, w'⟩ := x
    cases o with
    | ok u =>
      exact ⟨_, b, m, .ok .nothing, rfl, by simp [M.pure, htr, Out.map, noVal], hm,
        Or.inr ⟨⟨_, rfl⟩, rfl⟩⟩
    | raised e =>
      exact ⟨_, b, m, .raised e, rfl, by simp [M.pure, htr, Out.map], hm, Or.inl ⟨e, rfl, rfl⟩⟩
    | aborted => exact absurd rfl hf
  unfold finalizeExecution at h ⊢
  have hs : ∀ (g : Except E O → M (ExecS W I Q R O E) E (OutCtx I Q R O E)),
      (M.bind (M.catch (xstep .modifyBeforeCompletion (.outcome c.response) .outcome
        (env.hooks.modifyBeforeCompletion c)) fun e => M.pure (.error e)) g) s =
      match env.hooks.modifyBeforeCompletion c s.w with
      | (.ok r, w') => g r ⟨w', s.trace ++ [.step ⟨.modifyBeforeCompletion, .outcome c.response,
          .ok (.outcome r)⟩]⟩
      | (.raised e, w') => g (.error e) ⟨w', s.trace ++ [.step ⟨.modifyBeforeCompletion,
          .outcome c.response, .raised e⟩]⟩
      | (.aborted, w') => (.aborted, ⟨w', s.trace ++ [.step ⟨.modifyBeforeCompletion,
          .outcome c.response, .aborted⟩]⟩) := by
    intro g
    simp only [M.bind, M.catch, xstep]
    generalize env.hooks.modifyBeforeCompletion c s.w = x
    obtain ⟨o, w'⟩ := x
    cases o <;> rfl
  rw [hs] at h ⊢
  generalize env.hooks.modifyBeforeCompletion c s.w = x at h ⊢
  obtain ⟨o, w'⟩ := x
  cases o with
  | ok r => exact key _ r (.ok (.outcome r)) rfl (Or.inl rfl) h
  | raised e => exact key _ (.error e) (.raised e) rfl (Or.inr ⟨e, rfl, rfl⟩) h
  | aborted => exact absurd rfl h

/-- C22: the caller of a call that returns or raises observes the outcome after the last hook: what
`read_after_execution` raised, or else what `modify_before_completion` returned or raised. -/
theorem C22_caller_observes_final_outcome (env : Env W I Q R O E T N K P D) (fuel : Nat) (w : W)
    (h : (execute env fuel ⟨w, []⟩).1 ≠ .aborted) :
    ∃ t a b m ret, (execute env fuel ⟨w, []⟩).2.trace = t ++
        [.step ⟨.modifyBeforeCompletion, .outcome a, m⟩,
         .step ⟨.readAfterExecution, .outcome b, ret⟩] ∧
      (m = .ok (.outcome b) ∨ ∃ e, m = .raised e ∧ b = .error e) ∧
      ((∃ e, ret = .raised e ∧ (execute env fuel ⟨w, []⟩).1 =
          observed env.isSmithyError env.wrap (.error e)) ∨
       ((∃ v, ret = .ok v) ∧
          (execute env fuel ⟨w, []⟩).1 = observed env.isSmithyError env.wrap b)) := by
  obtain ⟨t, h1, h2, h3⟩ := tr_handleExecution (b := false) env fuel
    ⟨.input env.input, .input env.input⟩ rfl (by simp) ⟨w, []⟩
  have hx : execute env fuel ⟨w, []⟩ = M.bind (handleExecution env fuel) (fun c =>
    M.bind (finalizeExecution env c) fun c => match c.response with
      | .error e => M.raise (if env.isSmithyError e then e else env.wrap e)
      | .ok o => M.pure o) ⟨w, []⟩ := rfl
  rw [hx] at h ⊢
  simp only [M.bind] at h ⊢
  generalize handleExecution env fuel ⟨w, []⟩ = x at h h3 h1
  obtain ⟨o, s⟩ := x
  cases o with
  | raised e => exact h3.elim
  | aborted => exact absurd rfl h
  | ok c =>
    simp only at h ⊢
    have hf := finalizeExecution_spec env c s
    generalize finalizeExecution env c s = y at h hf
    obtain ⟨o, s'⟩ := y
    cases o with
    | raised e =>
      obtain ⟨c', _, _, _, hc, _⟩ := hf (by simp)
      cases hc
    | aborted => exact absurd rfl h
    | ok c' =>
      obtain ⟨c'', b, m, ret, hc, htr, hm, hret⟩ := hf (by simp)
      cases hc
      simp only at htr h ⊢
      refine ⟨s.trace, c.response, b, m, ret, ?_, hm, ?_⟩
      · cases hc : c'.response <;> exact htr
      · rcases hret with ⟨e, h4, h5⟩ | ⟨h4, h5⟩
        · left
          refine ⟨e, h4, ?_⟩
          rw [h5]
          rfl
        · right
          refine ⟨h4, ?_⟩
          rw [h5]
          cases b <;> rfl

/-- C22 is false of a cancelled call: no completion hook runs, neither the call's nor the
attempt's. -/
theorem C22_cancelled_call_fails :
    ∃ env : Env (List Nat) Nat Nat Nat Nat String Nat Nat Nat Nat Nat,
      (∀ q w, env.send q w = (.aborted, w)) ∧
      (execute env 1 ⟨[], []⟩).1 = .aborted ∧
      .send ∈ stagesOf (execute env 1 ⟨[], []⟩).2.trace ∧
      ∀ st ∈ stagesOf (execute env 1 ⟨[], []⟩).2.trace,
        st ∉ attemptEnd ∧ st ∉ executionEnd :=
  ⟨{ toy noHooks (fun _ => true) true 3 with send := fun _ w => (.aborted, w) },
    fun _ _ => rfl, by decide +kernel, by decide +kernel, by decide +kernel⟩

/-! ## C13: the number of attempts -/

/-- `m` adds at most `k` attempts. -/
def AtMost {α : Type} (k : Nat) (m : M (ExecS W I Q R O E) E α) : Prop :=
  ∀ s, attempts (m s).2.trace ≤ attempts s.trace + k

theorem attempts_append (a b : List (XEv I Q R O E)) :
    attempts (a ++ b) = attempts a + attempts b := by
  induction a with
  | nil => simp [attempts]
  | cons x a ih => cases x <;> simp only [List.cons_append, attempts, ih] <;> omega

section
variable {α β : Type}

theorem AtMost.pure (a : α) : AtMost 0 (M.pure a : M (ExecS W I Q R O E) E α) :=
  fun _ => Nat.le_refl _

theorem AtMost.raise (e : E) : AtMost 0 (M.raise e : M (ExecS W I Q R O E) E α) :=
  fun _ => Nat.le_refl _

theorem AtMost.step (st : Stage) (arg : Val I Q R O E) (val : α → Val I Q R O E) (m : M W E α) :
    AtMost 0 (xstep st arg val m) := by
  intro s
  simp [xstep, attempts_append, attempts]

theorem AtMost.bind {j k : Nat} {m : M (ExecS W I Q R O E) E α}
    {f : α → M (ExecS W I Q R O E) E β} (hm : AtMost j m)
    (hf : ∀ a, (∃ s, (m s).1 = .ok a) → AtMost k (f a)) : AtMost (j + k) (M.bind m f) := by
  intro s
  have h1 := hm s
  simp only [M.bind]
  rcases hx : m s with ⟨o, s'⟩
  rw [hx] at h1
  cases o with
  | ok a =>
    have := hf a ⟨s, by rw [hx]⟩ s'
    simp only at this h1 ⊢
    omega
  | raised e => simp only at h1 ⊢; omega
  | aborted => simp only at h1 ⊢; omega

theorem AtMost.catch {k : Nat} {m : M (ExecS W I Q R O E) E α}
    {f : E → M (ExecS W I Q R O E) E α} (hm : AtMost 0 m) (hf : ∀ a, AtMost k (f a)) :
    AtMost k (M.catch m f) := by
  intro s
  have h1 := hm s
  simp only [M.catch]
  rcases hx : m s with ⟨o, s'⟩
  rw [hx] at h1
  cases o with
  | raised a =>
    have := hf a s'
    simp only at this h1 ⊢
    omega
  | ok e => simp only at h1 ⊢; omega
  | aborted => simp only at h1 ⊢; omega

theorem AtMost.mono {j k : Nat} {m : M (ExecS W I Q R O E) E α} (h : AtMost j m) (hk : j ≤ k) :
    AtMost k m := fun s => Nat.le_trans (h s) (by omega)

theorem AtMost.attempt (q : Q) (m : M (AttS W I Q R O E) E α) :
    AtMost 1 (runAttempt q m) := by
  intro s
  simp [runAttempt, attempts_append, attempts]

end

theorem catch_ok {S α : Type} {m : M S E α} {h : E → M S E α} {a : α}
    (hh : ∀ e s, (h e s).1 ≠ .ok a) (hex : ∃ s, (M.catch m h s).1 = .ok a) :
    ∃ s, (m s).1 = .ok a := by
  obtain ⟨s, hs⟩ := hex
  refine ⟨s, ?_⟩
  simp only [M.catch] at hs
  generalize m s = x at hs ⊢
  obtain ⟨o, s'⟩ := x
  cases o with
  | ok b => exact hs
  | raised e => exact absurd hs (hh e s')
  | aborted => cases hs

theorem atMost_retryLoop (env : Env W I Q R O E T N K P D) (i : I) (q : Q) (count : T → Nat)
    (maxAttempts : Nat)
    (hrefresh : ∀ t e w t', (env.refresh t e w).1 = .ok t' →
      count t' = count t + 1 ∧ count t' ≤ maxAttempts) (fuel : Nat) :
    ∀ t, count t ≤ maxAttempts → AtMost (maxAttempts + 1 - count t) (retryLoop env i q fuel t) := by
  induction fuel with
  | zero => intro t ht s; simp [retryLoop]
  | succ fuel ih =>
    intro t ht
    have hbody : ∀ c : OutCtx I Q R O E, AtMost (maxAttempts - count t)
        (match c.response with
        | .error e => afterFailure env q t e (retryLoop env i q fuel)
        | .ok _ => M.bind (xstep .recordSuccess .nothing noVal (env.recordSuccess t))
            fun _ => M.pure c) := by
      intro c
      cases c.response with
      | ok o =>
        exact (AtMost.bind (AtMost.step _ _ _ _) fun _ _ => AtMost.pure _).mono (by omega)
      | error e =>
        refine (AtMost.bind (j := 0) (k := maxAttempts - count t) (AtMost.catch (AtMost.step _ _ _ _)
          fun re => ?_) fun t' ht' => ?_).mono (by omega)
        · split
          · refine (AtMost.bind (j := 0) ?_ fun _ _ => AtMost.raise _).mono (Nat.le_refl _)
            split
            · exact AtMost.step _ _ _ _
            · exact AtMost.pure _
          · exact AtMost.raise _
        · obtain ⟨s, hs⟩ := catch_ok (fun re s => by
            split
            · intro h
              simp only [M.bind, M.raise] at h
              split at h <;> simp at h
            · simp [M.raise]) ht'
          obtain ⟨h1, h2⟩ := hrefresh t e s.w t' hs
          refine (AtMost.bind (AtMost.step _ _ _ _) fun _ _ => ih t' h2).mono ?_
          omega
    simp only [retryLoop]
    refine (AtMost.bind (j := 0) (k := maxAttempts + 1 - count t) ?_ fun _ _ =>
      (AtMost.bind (AtMost.attempt q _) fun c _ => hbody c).mono (by omega)).mono (by omega)
    split
    · exact AtMost.step _ _ _ _
    · exact AtMost.pure _

/-- C13 through the pipeline: if the retry strategy's tokens count attempts (the first token counts
one, each refreshed one counts one more and at most `maxAttempts`), a call makes at most
`maxAttempts` attempts, whatever the hooks, the transport and the world do, and wherever it is cut
off. -/
theorem C13_pipeline_attempts_bounded (env : Env W I Q R O E T N K P D) (count : T → Nat)
    (maxAttempts : Nat) (hmax : 1 ≤ maxAttempts)
    (hacquire : ∀ w t, (env.acquire w).1 = .ok t → count t = 1)
    (hrefresh : ∀ t e w t', (env.refresh t e w).1 = .ok t' →
      count t' = count t + 1 ∧ count t' ≤ maxAttempts) (fuel : Nat) (w : W) :
    attempts (execute env fuel ⟨w, []⟩).2.trace ≤ maxAttempts := by
  have hprep : AtMost 0 (prepare env) :=
    AtMost.bind (AtMost.step _ _ _ _) fun _ _ => AtMost.bind (k := 0) (AtMost.step _ _ _ _) fun _ _ =>
      AtMost.bind (k := 0) (AtMost.step _ _ _ _) fun _ _ =>
        AtMost.bind (k := 0) (AtMost.step _ _ _ _) fun _ _ => AtMost.pure _
  have htrans : ∀ i q, AtMost maxAttempts (transmitPhase env fuel i q) := by
    intro i q
    refine (AtMost.bind (j := 0) (k := maxAttempts) (AtMost.step _ _ _ _) fun _ _ =>
      (AtMost.bind (j := 0) (k := maxAttempts) (AtMost.step _ _ _ _) fun q _ => ?_).mono
        (by omega)).mono (by omega)
    unfold retry
    split
    · refine (AtMost.bind (j := 0) (k := maxAttempts) (AtMost.step _ _ _ _) fun t ht => ?_).mono
        (by omega)
      obtain ⟨s, hs⟩ := ht
      have h1 := hacquire s.w t hs
      refine (atMost_retryLoop env i q count maxAttempts hrefresh fuel t (by omega)).mono ?_
      omega
    · exact (AtMost.attempt q _).mono hmax
  have hhandle : AtMost maxAttempts (handleExecution env fuel) := by
    intro s
    have h1 := hprep s
    simp only [handleExecution]
    generalize prepare env s = x at h1
    obtain ⟨o, s'⟩ := x
    cases o with
    | raised e => simp only at h1 ⊢; omega
    | aborted => simp only at h1 ⊢; omega
    | ok x =>
      obtain ⟨i, q⟩ := x
      have h2 := htrans i q s'
      simp only at h1 ⊢
      generalize transmitPhase env fuel i q s' = y at h2
      obtain ⟨o, s''⟩ := y
      cases o <;> simp only at h2 ⊢ <;> omega
  have h : AtMost (maxAttempts + 0) (execute env fuel) := by
    refine AtMost.bind hhandle fun c _ => AtMost.bind (j := 0) (k := 0) ?_ fun c _ => ?_
    · exact AtMost.bind (j := 0) (k := 0) (AtMost.catch (AtMost.step _ _ _ _) fun _ => AtMost.pure _)
        fun r _ => AtMost.catch (AtMost.bind (AtMost.step _ _ _ _) fun _ _ => AtMost.pure _)
          fun _ => AtMost.pure _
    · cases c.response with
      | ok o => exact AtMost.pure _
      | error e => exact AtMost.raise _
  simpa [attempts] using h ⟨w, []⟩

/-- The hypotheses hold of the toy client. -/
example : (∀ w t, ((toy noHooks (· ≥ 2) true 3).acquire w).1 = .ok t → id t = 1) ∧
    (∀ t e w t', ((toy noHooks (· ≥ 2) true 3).refresh t e w).1 = .ok t' →
      id t' = id t + 1 ∧ id t' ≤ 3) := by
  refine ⟨fun w t h => by cases h; rfl, fun t e w t' h => ?_⟩
  simp only [toy] at h
  split at h
  · cases h
    exact ⟨rfl, by simp only [id]; omega⟩
  · cases h

/-! ## C66: authentication -/

/-- C66: the option used is the first one offered whose scheme is supported; none is used only if
none is supported. -/
theorem C66_first_supported_option (supported : K → Option (Scheme W Q E P D))
    (os : List (AuthOption K P)) :
    match pickScheme supported os with
    | some (o, s) => ∃ pre post, os = pre ++ o :: post ∧ supported o.schemeId = some s ∧
        ∀ o' ∈ pre, supported o'.schemeId = none
    | none => ∀ o ∈ os, supported o.schemeId = none := by
  induction os with
  | nil => simp [pickScheme]
  | cons o os ih =>
    simp only [pickScheme]
    cases h : supported o.schemeId with
    | some s => exact ⟨[], os, rfl, h, by simp⟩
    | none =>
      simp only
      cases hp : pickScheme supported os with
      | none =>
        rw [hp] at ih
        simp only at ih ⊢
        intro o' ho
        rcases List.mem_cons.1 ho with rfl | ho
        · exact h
        · exact ih o' ho
      | some x =>
        obtain ⟨o', s⟩ := x
        rw [hp] at ih
        obtain ⟨pre, post, rfl, h1, h2⟩ := ih
        refine ⟨o :: pre, post, rfl, h1, ?_⟩
        intro o'' ho
        rcases List.mem_cons.1 ho with rfl | ho
        · exact h
        · exact h2 o'' ho

/-- C66: the identity resolver is given the scheme's identity properties updated with the
option's. -/
theorem C66_identity_properties (env : Env W I Q R O E T N K P D) (o : AuthOption K P)
    (s : Scheme W Q E P D) (w w' : W) (p : P) (h : s.identityProperties w = (.ok p, w')) :
    identityOf env o s w = s.getIdentity (env.update p o.identityProperties) w' := by
  simp only [identityOf, M.bind, h]

/-- C66 is false of the signer: the option's signer properties never reach it; whatever they are,
signing does the same. -/
theorem C66_signer_properties_ignored_fails (env : Env W I Q R O E T N K P D) (o : AuthOption K P)
    (s : Scheme W Q E P D) (q : Q) (d : D) (p : P) :
    signWith env { o with signerProperties := p } s q d = signWith env o s q d := rfl

/-- A concrete case: the scheme's signer properties are 2, the option's identity and signer
properties are 100 and 200; the signer gets 102. -/
theorem C66_signer_gets_identity_properties_fails :
    ∃ (env : Env (List Nat) Nat Nat Nat Nat String Nat Nat Nat Nat Nat) (o : AuthOption Nat Nat)
      (s : Scheme (List Nat) Nat String Nat Nat), o.identityProperties = 100 ∧
      o.signerProperties = 200 ∧ s.signerProperties [] = (.ok 2, []) ∧
      (∀ q d p w, s.sign q d p w = (.ok p, w)) ∧ (∀ a b, env.update a b = a + b) ∧
      signWith env o s 0 0 [] = (.ok 102, []) :=
  ⟨toy noHooks (fun _ => true) true 3, ⟨8, 100, 200⟩,
    ⟨M.pure 1, fun p => M.pure p, M.pure 2, fun _ _ p => M.pure p⟩, rfl, rfl, rfl,
    fun _ _ _ _ => rfl, fun _ _ => rfl, rfl⟩

/-- C66: the request is signed if and only if a supported option was offered. -/
theorem C66_signed_iff_supported (env : Env W I Q R O E T N K P D) (q : Q)
    (auth : Option (AuthOption K P × Scheme W Q E P D)) (s : AttS W I Q R O E) (q' : Q)
    (h : (authenticate env q auth s).1 = .ok q') :
    (auth.isSome = true ↔ ∃ v, (authenticate env q auth s).2.trace =
      s.trace ++ [v, ⟨.sign, .request q, .ok (.request q')⟩]) ∧
    (auth = none → q' = q ∧ (authenticate env q auth s).2.trace = s.trace) := by
  cases auth with
  | none =>
    cases h
    refine ⟨⟨by simp, ?_⟩, fun _ => ⟨rfl, rfl⟩⟩
    rintro ⟨v, hv⟩
    have := congrArg List.length hv
    simp [authenticate, pure, M.pure] at this
  | some os =>
    obtain ⟨o, sch⟩ := os
    refine ⟨⟨fun _ => ?_, by simp⟩, by simp⟩
    simp only [authenticate, bind, pure, M.bind, astep, setCur, M.pure] at h ⊢
    generalize identityOf env o sch s.w = x at h ⊢
    obtain ⟨od, w⟩ := x
    cases od with
    | raised e => cases h
    | aborted => cases h
    | ok d =>
      simp only at h ⊢
      generalize signWith env o sch q d w = y at h ⊢
      obtain ⟨oq, w'⟩ := y
      cases oq with
      | raised e => cases h
      | aborted => cases h
      | ok q'' =>
        cases h
        exact ⟨_, by simp [Out.map]; rfl⟩

end Verif.Pipeline

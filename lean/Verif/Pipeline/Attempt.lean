import Verif.Pipeline.Lemmas

/-! # The trace of an attempt and of an execution -/

set_option autoImplicit false

namespace Verif.Pipeline

variable {W I Q R O E T N K P D : Type} {b : Bool}

theorem Straight.weaken {V α : Type} {L L' : List Stage → Prop} {K : α → V → Prop}
    {err : E → V → Prop} (h : ∀ l, L l → L' l) {o : Out E α} {l : List Stage} {v : V}
    (hs : Straight L K err o l v) : Straight L' K err o l v := by
  cases o with
  | ok a => exact ⟨h l hs.1, hs.2⟩
  | raised e =>
    obtain ⟨h1, ⟨l', h2, h3⟩, h4⟩ := hs
    exact ⟨h1, ⟨l', h l' h2, h3⟩, h4⟩
  | aborted =>
    obtain ⟨h1, ⟨l', h2, h3⟩⟩ := hs
    exact ⟨h1, ⟨l', h l' h2, h3⟩⟩

theorem cat_nil {L : List Stage → Prop} {l : List Stage} (h : Cat (· = []) L l) : L l := by
  obtain ⟨l1, l2, rfl, h2, rfl⟩ := h
  exact h2

theorem Tr.step {α β : Type} {st : Stage} {arg : Val I Q R O E} {val : α → Val I Q R O E}
    {m : M W E α} {f : α → M (AttS W I Q R O E) E β} {v : Val I Q R O E}
    {L : List Stage → Prop} {Kf : β → Val I Q R O E → Prop}
    (h : st.isSide = false → arg = v)
    (hf : ∀ a, Tr (attSys W I Q R O E) (f a) (if st.replaces then val a else v)
      (Straight L Kf failed)) (hne : ∃ l, L l) :
    Tr (attSys W I Q R O E) (astep st arg val m >>= f) v
      (Straight (fun l => ∃ l', L l' ∧ l = st :: l') Kf failed) := by
  refine (Tr.seq (tr_astep h) (fun a v' hv => hv ▸ hf a) hne).mono ?_
  intro o l v' hs
  refine hs.weaken ?_
  rintro l ⟨l1, l2, rfl, h2, rfl⟩
  exact ⟨l2, h2, rfl⟩

theorem Tr.cur {β : Type} {q : Q} {f : Unit → M (AttS W I Q R O E) E β} {v : Val I Q R O E}
    {L : List Stage → Prop} {Kf : β → Val I Q R O E → Prop}
    (hf : Tr (attSys W I Q R O E) (f ()) v (Straight L Kf failed)) (hne : ∃ l, L l) :
    Tr (attSys W I Q R O E) (setCur q >>= f) v (Straight L Kf failed) := by
  refine (Tr.seq tr_setCur (fun a v' hv => hv ▸ hf) hne).mono ?_
  intro o l v' hs
  exact hs.weaken fun l => cat_nil

/-- The steps up to and including `send`. -/
def requestSteps (l : List Stage) : Prop :=
  ∃ auth : Bool, l = [.readBeforeAttempt, .resolveEndpoint, .setEndpoint, .modifyBeforeSigning,
    .readBeforeSigning, .resolveAuth] ++ (if auth then [.getIdentity, .sign] else []) ++
    [.readAfterSigning, .modifyBeforeTransmit, .readBeforeTransmit, .send]

def responseSteps : List Stage :=
  [.readAfterTransmit, .modifyBeforeDeserialization, .readBeforeDeserialization, .deserialize,
   .readAfterDeserialization]

theorem tr_transmit (env : Env W I Q R O E T N K P D) (i : I) (q : Q) :
    Tr (attSys W I Q R O E) (transmit env i q) (.request q)
      (Straight (· = [.readAfterSigning, .modifyBeforeTransmit, .readBeforeTransmit, .send])
        (fun (x : Q × R) v => v = .response x.2) failed) := by
  unfold transmit
  refine (Tr.step (L := (· = [.modifyBeforeTransmit, .readBeforeTransmit, .send]))
    (fun _ => rfl) (fun _ => ?_) ⟨_, rfl⟩).mono fun o l v hs => hs.weaken ?_
  · refine (Tr.step (L := (· = [.readBeforeTransmit, .send])) (fun _ => rfl) (fun q => ?_)
      ⟨_, rfl⟩).mono fun o l v hs => hs.weaken ?_
    · refine Tr.cur ?_ ⟨_, rfl⟩
      refine (Tr.step (L := (· = [.send])) (fun _ => rfl) (fun _ => ?_) ⟨_, rfl⟩).mono
        fun o l v hs => hs.weaken ?_
      · refine (Tr.step (L := (· = [])) (fun _ => rfl) (fun r => ?_) ⟨_, rfl⟩).mono
          fun o l v hs => hs.weaken ?_
        · exact Tr.seqPure rfl
        · rintro l ⟨l', rfl, rfl⟩; rfl
      · rintro l ⟨l', rfl, rfl⟩; rfl
    · rintro l ⟨l', rfl, rfl⟩; rfl
  · rintro l ⟨l', rfl, rfl⟩; rfl

theorem tr_authenticate (env : Env W I Q R O E T N K P D) (q : Q)
    (auth : Option (AuthOption K P × Scheme W Q E P D)) :
    Tr (attSys W I Q R O E) (authenticate env q auth) (.request q)
      (Straight (fun l => ∃ b : Bool, l = if b then [.getIdentity, .sign] else [])
        (fun (q : Q) v => v = .request q) failed) := by
  cases auth with
  | none => exact Tr.pure _ ⟨⟨false, rfl⟩, rfl⟩
  | some os =>
    obtain ⟨o, s⟩ := os
    unfold authenticate
    refine (Tr.step (L := (· = [.sign])) (fun h => by cases h) (fun d => ?_) ⟨_, rfl⟩).mono
      fun o l v hs => hs.weaken ?_
    · refine (Tr.step (L := (· = [])) (fun _ => rfl) (fun q => ?_) ⟨_, rfl⟩).mono
        fun o l v hs => hs.weaken ?_
      · exact Tr.cur (Tr.seqPure rfl) ⟨_, rfl⟩
      · rintro l ⟨l', rfl, rfl⟩; rfl
    · rintro l ⟨l', rfl, rfl⟩; exact ⟨true, rfl⟩

/-- What comes after `readBeforeSigning`. -/
def authSteps (l : List Stage) : Prop :=
  ∃ auth : Bool, l = .resolveAuth :: ((if auth then [.getIdentity, .sign]
    else []) ++ [.readAfterSigning, .modifyBeforeTransmit, .readBeforeTransmit, .send])

theorem tr_attemptRequest (env : Env W I Q R O E T N K P D) (i : I) (q : Q) :
    Tr (attSys W I Q R O E) (attemptRequest env i q) (.request q)
      (Straight requestSteps (fun x v => v = .response x.2) failed) := by
  have hne : ∃ l, authSteps l := ⟨_, false, rfl⟩
  have hcat : ∀ p : List Stage, ∃ l, Cat (· = p) authSteps l := fun p =>
    ⟨_, _, _, rfl, ⟨false, rfl⟩, rfl⟩
  have hcons : ∀ (st : Stage) (p l : List Stage), (∃ l', Cat (· = p) authSteps l' ∧ l = st :: l') →
      Cat (· = st :: p) authSteps l := by
    rintro st p l ⟨l', ⟨_, l2, rfl, h, rfl⟩, rfl⟩
    exact ⟨_, l2, rfl, h, rfl⟩
  have rest : ∀ q : Q, Tr (attSys W I Q R O E) (do
      let auth ← astep .resolveAuth .nothing noVal (resolveAuth env)
      let q ← authenticate env q auth
      transmit env i q) (.request q)
      (Straight authSteps (fun (x : Q × R) v => v = .response x.2) failed) := by
    intro q
    refine (Tr.step (L := fun l => ∃ auth : Bool, l = (if auth then [.getIdentity, .sign]
          else []) ++ [.readAfterSigning, .modifyBeforeTransmit, .readBeforeTransmit, .send])
        (fun h => by cases h) (fun auth => ?_) ⟨_, false, rfl⟩).mono fun o l v hs => hs.weaken ?_
    · refine (Tr.seq (L₂ := (· = [.readAfterSigning, .modifyBeforeTransmit, .readBeforeTransmit,
        .send])) (tr_authenticate env q auth) (fun q v hv => ?_) ⟨_, rfl⟩).mono
        fun o l v hs => hs.weaken ?_
      · subst hv
        exact tr_transmit env i q
      · rintro l ⟨l1, l2, ⟨b, rfl⟩, rfl, rfl⟩
        exact ⟨b, rfl⟩
    · rintro l ⟨l', ⟨b, rfl⟩, rfl⟩
      exact ⟨b, rfl⟩
  unfold attemptRequest
  refine (Tr.step (L := Cat (· = [.resolveEndpoint, .setEndpoint, .modifyBeforeSigning,
    .readBeforeSigning]) authSteps) (fun _ => rfl) (fun _ => ?_) (hcat _)).mono
      fun o l v hs => hs.weaken ?_
  · refine (Tr.step (L := Cat (· = [.setEndpoint, .modifyBeforeSigning, .readBeforeSigning])
      authSteps) (fun h => by cases h) (fun n => ?_) (hcat _)).mono
        fun o l v hs => hs.weaken (hcons _ _)
    refine (Tr.step (L := Cat (· = [.modifyBeforeSigning, .readBeforeSigning]) authSteps)
        (fun _ => rfl) (fun q => ?_) (hcat _)).mono fun o l v hs => hs.weaken (hcons _ _)
    refine Tr.cur ?_ (hcat _)
    refine (Tr.step (L := Cat (· = [.readBeforeSigning]) authSteps)
      (fun _ => rfl) (fun q => ?_) (hcat _)).mono fun o l v hs => hs.weaken (hcons _ _)
    refine Tr.cur ?_ (hcat _)
    refine (Tr.step (fun _ => rfl) (fun _ => rest q) hne).mono fun o l v hs => hs.weaken ?_
    rintro l ⟨l', h, rfl⟩
    exact ⟨_, _, rfl, h, rfl⟩
  · rintro l ⟨l', ⟨_, _, rfl, ⟨b, rfl⟩, rfl⟩, rfl⟩
    exact ⟨b, by simp⟩

theorem tr_attemptResponse (env : Env W I Q R O E T N K P D) (i : I) (q : Q) (r : R) :
    Tr (attSys W I Q R O E) (attemptResponse env i q r) (.response r)
      (Straight (· = responseSteps) (fun c v => v = .outcome c.response) failed) := by
  unfold attemptResponse
  refine (Tr.step (L := (· = [.modifyBeforeDeserialization, .readBeforeDeserialization,
    .deserialize, .readAfterDeserialization])) (fun _ => rfl) (fun _ => ?_) ⟨_, rfl⟩).mono
    fun o l v hs => hs.weaken ?_
  · refine (Tr.step (L := (· = [.readBeforeDeserialization,
      .deserialize, .readAfterDeserialization])) (fun _ => rfl) (fun r => ?_) ⟨_, rfl⟩).mono
      fun o l v hs => hs.weaken ?_
    · refine (Tr.step (L := (· = [.deserialize, .readAfterDeserialization])) (fun _ => rfl)
        (fun _ => ?_) ⟨_, rfl⟩).mono fun o l v hs => hs.weaken ?_
      · refine (Tr.step (L := (· = [.readAfterDeserialization])) (fun _ => rfl)
          (fun o => ?_) ⟨_, rfl⟩).mono fun o l v hs => hs.weaken ?_
        · refine (Tr.step (L := (· = [])) (fun _ => rfl)
            (fun o => ?_) ⟨_, rfl⟩).mono fun o l v hs => hs.weaken ?_
          · exact Tr.seqPure rfl
          · rintro l ⟨l', rfl, rfl⟩; rfl
        · rintro l ⟨l', rfl, rfl⟩; rfl
      · rintro l ⟨l', rfl, rfl⟩; rfl
    · rintro l ⟨l', rfl, rfl⟩; rfl
  · rintro l ⟨l', rfl, rfl⟩; rfl

/-- What a finished or interrupted attempt looks like. -/
def AttemptPost : Out E (OutCtx I Q R O E) → List Stage → Val I Q R O E → Prop
  | .ok c, l, v => IsAttempt l ∧ v = .outcome c.response
  | .raised _, _, _ => False
  | .aborted, l, _ => l ≠ [] ∧ ∃ l', IsAttempt l' ∧ l <+: l'

/-- What completion adds. -/
def EndPost (st₁ st₂ : Stage) :
    Out E (OutCtx I Q R O E) → List Stage → Val I Q R O E → Prop
  | .ok c, l, v => l = [st₁, st₂] ∧ v = .outcome c.response
  | .raised _, _, _ => False
  | .aborted, l, _ => l <+: [st₁, st₂]

theorem prefix_single {l : List Stage} {st : Stage} (h1 : l ≠ [])
    (h2 : ∃ l', l' = [st] ∧ l <+: l') : l = [st] := by
  obtain ⟨l', rfl, h⟩ := h2
  rcases l with _ | ⟨a, l⟩
  · exact absurd rfl h1
  · simp only [List.cons_prefix_cons, List.prefix_nil] at h
    rw [h.1, h.2]

theorem tr_finalizeAttempt (env : Env W I Q R O E T N K P D) (c : OutCtx I Q R O E) :
    Tr (attSys W I Q R O E) (finalizeAttempt env c) (.outcome c.response)
      (EndPost .modifyBeforeAttemptCompletion .readAfterAttempt) := by
  refine Tr.bind (P := fun o l v => match o with
    | .ok r => l = [.modifyBeforeAttemptCompletion] ∧ v = .outcome r
    | .raised _ => False
    | .aborted => l = [.modifyBeforeAttemptCompletion])
    (Tr.catch (tr_astep fun _ => rfl) ?_ ?_ ?_) ?_ ?_ ?_
  · rintro r l v ⟨h1, h2⟩
    exact ⟨h1, h2⟩
  · rintro e l v ⟨h1, h2, h3⟩
    refine Tr.pure _ ⟨?_, h3⟩
    rw [prefix_single h1 h2, List.append_nil]
  · rintro l v ⟨h1, h2⟩
    exact prefix_single h1 h2
  · rintro r l v ⟨rfl, rfl⟩
    refine Tr.catch (P := fun o l v => match o with
      | .ok c => l = [.readAfterAttempt] ∧ v = .outcome c.response
      | .raised e => l = [.readAfterAttempt] ∧ v = .outcome (.error e)
      | .aborted => l = [.readAfterAttempt])
      (Tr.bind (tr_astep fun _ => rfl) ?_ ?_ ?_) ?_ ?_ ?_
    · rintro _ l v ⟨rfl, rfl⟩
      exact Tr.pure _ ⟨rfl, rfl⟩
    · rintro e l v ⟨h1, h2, h3⟩
      exact ⟨prefix_single h1 h2, h3⟩
    · rintro l v ⟨h1, h2⟩
      exact prefix_single h1 h2
    · rintro c l v ⟨rfl, h⟩
      exact ⟨rfl, h⟩
    · rintro e l v ⟨rfl, h⟩
      exact Tr.pure _ ⟨rfl, h⟩
    · rintro l v rfl
      exact List.prefix_rfl
  · rintro e l v h
    exact h.elim
  · rintro l v rfl
    exact ⟨[.readAfterAttempt], rfl⟩

theorem attemptSteps_eq (b : Bool) : attemptSteps b =
    ([.readBeforeAttempt, .resolveEndpoint, .setEndpoint, .modifyBeforeSigning,
    .readBeforeSigning, .resolveAuth] ++ (if b then [.getIdentity, .sign] else []) ++
    [.readAfterSigning, .modifyBeforeTransmit, .readBeforeTransmit, .send]) ++ responseSteps := by
  cases b <;> rfl

theorem attemptSteps_ne (b : Bool) : attemptSteps b ≠ [] := by
  cases b <;> simp [attemptSteps]

theorem tr_handleAttempt (env : Env W I Q R O E T N K P D) (i : I) (q : Q) :
    Tr (attSys W I Q R O E) (handleAttempt env i q) (.request q) AttemptPost := by
  have hsteps : ∀ l, Cat requestSteps (· = responseSteps) l → ∃ b, l = attemptSteps b := by
    rintro l ⟨l1, l2, ⟨b, rfl⟩, rfl, rfl⟩
    exact ⟨b, (attemptSteps_eq b).symm⟩
  refine Tr.bind (P := fun o l v => l ≠ [] ∧ (∃ b, l <+: attemptSteps b) ∧ match o with
    | .ok c => v = .outcome c.response
    | .raised _ => False
    | .aborted => True) (Tr.catch (Tr.seq (L₂ := (· = responseSteps)) (tr_attemptRequest env i q)
      (fun x v hv => hv ▸ tr_attemptResponse env i x.1 x.2) ⟨_, rfl⟩) ?_ ?_ ?_) ?_ ?_ ?_
  · rintro c l v ⟨h1, h2⟩
    obtain ⟨b, rfl⟩ := hsteps l h1
    exact ⟨attemptSteps_ne b, ⟨b, List.prefix_rfl⟩, h2⟩
  · rintro e l v ⟨h1, ⟨l', h2, h3⟩, h4⟩
    obtain ⟨b, rfl⟩ := hsteps l' h2
    intro s
    refine ⟨[], by simp, trivial, ?_, ⟨b, ?_⟩, h4⟩
    · simpa using h1
    · simpa using h3
  · rintro l v ⟨h1, ⟨l', h2, h3⟩⟩
    obtain ⟨b, rfl⟩ := hsteps l' h2
    exact ⟨h1, ⟨b, h3⟩, trivial⟩
  · rintro c l v ⟨h1, ⟨b, h2⟩, rfl⟩
    refine (tr_finalizeAttempt env c).mono ?_
    intro o l' v' ho
    cases o with
    | ok c' => exact ⟨⟨b, l, h1, h2, by rw [ho.1]; rfl⟩, ho.2⟩
    | raised e => exact ho
    | aborted =>
      exact ⟨by simp [h1], l ++ attemptEnd, ⟨b, l, h1, h2, rfl⟩,
        (List.prefix_append_right_inj l).2 ho⟩
  · rintro e l v ⟨-, -, h⟩
    exact h.elim
  · rintro l v ⟨h1, ⟨b, h2⟩, -⟩
    exact ⟨h1, attemptSteps b ++ attemptEnd, ⟨b, _, attemptSteps_ne b, List.prefix_rfl, rfl⟩,
      h2.trans (List.prefix_append _ _)⟩

/-! ## Executions -/

theorem tr_runAttempt {ire : E → Bool} (env : Env W I Q R O E T N K P D) (i : I) (q : Q)
    (r : Reg I Q R O E) (hr : r.start = .request q) :
    Tr (execSys b W I Q R O ire) (runAttempt q (handleAttempt env i q)) r fun o l r' =>
      r'.start = r.start ∧ AttemptPost o l r'.cur := by
  intro s
  obtain ⟨t, h1, h2, h3⟩ := tr_handleAttempt env i q { w := s.w, trace := [], cur := q }
  have h1' : (handleAttempt env i q { w := s.w, trace := [], cur := q }).2.trace = t := h1
  have e : t.flatMap (attSys W I Q R O E).stages = t.map Ev.stage := by
    rw [List.map_eq_flatMap]; rfl
  refine ⟨[.attempt q t], ?_, ⟨⟨hr.symm, (flow_iff _ _).1 h2⟩, trivial⟩, rfl, ?_⟩
  · simp only [runAttempt, execSys, h1']
  · simp only [List.flatMap_cons, List.flatMap_nil, List.append_nil, List.foldl_cons,
      List.foldl_nil]
    rw [e] at h3
    exact h3

/-- What the loop does. -/
def LoopPost (L : List Stage → Prop) :
    Out E (OutCtx I Q R O E) → List Stage → Reg I Q R O E → Prop
  | .ok c, l, r => L l ∧ r.cur = .outcome c.response
  | .raised e, l, r => L l ∧ r.cur = .outcome (.error e)
  | .aborted, l, _ => ∃ l', L l' ∧ l <+: l'

theorem isAttempt_exists : ∃ l, IsAttempt l :=
  ⟨_, false, [.readBeforeAttempt], by simp, ⟨_, rfl⟩, rfl⟩

theorem rounds_exists : ∃ l, Rounds l := ⟨_, .pauseFailed⟩

theorem tr_afterFailure (env : Env W I Q R O E T N K P D) (q : Q) (t : T) (e : E)
    (again : T → M (ExecS W I Q R O E) E (OutCtx I Q R O E)) (r : Reg I Q R O E)
    (hr : r.start = .request q) (hc : r.cur = .outcome (.error e)) {z a : List Stage}
    (hz : IsPause z) (ha : IsAttempt a)
    (hagain : ∀ t r, r.start = .request q → Tr (execSys b W I Q R O env.isRetryError) (again t) r
      (LoopPost Rounds)) :
    Tr (execSys b W I Q R O env.isRetryError) (afterFailure env q t e again) r
      fun o l r' => LoopPost Rounds o (z ++ a ++ l) r' := by
  refine Tr.bind (P := fun o l r' => match o with
    | .ok _ => l = [.refreshToken] ∧ r' = r
    | .raised e => Rounds (z ++ a ++ l) ∧ r'.cur = .outcome (.error e)
    | .aborted => ∃ l', Rounds l' ∧ z ++ a ++ l <+: l') 
    (Tr.catch (tr_side rfl ⟨hc.symm, e, hc⟩) ?_ ?_ ?_) ?_ ?_ ?_
  · rintro t l r' ⟨rfl, rfl⟩
    exact ⟨rfl, rfl⟩
  · rintro re l r' ⟨rfl, h⟩
    by_cases hre : env.isRetryError re = true
    · rw [if_pos hre]
      simp only [hre, and_self, if_true] at h
      subst h
      by_cases hb : env.backsOff re = true
      · rw [if_pos hb]
        refine Tr.bind (tr_side rfl trivial) ?_ ?_ ?_
        · rintro _ l r' ⟨rfl, rfl⟩
          exact Tr.raise _ ⟨by simpa using Rounds.refusedWithPause hz ha, hc⟩
        · rintro e' l r'' ⟨rfl, rfl⟩
          refine ⟨Rounds.refusedWithPause hz ha, ?_⟩
          simp
        · rintro l r' ⟨rfl, -⟩
          exact ⟨_, Rounds.refusedWithPause hz ha, List.prefix_rfl⟩
      · rw [if_neg hb]
        refine Tr.bind (P := fun o l r'' => o = .ok () ∧ l = [] ∧ r'' = r')
          (Tr.pure _ ⟨rfl, rfl, rfl⟩) ?_ ?_ ?_
        · rintro _ l r' ⟨-, rfl, rfl⟩
          exact Tr.raise _ ⟨by simpa using Rounds.refused hz ha, hc⟩
        · rintro e' l r' ⟨h, -⟩
          cases h
        · rintro l r' ⟨h, -⟩
          cases h
    · rw [if_neg hre]
      refine Tr.raise _ ⟨by simpa using Rounds.refused hz ha, ?_⟩
      rw [h]
      simp [hre]
  · rintro l r' ⟨rfl, -⟩
    exact ⟨_, Rounds.refused hz ha, List.prefix_rfl⟩
  · rintro t' l r' ⟨rfl, rfl⟩
    refine Tr.bind (tr_side rfl hr.symm) ?_ ?_ ?_
    · rintro _ l r' ⟨rfl, rfl⟩
      refine (hagain t' r' hr).mono ?_
      intro o l r'' ho
      cases o with
      | ok c =>
        refine ⟨?_, ho.2⟩
        have := Rounds.again hz ha ho.1
        simpa using this
      | raised e =>
        refine ⟨?_, ho.2⟩
        have := Rounds.again hz ha ho.1
        simpa using this
      | aborted =>
        obtain ⟨l', hl', hp⟩ := ho
        refine ⟨_, Rounds.again hz ha hl', ?_⟩
        simp only [List.append_assoc, List.cons_append, List.nil_append,
          List.prefix_append_right_inj, List.cons_prefix_cons, true_and]
        exact hp
    · rintro e' l r'' ⟨rfl, rfl⟩
      refine ⟨Rounds.rewindFailed hz ha, ?_⟩
      simp
    · rintro l r' ⟨rfl, -⟩
      exact ⟨_, Rounds.rewindFailed hz ha, List.prefix_rfl⟩
  · rintro e l r' h
    exact h
  · rintro l r' h
    exact h

theorem tr_retryLoop (env : Env W I Q R O E T N K P D) (i : I) (q : Q) (fuel : Nat) :
    ∀ (t : T) (r : Reg I Q R O E), r.start = .request q →
      Tr (execSys b W I Q R O env.isRetryError) (retryLoop env i q fuel t) r (LoopPost Rounds) := by
  induction fuel with
  | zero =>
    intro t r hr s
    obtain ⟨l, hl⟩ := rounds_exists
    refine ⟨[], by simp [retryLoop], trivial, ⟨l, hl, ?_⟩⟩
    simp
  | succ fuel ih =>
    intro t r hr
    have body : ∀ z, IsPause z → Tr (execSys b W I Q R O env.isRetryError)
        (M.bind (runAttempt q (handleAttempt env i q)) fun c =>
          match c.response with
          | .error e => afterFailure env q t e (retryLoop env i q fuel)
          | .ok _ =>
            M.bind (xstep .recordSuccess .nothing noVal (env.recordSuccess t)) fun _ => M.pure c) r
        (fun o l r' => LoopPost Rounds o (z ++ l) r') := by
      intro z hz
      refine Tr.bind (tr_runAttempt env i q r hr) ?_ ?_ ?_
      · rintro c l r' ⟨h1, h2, h3⟩
        cases hc : c.response with
        | error e =>
          rw [hc] at h3
          simp only
          exact (tr_afterFailure env q t e _ r' (h1.trans hr) h3 hz h2 ih).mono
            fun o l' r'' ho => by rw [← List.append_assoc]; exact ho
        | ok o =>
          simp only
          refine Tr.bind (tr_side rfl ⟨o, by rw [h3, hc]⟩) ?_ ?_ ?_
          · rintro _ l' r'' ⟨rfl, rfl⟩
            refine Tr.pure _ ⟨?_, h3⟩
            simpa using Rounds.success hz h2
          · rintro e l' r'' ⟨rfl, rfl⟩
            refine ⟨by simpa using Rounds.success hz h2, ?_⟩
            simp
          · rintro l' r'' ⟨rfl, -⟩
            exact ⟨_, by simpa using Rounds.success hz h2, List.prefix_rfl⟩
      · rintro e l r' ⟨h1, h2⟩
        exact h2.elim
      · rintro l r' ⟨h1, h2, l', h3, h4⟩
        exact ⟨_, Rounds.success hz h3, by
          rw [List.append_assoc]
          exact (List.prefix_append_right_inj z).2 (h4.trans (List.prefix_append _ _))⟩
    simp only [retryLoop]
    by_cases hd : env.hasDelay t = true
    · rw [if_pos hd]
      refine Tr.bind (tr_side rfl trivial) ?_ ?_ ?_
      · rintro _ l r' ⟨rfl, rfl⟩
        exact body [.sleep] (Or.inr rfl)
      · rintro e l r' ⟨rfl, rfl⟩
        refine ⟨.pauseFailed, ?_⟩
        simp
      · rintro l r' ⟨rfl, -⟩
        exact ⟨_, .pauseFailed, List.prefix_rfl⟩
    · rw [if_neg hd]
      refine Tr.bind (P := fun o l r' => o = .ok () ∧ l = [] ∧ r' = r)
        (Tr.pure _ ⟨rfl, rfl, rfl⟩) ?_ ?_ ?_
      · rintro _ l r' ⟨-, rfl, rfl⟩
        exact body [] (Or.inl rfl)
      · rintro e' l r' ⟨h, -⟩
        cases h
      · rintro l r' ⟨h, -⟩
        cases h

theorem tr_retry (env : Env W I Q R O E T N K P D) (fuel : Nat) (i : I) (q : Q)
    (r : Reg I Q R O E) (hr : r.start = .request q) :
    Tr (execSys b W I Q R O env.isRetryError) (retry env fuel i q) r
      (LoopPost (IsLoop env.retryable)) := by
  simp only [retry]
  by_cases h : env.retryable = true
  · simp only [h, if_true]
    refine Tr.bind (tr_side rfl trivial) ?_ ?_ ?_
    · rintro t l r' ⟨rfl, rfl⟩
      refine (tr_retryLoop env i q fuel t r' hr).mono ?_
      intro o l r'' ho
      cases o with
      | ok c => exact ⟨Or.inr ⟨l, ho.1, rfl⟩, ho.2⟩
      | raised e => exact ⟨Or.inr ⟨l, ho.1, rfl⟩, ho.2⟩
      | aborted =>
        obtain ⟨l', h1, h2⟩ := ho
        exact ⟨_, Or.inr ⟨l', h1, rfl⟩, by simpa using h2⟩
    · rintro e l r' ⟨rfl, rfl⟩
      refine ⟨Or.inl rfl, ?_⟩
      simp
    · rintro l r' ⟨rfl, -⟩
      exact ⟨_, Or.inl rfl, List.prefix_rfl⟩
  · rw [if_neg h]
    simp only [Bool.not_eq_true] at h
    simp only [h]
    refine (tr_runAttempt env i q r hr).mono ?_
    rintro o l r' ⟨h1, h2⟩
    cases o with
    | ok c => exact ⟨h2.1, h2.2⟩
    | raised e => exact h2.elim
    | aborted => exact h2.2

theorem Tr.xstep {α β : Type} {ire : E → Bool} {st : Stage} {arg : Val I Q R O E}
    {val : α → Val I Q R O E} {m : M W E α} {f : α → M (ExecS W I Q R O E) E β} {r : Reg I Q R O E}
    {L : List Stage → Prop} {Kf : β → Reg I Q R O E → Prop} (hs : st.isSide = false)
    (h : (st = .serialize → b = true) → arg = r.cur)
    (hf : ∀ a, (∃ w, (m w).1 = .ok a) → Tr (execSys b W I Q R O ire) (f a)
      ⟨if st.replaces then val a else r.cur, if st.replaces then val a else r.cur⟩
      (Straight L Kf xfailed)) (hne : ∃ l, L l) :
    Tr (execSys b W I Q R O ire) (xstep st arg val m >>= f) r
      (Straight (fun l => ∃ l', L l' ∧ l = st :: l') Kf xfailed) := by
  refine (Tr.seq (tr_xstep hs h) (fun a v' hv => hv.2 ▸ hf a hv.1) hne).mono ?_
  intro o l v' hs
  refine hs.weaken ?_
  rintro l ⟨l1, l2, rfl, h2, rfl⟩
  exact ⟨l2, h2, rfl⟩

def prepareSteps : List Stage :=
  [.readBeforeExecution, .modifyBeforeSerialization, .readBeforeSerialization, .serialize]

/-- The hook that may replace the input returns it unchanged. -/
def UnchangedInput (env : Env W I Q R O E T N K P D) : Prop :=
  ∀ w i, (env.hooks.modifyBeforeSerialization env.input w).1 = .ok i → i = env.input

theorem tr_prepare (env : Env W I Q R O E T N K P D) (r : Reg I Q R O E)
    (hr : r.cur = .input env.input) (hb : b = true → UnchangedInput env) :
    Tr (execSys b W I Q R O env.isRetryError) (prepare env) r
      (Straight (· = prepareSteps) (fun x r' => r' = ⟨.request x.2, .request x.2⟩) xfailed) := by
  unfold prepare
  refine (Tr.xstep (st := .readBeforeExecution)
    (L := (· = [.modifyBeforeSerialization, .readBeforeSerialization, .serialize]))
    rfl (fun _ => hr.symm) (fun _ _ => ?_) ⟨_, rfl⟩).mono fun o l v hs => hs.weaken ?_
  · refine (Tr.xstep (st := .modifyBeforeSerialization) (r := ⟨r.cur, r.cur⟩)
      (L := (· = [.readBeforeSerialization, .serialize]))
      rfl (fun _ => hr.symm) (fun i hi => ?_) ⟨_, rfl⟩).mono fun o l v hs => hs.weaken ?_
    · refine (Tr.xstep (st := .readBeforeSerialization) (r := ⟨.input i, .input i⟩) (L := (· = [.serialize]))
        rfl (fun _ => rfl) (fun _ _ => ?_) ⟨_, rfl⟩).mono fun o l v hs => hs.weaken ?_
      · refine (Tr.xstep (st := .serialize) (r := ⟨.input i, .input i⟩) (L := (· = [])) rfl (fun h => ?_) (fun _ _ => ?_)
          ⟨_, rfl⟩).mono fun o l v hs => hs.weaken ?_
        · obtain ⟨w, hi⟩ := hi
          rw [hb (h rfl) w i hi]
        · exact Tr.seqPure rfl
        · rintro l ⟨l', rfl, rfl⟩; rfl
      · rintro l ⟨l', rfl, rfl⟩; rfl
    · rintro l ⟨l', rfl, rfl⟩; rfl
  · rintro l ⟨l', rfl, rfl⟩; rfl

/-- From the end of serialization to the end of the loop. -/
def PhasePost (retryable : Bool) : Out E (OutCtx I Q R O E) → List Stage → Reg I Q R O E → Prop :=
  LoopPost fun l => ∃ p loop, p <+: [.readAfterSerialization, .modifyBeforeRetryLoop] ∧
    (loop = [] ∨ p = [.readAfterSerialization, .modifyBeforeRetryLoop] ∧ IsLoop retryable loop) ∧
    l = p ++ loop

theorem tr_transmitPhase (env : Env W I Q R O E T N K P D) (fuel : Nat) (i : I) (q : Q) :
    Tr (execSys b W I Q R O env.isRetryError) (transmitPhase env fuel i q) ⟨.request q, .request q⟩
      (PhasePost env.retryable) := by
  unfold transmitPhase
  refine Tr.bind (tr_xstep rfl fun _ => rfl) ?_ ?_ ?_
  · rintro _ l r ⟨rfl, -, rfl⟩
    refine Tr.bind (tr_xstep rfl fun _ => rfl) ?_ ?_ ?_
    · rintro q' l r ⟨rfl, -, rfl⟩
      refine (tr_retry env fuel i q' _ rfl).mono ?_
      intro o l r ho
      cases o with
      | ok c => exact ⟨⟨_, l, List.prefix_rfl, Or.inr ⟨rfl, ho.1⟩, rfl⟩, ho.2⟩
      | raised e => exact ⟨⟨_, l, List.prefix_rfl, Or.inr ⟨rfl, ho.1⟩, rfl⟩, ho.2⟩
      | aborted =>
        obtain ⟨l', h1, h2⟩ := ho
        exact ⟨_, ⟨_, l', List.prefix_rfl, Or.inr ⟨rfl, h1⟩, rfl⟩,
          (List.prefix_append_right_inj [Stage.readAfterSerialization, .modifyBeforeRetryLoop]).2 h2⟩
    · rintro e l r ⟨h1, ⟨l', rfl, h2⟩, h3⟩
      refine ⟨⟨[.readAfterSerialization] ++ l, [], ?_, Or.inl rfl, by simp⟩, h3⟩
      exact (List.prefix_append_right_inj [Stage.readAfterSerialization]).2 h2
    · rintro l r ⟨h1, ⟨l', rfl, h2⟩⟩
      refine ⟨_, ⟨_, [], List.prefix_rfl, Or.inl rfl, rfl⟩, ?_⟩
      exact (List.prefix_append_right_inj [Stage.readAfterSerialization]).2 h2
  · rintro e l r ⟨h1, ⟨l', rfl, h2⟩, h3⟩
    refine ⟨⟨l, [], h2.trans ⟨[.modifyBeforeRetryLoop], rfl⟩, Or.inl rfl, by simp⟩, h3⟩
  · rintro l r ⟨h1, ⟨l', rfl, h2⟩⟩
    exact ⟨_, ⟨_, [], List.prefix_rfl, Or.inl rfl, rfl⟩, h2.trans ⟨[.modifyBeforeRetryLoop], rfl⟩⟩

/-- Everything before the completion hooks. -/
def BodyLang (retryable : Bool) (l : List Stage) : Prop :=
  ∃ p loop, p ≠ [] ∧ p <+: beforeLoop ∧ (loop = [] ∨ p = beforeLoop ∧ IsLoop retryable loop) ∧
    l = p ++ loop

def BodyPost (retryable : Bool) : Out E (OutCtx I Q R O E) → List Stage → Reg I Q R O E → Prop
  | .ok c, l, r => BodyLang retryable l ∧ r.cur = .outcome c.response
  | .raised _, _, _ => False
  | .aborted, l, _ => ∃ l', BodyLang retryable l' ∧ l <+: l'

theorem tr_handleExecution (env : Env W I Q R O E T N K P D) (fuel : Nat) (r : Reg I Q R O E)
    (hr : r.cur = .input env.input) (hb : b = true → UnchangedInput env) :
    Tr (execSys b W I Q R O env.isRetryError) (handleExecution env fuel) r
      (BodyPost env.retryable) := by
  intro s
  obtain ⟨t, h1, h2, h3⟩ := tr_prepare env r hr hb s
  simp only [handleExecution]
  generalize prepare env s = x at h1 h3
  obtain ⟨o, s'⟩ := x
  simp only at h1 h3
  cases o with
  | raised e =>
    obtain ⟨h4, ⟨l', rfl, h5⟩, h6⟩ := h3
    refine ⟨t, h1, h2, ⟨_, [], h4, h5.trans ⟨[.readAfterSerialization, .modifyBeforeRetryLoop], rfl⟩,
      Or.inl rfl, by simp⟩, h6⟩
  | aborted =>
    obtain ⟨h4, ⟨l', rfl, h5⟩⟩ := h3
    refine ⟨t, h1, h2, beforeLoop, ⟨_, [], by simp [beforeLoop], List.prefix_rfl, Or.inl rfl, by simp⟩,
      h5.trans ⟨[.readAfterSerialization, .modifyBeforeRetryLoop], rfl⟩⟩
  | ok x =>
    obtain ⟨i, q⟩ := x
    obtain ⟨h4, h5⟩ := h3
    simp only at h5 ⊢
    obtain ⟨t', h6, h7, h8⟩ := tr_transmitPhase env fuel i q s'
    have hlang : ∀ l, (∃ p loop, p <+: [.readAfterSerialization, .modifyBeforeRetryLoop] ∧
        (loop = [] ∨ p = [.readAfterSerialization, .modifyBeforeRetryLoop] ∧
          IsLoop env.retryable loop) ∧ l = p ++ loop) →
        BodyLang env.retryable (prepareSteps ++ l) := by
      rintro l ⟨p, loop, hp, hl, rfl⟩
      refine ⟨prepareSteps ++ p, loop, by simp [prepareSteps], ?_, ?_, by simp⟩
      · exact (List.prefix_append_right_inj prepareSteps).2 hp
      · rcases hl with hl | ⟨rfl, hl⟩
        · exact Or.inl hl
        · exact Or.inr ⟨rfl, hl⟩
    generalize transmitPhase env fuel i q s' = y at h6 h8
    obtain ⟨o, s''⟩ := y
    simp only at h6 h8
    have htr : (execSys b W I Q R O env.isRetryError).tr s'' =
        (execSys b W I Q R O env.isRetryError).tr s ++ (t ++ t') := by
      rw [h6, h1, List.append_assoc]
    have hch : (execSys b W I Q R O env.isRetryError).Chained r (t ++ t') := by
      rw [Sys.chained_append, h5]; exact ⟨h2, h7⟩
    have hst : (t ++ t').flatMap (execSys b W I Q R O env.isRetryError).stages =
        prepareSteps ++ t'.flatMap (execSys b W I Q R O env.isRetryError).stages := by
      rw [List.flatMap_append, h4]
    have hv : (t ++ t').foldl (execSys b W I Q R O env.isRetryError).after r =
        t'.foldl (execSys b W I Q R O env.isRetryError).after ⟨.request q, .request q⟩ := by
      rw [List.foldl_append, h5]
    cases o with
    | ok c =>
      refine ⟨t ++ t', htr, hch, ?_⟩
      rw [hst, hv]
      exact ⟨hlang _ h8.1, h8.2⟩
    | raised e =>
      refine ⟨t ++ t', htr, hch, ?_⟩
      rw [hst, hv]
      exact ⟨hlang _ h8.1, h8.2⟩
    | aborted =>
      refine ⟨t ++ t', htr, hch, ?_⟩
      rw [hst]
      obtain ⟨l', h9, h10⟩ := h8
      exact ⟨_, hlang _ h9, (List.prefix_append_right_inj prepareSteps).2 h10⟩

end Verif.Pipeline

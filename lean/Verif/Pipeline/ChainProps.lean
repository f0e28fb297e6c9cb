import Verif.Pipeline.Spec

/-! # C20, C21: the interceptor chain -/

set_option autoImplicit false

namespace Verif.Pipeline

variable {W I Q R O E C V : Type}

/-! ## C20: modify hooks -/

/-- C20 is false: an interceptor that adds one to the request, registered before one that overrides
nothing, has no effect.  The documented composition adds one.  (Transport requests are numbers.) -/
theorem C20_modification_lost_fails :
    ∃ is : List (Interceptor Unit Nat Nat Nat Nat String), ∃ c : ReqCtx Nat Nat,
      (chain is).modifyBeforeSigning c () = (.ok c.treq, ()) ∧
      composed (fun c q => { c with treq := q }) (is.map (·.modifyBeforeSigning)) c c.treq () =
        (.ok (c.treq + 1), ()) :=
  ⟨[{ Interceptor.default Unit Nat Nat Nat Nat String with
      modifyBeforeSigning := fun c => M.pure (c.treq + 1) }, Interceptor.default ..], ⟨0, 5⟩,
    rfl, rfl⟩

/-- C20 is false: two interceptors that each change the request; only the second change arrives. -/
theorem C20_two_modifications_fails :
    ∃ is : List (Interceptor Unit Nat (List Nat) Nat Nat String), ∃ c : ReqCtx Nat (List Nat),
      (chain is).modifyBeforeTransmit c () = (.ok [2], ()) ∧
      composed (fun c q => { c with treq := q }) (is.map (·.modifyBeforeTransmit)) c c.treq () =
        (.ok [1, 2], ()) :=
  ⟨[{ Interceptor.default Unit Nat (List Nat) Nat Nat String with
      modifyBeforeTransmit := fun c => M.pure (c.treq ++ [1]) },
    { Interceptor.default Unit Nat (List Nat) Nat Nat String with
      modifyBeforeTransmit := fun c => M.pure (c.treq ++ [2]) }], ⟨0, []⟩, rfl, rfl⟩

/-- C20 is false of `modify_before_completion`: whatever the interceptors' hooks of that name do,
they are not called. -/
theorem C20_modify_before_completion_never_called_fails (is : List (Interceptor W I Q R O E))
    (f : Interceptor W I Q R O E → OutCtx I Q R O E → M W E (Except E O)) :
    (chain (is.map fun i => { i with modifyBeforeCompletion := f i })).modifyBeforeCompletion =
      (chain is).modifyBeforeCompletion := by
  simp only [chain, List.map_map]
  rfl

/-- Hooks that leave the message alone. -/
def Passive (get : C → V) (h : C → M W E V) : Prop := ∀ c, h c = M.pure (get c)

theorem bind_pure_left {S α β : Type} (a : α) (f : α → M S E β) : M.bind (M.pure a) f = f a := rfl

theorem bind_pure_right {S α : Type} (m : M S E α) : M.bind m M.pure = m := by
  funext s
  simp only [M.bind, M.pure]
  generalize m s = x
  obtain ⟨o, s'⟩ := x
  cases o <;> rfl

theorem composed_passive (get : C → V) (put : C → V → C) (hput : ∀ c v, get (put c v) = v)
    (hs : List (C → M W E V)) (h : ∀ g ∈ hs, Passive get g) (c : C) (v : V) :
    composed put hs c v = M.pure v := by
  induction hs generalizing v with
  | nil => rfl
  | cons g gs ih =>
    simp only [composed, h g (by simp) (put c v), hput, bind_pure_left]
    exact ih (fun g' hg => h g' (by simp [hg])) v

/-- C20 as far as it holds, for the shape all modify hooks share: if no interceptor but the last
registered one overrides the hook, the chain computes the documented composition.  Missing: any
interceptor registered after one that modifies. -/
theorem chainModify_last (get : C → V) (put : C → V → C) (hget : ∀ c v, get (put c v) = v)
    (hput : ∀ c, put c (get c) = c) (hs : List (C → M W E V)) (h : C → M W E V)
    (hp : ∀ g ∈ hs, Passive get g) (c : C) (v : V) :
    chainModify (hs ++ [h]) c v = h c ∧
      composed put (hs ++ [h]) c (get c) = h c := by
  constructor
  · induction hs generalizing v with
    | nil => exact bind_pure_right (h c)
    | cons g gs ih =>
      simp only [List.cons_append, chainModify, hp g (by simp) c, bind_pure_left]
      exact ih (fun g' hg => hp g' (by simp [hg])) _
  · induction hs with
    | nil =>
      simp only [List.nil_append, composed, hput]
      exact bind_pure_right (h c)
    | cons g gs ih =>
      simp only [List.cons_append, composed, hp g (by simp) _, bind_pure_left, hget]
      exact ih fun g' hg => hp g' (by simp [hg])

/-- C20, partial: only the last registered interceptor overrides a modify hook.  Then every modify
hook of the chain is the documented composition (`modify_before_completion` excepted, which never
calls its hooks). -/
theorem C20_only_last_modifies_partial (is : List (Interceptor W I Q R O E))
    (j : Interceptor W I Q R O E)
    (hd : ∀ i ∈ is, Passive id i.modifyBeforeSerialization ∧
      Passive ReqCtx.treq i.modifyBeforeRetryLoop ∧ Passive ReqCtx.treq i.modifyBeforeSigning ∧
      Passive ReqCtx.treq i.modifyBeforeTransmit ∧
      Passive RespCtx.tresp i.modifyBeforeDeserialization ∧
      Passive OutCtx.response i.modifyBeforeAttemptCompletion) :
    (∀ i, (chain (is ++ [j])).modifyBeforeSerialization i =
      composed (fun _ v => v) ((is ++ [j]).map (·.modifyBeforeSerialization)) i i) ∧
    (∀ c, (chain (is ++ [j])).modifyBeforeRetryLoop c =
      composed (fun c v => { c with treq := v }) ((is ++ [j]).map (·.modifyBeforeRetryLoop)) c c.treq) ∧
    (∀ c, (chain (is ++ [j])).modifyBeforeSigning c =
      composed (fun c v => { c with treq := v }) ((is ++ [j]).map (·.modifyBeforeSigning)) c c.treq) ∧
    (∀ c, (chain (is ++ [j])).modifyBeforeTransmit c =
      composed (fun c v => { c with treq := v }) ((is ++ [j]).map (·.modifyBeforeTransmit)) c c.treq) ∧
    (∀ c, (chain (is ++ [j])).modifyBeforeDeserialization c =
      composed (fun c v => { c with tresp := v }) ((is ++ [j]).map (·.modifyBeforeDeserialization)) c
        c.tresp) ∧
    (∀ c, (chain (is ++ [j])).modifyBeforeAttemptCompletion c =
      composed (fun c v => { c with response := v })
        ((is ++ [j]).map (·.modifyBeforeAttemptCompletion)) c c.response) := by
  refine ⟨fun i => ?_, fun c => ?_, fun c => ?_, fun c => ?_, fun c => ?_, fun c => ?_⟩ <;>
    simp only [chain, List.map_append, List.map_cons, List.map_nil]
  · have := chainModify_last id (fun _ v => v) (fun _ _ => rfl) (fun _ => rfl)
      (is.map (·.modifyBeforeSerialization)) j.modifyBeforeSerialization
      (by simpa using fun i hi => (hd i hi).1) i i
    exact this.1.trans this.2.symm
  · have := chainModify_last ReqCtx.treq (fun c v => { c with treq := v }) (fun _ _ => rfl)
      (fun _ => rfl) (is.map (·.modifyBeforeRetryLoop)) j.modifyBeforeRetryLoop
      (by simpa using fun i hi => (hd i hi).2.1) c c.treq
    exact this.1.trans this.2.symm
  · have := chainModify_last ReqCtx.treq (fun c v => { c with treq := v }) (fun _ _ => rfl)
      (fun _ => rfl) (is.map (·.modifyBeforeSigning)) j.modifyBeforeSigning
      (by simpa using fun i hi => (hd i hi).2.2.1) c c.treq
    exact this.1.trans this.2.symm
  · have := chainModify_last ReqCtx.treq (fun c v => { c with treq := v }) (fun _ _ => rfl)
      (fun _ => rfl) (is.map (·.modifyBeforeTransmit)) j.modifyBeforeTransmit
      (by simpa using fun i hi => (hd i hi).2.2.2.1) c c.treq
    exact this.1.trans this.2.symm
  · have := chainModify_last RespCtx.tresp (fun c v => { c with tresp := v }) (fun _ _ => rfl)
      (fun _ => rfl) (is.map (·.modifyBeforeDeserialization)) j.modifyBeforeDeserialization
      (by simpa using fun i hi => (hd i hi).2.2.2.2.1) c c.tresp
    exact this.1.trans this.2.symm
  · have := chainModify_last OutCtx.response (fun c v => { c with response := v }) (fun _ _ => rfl)
      (fun _ => rfl) (is.map (·.modifyBeforeAttemptCompletion)) j.modifyBeforeAttemptCompletion
      (by simpa using fun i hi => (hd i hi).2.2.2.2.2) c c.response
    exact this.1.trans this.2.symm

/-- The hypothesis is met by two interceptors that override nothing and one that overrides all. -/
example : ∃ is : List (Interceptor Unit Nat Nat Nat Nat String), is.length = 2 ∧
    ∀ i ∈ is, Passive id i.modifyBeforeSerialization ∧
      Passive ReqCtx.treq i.modifyBeforeRetryLoop ∧ Passive ReqCtx.treq i.modifyBeforeSigning ∧
      Passive ReqCtx.treq i.modifyBeforeTransmit ∧
      Passive RespCtx.tresp i.modifyBeforeDeserialization ∧
      Passive OutCtx.response i.modifyBeforeAttemptCompletion :=
  ⟨[Interceptor.default .., Interceptor.default ..], rfl, by
    intro i hi
    have : i = Interceptor.default .. := by simpa using hi
    subst this
    exact ⟨fun _ => rfl, fun _ => rfl, fun _ => rfl, fun _ => rfl, fun _ => rfl, fun _ => rfl⟩⟩

/-- What the code does instead, for pure hooks: whatever the others compute, the value is what the
last registered hook makes of the original context. -/
theorem C20_last_wins (fs : List (C → V)) (f : C → V) (c : C) (v : V) :
    chainModify ((fs ++ [f]).map fun f c => (M.pure (f c) : M W E V)) c v = M.pure (f c) := by
  induction fs generalizing v with
  | nil => rfl
  | cons g gs ih =>
    simp only [List.cons_append, List.map_cons, chainModify, bind_pure_left]
    exact ih _

/-! ## C21: read hooks -/

/-- C21 is false: the first interceptor raises in `read_before_execution` and the second one's hook
does not run (the world is the list of hooks that ran). -/
theorem C21_read_before_execution_fails :
    ∃ is : List (Interceptor (List Nat) Nat Nat Nat Nat String), is.length = 2 ∧
      (chain is).readBeforeExecution 0 [] = (.raised "first", [1]) ∧
      (∀ i ∈ is, ∃ k, ∀ w, (i.readBeforeExecution 0 w).2 = w ++ [k]) :=
  ⟨[{ Interceptor.default (List Nat) Nat Nat Nat Nat String with
      readBeforeExecution := fun _ w => (.raised "first", w ++ [1]) },
    { Interceptor.default (List Nat) Nat Nat Nat Nat String with
      readBeforeExecution := fun _ w => (.raised "second", w ++ [2]) }], rfl, rfl, by
    intro i hi
    simp only [List.mem_cons, List.not_mem_nil, or_false] at hi
    rcases hi with rfl | rfl
    · exact ⟨1, fun _ => rfl⟩
    · exact ⟨2, fun _ => rfl⟩⟩

/-- The same for `read_before_attempt` and `read_after_attempt`. -/
theorem C21_read_attempt_hooks_fail_fails :
    ∃ is : List (Interceptor (List Nat) Nat Nat Nat Nat String), is.length = 2 ∧
      (∀ c, (chain is).readBeforeAttempt c [] = (.raised "first", [1])) ∧
      (∀ c, (chain is).readAfterAttempt c [] = (.raised "first", [1])) ∧
      (∀ i ∈ is, ∃ k, ∀ c w, (i.readBeforeAttempt c w).2 = w ++ [k]) ∧
      (∀ i ∈ is, ∃ k, ∀ c w, (i.readAfterAttempt c w).2 = w ++ [k]) :=
  ⟨[{ Interceptor.default (List Nat) Nat Nat Nat Nat String with
      readBeforeAttempt := fun _ w => (.raised "first", w ++ [1]),
      readAfterAttempt := fun _ w => (.raised "first", w ++ [1]) },
    { Interceptor.default (List Nat) Nat Nat Nat Nat String with
      readBeforeAttempt := fun _ w => (.raised "second", w ++ [2]),
      readAfterAttempt := fun _ w => (.raised "second", w ++ [2]) }],
    rfl, fun _ => rfl, fun _ => rfl, by
    intro i hi
    simp only [List.mem_cons, List.not_mem_nil, or_false] at hi
    rcases hi with rfl | rfl
    · exact ⟨1, fun _ _ => rfl⟩
    · exact ⟨2, fun _ _ => rfl⟩, by
    intro i hi
    simp only [List.mem_cons, List.not_mem_nil, or_false] at hi
    rcases hi with rfl | rfl
    · exact ⟨1, fun _ _ => rfl⟩
    · exact ⟨2, fun _ _ => rfl⟩⟩

theorem AllRan.length {fail : C → E → C} {hs : List (C → M W E Unit)} {c : C} {w w' : W}
    {es : List (Option E)} (h : AllRan fail hs c w es w') : es.length = hs.length := by
  induction h with
  | nil => rfl
  | ok _ _ ih => simp [ih]
  | raised _ _ ih => simp [ih]

theorem lastError_cons_none (es : List (Option E)) : lastError (none :: es) = lastError es := rfl

theorem chainReadAfterExecution_spec (hs : List (OutCtx I Q R O E → M W E Unit)) :
    ∀ (c : OutCtx I Q R O E) (ex : Option E) (w w' : W) (o : Out E Unit),
      chainReadAfterExecution hs c ex w = (o, w') → o ≠ .aborted →
      ∃ es, AllRan (fun c e => { c with response := .error e }) hs c w es w' ∧
        o = lastError (ex :: es) := by
  induction hs with
  | nil =>
    intro c ex w w' o h _
    cases ex with
    | none => cases h; exact ⟨[], .nil c w, rfl⟩
    | some e => cases h; exact ⟨[], .nil c w, rfl⟩
  | cons g gs ih =>
    intro c ex w w' o h ho
    simp only [chainReadAfterExecution] at h
    rcases hg : g c w with ⟨og, wg⟩
    rw [hg] at h
    cases og with
    | ok u =>
      obtain ⟨es, h1, h2⟩ := ih c ex wg w' o h ho
      refine ⟨none :: es, .ok hg h1, h2.trans ?_⟩
      cases ex <;> rfl
    | raised e =>
      obtain ⟨es, h1, h2⟩ := ih _ (some e) wg w' o h ho
      refine ⟨some e :: es, .raised hg h1, h2.trans ?_⟩
      cases ex with
      | none => rfl
      | some e' => simp [lastError, List.getLast?_cons]
    | aborted => cases h; exact absurd rfl ho

/-- C21 for `read_after_execution`: unless the call is cut off, every interceptor's hook runs, in
registration order, whatever the others raise, and the last error raised wins. -/
theorem C21_read_after_execution_partial (is : List (Interceptor W I Q R O E))
    (c : OutCtx I Q R O E) (w w' : W) (o : Out E Unit)
    (h : (chain is).readAfterExecution c w = (o, w')) (ho : o ≠ .aborted) :
    ∃ es, AllRan (fun c e => { c with response := .error e }) (is.map (·.readAfterExecution)) c w
      es w' ∧ es.length = is.length ∧ o = lastError es := by
  obtain ⟨es, h1, h2⟩ := chainReadAfterExecution_spec _ c none w w' o h ho
  exact ⟨es, h1, by simpa using h1.length, h2⟩

/-- Two hooks raise; both run and the second error is reported. -/
example : (chain [{ Interceptor.default (List Nat) Nat Nat Nat Nat String with
      readAfterExecution := fun _ w => (.raised "first", w ++ [1]) },
    { Interceptor.default (List Nat) Nat Nat Nat Nat String with
      readAfterExecution := fun _ w => (.raised "second", w ++ [2]) },
    Interceptor.default ..]).readAfterExecution ⟨0, .ok 3, none, none⟩ [] =
      (.raised "second", [1, 2]) := rfl

theorem chainRead_spec (hs : List (C → M W E Unit)) (c : C) :
    ∀ (w w' : W) (o : Out E Unit), chainRead hs c w = (o, w') →
      match o with
      | .ok _ => AllRan (fun c _ => c) hs c w (hs.map fun _ => none) w'
      | .raised e => ∃ pre h post w₁, hs = pre ++ h :: post ∧
          AllRan (fun c _ => c) pre c w (pre.map fun _ => none) w₁ ∧ h c w₁ = (.raised e, w')
      | .aborted => ∃ pre h post w₁, hs = pre ++ h :: post ∧
          AllRan (fun c _ => c) pre c w (pre.map fun _ => none) w₁ ∧ h c w₁ = (.aborted, w') := by
  induction hs with
  | nil =>
    intro w w' o h
    cases h
    exact .nil c w
  | cons g gs ih =>
    intro w w' o h
    simp only [chainRead, M.bind] at h
    rcases hg : g c w with ⟨og, wg⟩
    rw [hg] at h
    cases og with
    | ok u =>
      have h1 := ih wg w' o h
      cases o with
      | ok u => exact .ok hg h1
      | raised e =>
        obtain ⟨pre, h', post, w₁, rfl, h2, h3⟩ := h1
        exact ⟨g :: pre, h', post, w₁, rfl, .ok hg h2, h3⟩
      | aborted =>
        obtain ⟨pre, h', post, w₁, rfl, h2, h3⟩ := h1
        exact ⟨g :: pre, h', post, w₁, rfl, .ok hg h2, h3⟩
    | raised e => cases h; exact ⟨[], g, gs, w, rfl, .nil c w, hg⟩
    | aborted => cases h; exact ⟨[], g, gs, w, rfl, .nil c w, hg⟩

/-- C21 for the other read hooks, partial: the hooks run in registration order; if none raises all
run; if one raises, the ones before it have run and its error is reported.  Missing: the hooks after
it do not run (see `C21_read_before_execution_fails`). -/
theorem C21_read_before_execution_partial (is : List (Interceptor W I Q R O E)) (i : I)
    (w w' : W) (o : Out E Unit) (h : (chain is).readBeforeExecution i w = (o, w')) :
    match o with
    | .ok _ => AllRan (fun c _ => c) (is.map (·.readBeforeExecution)) i w (is.map fun _ => none) w'
    | .raised e => ∃ pre j post w₁, is = pre ++ j :: post ∧
        AllRan (fun c _ => c) (pre.map (·.readBeforeExecution)) i w (pre.map fun _ => none) w₁ ∧
        j.readBeforeExecution i w₁ = (.raised e, w')
    | .aborted => True := by
  have h1 := chainRead_spec _ i w w' o h
  cases o with
  | ok u => simpa [List.map_map, Function.comp_def] using h1
  | aborted => trivial
  | raised e =>
    obtain ⟨pre, g, post, w₁, h2, h3, h4⟩ := h1
    obtain ⟨pre', rest, rfl, rfl, h5⟩ := List.map_eq_append_iff.1 h2
    obtain ⟨j, post', rfl, rfl, rfl⟩ := List.map_eq_cons_iff.1 h5
    exact ⟨pre', j, post', w₁, rfl, by simpa [List.map_map, Function.comp_def] using h3, h4⟩

end Verif.Pipeline

import Verif.Provider.Progress

/-!
# The provider: theorems

C18 (safety) holds for every schedule of any number of producers and consumers.  C19 (a call in
progress completes when the consumer keeps reading) is false of the code as soon as a flush runs
beside a write, or enough writers are concurrent, or two consumers read; it is proved for one
producer and one consumer.
-/

set_option autoImplicit false

namespace Verif.Provider

variable {α : Type}

/-! ## C18 -/

/-- C18: at every moment what readers have received is an initial part of what was accepted, in
the same order and without duplicates or gaps; and a call ends at most once. -/
theorem C18_fifo {initial : Option α} {m : Nat} {s₀ : St α} (h : init initial m = some s₀)
    (acts : List (Act α)) :
    (s₀.run acts).delivered <+: initial.toList ++ (s₀.run acts).accepted ∧
      ((s₀.run acts).log.map Prod.fst).Nodup := by
  obtain ⟨l, hb, -⟩ := (init_buf h).run (init_wf h) acts
  refine ⟨⟨(s₀.run acts).data ++ l, ?_⟩, ((init_wf h).run acts).lnodup⟩
  rw [hb.split]
  simp

/-- C18: at most `max_buffered_chunks` accepted chunks are waiting to be read, as long as nobody
abandoned buffered data. -/
theorem C18_bounded {initial : Option α} {m : Nat} {s₀ : St α} (h : init initial m = some s₀)
    (acts : List (Act α)) (hn : NoAbandon acts) :
    (initial.toList ++ (s₀.run acts).accepted).length ≤ (s₀.run acts).delivered.length + m := by
  obtain ⟨l, hb, hl⟩ := (init_buf h).run (init_wf h) acts
  rw [hb.split, hl hn]
  have hm : ∀ (xs : List (Act α)) (s : St α), (s.run xs).maxChunks = s.maxChunks := by
    intro xs
    induction xs with
    | nil => intro s; rfl
    | cons a xs ih =>
      intro s
      have e : s.run (a :: xs) = (s.step a).run xs := rfl
      rw [e, ih]
      have hcont : ∀ (s : St α) i c, (s.cont i c).maxChunks = s.maxChunks := by
        intro s i c
        cases c with
        | write d =>
          simp only [St.cont, St.contWrite]
          split
          · split <;> rfl
          · rfl
        | flush => simp only [St.cont, St.contFlush]; split <;> rfl
        | close f =>
          cases f
          · rfl
          · simp only [St.cont, St.contClose]; split <;> rfl
        | read =>
          simp only [St.cont, St.contRead]
          split
          · rfl
          · split <;> rfl
      cases a with
      | call c =>
        cases c with
        | write d =>
          simp only [St.step, St.start]; split
          · rfl
          · exact hcont _ _ (.write d)
        | flush =>
          simp only [St.step, St.start]; split
          · rfl
          · exact hcont { s with calls := s.calls ++ [.flush], flushing := true } _ .flush
        | close f =>
          cases f
          · simp only [St.step, St.start]; split <;> rfl
          · simp only [St.step, St.start]; split
            · rfl
            · exact hcont { s with calls := s.calls ++ [.close true], closing := true } _ (.close true)
        | read => exact hcont _ _ .read
      | resume i =>
        simp only [St.step, St.resume]
        split
        · split
          · exact hcont { s with waiters := s.waiters.erase (i, true) } _ _
          · rfl
        · rfl
  have h1 := hb.bound
  rw [hm] at h1
  have h2 : s₀.maxChunks = m := by
    simp only [init] at h
    split at h
    · simp at h
    · simp only [Option.some.injEq] at h
      rw [← h]
  simp only [List.length_append, List.length_nil]
  omega

/-- C18: nothing is accepted once `close` has been called, whatever is still running. -/
theorem C18_nothing_accepted_after_close {initial : Option α} {m : Nat} {s₀ : St α}
    (h : init initial m = some s₀) (pre post : List (Act α)) (f : Bool) :
    (s₀.run (pre ++ .call (.close f) :: post)).accepted = (s₀.run pre).accepted := by
  have hwf := (init_wf h).run pre
  have e : s₀.run (pre ++ .call (.close f) :: post) =
      ((s₀.run pre).step (.call (.close f))).run post := by
    rw [run_append]; rfl
  rw [e]
  exact (Shutting.run (Shutting.start hwf (.close f) (Or.inr ⟨⟨f, rfl⟩, rfl⟩)) (hwf.start _) post).acc

/-- How a task can end, and what that says about the provider. -/
structure Honest (s : St α) : Prop where
  stop : ∀ i, (i, .stop) ∈ s.log → s.closed = true
  err : ∀ i, (i, .err) ∈ s.log → s.closed = true ∨ s.closing = true
  asked : s.closed = true ∨ s.closing = true → ∃ f, Call.close f ∈ s.calls
  fit : ∀ i r, (i, r) ∈ s.log → (r = .stop ∨ ∃ c, r = .item c) → s.calls[i]? = some .read
  fitErr : ∀ i, (i, Res.err) ∈ s.log → ∃ c, s.calls[i]? = some (.write c)

theorem Honest.finish {s : St α} (h : Honest s) {i : Nat} {r : Res α}
    (h1 : r = .stop → s.closed = true) (h2 : r = .err → s.closed = true ∨ s.closing = true)
    (h3 : (r = .stop ∨ ∃ c, r = .item c) → s.calls[i]? = some .read)
    (h4 : r = .err → ∃ c, s.calls[i]? = some (.write c)) : Honest (s.finish i r) := by
  constructor
  · intro j hj
    simp only [St.finish, List.mem_append, List.mem_singleton, Prod.mk.injEq] at hj
    rcases hj with hj | ⟨-, hj⟩
    · exact h.stop j hj
    · exact h1 hj.symm
  · intro j hj
    simp only [St.finish, List.mem_append, List.mem_singleton, Prod.mk.injEq] at hj
    rcases hj with hj | ⟨-, hj⟩
    · exact h.err j hj
    · exact h2 hj.symm
  · exact h.asked
  · intro j r' hj
    simp only [St.finish, List.mem_append, List.mem_singleton, Prod.mk.injEq] at hj ⊢
    rcases hj with hj | ⟨hj1, hj⟩
    · exact h.fit j r' hj
    · rw [hj1, hj]; exact h3
  · intro j hj
    simp only [St.finish, List.mem_append, List.mem_singleton, Prod.mk.injEq] at hj ⊢
    rcases hj with hj | ⟨hj1, hj⟩
    · exact h.fitErr j hj
    · rw [hj1]; exact h4 hj.symm

theorem Honest.cont {s : St α} (h : Honest s) {i : Nat} {c : Call α} (hc : s.calls[i]? = some c) :
    Honest (s.cont i c) := by
  cases c with
  | write d =>
    simp only [St.cont, St.contWrite]
    by_cases h1 : s.canWrite
    · rw [if_pos h1]
      by_cases h2 : (s.closed || s.closing) = true
      · rw [if_pos h2]
        exact Honest.finish (s := s.notify) ⟨h.stop, h.err, h.asked, h.fit, h.fitErr⟩ (by simp)
          (fun _ => show s.closed = true ∨ s.closing = true by simpa using h2) (by simp) fun _ => ⟨d, hc⟩
      · rw [if_neg h2]
        exact Honest.finish (s := St.notify { s with data := s.data ++ [d] })
          ⟨h.stop, h.err, h.asked, h.fit, h.fitErr⟩ (by simp) (by simp) (by simp) (by simp)
    · rw [if_neg h1]
      exact ⟨h.stop, h.err, h.asked, h.fit, h.fitErr⟩
  | flush =>
    simp only [St.cont, St.contFlush]
    split
    · exact Honest.finish (s := { s with flushing := false })
        ⟨h.stop, h.err, h.asked, h.fit, h.fitErr⟩ (by simp) (by simp) (by simp) (by simp)
    · exact ⟨h.stop, h.err, h.asked, h.fit, h.fitErr⟩
  | close f =>
    cases f with
    | false => exact h
    | true =>
      simp only [St.cont, St.contClose]
      split
      · refine Honest.finish (s := St.notifyAll { s with closed := true, closing := false }) ?_
          (by simp) (by simp) (by simp) (by simp)
        exact ⟨fun _ _ => rfl, fun _ _ => Or.inl rfl, fun _ => ⟨true, List.mem_of_getElem? hc⟩, h.fit,
          h.fitErr⟩
      · exact ⟨h.stop, h.err, h.asked, h.fit, h.fitErr⟩
  | read =>
    simp only [St.cont, St.contRead]
    by_cases h1 : s.closed
    · rw [if_pos h1]
      exact h.finish (fun _ => h1) (by simp) (fun _ => hc) (by simp)
    · rw [if_neg h1]
      split
      · exact ⟨h.stop, h.err, h.asked, h.fit, h.fitErr⟩
      · rename_i d ds _
        exact Honest.finish (s := St.notify { s with data := ds })
          ⟨h.stop, h.err, h.asked, h.fit, h.fitErr⟩ (by simp) (by simp) (fun _ => hc) (by simp)

theorem Honest.step {s : St α} (h : Honest s) (hwf : WF s) (a : Act α) : Honest (s.step a) := by
  refine step_cases (P := Honest) hwf ?_ ?_ ?_
  · intro i _ _
    exact h
  · intro i c _ hi hc
    exact Honest.cont (s := { s with waiters := s.waiters.erase (i, true) })
      ⟨h.stop, h.err, h.asked, h.fit, h.fitErr⟩ hc
  · intro c _
    have hc : (s.calls ++ [c])[s.calls.length]? = some c := by simp
    have hp : Honest { s with calls := s.calls ++ [c] } := by
      refine ⟨h.stop, h.err, ?_, ?_, ?_⟩
      · intro hs
        obtain ⟨f, hf⟩ := h.asked hs
        exact ⟨f, List.mem_append_left _ hf⟩
      · intro i r hi hr
        show (s.calls ++ [c])[i]? = _
        rw [List.getElem?_append_left (hwf.lbound i (List.mem_map.2 ⟨_, hi, rfl⟩))]
        exact h.fit i r hi hr
      · intro i hi
        show ∃ d, (s.calls ++ [c])[i]? = _
        rw [List.getElem?_append_left (hwf.lbound i (List.mem_map.2 ⟨_, hi, rfl⟩))]
        exact h.fitErr i hi
    cases c with
    | write d =>
      simp only [St.start]
      by_cases h1 : s.closed
      · rw [if_pos h1]
        exact hp.finish (by simp) (fun _ => Or.inl h1) (by simp) fun _ => ⟨d, hc⟩
      · rw [if_neg h1]; exact hp.cont (c := .write d) hc
    | flush =>
      simp only [St.start]
      by_cases h1 : s.closed
      · rw [if_pos h1]; exact hp.finish (by simp) (by simp) (by simp) (by simp)
      · rw [if_neg h1]
        exact Honest.cont (c := .flush)
          (s := { s with calls := s.calls ++ [.flush], flushing := true })
          ⟨hp.stop, hp.err, hp.asked, hp.fit, hp.fitErr⟩ hc
    | close f =>
      have hm : Call.close f ∈ s.calls ++ [Call.close f] := by simp
      cases f with
      | true =>
        simp only [St.start]
        by_cases h1 : s.closed
        · rw [if_pos h1]; exact hp.finish (by simp) (by simp) (by simp) (by simp)
        · rw [if_neg h1]
          exact Honest.cont (c := .close true)
            (s := { s with calls := s.calls ++ [.close true], closing := true })
            ⟨hp.stop, fun _ _ => Or.inr rfl, fun _ => ⟨true, hm⟩, hp.fit, hp.fitErr⟩ hc
      | false =>
        simp only [St.start]
        by_cases h1 : s.closed
        · rw [if_pos h1]; exact hp.finish (by simp) (by simp) (by simp) (by simp)
        · rw [if_neg h1]
          exact Honest.finish (s := St.notifyAll { s with calls := s.calls ++ [.close false], data := [], closed := true, closing := false })
            ⟨fun _ _ => rfl, fun _ _ => Or.inl rfl, fun _ => ⟨false, hm⟩, hp.fit, hp.fitErr⟩
            (by simp) (by simp) (by simp) (by simp)
    | read =>
      simp only [St.start]
      exact hp.cont (c := .read) hc

theorem honest_run {s : St α} (h : Honest s) (hwf : WF s) (acts : List (Act α)) :
    Honest (s.run acts) := by
  induction acts generalizing s with
  | nil => exact h
  | cons a acts ih => exact ih (h.step hwf a) (hwf.step a)

theorem init_honest {initial : Option α} {m : Nat} {s₀ : St α} (h : init initial m = some s₀) :
    Honest s₀ := by
  simp only [init] at h
  split at h
  · simp at h
  · simp only [Option.some.injEq] at h
    subst h
    constructor <;> simp

/-- C18: the iteration ends only when everything accepted has been delivered, unless somebody
abandoned the buffered data. -/
theorem C18_end_means_complete {initial : Option α} {m : Nat} {s₀ : St α}
    (h : init initial m = some s₀) (acts : List (Act α)) (hn : NoAbandon acts) {i : Nat}
    (hi : (i, Res.stop) ∈ (s₀.run acts).log) :
    (s₀.run acts).delivered = initial.toList ++ (s₀.run acts).accepted := by
  obtain ⟨l, hb, hl⟩ := (init_buf h).run (init_wf h) acts
  have hc := (honest_run (init_honest h) (init_wf h) acts).stop i hi
  rw [hb.split, hl hn, hb.closedEmpty hc]
  simp

/-- C18: a write is refused, and an iteration ended, only if somebody called `close`; reads never
raise an error. -/
theorem C18_refused_only_when_closing {initial : Option α} {m : Nat} {s₀ : St α}
    (h : init initial m = some s₀) (acts : List (Act α)) {i : Nat} {r : Res α}
    (hr : r = .err ∨ r = .stop) (hi : (i, r) ∈ (s₀.run acts).log) :
    (∃ f, Call.close f ∈ (s₀.run acts).calls) ∧
      (r = .err → ∃ c, (s₀.run acts).calls[i]? = some (.write c)) := by
  have hh := honest_run (init_honest h) (init_wf h) acts
  refine ⟨hh.asked ?_, ?_⟩
  · rcases hr with rfl | rfl
    · exact hh.err i hi
    · exact Or.inl (hh.stop i hi)
  · rintro rfl
    exact hh.fitErr i hi

/-- Which step can end a `flush` or a `close(flush=True)`. -/
theorem drained_step {start lost : List α} {s : St α} (hb : Buf start lost s) (hwf : WF s)
    {a : Act α} {i : Nat} {r : Res α} {c : Call α} (hcd : c = .flush ∨ c = .close true)
    (hold : (i, r) ∉ s.log) (hnew : (i, r) ∈ (s.step a).log)
    (hc : (s.step a).calls[i]? = some c) : (s.step a).data = [] := by
  have hcont : ∀ (s : St α) (lost : List α) (k : Nat) (d : Call α), Buf start lost s →
      s.calls[k]? = some d → (i, r) ∉ s.log → (i, r) ∈ (s.cont k d).log →
      (s.cont k d).calls[i]? = some c → (s.cont k d).data = [] := by
    intro s lost k d hb hk hold hnew hc
    have hfin : ∀ (t : St α) (x : Res α), t.log = s.log → t.calls = s.calls →
        (i, r) ∈ (t.finish k x).log → (t.finish k x).calls[i]? = some c → d = c := by
      intro t x ht hcs hm hcc
      simp only [St.finish, List.mem_append, List.mem_singleton, Prod.mk.injEq, ht] at hm
      rcases hm with hm | ⟨hm, -⟩
      · exact absurd hm hold
      · change t.calls[i]? = some c at hcc
        rw [hm, hcs, hk] at hcc
        cases hcc
        rfl
    cases d with
    | write e =>
      exfalso
      simp only [St.cont, St.contWrite] at hnew hc
      split at hnew
      · split at hnew
        · rename_i h1 h2
          rw [if_pos h1, if_pos h2] at hc
          rcases hcd with rfl | rfl <;> cases hfin s.notify .err rfl rfl hnew hc
        · rename_i h1 h2
          rw [if_pos h1, if_neg h2] at hc
          rcases hcd with rfl | rfl <;>
            cases hfin (St.notify { s with data := s.data ++ [e] }) .ok rfl rfl hnew hc
      · exact hold hnew
    | flush =>
      simp only [St.cont, St.contFlush] at hnew ⊢
      split at hnew
      · rename_i h1
        rw [if_pos h1]
        exact List.isEmpty_iff.1 h1
      · exact absurd hnew hold
    | close f =>
      cases f with
      | false => exact absurd hnew hold
      | true =>
        simp only [St.cont, St.contClose] at hnew ⊢
        split at hnew
        · rename_i h1
          rw [if_pos h1]
          exact List.isEmpty_iff.1 h1
        · exact absurd hnew hold
    | read =>
      exfalso
      simp only [St.cont, St.contRead] at hnew hc
      split at hnew
      · rename_i h1
        rw [if_pos h1] at hc
        rcases hcd with rfl | rfl <;> cases hfin s .stop rfl rfl hnew hc
      · rename_i h1
        rw [if_neg h1] at hc
        cases hd : s.data with
        | nil =>
          simp only [hd] at hnew
          exact hold hnew
        | cons e es =>
          simp only [hd] at hnew hc
          rcases hcd with rfl | rfl <;>
            cases hfin (St.notify { s with data := es }) (.item e) rfl rfl hnew hc
  revert hnew hc
  refine step_cases (P := fun s' => (i, r) ∈ s'.log → s'.calls[i]? = some c → s'.data = []) hwf ?_ ?_ ?_
  · intro j _ _ hn
    exact absurd hn hold
  · intro j d _ hj hd hn hc
    exact hcont { s with waiters := s.waiters.erase (j, true) } lost j d
      (hb.congr rfl rfl rfl rfl rfl) hd hold hn hc
  · intro d _ hn hc
    have hb' := hb.push hwf d
    have hd : (s.calls ++ [d])[s.calls.length]? = some d := by simp
    cases d with
    | write e =>
      by_cases h1 : s.closed
      · simp only [St.start, h1, if_true]
        exact hb.closedEmpty h1
      · have e1 : s.start (.write e) =
            St.cont { s with calls := s.calls ++ [.write e] } s.calls.length (.write e) := by
          simp only [St.start]
          rw [if_neg h1]
          rfl
        rw [e1] at hn hc ⊢
        exact hcont _ _ _ (.write e) hb' hd hold hn hc
    | flush =>
      by_cases h1 : s.closed
      · simp only [St.start, h1, if_true]
        exact hb.closedEmpty h1
      · have e1 : s.start .flush =
            St.cont { s with calls := s.calls ++ [.flush], flushing := true } s.calls.length .flush := by
          simp only [St.start]
          rw [if_neg h1]
          rfl
        rw [e1] at hn hc ⊢
        exact hcont _ _ _ .flush (hb'.congr rfl rfl rfl rfl rfl) hd hold hn hc
    | close f =>
      cases f with
      | true =>
        by_cases h1 : s.closed
        · simp only [St.start, h1, if_true]
          exact hb.closedEmpty h1
        · have e1 : s.start (.close true) = St.cont
              { s with calls := s.calls ++ [.close true], closing := true } s.calls.length
              (.close true) := by
            simp only [St.start]
            rw [if_neg h1]
            rfl
          rw [e1] at hn hc ⊢
          exact hcont _ _ _ (.close true) (hb'.congr rfl rfl rfl rfl rfl) hd hold hn hc
      | false =>
        by_cases h1 : s.closed
        · simp only [St.start, h1, if_true]
          exact hb.closedEmpty h1
        · simp only [St.start, h1, Bool.false_eq_true, if_false]
          rfl
    | read =>
      exact hcont _ _ _ .read hb' hd hold hn hc

/-- C18: when a `flush` or a flushing `close` returns, everything accepted until then has been
delivered (unless somebody abandoned the buffered data). -/
theorem C18_flush_means_delivered {initial : Option α} {m : Nat} {s₀ : St α}
    (h : init initial m = some s₀) (pre : List (Act α)) (a : Act α) (hn : NoAbandon (pre ++ [a]))
    {i : Nat} {c : Call α} (hc : c = .flush ∨ c = .close true)
    (hcall : (s₀.run (pre ++ [a])).calls[i]? = some c)
    (hold : ¬ (s₀.run pre).ended i) (hnew : (s₀.run (pre ++ [a])).ended i) :
    (s₀.run (pre ++ [a])).delivered = initial.toList ++ (s₀.run (pre ++ [a])).accepted := by
  obtain ⟨l, hb, hl⟩ := (init_buf h).run (init_wf h) (pre ++ [a])
  obtain ⟨l', hb', -⟩ := (init_buf h).run (init_wf h) pre
  have e : s₀.run (pre ++ [a]) = (s₀.run pre).step a := by rw [run_append]; rfl
  obtain ⟨⟨j, r⟩, hm, hj⟩ := List.mem_map.1 hnew
  simp only at hj
  subst hj
  have hd : (s₀.run (pre ++ [a])).data = [] := by
    rw [e] at hm hcall ⊢
    exact drained_step hb' ((init_wf h).run pre) hc
      (fun hh => hold (List.mem_map.2 ⟨_, hh, rfl⟩)) hm hcall
  rw [hb.split, hl hn, hd]
  simp

/-! ## C19 -/

/-- C19, for one producer and one consumer: a consumer that keeps reading and an event loop that
resumes notified tasks come to rest after a bounded number of steps, and then no write, flush or
close is in progress, and a read in progress is waiting because there is nothing to read and the
provider is open. -/
theorem C19_completes_partial {initial : Option α} {m : Nat} {s₀ : St α}
    (h : init initial m = some s₀) (pre : List (Act α)) (hseq : Sequential s₀ pre) :
    ∃ bound, ∀ acts, UsefulRun (s₀.run pre) acts → acts.length ≤ bound ∧
      ((∀ a, ¬ Useful (s₀.run (pre ++ acts)) a) → ∀ i c, (s₀.run (pre ++ acts)).pending i c →
        c = .read ∧ (s₀.run (pre ++ acts)).data = [] ∧ (s₀.run (pre ++ acts)).closed = false) := by
  have hwf := (init_wf h).run pre
  have hlv := (init_lv h).run (init_wf h) (init_buf h) hseq
  obtain ⟨l, hb, -⟩ := (init_buf h).run (init_wf h) pre
  refine ⟨measure (s₀.run pre), ?_⟩
  intro acts hu
  obtain ⟨h1, h2, h3⟩ := usefulRun_spec hlv hwf hb hu
  refine ⟨by omega, ?_⟩
  intro hstuck i c hp
  rw [run_append] at hstuck hp ⊢
  exact none_pending h2 h3 hstuck hp

/-- The bound is not vacuous: from every such state there is a run to the end. -/
theorem C19_comes_to_rest_partial {initial : Option α} {m : Nat} {s₀ : St α}
    (h : init initial m = some s₀) (pre : List (Act α)) (hseq : Sequential s₀ pre) :
    ∃ acts, UsefulRun (s₀.run pre) acts ∧ ∀ i c, (s₀.run (pre ++ acts)).pending i c → c = .read := by
  have hwf := (init_wf h).run pre
  have hlv := (init_lv h).run (init_wf h) (init_buf h) hseq
  obtain ⟨l, hb, -⟩ := (init_buf h).run (init_wf h) pre
  have key : ∀ (n : Nat) (s : St α) (l : List α), measure s ≤ n → Lv s → WF s →
      Buf initial.toList l s →
      ∃ acts, UsefulRun s acts ∧ ∀ i c, (s.run acts).pending i c → c = .read := by
    intro n
    induction n with
    | zero =>
      intro s l hm h1 h2 h3
      refine ⟨[], trivial, fun i c hp => (none_pending h1 h2 ?_ hp).1⟩
      intro a ha
      have := measure_useful h1 h2 h3.closedEmpty ha
      omega
    | succ n ih =>
      intro s l hm h1 h2 h3
      by_cases hu : ∃ a, Useful s a
      · obtain ⟨a, ha⟩ := hu
        have hlt := measure_useful h1 h2 h3.closedEmpty ha
        obtain ⟨l', h3', -⟩ := h3.step h2 a
        obtain ⟨acts, h4, h5⟩ := ih (s.step a) l' (by omega) (h1.step h2 h3 (useful_seq ha))
          (h2.step a) h3'
        exact ⟨a :: acts, ⟨ha, h4⟩, h5⟩
      · exact ⟨[], trivial, fun i c hp => (none_pending h1 h2 (fun a ha => hu ⟨a, ha⟩) hp).1⟩
  obtain ⟨acts, h1, h2⟩ := key _ _ l (Nat.le_refl _) hlv hwf hb
  exact ⟨acts, h1, by rw [run_append]; exact h2⟩

/-! ### Where it fails -/

/-- Nothing the event loop can do changes the state, yet calls are in progress. -/
def Stuck (s : St α) : Prop := ∀ i, s.resume i = s

theorem stuck_of_idle {s : St α} (h : s.Idle) : Stuck s := by
  intro i
  simp only [St.resume]
  rw [if_neg (h i)]

theorem idle_of {s : St α} (h : s.waiters.all fun w => !w.2) : s.Idle := by
  intro i hi
  have := List.all_eq_true.1 h _ hi
  simp at this

/-- C19 fails: a write made while a flush is in progress is never resumed, although the flush
ended, the buffer is empty and the provider is open: ending a flush notifies nobody.  The consumer,
asking for more, waits for ever as well. -/
theorem C19_write_during_flush_fails :
    ∃ (s₀ : St Nat) (acts : List (Act Nat)), init none 16 = some s₀ ∧
      Stuck (s₀.run acts) ∧ (s₀.run acts).data = [] ∧ (s₀.run acts).closed = false ∧
      (s₀.run acts).flushing = false ∧ (s₀.run acts).ended 1 ∧
      (s₀.run acts).pending 2 (.write 8) ∧ (s₀.run acts).pending 4 .read := by
  refine ⟨{ data := [], maxChunks := 16 },
    [.call (.write 7), .call .flush, .call (.write 8), .call .read, .resume 1, .call .read],
    rfl, stuck_of_idle (idle_of (by decide)), by decide, by decide, by decide, ?_, ?_, ?_⟩ <;>
  simp only [St.pending, St.ended] <;> decide

/-- C19 fails: a flush is starved by a write that was waiting before it. -/
theorem C19_flush_behind_write_fails :
    ∃ (s₀ : St Nat) (acts : List (Act Nat)), init none 1 = some s₀ ∧
      Stuck (s₀.run acts) ∧ (s₀.run acts).data = [] ∧ (s₀.run acts).closed = false ∧
      (s₀.run acts).pending 1 (.write 8) ∧ (s₀.run acts).pending 2 .flush ∧
      (s₀.run acts).pending 4 .read := by
  refine ⟨{ data := [], maxChunks := 1 },
    [.call (.write 7), .call (.write 8), .call .flush, .call .read, .resume 1, .call .read],
    rfl, stuck_of_idle (idle_of (by decide)), by decide, by decide, ?_, ?_, ?_⟩ <;>
  simp only [St.pending, St.ended] <;> decide

/-- C19 fails with several writers and one consumer, without any flush: the writer that appends a
chunk notifies another writer instead of the consumer, so the consumer waits for ever although a
chunk is buffered. -/
theorem C19_concurrent_writers_fails :
    ∃ (s₀ : St Nat) (acts : List (Act Nat)), init none 1 = some s₀ ∧
      Stuck (s₀.run acts) ∧ (s₀.run acts).data = [8] ∧ (s₀.run acts).closed = false ∧
      (s₀.run acts).pending 2 (.write 9) ∧ (s₀.run acts).pending 4 .read := by
  refine ⟨{ data := [], maxChunks := 1 },
    [.call (.write 7), .call (.write 8), .call (.write 9), .call .read, .call .read, .resume 1,
      .resume 2],
    rfl, stuck_of_idle (idle_of (by decide)), by decide, by decide, ?_, ?_⟩ <;>
  simp only [St.pending, St.ended] <;> decide

/-- C19 fails with two consumers: the one that takes the chunk notifies the other consumer instead
of the waiting writer. -/
theorem C19_two_consumers_fails :
    ∃ (s₀ : St Nat) (acts : List (Act Nat)), init none 1 = some s₀ ∧
      Stuck (s₀.run acts) ∧ (s₀.run acts).data = [] ∧ (s₀.run acts).closed = false ∧
      (s₀.run acts).pending 3 (.write 8) ∧ (s₀.run acts).pending 1 .read := by
  refine ⟨{ data := [], maxChunks := 1 },
    [.call .read, .call .read, .call (.write 7), .call (.write 8), .resume 0, .resume 1],
    rfl, stuck_of_idle (idle_of (by decide)), by decide, by decide, ?_, ?_⟩ <;>
  simp only [St.pending, St.ended] <;> decide

/-! ## Cases that meet the hypotheses -/

/-- A producer that writes more than fits, flushes, writes and closes; a consumer that keeps
reading. -/
def session : List (Act Nat) :=
  [.call (.write 1), .call (.write 2), .call .read, .resume 1, .call .flush, .call .read,
   .resume 3, .call (.write 3), .call (.close true), .call .read, .resume 6, .call .read]

def fresh : St Nat := { data := [], maxChunks := 1 }

example : init (none : Option Nat) 1 = some fresh ∧ NoAbandon session ∧
    (fresh.run session).delivered = [1, 2, 3] ∧ (fresh.run session).accepted = [1, 2, 3] ∧
    (8, Res.stop) ∈ (fresh.run session).log := by
  refine ⟨rfl, ?_, by decide, by decide, by decide⟩
  simp only [NoAbandon]
  decide

theorem sequential_cons_iff {s : St Nat} {c : Call Nat} {acts : List (Act Nat)} (hwf : WF s)
    (hb : s.waiters.all fun w => match s.calls[w.1]? with
      | some c' => c'.isRead != c.isRead
      | none => true) (h : Sequential (s.start c) acts) : Sequential s (.call c :: acts) := by
  refine ⟨?_, h⟩
  intro i c' hp
  obtain ⟨h1, h2⟩ := (pending_iff hwf).1 hp
  obtain ⟨w, hw, rfl⟩ := List.mem_map.1 h1
  have := List.all_eq_true.1 hb w hw
  rw [h2] at this
  simpa using this

example : Sequential fresh session := by
  have hwf : ∀ acts, WF (fresh.run acts) := fun acts =>
    (init_wf (initial := none) (m := 1) rfl).run acts
  refine sequential_cons_iff (hwf []) (by decide) ?_
  refine sequential_cons_iff (hwf (session.take 1)) (by decide) ?_
  refine sequential_cons_iff (hwf (session.take 2)) (by decide) ?_
  show Sequential _ _
  refine sequential_cons_iff (hwf (session.take 4)) (by decide) ?_
  refine sequential_cons_iff (hwf (session.take 5)) (by decide) ?_
  show Sequential _ _
  refine sequential_cons_iff (hwf (session.take 7)) (by decide) ?_
  refine sequential_cons_iff (hwf (session.take 8)) (by decide) ?_
  refine sequential_cons_iff (hwf (session.take 9)) (by decide) ?_
  show Sequential _ _
  refine sequential_cons_iff (hwf (session.take 11)) (by decide) ?_
  trivial

example : UsefulRun (fresh.run (session.take 2)) [.call .read, .resume 1] := by
  refine ⟨Or.inr ⟨rfl, ?_, by decide⟩, Or.inl ⟨1, rfl, by decide⟩, trivial⟩
  intro i hp
  have hwf : WF (fresh.run (session.take 2)) := (init_wf (initial := none) (m := 1) rfl).run _
  obtain ⟨h1, h2⟩ := (pending_iff hwf).1 hp
  have e : keys (fresh.run (session.take 2)).waiters = [1] := by decide
  rw [e] at h1
  simp only [List.mem_singleton] at h1
  subst h1
  revert h2
  decide

end Verif.Provider

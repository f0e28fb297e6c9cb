import Verif.Retry.BackoffProps
import Verif.EventStream.Lemmas

/-! # Strategies and requests (C13, C15, C64) -/

set_option autoImplicit false

set_option linter.unusedSimpArgs false

namespace Verif.Retry
open Verif.EventStream Verif.Retry.Spec

/-! ## Granting a retry (C15) -/

/-- The backoff used for an error. -/
def Standard.backoffFor (s : Standard) (e : ErrInfo) : Backoff :=
  if e.throttling then s.throttlingBackoff else s.backoff

theorem refresh_cases (s : Standard) (token : Token) (err : Option ErrInfo) (r : ℚ) :
    (∃ x s', s.refresh token err r = (.error x, s') ∧ s'.quota = s.quota ∧ s'.maxAttempts = s.maxAttempts) ∨
    (∃ e t s', err = some e ∧ e.retrySafe = some true ∧ s.refresh token err r = (.ok t, s') ∧
      t.count = token.count + 1 ∧ (t.count : Int) < s.maxAttempts ∧ t.quota = retryCost e ∧
      retryCost e ≤ s.quota.avail ∧ s'.quota = { s.quota with avail := s.quota.avail - retryCost e } ∧
      s'.maxAttempts = s.maxAttempts ∧
      ∃ d b, (s.backoffFor e).next t.count r = (.ok d, b) ∧ t.delay = boundedDelay d e.retryAfter) := by
  cases err with
  | none => left; exact ⟨_, _, rfl, rfl, rfl⟩
  | some e =>
    unfold Standard.refresh
    simp only
    by_cases hs : e.retrySafe = some true
    · rw [if_pos hs]
      by_cases hm : ((token.count + 1 : Nat) : Int) ≥ s.maxAttempts
      · rw [if_pos hm]; left; exact ⟨_, _, rfl, rfl, rfl⟩
      · rw [if_neg hm]
        rcases ht : e.throttling
        · rcases hb : s.backoff.next (token.count + 1) r with ⟨x | d, b⟩
          · left; simp [ht, hb]
          · by_cases hq : (14 : Int) > s.quota.avail
            · left
              simp [ht, hb, Quota.acquire, cost, if_pos hq]
            · right
              refine ⟨e, ⟨token.count + 1, boundedDelay d e.retryAfter, 14⟩,
                { s with backoff := b, quota := { s.quota with avail := s.quota.avail - 14 } }, rfl, hs,
                by simp [ht, hb, Quota.acquire, cost, if_neg hq],
                rfl, by simp only; omega, by simp [retryCost, ht], by simp only [retryCost, ht]; simpa using hq,
                by simp [retryCost, ht], rfl, d, b, by simpa [Standard.backoffFor, ht] using hb, rfl⟩
        · rcases hb : s.throttlingBackoff.next (token.count + 1) r with ⟨x | d, b⟩
          · left; simp [ht, hb]
          · by_cases hq : (5 : Int) > s.quota.avail
            · left
              simp [ht, hb, Quota.acquire, cost, if_pos hq]
            · right
              refine ⟨e, ⟨token.count + 1, boundedDelay d e.retryAfter, 5⟩,
                { s with throttlingBackoff := b, quota := { s.quota with avail := s.quota.avail - 5 } }, rfl, hs,
                by simp [ht, hb, Quota.acquire, cost, if_neg hq],
                rfl, by simp only; omega, by simp [retryCost, ht], by simp only [retryCost, ht]; simpa using hq,
                by simp [retryCost, ht], rfl, d, b, by simpa [Standard.backoffFor, ht] using hb, rfl⟩
    · rw [if_neg hs]; left; exact ⟨_, _, rfl, rfl, rfl⟩

/-- C15: a retry is granted only if the error says it is safe to retry, attempts remain and the quota
covers the cost; that cost is deducted and recorded in the token. -/
theorem C15_grant_only_if {s s' : Standard} {token t : Token} {err : Option ErrInfo} {r : ℚ}
    (h : s.refresh token err r = (.ok t, s')) :
    ∃ e, err = some e ∧ e.retrySafe = some true ∧ ((token.count + 1 : Nat) : Int) < s.maxAttempts ∧
      retryCost e ≤ s.quota.avail ∧ s'.quota.avail = s.quota.avail - retryCost e ∧
      s'.quota.cap = s.quota.cap ∧ t.quota = retryCost e ∧ t.count = token.count + 1 := by
  rcases refresh_cases s token err r with ⟨x, s'', h', _⟩ | ⟨e, t', s'', he, hs, h', hc, hm, hq, ha, hq', _⟩
  · rw [h'] at h; cases h
  · rw [h'] at h; cases h
    exact ⟨e, he, hs, by rw [← hc]; exact hm, ha, by rw [hq'], by rw [hq'], hq, hc⟩

/-- C15: if the error is safe to retry, attempts remain, the quota covers the cost and the delay can be
computed, a retry is granted. -/
theorem C15_granted_if {s : Standard} {token : Token} {e : ErrInfo} {r : ℚ} (hs : e.retrySafe = some true)
    (hm : ((token.count + 1 : Nat) : Int) < s.maxAttempts) (hq : retryCost e ≤ s.quota.avail)
    (hd : token.count + 1 ≤ 1024) : ∃ t s', s.refresh token (some e) r = (.ok t, s') := by
  unfold Standard.refresh
  simp only
  rw [if_pos hs, if_neg (by omega)]
  unfold retryCost at hq
  rcases ht : e.throttling <;> rw [ht] at hq
  · obtain ⟨d, b, hb⟩ := C14_total (b := s.backoff) (Or.inl hd) r
    have hq : ¬ (14 : Int) > s.quota.avail := by simpa using hq
    simp [hb, Quota.acquire, cost, if_neg hq]
  · obtain ⟨d, b, hb⟩ := C14_total (b := s.throttlingBackoff) (Or.inl hd) r
    have hq : ¬ (5 : Int) > s.quota.avail := by simpa using hq
    simp [hb, Quota.acquire, cost, if_neg hq]

/-- C15: a refused retry costs nothing. -/
theorem C15_refusal_free {s s' : Standard} {token : Token} {err : Option ErrInfo} {r : ℚ} {x : RErr}
    (h : s.refresh token err r = (.error x, s')) : s'.quota = s.quota := by
  rcases refresh_cases s token err r with ⟨x, s'', h', hq, _⟩ | ⟨e, t', s'', he, hs, h', _⟩
  · rw [h'] at h; cases h; exact hq
  · rw [h'] at h; cases h

/-- C15: when capacity is what is missing, the error carries the delay that would have been waited, so
that a long-polling caller can wait before giving up. -/
theorem C15_quota_error_delay {s : Standard} {token : Token} {e : ErrInfo} {r : ℚ}
    (hs : e.retrySafe = some true) (hm : ((token.count + 1 : Nat) : Int) < s.maxAttempts)
    (hq : s.quota.avail < retryCost e) {d : ℚ} {b : Backoff}
    (hd : (s.backoffFor e).next (token.count + 1) r = (.ok d, b)) :
    ∃ s', s.refresh token (some e) r = (.error (.quota (boundedDelay d e.retryAfter)), s') := by
  unfold Standard.refresh
  simp only
  rw [if_pos hs, if_neg (by omega)]
  unfold retryCost at hq
  unfold Standard.backoffFor at hd
  rcases ht : e.throttling <;> rw [ht] at hq hd
  · have hq : (14 : Int) > s.quota.avail := by simpa using hq
    simp only [Bool.false_eq_true, if_false] at hd
    simp [hd, Quota.acquire, cost, if_pos hq]
  · have hq : (5 : Int) > s.quota.avail := by simpa using hq
    simp only [if_true] at hd
    simp [hd, Quota.acquire, cost, if_pos hq]

/-- C15: after a success the amount the last retry cost is given back, one unit if there was no retry,
never beyond the maximum; nothing else changes. -/
theorem C15_success_releases {s : Standard} (hb : s.quota.avail ≤ s.quota.cap) (token : Token)
    (hq : 0 ≤ token.quota) :
    (s.success token).quota =
      { s.quota with avail := min s.quota.cap (s.quota.avail + (if token.quota = 0 then 1 else token.quota)) } := by
  unfold Standard.success Quota.release
  simp only
  split
  · rename_i heq
    rcases hs : s.quota with ⟨c, a⟩
    simp only [hs] at heq ⊢
    subst heq
    congr 1
    split <;> omega
  · rw [min_comm]

/-- C15: the wait before a granted retry is what C14 says: at least the computed backoff, at most five
seconds more. -/
theorem C15_delay {s s' : Standard} {token t : Token} {e : ErrInfo} {r : ℚ}
    (h : s.refresh token (some e) r = (.ok t, s')) :
    ∃ d b, (s.backoffFor e).next (token.count + 1) r = (.ok d, b) ∧ t.delay = boundedDelay d e.retryAfter := by
  rcases refresh_cases s token (some e) r with ⟨x, s'', h', _⟩ |
      ⟨e', t', s'', he, hs, h', hc, hm, hq, ha, hq', _, d, b, hd, hdel⟩
  · rw [h'] at h; cases h
  · rw [h'] at h; cases h; cases he
    exact ⟨d, b, by rw [← hc]; exact hd, hdel⟩

/-! ## Requests on one strategy (C13, C64) -/

/-- What holds of every request. -/
structure SInv (st : Standard) (s : Sys) : Prop where
  maxEq : s.strategy.maxAttempts = st.maxAttempts
  capEq : s.strategy.quota.cap = st.quota.cap
  reqs : ∀ q ∈ s.reqs, q.token.count + 1 = q.attempts ∧ q.slept.length + 1 = q.attempts ∧
    (q.attempts : Int) ≤ max 1 st.maxAttempts ∧ (q.token.quota = 0 ∨ q.token.quota = 5 ∨ q.token.quota = 14)
  bounds : s.strategy.quota.avail ≤ st.quota.cap

theorem sinv_step {st : Standard} {s : Sys} (hi : SInv st s) (a : SAct) : SInv st (sstep s a) := by
  have hset : ∀ (i : Nat) (q' q : Req), q ∈ s.reqs.set i q' → q ∈ s.reqs ∨ q = q' := by
    intro i q' q h
    exact (List.mem_or_eq_of_mem_set h)
  cases a with
  | start =>
    refine ⟨hi.maxEq, hi.capEq, ?_, hi.bounds⟩
    intro q hq
    simp only [sstep, List.mem_append, List.mem_singleton] at hq
    rcases hq with hq | rfl
    · exact hi.reqs q hq
    · exact ⟨rfl, rfl, le_max_left _ _, Or.inl rfl⟩
  | fail i err r =>
    simp only [sstep]
    split
    · exact hi
    · rename_i q hq
      split
      · exact hi
      · have hm := List.mem_of_getElem? hq
        have hr := hi.reqs q hm
        rcases refresh_cases s.strategy q.token err r with ⟨x, s', h', hq', hmx⟩ |
            ⟨e, t, s', he, hs, h', hc, hmax, hcost, hav, hquo, hmx, _⟩
        · rw [h']
          refine ⟨by rw [← hi.maxEq]; exact hmx, by rw [← hi.capEq]; simp [hq'], ?_, by simpa [hq'] using hi.bounds⟩
          intro p hp
          rcases hset _ _ _ hp with hp | rfl
          · exact hi.reqs p hp
          · exact hr
        · rw [h']
          refine ⟨by rw [← hi.maxEq]; exact hmx, by rw [← hi.capEq]; simp [hquo], ?_, ?_⟩
          · intro p hp
            rcases hset _ _ _ hp with hp | rfl
            · exact hi.reqs p hp
            · have hmm := hi.maxEq
              refine ⟨by simp only; omega, by simp only [List.length_append, List.length_singleton]; omega, ?_, ?_⟩
              · simp only; omega
              · simp only [hcost, retryCost]; split <;> simp
          · have := hi.bounds
            simp only [hquo]
            unfold retryCost
            split <;> omega
  | succeed i =>
    simp only [sstep]
    split
    · exact hi
    · rename_i q hq
      split
      · exact hi
      · have hr := hi.reqs q (List.mem_of_getElem? hq)
        have hsucc := C15_success_releases (s := s.strategy) (by rw [hi.capEq]; exact hi.bounds) q.token (by omega)
        refine ⟨hi.maxEq, by rw [← hi.capEq]; simp only [hsucc], ?_, ?_⟩
        · intro p hp
          rcases hset _ _ _ hp with hp | rfl
          · exact hi.reqs p hp
          · exact hr
        · simp only [hsucc]
          rw [← hi.capEq]
          exact min_le_left _ _

theorem srun_sinv {st : Standard} (hq : st.quota.avail ≤ st.quota.cap) (acts : List SAct) :
    SInv st (srun st acts) := by
  have : ∀ (acts : List SAct) (s : Sys), SInv st s → SInv st (acts.foldl sstep s) := by
    intro acts
    induction acts with
    | nil => intro s h; exact h
    | cons a as ih => intro s h; exact ih _ (sinv_step h a)
  exact this acts _ ⟨rfl, rfl, by simp, hq⟩

/-- C13: however requests sharing a strategy interleave and fail, no request makes more than
`max_attempts` attempts (one, if that is less than one), and its token counts its retries. -/
theorem C13_attempts_bounded {st : Standard} (hq : st.quota.avail ≤ st.quota.cap) (acts : List SAct) :
    ∀ q ∈ (srun st acts).reqs, (q.attempts : Int) ≤ max 1 st.maxAttempts ∧ q.token.count = q.attempts - 1 ∧
      q.slept.length = q.attempts - 1 := by
  intro q hm
  have := (srun_sinv hq acts).reqs q hm
  exact ⟨this.2.2.1, by omega, by omega⟩

/-- Requests on the simple strategy: refresh after every error until it fails; the number of attempts. -/
def simpleAttempts : Simple → Token → List (Option ErrInfo × ℚ) → Nat
  | _, _, [] => 1
  | s, t, (err, r) :: es =>
    match s.refresh t err r with
    | (.error _, _) => 1
    | (.ok t', s') => 1 + simpleAttempts s' t' es

theorem simple_refresh_ok {s s' : Simple} {t t' : Token} {err : Option ErrInfo} {r : ℚ}
    (h : s.refresh t err r = (.ok t', s')) :
    t'.count = t.count + 1 ∧ (t'.count : Int) < s.maxAttempts ∧ s'.maxAttempts = s.maxAttempts ∧
      ∃ e, err = some e ∧ e.retrySafe = some true := by
  cases err with
  | none => cases h
  | some e =>
    unfold Simple.refresh at h
    simp only at h
    by_cases hs : e.retrySafe = some true
    · rw [if_pos hs] at h
      by_cases hm : ((t.count + 1 : Nat) : Int) ≥ s.maxAttempts
      · rw [if_pos hm] at h; cases h
      · rw [if_neg hm] at h
        rcases hb : s.backoff.next (t.count + 1) r with ⟨x | d, b⟩ <;> rw [hb] at h <;> cases h
        exact ⟨rfl, by simp only; omega, rfl, e, rfl, hs⟩
    · rw [if_neg hs] at h; cases h

/-- C13: the same for the simple strategy, for every sequence of errors. -/
theorem C13_simple_attempts_bounded (s : Simple) (errors : List (Option ErrInfo × ℚ)) :
    (simpleAttempts s { count := 0, delay := 0 } errors : Int) ≤ max 1 s.maxAttempts := by
  have key : ∀ (errors : List (Option ErrInfo × ℚ)) (s : Simple) (t : Token),
      (t.count + 1 : Int) ≤ max 1 s.maxAttempts →
      (simpleAttempts s t errors + t.count : Int) ≤ max 1 s.maxAttempts := by
    intro errors
    induction errors with
    | nil => intro s t h; simp only [simpleAttempts]; push_cast; omega
    | cons c cs ih =>
      obtain ⟨err, r⟩ := c
      intro s t h
      simp only [simpleAttempts]
      rcases hr : s.refresh t err r with ⟨x | t', s'⟩
      · simp only; push_cast; omega
      · obtain ⟨h1, h2, h3, _⟩ := simple_refresh_ok hr
        have := ih s' t' (by rw [h3]; omega)
        rw [h3] at this
        simp only; push_cast; omega
  have := key errors s { count := 0, delay := 0 } (le_max_left _ _)
  simpa using this

/-- C13 (negative): with a limit of zero attempts there is one. -/
theorem C13_zero_fails (s : Simple) (hs : s.maxAttempts ≤ 0) (errors : List (Option ErrInfo × ℚ)) :
    simpleAttempts s { count := 0, delay := 0 } errors = 1 := by
  have h1 := C13_simple_attempts_bounded s errors
  have h2 : 1 ≤ simpleAttempts s { count := 0, delay := 0 } errors := by
    cases errors with
    | nil => exact le_refl _
    | cons c cs =>
      simp only [simpleAttempts]
      split <;> omega
  omega

/-- C13: retries stop exactly at the limit: with retry-safe errors only, capacity left and `max_attempts`
within what delays can be computed for, the strategy allows all `max_attempts` attempts. -/
theorem C13_limit_reached (s : Simple) (n : Nat) (hn : s.maxAttempts = n) (h1 : 1 ≤ n) (hs : n ≤ 1024)
    (e : ErrInfo) (he : e.retrySafe = some true) (r : ℚ) (k : Nat) (hk : n ≤ k + 1) :
    simpleAttempts s { count := 0, delay := 0 } (List.replicate k (some e, r)) = n := by
  have key : ∀ (k : Nat) (s : Simple) (t : Token), s.maxAttempts = n → t.count < n → n ≤ t.count + k + 1 →
      simpleAttempts s t (List.replicate k (some e, r)) + t.count = n := by
    intro k
    induction k with
    | zero => intro s t _ h1 h2; simp [simpleAttempts]; omega
    | succ k ih =>
      intro s t hmax h1 h2
      simp only [List.replicate_succ, simpleAttempts]
      rcases hr : s.refresh t (some e) r with ⟨x | t', s'⟩
      · simp only
        by_cases hc : t.count + 1 < n
        · exfalso
          unfold Simple.refresh at hr
          simp only at hr
          rw [if_pos he, if_neg (by omega)] at hr
          obtain ⟨d, b, hb⟩ := C14_total (b := s.backoff) (n := t.count + 1) (Or.inl (by omega)) r
          rw [hb] at hr
          cases hr
        · omega
      · obtain ⟨h3, h4, h5, _⟩ := simple_refresh_ok hr
        have := ih s' t' (by rw [h5]; exact hmax) (by omega) (by omega)
        simp only; omega
  have := key k s { count := 0, delay := 0 } hn (by simp only; omega) (by simp only; omega)
  simpa using this

/-! ## Retry storms (C64) -/

/-- Successful requests in a history. -/
def successes (acts : List SAct) : Nat := acts.countP (fun a => match a with | .succeed _ => true | _ => false)

theorem storm {st : Standard} (hq : st.quota.avail ≤ st.quota.cap) (c : Int) (hc : c ≤ 14)
    (P : ErrInfo → Prop) (hP : ∀ e, P e → c ≤ retryCost e) (acts : List SAct)
    (h : ∀ i e r, SAct.fail i (some e) r ∈ acts → P e) :
    c * (srun st acts).granted + (srun st acts).strategy.quota.avail ≤ st.quota.avail + 14 * successes acts := by
  induction acts using snoc_induction with
  | h0 => simp [srun, successes]
  | h1 as a ih =>
    have ih := ih (fun i e r hm => h i e r (by simp [hm]))
    have hi := srun_sinv hq as
    have hs : successes (as ++ [a]) = successes as + (match a with | .succeed _ => 1 | _ => 0) := by
      unfold successes
      rw [List.countP_append]
      cases a <;> simp
    have hrun : srun st (as ++ [a]) = sstep (srun st as) a := by
      unfold srun; rw [List.foldl_append]; rfl
    rw [hs, hrun]
    generalize srun st as = s at *
    cases a with
    | start => simpa [sstep] using ih
    | fail i err r =>
      simp only [sstep, Nat.add_zero]
      split
      · exact ih
      · rename_i q hq'
        split
        · exact ih
        · rcases refresh_cases s.strategy q.token err r with ⟨x, s', h', hqq, hmx⟩ |
            ⟨e, t, s', he, hss, h', hcc, hmax, hcost, hav, hquo, hmx, _⟩
          · rw [h']; simpa [hqq] using ih
          · rw [h']
            have := hP e (h i e r (by simp [he]))
            simp only [hquo]
            push_cast
            rw [mul_add]
            omega
    | succeed i =>
      simp only [sstep]
      split
      · push_cast; omega
      · rename_i q hq'
        split
        · push_cast; omega
        · have hr := hi.reqs q (List.mem_of_getElem? hq')
          have hsucc := C15_success_releases (s := s.strategy) (by rw [hi.capEq]; exact hi.bounds) q.token (by omega)
          simp only [hsucc]
          push_cast
          have : (if q.token.quota = 0 then 1 else q.token.quota) ≤ 14 := by split <;> omega
          omega

theorem avail_nonneg {st : Standard} (h0 : 0 ≤ st.quota.avail) (hq : st.quota.avail ≤ st.quota.cap)
    (acts : List SAct) : 0 ≤ (srun st acts).strategy.quota.avail := by
  induction acts using snoc_induction with
  | h0 => exact h0
  | h1 as a ih =>
    have hi := srun_sinv hq as
    have hrun : srun st (as ++ [a]) = sstep (srun st as) a := by
      unfold srun; rw [List.foldl_append]; rfl
    rw [hrun]
    generalize srun st as = s at *
    cases a with
    | start => exact ih
    | fail i err r =>
      simp only [sstep]
      split
      · exact ih
      · split
        · exact ih
        · rename_i q _ _
          rcases refresh_cases s.strategy q.token err r with ⟨x, s', h', hqq, hmx⟩ |
            ⟨e, t, s', he, hss, h', hcc, hmax, hcost, hav, hquo, hmx, _⟩
          · rw [h']; simpa [hqq] using ih
          · rw [h']; simp only [hquo]; omega
    | succeed i =>
      simp only [sstep]
      split
      · exact ih
      · rename_i q hq'
        split
        · exact ih
        · have hr := hi.reqs q (List.mem_of_getElem? hq')
          have hb := hi.bounds
          rw [← hi.capEq] at hb
          have hsucc := C15_success_releases (s := s.strategy) hb q.token (by omega)
          simp only [hsucc]
          refine le_min (by omega) ?_
          split <;> omega

/-- C64: however many requests share a strategy and however they fail, the retries they are granted
altogether, at five units each, are covered by the capacity the quota began with plus fourteen units per
success. -/
theorem C64_retry_storm_bounded {st : Standard} (h0 : 0 ≤ st.quota.avail) (hq : st.quota.avail ≤ st.quota.cap)
    (acts : List SAct) :
    5 * ((srun st acts).granted : Int) ≤ st.quota.avail + 14 * successes acts := by
  have h := storm hq 5 (by norm_num) (fun _ => True) (fun e _ => by unfold retryCost; split <;> norm_num) acts
    (fun _ _ _ _ => trivial)
  have hn := avail_nonneg h0 hq acts
  omega

/-- C64: with errors that are not throttling, a strategy that nothing succeeds on grants at most
`capacity / 14` retries: 35 for the default quota. -/
theorem C64_dead_service {st : Standard} (hq : st.quota = Quota.init) (acts : List SAct)
    (hs : successes acts = 0) (h : ∀ i e r, SAct.fail i (some e) r ∈ acts → e.throttling = false) :
    (srun st acts).granted ≤ 35 := by
  have hn := avail_nonneg (st := st) (by rw [hq]; decide) (by rw [hq]; exact le_refl _) acts
  have := storm (st := st) (by rw [hq]; exact le_refl _) 14 (le_refl _) (fun e => e.throttling = false)
    (fun e he => by simp [retryCost, he]) acts h
  rw [hs, hq] at this
  simp only [Quota.init] at this
  push_cast at this
  omega

/-! ## Concrete instances -/

def demo : Standard :=
  { backoff := Backoff.init 1 20 .full, throttlingBackoff := Backoff.init 1 20 .full, maxAttempts := 3,
    quota := Quota.init 20 }
def demoErr : ErrInfo := { retrySafe := some true, retryAfter := some 3, throttling := false }
def demoThrottle : ErrInfo := { retrySafe := some true, retryAfter := none, throttling := true }

/-- Two requests on a quota of twenty: the first retries once and drains it, the second is refused one
retry but gets a cheaper one after the first one's success. -/
example :
    let s := srun demo [.start, .start, .fail 0 (some demoErr) (1 / 2), .fail 1 (some demoThrottle) 1,
      .fail 0 (some demoErr) 1, .succeed 1]
    s.granted = 2 ∧ s.strategy.quota.avail = 6 ∧
    s.reqs.map (fun q => (q.attempts, q.slept, q.ended)) = [(2, [3], true), (2, [1], true)] := by
  decide +kernel
example : (Standard.init 3).toOption.isSome ∧ (Standard.init (-1)).toOption.isNone := by decide +kernel
example : simpleAttempts ⟨Backoff.init 1 20 .none, 4⟩ { count := 0, delay := 0 }
    (List.replicate 10 (some demoErr, 0)) = 4 :=
  C13_limit_reached _ 4 rfl (by norm_num) (by norm_num) demoErr rfl 0 10 (by norm_num)

end Verif.Retry

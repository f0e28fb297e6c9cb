import Verif.Retry.Resolver
import Verif.Retry.StrategyProps
import Verif.Retry.BackoffProps

/-!
# The retry strategy of DynamoDB clients

Clients of DynamoDB and DynamoDB Streams have a module with a plugin that their constructor runs on the
configuration (AwsDynamoDbRetryIntegration.java:22-142; ClientGenerator.java:76-87).  The module is a
text of the generator (26-74); this models what it does.
-/

set_option autoImplicit false

namespace Verif.Retry.DynamoDb

open Verif.Retry Verif.Retry.Spec Verif.EventStream

/-! ## Model -/

/-- `config.retry_strategy`: nothing, options (`smithy_core/retries.py:16-24`), a standard strategy, or
an object of another class. -/
inductive Setting
  | nothing
  | options (mode : String) (maxAttempts : Option Int)
  | standard (s : Standard)
  | other (id : Nat)
deriving DecidableEq

/-- `ConfigSource` (`smithy_aws_core/config/types.py:22-28`). -/
inductive Source
  | env
  | profile
  | default
  | override
deriving DecidableEq

/-- The configuration as the plugin sees it.  Configurations without attributes of this name, such as
those that are generated now, have nothing in the place of `mode`, `maxAttempts` and `source`. -/
structure Config where
  strategy : Setting
  /-- `retry_mode`. -/
  mode : Option String
  /-- `max_attempts`. -/
  maxAttempts : Option Int
  /-- `source_of("max_attempts")`, nothing if there is no `source_of`; inside, nothing if the source is
  not known. -/
  source : Option (Option Source)
deriving DecidableEq

/-- `StandardRetryStrategy(max_attempts=…, backoff_strategy=…)` (`smithy_core/aio/retries.py:135-180`). -/
def makeStandard (maxAttempts : Int) (backoff : Backoff) : Except RErr Standard :=
  if maxAttempts < 0 then .error .valueError
  else .ok { backoff, throttlingBackoff := Backoff.init 1 20 .full, maxAttempts, quota := Quota.init }

/-- `ExponentialRetryBackoffStrategy(…)` of the plugin
(AwsDynamoDbRetryIntegration.java:28-29, 68-72).  The number is the float nearest to 0.025. -/
def backoff : Backoff := Backoff.init (rnd (25 / 1000)) 20 .full

/-- The mode and the number of attempts that the plugin goes by
(AwsDynamoDbRetryIntegration.java:44-58). -/
def settings (c : Config) : String × Option Int :=
  match c.strategy with
  | .options mode n => (mode, n)
  | _ =>
    (match c.mode with
      | none => "standard"
      | some m => if m = "" then "standard" else m,
     if c.source = some (some .default) then none else c.maxAttempts)

/-- `dynamodb_retry_plugin` (AwsDynamoDbRetryIntegration.java:36-73). -/
def plugin (c : Config) : Except RErr Config :=
  match c.strategy with
  | .standard _ => .ok c
  | .other _ => .ok c
  | _ =>
    if (settings c).1 ≠ "standard" then .ok c
    else
      match makeStandard ((settings c).2.getD 4) backoff with
      | .error e => .error e
      | .ok s => .ok { c with strategy := .standard s }

/-! ## Specification -/

/-- What the caller has asked for, if it is not a strategy: the mode, and the number of attempts. -/
inductive Asks : Config → String → Option Int → Prop
  /-- Options say so themselves. -/
  | options (mode : String) (n : Option Int) (c : Config) (h : c.strategy = .options mode n) : Asks c mode n
  /-- Else the configuration may; the mode is `standard` if it does not. -/
  | config (c : Config) (mode : String) (n : Option Int) (h : c.strategy = .nothing)
      (hm : c.mode = some mode ∧ mode ≠ "" ∨ (c.mode = none ∨ c.mode = some "") ∧ mode = "standard")
      (hn : n = c.maxAttempts) (hs : c.source ≠ some (some .default)) : Asks c mode n
  /-- A number that is only a default has not been asked for. -/
  | fallback (c : Config) (mode : String) (h : c.strategy = .nothing)
      (hm : c.mode = some mode ∧ mode ≠ "" ∨ (c.mode = none ∨ c.mode = some "") ∧ mode = "standard")
      (hs : c.source = some (some .default)) : Asks c mode none

/-! ## Lemmas -/

theorem settings_of_asks {c : Config} {mode : String} {n : Option Int} (h : Asks c mode n) :
    settings c = (mode, n) ∧ (∀ s, c.strategy ≠ .standard s) ∧ ∀ i, c.strategy ≠ .other i := by
  have hmode : (c.mode = some mode ∧ mode ≠ "" ∨ (c.mode = none ∨ c.mode = some "") ∧ mode = "standard") →
      (match c.mode with
        | none => "standard"
        | some m => if m = "" then "standard" else m) = mode := by
    rintro (⟨hm, hne⟩ | ⟨hm | hm, rfl⟩)
    · rw [hm]; exact if_neg hne
    · rw [hm]
    · rw [hm]; exact if_pos rfl
  cases h with
  | options mode n c h =>
    unfold settings
    rw [h]
    exact ⟨rfl, by simp, by simp⟩
  | config c mode n h hm hn hs =>
    unfold settings
    rw [h]
    refine ⟨?_, by simp, by simp⟩
    show (_, _) = _
    rw [hmode hm, if_neg hs, hn]
  | fallback c mode h hm hs =>
    unfold settings
    rw [h]
    refine ⟨?_, by simp, by simp⟩
    show (_, _) = _
    rw [hmode hm, if_pos hs]

theorem plugin_of_asks {c : Config} {mode : String} {n : Option Int} (h : Asks c mode n) :
    plugin c =
      if mode ≠ "standard" then .ok c
      else
        match makeStandard (n.getD 4) backoff with
        | .error e => .error e
        | .ok s => .ok { c with strategy := .standard s } := by
  obtain ⟨h1, h2, h3⟩ := settings_of_asks h
  unfold plugin
  split
  · rename_i s hs; exact absurd hs (h2 s)
  · rename_i s hs; exact absurd hs (h3 s)
  · rw [h1]

theorem backoff_good : GoodBackoff backoff where
  scale := by
    show 0 ≤ rnd (25 / 1000)
    exact EventStream.rnd_nonneg (by norm_num)
  max := by show (0 : ℚ) ≤ 20; norm_num
  scaleFloat := rnd_isFloat _
  maxFloat := ⟨20, 0, by norm_num, by show (20 : ℚ) = _; norm_num⟩

/-! ## Theorems -/

/-- What is not asked for has DynamoDB's defaults: four attempts, a backoff that begins with 25 ms, grows
to 20 s and has full jitter.  Throttling errors and the quota are as in other clients. -/
theorem C114_defaults (c : Config) (n : Option Int) (h : Asks c "standard" n) (hn : ∀ i, n = some i → 0 ≤ i) :
    ∃ s, plugin c = .ok { c with strategy := .standard s } ∧ s.maxAttempts = n.getD 4 ∧
      s.backoff = Backoff.init (rnd (25 / 1000)) 20 .full ∧
      ∃ d, Standard.init = .ok d ∧ s.throttlingBackoff = d.throttlingBackoff ∧ s.quota = d.quota := by
  rw [plugin_of_asks h, if_neg (by simp), makeStandard, if_neg]
  · exact ⟨_, rfl, rfl, rfl, _, rfl, rfl, rfl⟩
  · cases n with
    | none => decide
    | some i => have := hn i rfl; simp only [Option.getD_some]; omega

/-- A negative number of attempts is refused, as by other clients. -/
theorem C114_negative (c : Config) (i : Int) (h : Asks c "standard" (some i)) (hi : i < 0) :
    plugin c = .error .valueError := by
  rw [plugin_of_asks h, if_neg (by simp), makeStandard, if_pos (by simpa using hi)]

/-- Strategies that were given are kept, and so is everything if another mode is asked for. -/
theorem C114_kept (c : Config) (h : (∃ s, c.strategy = .standard s) ∨ (∃ i, c.strategy = .other i) ∨
    ∃ mode n, Asks c mode n ∧ mode ≠ "standard") : plugin c = .ok c := by
  rcases h with ⟨s, h⟩ | ⟨i, h⟩ | ⟨mode, n, h, hm⟩
  · unfold plugin; rw [h]
  · unfold plugin; rw [h]
  · rw [plugin_of_asks h, if_pos hm]

/-- Every configuration is one or the other. -/
theorem C114_all (c : Config) : (∃ s, c.strategy = .standard s) ∨ (∃ i, c.strategy = .other i) ∨
    ∃ mode n, Asks c mode n := by
  cases h : c.strategy with
  | standard s => exact .inl ⟨s, rfl⟩
  | other i => exact .inr (.inl ⟨i, rfl⟩)
  | options m n => exact .inr (.inr ⟨m, n, .options m n c h⟩)
  | nothing =>
    have hm : ∃ mode, c.mode = some mode ∧ mode ≠ "" ∨
        (c.mode = none ∨ c.mode = some "") ∧ mode = "standard" := by
      cases hc : c.mode with
      | none => exact ⟨_, .inr ⟨.inl rfl, rfl⟩⟩
      | some m =>
        by_cases h0 : m = ""
        · exact ⟨_, .inr ⟨.inr (by rw [h0]), rfl⟩⟩
        · exact ⟨m, .inl ⟨rfl, h0⟩⟩
    obtain ⟨mode, hm⟩ := hm
    by_cases hs : c.source = some (some .default)
    · exact .inr (.inr ⟨mode, none, .fallback c mode h hm hs⟩)
    · exact .inr (.inr ⟨mode, _, .config c mode _ h hm rfl hs⟩)

/-- A configuration used for several clients is not changed again: they have one strategy, and its
quota, in common. -/
theorem C114_once (c c' : Config) (h : plugin c = .ok c') : plugin c' = .ok c' := by
  rcases C114_all c with ⟨s, hs⟩ | ⟨i, hi⟩ | ⟨mode, n, ha⟩
  · rw [C114_kept c (.inl ⟨s, hs⟩)] at h; cases h; exact C114_kept c (.inl ⟨s, hs⟩)
  · rw [C114_kept c (.inr (.inl ⟨i, hi⟩))] at h; cases h; exact C114_kept c (.inr (.inl ⟨i, hi⟩))
  · by_cases hm : mode = "standard"
    · rw [plugin_of_asks ha, if_neg (by simpa using hm)] at h
      split at h
      · cases h
      · cases h; exact C114_kept _ (.inl ⟨_, rfl⟩)
    · have hk := C114_kept c (.inr (.inr ⟨mode, n, ha, hm⟩))
      rw [hk] at h; cases h; exact hk

/-- No request of a client that asks for nothing is attempted more than four times, whatever fails and
however requests overlap. -/
theorem C114_attempts (c c' : Config) (s : Standard) (h : Asks c "standard" none) (hp : plugin c = .ok c')
    (hs : c'.strategy = .standard s) (acts : List SAct) :
    ∀ q ∈ (srun s acts).reqs, q.attempts ≤ 4 := by
  obtain ⟨s', h1, h2, -, d, hd, -, hq⟩ := C114_defaults c none h (by simp)
  rw [h1] at hp
  cases hp
  cases hs
  cases hd
  intro q hm
  have := (C13_attempts_bounded (st := s) (by rw [hq]; exact Int.le_refl _) acts q hm).1
  rw [h2] at this
  have h4 : max 1 ((none : Option Int).getD 4) = 4 := by decide
  rw [h4] at this
  omega

/-- An error that is no throttling error and for which the server asks for no wait, or an error that says
nothing about retries. -/
def Plain : SAct → Prop
  | .fail _ (some e) r => e.throttling = false ∧ e.retryAfter = none ∧ GoodRandom r
  | .fail _ none r => GoodRandom r
  | _ => True

/-- Of a backoff only the last delay changes. -/
def Alike (b b' : Backoff) : Prop := b'.scale = b.scale ∧ b'.max = b.max ∧ b'.jitter = b.jitter

theorem alike_next {b₀ b : Backoff} (h : Alike b₀ b) (n : Nat) (r : ℚ) : Alike b₀ (b.next n r).2 := by
  rcases next_state b n r with h' | ⟨d, -, h'⟩ <;> rw [h'] <;> exact h

theorem alike_refresh {b₀ : Backoff} {s : Standard} (h : Alike b₀ s.backoff) (token : Token)
    (err : Option ErrInfo) (r : ℚ) : Alike b₀ (s.refresh token err r).2.backoff := by
  cases err with
  | none => exact h
  | some e =>
    unfold Standard.refresh
    simp only
    by_cases hs : e.retrySafe = some true
    · rw [if_pos hs]
      by_cases hm : ((token.count + 1 : Nat) : Int) ≥ s.maxAttempts
      · rw [if_pos hm]; exact h
      · rw [if_neg hm]
        rcases ht : e.throttling
        · have hb := alike_next h (token.count + 1) r
          rcases hn : s.backoff.next (token.count + 1) r with ⟨x | d, b⟩ <;> rw [hn] at hb
          · simpa [ht, hn] using hb
          · by_cases hq : (14 : Int) > s.quota.avail <;>
              simpa [ht, hn, Quota.acquire, cost, hq] using hb
        · rcases hn : s.throttlingBackoff.next (token.count + 1) r with ⟨x | d, b⟩
          · simpa [ht, hn] using h
          · by_cases hq : (5 : Int) > s.quota.avail <;>
              simpa [ht, hn, Quota.acquire, cost, hq] using h
    · rw [if_neg hs]; exact h

theorem alike_good {b : Backoff} (h : Alike backoff b) : GoodBackoff b := by
  obtain ⟨h1, h2, -⟩ := h
  have := backoff_good
  exact ⟨h1 ▸ this.scale, h2 ▸ this.max, h1 ▸ this.scaleFloat, h2 ▸ this.maxFloat⟩

/-- What the waits of a request have in common. -/
def Waits (q : Req) : Prop :=
  q.token.count = q.slept.length ∧
    ∀ k d, q.slept[k]? = some d → 0 ≤ d ∧ d ≤ min 20 (rnd (25 / 1000) * 2 ^ k)

theorem waits_step {s : Sys} (hb : Alike backoff s.strategy.backoff) (hw : ∀ q ∈ s.reqs, Waits q) (a : SAct)
    (ha : Plain a) : Alike backoff (sstep s a).strategy.backoff ∧ ∀ q ∈ (sstep s a).reqs, Waits q := by
  cases a with
  | start =>
    refine ⟨hb, ?_⟩
    intro q hq
    simp only [sstep, List.mem_append, List.mem_singleton] at hq
    rcases hq with hq | rfl
    · exact hw q hq
    · exact ⟨rfl, by intro k d h; simp at h⟩
  | succeed i =>
    simp only [sstep]
    split
    · exact ⟨hb, hw⟩
    · rename_i q hq
      split
      · exact ⟨hb, hw⟩
      · refine ⟨hb, ?_⟩
        intro p hp
        rcases List.mem_or_eq_of_mem_set hp with hp | rfl
        · exact hw p hp
        · exact hw q (List.mem_of_getElem? hq)
  | fail i err r =>
    simp only [sstep]
    split
    · exact ⟨hb, hw⟩
    · rename_i q hq
      have hqw := hw q (List.mem_of_getElem? hq)
      split
      · exact ⟨hb, hw⟩
      · have hal := alike_refresh hb q.token err r
        rcases href : s.strategy.refresh q.token err r with ⟨x | t, st⟩ <;> rw [href] at hal
        · refine ⟨hal, ?_⟩
          intro p hp
          rcases List.mem_or_eq_of_mem_set hp with hp | rfl
          · exact hw p hp
          · exact hqw
        · refine ⟨hal, ?_⟩
          intro p hp
          rcases List.mem_or_eq_of_mem_set hp with hp | rfl
          · exact hw p hp
          · cases err with
            | none => simp [Standard.refresh] at href
            | some e =>
              obtain ⟨het, hea, hr⟩ := ha
              have hcount : t.count = q.token.count + 1 := by
                rcases refresh_cases s.strategy q.token (some e) r with ⟨x, s', h', -⟩ |
                    ⟨e', t', s', -, -, h', hc, -⟩ <;> rw [href] at h'
                · cases h'
                · cases h'; exact hc
              obtain ⟨d, b, hd, ht⟩ := C15_delay href
              have hbf : s.strategy.backoffFor e = s.strategy.backoff := by
                simp [Standard.backoffFor, het]
              rw [hbf] at hd
              have hj := C14_full_jitter_partial (alike_good hb) (by rw [hb.2.2]; rfl)
                (Nat.succ_ne_zero _) hr hd
              rw [hb.1, hb.2.1] at hj
              rw [hea] at ht
              refine ⟨by simp [hcount, hqw.1], ?_⟩
              intro k d' hk
              by_cases hlt : k < q.slept.length
              · rw [List.getElem?_append_left hlt] at hk
                exact hqw.2 k d' hk
              · by_cases heq : k = q.slept.length
                · subst heq
                  simp at hk
                  subst hk
                  rw [ht, ← hqw.1]
                  exact hj
                · rw [List.getElem?_eq_none (by simp; omega)] at hk
                  cases hk

/-- The wait before retry `k` of a request (counted from 0) is at most 25 ms (as a float) times `2 ^ k`,
and at most 20 s, if no error is a throttling error and the server asks for no wait, however many requests
there are and however they overlap. -/
theorem C114_delays (c c' : Config) (n : Option Int) (s : Standard) (h : Asks c "standard" n)
    (hp : plugin c = .ok c') (hs : c'.strategy = .standard s) (acts : List SAct) (ha : ∀ a ∈ acts, Plain a) :
    ∀ q ∈ (srun s acts).reqs, ∀ k d, q.slept[k]? = some d →
      0 ≤ d ∧ d ≤ min 20 (rnd (25 / 1000) * 2 ^ k) := by
  have hb : s.backoff = backoff := by
    rw [plugin_of_asks h, if_neg (by simp), makeStandard] at hp
    split at hp
    · cases hp
    · rename_i s' hs'
      split at hs'
      · cases hs'
      · cases hs'; cases hp; cases hs; rfl
  have : ∀ (acts : List SAct) (s : Sys), (∀ a ∈ acts, Plain a) → Alike backoff s.strategy.backoff →
      (∀ q ∈ s.reqs, Waits q) → ∀ q ∈ (acts.foldl sstep s).reqs, Waits q := by
    intro acts
    induction acts with
    | nil => intro s _ _ h; exact h
    | cons a as ih =>
      intro s ha hb hw
      have := waits_step hb hw a (ha a (by simp))
      exact ih _ (fun b hb => ha b (by simp [hb])) this.1 this.2
  intro q hq
  exact (this acts { strategy := s } ha (by rw [hb]; exact ⟨rfl, rfl, rfl⟩) (by simp) q hq).2

/-- Options that are given for a single call, after the constructor has run the plugin, have the defaults
of all clients: three attempts instead of four. -/
theorem C114_call_fails (history : List Resolver.Request) (resolver : Nat) :
    (∃ s, Resolver.after history ⟨resolver, .options "standard" none⟩ = .ok s ∧ s.kind = .standard ∧
      s.maxAttempts = 3) ∧
    ∃ s, plugin ⟨.options "standard" none, none, none, none⟩ =
      .ok ⟨.standard s, none, none, none⟩ ∧ s.maxAttempts = 4 := by
  constructor
  · have h := Resolver.C103_described history resolver (.options "standard" none) (by simp)
    cases hr : Resolver.after history ⟨resolver, .options "standard" none⟩ with
    | error e => rw [hr] at h; simp [Resolver.Describes, Except.toOption] at h
    | ok s =>
      rw [hr] at h
      simp [Resolver.Describes, Except.toOption] at h
      exact ⟨s, rfl, h.1, h.2⟩
  · obtain ⟨s, h1, h2, -⟩ := C114_defaults ⟨.options "standard" none, none, none, none⟩ none
      (.options _ _ _ rfl) (by simp)
    exact ⟨s, h1, h2⟩

/-- A mode other than `standard` that only `retry_mode` of the configuration asks for is asked for in
vain: the plugin leaves the strategy unset, and what is unset is `standard`, with the defaults of all
clients. -/
theorem C114_mode_fails (history : List Resolver.Request) (resolver : Nat) (mode : String)
    (n : Option Int) (source : Option (Option Source)) (h : mode ≠ "standard") (h0 : mode ≠ "") :
    plugin ⟨.nothing, some mode, n, source⟩ = .ok ⟨.nothing, some mode, n, source⟩ ∧
    ∃ s, Resolver.after history ⟨resolver, .none⟩ = .ok s ∧ s.kind = .standard ∧ s.maxAttempts = 3 := by
  constructor
  · rcases C114_all ⟨.nothing, some mode, n, source⟩ with ⟨s, hs⟩ | ⟨i, hi⟩ | ⟨m, k, ha⟩
    · cases hs
    · cases hi
    · have hm : m = mode := by
        have := (settings_of_asks ha).1
        simp only [settings, if_neg h0] at this
        exact (congrArg Prod.fst this).symm
      exact C114_kept _ (.inr (.inr ⟨m, k, ha, hm ▸ h⟩))
  · have h := Resolver.C103_described history resolver .none (by simp)
    cases hr : Resolver.after history ⟨resolver, .none⟩ with
    | error e => rw [hr] at h; simp [Resolver.Describes, Except.toOption] at h
    | ok s =>
      rw [hr] at h
      simp [Resolver.Describes, Except.toOption] at h
      exact ⟨s, rfl, h.1, h.2⟩

/-! ## Examples -/

/-- A configuration with nothing set. -/
def unset : Config := ⟨.nothing, none, none, none⟩

theorem unset_asks : Asks unset "standard" none :=
  .config _ _ _ rfl (.inr ⟨.inl rfl, rfl⟩) rfl (by decide)

/-- A default of five attempts, found by the configuration, gives way to the four of DynamoDB; five in
the environment do not. -/
example : Asks ⟨.nothing, some "standard", some 5, some (some .default)⟩ "standard" none :=
  .fallback _ _ rfl (.inl ⟨rfl, by decide +kernel⟩) rfl
example : Asks ⟨.nothing, some "standard", some 5, some (some .env)⟩ "standard" (some 5) :=
  .config _ _ _ rfl (.inl ⟨rfl, by decide +kernel⟩) rfl (by decide)
example : Asks ⟨.options "standard" (some (-1)), none, none, none⟩ "standard" (some (-1)) :=
  .options _ _ _ rfl
example : Asks ⟨.options "simple" none, none, none, none⟩ "simple" none := .options _ _ _ rfl

/-- A service that never answers sees four attempts, and the client waits three times. -/
example : ∃ c' s, plugin unset = .ok c' ∧ c'.strategy = .standard s ∧
    ((srun s (.start :: List.replicate 4 (.fail 0 (some ⟨some true, none, false⟩) 1))).reqs.map
      fun q => (q.attempts, q.ended, q.slept)) =
      [(4, true, [rnd (25 / 1000), rnd (50 / 1000), rnd (100 / 1000)])] := by
  refine ⟨_, _, rfl, rfl, ?_⟩
  decide +kernel
example : Plain (.fail 0 (some ⟨some true, none, false⟩) (1 / 2)) := ⟨rfl, rfl, good_half⟩

end Verif.Retry.DynamoDb

import Verif.Retry.Spec

/-! # Backoff delays (C14) -/

set_option autoImplicit false

namespace Verif.Retry
open Verif.EventStream Verif.Retry.Spec

theorem isFloat_min {a b : ℚ} (ha : IsFloat a) (hb : IsFloat b) : IsFloat (min a b) := by
  rcases min_choice a b with h | h <;> rw [h] <;> assumption

theorem uncapped_ok {b : Backoff} (hb : GoodBackoff b) {n : Nat} {d : ℚ} (h : uncapped b.scale n = .ok d) :
    d = b.scale * 2 ^ n := by
  unfold uncapped at h
  split at h
  · cases h
    apply rnd_float
    have := isFloat_mul_pow hb.scaleFloat n
    rwa [zpow_natCast] at this
  · cases h

theorem capped_nonneg {b : Backoff} (hb : GoodBackoff b) (n : Nat) : 0 ≤ capped b n := by
  have := hb.scale
  exact le_min hb.max (by positivity)

theorem capped_float {b : Backoff} (hb : GoodBackoff b) (n : Nat) : IsFloat (capped b n) := by
  have := isFloat_mul_pow hb.scaleFloat (n - 1 : Nat)
  rw [zpow_natCast] at this
  exact isFloat_min hb.maxFloat this

/-- The result of a computation as a function of the capped exponential delay. -/
theorem next_cases {b b' : Backoff} (hb : GoodBackoff b) {n : Nat} (hn : n ≠ 0) {r d : ℚ}
    (h : b.next n r = (.ok d, b')) :
    b' = { b with prev := d } ∧
    (b.jitter = .none → d = capped b n) ∧
    (b.jitter = .default → d = rnd (rnd (rnd (r * (1 / 2)) + 1 / 2) * capped b n)) ∧
    (b.jitter = .full → d = rnd (r * capped b n)) ∧
    (b.jitter = .decorrelated → d = decorrelatedJitter b r) := by
  obtain ⟨n, rfl⟩ := Nat.exists_eq_succ_of_ne_zero hn
  have un : ∀ {x : ℚ}, uncapped b.scale n = .ok x → min x b.max = capped b (n + 1) := by
    intro x hx
    rw [uncapped_ok hb hx, min_comm]; rfl
  unfold Backoff.next at h
  simp only [Nat.succ_eq_add_one] at h ⊢
  rcases hj : b.jitter <;> simp only [hj] at h
  · unfold equalJitter at h
    cases hu : uncapped b.scale n <;> simp only [hu] at h
    · cases h
    · simp only [Prod.mk.injEq, Except.ok.injEq] at h
      obtain ⟨rfl, rfl⟩ := h
      refine ⟨by simp, by simp, fun _ => by rw [un hu], by simp, by simp⟩
  · unfold noJitter at h
    cases hu : uncapped b.scale n <;> simp only [hu] at h
    · cases h
    · simp only [Prod.mk.injEq, Except.ok.injEq] at h
      obtain ⟨rfl, rfl⟩ := h
      exact ⟨by simp, fun _ => un hu, by simp, by simp, by simp⟩
  · unfold fullJitter at h
    cases hu : uncapped b.scale n <;> simp only [hu] at h
    · cases h
    · simp only [Prod.mk.injEq, Except.ok.injEq] at h
      obtain ⟨rfl, rfl⟩ := h
      refine ⟨by simp, by simp, by simp, fun _ => by rw [un hu], by simp⟩
  · simp only [Prod.mk.injEq, Except.ok.injEq] at h
    obtain ⟨rfl, rfl⟩ := h
    refine ⟨by simp, by simp, by simp, by simp, fun _ => rfl⟩

/-- A rounded product with a factor in `[lo, 1]`. -/
theorem scaled {lo x c : ℚ} (hlo : lo ≤ x) (h1 : x ≤ 1) (hc : 0 ≤ c) (hf : IsFloat c)
    (hlf : IsFloat (lo * c)) : lo * c ≤ rnd (x * c) ∧ rnd (x * c) ≤ c := by
  constructor
  · calc lo * c = rnd (lo * c) := (rnd_float hlf).symm
      _ ≤ _ := rnd_mono (by gcongr)
  · calc rnd (x * c) ≤ rnd c := rnd_mono (by nlinarith)
      _ = c := rnd_float hf

theorem half_factor {r : ℚ} (hr : GoodRandom r) :
    1 / 2 ≤ rnd (rnd (r * (1 / 2)) + 1 / 2) ∧ rnd (rnd (r * (1 / 2)) + 1 / 2) ≤ 1 := by
  obtain ⟨h0, h1, hf⟩ := hr
  have hh : IsFloat (1 / 2 : ℚ) := ⟨1, -1, by norm_num, by norm_num⟩
  have ho : IsFloat (1 : ℚ) := ⟨1, 0, by norm_num, by norm_num⟩
  have hz : (0 : ℚ) ≤ rnd (r * (1 / 2)) := rnd_nonneg (by positivity)
  have hu : rnd (r * (1 / 2)) ≤ 1 / 2 := by
    calc rnd (r * (1 / 2)) ≤ rnd (1 / 2) := rnd_mono (by linarith)
      _ = 1 / 2 := rnd_float hh
  constructor
  · calc (1 / 2 : ℚ) = rnd (1 / 2) := (rnd_float hh).symm
      _ ≤ _ := rnd_mono (by linarith)
  · calc rnd (rnd (r * (1 / 2)) + 1 / 2) ≤ rnd 1 := rnd_mono (by linarith)
      _ = 1 := rnd_float ho

/-! ## One computation -/

/-- C14: the initial attempt is not delayed. -/
theorem C14_initial_zero (b : Backoff) (r : ℚ) : b.next 0 r = (.ok 0, b) := rfl

/-- C14: without jitter the delay is exactly the capped exponential, whatever happened before. -/
theorem C14_no_jitter_partial {b b' : Backoff} (hb : GoodBackoff b) (hj : b.jitter = .none) {n : Nat}
    (hn : n ≠ 0) {r d : ℚ} (h : b.next n r = (.ok d, b')) : d = min b.max (b.scale * 2 ^ (n - 1)) :=
  (next_cases hb hn h).2.1 hj

/-- C14: with full jitter the delay is between zero and the capped exponential. -/
theorem C14_full_jitter_partial {b b' : Backoff} (hb : GoodBackoff b) (hj : b.jitter = .full) {n : Nat}
    (hn : n ≠ 0) {r d : ℚ} (hr : GoodRandom r) (h : b.next n r = (.ok d, b')) :
    0 ≤ d ∧ d ≤ min b.max (b.scale * 2 ^ (n - 1)) := by
  rw [(next_cases hb hn h).2.2.2.1 hj]
  have := scaled (lo := 0) hr.1 hr.2.1 (capped_nonneg hb n) (capped_float hb n)
    (by rw [zero_mul]; exact ⟨0, 0, by norm_num, by norm_num⟩)
  rw [zero_mul] at this
  exact this

/-- C14: with equal jitter the delay is between half of the capped exponential and all of it. -/
theorem C14_equal_jitter_partial {b b' : Backoff} (hb : GoodBackoff b) (hj : b.jitter = .default) {n : Nat}
    (hn : n ≠ 0) {r d : ℚ} (hr : GoodRandom r) (h : b.next n r = (.ok d, b')) :
    min b.max (b.scale * 2 ^ (n - 1)) / 2 ≤ d ∧ d ≤ min b.max (b.scale * 2 ^ (n - 1)) := by
  rw [(next_cases hb hn h).2.2.1 hj]
  have := scaled (half_factor hr).1 (half_factor hr).2 (capped_nonneg hb n) (capped_float hb n)
    (by
      have := isFloat_mul_pow (capped_float hb n) (-1)
      rwa [show (2 : ℚ) ^ (-1 : ℤ) = 1 / 2 by norm_num, mul_comm] at this)
  exact ⟨by have := this.1; unfold capped at this ⊢; linarith, this.2⟩

/-- C14: with decorrelated jitter the delay is at least the scale (or the maximum, if that is less), at
most the maximum, and at most the scale plus three times the previous delay, up to rounding. -/
theorem C14_decorrelated_partial {b b' : Backoff} (hb : GoodBackoff b) (hj : b.jitter = .decorrelated)
    (hp : 0 ≤ b.prev) (hpf : IsFloat b.prev) {n : Nat} (hn : n ≠ 0) {r d : ℚ} (hr : GoodRandom r)
    (h : b.next n r = (.ok d, b')) :
    min b.scale b.max ≤ d ∧ d ≤ b.max ∧ d ≤ rnd (b.scale + rnd (3 * b.prev)) := by
  rw [(next_cases hb hn h).2.2.2.2 hj]
  unfold decorrelatedJitter
  have h0 : (0 : ℚ) ≤ rnd (r * b.prev) := rnd_nonneg (mul_nonneg hr.1 hp)
  have h3 : (0 : ℚ) ≤ rnd (rnd (r * b.prev) * 3) := rnd_nonneg (by positivity)
  have hu : rnd (r * b.prev) ≤ b.prev := by
    calc rnd (r * b.prev) ≤ rnd b.prev := rnd_mono (by have := hr.2.1; nlinarith)
      _ = b.prev := rnd_float hpf
  refine ⟨?_, min_le_right _ _, ?_⟩
  · refine min_le_min_right _ ?_
    calc b.scale = rnd b.scale := (rnd_float hb.scaleFloat).symm
      _ ≤ _ := rnd_mono (by linarith)
  · refine le_trans (min_le_left _ _) (rnd_mono ?_)
    have : rnd (rnd (r * b.prev) * 3) ≤ rnd (3 * b.prev) := rnd_mono (by linarith)
    linarith

/-- C14: with decorrelated jitter each delay is drawn from the one before it: of two successive
computations, the second is the scale plus three times the first one's result times the draw, rounded
after each operation and capped. -/
theorem C14_decorrelated_chain {b b₁ b₂ : Backoff} (hj : b.jitter = .decorrelated) {n m : Nat} (hn : n ≠ 0)
    (hm : m ≠ 0) {r₁ r₂ d₁ d₂ : ℚ} (h₁ : b.next n r₁ = (.ok d₁, b₁)) (h₂ : b₁.next m r₂ = (.ok d₂, b₂)) :
    d₂ = min (rnd (b.scale + rnd (rnd (r₂ * d₁) * 3))) b.max := by
  obtain ⟨n, rfl⟩ := Nat.exists_eq_succ_of_ne_zero hn
  obtain ⟨m, rfl⟩ := Nat.exists_eq_succ_of_ne_zero hm
  simp only [Backoff.next, hj, Prod.mk.injEq, Except.ok.injEq, Nat.succ_eq_add_one] at h₁
  obtain ⟨rfl, rfl⟩ := h₁
  simp only [Backoff.next, hj, Prod.mk.injEq, Except.ok.injEq, Nat.succ_eq_add_one] at h₂
  exact h₂.1.symm

/-- C14: without jitter, a later attempt is never delayed less. -/
theorem C14_monotone_partial {b b₁ b₂ c₁ c₂ : Backoff} (hb : GoodBackoff b) (hj : b.jitter = .none)
    {p q : ℚ} (h₁ : b₁ = { b with prev := p }) (h₂ : b₂ = { b with prev := q }) {n m : Nat} (hn : n ≤ m)
    {r r' d d' : ℚ} (hd : b₁.next n r = (.ok d, c₁)) (hd' : b₂.next m r' = (.ok d', c₂)) : d ≤ d' := by
  subst h₁ h₂
  have g : ∀ x : ℚ, GoodBackoff { b with prev := x } := fun x => ⟨hb.1, hb.2, hb.3, hb.4⟩
  have hs := hb.scale
  rcases Nat.eq_zero_or_pos n with rfl | hn0
  · have : d = 0 := by
      have : (Backoff.next { b with prev := p } 0 r) = (.ok 0, { b with prev := p }) := rfl
      rw [this] at hd
      cases hd; rfl
    subst this
    rcases Nat.eq_zero_or_pos m with rfl | hm0
    · cases hd'; exact le_refl _
    · rw [C14_no_jitter_partial (g q) hj (by omega) hd']
      exact capped_nonneg hb m
  · rw [C14_no_jitter_partial (g p) hj (by omega) hd, C14_no_jitter_partial (g q) hj (by omega) hd']
    refine min_le_min_left _ ?_
    show b.scale * _ ≤ b.scale * _
    gcongr
    · norm_num

/-- C14: up to retry 1024, and with decorrelated jitter always, a delay is computed. -/
theorem C14_total {b : Backoff} {n : Nat} (h : n ≤ 1024 ∨ b.jitter = .decorrelated) (r : ℚ) :
    ∃ d b', b.next n r = (.ok d, b') := by
  cases n with
  | zero => exact ⟨_, _, rfl⟩
  | succ n =>
    have hu : n < 1024 → ∃ d, uncapped b.scale n = .ok d := fun hh => ⟨_, by unfold uncapped; rw [if_pos hh]⟩
    unfold Backoff.next
    rcases hj : b.jitter
    · obtain ⟨x, hx⟩ := hu (by simp only [hj, reduceCtorEq, or_false] at h; omega)
      simp [equalJitter, hx]
    · obtain ⟨x, hx⟩ := hu (by simp only [hj, reduceCtorEq, or_false] at h; omega)
      simp [noJitter, hx]
    · obtain ⟨x, hx⟩ := hu (by simp only [hj, reduceCtorEq, or_false] at h; omega)
      simp [fullJitter, hx]
    · simp

/-- C14: the claim that a delay is computed for every attempt number is false of the code: from retry
1025 on the other jitter modes raise `OverflowError`, whatever the parameters. -/
theorem C14_overflow_fails (b : Backoff) (hj : b.jitter ≠ .decorrelated) {n : Nat} (hn : 1025 ≤ n) (r : ℚ) :
    b.next n r = (.error .overflow, b) := by
  obtain ⟨n, rfl⟩ : ∃ k, n = k + 1 := ⟨n - 1, by omega⟩
  have hu : uncapped b.scale n = .error .overflow := by unfold uncapped; rw [if_neg (by omega)]
  unfold Backoff.next
  rcases hj' : b.jitter
  · simp [equalJitter, hu]
  · simp [noJitter, hu]
  · simp [fullJitter, hu]
  · exact absurd hj' hj

/-! ## Histories of computations -/

/-- What is preserved over a history. -/
structure PrevOk (b : Backoff) : Prop where
  nonneg : 0 ≤ b.prev
  float : IsFloat b.prev

theorem next_range {b b' : Backoff} (hb : GoodBackoff b) (hp : PrevOk b) {n : Nat} {r d : ℚ}
    (hr : GoodRandom r) (h : b.next n r = (.ok d, b')) : 0 ≤ d ∧ d ≤ b.max ∧ IsFloat d := by
  rcases Nat.eq_zero_or_pos n with rfl | hn0
  · cases h
    exact ⟨le_refl _, hb.max, 0, 0, by norm_num, by norm_num⟩
  have hn : n ≠ 0 := by omega
  have hc := next_cases hb hn h
  rcases hj : b.jitter
  · have h2 := C14_equal_jitter_partial hb hj hn hr h
    have h0 := capped_nonneg hb n
    unfold capped at h0
    exact ⟨by linarith, le_trans h2.2 (min_le_left _ _), by rw [hc.2.2.1 hj]; exact rnd_isFloat _⟩
  · have h2 := hc.2.1 hj
    subst h2
    exact ⟨capped_nonneg hb n, min_le_left _ _, capped_float hb n⟩
  · have h2 := C14_full_jitter_partial hb hj hn hr h
    exact ⟨h2.1, le_trans h2.2 (min_le_left _ _), by rw [hc.2.2.2.1 hj]; exact rnd_isFloat _⟩
  · have h2 := C14_decorrelated_partial hb hj hp.1 hp.2 hn hr h
    refine ⟨le_trans (le_min hb.scale hb.max) h2.1, h2.2.1, ?_⟩
    rw [hc.2.2.2.2 hj]
    exact isFloat_min (rnd_isFloat _) hb.maxFloat

theorem next_state (b : Backoff) (n : Nat) (r : ℚ) :
    (b.next n r).2 = b ∨ ∃ d, (b.next n r).1 = .ok d ∧ (b.next n r).2 = { b with prev := d } := by
  unfold Backoff.next
  cases n with
  | zero => left; rfl
  | succ n =>
    simp only
    split
    · left; rfl
    · right; exact ⟨_, rfl, rfl⟩

/-- C14: whatever attempts were made before and whatever was drawn, every delay that is returned lies
between zero and the configured maximum. -/
theorem C14_delays_in_range {scale max : ℚ} {j : Jitter} (hb : GoodBackoff (Backoff.init scale max j))
    (calls : List (Nat × ℚ)) (hr : ∀ c ∈ calls, GoodRandom c.2) :
    ∀ d, some d ∈ delays (Backoff.init scale max j) calls → 0 ≤ d ∧ d ≤ max := by
  have key : ∀ (calls : List (Nat × ℚ)) (b : Backoff), GoodBackoff b → PrevOk b → b.max = max →
      (∀ c ∈ calls, GoodRandom c.2) → ∀ d, some d ∈ delays b calls → 0 ≤ d ∧ d ≤ max := by
    intro calls
    induction calls with
    | nil => intro b _ _ _ _ d hd; cases hd
    | cons c cs ih =>
      obtain ⟨n, r⟩ := c
      intro b hb hp hm hr d hd
      have hr0 := hr (n, r) (by simp)
      simp only [delays, List.mem_cons] at hd
      rcases hd with hd | hd
      · split at hd
        · rename_i d' hd'
          cases hd
          have := next_range hb hp hr0 (b' := (b.next n r).2) (Prod.ext hd' rfl)
          rw [← hm]; exact ⟨this.1, this.2.1⟩
        · cases hd
      · rcases next_state b n r with h | ⟨x, h1, h2⟩
        · rw [h] at hd
          exact ih b hb hp hm (fun c hc => hr c (by simp [hc])) d hd
        · rw [h2] at hd
          have := next_range hb hp hr0 (b' := (b.next n r).2) (Prod.ext h1 rfl)
          exact ih { b with prev := x } ⟨hb.1, hb.2, hb.3, hb.4⟩ ⟨this.1, this.2.2⟩ hm (fun c hc => hr c (by simp [hc])) d hd
  exact key calls _ hb ⟨hb.scale, hb.scaleFloat⟩ rfl hr

/-- C14: a wait asked for by the server moves the delay only upwards, and by at most five seconds
(rounded as the sum is). -/
theorem C14_retry_after (t : ℚ) (hf : IsFloat t) (ra : Option ℚ) :
    t ≤ boundedDelay t ra ∧ boundedDelay t ra ≤ rnd (5 + t) ∧
    (∀ x, ra = some x → t ≤ x → x ≤ rnd (5 + t) → boundedDelay t ra = x) := by
  have h5 : t ≤ rnd (5 + t) := by
    calc t = rnd t := (rnd_float hf).symm
      _ ≤ _ := rnd_mono (by linarith)
  cases ra with
  | none => exact ⟨le_refl _, h5, by simp⟩
  | some x =>
    refine ⟨le_max_left _ _, max_le h5 (min_le_right _ _), ?_⟩
    rintro y ⟨⟩ h1 h2
    show max t (min x _) = x
    rw [min_eq_left h2, max_eq_right h1]

/-! ## Concrete instances -/

theorem good_default (j : Jitter) : GoodBackoff (Backoff.init 1 20 j) :=
  ⟨by simp [Backoff.init], by simp [Backoff.init], ⟨1, 0, by norm_num, by simp [Backoff.init]⟩,
   ⟨20, 0, by norm_num, by simp [Backoff.init]⟩⟩

theorem good_half : GoodRandom (1 / 2) := ⟨by norm_num, by norm_num, 1, -1, by norm_num, by norm_num⟩

/-- The throttling backoff's third retry with a draw of one half waits two seconds; the hundredth waits
ten. -/
example : (Backoff.init 1 20 .full).next 3 (1 / 2) = (.ok 2, { Backoff.init 1 20 .full with prev := 2 }) := by
  decide +kernel
example : ∃ b', (Backoff.init 1 20 .none).next 100 (1 / 2) = (.ok 20, b') := by
  obtain ⟨d, b', h⟩ := C14_total (b := Backoff.init 1 20 .none) (n := 100) (by norm_num) (1 / 2)
  have := C14_no_jitter_partial (good_default _) rfl (by norm_num) h
  norm_num [Backoff.init] at this
  subst this
  exact ⟨b', h⟩
example : delays (Backoff.init 1 20 .decorrelated) [(1, 1), (2, 1), (3, 1)] = [some 4, some 13, some 20] := by
  decide +kernel

/-- C14 (negative): the documented delay with decorrelated jitter is between the scale and three times the previous delay
(retries.py:69), but it may be longer: scale 1, previous delay 1, and a draw of 7/8 give 3.625. -/
theorem C14_decorrelated_formula_fails : ∃ r d b', GoodRandom r ∧
    (Backoff.init 1 20 .decorrelated).next 1 r = (.ok d, b') ∧ (Backoff.init 1 20 .decorrelated).prev = 1 ∧ d > 3 * 1 :=
  ⟨7 / 8, 29 / 8, { Backoff.init 1 20 .decorrelated with prev := 29 / 8 },
    ⟨by norm_num, by norm_num, 7, -3, by norm_num, by norm_num⟩, by decide +kernel, rfl, by norm_num⟩

/-- C14 (negative): with decorrelated jitter the first retry of a request depends on the retries of the requests before it,
as a strategy has one backoff for all of them: after two retries of another request, the first retry waits 20 instead of
4. -/
theorem C14_shared_fails :
    delays (Backoff.init 1 20 .decorrelated) [(0, 1), (1, 1)] = [some 0, some 4] ∧
    delays (Backoff.init 1 20 .decorrelated) [(0, 1), (1, 1), (2, 1), (0, 1), (1, 1)] =
      [some 0, some 4, some 13, some 0, some 20] := by
  refine ⟨?_, ?_⟩ <;> decide +kernel

example : boundedDelay 2 (some 100) = 7 := by decide +kernel

end Verif.Retry

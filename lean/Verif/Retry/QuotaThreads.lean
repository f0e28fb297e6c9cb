import Verif.Retry.QuotaProps
import Verif.Retry.StrategyProps

/-!
# Retry quotas with threads: storms (C64), and the quota of a single user (C12)
-/

set_option autoImplicit false

namespace Verif.Retry

open Verif.Retry.Spec

/-! ## Specification -/

/-- Is this a call that asked for capacity, got it and has returned? -/
def isGranted : TPhase → Bool
  | .done (some _) => true
  | _ => false

/-- What a call gives back at most: its amount, or one if that is zero. -/
def givenBack : TAct → Int
  | .callRelease n => if n = 0 then 1 else n
  | _ => 0

/-! ## Proofs -/

/-- What a call has taken, or may still give back. -/
def TPhase.weight : TPhase → Int
  | .unlock (some c) | .done (some c) => c
  | .relFast n => if n = 0 then 1 else n
  | .relLock n | .relLoad n | .relStore n _ => n
  | _ => 0

/-- The sum for all calls. -/
def weight (ps : List TPhase) : Int := (ps.map TPhase.weight).sum

theorem weight_append (ps : List TPhase) (p : TPhase) : weight (ps ++ [p]) = weight ps + p.weight := by
  simp [weight]

theorem weight_set : ∀ {ps : List TPhase} {i : Nat} {p : TPhase}, ps[i]? = some p → ∀ q,
    weight (ps.set i q) = weight ps - p.weight + q.weight
  | [], _, _, h, _ => by simp at h
  | x :: ps, 0, p, h, q => by
    simp only [List.getElem?_cons_zero, Option.some.injEq] at h
    subst h
    simp only [weight, List.set_cons_zero, List.map_cons, List.sum_cons]
    omega
  | x :: ps, i + 1, p, h, q => by
    have := weight_set (ps := ps) (i := i) (by simpa using h) q
    simp only [weight, List.set_cons_succ, List.map_cons, List.sum_cons] at this ⊢
    omega

/-- A step of a thread does not make anything of nothing. -/
theorem tstep_weight {cap : Int} {s : TQuota} (hi : TInv cap s) (a : TAct) :
    (tstep s a).avail + weight (tstep s a).calls ≤ s.avail + weight s.calls + givenBack a ∨
    ∃ p ∈ s.calls, p.weight < 0 := by
  by_cases hneg : ∃ p ∈ s.calls, p.weight < 0
  · exact .inr hneg
  left
  have hpos : ∀ {i : Nat} {p : TPhase}, s.calls[i]? = some p → 0 ≤ p.weight := fun h => by
    by_contra hlt
    exact hneg ⟨_, List.mem_of_getElem? h, by omega⟩
  cases a with
  | callAcquire t => simp only [tstep, weight_append, TPhase.weight, givenBack]; omega
  | callRelease n => simp only [tstep, weight_append, TPhase.weight, givenBack]; omega
  | run i =>
    simp only [tstep, givenBack]
    split
    · omega
    · rename_i t hp
      split
      · simp only [weight_set hp, TPhase.weight]; omega
      · omega
    · rename_i t hp
      split
      · simp only [weight_set hp, TPhase.weight]; omega
      · simp only [TQuota.goto, weight_set hp, TPhase.weight]; omega
    · rename_i t hp
      simp only [TQuota.goto, weight_set hp, TPhase.weight]; omega
    · rename_i t v hp
      obtain ⟨rfl, _⟩ := hi.knows i _ hp
      simp only [weight_set hp, TPhase.weight]; omega
    · rename_i n hp
      have := hpos hp
      split
      · simp only [weight_set hp, TPhase.weight] at this ⊢; omega
      · simp only [TQuota.goto, weight_set hp, TPhase.weight] at this ⊢; omega
    · rename_i n hp
      split
      · simp only [weight_set hp, TPhase.weight]; omega
      · omega
    · rename_i n hp
      simp only [TQuota.goto, weight_set hp, TPhase.weight]; omega
    · rename_i n v hp
      have hk : v = min (s.avail + n) cap := hi.knows i _ hp
      simp only [weight_set hp, TPhase.weight]
      omega
    · rename_i r hp
      cases r <;> simp only [weight_set hp, TPhase.weight] <;> omega
    · omega

/-- Weights are those of calls. -/
theorem fits_weight {a : TAct} {p : TPhase} {es : List TEvent} {c : Int} (h : Fits a p es)
    (hn : ∀ n, a = .callRelease n → 0 ≤ n) (hc : ∀ t, a = .callAcquire t → 0 ≤ cost t ∧ c ≤ cost t) :
    0 ≤ p.weight ∧ (isGranted p = true → c ≤ p.weight) := by
  cases a with
  | run j => exact h.elim
  | callAcquire t =>
    simp only [Fits] at h
    obtain ⟨h0, hc⟩ := hc t rfl
    rcases h with ⟨h, _⟩ | ⟨h, _⟩ | ⟨h, _⟩
    · rcases h with rfl | rfl | rfl | ⟨v, rfl⟩ <;> simp [TPhase.weight, isGranted]
    · rcases h with rfl | rfl <;> simp [TPhase.weight, isGranted]
    · rcases h with rfl | rfl <;> exact ⟨h0, fun _ => hc⟩
  | callRelease n =>
    have hpos : (0 : Int) ≤ if n = 0 then 1 else n := by have := hn n rfl; split <;> omega
    simp only [Fits] at h
    rcases h with ⟨h, _⟩ | ⟨h, _⟩ | ⟨h, _⟩
    · rcases h with rfl | rfl | rfl | ⟨v, rfl⟩ <;> exact ⟨hpos, fun h => nomatch h⟩
    · subst h; simp [TPhase.weight, isGranted]
    · rcases h with rfl | rfl <;> simp [TPhase.weight, isGranted]

theorem trun_weights {cap c : Int} {acts : List TAct} (hn : ∀ n, .callRelease n ∈ acts → 0 ≤ n)
    (hc : ∀ t, .callAcquire t ∈ acts → c ≤ cost t) :
    ∀ p ∈ (trun cap acts).calls, 0 ≤ p.weight ∧ (isGranted p = true → c ≤ p.weight) := by
  intro p hp
  obtain ⟨i, hi⟩ := List.mem_iff_getElem?.mp hp
  have hr := trun_rinv cap acts
  have hlt : i < (callsMade acts).length := hr.len ▸ (List.getElem?_eq_some_iff.mp hi).1
  have ha := List.getElem?_eq_getElem hlt
  have hm : (callsMade acts)[i] ∈ acts := List.mem_of_mem_filter (List.getElem_mem hlt)
  refine fits_weight (hr.fits i p _ hi ha) (fun n h => hn n (h ▸ hm)) fun t h => ⟨by cases t <;> decide, hc t (h ▸ hm)⟩

theorem trun_weight {cap : Int} (acts : List TAct) (hn : ∀ n, .callRelease n ∈ acts → 0 ≤ n) :
    (trun cap acts).avail + weight (trun cap acts).calls ≤ cap + (acts.map givenBack).sum := by
  induction acts using Verif.EventStream.snoc_induction with
  | h0 => simp [trun, weight]
  | h1 as a ih =>
    have hn' : ∀ n, .callRelease n ∈ as → 0 ≤ n := fun n h => hn n (List.mem_append_left _ h)
    have := ih hn'
    have hs : trun cap (as ++ [a]) = tstep (trun cap as) a := by
      simp only [trun, List.foldl_append, List.foldl_cons, List.foldl_nil]
    rw [hs, List.map_append, List.sum_append]
    simp only [List.map_cons, List.map_nil, List.sum_cons, List.sum_nil, Int.add_zero]
    rcases tstep_weight (trun_inv cap as) a with h | ⟨p, hp, hlt⟩
    · omega
    · have := (trun_weights (c := 0) hn' (fun t _ => by cases t <;> decide) p hp).1
      omega

theorem granted_le {c : Int} : ∀ {ps : List TPhase}, (∀ p ∈ ps, 0 ≤ p.weight ∧ (isGranted p = true → c ≤ p.weight)) →
    c * (ps.countP isGranted : Int) ≤ weight ps
  | [], _ => by simp [weight]
  | p :: ps, h => by
    have ih := granted_le (ps := ps) fun q hq => h q (List.mem_cons_of_mem _ hq)
    obtain ⟨h0, h1⟩ := h p List.mem_cons_self
    simp only [weight, List.map_cons, List.sum_cons] at ih ⊢
    rw [List.countP_cons]
    by_cases hg : isGranted p = true
    · have := h1 hg
      rw [if_pos hg]
      push_cast
      linarith
    · rw [if_neg hg]
      push_cast
      linarith

/-! ## The properties -/

/-- C64, whatever threads do: however their steps interleave, the calls that were granted capacity are, at five units each,
covered by what the quota began with and what was given back. -/
theorem C64_threads {cap : Int} (hc : 0 ≤ cap) (acts : List TAct) (hn : ∀ n, .callRelease n ∈ acts → 0 ≤ n) :
    5 * ((trun cap acts).calls.countP isGranted : Int) ≤ cap + (acts.map givenBack).sum := by
  have h1 := granted_le (trun_weights (cap := cap) (c := 5) hn fun t _ => by cases t <;> decide)
  have h2 := trun_weight (cap := cap) acts hn
  have h3 := (C12_bounds hc acts hn).1
  omega

/-- C64, whatever threads do: a quota of 500 to which nothing is given back grants at most 35 retries if none of the errors is
throttling. -/
theorem C64_threads_dead {acts : List TAct} (hs : ∀ n, .callRelease n ∉ acts) (ht : .callAcquire true ∉ acts) :
    (trun 500 acts).calls.countP isGranted ≤ 35 := by
  have hn : ∀ n, TAct.callRelease n ∈ acts → 0 ≤ n := fun n h => absurd h (hs n)
  have h1 := granted_le (trun_weights (cap := 500) (c := 14) hn fun t h => by
    cases t with
    | false => decide
    | true => exact absurd h ht)
  have h2 := trun_weight (cap := 500) acts hn
  have h3 := (C12_bounds (cap := 500) (by decide) acts hn).1
  have h4 : (acts.map givenBack).sum = 0 := by
    refine List.sum_eq_zero fun x hx => ?_
    obtain ⟨a, ha, rfl⟩ := List.mem_map.mp hx
    cases a with
    | callRelease n => exact absurd ha (hs n)
    | _ => rfl
  omega

/-- C12: the quota with a single user does what the calls of threads amount to: to ask for capacity takes what it reports,
which is five for a throttling error and fourteen otherwise, or is refused and takes nothing. -/
theorem C12_single_acquire (q : Quota) (throttling : Bool) :
    let c : Int := if throttling then 5 else 14
    (q.acquire throttling).2.cap = q.cap ∧
    ((q.acquire throttling).1 = some c ∧ replay q.cap q.avail [.acquired c] = some (q.acquire throttling).2.avail ∨
     (q.acquire throttling).1 = none ∧ replay q.cap q.avail [.refused c] = some (q.acquire throttling).2.avail) := by
  intro c
  have hc : cost throttling = c := rfl
  simp only [Quota.acquire, hc]
  by_cases h : c > q.avail
  · rw [if_pos h]
    refine ⟨rfl, .inr ⟨rfl, ?_⟩⟩
    simp only [replay]
    rw [if_pos h]
  · rw [if_neg h]
    refine ⟨rfl, .inl ⟨rfl, ?_⟩⟩
    simp only [replay]
    rw [if_pos (Int.not_lt.mp h)]

/-- C12: likewise, to give capacity back. -/
theorem C12_single_release (q : Quota) (n : Int) :
    (q.release n).cap = q.cap ∧
    (replay q.cap q.avail [.released (if n = 0 then 1 else n)] = some (q.release n).avail ∨
     replay q.cap q.avail [.skipped] = some (q.release n).avail) := by
  simp only [Quota.release]
  by_cases h : q.avail = q.cap
  · rw [if_pos h]
    exact ⟨rfl, .inr (by simp only [replay, if_pos h])⟩
  · rw [if_neg h]
    exact ⟨rfl, .inl rfl⟩

/-- The bound of `C64_threads` is met: with a quota of ten and nothing given back, two calls are granted, and a third is not. -/
example :
    let acts : List TAct := [.callAcquire true, .callAcquire true, .callAcquire true] ++
      ((List.range 3).flatMap fun i => List.replicate 5 (.run i))
    (trun 10 acts).calls = [.done (some 5), .done (some 5), .done none] ∧ (∀ n, .callRelease n ∉ acts) := by
  refine ⟨by decide +kernel, ?_⟩
  intro n h
  simp [List.range, List.range.loop, List.replicate] at h

end Verif.Retry

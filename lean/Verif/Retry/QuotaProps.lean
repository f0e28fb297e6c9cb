import Verif.Retry.Spec
import Verif.EventStream.Lemmas

/-! # The shared retry quota under threads (C12) -/

set_option autoImplicit false

namespace Verif.Retry
open Verif.Retry.Spec

/-- In the critical section. -/
def TPhase.holds : TPhase → Bool
  | .acqCheck _ | .acqLoad _ | .acqStore _ _ | .relLoad _ | .relStore _ _ | .unlock _ => true
  | _ => false

/-- What a call knows about the capacity. -/
def TPhase.knows (avail cap : Int) : TPhase → Prop
  | .acqLoad t => cost t ≤ avail
  | .acqStore t v => v = avail ∧ cost t ≤ avail
  | .relStore n v => v = min (avail + n) cap
  | _ => True

theorem replay_append {cap a : Int} {xs ys : List TEvent} {b : Int} (h : replay cap a xs = some b) :
    replay cap a (xs ++ ys) = replay cap b ys := by
  induction xs generalizing a with
  | nil => cases h; rfl
  | cons e es ih =>
    cases e <;> simp only [replay, List.cons_append] at h ⊢
    all_goals first
      | exact ih h
      | (split at h
         · rename_i hc; rw [if_pos hc]; exact ih h
         · cases h)

/-- The invariant of every interleaving. -/
structure TInv (cap : Int) (s : TQuota) : Prop where
  cap_eq : s.cap = cap
  owner : ∀ (i : Nat) (p : TPhase), s.calls[i]? = some p → p.holds = true → s.lock = some i
  owned : ∀ (i : Nat), s.lock = some i → ∃ p : TPhase, s.calls[i]? = some p ∧ p.holds = true
  knows : ∀ (i : Nat) (p : TPhase), s.calls[i]? = some p → p.knows s.avail cap
  linear : replay cap cap (s.log.map Prod.snd) = some s.avail

theorem knows_of_not_holds {p : TPhase} (h : p.holds = false) (a c : Int) : p.knows a c := by
  cases p <;> simp_all [TPhase.holds, TPhase.knows]

theorem getElem?_set_cases {α : Type} {l : List α} {i j : Nat} {a b : α} (h : (l.set i a)[j]? = some b) :
    (j = i ∧ b = a) ∨ (j ≠ i ∧ l[j]? = some b) := by
  by_cases hij : j = i
  · subst hij
    left
    rw [List.getElem?_set_self'] at h
    cases hl : l[j]? <;> simp_all
  · right
    rw [List.getElem?_set_ne (by omega)] at h
    exact ⟨hij, h⟩

/-- Append a call that has not taken the lock. -/
theorem TInv.call {cap : Int} {s : TQuota} (hi : TInv cap s) {p : TPhase} (hp : p.holds = false) :
    TInv cap { s with calls := s.calls ++ [p] } := by
  have key : ∀ (i : Nat) (q : TPhase), (s.calls ++ [p])[i]? = some q → s.calls[i]? = some q ∨ q = p := by
    intro i q h
    rw [List.getElem?_append] at h
    split at h
    · exact Or.inl h
    · right
      rcases hk : i - s.calls.length with _ | k
      · rw [hk] at h; simpa using h.symm
      · rw [hk] at h; simp at h
  refine ⟨hi.cap_eq, ?_, ?_, ?_, hi.linear⟩
  · intro i q h hq
    rcases key i q h with h | rfl
    · exact hi.owner i q h hq
    · rw [hp] at hq; cases hq
  · intro i h
    obtain ⟨q, hq, hh⟩ := hi.owned i h
    refine ⟨q, ?_, hh⟩
    show (s.calls ++ [p])[i]? = some q
    rw [List.getElem?_append_left (List.getElem?_eq_some_iff.mp hq).1]; exact hq
  · intro i q h
    rcases key i q h with h | rfl
    · exact hi.knows i q h
    · exact knows_of_not_holds hp _ _

/-- A step of the call that holds the lock. -/
theorem TInv.inside {cap : Int} {s : TQuota} (hi : TInv cap s) {i : Nat} {p q : TPhase} {a : Int}
    {log : List (Nat × TEvent)} (hp : s.calls[i]? = some p) (hh : p.holds = true)
    (hq : q.holds = true) (hk : q.knows a cap) (hl : replay cap cap (log.map Prod.snd) = some a) :
    TInv cap { s with avail := a, calls := s.calls.set i q, log } := by
  have hown := hi.owner i p hp hh
  refine ⟨hi.cap_eq, ?_, ?_, ?_, hl⟩
  · intro j r h hr
    rcases getElem?_set_cases h with ⟨rfl, rfl⟩ | ⟨hne, h⟩
    · exact hown
    · exact hi.owner j r h hr
  · intro j h
    rw [show s.lock = some i from hown] at h
    cases h
    refine ⟨q, ?_, hq⟩
    show (s.calls.set i q)[i]? = _
    rw [List.getElem?_set_self (List.getElem?_eq_some_iff.mp hp).1]
  · intro j r h
    rcases getElem?_set_cases h with ⟨rfl, rfl⟩ | ⟨hne, h⟩
    · exact hk
    · cases hr : r.holds with
      | false => exact knows_of_not_holds hr _ _
      | true =>
        have := hi.owner j r h hr
        rw [hown] at this
        cases this
        exact absurd rfl hne

/-- Taking the free lock. -/
theorem TInv.take {cap : Int} {s : TQuota} (hi : TInv cap s) {i : Nat} {p q : TPhase}
    (hp : s.calls[i]? = some p) (hfree : s.lock = none) (hq : q.holds = true) (hk : q.knows s.avail cap) :
    TInv cap { s with lock := some i, calls := s.calls.set i q } := by
  refine ⟨hi.cap_eq, ?_, ?_, ?_, hi.linear⟩
  · intro j r h hr
    rcases getElem?_set_cases h with ⟨rfl, rfl⟩ | ⟨hne, h⟩
    · rfl
    · have := hi.owner j r h hr
      rw [hfree] at this; cases this
  · rintro j ⟨⟩
    refine ⟨q, ?_, hq⟩
    show (s.calls.set i q)[i]? = _
    rw [List.getElem?_set_self (List.getElem?_eq_some_iff.mp hp).1]
  · intro j r h
    rcases getElem?_set_cases h with ⟨rfl, rfl⟩ | ⟨hne, h⟩
    · exact hk
    · exact hi.knows j r h

/-- A step of a call outside the critical section that does not touch the lock. -/
theorem TInv.outside {cap : Int} {s : TQuota} (hi : TInv cap s) {i : Nat} {p q : TPhase}
    {log : List (Nat × TEvent)} (hp : s.calls[i]? = some p) (hh : p.holds = false)
    (hq : q.holds = false) (hl : replay cap cap (log.map Prod.snd) = some s.avail) :
    TInv cap { s with calls := s.calls.set i q, log } := by
  refine ⟨hi.cap_eq, ?_, ?_, ?_, hl⟩
  · intro j r h hr
    rcases getElem?_set_cases h with ⟨rfl, rfl⟩ | ⟨hne, h⟩
    · rw [hq] at hr; cases hr
    · exact hi.owner j r h hr
  · intro j h
    obtain ⟨r, hr, hh'⟩ := hi.owned j h
    have hne : i ≠ j := by
      rintro rfl
      rw [hp] at hr; cases hr
      rw [hh] at hh'; cases hh'
    refine ⟨r, ?_, hh'⟩
    show (s.calls.set i q)[j]? = _
    rw [List.getElem?_set_ne hne]; exact hr
  · intro j r h
    rcases getElem?_set_cases h with ⟨rfl, rfl⟩ | ⟨hne, h⟩
    · exact knows_of_not_holds hq _ _
    · exact hi.knows j r h

/-- Releasing the lock. -/
theorem TInv.drop {cap : Int} {s : TQuota} (hi : TInv cap s) {i : Nat} {p q : TPhase}
    (hp : s.calls[i]? = some p) (hh : p.holds = true) (hq : q.holds = false) :
    TInv cap { s with lock := none, calls := s.calls.set i q } := by
  have hown := hi.owner i p hp hh
  refine ⟨hi.cap_eq, ?_, ?_, ?_, hi.linear⟩
  · intro j r h hr
    rcases getElem?_set_cases h with ⟨rfl, rfl⟩ | ⟨hne, h⟩
    · rw [hq] at hr; cases hr
    · have := hi.owner j r h hr
      rw [hown] at this; cases this
      exact absurd rfl hne
  · rintro j ⟨⟩
  · intro j r h
    rcases getElem?_set_cases h with ⟨rfl, rfl⟩ | ⟨hne, h⟩
    · exact knows_of_not_holds hq _ _
    · exact hi.knows j r h

theorem log_snoc {cap : Int} {s : TQuota} (hi : TInv cap s) (i : Nat) (e : TEvent) :
    replay cap cap ((s.log ++ [(i, e)]).map Prod.snd) = replay cap s.avail [e] := by
  rw [List.map_append, replay_append hi.linear]; rfl

theorem tstep_inv {cap : Int} {s : TQuota} (hi : TInv cap s) (a : TAct) : TInv cap (tstep s a) := by
  cases a with
  | callAcquire t => exact hi.call rfl
  | callRelease n => exact hi.call rfl
  | run i =>
    simp only [tstep]
    split
    · exact hi
    · rename_i t hp
      split
      · rename_i hl; exact hi.take hp hl rfl trivial
      · exact hi
    · rename_i t hp
      split
      · rename_i hc
        refine hi.inside (a := s.avail) hp rfl rfl trivial ?_
        rw [log_snoc hi]
        simp only [replay]
        rw [if_pos hc]
      · rename_i hc
        exact hi.inside (a := s.avail) (log := s.log) hp rfl rfl (by show cost t ≤ s.avail; omega) hi.linear
    · rename_i t hp
      exact hi.inside (a := s.avail) (log := s.log) hp rfl rfl ⟨rfl, hi.knows i _ hp⟩ hi.linear
    · rename_i t v hp
      have hk := hi.knows i _ hp
      refine hi.inside hp rfl rfl trivial ?_
      rw [log_snoc hi]
      obtain ⟨rfl, hc⟩ := hk
      simp only [replay]
      rw [if_pos hc]
    · rename_i n hp
      split
      · rename_i hc
        refine hi.outside hp rfl rfl ?_
        rw [log_snoc hi]
        simp only [replay]
        rw [if_pos (hi.cap_eq ▸ hc)]
      · exact hi.outside (log := s.log) hp rfl rfl hi.linear
    · rename_i n hp
      split
      · rename_i hl; exact hi.take hp hl rfl trivial
      · exact hi
    · rename_i n hp
      exact hi.inside (a := s.avail) (log := s.log) hp rfl rfl (by rw [← hi.cap_eq]; rfl) hi.linear
    · rename_i n v hp
      refine hi.inside hp rfl rfl trivial ?_
      rw [log_snoc hi]
      have hk : v = min (s.avail + n) cap := hi.knows i _ hp
      rw [hk]; rfl
    · rename_i r hp
      exact hi.drop hp rfl rfl
    · exact hi

theorem trun_inv (cap : Int) (acts : List TAct) : TInv cap (trun cap acts) := by
  have : ∀ (acts : List TAct) (s : TQuota), TInv cap s → TInv cap (acts.foldl tstep s) := by
    intro acts
    induction acts with
    | nil => intro s h; exact h
    | cons a as ih => intro s h; exact ih _ (tstep_inv h a)
  refine this acts _ ⟨rfl, ?_, ?_, ?_, rfl⟩ <;> simp

/-! ## What calls report and what they did -/

/-- A call's phase against its effects so far. -/
def Fits : TAct → TPhase → List TEvent → Prop
  | .callAcquire t, p, es =>
    ((p = .acqLock t ∨ p = .acqCheck t ∨ p = .acqLoad t ∨ ∃ v, p = .acqStore t v) ∧ es = []) ∨
    ((p = .unlock none ∨ p = .done none) ∧ es = [.refused (cost t)]) ∨
    ((p = .unlock (some (cost t)) ∨ p = .done (some (cost t))) ∧ es = [.acquired (cost t)])
  | .callRelease n, p, es =>
    ((p = .relFast n ∨ p = .relLock (if n = 0 then 1 else n) ∨ p = .relLoad (if n = 0 then 1 else n) ∨
        ∃ v, p = .relStore (if n = 0 then 1 else n) v) ∧ es = []) ∨
    (p = .done none ∧ es = [.skipped]) ∨
    ((p = .unlock none ∨ p = .done none) ∧ es = [.released (if n = 0 then 1 else n)])
  | .run _, _, _ => False

/-- What is preserved. -/
structure RInv (cs : List TAct) (s : TQuota) : Prop where
  len : s.calls.length = cs.length
  fits : ∀ (i : Nat) (p : TPhase) (a : TAct), s.calls[i]? = some p → cs[i]? = some a → Fits a p (effects s.log i)
  none : ∀ i : Nat, cs.length ≤ i → effects s.log i = []

theorem effects_snoc (log : List (Nat × TEvent)) (i j : Nat) (e : TEvent) :
    effects (log ++ [(i, e)]) j = effects log j ++ (if i = j then [e] else []) := by
  unfold effects
  by_cases h : i = j <;> simp [h]

theorem RInv.call {cs : List TAct} {s : TQuota} (hr : RInv cs s) {a : TAct} {p : TPhase}
    (hf : Fits a p []) : RInv (cs ++ [a]) { s with calls := s.calls ++ [p] } := by
  refine ⟨by simp [hr.len], ?_, ?_⟩
  · intro i q b hq hb
    simp only [List.getElem?_append] at hq hb
    have hlen := hr.len
    by_cases hi : i < cs.length
    · rw [if_pos (by omega)] at hq hb
      exact hr.fits i q b hq hb
    · rw [if_neg (by omega)] at hq hb
      have h0 : i = cs.length := by
        rcases hk : i - cs.length with _ | k
        · omega
        · rw [hk] at hb; simp at hb
      subst h0
      rw [hlen] at hq
      simp at hq hb
      subst hq hb
      show Fits a p (effects s.log cs.length)
      rw [hr.none _ (le_refl _)]; exact hf
  · intro i hi
    simp at hi
    exact hr.none i (by omega)

theorem RInv.move {cs : List TAct} {s s' : TQuota} (hr : RInv cs s) {i : Nat} {p q : TPhase}
    (hp : s.calls[i]? = some p) (hc : s'.calls = s.calls.set i q) (hl : s'.log = s.log)
    (hf : ∀ a es, Fits a p es → Fits a q es) : RInv cs s' := by
  refine ⟨by rw [hc, List.length_set, hr.len], ?_, by rw [hl]; exact hr.none⟩
  intro j r a h ha
  rw [hc] at h
  rw [hl]
  rcases getElem?_set_cases h with ⟨rfl, rfl⟩ | ⟨hne, h⟩
  · exact hf _ _ (hr.fits j p a hp ha)
  · exact hr.fits j r a h ha

theorem RInv.effect {cs : List TAct} {s s' : TQuota} (hr : RInv cs s) {i : Nat} {p q : TPhase} {e : TEvent}
    (hp : s.calls[i]? = some p) (hc : s'.calls = s.calls.set i q) (hl : s'.log = s.log ++ [(i, e)])
    (hf : ∀ a es, Fits a p es → Fits a q (es ++ [e])) : RInv cs s' := by
  refine ⟨by rw [hc, List.length_set, hr.len], ?_, ?_⟩
  · intro j r a h ha
    rw [hc] at h
    rw [hl, effects_snoc]
    rcases getElem?_set_cases h with ⟨rfl, rfl⟩ | ⟨hne, h⟩
    · rw [if_pos rfl]
      exact hf _ _ (hr.fits j p a hp ha)
    · rw [if_neg (by omega), List.append_nil]
      exact hr.fits j r a h ha
  · intro j hj
    have hi := (List.getElem?_eq_some_iff.mp hp).1
    have := hr.len
    rw [hl, effects_snoc, if_neg (by omega), hr.none j hj]
    rfl

theorem tstep_rinv {cs : List TAct} {s : TQuota} (hr : RInv cs s) (i : Nat) : RInv cs (tstep s (.run i)) := by
  simp only [tstep]
  split
  · exact hr
  · rename_i t hp
    split
    · refine hr.move hp rfl rfl ?_
      rintro (_ | _ | _) es h <;> simp_all [Fits]
    · exact hr
  · rename_i t hp
    split
    · refine hr.effect hp rfl rfl ?_
      rintro (_ | _ | _) es h <;> simp_all [Fits]
    · refine hr.move hp rfl rfl ?_
      rintro (_ | _ | _) es h <;> simp_all [Fits]
  · rename_i t hp
    refine hr.move hp rfl rfl ?_
    rintro (_ | _ | _) es h <;> simp_all [Fits]
  · rename_i t v hp
    refine hr.effect hp rfl rfl ?_
    rintro (_ | _ | _) es h <;> simp_all [Fits]
  · rename_i n hp
    split
    · refine hr.effect hp rfl rfl ?_
      rintro (_ | _ | _) es h <;> simp_all [Fits]
    · refine hr.move hp rfl rfl ?_
      rintro (_ | _ | _) es h <;> simp_all [Fits]
  · rename_i n hp
    split
    · refine hr.move hp rfl rfl ?_
      rintro (_ | _ | _) es h <;> simp_all [Fits]
    · exact hr
  · rename_i n hp
    refine hr.move hp rfl rfl ?_
    rintro (_ | _ | _) es h <;> simp_all [Fits]
  · rename_i n v hp
    refine hr.effect hp rfl rfl ?_
    rintro (_ | _ | _) es h <;> simp_all [Fits]
  · rename_i r hp
    refine hr.move hp rfl rfl ?_
    rintro (_ | _ | _) es h <;> simp_all [Fits]
  · exact hr

theorem trun_rinv (cap : Int) (acts : List TAct) : RInv (callsMade acts) (trun cap acts) := by
  induction acts using Verif.EventStream.snoc_induction with
  | h0 => exact ⟨rfl, by simp [trun], by simp [trun, effects]⟩
  | h1 as a ih =>
    unfold trun at ih ⊢
    rw [List.foldl_append]
    unfold callsMade at ih ⊢
    rw [List.filter_append]
    cases a with
    | callAcquire t => exact ih.call (Or.inl ⟨Or.inl rfl, rfl⟩)
    | callRelease n => exact ih.call (Or.inl ⟨Or.inl rfl, rfl⟩)
    | run i =>
      have := tstep_rinv ih i
      simpa [isCall] using this

/-! ## The property -/

theorem replay_bounds {cap : Int} (hc : 0 ≤ cap) : ∀ (es : List TEvent) {a b : Int},
    (∀ n, .released n ∈ es → 0 ≤ n) → 0 ≤ a → a ≤ cap → replay cap a es = some b → 0 ≤ b ∧ b ≤ cap ∨
      ∃ n, .acquired n ∈ es ∧ n < 0
  | [], a, b, _, h0, h1, h => by cases h; exact Or.inl ⟨h0, h1⟩
  | e :: es, a, b, hn, h0, h1, h => by
    have ih := fun {a : Int} => replay_bounds hc es (a := a) (b := b) (fun n hm => hn n (by simp [hm]))
    cases e with
    | acquired n =>
      simp only [replay] at h
      split at h
      · by_cases hneg : n < 0
        · exact Or.inr ⟨n, by simp, hneg⟩
        · rcases ih (by omega) (by omega) h with h | ⟨m, hm, hl⟩
          · exact Or.inl h
          · exact Or.inr ⟨m, by simp [hm], hl⟩
      · cases h
    | refused n =>
      simp only [replay] at h
      split at h
      · rcases ih h0 h1 h with h | ⟨m, hm, hl⟩
        · exact Or.inl h
        · exact Or.inr ⟨m, by simp [hm], hl⟩
      · cases h
    | released n =>
      simp only [replay] at h
      have := hn n (by simp)
      rcases ih (by omega) (by omega) h with h | ⟨m, hm, hl⟩
      · exact Or.inl h
      · exact Or.inr ⟨m, by simp [hm], hl⟩
    | skipped =>
      simp only [replay] at h
      split at h
      · rcases ih h0 h1 h with h | ⟨m, hm, hl⟩
        · exact Or.inl h
        · exact Or.inr ⟨m, by simp [hm], hl⟩
      · cases h

theorem effect_call {cap : Int} {acts : List TAct} {i : Nat} {e : TEvent} (h : (i, e) ∈ (trun cap acts).log) :
    ∃ a p, (callsMade acts)[i]? = some a ∧ Fits a p (effects (trun cap acts).log i) ∧
      e ∈ effects (trun cap acts).log i := by
  have hr := trun_rinv cap acts
  have he : e ∈ effects (trun cap acts).log i := by
    unfold effects
    simp only [List.mem_map, List.mem_filter]
    exact ⟨(i, e), ⟨h, by simp⟩, rfl⟩
  by_cases hi : i < (callsMade acts).length
  · have hp := List.getElem?_eq_getElem (l := (trun cap acts).calls) (i := i) (by rw [hr.len]; exact hi)
    have ha := List.getElem?_eq_getElem hi
    exact ⟨_, _, ha, hr.fits i _ _ hp ha, he⟩
  · rw [hr.none i (by omega)] at he
    cases he

/-- C12: whatever threads do and however their steps interleave, the capacity is never negative and never
exceeds the maximum. -/
theorem C12_bounds {cap : Int} (hc : 0 ≤ cap) (acts : List TAct)
    (hn : ∀ n, .callRelease n ∈ acts → 0 ≤ n) :
    0 ≤ (trun cap acts).avail ∧ (trun cap acts).avail ≤ cap := by
  have hl := (trun_inv cap acts).linear
  have mem : ∀ {i : Nat} {a : TAct}, (callsMade acts)[i]? = some a → a ∈ acts := by
    intro i a h
    exact List.mem_of_mem_filter (List.mem_of_getElem? h)
  have hrel : ∀ n, TEvent.released n ∈ (trun cap acts).log.map Prod.snd → 0 ≤ n := by
    intro n hm
    obtain ⟨⟨i, e⟩, hm, rfl⟩ := List.mem_map.mp hm
    obtain ⟨a, p, ha, hf, he⟩ := effect_call hm
    rcases a with t | m | j <;> simp only [Fits] at hf
    · rcases hf with ⟨_, hf⟩ | ⟨_, hf⟩ | ⟨_, hf⟩ <;> rw [hf] at he <;> simp at he
    · have := hn m (mem ha)
      rcases hf with ⟨_, hf⟩ | ⟨_, hf⟩ | ⟨_, hf⟩ <;> rw [hf] at he <;> simp at he
      subst he
      split <;> omega
  rcases replay_bounds hc _ hrel hc (le_refl _) hl with h | ⟨n, hm, hneg⟩
  · exact h
  · exfalso
    obtain ⟨⟨i, e⟩, hm, rfl⟩ := List.mem_map.mp hm
    obtain ⟨a, p, ha, hf, he⟩ := effect_call hm
    rcases a with t | m | j <;> simp only [Fits] at hf
    · rcases hf with ⟨_, hf⟩ | ⟨_, hf⟩ | ⟨_, hf⟩ <;> rw [hf] at he <;> simp at he
      subst he
      cases t <;> simp [cost] at hneg
    · rcases hf with ⟨_, hf⟩ | ⟨_, hf⟩ | ⟨_, hf⟩ <;> rw [hf] at he <;> simp at he

/-- C12: the calls behave as if they had run one after the other, in the order in which they took effect:
replaying their effects on a quota with a single user is possible and gives the capacity there is. -/
theorem C12_linearizable (cap : Int) (acts : List TAct) :
    replay cap cap ((trun cap acts).log.map Prod.snd) = some (trun cap acts).avail :=
  (trun_inv cap acts).linear

/-- C12: a call that asks for capacity and has returned took exactly what it reports, 5 for a throttling
error and 14 otherwise, once; and nothing if it raised. -/
theorem C12_acquire_reports (cap : Int) (acts : List TAct) {i : Nat} {throttling : Bool} {r : Option Int}
    (hc : (callsMade acts)[i]? = some (.callAcquire throttling))
    (hd : (trun cap acts).calls[i]? = some (.done r)) :
    let c : Int := if throttling then 5 else 14
    (r = some c ∧ effects (trun cap acts).log i = [.acquired c]) ∨
    (r = none ∧ effects (trun cap acts).log i = [.refused c]) := by
  have h := (trun_rinv cap acts).fits i _ _ hd hc
  simp only [Fits] at h
  rcases h with ⟨h, _⟩ | ⟨h, he⟩ | ⟨h, he⟩
  · simp at h
  · right; exact ⟨by simpa using h, he⟩
  · left; exact ⟨by simp only [reduceCtorEq, TPhase.done.injEq, false_or] at h; exact h, he⟩

/-- C12: a call that gives capacity back and has returned gave back its amount (one for zero) once,
unless the quota was full at some moment during the call. -/
theorem C12_release_reports (cap : Int) (acts : List TAct) {i : Nat} {n : Int} {r : Option Int}
    (hc : (callsMade acts)[i]? = some (.callRelease n))
    (hd : (trun cap acts).calls[i]? = some (.done r)) :
    effects (trun cap acts).log i = [.released (if n = 0 then 1 else n)] ∨
    effects (trun cap acts).log i = [.skipped] := by
  have h := (trun_rinv cap acts).fits i _ _ hd hc
  simp only [Fits] at h
  rcases h with ⟨h, _⟩ | ⟨h, he⟩ | ⟨h, he⟩
  · simp at h
  · right; exact he
  · left; exact he

/-- C12: at most one call is in the critical section. -/
theorem C12_mutual_exclusion (cap : Int) (acts : List TAct) {i j : Nat} {p q : TPhase}
    (hp : (trun cap acts).calls[i]? = some p) (hq : (trun cap acts).calls[j]? = some q)
    (hi : p.holds = true) (hj : q.holds = true) : i = j := by
  have h1 := (trun_inv cap acts).owner i p hp hi
  rw [(trun_inv cap acts).owner j q hq hj] at h1
  cases h1; rfl

/-- C12: the lock is never left behind: when every call has returned it is free. -/
theorem C12_lock_returned (cap : Int) (acts : List TAct)
    (h : ∀ p ∈ (trun cap acts).calls, ∃ r, p = .done r) : (trun cap acts).lock = none := by
  cases hl : (trun cap acts).lock with
  | none => rfl
  | some i =>
    obtain ⟨p, hp, hh⟩ := (trun_inv cap acts).owned i hl
    obtain ⟨r, rfl⟩ := h p (List.mem_of_getElem? hp)
    cases hh

/-- C12: no deadlock: some call can always make a step unless all have returned. -/
theorem C12_progress (cap : Int) (acts : List TAct) {i : Nat} {p : TPhase}
    (hp : (trun cap acts).calls[i]? = some p) (hd : ∀ r, p ≠ .done r) :
    ∃ j, tstep (trun cap acts) (.run j) ≠ trun cap acts := by
  have neq : ∀ {j : Nat} {a b : TPhase} {s' : TQuota}, (trun cap acts).calls[j]? = some a →
      s'.calls = (trun cap acts).calls.set j b → a ≠ b → s' ≠ trun cap acts := by
    intro j a b s' ha hs hab heq
    rw [heq] at hs
    have : ((trun cap acts).calls.set j b)[j]? = some b :=
      List.getElem?_set_self (List.getElem?_eq_some_iff.mp ha).1
    rw [← hs, ha] at this
    exact hab (Option.some.inj this)
  have held : ∀ {j : Nat} {a : TPhase}, (trun cap acts).calls[j]? = some a → a.holds = true →
      tstep (trun cap acts) (.run j) ≠ trun cap acts := by
    intro j a ha hh
    simp only [tstep, ha]
    cases a <;> simp only [TPhase.holds, Bool.false_eq_true] at hh
    · simp only
      split
      · exact neq (b := .unlock none) ha rfl (by simp)
      · exact neq (b := .acqLoad _) ha rfl (by simp)
    · exact neq (b := .acqStore _ _) ha rfl (by simp)
    · exact neq (b := .unlock _) ha rfl (by simp)
    · exact neq (b := .relStore _ _) ha rfl (by simp)
    · exact neq (b := .unlock _) ha rfl (by simp)
    · exact neq (b := .done _) ha rfl (by simp)
  cases hl : (trun cap acts).lock with
  | some j =>
    obtain ⟨q, hq, hh⟩ := (trun_inv cap acts).owned j hl
    exact ⟨j, held hq hh⟩
  | none =>
    refine ⟨i, ?_⟩
    cases hh : p.holds with
    | true => exact held hp hh
    | false =>
      simp only [tstep, hp]
      cases p <;> simp only [TPhase.holds, Bool.true_eq_false, reduceCtorEq] at hh
      · simp only [hl, if_true]; exact neq (b := .acqCheck _) hp rfl (by simp)
      · simp only
        split
        · exact neq (b := .done _) hp rfl (by simp)
        · exact neq (b := .relLock _) hp rfl (by simp)
      · simp only [hl, if_true]; exact neq (b := .relLoad _) hp rfl (by simp)
      · exact absurd rfl (hd _)

/-- Two threads race for the last capacity: one gets it, the other is refused, and a release then finds
its way in while a third call is between its check and its lock. -/
example :
    let s := trun 20 [.callAcquire false, .callAcquire false, .run 0, .run 1, .run 0, .run 0, .run 1, .run 0,
      .run 0, .run 1, .run 1, .run 1, .callRelease 14, .run 2, .run 2, .run 2, .run 2, .run 2, .run 2]
    s.calls = [.done (some 14), .done none, .done none] ∧ s.avail = 20 ∧
    s.log = [(0, .acquired 14), (1, .refused 14), (2, .released 14)] := by decide +kernel

end Verif.Retry

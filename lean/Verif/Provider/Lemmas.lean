import Mathlib.Tactic.Tauto
import Mathlib.Tactic.ByContra
import Verif.Provider.Spec

/-! # Invariants of the provider: who waits, what is buffered -/

set_option autoImplicit false

namespace Verif.Provider

variable {α : Type}

/-! ## Bookkeeping -/

def keys (ws : List (Nat × Bool)) : List Nat := ws.map Prod.fst

@[simp] theorem keys_markFirst (ws : List (Nat × Bool)) : keys (markFirst ws) = keys ws := by
  induction ws with
  | nil => rfl
  | cons w ws ih =>
    obtain ⟨i, b⟩ := w
    cases b
    · rfl
    · simp only [markFirst, keys, List.map_cons] at ih ⊢
      rw [ih]

@[simp] theorem keys_markAll (ws : List (Nat × Bool)) :
    keys (ws.map fun w => (w.1, true)) = keys ws := by
  simp [keys, Function.comp_def]

theorem mem_keys {ws : List (Nat × Bool)} {i : Nat} {b : Bool} (h : (i, b) ∈ ws) : i ∈ keys ws :=
  List.mem_map.2 ⟨(i, b), h, rfl⟩

/-- Every call has ended once or is waiting once. -/
structure WF (s : St α) : Prop where
  wnodup : (keys s.waiters).Nodup
  lnodup : (s.log.map Prod.fst).Nodup
  lbound : ∀ i ∈ s.log.map Prod.fst, i < s.calls.length
  waits : ∀ i, i ∈ keys s.waiters ↔ i < s.calls.length ∧ i ∉ s.log.map Prod.fst
  noAbandon : ∀ i ∈ keys s.waiters, s.calls[i]? ≠ some (.close false)

/-- The same while task `i` runs. -/
structure Mid (s : St α) (i : Nat) : Prop where
  wnodup : (keys s.waiters).Nodup
  lnodup : (s.log.map Prod.fst).Nodup
  lbound : ∀ j ∈ s.log.map Prod.fst, j < s.calls.length
  bound : i < s.calls.length
  running : i ∉ s.log.map Prod.fst
  waits : ∀ j, j ∈ keys s.waiters ↔ j < s.calls.length ∧ j ∉ s.log.map Prod.fst ∧ j ≠ i
  noAbandon : ∀ j ∈ keys s.waiters, s.calls[j]? ≠ some (.close false)

theorem Mid.congr {s s' : St α} {i : Nat} (h : Mid s i) (hk : keys s'.waiters = keys s.waiters)
    (hl : s'.log = s.log) (hc : s'.calls = s.calls) : Mid s' i := by
  constructor
  · rw [hk]; exact h.wnodup
  · rw [hl]; exact h.lnodup
  · rw [hl, hc]; exact h.lbound
  · rw [hc]; exact h.bound
  · rw [hl]; exact h.running
  · rw [hk, hl, hc]; exact h.waits
  · rw [hk, hc]; exact h.noAbandon

theorem Mid.finish {s : St α} {i : Nat} (h : Mid s i) (r : Res α) : WF (s.finish i r) := by
  constructor
  · exact h.wnodup
  · simp only [St.finish, List.map_append, List.map_cons, List.map_nil]
    rw [List.nodup_append]
    refine ⟨h.lnodup, by simp, ?_⟩
    intro a ha b hb
    simp only [List.mem_singleton] at hb
    rw [hb]
    intro he
    exact h.running (he ▸ ha)
  · intro j hj
    simp only [St.finish, List.map_append, List.map_cons, List.map_nil, List.mem_append,
      List.mem_singleton] at hj ⊢
    rcases hj with hj | hj
    · exact h.lbound j hj
    · rw [hj]; exact h.bound
  · intro j
    simp only [St.finish, List.map_append, List.map_cons, List.map_nil, List.mem_append,
      List.mem_singleton]
    rw [h.waits j]
    constructor
    · rintro ⟨h1, h2, h3⟩
      exact ⟨h1, by rintro (h | h); exact h2 h; exact h3 h⟩
    · rintro ⟨h1, h2⟩
      exact ⟨h1, fun h => h2 (Or.inl h), fun h => h2 (Or.inr h)⟩
  · exact h.noAbandon

theorem Mid.park {s : St α} {i : Nat} (h : Mid s i) (hc : s.calls[i]? ≠ some (.close false)) :
    WF (s.park i) := by
  have hni : i ∉ keys s.waiters := by
    intro hi
    exact ((h.waits i).1 hi).2.2 rfl
  have hk : keys (s.park i).waiters = keys s.waiters ++ [i] := by simp [St.park, keys]
  constructor
  · rw [hk, List.nodup_append]
    refine ⟨h.wnodup, by simp, ?_⟩
    intro a ha b hb
    simp only [List.mem_singleton] at hb
    rw [hb]
    intro he
    exact hni (he ▸ ha)
  · exact h.lnodup
  · exact h.lbound
  · intro j
    rw [hk, List.mem_append, List.mem_singleton, h.waits j]
    show _ ↔ j < s.calls.length ∧ j ∉ s.log.map Prod.fst
    constructor
    · rintro (⟨h1, h2, -⟩ | rfl)
      · exact ⟨h1, h2⟩
      · exact ⟨h.bound, h.running⟩
    · rintro ⟨h1, h2⟩
      by_cases hj : j = i
      · exact Or.inr hj
      · exact Or.inl ⟨h1, h2, hj⟩
  · intro j hj
    rw [hk, List.mem_append, List.mem_singleton] at hj
    rcases hj with hj | rfl
    · exact h.noAbandon j hj
    · exact hc

theorem WF.push {s : St α} (h : WF s) (c : Call α) :
    Mid { s with calls := s.calls ++ [c] } s.calls.length := by
  constructor
  · exact h.wnodup
  · exact h.lnodup
  · intro j hj
    have := h.lbound j hj
    simp only [List.length_append, List.length_cons, List.length_nil]
    omega
  · simp
  · intro hj
    exact absurd (h.lbound _ hj) (Nat.lt_irrefl _)
  · intro j
    show j ∈ keys s.waiters ↔ _
    rw [h.waits j]
    simp only [List.length_append, List.length_cons, List.length_nil]
    constructor
    · rintro ⟨h1, h2⟩
      exact ⟨by omega, h2, by omega⟩
    · rintro ⟨h1, h2, h3⟩
      exact ⟨by omega, h2⟩
  · intro j hj
    have h1 := ((h.waits j).1 hj).1
    show (s.calls ++ [c])[j]? ≠ _
    rw [List.getElem?_append_left h1]
    exact h.noAbandon j hj

theorem keys_erase {ws : List (Nat × Bool)} {i : Nat} {b : Bool} (hn : (keys ws).Nodup)
    (h : (i, b) ∈ ws) : keys (ws.erase (i, b)) = (keys ws).erase i := by
  induction ws with
  | nil => simp at h
  | cons w ws ih =>
    simp only [keys, List.map_cons, List.nodup_cons] at hn ih ⊢
    by_cases hw : w = (i, b)
    · subst hw
      simp
    · have hm : (i, b) ∈ ws := by
        rcases List.mem_cons.1 h with h | h
        · exact absurd h.symm hw
        · exact h
      have hne : w.1 ≠ i := by
        intro he
        exact hn.1 (he ▸ mem_keys hm)
      rw [List.erase_cons_tail (by simpa using hw), List.erase_cons_tail (by simpa using hne),
        List.map_cons, ih hn.2 hm]

theorem WF.wake {s : St α} (h : WF s) {i : Nat} (hi : (i, true) ∈ s.waiters) :
    Mid { s with waiters := s.waiters.erase (i, true) } i := by
  have hw := (h.waits i).1 (mem_keys hi)
  have hk := keys_erase h.wnodup hi
  constructor
  · show (keys (s.waiters.erase (i, true))).Nodup
    rw [hk]
    exact h.wnodup.erase _
  · exact h.lnodup
  · exact h.lbound
  · exact hw.1
  · exact hw.2
  · intro j
    show j ∈ keys (s.waiters.erase (i, true)) ↔ _
    rw [hk, h.wnodup.mem_erase_iff, h.waits j]
    tauto
  · intro j hj
    change j ∈ keys (s.waiters.erase (i, true)) at hj
    rw [hk, h.wnodup.mem_erase_iff] at hj
    exact h.noAbandon j hj.2

/-! ## A step, taken apart -/

/-- A step either does nothing, or lets a running task `i` go on to its next suspension. -/
theorem step_cases {P : St α → Prop} {s : St α} {a : Act α} (hwf : WF s)
    (hidle : ∀ i, a = .resume i → (i, true) ∉ s.waiters → P s)
    (hresume : ∀ i c, a = .resume i → (i, true) ∈ s.waiters → s.calls[i]? = some c →
      P (St.cont { s with waiters := s.waiters.erase (i, true) } i c))
    (hcall : ∀ c, a = .call c → P (s.start c)) : P (s.step a) := by
  cases a with
  | call c => exact hcall c rfl
  | resume i =>
    simp only [St.step, St.resume]
    by_cases hi : (i, true) ∈ s.waiters
    · rw [if_pos hi]
      have hb := ((hwf.waits i).1 (mem_keys hi)).1
      have hc : s.calls[i]? = some s.calls[i] := List.getElem?_eq_getElem hb
      simp only [hc]
      exact hresume i _ rfl hi hc
    · rw [if_neg hi]
      exact hidle i rfl hi

theorem WF.cont {s : St α} {i : Nat} {c : Call α} (h : Mid s i) (hc : s.calls[i]? = some c)
    (hne : c ≠ .close false) : WF (s.cont i c) := by
  have hp : s.calls[i]? ≠ some (.close false) := by
    rw [hc]
    intro he
    exact hne (Option.some.inj he)
  cases c with
  | write d =>
    simp only [St.cont, St.contWrite]
    by_cases h1 : s.canWrite
    · rw [if_pos h1]
      by_cases h2 : (s.closed || s.closing) = true
      · rw [if_pos h2]
        exact Mid.finish (s := s.notify) (h.congr (by simp [St.notify]) rfl rfl) _
      · rw [if_neg h2]
        exact Mid.finish (s := St.notify { s with data := s.data ++ [d] })
          (h.congr (by simp [St.notify]) rfl rfl) _
    · rw [if_neg h1]
      exact h.park hp
  | flush =>
    simp only [St.cont, St.contFlush]
    by_cases h1 : s.data.isEmpty
    · rw [if_pos h1]
      exact Mid.finish (s := { s with flushing := false }) (h.congr rfl rfl rfl) _
    · rw [if_neg h1]
      exact h.park hp
  | close f =>
    cases f with
    | false => exact absurd rfl hne
    | true =>
      simp only [St.cont, St.contClose]
      by_cases h1 : s.data.isEmpty
      · rw [if_pos h1]
        exact Mid.finish (s := St.notifyAll { s with closed := true, closing := false })
          (h.congr (by simp [St.notifyAll]) rfl rfl) _
      · rw [if_neg h1]
        exact h.park hp
  | read =>
    simp only [St.cont, St.contRead]
    by_cases h1 : s.closed
    · rw [if_pos h1]
      exact h.finish _
    · rw [if_neg h1]
      cases hd : s.data with
      | nil => exact h.park hp
      | cons d ds =>
        exact Mid.finish (s := St.notify { s with data := ds })
          (h.congr (by simp [St.notify]) rfl rfl) _

theorem WF.start {s : St α} (h : WF s) (c : Call α) : WF (s.start c) := by
  have hm := h.push c
  have hc : (s.calls ++ [c])[s.calls.length]? = some c := by simp
  cases c with
  | write d =>
    simp only [St.start]
    by_cases h1 : s.closed
    · rw [if_pos h1]; exact hm.finish _
    · rw [if_neg h1]; exact WF.cont (c := .write d) hm hc (by simp)
  | flush =>
    simp only [St.start]
    by_cases h1 : s.closed
    · rw [if_pos h1]; exact hm.finish _
    · rw [if_neg h1]
      exact WF.cont (c := .flush) (s := { s with calls := s.calls ++ [.flush], flushing := true })
        (hm.congr rfl rfl rfl) hc (by simp)
  | close f =>
    cases f with
    | true =>
      simp only [St.start]
      by_cases h1 : s.closed
      · rw [if_pos h1]; exact hm.finish _
      · rw [if_neg h1]
        exact WF.cont (c := .close true)
          (s := { s with calls := s.calls ++ [.close true], closing := true })
          (hm.congr rfl rfl rfl) hc (by simp)
    | false =>
      simp only [St.start]
      by_cases h1 : s.closed
      · rw [if_pos h1]; exact hm.finish _
      · rw [if_neg h1]
        exact Mid.finish (s := St.notifyAll { s with calls := s.calls ++ [.close false], data := [], closed := true, closing := false })
          (hm.congr (by simp [St.notifyAll]) rfl rfl) _
  | read =>
    simp only [St.start]
    exact WF.cont (c := .read) hm hc (by simp)

theorem WF.step {s : St α} (h : WF s) (a : Act α) : WF (s.step a) := by
  refine step_cases h ?_ ?_ ?_
  · intro i _ _
    exact h
  · intro i c _ hi hc
    refine WF.cont (h.wake hi) hc ?_
    intro he
    exact h.noAbandon i (mem_keys hi) (he ▸ hc)
  · intro c _
    exact h.start c

theorem init_wf {initial : Option α} {m : Nat} {s₀ : St α} (h : init initial m = some s₀) :
    WF s₀ := by
  simp only [init] at h
  split at h
  · simp at h
  · simp only [Option.some.injEq] at h
    subst h
    constructor <;> simp [keys]

theorem WF.run {s : St α} (h : WF s) (acts : List (Act α)) : WF (s.run acts) := by
  induction acts generalizing s with
  | nil => exact h
  | cons a acts ih => exact ih (h.step a)

/-! ## What is buffered -/

theorem accepted_finish (s : St α) (i : Nat) (r : Res α) :
    (s.finish i r).accepted = s.accepted ++
      (match s.calls[i]?, r with
        | some (.write c), .ok => [c]
        | _, _ => []) := by
  simp only [St.accepted, acceptedOf, St.finish, List.filterMap_append]
  congr 1
  simp only [List.filterMap_cons, List.filterMap_nil]
  generalize s.calls[i]? = o
  cases o with
  | none => rfl
  | some c => cases c <;> cases r <;> rfl

theorem delivered_finish (s : St α) (i : Nat) (r : Res α) :
    (s.finish i r).delivered = s.delivered ++
      (match r with
        | .item c => [c]
        | _ => []) := by
  simp only [St.delivered, deliveredOf, St.finish, List.filterMap_append]
  congr 1
  cases r <;> rfl

theorem acceptedOf_append {calls : List (Call α)} {log : List (Nat × Res α)} (c : Call α)
    (h : ∀ i ∈ log.map Prod.fst, i < calls.length) :
    acceptedOf (calls ++ [c]) log = acceptedOf calls log := by
  induction log with
  | nil => rfl
  | cons e log ih =>
    have h1 : (calls ++ [c])[e.1]? = calls[e.1]? := List.getElem?_append_left (h e.1 (by simp))
    have h2 := ih fun i hi => h i (List.mem_cons_of_mem _ hi)
    simp only [acceptedOf] at h2 ⊢
    simp only [List.filterMap_cons, h1, h2]

/-- Accepted chunks are delivered, buffered or (after an abandoning close) lost, in this order. -/
structure Buf (start lost : List α) (s : St α) : Prop where
  split : start ++ s.accepted = s.delivered ++ s.data ++ lost
  lostClosed : lost ≠ [] → s.closed = true
  bound : s.data.length ≤ s.maxChunks
  pos : 1 ≤ s.maxChunks
  closedEmpty : s.closed = true → s.data = []

theorem Buf.congr {start lost : List α} {s s' : St α} (h : Buf start lost s)
    (ha : s'.accepted = s.accepted) (hd : s'.delivered = s.delivered) (hx : s'.data = s.data)
    (hm : s'.maxChunks = s.maxChunks) (hc : s'.closed = s.closed) : Buf start lost s' := by
  constructor
  · rw [ha, hd, hx]; exact h.split
  · rw [hc]; exact h.lostClosed
  · rw [hx, hm]; exact h.bound
  · rw [hm]; exact h.pos
  · rw [hc, hx]; exact h.closedEmpty

/-- Ending a call in a way that neither accepts nor delivers a chunk. -/
theorem Buf.quiet {start lost : List α} {s : St α} (h : Buf start lost s) {i : Nat} {r : Res α}
    (hr : ∀ c, r ≠ .item c) (hw : r = .ok → ∀ c, s.calls[i]? ≠ some (.write c)) :
    Buf start lost (s.finish i r) := by
  refine h.congr ?_ ?_ rfl rfl rfl
  · rw [accepted_finish]
    generalize hq : s.calls[i]? = q
    cases r with
    | ok =>
      cases q with
      | none => simp
      | some c =>
        cases c with
        | write d => exact absurd hq (hw rfl d)
        | _ => simp
    | _ => cases q with
      | none => simp
      | some c => cases c <;> simp
  · rw [delivered_finish]
    cases r with
    | item c => exact absurd rfl (hr c)
    | _ => simp

theorem Buf.shut {start : List α} {s : St α} (h : Buf start [] s) {i : Nat}
    (hw : ∀ c, s.calls[i]? ≠ some (.write c)) (hd : s.data = []) : Buf start [] (s.shut i) := by
  refine Buf.quiet (s := St.notifyAll { s with closed := true, closing := false }) ?_
    (by simp) (fun _ => hw)
  constructor
  · exact h.split
  · simp
  · exact h.bound
  · exact h.pos
  · intro _; exact hd

theorem Buf.cont {start lost : List α} {s : St α} {i : Nat} {c : Call α} (h : Buf start lost s)
    (hc : s.calls[i]? = some c) : Buf start lost (s.cont i c) := by
  have hlost : s.closed = false → lost = [] := by
    intro hcl
    by_contra hne
    rw [h.lostClosed hne] at hcl
    cases hcl
  cases c with
  | write d =>
    simp only [St.cont, St.contWrite]
    by_cases h1 : s.canWrite
    · rw [if_pos h1]
      by_cases h2 : (s.closed || s.closing) = true
      · rw [if_pos h2]
        exact Buf.quiet (s := s.notify) (h.congr rfl rfl rfl rfl rfl) (by simp) (by simp)
      · rw [if_neg h2]
        simp only [Bool.or_eq_true, not_or, Bool.not_eq_true] at h2
        simp only [St.canWrite, h2.1, h2.2, Bool.false_or, Bool.and_eq_true,
          decide_eq_true_eq] at h1
        constructor
        · rw [accepted_finish, delivered_finish]
          show start ++ (s.accepted ++ _) = s.delivered ++ [] ++ (s.data ++ [d]) ++ lost
          have hc' : (St.notify { s with data := s.data ++ [d] }).calls[i]? = some (.write d) := hc
          rw [hc', hlost h2.1]
          have hs := h.split
          rw [hlost h2.1] at hs
          simp only [List.append_nil] at hs ⊢
          rw [← List.append_assoc, hs]
          simp
        · intro hl
          exact h.lostClosed hl
        · show (s.data ++ [d]).length ≤ s.maxChunks
          simp only [List.length_append, List.length_cons, List.length_nil]
          omega
        · exact h.pos
        · intro hcl
          have : s.closed = true := hcl
          rw [h2.1] at this
          cases this
    · rw [if_neg h1]
      exact h.congr rfl rfl rfl rfl rfl
  | flush =>
    simp only [St.cont, St.contFlush]
    by_cases h1 : s.data.isEmpty
    · rw [if_pos h1]
      refine Buf.quiet (s := { s with flushing := false }) (h.congr rfl rfl rfl rfl rfl) (by simp) ?_
      intro _ c
      show s.calls[i]? ≠ _
      rw [hc]
      simp
    · rw [if_neg h1]
      exact h.congr rfl rfl rfl rfl rfl
  | close f =>
    cases f with
    | false => exact h
    | true =>
      simp only [St.cont, St.contClose]
      by_cases h1 : s.data.isEmpty
      · rw [if_pos h1]
        have hd : s.data = [] := List.isEmpty_iff.1 h1
        refine Buf.quiet (s := St.notifyAll { s with closed := true, closing := false }) ?_
          (by simp) ?_
        · exact ⟨h.split, fun _ => rfl, h.bound, h.pos, fun _ => hd⟩
        · intro _ c
          show s.calls[i]? ≠ _
          rw [hc]
          simp
      · rw [if_neg h1]
        exact h.congr rfl rfl rfl rfl rfl
  | read =>
    simp only [St.cont, St.contRead]
    by_cases h1 : s.closed
    · rw [if_pos h1]
      exact h.quiet (by simp) (by simp)
    · rw [if_neg h1]
      cases hd : s.data with
      | nil => exact h.congr rfl rfl rfl rfl rfl
      | cons d ds =>
        constructor
        · rw [accepted_finish, delivered_finish]
          have hc' : (St.notify { s with data := ds }).calls[i]? = some .read := hc
          rw [hc']
          show start ++ (s.accepted ++ []) = s.delivered ++ [d] ++ ds ++ lost
          rw [List.append_nil, h.split, hd]
          simp
        · intro hl
          exact h.lostClosed hl
        · show ds.length ≤ s.maxChunks
          have := h.bound
          rw [hd] at this
          simp only [List.length_cons] at this
          omega
        · exact h.pos
        · intro hcl
          exact absurd hcl h1

theorem Buf.push {start lost : List α} {s : St α} (h : Buf start lost s) (hwf : WF s)
    (c : Call α) : Buf start lost { s with calls := s.calls ++ [c] } :=
  h.congr (acceptedOf_append c hwf.lbound) rfl rfl rfl rfl

theorem Buf.start {start lost : List α} {s : St α} (h : Buf start lost s) (hwf : WF s)
    (c : Call α) : ∃ lost', Buf start lost' (s.start c) ∧ (c ≠ .close false → lost' = lost) := by
  have hb := h.push hwf c
  have hc : (s.calls ++ [c])[s.calls.length]? = some c := by simp
  cases c with
  | write d =>
    refine ⟨lost, ?_, fun _ => rfl⟩
    simp only [St.start]
    by_cases h1 : s.closed
    · rw [if_pos h1]; exact hb.quiet (by simp) (by simp)
    · rw [if_neg h1]; exact hb.cont (c := .write d) hc
  | flush =>
    refine ⟨lost, ?_, fun _ => rfl⟩
    simp only [St.start]
    by_cases h1 : s.closed
    · rw [if_pos h1]
      refine hb.quiet (by simp) ?_
      intro _ c
      show (s.calls ++ [Call.flush])[s.calls.length]? ≠ _
      rw [hc]
      simp
    · rw [if_neg h1]
      exact Buf.cont (c := .flush) (s := { s with calls := s.calls ++ [.flush], flushing := true })
        (hb.congr rfl rfl rfl rfl rfl) hc
  | close f =>
    cases f with
    | true =>
      refine ⟨lost, ?_, fun _ => rfl⟩
      simp only [St.start]
      by_cases h1 : s.closed
      · rw [if_pos h1]
        refine hb.quiet (by simp) ?_
        intro _ c
        show (s.calls ++ [Call.close true])[s.calls.length]? ≠ _
        rw [hc]
        simp
      · rw [if_neg h1]
        exact Buf.cont (c := .close true)
          (s := { s with calls := s.calls ++ [.close true], closing := true })
          (hb.congr rfl rfl rfl rfl rfl) hc
    | false =>
      simp only [St.start]
      have hq : ∀ c, (s.calls ++ [Call.close false])[s.calls.length]? ≠ some (Call.write c) := by
        intro c
        rw [hc]
        simp
      by_cases h1 : s.closed
      · rw [if_pos h1]
        exact ⟨lost, hb.quiet (by simp) fun _ c => hq c, fun hn => absurd rfl hn⟩
      · rw [if_neg h1]
        refine ⟨s.data ++ lost, ?_, fun hn => absurd rfl hn⟩
        refine Buf.quiet (s := St.notifyAll { s with calls := s.calls ++ [.close false], data := [], closed := true, closing := false }) ?_ (by simp) fun _ c => hq c
        refine ⟨?_, fun _ => rfl, by simp [St.notifyAll], h.pos, fun _ => rfl⟩
        have := hb.split
        show _ ++ _ = _ ++ [] ++ (s.data ++ lost)
        rw [List.append_nil, ← List.append_assoc]
        exact this
  | read =>
    refine ⟨lost, ?_, fun _ => rfl⟩
    simp only [St.start]
    exact hb.cont (c := .read) hc

theorem Buf.step {start lost : List α} {s : St α} (h : Buf start lost s) (hwf : WF s)
    (a : Act α) : ∃ lost', Buf start lost' (s.step a) ∧
      (a ≠ .call (.close false) → lost' = lost) := by
  refine step_cases (P := fun s' => ∃ lost', Buf start lost' s' ∧
      (a ≠ .call (.close false) → lost' = lost)) hwf ?_ ?_ ?_
  · intro i _ _
    exact ⟨lost, h, fun _ => rfl⟩
  · intro i c _ hi hc
    refine ⟨lost, ?_, fun _ => rfl⟩
    exact Buf.cont (s := { s with waiters := s.waiters.erase (i, true) })
      (h.congr rfl rfl rfl rfl rfl) hc
  · intro c ha
    obtain ⟨l, h1, h2⟩ := h.start hwf c
    refine ⟨l, h1, fun hn => h2 fun he => hn (he ▸ ha)⟩

theorem init_buf {initial : Option α} {m : Nat} {s₀ : St α} (h : init initial m = some s₀) :
    Buf initial.toList [] s₀ := by
  simp only [init] at h
  split at h
  · simp at h
  · simp only [Option.some.injEq] at h
    subst h
    refine ⟨by simp [St.accepted, St.delivered, acceptedOf, deliveredOf], by simp, ?_, ?_, by simp⟩
    · cases initial <;> simp <;> omega
    · show 1 ≤ m
      omega

theorem Buf.run {start lost : List α} {s : St α} (h : Buf start lost s) (hwf : WF s)
    (acts : List (Act α)) : ∃ lost', Buf start lost' (s.run acts) ∧
      (NoAbandon acts → lost' = lost) := by
  induction acts generalizing s lost with
  | nil => exact ⟨lost, h, fun _ => rfl⟩
  | cons a acts ih =>
    obtain ⟨l1, h1, e1⟩ := h.step hwf a
    obtain ⟨l2, h2, e2⟩ := ih h1 (hwf.step a)
    refine ⟨l2, h2, ?_⟩
    intro hn
    simp only [NoAbandon, List.mem_cons, not_or] at hn
    rw [e2 hn.2, e1 fun he => hn.1 he.symm]

/-! ## Once closing starts -/

/-- `s'` is a later state of a provider that had begun to close in `s`. -/
structure Shutting (acc : List α) (s : St α) : Prop where
  shut : s.closed = true ∨ s.closing = true
  acc : s.accepted = acc

theorem Shutting.quiet {acc : List α} {s : St α} (h : Shutting acc s) {i : Nat} {r : Res α}
    (hw : r = .ok → ∀ c, s.calls[i]? ≠ some (.write c)) : Shutting acc (s.finish i r) := by
  refine ⟨h.shut, ?_⟩
  rw [accepted_finish, h.acc]
  generalize hq : s.calls[i]? = q
  cases r with
  | ok =>
    cases q with
    | none => simp
    | some c =>
      cases c with
      | write d => exact absurd hq (hw rfl d)
      | _ => simp
  | _ => cases q with
    | none => simp
    | some c => cases c <;> simp

theorem Shutting.cont {acc : List α} {s : St α} {i : Nat} {c : Call α} (h : Shutting acc s)
    (hc : s.calls[i]? = some c) : Shutting acc (s.cont i c) := by
  have hs : (s.closed || s.closing) = true := by simpa using h.shut
  cases c with
  | write d =>
    simp only [St.cont, St.contWrite]
    rw [if_pos (by simp only [St.canWrite, hs, Bool.true_or]), if_pos hs]
    exact Shutting.quiet (s := s.notify) ⟨h.shut, h.acc⟩ (by simp)
  | flush =>
    simp only [St.cont, St.contFlush]
    by_cases h1 : s.data.isEmpty
    · rw [if_pos h1]
      refine Shutting.quiet (s := { s with flushing := false }) ⟨h.shut, h.acc⟩ ?_
      intro _ c
      show s.calls[i]? ≠ _
      rw [hc]
      simp
    · rw [if_neg h1]
      exact ⟨h.shut, h.acc⟩
  | close f =>
    cases f with
    | false => exact h
    | true =>
      simp only [St.cont, St.contClose]
      by_cases h1 : s.data.isEmpty
      · rw [if_pos h1]
        refine Shutting.quiet (s := St.notifyAll { s with closed := true, closing := false })
          ⟨Or.inl rfl, h.acc⟩ ?_
        intro _ c
        show s.calls[i]? ≠ _
        rw [hc]
        simp
      · rw [if_neg h1]
        exact ⟨h.shut, h.acc⟩
  | read =>
    simp only [St.cont, St.contRead]
    by_cases h1 : s.closed
    · rw [if_pos h1]
      exact h.quiet (by simp)
    · rw [if_neg h1]
      cases hd : s.data with
      | nil => exact ⟨h.shut, h.acc⟩
      | cons d ds => exact Shutting.quiet (s := St.notify { s with data := ds }) ⟨h.shut, h.acc⟩ (by simp)

theorem Shutting.start {acc : List α} {s : St α} (hwf : WF s) (c : Call α)
    (h : Shutting acc s ∨ (∃ f, c = .close f) ∧ s.accepted = acc) : Shutting acc (s.start c) := by
  have ha : ({ s with calls := s.calls ++ [c] } : St α).accepted = acc := by
    rw [show ({ s with calls := s.calls ++ [c] } : St α).accepted = s.accepted from
      acceptedOf_append c hwf.lbound]
    rcases h with h | h
    · exact h.acc
    · exact h.2
  have hc : (s.calls ++ [c])[s.calls.length]? = some c := by simp
  cases c with
  | write d =>
    have h := h.resolve_right (by simp)
    simp only [St.start]
    by_cases h1 : s.closed
    · rw [if_pos h1]; exact Shutting.quiet (s := { s with calls := s.calls ++ [.write d] }) ⟨h.shut, ha⟩ (by simp)
    · rw [if_neg h1]; exact Shutting.cont (c := .write d) (s := { s with calls := s.calls ++ [.write d] }) ⟨h.shut, ha⟩ hc
  | flush =>
    have h := h.resolve_right (by simp)
    simp only [St.start]
    by_cases h1 : s.closed
    · rw [if_pos h1]
      refine Shutting.quiet (s := { s with calls := s.calls ++ [.flush] }) ⟨h.shut, ha⟩ ?_
      intro _ c
      show (s.calls ++ [Call.flush])[s.calls.length]? ≠ _
      rw [hc]
      simp
    · rw [if_neg h1]
      exact Shutting.cont (c := .flush)
        (s := { s with calls := s.calls ++ [.flush], flushing := true }) ⟨h.shut, ha⟩ hc
  | close f =>
    have hq : ∀ c, (s.calls ++ [Call.close f])[s.calls.length]? ≠ some (Call.write c) := by
      intro c
      rw [hc]
      simp
    cases f with
    | true =>
      simp only [St.start]
      by_cases h1 : s.closed
      · rw [if_pos h1]
        exact Shutting.quiet (s := { s with calls := s.calls ++ [.close true] }) ⟨Or.inl h1, ha⟩ fun _ c => hq c
      · rw [if_neg h1]
        exact Shutting.cont (c := .close true)
          (s := { s with calls := s.calls ++ [.close true], closing := true })
          ⟨Or.inr rfl, ha⟩ hc
    | false =>
      simp only [St.start]
      by_cases h1 : s.closed
      · rw [if_pos h1]
        exact Shutting.quiet (s := { s with calls := s.calls ++ [.close false] }) ⟨Or.inl h1, ha⟩ fun _ c => hq c
      · rw [if_neg h1]
        exact Shutting.quiet (s := St.notifyAll { s with calls := s.calls ++ [.close false], data := [], closed := true, closing := false }) ⟨Or.inl rfl, ha⟩ fun _ c => hq c
  | read =>
    have h := h.resolve_right (by simp)
    simp only [St.start]
    exact Shutting.cont (c := .read) (s := { s with calls := s.calls ++ [.read] }) ⟨h.shut, ha⟩ hc

theorem Shutting.run {acc : List α} {s : St α} (h : Shutting acc s) (hwf : WF s)
    (acts : List (Act α)) : Shutting acc (s.run acts) := by
  induction acts generalizing s with
  | nil => exact h
  | cons a acts ih =>
    refine ih ?_ (hwf.step a)
    refine step_cases (P := Shutting acc) hwf ?_ ?_ ?_
    · intro i _ _
      exact h
    · intro i c _ hi hc
      exact Shutting.cont (s := { s with waiters := s.waiters.erase (i, true) }) ⟨h.shut, h.acc⟩ hc
    · intro c _
      exact Shutting.start hwf c (Or.inl h)

theorem run_append (s : St α) (xs ys : List (Act α)) : s.run (xs ++ ys) = (s.run xs).run ys :=
  List.foldl_append

end Verif.Provider

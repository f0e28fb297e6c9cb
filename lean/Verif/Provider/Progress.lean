import Verif.Provider.Lemmas

/-! # One producer and one consumer: nobody waits for nothing -/

set_option autoImplicit false

namespace Verif.Provider

variable {α : Type}

/-- Why a call of this kind may be waiting without having been notified. -/
def Blocked (s : St α) (c : Call α) : Prop :=
  s.closed = false ∧ (if c.isRead then s.data = [] else s.data ≠ [])

structure Lv (s : St α) : Prop where
  apart : ∀ i j ci cj, i ∈ keys s.waiters → j ∈ keys s.waiters → s.calls[i]? = some ci →
    s.calls[j]? = some cj → ci.isRead = cj.isRead → i = j
  blocked : ∀ i c, (i, false) ∈ s.waiters → s.calls[i]? = some c → Blocked s c
  flushing : s.flushing = true → ∃ i ∈ keys s.waiters, s.calls[i]? = some .flush

/-- While a task runs the call `c`, at most one other task waits, and it makes calls of the other
kind. -/
def Other (s : St α) (c : Call α) : Prop :=
  s.waiters = [] ∨ ∃ j b cj, s.waiters = [(j, b)] ∧ s.calls[j]? = some cj ∧
    cj.isRead = !c.isRead ∧ (b = false → Blocked s cj)

theorem other_of {s : St α} {c : Call α} (hn : (keys s.waiters).Nodup)
    (hb : ∀ j ∈ keys s.waiters, ∃ cj, s.calls[j]? = some cj ∧ cj.isRead = !c.isRead)
    (hapart : ∀ i j ci cj, i ∈ keys s.waiters → j ∈ keys s.waiters → s.calls[i]? = some ci →
      s.calls[j]? = some cj → ci.isRead = cj.isRead → i = j)
    (hblocked : ∀ i c, (i, false) ∈ s.waiters → s.calls[i]? = some c → Blocked s c) :
    Other s c := by
  rcases hw : s.waiters with _ | ⟨⟨j, b⟩, ws⟩
  · exact Or.inl hw
  · right
    rw [hw] at hn hb hapart hblocked
    obtain ⟨cj, hj, hk⟩ := hb j (by simp [keys])
    rcases ws with _ | ⟨⟨k, b'⟩, ws⟩
    · refine ⟨j, b, cj, hw, hj, hk, ?_⟩
      intro hb0
      subst hb0
      exact hblocked j cj (by simp) hj
    · exfalso
      obtain ⟨ck, hk1, hk2⟩ := hb k (by simp [keys])
      have := hapart j k cj ck (by simp [keys]) (by simp [keys]) hj hk1 (by rw [hk, hk2])
      simp [keys, this] at hn

/-- From at most one marked or truly blocked waiter to the invariant. -/
theorem lv_one {s : St α} {w : List (Nat × Bool)} (hw : s.waiters = w)
    (hf : s.flushing = false ∨ ∃ i ∈ keys w, s.calls[i]? = some .flush)
    (h : w = [] ∨ ∃ j b, w = [(j, b)] ∧ ∀ cj, s.calls[j]? = some cj → b = false → Blocked s cj) :
    Lv s := by
  subst hw
  constructor
  · intro i j ci cj hi hj _ _ _
    rcases h with h | ⟨k, b, h, -⟩
    · rw [h] at hi
      simp [keys] at hi
    · rw [h] at hi hj
      simp only [keys, List.map_cons, List.map_nil, List.mem_singleton] at hi hj
      rw [hi, hj]
  · intro i c hi hc
    rcases h with h | ⟨k, b, h, hb⟩
    · rw [h] at hi
      simp at hi
    · rw [h] at hi
      simp only [List.mem_singleton, Prod.mk.injEq] at hi
      exact hb c (hi.1 ▸ hc) hi.2.symm
  · intro hfl
    rcases hf with hf | hf
    · rw [hf] at hfl; cases hfl
    · exact hf

theorem lv_park {s : St α} {i : Nat} {c : Call α} (ho : Other s c) (hc : s.calls[i]? = some c)
    (hb : Blocked s c)
    (hf : s.flushing = true → c = .flush ∨ ∃ j ∈ keys s.waiters, s.calls[j]? = some .flush) :
    Lv (s.park i) := by
  constructor
  · intro a b ca cb ha hb hca hcb hk
    change s.calls[a]? = some ca at hca
    change s.calls[b]? = some cb at hcb
    simp only [St.park, keys, List.map_append, List.map_cons, List.map_nil, List.mem_append,
      List.mem_singleton] at ha hb
    rcases ho with ho | ⟨j, b', cj, ho, hj, hjk, -⟩
    · rw [ho] at ha hb
      simp only [List.map_nil, List.not_mem_nil, false_or] at ha hb
      rw [ha, hb]
    · rw [ho] at ha hb
      simp only [List.map_cons, List.map_nil, List.mem_singleton] at ha hb
      rcases ha with ha | ha <;> rcases hb with hb | hb
      · rw [ha, hb]
      · rw [ha, hj] at hca
        rw [hb, hc] at hcb
        cases hca; cases hcb
        rw [hjk] at hk
        cases hcc : c.isRead <;> simp [hcc] at hk
      · rw [ha, hc] at hca
        rw [hb, hj] at hcb
        cases hca; cases hcb
        rw [hjk] at hk
        cases hcc : c.isRead <;> simp [hcc] at hk
      · rw [ha, hb]
  · intro a ca ha hca
    change s.calls[a]? = some ca at hca
    show Blocked s ca
    simp only [St.park, List.mem_append, List.mem_singleton, Prod.mk.injEq, and_true] at ha
    rcases ha with ha | ha
    · rcases ho with ho | ⟨j, b', cj, ho, hj, -, hbj⟩
      · rw [ho] at ha
        simp at ha
      · rw [ho] at ha
        simp only [List.mem_singleton, Prod.mk.injEq] at ha
        rw [ha.1, hj] at hca
        cases hca
        exact hbj ha.2.symm
    · rw [ha, hc] at hca
      cases hca
      exact hb
  · intro hfl
    simp only [St.park, keys, List.map_append, List.map_cons, List.map_nil, List.mem_append,
      List.mem_singleton]
    rcases hf hfl with h | ⟨j, hj, h⟩
    · exact ⟨i, Or.inr rfl, h ▸ hc⟩
    · exact ⟨j, Or.inl hj, h⟩

theorem Lv.cont {start lost : List α} {s : St α} {i : Nat} {c : Call α} (hb : Buf start lost s)
    (ho : Other s c) (hc : s.calls[i]? = some c) (hne : c ≠ .close false)
    (hf : s.flushing = true → c = .flush ∨ ∃ j ∈ keys s.waiters, s.calls[j]? = some .flush) :
    Lv (s.cont i c) := by
  have hnf : c ≠ .flush → c.isRead = false → s.flushing = false := by
    intro h1 h2
    by_contra hfl
    rcases hf (by simpa using hfl) with h | ⟨j, hj, h⟩
    · exact h1 h
    · rcases ho with ho | ⟨k, b, ck, ho, hk, hkk, -⟩
      · rw [ho] at hj; simp [keys] at hj
      · rw [ho] at hj
        simp only [keys, List.map_cons, List.map_nil, List.mem_singleton] at hj
        rw [hj, hk] at h
        cases h
        rw [h2] at hkk
        simp [Call.isRead] at hkk
  have hmark : ∀ s' : St α, s'.waiters = markFirst s.waiters → s'.calls = s.calls →
      (s'.flushing = false ∨ ∃ j ∈ keys (markFirst s.waiters), s'.calls[j]? = some .flush) →
      Lv s' := by
    intro s' hw hcs hfl
    refine lv_one hw hfl ?_
    rcases ho with ho | ⟨j, b, cj, ho, -, -, -⟩
    · left; rw [ho]; rfl
    · right
      refine ⟨j, true, ?_, by simp⟩
      rw [ho]
      cases b <;> rfl
  cases c with
  | write d =>
    have hfl := hnf (by simp) rfl
    simp only [St.cont, St.contWrite]
    by_cases h1 : s.canWrite
    · rw [if_pos h1]
      by_cases h2 : (s.closed || s.closing) = true
      · rw [if_pos h2]
        exact hmark _ rfl rfl (Or.inl hfl)
      · rw [if_neg h2]
        exact hmark _ rfl rfl (Or.inl hfl)
    · rw [if_neg h1]
      refine lv_park ho hc ?_ hf
      simp only [St.canWrite, hfl, Bool.not_eq_true, Bool.or_eq_false_iff, Bool.not_false,
        Bool.and_true, decide_eq_false_iff_not, Nat.not_lt] at h1
      refine ⟨h1.1.1, ?_⟩
      simp only [Call.isRead, Bool.false_eq_true, if_false]
      intro hd
      have hp := hb.pos
      have h3 := h1.2
      rw [hd] at h3
      simp at h3
      omega
  | flush =>
    simp only [St.cont, St.contFlush]
    by_cases h1 : s.data.isEmpty
    · rw [if_pos h1]
      refine lv_one (w := s.waiters) rfl (Or.inl rfl) ?_
      rcases ho with ho | ⟨j, b, cj, ho, hj, -, hbl⟩
      · exact Or.inl ho
      · right
        refine ⟨j, b, ho, ?_⟩
        intro cj' hj' hb0
        change s.calls[j]? = some cj' at hj'
        rw [hj] at hj'
        cases hj'
        exact hbl hb0
    · rw [if_neg h1]
      have hd : s.data ≠ [] := by simpa using h1
      refine lv_park ho hc ⟨?_, by simpa [Call.isRead] using hd⟩ hf
      by_contra hcl
      exact hd (hb.closedEmpty (by simpa using hcl))
  | close f =>
    cases f with
    | false => exact absurd rfl hne
    | true =>
      have hfl := hnf (by simp) rfl
      simp only [St.cont, St.contClose]
      by_cases h1 : s.data.isEmpty
      · rw [if_pos h1]
        refine lv_one (w := s.waiters.map fun w => (w.1, true)) rfl (Or.inl hfl) ?_
        rcases ho with ho | ⟨j, b, cj, ho, hj, -, hbl⟩
        · left; rw [ho]; rfl
        · right
          exact ⟨j, true, by rw [ho]; rfl, by simp⟩
      · rw [if_neg h1]
        have hd : s.data ≠ [] := by simpa using h1
        refine lv_park ho hc ⟨?_, by simpa [Call.isRead] using hd⟩ hf
        by_contra hcl
        exact hd (hb.closedEmpty (by simpa using hcl))
  | read =>
    have hf' : s.flushing = false ∨ ∃ j ∈ keys s.waiters, s.calls[j]? = some .flush := by
      by_cases hfl : s.flushing = true
      · exact Or.inr ((hf hfl).resolve_left (by simp))
      · exact Or.inl (by simpa using hfl)
    simp only [St.cont, St.contRead]
    by_cases h1 : s.closed
    · rw [if_pos h1]
      refine lv_one (w := s.waiters) rfl hf' ?_
      rcases ho with ho | ⟨j, b, cj, ho, hj, -, hbl⟩
      · exact Or.inl ho
      · right
        refine ⟨j, b, ho, ?_⟩
        intro cj' hj' hb0
        have := (hbl hb0).1
        rw [h1] at this
        cases this
    · rw [if_neg h1]
      cases hd : s.data with
      | nil =>
        refine lv_park ho hc ⟨by simpa using h1, by simpa [Call.isRead] using hd⟩ hf
      | cons d ds =>
        refine hmark _ rfl rfl ?_
        rw [keys_markFirst]
        exact hf'

theorem pending_iff {s : St α} (h : WF s) {i : Nat} {c : Call α} :
    s.pending i c ↔ i ∈ keys s.waiters ∧ s.calls[i]? = some c := by
  rw [h.waits]
  simp only [St.pending, St.ended]
  constructor
  · rintro ⟨h1, h2⟩
    refine ⟨⟨?_, h2⟩, h1⟩
    by_contra hn
    rw [List.getElem?_eq_none (by omega)] at h1
    cases h1
  · rintro ⟨⟨-, h2⟩, h1⟩
    exact ⟨h1, h2⟩

theorem Lv.wake {s : St α} (h : Lv s) (hwf : WF s) {i : Nat} {c : Call α}
    (hi : (i, true) ∈ s.waiters) (hc : s.calls[i]? = some c) :
    Other { s with waiters := s.waiters.erase (i, true) } c ∧
      (s.flushing = true → c = .flush ∨
        ∃ j ∈ keys (s.waiters.erase (i, true)), s.calls[j]? = some .flush) := by
  have hk := keys_erase hwf.wnodup hi
  have hsub : ∀ j ∈ keys (s.waiters.erase (i, true)), j ∈ keys s.waiters ∧ j ≠ i := by
    intro j hj
    rw [hk, hwf.wnodup.mem_erase_iff] at hj
    exact ⟨hj.2, hj.1⟩
  refine ⟨other_of (hwf.wake hi).wnodup ?_ ?_ ?_, ?_⟩
  · intro j hj
    obtain ⟨h1, h2⟩ := hsub j hj
    have hb := ((hwf.waits j).1 h1).1
    have hj' : s.calls[j]? = some s.calls[j] := List.getElem?_eq_getElem hb
    refine ⟨s.calls[j], hj', ?_⟩
    have := fun he => h2 (h.apart j i _ c h1 (mem_keys hi) hj' hc he)
    cases h3 : (s.calls[j]).isRead <;> cases h4 : c.isRead <;> simp [h3, h4] at this ⊢
  · intro a b ca cb ha hb
    exact h.apart a b ca cb (hsub a ha).1 (hsub b hb).1
  · intro a ca ha
    exact h.blocked a ca (List.mem_of_mem_erase ha)
  · intro hfl
    obtain ⟨j, hj, hcj⟩ := h.flushing hfl
    by_cases hji : j = i
    · left
      rw [hji, hc] at hcj
      cases hcj
      rfl
    · right
      refine ⟨j, ?_, hcj⟩
      rw [hk, hwf.wnodup.mem_erase_iff]
      exact ⟨hji, hj⟩

theorem Lv.push {s : St α} (h : Lv s) (hwf : WF s) {c : Call α}
    (hseq : ∀ i c', s.pending i c' → c'.isRead ≠ c.isRead) :
    Other { s with calls := s.calls ++ [c] } c ∧
      (s.flushing = true → ∃ j ∈ keys s.waiters, (s.calls ++ [c])[j]? = some .flush) := by
  have hcalls : ∀ j ∈ keys s.waiters, (s.calls ++ [c])[j]? = s.calls[j]? := by
    intro j hj
    exact List.getElem?_append_left ((hwf.waits j).1 hj).1
  refine ⟨other_of hwf.wnodup ?_ ?_ ?_, ?_⟩
  · intro j hj
    have hb := ((hwf.waits j).1 hj).1
    have hj' : s.calls[j]? = some s.calls[j] := List.getElem?_eq_getElem hb
    refine ⟨s.calls[j], by rw [← hj']; exact hcalls j hj, ?_⟩
    have := hseq j _ ((pending_iff hwf).2 ⟨hj, hj'⟩)
    cases h3 : (s.calls[j]).isRead <;> cases h4 : c.isRead <;> simp [h3, h4] at this ⊢
  · intro a b ca cb ha hb hca hcb
    change (s.calls ++ [c])[a]? = some ca at hca
    change (s.calls ++ [c])[b]? = some cb at hcb
    rw [hcalls a ha] at hca
    rw [hcalls b hb] at hcb
    exact h.apart a b ca cb ha hb hca hcb
  · intro a ca ha hca
    change (s.calls ++ [c])[a]? = some ca at hca
    rw [hcalls a (mem_keys ha)] at hca
    exact h.blocked a ca ha hca
  · intro hfl
    obtain ⟨j, hj, hcj⟩ := h.flushing hfl
    exact ⟨j, hj, by rw [hcalls j hj]; exact hcj⟩

/-- Ending at once, touching nothing. -/
theorem lv_finish {s : St α} {i : Nat} {r : Res α} {c : Call α} (ho : Other s c)
    (hf : s.flushing = true → ∃ j ∈ keys s.waiters, s.calls[j]? = some .flush) :
    Lv (s.finish i r) := by
  refine lv_one (w := s.waiters) rfl ?_ ?_
  · by_cases hfl : s.flushing = true
    · exact Or.inr (hf hfl)
    · exact Or.inl (show s.flushing = false by simpa using hfl)
  · rcases ho with ho | ⟨j, b, cj, ho, hj, -, hbl⟩
    · exact Or.inl ho
    · right
      refine ⟨j, b, ho, ?_⟩
      intro cj' hj' hb0
      change s.calls[j]? = some cj' at hj'
      rw [hj] at hj'
      cases hj'
      exact hbl hb0

theorem Lv.start {start lost : List α} {s : St α} (h : Lv s) (hwf : WF s) (hb : Buf start lost s)
    {c : Call α} (hseq : ∀ i c', s.pending i c' → c'.isRead ≠ c.isRead) : Lv (s.start c) := by
  obtain ⟨ho, hf⟩ := h.push hwf hseq
  have hb' := hb.push hwf c
  have hc : (s.calls ++ [c])[s.calls.length]? = some c := by simp
  cases c with
  | write d =>
    simp only [St.start]
    by_cases h1 : s.closed
    · rw [if_pos h1]; exact lv_finish ho hf
    · rw [if_neg h1]; exact Lv.cont (c := .write d) hb' ho hc (by simp) fun h => Or.inr (hf h)
  | flush =>
    simp only [St.start]
    by_cases h1 : s.closed
    · rw [if_pos h1]; exact lv_finish ho hf
    · rw [if_neg h1]
      exact Lv.cont (c := .flush) (s := { s with calls := s.calls ++ [.flush], flushing := true })
        (hb'.congr rfl rfl rfl rfl rfl) ho hc (by simp) fun _ => Or.inl rfl
  | close f =>
    cases f with
    | true =>
      simp only [St.start]
      by_cases h1 : s.closed
      · rw [if_pos h1]; exact lv_finish ho hf
      · rw [if_neg h1]
        exact Lv.cont (c := .close true)
          (s := { s with calls := s.calls ++ [.close true], closing := true })
          (hb'.congr rfl rfl rfl rfl rfl) ho hc (by simp) fun h => Or.inr (hf h)
    | false =>
      simp only [St.start]
      by_cases h1 : s.closed
      · rw [if_pos h1]; exact lv_finish ho hf
      · rw [if_neg h1]
        refine lv_one (w := s.waiters.map fun w => (w.1, true)) rfl ?_ ?_
        · by_cases hfl : s.flushing = true
          · right
            rw [keys_markAll]
            exact hf hfl
          · exact Or.inl (show s.flushing = false by simpa using hfl)
        · rcases ho with ho | ⟨j, b, cj, ho, hj, -, hbl⟩
          · left
            change s.waiters = [] at ho
            rw [ho]; rfl
          · right
            change s.waiters = _ at ho
            exact ⟨j, true, by rw [ho]; rfl, by simp⟩
  | read =>
    simp only [St.start]
    exact Lv.cont (c := .read) hb' ho hc (by simp) fun h => Or.inr (hf h)

theorem Lv.step {start lost : List α} {s : St α} (h : Lv s) (hwf : WF s) (hb : Buf start lost s)
    {a : Act α} (hseq : ∀ c, a = .call c → ∀ i c', s.pending i c' → c'.isRead ≠ c.isRead) :
    Lv (s.step a) := by
  refine step_cases (P := Lv) hwf ?_ ?_ ?_
  · intro i _ _
    exact h
  · intro i c _ hi hc
    obtain ⟨ho, hf⟩ := h.wake hwf hi hc
    refine Lv.cont (s := { s with waiters := s.waiters.erase (i, true) })
      (hb.congr rfl rfl rfl rfl rfl) ho hc ?_ hf
    intro he
    exact hwf.noAbandon i (mem_keys hi) (he ▸ hc)
  · intro c ha
    exact h.start hwf hb (hseq c ha)

theorem init_lv {initial : Option α} {m : Nat} {s₀ : St α} (h : init initial m = some s₀) :
    Lv s₀ := by
  simp only [init] at h
  split at h
  · simp at h
  · simp only [Option.some.injEq] at h
    subst h
    exact lv_one (w := []) rfl (Or.inl rfl) (Or.inl rfl)

theorem Lv.run {start lost : List α} {s : St α} (h : Lv s) (hwf : WF s) (hb : Buf start lost s)
    {acts : List (Act α)} (hseq : Sequential s acts) : Lv (s.run acts) := by
  induction acts generalizing s lost with
  | nil => exact h
  | cons a acts ih =>
    obtain ⟨l, hb', -⟩ := hb.step hwf a
    cases a with
    | call c =>
      refine ih (h.step hwf hb (a := .call c) ?_) (hwf.step _) hb' hseq.2
      intro c' hc'
      cases hc'
      exact hseq.1
    | resume i => exact ih (h.step hwf hb (a := .resume i) (by simp)) (hwf.step _) hb' hseq

/-! ## How long it can take -/

def weight (calls : List (Call α)) (w : Nat × Bool) : Nat :=
  (match calls[w.1]? with
    | some .read => 0
    | _ => 4) + (if w.2 then 1 else 0)

def measure (s : St α) : Nat := 2 * s.data.length + (s.waiters.map (weight s.calls)).sum

theorem measure_wake {s : St α} {i : Nat} (hi : (i, true) ∈ s.waiters) :
    measure s = measure { s with waiters := s.waiters.erase (i, true) } + weight s.calls (i, true) := by
  have hp := List.perm_cons_erase hi
  have := (hp.map (weight s.calls)).sum_nat
  simp only [measure]
  rw [this]
  simp only [List.map_cons, List.sum_cons]
  omega

/-- Going on from a suspension: the other waiter gets at most one mark. -/
theorem measure_cont {s : St α} {i : Nat} {c : Call α} (ho : Other s c)
    (hc : s.calls[i]? = some c) (hne : c ≠ .close false) :
    measure (s.cont i c) < measure s + weight s.calls (i, true) := by
  have hle : ∀ (calls : List (Call α)) (j : Nat) (b b' : Bool),
      weight calls (j, b) ≤ weight calls (j, b') + 1 := by
    intro calls j b b'
    cases b <;> cases b' <;> simp only [weight] <;> split <;> simp
  have hmark : ((markFirst s.waiters).map (weight s.calls)).sum ≤
      (s.waiters.map (weight s.calls)).sum + 1 := by
    rcases ho with ho | ⟨j, b, cj, ho, -, -, -⟩
    · rw [ho]; simp [markFirst]
    · rw [ho]
      cases b <;> simpa [markFirst] using hle s.calls j true _
  have hall : ((s.waiters.map fun w => (w.1, true)).map (weight s.calls)).sum ≤
      (s.waiters.map (weight s.calls)).sum + 1 := by
    rcases ho with ho | ⟨j, b, cj, ho, -, -, -⟩
    · rw [ho]; simp
    · rw [ho]
      simpa using hle s.calls j true b
  have hpark : measure (s.park i) < measure s + weight s.calls (i, true) := by
    have h1 : weight s.calls (i, false) + 1 = weight s.calls (i, true) := by simp [weight]
    have h2 : measure (s.park i) = measure s + weight s.calls (i, false) := by
      simp only [measure, St.park, List.map_append, List.map_cons, List.map_nil, List.sum_append,
        List.sum_cons, List.sum_nil]
      omega
    omega
  cases c with
  | write d =>
    have hw : weight s.calls (i, true) = 5 := by simp [weight, hc]
    simp only [St.cont, St.contWrite]
    by_cases h1 : s.canWrite
    · rw [if_pos h1]
      by_cases h2 : (s.closed || s.closing) = true
      · rw [if_pos h2, hw]
        simp only [measure, St.finish, St.notify]
        omega
      · rw [if_neg h2, hw]
        simp only [measure, St.finish, St.notify, List.length_append, List.length_cons,
          List.length_nil]
        omega
    · rw [if_neg h1]
      exact hpark
  | flush =>
    have hw : weight s.calls (i, true) = 5 := by simp [weight, hc]
    simp only [St.cont, St.contFlush]
    by_cases h1 : s.data.isEmpty
    · rw [if_pos h1, hw]
      simp only [measure, St.finish]
      omega
    · rw [if_neg h1]
      exact hpark
  | close f =>
    cases f with
    | false => exact absurd rfl hne
    | true =>
      have hw : weight s.calls (i, true) = 5 := by simp [weight, hc]
      simp only [St.cont, St.contClose]
      by_cases h1 : s.data.isEmpty
      · rw [if_pos h1, hw]
        simp only [measure, St.finish, St.shut, St.notifyAll]
        omega
      · rw [if_neg h1]
        exact hpark
  | read =>
    have hw : weight s.calls (i, true) = 1 := by simp [weight, hc]
    simp only [St.cont, St.contRead]
    by_cases h1 : s.closed
    · rw [if_pos h1, hw]
      simp only [measure, St.finish]
      omega
    · rw [if_neg h1]
      cases hd : s.data with
      | nil => exact hpark
      | cons d ds =>
        rw [hw]
        simp only [measure, St.finish, St.notify, hd, List.length_cons]
        omega

theorem measure_useful {s : St α} {a : Act α} (h : Lv s) (hwf : WF s)
    (hclosed : s.closed = true → s.data = []) (hu : Useful s a) : measure (s.step a) < measure s := by
  rcases hu with ⟨i, rfl, hi⟩ | ⟨rfl, hno, hd⟩
  · refine step_cases (P := fun s' => measure s' < measure s) hwf ?_ ?_ ?_
    · intro j he hj
      cases he
      exact absurd hi hj
    · intro j c he hj hc
      cases he
      obtain ⟨ho, -⟩ := h.wake hwf hi hc
      rw [measure_wake hi]
      refine measure_cont ho hc ?_
      intro he
      exact hwf.noAbandon i (mem_keys hi) (he ▸ hc)
    · intro c he
      cases he
  · obtain ⟨ho, -⟩ := h.push hwf (c := .read) (by
      intro i c' hp he
      cases c' with
      | read => exact hno i hp
      | _ => simp [Call.isRead] at he)
    have hcl : s.closed = false := by
      by_contra hc
      exact hd (hclosed (by simpa using hc))
    simp only [St.step, St.start, St.contRead, hcl, Bool.false_eq_true, if_false]
    have hw : (s.waiters.map (weight (s.calls ++ [.read]))).sum =
        (s.waiters.map (weight s.calls)).sum := by
      congr 1
      refine List.map_congr_left fun w hw => ?_
      simp only [weight]
      rw [List.getElem?_append_left ((hwf.waits w.1).1 (mem_keys hw)).1]
    cases hdd : s.data with
    | nil => exact absurd hdd hd
    | cons d ds =>
      simp only [measure, St.finish, St.notify, hdd, List.length_cons]
      have hmark : ((markFirst s.waiters).map (weight (s.calls ++ [.read]))).sum ≤
          (s.waiters.map (weight (s.calls ++ [.read]))).sum + 1 := by
        rcases ho with ho | ⟨j, b, cj, ho, -, -, -⟩
        · change s.waiters = [] at ho
          rw [ho]; simp [markFirst]
        · change s.waiters = _ at ho
          rw [ho]
          cases b <;> simp [markFirst, weight]
      omega

theorem useful_seq {s : St α} {a : Act α} (hu : Useful s a) :
    ∀ c, a = .call c → ∀ i c', s.pending i c' → c'.isRead ≠ c.isRead := by
  intro c hc i c' hp he
  rcases hu with ⟨j, rfl, -⟩ | ⟨rfl, hno, -⟩
  · cases hc
  · cases hc
    cases c' with
    | read => exact hno i hp
    | _ => simp [Call.isRead] at he

theorem usefulRun_spec {start lost : List α} {s : St α} (h : Lv s) (hwf : WF s)
    (hb : Buf start lost s) {acts : List (Act α)} (hu : UsefulRun s acts) :
    acts.length + measure (s.run acts) ≤ measure s ∧ Lv (s.run acts) ∧ WF (s.run acts) := by
  induction acts generalizing s lost with
  | nil => exact ⟨by simp [St.run], h, hwf⟩
  | cons a acts ih =>
    obtain ⟨l, hb', -⟩ := hb.step hwf a
    obtain ⟨h1, h2, h3⟩ := ih (h.step hwf hb (useful_seq hu.1)) (hwf.step a) hb' hu.2
    refine ⟨?_, h2, h3⟩
    have := measure_useful h hwf hb.closedEmpty hu.1
    simp only [List.length_cons]
    have e : s.run (a :: acts) = (s.step a).run acts := rfl
    rw [e]
    omega

theorem none_pending {s : St α} (h : Lv s) (hwf : WF s) (hstuck : ∀ a, ¬ Useful s a)
    {i : Nat} {c : Call α} (hp : s.pending i c) :
    c = .read ∧ s.data = [] ∧ s.closed = false := by
  have hall : ∀ j cj, s.pending j cj → (j, false) ∈ s.waiters ∧ Blocked s cj := by
    intro j cj hj
    obtain ⟨h1, h2⟩ := (pending_iff hwf).1 hj
    obtain ⟨⟨k, b⟩, hk, rfl⟩ := List.mem_map.1 h1
    cases b with
    | true => exact absurd (Or.inl ⟨k, rfl, hk⟩) (hstuck (.resume k))
    | false => exact ⟨hk, h.blocked k cj hk h2⟩
  obtain ⟨hi, hb⟩ := hall i c hp
  cases hc : c.isRead with
  | true =>
    cases c with
    | read => exact ⟨rfl, by simpa [Blocked, Call.isRead] using hb.2, hb.1⟩
    | _ => simp [Call.isRead] at hc
  | false =>
    exfalso
    have hd : s.data ≠ [] := by simpa [Blocked, hc] using hb.2
    refine hstuck (.call .read) (Or.inr ⟨rfl, ?_, hd⟩)
    intro j hj
    exact hd (by simpa [Blocked, Call.isRead] using (hall j _ hj).2.2)

end Verif.Provider

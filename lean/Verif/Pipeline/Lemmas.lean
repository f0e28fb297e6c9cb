import Verif.Pipeline.Spec
import Mathlib.Tactic.Tauto

/-! # Reasoning about traces -/

set_option autoImplicit false

namespace Verif.Pipeline

/-! ## A small program logic -/

/-- What a state's trace is made of. -/
structure Sys (S X V : Type) where
  tr : S → List X
  ok : V → X → Prop
  after : V → X → V
  stages : X → List Stage

section
variable {S X V E α β : Type}

def Sys.Chained (sys : Sys S X V) : V → List X → Prop
  | _, [] => True
  | v, x :: xs => sys.ok v x ∧ sys.Chained (sys.after v x) xs

theorem Sys.chained_append (sys : Sys S X V) (v : V) (xs ys : List X) :
    sys.Chained v (xs ++ ys) ↔ sys.Chained v xs ∧ sys.Chained (xs.foldl sys.after v) ys := by
  induction xs generalizing v with
  | nil => simp [Sys.Chained]
  | cons x xs ih => simp only [List.cons_append, Sys.Chained, ih, List.foldl_cons, and_assoc]

/-- Started with the message `v`, `m` extends the trace by a well-chained piece whose steps,
outcome and final message satisfy `P`. -/
def Tr (sys : Sys S X V) (m : M S E α) (v : V) (P : Out E α → List Stage → V → Prop) : Prop :=
  ∀ s, ∃ t, sys.tr (m s).2 = sys.tr s ++ t ∧ sys.Chained v t ∧
    P (m s).1 (t.flatMap sys.stages) (t.foldl sys.after v)

theorem Tr.mono {sys : Sys S X V} {m : M S E α} {v : V} {P P' : Out E α → List Stage → V → Prop}
    (h : Tr sys m v P) (hp : ∀ o l v', P o l v' → P' o l v') : Tr sys m v P' := by
  intro s
  obtain ⟨t, h1, h2, h3⟩ := h s
  exact ⟨t, h1, h2, hp _ _ _ h3⟩

theorem Tr.pure (sys : Sys S X V) {v : V} {a : α} {P : Out E α → List Stage → V → Prop}
    (h : P (.ok a) [] v) : Tr sys (M.pure a : M S E α) v P :=
  fun s => ⟨[], by simp [M.pure], trivial, h⟩

theorem Tr.raise (sys : Sys S X V) {v : V} {e : E} {P : Out E α → List Stage → V → Prop}
    (h : P (.raised e) [] v) : Tr sys (M.raise e : M S E α) v P :=
  fun s => ⟨[], by simp [M.raise], trivial, h⟩

theorem Tr.bind {sys : Sys S X V} {m : M S E α} {f : α → M S E β} {v : V}
    {P : Out E α → List Stage → V → Prop} {P' : Out E β → List Stage → V → Prop}
    (hm : Tr sys m v P)
    (hok : ∀ a l v', P (.ok a) l v' → Tr sys (f a) v' fun o l' v'' => P' o (l ++ l') v'')
    (hraise : ∀ e l v', P (.raised e) l v' → P' (.raised e) l v')
    (habort : ∀ l v', P .aborted l v' → P' .aborted l v') : Tr sys (M.bind m f) v P' := by
  intro s
  obtain ⟨t, h1, h2, h3⟩ := hm s
  simp only [M.bind]
  generalize hr : m s = r at h1 h3
  obtain ⟨o, s'⟩ := r
  simp only at h1 h3
  cases o with
  | ok a =>
    obtain ⟨t', h4, h5, h6⟩ := hok a _ _ h3 s'
    refine ⟨t ++ t', ?_, ?_, ?_⟩
    · simp only
      rw [h4, h1, List.append_assoc]
    · rw [Sys.chained_append]
      exact ⟨h2, h5⟩
    · simp only [List.flatMap_append, List.foldl_append]
      exact h6
  | raised e => exact ⟨t, h1, h2, hraise e _ _ h3⟩
  | aborted => exact ⟨t, h1, h2, habort _ _ h3⟩

theorem Tr.catch {sys : Sys S X V} {m : M S E α} {h : E → M S E α} {v : V}
    {P P' : Out E α → List Stage → V → Prop} (hm : Tr sys m v P)
    (hok : ∀ a l v', P (.ok a) l v' → P' (.ok a) l v')
    (hraise : ∀ e l v', P (.raised e) l v' → Tr sys (h e) v' fun o l' v'' => P' o (l ++ l') v'')
    (habort : ∀ l v', P .aborted l v' → P' .aborted l v') : Tr sys (M.catch m h) v P' := by
  intro s
  obtain ⟨t, h1, h2, h3⟩ := hm s
  simp only [M.catch]
  generalize hr : m s = r at h1 h3
  obtain ⟨o, s'⟩ := r
  simp only at h1 h3
  cases o with
  | raised e =>
    obtain ⟨t', h4, h5, h6⟩ := hraise e _ _ h3 s'
    refine ⟨t ++ t', ?_, ?_, ?_⟩
    · simp only
      rw [h4, h1, List.append_assoc]
    · rw [Sys.chained_append]
      exact ⟨h2, h5⟩
    · simp only [List.flatMap_append, List.foldl_append]
      exact h6
  | ok a => exact ⟨t, h1, h2, hok a _ _ h3⟩
  | aborted => exact ⟨t, h1, h2, habort _ _ h3⟩

/-! ## Straight-line code -/

/-- `m` takes the steps of some list in `L`, or some of them and then fails or is cut off. -/
def Straight (L : List Stage → Prop) (K : α → V → Prop) (err : E → V → Prop) :
    Out E α → List Stage → V → Prop
  | .ok a, l, v => L l ∧ K a v
  | .raised e, l, v => l ≠ [] ∧ (∃ l', L l' ∧ l <+: l') ∧ err e v
  | .aborted, l, _ => l ≠ [] ∧ ∃ l', L l' ∧ l <+: l'

def Cat (L₁ L₂ : List Stage → Prop) (l : List Stage) : Prop :=
  ∃ l₁ l₂, L₁ l₁ ∧ L₂ l₂ ∧ l = l₁ ++ l₂

theorem Tr.seq {sys : Sys S X V} {m : M S E α} {f : α → M S E β} {v : V}
    {L₁ L₂ : List Stage → Prop} {K₁ : α → V → Prop} {K₂ : β → V → Prop} {err : E → V → Prop}
    (hm : Tr sys m v (Straight L₁ K₁ err))
    (hf : ∀ a v', K₁ a v' → Tr sys (f a) v' (Straight L₂ K₂ err)) (hne : ∃ l, L₂ l) :
    Tr sys (M.bind m f) v (Straight (Cat L₁ L₂) K₂ err) := by
  obtain ⟨l₂, hl₂⟩ := hne
  refine Tr.bind hm ?_ ?_ ?_
  · rintro a l v' ⟨h1, h2⟩
    refine (hf a v' h2).mono ?_
    intro o l' v'' ho
    cases o with
    | ok b => exact ⟨⟨l, l', h1, ho.1, rfl⟩, ho.2⟩
    | raised e =>
      obtain ⟨h3, ⟨l3, h4, h5⟩, h6⟩ := ho
      exact ⟨by simp [h3], ⟨l ++ l3, ⟨l, l3, h1, h4, rfl⟩, List.prefix_append_right_inj l |>.2 h5⟩, h6⟩
    | aborted =>
      obtain ⟨h3, ⟨l3, h4, h5⟩⟩ := ho
      exact ⟨by simp [h3], ⟨l ++ l3, ⟨l, l3, h1, h4, rfl⟩, List.prefix_append_right_inj l |>.2 h5⟩⟩
  · rintro e l v' ⟨h3, ⟨l3, h4, h5⟩, h6⟩
    exact ⟨h3, ⟨l3 ++ l₂, ⟨l3, l₂, h4, hl₂, rfl⟩, h5.trans (List.prefix_append _ _)⟩, h6⟩
  · rintro l v' ⟨h3, ⟨l3, h4, h5⟩⟩
    exact ⟨h3, ⟨l3 ++ l₂, ⟨l3, l₂, h4, hl₂, rfl⟩, h5.trans (List.prefix_append _ _)⟩⟩

theorem Tr.seqPure {sys : Sys S X V} {v : V} {a : α} {K : α → V → Prop} {err : E → V → Prop}
    (h : K a v) : Tr sys (M.pure a : M S E α) v (Straight (· = []) K err) :=
  Tr.pure sys ⟨rfl, h⟩

end

/-! ## The two levels -/

section
variable {W I Q R O E : Type}

def attSys (W I Q R O E : Type) : Sys (AttS W I Q R O E) (Ev I Q R O E) (Val I Q R O E) where
  tr := AttS.trace
  ok v e := e.stage.isSide = false → e.arg = v
  after := after
  stages e := [e.stage]

def execSys (b : Bool) (W I Q R O : Type) {E : Type} (ire : E → Bool) :
    Sys (ExecS W I Q R O E) (XEv I Q R O E) (Reg I Q R O E) where
  tr := ExecS.trace
  ok r x := match x with
    | .step e => (e.stage.isSide = false → (e.stage = .serialize → b = true) →
        e.arg = r.cur) ∧ SideOk e.stage e.arg r
    | .attempt q evs => Val.request q = r.start ∧ Flow (.request q) evs
  after := Reg.after ire
  stages := XEv.stages

theorem flow_iff (v : Val I Q R O E) (t : List (Ev I Q R O E)) :
    (attSys W I Q R O E).Chained v t ↔ Flow v t := by
  induction t generalizing v with
  | nil => exact Iff.rfl
  | cons e t ih => exact and_congr Iff.rfl (ih _)

theorem xflow_iff {b : Bool} (ire : E → Bool) (r : Reg I Q R O E) (t : List (XEv I Q R O E)) :
    (execSys b W I Q R O ire).Chained r t ↔ XFlow b ire r t := by
  induction t generalizing r with
  | nil => exact Iff.rfl
  | cons e t ih => exact and_congr Iff.rfl (ih _)

/-- The failure is the message. -/
def failed (e : E) (v : Val I Q R O E) : Prop := v = .outcome (.error e)

def xfailed (e : E) (r : Reg I Q R O E) : Prop := r.cur = .outcome (.error e)

theorem tr_astep {α : Type} {st : Stage} {arg : Val I Q R O E} {val : α → Val I Q R O E}
    {m : M W E α} {v : Val I Q R O E} (h : st.isSide = false → arg = v) :
    Tr (attSys W I Q R O E) (astep st arg val m) v
      (Straight (· = [st]) (fun a v' => v' = if st.replaces then val a else v) failed) := by
  intro s
  refine ⟨[⟨st, arg, (m s.w).1.map val⟩], rfl, ⟨h, trivial⟩, ?_⟩
  simp only [astep, List.flatMap_cons, List.flatMap_nil, List.append_nil, List.foldl_cons,
    List.foldl_nil]
  generalize (m s.w).1 = o
  cases o with
  | ok a => exact ⟨rfl, rfl⟩
  | raised e => exact ⟨by simp [attSys], ⟨_, rfl, List.prefix_rfl⟩, rfl⟩
  | aborted => exact ⟨by simp [attSys], ⟨_, rfl, List.prefix_rfl⟩⟩

theorem tr_setCur {q : Q} {v : Val I Q R O E} :
    Tr (attSys W I Q R O E) (setCur q) v (Straight (· = []) (fun _ v' => v' = v) failed) :=
  fun s => ⟨[], by simp [setCur, attSys], trivial, rfl, rfl⟩

theorem tr_xstep {α : Type} {b : Bool} {ire : E → Bool} {st : Stage} {arg : Val I Q R O E}
    {val : α → Val I Q R O E} {m : M W E α} {r : Reg I Q R O E} (hs : st.isSide = false)
    (h : (st = .serialize → b = true) → arg = r.cur) :
    Tr (execSys b W I Q R O ire) (xstep st arg val m) r
      (Straight (· = [st])
        (fun a r' => (∃ w, (m w).1 = .ok a) ∧ r' = ⟨if st.replaces then val a else r.cur, if st.replaces then val a else r.cur⟩)
        xfailed) := by
  intro s
  refine ⟨[.step ⟨st, arg, (m s.w).1.map val⟩], rfl, ⟨⟨?_, ?_⟩, trivial⟩, ?_⟩
  · exact fun _ h2 => h h2
  · cases st <;> first | trivial | cases hs
  · simp only [xstep, List.flatMap_cons, List.flatMap_nil, List.append_nil, List.foldl_cons,
      List.foldl_nil, execSys, Reg.after, hs]
    generalize ho : (m s.w).1 = o
    cases o with
    | ok a => exact ⟨rfl, ⟨s.w, ho⟩, rfl⟩
    | raised e => exact ⟨by simp [XEv.stages], ⟨_, rfl, List.prefix_rfl⟩, rfl⟩
    | aborted => exact ⟨by simp [XEv.stages], ⟨_, rfl, List.prefix_rfl⟩⟩

/-- A step of the retry machinery. -/
theorem tr_side {α : Type} {b : Bool} {ire : E → Bool} {st : Stage} {arg : Val I Q R O E}
    {val : α → Val I Q R O E} {m : M W E α} {r : Reg I Q R O E} (hs : st.isSide = true)
    (hside : SideOk st arg r) :
    Tr (execSys b W I Q R O ire) (xstep st arg val m) r fun o l r' =>
      l = [st] ∧ match o with
        | .ok _ => r' = r
        | .raised e => r' = if st = .refreshToken ∧ ire e = true then r
            else { r with cur := .outcome (.error e) }
        | .aborted => True := by
  intro s
  refine ⟨[.step ⟨st, arg, (m s.w).1.map val⟩], rfl, ⟨⟨?_, hside⟩, trivial⟩, ?_⟩
  · intro h1
    rw [show st.isSide = true from hs] at h1
    cases h1
  · simp only [xstep, List.flatMap_cons, List.flatMap_nil, List.append_nil, List.foldl_cons,
      List.foldl_nil, execSys, Reg.after, hs]
    refine ⟨rfl, ?_⟩
    generalize (m s.w).1 = o
    cases o with
    | ok a => rfl
    | raised e => rfl
    | aborted => trivial

end

end Verif.Pipeline

import Mathlib.Tactic.Common
import Mathlib.Data.List.Forall2
import Verif.Client.Spec

/-!
# What `deepcopy` gives

The pairs of an object and its copy are collected in a relation `R`; when the outermost copy is
done, every pair in it has corresponding values.
-/

set_option autoImplicit false

namespace Verif.Client

variable (hk : String → Hook)

/-- Two values correspond. -/
def VRel (g : Heap) (R : Addr → Addr → Prop) (v w : Val) : Prop :=
  match v with
  | .prim _ => w = v
  | .ref a => (w = v ∧ ∃ o, g[a]? = some o ∧ hk o.cls = .itself) ∨ ∃ b, w = .ref b ∧ R a b

/-- Two values of an attribute correspond as its class says; new objects are at `lo` or later. -/
def ActRel (g : Heap) (R : Addr → Addr → Prop) (lo : Nat) (h : Heap) (act : Act) (v w : Val) :
    Prop :=
  match act with
  | .share => w = v
  | .copy => VRel hk g R v w
  | .fresh c => ∃ b, lo ≤ b ∧ w = .ref b ∧ h[b]? = some ⟨c, []⟩
  | .shallow =>
    match v with
    | .prim _ => w = v
    | .ref s => ∃ b o, lo ≤ b ∧ w = .ref b ∧ g[s]? = some o ∧ h[b]? = some o

/-- The values of an object and of its copy correspond. -/
def FieldsRel (g : Heap) (R : Addr → Addr → Prop) (lo : Nat) (h : Heap) (o o' : Obj) : Prop :=
  match hk o.cls with
  | .itself => False
  | .plain => List.Forall₂ (fun p q => q.1 = p.1 ∧ VRel hk g R p.2 q.2) o.fields o'.fields
  | .rebuild acts => List.Forall₂ (fun p q => q.1 = p.1 ∧
      ∃ v, o.fields.lookup p.1 = some v ∧ ActRel hk g R lo h p.2 v q.2) acts o'.fields

/-- An object and its copy correspond. -/
def Corr (g : Heap) (R : Addr → Addr → Prop) (lo : Nat) (h : Heap) (a b : Addr) : Prop :=
  ∃ o o', g[a]? = some o ∧ h[b]? = some o' ∧ o'.cls = o.cls ∧ FieldsRel hk g R lo h o o'

variable {hk}

theorem VRel.mono {g : Heap} {R R' : Addr → Addr → Prop} (hR : ∀ x y, R x y → R' x y) {v w : Val}
    (h : VRel hk g R v w) : VRel hk g R' v w := by
  cases v with
  | prim p => exact h
  | ref a =>
    rcases h with h | ⟨b, hb, hr⟩
    · exact .inl h
    · exact .inr ⟨b, hb, hR _ _ hr⟩

theorem getElem?_lt {h : Heap} {b : Nat} {o : Obj} (hb : h[b]? = some o) : b < h.length := by
  by_contra hlt
  rw [List.getElem?_eq_none (by omega)] at hb
  cases hb

theorem ActRel.mono {g : Heap} {R R' : Addr → Addr → Prop} (hR : ∀ x y, R x y → R' x y)
    {lo lo' : Nat} (hlo : lo' ≤ lo) {h h' : Heap}
    (hh : ∀ i, lo ≤ i → i < h.length → h'[i]? = h[i]?) {act : Act} {v w : Val}
    (hr : ActRel hk g R lo h act v w) : ActRel hk g R' lo' h' act v w := by
  cases act with
  | share => exact hr
  | copy => exact VRel.mono hR hr
  | fresh c =>
    obtain ⟨b, hb, hw, ho⟩ := hr
    exact ⟨b, Nat.le_trans hlo hb, hw, by rw [hh b hb (getElem?_lt ho)]; exact ho⟩
  | shallow =>
    cases v with
    | prim p => exact hr
    | ref s =>
      obtain ⟨b, o, hb, hw, hs, ho⟩ := hr
      exact ⟨b, o, Nat.le_trans hlo hb, hw, hs, by rw [hh b hb (getElem?_lt ho)]; exact ho⟩

theorem FieldsRel.mono {g : Heap} {R R' : Addr → Addr → Prop} (hR : ∀ x y, R x y → R' x y)
    {lo lo' : Nat} (hlo : lo' ≤ lo) {h h' : Heap}
    (hh : ∀ i, lo ≤ i → i < h.length → h'[i]? = h[i]?) {o o' : Obj}
    (hr : FieldsRel hk g R lo h o o') : FieldsRel hk g R' lo' h' o o' := by
  unfold FieldsRel at hr ⊢
  split at hr
  · exact hr
  · exact List.Forall₂.imp (fun p q hpq => ⟨hpq.1, hpq.2.mono hR⟩) hr
  · exact List.Forall₂.imp
      (fun p q ⟨h₁, v, hv, ha⟩ => ⟨h₁, v, hv, ActRel.mono hR hlo hh ha⟩) hr

theorem Corr.mono {g : Heap} {R R' : Addr → Addr → Prop} (hR : ∀ x y, R x y → R' x y)
    {lo lo' : Nat} (hlo : lo' ≤ lo) {h h' : Heap}
    (hh : ∀ i, lo ≤ i → i < h.length → h'[i]? = h[i]?) {a b : Addr} (hb : lo ≤ b)
    (hr : Corr hk g R lo h a b) : Corr hk g R' lo' h' a b := by
  obtain ⟨o, o', ho, ho', hc, hf⟩ := hr
  exact ⟨o, o', ho, by rw [hh b hb (getElem?_lt ho')]; exact ho', hc, hf.mono hR hlo hh⟩

variable (hk)

/-- What copying adds to the heap `h` and to the pairs `R`: objects that are there are left as they
are, and the new pairs are of objects in `D` and new objects that correspond to them. -/
structure Post (g : Heap) (R : Addr → Addr → Prop) (h h' : Heap) (D : Addr → Prop)
    (R' : Addr → Addr → Prop) : Prop where
  sub : ∀ x y, R x y → R' x y
  same : ∀ i < h.length, h'[i]? = h[i]?
  len : h.length ≤ h'.length
  new : ∀ a b, R' a b → R a b ∨ (h.length ≤ b ∧ D a ∧ Corr hk g R' h.length h' a b)

variable {hk}

theorem Post.refl (g : Heap) (R : Addr → Addr → Prop) (h : Heap) (D : Addr → Prop) :
    Post hk g R h h D R :=
  ⟨fun _ _ h => h, fun _ _ => rfl, Nat.le_refl _, fun _ _ h => .inl h⟩

theorem Post.trans {g : Heap} {R R₁ R₂ : Addr → Addr → Prop} {h h₁ h₂ : Heap}
    {D₁ D₂ D : Addr → Prop} (p₁ : Post hk g R h h₁ D₁ R₁) (p₂ : Post hk g R₁ h₁ h₂ D₂ R₂)
    (hD₁ : ∀ a, D₁ a → D a) (hD₂ : ∀ a, D₂ a → D a) : Post hk g R h h₂ D R₂ := by
  refine ⟨fun x y hr => p₂.sub _ _ (p₁.sub _ _ hr), ?_, Nat.le_trans p₁.len p₂.len, ?_⟩
  · intro i hi
    rw [p₂.same i (Nat.lt_of_lt_of_le hi p₁.len), p₁.same i hi]
  · intro a b hr
    rcases p₂.new a b hr with hr | ⟨hb, hd, hc⟩
    · rcases p₁.new a b hr with hr | ⟨hb, hd, hc⟩
      · exact .inl hr
      · refine .inr ⟨hb, hD₁ a hd, ?_⟩
        exact hc.mono p₂.sub (Nat.le_refl _) (fun i _ hi => p₂.same i hi) hb
    · refine .inr ⟨Nat.le_trans p₁.len hb, hD₂ a hd, ?_⟩
      exact hc.mono (fun _ _ h => h) p₁.len (fun _ _ _ => rfl) hb

theorem Post.weaken {g : Heap} {R R' : Addr → Addr → Prop} {h h' : Heap}
    {D D' : Addr → Prop} (p : Post hk g R h h' D R') (hD : ∀ a, D a → D' a) :
    Post hk g R h h' D' R' :=
  p.trans (Post.refl g R' h' D) hD hD

/-- Appending an object without a pair. -/
theorem Post.append (g : Heap) (R : Addr → Addr → Prop) (h : Heap) (o : Obj) (D : Addr → Prop) :
    Post hk g R h (h ++ [o]) D R :=
  ⟨fun _ _ h => h, fun i hi => List.getElem?_append_left hi, by simp, fun _ _ h => .inl h⟩

/-- The value is no object or one of the heap. -/
def Inside (g : Heap) (v : Val) : Prop :=
  ∀ a, v = .ref a → a < g.length

/-- The current heap extends the one the copy was started with. -/
structure Extends (g h : Heap) : Prop where
  same : ∀ i < g.length, h[i]? = g[i]?
  len : g.length ≤ h.length

theorem Extends.trans {g h h' : Heap} (e : Extends g h) (hs : ∀ i < h.length, h'[i]? = h[i]?)
    (hl : h.length ≤ h'.length) : Extends g h' :=
  ⟨fun i hi => (hs i (Nat.lt_of_lt_of_le hi e.len)).trans (e.same i hi), Nat.le_trans e.len hl⟩

variable (hk)

/-- What a function that copies values does. -/
def Copier (g : Heap) (dc : Heap → Memo → Val → Option (Heap × Memo × Val)) : Prop :=
  ∀ (h : Heap) (m : Memo) (v : Val) (h' : Heap) (m' : Memo) (w : Val) (R : Addr → Addr → Prop),
    Extends g h → Inside g v → (∀ p ∈ m, R p.1 p.2) → dc h m v = some (h', m', w) →
    ∃ R', Post hk g R h h' (Copied hk g v) R' ∧ (∀ p ∈ m', R' p.1 p.2) ∧ VRel hk g R' v w

variable {hk}

theorem copyVals_spec {g : Heap} {dc : Heap → Memo → Val → Option (Heap × Memo × Val)}
    (hdc : Copier hk g dc) (fs : List (String × Val)) (h : Heap) (m : Memo) (h' : Heap)
    (m' : Memo) (ws : List (String × Val)) (R : Addr → Addr → Prop) (he : Extends g h)
    (hv : ∀ p ∈ fs, Inside g p.2) (hm : ∀ p ∈ m, R p.1 p.2)
    (hc : copyVals dc fs h m = some (h', m', ws)) :
    ∃ R', Post hk g R h h' (fun a => ∃ p ∈ fs, Copied hk g p.2 a) R' ∧
      (∀ p ∈ m', R' p.1 p.2) ∧
      List.Forall₂ (fun p q => q.1 = p.1 ∧ VRel hk g R' p.2 q.2) fs ws := by
  induction fs generalizing h m h' m' ws R with
  | nil =>
    simp only [copyVals, Option.some.injEq, Prod.mk.injEq] at hc
    obtain ⟨rfl, rfl, rfl⟩ := hc
    exact ⟨R, Post.refl _ _ _ _, hm, .nil⟩
  | cons f fs ih =>
    obtain ⟨n, v⟩ := f
    rw [copyVals] at hc
    cases h₁ : dc h m v with
    | none => simp [h₁] at hc
    | some r =>
      obtain ⟨h1, m1, w⟩ := r
      simp only [h₁] at hc
      obtain ⟨R₁, p₁, hm₁, hv₁⟩ := hdc h m v h1 m1 w R he (hv (n, v) (by simp)) hm h₁
      cases h₂ : copyVals dc fs h1 m1 with
      | none => simp [h₂] at hc
      | some r =>
        obtain ⟨h2, m2, ws'⟩ := r
        simp only [h₂, Option.some.injEq, Prod.mk.injEq] at hc
        obtain ⟨rfl, rfl, rfl⟩ := hc
        obtain ⟨R₂, p₂, hm₂, hf₂⟩ := ih h1 m1 h2 m2 ws' R₁ (he.trans p₁.same p₁.len)
          (fun p hp => hv p (List.mem_cons_of_mem _ hp)) hm₁ h₂
        refine ⟨R₂, p₁.trans p₂ (fun a ha => ⟨_, List.mem_cons_self, ha⟩) ?_, hm₂, ?_⟩
        · rintro a ⟨p, hp, ha⟩
          exact ⟨p, List.mem_cons_of_mem _ hp, ha⟩
        · exact .cons ⟨rfl, hv₁.mono p₂.sub⟩ hf₂

theorem rebuild_spec {g : Heap} {dc : Heap → Memo → Val → Option (Heap × Memo × Val)}
    (hdc : Copier hk g dc) (o : Obj) (acts : List (String × Act)) (h : Heap) (h' : Heap)
    (ws : List (String × Val)) (R : Addr → Addr → Prop) (he : Extends g h)
    (hv : ∀ n v, o.fields.lookup n = some v → Inside g v)
    (hc : rebuild dc o acts h = some (h', ws)) :
    ∃ R', Post hk g R h h' (fun a => ∃ n v, (n, Act.copy) ∈ acts ∧ o.fields.lookup n = some v ∧
        Copied hk g v a) R' ∧
      List.Forall₂ (fun p q => q.1 = p.1 ∧
        ∃ v, o.fields.lookup p.1 = some v ∧ ActRel hk g R' h.length h' p.2 v q.2) acts ws := by
  induction acts generalizing h h' ws R with
  | nil =>
    simp only [rebuild, Option.some.injEq, Prod.mk.injEq] at hc
    obtain ⟨rfl, rfl⟩ := hc
    exact ⟨R, Post.refl _ _ _ _, .nil⟩
  | cons x acts ih =>
    obtain ⟨n, act⟩ := x
    rw [rebuild] at hc
    cases hl : o.fields.lookup n with
    | none => simp [hl] at hc
    | some v =>
      simp only [hl] at hc
      generalize hmade : rebuilt dc h act v = made at hc
      cases made with
      | none => simp at hc
      | some r =>
        obtain ⟨h1, w⟩ := r
        simp only at hc
        cases h₂ : rebuild dc o acts h1 with
        | none => simp [h₂] at hc
        | some r =>
          obtain ⟨h2, ws'⟩ := r
          simp only [h₂, Option.some.injEq, Prod.mk.injEq] at hc
          obtain ⟨rfl, rfl⟩ := hc
          have key : ∃ R₁, Post hk g R h h1 (fun a => act = .copy ∧ Copied hk g v a) R₁ ∧
              ActRel hk g R₁ h.length h1 act v w := by
            cases act with
            | share =>
              simp only [rebuilt, Option.some.injEq, Prod.mk.injEq] at hmade
              obtain ⟨rfl, rfl⟩ := hmade
              exact ⟨R, Post.refl _ _ _ _, rfl⟩
            | copy =>
              cases hd : dc h [] v with
              | none => simp [rebuilt, hd] at hmade
              | some r =>
                obtain ⟨h1', m1, w'⟩ := r
                simp only [rebuilt, hd, Option.map_some, Option.some.injEq, Prod.mk.injEq] at hmade
                obtain ⟨rfl, rfl⟩ := hmade
                obtain ⟨R₁, p₁, _, hv₁⟩ := hdc h [] v h1' m1 w' R he (hv n v hl) (by simp) hd
                exact ⟨R₁, p₁.weaken (fun a ha => ⟨rfl, ha⟩), hv₁⟩
            | fresh c =>
              simp only [rebuilt, Option.some.injEq, Prod.mk.injEq] at hmade
              obtain ⟨rfl, rfl⟩ := hmade
              exact ⟨R, Post.append _ _ _ _ _, h.length, Nat.le_refl _, rfl, by simp⟩
            | shallow =>
              cases v with
              | prim p =>
                simp only [rebuilt, Option.some.injEq, Prod.mk.injEq] at hmade
                obtain ⟨rfl, rfl⟩ := hmade
                exact ⟨R, Post.refl _ _ _ _, rfl⟩
              | ref s =>
                cases hs : h[s]? with
                | none => simp [rebuilt, hs] at hmade
                | some t =>
                  simp only [rebuilt, hs, Option.map_some, Option.some.injEq, Prod.mk.injEq] at hmade
                  obtain ⟨rfl, rfl⟩ := hmade
                  refine ⟨R, Post.append _ _ _ _ _, h.length, t, Nat.le_refl _, rfl, ?_, by simp⟩
                  rw [← hs, he.same s (hv n _ hl s rfl)]
          obtain ⟨R₁, p₁, ha₁⟩ := key
          obtain ⟨R₂, p₂, hf₂⟩ := ih h1 h2 ws' R₁ (he.trans p₁.same p₁.len) h₂
          refine ⟨R₂, p₁.trans p₂ ?_ ?_, ?_⟩
          · rintro a ⟨rfl, ha⟩
            exact ⟨n, v, by simp, hl, ha⟩
          · rintro a ⟨n', v', hn', hl', ha⟩
            exact ⟨n', v', List.mem_cons_of_mem _ hn', hl', ha⟩
          · refine .cons ⟨rfl, v, hl, ?_⟩ ?_
            · exact ha₁.mono p₂.sub (Nat.le_refl _) (fun i _ hi => p₂.same i hi)
            · refine List.Forall₂.imp ?_ hf₂
              rintro p q ⟨hpq, v', hv', ha'⟩
              exact ⟨hpq, v', hv', ha'.mono (fun _ _ h => h) p₁.len (fun _ _ _ => rfl)⟩

theorem lookup_mem' {α : Type} [BEq α] [LawfulBEq α] {β : Type} {l : List (α × β)} {n : α} {v : β}
    (h : l.lookup n = some v) : (n, v) ∈ l := by
  induction l with
  | nil => simp at h
  | cons x xs ih =>
    obtain ⟨k, u⟩ := x
    rw [List.lookup_cons] at h
    cases hk : n == k with
    | true =>
      simp only [hk, Option.some.injEq] at h
      rw [eq_of_beq hk, h]
      exact List.mem_cons_self
    | false =>
      simp only [hk] at h
      exact List.mem_cons_of_mem _ (ih h)

theorem deepcopy_spec {g : Heap} (hg : Closed g) (fuel : Nat) : Copier hk g (deepcopy hk fuel) := by
  induction fuel with
  | zero =>
    intro h m v h' m' w R _ _ _ hd
    simp [deepcopy] at hd
  | succ fuel ih =>
    intro h m v h' m' w R he hin hm hd
    cases v with
    | prim p =>
      simp only [deepcopy, Option.some.injEq, Prod.mk.injEq] at hd
      obtain ⟨rfl, rfl, rfl⟩ := hd
      exact ⟨R, Post.refl _ _ _ _, hm, rfl⟩
    | ref a =>
      rw [deepcopy] at hd
      cases hl : m.lookup a with
      | some b =>
        simp only [hl, Option.some.injEq, Prod.mk.injEq] at hd
        obtain ⟨rfl, rfl, rfl⟩ := hd
        exact ⟨R, Post.refl _ _ _ _, hm, .inr ⟨b, rfl, hm _ (lookup_mem' hl)⟩⟩
      | none =>
        have hga := he.same a (hin a rfl)
        cases ho : h[a]? with
        | none => simp [hl, ho] at hd
        | some o =>
          rw [ho] at hga
          simp only [hl, ho] at hd
          have hfields : ∀ p ∈ o.fields, Inside g p.2 := by
            rintro ⟨n, v⟩ hp b rfl
            exact hg a o hga.symm n b hp
          cases hh : hk o.cls with
          | itself =>
            simp only [hh, Option.some.injEq, Prod.mk.injEq] at hd
            obtain ⟨rfl, rfl, rfl⟩ := hd
            exact ⟨R, Post.refl _ _ _ _, hm, .inl ⟨rfl, o, hga.symm, hh⟩⟩
          | plain =>
            simp only [hh] at hd
            cases hc : copyVals (deepcopy hk fuel) o.fields (h ++ [⟨o.cls, []⟩])
                ((a, h.length) :: m) with
            | none => simp [hc] at hd
            | some r =>
              obtain ⟨h1, m1, ws⟩ := r
              simp only [hc, Option.some.injEq, Prod.mk.injEq] at hd
              obtain ⟨rfl, rfl, rfl⟩ := hd
              let R₀ : Addr → Addr → Prop := fun x y => R x y ∨ (x = a ∧ y = h.length)
              have he' : Extends g (h ++ [⟨o.cls, []⟩]) :=
                he.trans (fun i hi => List.getElem?_append_left hi) (by simp)
              obtain ⟨R', p, hm', hf⟩ := copyVals_spec ih o.fields _ _ h1 m1 ws R₀ he' hfields
                (by
                  rintro q hq
                  rcases List.mem_cons.mp hq with rfl | hq
                  · exact .inr ⟨rfl, rfl⟩
                  · exact .inl (hm q hq)) hc
              have hlen : h.length + 1 ≤ h1.length := by simpa using p.len
              have hself : (h1.set h.length ⟨o.cls, ws⟩)[h.length]? = some ⟨o.cls, ws⟩ := by
                rw [List.getElem?_set_self (by omega)]
              have hother : ∀ i, i ≠ h.length → (h1.set h.length ⟨o.cls, ws⟩)[i]? = h1[i]? :=
                fun i hi => List.getElem?_set_ne (fun h => hi h.symm)
              refine ⟨R', ⟨?_, ?_, ?_, ?_⟩, hm', ?_⟩
              · exact fun x y hr => p.sub _ _ (.inl hr)
              · intro i hi
                rw [hother i (by omega), p.same i (by simp; omega), List.getElem?_append_left hi]
              · rw [List.length_set]
                omega
              · intro x y hr
                rcases p.new x y hr with hr | ⟨hy, ⟨q, hq, hx⟩, hcorr⟩
                · rcases hr with hr | ⟨rfl, rfl⟩
                  · exact .inl hr
                  · refine .inr ⟨Nat.le_refl _, .here hga.symm (by rw [hh]; simp), o, _,
                      hga.symm, hself, rfl, ?_⟩
                    unfold FieldsRel
                    rw [hh]
                    exact hf
                · simp only [List.length_append, List.length_cons, List.length_nil] at hy hcorr
                  refine .inr ⟨by omega, .plain hga.symm hh (n := q.1) (v := q.2) hq hx, ?_⟩
                  exact hcorr.mono (fun _ _ h => h) (by omega) (fun i hi _ => hother i (by omega))
                    (by omega)
              · exact .inr ⟨_, rfl, p.sub _ _ (.inr ⟨rfl, rfl⟩)⟩
          | rebuild acts =>
            simp only [hh] at hd
            cases hc : rebuild (deepcopy hk fuel) o acts h with
            | none => simp [hc] at hd
            | some r =>
              obtain ⟨h1, ws⟩ := r
              simp only [hc, Option.some.injEq, Prod.mk.injEq] at hd
              obtain ⟨rfl, rfl, rfl⟩ := hd
              obtain ⟨R₁, p, hf⟩ := rebuild_spec ih o acts h h1 ws R he
                (fun n v hv => hfields (n, v) (lookup_mem' hv)) hc
              have happ : ∀ i < h1.length, (h1 ++ [⟨o.cls, ws⟩])[i]? = h1[i]? :=
                fun i hi => List.getElem?_append_left hi
              have hsub : ∀ x y, R₁ x y → (R₁ x y ∨ (x = a ∧ y = h1.length)) :=
                fun _ _ h => .inl h
              refine ⟨fun x y => R₁ x y ∨ (x = a ∧ y = h1.length), ⟨?_, ?_, ?_, ?_⟩, ?_, ?_⟩
              · exact fun x y hr => .inl (p.sub _ _ hr)
              · intro i hi
                rw [happ i (Nat.lt_of_lt_of_le hi p.len), p.same i hi]
              · simp only [List.length_append]
                exact Nat.le_add_right_of_le p.len
              · intro x y hr
                rcases hr with hr | ⟨rfl, rfl⟩
                · rcases p.new x y hr with hr | ⟨hy, ⟨n, v, hn, hv, hx⟩, hcorr⟩
                  · exact .inl hr
                  · exact .inr ⟨hy, .rebuilt hga.symm hh hn hv hx,
                      hcorr.mono hsub (Nat.le_refl _) (fun i _ hi => happ i hi) hy⟩
                · refine .inr ⟨p.len, .here hga.symm (by rw [hh]; simp), o, ⟨o.cls, ws⟩,
                    hga.symm, by simp, rfl, ?_⟩
                  unfold FieldsRel
                  rw [hh]
                  refine List.Forall₂.imp ?_ hf
                  rintro q q' ⟨hq, v, hv, ha⟩
                  exact ⟨hq, v, hv, ha.mono hsub (Nat.le_refl _) (fun i _ hi => happ i hi)⟩
              · intro q hq
                rcases List.mem_cons.mp hq with rfl | hq
                · exact .inr ⟨rfl, rfl⟩
                · exact .inl (p.sub _ _ (hm q hq))
              · exact .inr ⟨_, rfl, .inr ⟨rfl, rfl⟩⟩

end Verif.Client

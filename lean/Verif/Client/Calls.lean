import Verif.Client.Copies

/-!
# Lemmas on calls
-/

set_option autoImplicit false

namespace Verif.Client

variable {hk : String → Hook}

/-! ## Copies hold objects that exist -/

/-- The value is no object or one that exists. -/
def Bounded (h : Heap) (v : Val) : Prop :=
  ∀ a, v = .ref a → a < h.length

theorem Bounded.mono {h h' : Heap} (hl : h.length ≤ h'.length) {v : Val} (hv : Bounded h v) :
    Bounded h' v :=
  fun a ha => Nat.lt_of_lt_of_le (hv a ha) hl

theorem closed_bounded {h : Heap} (hc : Closed h) {a : Addr} {o : Obj} (ho : h[a]? = some o) :
    ∀ p ∈ o.fields, Bounded h p.2 := by
  rintro ⟨n, v⟩ hp b rfl
  exact hc a o ho n b hp

theorem closed_append {h : Heap} (hc : Closed h) {o : Obj} (ho : ∀ p ∈ o.fields, Bounded h p.2) :
    Closed (h ++ [o]) := by
  intro a o' ho' n b hb
  rw [List.length_append]
  by_cases ha : a < h.length
  · rw [List.getElem?_append_left ha] at ho'
    exact Nat.lt_add_right _ (hc a o' ho' n b hb)
  · rw [List.getElem?_append_right (by omega)] at ho'
    have : o = o' := by
      cases hi : a - h.length with
      | zero => simpa [hi] using ho'
      | succ k => simp [hi] at ho'
    subst this
    exact Nat.lt_add_right _ (ho _ hb b rfl)

theorem closed_set {h : Heap} (hc : Closed h) {y : Addr} {o : Obj}
    (ho : ∀ p ∈ o.fields, Bounded h p.2) : Closed (h.set y o) := by
  intro a o' ho' n b hb
  rw [List.length_set]
  by_cases ha : a = y
  · subst ha
    by_cases hlt : a < h.length
    · rw [List.getElem?_set_self hlt] at ho'
      cases ho'
      exact ho _ hb b rfl
    · rw [List.getElem?_eq_none (by simp; omega)] at ho'
      cases ho'
  · rw [List.getElem?_set_ne (fun h => ha h.symm)] at ho'
    exact hc a o' ho' n b hb

/-- A function that copies values leaves only objects that exist. -/
def Bounds (dc : Heap → Memo → Val → Option (Heap × Memo × Val)) : Prop :=
  ∀ h m v h' m' w, Closed h → Bounded h v → (∀ p ∈ m, p.2 < h.length) →
    dc h m v = some (h', m', w) →
    Closed h' ∧ Bounded h' w ∧ (∀ p ∈ m', p.2 < h'.length) ∧ h.length ≤ h'.length

theorem copyVals_bounds {dc : Heap → Memo → Val → Option (Heap × Memo × Val)} (hdc : Bounds dc)
    (fs : List (String × Val)) (h : Heap) (m : Memo) (h' : Heap) (m' : Memo)
    (ws : List (String × Val)) (hc : Closed h) (hv : ∀ p ∈ fs, Bounded h p.2)
    (hm : ∀ p ∈ m, p.2 < h.length) (hr : copyVals dc fs h m = some (h', m', ws)) :
    Closed h' ∧ (∀ p ∈ ws, Bounded h' p.2) ∧ (∀ p ∈ m', p.2 < h'.length) ∧
      h.length ≤ h'.length := by
  induction fs generalizing h m h' m' ws with
  | nil =>
    simp only [copyVals, Option.some.injEq, Prod.mk.injEq] at hr
    obtain ⟨rfl, rfl, rfl⟩ := hr
    exact ⟨hc, by simp, hm, Nat.le_refl _⟩
  | cons f fs ih =>
    obtain ⟨n, v⟩ := f
    rw [copyVals] at hr
    cases h₁ : dc h m v with
    | none => simp [h₁] at hr
    | some r =>
      obtain ⟨h1, m1, w⟩ := r
      simp only [h₁] at hr
      obtain ⟨hc₁, hw₁, hm₁, hl₁⟩ := hdc h m v h1 m1 w hc (hv (n, v) (by simp)) hm h₁
      cases h₂ : copyVals dc fs h1 m1 with
      | none => simp [h₂] at hr
      | some r =>
        obtain ⟨h2, m2, ws'⟩ := r
        simp only [h₂, Option.some.injEq, Prod.mk.injEq] at hr
        obtain ⟨rfl, rfl, rfl⟩ := hr
        obtain ⟨hc₂, hw₂, hm₂, hl₂⟩ := ih h1 m1 h2 m2 ws' hc₁
          (fun p hp => (hv p (List.mem_cons_of_mem _ hp)).mono hl₁) hm₁ h₂
        refine ⟨hc₂, ?_, hm₂, Nat.le_trans hl₁ hl₂⟩
        intro p hp
        rcases List.mem_cons.mp hp with rfl | hp
        · exact hw₁.mono hl₂
        · exact hw₂ p hp

theorem rebuild_bounds {dc : Heap → Memo → Val → Option (Heap × Memo × Val)} (hdc : Bounds dc)
    (o : Obj) (acts : List (String × Act)) (h : Heap) (h' : Heap) (ws : List (String × Val))
    (hc : Closed h) (hv : ∀ p ∈ o.fields, Bounded h p.2)
    (hr : rebuild dc o acts h = some (h', ws)) :
    Closed h' ∧ (∀ p ∈ ws, Bounded h' p.2) ∧ h.length ≤ h'.length := by
  induction acts generalizing h h' ws with
  | nil =>
    simp only [rebuild, Option.some.injEq, Prod.mk.injEq] at hr
    obtain ⟨rfl, rfl⟩ := hr
    exact ⟨hc, by simp, Nat.le_refl _⟩
  | cons x acts ih =>
    obtain ⟨n, act⟩ := x
    rw [rebuild] at hr
    cases hl : o.fields.lookup n with
    | none => simp [hl] at hr
    | some v =>
      have hvb := hv _ (lookup_mem' hl)
      simp only [hl] at hr
      cases hmade : rebuilt dc h act v with
      | none => simp [hmade] at hr
      | some r =>
        obtain ⟨h1, w⟩ := r
        simp only [hmade] at hr
        cases h₂ : rebuild dc o acts h1 with
        | none => simp [h₂] at hr
        | some r =>
          obtain ⟨h2, ws'⟩ := r
          simp only [h₂, Option.some.injEq, Prod.mk.injEq] at hr
          obtain ⟨rfl, rfl⟩ := hr
          have key : Closed h1 ∧ Bounded h1 w ∧ h.length ≤ h1.length := by
            cases act with
            | share =>
              simp only [rebuilt, Option.some.injEq, Prod.mk.injEq] at hmade
              obtain ⟨rfl, rfl⟩ := hmade
              exact ⟨hc, hvb, Nat.le_refl _⟩
            | copy =>
              cases hd : dc h [] v with
              | none => simp [rebuilt, hd] at hmade
              | some r =>
                obtain ⟨h1', m1, w'⟩ := r
                simp only [rebuilt, hd, Option.map_some, Option.some.injEq, Prod.mk.injEq] at hmade
                obtain ⟨rfl, rfl⟩ := hmade
                obtain ⟨h₁, h₂, _, h₃⟩ := hdc h [] v h1' m1 w' hc hvb (by simp) hd
                exact ⟨h₁, h₂, h₃⟩
            | fresh c =>
              simp only [rebuilt, Option.some.injEq, Prod.mk.injEq] at hmade
              obtain ⟨rfl, rfl⟩ := hmade
              refine ⟨closed_append hc (by simp), ?_, by simp⟩
              rintro a ha
              cases ha
              simp
            | shallow =>
              cases v with
              | prim p =>
                simp only [rebuilt, Option.some.injEq, Prod.mk.injEq] at hmade
                obtain ⟨rfl, rfl⟩ := hmade
                exact ⟨hc, hvb, Nat.le_refl _⟩
              | ref s =>
                cases hs : h[s]? with
                | none => simp [rebuilt, hs] at hmade
                | some t =>
                  simp only [rebuilt, hs, Option.map_some, Option.some.injEq,
                    Prod.mk.injEq] at hmade
                  obtain ⟨rfl, rfl⟩ := hmade
                  refine ⟨closed_append hc (closed_bounded hc hs), ?_, by simp⟩
                  rintro a ha
                  cases ha
                  simp
          obtain ⟨hc₁, hw₁, hl₁⟩ := key
          obtain ⟨hc₂, hw₂, hl₂⟩ := ih h1 h2 ws' hc₁ (fun p hp => (hv p hp).mono hl₁) h₂
          refine ⟨hc₂, ?_, Nat.le_trans hl₁ hl₂⟩
          intro p hp
          rcases List.mem_cons.mp hp with rfl | hp
          · exact hw₁.mono hl₂
          · exact hw₂ p hp

theorem deepcopy_bounds (fuel : Nat) : Bounds (deepcopy hk fuel) := by
  induction fuel with
  | zero =>
    intro h m v h' m' w _ _ _ hd
    simp [deepcopy] at hd
  | succ fuel ih =>
    intro h m v h' m' w hc hv hm hd
    cases v with
    | prim p =>
      simp only [deepcopy, Option.some.injEq, Prod.mk.injEq] at hd
      obtain ⟨rfl, rfl, rfl⟩ := hd
      exact ⟨hc, hv, hm, Nat.le_refl _⟩
    | ref a =>
      rw [deepcopy] at hd
      cases hl : m.lookup a with
      | some b =>
        simp only [hl, Option.some.injEq, Prod.mk.injEq] at hd
        obtain ⟨rfl, rfl, rfl⟩ := hd
        refine ⟨hc, ?_, hm, Nat.le_refl _⟩
        rintro x hx
        cases hx
        exact hm _ (lookup_mem' hl)
      | none =>
        cases ho : h[a]? with
        | none => simp [hl, ho] at hd
        | some o =>
          simp only [hl, ho] at hd
          have hob := closed_bounded hc ho
          cases hh : hk o.cls with
          | itself =>
            simp only [hh, Option.some.injEq, Prod.mk.injEq] at hd
            obtain ⟨rfl, rfl, rfl⟩ := hd
            exact ⟨hc, hv, hm, Nat.le_refl _⟩
          | plain =>
            simp only [hh] at hd
            cases hr : copyVals (deepcopy hk fuel) o.fields (h ++ [⟨o.cls, []⟩])
                ((a, h.length) :: m) with
            | none => simp [hr] at hd
            | some r =>
              obtain ⟨h1, m1, ws⟩ := r
              simp only [hr, Option.some.injEq, Prod.mk.injEq] at hd
              obtain ⟨rfl, rfl, rfl⟩ := hd
              obtain ⟨hc₁, hw₁, hm₁, hl₁⟩ := copyVals_bounds ih o.fields _ _ h1 m1 ws
                (closed_append hc (by simp)) (fun p hp => (hob p hp).mono (by simp))
                (by
                  intro p hp
                  rcases List.mem_cons.mp hp with rfl | hp
                  · simp
                  · have := hm p hp
                    simp only [List.length_append]
                    omega) hr
              simp only [List.length_append, List.length_cons, List.length_nil] at hl₁
              refine ⟨closed_set hc₁ hw₁, ?_, by simpa using hm₁, by simp; omega⟩
              rintro x hx
              cases hx
              simp only [List.length_set]
              omega
          | rebuild acts =>
            simp only [hh] at hd
            cases hr : rebuild (deepcopy hk fuel) o acts h with
            | none => simp [hr] at hd
            | some r =>
              obtain ⟨h1, ws⟩ := r
              simp only [hr, Option.some.injEq, Prod.mk.injEq] at hd
              obtain ⟨rfl, rfl, rfl⟩ := hd
              obtain ⟨hc₁, hw₁, hl₁⟩ := rebuild_bounds ih o acts h h1 ws hc hob hr
              refine ⟨closed_append hc₁ hw₁, ?_, ?_, by simp; omega⟩
              · rintro x hx
                cases hx
                simp
              · intro p hp
                simp only [List.length_append, List.length_cons, List.length_nil]
                rcases List.mem_cons.mp hp with rfl | hp
                · simp
                · have := hm p hp
                  omega

/-! ## What can be reached from a copy -/

theorem forall₂_right {α β : Type} {r : α → β → Prop} {l : List α} {l' : List β}
    (h : List.Forall₂ r l l') {y : β} (hy : y ∈ l') : ∃ x ∈ l, r x y := by
  induction h with
  | nil => simp at hy
  | cons hxy _ ih =>
    rcases List.mem_cons.mp hy with rfl | hy
    · exact ⟨_, List.mem_cons_self, hxy⟩
    · obtain ⟨x, hx, hr⟩ := ih hy
      exact ⟨x, List.mem_cons_of_mem _ hx, hr⟩

theorem copied_kept {g : Heap} {v : Val} {a k : Addr} (hc : Copied hk g v a)
    (hkept : Kept hk g (.ref a) k) : Kept hk g v k := by
  induction hc with
  | here ho hn => exact hkept
  | plain ho hp hv _ ih => exact .plain ho hp hv (ih hkept)
  | rebuilt ho hp hn hv _ ih => exact .rebuilt ho hp hn hv (ih hkept)

theorem Reach.trans {h : Heap} {v : Val} {a b : Addr} (h₁ : Reach h v a)
    (h₂ : Reach h (.ref a) b) : Reach h v b := by
  induction h₁ with
  | here a => exact h₂
  | there ho hv _ ih => exact .there ho hv (ih h₂)

theorem reach_bounded {h : Heap} (hc : Closed h) {v : Val} {x : Addr} (hx : Reach h v x)
    (hv : Bounded h v) : x < h.length := by
  induction hx with
  | here a => exact hv a rfl
  | there ho hm _ ih => exact ih (closed_bounded hc ho _ hm)

/-- What a copy comes with, without the relation it was started with. -/
structure Copy (hk : String → Hook) (g : Heap) (root : Addr) (h' : Heap) (w : Val)
    (R : Addr → Addr → Prop) : Prop where
  same : ∀ i < g.length, h'[i]? = g[i]?
  len : g.length ≤ h'.length
  pairs : ∀ a b, R a b → g.length ≤ b ∧ Copied hk g (.ref root) a ∧ Corr hk g R g.length h' a b
  result : VRel hk g R (.ref root) w

theorem copy_of_deepcopy {g : Heap} (hg : Closed g) {root : Addr} (hr : root < g.length)
    {fuel : Nat} {h' : Heap} {m' : Memo} {w : Val}
    (hd : deepcopy hk fuel g [] (.ref root) = some (h', m', w)) :
    ∃ R, Copy hk g root h' w R := by
  obtain ⟨R, p, _, hv⟩ := deepcopy_spec hg fuel g [] (.ref root) h' m' w (fun _ _ => False)
    ⟨fun _ _ => rfl, Nat.le_refl _⟩ (by rintro a ha; cases ha; exact hr) (by simp) hd
  refine ⟨R, p.same, p.len, ?_, hv⟩
  intro a b hab
  rcases p.new a b hab with h | h
  · exact h.elim
  · exact h

/-- What is found on the way through a copy: an object of a pair, a new object that holds only kept
ones, or something reached from a kept object. -/
def OnTheWay (hk : String → Hook) (g : Heap) (root : Addr) (h' : Heap) (R : Addr → Addr → Prop) :
    Val → Prop
  | .prim _ => True
  | .ref b => (∃ a, R a b) ∨
      (g.length ≤ b ∧ ∀ o n c, h'[b]? = some o → (n, Val.ref c) ∈ o.fields →
        Kept hk g (.ref root) c) ∨
      ∃ k, Kept hk g (.ref root) k ∧ Reach g (.ref k) b

theorem onTheWay_field {g : Heap} (hg : Closed g) {root : Addr} {h' : Heap} {w : Val}
    {R : Addr → Addr → Prop} (c : Copy hk g root h' w R) {b : Addr} {o : Obj} {n : String}
    {v : Val} (hb : OnTheWay hk g root h' R (.ref b)) (ho : h'[b]? = some o)
    (hv : (n, v) ∈ o.fields) (hkb : ∀ k, Kept hk g (.ref root) k → k < g.length) :
    OnTheWay hk g root h' R v := by
  rcases hb with ⟨a, hab⟩ | ⟨_, hnew⟩ | ⟨k, hkk, hreach⟩
  · obtain ⟨hlo, hcop, o₀, o', ho₀, ho', _, hf⟩ := c.pairs a b hab
    rw [ho] at ho'
    cases ho'
    have hrel : ∀ u, (∀ k, Kept hk g u k → Kept hk g (.ref a) k) → VRel hk g R u v →
        OnTheWay hk g root h' R v := by
      intro u hu hrel
      cases u with
      | prim p =>
        cases hrel
        trivial
      | ref x =>
        rcases hrel with ⟨rfl, t, ht, hi⟩ | ⟨y, rfl, hxy⟩
        · exact .inr (.inr ⟨x, copied_kept hcop (hu x (.itself ht hi)), .here x⟩)
        · exact .inl ⟨x, hxy⟩
    unfold FieldsRel at hf
    split at hf
    · exact hf.elim
    · rename_i hp
      obtain ⟨p, hpm, _, hpv⟩ := forall₂_right hf hv
      exact hrel p.2 (fun k hkk => .plain ho₀ hp (n := p.1) hpm hkk) hpv
    · rename_i acts hp
      obtain ⟨p, hpm, _, u, hu, hact⟩ := forall₂_right hf hv
      obtain ⟨pn, act⟩ := p
      cases act with
      | share =>
        cases hact
        cases v with
        | prim p => trivial
        | ref x => exact .inr (.inr ⟨x, copied_kept hcop (.share ho₀ hp hpm hu), .here x⟩)
      | copy => exact hrel u (fun k hkk => .rebuilt ho₀ hp hpm hu hkk) hact
      | fresh cl =>
        obtain ⟨x, hx, hw, hox⟩ := hact
        simp only at hw
        subst hw
        refine .inr (.inl ⟨hx, ?_⟩)
        intro o n c' ho' hm
        rw [hox] at ho'
        cases ho'
        simp at hm
      | shallow =>
        cases u with
        | prim p =>
          cases hact
          trivial
        | ref s =>
          obtain ⟨x, t, hx, hw, ht, hox⟩ := hact
          simp only at hw
          subst hw
          refine .inr (.inl ⟨hx, ?_⟩)
          intro o n c' ho' hm
          rw [hox] at ho'
          cases ho'
          exact copied_kept hcop (.shallow ho₀ hp hpm hu ht hm)
  · cases v with
    | prim p => trivial
    | ref x => exact .inr (.inr ⟨x, hnew o n x ho hv, .here x⟩)
  · have hbg : b < g.length :=
      reach_bounded hg hreach (by rintro x h; cases h; exact hkb k hkk)
    cases v with
    | prim p => trivial
    | ref x =>
      rw [c.same b hbg] at ho
      exact .inr (.inr ⟨k, hkk, hreach.trans (.there ho hv (.here x))⟩)

theorem kept_bounded {g : Heap} (hg : Closed g) {v : Val} {k : Addr} (hkk : Kept hk g v k) :
    k < g.length := by
  induction hkk with
  | itself ho _ => exact getElem?_lt ho
  | plain _ _ _ _ ih => exact ih
  | rebuilt _ _ _ _ _ ih => exact ih
  | share ho _ _ hv => exact closed_bounded hg ho _ (lookup_mem' hv) _ rfl
  | shallow _ _ _ _ ht hb => exact closed_bounded hg ht _ hb _ rfl

/-- What can be reached from a copy is new or can be reached from something that is kept. -/
theorem reach_copy {g : Heap} (hg : Closed g) {root : Addr} {h' : Heap} {w : Val}
    {R : Addr → Addr → Prop} (c : Copy hk g root h' w R) {x : Addr} (hx : Reach h' w x) :
    g.length ≤ x ∨ ∃ k, Kept hk g (.ref root) k ∧ Reach g (.ref k) x := by
  have hw : OnTheWay hk g root h' R w := by
    have := c.result
    rcases this with ⟨rfl, o, ho, hi⟩ | ⟨b, rfl, hb⟩
    · exact .inr (.inr ⟨root, .itself ho hi, .here root⟩)
    · exact .inl ⟨root, hb⟩
  have key : ∀ (u : Val) (x : Addr), Reach h' u x → OnTheWay hk g root h' R u →
      g.length ≤ x ∨ ∃ k, Kept hk g (.ref root) k ∧ Reach g (.ref k) x := by
    intro u x hux
    induction hux with
    | here a =>
      rintro (⟨a', h⟩ | ⟨h, _⟩ | h)
      · exact .inl (c.pairs a' a h).1
      · exact .inl h
      · exact .inr h
    | there ho hv _ ih =>
      exact fun h => ih (onTheWay_field hg c h ho hv (fun k => kept_bounded hg))
  exact key w x hx hw

/-! ## What is seen in a copy -/

theorem forall₂_lookup {r : Val → Val → Prop} {l l' : List (String × Val)}
    (h : List.Forall₂ (fun p q => q.1 = p.1 ∧ r p.2 q.2) l l') {n : String} {v : Val}
    (hv : l.lookup n = some v) : ∃ w, l'.lookup n = some w ∧ r v w := by
  induction h with
  | nil => simp at hv
  | @cons p q ps qs hpq _ ih =>
    obtain ⟨pn, pv⟩ := p
    obtain ⟨qn, qv⟩ := q
    obtain ⟨h₁, h₂⟩ := hpq
    simp only at h₁ h₂
    subst h₁
    rw [List.lookup_cons] at hv ⊢
    cases hn : n == qn with
    | true =>
      simp only [hn, Option.some.injEq] at hv
      subst hv
      exact ⟨qv, by simp, h₂⟩
    | false =>
      simp only [hn] at hv
      simpa using ih hv

theorem forall₂_names {r : Val → Val → Prop} {l l' : List (String × Val)}
    (h : List.Forall₂ (fun p q => q.1 = p.1 ∧ r p.2 q.2) l l') :
    l'.map (·.1) = l.map (·.1) := by
  induction h with
  | nil => rfl
  | cons hpq _ ih => simp [hpq.1, ih]

theorem shows_of_vrel {g : Heap} {root : Addr} {h' : Heap} {w₀ : Val} {R : Addr → Addr → Prop}
    (c : Copy hk g root h' w₀ R) {v w : Val} (hv : VRel hk g R v w) : Shows hk g h' v w := by
  cases v with
  | prim p => exact hv
  | ref a =>
    rcases hv with ⟨rfl, o, ho, hi⟩ | ⟨b, rfl, hab⟩
    · refine ⟨o, ho, ?_⟩
      rw [if_pos hi]
    · obtain ⟨hb, _, o, o', ho, ho', hcls, hf⟩ := c.pairs a b hab
      refine ⟨o, ho, ?_⟩
      rw [if_neg]
      · refine ⟨b, o', rfl, hb, ho', hcls, ?_⟩
        intro hp
        unfold FieldsRel at hf
        rw [hp] at hf
        exact forall₂_names hf
      · intro hi
        unfold FieldsRel at hf
        rw [hi] at hf
        exact hf

theorem walk_copy {g : Heap} {root : Addr} {h' : Heap} {w₀ : Val} {R : Addr → Addr → Prop}
    (c : Copy hk g root h' w₀ R) (path : List String) {v w : Val} (hp : Plainly hk g v path)
    (hv : VRel hk g R v w) :
    ∃ u u', walk g v path = some u ∧ walk h' w path = some u' ∧ VRel hk g R u u' := by
  induction path generalizing v w with
  | nil => exact ⟨v, w, rfl, rfl, hv⟩
  | cons n ns ih =>
    cases v with
    | prim p => exact hp.elim
    | ref a =>
      obtain ⟨o, v', ho, hpl, hl, hrest⟩ := hp
      rcases hv with ⟨rfl, t, ht, hi⟩ | ⟨b, rfl, hab⟩
      · rw [ho] at ht
        cases ht
        rw [hi] at hpl
        cases hpl
      · obtain ⟨_, _, o₁, o', ho₁, ho', _, hf⟩ := c.pairs a b hab
        rw [ho] at ho₁
        cases ho₁
        unfold FieldsRel at hf
        rw [hpl] at hf
        obtain ⟨w', hw', hrel⟩ := forall₂_lookup hf hl
        obtain ⟨u, u', hu, hu', hr⟩ := ih hrest hrel
        exact ⟨u, u', by simp [walk, step, ho, hl, hu], by simp [walk, step, ho', hw', hu'], hr⟩

/-! ## The calls of a client -/

theorem copied_trans {g : Heap} {v : Val} {a b : Addr} (h₁ : Copied hk g v a)
    (h₂ : Copied hk g (.ref a) b) : Copied hk g v b := by
  induction h₁ with
  | here _ _ => exact h₂
  | plain ho hp hv _ ih => exact .plain ho hp hv (ih h₂)
  | rebuilt ho hp hn hv _ ih => exact .rebuilt ho hp hn hv (ih h₂)

/-- What stays true while calls run.  `own` says which call an object belongs to. -/
structure Inv (h₀ : Heap) (common : Addr → Prop) (s : System) (own : Addr → Option Nat) :
    Prop where
  len : h₀.length ≤ s.heap.length
  closed : Closed s.heap
  base : ∀ a < h₀.length, own a = none
  same : ∀ a < h₀.length, ¬ common a → s.heap[a]? = h₀[a]?
  cls : ∀ a < h₀.length, s.heap[a]?.map (·.cls) = h₀[a]?.map (·.cls)
  inside : ∀ a o, common a → s.heap[a]? = some o → ∀ n b, (n, Val.ref b) ∈ o.fields → common b
  calls : ∀ i c, s.calls[i]? = some c →
    c < s.heap.length ∧ ∀ a, Reach s.heap (.ref c) a → own a = some i ∨ common a

/-- The kept objects are common at any time. -/
theorem kept_common {h₀ : Heap} {client : Addr} {common : Addr → Prop}
    (st : Setting hk h₀ client common) {s : System} {own : Addr → Option Nat}
    (inv : Inv h₀ common s own) {v : Val} {k : Addr} (hkk : Kept hk s.heap v k)
    (hb : Bounded h₀ v) (h₁ : ∀ x, Kept hk h₀ v x → common x)
    (h₂ : ∀ x, Copied hk h₀ v x → ¬ common x) : common k := by
  have obj : ∀ {a : Addr} {o : Obj}, Bounded h₀ (.ref a) → s.heap[a]? = some o →
      hk o.cls ≠ .itself → (∀ x, Copied hk h₀ (.ref a) x → ¬ common x) → h₀[a]? = some o := by
    intro a o hb ho hn h₂
    have ha := hb a rfl
    have hcls := inv.cls a ha
    rw [ho, List.getElem?_eq_getElem ha] at hcls
    simp only [Option.map_some, Option.some.injEq] at hcls
    have hnc : ¬ common a :=
      h₂ a (.here (List.getElem?_eq_getElem ha) (by rw [← hcls]; exact hn))
    rw [← inv.same a ha hnc]
    exact ho
  induction hkk with
  | @itself a o ho hs =>
    have ha := hb a rfl
    have hcls := inv.cls a ha
    rw [ho, List.getElem?_eq_getElem ha] at hcls
    simp only [Option.map_some, Option.some.injEq] at hcls
    exact h₁ a (.itself (List.getElem?_eq_getElem ha) (by rw [← hcls]; exact hs))
  | plain ho hp hv _ ih =>
    have ho' := obj hb ho (by rw [hp]; simp) h₂
    exact ih (closed_bounded st.closed ho' _ hv) (fun x hx => h₁ x (.plain ho' hp hv hx))
      (fun x hx => h₂ x (.plain ho' hp hv hx))
  | rebuilt ho hp hn hv _ ih =>
    have ho' := obj hb ho (by rw [hp]; simp) h₂
    exact ih (closed_bounded st.closed ho' _ (lookup_mem' hv))
      (fun x hx => h₁ x (.rebuilt ho' hp hn hv hx)) (fun x hx => h₂ x (.rebuilt ho' hp hn hv hx))
  | share ho hp hn hv =>
    have ho' := obj hb ho (by rw [hp]; simp) h₂
    exact h₁ _ (.share ho' hp hn hv)
  | @shallow a o acts n k s' t b ho hp hn hv ht hm =>
    have ho' := obj hb ho (by rw [hp]; simp) h₂
    have hs := closed_bounded st.closed ho' _ (lookup_mem' hv) s' rfl
    by_cases hc : common s'
    · exact inv.inside s' t hc ht k b hm
    · rw [inv.same s' hs hc] at ht
      exact h₁ b (.shallow ho' hp hn hv ht hm)

theorem reach_common {h : Heap} {common : Addr → Prop}
    (hi : ∀ a o, common a → h[a]? = some o → ∀ n b, (n, Val.ref b) ∈ o.fields → common b)
    {v : Val} {x : Addr} (hx : Reach h v x) (hv : ∀ a, v = .ref a → common a) : common x := by
  induction hx with
  | here a => exact hv a rfl
  | @there a o n v b ho hm _ ih =>
    refine ih ?_
    rintro c rfl
    exact hi a o (hv a rfl) ho n c hm

/-- When the objects that a value leads to are left alone, it leads to the same objects. -/
theorem reach_same {h h' : Heap} {common : Addr → Prop}
    (hi : ∀ a o, common a → h'[a]? = some o → ∀ n b, (n, Val.ref b) ∈ o.fields → common b)
    {v : Val} {x : Addr} (hx : Reach h' v x)
    (hs : ∀ a, Reach h v a → ¬ common a → h'[a]? = h[a]?) : Reach h v x ∨ common x := by
  induction hx with
  | here a => exact .inl (.here a)
  | @there a o n v b ho hm hb ih =>
    by_cases hc : common a
    · exact .inr (reach_common hi (.there ho hm hb) (by rintro c h; cases h; exact hc))
    · have ho' := ho
      rw [hs a (.here a) hc] at ho'
      rcases ih (fun c hcr => hs c (.there ho' hm hcr)) with h | h
      · exact .inl (.there ho' hm h)
      · exact .inr h

theorem inv_step {h₀ : Heap} {client : Addr} {common : Addr → Prop}
    (st : Setting hk h₀ client common) {s t : System} {own : Addr → Option Nat}
    (inv : Inv h₀ common s own) (hst : Happens hk client common s t) :
    ∃ own', Inv h₀ common t own' := by
  cases hst with
  | @start fuel h' m' b hd =>
    have hcl : client < s.heap.length := Nat.lt_of_lt_of_le st.exists' inv.len
    obtain ⟨R, c⟩ := copy_of_deepcopy inv.closed hcl hd
    have hbounds := deepcopy_bounds (hk := hk) fuel s.heap [] (.ref client) h' m' (.ref b)
      inv.closed (by rintro a h; cases h; exact hcl) (by simp) hd
    refine ⟨fun a => if s.heap.length ≤ a then some s.calls.length else own a, ?_, hbounds.1,
      ?_, ?_, ?_, ?_, ?_⟩
    · exact Nat.le_trans inv.len c.len
    · intro a ha
      have := inv.len
      rw [if_neg (by omega)]
      exact inv.base a ha
    · intro a ha hc
      rw [c.same a (Nat.lt_of_lt_of_le ha inv.len)]
      exact inv.same a ha hc
    · intro a ha
      rw [c.same a (Nat.lt_of_lt_of_le ha inv.len)]
      exact inv.cls a ha
    · intro a o hc ho
      rw [c.same a (Nat.lt_of_lt_of_le (st.old a hc) inv.len)] at ho
      exact inv.inside a o hc ho
    · intro i cfg hi
      simp only at hi ⊢
      by_cases hlt : i < s.calls.length
      · rw [List.getElem?_append_left hlt] at hi
        obtain ⟨hcfg, hreach⟩ := inv.calls i cfg hi
        refine ⟨Nat.lt_of_lt_of_le hcfg c.len, ?_⟩
        intro a ha
        have hsame : ∀ a, Reach s.heap (.ref cfg) a → ¬ common a → h'[a]? = s.heap[a]? :=
          fun a har _ => c.same a
            (reach_bounded inv.closed har (by rintro x h; cases h; exact hcfg))
        have hin : ∀ a o, common a → h'[a]? = some o → ∀ n b, (n, Val.ref b) ∈ o.fields →
            common b := by
          intro a o hc ho
          rw [c.same a (Nat.lt_of_lt_of_le (st.old a hc) inv.len)] at ho
          exact inv.inside a o hc ho
        rcases reach_same hin ha hsame with h | h
        · have := reach_bounded inv.closed h (by rintro x h; cases h; exact hcfg)
          rw [if_neg (by omega)]
          exact hreach a h
        · exact .inr h
      · rw [List.getElem?_append_right (by omega)] at hi
        have hi0 : i = s.calls.length ∧ b = cfg := by
          cases hd : i - s.calls.length with
          | zero => exact ⟨by omega, by simpa [hd] using hi⟩
          | succ k => simp [hd] at hi
        obtain ⟨hi0, rfl⟩ := hi0
        refine ⟨hbounds.2.1 _ rfl, ?_⟩
        intro a ha
        rcases reach_copy inv.closed c ha with h | ⟨k, hkk, hr⟩
        · left
          rw [if_pos h]
          congr 1
          omega
        · right
          refine reach_common inv.inside hr ?_
          rintro x hx
          cases hx
          exact kept_common st inv hkk (by rintro x h; cases h; exact st.exists') st.kept st.apart
  | @act i cfg h' hi ha =>
    obtain ⟨hcfg, hreach⟩ := inv.calls i cfg hi
    refine ⟨fun a => if s.heap.length ≤ a then some i else own a, ?_, ha.closed, ?_, ?_, ?_, ?_,
      ?_⟩
    · exact Nat.le_trans inv.len ha.grows
    · intro a hlt
      have := inv.len
      rw [if_neg (by omega)]
      exact inv.base a hlt
    · intro a hlt hc
      have hal := Nat.lt_of_lt_of_le hlt inv.len
      rw [ha.only a hal ?_ hc]
      · exact inv.same a hlt hc
      · intro hr
        rcases hreach a hr with h | h
        · rw [inv.base a hlt] at h
          cases h
        · exact hc h
    · intro a hlt
      rw [ha.cls a (Nat.lt_of_lt_of_le hlt inv.len)]
      exact inv.cls a hlt
    · exact ha.inside
    · intro j c hj
      obtain ⟨hcl, hrj⟩ := inv.calls j c hj
      refine ⟨Nat.lt_of_lt_of_le hcl ha.grows, ?_⟩
      intro a har
      by_cases hij : j = i
      · subst hij
        rw [hi] at hj
        cases hj
        by_cases hlt : s.heap.length ≤ a
        · rw [if_pos hlt]
          exact .inl rfl
        · rw [if_neg hlt]
          rcases ha.reach a (by omega) har with h | h
          · exact hreach a h
          · exact .inr h
      · have hsame : ∀ x, Reach s.heap (.ref c) x → ¬ common x → h'[x]? = s.heap[x]? := by
          intro x hx hxc
          refine ha.only x (reach_bounded inv.closed hx (by rintro y h; cases h; exact hcl)) ?_ hxc
          intro hxi
          rcases hrj x hx with h₁ | h₁
          · rcases hreach x hxi with h₂ | h₂
            · rw [h₁] at h₂
              exact hij (Option.some.inj h₂)
            · exact hxc h₂
          · exact hxc h₁
        rcases reach_same ha.inside har hsame with h | h
        · have := reach_bounded inv.closed h (by rintro y h; cases h; exact hcl)
          rw [if_neg (by omega)]
          exact hrj a h
        · exact .inr h

theorem inv_initial {h₀ : Heap} {client : Addr} {common : Addr → Prop}
    (st : Setting hk h₀ client common) : Inv h₀ common ⟨h₀, []⟩ (fun _ => none) :=
  ⟨Nat.le_refl _, st.closed, fun _ _ => rfl, fun _ _ _ => rfl, fun _ _ => rfl, st.inside,
    by simp⟩

theorem inv_runs {h₀ : Heap} {client : Addr} {common : Addr → Prop}
    (st : Setting hk h₀ client common) {s : System}
    (hr : Runs hk client common ⟨h₀, []⟩ s) : ∃ own, Inv h₀ common s own := by
  induction hr with
  | refl => exact ⟨_, inv_initial st⟩
  | tail _ htu ih =>
    obtain ⟨own, inv⟩ := ih
    exact inv_step st inv htu

end Verif.Client

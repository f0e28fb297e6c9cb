import Verif.QueryAnswer.Model

/-!
# What callers of AWS Query operations get (C132): lemmas
-/

set_option autoImplicit false

namespace Verif.QueryAnswer

open Verif.Json (Text Format Dec)
open Verif.Scalars.Strict (Num)
open Verif.GeneratedSerde (Py Ref Model Shape Simple Member Err Same memberName valueName findMember)
open Verif.Xml (Val Reader View)
open Verif.Xml.RoundTrip (Writer Readable Typed TypedMembers TypedItems TypedEntries arranged arrangedItems arrangedEntries named
  AttributesDiffer C92_arranged C92_inside_partial)

variable {F T : Type} {m : Model F T}

theorem findMember_mem {ms : List (Member F T)} (hn : (ms.map (·.name)).Nodup) {x : Member F T} (hx : x ∈ ms) :
    ∃ i, findMember x.name 0 ms = some (i, x) := by
  obtain ⟨i, hi, rfl⟩ := List.getElem_of_mem hx
  exact ⟨_, GeneratedSerde.findMember_spec ms i 0 _ hn (List.getElem?_eq_getElem hi)⟩

theorem target_mem (hm : NamesOk m) {id : Nat} {x : Member F T} (hx : x ∈ m.members id) :
    m.target (.member id x.name) = some x.target := by
  have h := Json.find_unique (fun y : Member F T => y.name) _ (hm.names id) x hx
  unfold Model.members at hx h
  unfold Model.target
  split at hx <;> rename_i hs
  · simp only [hs] at h ⊢; rw [h]; rfl
  · simp only [hs] at h ⊢; rw [h]; rfl
  · cases hx

theorem view_eq {t : Traits} {s : Ref} {id : Nat} {shape : Shape F T} (ht : m.target s = some id) (hs : m.shape id = some shape) :
    view m t s = match shape with
    | .simple .boolean => .boolean
    | .simple .byte | .simple .short | .simple .integer | .simple .long
    | .simple .bigInteger | .intEnum => .integer
    | .simple .float | .simple .double => .float
    | .simple .bigDecimal => .bigDecimal
    | .simple .string | .enum => .string
    | .simple .blob | .stream => .blob
    | .simple .document => .document
    | .timestamp _ => .timestamp (m.format s)
    | .list _ _ => .list (.member id memberName)
    | .map _ _ => .map (t.tags id).1 (t.tags id).2 (.member id valueName)
    | .struct ms => .struct ⟨false, t.name id, t.xmlName id, t.members id ms⟩
    | .union _ ms => .struct ⟨true, t.name id, t.xmlName id, t.members id ms⟩ := by
  unfold view
  rw [ht]
  simp only [hs]
  cases shape with
  | simple x => cases x <;> rfl
  | _ => rfl

theorem named_mem {t : Traits} {id : Nat} {ms : List (Member F T)} (hn : (ms.map (·.name)).Nodup) {x : Member F T} (hx : x ∈ ms)
    (u : Bool) (a : Text) (b : Option Text) :
    ∃ h, named ⟨u, a, b, t.members id ms⟩ x.name = some (h, Ref.member id x.name) := by
  have hmem : ((⟨x.name, (t.member id x.name).1, (t.member id x.name).2.1, (t.member id x.name).2.2⟩ : Xml.Member),
      Ref.member id x.name) ∈ t.members id ms := List.mem_map.2 ⟨x, hx, rfl⟩
  have := Xml.RoundTrip.named_of_mem (⟨u, a, b, t.members id ms⟩ : Xml.Shape Ref)
    (by simpa [Traits.members, Function.comp_def] using hn) _ hmem
  exact ⟨_, this⟩

theorem fromItems_ok {id : Nat} : ∀ (us : List (Val (Num Dec) F T)) (xs : List (Py F T)), xs.length = us.length →
    (∀ (i : Nat) x u, xs[i]? = some x → us[i]? = some u → ∃ y, fromVal m id u = .ok y ∧ Same x y) →
    ∃ ys, fromItems m id us = .ok ys ∧ List.Forall₂ Same xs ys
  | [], [], _, _ => ⟨[], rfl, .nil⟩
  | [], _ :: _, h, _ => by simp at h
  | _ :: _, [], h, _ => by simp at h
  | u :: us, x :: xs, hl, h => by
    obtain ⟨y, h1, h2⟩ := h 0 x u rfl rfl
    obtain ⟨ys, h3, h4⟩ := fromItems_ok us xs (by simpa using hl) fun i x' u' hx hu =>
      h (i + 1) x' u' (by simpa using hx) (by simpa using hu)
    exact ⟨y :: ys, by simp only [fromItems, h1, h3], .cons h2 h4⟩

theorem fromEntries_ok {id : Nat} : ∀ (us : List (Text × Val (Num Dec) F T)) (xs : List (Text × Py F T)),
    xs.map Prod.fst = us.map Prod.fst →
    (∀ (i : Nat) x u, xs[i]? = some x → us[i]? = some u → ∃ y, fromVal m id u.2 = .ok y ∧ Same x.2 y) →
    ∃ ys, fromEntries m id us = .ok ys ∧ xs.map Prod.fst = ys.map Prod.fst ∧
      List.Forall₂ Same (xs.map Prod.snd) (ys.map Prod.snd)
  | [], [], _, _ => ⟨[], rfl, rfl, .nil⟩
  | [], _ :: _, h, _ => by simp at h
  | _ :: _, [], h, _ => by simp at h
  | u :: us, x :: xs, hl, h => by
    obtain ⟨y, h1, h2⟩ := h 0 x u rfl rfl
    simp only [List.map_cons, List.cons.injEq] at hl
    obtain ⟨ys, h3, h4, h5⟩ := fromEntries_ok us xs hl.2 fun i x' u' hx hu =>
      h (i + 1) x' u' (by simpa using hx) (by simpa using hu)
    obtain ⟨k, u⟩ := u
    refine ⟨(k, y) :: ys, by simp only [fromEntries, h1, h3], ?_, .cons h2 h5⟩
    simp only [List.map_cons, h4]
    exact congrArg (· :: _) hl.1

theorem fromMembers_ok {ms : List (Member F T)} (hn : (ms.map (·.name)).Nodup) (ha : (ms.map (·.attr)).Nodup) :
    ∀ kv : List (Text × Val (Num Dec) F T), (kv.map Prod.fst).Nodup →
    (∀ e ∈ kv, ∃ x ∈ ms, x.name = e.1 ∧ ∃ y, fromVal m x.target e.2 = .ok y) →
    ∃ kwargs, fromMembers m ms kv = .ok kwargs ∧
      (∀ x ∈ ms, x.name ∉ kv.map Prod.fst → kwargs.lookup x.attr = none) ∧
      ∀ x ∈ ms, ∀ u, (x.name, u) ∈ kv → ∃ y, fromVal m x.target u = .ok y ∧ kwargs.lookup x.attr = some y
  | [], _, _ => ⟨[], rfl, fun _ _ _ => rfl, fun _ _ _ h => by cases h⟩
  | (k, u) :: kv, hk, h => by
    simp only [List.map_cons, List.nodup_cons] at hk
    obtain ⟨kwargs, h1, h2, h3⟩ := fromMembers_ok hn ha kv hk.2 fun e he => h e (List.mem_cons_of_mem _ he)
    obtain ⟨x, hx, hxk, y, hy⟩ := h _ List.mem_cons_self
    simp only at hxk hy
    subst hxk
    obtain ⟨i, hi⟩ := findMember_mem hn hx
    refine ⟨(x.attr, y) :: kwargs, by simp only [fromMembers, hi, hy, h1], ?_, ?_⟩
    · intro z hz hzk
      simp only [List.map_cons, List.mem_cons, not_or] at hzk
      have : z.attr ≠ x.attr := fun e => hzk.1 (by rw [GeneratedSerde.attr_inj ms ha x hx z hz e])
      rw [List.lookup_cons, beq_eq_false_iff_ne.2 this]
      exact h2 z hz hzk.2
    · intro z hz u' hu'
      rcases List.mem_cons.1 hu' with e | hu'
      · simp only [Prod.mk.injEq] at e
        have : z = x := by
          obtain ⟨j, hj⟩ := findMember_mem hn hz
          rw [e.1, hi] at hj
          simp only [Option.some.injEq, Prod.mk.injEq] at hj
          exact hj.2.symm
        rw [this, e.2]
        exact ⟨y, hy, by simp⟩
      · have hne : z.attr ≠ x.attr := fun e => hk.1 (by
          rw [← GeneratedSerde.attr_inj ms ha x hx z hz e]
          exact List.mem_map.2 ⟨_, hu', rfl⟩)
        obtain ⟨y', h4, h5⟩ := h3 z hz u' hu'
        exact ⟨y', h4, by rw [List.lookup_cons, beq_eq_false_iff_ne.2 hne]; exact h5⟩

theorem typedItems_get {rd : Reader Ref (Num Dec) F T} {w : Writer Ref (Num Dec) F T} {s : Ref} :
    ∀ (vs : List (Val (Num Dec) F T)), TypedItems rd w s vs → ∀ v ∈ vs, Typed rd w s v
  | [], _, _, h => by cases h
  | v :: vs, h, v', hv => by
    simp only [TypedItems] at h
    rcases List.mem_cons.1 hv with rfl | hv
    · exact h.1
    · exact typedItems_get vs h.2 v' hv

theorem typedEntries_get {rd : Reader Ref (Num Dec) F T} {w : Writer Ref (Num Dec) F T} {s : Ref} :
    ∀ (vs : List (Text × Val (Num Dec) F T)), TypedEntries rd w s vs → ∀ v ∈ vs, Typed rd w s v.2
  | [], _, _, h => by cases h
  | (k, v) :: vs, h, v', hv => by
    simp only [TypedEntries] at h
    rcases List.mem_cons.1 hv with rfl | hv
    · exact h.1
    · exact typedEntries_get vs h.2 v' hv

theorem typedMembers_get {rd : Reader Ref (Num Dec) F T} {w : Writer Ref (Num Dec) F T} {sh : Xml.Shape Ref} :
    ∀ (vs : List (Text × Val (Num Dec) F T)), TypedMembers rd w sh vs → ∀ v ∈ vs,
      ∃ y ∈ sh.members, y.1.name = v.1 ∧ Typed rd w y.2 v.2
  | [], _, _, h => by cases h
  | (k, v) :: vs, h, v', hv => by
    simp only [TypedMembers] at h
    rcases List.mem_cons.1 hv with rfl | hv
    · obtain ⟨y, h1, h2, _, h3⟩ := h.1
      exact ⟨y, h1, h2, h3⟩
    · exact typedMembers_get vs h.2 v' hv

theorem arrangedItems_map (rd : Reader Ref (Num Dec) F T) (s : Ref) : ∀ vs : List (Val (Num Dec) F T),
    arrangedItems rd s vs = vs.map (arranged rd s)
  | [] => rfl
  | v :: vs => by simp only [arrangedItems, arrangedItems_map rd s vs, List.map_cons]

theorem arrangedEntries_map (rd : Reader Ref (Num Dec) F T) (s : Ref) : ∀ vs : List (Text × Val (Num Dec) F T),
    arrangedEntries rd s vs = vs.map fun e => (e.1, arranged rd s e.2)
  | [] => rfl
  | (k, v) :: vs => by simp only [arrangedEntries, arrangedEntries_map rd s vs, List.map_cons]

/-- What the deserializer reads is made into the value. -/
theorem fromVal_says {t : Traits} {rd : Reader Ref (Num Dec) F T} {w : Writer Ref (Num Dec) F T} (hm : NamesOk m)
    (hview : rd.view = view m t) (hok : rd.Ok) {id : Nat} {v : Py F T} {u : Val (Num Dec) F T} (h : Says m id v u) :
    ∀ s, m.target s = some id → Typed rd w s u → ∃ v', fromVal m id (arranged rd s u) = .ok v' ∧ Same v v' := by
  induction h with
  | boolean hs => exact fun s _ _ => ⟨_, rfl, .refl _⟩
  | integer hs ht =>
    intro s _ _
    refine ⟨_, ?_, .refl _⟩
    simp only [arranged, fromVal, hs]
  | intEnum hs =>
    intro s _ _
    refine ⟨_, ?_, .refl _⟩
    simp only [arranged, fromVal, hs]
  | float hs ht => exact fun s _ _ => ⟨_, rfl, .refl _⟩
  | decimal hs hd => exact fun s _ _ => ⟨_, rfl, .decimal hd⟩
  | special hs hd => exact fun s _ _ => ⟨_, rfl, .refl _⟩
  | string hs =>
    intro s _ _
    refine ⟨_, ?_, .refl _⟩
    simp only [arranged, fromVal, hs]
  | enum hs =>
    intro s _ _
    refine ⟨_, ?_, .refl _⟩
    simp only [arranged, fromVal, hs]
  | blob hs => exact fun s _ _ => ⟨_, rfl, .refl _⟩
  | timestamp hs => exact fun s _ _ => ⟨_, rfl, .refl _⟩
  | @list id sparse e xs vs hs hl _ ih =>
    intro s ht hty
    have hv := view_eq (t := t) ht hs
    rw [← hview] at hv
    simp only [Typed, hv] at hty
    have hte : m.target (.member id memberName) = some e.target := by simp only [Model.target, hs, if_true]
    obtain ⟨ys, h1, h2⟩ := fromItems_ok (m := m) (id := e.target) (arrangedItems rd (.member id memberName) vs) xs
      (by rw [arrangedItems_map, List.length_map, hl]) fun i x u hx hu => by
        rw [arrangedItems_map, List.getElem?_map, Option.map_eq_some_iff] at hu
        obtain ⟨u0, hu0, rfl⟩ := hu
        exact ih i x u0 hx hu0 _ hte (typedItems_get vs hty u0 (List.mem_of_getElem? hu0))
    refine ⟨.list ys, ?_, .list h2⟩
    simp only [arranged, hv, fromVal, hs, h1]
  | @map id sparse e xs vs hs hl _ ih =>
    intro s ht hty
    have hv := view_eq (t := t) ht hs
    rw [← hview] at hv
    simp only [Typed, hv] at hty
    have hte : m.target (.member id valueName) = some e.target := by simp only [Model.target, hs, if_true]
    obtain ⟨ys, h1, h2, h3⟩ := fromEntries_ok (m := m) (id := e.target) (arrangedEntries rd (.member id valueName) vs) xs
      (by rw [arrangedEntries_map, hl]; simp) fun i x u hx hu => by
        rw [arrangedEntries_map, List.getElem?_map, Option.map_eq_some_iff] at hu
        obtain ⟨u0, hu0, rfl⟩ := hu
        exact ih i x u0 hx hu0 _ hte (typedEntries_get vs hty.2.2 u0 (List.mem_of_getElem? hu0))
    refine ⟨.dict ys, ?_, .dict h2 h3⟩
    simp only [arranged, hv, fromVal, hs, h1]
  | @object id ms value written kv hs hstream _ hnone hkv ih =>
    intro s ht hty
    have hv := view_eq (t := t) ht hs
    rw [← hview] at hv
    have hmem : m.members id = ms := by simp only [Model.members, hs]
    have hn : (ms.map (·.name)).Nodup := by rw [← hmem]; exact hm.names id
    have ha := hm.attrs id ms hs
    obtain ⟨kv', h1, h2⟩ := C92_arranged rd w hok s _ hv kv hty
    simp only [Typed, hv] at hty
    obtain ⟨_, hnd, htm⟩ := hty
    have hkeys : (kv'.map Prod.fst).Perm (kv.map Prod.fst) := by
      have := h2.map Prod.fst
      simpa [Function.comp_def] using this
    -- each member of the structure that is there
    have hone : ∀ x ∈ ms, ∀ u, written x = some u → ∃ u', (x.name, u') ∈ kv' ∧
        ∃ y, fromVal m x.target u' = .ok y ∧ Same (value x) y := by
      intro x hx u hu
      obtain ⟨hd, hnm⟩ := named_mem (t := t) (id := id) hn hx false (t.name id) (t.xmlName id)
      obtain ⟨y, hy, hyn, hyt⟩ := typedMembers_get kv htm _ ((hkv x hx u).2 hu)
      have hy2 : y.2 = .member id x.name := by
        obtain ⟨x', hx', rfl⟩ := List.mem_map.1 hy
        simp only at hyn
        simp only [hyn]
      rw [hy2] at hyt
      refine ⟨arranged rd (.member id x.name) u, ?_, ih x hx u hu _ (target_mem hm (by rw [hmem]; exact hx)) hyt⟩
      refine h2.symm.subset (List.mem_map.2 ⟨_, (hkv x hx u).2 hu, ?_⟩)
      simp only [hnm]
    have huniq : ∀ (l : List (Text × Val (Num Dec) F T)), (l.map Prod.fst).Nodup → ∀ a b c, (a, b) ∈ l → (a, c) ∈ l → b = c := by
      intro l hl a b c hb hc
      have := Xml.RoundTrip.nodup_map_inj Prod.fst l hl _ _ hb hc rfl
      simpa using this
    have hnd' : (kv'.map Prod.fst).Nodup := hkeys.nodup_iff.2 hnd
    obtain ⟨kwargs, h3, h4, h5⟩ := fromMembers_ok (m := m) hn ha kv' hnd' (by
      intro e he
      have hek := hkeys.subset (List.mem_map.2 ⟨e, he, rfl⟩)
      obtain ⟨e0, he0, hek⟩ := List.mem_map.1 hek
      obtain ⟨y, hy, hyn, _⟩ := typedMembers_get kv htm _ he0
      obtain ⟨x, hx, rfl⟩ := List.mem_map.1 hy
      simp only at hyn
      have hw : written x = some e0.2 := (hkv x hx _).1 (by rw [hyn]; exact he0)
      obtain ⟨u', hu', z, hz, _⟩ := hone x hx _ hw
      have : e.2 = u' := huniq kv' hnd' e.1 _ _ he (by rw [← hek, ← hyn]; exact hu')
      exact ⟨x, hx, by rw [hyn, hek], z, by rw [this]; exact hz⟩)
    obtain ⟨fs, h6, h7, h8⟩ := GeneratedSerde.each_fields (f := m.argument kwargs) (value := value) (m.attributes ms) (by
      intro x hx
      obtain ⟨hx, _⟩ := GeneratedSerde.mem_attributes.1 hx
      cases hw : written x with
      | some u =>
        obtain ⟨u', hu', y, hy, hsame⟩ := hone x hx u hw
        obtain ⟨y', hy', hl⟩ := h5 x hx u' hu'
        rw [hy] at hy'
        cases hy'
        exact ⟨y, by simp only [Model.argument, hl], hsame⟩
      | none =>
        obtain ⟨hv0, hnull, hdef⟩ := hnone x hx hw
        have hno : x.name ∉ kv'.map Prod.fst := by
          intro hc
          obtain ⟨e, he, hee⟩ := List.mem_map.1 (hkeys.subset hc)
          have := (hkv x hx e.2).1 (by rw [← hee]; exact he)
          rw [hw] at this
          cases this
        refine ⟨.none, ?_, by rw [hv0]; exact .refl _⟩
        simp only [Model.argument, h4 x hx hno, GeneratedSerde.isRequired, hnull, Bool.not_true, Bool.false_and, Bool.false_eq_true,
          if_false]
        rcases hdef with h | h <;> rw [h] <;> rfl)
    refine ⟨.object id fs, ?_, .object h7 h8⟩
    rw [h1]
    simp only [fromVal, hs, h3, Model.construct, h6]
  | @variant id streaming ms i x v u hs hi _ ih =>
    intro s ht hty
    have hv := view_eq (t := t) ht hs
    rw [← hview] at hv
    have hmem : m.members id = ms := by simp only [Model.members, hs]
    have hn : (ms.map (·.name)).Nodup := by rw [← hmem]; exact hm.names id
    have hx := List.mem_of_getElem? hi
    simp only [Typed, hv] at hty
    obtain ⟨_, y, hy, hyn, _, _, hyt⟩ := hty
    have hy2 : y.2 = .member id x.name := by
      obtain ⟨x', hx', rfl⟩ := List.mem_map.1 hy
      simp only at hyn
      simp only [hyn]
    rw [hy2] at hyt
    obtain ⟨v', h1, h2⟩ := ih _ (target_mem hm (by rw [hmem]; exact hx)) hyt
    obtain ⟨hd, hnm⟩ := named_mem (t := t) (id := id) hn hx true (t.name id) (t.xmlName id)
    refine ⟨.variant id i v', ?_, .variant h2⟩
    have hf := GeneratedSerde.findMember_spec ms i 0 x hn hi
    rw [Nat.zero_add] at hf
    simp only [arranged, hv, hnm, fromVal, hs, hf, h1]

end Verif.QueryAnswer

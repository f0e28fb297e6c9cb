import Verif.GeneratedSerde.Any

/-!
# Unknown members and the order of members at any depth (C121)
-/

set_option autoImplicit false

namespace Verif.GeneratedSerde

open Verif.Json (Text Format Plain Event)

variable {F T : Type}

/-! ## Specification -/

mutual
/-- Two JSON values for a shape that differ only, at any depth, in members that structures and unions do not have, and in the order of
members. -/
inductive SameContent (m : Model F T) (useJsonName : Bool) : Nat → Json.Json → Json.Json → Prop
  /-- The same value. -/
  | same {id : Nat} {j : Json.Json} : SameContent m useJsonName id j j
  /-- One difference after the other. -/
  | trans {id : Nat} {j k l : Json.Json} : SameContent m useJsonName id j k → SameContent m useJsonName id k l →
      SameContent m useJsonName id j l
  /-- Another order of the members of an object, each of which is there once. -/
  | order {id : Nat} {es fs : List (Text × Json.Json)} : m.IsClass id → es.Perm fs → (es.map Prod.fst).Nodup →
      SameContent m useJsonName id (.obj es) (.obj fs)
  /-- Differences in the elements of a list. -/
  | list {id : Nat} {sparse : Bool} {e : Element} {js ks : List Json.Json} : m.shape id = some (.list sparse e) →
      SameElements m useJsonName e.target js ks → SameContent m useJsonName id (.arr js) (.arr ks)
  /-- Differences in the values of a map. -/
  | map {id : Nat} {sparse : Bool} {e : Element} {es fs : List (Text × Json.Json)} : m.shape id = some (.map sparse e) →
      SameEntries m useJsonName e.target es fs → SameContent m useJsonName id (.obj es) (.obj fs)
  /-- Differences in the members of a structure or union. -/
  | object {id : Nat} {es fs : List (Text × Json.Json)} : m.IsClass id → SameMembers m useJsonName id es fs →
      SameContent m useJsonName id (.obj es) (.obj fs)
/-- The elements of a list, one by one. -/
inductive SameElements (m : Model F T) (useJsonName : Bool) : Nat → List Json.Json → List Json.Json → Prop
  | nil {id : Nat} : SameElements m useJsonName id [] []
  | cons {id : Nat} {j k : Json.Json} {js ks : List Json.Json} : SameContent m useJsonName id j k →
      SameElements m useJsonName id js ks → SameElements m useJsonName id (j :: js) (k :: ks)
/-- The entries of a map, one by one and with the same keys. -/
inductive SameEntries (m : Model F T) (useJsonName : Bool) : Nat → List (Text × Json.Json) → List (Text × Json.Json) → Prop
  | nil {id : Nat} : SameEntries m useJsonName id [] []
  | cons {id : Nat} {key : Text} {j k : Json.Json} {es fs : List (Text × Json.Json)} : SameContent m useJsonName id j k →
      SameEntries m useJsonName id es fs → SameEntries m useJsonName id ((key, j) :: es) ((key, k) :: fs)
/-- The members of an object: the second has members, of any value, that the shape does not have; values of the others are as their
targets say. -/
inductive SameMembers (m : Model F T) (useJsonName : Bool) : Nat → List (Text × Json.Json) → List (Text × Json.Json) → Prop
  | nil {id : Nat} : SameMembers m useJsonName id [] []
  | added {id : Nat} {key : Text} {k : Json.Json} {es fs : List (Text × Json.Json)} :
      (∀ x ∈ m.members id, Json.jsonKey useJsonName ⟨x.name, x.jsonName⟩ ≠ key) → SameMembers m useJsonName id es fs →
      SameMembers m useJsonName id es ((key, k) :: fs)
  | kept {id : Nat} {key : Text} {j k : Json.Json} {es fs : List (Text × Json.Json)} :
      (∀ x ∈ m.members id, Json.jsonKey useJsonName ⟨x.name, x.jsonName⟩ = key → SameContent m useJsonName x.target j k) →
      SameMembers m useJsonName id es fs → SameMembers m useJsonName id ((key, j) :: es) ((key, k) :: fs)
end

/-! ## Lemmas -/

variable {m : Model F T} {rd : Json.Reader Ref F T}

/-- The schema is not used for structures and unions. -/
theorem reads_schema {cls : Nat} (hcls : m.IsClass cls) {s s' : Ref} {j : Json.Json} {v : Py F T} (h : Reads m rd cls s j v) :
    Reads m rd cls s' j v := by
  rcases hcls with ⟨ms, hs⟩ | ⟨b, ms, hs⟩ <;> cases h with
  | scalar h1 h2 => simp only [Model.wrap, hs] at h1; cases h1
  | document h1 => rw [hs] at h1; cases h1
  | list h1 => rw [hs] at h1; cases h1
  | map h1 => rw [hs] at h1; cases h1
  | object h1 h2 h3 => exact .object h1 h2 h3
  | variant h1 h2 h3 h4 => exact .variant h1 h2 h3 h4

/-- Two values that are read in the same way. -/
def ReadAlike (m : Model F T) (rd : Json.Reader Ref F T) (id : Nat) (j k : Json.Json) : Prop :=
  (∀ s v, Reads m rd id s j v ↔ Reads m rd id s k v) ∧ j.isNull = k.isNull

theorem alike_elements_aux {id : Nat} {sparse : Bool} {s : Ref} {js ks : List Json.Json}
    (h : List.Forall₂ (ReadAlike m rd id) js ks) : ∀ vs, ReadsElements m rd sparse id s js vs →
      ReadsElements m rd sparse id s ks vs := by
  induction h with
  | nil => intro vs h; exact h
  | @cons j k js ks hjk _ ih =>
    intro vs h
    have null : ∀ {x : Json.Json}, x.isNull = true → x = .null := by
      intro x hx
      cases x <;> first | rfl | cases hx
    cases h with
    | none h =>
      rw [null (hjk.2.symm.trans rfl)]
      exact .none (ih _ h)
    | dropped h =>
      rw [null (hjk.2.symm.trans rfl)]
      exact .dropped (ih _ h)
    | value h1 h2 h3 => exact .value (hjk.2 ▸ h1) ((hjk.1 _ _).1 h2) (ih _ h3)

theorem alike_entries_aux {id : Nat} {sparse : Bool} {s : Ref} {es fs : List (Text × Json.Json)}
    (h : List.Forall₂ (fun e f => e.1 = f.1 ∧ ReadAlike m rd id e.2 f.2) es fs) : ∀ ps, ReadsEntries m rd sparse id s es ps →
      ReadsEntries m rd sparse id s fs ps := by
  induction h with
  | nil => intro vs h; exact h
  | @cons e f es fs hef _ ih =>
    intro ps h
    obtain ⟨k1, j1⟩ := e
    obtain ⟨k2, j2⟩ := f
    obtain ⟨he, hjk⟩ := hef
    simp only at he hjk
    subst he
    have null : ∀ {x : Json.Json}, x.isNull = true → x = .null := by
      intro x hx
      cases x <;> first | rfl | cases hx
    cases h with
    | none h =>
      rw [null (hjk.2.symm.trans rfl)]
      exact .none (ih _ h)
    | dropped h =>
      rw [null (hjk.2.symm.trans rfl)]
      exact .dropped (ih _ h)
    | value h1 h2 h3 => exact .value (hjk.2 ▸ h1) ((hjk.1 _ _).1 h2) (ih _ h3)

theorem alike_members_aux {id : Nat} {gs hs : List (Member F T × Json.Json)}
    (h : List.Forall₂ (fun g h => g.1 = h.1 ∧ ReadAlike m rd g.1.target g.2 h.2) gs hs) :
    ∀ vs, ReadsMembers m rd id gs vs → ReadsMembers m rd id hs vs := by
  induction h with
  | nil => intro vs h; exact h
  | @cons g h gs hs hgh _ ih =>
    intro vs hr
    obtain ⟨x, j⟩ := g
    obtain ⟨y, k⟩ := h
    obtain ⟨he, hjk⟩ := hgh
    simp only at he hjk
    subst he
    cases hr with
    | cons h1 h2 => exact .cons ((hjk.1 _ _).1 h1) (ih _ h2)

theorem alike_symm {id : Nat} {j k : Json.Json} (h : ReadAlike m rd id j k) : ReadAlike m rd id k j :=
  ⟨fun s v => (h.1 s v).symm, h.2.symm⟩

theorem forall₂_flip {α β : Type} {R : α → β → Prop} {S : β → α → Prop} (hRS : ∀ a b, R a b → S b a) {l : List α} {l' : List β}
    (h : List.Forall₂ R l l') : List.Forall₂ S l' l := by
  induction h with
  | nil => exact .nil
  | cons h1 _ ih => exact .cons (hRS _ _ h1) ih

theorem alike_object {cls : Nat} (hcls : m.IsClass cls) {es fs : List (Text × Json.Json)}
    (h : List.Forall₂ (fun g h => g.1 = h.1 ∧ ReadAlike m rd g.1.target g.2 h.2) (m.given rd.useJsonName cls es)
      (m.given rd.useJsonName cls fs)) {s : Ref} {v : Py F T} (hr : Reads m rd cls s (.obj es) v) :
    Reads m rd cls s (.obj fs) v := by
  rcases hcls with ⟨ms, hs⟩ | ⟨b, ms, hs⟩ <;> cases hr with
  | scalar h1 h2 => simp only [Model.wrap, hs] at h1; cases h1
  | document h1 => rw [hs] at h1; cases h1
  | map h1 => rw [hs] at h1; cases h1
  | object h1 h2 h3 => exact .object h1 (alike_members_aux h _ h2) h3
  | variant h1 h2 h3 h4 =>
    rw [h2] at h
    revert h
    generalize he : m.given rd.useJsonName cls fs = l
    intro h
    cases h with
    | @cons _ g _ _ hg ht =>
      cases ht
      obtain ⟨y, k⟩ := g
      obtain ⟨hxy, hjk⟩ := hg
      simp only at hxy hjk
      subst hxy
      exact .variant h1 he h3 ((hjk.1 _ _).1 h4)

mutual
theorem same_content (hm : m.Ok rd.useJsonName) {id : Nat} {j k : Json.Json} :
    SameContent m rd.useJsonName id j k → ReadAlike m rd id j k
  | .same => ⟨fun _ _ => Iff.rfl, rfl⟩
  | .trans h1 h2 =>
    have a := same_content hm h1
    have b := same_content hm h2
    ⟨fun s v => (a.1 s v).trans (b.1 s v), a.2.trans b.2⟩
  | .order hc hp hn =>
    ⟨fun _ _ => ⟨fun h => reads_schema hc (reads_perm hm hc hp hn (reads_schema hc h)),
      fun h => reads_schema hc (reads_perm hm hc hp.symm ((hp.map _).nodup_iff.1 hn) (reads_schema hc h))⟩, rfl⟩
  | .list hs h => by
    have a := same_elements hm h
    have b := forall₂_flip (fun _ _ => alike_symm) a
    refine ⟨fun s v => ⟨fun hr => ?_, fun hr => ?_⟩, rfl⟩
    · cases hr with
      | scalar h1 h2 => simp only [Model.wrap, hs] at h1; cases h1
      | document h1 => rw [hs] at h1; cases h1
      | list h1 h2 => rw [hs] at h1; cases h1; exact .list hs (alike_elements_aux a _ h2)
    · cases hr with
      | scalar h1 h2 => simp only [Model.wrap, hs] at h1; cases h1
      | document h1 => rw [hs] at h1; cases h1
      | list h1 h2 => rw [hs] at h1; cases h1; exact .list hs (alike_elements_aux b _ h2)
  | .map hs h => by
    have a := same_entries hm h
    have b := forall₂_flip (S := fun e f => e.1 = f.1 ∧ ReadAlike m rd _ e.2 f.2)
      (fun _ _ h => ⟨h.1.symm, alike_symm h.2⟩) a
    refine ⟨fun s v => ⟨fun hr => ?_, fun hr => ?_⟩, rfl⟩
    · cases hr with
      | scalar h1 h2 => simp only [Model.wrap, hs] at h1; cases h1
      | document h1 => rw [hs] at h1; cases h1
      | map h1 h2 => rw [hs] at h1; cases h1; exact .map hs (alike_entries_aux a _ h2)
      | object h1 => rw [hs] at h1; cases h1
      | variant h1 => rw [hs] at h1; cases h1
    · cases hr with
      | scalar h1 h2 => simp only [Model.wrap, hs] at h1; cases h1
      | document h1 => rw [hs] at h1; cases h1
      | map h1 h2 => rw [hs] at h1; cases h1; exact .map hs (alike_entries_aux b _ h2)
      | object h1 => rw [hs] at h1; cases h1
      | variant h1 => rw [hs] at h1; cases h1
  | .object hc h => by
    have a := same_members hm h
    have b := forall₂_flip (S := fun g h => g.1 = h.1 ∧ ReadAlike m rd g.1.target g.2 h.2)
      (fun x y h => ⟨h.1.symm, h.1 ▸ alike_symm h.2⟩) a
    exact ⟨fun s v => ⟨alike_object hc a, alike_object hc b⟩, rfl⟩
theorem same_elements (hm : m.Ok rd.useJsonName) {id : Nat} {js ks : List Json.Json} :
    SameElements m rd.useJsonName id js ks → List.Forall₂ (ReadAlike m rd id) js ks
  | .nil => .nil
  | .cons h1 h2 => .cons (same_content hm h1) (same_elements hm h2)
theorem same_entries (hm : m.Ok rd.useJsonName) {id : Nat} {es fs : List (Text × Json.Json)} :
    SameEntries m rd.useJsonName id es fs → List.Forall₂ (fun e f => e.1 = f.1 ∧ ReadAlike m rd id e.2 f.2) es fs
  | .nil => .nil
  | .cons h1 h2 => .cons ⟨rfl, same_content hm h1⟩ (same_entries hm h2)
theorem same_members (hm : m.Ok rd.useJsonName) {id : Nat} {es fs : List (Text × Json.Json)} :
    SameMembers m rd.useJsonName id es fs →
      List.Forall₂ (fun g h => g.1 = h.1 ∧ ReadAlike m rd g.1.target g.2 h.2) (m.given rd.useJsonName id es)
        (m.given rd.useJsonName id fs)
  | .nil => .nil
  | .added (key := key) (fs := fs) h1 h2 => by
    have a := same_members hm h2
    have hf : ((m.members id).find? fun x => Json.jsonKey rd.useJsonName ⟨x.name, x.jsonName⟩ = key) = none := by
      rw [List.find?_eq_none]
      intro x hx
      simpa using h1 x hx
    have e : ∀ k, m.given rd.useJsonName id ((key, k) :: fs) = m.given rd.useJsonName id fs := by
      intro k
      simp only [Model.given, hf]
    rw [e]
    exact a
  | .kept (key := key) (j := j) (k := k) (es := es) (fs := fs) h1 h2 => by
    have a := same_members hm h2
    have b : ∀ x ∈ m.members id, Json.jsonKey rd.useJsonName ⟨x.name, x.jsonName⟩ = key → ReadAlike m rd x.target j k :=
      fun x hx hk => same_content hm (h1 x hx hk)
    cases hf : (m.members id).find? fun x => Json.jsonKey rd.useJsonName ⟨x.name, x.jsonName⟩ = key with
    | none =>
      simp only [Model.given, hf]
      exact a
    | some x =>
      have hx := b x (List.mem_of_find?_eq_some hf) (by simpa using List.find?_some hf)
      simp only [Model.given, hf, hx.2]
      split
      · exact a
      · exact .cons ⟨rfl, hx⟩ a
end

/-! ## Theorem -/

/-- C121: what a client reads does not change if a service adds members that the client does not know to structures and unions, or
gives members in another order, at any depth. -/
theorem C121_nested (hm : m.Ok rd.useJsonName) (hno : m.NoStreams) (hview : rd.view = m.view) {cls : Nat}
    (hcls : m.IsClass cls) {j k : Json.Json} (h : SameContent m rd.useJsonName cls j k) (v : Py F T) :
    m.deserialize rd cls (Json.events [] j) = .ok v ↔ m.deserialize rd cls (Json.events [] k) = .ok v := by
  rw [C121_reads hm hno hview hcls, C121_reads hm hno hview hcls]
  exact (same_content hm h).1 _ _

end Verif.GeneratedSerde

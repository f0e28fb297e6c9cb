import Verif.GeneratedSerde.AnySpec

/-!
# What generated classes read from any JSON text: theorems (C121)
-/

set_option autoImplicit false

namespace Verif.GeneratedSerde

open Verif.Json (Text Format Plain Event)

variable {F T : Type} {m : Model F T} {rd : Json.Reader Ref F T}

theorem isDocument_view (hm : m.Ok rd.useJsonName) {id : Nat} {x : Member F T} (hx : x ∈ m.members id) :
    (m.view (.member id x.name)).isDocument = m.isDocument x.target := by
  have ht := target_member hm hx
  cases hs : m.shape x.target with
  | none => simp only [Model.view, ht, hs, Model.isDocument]; rfl
  | some shape =>
    rw [view_of ht hs]
    simp only [Model.isDocument, hs]
    cases shape with
    | simple t => cases t <;> rfl
    | _ => rfl

/-- `ofVal` keeps values. -/
theorem plain_eq : (ofVal : Json.Val F T → Py F T) = plainValue := by
  funext v
  cases v <;> rfl

/-- `toEnum` makes instances. -/
theorem enum_eq {cls : Nat} : (toEnum cls : Json.Val F T → Py F T) = enumValue cls := by
  funext v
  cases v <;> rfl

/-- `toIntEnum` makes instances. -/
theorem intEnum_eq {cls : Nat} : (toIntEnum cls : Json.Val F T → Py F T) = intEnumValue cls := by
  funext v
  cases v with
  | boolean b => cases b <;> rfl
  | _ => rfl

/-- The name in JSON decides which member it is. -/
theorem resolve_cases (hm : m.Ok rd.useJsonName) (id : Nat) (key : Text) :
    (((m.members id).find? fun x => Json.jsonKey rd.useJsonName ⟨x.name, x.jsonName⟩ = key) = none ∧
      rd.resolve (m.schemas id) key = none) ∨
    ∃ i x, ((m.members id).find? fun x => Json.jsonKey rd.useJsonName ⟨x.name, x.jsonName⟩ = key) = some x ∧
      rd.resolve (m.schemas id) key = some (⟨x.name, x.jsonName⟩, .member id x.name) ∧
      (m.members id)[i]? = some x ∧ findMember x.name 0 (m.members id) = some (i, x) := by
  have h1 : ((m.schemas id).map fun e => e.1.name).Nodup := by rw [schemas_names]; exact hm.names id
  have h2 : ((m.schemas id).map fun e => Json.jsonKey rd.useJsonName e.1).Nodup := by
    rw [schemas_keys]; exact hm.keys id
  rw [Json.resolve_spec rd _ _ h1 h2, Model.schemas, List.find?_map]
  simp only [Function.comp_def]
  cases hf : (m.members id).find? fun x => Json.jsonKey rd.useJsonName ⟨x.name, x.jsonName⟩ = key with
  | none => exact .inl ⟨rfl, rfl⟩
  | some x =>
    obtain ⟨i, hi⟩ := List.getElem?_of_mem (List.mem_of_find?_eq_some hf)
    refine .inr ⟨i, x, rfl, rfl, hi, ?_⟩
    rw [findMember_spec _ i 0 x (hm.names id) hi, Nat.zero_add]

theorem scalar_any (hview : rd.view = m.view) {id : Nat} {s : Ref} {wrap : Json.Val F T → Py F T} (ht : m.target s = some id)
    (hw : m.wrap id = some wrap) (j : Json.Json) (p : List Text) (rest : List Event) (k : Nat) (hk : Json.size j ≤ k) :
    m.read rd k id s (Json.events p j ++ rest) =
      match rd.decode s j with
      | .error e => .error (.json e)
      | .ok w => .ok (wrap w, rest) := by
  have hsz := Json.size_pos j
  obtain ⟨k, rfl⟩ : ∃ k', k = k' + 1 := ⟨k - 1, by omega⟩
  have hv : rd.view s = m.view s := by rw [hview]
  have key : ∀ (method : Method), (∀ evs, m.read rd (k + 1) id s evs = m.readOne rd s method wrap evs) →
      (∀ e, m.readMethod rd s method e = rd.readScalar (rd.view s) e) →
      (∀ e r, rd.read (k + 1) s (e :: r) = (rd.readScalar (rd.view s) e.ev).map fun x => (x, r)) →
      (rd.view s).isDocument = false →
      m.read rd (k + 1) id s (Json.events p j ++ rest) =
      match rd.decode s j with
      | .error e => .error (.json e)
      | .ok w => .ok (wrap w, rest) := by
    intro method h1 h2 h3 h4
    have h5 := Json.read_spec rd j s p rest (k + 1) hk (fun _ h => by rw [h] at h4; cases h4)
    obtain ⟨e, r, he, _⟩ := Json.events_head p j
    rw [he, List.cons_append, h3] at h5
    rw [h1, he, List.cons_append, Model.readOne, h2]
    cases hs : rd.readScalar (rd.view s) e.ev with
    | error err =>
      rw [hs] at h5
      cases hd : rd.decode s j with
      | error e => rw [hd] at h5; cases h5; rfl
      | ok w => rw [hd] at h5; cases h5
    | ok w =>
      rw [hs] at h5
      cases hd : rd.decode s j with
      | error e => rw [hd] at h5; cases h5
      | ok w =>
        rw [hd] at h5
        simp only [Except.map, Except.ok.injEq, Prod.mk.injEq] at h5
        simp only [h5.1, h5.2]
  unfold Model.wrap at hw
  rw [← plain_eq, ← enum_eq, ← intEnum_eq] at hw
  cases hs : m.shape id with
  | none => rw [hs] at hw; cases hw
  | some shape =>
    have hvs := view_of ht hs
    rw [← hv] at hvs
    rw [hs] at hw
    cases shape with
    | simple t =>
      cases t <;> cases hw <;>
        exact key _ (fun evs => by rw [Model.read.eq_def]; simp only [hs]; rfl) (fun e => by rw [hvs]; rfl)
          (fun e r => by rw [Json.Reader.read]; simp only [hvs]) (by rw [hvs]; rfl)
    | timestamp f =>
      cases hw
      exact key .timestamp (fun evs => by rw [Model.read.eq_def]; simp only [hs]) (fun e => by rw [hvs]; rfl)
          (fun e r => by rw [Json.Reader.read]; simp only [hvs]) (by rw [hvs]; rfl)
    | enum =>
      cases hw
      exact key .string (fun evs => by rw [Model.read.eq_def]; simp only [hs]) (fun e => by rw [hvs]; rfl)
          (fun e r => by rw [Json.Reader.read]; simp only [hvs]) (by rw [hvs]; rfl)
    | intEnum =>
      cases hw
      exact key .integer (fun evs => by rw [Model.read.eq_def]; simp only [hs]) (fun e => by rw [hvs]; rfl)
          (fun e r => by rw [Json.Reader.read]; simp only [hvs]) (by rw [hvs]; rfl)
    | _ => cases hw

/-- `Reads` for a shape of which the values have no parts. -/
theorem reads_scalar {id : Nat} {s : Ref} {wrap : Json.Val F T → Py F T} (hw : m.wrap id = some wrap) {j : Json.Json}
    {v : Py F T} : Reads m rd id s j v ↔ ∃ w, rd.decode s j = .ok w ∧ v = wrap w := by
  constructor
  · intro h
    cases h with
    | scalar h1 h2 => rw [hw] at h1; cases h1; exact ⟨_, h2, rfl⟩
    | document h1 => simp only [Model.wrap, h1] at hw; cases hw
    | list h1 => simp only [Model.wrap, h1] at hw; cases hw
    | map h1 => simp only [Model.wrap, h1] at hw; cases hw
    | object h1 => simp only [Model.wrap, h1] at hw; cases hw
    | variant h1 => simp only [Model.wrap, h1] at hw; cases hw
  · rintro ⟨w, h1, rfl⟩
    exact .scalar hw h1

/-- A value that is not of the kind that a list, map, structure or union takes. -/
theorem other_any (hview : rd.view = m.view) {id : Nat} {s : Ref} (ht : m.target s = some id) (j : Json.Json)
    (hl : ∀ sparse e, m.shape id = some (.list sparse e) → ∀ xs, j ≠ .arr xs)
    (hmap : ∀ sparse e, m.shape id = some (.map sparse e) → ∀ xs, j ≠ .obj xs)
    (hst : ∀ ms, m.shape id = some (.struct ms) → ∀ xs, j ≠ .obj xs)
    (hun : ∀ b ms, m.shape id = some (.union b ms) → ∀ xs, j ≠ .obj xs)
    (p : List Text) (rest : List Event) (k : Nat) (hk : Json.size j ≤ k)
    (hp : m.shape id = some (.simple .document) → p ≠ []) (v : Py F T) (r : List Event) :
    m.read rd k id s (Json.events p j ++ rest) = .ok (v, r) ↔ r = rest ∧ Reads m rd id s j v := by
  have hsz := Json.size_pos j
  cases hw : m.wrap id with
  | some wrap =>
    rw [scalar_any hview ht hw j p rest k hk, reads_scalar hw]
    cases rd.decode s j with
    | error e => simp
    | ok w =>
      simp only [Except.ok.injEq, Prod.mk.injEq]
      constructor
      · rintro ⟨rfl, rfl⟩; exact ⟨rfl, w, rfl, rfl⟩
      · rintro ⟨rfl, w, rfl, rfl⟩; exact ⟨rfl, rfl⟩
  | none =>
    obtain ⟨k, rfl⟩ : ∃ k', k = k' + 1 := ⟨k - 1, by omega⟩
    have hno : m.shape id ≠ some (.simple .document) → ¬ Reads m rd id s j v := by
      intro hnd h
      cases h with
      | scalar h1 h2 => rw [hw] at h1; cases h1
      | document h1 => exact hnd h1
      | list h1 => exact hl _ _ h1 _ rfl
      | map h1 => exact hmap _ _ h1 _ rfl
      | object h1 => exact hst _ h1 _ rfl
      | variant h1 => exact hun _ _ h1 _ rfl
    have hread : m.shape id ≠ some (.simple .document) → ∀ x, m.read rd (k + 1) id s (Json.events p j ++ rest) ≠ .ok x := by
      intro hnd x
      rw [Model.read.eq_def]
      cases hs : m.shape id with
      | none => simp only [hs]; exact fun h => by cases h
      | some shape =>
        cases shape with
        | simple t => cases t <;> simp only [Model.wrap, hs] at hw <;> first | exact absurd hs hnd | cases hw
        | timestamp f => simp only [Model.wrap, hs] at hw; cases hw
        | enum => simp only [Model.wrap, hs] at hw; cases hw
        | intEnum => simp only [Model.wrap, hs] at hw; cases hw
        | stream => simp only [hs]; exact fun h => by cases h
        | list sparse e =>
          simp only [hs, Model.subschema, ht, if_true]
          cases j <;> first | exact absurd rfl (hl _ _ hs _) | simp [Json.events]
        | map sparse e =>
          simp only [hs, Model.subschema, ht, if_true]
          cases j <;> first | exact absurd rfl (hmap _ _ hs _) | simp [Json.events]
        | struct ms =>
          simp only [hs]
          cases j <;> first | exact absurd rfl (hst _ hs _) | simp [Json.events]
        | union b ms =>
          simp only [hs]
          cases j <;> first | exact absurd rfl (hun _ _ hs _) | simp [Json.events]
    by_cases hnd : m.shape id = some (.simple .document)
    · rw [Model.read.eq_def]
      simp only [hnd, Json.readDocument_spec j p rest (fun h => absurd h (hp hnd)), Except.ok.injEq, Prod.mk.injEq]
      constructor
      · rintro ⟨rfl, rfl⟩
        exact ⟨rfl, .document hnd⟩
      · rintro ⟨rfl, h⟩
        cases h with
        | scalar h1 h2 => rw [hw] at h1; cases h1
        | document h1 => exact ⟨rfl, rfl⟩
        | list h1 => rw [hnd] at h1; cases h1
        | map h1 => rw [hnd] at h1; cases h1
        | object h1 => rw [hnd] at h1; cases h1
        | variant h1 => rw [hnd] at h1; cases h1
    · exact ⟨fun h => absurd h (hread hnd _), fun h => absurd h.2 (hno hnd)⟩

/-- What becomes of the members that are read for a union. -/
def Outcome (m : Model F T) (id : Nat) : Option (Py F T) → List (Member F T × Py F T) → Option (Py F T) → Prop
  | result, [], o => o = result
  | none, [(x, v)], o => ∃ i, (m.members id)[i]? = some x ∧ o = some (.variant id i v)
  | _, _, _ => False

theorem each_iff {f : Member F T → Except Err (Text × Py F T)} : ∀ (xs : List (Member F T)) (ys : List (Text × Py F T)),
    (∀ x ∈ xs, ∀ y, f x = .ok y → y.1 = x.attr) → (each f xs = .ok ys ↔ ∃ field : Member F T → Py F T,
      (∀ x ∈ xs, f x = .ok (x.attr, field x)) ∧ ys = xs.map fun x => (x.attr, field x))
  | xs, ys, h0 => by
    have key : each f xs = .ok ys ↔ List.Forall₂ (fun x y => f x = .ok y) xs ys := by
      clear h0
      induction xs generalizing ys with
      | nil =>
        simp only [each, Except.ok.injEq]
        exact ⟨fun h => h ▸ .nil, fun h => by cases h; rfl⟩
      | cons x xs ih =>
        rw [each]
        constructor
        · intro h
          cases h1 : f x with
          | error e => rw [h1] at h; cases h
          | ok y =>
            rw [h1] at h
            cases h2 : each f xs with
            | error e => rw [h2] at h; cases h
            | ok zs =>
              rw [h2] at h
              cases h
              exact .cons h1 ((ih zs).1 h2)
        · intro h
          cases h with
          | cons h1 h2 => rw [h1, (ih _).2 h2]
    rw [key]
    constructor
    · intro h
      refine ⟨fun x => match f x with | .ok y => y.2 | .error _ => .none, ?_, ?_⟩
      · intro x hx
        obtain ⟨y, hy⟩ : ∃ y, f x = .ok y := by
          clear key h0
          induction h with
          | nil => cases hx
          | cons h1 h2 ih =>
            rcases List.mem_cons.1 hx with rfl | hx
            · exact ⟨_, h1⟩
            · exact ih hx
        have := h0 x hx y hy
        simp only [hy, ← this]
      · clear key
        induction h with
        | nil => rfl
        | cons h1 h2 ih =>
          rw [List.map_cons, ← ih fun x hx => h0 x (List.mem_cons_of_mem _ hx)]
          simp only [h1, ← h0 _ List.mem_cons_self _ h1]
    · rintro ⟨field, h, rfl⟩
      clear key h0
      induction xs with
      | nil => exact .nil
      | cons x xs ih => exact .cons (h x List.mem_cons_self) (ih fun y hy => h y (List.mem_cons_of_mem _ hy))

theorem construct_iff {id : Nat} {ms : List (Member F T)} {kw : List (Text × Py F T)} {v : Py F T} :
    m.construct id ms kw = .ok v ↔ ∃ field : Member F T → Py F T,
      (∀ x ∈ m.attributes ms, m.argument kw x = .ok (x.attr, field x)) ∧
      v = .object id ((m.attributes ms).map fun x => (x.attr, field x)) := by
  have h0 : ∀ x ∈ m.attributes ms, ∀ y, m.argument kw x = .ok y → y.1 = x.attr := by
    intro x _ y h
    rw [Model.argument] at h
    split at h
    · cases h; rfl
    · split at h
      · split at h <;> cases h
        rfl
      · cases h; rfl
  rw [Model.construct]
  constructor
  · intro h
    cases he : each (m.argument kw) (m.attributes ms) with
    | error e => rw [he] at h; cases h
    | ok fs =>
      rw [he] at h
      cases h
      obtain ⟨field, h1, rfl⟩ := (each_iff _ _ h0).1 he
      exact ⟨field, h1, rfl⟩
  · rintro ⟨field, h1, rfl⟩
    rw [(each_iff _ _ h0).2 ⟨field, h1, rfl⟩]

theorem lookup_put' {V : Type} : ∀ (d : List (Text × V)) (k : Text) (v : V) (k' : Text),
    (Json.put d k v).lookup k' = if k' = k then some v else d.lookup k'
  | [], k, v, k' => by
    rw [Json.put, List.lookup_cons]
    by_cases h : k' = k
    · rw [h, beq_self_eq_true, if_pos rfl]
    · rw [beq_eq_false_iff_ne.2 h, if_neg h]
  | (a, b) :: d, k, v, k' => by
    rw [Json.put]
    by_cases ha : a = k
    · rw [if_pos ha, List.lookup_cons, List.lookup_cons, ha]
      by_cases h : k' = k
      · rw [h, beq_self_eq_true, if_pos rfl]
      · rw [beq_eq_false_iff_ne.2 h, if_neg h]
    · rw [if_neg ha, List.lookup_cons, List.lookup_cons, lookup_put' d k v k']
      by_cases h : k' = a
      · rw [h, beq_self_eq_true]
        simp [ha]
      · rw [beq_eq_false_iff_ne.2 h]

theorem lookup_folded_from (a : Text) : ∀ (vs : List (Member F T × Py F T)) (acc : List (Text × Py F T)),
    (vs.foldl (fun d e => Json.put d e.1.attr e.2) acc).lookup a =
      ((vs.reverse.find? fun e => e.1.attr = a).map (·.2)).or (acc.lookup a)
  | [], acc => by simp
  | e :: vs, acc => by
    rw [List.foldl_cons, lookup_folded_from a vs, lookup_put', List.reverse_cons, List.find?_append]
    cases vs.reverse.find? fun e => e.1.attr = a with
    | some x => simp
    | none =>
      by_cases h : e.1.attr = a
      · simp [h]
      · have h' : ¬ a = e.1.attr := fun h' => h h'.symm
        simp [h, h']

theorem lookup_folded (vs : List (Member F T × Py F T)) (a : Text) :
    (vs.foldl (fun d e => Json.put d e.1.attr e.2) []).lookup a = (vs.reverse.find? fun e => e.1.attr = a).map (·.2) := by
  rw [lookup_folded_from]
  simp

theorem find_congr {A : Type} {p q : A → Bool} : ∀ xs : List A, (∀ x ∈ xs, p x = q x) → xs.find? p = xs.find? q
  | [], _ => rfl
  | x :: xs, h => by
    rw [List.find?_cons, List.find?_cons, h x List.mem_cons_self, find_congr xs fun y hy => h y (List.mem_cons_of_mem _ hy)]

theorem name_inj : ∀ (ms : List (Member F T)), (ms.map (·.name)).Nodup → ∀ x ∈ ms, ∀ y ∈ ms, y.name = x.name → y = x
  | [], _, x, hx, _, _, _ => by cases hx
  | z :: zs, hn, x, hx, y, hy, h => by
    simp only [List.map_cons, List.nodup_cons] at hn
    rcases List.mem_cons.1 hx with hxz | hx <;> rcases List.mem_cons.1 hy with hyz | hy
    · rw [hxz, hyz]
    · exact absurd (hxz ▸ h ▸ List.mem_map_of_mem hy) hn.1
    · exact absurd (hyz ▸ h ▸ List.mem_map_of_mem hx) hn.1
    · exact name_inj zs hn.2 x hx y hy h

theorem argument_iff (hm : m.Ok rd.useJsonName) {id : Nat} {ms : List (Member F T)} (hs : m.shape id = some (.struct ms))
    {vs : List (Member F T × Py F T)} (hvs : ∀ e ∈ vs, e.1 ∈ ms) {x : Member F T} (hx : x ∈ ms) {v : Py F T} :
    m.argument (vs.foldl (fun d e => Json.put d e.1.attr e.2) []) x = .ok (x.attr, v) ↔ m.Filled vs x v := by
  have hn := hm.names id
  simp only [Model.members, hs] at hn
  have hf : (vs.reverse.find? fun e => e.1.attr = x.attr) = vs.reverse.find? fun e => e.1.name = x.name := by
    refine find_congr _ fun e he => ?_
    have he := hvs e (List.mem_reverse.1 he)
    have : e.1.attr = x.attr ↔ e.1.name = x.name :=
      ⟨fun h => by rw [attr_inj ms (hm.attrs id ms hs) x hx e.1 he h], fun h => by rw [name_inj ms hn x hx e.1 he h]⟩
    simp only [this]
  rw [Model.argument, Model.Filled, lookup_folded, hf]
  cases vs.reverse.find? fun e => e.1.name = x.name with
  | some e => simp [eq_comm]
  | none =>
    simp only [Option.map_none]
    have hq : isRequired x = Required x := rfl
    rw [hq]
    by_cases hr : Required x
    · simp only [hr, if_true]
      cases m.correction x.target <;> simp
    · simp only [hr, Bool.false_eq_true, if_false, Except.ok.injEq, Prod.mk.injEq, true_and]
      exact eq_comm

theorem attributes_inOrder (hno : m.NoStreams) {id : Nat} {ms : List (Member F T)} (hs : m.shape id = some (.struct ms)) :
    m.attributes ms = inOrder ms := by
  rw [Model.attributes, inOrder]
  congr 1 <;> refine List.filter_congr fun x hx => ?_ <;> rw [hno id ms hs x hx] <;> rfl

theorem readsMembers_mem (id : Nat) : ∀ (vs : List (Member F T × Py F T)) (gs : List (Member F T × Json.Json)),
    ReadsMembers m rd id gs vs → ∀ e ∈ vs, ∃ j, (e.1, j) ∈ gs := by
  intro vs
  induction vs with
  | nil => intro gs _ e he; cases he
  | cons y vs ih =>
    intro gs h e he
    cases h with
    | @cons _ x j v gs _ h1 h2 =>
      rcases List.mem_cons.1 he with rfl | he
      · exact ⟨j, List.mem_cons_self⟩
      · obtain ⟨j', h⟩ := ih gs h2 e he
        exact ⟨j', List.mem_cons_of_mem _ h⟩

theorem given_mem {b : Bool} {id : Nat} : ∀ (es : List (Text × Json.Json)) (e : Member F T × Json.Json),
    e ∈ m.given b id es → e.1 ∈ m.members id
  | [], e, h => by cases h
  | (key, j) :: es, e, h => by
    rw [Model.given] at h
    split at h
    · exact given_mem es e h
    · rename_i x hx
      split at h
      · exact given_mem es e h
      · rcases List.mem_cons.1 h with rfl | h
        · exact List.mem_of_find?_eq_some hx
        · exact given_mem es e h

mutual
theorem any (hm : m.Ok rd.useJsonName) (hno : m.NoStreams) (hview : rd.view = m.view) : ∀ (j : Json.Json) (id : Nat) (s : Ref)
    (p : List Text) (rest : List Event) (k : Nat), m.target s = some id → Json.size j ≤ k →
    (m.shape id = some (.simple .document) → p ≠ []) → ∀ (v : Py F T) (r : List Event),
    m.read rd k id s (Json.events p j ++ rest) = .ok (v, r) ↔ r = rest ∧ Reads m rd id s j v
  | .null, id, s, p, rest, k, ht, hk, hp, v, r => by
    apply other_any hview ht .null _ _ _ _ p rest k hk hp v r <;> (intros; simp)
  | .bool b, id, s, p, rest, k, ht, hk, hp, v, r => by
    apply other_any hview ht (.bool b) _ _ _ _ p rest k hk hp v r <;> (intros; simp)
  | .num t, id, s, p, rest, k, ht, hk, hp, v, r => by
    apply other_any hview ht (.num t) _ _ _ _ p rest k hk hp v r <;> (intros; simp)
  | .str t, id, s, p, rest, k, ht, hk, hp, v, r => by
    apply other_any hview ht (.str t) _ _ _ _ p rest k hk hp v r <;> (intros; simp)
  | .arr xs, id, s, p, rest, k, ht, hk, hp, v, r => by
    by_cases hl : ∃ sparse e, m.shape id = some (.list sparse e)
    · obtain ⟨sparse, e, hs⟩ := hl
      have hsub : m.subschema s memberName = some (.member id memberName) := by
        simp only [Model.subschema, ht, hs, if_true]
      have htm : m.target (.member id memberName) = some e.target := by simp only [Model.target, hs, if_true]
      simp only [Json.size] at hk
      obtain ⟨k, rfl⟩ : ∃ k', k = k' + 1 := ⟨k - 1, by omega⟩
      have ih := anyElements hm hno hview xs sparse e.target (.member id memberName) [] p rest k htm (by omega)
      rw [Model.read.eq_def]
      simp only [hs, hsub, Json.events, List.cons_append, List.append_assoc, List.nil_append, if_true]
      constructor
      · intro h
        cases hr : m.readElements rd k sparse e.target (.member id memberName) []
            (Json.elementEvents (p ++ ["item".toList]) xs ++ ⟨Json.join p, .endArray⟩ :: rest) with
        | error err => rw [hr] at h; cases h
        | ok x =>
          rw [hr] at h
          obtain ⟨ys, r'⟩ := x
          obtain ⟨rfl, vs, rfl, hvs⟩ := (ih _ _).1 hr
          cases h
          exact ⟨rfl, .list hs hvs⟩
      · rintro ⟨rfl, h⟩
        cases h with
        | scalar h1 h2 => simp only [Model.wrap, hs] at h1; cases h1
        | document h1 => rw [hs] at h1; cases h1
        | list h1 h2 =>
          rw [hs] at h1
          cases h1
          rw [(ih _ _).2 ⟨rfl, _, rfl, h2⟩]
          rfl
    · refine other_any hview ht (.arr xs) (fun sparse e h => absurd ⟨sparse, e, h⟩ hl) ?_ ?_ ?_ p rest k hk hp v r <;>
        (intros; simp)
  | .obj es, id, s, p, rest, k, ht, hk, hp, v, r => by
    by_cases hmap : ∃ sparse e, m.shape id = some (.map sparse e)
    · obtain ⟨sparse, e, hs⟩ := hmap
      have hsub : m.subschema s valueName = some (.member id valueName) := by
        simp only [Model.subschema, ht, hs, if_true]
      have htm : m.target (.member id valueName) = some e.target := by simp only [Model.target, hs, if_true]
      simp only [Json.size] at hk
      obtain ⟨k, rfl⟩ : ∃ k', k = k' + 1 := ⟨k - 1, by omega⟩
      have ih := anyEntries hm hno hview es sparse e.target (.member id valueName) [] p rest k htm (by omega)
      rw [Model.read.eq_def]
      simp only [hs, hsub, Json.events, List.cons_append, List.append_assoc, List.nil_append, if_true]
      constructor
      · intro h
        cases hr : m.readEntries rd k sparse e.target (.member id valueName) []
            (Json.memberEvents p es ++ ⟨Json.join p, .endMap⟩ :: rest) with
        | error err => rw [hr] at h; cases h
        | ok x =>
          rw [hr] at h
          obtain ⟨ys, r'⟩ := x
          obtain ⟨rfl, vs, rfl, hvs⟩ := (ih _ _).1 hr
          cases h
          exact ⟨rfl, .map hs hvs⟩
      · rintro ⟨rfl, h⟩
        cases h with
        | scalar h1 h2 => simp only [Model.wrap, hs] at h1; cases h1
        | document h1 => rw [hs] at h1; cases h1
        | map h1 h2 =>
          rw [hs] at h1
          cases h1
          rw [(ih _ _).2 ⟨rfl, _, rfl, h2⟩]
        | object h1 => rw [hs] at h1; cases h1
        | variant h1 => rw [hs] at h1; cases h1
    · by_cases hst : ∃ ms, m.shape id = some (.struct ms)
      · obtain ⟨ms, hs⟩ := hst
        simp only [Json.size] at hk
        obtain ⟨k, rfl⟩ : ∃ k', k = k' + 1 := ⟨k - 1, by omega⟩
        have ih := anyMembers hm hno hview es id [] p rest k ⟨ms, hs⟩ (by omega)
        have hmem : ∀ vs, ReadsMembers m rd id (m.given rd.useJsonName id es) vs → ∀ e ∈ vs, e.1 ∈ ms := by
          intro vs h e he
          obtain ⟨j', hj⟩ := readsMembers_mem id vs _ h e he
          have := given_mem es _ hj
          simpa only [Model.members, hs] using this
        rw [Model.read.eq_def]
        simp only [hs, Json.events, List.cons_append, List.append_assoc, List.nil_append, if_true]
        constructor
        · intro h
          cases hr : m.readMembers rd k id [] (Json.memberEvents p es ++ ⟨Json.join p, .endMap⟩ :: rest) with
          | error err => rw [hr] at h; cases h
          | ok x =>
            rw [hr] at h
            obtain ⟨kw, r'⟩ := x
            obtain ⟨rfl, vs, rfl, hvs⟩ := (ih _ _).1 hr
            simp only at h
            cases hc : m.construct id ms (vs.foldl (fun d e => Json.put d e.1.attr e.2) []) with
            | error err => rw [hc] at h; cases h
            | ok w =>
              rw [hc] at h
              cases h
              obtain ⟨field, h1, rfl⟩ := construct_iff.1 hc
              rw [attributes_inOrder hno hs]
              exact ⟨rfl, .object hs hvs fun x hx =>
                (argument_iff hm hs (hmem vs hvs) hx).1 (h1 x (mem_attributes.2 ⟨hx, hno id ms hs x hx⟩))⟩
        · rintro ⟨rfl, h⟩
          cases h with
          | scalar h1 h2 => simp only [Model.wrap, hs] at h1; cases h1
          | document h1 => rw [hs] at h1; cases h1
          | map h1 h2 => rw [hs] at h1; cases h1
          | object h1 h2 h3 =>
            rw [hs] at h1
            cases h1
            rw [(ih _ _).2 ⟨rfl, _, rfl, h2⟩]
            simp only
            rw [construct_iff.2 ⟨_, fun x hx => (argument_iff hm hs (hmem _ h2) (mem_attributes.1 hx).1).2
              (h3 x (mem_attributes.1 hx).1), rfl⟩, attributes_inOrder hno hs]
          | variant h1 => rw [hs] at h1; cases h1
      · by_cases hun : ∃ b ms, m.shape id = some (.union b ms)
        · obtain ⟨b, ms, hs⟩ := hun
          simp only [Json.size] at hk
          obtain ⟨k, rfl⟩ : ∃ k', k = k' + 1 := ⟨k - 1, by omega⟩
          have ih := anyVariant hm hno hview es id none p rest k (by omega)
          have hms : m.members id = ms := by simp only [Model.members, hs]
          rw [Model.read.eq_def]
          simp only [hs, Json.events, List.cons_append, List.append_assoc, List.nil_append, if_true]
          constructor
          · intro h
            cases hr : m.readVariant rd k id none (Json.memberEvents p es ++ ⟨Json.join p, .endMap⟩ :: rest) with
            | error err => rw [hr] at h; cases h
            | ok x =>
              rw [hr] at h
              obtain ⟨o, r'⟩ := x
              obtain ⟨rfl, vs, ho, hvs⟩ := (ih _ _).1 hr
              cases o with
              | none => cases h
              | some w =>
                cases h
                cases vs with
                | nil => simp only [Outcome] at ho; cases ho
                | cons y vs =>
                  cases vs with
                  | cons z vs => simp only [Outcome] at ho
                  | nil =>
                    obtain ⟨i, h1, h2⟩ := ho
                    cases h2
                    rw [hms] at h1
                    generalize hg : m.given rd.useJsonName id es = gs at hvs
                    cases hvs with
                    | cons h3 h4 =>
                      cases h4
                      exact ⟨rfl, .variant hs hg h1 h3⟩
          · rintro ⟨rfl, h⟩
            cases h with
            | scalar h1 h2 => simp only [Model.wrap, hs] at h1; cases h1
            | document h1 => rw [hs] at h1; cases h1
            | map h1 h2 => rw [hs] at h1; cases h1
            | object h1 => rw [hs] at h1; cases h1
            | variant h1 h2 h3 h4 =>
              rw [hs] at h1
              cases h1
              rw [(ih _ _).2 ⟨rfl, [(_, _)], ⟨_, hms ▸ h3, rfl⟩, by rw [h2]; exact .cons h4 .nil⟩]
        · exact other_any hview ht (.obj es) (by intros; simp) (fun sparse e h => absurd ⟨sparse, e, h⟩ hmap)
            (fun ms h => absurd ⟨ms, h⟩ hst) (fun b ms h => absurd ⟨b, ms, h⟩ hun) p rest k hk hp v r
termination_by structural j => j
theorem anyElements (hm : m.Ok rd.useJsonName) (hno : m.NoStreams) (hview : rd.view = m.view) : ∀ (js : List Json.Json)
    (sparse : Bool) (id : Nat) (s : Ref) (acc : List (Py F T)) (p : List Text) (rest : List Event) (k : Nat),
    m.target s = some id → Json.sizes js ≤ k → ∀ (vs : List (Py F T)) (r : List Event),
    m.readElements rd k sparse id s acc (Json.elementEvents (p ++ ["item".toList]) js ++ ⟨Json.join p, .endArray⟩ :: rest) =
      .ok (vs, r) ↔ r = rest ∧ ∃ ys, vs = acc ++ ys ∧ ReadsElements m rd sparse id s js ys
  | [], sparse, id, s, acc, p, rest, k, ht, hk, vs, r => by
    have := Json.sizes_pos []
    obtain ⟨k, rfl⟩ : ∃ k', k = k' + 1 := ⟨k - 1, by omega⟩
    simp only [Json.elementEvents, List.nil_append, Model.readElements, if_true, Except.ok.injEq, Prod.mk.injEq]
    constructor
    · rintro ⟨rfl, rfl⟩
      exact ⟨rfl, [], by simp, .nil⟩
    · rintro ⟨rfl, ys, rfl, h⟩
      cases h
      exact ⟨by simp, rfl⟩
  | j :: js, sparse, id, s, acc, p, rest, k, ht, hk, vs, r => by
    simp only [Json.sizes] at hk
    obtain ⟨k, rfl⟩ : ∃ k', k = k' + 1 := ⟨k - 1, by omega⟩
    have hj := any hm hno hview j id s (p ++ ["item".toList])
      (Json.elementEvents (p ++ ["item".toList]) js ++ ⟨Json.join p, .endArray⟩ :: rest) k ht (by omega) (by simp)
    have ih := fun acc => anyElements hm hno hview js sparse id s acc p rest k ht (by omega) vs r
    obtain ⟨e, rr, he, hnull, hne, _⟩ := Json.events_head (p ++ ["item".toList]) j
    cases hjn : j.isNull with
    | true =>
      cases j <;> cases hjn
      simp only [Json.elementEvents, Json.events, List.cons_append, List.nil_append, Model.readElements, reduceCtorEq,
        if_false, if_true, ih]
      refine and_congr_right fun _ => ?_
      cases sparse with
      | true =>
        simp only [if_true]
        constructor
        · rintro ⟨ys, rfl, h⟩
          exact ⟨.none :: ys, by simp, .none h⟩
        · rintro ⟨ys, rfl, h⟩
          cases h with
          | none h => exact ⟨_, by simp, h⟩
          | value h => cases h
      | false =>
        simp only [Bool.false_eq_true, if_false]
        constructor
        · rintro ⟨ys, rfl, h⟩
          exact ⟨ys, rfl, .dropped h⟩
        · rintro ⟨ys, rfl, h⟩
          cases h with
          | dropped h => exact ⟨_, rfl, h⟩
          | value h => cases h
    | false =>
      have hnn : ¬ e.ev = .null := fun h => by rw [hnull.1 h] at hjn; cases hjn
      simp only [Json.elementEvents, List.append_assoc]
      rw [he] at hj ⊢
      simp only [List.cons_append] at hj ⊢
      simp only [Model.readElements, hne, hnn, if_false]
      constructor
      · intro h
        cases hr : m.read rd k id s (e :: (rr ++ (Json.elementEvents (p ++ ["item".toList]) js ++
            ⟨Json.join p, .endArray⟩ :: rest))) with
        | error err => rw [hr] at h; cases h
        | ok x =>
          rw [hr] at h
          obtain ⟨v, r'⟩ := x
          obtain ⟨rfl, hv⟩ := (hj _ _).1 hr
          obtain ⟨rfl, ys, rfl, hys⟩ := (ih _).1 h
          exact ⟨rfl, v :: ys, by simp, .value hjn hv hys⟩
      · rintro ⟨rfl, ys, rfl, h⟩
        cases h with
        | none h => cases hjn
        | dropped h => cases hjn
        | value _ hv hys =>
          rw [(hj _ _).2 ⟨rfl, hv⟩]
          exact (ih _).2 ⟨rfl, _, by simp, hys⟩
theorem anyEntries (hm : m.Ok rd.useJsonName) (hno : m.NoStreams) (hview : rd.view = m.view) :
    ∀ (es : List (Text × Json.Json)) (sparse : Bool) (id : Nat) (s : Ref) (acc : List (Text × Py F T)) (p : List Text)
    (rest : List Event) (k : Nat), m.target s = some id → Json.memberSizes es ≤ k →
    ∀ (vs : List (Text × Py F T)) (r : List Event),
    m.readEntries rd k sparse id s acc (Json.memberEvents p es ++ ⟨Json.join p, .endMap⟩ :: rest) =
      .ok (vs, r) ↔ r = rest ∧ ∃ ps, vs = ps.foldl (fun d e => Json.put d e.1 e.2) acc ∧ ReadsEntries m rd sparse id s es ps
  | [], sparse, id, s, acc, p, rest, k, ht, hk, vs, r => by
    have := Json.memberSizes_pos []
    obtain ⟨k, rfl⟩ : ∃ k', k = k' + 1 := ⟨k - 1, by omega⟩
    simp only [Json.memberEvents, List.nil_append, Model.readEntries, if_true, Except.ok.injEq, Prod.mk.injEq]
    constructor
    · rintro ⟨rfl, rfl⟩
      exact ⟨rfl, [], rfl, .nil⟩
    · rintro ⟨rfl, ys, rfl, h⟩
      cases h
      exact ⟨rfl, rfl⟩
  | (key, j) :: es, sparse, id, s, acc, p, rest, k, ht, hk, vs, r => by
    simp only [Json.memberSizes] at hk
    obtain ⟨k, rfl⟩ : ∃ k', k = k' + 1 := ⟨k - 1, by omega⟩
    have hj := any hm hno hview j id s (p ++ [key])
      (Json.memberEvents p es ++ ⟨Json.join p, .endMap⟩ :: rest) k ht (by omega) (by simp)
    have ih := fun acc => anyEntries hm hno hview es sparse id s acc p rest k ht (by omega) vs r
    obtain ⟨e, rr, he, hnull, hne, _⟩ := Json.events_head (p ++ [key]) j
    cases hjn : j.isNull with
    | true =>
      cases j <;> cases hjn
      simp only [Json.memberEvents, Json.events, List.cons_append, List.nil_append, Model.readEntries, reduceCtorEq,
        if_false, if_true, Json.readString, ih]
      refine and_congr_right fun _ => ?_
      cases sparse with
      | true =>
        simp only [if_true]
        constructor
        · rintro ⟨ys, rfl, h⟩
          exact ⟨(key, .none) :: ys, rfl, .none h⟩
        · rintro ⟨ys, rfl, h⟩
          cases h with
          | none h => exact ⟨_, rfl, h⟩
          | value h => cases h
      | false =>
        simp only [Bool.false_eq_true, if_false]
        constructor
        · rintro ⟨ys, rfl, h⟩
          exact ⟨ys, rfl, .dropped h⟩
        · rintro ⟨ys, rfl, h⟩
          cases h with
          | dropped h => exact ⟨_, rfl, h⟩
          | value h => cases h
    | false =>
      have hnn : ¬ e.ev = .null := fun h => by rw [hnull.1 h] at hjn; cases hjn
      simp only [Json.memberEvents, List.append_assoc, List.cons_append]
      rw [he] at hj ⊢
      simp only [List.cons_append] at hj ⊢
      simp only [Model.readEntries, reduceCtorEq, Json.readString, hnn, if_false]
      constructor
      · intro h
        cases hr : m.read rd k id s (e :: (rr ++ (Json.memberEvents p es ++ ⟨Json.join p, .endMap⟩ :: rest))) with
        | error err => rw [hr] at h; cases h
        | ok x =>
          rw [hr] at h
          obtain ⟨v, r'⟩ := x
          obtain ⟨rfl, hv⟩ := (hj _ _).1 hr
          obtain ⟨rfl, ys, rfl, hys⟩ := (ih _).1 h
          exact ⟨rfl, (key, v) :: ys, rfl, .value hjn hv hys⟩
      · rintro ⟨rfl, ys, rfl, h⟩
        cases h with
        | none h => cases hjn
        | dropped h => cases hjn
        | value _ hv hys =>
          rw [(hj _ _).2 ⟨rfl, hv⟩]
          exact (ih _).2 ⟨rfl, _, rfl, hys⟩
theorem anyMembers (hm : m.Ok rd.useJsonName) (hno : m.NoStreams) (hview : rd.view = m.view) :
    ∀ (es : List (Text × Json.Json)) (id : Nat) (acc : List (Text × Py F T)) (p : List Text) (rest : List Event) (k : Nat),
    (∃ ms, m.shape id = some (.struct ms)) → Json.memberSizes es ≤ k → ∀ (kw : List (Text × Py F T)) (r : List Event),
    m.readMembers rd k id acc (Json.memberEvents p es ++ ⟨Json.join p, .endMap⟩ :: rest) = .ok (kw, r) ↔
      r = rest ∧ ∃ vs, kw = vs.foldl (fun d e => Json.put d e.1.attr e.2) acc ∧
        ReadsMembers m rd id (m.given rd.useJsonName id es) vs
  | [], id, acc, p, rest, k, hs, hk, kw, r => by
    have := Json.memberSizes_pos []
    obtain ⟨k, rfl⟩ : ∃ k', k = k' + 1 := ⟨k - 1, by omega⟩
    simp only [Json.memberEvents, List.nil_append, Model.readMembers, if_true, Except.ok.injEq, Prod.mk.injEq, Model.given]
    constructor
    · rintro ⟨rfl, rfl⟩
      exact ⟨rfl, [], rfl, .nil⟩
    · rintro ⟨rfl, ys, rfl, h⟩
      cases h
      exact ⟨rfl, rfl⟩
  | (key, j) :: es, id, acc, p, rest, k, hs, hk, kw, r => by
    simp only [Json.memberSizes] at hk
    obtain ⟨k, rfl⟩ : ∃ k', k = k' + 1 := ⟨k - 1, by omega⟩
    have hj := fun id s ht => any hm hno hview j id s (p ++ [key])
      (Json.memberEvents p es ++ ⟨Json.join p, .endMap⟩ :: rest) k ht (by omega) (by simp)
    have ih := fun acc => anyMembers hm hno hview es id acc p rest k hs (by omega) kw r
    have hskip := Json.skip_spec j (p ++ [key]) (by simp) (Json.memberEvents p es ++ ⟨Json.join p, .endMap⟩ :: rest)
    obtain ⟨e, rr, he, hnull, hne, _⟩ := Json.events_head (p ++ [key]) j
    simp only [Json.memberEvents, List.append_assoc, List.cons_append]
    rw [he] at hj hskip ⊢
    simp only [List.cons_append] at hj hskip ⊢
    rcases resolve_cases hm id key with ⟨h1, h2⟩ | ⟨i, x, h1, h2, h3, h4⟩
    · simp only [Model.readMembers, reduceCtorEq, if_false, Json.readString, h2, hskip, ih, Model.given, h1]
    · have hmem : x ∈ m.members id := List.mem_of_getElem? h3
      have hst : m.isStream x = false := by
        obtain ⟨ms, hs⟩ := hs
        simp only [Model.members, hs] at hmem
        exact hno id ms hs x hmem
      have hdoc := isDocument_view hm hmem
      cases hskp : j.isNull && !m.isDocument x.target with
      | true =>
        simp only [Bool.and_eq_true, Bool.not_eq_true'] at hskp
        have hc : e.ev = .null ∧ (m.view (.member id x.name)).isDocument = false := ⟨hnull.2 hskp.1, hdoc.trans hskp.2⟩
        have hrr : rr = [] := by
          cases j with
          | null => simp [Json.events] at he; exact he.2
          | _ => simp [Json.Json.isNull] at hskp
        subst hrr
        simp only [Model.readMembers, reduceCtorEq, if_false, Json.readString, h2, hc, and_self, if_true, List.nil_append, ih,
          Model.given, h1, hskp, Bool.not_false, Bool.and_self]
      | false =>
        have hc : ¬ (e.ev = .null ∧ (m.view (.member id x.name)).isDocument = false) := by
          rintro ⟨h5, h6⟩
          rw [hnull.1 h5, ← hdoc, h6] at hskp
          cases hskp
        have hj := hj x.target (.member id x.name) (target_member hm hmem)
        simp only [Model.readMembers, reduceCtorEq, if_false, Json.readString, h2, hc, h4, hst, Bool.false_eq_true,
          Model.given, h1, hskp]
        constructor
        · intro h
          cases hr : m.read rd k x.target (.member id x.name)
              (e :: (rr ++ (Json.memberEvents p es ++ ⟨Json.join p, .endMap⟩ :: rest))) with
          | error err => rw [hr] at h; cases h
          | ok y =>
            rw [hr] at h
            obtain ⟨v, r'⟩ := y
            obtain ⟨rfl, hv⟩ := (hj _ _).1 hr
            obtain ⟨rfl, ys, rfl, hys⟩ := (ih _).1 h
            exact ⟨rfl, (x, v) :: ys, rfl, .cons hv hys⟩
        · rintro ⟨rfl, ys, rfl, h⟩
          cases h with
          | cons hv hys =>
            rw [(hj _ _).2 ⟨rfl, hv⟩]
            exact (ih _).2 ⟨rfl, _, rfl, hys⟩
theorem anyVariant (hm : m.Ok rd.useJsonName) (hno : m.NoStreams) (hview : rd.view = m.view) :
    ∀ (es : List (Text × Json.Json)) (id : Nat) (result : Option (Py F T)) (p : List Text) (rest : List Event) (k : Nat),
    Json.memberSizes es ≤ k → ∀ (o : Option (Py F T)) (r : List Event),
    m.readVariant rd k id result (Json.memberEvents p es ++ ⟨Json.join p, .endMap⟩ :: rest) = .ok (o, r) ↔
      r = rest ∧ ∃ vs, Outcome m id result vs o ∧ ReadsMembers m rd id (m.given rd.useJsonName id es) vs
  | [], id, result, p, rest, k, hk, o, r => by
    have := Json.memberSizes_pos []
    obtain ⟨k, rfl⟩ : ∃ k', k = k' + 1 := ⟨k - 1, by omega⟩
    simp only [Json.memberEvents, List.nil_append, Model.readVariant, if_true, Except.ok.injEq, Prod.mk.injEq, Model.given]
    constructor
    · rintro ⟨rfl, rfl⟩
      exact ⟨rfl, [], by simp [Outcome], .nil⟩
    · rintro ⟨rfl, ys, h1, h⟩
      cases h
      simp only [Outcome] at h1
      exact ⟨h1.symm, rfl⟩
  | (key, j) :: es, id, result, p, rest, k, hk, o, r => by
    simp only [Json.memberSizes] at hk
    obtain ⟨k, rfl⟩ : ∃ k', k = k' + 1 := ⟨k - 1, by omega⟩
    have hj := fun id s ht => any hm hno hview j id s (p ++ [key])
      (Json.memberEvents p es ++ ⟨Json.join p, .endMap⟩ :: rest) k ht (by omega) (by simp)
    have ih := fun result => anyVariant hm hno hview es id result p rest k (by omega) o r
    have hskip := Json.skip_spec j (p ++ [key]) (by simp) (Json.memberEvents p es ++ ⟨Json.join p, .endMap⟩ :: rest)
    obtain ⟨e, rr, he, hnull, hne, _⟩ := Json.events_head (p ++ [key]) j
    simp only [Json.memberEvents, List.append_assoc, List.cons_append]
    rw [he] at hj hskip ⊢
    simp only [List.cons_append] at hj hskip ⊢
    rcases resolve_cases hm id key with ⟨h1, h2⟩ | ⟨i, x, h1, h2, h3, h4⟩
    · simp only [Model.readVariant, reduceCtorEq, if_false, Json.readString, h2, hskip, ih, Model.given, h1]
    · have hmem : x ∈ m.members id := List.mem_of_getElem? h3
      have hdoc := isDocument_view hm hmem
      cases hskp : j.isNull && !m.isDocument x.target with
      | true =>
        simp only [Bool.and_eq_true, Bool.not_eq_true'] at hskp
        have hc : e.ev = .null ∧ (m.view (.member id x.name)).isDocument = false := ⟨hnull.2 hskp.1, hdoc.trans hskp.2⟩
        have hrr : rr = [] := by
          cases j with
          | null => simp [Json.events] at he; exact he.2
          | _ => simp [Json.Json.isNull] at hskp
        subst hrr
        simp only [Model.readVariant, reduceCtorEq, if_false, Json.readString, h2, hc, and_self, if_true, List.nil_append, ih,
          Model.given, h1, hskp, Bool.not_false, Bool.and_self]
      | false =>
        have hc : ¬ (e.ev = .null ∧ (m.view (.member id x.name)).isDocument = false) := by
          rintro ⟨h5, h6⟩
          rw [hnull.1 h5, ← hdoc, h6] at hskp
          cases hskp
        have hj := hj x.target (.member id x.name) (target_member hm hmem)
        simp only [Model.readVariant, reduceCtorEq, if_false, Json.readString, h2, hc, h4, Bool.false_eq_true,
          Model.given, h1, hskp]
        constructor
        · intro h
          cases hr : m.read rd k x.target (.member id x.name)
              (e :: (rr ++ (Json.memberEvents p es ++ ⟨Json.join p, .endMap⟩ :: rest))) with
          | error err => rw [hr] at h; cases h
          | ok y =>
            rw [hr] at h
            obtain ⟨v, r'⟩ := y
            cases result with
            | some w => cases h
            | none =>
              obtain ⟨rfl, hv⟩ := (hj _ _).1 hr
              obtain ⟨rfl, ys, ho, hys⟩ := (ih _).1 h
              cases ys with
              | nil => exact ⟨rfl, [(x, v)], ⟨i, h3, ho⟩, .cons hv hys⟩
              | cons y ys => simp only [Outcome] at ho
        · rintro ⟨rfl, ys, ho, h⟩
          cases h with
          | @cons _ _ _ v _ vs hv hys =>
            rw [(hj _ _).2 ⟨rfl, hv⟩]
            cases result with
            | some w => simp only [Outcome] at ho
            | none =>
              cases vs with
              | nil =>
                obtain ⟨i', h5, rfl⟩ := ho
                have h6 := findMember_spec _ i' 0 x (hm.names id) h5
                rw [h4] at h6
                simp only [Nat.zero_add, Option.some.injEq, Prod.mk.injEq, and_true] at h6
                subst h6
                exact (ih _).2 ⟨rfl, [], rfl, hys⟩
              | cons y ys => simp only [Outcome] at ho
end

/-- C121: what the generated code reads from a JSON text, for every class of a structure or union and every JSON value: it
succeeds exactly if the value is one from which `Reads` has something, and with that as the result. -/
theorem C121_reads (hm : m.Ok rd.useJsonName) (hno : m.NoStreams) (hview : rd.view = m.view) {cls : Nat}
    (hcls : m.IsClass cls) (j : Json.Json) (v : Py F T) :
    m.deserialize rd cls (Json.events [] j) = .ok v ↔ Reads m rd cls (.shape cls) j v := by
  have h := any hm hno hview j cls (.shape cls) [] [] (2 * (Json.events [] j).length + 2) rfl
    (by have := (Json.size_events j []).2; omega)
    (fun h => by rcases hcls with ⟨ms, hs⟩ | ⟨b, ms, hs⟩ <;> rw [hs] at h <;> cases h)
  rw [List.append_nil] at h
  rw [Model.deserialize]
  constructor
  · intro hr
    cases hx : m.read rd (2 * (Json.events [] j).length + 2) cls (.shape cls) (Json.events [] j) with
    | error e => rw [hx] at hr; cases hr
    | ok x =>
      rw [hx] at hr
      cases hr
      exact ((h _ _).1 hx).2
  · intro hr
    rw [(h v []).2 ⟨rfl, hr⟩]
    rfl

/-- C121: a union is read only from an object that gives exactly one of its members a value. -/
theorem C121_one_member (hm : m.Ok rd.useJsonName) (hno : m.NoStreams) (hview : rd.view = m.view) {cls : Nat} {b : Bool}
    {ms : List (Member F T)} (hs : m.shape cls = some (.union b ms)) {j : Json.Json} {v : Py F T}
    (h : m.deserialize rd cls (Json.events [] j) = .ok v) :
    ∃ es x jx i w, j = .obj es ∧ m.given rd.useJsonName cls es = [(x, jx)] ∧ ms[i]? = some x ∧ v = .variant cls i w := by
  have h := (C121_reads hm hno hview (.inr ⟨b, ms, hs⟩) j v).1 h
  cases h with
  | scalar h1 h2 => simp only [Model.wrap, hs] at h1; cases h1
  | document h1 => rw [hs] at h1; cases h1
  | list h1 => rw [hs] at h1; cases h1
  | map h1 => rw [hs] at h1; cases h1
  | object h1 => rw [hs] at h1; cases h1
  | variant h1 h2 h3 h4 =>
    rw [hs] at h1
    cases h1
    exact ⟨_, _, _, _, _, rfl, h2, h3, rfl⟩

theorem given_append {b : Bool} {id : Nat} (fs : List (Text × Json.Json)) : ∀ es : List (Text × Json.Json),
    m.given b id (es ++ fs) = m.given b id es ++ m.given b id fs
  | [] => rfl
  | (key, j) :: es => by
    simp only [List.cons_append, Model.given, given_append fs es]
    split
    · rfl
    · split <;> rfl

theorem given_strange {b : Bool} {id : Nat} : ∀ es : List (Text × Json.Json), m.Strange b id es → m.given b id es = []
  | [], _ => rfl
  | (key, j) :: es, h => by
    have hf : ((m.members id).find? fun x => Json.jsonKey b ⟨x.name, x.jsonName⟩ = key) = none := by
      rw [List.find?_eq_none]
      intro x hx
      simpa using h (key, j) List.mem_cons_self x hx
    simp only [Model.given, hf]
    exact given_strange es fun e he => h e (List.mem_cons_of_mem _ he)

/-- What is read from objects that give the same. -/
theorem reads_congr {cls : Nat} (hcls : m.IsClass cls) {es fs : List (Text × Json.Json)} {v : Py F T}
    (he : m.given rd.useJsonName cls es = m.given rd.useJsonName cls fs) (h : Reads m rd cls (.shape cls) (.obj es) v) :
    Reads m rd cls (.shape cls) (.obj fs) v := by
  rcases hcls with ⟨ms, hs⟩ | ⟨b, ms, hs⟩ <;> cases h with
  | scalar h1 h2 => simp only [Model.wrap, hs] at h1; cases h1
  | document h1 => rw [hs] at h1; cases h1
  | map h1 => rw [hs] at h1; cases h1
  | object h1 h2 h3 => exact .object h1 (he ▸ h2) h3
  | variant h1 h2 h3 h4 => exact .variant h1 (he ▸ h2) h3 h4

/-- C121: members that the client does not know, of any value and anywhere in the object, change nothing. -/
theorem C121_ignored (hm : m.Ok rd.useJsonName) (hno : m.NoStreams) (hview : rd.view = m.view) {cls : Nat}
    (hcls : m.IsClass cls) {es fs gs : List (Text × Json.Json)} (h : m.Strange rd.useJsonName cls fs) (v : Py F T) :
    m.deserialize rd cls (Json.events [] (.obj (es ++ fs ++ gs))) = .ok v ↔
      m.deserialize rd cls (Json.events [] (.obj (es ++ gs))) = .ok v := by
  have he : m.given rd.useJsonName cls (es ++ fs ++ gs) = m.given rd.useJsonName cls (es ++ gs) := by
    rw [given_append, given_append, given_append, given_strange fs h, List.append_nil]
  rw [C121_reads hm hno hview hcls, C121_reads hm hno hview hcls]
  exact ⟨reads_congr hcls he, reads_congr hcls he.symm⟩

theorem given_keys {b : Bool} (hm : m.Ok b) {id : Nat} : ∀ es : List (Text × Json.Json), (es.map Prod.fst).Nodup →
    ((m.given b id es).map (·.1.name)).Nodup ∧
    ∀ e ∈ m.given b id es, ∃ x ∈ m.members id, x = e.1 ∧ Json.jsonKey b ⟨x.name, x.jsonName⟩ ∈ es.map Prod.fst
  | [], _ => ⟨List.nodup_nil, fun e h => by cases h⟩
  | (key, j) :: es, h => by
    simp only [List.map_cons, List.nodup_cons] at h
    obtain ⟨h1, h2⟩ := given_keys hm es h.2
    have h2' : ∀ e ∈ m.given b id es, ∃ x ∈ m.members id, x = e.1 ∧
        Json.jsonKey b ⟨x.name, x.jsonName⟩ ∈ key :: es.map Prod.fst := fun e he => by
      obtain ⟨x, hx, hxe, hk⟩ := h2 e he
      exact ⟨x, hx, hxe, List.mem_cons_of_mem _ hk⟩
    rw [Model.given]
    split
    · exact ⟨h1, h2'⟩
    · rename_i x hx
      have hk : Json.jsonKey b ⟨x.name, x.jsonName⟩ = key := by simpa using List.find?_some hx
      have hmem := List.mem_of_find?_eq_some hx
      split
      · exact ⟨h1, h2'⟩
      · refine ⟨?_, ?_⟩
        · rw [List.map_cons, List.nodup_cons]
          refine ⟨fun hn => ?_, h1⟩
          obtain ⟨e, he, hne⟩ := List.mem_map.1 hn
          obtain ⟨y, hy, hye, hk'⟩ := h2 e he
          have : y = x := name_inj _ (hm.names id) x hmem y hy (by rw [hye]; exact hne)
          rw [this, hk] at hk'
          exact h.1 hk'
        · intro e he
          rcases List.mem_cons.1 he with rfl | he
          · exact ⟨x, hmem, rfl, by rw [hk]; exact List.mem_cons_self⟩
          · exact h2' e he

theorem given_perm {b : Bool} {id : Nat} {es fs : List (Text × Json.Json)} (h : es.Perm fs) :
    (m.given b id es).Perm (m.given b id fs) := by
  induction h with
  | nil => exact .nil
  | cons x h ih =>
    obtain ⟨key, j⟩ := x
    simp only [Model.given]
    split
    · exact ih
    · split
      · exact ih
      · exact ih.cons _
  | swap x y l =>
    obtain ⟨k1, j1⟩ := x
    obtain ⟨k2, j2⟩ := y
    simp only [Model.given]
    split <;> split <;> first | exact .refl _ | (split <;> first | exact .refl _ | (split <;> first | exact .refl _ | exact .swap ..))
  | trans _ _ ih1 ih2 => exact ih1.trans ih2

theorem readsMembers_perm {id : Nat} {gs hs : List (Member F T × Json.Json)} (h : gs.Perm hs) :
    ∀ vs, ReadsMembers m rd id gs vs → ∃ ws, ReadsMembers m rd id hs ws ∧ vs.Perm ws := by
  induction h with
  | nil => exact fun vs h => ⟨vs, h, .refl _⟩
  | cons x h ih =>
    intro vs h
    cases h with
    | cons h1 h2 =>
      obtain ⟨ws, h3, h4⟩ := ih _ h2
      exact ⟨_, .cons h1 h3, h4.cons _⟩
  | swap x y l =>
    intro vs h
    cases h with
    | cons h1 h2 =>
      cases h2 with
      | cons h3 h4 => exact ⟨_, .cons h3 (.cons h1 h4), .swap ..⟩
  | trans _ _ ih1 ih2 =>
    intro vs h
    obtain ⟨ws, h1, h2⟩ := ih1 _ h
    obtain ⟨xs, h3, h4⟩ := ih2 _ h1
    exact ⟨xs, h3, h2.trans h4⟩

theorem readsMembers_names (id : Nat) : ∀ (vs : List (Member F T × Py F T)) (gs : List (Member F T × Json.Json)),
    ReadsMembers m rd id gs vs → vs.map (·.1.name) = gs.map (·.1.name) := by
  intro vs
  induction vs with
  | nil => intro gs h; cases h; rfl
  | cons y vs ih =>
    intro gs h
    cases h with
    | cons h1 h2 => rw [List.map_cons, List.map_cons, ih _ h2]

theorem find_perm {vs ws : List (Member F T × Py F T)} (h : vs.Perm ws) (hn : (vs.map (·.1.name)).Nodup) (name : Text) :
    (vs.find? fun e => e.1.name = name) = ws.find? fun e => e.1.name = name := by
  induction h with
  | nil => rfl
  | cons x h ih =>
    rw [List.map_cons, List.nodup_cons] at hn
    rw [List.find?_cons, List.find?_cons, ih hn.2]
  | swap x y l =>
    simp only [List.map_cons, List.nodup_cons, List.mem_cons, not_or] at hn
    simp only [List.find?_cons]
    by_cases h1 : x.1.name = name
    · have h2 : ¬ y.1.name = name := fun h2 => hn.1.1 (h2.trans h1.symm)
      simp [h1, h2]
    · simp [h1]
  | trans h1 _ ih1 ih2 => rw [ih1 hn, ih2 ((h1.map _).nodup_iff.1 hn)]

theorem reads_perm (hm : m.Ok rd.useJsonName) {cls : Nat} (hcls : m.IsClass cls) {es fs : List (Text × Json.Json)}
    {v : Py F T} (hp : es.Perm fs) (hn : (es.map Prod.fst).Nodup) (h : Reads m rd cls (.shape cls) (.obj es) v) :
    Reads m rd cls (.shape cls) (.obj fs) v := by
  have hg := given_perm (m := m) (b := rd.useJsonName) (id := cls) hp
  rcases hcls with ⟨ms, hs⟩ | ⟨b, ms, hs⟩ <;> cases h with
  | scalar h1 h2 => simp only [Model.wrap, hs] at h1; cases h1
  | document h1 => rw [hs] at h1; cases h1
  | map h1 => rw [hs] at h1; cases h1
  | @object _ _ _ _ vs field h1 h2 h3 =>
    obtain ⟨ws, h4, h5⟩ := readsMembers_perm hg _ h2
    refine .object h1 h4 fun x hx => ?_
    have h6 := h3 x hx
    have hnn : (vs.map (·.1.name)).Nodup := by
      rw [readsMembers_names cls vs _ h2]
      exact (given_keys hm es hn).1
    rw [Model.Filled] at h6 ⊢
    have h7 := find_perm (vs.reverse_perm.trans (h5.trans ws.reverse_perm.symm))
      (((vs.reverse_perm.map _).nodup_iff).2 hnn) x.name
    rw [← h7]
    exact h6
  | variant h1 h2 h3 h4 =>
    rw [h2] at hg
    exact .variant h1 (List.perm_singleton.1 hg.symm) h3 h4

/-- C121: the order of the members of an object, each there once, does not matter. -/
theorem C121_order (hm : m.Ok rd.useJsonName) (hno : m.NoStreams) (hview : rd.view = m.view) {cls : Nat}
    (hcls : m.IsClass cls) {es fs : List (Text × Json.Json)} (hp : es.Perm fs) (hn : (es.map Prod.fst).Nodup) (v : Py F T) :
    m.deserialize rd cls (Json.events [] (.obj es)) = .ok v ↔ m.deserialize rd cls (Json.events [] (.obj fs)) = .ok v := by
  rw [C121_reads hm hno hview hcls, C121_reads hm hno hview hcls]
  exact ⟨reads_perm hm hcls hp hn, reads_perm hm hcls hp.symm ((hp.map _).nodup_iff.1 hn)⟩

end Verif.GeneratedSerde

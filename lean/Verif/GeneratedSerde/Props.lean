import Verif.GeneratedSerde.Spec

/-!
# Generated serializers and deserializers: theorems (C119, C120)
-/

set_option autoImplicit false

namespace Verif.GeneratedSerde

open Verif.Json (Text Format Plain Event)
open Verif.Scalars.Strict (Num)

variable {F T : Type}

/-! ## Names and schemas -/

section
variable {m : Model F T} {b : Bool}

theorem findMember_spec : ∀ (ms : List (Member F T)) (i k : Nat) (x : Member F T), (ms.map (·.name)).Nodup →
    ms[i]? = some x → findMember x.name k ms = some (k + i, x)
  | [], i, k, x, _, h => by simp at h
  | y :: ys, 0, k, x, _, h => by
    simp only [List.getElem?_cons_zero, Option.some.injEq] at h
    subst h
    simp [findMember]
  | y :: ys, i + 1, k, x, hn, h => by
    simp only [List.getElem?_cons_succ] at h
    simp only [List.map_cons, List.nodup_cons] at hn
    have hne : y.name ≠ x.name := fun e => hn.1 (List.mem_map.2 ⟨x, List.mem_of_getElem? h, e.symm⟩)
    rw [findMember, if_neg hne, findMember_spec ys i (k + 1) x hn.2 h]
    congr 2
    omega

theorem find_name (hm : m.Ok b) {id : Nat} {x : Member F T} (hx : x ∈ m.members id) :
    (m.members id).find? (fun y => y.name = x.name) = some x :=
  Json.find_unique (fun y : Member F T => y.name) _ (hm.names id) x hx

theorem jsonMember_spec (hm : m.Ok b) {id : Nat} {x : Member F T} (hx : x ∈ m.members id) :
    m.jsonMember (.member id x.name) = some ⟨x.name, x.jsonName⟩ := by
  simp only [Model.jsonMember, find_name hm hx, Option.map_some]

theorem target_member (hm : m.Ok b) {id : Nat} {x : Member F T} (hx : x ∈ m.members id) :
    m.target (.member id x.name) = some x.target := by
  have h := find_name hm hx
  unfold Model.members at hx h
  unfold Model.target
  split at hx <;> rename_i hs
  · simp only [hs] at h ⊢
    rw [h]; rfl
  · simp only [hs] at h ⊢
    rw [h]; rfl
  · cases hx

theorem schemas_names (m : Model F T) (id : Nat) :
    ((m.schemas id).map fun e => e.1.name) = (m.members id).map (·.name) := by
  simp [Model.schemas, Function.comp_def]

theorem schemas_keys (m : Model F T) (id : Nat) (b : Bool) :
    ((m.schemas id).map fun e => Json.jsonKey b e.1) =
      (m.members id).map fun x => Json.jsonKey b ⟨x.name, x.jsonName⟩ := by
  simp [Model.schemas, Function.comp_def]

theorem resolve_member {rd : Json.Reader Ref F T} (hm : m.Ok rd.useJsonName) {id : Nat} {x : Member F T}
    (hx : x ∈ m.members id) :
    rd.resolve (m.schemas id) (Json.jsonKey rd.useJsonName ⟨x.name, x.jsonName⟩) =
      some (⟨x.name, x.jsonName⟩, .member id x.name) := by
  have h1 : ((m.schemas id).map fun e => e.1.name).Nodup := by rw [schemas_names]; exact hm.names id
  have h2 : ((m.schemas id).map fun e => Json.jsonKey rd.useJsonName e.1).Nodup := by
    rw [schemas_keys]; exact hm.keys id
  rw [Json.resolve_spec rd _ _ h1 h2]
  exact Json.find_unique (fun e : Json.Member × Ref => Json.jsonKey rd.useJsonName e.1) _ h2
    (⟨x.name, x.jsonName⟩, .member id x.name) (List.mem_map.2 ⟨x, hx, rfl⟩)

theorem view_struct {s : Ref} {ms : List (Json.Member × Ref)} (h : m.view s = .struct ms ∨ m.view s = .union ms) :
    ∃ id, ms = m.schemas id := by
  unfold Model.view at h
  split at h
  · rcases h with h | h <;> cases h
  · rename_i id _
    split at h <;> rcases h with h | h <;> first | (exact ⟨id, by cases h; rfl⟩) | cases h

theorem reader_ok {rd : Json.Reader Ref F T} (hm : m.Ok rd.useJsonName) (hview : rd.view = m.view) : rd.Ok := by
  intro s ms h
  rw [hview] at h
  obtain ⟨id, rfl⟩ := view_struct h
  rw [schemas_names, schemas_keys]
  exact ⟨hm.names id, hm.keys id⟩

theorem view_of {s : Ref} {id : Nat} {shape : Shape F T} (ht : m.target s = some id) (hs : m.shape id = some shape) :
    m.view s = match shape with
    | .simple .boolean => .boolean
    | .simple .byte | .simple .short | .simple .integer | .simple .long
    | .simple .bigInteger | .intEnum => .integer
    | .simple .float | .simple .double => .float
    | .simple .bigDecimal => .bigDecimal
    | .simple .string | .enum => .string
    | .simple .blob | .stream => .blob
    | .simple .document => .document
    | .timestamp _ => .timestamp (m.format s)
    | .list sparse _ => .list sparse (.member id memberName)
    | .map sparse _ => .map sparse (.member id valueName)
    | .struct _ => .struct (m.schemas id)
    | .union _ _ => .union (m.schemas id) := by
  unfold Model.view
  simp only [ht, hs]
  cases shape with
  | simple t => cases t <;> rfl
  | _ => rfl

theorem format_of {s : Ref} {id : Nat} {f : Option Format} (ht : m.target s = some id)
    (hs : m.shape id = some (.timestamp f)) : m.format s = (m.ownFormat s).or f := by
  simp only [Model.format, ht, Option.bind_some, hs]

end

/-! ## One value -/

/-- The calls for a value, and what is read from the text for them. -/
def Good (m : Model F T) (st : Json.Settings F T) (rd : Json.Reader Ref F T) (id : Nat) (s : Ref) (v : Py F T)
    (c : Call F T) : Prop :=
  c.schema = s ∧ Writes m s v c ∧ ∃ jc, m.jsonCall c = some jc ∧ Json.NoNan st jc ∧
    ∀ j, Json.Mirrors st jc j → (j.isNull = true → v = .document .null ∧ m.shape id = some (.simple .document)) ∧
      ∀ p rest k, (m.shape id = some (.simple .document) → p ≠ []) → Json.size j ≤ k →
        ∃ v', m.read rd k id s (Json.events p j ++ rest) = .ok (v', rest) ∧ Same v v'

section
variable {m : Model F T} {st : Json.Settings F T} {rd : Json.Reader Ref F T}

theorem scalar (hrd : rd.Ok) (hf : Json.Fits st rd) {id : Nat} {s : Ref} {v : Py F T} {w : Json.Val F T} {method : Method}
    {wrap : Json.Val F T → Py F T} (hw : Writes m s v (.write method s v))
    (hj : m.writeJson s method v = some (rd.callOf s w)) (hc : Json.Conforms st rd s w)
    (hnd : (rd.view s).isDocument = false)
    (hread : ∀ k evs, m.read rd (k + 1) id s evs = m.readOne rd s method wrap evs)
    (hmeth : ∀ e, m.readMethod rd s method e = rd.readScalar (rd.view s) e)
    (hscalar : ∀ k e r, rd.read (k + 1) s (e :: r) = (rd.readScalar (rd.view s) e.ev).map fun x => (x, r))
    (hsame : ∀ w', Json.Same w w' → Same v (wrap w')) : Good m st rd id s v (.write method s v) := by
  refine ⟨rfl, hw, rd.callOf s w, by rw [Model.jsonCall, hj], Json.noNan_call st rd hrd w s hc, ?_⟩
  intro j hjm
  obtain ⟨w', h1, h2, h3⟩ := Json.value_round_trip st rd hrd hf w s j hc hjm
  have hwd : w ≠ .document .null := by
    rintro rfl
    rw [hc.1] at hnd
    cases hnd
  refine ⟨fun h => absurd (h3 h) hwd, ?_⟩
  intro p rest k _ hk
  have hsz := Json.size_pos j
  obtain ⟨k, rfl⟩ : ∃ k', k = k' + 1 := ⟨k - 1, by omega⟩
  have h4 := Json.read_spec rd j s p rest (k + 1) hk (fun _ h => by rw [h] at hnd; cases hnd)
  refine ⟨wrap w', ?_, hsame w' h2⟩
  rw [hread]
  obtain ⟨e, r, he, _⟩ := Json.events_head p j
  rw [he, List.cons_append] at h4 ⊢
  rw [hscalar, h1] at h4
  rw [Model.readOne, hmeth]
  cases hs : rd.readScalar (rd.view s) e.ev with
  | error err => rw [hs] at h4; cases h4
  | ok x =>
    rw [hs] at h4
    simp only [Except.map, Except.ok.injEq, Prod.mk.injEq] at h4
    simp only [h4.1, h4.2]

theorem document {id : Nat} {s : Ref} {p : Plain} (ht : m.target s = some id)
    (hs : m.shape id = some (.simple .document)) (hp : p.Ok) :
    Good m st rd id s (.document p) (.write .document s (.document p)) := by
  refine ⟨rfl, .value ht hs rfl, Json.docCall p, rfl, Json.noNan_doc st p, ?_⟩
  intro j hj
  obtain ⟨h1, h2⟩ := Json.doc_round_trip st p j hp hj
  refine ⟨fun h => ⟨by rw [h2 h], hs⟩, ?_⟩
  intro path rest k hpath hk
  have hsz := Json.size_pos j
  obtain ⟨k, rfl⟩ : ∃ k', k = k' + 1 := ⟨k - 1, by omega⟩
  refine ⟨.document (Json.plainOf j), ?_, .document h1⟩
  rw [Model.read.eq_def]
  simp only [hs, Json.readDocument_spec j path rest (fun h => absurd h (hpath hs))]

/-! ## Lists and maps -/

theorem typed_notNone {id : Nat} {s : Ref} {v : Py F T} (h : Typed m st rd id s v) : v.isNone = false := by
  cases h <;> rfl

/-- The elements of a list, or the values of a map, each of which is written and read back. -/
def GoodSlot (m : Model F T) (st : Json.Settings F T) (rd : Json.Reader Ref F T) (n : Nat) (sparse : Bool) (id : Nat) (s : Ref)
    (x : Py F T) : Prop :=
  (sparse = true ∧ x = .none) ∨
    (x.isNone = false ∧ x ≠ .document .null ∧ ∃ c, m.memberCall n id s x = .ok c ∧ Good m st rd id s x c)

theorem elements {n : Nat} {sparse : Bool} {id : Nat} {s : Ref} : ∀ xs : List (Py F T),
    (∀ x ∈ xs, GoodSlot m st rd n sparse id s x) →
    ∃ cs jcs, each (fun x => if sparse && x.isNone then .ok (.null s) else m.memberCall n id s x) xs = .ok cs ∧
      WritesEach m sparse (xs.map fun x => (s, x)) cs ∧ m.jsonElements cs = some jcs ∧ Json.NoNanElements st jcs ∧
      ∀ js, Json.MirrorsElements st jcs js → ∀ acc p rest k, Json.sizes js ≤ k →
        ∃ ys, m.readElements rd k sparse id s acc
            (Json.elementEvents (p ++ ["item".toList]) js ++ ⟨Json.join p, .endArray⟩ :: rest) = .ok (acc ++ ys, rest) ∧
          List.Forall₂ Same xs ys
  | [], _ => by
    refine ⟨[], [], rfl, .nil, rfl, trivial, ?_⟩
    rintro js rfl acc p rest k hk
    have := Json.sizes_pos []
    obtain ⟨k, rfl⟩ : ∃ k', k = k' + 1 := ⟨k - 1, by omega⟩
    refine ⟨[], ?_, .nil⟩
    simp only [Json.elementEvents, List.nil_append, Model.readElements, if_true, List.append_nil]
  | x :: xs, hx => by
    obtain ⟨cs, jcs, h1, h2, h3, h4, h5⟩ := elements xs fun y hy => hx y (List.mem_cons_of_mem _ hy)
    rcases hx x List.mem_cons_self with ⟨rfl, rfl⟩ | ⟨hnone, hnull, c, hc, hs, hw, jc, hj, hn, hr⟩
    · refine ⟨.null s :: cs, .null :: jcs, ?_, .null h2, ?_, ⟨trivial, h4⟩, ?_⟩
      · have hn : (Py.none : Py F T).isNone = true := rfl
        simp only [each, hn, Bool.and_true, if_true, h1]
      · simp only [Model.jsonElements, Model.jsonCall, h3]
      · rintro js ⟨j, js, rfl, hj, hjs⟩ acc p rest k hk
        simp only [Json.Mirrors] at hj
        subst hj
        simp only [Json.sizes] at hk
        obtain ⟨k, rfl⟩ : ∃ k', k = k' + 1 := ⟨k - 1, by omega⟩
        obtain ⟨ys, h6, h7⟩ := h5 js hjs (acc ++ [.none]) p rest k (by omega)
        refine ⟨.none :: ys, ?_, .cons (.refl _) h7⟩
        simp only [Json.elementEvents, Json.events, List.cons_append, List.nil_append, Model.readElements, reduceCtorEq,
          if_false, if_true, h6, List.append_assoc]
    · refine ⟨c :: cs, jc :: jcs, ?_, .value hw h2, ?_, ⟨hn, h4⟩, ?_⟩
      · simp only [each, hnone, Bool.and_false, Bool.false_eq_true, if_false, hc, h1]
      · simp only [Model.jsonElements, hj, h3]
      · rintro js ⟨j, js, rfl, hjm, hjs⟩ acc p rest k hk
        simp only [Json.sizes] at hk
        obtain ⟨k, rfl⟩ : ∃ k', k = k' + 1 := ⟨k - 1, by omega⟩
        obtain ⟨hnl, hrd⟩ := hr j hjm
        obtain ⟨v', h6, h7⟩ := hrd (p ++ ["item".toList])
          (Json.elementEvents (p ++ ["item".toList]) js ++ ⟨Json.join p, .endArray⟩ :: rest) k (fun _ => by simp) (by omega)
        obtain ⟨ys, h8, h9⟩ := h5 js hjs (acc ++ [v']) p rest k (by omega)
        refine ⟨v' :: ys, ?_, .cons h7 h9⟩
        obtain ⟨e, r, he, hen, hne, _⟩ := Json.events_head (p ++ ["item".toList]) j
        have hnn : ¬ e.ev = .null := fun h => hnull (hnl (hen.1 h)).1
        simp only [Json.elementEvents, List.append_assoc]
        rw [he] at h6 ⊢
        simp only [List.cons_append] at h6 ⊢
        simp only [Model.readElements, hne, hnn, if_false, h6, h8, List.append_assoc, List.cons_append, List.nil_append]

theorem entries {n : Nat} {sparse : Bool} {id : Nat} {s : Ref} : ∀ es : List (Text × Py F T),
    (∀ x ∈ es, GoodSlot m st rd n sparse id s x.2) →
    ∃ cs jcs, each (fun x => if sparse && x.isNone then .ok (.null s) else m.memberCall n id s x) (es.map (·.2)) = .ok cs ∧
      WritesEach m sparse (es.map fun x => (s, x.2)) cs ∧ m.jsonEntries ((es.map (·.1)).zip cs) = some jcs ∧
      Json.NoNanEntries st jcs ∧
      ∀ js, Json.MirrorsEntries st jcs js → ∀ acc p rest k, Json.memberSizes js ≤ k →
        (acc.map Prod.fst ++ es.map Prod.fst).Nodup →
        ∃ fs, m.readEntries rd k sparse id s acc (Json.memberEvents p js ++ ⟨Json.join p, .endMap⟩ :: rest) =
            .ok (acc ++ fs, rest) ∧ es.map Prod.fst = fs.map Prod.fst ∧
          List.Forall₂ Same (es.map Prod.snd) (fs.map Prod.snd)
  | [], _ => by
    refine ⟨[], [], rfl, .nil, rfl, trivial, ?_⟩
    rintro js rfl acc p rest k hk _
    have := Json.memberSizes_pos []
    obtain ⟨k, rfl⟩ : ∃ k', k = k' + 1 := ⟨k - 1, by omega⟩
    refine ⟨[], ?_, rfl, .nil⟩
    simp only [Json.memberEvents, List.nil_append, Model.readEntries, if_true, List.append_nil]
  | (key, x) :: es, hx => by
    obtain ⟨cs, jcs, h1, h2, h3, h4, h5⟩ := entries es fun y hy => hx y (List.mem_cons_of_mem _ hy)
    rcases hx (key, x) List.mem_cons_self with ⟨rfl, hnone⟩ | ⟨hnone, hnull, c, hc, hs, hw, jc, hj, hn, hr⟩
    · simp only at hnone
      subst hnone
      refine ⟨.null s :: cs, (key, .null) :: jcs, ?_, .null h2, ?_, ⟨trivial, h4⟩, ?_⟩
      · have hn : (Py.none : Py F T).isNone = true := rfl
        simp only [List.map_cons, each, hn, Bool.and_true, if_true, h1]
      · simp only [List.map_cons, List.zip_cons_cons, Model.jsonEntries, Model.jsonCall, h3]
      · rintro js ⟨j, js, rfl, hj, hjs⟩ acc p rest k hk hnd
        simp only [Json.Mirrors] at hj
        subst hj
        simp only [Json.memberSizes] at hk
        obtain ⟨k, rfl⟩ : ∃ k', k = k' + 1 := ⟨k - 1, by omega⟩
        have hkey : key ∉ acc.map Prod.fst := fun h => (List.nodup_append.1 hnd).2.2 key h key (by simp) rfl
        obtain ⟨fs, h6, h7, h8⟩ := h5 js hjs (acc ++ [(key, .none)]) p rest k (by omega) (by simpa using hnd)
        refine ⟨(key, .none) :: fs, ?_, by simp [h7], .cons (.refl _) h8⟩
        simp only [Json.memberEvents, Json.events, List.cons_append, List.nil_append, Model.readEntries, reduceCtorEq,
          if_false, if_true, Json.readString, Json.put_new acc key _ hkey, h6, List.append_assoc]
    · refine ⟨c :: cs, (key, jc) :: jcs, ?_, .value hw h2, ?_, ⟨hn, h4⟩, ?_⟩
      · simp only [List.map_cons, each, hnone, Bool.and_false, Bool.false_eq_true, if_false, hc, h1]
      · simp only [List.map_cons, List.zip_cons_cons, Model.jsonEntries, hj, h3]
      · rintro js ⟨j, js, rfl, hjm, hjs⟩ acc p rest k hk hnd
        simp only [Json.memberSizes] at hk
        obtain ⟨k, rfl⟩ : ∃ k', k = k' + 1 := ⟨k - 1, by omega⟩
        have hkey : key ∉ acc.map Prod.fst := fun h => (List.nodup_append.1 hnd).2.2 key h key (by simp) rfl
        obtain ⟨hnl, hrd⟩ := hr j hjm
        obtain ⟨v', h6, h7⟩ := hrd (p ++ [key])
          (Json.memberEvents p js ++ ⟨Json.join p, .endMap⟩ :: rest) k (fun _ => by simp) (by omega)
        obtain ⟨fs, h8, h9, h10⟩ := h5 js hjs (acc ++ [(key, v')]) p rest k (by omega) (by simpa using hnd)
        refine ⟨(key, v') :: fs, ?_, by simp [h9], .cons h7 h10⟩
        obtain ⟨e, r, he, hen, _, _⟩ := Json.events_head (p ++ [key]) j
        have hnn : ¬ e.ev = .null := fun h => hnull (hnl (hen.1 h)).1
        simp only [Json.memberEvents, List.append_assoc, List.cons_append]
        rw [he] at h6 ⊢
        simp only [List.cons_append] at h6 ⊢
        simp only [Model.readEntries, reduceCtorEq, Json.readString, hnn, if_false, h6, Json.put_new acc key _ hkey, h8,
          List.append_assoc, List.cons_append, List.nil_append]

/-! ## Structures -/

/-- An attribute that is left out, or written and read back. -/
def GoodField (m : Model F T) (st : Json.Settings F T) (rd : Json.Reader Ref F T) (n : Nat) (id : Nat) (x : Member F T)
    (v : Py F T) : Prop :=
  (m.mayBeNone x = true ∧ isRequired x = false ∧ x.default.getD .none = .none ∧ v = .none) ∨
    (v.isNone = false ∧ ∃ c, m.memberCall n x.target (.member id x.name) v = .ok c ∧
      Good m st rd x.target (.member id x.name) v c)

theorem lookup_append_none {V : Type} : ∀ (a b : List (Text × V)) (k : Text), k ∉ a.map Prod.fst →
    (a ++ b).lookup k = b.lookup k
  | [], b, k, _ => rfl
  | (k', v) :: a, b, k, h => by
    simp only [List.map_cons, List.mem_cons, not_or] at h
    rw [List.cons_append, List.lookup_cons, beq_eq_false_iff_ne.2 h.1]
    exact lookup_append_none a b k h.2

theorem lookup_none {V : Type} : ∀ (a : List (Text × V)) (k : Text), k ∉ a.map Prod.fst → a.lookup k = none
  | [], k, _ => rfl
  | (k', v) :: a, k, h => by
    simp only [List.map_cons, List.mem_cons, not_or] at h
    rw [List.lookup_cons, beq_eq_false_iff_ne.2 h.1]
    exact lookup_none a k h.2

theorem members (hm : m.Ok rd.useJsonName) (hf : Json.Fits st rd) {n : Nat} {id : Nat} {fields : List (Text × Py F T)}
    {value : Member F T → Py F T} (hattrs : ((m.members id).map (·.attr)).Nodup) :
    ∀ (post pre : List (Member F T)), m.members id = pre ++ post →
    (∀ x ∈ post, m.isStream x = false → fields.lookup x.attr = some (value x) ∧ GoodField m st rd n id x (value x)) →
    ∃ (written : List (Member F T)) (cs : List (Call F T)) (jcs : List (Json.Member × Json.Call F T)), written.Sublist post ∧
      (∀ x ∈ post, x ∈ written ↔ m.isStream x = false ∧ value x ≠ .none) ∧
      m.fieldCalls (fun x w => m.memberCall n x.target (.member id x.name) w) fields post = .ok cs ∧
      WritesEach m false (written.map fun x => (.member id x.name, value x)) cs ∧
      m.jsonMembers cs = some jcs ∧ Json.NoNanMembers st jcs ∧
      ∀ js, Json.MirrorsMembers st jcs js → ∀ kwargs p rest k, Json.memberSizes js ≤ k →
        (∀ a ∈ kwargs.map Prod.fst, a ∈ pre.map (·.attr)) →
        ∃ kw, m.readMembers rd k id kwargs (Json.memberEvents p js ++ ⟨Json.join p, .endMap⟩ :: rest) =
            .ok (kwargs ++ kw, rest) ∧ (∀ a ∈ kw.map Prod.fst, a ∈ post.map (·.attr)) ∧
          (∀ x ∈ post, x ∈ written → ∃ v', kw.lookup x.attr = some v' ∧ Same (value x) v') ∧
          (∀ x ∈ post, x ∉ written → kw.lookup x.attr = none)
  | [], pre, _, _ => by
    refine ⟨[], [], [], .slnil, by simp, rfl, .nil, rfl, trivial, ?_⟩
    rintro js rfl kwargs p rest k hk _
    have := Json.memberSizes_pos []
    obtain ⟨k, rfl⟩ : ∃ k', k = k' + 1 := ⟨k - 1, by omega⟩
    refine ⟨[], ?_, by simp, by simp, by simp⟩
    simp only [Json.memberEvents, List.nil_append, Model.readMembers, if_true, List.append_nil]
  | x :: post, pre, hms, hx => by
    have hattrs' := hattrs
    rw [hms, List.map_append, List.map_cons] at hattrs'
    have hxp : x.attr ∉ post.map (·.attr) := (List.nodup_cons.1 (List.nodup_append.1 hattrs').2.1).1
    have hxpre : x.attr ∉ pre.map (·.attr) := fun h => (List.nodup_append.1 hattrs').2.2 _ h x.attr (by simp) rfl
    obtain ⟨written, cs, jcs, h0, h1, h2, h3, h4, h5, h6⟩ := members hm hf hattrs post (pre ++ [x]) (by simp [hms])
      fun y hy => hx y (List.mem_cons_of_mem _ hy)
    have hmem : x ∈ m.members id := by rw [hms]; simp
    -- the member is left out
    have hskip : x ∉ written → ¬ (m.isStream x = false ∧ value x ≠ .none) →
        m.fieldCalls (fun x w => m.memberCall n x.target (.member id x.name) w) fields (x :: post) = .ok cs →
        ∃ (written : List (Member F T)) (cs : List (Call F T)) (jcs : List (Json.Member × Json.Call F T)), written.Sublist (x :: post) ∧
          (∀ y ∈ x :: post, y ∈ written ↔ m.isStream y = false ∧ value y ≠ .none) ∧
          m.fieldCalls (fun x w => m.memberCall n x.target (.member id x.name) w) fields (x :: post) = .ok cs ∧
          WritesEach m false (written.map fun x => (.member id x.name, value x)) cs ∧
          m.jsonMembers cs = some jcs ∧ Json.NoNanMembers st jcs ∧
          ∀ js, Json.MirrorsMembers st jcs js → ∀ kwargs p rest k, Json.memberSizes js ≤ k →
            (∀ a ∈ kwargs.map Prod.fst, a ∈ pre.map (·.attr)) →
            ∃ kw, m.readMembers rd k id kwargs (Json.memberEvents p js ++ ⟨Json.join p, .endMap⟩ :: rest) =
                .ok (kwargs ++ kw, rest) ∧ (∀ a ∈ kw.map Prod.fst, a ∈ (x :: post).map (·.attr)) ∧
              (∀ y ∈ x :: post, y ∈ written → ∃ v', kw.lookup y.attr = some v' ∧ Same (value y) v') ∧
              (∀ y ∈ x :: post, y ∉ written → kw.lookup y.attr = none) := by
      intro hnw hcond hcalls
      refine ⟨written, cs, jcs, .cons _ h0, ?_, hcalls, h3, h4, h5, ?_⟩
      · intro y hy
        rcases List.mem_cons.1 hy with rfl | hy
        · exact ⟨fun h => absurd h hnw, fun h => absurd h hcond⟩
        · exact h1 y hy
      · intro js hjs kwargs p rest k hk hkw
        obtain ⟨kw, h7, h8, h9, h10⟩ := h6 js hjs kwargs p rest k hk fun a ha => by
          rw [List.map_append]; exact List.mem_append_left _ (hkw a ha)
        refine ⟨kw, h7, fun a ha => List.mem_cons_of_mem _ (h8 a ha), ?_, ?_⟩
        · intro y hy hyw
          rcases List.mem_cons.1 hy with rfl | hy
          · exact absurd hyw hnw
          · exact h9 y hy hyw
        · intro y hy hyw
          rcases List.mem_cons.1 hy with rfl | hy
          · exact lookup_none kw _ fun h => hxp (h8 _ h)
          · exact h10 y hy hyw
    have hnw : ¬ (m.isStream x = false ∧ value x ≠ .none) → x ∉ written := by
      intro hcond hw
      exact hcond ((h1 x (h0.subset hw)).1 hw)
    cases hstream : m.isStream x with
    | true =>
      refine hskip (hnw (by simp [hstream])) (by simp [hstream]) ?_
      simp only [Model.fieldCalls, hstream, if_true, h2]
    | false =>
      obtain ⟨hl, hgood⟩ := hx x List.mem_cons_self hstream
      rcases hgood with ⟨hmay, hreq, hdef, hnone⟩ | ⟨hnone, c, hc, hs, hw, jc, hj, hn, hr⟩
      · refine hskip (hnw (by simp [hnone])) (by simp [hnone]) ?_
        have hn : (Py.none : Py F T).isNone = true := rfl
        simp only [Model.fieldCalls, hstream, Bool.false_eq_true, if_false, hl, hmay, hnone, hn, Bool.and_self, if_true, h2]
      · have hne : value x ≠ .none := by
          intro h; rw [h] at hnone; cases hnone
        refine ⟨x :: written, c :: cs, (⟨x.name, x.jsonName⟩, jc) :: jcs, .cons_cons _ h0, ?_, ?_, .value hw h3, ?_, ⟨hn, h5⟩, ?_⟩
        · intro y hy
          rcases List.mem_cons.1 hy with rfl | hy
          · exact ⟨fun _ => ⟨hstream, hne⟩, fun _ => List.mem_cons_self⟩
          · constructor
            · intro h
              rcases List.mem_cons.1 h with rfl | h
              · exact ⟨hstream, hne⟩
              · exact (h1 y hy).1 h
            · exact fun h => List.mem_cons_of_mem _ ((h1 y hy).2 h)
        · simp only [Model.fieldCalls, hstream, Bool.false_eq_true, if_false, hl, hnone, Bool.and_false, hc, h2]
        · simp only [Model.jsonMembers, hs, jsonMember_spec hm hmem, hj, h4]
        · rintro js ⟨j, js, rfl, hjm, hjs⟩ kwargs p rest k hk hkw
          simp only [Json.memberSizes] at hk
          obtain ⟨k, rfl⟩ : ∃ k', k = k' + 1 := ⟨k - 1, by omega⟩
          obtain ⟨hnl, hrd⟩ := hr j hjm
          obtain ⟨v', h7, h8⟩ := hrd (p ++ [Json.jsonKey st.useJsonName ⟨x.name, x.jsonName⟩])
            (Json.memberEvents p js ++ ⟨Json.join p, .endMap⟩ :: rest) k (fun _ => by simp) (by omega)
          obtain ⟨kw, h9, h10, h11, h12⟩ := h6 js hjs (kwargs ++ [(x.attr, v')]) p rest k (by omega) fun a ha => by
            rw [List.map_append] at ha ⊢
            rcases List.mem_append.1 ha with ha | ha
            · exact List.mem_append_left _ (hkw a ha)
            · exact List.mem_append_right _ ha
          have hattr : x.attr ∉ kwargs.map Prod.fst := fun h => hxpre (hkw _ h)
          refine ⟨(x.attr, v') :: kw, ?_, ?_, ?_, ?_⟩
          · obtain ⟨e, r, he, hen, _, _⟩ := Json.events_head (p ++ [Json.jsonKey st.useJsonName ⟨x.name, x.jsonName⟩]) j
            have hdoc : ¬ (e.ev = .null ∧ (m.view (.member id x.name)).isDocument = false) := by
              rintro ⟨h, hv⟩
              rw [view_of (target_member hm hmem) (hnl (hen.1 h)).2] at hv
              cases hv
            obtain ⟨i, hi⟩ := List.getElem?_of_mem hmem
            simp only [Json.memberEvents, List.append_assoc, List.cons_append]
            rw [he] at h7 ⊢
            simp only [List.cons_append] at h7 ⊢
            rw [Model.readMembers]
            simp only [reduceCtorEq, if_false, Json.readString, ← hf.names, resolve_member hm hmem, hdoc,
              findMember_spec _ i 0 x (hm.names id) hi, hstream, Bool.false_eq_true, h7, Json.put_new kwargs _ _ hattr, h9,
              List.append_assoc, List.cons_append, List.nil_append]
          · intro a ha
            rcases List.mem_cons.1 ha with rfl | ha
            · exact List.mem_cons_self
            · exact List.mem_cons_of_mem _ (h10 a ha)
          · intro y hy hyw
            rcases List.mem_cons.1 hy with rfl | hy
            · exact ⟨v', by simp, h8⟩
            · have hyx : y.attr ≠ x.attr := fun h => hxp (h ▸ List.mem_map_of_mem hy)
              have hyw : y ∈ written := by
                rcases List.mem_cons.1 hyw with rfl | h
                · exact absurd rfl hyx
                · exact h
              rw [List.lookup_cons, beq_eq_false_iff_ne.2 hyx]
              exact h11 y hy hyw
          · intro y hy hyw
            rcases List.mem_cons.1 hy with rfl | hy
            · exact absurd List.mem_cons_self hyw
            · have hyx : y.attr ≠ x.attr := fun h => hxp (h ▸ List.mem_map_of_mem hy)
              rw [List.lookup_cons, beq_eq_false_iff_ne.2 hyx]
              exact h12 y hy fun h => hyw (List.mem_cons_of_mem _ h)

/-! ## Objects -/

theorem mem_attributes {ms : List (Member F T)} {x : Member F T} :
    x ∈ m.attributes ms ↔ x ∈ ms ∧ m.isStream x = false := by
  simp only [Model.attributes, List.mem_append, List.mem_filter, Bool.and_eq_true, Bool.not_eq_true']
  constructor
  · rintro (h | h) <;> exact ⟨h.1, h.2.1⟩
  · intro h
    cases hr : isRequired x
    · exact .inr ⟨h.1, h.2, rfl⟩
    · exact .inl ⟨h.1, h.2, rfl⟩

theorem attr_inj : ∀ (ms : List (Member F T)), (ms.map (·.attr)).Nodup → ∀ x ∈ ms, ∀ y ∈ ms, y.attr = x.attr → y = x
  | [], _, x, hx, _, _, _ => by cases hx
  | z :: zs, hn, x, hx, y, hy, h => by
    simp only [List.map_cons, List.nodup_cons] at hn
    rcases List.mem_cons.1 hx with hxz | hx <;> rcases List.mem_cons.1 hy with hyz | hy
    · rw [hxz, hyz]
    · exact absurd (hxz ▸ h ▸ List.mem_map_of_mem hy) hn.1
    · exact absurd (hyz ▸ h ▸ List.mem_map_of_mem hx) hn.1
    · exact attr_inj zs hn.2 x hx y hy h

theorem lookup_field {value : Member F T → Py F T} : ∀ (xs : List (Member F T)) (x : Member F T), x ∈ xs →
    (∀ y ∈ xs, y.attr = x.attr → y = x) → (xs.map fun y => (y.attr, value y)).lookup x.attr = some (value x)
  | [], x, hx, _ => by cases hx
  | z :: zs, x, hx, h => by
    rw [List.map_cons, List.lookup_cons]
    by_cases hz : x.attr = z.attr
    · rw [hz, beq_self_eq_true, h z List.mem_cons_self hz.symm]
    · rw [beq_eq_false_iff_ne.2 hz]
      rcases List.mem_cons.1 hx with rfl | hx
      · exact absurd rfl hz
      · exact lookup_field zs x hx fun y hy => h y (List.mem_cons_of_mem _ hy)

theorem each_fields {f : Member F T → Except Err (Text × Py F T)} {value : Member F T → Py F T} :
    ∀ xs : List (Member F T), (∀ x ∈ xs, ∃ v, f x = .ok (x.attr, v) ∧ Same (value x) v) →
    ∃ fs, each f xs = .ok fs ∧ (xs.map fun x => (x.attr, value x)).map Prod.fst = fs.map Prod.fst ∧
      List.Forall₂ Same ((xs.map fun x => (x.attr, value x)).map Prod.snd) (fs.map Prod.snd)
  | [], _ => ⟨[], rfl, rfl, .nil⟩
  | x :: xs, h => by
    obtain ⟨v, h1, h2⟩ := h x List.mem_cons_self
    obtain ⟨fs, h3, h4, h5⟩ := each_fields xs fun y hy => h y (List.mem_cons_of_mem _ hy)
    refine ⟨(x.attr, v) :: fs, ?_, ?_, .cons h2 h5⟩
    · simp only [each, h1, h3]
    · simp only [List.map_cons, h4]

theorem depth_mem : ∀ (xs : List (Py F T)) (x : Py F T), x ∈ xs → x.depth ≤ depths xs
  | [], x, h => by cases h
  | y :: ys, x, h => by
    rw [depths]
    rcases List.mem_cons.1 h with rfl | h
    · exact Nat.le_max_left _ _
    · exact Nat.le_trans (depth_mem ys x h) (Nat.le_max_right _ _)

theorem depth_entry : ∀ (xs : List (Text × Py F T)) (x : Text × Py F T), x ∈ xs → x.2.depth ≤ entryDepths xs
  | [], x, h => by cases h
  | (k, y) :: ys, x, h => by
    rw [entryDepths]
    rcases List.mem_cons.1 h with rfl | h
    · exact Nat.le_max_left _ _
    · exact Nat.le_trans (depth_entry ys x h) (Nat.le_max_right _ _)

/-- All values: what is written, and that it is read back. -/
theorem core (hm : m.Ok rd.useJsonName) (hf : Json.Fits st rd) (hview : rd.view = m.view) : ∀ (n id : Nat) (s : Ref)
    (v : Py F T), m.target s = some id → Typed m st rd id s v → v.depth ≤ n →
    ∃ c, m.memberCall n id s v = .ok c ∧ Good m st rd id s v c
  | 0, id, s, v, _, h, hd => by cases h <;> simp [Py.depth] at hd
  | n + 1, id, s, v, ht, h, hd => by
    have hrd : rd.Ok := reader_ok hm hview
    have hv : rd.view s = m.view s := by rw [hview]
    cases h with
    | @boolean _ _ b hs =>
      have hv' : rd.view s = .boolean := by rw [hv, view_of ht hs]
      refine ⟨.write .boolean s (.bool b), by simp only [Model.memberCall, hs, Simple.method], ?_⟩
      refine scalar (w := .boolean b) (wrap := ofVal) hrd hf (.value ht hs rfl) rfl hv' (by rw [hv']; rfl) ?_ ?_ ?_ ?_
      · intro k evs; rw [Model.read.eq_def]; simp only [hs, Simple.method]
      · intro e; rw [hv']; rfl
      · intro k e r; rw [Json.Reader.read]; simp only [hv']
      · rintro w' rfl; exact .refl _
    | @integer _ _ i t hs hi =>
      have hv' : rd.view s = .integer := by rw [hv, view_of ht hs]; rcases hi with rfl | rfl | rfl | rfl | rfl <;> rfl
      refine ⟨.write t.method s (.int i), by simp only [Model.memberCall, hs], ?_⟩
      refine scalar (w := .integer i) (wrap := ofVal) hrd hf (.value ht hs ?_) ?_ hv' (by rw [hv']; rfl) ?_ ?_ ?_ ?_
      · rcases hi with rfl | rfl | rfl | rfl | rfl <;> rfl
      · rcases hi with rfl | rfl | rfl | rfl | rfl <;> rfl
      · intro k evs; rw [Model.read.eq_def]; simp only [hs]
        rcases hi with rfl | rfl | rfl | rfl | rfl <;> rfl
      · intro e; rw [hv']; rcases hi with rfl | rfl | rfl | rfl | rfl <;> rfl
      · intro k e r; rw [Json.Reader.read]; simp only [hv']
      · rintro w' rfl; exact .refl _
    | @float _ _ x t hs hi hx =>
      have hv' : rd.view s = .float := by rw [hv, view_of ht hs]; rcases hi with rfl | rfl <;> rfl
      refine ⟨.write t.method s (.float x), by simp only [Model.memberCall, hs], ?_⟩
      refine scalar (w := .float x) (wrap := ofVal) hrd hf (.value ht hs ?_) ?_ ⟨hv', hx⟩ (by rw [hv']; rfl) ?_ ?_ ?_ ?_
      · rcases hi with rfl | rfl <;> rfl
      · rcases hi with rfl | rfl <;> rfl
      · intro k evs; rw [Model.read.eq_def]; simp only [hs]
        rcases hi with rfl | rfl <;> rfl
      · intro e; rw [hv']; rcases hi with rfl | rfl <;> rfl
      · intro k e r; rw [Json.Reader.read]; simp only [hv']
      · rintro w' rfl; exact .refl _
    | @decimal _ _ d hs h28 =>
      have hv' : rd.view s = .bigDecimal := by rw [hv, view_of ht hs]
      refine ⟨.write .bigDecimal s (.decimal (.finite d)), by simp only [Model.memberCall, hs, Simple.method], ?_⟩
      refine scalar (w := .bigDecimal (.finite d)) (wrap := ofVal) hrd hf (.value ht hs rfl) rfl ⟨hv', d, rfl, h28⟩
        (by rw [hv']; rfl) ?_ ?_ ?_ ?_
      · intro k evs; rw [Model.read.eq_def]; simp only [hs, Simple.method]
      · intro e; rw [hv']; rfl
      · intro k e r; rw [Json.Reader.read]; simp only [hv']
      · rintro w' ⟨d', rfl, h⟩; exact .decimal h
    | @string _ _ t hs =>
      have hv' : rd.view s = .string := by rw [hv, view_of ht hs]
      refine ⟨.write .string s (.str t), by simp only [Model.memberCall, hs, Simple.method], ?_⟩
      refine scalar (w := .string t) (wrap := ofVal) hrd hf (.value ht hs rfl) rfl hv' (by rw [hv']; rfl) ?_ ?_ ?_ ?_
      · intro k evs; rw [Model.read.eq_def]; simp only [hs, Simple.method]
      · intro e; rw [hv']; rfl
      · intro k e r; rw [Json.Reader.read]; simp only [hv']
      · rintro w' rfl; exact .refl _
    | @blob _ _ bs hs =>
      have hv' : rd.view s = .blob := by rw [hv, view_of ht hs]
      refine ⟨.write .blob s (.bytes bs), by simp only [Model.memberCall, hs, Simple.method], ?_⟩
      refine scalar (w := .blob bs) (wrap := ofVal) hrd hf (.value ht hs rfl) rfl hv' (by rw [hv']; rfl) ?_ ?_ ?_ ?_
      · intro k evs; rw [Model.read.eq_def]; simp only [hs, Simple.method]
      · intro e; rw [hv']; rfl
      · intro k e r; rw [Json.Reader.read]; simp only [hv']
      · rintro w' rfl; exact .refl _
    | @timestamp _ _ f t hs hr =>
      have hv' : rd.view s = .timestamp (m.format s) := by rw [hv, view_of ht hs]
      rw [← format_of ht hs] at hr
      refine ⟨.write .timestamp s (.time t), by simp only [Model.memberCall, hs], ?_⟩
      refine scalar (w := .timestamp t) (wrap := ofVal) hrd hf (.value ht hs rfl)
        (by simp only [Model.writeJson, Json.Reader.callOf, hv']) ⟨_, hv', hr⟩ (by rw [hv']; rfl) ?_ ?_ ?_ ?_
      · intro k evs; rw [Model.read.eq_def]; simp only [hs]
      · intro e; rw [hv']; rfl
      · intro k e r; rw [Json.Reader.read]; simp only [hv']
      · rintro w' rfl; exact .refl _
    | @document _ _ p hs hp =>
      exact ⟨.write .document s (.document p), by simp only [Model.memberCall, hs, Simple.method], document ht hs hp⟩
    | @enum _ _ t hs =>
      have hv' : rd.view s = .string := by rw [hv, view_of ht hs]
      refine ⟨.write .string s (.strEnum id t), by simp only [Model.memberCall, hs], ?_⟩
      refine scalar (w := .string t) (wrap := toEnum id) hrd hf (.value ht hs rfl) rfl hv' (by rw [hv']; rfl) ?_ ?_ ?_ ?_
      · intro k evs; rw [Model.read.eq_def]; simp only [hs]
      · intro e; rw [hv']; rfl
      · intro k e r; rw [Json.Reader.read]; simp only [hv']
      · rintro w' rfl; exact .refl _
    | @intEnum _ _ i hs =>
      have hv' : rd.view s = .integer := by rw [hv, view_of ht hs]
      refine ⟨.write .integer s (.intEnum id i), by simp only [Model.memberCall, hs], ?_⟩
      refine scalar (w := .integer i) (wrap := toIntEnum id) hrd hf (.value ht hs rfl) rfl hv' (by rw [hv']; rfl) ?_ ?_ ?_ ?_
      · intro k evs; rw [Model.read.eq_def]; simp only [hs]
      · intro e; rw [hv']; rfl
      · intro k e r; rw [Json.Reader.read]; simp only [hv']
      · rintro w' rfl; exact .refl _
    | @list _ _ sparse e xs hs hx =>
      have hsub : m.subschema s memberName = some (.member id memberName) := by
        simp only [Model.subschema, ht, hs, if_true]
      have htm : m.target (.member id memberName) = some e.target := by simp only [Model.target, hs, if_true]
      simp only [Py.depth] at hd
      obtain ⟨cs, jcs, h1, h2, h3, h4, h5⟩ := elements (m := m) (st := st) (rd := rd) (n := n) (sparse := sparse)
        (id := e.target) (s := .member id memberName) xs fun x hxm => by
          cases hx x hxm with
          | null => exact .inl ⟨rfl, rfl⟩
          | value h hne =>
            have := depth_mem xs x hxm
            exact .inr ⟨typed_notNone h, hne, core hm hf hview n _ _ x htm h (by omega)⟩
      refine ⟨.list s xs.length cs, by simp only [Model.memberCall, hs, hsub, h1], rfl, .list ht hs h2, .list jcs, ?_, h4, ?_⟩
      · simp only [Model.jsonCall, h3, Option.map_some]
      · rintro j ⟨js, rfl, hjs⟩
        refine ⟨(fun h => by cases h), ?_⟩
        intro p rest k _ hk
        simp only [Json.size] at hk
        obtain ⟨k, rfl⟩ : ∃ k', k = k' + 1 := ⟨k - 1, by omega⟩
        obtain ⟨ys, h6, h7⟩ := h5 js hjs [] p rest k (by omega)
        refine ⟨.list ys, ?_, .list h7⟩
        rw [Model.read.eq_def]
        simp only [hs, hsub, Json.events, List.cons_append, List.append_assoc, List.nil_append, if_true, h6]
    | @map _ _ sparse e es hs hnd hx =>
      have hsub : m.subschema s valueName = some (.member id valueName) := by
        simp only [Model.subschema, ht, hs, if_true]
      have htm : m.target (.member id valueName) = some e.target := by simp only [Model.target, hs, if_true]
      simp only [Py.depth] at hd
      obtain ⟨cs, jcs, h1, h2, h3, h4, h5⟩ := entries (m := m) (st := st) (rd := rd) (n := n) (sparse := sparse)
        (id := e.target) (s := .member id valueName) es fun x hxm => by
          have hdx := depth_entry es x hxm
          obtain ⟨key, x⟩ := x
          cases hx _ hxm with
          | null => exact .inl ⟨rfl, rfl⟩
          | value h hne =>
            exact .inr ⟨typed_notNone h, hne, core hm hf hview n _ _ x htm h (by simp only at hdx; omega)⟩
      refine ⟨.map s es.length ((es.map Prod.fst).zip cs), by simp only [Model.memberCall, hs, hsub, h1], rfl, .map ht hs h2,
        .map jcs, ?_, h4, ?_⟩
      · simp only [Model.jsonCall, h3, Option.map_some]
      · rintro j ⟨js, rfl, hjs⟩
        refine ⟨(fun h => by cases h), ?_⟩
        intro p rest k _ hk
        simp only [Json.size] at hk
        obtain ⟨k, rfl⟩ : ∃ k', k = k' + 1 := ⟨k - 1, by omega⟩
        obtain ⟨fs, h6, h7, h8⟩ := h5 js hjs [] p rest k (by omega) (by simpa using hnd)
        refine ⟨.dict fs, ?_, .dict h7 h8⟩
        rw [Model.read.eq_def]
        simp only [hs, hsub, Json.events, List.cons_append, List.append_assoc, List.nil_append, if_true, h6]
    | @object _ _ ms value hs hx =>
      have hms : m.members id = ms := by simp only [Model.members, hs]
      simp only [Py.depth] at hd
      have hlook : ∀ x ∈ ms, m.isStream x = false →
          ((m.attributes ms).map fun x => (x.attr, value x)).lookup x.attr = some (value x) := by
        intro x hxm hst
        refine lookup_field _ x (mem_attributes.2 ⟨hxm, hst⟩) fun y hy he => ?_
        exact attr_inj ms (hm.attrs id ms hs) x hxm y (mem_attributes.1 hy).1 he
      have hgood : ∀ x ∈ ms, m.isStream x = false → GoodField m st rd n id x (value x) := by
        intro x hxm hst
        have hxa := mem_attributes.2 ⟨hxm, hst⟩
        have hdx := depth_entry _ _ (List.mem_map_of_mem (f := fun x => (x.attr, value x)) hxa)
        have ha := hx x hxa
        simp only at hdx
        generalize value x = w at hdx ha ⊢
        cases ha with
        | absent hnull hdef =>
          refine .inl ⟨?_, ?_, ?_, rfl⟩
          · rcases hdef with hdef | ⟨hdef, hdoc⟩
            · simp [Model.mayBeNone, hnull, hdef]
            · unfold Model.mayBeNone
              split
              · rename_i h; exact absurd h hdoc
              · simp [hnull]
          · simp [isRequired, hnull]
          · rcases hdef with hdef | ⟨hdef, _⟩ <;> rw [hdef] <;> rfl
        | present h =>
          exact .inr ⟨typed_notNone h, core hm hf hview n _ _ w (target_member hm (hms ▸ hxm)) h (by omega)⟩
      obtain ⟨written, cs, jcs, h0, h1, h2, h3, h4, h5, h6⟩ := members (m := m) (st := st) (rd := rd) hm hf (n := n) (id := id)
        (fields := (m.attributes ms).map fun x => (x.attr, value x)) (value := value)
        (hms ▸ hm.attrs id ms hs) ms [] hms
        fun x hxm hst => ⟨hlook x hxm hst, hgood x hxm hst⟩
      refine ⟨.struct s cs, by simp only [Model.memberCall, hs, h2], rfl, ?_, .struct jcs, ?_, h5, ?_⟩
      · refine .object (value := value) ht hs h0 ?_ ?_ h3
        · intro x hxm
          rw [h1 x hxm]
          constructor
          · rintro ⟨h, h'⟩
            rw [hlook x hxm h]
            exact ⟨h, fun e => h' (Option.some.inj e)⟩
          · rintro ⟨h, h'⟩
            rw [hlook x hxm h] at h'
            exact ⟨h, fun e => h' (by rw [e])⟩
        · intro x hxw
          exact hlook x (h0.subset hxw) ((h1 x (h0.subset hxw)).1 hxw).1
      · simp only [Model.jsonCall, h4, Option.map_some]
      · rintro j ⟨js, rfl, hjs⟩
        refine ⟨(fun h => by cases h), ?_⟩
        intro p rest k _ hk
        simp only [Json.size] at hk
        obtain ⟨k, rfl⟩ : ∃ k', k = k' + 1 := ⟨k - 1, by omega⟩
        obtain ⟨kw, h7, h8, h9, h10⟩ := h6 js hjs [] p rest k (by omega) (by simp)
        obtain ⟨fs, h11, h12, h13⟩ := each_fields (value := value)
          (f := m.argument kw) (m.attributes ms) fun x hxa => by
            unfold Model.argument
            obtain ⟨hxm, hst⟩ := mem_attributes.1 hxa
            by_cases hw : x ∈ written
            · obtain ⟨v', h14, h15⟩ := h9 x hxm hw
              exact ⟨v', by simp only [h14], h15⟩
            · have hnone : value x = .none := by
                by_contra h
                exact hw ((h1 x hxm).2 ⟨hst, h⟩)
              rcases hgood x hxm hst with ⟨_, hreq, hdef, _⟩ | ⟨hn, _⟩
              · exact ⟨.none, by simp only [h10 x hxm hw, hreq, Bool.false_eq_true, if_false, hdef], hnone ▸ .refl _⟩
              · rw [hnone] at hn; cases hn
        refine ⟨.object id fs, ?_, .object h12 h13⟩
        rw [Model.read.eq_def]
        simp only [hs, Json.events, List.cons_append, List.append_assoc, List.nil_append, if_true, h7, Model.construct, h11]
    | @variant _ _ streaming ms i x w hs hi hw =>
      have hms : m.members id = ms := by simp only [Model.members, hs]
      have hmem : x ∈ m.members id := hms ▸ List.mem_of_getElem? hi
      simp only [Py.depth] at hd
      obtain ⟨c, hc, hcs, hcw, jc, hj, hn, hr⟩ := core hm hf hview n x.target (.member id x.name) w
        (target_member hm hmem) hw (by omega)
      refine ⟨.struct s [c], by simp only [Model.memberCall, hs, hms, hi, hc], rfl, .variant ht hs hi hcw,
        .struct [(⟨x.name, x.jsonName⟩, jc)], ?_, ⟨hn, trivial⟩, ?_⟩
      · simp only [Model.jsonCall, Model.jsonMembers, hcs, jsonMember_spec hm hmem, hj, Option.map_some]
      · rintro j ⟨js, rfl, j, js', rfl, hjm, rfl⟩
        refine ⟨(fun h => by cases h), ?_⟩
        intro p rest k _ hk
        simp only [Json.size, Json.memberSizes] at hk
        have hsz := Json.size_pos j
        obtain ⟨k, rfl⟩ : ∃ k', k = k' + 3 := ⟨k - 3, by omega⟩
        obtain ⟨hnl, hrd⟩ := hr j hjm
        obtain ⟨v', h7, h8⟩ := hrd (p ++ [Json.jsonKey st.useJsonName ⟨x.name, x.jsonName⟩])
          (⟨Json.join p, .endMap⟩ :: rest) (k + 1) (fun _ => by simp) (by omega)
        refine ⟨.variant id i v', ?_, .variant h8⟩
        obtain ⟨e, r, he, hen, _, _⟩ := Json.events_head (p ++ [Json.jsonKey st.useJsonName ⟨x.name, x.jsonName⟩]) j
        have hdoc : ¬ (e.ev = .null ∧ (m.view (.member id x.name)).isDocument = false) := by
          rintro ⟨h, hv⟩
          rw [view_of (target_member hm hmem) (hnl (hen.1 h)).2] at hv
          cases hv
        rw [Model.read.eq_def]
        simp only [hs, Json.events, Json.memberEvents, List.cons_append, List.append_assoc, List.nil_append, if_true]
        rw [he] at h7 ⊢
        simp only [List.cons_append] at h7 ⊢
        rw [Model.readVariant]
        simp only [reduceCtorEq, if_false, Json.readString, ← hf.names, resolve_member hm hmem, hdoc,
          findMember_spec _ i 0 x (hm.names id) (hms ▸ hi), h7, Option.isSome_none, Bool.false_eq_true, Nat.zero_add]
        rw [Model.readVariant]
        simp only [if_true]

end

end Verif.GeneratedSerde

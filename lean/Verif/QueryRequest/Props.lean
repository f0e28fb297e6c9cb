import Verif.QueryRequest.Model
import Verif.QueryAnswer.Props
import Verif.GeneratedSerde.Any

/-!
# What services get from callers of AWS Query operations (C133): theorems
-/

set_option autoImplicit false

namespace Verif.QueryRequest

open Verif.Json (Text Format Dec)
open Verif.Scalars.Strict (Num)
open Verif.Uri (Bytes asc)
open Verif.GeneratedSerde (Py Ref Model Shape Simple Member Method Err memberName valueName Same each)
open Verif.QueryAnswer (Own keyName NamesOk schemas_eq)
open Verif.Http.RestJson (utf8 utf8_inj)
open Verif.AwsQuery.RoundTrip (Structures Texts shows Readable StructuresOk C93_partial)

variable {F T : Type} {o : Own} {m : Model F T} {st : AwsQuery.Settings (Num F) (Num Dec) T} {tx : Texts (Num F) (Num Dec) T}

/-! ## The calls -/

theorem member_eq : memberName = "member".toList := by decide +kernel
theorem value_eq : valueName = "value".toList := by decide +kernel
theorem key_eq : keyName = "key".toList := by decide +kernel

theorem xmlName_eq (h : o.Apart m) (id : Nat) (n : Text) : xmlName o m (.member id n) = (nameOf o id n).xmlName := by
  simp only [xmlName, schemas_eq h, Own.modelled, nameOf]

theorem flattened_eq (s : Ref) : flattened o s = isFlat o s := by cases s <;> rfl

theorem memberXmlName_eq (h : o.Apart m) {s : Ref} {id : Nat} (ht : m.target s = some id) (n : Text) :
    memberXmlName o m s n = (nameOf o id n).xmlName := by
  simp only [memberXmlName, ht, Option.bind_some, xmlName_eq h]

theorem elements_ok {f : Py F T → Except Err (GeneratedSerde.Call F T)} : ∀ (xs : List (Py F T)) (cs : List (QCall F T)),
    xs.length = cs.length →
    (∀ (i : Nat) x c, xs[i]? = some x → cs[i]? = some c → ∃ call, f x = .ok call ∧ queryCall o m call = some c) →
    ∃ calls, each f xs = .ok calls ∧ queryElements o m calls = some cs
  | [], [], _, _ => ⟨[], rfl, rfl⟩
  | [], _ :: _, h, _ => by simp at h
  | _ :: _, [], h, _ => by simp at h
  | x :: xs, c :: cs, hl, h => by
    obtain ⟨call, h1, h2⟩ := h 0 x c rfl rfl
    obtain ⟨calls, h3, h4⟩ := elements_ok xs cs (by simpa using hl) fun i x' c' hx hc =>
      h (i + 1) x' c' (by simpa using hx) (by simpa using hc)
    exact ⟨call :: calls, by simp only [each, h1, h3], by simp only [queryElements, h2, h4]⟩

theorem entries_ok {f : Py F T → Except Err (GeneratedSerde.Call F T)} : ∀ (xs : List (Text × Py F T)) (cs : List (Bytes × QCall F T)),
    xs.map (fun x => utf8 x.1) = cs.map Prod.fst →
    (∀ (i : Nat) x c, xs[i]? = some x → cs[i]? = some c → ∃ call, f x.2 = .ok call ∧ queryCall o m call = some c.2) →
    ∃ calls, each f (xs.map (·.2)) = .ok calls ∧ queryEntries o m ((xs.map (·.1)).zip calls) = some cs
  | [], [], _, _ => ⟨[], rfl, rfl⟩
  | [], _ :: _, h, _ => by simp at h
  | _ :: _, [], h, _ => by simp at h
  | (k, x) :: xs, (k', c) :: cs, hl, h => by
    obtain ⟨call, h1, h2⟩ := h 0 _ _ rfl rfl
    simp only [List.map_cons, List.cons.injEq] at hl
    obtain ⟨calls, h3, h4⟩ := entries_ok xs cs hl.2 fun i x' c' hx hc =>
      h (i + 1) x' c' (by simpa using hx) (by simpa using hc)
    refine ⟨call :: calls, by simp only [List.map_cons, each, h1, h3], ?_⟩
    simp only at h2
    simp only [List.map_cons, List.zip_cons_cons, queryEntries, h2, h4, hl.1]

theorem fields_ok {id : Nat} {fields : List (Text × Py F T)} {value : Member F T → Py F T} {written : Member F T → Option (QCall F T)}
    {f : Member F T → Py F T → Except Err (GeneratedSerde.Call F T)} (ho : o.Apart m) : ∀ ms : List (Member F T),
    (∀ x ∈ ms, m.isStream x = false) → (∀ x ∈ ms, fields.lookup x.attr = some (value x)) →
    (∀ x ∈ ms, ∀ c, written x = some c → (value x).isNone = false ∧
      ∃ call, f x (value x) = .ok call ∧ queryCall o m call = some c ∧ call.schema = .member id x.name) →
    (∀ x ∈ ms, written x = none → (m.mayBeNone x && (value x).isNone) = true) →
    ∃ calls, m.fieldCalls f fields ms = .ok calls ∧
      queryMembers o m calls = some (ms.filterMap fun x => (written x).map fun c => (nameOf o id x.name, c))
  | [], _, _, _, _ => ⟨[], rfl, rfl⟩
  | x :: ms, h1, h2, h3, h4 => by
    obtain ⟨calls, h5, h6⟩ := fields_ok (id := id) (f := f) ho ms (fun y hy => h1 y (List.mem_cons_of_mem _ hy))
      (fun y hy => h2 y (List.mem_cons_of_mem _ hy)) (fun y hy => h3 y (List.mem_cons_of_mem _ hy))
      fun y hy => h4 y (List.mem_cons_of_mem _ hy)
    have hs := h1 x List.mem_cons_self
    have hl := h2 x List.mem_cons_self
    cases hw : written x with
    | none =>
      have := h4 x List.mem_cons_self hw
      refine ⟨calls, ?_, ?_⟩
      · simp only [Model.fieldCalls, hs, hl, this, Bool.false_eq_true, if_false, if_true, h5]
      · rw [h6, List.filterMap_cons, hw]; rfl
    | some c =>
      obtain ⟨hv, call, h7, h8, h9⟩ := h3 x List.mem_cons_self c hw
      refine ⟨call :: calls, ?_, ?_⟩
      · simp only [Model.fieldCalls, hs, hl, hv, Bool.and_false, Bool.false_eq_true, if_false, h7, h5]
      · rw [List.filterMap_cons, hw]
        simp only [queryMembers, h9, queryMember, h8, h6, xmlName_eq ho]
        rfl

theorem says_notNone {id : Nat} {s : Ref} {v : Py F T} {c : QCall F T} (h : Says o m st tx id s v c) : v.isNone = false := by
  cases h <;> rfl

theorem says_notNull {id : Nat} {s : Ref} {v : Py F T} {c : QCall F T} (h : Says o m st tx id s v c) : c ≠ .null := by
  cases h <;> exact fun h => nomatch h

theorem calls_ok (hm : NamesOk m) (ho : o.Apart m) {id : Nat} {s : Ref} {v : Py F T} {c : QCall F T} (h : Says o m st tx id s v c) :
    ∀ n, v.depth ≤ n → m.target s = some id →
    ∃ call, m.memberCall n id s v = .ok call ∧ queryCall o m call = some c ∧ call.schema = s := by
  induction h with
  | boolean hs | intEnum hs | decimal hs _ | string hs | enum hs | blob hs =>
    intro n hn _
    obtain ⟨n, rfl⟩ : ∃ k, n = k + 1 := ⟨n - 1, by simp only [Py.depth] at hn; omega⟩
    exact ⟨_, by simp only [Model.memberCall, hs]; rfl, rfl, rfl⟩
  | timestamp hs _ =>
    intro n hn _
    obtain ⟨n, rfl⟩ : ∃ k, n = k + 1 := ⟨n - 1, by simp only [Py.depth] at hn; omega⟩
    exact ⟨_, by simp only [Model.memberCall, hs]; rfl, rfl, rfl⟩
  | integer hs ht =>
    intro n hn _
    obtain ⟨n, rfl⟩ : ∃ k, n = k + 1 := ⟨n - 1, by simp only [Py.depth] at hn; omega⟩
    refine ⟨_, by simp only [Model.memberCall, hs]; rfl, ?_, rfl⟩
    rcases ht with rfl | rfl | rfl | rfl | rfl <;> rfl
  | float hs ht _ =>
    intro n hn _
    obtain ⟨n, rfl⟩ : ∃ k, n = k + 1 := ⟨n - 1, by simp only [Py.depth] at hn; omega⟩
    refine ⟨_, by simp only [Model.memberCall, hs]; rfl, ?_, rfl⟩
    rcases ht with rfl | rfl <;> rfl
  | @list id s sparse e xs cs hs hl hsay hsh ih =>
    intro n hn ht
    obtain ⟨n, rfl⟩ : ∃ k, n = k + 1 := ⟨n - 1, by simp only [Py.depth] at hn; omega⟩
    have hte : m.target (.member id memberName) = some e.target := by simp only [Model.target, hs, if_true]
    have hsub : m.subschema s memberName = some (.member id memberName) := by
      simp only [Model.subschema, ht, hs, if_true]
    obtain ⟨calls, h1, h2⟩ := elements_ok (o := o) (m := m)
      (f := fun x => if sparse && x.isNone then .ok (.null (.member id memberName)) else
        m.memberCall n e.target (.member id memberName) x) xs cs hl fun i x c hx hc => by
          obtain ⟨call, h1, h2, -⟩ := ih i x c hx hc n (by
            have := GeneratedSerde.depth_mem xs x (List.mem_of_getElem? hx)
            simp only [Py.depth] at hn
            omega) (by rw [← member_eq]; exact hte)
          refine ⟨call, ?_, h2⟩
          simp only [says_notNone (hsay i x c hx hc), Bool.and_false, Bool.false_eq_true, if_false]
          rw [member_eq]; exact h1
    refine ⟨.list s xs.length calls, ?_, ?_, rfl⟩
    · simp only [Model.memberCall, hs, hsub, h1]
    · simp only [queryCall, h2, Option.map_some, flattened_eq, memberXmlName_eq ho ht, member_eq]
  | @map id s sparse e xs cs hs hl hnull hsay hsh ih =>
    intro n hn ht
    obtain ⟨n, rfl⟩ : ∃ k, n = k + 1 := ⟨n - 1, by simp only [Py.depth] at hn; omega⟩
    have hte : m.target (.member id valueName) = some e.target := by simp only [Model.target, hs, if_true]
    have hsub : m.subschema s valueName = some (.member id valueName) := by
      simp only [Model.subschema, ht, hs, if_true]
    obtain ⟨calls, h1, h2⟩ := entries_ok (o := o) (m := m)
      (f := fun x => if sparse && x.isNone then .ok (.null (.member id valueName)) else
        m.memberCall n e.target (.member id valueName) x) xs cs hl fun i x c hx hc => by
          by_cases hc0 : c.2 = .null
          · obtain ⟨h1, h2⟩ := hnull i x c hx hc hc0
            refine ⟨.null (.member id valueName), ?_, ?_⟩
            · rw [h1, h2]; rfl
            · rw [hc0]; rfl
          · obtain ⟨call, h1, h2, -⟩ := ih i x c hx hc hc0 n (by
              have := GeneratedSerde.depth_entry xs x (List.mem_of_getElem? hx)
              simp only [Py.depth] at hn
              omega) (by rw [← value_eq]; exact hte)
            refine ⟨call, ?_, h2⟩
            simp only [says_notNone (hsay i x c hx hc hc0), Bool.and_false, Bool.false_eq_true, if_false]
            rw [value_eq]; exact h1
    refine ⟨.map s xs.length ((xs.map (·.1)).zip calls), ?_, ?_, rfl⟩
    · simp only [Model.memberCall, hs, hsub, h1]
    · simp only [queryCall, h2, Option.map_some, flattened_eq, memberXmlName_eq ho ht, key_eq, value_eq]
  | @object id s ms value written hs hstream hsay hsh hnone ih =>
    intro n hn ht
    obtain ⟨n, rfl⟩ : ∃ k, n = k + 1 := ⟨n - 1, by simp only [Py.depth] at hn; omega⟩
    have hmem : m.members id = ms := by simp only [Model.members, hs]
    have hl : ∀ x ∈ ms, ((m.attributes ms).map fun x => (x.attr, value x)).lookup x.attr = some (value x) := by
      intro x hx
      refine GeneratedSerde.lookup_field _ x (GeneratedSerde.mem_attributes.2 ⟨hx, hstream x hx⟩) fun y hy he => ?_
      exact GeneratedSerde.attr_inj ms (hm.attrs id ms hs) x hx y (GeneratedSerde.mem_attributes.1 hy).1 he
    obtain ⟨calls, h1, h2⟩ := fields_ok (id := id) (f := fun x w => m.memberCall n x.target (.member id x.name) w) ho ms hstream hl
      (written := written) (fun x hx c hc => by
        refine ⟨says_notNone (hsay x hx c hc), ih x hx c hc n ?_ ?_⟩
        · have := GeneratedSerde.depth_entry ((m.attributes ms).map fun x => (x.attr, value x)) (x.attr, value x)
            (List.mem_map.2 ⟨x, GeneratedSerde.mem_attributes.2 ⟨hx, hstream x hx⟩, rfl⟩)
          simp only [Py.depth] at hn
          simp only at this
          omega
        · exact QueryAnswer.target_mem hm (by rw [hmem]; exact hx)) fun x hx hw => by
          obtain ⟨h1, h2, h3⟩ := hnone x hx hw
          rw [h1]
          unfold Model.mayBeNone
          rw [h2]
          rcases h3 with h3 | h3
          · rw [h3]; simp [Py.isNone]
          · cases hsh : m.shape x.target with
            | none => rfl
            | some sh =>
              cases sh with
              | simple t => cases t <;> first | rfl | exact absurd hsh h3
              | _ => rfl
    refine ⟨.struct s calls, ?_, ?_, rfl⟩
    · simp only [Model.memberCall, hs, h1]
    · simp only [queryCall, h2, Option.map_some]
  | @variant id s streaming ms i x v c hs hx hsay hsh ih =>
    intro n hn ht
    obtain ⟨n, rfl⟩ : ∃ k, n = k + 1 := ⟨n - 1, by simp only [Py.depth] at hn; omega⟩
    have hmem : m.members id = ms := by simp only [Model.members, hs]
    obtain ⟨call, h1, h2, h3⟩ := ih n (by simp only [Py.depth] at hn; omega)
      (QueryAnswer.target_mem hm (by rw [hmem]; exact List.mem_of_getElem? hx))
    refine ⟨.struct s [call], ?_, ?_, rfl⟩
    · simp only [Model.memberCall, hs, hmem, hx, h1]
    · simp only [queryCall, queryMembers, h3, queryMember, h2, xmlName_eq ho, Option.map_some]
      rfl

/-! ## What the service reads -/

theorem describes_mem {structures : Structures Nat} (hd : Describes o m structures) {id : Nat} {x : Member F T} (hx : x ∈ m.members id) :
    ∃ y ∈ structures id, y.1 = nameOf o id x.name ∧ ShapeFor o m (.member id x.name) y.2 := by
  have := hd id
  generalize m.members id = ms at *
  generalize structures id = ys at *
  induction this with
  | nil => cases hx
  | @cons a b as bs h1 _ ih =>
    rcases List.mem_cons.1 hx with rfl | hx
    · exact ⟨b, List.mem_cons_self, h1⟩
    · obtain ⟨y, hy, h⟩ := ih hx
      exact ⟨y, List.mem_cons_of_mem _ hy, h⟩

theorem describes_map {structures : Structures Nat} (hd : Describes o m structures) (id : Nat) :
    (structures id).map Prod.fst = (m.members id).map fun x => nameOf o id x.name := by
  have := hd id
  generalize m.members id = ms at *
  generalize structures id = ys at *
  induction this with
  | nil => rfl
  | cons h1 _ ih => rw [List.map_cons, List.map_cons, ih, h1.1]

/-- The shape of a member. -/
def shapeOf (structures : Structures Nat) (id : Nat) (x : AwsQuery.Member) : AwsQuery.RoundTrip.Shape Nat :=
  ((structures id).lookup x).getD .boolean

theorem lookup_mem {A B : Type} [BEq A] [LawfulBEq A] : ∀ (es : List (A × B)), (es.map Prod.fst).Nodup → ∀ e ∈ es, es.lookup e.1 = some e.2
  | [], _, e, h => by cases h
  | (k, v) :: es, hn, e, h => by
    simp only [List.map_cons, List.nodup_cons] at hn
    rw [List.lookup_cons]
    rcases List.mem_cons.1 h with rfl | h
    · simp
    · have : e.1 ≠ k := fun he => hn.1 (he ▸ List.mem_map_of_mem h)
      rw [beq_eq_false_iff_ne.2 this]
      exact lookup_mem es hn.2 e h

theorem shapeOf_eq {structures : Structures Nat} (hok : StructuresOk structures) {id : Nat} {y : AwsQuery.Member × AwsQuery.RoundTrip.Shape Nat}
    (hy : y ∈ structures id) : shapeOf structures id y.1 = y.2 := by
  have hn : ((structures id).map Prod.fst).Nodup := by
    have : (((structures id).map Prod.fst).map fun x : AwsQuery.Member => AwsQuery.named x.xmlName x.name).Nodup := by
      rw [List.map_map]; exact (hok id).1
    exact List.Nodup.of_map _ this
  unfold shapeOf
  rw [lookup_mem _ hn y hy]
  rfl

theorem shapeFor_inv {s : Ref} {t : AwsQuery.RoundTrip.Shape Nat} (h : ShapeFor o m s t) {id : Nat} {sh : Shape F T}
    (ht : m.target s = some id) (hs : m.shape id = some sh) :
    match sh with
    | .simple .boolean => t = .boolean
    | .simple .byte | .simple .short | .simple .integer | .simple .long | .simple .bigInteger | .intEnum => t = .integer
    | .simple .float | .simple .double => t = .float
    | .simple .bigDecimal => t = .bigDecimal
    | .simple .string | .enum => t = .string
    | .simple .blob => t = .blob
    | .simple .document | .stream => False
    | .timestamp _ => t = .timestamp (m.format s)
    | .list _ _ => ∃ t', ShapeFor o m (.member id "member".toList) t' ∧
        t = .list (isFlat o s) (nameOf o id "member".toList).xmlName t'
    | .map _ _ => ∃ t', ShapeFor o m (.member id "value".toList) t' ∧
        t = .map (isFlat o s) (nameOf o id "key".toList).xmlName (nameOf o id "value".toList).xmlName t'
    | .struct _ | .union _ _ => t = .struct id := by
  cases h with
  | boolean h1 h2 | intEnum h1 h2 | decimal h1 h2 | string h1 h2 | enum h1 h2 | blob h1 h2 | timestamp h1 h2 | struct h1 h2 | union h1 h2 =>
    rw [h1] at ht; cases ht; rw [h2] at hs; cases hs; rfl
  | integer h1 h2 h3 =>
    rw [h1] at ht; cases ht; rw [h2] at hs; cases hs
    rcases h3 with rfl | rfl | rfl | rfl | rfl <;> rfl
  | float h1 h2 h3 =>
    rw [h1] at ht; cases ht; rw [h2] at hs; cases hs
    rcases h3 with rfl | rfl <;> rfl
  | list h1 h2 h3 | map h1 h2 h3 => rw [h1] at ht; cases ht; rw [h2] at hs; cases hs; exact ⟨_, h3, rfl⟩

theorem readable (hm : NamesOk m) {structures : Structures Nat} (hd : Describes o m structures) (hok : StructuresOk structures)
    {id : Nat} {s : Ref} {v : Py F T} {c : QCall F T} (h : Says o m st tx id s v c) : ∀ t, ShapeFor o m s t → m.target s = some id →
    Readable st tx structures t c := by
  have struct : ∀ (id : Nat) (es : List (AwsQuery.Member × QCall F T)),
      (es.map Prod.fst).Sublist ((m.members id).map fun x => nameOf o id x.name) →
      (∀ e ∈ es, ∃ x ∈ m.members id, e.1 = nameOf o id x.name ∧ shows e.2 = true ∧
        ∀ t, ShapeFor o m (.member id x.name) t → m.target (.member id x.name) = some x.target → Readable st tx structures t e.2) →
      Readable st tx structures (.struct id) (.struct es) := by
    intro id es hsub h
    refine .struct (shapeOf structures id) ?_ ?_ ?_ ?_
    · rw [describes_map hd id]; exact hsub
    all_goals
      intro x c hx
      obtain ⟨y, hy, h1, h2, h3⟩ := h _ hx
      obtain ⟨z, hz, h4, h5⟩ := describes_mem hd hy
      have h6 : shapeOf structures id x = z.2 := by rw [← shapeOf_eq hok hz, h4, ← h1]
    · rw [h6]
      have : x = z.1 := by rw [h4]; exact h1
      rw [this]; exact hz
    · exact h2
    · rw [h6]
      exact h3 z.2 h5 (QueryAnswer.target_mem hm hy)
  induction h with
  | boolean hs => intro t ht htg; cases shapeFor_inv ht htg hs; exact .boolean _
  | intEnum hs => intro t ht htg; cases shapeFor_inv ht htg hs; exact .integer _
  | string hs => intro t ht htg; cases shapeFor_inv ht htg hs; exact .string _
  | enum hs => intro t ht htg; cases shapeFor_inv ht htg hs; exact .string _
  | blob hs => intro t ht htg; cases shapeFor_inv ht htg hs; exact .blob _
  | decimal hs hx => intro t ht htg; cases shapeFor_inv ht htg hs; exact .bigDecimal _ hx
  | timestamp hs hx => intro t ht htg; cases shapeFor_inv ht htg hs; exact .timestamp _ _ hx
  | integer hs h =>
    intro t ht htg
    have := shapeFor_inv ht htg hs
    rcases h with rfl | rfl | rfl | rfl | rfl <;> cases this <;> exact .integer _
  | float hs h hx =>
    intro t ht htg
    have := shapeFor_inv ht htg hs
    rcases h with rfl | rfl <;> cases this <;> exact .float _ hx
  | @list id s sparse e xs cs hs hl hsay hsh ih =>
    intro t ht htg
    obtain ⟨t', h1, rfl⟩ := shapeFor_inv ht htg hs
    have hte : m.target (.member id "member".toList) = some e.target := by
      rw [← member_eq]; simp only [Model.target, hs, if_true]
    refine .list hsh fun c hc => ?_
    obtain ⟨i, hi⟩ := List.getElem?_of_mem hc
    have hx : i < xs.length := by rw [hl]; exact (List.getElem?_eq_some_iff.1 hi).1
    exact ih i xs[i] c (List.getElem?_eq_getElem hx) hi t' h1 hte
  | @map id s sparse e xs cs hs hl hnull hsay hsh ih =>
    intro t ht htg
    obtain ⟨t', h1, rfl⟩ := shapeFor_inv ht htg hs
    have hte : m.target (.member id "value".toList) = some e.target := by
      rw [← value_eq]; simp only [Model.target, hs, if_true]
    refine .map (fun k c hc hn => hsh _ hc hn) fun k c hc hn => ?_
    obtain ⟨i, hi⟩ := List.getElem?_of_mem hc
    have hx : i < xs.length := by
      have := congrArg List.length hl
      simp only [List.length_map] at this
      rw [this]; exact (List.getElem?_eq_some_iff.1 hi).1
    exact ih i xs[i] (k, c) (List.getElem?_eq_getElem hx) hi hn t' h1 hte
  | @object id s ms value written hs hstream hsay hsh hnone ih =>
    intro t ht htg
    cases shapeFor_inv ht htg hs
    have hmem : m.members id = ms := by simp only [Model.members, hs]
    refine struct id _ ?_ ?_
    · rw [hmem]
      have : ∀ l : List (Member F T), ((l.filterMap fun x => (written x).map fun c => (nameOf o id x.name, c)).map Prod.fst).Sublist
          (l.map fun x => nameOf o id x.name) := by
        intro l
        induction l with
        | nil => exact .slnil
        | cons x l ihl =>
          cases hw : written x with
          | none => rw [List.filterMap_cons, hw]; exact .cons _ ihl
          | some c => rw [List.filterMap_cons, hw]; exact .cons_cons _ ihl
      exact this ms
    · intro e he
      obtain ⟨x, hx, hw⟩ := List.mem_filterMap.1 he
      obtain ⟨c, hc, rfl⟩ := Option.map_eq_some_iff.1 hw
      exact ⟨x, by rw [hmem]; exact hx, rfl, hsh x hx c hc, ih x hx c hc⟩
  | @variant id s streaming ms i x v c hs hx hsay hsh ih =>
    intro t ht htg
    cases shapeFor_inv ht htg hs
    have hmem : m.members id = ms := by simp only [Model.members, hs]
    have hx' : x ∈ m.members id := by rw [hmem]; exact List.mem_of_getElem? hx
    refine struct id _ ?_ ?_
    · exact List.singleton_sublist.2 (List.mem_map.2 ⟨x, hx', rfl⟩)
    · intro e he
      cases List.mem_singleton.1 he
      exact ⟨x, hx', rfl, hsh, ih⟩

/-! ## Theorems -/

/-- **C133**: a service that reads the parameters of the request by name, in whatever order they come, gets the action, the version and
the input that the caller gave, a structure of any depth. -/
theorem C133_partial (hm : NamesOk m) (ho : o.Apart m) {structures : Structures Nat} (hd : Describes o m structures)
    (hok : StructuresOk structures) {cls : Nat} {ms : List (Member F T)} (hs : m.shape cls = some (.struct ms))
    (hr : ∀ x ∈ structures cls, AwsQuery.named x.1.xmlName x.1.name ≠ asc "Action" ∧ AwsQuery.named x.1.xmlName x.1.name ≠ asc "Version")
    (operation version : Text) {v : Py F T} {c : QCall F T} (hv : Says o m st tx cls (.shape cls) v c) {n : Nat} (hn : v.depth ≤ n) :
    ∃ (req : AwsQuery.Request) (k : Nat), request o m st n operation version v = .ok req ∧
      ∀ depth, k ≤ depth → ∀ pairs, pairs.Perm (Uri.parseQuery req.body) →
        AwsQuery.RoundTrip.service tx st.defaultFormat structures depth cls pairs = some (utf8 operation, utf8 version, c) := by
  obtain ⟨call, h1, h2, -⟩ := calls_ok hm ho hv n hn rfl
  obtain ⟨req, k, h3, h4⟩ := C93_partial st tx structures hok cls hr (utf8 operation) (utf8 version) c
    (readable hm hd hok hv _ (.struct rfl hs) rfl)
  refine ⟨req, k, ?_, h4⟩
  have : m.serialize n v = .ok call := by
    rw [← h1]
    cases hv <;> first | rfl | (rename_i h; rw [hs] at h; cases h) | (rename_i h _; rw [hs] at h; cases h) |
      (rename_i h _ _; rw [hs] at h; cases h) | (rename_i h _ _ _; rw [hs] at h; cases h) | (rename_i h _ _ _ _; rw [hs] at h; cases h)
  simp only [request, this, h2, h3]

theorem filterMap_inj {A B : Type} {k : A → B} {C : Type} : ∀ (l : List A), (l.map k).Nodup → ∀ f g : A → Option C,
    (l.filterMap fun x => (f x).map fun c => (k x, c)) = (l.filterMap fun x => (g x).map fun c => (k x, c)) → ∀ x ∈ l, f x = g x
  | [], _, _, _, _, x, hx => by cases hx
  | y :: l, hn, f, g, h, x, hx => by
    simp only [List.map_cons, List.nodup_cons] at hn
    have no : ∀ (f : A → Option C) (c : C), (k y, c) ∉ l.filterMap fun x => (f x).map fun c => (k x, c) := by
      intro f c hc
      obtain ⟨z, hz, hw⟩ := List.mem_filterMap.1 hc
      obtain ⟨d, -, he⟩ := Option.map_eq_some_iff.1 hw
      exact hn.1 ((Prod.mk.inj he).1 ▸ List.mem_map_of_mem hz)
    simp only [List.filterMap_cons] at h
    have key : f y = g y ∧ (l.filterMap fun x => (f x).map fun c => (k x, c)) = (l.filterMap fun x => (g x).map fun c => (k x, c)) := by
      cases hf : f y with
      | none =>
        cases hg : g y with
        | none => rw [hf, hg] at h; exact ⟨rfl, h⟩
        | some c =>
          rw [hf, hg] at h
          simp only [Option.map_none, Option.map_some] at h
          exact absurd (h ▸ List.mem_cons_self) (no f c)
      | some c =>
        cases hg : g y with
        | none =>
          rw [hf, hg] at h
          simp only [Option.map_none, Option.map_some] at h
          exact absurd (h ▸ List.mem_cons_self) (no g c)
        | some d =>
          rw [hf, hg] at h
          simp only [Option.map_some, List.cons.injEq, Prod.mk.injEq, true_and] at h
          exact ⟨by rw [h.1], h.2⟩
    rcases List.mem_cons.1 hx with rfl | hx
    · exact key.1
    · exact filterMap_inj l hn.2 f g key.2 x hx

theorem map_utf8 {A B : Type} : ∀ (xs : List (Text × A)) (ys : List (Text × B)), (xs.map fun x => utf8 x.1) = (ys.map fun y => utf8 y.1) →
    xs.map Prod.fst = ys.map Prod.fst
  | [], [], _ => rfl
  | [], _ :: _, h => by simp at h
  | _ :: _, [], h => by simp at h
  | x :: xs, y :: ys, h => by
    simp only [List.map_cons, List.cons.injEq] at h ⊢
    exact ⟨utf8_inj h.1, map_utf8 xs ys h.2⟩

/-- What the service gets says what the value is. -/
theorem says_inj (hm : NamesOk m) {id : Nat} {s : Ref} {v : Py F T} {c : QCall F T} (h : Says o m st tx id s v c) :
    ∀ v', Says o m st tx id s v' c → v = v' := by
  induction h with
  | boolean hs =>
    intro v' h
    cases h; rfl
  | integer hs ht =>
    intro v' h
    cases h with
    | integer => rfl
    | intEnum h => rw [hs] at h; cases h
  | intEnum hs =>
    intro v' h
    cases h with
    | integer h => rw [hs] at h; cases h
    | intEnum => rfl
  | float | decimal | blob | timestamp => intro v' h; cases h; rfl
  | string hs =>
    intro v' h
    generalize he : utf8 _ = u at h
    cases h with
    | string => rw [utf8_inj he]
    | enum h => rw [hs] at h; cases h
  | enum hs =>
    intro v' h
    generalize he : utf8 _ = u at h
    cases h with
    | string h => rw [hs] at h; cases h
    | enum => rw [utf8_inj he]
  | @list id s sparse e xs cs hs hl hsay hsh ih =>
    intro v' h
    cases h with
    | @list _ _ sparse' e' xs' _ hs' hl' hsay' _ =>
      rw [hs] at hs'; cases hs'
      refine congrArg _ (List.ext_getElem (hl.trans hl'.symm) fun i h1 h2 => ?_)
      have h3 : i < cs.length := by omega
      exact ih i xs[i] cs[i] (List.getElem?_eq_getElem h1) (List.getElem?_eq_getElem h3) _
        (hsay' i xs'[i] cs[i] (List.getElem?_eq_getElem h2) (List.getElem?_eq_getElem h3))
  | @map id s sparse e xs cs hs hl hnull hsay hsh ih =>
    intro v' h
    cases h with
    | @map _ _ sparse' e' xs' _ hs' hl' hnull' hsay' _ =>
      rw [hs] at hs'; cases hs'
      have hk := map_utf8 _ _ (hl.trans hl'.symm)
      have hlen : xs.length = xs'.length := by simpa using congrArg List.length hk
      have hlen' : xs.length = cs.length := by simpa using congrArg List.length hl
      refine congrArg _ (List.ext_getElem hlen fun i h1 h2 => ?_)
      have h3 : i < cs.length := by omega
      refine Prod.ext ?_ ?_
      · have := congrArg (fun l => l[i]?) hk
        simpa [List.getElem?_eq_getElem h1, List.getElem?_eq_getElem h2] using this
      · by_cases hc : cs[i].2 = .null
        · rw [(hnull i xs[i] cs[i] (List.getElem?_eq_getElem h1) (List.getElem?_eq_getElem h3) hc).2,
            (hnull' i xs'[i] cs[i] (List.getElem?_eq_getElem h2) (List.getElem?_eq_getElem h3) hc).2]
        · exact ih i xs[i] cs[i] (List.getElem?_eq_getElem h1) (List.getElem?_eq_getElem h3) hc _
            (hsay' i xs'[i] cs[i] (List.getElem?_eq_getElem h2) (List.getElem?_eq_getElem h3) hc)
  | @object id s ms value written hs hstream hsay hsh hnone ih =>
    intro v' h
    have hmem : m.members id = ms := by simp only [Model.members, hs]
    generalize he : (ms.filterMap fun x => (written x).map fun c => (nameOf o id x.name, c)) = es at h
    cases h with
    | @object _ _ ms' value' written' hs' _ hsay' _ hnone' =>
      rw [hs] at hs'; cases hs'
      have hn : (ms.map fun x => nameOf o id x.name).Nodup := by
        have h1 := hm.names id
        rw [hmem] at h1
        refine List.Nodup.map_on ?_ (List.Nodup.of_map _ h1)
        intro x hx y hy hxy
        exact GeneratedSerde.name_inj ms h1 y hy x hx (utf8_inj (congrArg AwsQuery.Member.name hxy))
      have hw := filterMap_inj ms hn written written' he
      refine congrArg _ (List.map_congr_left fun x hx => Prod.ext rfl ?_)
      have hx := (GeneratedSerde.mem_attributes.1 hx).1
      cases hwx : written x with
      | none =>
        show value x = value' x
        rw [(hnone x hx hwx).1, (hnone' x hx (by rw [← hw x hx]; exact hwx)).1]
      | some c => exact ih x hx c hwx _ (hsay' x hx c (by rw [← hw x hx]; exact hwx))
    | variant h => rw [hs] at h; cases h
  | @variant id s streaming ms i x v c hs hx hsay hsh ih =>
    intro v' h
    have hmem : m.members id = ms := by simp only [Model.members, hs]
    generalize he : [(nameOf o id x.name, c)] = es at h
    cases h with
    | object h => rw [hs] at h; cases h
    | @variant _ _ _ ms' j y w d hs' hy hsay' _ =>
      rw [hs] at hs'; cases hs'
      simp only [List.cons.injEq, Prod.mk.injEq, and_true] at he
      obtain ⟨he, rfl⟩ := he
      have h1 := hm.names id
      rw [hmem] at h1
      obtain ⟨hi, rfl⟩ := List.getElem?_eq_some_iff.1 hx
      obtain ⟨hj, rfl⟩ := List.getElem?_eq_some_iff.1 hy
      have : i = j := by
        refine (List.Nodup.getElem_inj_iff h1 (hi := by simpa using hi) (hj := by simpa using hj)).1 ?_
        simpa using utf8_inj (congrArg AwsQuery.Member.name he)
      subst this
      rw [ih _ hsay']

/-- **C133**, different inputs: inputs that are written as the same request are equal. -/
theorem C133_different_partial (hm : NamesOk m) (ho : o.Apart m) {structures : Structures Nat} (hd : Describes o m structures)
    (hok : StructuresOk structures) {cls : Nat} {ms : List (Member F T)} (hs : m.shape cls = some (.struct ms))
    (hr : ∀ x ∈ structures cls, AwsQuery.named x.1.xmlName x.1.name ≠ asc "Action" ∧ AwsQuery.named x.1.xmlName x.1.name ≠ asc "Version")
    (operation version : Text) {v v' : Py F T} {c c' : QCall F T} (hv : Says o m st tx cls (.shape cls) v c)
    (hv' : Says o m st tx cls (.shape cls) v' c') {n : Nat} (hn : v.depth ≤ n) (hn' : v'.depth ≤ n)
    (h : request o m st n operation version v = request o m st n operation version v') : v = v' := by
  obtain ⟨r, k, h1, h2⟩ := C133_partial hm ho hd hok hs hr operation version hv hn
  obtain ⟨r', k', h3, h4⟩ := C133_partial hm ho hd hok hs hr operation version hv' hn'
  rw [h1, h3] at h
  cases h
  have h5 := h2 (max k k') (by omega) _ (.refl _)
  rw [h4 (max k k') (by omega) _ (.refl _)] at h5
  simp only [Option.some.injEq, Prod.mk.injEq, true_and] at h5
  subst h5
  exact says_inj hm hv v' hv'

end Verif.QueryRequest

import Verif.RestJson.Url
import Verif.RestJson.Props

/-!
# The input of an operation, from the caller to the request: theorems (C130)
-/

set_option autoImplicit false

namespace Verif.RestJson

open Verif.GeneratedSerde (Py Ref Model Shape Simple Typed Same Call Good find_name target_member core typed_notNone mem_attributes
  attr_inj name_inj lookup_field depth_mem depth_entry)
open Verif.Timestamps (DateTime)
open Verif.Http (Binding Val matchRequest Matcher serializeRequest serializeRequest_ok add_spec headersOf queryOf labelsOf named
  extraHeaders toFields fieldValues valuesOf writeAll payloadOf C29_request_contents C29_request_location C29_body)
open Verif.Http.RestJson (utf8 utf8_inj)
open Verif.Scalars.Strict (Num)
open Verif.Numerals (natText)
open Verif.Text (split)
open Verif.Uri (ch asc unquote segments intended IsGreedy EmptySegment PlainLiteral Piece labels parseQuery)
open Verif.Uri.Pattern (LabelValue render filling lastWritten C97_partial C97_succeeds_partial)

variable {w : World} {nearest : Rat → Num Rat} {cls : Nat}

/-! ## Where a member goes -/

theorem place_label (x : GMember) (h : w.place x = .label) : matchRequest (w.member x) = .label := by
  unfold World.place at h
  by_cases hl : (w.traits x).label = true
  · simp only [matchRequest, World.member, hl, if_true]
  · rw [if_neg hl] at h
    split at h
    · cases h
    · split at h
      · cases h
      · split at h
        · cases h
        · split at h <;> cases h

theorem place_query {x : GMember} {k : Text} (h : w.place x = .query k) :
    matchRequest (w.member x) = .query ∧ (w.member x).query = some k := by
  unfold World.place at h
  by_cases hl : (w.traits x).label = true
  · rw [if_pos hl] at h; cases h
  · rw [if_neg hl] at h
    split at h
    · rename_i k' hk
      cases h
      refine ⟨?_, hk⟩
      simp only [matchRequest, World.member, hl, hk, Bool.false_eq_true, if_false, Option.isSome_some, if_true]
    · split at h
      · cases h
      · split at h
        · cases h
        · split at h <;> cases h

/-- A member that is neither a label nor one parameter of the query. -/
theorem place_later {x : GMember} (h1 : w.place x ≠ .label) (h2 : ∀ k, w.place x ≠ .query k) :
    (w.traits x).label = false ∧ (w.traits x).query = none := by
  unfold World.place at h1 h2
  cases hl : (w.traits x).label with
  | true => rw [hl] at h1; exact absurd rfl h1
  | false =>
    cases hq : (w.traits x).query with
    | none => exact ⟨rfl, rfl⟩
    | some k => rw [hl, hq] at h2; exact absurd rfl (h2 k)

theorem place_params {x : GMember} (h : w.place x = .params) : matchRequest (w.member x) = .queryParams := by
  obtain ⟨hl, hq⟩ := place_later (x := x) (by rw [h]; simp) (by rw [h]; simp)
  unfold World.place at h
  rw [hl, hq] at h
  by_cases hp : (w.traits x).queryParams = true
  · simp only [matchRequest, World.member, hl, hq, hp, Bool.false_eq_true, if_false, Option.isSome_none, if_true]
  · simp only [Bool.false_eq_true, if_false, hp] at h
    split at h
    · cases h
    · split at h <;> cases h

theorem place_header {x : GMember} {k : Text} (h : w.place x = .header k) :
    matchRequest (w.member x) = .header ∧ (w.member x).header = some k := by
  obtain ⟨hl, hq⟩ := place_later (x := x) (by rw [h]; simp) (by rw [h]; simp)
  unfold World.place at h
  rw [hl, hq] at h
  by_cases hp : (w.traits x).queryParams = true
  · simp only [Bool.false_eq_true, if_false, hp, if_true] at h
    cases h
  · simp only [Bool.false_eq_true, if_false, hp] at h
    split at h
    · rename_i k' hk
      cases h
      refine ⟨?_, hk⟩
      simp only [matchRequest, World.member, hl, hq, hp, hk, Bool.false_eq_true, if_false, Option.isSome_none, Option.isSome_some,
        if_true]
    · split at h <;> cases h

theorem place_prefixed {x : GMember} {pre : Text} (h : w.place x = .prefixed pre) :
    matchRequest (w.member x) = .prefixHeaders ∧ (w.member x).prefixHeaders = some pre := by
  obtain ⟨hl, hq⟩ := place_later (x := x) (by rw [h]; simp) (by rw [h]; simp)
  unfold World.place at h
  rw [hl, hq] at h
  by_cases hp : (w.traits x).queryParams = true
  · simp only [Bool.false_eq_true, if_false, hp, if_true] at h
    cases h
  · simp only [Bool.false_eq_true, if_false, hp] at h
    split at h
    · cases h
    · rename_i hk
      split at h
      · rename_i k' hk'
        cases h
        refine ⟨?_, hk'⟩
        simp only [matchRequest, World.member, hl, hq, hp, hk, hk', Bool.false_eq_true, if_false, Option.isSome_none,
          Option.isSome_some, if_true]
      · cases h

theorem place_body (hb : w.RequestSides cls) {x : GMember} (hx : x ∈ w.model.members cls) (h : w.place x = .body) :
    matchRequest (w.member x) = if (w.traits x).payload then .payload else .body := by
  obtain ⟨hl, hq⟩ := place_later (x := x) (by rw [h]; simp) (by rw [h]; simp)
  unfold World.place at h
  rw [hl, hq] at h
  by_cases hp : (w.traits x).queryParams = true
  · simp only [Bool.false_eq_true, if_false, hp, if_true] at h
    cases h
  · simp only [Bool.false_eq_true, if_false, hp] at h
    split at h
    · cases h
    · rename_i hk
      split at h
      · cases h
      · rename_i hk'
        simp only [matchRequest, World.member, hl, hq, hp, hk, hk', hb.hosts x hx, Bool.false_eq_true, if_false, Option.isSome_none]

/-- The match of a member of a request. -/
theorem place_sides (hb : w.RequestSides cls) {x : GMember} (hx : x ∈ w.model.members cls) :
    (w.place x = .label ∧ matchRequest (w.member x) = .label) ∨
    (∃ k, w.place x = .query k ∧ matchRequest (w.member x) = .query ∧ (w.member x).query = some k) ∨
    (w.place x = .params ∧ matchRequest (w.member x) = .queryParams) ∨
    (∃ k, w.place x = .header k ∧ matchRequest (w.member x) = .header ∧ (w.member x).header = some k) ∨
    (∃ pre, w.place x = .prefixed pre ∧ matchRequest (w.member x) = .prefixHeaders ∧ (w.member x).prefixHeaders = some pre) ∨
    (w.place x = .body ∧ (matchRequest (w.member x) = .payload ∨ matchRequest (w.member x) = .body)) := by
  cases h : w.place x with
  | label => exact .inl ⟨rfl, place_label x h⟩
  | query k => exact .inr (.inl ⟨k, rfl, place_query h⟩)
  | params => exact .inr (.inr (.inl ⟨rfl, place_params h⟩))
  | header k => exact .inr (.inr (.inr (.inl ⟨k, rfl, place_header h⟩)))
  | prefixed k => exact .inr (.inr (.inr (.inr (.inl ⟨k, rfl, place_prefixed h⟩))))
  | body =>
    refine .inr (.inr (.inr (.inr (.inr ⟨rfl, ?_⟩))))
    rw [place_body hb hx h]
    cases (w.traits x).payload
    · exact .inr rfl
    · exact .inl rfl

/-- The match of a member of a request without a payload. -/
theorem place_cases (hb : w.RequestBound cls) {x : GMember} (hx : x ∈ w.model.members cls) :
    (w.place x = .label ∧ matchRequest (w.member x) = .label) ∨
    (∃ k, w.place x = .query k ∧ matchRequest (w.member x) = .query ∧ (w.member x).query = some k) ∨
    (w.place x = .params ∧ matchRequest (w.member x) = .queryParams) ∨
    (∃ k, w.place x = .header k ∧ matchRequest (w.member x) = .header ∧ (w.member x).header = some k) ∨
    (∃ pre, w.place x = .prefixed pre ∧ matchRequest (w.member x) = .prefixHeaders ∧ (w.member x).prefixHeaders = some pre) ∨
    (w.place x = .body ∧ matchRequest (w.member x) = .body) := by
  rcases place_sides hb.toRequestSides hx with h | h | h | h | h | ⟨h, hl⟩
  · exact .inl h
  · exact .inr (.inl h)
  · exact .inr (.inr (.inl h))
  · exact .inr (.inr (.inr (.inl h)))
  · exact .inr (.inr (.inr (.inr (.inl h))))
  · refine .inr (.inr (.inr (.inr (.inr ⟨h, ?_⟩))))
    rw [place_body hb.toRequestSides hx h, hb.payload x hx]
    rfl

/-! ## What is written for a member -/

/-- How the texts of a member, or the entries of a map, are written. -/
def Fits (w : World) (x : GMember) (ts : List Text) (es : List (Text × Text)) (item : Item) : Prop :=
  match w.place x with
  | .label => ∃ t l, ts = [t] ∧ item = .label (utf8 x.name) l ∧ l.Proper ∧ l.plain = utf8 t
  | .query _ | .header _ => ∃ val, item = .write (w.member x, val) ∧ (val = .list ts ∨ ∃ t, ts = [t] ∧ val = .text t)
  | .params => ∃ kvs, item = .write (w.member x, .multimap kvs) ∧ es = kvs.flatMap fun kv => kv.2.map fun t => (kv.1, t)
  | .prefixed _ => item = .write (w.member x, .map es)
  | .body => ∃ val, item = .write (w.member x, val)

theorem url_calls {id : Nat} {s : Ref} {sparse : Bool} (h : w.hdr.Sane nearest) (n : Nat) (ht : w.model.target s = some id) :
    ∀ xs : List P, (∀ v ∈ xs, UrlOk w nearest id s v) →
    ∃ cs ts, GeneratedSerde.each (fun x => if sparse && x.isNone then .ok (.null s) else w.model.memberCall (n + 1) id s x) xs =
        .ok cs ∧ each w.urlCall cs = .ok ts ∧ List.Forall₂ (fun t v => ∃ v', w.urlRead id s t = .ok v' ∧ Same v v') ts xs
  | [], _ => ⟨[], [], rfl, rfl, .nil⟩
  | x :: xs, hx => by
    obtain ⟨cs, ts, h1, h2, h5⟩ := url_calls (sparse := sparse) h n ht xs fun v hv => hx v (by simp [hv])
    obtain ⟨method, h3, h4⟩ := urlOk_call (hx x (by simp)) n
    obtain ⟨t, v', l, g1, g2, g3, _⟩ := url_restores h (hx x (by simp))
    refine ⟨.write method s x :: cs, t :: ts, ?_, ?_, .cons ⟨v', g2, g3⟩ h5⟩
    · simp only [GeneratedSerde.each, h4, Bool.and_false, Bool.false_eq_true, if_false, h3, h1]
    · simp only [each, World.urlCall, ht, g1, h2]

theorem header_calls {id : Nat} {s : Ref} {sparse : Bool} (h : w.hdr.Sane nearest) (n : Nat) (ht : w.model.target s = some id) :
    ∀ xs : List P, (∀ v ∈ xs, HeaderOk w nearest id s v) →
    ∃ cs ts, GeneratedSerde.each (fun x => if sparse && x.isNone then .ok (.null s) else w.model.memberCall (n + 1) id s x) xs =
        .ok cs ∧ each w.headerCall cs = .ok ts ∧ List.Forall₂ (fun t v => ∃ v', w.headerRead id s t = .ok v' ∧ Same v v') ts xs
  | [], _ => ⟨[], [], rfl, rfl, .nil⟩
  | x :: xs, hx => by
    obtain ⟨cs, ts, h1, h2, h5⟩ := header_calls (sparse := sparse) h n ht xs fun v hv => hx v (by simp [hv])
    obtain ⟨method, h3, h4⟩ := headerOk_call (hx x (by simp)) n
    obtain ⟨t, v', g1, g2, g3⟩ := headerText_ok h (hx x (by simp))
    refine ⟨.write method s x :: cs, t :: ts, ?_, ?_, .cons ⟨v', g2, g3⟩ h5⟩
    · simp only [GeneratedSerde.each, h4, Bool.and_false, Bool.false_eq_true, if_false, h3, h1]
    · simp only [each, World.headerCall, ht, g1, h2]

theorem url_depth {id : Nat} {s : Ref} {v : P} (hv : UrlOk w nearest id s v) : 0 < v.depth := by
  cases hv with
  | plain _ h => cases h <;> simp [Py.depth]
  | time => simp [Py.depth]

theorem header_depth {id : Nat} {s : Ref} {v : P} (hv : HeaderOk w nearest id s v) : 0 < v.depth := by
  cases hv <;> simp [Py.depth]

/-- The calls for a list; an empty one needs no depth. -/
theorem list_calls {id : Nat} {s s' : Ref} {sparse : Bool} {e : GeneratedSerde.Element} {n : Nat} {xs : List P}
    {call : Call Double DateTime → Except Err Text} {rel : Text → P → Prop} (hs : w.model.shape id = some (.list sparse e))
    (hsub : w.model.subschema s GeneratedSerde.memberName = some s') (hd : (Py.list xs : P).depth ≤ n) (hpos : ∀ v ∈ xs, 0 < v.depth)
    (h : ∀ k, ∃ cs ts, GeneratedSerde.each (fun x => if sparse && x.isNone then .ok (.null s') else
        w.model.memberCall (k + 1) e.target s' x) xs = .ok cs ∧ each call cs = .ok ts ∧ List.Forall₂ rel ts xs) :
    ∃ cs ts, w.model.memberCall n id s (.list xs) = .ok (.list s xs.length cs) ∧ each call cs = .ok ts ∧ List.Forall₂ rel ts xs := by
  simp only [Py.depth] at hd
  obtain ⟨n, rfl⟩ : ∃ n', n = n' + 1 := ⟨n - 1, by omega⟩
  cases xs with
  | nil =>
    obtain ⟨cs, ts, h1, h2, h3⟩ := h 0
    simp only [GeneratedSerde.each, Except.ok.injEq] at h1
    subst h1
    exact ⟨[], ts, by simp only [Model.memberCall, hs, hsub, GeneratedSerde.each], h2, h3⟩
  | cons a xs =>
    have h1 := depth_mem (a :: xs) a (by simp)
    have h2 := hpos a (by simp)
    obtain ⟨n, rfl⟩ : ∃ n', n = n' + 1 := ⟨n - 1, by omega⟩
    obtain ⟨cs, ts, g1, g2, g3⟩ := h n
    refine ⟨cs, ts, ?_, g2, g3⟩
    generalize n + 1 = n' at g1 ⊢
    simp only [Model.memberCall, hs, hsub, g1]

theorem string_calls {id : Nat} {s : Ref} {sparse : Bool} (n : Nat) (hs : w.model.shape id = some (.simple .string)) :
    ∀ xs : List P, (∀ v ∈ xs, ∃ t, v = .str t) →
    ∃ cs ts, GeneratedSerde.each (fun x => if sparse && x.isNone then .ok (.null s) else w.model.memberCall (n + 1) id s x) xs =
        .ok cs ∧ each stringCall cs = .ok ts ∧ List.Forall₂ (fun t v => v = .str t) ts xs
  | [], _ => ⟨[], [], rfl, rfl, .nil⟩
  | x :: xs, hx => by
    obtain ⟨cs, ts, h1, h2, h5⟩ := string_calls (s := s) (sparse := sparse) n hs xs fun v hv => hx v (by simp [hv])
    obtain ⟨t, rfl⟩ := hx x (by simp)
    refine ⟨.write .string s (.str t) :: cs, t :: ts, ?_, ?_, .cons rfl h5⟩
    · have : w.model.memberCall (n + 1) id s (.str t) = .ok (.write .string s (.str t)) := by simp only [Model.memberCall, hs, Simple.method]
      simp only [GeneratedSerde.each, show (Py.str t : P).isNone = false from rfl, Bool.and_false, Bool.false_eq_true, if_false, this, h1]
    · simp only [each, stringCall, h2]

theorem entry_list (k : Text) : ∀ (ts : List Text) (xs : List P), List.Forall₂ (fun t v => v = .str t) ts xs →
    ts.map (fun t => (k, t)) = entryOf (k, .list xs)
  | [], _, .nil => rfl
  | t :: ts, x :: xs, .cons h hrest => by
    have ih := entry_list k ts xs hrest
    subst h
    simp only [entryOf, List.map_cons, List.filterMap_cons] at ih ⊢
    rw [ih]

theorem flatMap_forall₂ {A B C : Type} {f : A → List C} {g : B → List C} : ∀ {xs : List A} {ys : List B},
    List.Forall₂ (fun x y => f x = g y) xs ys → xs.flatMap f = ys.flatMap g
  | _, _, .nil => rfl
  | _, _, .cons h hrest => by rw [List.flatMap_cons, List.flatMap_cons, h, flatMap_forall₂ hrest]

/-- The calls for a map of query parameters. -/
theorem params_calls {x : GMember} {sparse : Bool} {e : GeneratedSerde.Element} {es : List (Text × P)} {n : Nat}
    (htgt : w.model.target (.member cls x.name) = some x.target) (hs : w.model.shape x.target = some (.map sparse e))
    (hd : (Py.dict es : P).depth ≤ n) (h : ∀ u ∈ es, ParamOk w e.target u.2) :
    ∃ cs kvs, w.model.memberCall n x.target (.member cls x.name) (.dict es) = .ok (.map (.member cls x.name) es.length cs) ∧
      each paramEntry cs = .ok kvs ∧ entriesOf (.dict es) = kvs.flatMap fun kv => kv.2.map fun t => (kv.1, t) := by
  simp only [Py.depth] at hd
  obtain ⟨n, rfl⟩ : ∃ n', n = n' + 1 := ⟨n - 1, by omega⟩
  have hsub : w.model.subschema (.member cls x.name) GeneratedSerde.valueName = some (.member x.target GeneratedSerde.valueName) := by
    simp only [Model.subschema, htgt, hs, if_true]
  have ht' : w.model.target (.member x.target GeneratedSerde.valueName) = some e.target := by simp only [Model.target, hs, if_true]
  obtain ⟨cs, kvs, h1, h2, h3⟩ := map_calls (g := paramEntry)
    (f := fun v => if sparse && v.isNone then .ok (.null (.member x.target GeneratedSerde.valueName)) else
      w.model.memberCall n e.target (.member x.target GeneratedSerde.valueName) v)
    (R := fun u kv => entryOf u = kv.2.map fun t => (kv.1, t)) es fun u hu => by
      have hdu := depth_entry es u hu
      obtain ⟨k, v⟩ := u
      have hv := h _ hu
      simp only at hv hdu
      cases hv with
      | @one t hs' =>
        simp only [Py.depth] at hdu
        obtain ⟨n, rfl⟩ : ∃ n', n = n' + 1 := ⟨n - 1, by omega⟩
        exact ⟨.write .string (.member x.target GeneratedSerde.valueName) (.str t), (k, [t]), by
          simp only [show (Py.str t : P).isNone = false from rfl, Bool.and_false, Bool.false_eq_true, if_false, Model.memberCall, hs', Simple.method], rfl, rfl⟩
      | @list sparse' e' xs hs' hs'' hx =>
        obtain ⟨cs, ts, g1, g2, g3⟩ := list_calls (n := n) (call := stringCall) (rel := fun t v => v = .str t) hs'
          (s := .member x.target GeneratedSerde.valueName) (s' := .member e.target GeneratedSerde.memberName)
          (by simp only [Model.subschema, ht', hs', if_true]) (by omega)
          (fun v hv => by obtain ⟨t, rfl⟩ := hx v hv; simp [Py.depth]) fun k => string_calls k hs'' xs hx
        exact ⟨_, (k, ts), by
          simp only [show (Py.list xs : P).isNone = false from rfl, Bool.and_false, Bool.false_eq_true, if_false]; exact g1, by simp only [paramEntry, g2],
          (entry_list k ts xs g3).symm⟩
  exact ⟨_, kvs, by simp only [Model.memberCall, hs, hsub, h1], h2, flatMap_forall₂ h3⟩

/-- The calls for a map of headers. -/
theorem prefixed_calls {x : GMember} {sparse : Bool} {e : GeneratedSerde.Element} {es : List (Text × P)} {n : Nat}
    (htgt : w.model.target (.member cls x.name) = some x.target) (hs : w.model.shape x.target = some (.map sparse e))
    (hs' : w.model.shape e.target = some (.simple .string)) (hd : (Py.dict es : P).depth ≤ n) (h : ∀ u ∈ es, ∃ t, u.2 = .str t) :
    ∃ cs, w.model.memberCall n x.target (.member cls x.name) (.dict es) = .ok (.map (.member cls x.name) es.length cs) ∧
      each headerEntry cs = .ok (entriesOf (.dict es)) := by
  simp only [Py.depth] at hd
  obtain ⟨n, rfl⟩ : ∃ n', n = n' + 1 := ⟨n - 1, by omega⟩
  have hsub : w.model.subschema (.member cls x.name) GeneratedSerde.valueName = some (.member x.target GeneratedSerde.valueName) := by
    simp only [Model.subschema, htgt, hs, if_true]
  obtain ⟨cs, kvs, h1, h2, h3⟩ := map_calls (g := headerEntry)
    (f := fun v => if sparse && v.isNone then .ok (.null (.member x.target GeneratedSerde.valueName)) else
      w.model.memberCall n e.target (.member x.target GeneratedSerde.valueName) v)
    (R := fun u kv => entryOf u = [kv]) es fun u hu => by
      have hdu := depth_entry es u hu
      obtain ⟨k, v⟩ := u
      obtain ⟨t, ht⟩ := h _ hu
      simp only at ht hdu
      subst ht
      simp only [Py.depth] at hdu
      obtain ⟨n, rfl⟩ : ∃ n', n = n' + 1 := ⟨n - 1, by omega⟩
      exact ⟨.write .string (.member x.target GeneratedSerde.valueName) (.str t), (k, t), by
        simp only [show (Py.str t : P).isNone = false from rfl, Bool.and_false, Bool.false_eq_true, if_false, Model.memberCall, hs', Simple.method], rfl, rfl⟩
  refine ⟨_, by simp only [Model.memberCall, hs, hsub, h1], h2.trans (congrArg _ ?_)⟩
  exact ((flatMap_forall₂ (g := fun kv => [kv]) h3).trans (List.flatMap_singleton' kvs)).symm

/-- The headers of a map are none of those of the body. -/
theorem prefixed_own {x : GMember} {v : P} (hv : RequestField w nearest cls x v) {pre : Text} (hp : w.place x = .prefixed pre) :
    ∀ e ∈ entriesOf v, w.lower (pre ++ e.1) ≠ w.lower "content-type".toList ∧
      w.lower (pre ++ e.1) ≠ w.lower "content-length".toList := by
  cases hv with
  | absent => intro e he; cases he
  | body h _ => rw [hp] at h; cases h
  | label h _ => rw [hp] at h; cases h
  | query h _ => rw [hp] at h; cases h
  | queries h _ _ => rw [hp] at h; cases h
  | header h _ => rw [hp] at h; cases h
  | headers h _ _ => rw [hp] at h; cases h
  | params h _ _ => rw [hp] at h; cases h
  | prefixed h _ _ h4 h5 =>
    rw [hp] at h
    cases h
    intro e he
    obtain ⟨u, hu, he'⟩ := List.mem_flatMap.1 he
    obtain ⟨k, v⟩ := u
    obtain ⟨t, ht⟩ := h4 _ hu
    simp only at ht
    subst ht
    rw [List.mem_singleton.1 he']
    exact h5 _ hu

/-- A value of an attribute: the call for it, and where it goes. -/
theorem field_item (hw : w.Ok nearest) (hb : w.RequestSides cls) {ms : List GMember} (hs : w.model.shape cls = some (.struct ms))
    {x : GMember} (hx : x ∈ ms) (hpay : w.place x = .body → (w.traits x).payload = false) {v : P} (hv : RequestField w nearest cls x v) (hne : v ≠ .none) {n : Nat} (hd : v.depth ≤ n) :
    v.isNone = false ∧ ∃ c ts, w.model.memberCall n x.target (.member cls x.name) v = .ok c ∧ Reads w cls x ts v ∧
      (w.place x = .body → Good w.model w.st w.rd x.target (.member cls x.name) v c ∧
        ∀ i, w.toItem cls i c = .ok (.write (w.member x, .other i))) ∧
      ∀ i, ∃ item, w.toItem cls i c = .ok item ∧ Fits w x ts (entriesOf v) item := by
  have hms : w.model.members cls = ms := by simp only [Model.members, hs]
  have hmem : x ∈ w.model.members cls := hms ▸ hx
  have hfind : (w.model.members cls).find? (fun y => y.name = x.name) = some x := find_name hw.names hmem
  have htgt : w.model.target (.member cls x.name) = some x.target := target_member hw.names hmem
  have helem : ∀ {sparse e}, w.model.shape x.target = some (.list sparse e) →
      w.model.target (.member x.target GeneratedSerde.memberName) = some e.target ∧
      w.model.subschema (.member cls x.name) GeneratedSerde.memberName = some (.member x.target GeneratedSerde.memberName) := by
    intro sparse e h
    exact ⟨by simp only [Model.target, h, if_true], by simp only [Model.subschema, htgt, h, if_true]⟩
  cases hv with
  | absent => exact absurd rfl hne
  | body h1 h2 =>
    have hl : matchRequest (w.member x) = .body := by rw [place_body hb hmem h1, hpay h1]; rfl
    obtain ⟨c, hc, hgood⟩ := core hw.names hw.fits hw.view n _ _ v htgt h2 hd
    have hwr : ∀ i, w.toItem cls i c = .ok (.write (w.member x, .other i)) := by
      intro i
      simp only [World.toItem, hgood.1, hfind, hl]
    exact ⟨typed_notNone h2, c, [], hc, by simp only [Reads, h1], fun _ => ⟨hgood, hwr⟩,
      fun i => ⟨_, hwr i, by simp only [Fits, h1]; exact ⟨_, rfl⟩⟩⟩
  | label h1 h2 =>
    have hl := place_label x h1
    obtain ⟨n, rfl⟩ : ∃ n', n = n' + 1 := ⟨n - 1, by have := url_depth h2; omega⟩
    obtain ⟨method, hc, hnn⟩ := urlOk_call h2 n
    obtain ⟨t, v', l, g1, g2, g3, g4, g5, g6⟩ := url_restores hw.python h2
    refine ⟨hnn, _, [t], hc, by simp only [Reads, h1]; exact .one g2 g3, fun h => (by rw [h1] at h; cases h),
      fun i => ⟨.label (utf8 x.name) l, ?_, by simp only [Fits, h1]; exact ⟨t, l, rfl, rfl, g5, g6⟩⟩⟩
    simp only [World.toItem, Call.schema, hfind, hl, htgt, g4]
  | query h1 h2 =>
    have hl := (place_query h1).1
    obtain ⟨n, rfl⟩ : ∃ n', n = n' + 1 := ⟨n - 1, by have := url_depth h2; omega⟩
    obtain ⟨method, hc, hnn⟩ := urlOk_call h2 n
    obtain ⟨t, v', l, g1, g2, g3, -⟩ := url_restores hw.python h2
    refine ⟨hnn, _, [t], hc, by simp only [Reads, h1]; exact .one g2 g3, fun h => (by rw [h1] at h; cases h),
      fun i => ⟨.write (w.member x, .text t), ?_, by simp only [Fits, h1]; exact ⟨_, rfl, .inr ⟨t, rfl, rfl⟩⟩⟩⟩
    simp only [World.toItem, Call.schema, hfind, hl, World.urlCall, htgt, g1]
  | @queries k sparse e xs h1 h2 h3 =>
    have hl := (place_query h1).1
    obtain ⟨ht', hsub⟩ := helem h2
    obtain ⟨cs, ts, g1, g2, g3⟩ := list_calls h2 hsub hd (fun v hv => url_depth (h3 v hv))
      fun k => url_calls (sparse := sparse) hw.python k ht' xs h3
    refine ⟨rfl, _, ts, g1, by simp only [Reads, h1]; exact .list h2 g3, fun h => (by rw [h1] at h; cases h),
      fun i => ⟨.write (w.member x, .list ts), ?_, by simp only [Fits, h1]; exact ⟨_, rfl, .inl rfl⟩⟩⟩
    simp only [World.toItem, Call.schema, hfind, hl, g2]
  | header h1 h2 =>
    have hl := (place_header h1).1
    obtain ⟨n, rfl⟩ : ∃ n', n = n' + 1 := ⟨n - 1, by have := header_depth h2; omega⟩
    obtain ⟨method, hc, hnn⟩ := headerOk_call h2 n
    obtain ⟨t, v', g1, g2, g3⟩ := headerText_ok hw.python h2
    refine ⟨hnn, _, [t], hc, by simp only [Reads, h1]; exact .one g2 g3, fun h => (by rw [h1] at h; cases h),
      fun i => ⟨.write (w.member x, .text t), ?_, by simp only [Fits, h1]; exact ⟨_, rfl, .inr ⟨t, rfl, rfl⟩⟩⟩⟩
    simp only [World.toItem, Call.schema, hfind, hl, World.headerCall, htgt, g1]
  | @headers k sparse e xs h1 h2 h3 =>
    have hl := (place_header h1).1
    obtain ⟨ht', hsub⟩ := helem h2
    obtain ⟨cs, ts, g1, g2, g3⟩ := list_calls h2 hsub hd (fun v hv => header_depth (h3 v hv))
      fun k => header_calls (sparse := sparse) hw.python k ht' xs h3
    refine ⟨rfl, _, ts, g1, by simp only [Reads, h1]; exact .list h2 g3, fun h => (by rw [h1] at h; cases h),
      fun i => ⟨.write (w.member x, .list ts), ?_, by simp only [Fits, h1]; exact ⟨_, rfl, .inl rfl⟩⟩⟩
    simp only [World.toItem, Call.schema, hfind, hl, g2]

  | @params sparse e es h1 h2 h3 =>
    have hl := place_params h1
    obtain ⟨c, kvs, g1, g2, g3⟩ := params_calls htgt h2 hd h3
    refine ⟨rfl, _, [], g1, by simp only [Reads, h1], fun h => (by rw [h1] at h; cases h),
      fun i => ⟨.write (w.member x, .multimap kvs), ?_, by simp only [Fits, h1]; exact ⟨_, rfl, g3⟩⟩⟩
    simp only [World.toItem, Call.schema, hfind, hl, g2]
  | @prefixed pre sparse e es h1 h2 h3 h4 _ =>
    have hl := (place_prefixed h1).1
    obtain ⟨c, g1, g2⟩ := prefixed_calls htgt h2 h3 hd h4
    refine ⟨rfl, _, [], g1, by simp only [Reads, h1], fun h => (by rw [h1] at h; cases h),
      fun i => ⟨.write (w.member x, .map (entriesOf (.dict es))), ?_, by simp only [Fits, h1]⟩⟩
    simp only [World.toItem, Call.schema, hfind, hl, g2]

/-- All of them, one after the other. -/
theorem toItems_ok (hb : w.RequestBound cls) {value : GMember → P} {texts : GMember → List Text} (all : List (Call Double DateTime)) :
    ∀ (xs : List GMember) (cs pre : List (Call Double DateTime)), all = pre ++ cs → (∀ x ∈ xs, x ∈ w.model.members cls) →
    List.Forall₂ (fun x c => (w.place x = .body → Good w.model w.st w.rd x.target (.member cls x.name) (value x) c ∧
        ∀ i, w.toItem cls i c = .ok (.write (w.member x, .other i))) ∧
      ∀ i, ∃ item, w.toItem cls i c = .ok item ∧ Fits w x (texts x) (entriesOf (value x)) item) xs cs →
    ∃ items, w.toItems cls pre.length cs = .ok items ∧ List.Forall₂ (fun x item => Fits w x (texts x) (entriesOf (value x)) item) xs items ∧
      List.Forall₂ (fun x c => Good w.model w.st w.rd x.target (.member cls x.name) (value x) c)
        (xs.filter fun x => matchRequest (w.member x) = .body)
        (bodyCalls all ((writesIn items).filter fun u => matchRequest u.1 = .body))
  | [], _, pre, _, _, .nil => ⟨[], rfl, .nil, .nil⟩
  | x :: xs, c :: cs, pre, hall, hm, .cons ⟨hbody, hwr⟩ hrest => by
    obtain ⟨items, h1, h2, h3⟩ := toItems_ok hb all xs cs (pre ++ [c]) (by simp [hall]) (fun y hy => hm y (List.mem_cons_of_mem _ hy)) hrest
    rw [List.length_append, List.length_singleton] at h1
    have hx := hm x List.mem_cons_self
    obtain ⟨item, hi, hfit⟩ := hwr pre.length
    refine ⟨item :: items, by simp only [World.toItems, hi, h1], .cons hfit h2, ?_⟩
    rcases place_cases hb hx with ⟨hp, hl⟩ | ⟨k, hp, hl, _⟩ | ⟨hp, hl⟩ | ⟨k, hp, hl, _⟩ | ⟨k, hp, hl, _⟩ | ⟨hp, hl⟩
    · simp only [Fits, hp] at hfit
      obtain ⟨t, l, _, rfl, _⟩ := hfit
      rw [List.filter_cons, if_neg (by simp [hl])]
      exact h3
    · simp only [Fits, hp] at hfit
      obtain ⟨val, rfl, _⟩ := hfit
      rw [List.filter_cons, if_neg (by simp [hl])]
      simp only [writesIn, List.filterMap_cons]
      rw [List.filter_cons, if_neg (by simp [hl])]
      exact h3
    · simp only [Fits, hp] at hfit
      obtain ⟨val, rfl, _⟩ := hfit
      rw [List.filter_cons, if_neg (by simp [hl])]
      simp only [writesIn, List.filterMap_cons]
      rw [List.filter_cons, if_neg (by simp [hl])]
      exact h3
    · simp only [Fits, hp] at hfit
      obtain ⟨val, rfl, _⟩ := hfit
      rw [List.filter_cons, if_neg (by simp [hl])]
      simp only [writesIn, List.filterMap_cons]
      rw [List.filter_cons, if_neg (by simp [hl])]
      exact h3
    · simp only [Fits, hp] at hfit
      subst hfit
      rw [List.filter_cons, if_neg (by simp [hl])]
      simp only [writesIn, List.filterMap_cons]
      rw [List.filter_cons, if_neg (by simp [hl])]
      exact h3
    · obtain ⟨hgood, hw'⟩ := hbody hp
      rw [hw'] at hi
      cases hi
      rw [List.filter_cons, if_pos (by simp [hl])]
      simp only [writesIn, List.filterMap_cons]
      rw [List.filter_cons, if_pos (by simp [hl])]
      have : all[pre.length]? = some c := by rw [hall]; simp
      simp only [bodyCalls, List.filterMap_cons, this]
      exact .cons hgood h3

/-! ## What the items ask for -/

theorem queryOf_cons (u : Http.Member × Val) (us : List (Http.Member × Val)) : queryOf matchRequest (u :: us) =
    (if matchRequest u.1 = .query ∨ matchRequest u.1 = .queryParams then named (u.1.query.getD []) [] u.2 else []) ++
      queryOf matchRequest us := by
  unfold queryOf
  rw [List.filter_cons]
  by_cases h : matchRequest u.1 = .query ∨ matchRequest u.1 = .queryParams
  · rw [if_pos (by simpa using h), if_pos h, List.flatMap_cons]
  · rw [if_neg (by simpa using h), if_neg h, List.nil_append]

theorem headersOf_cons (u : Http.Member × Val) (us : List (Http.Member × Val)) : headersOf matchRequest (u :: us) =
    (if matchRequest u.1 = .header ∨ matchRequest u.1 = .prefixHeaders then
      named (u.1.header.getD []) (u.1.prefixHeaders.getD []) u.2 else []) ++ headersOf matchRequest us := by
  unfold headersOf
  rw [List.filter_cons]
  by_cases h : matchRequest u.1 = .header ∨ matchRequest u.1 = .prefixHeaders
  · rw [if_pos (by simpa using h), if_pos h, List.flatMap_cons]
  · rw [if_neg (by simpa using h), if_neg h, List.nil_append]

theorem named_fits {ts : List Text} {val : Val} (h : val = .list ts ∨ ∃ t, ts = [t] ∧ val = .text t) (k pre : Text) :
    named k pre val = ts.map fun t => (k, t) := by
  rcases h with rfl | ⟨t, rfl, rfl⟩ <;> rfl

theorem writesIn_label (n : Bytes) (v : LabelValue) (items : List Item) : writesIn (.label n v :: items) = writesIn items := rfl

theorem writesIn_write (u : Http.Member × Val) (items : List Item) : writesIn (.write u :: items) = u :: writesIn items := rfl

theorem items_query (hb : w.RequestSides cls) {value : GMember → P} {texts : GMember → List Text} : ∀ (xs : List GMember) (items : List Item),
    (∀ x ∈ xs, x ∈ w.model.members cls) → List.Forall₂ (fun x item => Fits w x (texts x) (entriesOf (value x)) item) xs items →
    queryOf matchRequest (writesIn items) = xs.flatMap fun x => match w.place x with
      | .query k => (texts x).map fun t => (k, t)
      | .params => entriesOf (value x)
      | _ => []
  | [], _, _, .nil => rfl
  | x :: xs, item :: items, hm, .cons hfit hrest => by
    have ih := items_query hb xs items (fun y hy => hm y (List.mem_cons_of_mem _ hy)) hrest
    rw [List.flatMap_cons, ← ih]
    rcases place_sides hb (hm x List.mem_cons_self) with ⟨hp, hl⟩ | ⟨k, hp, hl, hk⟩ | ⟨hp, hl⟩ | ⟨k, hp, hl, _⟩ | ⟨k, hp, hl, _⟩ | ⟨hp, hl⟩ <;>
      simp only [Fits, hp] at hfit ⊢
    · obtain ⟨t, l, _, rfl, _⟩ := hfit
      rw [writesIn_label, List.nil_append]
    · obtain ⟨val, rfl, hval⟩ := hfit
      rw [writesIn_write, queryOf_cons, if_pos (.inl hl), named_fits hval, hk]
      rfl
    · obtain ⟨kvs, rfl, he⟩ := hfit
      rw [writesIn_write, queryOf_cons, if_pos (.inr hl), he]
      rfl
    · obtain ⟨val, rfl, _⟩ := hfit
      rw [writesIn_write, queryOf_cons, if_neg (by simp [hl])]
    · subst hfit
      rw [writesIn_write, queryOf_cons, if_neg (by simp [hl])]
    · obtain ⟨val, rfl⟩ := hfit
      rw [writesIn_write, queryOf_cons, if_neg (by rcases hl with hl | hl <;> simp [hl])]

theorem valuesOf_same (lower : Text → Text) (k name : Text) : ∀ ts : List Text,
    valuesOf lower (ts.map fun t => (k, t)) name = if lower k = lower name then ts else []
  | [] => by simp [valuesOf]
  | t :: ts => by
    have ih := valuesOf_same lower k name ts
    unfold valuesOf at ih ⊢
    by_cases h : lower k = lower name
    · simp only [h, if_true] at ih
      simp only [List.map_cons, List.filter_cons, h, decide_true, if_true, ih]
    · simp only [h, if_false] at ih
      simp only [List.map_cons, List.filter_cons, h, decide_false, Bool.false_eq_true, if_false, ih]

theorem valuesOf_entries (lower : Text → Text) (pre name : Text) : ∀ es : List (Text × Text),
    valuesOf lower (es.map fun e => (pre ++ e.1, e.2)) name =
      es.filterMap fun e => if lower (pre ++ e.1) = lower name then some e.2 else none
  | [] => by simp [valuesOf]
  | e :: es => by
    have ih := valuesOf_entries lower pre name es
    unfold valuesOf at ih ⊢
    by_cases h : lower (pre ++ e.1) = lower name
    · simp only [List.map_cons, List.filter_cons, h, decide_true, if_true, ih, List.filterMap_cons]
    · simp only [List.map_cons, List.filter_cons, h, decide_false, Bool.false_eq_true, if_false, ih, List.filterMap_cons]

theorem items_headers (hb : w.RequestSides cls) {value : GMember → P} {texts : GMember → List Text} (lower : Text → Text) (name : Text) :
    ∀ (xs : List GMember) (items : List Item), (∀ x ∈ xs, x ∈ w.model.members cls) →
    List.Forall₂ (fun x item => Fits w x (texts x) (entriesOf (value x)) item) xs items →
    valuesOf lower (headersOf matchRequest (writesIn items)) name = xs.flatMap fun x => match w.place x with
      | .header k => if lower k = lower name then texts x else []
      | .prefixed pre => (entriesOf (value x)).filterMap fun e => if lower (pre ++ e.1) = lower name then some e.2 else none
      | _ => []
  | [], _, _, .nil => rfl
  | x :: xs, item :: items, hm, .cons hfit hrest => by
    have ih := items_headers hb lower name xs items (fun y hy => hm y (List.mem_cons_of_mem _ hy)) hrest
    rw [List.flatMap_cons, ← ih]
    rcases place_sides hb (hm x List.mem_cons_self) with ⟨hp, hl⟩ | ⟨k, hp, hl, _⟩ | ⟨hp, hl⟩ | ⟨k, hp, hl, hk⟩ | ⟨k, hp, hl, hk⟩ | ⟨hp, hl⟩ <;>
      simp only [Fits, hp] at hfit ⊢
    · obtain ⟨t, l, _, rfl, _⟩ := hfit
      rw [writesIn_label, List.nil_append]
    · obtain ⟨val, rfl, _⟩ := hfit
      rw [writesIn_write, headersOf_cons, if_neg (by simp [hl]), List.nil_append, List.nil_append]
    · obtain ⟨val, rfl, _⟩ := hfit
      rw [writesIn_write, headersOf_cons, if_neg (by simp [hl]), List.nil_append, List.nil_append]
    · obtain ⟨val, rfl, hval⟩ := hfit
      rw [writesIn_write, headersOf_cons, if_pos (.inl hl), named_fits hval, Http.valuesOf_append, hk]
      simp only [Option.getD_some, valuesOf_same]
    · subst hfit
      rw [writesIn_write, headersOf_cons, if_pos (.inr hl), Http.valuesOf_append, hk]
      simp only [Option.getD_some, named, valuesOf_entries]
    · obtain ⟨val, rfl⟩ := hfit
      rw [writesIn_write, headersOf_cons, if_neg (by rcases hl with hl | hl <;> simp [hl]), List.nil_append, List.nil_append]

theorem mem_labelsIn {items : List Item} {n : Bytes} {v : LabelValue} : (n, v) ∈ labelsIn items ↔ Item.label n v ∈ items := by
  unfold labelsIn
  rw [List.mem_filterMap]
  constructor
  · rintro ⟨item, h, he⟩
    cases item with
    | label n' v' => cases he; exact h
    | write u => cases he
  · exact fun h => ⟨_, h, rfl⟩

theorem mem_writesIn {items : List Item} {u : Http.Member × Val} : u ∈ writesIn items ↔ Item.write u ∈ items := by
  unfold writesIn
  rw [List.mem_filterMap]
  constructor
  · rintro ⟨item, h, he⟩
    cases item with
    | label n' v' => cases he
    | write u => cases he; exact h
  · exact fun h => ⟨_, h, rfl⟩

theorem flatMap_filter_of {A B : Type} (p : A → Bool) (f : A → List B) : ∀ xs : List A, (∀ x ∈ xs, p x = false → f x = []) →
    (xs.filter p).flatMap f = xs.flatMap f
  | [], _ => rfl
  | x :: xs, h => by
    have ih := flatMap_filter_of p f xs fun y hy => h y (List.mem_cons_of_mem _ hy)
    cases hp : p x with
    | true => rw [List.filter_cons, if_pos hp, List.flatMap_cons, List.flatMap_cons, ih]
    | false => rw [List.filter_cons, if_neg (by simp [hp]), List.flatMap_cons, h x List.mem_cons_self hp, ih, List.nil_append]

theorem flatMap_single {A B : Type} (f : A → List B) {a : A} : ∀ xs : List A, xs.Nodup → a ∈ xs → (∀ x ∈ xs, x ≠ a → f x = []) →
    xs.flatMap f = f a
  | [], _, h, _ => by cases h
  | x :: xs, hn, h, hx => by
    rw [List.nodup_cons] at hn
    rw [List.flatMap_cons]
    by_cases hxa : x = a
    · subst hxa
      rw [List.flatMap_eq_nil_iff.2 fun y hy => hx y (List.mem_cons_of_mem _ hy) fun e => hn.1 (e ▸ hy), List.append_nil]
    · rw [hx x List.mem_cons_self hxa, List.nil_append,
        flatMap_single f xs hn.2 ((List.mem_cons.1 h).resolve_left fun e => hxa e.symm) fun y hy => hx y (List.mem_cons_of_mem _ hy)]

/-! ## The rest of the request -/

theorem request_write_ok (hb : w.RequestSides cls) {x : GMember} (hx : x ∈ w.model.members cls) {ts : List Text}
    {es : List (Text × Text)} {u : Http.Member × Val} (hf : Fits w x ts es (.write u)) (p : Http.Parts) :
    ∃ p', p.writeRequest u.1 u.2 = .ok p' ∧ p'.path = p.path := by
  unfold Http.Parts.writeRequest
  rcases place_sides hb hx with ⟨hp, hl⟩ | ⟨k, hp, hl, hk⟩ | ⟨hp, hl⟩ | ⟨k, hp, hl, hk⟩ | ⟨k, hp, hl, hk⟩ | ⟨hp, hl⟩ <;> simp only [Fits, hp] at hf
  · obtain ⟨t, l, _, h, _⟩ := hf
    cases h
  · obtain ⟨val, h, hv⟩ := hf
    cases h
    rcases hv with rfl | ⟨t, _, rfl⟩ <;> simp only [hl, Http.queryEntries, hk] <;> exact ⟨_, rfl, rfl⟩
  · obtain ⟨kvs, h, _⟩ := hf
    cases h
    simp only [hl, Http.queryEntries]
    exact ⟨_, rfl, rfl⟩
  · obtain ⟨val, h, hv⟩ := hf
    cases h
    rcases hv with rfl | ⟨t, _, rfl⟩ <;> simp only [hl, Http.headerEntries, hk] <;> exact ⟨_, rfl, rfl⟩
  · cases hf
    simp only [hl, Http.headerEntries, hk]
    exact ⟨_, rfl, rfl⟩
  · obtain ⟨val, h⟩ := hf
    cases h
    rcases hl with hl | hl <;> simp only [hl] <;> exact ⟨_, rfl, rfl⟩

theorem request_writeAll_ok : ∀ (ws : List (Http.Member × Val)),
    (∀ u ∈ ws, ∀ p : Http.Parts, ∃ p', p.writeRequest u.1 u.2 = .ok p' ∧ p'.path = p.path) →
    ∀ p : Http.Parts, ∃ p', writeAll Http.Parts.writeRequest p ws = .ok p' ∧ p'.path = p.path
  | [], _, p => ⟨p, rfl, rfl⟩
  | (m, v) :: ws, h, p => by
    obtain ⟨p', hp, h1⟩ := h (m, v) List.mem_cons_self p
    obtain ⟨p'', hp', h2⟩ := request_writeAll_ok ws (fun u hu => h u (List.mem_cons_of_mem _ hu)) p'
    exact ⟨p'', by simp only [writeAll, hp, hp'], h2.trans h1⟩

theorem request_no_payload (hb : w.RequestBound cls) : ∀ m ∈ w.members cls, matchRequest m ≠ .payload := by
  intro m hm
  obtain ⟨x, hx, rfl⟩ := List.mem_map.1 hm
  rcases place_cases hb hx with ⟨_, h⟩ | ⟨_, _, h, _⟩ | ⟨_, h⟩ | ⟨_, _, h, _⟩ | ⟨_, _, h, _⟩ | ⟨_, h⟩ <;> rw [h] <;> simp

theorem request_no_stream (hb : w.RequestSides cls) : ∀ m ∈ w.members cls, ¬(m.streaming = true ∧ m.shape = .union) := by
  rintro m hm ⟨h, _⟩
  obtain ⟨x, hx, rfl⟩ := List.mem_map.1 hm
  have := hb.streams x hx
  rw [show (w.member x).streaming = w.model.isStream x from rfl, this] at h
  cases h

theorem request_serialize_ok (hb : w.RequestBound cls) (env : Http.Env) (query : Bytes) (omitEmpty : Bool)
    {ws : List (Http.Member × Val)} (hws : ∀ u ∈ ws, ∃ x ∈ w.model.members cls, ∃ ts es, Fits w x ts es (.write u)) :
    ∃ r, serializeRequest env [] query omitEmpty (w.members cls) ws = .ok r := by
  obtain ⟨p, hp, hpath⟩ := request_writeAll_ok ws (fun u hu p => by
    obtain ⟨x, hx, ts, es, h⟩ := hws u hu
    exact request_write_ok hb.toRequestSides hx h p) {}
  obtain ⟨_, h2, h3⟩ := add_spec matchRequest (w.members cls) {}
  have e1 : (Matcher.of matchRequest (w.members cls)).eventStream = none := h3 (request_no_stream hb.toRequestSides)
  have e2 : (Matcher.of matchRequest (w.members cls)).payloadMember = none := (h2 (request_no_payload hb)).1
  have e3 : Uri.serializePath ([] : List (Uri.Piece Text)) [] = .ok [] := rfl
  have hpath' : p.path = [] := hpath
  unfold serializeRequest
  rw [hp]
  simp only [payloadOf, e1, e2, hpath', List.map_nil]
  cases (Matcher.of matchRequest (w.members cls)).shouldWriteBody omitEmpty <;>
    simp only [if_true, Bool.false_eq_true, if_false, Bool.false_and, e3] <;> exact ⟨_, rfl⟩

/-- The request, but for its body: the labels, the query and the headers. -/
theorem request_rest (hw : w.Ok nearest) (hb : w.RequestSides cls) {ms : List GMember} (hs : w.model.shape cls = some (.struct ms))
    {value : GMember → P} {texts : GMember → List Text} {xs : List GMember} (hxs : xs = ms.filter fun x => !(value x).isNone)
    (hin : ∀ x, x ∈ xs ↔ x ∈ ms ∧ value x ≠ .none) (hempty : ∀ x ∈ ms, value x = .none → texts x = [])
    (hnn : ∀ x ∈ ms, value x ≠ .none → (value x).isNone = false)
    (hpre : ∀ x ∈ ms, ∀ pre, w.place x = .prefixed pre → ∀ e ∈ entriesOf (value x),
      w.lower (pre ++ e.1) ≠ w.lower "content-type".toList ∧ w.lower (pre ++ e.1) ≠ w.lower "content-length".toList)
    {items : List Item}
    (hfits : List.Forall₂ (fun x item => Fits w x (texts x) (entriesOf (value x)) item) xs items)
    {ps : List (Piece Bytes)} (hps : Uri.Pattern.Valid ps) (hlit : ∀ t, Piece.lit t ∈ ps → PlainLiteral t)
    (hself : ∀ x ∈ ms, w.place x = .label → utf8 x.name ≠ asc "self") {cs : List (Call Double DateTime)} {query : Bytes}
    {omitEmpty : Bool} {hr : Http.Request}
    (hreq : serializeRequest (w.env cs) [] query omitEmpty (w.members cls) (writesIn items) = .ok hr) :
    (∀ x ∈ ms, w.place x = .label → ∀ t, texts x = [t] → filling (labelsIn items) (utf8 x.name) = utf8 t) ∧
    ((∃ path, Uri.Pattern.path (render ps) (labelsIn items) = .ok path) ↔
      (∀ p ∈ labels ps, ∃ x ∈ ms, w.place x = .label ∧ utf8 x.name = p ∧ value x ≠ .none) ∧
      ¬ EmptySegment (intended (IsGreedy ps) (filling (labelsIn items)) ps)) ∧
    ∀ path, Uri.Pattern.path (render ps) (labelsIn items) = .ok path →
      ((split (ch '/') path).map unquote = segments (intended (IsGreedy ps) (filling (labelsIn items)) ps) ∧ ch '?' ∉ path ∧
        ch '#' ∉ path) ∧
      parseQuery hr.query = parseQuery query ++ ms.flatMap (fun x => match w.place x with
        | .query k => (texts x).map fun t => (utf8 k, some (utf8 t))
        | .params => (entriesOf (value x)).map fun e => (utf8 e.1, some (utf8 e.2))
        | _ => []) ∧
      (∀ name, w.lower name ≠ w.lower "content-type".toList → w.lower name ≠ w.lower "content-length".toList →
        fieldValues w.lower hr.fields name = ms.flatMap fun x => match w.place x with
          | .header k => if w.lower k = w.lower name then texts x else []
          | .prefixed pre => (entriesOf (value x)).filterMap fun e => if w.lower (pre ++ e.1) = w.lower name then some e.2 else none
          | _ => []) ∧
      ∃ ct len req, payloadOf (w.env cs) (Matcher.of matchRequest (w.members cls))
          (fun s => s = .blob || s = .string || s = .enum) omitEmpty (Http.bodyOf matchRequest (writesIn items)) =
            .ok (hr.body, ct, len, req) ∧
        ∀ name, name = "content-type".toList ∨ name = "content-length".toList →
          fieldValues w.lower hr.fields name = valuesOf w.lower (extraHeaders (w.env cs) ct len) name := by
  have hms : w.model.members cls = ms := by simp only [Model.members, hs]
  have hnd : ms.Nodup := List.Nodup.of_map _ (hw.names.attrs cls ms hs)
  have hxm : ∀ x ∈ xs, x ∈ w.model.members cls := fun x h => hms ▸ ((hin x).1 h).1
  have hlab : ∀ p l, (p, l) ∈ labelsIn items → ∃ x ∈ xs, w.place x = .label ∧ p = utf8 x.name ∧ l.Proper ∧
      ∃ t, texts x = [t] ∧ l.plain = utf8 t := by
    intro p l h
    obtain ⟨x, hx', hf⟩ := forall₂_right hfits _ (mem_labelsIn.1 h)
    rcases place_sides hb (hxm x hx') with ⟨hp, -⟩ | ⟨k, hp, -⟩ | ⟨hp, -⟩ | ⟨k, hp, -⟩ | ⟨k, hp, -⟩ | ⟨hp, -⟩ <;> simp only [Fits, hp] at hf
    · obtain ⟨t, l', h1, h2, h3, h4⟩ := hf
      cases h2
      exact ⟨x, hx', hp, rfl, h3, t, h1, h4⟩
    · obtain ⟨_, h, _⟩ := hf; cases h
    · obtain ⟨_, h, _⟩ := hf; cases h
    · obtain ⟨_, h, _⟩ := hf; cases h
    · cases hf
    · obtain ⟨_, h⟩ := hf; cases h
  have hlab' : ∀ x ∈ xs, w.place x = .label → ∃ l, (utf8 x.name, l) ∈ labelsIn items := by
    intro x h hp
    obtain ⟨item, hi, hf⟩ := forall₂_left hfits x h
    simp only [Fits, hp] at hf
    obtain ⟨t, l, _, rfl, _⟩ := hf
    exact ⟨l, mem_labelsIn.2 hi⟩
  have hproper : ∀ u ∈ labelsIn items, u.2.Proper := by
    rintro ⟨p, l⟩ h
    obtain ⟨_, _, _, _, h, _⟩ := hlab p l h
    exact h
  have hnoself : ∀ l, (asc "self", l) ∉ labelsIn items := by
    intro l h
    obtain ⟨x, hx', hp, he, _⟩ := hlab _ _ h
    exact hself x ((hin x).1 hx').1 hp he.symm
  refine ⟨?_, ?_, ?_⟩
  · intro x h hp t ht
    have hxx : x ∈ xs := (hin x).2 ⟨h, fun he => by rw [hempty x h he] at ht; cases ht⟩
    have := Uri.Pattern.lastWritten_some.2 (hlab' x hxx hp)
    obtain ⟨l, hl⟩ := Option.isSome_iff_exists.1 this
    obtain ⟨y, hy, hyp, he, _, t', ht', hpl⟩ := hlab _ _ (Uri.Pattern.lastWritten_mem hl)
    have hyx : y = x := name_inj _ (hw.names.names cls) x (hxm x hxx) y (hxm y hy) (utf8_inj he.symm)
    rw [hyx, ht] at ht'
    cases ht'
    simp only [filling, hl, Option.map_some, Option.getD_some, hpl]
  · rw [C97_succeeds_partial ps hps hlit (labelsIn items) hproper hnoself]
    refine and_congr_left fun _ => forall_congr' fun p => imp_congr_right fun _ => ?_
    constructor
    · rintro ⟨l, hl⟩
      obtain ⟨x, hx', hp, he, _⟩ := hlab _ _ hl
      exact ⟨x, ((hin x).1 hx').1, hp, he.symm, ((hin x).1 hx').2⟩
    · rintro ⟨x, h, hp, rfl, hne⟩
      exact hlab' x ((hin x).2 ⟨h, hne⟩) hp
  · intro path hpath
    obtain ⟨hheaders, hquery, -, -⟩ := C29_request_contents (w.env cs) [] query omitEmpty (w.members cls) (writesIn items) hr hreq
      matchRequest fun m => (C29_request_location m _).2 rfl
    obtain ⟨ct, len, req, hpay, hfields, -⟩ := serializeRequest_ok hreq
    have hnone : ∀ x ∈ ms, (!(value x).isNone) = false → texts x = [] ∧ entriesOf (value x) = [] := by
      intro x h he
      have : value x = .none := Classical.byContradiction fun hne => by
        rw [hnn x h hne] at he
        cases he
      exact ⟨hempty x h this, by rw [this]; rfl⟩
    have hvals : ∀ name, valuesOf w.lower (headersOf matchRequest (writesIn items)) name = ms.flatMap fun x => match w.place x with
        | .header k => if w.lower k = w.lower name then texts x else []
        | .prefixed pre => (entriesOf (value x)).filterMap fun e => if w.lower (pre ++ e.1) = w.lower name then some e.2 else none
        | _ => [] := by
      intro name
      rw [items_headers hb w.lower name xs items hxm hfits, hxs]
      refine flatMap_filter_of _ _ _ fun x h he => ?_
      rw [(hnone x h he).1, (hnone x h he).2]
      split
      · exact ite_self _
      · rfl
      · rfl
    have hhk : ∀ x ∈ ms, ∀ k, w.place x = .header k → (w.traits x).header = some k := fun x h k hp =>
      (place_header hp).2
    have hown : ∀ name, name = "content-type".toList ∨ name = "content-length".toList →
        valuesOf w.lower (headersOf matchRequest (writesIn items)) name = [] := by
      intro name hname
      rw [hvals, List.flatMap_eq_nil_iff]
      intro x h
      split
      · next k hp =>
        obtain ⟨g1, g2⟩ := hb.own x (hms ▸ h) k (hhk x h k hp)
        rcases hname with rfl | rfl
        · rw [if_neg g1]
        · rw [if_neg g2]
      · next pre hp =>
        refine List.filterMap_eq_nil_iff.2 fun e he => ?_
        obtain ⟨g1, g2⟩ := hpre x h pre hp e he
        rcases hname with rfl | rfl
        · rw [if_neg g1]
        · rw [if_neg g2]
      · rfl
    have hfv : ∀ name, fieldValues w.lower hr.fields name = valuesOf w.lower (headersOf matchRequest (writesIn items)) name ++
        valuesOf w.lower (extraHeaders (w.env cs) ct len) name := by
      intro name
      rw [hfields, ← Http.valuesOf_append]
      exact Http.fieldValues_toFields (w.env cs) _ name
    refine ⟨C97_partial ps hps hlit (labelsIn items) hproper hnoself path hpath, ?_, ?_, ct, len, req, hpay, fun name h => by rw [hfv, hown name h, List.nil_append]⟩
    · show parseQuery hr.query = _
      rw [hquery, items_query hb xs items hxm hfits, hxs, List.map_flatMap, flatMap_filter_of]
      · congr 1
        refine congrArg (fun f => List.flatMap f ms) (funext fun x => ?_)
        split
        · rw [List.map_map]; rfl
        · rfl
        · rfl
      · intro x h he
        rw [(hnone x h he).1, (hnone x h he).2]
        split <;> rfl
    · intro name g1 g2
      exact (hheaders name g1 g2).trans (hvals name)

/-- A request is made if there is a path. -/
theorem request_iff {f : Bytes → Request} {path : Except Uri.Pattern.Err Bytes} :
    (∃ r, (match path with
        | .error e => .error (.path e)
        | .ok path => .ok (f path) : Except ReqErr Request) = .ok r) ↔ ∃ q, path = .ok q := by
  cases path <;> simp

/-! ## The theorem -/

/-- **C130**: the request of an operation carries the input.  Each label of the path, each query parameter and each header has the
texts that say the value of the attribute that is bound to it; the path is that of the pattern with the labels filled in; the query
that the operation has stays in front; maps add a parameter or a header for each entry; the body is the document with the values of all other attributes, and only then are there a
content type and a content length.  There is a request exactly if all labels have values and no segment that something follows is
empty.
Missing: event streams, payloads, host labels and the method. -/
theorem C130_request_partial (hw : w.Ok nearest) (hb : w.RequestBound cls) {ms : List GMember}
    (hs : w.model.shape cls = some (.struct ms)) {value : GMember → P} (hx : ∀ x ∈ ms, RequestField w nearest cls x (value x)) {v : P}
    (hv : v = .object cls ((w.model.attributes ms).map fun x => (x.attr, value x))) {n : Nat} (hn : v.depth ≤ n)
    {ps : List (Piece Bytes)} (hps : Uri.Pattern.Valid ps) (hlit : ∀ t, Piece.lit t ∈ ps → PlainLiteral t)
    (hself : ∀ x ∈ ms, w.place x = .label → utf8 x.name ≠ asc "self") (query : Bytes) (omitEmpty : Bool) :
    ∃ (texts : GMember → List Text) (fill : Bytes → Bytes),
      (∀ x ∈ ms, Reads w cls x (texts x) (value x)) ∧
      (∀ x ∈ ms, w.place x = .label → ∀ t, texts x = [t] → fill (utf8 x.name) = utf8 t) ∧
      ((∃ r, w.request n cls v (render ps) query omitEmpty = .ok r) ↔
        (∀ p ∈ labels ps, ∃ x ∈ ms, w.place x = .label ∧ utf8 x.name = p ∧ value x ≠ .none) ∧
        ¬ EmptySegment (intended (IsGreedy ps) fill ps)) ∧
      ∀ r, w.request n cls v (render ps) query omitEmpty = .ok r →
        ((split (ch '/') r.path).map unquote = segments (intended (IsGreedy ps) fill ps) ∧ ch '?' ∉ r.path ∧ ch '#' ∉ r.path) ∧
        parseQuery r.query = parseQuery query ++ ms.flatMap (fun x => match w.place x with
          | .query k => (texts x).map fun t => (utf8 k, some (utf8 t))
          | .params => (entriesOf (value x)).map fun e => (utf8 e.1, some (utf8 e.2))
          | _ => []) ∧
        (∀ name, w.lower name ≠ w.lower "content-type".toList → w.lower name ≠ w.lower "content-length".toList →
          fieldValues w.lower r.fields name = ms.flatMap fun x => match w.place x with
            | .header k => if w.lower k = w.lower name then texts x else []
            | .prefixed pre => (entriesOf (value x)).filterMap fun e => if w.lower (pre ++ e.1) = w.lower name then some e.2 else none
            | _ => []) ∧
        ((∃ x ∈ ms, w.place x = .body) ∨ omitEmpty = false →
          ∃ (b : Bytes) (xs : List GMember) (vs : GMember → P), r.body = .bytes b ∧ fieldValues w.lower r.fields "content-type".toList = ["application/json".toList] ∧
            fieldValues w.lower r.fields "content-length".toList = [natText b.length] ∧
            xs.Nodup ∧ (∀ x, x ∈ xs ↔ x ∈ ms ∧ w.place x = .body ∧ value x ≠ .none) ∧
            w.decode cls b = .ok (xs.map fun x => (w.member x, vs x)) ∧ ∀ x ∈ xs, Same (value x) (vs x)) ∧
        (¬((∃ x ∈ ms, w.place x = .body) ∨ omitEmpty = false) →
          r.body = .bytes [] ∧ fieldValues w.lower r.fields "content-type".toList = [] ∧
            fieldValues w.lower r.fields "content-length".toList = []) := by
  subst hv
  have hms : w.model.members cls = ms := by simp only [Model.members, hs]
  have hstr : ∀ x ∈ ms, w.model.isStream x = false := fun x h => hb.streams x (hms ▸ h)
  have hattr : ∀ x, x ∈ w.model.attributes ms ↔ x ∈ ms := fun x =>
    mem_attributes.trans ⟨fun h => h.1, fun h => ⟨h, hstr x h⟩⟩
  simp only [Py.depth] at hn
  obtain ⟨n, rfl⟩ : ∃ n', n = n' + 1 := ⟨n - 1, by omega⟩
  have hdepth : ∀ x ∈ ms, (value x).depth ≤ n := by
    intro x h
    have := depth_entry _ _ (List.mem_map_of_mem (f := fun x => (x.attr, value x)) ((hattr x).2 h))
    simp only at this
    omega
  have hlook : ∀ x ∈ ms, ((w.model.attributes ms).map fun x => (x.attr, value x)).lookup x.attr = some (value x) := fun x h =>
    lookup_field _ x ((hattr x).2 h) fun y hy he => attr_inj ms (hw.names.attrs cls ms hs) x h y ((hattr y).1 hy) he
  have hall : ∀ x, ∃ ts : List Text, x ∈ ms → Reads w cls x ts (value x) ∧ (value x = .none → ts = []) ∧
      (value x ≠ .none → (value x).isNone = false ∧ ∃ c, w.model.memberCall n x.target (.member cls x.name) (value x) = .ok c ∧
        (w.place x = .body → Good w.model w.st w.rd x.target (.member cls x.name) (value x) c ∧
          ∀ i, w.toItem cls i c = .ok (.write (w.member x, .other i))) ∧
        ∀ i, ∃ item, w.toItem cls i c = .ok item ∧ Fits w x ts (entriesOf (value x)) item) := by
    intro x
    by_cases h : x ∈ ms
    · by_cases hne : value x = .none
      · refine ⟨[], fun _ => ⟨?_, fun _ => rfl, fun h' => absurd hne h'⟩⟩
        rw [hne]
        unfold Reads
        split <;> first | exact .none | trivial
      · obtain ⟨h1, c, ts, h2, h3, h4, h5⟩ := field_item hw hb.toRequestSides hs h (fun _ => hb.payload x (hms ▸ h)) (hx x h) hne (hdepth x h)
        exact ⟨ts, fun _ => ⟨h3, fun h' => absurd h' hne, fun _ => ⟨h1, c, h2, h4, h5⟩⟩⟩
    · exact ⟨[], fun h' => absurd h' h⟩
  choose texts hall using hall
  -- what is written
  obtain ⟨cs, hcs, hcall⟩ := fieldCalls_ok (w := w) (value := value)
    (call := fun x v => w.model.memberCall n x.target (.member cls x.name) v)
    (fields := (w.model.attributes ms).map fun x => (x.attr, value x)) ms (by
      intro x h
      refine ⟨hstr x h, hlook x h, ?_⟩
      by_cases hne : value x = .none
      · refine .inl ⟨?_, hne⟩
        have hf := hx x h
        rw [hne] at hf
        have hu : ∀ {id s}, ¬ UrlOk w nearest id s .none := by
          intro id s hu
          cases hu with
          | plain _ h => cases h
        cases hf with
        | absent hnull hdef =>
          rcases hdef with hdef | ⟨hdef, hdoc⟩
          · simp [Model.mayBeNone, hnull, hdef]
          · unfold Model.mayBeNone
            split
            · rename_i h; exact absurd h hdoc
            · simp [hnull]
        | body _ h => exact absurd (typed_notNone h) (by simp [Py.isNone])
        | label _ h => exact absurd h hu
        | query _ h => exact absurd h hu
        | header _ h => cases h
      · obtain ⟨h1, c, h2, _⟩ := (hall x h).2.2 hne
        exact .inr ⟨h1, c, h2⟩)
  obtain ⟨xs, hxs⟩ : ∃ xs, xs = ms.filter fun x => !(value x).isNone := ⟨_, rfl⟩
  rw [← hxs] at hcall
  have hin : ∀ x, x ∈ xs ↔ x ∈ ms ∧ value x ≠ .none := by
    intro x
    rw [hxs, List.mem_filter]
    constructor
    · rintro ⟨h, h'⟩
      refine ⟨h, fun he => ?_⟩
      rw [he] at h'
      exact absurd h' (by simp [Py.isNone])
    · rintro ⟨h, hne⟩
      exact ⟨h, by rw [((hall x h).2.2 hne).1]; rfl⟩
  have hnd : ms.Nodup := List.Nodup.of_map _ (hw.names.attrs cls ms hs)
  have hxnd : xs.Nodup := hxs ▸ hnd.filter _
  have hxm : ∀ x ∈ xs, x ∈ w.model.members cls := fun x h => hms ▸ ((hin x).1 h).1
  obtain ⟨items, hitems, hfits, hgood⟩ := toItems_ok hb (value := value) (texts := texts) cs xs cs [] rfl hxm
    (forall₂_imp hcall fun x h c hc => by
      obtain ⟨_, c', h1, h2⟩ := (hall x ((hin x).1 h).1).2.2 ((hin x).1 h).2
      rw [hc] at h1
      cases h1
      exact h2)
  obtain ⟨hr, hreq⟩ := request_serialize_ok hb (w.env cs) query omitEmpty (ws := writesIn items) fun u hu => by
    obtain ⟨x, h, hp⟩ := forall₂_right hfits _ (mem_writesIn.1 hu)
    exact ⟨x, hxm x h, _, _, hp⟩
  simp only [List.length_nil] at hitems
  have hrequest : w.request (n + 1) cls (.object cls ((w.model.attributes ms).map fun x => (x.attr, value x))) (render ps) query
      omitEmpty = match Uri.Pattern.path (render ps) (labelsIn items) with
        | .error e => .error (.path e)
        | .ok path => .ok { fields := hr.fields, path := path, query := hr.query, body := hr.body } := by
    unfold World.request Model.serialize
    simp only [Model.memberCall, hs, hcs, hitems, hreq]
    cases Uri.Pattern.path (render ps) (labelsIn items) <;> rfl
  obtain ⟨hfill, hiff, hrest⟩ := request_rest hw hb.toRequestSides hs hxs hin (fun x h => (hall x h).2.1)
    (fun x h hne => ((hall x h).2.2 hne).1) (fun x h pre hp => prefixed_own (hx x h) hp) hfits hps hlit hself hreq
  refine ⟨texts, filling (labelsIn items), fun x h => (hall x h).1, hfill, ?_, ?_⟩
  · rw [hrequest, ← hiff]
    exact request_iff (f := fun path => { fields := hr.fields, path := path, query := hr.query, body := hr.body })
  · intro r hrr
    rw [hrequest] at hrr
    cases hpath : Uri.Pattern.path (render ps) (labelsIn items) with
    | error e => rw [hpath] at hrr; cases hrr
    | ok path =>
    rw [hpath] at hrr
    cases hrr
    obtain ⟨hP1, hP2, hP3, ct, len, req, hpay, hfv⟩ := hrest path hpath
    obtain ⟨hB, hP, hE⟩ := add_spec matchRequest (w.members cls) {}
    have e1 : (Matcher.of matchRequest (w.members cls)).eventStream = none := hE (request_no_stream hb.toRequestSides)
    have e2 : (Matcher.of matchRequest (w.members cls)).payloadMember = none := (hP (request_no_payload hb)).1
    have e4 : (Matcher.of matchRequest (w.members cls)).hasPayload = false := (hP (request_no_payload hb)).2
    have hbm : ∀ x ∈ ms, (w.place x = .body ↔ matchRequest (w.member x) = .body) := by
      intro x h
      rcases place_cases hb (hms ▸ h) with ⟨hp, hl⟩ | ⟨k, hp, hl, _⟩ | ⟨hp, hl⟩ | ⟨k, hp, hl, _⟩ | ⟨k, hp, hl, _⟩ | ⟨hp, hl⟩ <;> rw [hp, hl] <;> simp
    have hwrite : (Matcher.of matchRequest (w.members cls)).shouldWriteBody omitEmpty = true ↔
        (∃ x ∈ ms, w.place x = .body) ∨ omitEmpty = false := by
      have : (Matcher.of matchRequest (w.members cls)).hasBody = true ↔ ∃ x ∈ ms, w.place x = .body := by
        unfold Matcher.of
        rw [hB]
        constructor
        · rintro (h | ⟨m, hm, hl⟩)
          · cases h
          · obtain ⟨x, hx', rfl⟩ := List.mem_map.1 hm
            rw [hms] at hx'
            rcases hl with hl | hl
            · exact ⟨x, hx', (hbm x hx').2 hl⟩
            · rcases place_cases hb (hms ▸ hx') with ⟨_, h⟩ | ⟨_, _, h, _⟩ | ⟨_, h⟩ | ⟨_, _, h, _⟩ | ⟨_, _, h, _⟩ | ⟨_, h⟩ <;> rw [hl] at h <;> cases h
        · rintro ⟨x, h, hp⟩
          exact .inr ⟨w.member x, List.mem_map_of_mem (hms ▸ h), .inl ((hbm x h).1 hp)⟩
      rw [← this]
      simp [Matcher.shouldWriteBody, e4]
    have hlow : ¬ w.lower "content-length".toList = w.lower "content-type".toList := fun h => hw.lower h.symm
    have hlow' := hw.lower
    refine ⟨hP1, hP2, hP3, ?_, ?_⟩
    · intro hcond
      have e3 := hwrite.2 hcond
      have hbodyOf : Http.bodyOf matchRequest (writesIn items) = (writesIn items).filter fun u => matchRequest u.1 = .body := by
        refine List.filter_congr fun u hu => ?_
        obtain ⟨x, h, hp⟩ := forall₂_right hfits _ (mem_writesIn.1 hu)
        rcases place_cases hb (hxm x h) with ⟨hpl, hl⟩ | ⟨k, hpl, hl, _⟩ | ⟨hpl, hl⟩ | ⟨k, hpl, hl, _⟩ | ⟨k, hpl, hl, _⟩ | ⟨hpl, hl⟩ <;> simp only [Fits, hpl] at hp
        · obtain ⟨_, _, _, h, _⟩ := hp; cases h
        · obtain ⟨_, h, _⟩ := hp; cases h; simp [hl]
        · obtain ⟨_, h, _⟩ := hp; cases h; simp [hl]
        · obtain ⟨_, h, _⟩ := hp; cases h; simp [hl]
        · cases hp; simp [hl]
        · obtain ⟨_, h⟩ := hp; cases h; simp [hl]
      have hxsb : ∀ x ∈ xs.filter (fun x => matchRequest (w.member x) = .body), x ∈ ms ∧ w.model.isStream x = false :=
        fun x h => ⟨((hin x).1 (List.mem_filter.1 h).1).1, hstr x ((hin x).1 (List.mem_filter.1 h).1).1⟩
      obtain ⟨doc, js, hdoc, -, hparse, hdecode⟩ := decode_ok hw hs hxsb
        ((hxnd.filter _).map_on fun a ha b hb' h => attr_inj ms (hw.names.attrs cls ms hs) b (hxsb b hb').1 a (hxsb a ha).1 h) hgood
      obtain ⟨vs, hdec, hvs⟩ := hdecode doc js hparse (adds_refl js)
      have henc : (w.env cs).encodeStruct ((writesIn items).filter fun u => matchRequest u.1 = .body) = doc := hdoc
      rw [hbodyOf] at hpay
      simp only [payloadOf, e1, e2, e3, if_true, Except.ok.injEq, Prod.mk.injEq, henc] at hpay
      obtain ⟨hpb, hct, hlen, -⟩ := hpay
      refine ⟨doc, _, vs, hpb.symm, ?_, ?_, hxnd.filter _, fun x => ?_, hdec, hvs⟩
      · show fieldValues w.lower hr.fields _ = _
        rw [hfv _ (.inl rfl), ← hct, ← hlen]
        simp only [extraHeaders, valuesOf, List.nil_append, List.cons_append, List.filter_cons, hlow,
          decide_false, decide_true, Bool.false_eq_true, if_false, if_true, List.filter_nil, List.map_cons, List.map_nil]
        rfl
      · show fieldValues w.lower hr.fields _ = _
        rw [hfv _ (.inr rfl), ← hct, ← hlen]
        simp only [extraHeaders, valuesOf, List.nil_append, List.cons_append, List.filter_cons, hlow',
          decide_false, decide_true, Bool.false_eq_true, if_false, if_true, List.filter_nil, List.map_cons, List.map_nil]
        rfl
      · rw [List.mem_filter, hin, decide_eq_true_iff]
        constructor
        · rintro ⟨⟨h, hne⟩, hl⟩
          exact ⟨h, (hbm x h).2 hl, hne⟩
        · rintro ⟨h, hp, hne⟩
          exact ⟨⟨h, hne⟩, (hbm x h).1 hp⟩
    · intro hcond
      have e3 : (Matcher.of matchRequest (w.members cls)).shouldWriteBody omitEmpty = false := by
        rw [Bool.eq_false_iff]
        exact fun h => hcond (hwrite.1 h)
      have hbodyOf : Http.bodyOf matchRequest (writesIn items) = [] := by
        refine List.filter_eq_nil_iff.2 fun u hu => ?_
        obtain ⟨x, h, hp⟩ := forall₂_right hfits _ (mem_writesIn.1 hu)
        rcases place_cases hb (hxm x h) with ⟨hpl, hl⟩ | ⟨k, hpl, hl, _⟩ | ⟨hpl, hl⟩ | ⟨k, hpl, hl, _⟩ | ⟨k, hpl, hl, _⟩ | ⟨hpl, hl⟩ <;> simp only [Fits, hpl] at hp
        · obtain ⟨_, _, _, h, _⟩ := hp; cases h
        · obtain ⟨_, h, _⟩ := hp; cases h; simp [hl]
        · obtain ⟨_, h, _⟩ := hp; cases h; simp [hl]
        · obtain ⟨_, h, _⟩ := hp; cases h; simp [hl]
        · cases hp; simp [hl]
        · have h' := (add_spec matchRequest (w.members cls) {}).1.2 (.inr ⟨w.member x, List.mem_map_of_mem (hxm x h), .inl hl⟩)
          have h'' : (Matcher.of matchRequest (w.members cls)).hasBody = true := h'
          simp [Matcher.shouldWriteBody, h''] at e3
      rw [hbodyOf] at hpay
      simp only [payloadOf, e1, e2, e3, Bool.false_eq_true, if_false, Except.ok.injEq, Prod.mk.injEq] at hpay
      obtain ⟨hpb, hct, hlen, -⟩ := hpay
      refine ⟨hpb.symm, ?_, ?_⟩
      · show fieldValues w.lower hr.fields _ = _
        rw [hfv _ (.inl rfl), ← hct, ← hlen]
        rfl
      · show fieldValues w.lower hr.fields _ = _
        rw [hfv _ (.inr rfl), ← hct, ← hlen]
        rfl

end Verif.RestJson

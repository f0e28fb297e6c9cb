import Verif.RestJson.Header

/-!
# The output of an operation, from the service to the caller: what is written (C129)
-/

set_option autoImplicit false

namespace Verif.RestJson

open Verif.GeneratedSerde (Py Ref Model Shape Simple Typed Same Call Good find_name target_member jsonMember_spec view_of
  findMember_spec resolve_member core typed_notNone mem_attributes attr_inj lookup_field each_fields depth_mem depth_entry)
open Verif.Timestamps (DateTime)
open Verif.Http (Binding Val Response matchResponse)
open Verif.Http.Reading (Source REnv RErr Incoming Content)
open Verif.Numerals (natText intText intValue)
open Verif.Scalars.Strict (Num)

variable {w : World} {nearest : Rat → Num Rat}

/-! ## The body -/

theorem adds_refl {cls : Nat} : ∀ js : List (Text × Json.Json), Adds w cls js js
  | [] => .nil
  | _ :: js => .keep (adds_refl js)

/-- The members that come first are others. -/
theorem adds_split {cls : Nat} {js js' : List (Text × Json.Json)} (h : Adds w cls js js') :
    ∃ es js'', js' = es ++ js'' ∧ w.model.Strange w.rd.useJsonName cls es ∧
      (js = [] → js'' = []) ∧ ∀ e r, js = e :: r → ∃ k r', js'' = (e.1, k) :: r' ∧
        (e.2 = k ∨ (w.model.NoStreams ∧ ∀ x ∈ w.model.members cls, Json.jsonKey w.rd.useJsonName ⟨x.name, x.jsonName⟩ = e.1 →
          GeneratedSerde.SameContent w.model w.rd.useJsonName x.target e.2 k)) ∧ Adds w cls r r' := by
  induction h with
  | nil => exact ⟨[], [], rfl, (fun _ h => nomatch h), (fun _ => rfl), fun _ _ h => nomatch h⟩
  | keep h => exact ⟨[], _, rfl, (fun _ h => nomatch h), (fun h => nomatch h), fun e r he => by cases he; exact ⟨_, _, rfl, .inl rfl, h⟩⟩
  | inside hno hc h =>
    exact ⟨[], _, rfl, (fun _ h => nomatch h), (fun h => nomatch h), fun e r he => by cases he; exact ⟨_, _, rfl, .inr ⟨hno, hc⟩, h⟩⟩
  | extra hx _ ih =>
    obtain ⟨es, js'', rfl, h1, h2, h3⟩ := ih
    refine ⟨_ :: es, js'', rfl, ?_, h2, h3⟩
    intro e he
    rcases List.mem_cons.1 he with rfl | he
    · exact hx
    · exact h1 e he

theorem skip_others (hm : w.model.Ok w.rd.useJsonName) {cls : Nat} (p : List Text) (kwargs : List (Text × P)) (tail : List Json.Event)
    (k : Nat) : ∀ es : List (Text × Json.Json), w.model.Strange w.rd.useJsonName cls es →
    w.model.readMembers w.rd (k + es.length) cls kwargs (Json.memberEvents p es ++ tail) = w.model.readMembers w.rd k cls kwargs tail
  | [], _ => rfl
  | (key, j) :: es, h => by
    have h1 := GeneratedSerde.resolve_none hm (id := cls) (key := key) fun x hx => h (key, j) List.mem_cons_self x hx
    rw [List.length_cons, ← Nat.add_assoc]
    simp only [Json.memberEvents, List.cons_append, List.append_assoc]
    rw [Model.readMembers.eq_def]
    simp only [reduceCtorEq, if_false, Json.readString, h1, Json.skip_spec j (p ++ [key]) (by simp)]
    exact skip_others hm p kwargs tail k es fun e he => h e (List.mem_cons_of_mem _ he)

theorem memberEvents_append (p : List Text) (b : List (Text × Json.Json)) : ∀ a : List (Text × Json.Json),
    Json.memberEvents p (a ++ b) = Json.memberEvents p a ++ Json.memberEvents p b
  | [] => rfl
  | (k, y) :: a => by simp only [List.cons_append, Json.memberEvents, memberEvents_append p b a, List.append_assoc]

theorem memberSizes_append (b : List (Text × Json.Json)) : ∀ a : List (Text × Json.Json),
    a.length + Json.memberSizes b ≤ Json.memberSizes (a ++ b)
  | [] => Nat.le_of_eq (Nat.zero_add _)
  | (k, y) :: a => by
    have := memberSizes_append b a
    simp only [List.length_cons, List.cons_append, Json.memberSizes]
    omega

/-- What is read from a value that differs in members that are not known. -/
theorem good_other (hm : w.model.Ok w.rd.useJsonName) (hview : w.rd.view = w.model.view) {cls : Nat} {x : GMember}
    (hmem : x ∈ w.model.members cls) (hf : Json.Fits w.st w.rd) {v : P} {j jk : Json.Json}
    (hr : (j.isNull = true → v = .document .null ∧ w.model.shape x.target = some (.simple .document)) ∧
      ∀ p rest k, (w.model.shape x.target = some (.simple .document) → p ≠ []) → Json.size j ≤ k →
        ∃ v', w.model.read w.rd k x.target (.member cls x.name) (Json.events p j ++ rest) = .ok (v', rest) ∧ Same v v')
    (hjk : j = jk ∨ (w.model.NoStreams ∧ ∀ y ∈ w.model.members cls,
      Json.jsonKey w.rd.useJsonName ⟨y.name, y.jsonName⟩ = Json.jsonKey w.st.useJsonName ⟨x.name, x.jsonName⟩ →
      GeneratedSerde.SameContent w.model w.rd.useJsonName y.target j jk)) :
    (jk.isNull = true → v = .document .null ∧ w.model.shape x.target = some (.simple .document)) ∧
      ∀ p rest k, (w.model.shape x.target = some (.simple .document) → p ≠ []) → Json.size jk ≤ k →
        ∃ v', w.model.read w.rd k x.target (.member cls x.name) (Json.events p jk ++ rest) = .ok (v', rest) ∧ Same v v' := by
  rcases hjk with rfl | ⟨hno, hc⟩
  · exact hr
  · have ha := GeneratedSerde.same_content hm (hc x hmem (by rw [hf.names]))
    have ht := target_member hm hmem
    refine ⟨fun h => hr.1 (ha.2.trans h), fun p rest k hp hk => ?_⟩
    obtain ⟨v', h1, h2⟩ := hr.2 p rest (Json.size j) hp (Nat.le_refl _)
    have h3 := ((GeneratedSerde.any hm hno hview j x.target _ p rest _ ht (Nat.le_refl _) hp v' rest).1 h1).2
    exact ⟨v', (GeneratedSerde.any hm hno hview jk x.target _ p rest k ht hk hp v' rest).2 ⟨rfl, (ha.1 _ _).1 h3⟩, h2⟩

theorem read_written (hm : w.model.Ok w.rd.useJsonName) (hf : Json.Fits w.st w.rd) (hview : w.rd.view = w.model.view)
    {cls : Nat} {value : GMember → P} :
    ∀ (written : List GMember) (cs : List (Call Double DateTime)),
    (∀ x ∈ written, x ∈ w.model.members cls ∧ w.model.isStream x = false) → (written.map (·.attr)).Nodup →
    List.Forall₂ (fun x c => Good w.model w.st w.rd x.target (.member cls x.name) (value x) c) written cs →
    ∃ jcs, w.model.jsonMembers cs = some jcs ∧ Json.NoNanMembers w.st jcs ∧
      ∀ js, Json.MirrorsMembers w.st jcs js → ∀ js', Adds w cls js js' → ∀ kwargs p rest k, Json.memberSizes js' ≤ k →
        (∀ x ∈ written, x.attr ∉ kwargs.map Prod.fst) →
        ∃ vs : GMember → P, w.model.readMembers w.rd k cls kwargs (Json.memberEvents p js' ++ ⟨Json.join p, .endMap⟩ :: rest) =
            .ok (kwargs ++ written.map fun x => (x.attr, vs x), rest) ∧ ∀ x ∈ written, Same (value x) (vs x)
  | [], _, _, _, .nil => by
    refine ⟨[], rfl, trivial, ?_⟩
    rintro js rfl js' ha kwargs p rest k hk _
    obtain ⟨es, js'', rfl, hes, h0, -⟩ := adds_split ha
    cases h0 rfl
    have := memberSizes_append [] es
    have := Json.memberSizes_pos []
    obtain ⟨k, rfl⟩ : ∃ k', k = k' + 1 + es.length := ⟨k - 1 - es.length, by omega⟩
    refine ⟨fun _ => .none, ?_, by simp⟩
    rw [List.append_nil, skip_others hm p kwargs _ _ es hes]
    simp only [Json.memberEvents, List.nil_append, Model.readMembers, if_true, List.map_nil, List.append_nil]
  | x :: written, _, hx, hn, .cons (b := c) (l₂ := cs) hg hgs => by
    simp only [List.map_cons, List.nodup_cons] at hn
    obtain ⟨jcs, h1, h2, h3⟩ := read_written hm hf hview written cs (fun y hy => hx y (List.mem_cons_of_mem _ hy)) hn.2 hgs
    obtain ⟨hmem, hstream⟩ := hx x List.mem_cons_self
    obtain ⟨hs, hw, jc, hj, hnn, hr⟩ := hg
    refine ⟨(⟨x.name, x.jsonName⟩, jc) :: jcs, ?_, ⟨hnn, h2⟩, ?_⟩
    · simp only [Model.jsonMembers, hs, jsonMember_spec hm hmem, hj, h1]
    · rintro js ⟨j, js, rfl, hjm, hjs⟩ js' ha kwargs p rest k hk hkw
      obtain ⟨es, js'', rfl, hes, -, h0⟩ := adds_split ha
      obtain ⟨jk, js', rfl, hjk, ha'⟩ := h0 _ _ rfl
      dsimp only at hjk hk ⊢
      have hsz := memberSizes_append ((Json.jsonKey w.st.useJsonName ⟨x.name, x.jsonName⟩, jk) :: js') es
      simp only [Json.memberSizes] at hsz
      obtain ⟨k, rfl⟩ : ∃ k', k = k' + 1 + es.length := ⟨k - 1 - es.length, by omega⟩
      rw [memberEvents_append, List.append_assoc, skip_others hm p kwargs _ _ es hes]
      obtain ⟨hnl, hrd⟩ := good_other hm hview hmem hf (hr j hjm) hjk
      obtain ⟨v', h7, h8⟩ := hrd (p ++ [Json.jsonKey w.st.useJsonName ⟨x.name, x.jsonName⟩])
        (Json.memberEvents p js' ++ ⟨Json.join p, .endMap⟩ :: rest) k (fun _ => by simp) (by omega)
      have hattr : x.attr ∉ kwargs.map Prod.fst := hkw x List.mem_cons_self
      obtain ⟨vs, h9, h10⟩ := h3 js hjs js' ha' (kwargs ++ [(x.attr, v')]) p rest k (by omega) fun y hy => by
        rw [List.map_append, List.mem_append, not_or]
        refine ⟨hkw y (List.mem_cons_of_mem _ hy), ?_⟩
        simp only [List.map_cons, List.map_nil, List.mem_singleton]
        intro he
        exact hn.1 (he ▸ List.mem_map_of_mem hy)
      refine ⟨fun y => if y.attr = x.attr then v' else vs y, ?_, ?_⟩
      · obtain ⟨e, r, he, hen, _, _⟩ := Json.events_head (p ++ [Json.jsonKey w.st.useJsonName ⟨x.name, x.jsonName⟩]) jk
        have hdoc : ¬ (e.ev = .null ∧ (w.model.view (.member cls x.name)).isDocument = false) := by
          rintro ⟨h, hv⟩
          rw [view_of (target_member hm hmem) (hnl (hen.1 h)).2] at hv
          cases hv
        obtain ⟨i, hi⟩ := List.getElem?_of_mem hmem
        have hmap : (written.map fun y => (y.attr, if y.attr = x.attr then v' else vs y)) =
            written.map fun y => (y.attr, vs y) := by
          refine List.map_congr_left fun y hy => ?_
          rw [if_neg fun he : y.attr = x.attr => hn.1 (he ▸ List.mem_map_of_mem hy)]
        simp only [Json.memberEvents, List.append_assoc, List.cons_append]
        rw [he] at h7 ⊢
        simp only [List.cons_append] at h7 ⊢
        rw [Model.readMembers]
        simp only [reduceCtorEq, if_false, Json.readString, ← hf.names, resolve_member hm hmem, hdoc,
          findMember_spec _ i 0 x (hm.names cls) hi, hstream, Bool.false_eq_true, h7, Json.put_new kwargs _ _ hattr, h9,
          List.append_assoc, List.cons_append, List.nil_append, List.map_cons, if_true, hmap]
      · intro y hy
        rcases List.mem_cons.1 hy with rfl | hy
        · simpa using h8
        · have : y.attr ≠ x.attr := fun he => hn.1 (he ▸ List.mem_map_of_mem hy)
          simp only [this, if_false]
          exact h10 y hy

/-- What is written of an object. -/
theorem fieldCalls_ok {call : GMember → P → Except GeneratedSerde.Err (Call Double DateTime)} {fields : List (Text × P)}
    {value : GMember → P} : ∀ xs : List GMember,
    (∀ x ∈ xs, w.model.isStream x = false ∧ fields.lookup x.attr = some (value x) ∧
      ((w.model.mayBeNone x = true ∧ value x = .none) ∨ ((value x).isNone = false ∧ ∃ c, call x (value x) = .ok c))) →
    ∃ cs, w.model.fieldCalls call fields xs = .ok cs ∧
      List.Forall₂ (fun x c => call x (value x) = .ok c) (xs.filter fun x => !(value x).isNone) cs
  | [], _ => ⟨[], rfl, .nil⟩
  | x :: xs, h => by
    obtain ⟨cs, h1, h2⟩ := fieldCalls_ok xs fun y hy => h y (List.mem_cons_of_mem _ hy)
    obtain ⟨hst, hl, hx⟩ := h x List.mem_cons_self
    rcases hx with ⟨hmay, hnone⟩ | ⟨hnone, c, hc⟩
    · refine ⟨cs, ?_, ?_⟩
      · simp only [Model.fieldCalls, hst, Bool.false_eq_true, if_false, hl, hmay, hnone, Py.isNone, Bool.and_self, if_true, h1]
      · rw [List.filter_cons, if_neg (by simp [hnone, Py.isNone])]
        exact h2
    · refine ⟨c :: cs, ?_, ?_⟩
      · simp only [Model.fieldCalls, hst, Bool.false_eq_true, if_false, hl, hnone, Bool.and_false, hc, h1]
      · rw [List.filter_cons, if_pos (by simp [hnone])]
        exact .cons hc h2

/-! ## Where a member goes -/

section
variable {cls : Nat}

theorem loc_status {x : GMember} (h : (w.traits x).responseCode = true) : matchResponse (w.member x) = .status := by
  simp only [matchResponse, World.member, h, if_true]

theorem loc_header {x : GMember} {k : Text} (h : (w.traits x).responseCode = false) (hk : (w.traits x).header = some k) :
    matchResponse (w.member x) = .header := by
  simp only [matchResponse, World.member, h, hk, Bool.false_eq_true, if_false, Option.isSome_some, if_true]

theorem loc_body (hb : w.Bound cls) {x : GMember} (hx : x ∈ w.model.members cls) (h : (w.traits x).responseCode = false)
    (hk : (w.traits x).header = none) (hp : (w.traits x).prefixHeaders = none) : matchResponse (w.member x) = .body := by
  simp only [matchResponse, World.member, h, hk, hb.payload x hx, hp, Bool.false_eq_true, if_false,
    Option.isSome_none]

theorem loc_prefixed {x : GMember} {p : Text} (h : (w.traits x).responseCode = false)
    (hk : (w.traits x).header = none) (hp : (w.traits x).prefixHeaders = some p) : matchResponse (w.member x) = .prefixHeaders := by
  simp only [matchResponse, World.member, h, hk, hp, Bool.false_eq_true, if_false, Option.isSome_none, Option.isSome_some, if_true]

theorem loc_cases (hb : w.Bound cls) {x : GMember} (hx : x ∈ w.model.members cls) :
    ((w.traits x).responseCode = true ∧ matchResponse (w.member x) = .status) ∨
    ((w.traits x).responseCode = false ∧ ∃ k, (w.traits x).header = some k ∧ matchResponse (w.member x) = .header) ∨
    ((w.traits x).responseCode = false ∧ (w.traits x).header = none ∧ (w.traits x).prefixHeaders = none ∧
      matchResponse (w.member x) = .body) ∨
    ((w.traits x).responseCode = false ∧ (w.traits x).header = none ∧ ∃ p, (w.traits x).prefixHeaders = some p ∧
      matchResponse (w.member x) = .prefixHeaders) := by
  cases h : (w.traits x).responseCode with
  | true => exact .inl ⟨rfl, loc_status h⟩
  | false =>
    cases hk : (w.traits x).header with
    | some k => exact .inr (.inl ⟨rfl, k, rfl, loc_header h hk⟩)
    | none =>
      cases hp : (w.traits x).prefixHeaders with
      | none => exact .inr (.inr (.inl ⟨rfl, rfl, rfl, loc_body hb hx h hk hp⟩))
      | some p => exact .inr (.inr (.inr ⟨rfl, rfl, p, rfl, loc_prefixed h hk hp⟩))

theorem header_some {m : Http.Member} (h : matchResponse m = .header) : ∃ k, m.header = some k := by
  cases hk : m.header with
  | some k => exact ⟨k, rfl⟩
  | none =>
    unfold matchResponse at h
    rw [hk] at h
    simp only [Option.isSome_none, Bool.false_eq_true, if_false] at h
    repeat' split at h
    all_goals cases h

theorem prefix_some {m : Http.Member} (h : matchResponse m = .prefixHeaders) : ∃ p, m.prefixHeaders = some p := by
  cases hk : m.prefixHeaders with
  | some k => exact ⟨k, rfl⟩
  | none =>
    unfold matchResponse at h
    rw [hk] at h
    simp only [Option.isSome_none, Bool.false_eq_true, if_false] at h
    repeat' split at h
    all_goals cases h

theorem lower_prefix {lower : Text → Text} (h : Http.Reading.CharWise lower) (p key : Text) : lower p <+: lower (p ++ key) := by
  obtain ⟨f, hf⟩ := h
  rw [hf, hf, List.map_append]
  exact List.prefix_append _ _

theorem status_code {m : Http.Member} (h : matchResponse m = .status) : m.responseCode = true := by
  cases hk : m.responseCode with
  | true => rfl
  | false =>
    unfold matchResponse at h
    rw [hk] at h
    simp only [Bool.false_eq_true, if_false] at h
    repeat' split at h
    all_goals cases h

/-- How the value of a member is written: for the codec, or as text from which an equal value is read. -/
def Placed (w : World) (cls : Nat) (x : GMember) (v : P) (u : Http.Member × Val) : Prop :=
  u.1 = w.member x ∧
  ((matchResponse (w.member x) = .body ∧ ∃ i, u.2 = .other i) ∨
   (matchResponse (w.member x) = .header ∧ w.httpShape x.target ≠ .list ∧
      ∃ t v', u.2 = .text t ∧ w.readSource cls x (.header t) = .ok v' ∧ Same v v') ∨
   (matchResponse (w.member x) = .header ∧ w.httpShape x.target = .list ∧
      ∃ ts v', u.2 = .list ts ∧ ts ≠ [] ∧ w.readSource cls x (.headerList ts) = .ok v' ∧ Same v v') ∨
   (matchResponse (w.member x) = .status ∧ w.httpShape x.target = .scalar ∧
      ∃ t v', u.2 = .text t ∧ w.readSource cls x (.status t) = .ok v' ∧ Same v v') ∨
   (matchResponse (w.member x) = .prefixHeaders ∧
      ∃ kvs v', u.2 = .map kvs ∧ (kvs.map fun kv => w.lower kv.1).Nodup ∧ w.readSource cls x (.headerMap kvs) = .ok v' ∧ Same v v'))

/-- The calls for the elements of a list. -/
theorem element_calls {id : Nat} {s : Ref} {sparse : Bool} (n : Nat) (ht : w.model.target s = some id) :
    ∀ xs : List P, (∀ v ∈ xs, HeaderOk w nearest id s v) →
    ∃ cs, GeneratedSerde.each (fun x => if sparse && x.isNone then .ok (.null s) else w.model.memberCall (n + 1) id s x) xs =
        .ok cs ∧ each w.headerCall cs = each (fun v => w.headerText id s v) xs
  | [], _ => ⟨[], rfl, rfl⟩
  | x :: xs, hx => by
    obtain ⟨cs, h1, h2⟩ := element_calls (sparse := sparse) n ht xs fun v hv => hx v (by simp [hv])
    obtain ⟨method, h3, h4⟩ := headerOk_call (hx x (by simp)) n
    refine ⟨.write method s x :: cs, ?_, ?_⟩
    · simp only [GeneratedSerde.each, h4, Bool.and_false, Bool.false_eq_true, if_false, h3, h1]
    · simp only [each, World.headerCall, ht, h2]

/-- The calls for the entries of a map, and what is made of them. -/
theorem map_calls {A : Type} {f : P → Except GeneratedSerde.Err (Call Double DateTime)} {g : Text × Call Double DateTime → Except Err A}
    {R : Text × P → A → Prop} : ∀ es : List (Text × P), (∀ u ∈ es, ∃ c a, f u.2 = .ok c ∧ g (u.1, c) = .ok a ∧ R u a) →
    ∃ cs as, GeneratedSerde.each f (es.map (·.2)) = .ok cs ∧ each g ((es.map (·.1)).zip cs) = .ok as ∧ List.Forall₂ R es as
  | [], _ => ⟨[], [], rfl, rfl, .nil⟩
  | u :: es, h => by
    obtain ⟨cs, as, h1, h2, h3⟩ := map_calls es fun v hv => h v (List.mem_cons_of_mem _ hv)
    obtain ⟨c, a, g1, g2, g3⟩ := h u List.mem_cons_self
    refine ⟨c :: cs, a :: as, ?_, ?_, .cons g3 h3⟩
    · simp only [List.map_cons, GeneratedSerde.each, g1, h1]
    · simp only [List.map_cons, List.zip_cons_cons, each, g2, h2]

theorem forall₂_entries : ∀ {kvs as : List (Text × Text)},
    List.Forall₂ (fun (u : Text × P) a => u = (a.1, .str a.2)) (kvs.map fun kv => (kv.1, .str kv.2)) as → as = kvs
  | [], _, .nil => rfl
  | (k, t) :: kvs, (k', t') :: as, .cons h hs => by
    simp only [Prod.mk.injEq, Py.str.injEq] at h
    rw [forall₂_entries hs, h.1, h.2]

/-- The calls for a map of strings. -/
theorem prefixed_strings {x : GMember} {sparse : Bool} {e : GeneratedSerde.Element} {n : Nat}
    (htgt : w.model.target (.member cls x.name) = some x.target) (hs : w.model.shape x.target = some (.map sparse e))
    (hs' : w.model.shape e.target = some (.simple .string)) (kvs : List (Text × Text))
    (hd : (Py.dict (kvs.map fun kv => (kv.1, .str kv.2)) : P).depth ≤ n) :
    ∃ cs, w.model.memberCall n x.target (.member cls x.name) (.dict (kvs.map fun kv => (kv.1, .str kv.2))) =
        .ok (.map (.member cls x.name) (kvs.map fun kv => (kv.1, (.str kv.2 : P))).length cs) ∧ each headerEntry cs = .ok kvs := by
  simp only [Py.depth] at hd
  obtain ⟨n, rfl⟩ : ∃ n', n = n' + 1 := ⟨n - 1, by omega⟩
  have hsub : w.model.subschema (.member cls x.name) GeneratedSerde.valueName = some (.member x.target GeneratedSerde.valueName) := by
    simp only [Model.subschema, htgt, hs, if_true]
  obtain ⟨cs, as, h1, h2, h3⟩ := map_calls (g := headerEntry)
    (f := fun v => if sparse && v.isNone then .ok (.null (.member x.target GeneratedSerde.valueName)) else
      w.model.memberCall n e.target (.member x.target GeneratedSerde.valueName) v)
    (R := fun u kv => u = (kv.1, .str kv.2)) (kvs.map fun kv => (kv.1, (.str kv.2 : P))) fun u hu => by
      have hdu := depth_entry _ u hu
      obtain ⟨⟨k, t⟩, _, rfl⟩ := List.mem_map.1 hu
      simp only [Py.depth] at hdu
      obtain ⟨n, rfl⟩ : ∃ n', n = n' + 1 := ⟨n - 1, by omega⟩
      exact ⟨.write .string (.member x.target GeneratedSerde.valueName) (.str t), (k, t), by
        simp only [show (Py.str t : P).isNone = false from rfl, Bool.and_false, Bool.false_eq_true, if_false, Model.memberCall, hs', Simple.method], rfl, rfl⟩
  rw [forall₂_entries h3] at h2
  exact ⟨_, by simp only [Model.memberCall, hs, hsub, h1], h2⟩

theorem put_new : ∀ (d : List (Text × P)) (k : Text) (v : P), k ∉ d.map Prod.fst → Json.put d k v = d ++ [(k, v)]
  | [], _, _, _ => rfl
  | e :: d, k, v, h => by
    rw [List.map_cons, List.mem_cons, not_or] at h
    rw [Json.put, if_neg (fun he => h.1 he.symm), put_new d k v h.2, List.cons_append]

theorem puts_new : ∀ (es d : List (Text × P)), (es.map Prod.fst).Nodup → (∀ k ∈ es.map Prod.fst, k ∉ d.map Prod.fst) →
    es.foldl (fun d kv => Json.put d kv.1 kv.2) d = d ++ es
  | [], d, _, _ => by simp
  | (k, v) :: es, d, hn, hd => by
    rw [List.map_cons, List.nodup_cons] at hn
    rw [List.foldl_cons, put_new d k v (hd k (by simp)), puts_new es _ hn.2, List.append_assoc]
    · rfl
    · intro k' hk'
      rw [List.map_append, List.mem_append, not_or]
      refine ⟨hd k' (List.mem_cons_of_mem _ hk'), ?_⟩
      simp only [List.map_cons, List.map_nil, List.mem_singleton]
      rintro rfl
      exact hn.1 hk'

/-- What is read from the headers of a map of strings. -/
theorem headerMap_ok {id : Nat} {s : Ref} (hs : w.model.shape id = some (.simple .string)) (hm : w.media s = false)
    (kvs : List (Text × Text)) (hn : (kvs.map fun kv => w.lower kv.1).Nodup) :
    each (w.headerMapEntry id s) kvs = .ok (kvs.map fun kv => (kv.1, .str kv.2)) ∧
    (kvs.map fun kv => (kv.1, (.str kv.2 : P))).foldl (fun d kv => Json.put d kv.1 kv.2) [] = kvs.map fun kv => (kv.1, .str kv.2) := by
  constructor
  · clear hn
    induction kvs with
    | nil => rfl
    | cons kv kvs ih =>
      have : w.headerMapEntry id s kv = .ok (kv.1, .str kv.2) := by
        simp only [World.headerMapEntry, World.headerRead, World.kind, hs, hm, Http.HeaderValue.read, Bool.false_eq_true, if_false, World.wrap]
      simp only [each, this, ih, List.map_cons]
  · have hk : (kvs.map Prod.fst).Nodup := by
      have := hn
      rw [show (fun kv : Text × Text => w.lower kv.1) = w.lower ∘ Prod.fst from rfl, ← List.map_map] at this
      exact List.Nodup.of_map _ this
    have := puts_new (kvs.map fun kv => (kv.1, (.str kv.2 : P))) [] (by simpa [List.map_map, Function.comp_def] using hk) (by simp)
    simpa using this

/-- A value of an attribute: the call for it, and where it goes. -/
theorem field_write (hw : w.Ok nearest) {ms : List GMember} (hs : w.model.shape cls = some (.struct ms))
    {x : GMember} (hx : x ∈ ms)
    (hb : (w.traits x).responseCode = false → (w.traits x).header = none → (w.traits x).prefixHeaders = none →
      matchResponse (w.member x) = .body) {v : P} (hv : Field w nearest cls x v) (hne : v ≠ .none) {n : Nat} (hd : v.depth ≤ n) :
    v.isNone = false ∧ ∃ c, w.model.memberCall n x.target (.member cls x.name) v = .ok c ∧
      (matchResponse (w.member x) = .body → Good w.model w.st w.rd x.target (.member cls x.name) v c ∧
        ∀ i, w.toWrite cls i c = .ok (w.member x, .other i)) ∧
      ∀ i, ∃ u, w.toWrite cls i c = .ok u ∧ Placed w cls x v u := by
  have hms : w.model.members cls = ms := by simp only [Model.members, hs]
  have hmem : x ∈ w.model.members cls := hms ▸ hx
  have hfind : (w.model.members cls).find? (fun y => y.name = x.name) = some x := find_name hw.names hmem
  have htgt : w.model.target (.member cls x.name) = some x.target := target_member hw.names hmem
  cases hv with
  | absent => exact absurd rfl hne
  | body h1 h2 hp h3 =>
    have hl := hb h1 h2 hp
    obtain ⟨c, hc, hgood⟩ := core hw.names hw.fits hw.view n _ _ v htgt h3 hd
    have hwr : ∀ i, w.toWrite cls i c = .ok (w.member x, .other i) := by
      intro i
      simp only [World.toWrite, hgood.1, hfind, hl]
    exact ⟨typed_notNone h3, c, hc, fun _ => ⟨hgood, hwr⟩, fun i => ⟨_, hwr i, rfl, .inl ⟨hl, i, rfl⟩⟩⟩
  | header h1 h2 h3 =>
    have hl := loc_header h1 h2
    obtain ⟨n, rfl⟩ : ∃ n', n = n' + 1 := ⟨n - 1, by cases h3 <;> simp only [Py.depth] at hd <;> omega⟩
    obtain ⟨method, hc, hnn⟩ := headerOk_call h3 n
    obtain ⟨t, v', g1, g2, g3⟩ := headerText_ok hw.python h3
    refine ⟨hnn, _, hc, fun h => (by rw [hl] at h; cases h), fun i => ⟨(w.member x, .text t), ?_, rfl, .inr (.inl ?_)⟩⟩
    · simp only [World.toWrite, Call.schema, hfind, hl, World.headerCall, htgt, g1]
    · exact ⟨hl, headerOk_notList h3, t, v', rfl, by simp only [World.readSource, g2], g3⟩
  | @headers k sparse e xs h1 h2 h3 h4 h5 h6 =>
    have hl := loc_header h1 h2
    simp only [Py.depth] at hd
    have hdx : 0 < GeneratedSerde.depths xs := by
      cases xs with
      | nil => exact absurd rfl h4
      | cons a xs =>
        have := depth_mem (a :: xs) a (by simp)
        have ha := h5 a (by simp)
        have : 0 < a.depth := by cases ha <;> simp [Py.depth]
        omega
    obtain ⟨n, rfl⟩ : ∃ n', n = n' + 1 + 1 := ⟨n - 2, by omega⟩
    have ht' : w.model.target (.member x.target GeneratedSerde.memberName) = some e.target := by
      simp only [Model.target, h3, if_true]
    have hsub : w.model.subschema (.member cls x.name) GeneratedSerde.memberName =
        some (.member x.target GeneratedSerde.memberName) := by
      simp only [Model.subschema, htgt, h3, if_true]
    obtain ⟨cs, g1, g2⟩ := element_calls (sparse := sparse) n ht' xs h5
    obtain ⟨ts, ys, k', g3, g4, g5, g6, g7, g8⟩ := headers_restore hw.python h4 h5 h6
    refine ⟨rfl, .list (.member cls x.name) xs.length cs, ?_, fun h => (by rw [hl] at h; cases h),
      fun i => ⟨(w.member x, .list ts), ?_, rfl, .inr (.inr (.inl ?_))⟩⟩
    · generalize n + 1 = n' at g1 ⊢
      simp only [Model.memberCall, h3, hsub, g1]
    · simp only [World.toWrite, Call.schema, hfind, hl, g2, g3]
    · refine ⟨hl, by simp only [World.httpShape, h3], ts, .list ys, rfl, g4, ?_, .list g8⟩
      simp only [World.readSource, h3, g5, g6, g7]
  | @prefixed p sparse e kvs h1 h2 h3 h4 h5 h6 h7 =>
    have hl := loc_prefixed h1 h2 h3
    obtain ⟨cs, g1, g2⟩ := prefixed_strings (cls := cls) htgt h4 h5 kvs hd
    obtain ⟨g3, g4⟩ := headerMap_ok h5 h6 kvs h7
    refine ⟨rfl, _, g1, fun h => (by rw [hl] at h; cases h),
      fun i => ⟨(w.member x, .map kvs), ?_, rfl, .inr (.inr (.inr (.inr ?_)))⟩⟩
    · simp only [World.toWrite, Call.schema, hfind, hl, g2]
    · refine ⟨hl, kvs, _, rfl, h7, ?_, .refl _⟩
      simp only [World.readSource, h4, g3, g4]
  | @status m t h1 h2 h3 =>
    have hl := loc_status h1
    simp only [Py.depth] at hd
    obtain ⟨n, rfl⟩ : ∃ n', n = n' + 1 := ⟨n - 1, by omega⟩
    refine ⟨rfl, .write t.method (.member cls x.name) (.int m), by simp only [Model.memberCall, h2],
      fun h => (by rw [hl] at h; cases h), fun i => ⟨(w.member x, .text (intText m)), ?_, rfl, .inr (.inr (.inr (.inl ?_)))⟩⟩
    · rcases h3 with rfl | rfl | rfl <;> simp only [World.toWrite, Call.schema, hfind, hl, Simple.method]
    · rcases h3 with rfl | rfl | rfl <;>
        exact ⟨hl, by simp only [World.httpShape, h2], _, .int m, rfl,
          by simp only [World.readSource, h2, Numerals.intValue_intText], .refl _⟩
  | @statusEnum m h1 h2 =>
    have hl := loc_status h1
    simp only [Py.depth] at hd
    obtain ⟨n, rfl⟩ : ∃ n', n = n' + 1 := ⟨n - 1, by omega⟩
    refine ⟨rfl, .write .integer (.member cls x.name) (.intEnum x.target m), by simp only [Model.memberCall, h2],
      fun h => (by rw [hl] at h; cases h), fun i => ⟨(w.member x, .text (intText m)), ?_, rfl, .inr (.inr (.inr (.inl ?_)))⟩⟩
    · simp only [World.toWrite, Call.schema, hfind, hl]
    · exact ⟨hl, by simp only [World.httpShape, h2], _, .intEnum x.target m, rfl,
        by simp only [World.readSource, h2, Numerals.intValue_intText], .refl _⟩

/-- All of them, one after the other. -/
theorem toWrites_ok {value : GMember → P} (all : List (Call Double DateTime)) : ∀ (xs : List GMember) (cs pre : List (Call Double DateTime)),
    all = pre ++ cs →
    List.Forall₂ (fun x c => (matchResponse (w.member x) = .body → Good w.model w.st w.rd x.target (.member cls x.name) (value x) c ∧
        ∀ i, w.toWrite cls i c = .ok (w.member x, .other i)) ∧
      ∀ i, ∃ u, w.toWrite cls i c = .ok u ∧ Placed w cls x (value x) u) xs cs →
    ∃ ws, w.toWrites cls pre.length cs = .ok ws ∧ List.Forall₂ (fun x u => Placed w cls x (value x) u) xs ws ∧
      List.Forall₂ (fun x c => Good w.model w.st w.rd x.target (.member cls x.name) (value x) c)
        (xs.filter fun x => matchResponse (w.member x) = .body)
        (bodyCalls all (ws.filter fun u => matchResponse u.1 = .body))
  | [], _, pre, _, .nil => ⟨[], rfl, .nil, .nil⟩
  | x :: xs, c :: cs, pre, hall, .cons ⟨hbody, hwr⟩ hrest => by
    obtain ⟨ws, h1, h2, h3⟩ := toWrites_ok all xs cs (pre ++ [c]) (by simp [hall]) hrest
    rw [List.length_append, List.length_singleton] at h1
    by_cases hl : matchResponse (w.member x) = .body
    · obtain ⟨hgood, hw'⟩ := hbody hl
      refine ⟨(w.member x, .other pre.length) :: ws, by simp only [World.toWrites, hw', h1], .cons ?_ h2, ?_⟩
      · obtain ⟨u, hu, hp⟩ := hwr pre.length
        rw [hw'] at hu
        cases hu
        exact hp
      · rw [List.filter_cons, if_pos (by simpa using hl), List.filter_cons, if_pos (by simpa using hl)]
        have : all[pre.length]? = some c := by rw [hall]; simp
        simp only [bodyCalls, List.filterMap_cons, this]
        exact .cons hgood h3
    · obtain ⟨u, hu, hp⟩ := hwr pre.length
      refine ⟨u :: ws, by simp only [World.toWrites, hu, h1], .cons hp h2, ?_⟩
      rw [List.filter_cons, if_neg (by simpa using hl), List.filter_cons, if_neg (by rw [hp.1]; simpa using hl)]
      exact h3

end

end Verif.RestJson

import Verif.GeneratedSerde.Props

/-!
# Generated serializers and deserializers: what is written is read back (C119), and unions (C120)
-/

set_option autoImplicit false

namespace Verif.GeneratedSerde

open Verif.Json (Text Format Plain Event)
open Verif.Scalars.Strict (Num)

variable {F T : Type} {m : Model F T} {st : Json.Settings F T} {rd : Json.Reader Ref F T}

/-- The class is that of a structure, or of a union. -/
def Model.IsClass (m : Model F T) (cls : Nat) : Prop :=
  (∃ ms, m.shape cls = some (.struct ms)) ∨ ∃ streaming ms, m.shape cls = some (.union streaming ms)

theorem serialize_eq {cls n : Nat} {v : Py F T} (hcls : m.IsClass cls) (hv : Typed m st rd cls (.shape cls) v) :
    m.serialize n v = m.memberCall n cls (.shape cls) v := by
  rcases hcls with ⟨ms, hs⟩ | ⟨b, ms, hs⟩ <;> cases hv <;>
    first | rfl | (rename_i h; rw [hs] at h; cases h) | (rename_i h _; rw [hs] at h; cases h)

/-- C119: an instance of a class, of any depth, is serialized, and the calls say what it is: every attribute that is not
`None`, in the order of the model, by the method for its shape and with the schema of the member; every element of a list and
every entry of a map, in order; and the member of a union that is set. -/
theorem C119_calls (hm : m.Ok rd.useJsonName) (hf : Json.Fits st rd) (hview : rd.view = m.view) {cls n : Nat} {v : Py F T}
    (hcls : m.IsClass cls) (hv : Typed m st rd cls (.shape cls) v) (hn : v.depth ≤ n) :
    ∃ c, m.serialize n v = .ok c ∧ Writes m (.shape cls) v c := by
  obtain ⟨c, h1, _, h2, _⟩ := core hm hf hview n cls (.shape cls) v rfl hv hn
  exact ⟨c, by rw [serialize_eq hcls hv, h1], h2⟩

/-- C119: an instance of a class that is written by the generated code as JSON is one JSON text, from which the generated code
reads an equal instance. -/
theorem C119_round_trip_partial (hm : m.Ok rd.useJsonName) (hst : st.Ok) (hf : Json.Fits st rd) (hview : rd.view = m.view)
    {cls n : Nat} {v : Py F T} (hcls : m.IsClass cls) (hv : Typed m st rd cls (.shape cls) v) (hn : v.depth ≤ n) :
    ∃ c jc j, m.serialize n v = .ok c ∧ m.jsonCall c = some jc ∧ Json.IsJsonText (Json.write st [] jc) j ∧
      (∀ j', Json.IsJsonText (Json.write st [] jc) j' → j' = j) ∧
      ∃ v', m.deserialize rd cls (Json.events [] j) = .ok v' ∧ Same v v' := by
  obtain ⟨c, h1, _, h2, jc, h3, h4, h5⟩ := core hm hf hview n cls (.shape cls) v rfl hv hn
  obtain ⟨j, h6, h7, h8⟩ := Json.C43_well_formed_partial st hst jc h4
  obtain ⟨v', h9, h10⟩ := (h5 j h7).2 [] [] (2 * (Json.events [] j).length + 2)
    (fun h => by rcases hcls with ⟨ms, hs⟩ | ⟨b, ms, hs⟩ <;> rw [hs] at h <;> cases h)
    (by have := (Json.size_events j []).2; omega)
  rw [List.append_nil] at h9
  refine ⟨c, jc, j, by rw [serialize_eq hcls hv, h1], h3, h6, h8, v', ?_, h10⟩
  rw [Model.deserialize, h9]
  rfl

theorem fieldCalls_error {call : Member F T → Py F T → Except Err (Call F T)} {fields : List (Text × Py F T)}
    {x : Member F T} {v : Py F T} {e : Err} (hst : m.isStream x = false) (hl : fields.lookup x.attr = some v)
    (hv : v.isNone = false) (he : call x v = .error e) : ∀ ms : List (Member F T), x ∈ ms →
    ∃ e', m.fieldCalls call fields ms = .error e'
  | [], h => by cases h
  | y :: ys, h => by
    rcases List.mem_cons.1 h with rfl | h
    · exact ⟨e, by simp only [Model.fieldCalls, hst, hl, hv, Bool.and_false, Bool.false_eq_true, if_false, he]⟩
    · obtain ⟨e', h1⟩ := fieldCalls_error hst hl hv he ys h
      rw [Model.fieldCalls]
      split
      · exact ⟨e', h1⟩
      · split
        · exact ⟨_, rfl⟩
        · split
          · exact ⟨e', h1⟩
          · split
            · exact ⟨_, rfl⟩
            · exact ⟨e', by simp only [h1]⟩

/-- C119 does not hold for unknown members of unions: an object with one in an attribute cannot be serialized at all. -/
theorem C119_unknown_fails (m : Model F T) (cls n c : Nat) (tag : Text) (ms ums : List (Member F T)) (x : Member F T)
    (fields : List (Text × Py F T)) (hs : m.shape cls = some (.struct ms)) (hx : x ∈ ms)
    (hu : m.shape x.target = some (.union false ums)) (hv : fields.lookup x.attr = some (.unknown c tag)) :
    ∃ e, m.serialize n (.object cls fields) = .error e := by
  cases n with
  | zero => exact ⟨.depth, rfl⟩
  | succ n =>
    obtain ⟨e, he⟩ : ∃ e, m.memberCall n x.target (.member cls x.name) (.unknown c tag) = .error e := by
      cases n with
      | zero => exact ⟨.depth, rfl⟩
      | succ n => exact ⟨.serialization, by simp only [Model.memberCall, hu]⟩
    obtain ⟨e', h⟩ := fieldCalls_error (m := m) (call := fun x w => m.memberCall n x.target (.member cls x.name) w)
      (by simp only [Model.isStream, hu]) hv rfl he ms hx
    exact ⟨e', by simp only [Model.serialize, Model.memberCall, hs, h]⟩

/-- C119 does not hold for members that may be null and have a default: `None` is not written, and read as the default. -/
theorem C119_default_fails (m : Model F T) (st : Json.Settings F T) (rd : Json.Reader Ref F T) (cls n : Nat)
    (x : Member F T) (t : Text) (hs : m.shape cls = some (.struct [x])) (hx : m.shape x.target = some (.simple .string))
    (hnull : x.nullable = true) (hdef : x.default = some (.str t)) :
    ∃ jc, m.serialize (n + 1) (.object cls [(x.attr, .none)]) = .ok (.struct (.shape cls) []) ∧
      m.jsonCall (.struct (.shape cls) []) = some jc ∧ Json.write st [] jc = ['{', '}'] ∧
      Json.IsJsonText ['{', '}'] (.obj []) ∧
      m.deserialize rd cls (Json.events [] (.obj [])) = .ok (.object cls [(x.attr, .str t)]) := by
  have h1 : m.isStream x = false := by simp only [Model.isStream, hx]
  have h2 : m.mayBeNone x = true := by simp only [Model.mayBeNone, hx, hnull]; rfl
  have h3 : isRequired x = false := by simp [isRequired, hnull]
  have hn : (Py.none : Py F T).isNone = true := rfl
  refine ⟨.struct [], ?_, rfl, rfl, ?_, ?_⟩
  · simp only [Model.serialize, Model.memberCall, hs, Model.fieldCalls, h1, Bool.false_eq_true, if_false,
      List.lookup_cons_self, h2, hn, Bool.and_self, if_true]
  · refine Json.Lexes.cons (w := []) (l := ['{']) (by simp) (.fixed (by decide)) (by simp) ?_
    exact Json.Lexes.cons (w := []) (l := ['}']) (r := []) (by simp) (.fixed (by decide)) (by simp) (.nil (by simp))
  · simp only [Model.deserialize, Json.events, Json.memberEvents, List.nil_append, List.length_cons, List.length_nil]
    rw [Model.read.eq_def]
    simp only [hs, if_true]
    rw [Model.readMembers]
    simp only [if_true, Model.construct, Model.attributes, List.filter_cons, List.filter_nil, h1, h3, Bool.not_false,
      Bool.true_and, if_true, Bool.and_false, Bool.false_eq_true, if_false, List.nil_append, each, Model.argument,
      List.lookup_nil, hdef, Option.getD_some]
    rfl

/-! ## Unions -/

theorem resolve_none (hm : m.Ok rd.useJsonName) {id : Nat} {key : Text}
    (h : ∀ x ∈ m.members id, Json.jsonKey rd.useJsonName ⟨x.name, x.jsonName⟩ ≠ key) :
    rd.resolve (m.schemas id) key = none := by
  have h1 : ((m.schemas id).map fun e => e.1.name).Nodup := by rw [schemas_names]; exact hm.names id
  have h2 : ((m.schemas id).map fun e => Json.jsonKey rd.useJsonName e.1).Nodup := by
    rw [schemas_keys]; exact hm.keys id
  rw [Json.resolve_spec rd _ _ h1 h2, List.find?_eq_none]
  intro e he
  obtain ⟨x, hx, rfl⟩ := List.mem_map.1 he
  simpa using h x hx

theorem resolve_known (hm : m.Ok rd.useJsonName) {id : Nat} {key : Text} {y : Json.Member × Ref}
    (h : rd.resolve (m.schemas id) key = some y) : ∃ i x, findMember y.1.name 0 (m.members id) = some (i, x) := by
  have h1 : ((m.schemas id).map fun e => e.1.name).Nodup := by rw [schemas_names]; exact hm.names id
  have h2 : ((m.schemas id).map fun e => Json.jsonKey rd.useJsonName e.1).Nodup := by
    rw [schemas_keys]; exact hm.keys id
  rw [Json.resolve_spec rd _ _ h1 h2] at h
  obtain ⟨x, hx, rfl⟩ := List.mem_map.1 (List.mem_of_find?_eq_some h)
  obtain ⟨i, hi⟩ := List.getElem?_of_mem hx
  exact ⟨0 + i, x, findMember_spec _ i 0 x (hm.names id) hi⟩

/-- No member of the union has one of these names in JSON. -/
def Model.Strange (m : Model F T) (useJsonName : Bool) (id : Nat) (es : List (Text × Json.Json)) : Prop :=
  ∀ e ∈ es, ∀ x ∈ m.members id, Json.jsonKey useJsonName ⟨x.name, x.jsonName⟩ ≠ e.1

theorem skip_strange (hm : m.Ok rd.useJsonName) {id : Nat} (p : List Text) (result : Option (Py F T)) (tail : List Event)
    (k : Nat) : ∀ es : List (Text × Json.Json), m.Strange rd.useJsonName id es →
    m.readVariant rd (k + es.length) id result (Json.memberEvents p es ++ tail) = m.readVariant rd k id result tail
  | [], _ => rfl
  | (key, j) :: es, h => by
    have h1 := resolve_none hm (id := id) (key := key) fun x hx => h (key, j) List.mem_cons_self x hx
    rw [List.length_cons, ← Nat.add_assoc]
    simp only [Json.memberEvents, List.cons_append, List.append_assoc]
    rw [Model.readVariant.eq_def]
    simp only [reduceCtorEq, if_false, Json.readString, h1, Json.skip_spec j (p ++ [key]) (by simp)]
    exact skip_strange hm p result tail k es fun e he => h e (List.mem_cons_of_mem _ he)

/-- C120 is false: a union with a member that the client does not know is not read as an unknown member: reading it fails,
whatever its value. -/
theorem C120_unknown_fails (hm : m.Ok rd.useJsonName) (cls : Nat) (streaming : Bool) (ms : List (Member F T))
    (hs : m.shape cls = some (.union streaming ms)) (key : Text) (j : Json.Json)
    (hkey : ∀ x ∈ ms, Json.jsonKey rd.useJsonName ⟨x.name, x.jsonName⟩ ≠ key) :
    m.deserialize rd cls (Json.events [] (.obj [(key, j)])) = .error .serialization := by
  have hms : m.members cls = ms := by simp only [Model.members, hs]
  have hstr : m.Strange rd.useJsonName cls [(key, j)] := by
    intro e he x hx
    rw [List.mem_singleton.1 he]
    exact hkey x (hms ▸ hx)
  have h1 := fun k => skip_strange hm [] none [⟨Json.join [], .endMap⟩] k [(key, j)] hstr
  simp only [Model.deserialize, Json.events, List.length_cons]
  rw [Model.read.eq_def]
  simp only [hs, if_true]
  generalize (Json.memberEvents [] [(key, j)] ++ [(⟨Json.join [], Json.Ev.endMap⟩ : Event)]).length = l
  rw [show 2 * (l + 1) + 1 = (2 * l + 1 + 1) + [(key, j)].length by simp only [List.length_cons, List.length_nil]; omega, h1]
  rw [Model.readVariant.eq_def]
  simp only [if_true]
  rfl

/-- C120 is false of every text: no union is read as an unknown member, at any depth. -/
theorem C120_never_fails (hm : m.Ok rd.useJsonName) (n id : Nat) (s : Ref) (evs rest : List Event) (cls : Nat) (tag : Text) :
    m.read rd n id s evs ≠ .ok (.unknown cls tag, rest) := by
  have hvar : ∀ (n id : Nat) (result : Option (Py F T)) (evs rest : List Event) (v : Py F T),
      (∀ c t, result ≠ some (.unknown c t)) → m.readVariant rd n id result evs = .ok (some v, rest) →
      ∀ c t, v ≠ .unknown c t := by
    intro n
    induction n with
    | zero => intro id result evs rest v _ h; rw [Model.readVariant.eq_def] at h; cases h
    | succ n ih =>
      intro id result evs rest v hr h
      cases evs with
      | nil => rw [Model.readVariant.eq_def] at h; cases h
      | cons e r =>
        rw [Model.readVariant.eq_def] at h
        simp only at h
        split at h
        · simp only [Except.ok.injEq, Prod.mk.injEq] at h
          intro c t hv
          exact hr c t (by rw [h.1, hv])
        · split at h
          · cases h
          · split at h
            · split at h
              · cases h
              · exact ih id result _ rest v hr h
            · rename_i y hy
              split at h
              · cases h
              · split at h
                · exact ih id result _ rest v hr h
                · obtain ⟨i, x, hx⟩ := resolve_known hm hy
                  rw [hx] at h
                  simp only at h
                  split at h
                  · cases h
                  · split at h
                    · cases h
                    · exact ih id _ _ rest v (by intro c t h; cases h) h
  have hone : ∀ (s : Ref) (method : Method) (wrap : Json.Val F T → Py F T) (evs : List Event),
      (∀ w c t, wrap w ≠ .unknown c t) → m.readOne rd s method wrap evs ≠ .ok (.unknown cls tag, rest) := by
    intro s method wrap evs hw h
    cases evs with
    | nil => cases h
    | cons e r =>
      rw [Model.readOne] at h
      split at h
      · cases h
      · simp only [Except.ok.injEq, Prod.mk.injEq] at h
        exact hw _ _ _ h.1
  have hval : ∀ (w : Json.Val F T) c t, ofVal w ≠ .unknown c t := by
    intro w c t h; cases w <;> cases h
  have henum : ∀ i (w : Json.Val F T) c t, toEnum i w ≠ .unknown c t := by
    intro i w c t h; cases w <;> cases h
  have hint : ∀ i (w : Json.Val F T) c t, toIntEnum i w ≠ .unknown c t := by
    intro i w c t h; cases w <;> cases h
  intro h
  cases n with
  | zero => rw [Model.read.eq_def] at h; cases h
  | succ n =>
    rw [Model.read.eq_def] at h
    simp only at h
    split at h
    · cases h
    · split at h <;> cases h
    · exact hone _ _ _ _ hval h
    · exact hone _ _ _ _ hval h
    · cases h
    · exact hone _ _ _ _ (henum _) h
    · exact hone _ _ _ _ (hint _) h
    · split at h
      · cases h
      · split at h
        · cases h
        · split at h
          · split at h <;> cases h
          · cases h
    · split at h
      · cases h
      · split at h
        · cases h
        · split at h
          · split at h <;> cases h
          · cases h
    · split at h
      · cases h
      · split at h
        · split at h
          · cases h
          · split at h
            · cases h
            · rename_i hc
              unfold Model.construct at hc
              split at hc
              · cases hc
              · cases hc; cases h
        · cases h
    · split at h
      · cases h
      · split at h
        · split at h
          · cases h
          · cases h
          · rename_i hr
            simp only [Except.ok.injEq, Prod.mk.injEq] at h
            exact hvar _ _ _ _ _ _ (by intro c t h; cases h) hr _ _ h.1
        · cases h

/-- C120: members that the client does not know are ignored if there is one that it knows: in the text for an instance of a
union, any others may come before and after the one member. -/
theorem C120_ignored_partial (hm : m.Ok rd.useJsonName) (hst : st.Ok) (hf : Json.Fits st rd) (hview : rd.view = m.view)
    {cls n i : Nat} {w : Py F T} (hv : Typed m st rd cls (.shape cls) (.variant cls i w))
    (hn : (Py.variant cls i w).depth ≤ n) :
    ∃ c jc key j, m.serialize n (.variant cls i w) = .ok c ∧ m.jsonCall c = some jc ∧
      Json.IsJsonText (Json.write st [] jc) (.obj [(key, j)]) ∧
      ∀ es fs : List (Text × Json.Json), m.Strange rd.useJsonName cls es → m.Strange rd.useJsonName cls fs →
        ∃ w', m.deserialize rd cls (Json.events [] (.obj (es ++ (key, j) :: fs))) = .ok (.variant cls i w') ∧ Same w w' := by
  cases hv with
  | @variant _ _ streaming ms _ x _ hs hi hw =>
    have hms : m.members cls = ms := by simp only [Model.members, hs]
    have hmem : x ∈ m.members cls := hms ▸ List.mem_of_getElem? hi
    simp only [Py.depth] at hn
    obtain ⟨n, rfl⟩ : ∃ n', n = n' + 1 := ⟨n - 1, by omega⟩
    obtain ⟨c, hc, hcs, hcw, jc, hj, hnn, hr⟩ := core hm hf hview n x.target (.member cls x.name) w
      (target_member hm hmem) hw (by omega)
    obtain ⟨j, h6, h7, h8⟩ := Json.C43_well_formed_partial st hst (.struct [(⟨x.name, x.jsonName⟩, jc)]) ⟨hnn, trivial⟩
    obtain ⟨js, rfl, j, js', rfl, hjm, rfl⟩ := h7
    refine ⟨.struct (.shape cls) [c], .struct [(⟨x.name, x.jsonName⟩, jc)], _, j, ?_, ?_, h6, ?_⟩
    · simp only [Model.serialize, Model.memberCall, hs, hms, hi, hc]
    · simp only [Model.jsonCall, Model.jsonMembers, hcs, jsonMember_spec hm hmem, hj, Option.map_some]
    · intro es fs hes hfs
      have hmev : ∀ (a b : List (Text × Json.Json)), Json.memberEvents [] (a ++ b) =
          Json.memberEvents [] a ++ Json.memberEvents [] b := by
        intro a b
        induction a with
        | nil => rfl
        | cons e a ih => obtain ⟨k, y⟩ := e; simp only [List.cons_append, Json.memberEvents, ih, List.append_assoc]
      obtain ⟨hnl, hrd⟩ := hr j hjm
      have hlen := (Json.size_events (.obj (es ++ (Json.jsonKey st.useJsonName ⟨x.name, x.jsonName⟩, j) :: fs)) []).2
      have hsize : ∀ a : List (Text × Json.Json), a.length + 1 ≤ Json.memberSizes a := by
        intro a
        induction a with
        | nil => exact Nat.le_refl _
        | cons e a ih =>
          obtain ⟨k, y⟩ := e
          simp only [List.length_cons, Json.memberSizes]
          omega
      have happ : ∀ a b : List (Text × Json.Json), a.length + Json.memberSizes b ≤ Json.memberSizes (a ++ b) := by
        intro a b
        induction a with
        | nil => exact Nat.le_of_eq (Nat.zero_add _)
        | cons e a ih =>
          obtain ⟨k, y⟩ := e
          simp only [List.length_cons, List.cons_append, Json.memberSizes]
          omega
      have h1 := happ es ((Json.jsonKey st.useJsonName ⟨x.name, x.jsonName⟩, j) :: fs)
      have h2 := hsize fs
      simp only [Json.memberSizes] at h1
      simp only [Json.size] at hlen
      generalize hL : (Json.events [] (.obj (es ++ (Json.jsonKey st.useJsonName ⟨x.name, x.jsonName⟩, j) :: fs))).length = L
        at hlen
      obtain ⟨k, hk⟩ : ∃ k, 2 * L + 1 = (k + 1 + fs.length + 1) + es.length ∧ Json.size j ≤ k + 1 + fs.length :=
        ⟨2 * L - 1 - fs.length - es.length, by omega, by omega⟩
      obtain ⟨v', h9, h10⟩ := hrd [Json.jsonKey st.useJsonName ⟨x.name, x.jsonName⟩]
        (Json.memberEvents [] fs ++ [⟨Json.join [], .endMap⟩]) (k + 1 + fs.length) (fun _ => by simp) hk.2
      refine ⟨v', ?_, h10⟩
      obtain ⟨e, r, he, hen, _, _⟩ := Json.events_head [Json.jsonKey st.useJsonName ⟨x.name, x.jsonName⟩] j
      have hdoc : ¬ (e.ev = .null ∧ (m.view (.member cls x.name)).isDocument = false) := by
        rintro ⟨h, hv⟩
        rw [view_of (target_member hm hmem) (hnl (hen.1 h)).2] at hv
        cases hv
      rw [Model.deserialize, hL, Model.read.eq_def]
      simp only [hs, Json.events, if_true, hmev, Json.memberEvents, List.append_assoc, List.cons_append, List.nil_append]
      rw [hk.1, skip_strange hm [] none _ _ es hes]
      rw [he] at h9 ⊢
      simp only [List.cons_append] at h9 ⊢
      rw [Model.readVariant]
      simp only [reduceCtorEq, if_false, Json.readString, ← hf.names, resolve_member hm hmem, hdoc,
        findMember_spec _ i 0 x (hm.names cls) (hms ▸ hi), h9, Option.isSome_none, Bool.false_eq_true, Nat.zero_add]
      rw [skip_strange hm [] _ _ _ fs hfs, Model.readVariant]
      simp only [if_true]
      rfl

end Verif.GeneratedSerde

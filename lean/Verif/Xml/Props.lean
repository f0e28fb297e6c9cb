import Verif.Xml.Strip

/-!
# The XML deserializer (C45): theorems
-/

set_option autoImplicit false

namespace Verif.Xml

open Verif.Json (put)

section
variable {S D F T : Type}

/-! ## Specification -/

/-- The tag of an element without its namespace. -/
def Elem.name : Elem → Text
  | .mk h _ => localName h.tag

/-- The value read at an element that is not the outermost one. -/
def Reader.inner (rd : Reader S D F T) (s : S) (e : Elem) : Except XErr (Val D F T) :=
  (rd.read (2 * (events e).length + 2) false s ⟨false, none, events e⟩).map Prod.fst

/-- What the value of a member is (`none`: not given), from the attributes and the elements of the
structure: the value of the first attribute with its name, all elements with its name as one list or map
if it is flattened, and otherwise the last element with its name. -/
def Reader.MemberIs (rd : Reader S D F T) (attrs : List (Text × Text)) (cs : List Elem) (m : Member × S)
    (r : Option (Val D F T)) : Prop :=
  if m.1.isAttribute then
    match attrs.find? fun a => localName a.1 = elementName m.1 with
    | none => r = none
    | some a => ∃ x, rd.attrScalar (rd.view m.2) a.2 = .ok x ∧ r = some x
  else if m.1.isFlattened then
    if cs.filter (fun c => c.name = elementName m.1) = [] then r = none
    else ∃ x, rd.inner m.2 (.mk ⟨[], [], []⟩ (cs.filter fun c => c.name = elementName m.1)) = .ok x ∧ r = some x
  else
    match (cs.filter fun c => c.name = elementName m.1).getLast? with
    | none => r = none
    | some c => ∃ x, rd.inner m.2 c = .ok x ∧ r = some x

/-! ## Proofs -/

theorem after_fst {A : Type} (rest : List Ev) (y : Except XErr (A × Bool)) :
    (after rest y).map Prod.fst = y.map Prod.fst := by
  cases y <;> rfl

theorem read_decode (rd : Reader S D F T) (s : S) (root : Bool) (e : Elem) (n : Nat) (rest : List Ev)
    (hn : size e ≤ n) : (rd.read n false s ⟨root, none, events e ++ rest⟩).map Prod.fst =
      (rd.decode (size e) false s root [e]).map Prod.fst := by
  rw [(read_spec rd n).1 s root e rest hn, after_fst, decode_size rd s root e n hn]

theorem run_decode (rd : Reader S D F T) (s : S) (e : Elem) :
    rd.run [] s (events e) = (rd.decode (size e) false s true [e]).map Prod.fst := by
  have h := size_events e
  have := read_decode rd s true e (2 * (events e).length + 2) [] (by omega)
  rw [List.append_nil] at this
  exact this

theorem inner_decode (rd : Reader S D F T) (s : S) (e : Elem) :
    rd.inner s e = (rd.decode (size e) false s false [e]).map Prod.fst := by
  have h := size_events e
  have := read_decode rd s false e (2 * (events e).length + 2) [] (by omega)
  rw [List.append_nil] at this
  exact this

theorem strip_size_irrelevant (rd : Reader S D F T) (hok : rd.Ok) (s : S) (root : Bool) (e : Elem) :
    rd.decode (size (rd.strip s e)) false s root [rd.strip s e] = rd.decode (size e) false s root [e] := by
  have h1 := decode_size rd s root (rd.strip s e) (size e + size (rd.strip s e)) (by omega)
  have h2 := decode_size rd s root e (size e + size (rd.strip s e)) (by omega)
  rw [← h1, (decode_strip rd hok _).1 s root e, h2]

/-- Elements that are not modelled make no difference, whatever is in them and wherever they are. -/
theorem C45_skip (rd : Reader S D F T) (hok : rd.Ok) (s : S) (e : Elem) :
    rd.run [] s (events e) = rd.run [] s (events (rd.strip s e)) := by
  rw [run_decode, run_decode, strip_size_irrelevant rd hok]

theorem C45_skip_inner (rd : Reader S D F T) (hok : rd.Ok) (s : S) (e : Elem) :
    rd.inner s e = rd.inner s (rd.strip s e) := by
  rw [inner_decode, inner_decode, strip_size_irrelevant rd hok]

/-- The outermost element of a structure must have its name, and is otherwise read like any other. -/
theorem C45_root (rd : Reader S D F T) (s : S) (sh : Shape S) (hv : rd.view s = .struct sh) (e : Elem) :
    rd.run [] s (events e) =
      if e.name = sh.xmlName.getD sh.name then rd.inner s e else .error .parse := by
  obtain ⟨h, cs⟩ := e
  rw [run_decode, inner_decode]
  have : ∃ n, size (.mk h cs) = n + 1 := ⟨_, by rw [size, Nat.add_comm]⟩
  obtain ⟨n, hn⟩ := this
  rw [hn]
  simp only [Reader.decode, hv, Reader.decodeStruct, Elem.name, Shape.rootName]
  by_cases hr : localName h.tag = sh.xmlName.getD sh.name
  · simp [hr]
  · simp [hr, Except.map]

/-- Other shapes can be read from any outermost element; what can be read is read as inside. -/
theorem C45_outermost (rd : Reader S D F T) (s : S) (e : Elem) (v : Val D F T)
    (h : rd.run [] s (events e) = .ok v) : rd.inner s e = .ok v := by
  rw [run_decode] at h
  rw [inner_decode]
  cases hd : rd.decode (size e) false s true [e] with
  | error err => simp [hd, Except.map] at h
  | ok x =>
    rw [decode_root rd _ _ _ _ _ x hd]
    simpa [hd, Except.map] using h

theorem readText_pre (h : Head) (r : Bool) (evs : List Ev) :
    readText ⟨r, some h, evs⟩ = readText ⟨r, none, .start { h with attrs := [] } :: evs⟩ := rfl

theorem readAttributes_nil (rd : Reader S D F T) (union : Bool) : ∀ (ms : List (Member × S))
    (acc : List (Text × Val D F T)), rd.readAttributes union [] acc ms = .ok acc
  | [], _ => rfl
  | m :: ms, acc => by
    simp only [Reader.readAttributes, List.find?_nil, readAttributes_nil rd union ms]
    cases m.1.isAttribute <;> rfl

theorem read_pre (rd : Reader S D F T) (n : Nat) (s : S) (r : Bool) (h : Head) (evs : List Ev) :
    rd.read n false s ⟨r, some h, evs⟩ =
      rd.read n false s ⟨r, none, .start { h with attrs := [] } :: evs⟩ := by
  cases n with
  | zero => rfl
  | succ n =>
    simp only [Reader.read]
    cases rd.view s with
    | struct sh =>
      simp only [Reader.readStruct, consumeStart, Option.isSome_some, Option.isSome_none, if_true,
        Bool.false_eq_true, if_false, readAttributes_nil]
    | list s' => rfl
    | map kt vt s' => rfl
    | document => rfl
    | _ => simp only [readText_pre]

/-- The wrapper elements are opened, the innermost one is the element of the value, without its
attributes and under any name; what follows does not matter. -/
theorem C45_wrapped (rd : Reader S D F T) (s : S) (outer : List Head) (h : Head) (cs : List Elem)
    (rest : List Ev) :
    rd.run ((outer ++ [h]).map fun o => localName o.tag) s
        (outer.map .start ++ events (.mk h cs) ++ rest) =
      rd.inner s (.mk { h with attrs := [] } cs) := by
  have ho : ∀ (os : List Head) (root : Bool) (pre : Option Head) (evs : List Ev),
      openWrappers ((os ++ [h]).map fun o => localName o.tag) ⟨root, pre, os.map .start ++ (.start h :: evs)⟩ =
        .ok ⟨root, some h, evs⟩ := by
    intro os
    induction os with
    | nil => intro root pre evs; simp [openWrappers]
    | cons o os ih =>
      intro root pre evs
      simp only [List.map_cons, List.cons_append, openWrappers, if_true]
      exact ih root (some o) evs
  have h1 : ((outer ++ [h]).map fun o => localName o.tag).isEmpty = false := by
    cases outer <;> rfl
  unfold Reader.run
  rw [h1]
  have h2 : outer.map Ev.start ++ events (.mk h cs) ++ rest =
      outer.map Ev.start ++ (.start h :: (allEvents cs ++ .stop :: rest)) := by
    simp [events]
  simp only [h2, ho]
  rw [read_pre]
  have h3 : Ev.start { h with attrs := [] } :: (allEvents cs ++ .stop :: rest) =
      events (.mk { h with attrs := [] } cs) ++ rest := by simp [events]
  rw [h3, inner_decode]
  apply read_decode
  have h4 := size_events (.mk { h with attrs := [] } cs)
  simp only [events, List.length_cons, List.length_append, List.length_nil] at h4
  simp only [List.length_append, List.length_cons]
  omega

/-- A wrapper element with another name is refused. -/
theorem C45_wrapper_refused (rd : Reader S D F T) (s : S) (outer : List Head) (w : Text) (ws : List Text)
    (h : Head) (hw : localName h.tag ≠ w) (rest : List Ev) :
    rd.run ((outer.map fun o => localName o.tag) ++ w :: ws) s (outer.map .start ++ .start h :: rest) =
      .error .parse := by
  have ho : ∀ (os : List Head) (root : Bool) (pre : Option Head),
      openWrappers ((os.map fun o => localName o.tag) ++ w :: ws)
        ⟨root, pre, os.map .start ++ .start h :: rest⟩ = .error .parse := by
    intro os
    induction os with
    | nil => intro root pre; simp [openWrappers, hw]
    | cons o os ih =>
      intro root pre
      simp only [List.map_cons, List.cons_append, openWrappers, if_true]
      exact ih root (some o)
  unfold Reader.run
  simp only [ho]

theorem decodeElements_forall (dec : Bool → Elem → Except XErr (Val D F T × Bool))
    (hd : ∀ e x, dec false e = .ok x → x.2 = false) :
    ∀ (es : List Elem) (acc vs : List (Val D F T)),
    (decodeElements dec false acc es).map Prod.fst = .ok vs ↔
      ∃ ws, vs = acc ++ ws ∧ List.Forall₂ (fun e v => (dec false e).map Prod.fst = .ok v) es ws
  | [], acc, vs => by
    simp only [decodeElements, Except.map, Except.ok.injEq]
    constructor
    · rintro rfl
      exact ⟨[], by simp, .nil⟩
    · rintro ⟨ws, rfl, hf⟩
      cases hf
      simp
  | e :: es, acc, vs => by
    have ih := decodeElements_forall dec hd es
    simp only [decodeElements]
    cases he : dec false e with
    | error err =>
      simp only [Except.map, reduceCtorEq, false_iff, not_exists, not_and]
      intro ws _ hf
      cases hf with
      | cons h1 h2 => simp [he, Except.map] at h1
    | ok x =>
      have h1 := hd e x he
      simp only [h1]
      rw [ih]
      constructor
      · rintro ⟨ws, rfl, hf⟩
        exact ⟨x.1 :: ws, by simp, .cons (by simp [he, Except.map]) hf⟩
      · rintro ⟨ws, rfl, hf⟩
        cases hf with
        | cons h2 h3 =>
          rename_i v ws
          simp only [he, Except.map, Except.ok.injEq] at h2
          subst h2
          exact ⟨ws, by simp, h3⟩

theorem decode_false (rd : Reader S D F T) (n : Nat) (flat : Bool) (s : S) (es : List Elem)
    (x : Val D F T × Bool) (h : rd.decode n flat s false es = .ok x) : x.2 = false := by
  have := decode_root rd n flat s false es x h
  rw [h] at this
  have h1 := Except.ok.inj this
  rw [h1]

theorem decode_inner (rd : Reader S D F T) (s : S) (e : Elem) (n : Nat) (h : size e ≤ n) :
    (rd.decode n false s false [e]).map Prod.fst = rd.inner s e := by
  rw [inner_decode, decode_size rd s false e n h]

/-- A list is the values of its elements, in order. -/
theorem C45_list (rd : Reader S D F T) (s s' : S) (hv : rd.view s = .list s') (h : Head) (cs : List Elem)
    (v : Val D F T) : rd.inner s (.mk h cs) = .ok v ↔
      ∃ vs, v = .list vs ∧ List.Forall₂ (fun c v => rd.inner s' c = .ok v) cs vs := by
  rw [inner_decode]
  have hn : size (.mk h cs) = sizes cs + 1 := by rw [size, Nat.add_comm]
  rw [hn]
  simp only [Reader.decode, hv, Bool.false_eq_true, if_false]
  have h1 := decodeElements_forall (fun r e => rd.decode (sizes cs) false s' r [e])
    (fun e x he => decode_false rd _ _ _ _ x he) cs []
  have h2 : ∀ vs : List (Val D F T), List.Forall₂ (fun e v =>
      (rd.decode (sizes cs) false s' false [e]).map Prod.fst = .ok v) cs vs ↔
      List.Forall₂ (fun c v => rd.inner s' c = .ok v) cs vs := by
    have : ∀ (es : List Elem), (∀ e ∈ es, e ∈ cs) → ∀ vs : List (Val D F T), List.Forall₂ (fun e v =>
      (rd.decode (sizes cs) false s' false [e]).map Prod.fst = .ok v) es vs ↔
      List.Forall₂ (fun c v => rd.inner s' c = .ok v) es vs := by
      intro es
      induction es with
      | nil => intro _ vs; simp
      | cons e es ih =>
        intro hes vs
        have he := size_mem cs e (hes e (by simp))
        cases vs with
        | nil => simp
        | cons v vs =>
          rw [List.forall₂_cons, List.forall₂_cons, decode_inner rd s' e _ (by omega),
            ih (fun e he => hes e (by simp [he]))]
    exact this cs (fun e he => he)
  have h3 : ((decodeElements (fun r e => rd.decode (sizes cs) false s' r [e]) false [] cs).map
      (fun x => ((.list x.1 : Val D F T), x.2))).map Prod.fst = .ok v ↔
      ∃ vs, v = .list vs ∧
        (decodeElements (fun r e => rd.decode (sizes cs) false s' r [e]) false [] cs).map Prod.fst = .ok vs := by
    cases decodeElements (fun r e => rd.decode (sizes cs) false s' r [e]) false [] cs with
    | error err => simp [Except.map]
    | ok x => simp [Except.map, eq_comm]
  rw [h3]
  constructor
  · rintro ⟨vs, rfl, h4⟩
    obtain ⟨ws, hws, h5⟩ := (h1 vs).1 h4
    rw [List.nil_append] at hws
    subst hws
    exact ⟨vs, rfl, (h2 vs).1 h5⟩
  · rintro ⟨vs, rfl, h4⟩
    exact ⟨vs, rfl, (h1 vs).2 ⟨vs, by simp, (h2 vs).2 h4⟩⟩

/-- A scalar is its text. -/
theorem C45_scalar (rd : Reader S D F T) (s : S) (h : Head) (cs : List Elem) :
    (rd.view s = .boolean → rd.inner s (.mk h cs) =
      if h.text = "true".toList then .ok (.boolean true)
      else if h.text = "false".toList then .ok (.boolean false) else .error .parse) ∧
    (rd.view s = .string → rd.inner s (.mk h cs) = .ok (.string h.text)) ∧
    (rd.view s = .integer → rd.inner s (.mk h cs) = orValue .integer (rd.int h.text)) ∧
    (rd.view s = .bigDecimal → rd.inner s (.mk h cs) = orValue .bigDecimal (rd.decimal h.text)) ∧
    (rd.view s = .blob → rd.inner s (.mk h cs) = orValue .blob (Base64.decode h.text)) ∧
    (rd.view s = .float → rd.inner s (.mk h cs) =
      if h.text = "NaN".toList then .ok (.float .nan)
      else if h.text = "Infinity".toList then .ok (.float (.inf false))
      else if h.text = "-Infinity".toList then .ok (.float (.inf true))
      else orValue .float (rd.float h.text)) ∧
    (∀ trait, rd.view s = .timestamp trait → rd.inner s (.mk h cs) = orValue .timestamp (rd.deserialize
      (match rd.useTimestampFormat, trait with
        | true, some f => f
        | _, _ => rd.defaultFormat) h.text)) := by
  have key : ∀ (n : Nat) (v : View S), rd.view s = v → (∀ sh, v ≠ .struct sh) → (∀ s', v ≠ .list s') →
      (∀ kt vt s', v ≠ .map kt vt s') → v ≠ .document →
      (rd.decode (n + 1) false s false [.mk h cs]).map Prod.fst = rd.scalar v h.text := by
    intro n v hv h1 h2 h3 h4
    simp only [Reader.decode, hv]
    cases v with
    | struct sh => exact absurd rfl (h1 sh)
    | list s' => exact absurd rfl (h2 s')
    | map kt vt s' => exact absurd rfl (h3 kt vt s')
    | document => exact absurd rfl h4
    | _ =>
      generalize rd.scalar _ h.text = y
      cases y <;> rfl
  have hn : size (.mk h cs) = sizes cs + 1 := by rw [size, Nat.add_comm]
  rw [inner_decode, hn]
  refine ⟨fun hv => ?_, fun hv => ?_, fun hv => ?_, fun hv => ?_, fun hv => ?_, fun hv => ?_, fun trait hv => ?_⟩
  all_goals rw [key _ _ hv (by intros; simp) (by intros; simp) (by intros; simp) (by simp)]
  · rfl
  · rfl
  · rfl
  · rfl
  · rfl
  · simp only [Reader.scalar, Reader.readFloat]
    cases rd.float h.text <;> rfl
  · simp only [Reader.scalar]
    cases rd.useTimestampFormat <;> cases trait <;> rfl

/-! ### The members of a structure -/

theorem lookup_put {V : Type} (k k' : Text) (v : V) : ∀ acc : List (Text × V),
    (put acc k v).lookup k' = if k' = k then some v else acc.lookup k'
  | [] => by
    simp only [put, List.lookup_cons, List.lookup_nil]
    by_cases h : k' = k
    · simp [h]
    · have h1 : (k' == k) = false := by simp [h]
      simp only [h1, if_neg h]
  | (a, b) :: acc => by
    simp only [put]
    by_cases he : a = k
    · rw [if_pos he]
      by_cases h : k' = k
      · subst h; simp
      · rw [if_neg h]
        have h1 : (k' == k) = false := by simp [h]
        have h2 : (k' == a) = false := by simp [he, h]
        simp only [List.lookup_cons, h1, h2]
    · rw [if_neg he]
      have ih := lookup_put k k' v acc
      simp only [List.lookup_cons]
      by_cases h2 : k' = a
      · subst h2
        simp [he]
      · have h3 : (k' == a) = false := by simp [h2]
        simp only [h3, ih]

theorem keys_put {V : Type} (k : Text) (v : V) : ∀ (acc : List (Text × V)) (k' : Text),
    k' ∈ (put acc k v).map Prod.fst → k' = k ∨ k' ∈ acc.map Prod.fst
  | [], k', h => by simp [put] at h; exact .inl h
  | e :: acc, k', h => by
    simp only [put] at h
    split at h
    · rename_i he
      simp only [List.map_cons, List.mem_cons] at h ⊢
      rcases h with h | h
      · exact .inl h
      · exact .inr (.inr h)
    · simp only [List.map_cons, List.mem_cons] at h ⊢
      rcases h with h | h
      · exact .inr (.inl h)
      · rcases keys_put k v acc k' h with h | h
        · exact .inl h
        · exact .inr (.inr h)

theorem name_unique {ms : List (Member × S)} (hn : (ms.map fun e => e.1.name).Nodup) {a b : Member × S}
    (ha : a ∈ ms) (hb : b ∈ ms) (h : a.1.name = b.1.name) : a = b := by
  induction ms with
  | nil => cases ha
  | cons c ms ih =>
    simp only [List.map_cons, List.nodup_cons] at hn
    rcases List.mem_cons.1 ha with ha' | ha' <;> rcases List.mem_cons.1 hb with hb' | hb'
    · rw [ha', hb']
    · subst ha'
      exact absurd (List.mem_map.2 ⟨b, hb', h.symm⟩) hn.1
    · subst hb'
      exact absurd (List.mem_map.2 ⟨a, ha', h⟩) hn.1
    · exact ih hn.2 ha' hb'

theorem attributes_lookup (rd : Reader S D F T) (attrs : List (Text × Text)) :
    ∀ (ms : List (Member × S)), (ms.map fun e => e.1.name).Nodup →
    ∀ (acc acc' : List (Text × Val D F T)), rd.readAttributes false attrs acc ms = .ok acc' →
    (∀ k, (∀ m ∈ ms, m.1.isAttribute = true → m.1.name ≠ k) → acc'.lookup k = acc.lookup k) ∧
    (∀ k ∈ acc'.map Prod.fst, k ∈ acc.map Prod.fst ∨ k ∈ ms.map fun e => e.1.name) ∧
    ∀ m ∈ ms, m.1.isAttribute = true → match attrs.find? fun a => localName a.1 = elementName m.1 with
      | none => acc'.lookup m.1.name = acc.lookup m.1.name
      | some a => ∃ x, rd.attrScalar (rd.view m.2) a.2 = .ok x ∧ acc'.lookup m.1.name = some x
  | [], _, acc, acc', h => by
    simp only [Reader.readAttributes, Except.ok.injEq] at h
    subst h
    exact ⟨fun _ _ => rfl, fun k hk => .inl hk, fun m hm => by cases hm⟩
  | m :: ms, hn, acc, acc', h => by
    simp only [List.map_cons, List.nodup_cons] at hn
    have ih := attributes_lookup rd attrs ms hn.2
    have hne : ∀ m' ∈ ms, m'.1.name ≠ m.1.name := fun m' hm' he => hn.1 (List.mem_map.2 ⟨m', hm', he⟩)
    simp only [Reader.readAttributes] at h
    cases ha : m.1.isAttribute with
    | false =>
      simp only [ha, Bool.false_eq_true, if_false] at h
      obtain ⟨i1, i2, i3⟩ := ih acc acc' h
      refine ⟨fun k hk => i1 k (fun m' hm' => hk m' (by simp [hm'])), ?_, ?_⟩
      · intro k hk
        rcases i2 k hk with h1 | h1
        · exact .inl h1
        · exact .inr (by simp only [List.map_cons, List.mem_cons]; exact .inr h1)
      · intro m' hm' ham
        rcases List.mem_cons.1 hm' with rfl | hm'
        · rw [ha] at ham; cases ham
        · exact i3 m' hm' ham
    | true =>
      simp only [ha, if_true, xml_eq] at h
      cases hf : attrs.find? fun a => localName a.1 = elementName m.1 with
      | none =>
        simp only [hf] at h
        obtain ⟨i1, i2, i3⟩ := ih acc acc' h
        refine ⟨fun k hk => i1 k (fun m' hm' => hk m' (by simp [hm'])), ?_, ?_⟩
        · intro k hk
          rcases i2 k hk with h1 | h1
          · exact .inl h1
          · exact .inr (by simp only [List.map_cons, List.mem_cons]; exact .inr h1)
        · intro m' hm' ham
          rcases List.mem_cons.1 hm' with rfl | hm'
          · rw [hf]
            exact i1 _ (fun m' hm' _ => hne m' hm')
          · exact i3 m' hm' ham
      | some a =>
        simp only [hf] at h
        cases hs : rd.attrScalar (rd.view m.2) a.2 with
        | error err => simp [hs] at h
        | ok x =>
          simp only [hs, consume, Bool.false_eq_true, if_false] at h
          obtain ⟨i1, i2, i3⟩ := ih _ acc' h
          refine ⟨?_, ?_, ?_⟩
          · intro k hk
            rw [i1 k (fun m' hm' => hk m' (by simp [hm'])), lookup_put, if_neg]
            exact fun he => hk m (by simp) ha he.symm
          · intro k hk
            rcases i2 k hk with h1 | h1
            · rcases keys_put _ _ _ _ h1 with h2 | h2
              · exact .inr (by simp [h2])
              · exact .inl h2
            · exact .inr (by simp only [List.map_cons, List.mem_cons]; exact .inr h1)
          · intro m' hm' ham
            rcases List.mem_cons.1 hm' with rfl | hm'
            · rw [hf]
              refine ⟨x, hs, ?_⟩
              rw [i1 _ (fun m' hm' _ => hne m' hm'), lookup_put, if_pos rfl]
            · have := i3 m' hm' ham
              rw [lookup_put, if_neg (hne m' hm')] at this
              exact this

/-- The elements buffered for a tag. -/
def bufOf (bufs : Bufs S) (tag : Text) : List Elem := ((bufs.find? fun b => b.1 = tag).map fun b => b.2.2).getD []

theorem bufOf_add (tag tag' : Text) (m : Member × S) (e : Elem) : ∀ bufs : Bufs S,
    bufOf (addBuffer bufs tag m [e]) tag' = if tag = tag' then bufOf bufs tag' ++ [e] else bufOf bufs tag'
  | [] => by
    by_cases h : tag = tag'
    · simp [addBuffer, bufOf, h]
    · simp [addBuffer, bufOf, h]
  | b :: bs => by
    have ih := bufOf_add tag tag' m e bs
    simp only [addBuffer]
    by_cases hb : b.1 = tag
    · rw [if_pos hb]
      by_cases h : tag = tag'
      · subst h; simp [bufOf, hb]
      · have : ¬ b.1 = tag' := fun h' => h (hb.symm.trans h')
        simp [bufOf, h, this]
    · rw [if_neg hb]
      by_cases h2 : b.1 = tag'
      · have : ¬ tag = tag' := fun h' => hb (h2.trans h'.symm)
        simp [bufOf, h2, this]
      · unfold bufOf at ih ⊢
        simp only [List.find?_cons, h2, decide_false, ih]

theorem addBuffer_nonempty (tag : Text) (m : Member × S) (e : Elem) : ∀ bufs : Bufs S,
    (∀ b ∈ bufs, b.2.2 ≠ []) → ∀ b ∈ addBuffer bufs tag m [e], b.2.2 ≠ []
  | [], _, b, hb => by
    simp only [addBuffer, List.mem_singleton] at hb
    subst hb
    simp
  | c :: bs, h, b, hb => by
    simp only [addBuffer] at hb
    split at hb
    · rcases List.mem_cons.1 hb with rfl | hb
      · simp
      · exact h b (by simp [hb])
    · rcases List.mem_cons.1 hb with rfl | hb
      · exact h b (by simp)
      · exact addBuffer_nonempty tag m e bs (fun b hb => h b (by simp [hb])) b hb

theorem addBuffer_tags (tag : Text) (m : Member × S) (e : Elem) : ∀ bufs : Bufs S,
    (bufs.map fun b => b.1).Nodup → ((addBuffer bufs tag m [e]).map fun b => b.1).Nodup ∧
      ∀ t, t ∈ (addBuffer bufs tag m [e]).map (fun b => b.1) → t = tag ∨ t ∈ bufs.map fun b => b.1
  | [], _ => by simp [addBuffer]
  | c :: bs, h => by
    simp only [List.map_cons, List.nodup_cons] at h
    obtain ⟨i1, i2⟩ := addBuffer_tags tag m e bs h.2
    simp only [addBuffer]
    split
    · rename_i hc
      refine ⟨?_, ?_⟩
      · simp only [List.map_cons, List.nodup_cons]
        rw [← hc]
        exact h
      · intro t ht
        simp only [List.map_cons, List.mem_cons] at ht ⊢
        rcases ht with h1 | h1
        · exact .inl h1
        · exact .inr (.inr h1)
    · rename_i hc
      refine ⟨?_, ?_⟩
      · simp only [List.map_cons, List.nodup_cons]
        refine ⟨fun hm => ?_, i1⟩
        rcases i2 _ hm with h1 | h1
        · exact hc h1
        · exact h.1 h1
      · intro t ht
        simp only [List.map_cons, List.mem_cons] at ht ⊢
        rcases ht with h1 | h1
        · exact .inr (.inl h1)
        · rcases i2 t h1 with h2 | h2
          · exact .inl h2
          · exact .inr (.inr h2)

theorem members_lookup (dec : S → Bool → Elem → Except XErr (Val D F T × Bool))
    (hd : ∀ s e x, dec s false e = .ok x → x.2 = false)
    (ms : List (Member × S)) (hn : (ms.map fun e => e.1.name).Nodup) :
    ∀ (es : List Elem) (acc : List (Text × Val D F T)) (bufs : Bufs S)
      (x : List (Text × Val D F T) × Bufs S × Bool), (bufs.map fun b => b.1).Nodup →
      (∀ b ∈ bufs, b.2.2 ≠ []) →
    decodeMembers dec false ms false acc bufs es = .ok x →
    (x.2.1.map fun b => b.1).Nodup ∧ (∀ b ∈ x.2.1, b.2.2 ≠ []) ∧
    (∀ k, (∀ m ∈ ms, m.1.isAttribute = false → m.1.isFlattened = false → m.1.name ≠ k) →
      x.1.lookup k = acc.lookup k) ∧
    (∀ k ∈ x.1.map Prod.fst, k ∈ acc.map Prod.fst ∨ k ∈ ms.map fun e => e.1.name) ∧
    (∀ tag m, resolve ms tag = some m → m.1.isFlattened = true →
      bufOf x.2.1 tag = bufOf bufs tag ++ es.filter fun c => c.name = tag) ∧
    (∀ tag m, resolve ms tag = some m → m.1.isFlattened = false →
      match (es.filter fun c => c.name = tag).getLast? with
      | none => x.1.lookup m.1.name = acc.lookup m.1.name
      | some c => ∃ y, (dec m.2 false c).map Prod.fst = .ok y ∧ x.1.lookup m.1.name = some y)
  | [], acc, bufs, x, hb, hne, h => by
    simp only [decodeMembers, Except.ok.injEq] at h
    subst h
    exact ⟨hb, hne, fun _ _ => rfl, fun k hk => .inl hk, fun _ _ _ _ => by simp, fun _ _ _ _ => rfl⟩
  | .mk h cs :: es, acc, bufs, x, hb, hne, hx => by
    have ih := members_lookup dec hd ms hn es
    simp only [decodeMembers] at hx
    cases hr : resolve ms (localName h.tag) with
    | none =>
      simp only [hr] at hx
      obtain ⟨i1, i2, i3, i4, i5, i6⟩ := ih acc bufs x hb hne hx
      refine ⟨i1, i2, i3, i4, ?_, ?_⟩
      · intro tag m hm hf
        have : ¬ localName h.tag = tag := fun he => by rw [he, hm] at hr; cases hr
        rw [i5 tag m hm hf]
        simp [List.filter_cons, Elem.name, this]
      · intro tag m hm hf
        have : ¬ localName h.tag = tag := fun he => by rw [he, hm] at hr; cases hr
        have e : (Elem.mk h cs :: es).filter (fun c => c.name = tag) = es.filter fun c => c.name = tag := by
          simp [List.filter_cons, Elem.name, this]
        rw [e]
        exact i6 tag m hm hf
    | some m =>
      simp only [hr] at hx
      cases hfl : m.1.isFlattened with
      | true =>
        simp only [hfl, if_true] at hx
        obtain ⟨i1, i2, i3, i4, i5, i6⟩ := ih acc _ x (addBuffer_tags _ m _ bufs hb).1
          (addBuffer_nonempty _ m _ bufs hne) hx
        refine ⟨i1, i2, i3, i4, ?_, ?_⟩
        · intro tag m' hm hf
          rw [i5 tag m' hm hf, bufOf_add]
          by_cases ht : localName h.tag = tag
          · simp [ht, List.filter_cons, Elem.name]
          · simp [ht, List.filter_cons, Elem.name]
        · intro tag m' hm hf
          have : ¬ localName h.tag = tag := fun he => by
            rw [he, hm] at hr
            rw [Option.some.inj hr, hfl] at hf
            cases hf
          have e : (Elem.mk h cs :: es).filter (fun c => c.name = tag) = es.filter fun c => c.name = tag := by
            simp [List.filter_cons, Elem.name, this]
          rw [e]
          exact i6 tag m' hm hf
      | false =>
        simp only [hfl, Bool.false_eq_true, if_false] at hx
        cases hdm : dec m.2 false (.mk h cs) with
        | error err => simp [hdm] at hx
        | ok y =>
          simp only [hdm, consume, Bool.false_eq_true, if_false, hd _ _ _ hdm] at hx
          obtain ⟨i1, i2, i3, i4, i5, i6⟩ := ih _ bufs x hb hne hx
          obtain ⟨r1, r2, r3⟩ := resolve_mem ms _ m hr
          refine ⟨i1, i2, ?_, ?_, ?_, ?_⟩
          · intro k hk
            rw [i3 k hk, lookup_put, if_neg]
            exact fun he => hk m r1 r2 hfl he.symm
          · intro k hk
            rcases i4 k hk with h1 | h1
            · rcases keys_put _ _ _ _ h1 with h2 | h2
              · exact .inr (List.mem_map.2 ⟨m, r1, h2.symm⟩)
              · exact .inl h2
            · exact .inr h1
          · intro tag m' hm hf
            have : ¬ localName h.tag = tag := fun he => by
              rw [he, hm] at hr
              rw [Option.some.inj hr, hfl] at hf
              cases hf
            rw [i5 tag m' hm hf]
            simp [List.filter_cons, Elem.name, this]
          · intro tag m' hm hf
            have hi := i6 tag m' hm hf
            by_cases ht : localName h.tag = tag
            · have hmm : m' = m := by
                rw [ht, hm] at hr
                exact Option.some.inj hr
              subst hmm
              have e : (Elem.mk h cs :: es).filter (fun c => c.name = tag) =
                  .mk h cs :: es.filter fun c => c.name = tag := by
                simp [List.filter_cons, Elem.name, ht]
              rw [e, List.getLast?_cons]
              cases hl : (es.filter fun c => c.name = tag).getLast? with
              | none =>
                rw [hl] at hi
                simp only [Option.getD_none]
                exact ⟨y.1, by simp [hdm, Except.map], by rw [hi, lookup_put, if_pos rfl]⟩
              | some c =>
                rw [hl] at hi
                simpa using hi
            · have e : (Elem.mk h cs :: es).filter (fun c => c.name = tag) =
                  es.filter fun c => c.name = tag := by
                simp [List.filter_cons, Elem.name, ht]
              rw [e]
              have hne' : m'.1.name ≠ m.1.name := by
                intro he
                obtain ⟨q1, q2, q3⟩ := resolve_mem ms _ m' hm
                have := name_unique hn q1 r1 he
                subst this
                exact ht (r3.symm.trans q3)
              cases hl : (es.filter fun c => c.name = tag).getLast? with
              | none =>
                rw [hl] at hi
                simp only at hi ⊢
                rw [hi, lookup_put, if_neg hne']
              | some c =>
                rw [hl] at hi
                exact hi

theorem flush_lookup (all : S → List Elem → Except XErr (Val D F T)) (ms : List (Member × S))
    (hn : (ms.map fun e => e.1.name).Nodup) : ∀ (bufs : Bufs S), BufInv ms bufs →
    (bufs.map fun b => b.1).Nodup → ∀ (acc acc' : List (Text × Val D F T)),
    decodeFlush all false acc bufs = .ok acc' →
    (∀ k, (∀ b ∈ bufs, b.2.1.1.name ≠ k) → acc'.lookup k = acc.lookup k) ∧
    (∀ k ∈ acc'.map Prod.fst, k ∈ acc.map Prod.fst ∨ k ∈ ms.map fun e => e.1.name) ∧
    ∀ b ∈ bufs, ∃ x, all b.2.1.2 b.2.2 = .ok x ∧ acc'.lookup b.2.1.1.name = some x
  | [], _, _, acc, acc', h => by
    simp only [decodeFlush, Except.ok.injEq] at h
    subst h
    exact ⟨fun _ _ => rfl, fun k hk => .inl hk, fun b hb => by cases hb⟩
  | b :: bs, hi, ht, acc, acc', h => by
    simp only [List.map_cons, List.nodup_cons] at ht
    have ih := flush_lookup all ms hn bs (fun b hb => hi b (by simp [hb])) ht.2
    obtain ⟨b1, b2, b3⟩ := resolve_mem ms _ _ (hi b (by simp)).1
    have hne : ∀ c ∈ bs, c.2.1.1.name ≠ b.2.1.1.name := by
      intro c hc he
      obtain ⟨c1, c2, c3⟩ := resolve_mem ms _ _ (hi c (by simp [hc])).1
      have := name_unique hn c1 b1 he
      apply ht.1
      rw [← b3, ← this, c3]
      exact List.mem_map.2 ⟨c, hc, rfl⟩
    simp only [decodeFlush] at h
    cases ha : all b.2.1.2 b.2.2 with
    | error err => simp [ha] at h
    | ok x =>
      simp only [ha, consume, Bool.false_eq_true, if_false] at h
      obtain ⟨i1, i2, i3⟩ := ih _ acc' h
      refine ⟨?_, ?_, ?_⟩
      · intro k hk
        rw [i1 k (fun c hc => hk c (by simp [hc])), lookup_put, if_neg]
        exact fun he => hk b (by simp) he.symm
      · intro k hk
        rcases i2 k hk with h1 | h1
        · rcases keys_put _ _ _ _ h1 with h2 | h2
          · exact .inr (List.mem_map.2 ⟨_, b1, h2.symm⟩)
          · exact .inl h2
        · exact .inr h1
      · intro c hc
        rcases List.mem_cons.1 hc with rfl | hc
        · refine ⟨x, ha, ?_⟩
          rw [i1 _ hne, lookup_put, if_pos rfl]
        · exact i3 c hc

theorem bufOf_mem (bufs : Bufs S) (hn : (bufs.map fun b => b.1).Nodup) (hne : ∀ b ∈ bufs, b.2.2 ≠ [])
    (tag : Text) (b : Text × (Member × S) × List Elem) (hb : b ∈ bufs) (ht : b.1 = tag) :
    bufOf bufs tag = b.2.2 := by
  induction bufs with
  | nil => cases hb
  | cons c bs ih =>
    simp only [List.map_cons, List.nodup_cons] at hn
    rcases List.mem_cons.1 hb with rfl | hb
    · simp [bufOf, ht]
    · have : ¬ c.1 = tag := fun he => hn.1 (by rw [he, ← ht]; exact List.mem_map.2 ⟨b, hb, rfl⟩)
      have h1 := ih hn.2 (fun b hb => hne b (by simp [hb])) hb
      unfold bufOf at h1 ⊢
      simp only [List.find?_cons, this, decide_false, h1]

theorem bufOf_none (bufs : Bufs S) (tag : Text) (h : bufOf bufs tag = []) (hne : ∀ b ∈ bufs, b.2.2 ≠ []) :
    ∀ b ∈ bufs, b.1 ≠ tag := by
  intro b hb ht
  unfold bufOf at h
  cases hf : bufs.find? fun b => b.1 = tag with
  | none =>
    have := List.find?_eq_none.1 hf b hb
    simp [ht] at this
  | some c =>
    rw [hf] at h
    exact hne c (List.mem_of_find?_eq_some hf) h

theorem bufOf_some (bufs : Bufs S) (tag : Text) (h : bufOf bufs tag ≠ []) : ∃ b ∈ bufs, b.1 = tag := by
  unfold bufOf at h
  cases hf : bufs.find? fun b => b.1 = tag with
  | none => rw [hf] at h; exact absurd rfl h
  | some c => exact ⟨c, List.mem_of_find?_eq_some hf, by simpa using List.find?_some hf⟩

theorem decode_flat_eq (rd : Reader S D F T) (n : Nat) (s : S) (es : List Elem) (x : Val D F T)
    (hs : (∃ s', rd.view s = .list s') ∨ ∃ kt vt s', rd.view s = .map kt vt s')
    (hes : ∀ e ∈ es, size e + 1 ≤ n) (hn : 1 ≤ n)
    (h : (rd.decode n true s true es).map Prod.fst = .ok x) :
    rd.inner s (.mk ⟨[], [], []⟩ es) = .ok x := by
  cases hd : rd.decode n true s true es with
  | error err => simp [hd, Except.map] at h
  | ok y =>
    simp only [hd, Except.map, Except.ok.injEq] at h
    have h1 := decode_root rd n true s true es y hd
    have h2 : ∀ m, 1 ≤ m → n ≤ m → rd.decode m true s false es = .ok (y.1, false) := by
      intro m hm hnm
      induction m with
      | zero => omega
      | succ m ih =>
        by_cases he : n = m + 1
        · rw [← he]; exact h1
        · rw [(decode_step rd m).2 s false es (by omega) (fun e he' => by have := hes e he'; omega)]
          exact ih (by omega) (by omega)
    have h3 := decode_size rd s false (.mk ⟨[], [], []⟩ es) (n + size (.mk ⟨[], [], []⟩ es)) (by omega)
    rw [inner_decode, ← h3]
    have h4 := h2 (n + size (.mk ⟨[], [], []⟩ es)) (by omega) (by omega)
    have : ∃ k, n + size (.mk ⟨[], [], []⟩ es) = k + 1 := ⟨n + size (.mk ⟨[], [], []⟩ es) - 1, by omega⟩
    obtain ⟨k, hk⟩ := this
    rw [hk] at h4 ⊢
    rcases hs with ⟨s', hv⟩ | ⟨kt, vt, s', hv⟩
    · simp only [Reader.decode, hv, if_true, Bool.false_eq_true, if_false] at h4 ⊢
      rw [h4, ← h]
      rfl
    · simp only [Reader.decode, hv, if_true, Bool.false_eq_true, if_false] at h4 ⊢
      rw [h4, ← h]
      rfl

/-- A structure has the members its attributes and elements give, and no others. -/
theorem C45_struct (rd : Reader S D F T) (hok : rd.Ok) (s : S) (sh : Shape S) (hv : rd.view s = .struct sh)
    (hu : sh.union = false) (h : Head) (cs : List Elem) (v : Val D F T)
    (hx : rd.inner s (.mk h cs) = .ok v) :
    ∃ kv, v = .struct kv ∧ (∀ m ∈ sh.members, rd.MemberIs h.attrs cs m (kv.lookup m.1.name)) ∧
      ∀ k ∈ kv.map Prod.fst, k ∈ sh.members.map fun m => m.1.name := by
  obtain ⟨hnames, helems, hflat⟩ := hok s sh hv
  rw [inner_decode] at hx
  have hn : size (.mk h cs) = sizes cs + 1 := by rw [size, Nat.add_comm]
  have hlen := sizes_length cs
  rw [hn] at hx
  simp only [Reader.decode, hv, Reader.decodeStruct, Bool.false_eq_true, false_and, if_false, hu] at hx
  cases ha : rd.readAttributes false h.attrs [] sh.members with
  | error err => simp [ha, Except.map] at hx
  | ok acc =>
    simp only [ha] at hx
    cases hm : decodeMembers (fun s r e => rd.decode (sizes cs) false s r [e]) false sh.members false acc [] cs with
    | error err => simp [hm, Except.map] at hx
    | ok x =>
      simp only [hm] at hx
      cases hf : decodeFlush (fun s es => (rd.decode (sizes cs) true s true es).map Prod.fst) false x.1 x.2.1 with
      | error err =>
        rw [hf] at hx
        simp [Except.map] at hx
      | ok kv =>
        rw [hf] at hx
        simp only [finish, Bool.false_eq_true, if_false, Except.map, Except.ok.injEq] at hx
        have hinv := decodeMembers_inv _ false sh.members cs false acc [] x (fun b hb => by cases hb) hm
        have hbufs := decodeMembers_bufs _ false sh.members (fun e => e ∈ cs) cs (fun e he => he) 0 false acc
          [] x (fun b hb => by cases hb) hm
        obtain ⟨a1, a2, a3⟩ := attributes_lookup rd h.attrs sh.members hnames [] acc ha
        obtain ⟨m1, m2, m3, m4, m5, m6⟩ := members_lookup _ (fun s e x he => decode_false rd _ _ _ _ x he)
          sh.members hnames cs acc [] x (by simp) (fun b hb => by cases hb) hm
        obtain ⟨f1, f2, f3⟩ := flush_lookup _ sh.members hnames x.2.1 hinv m1 x.1 kv hf
        refine ⟨kv, hx.symm, ?_, ?_⟩
        · intro m hmem
          unfold Reader.MemberIs
          -- the name of another kind of member
          have hnf : ∀ b ∈ x.2.1, m.1.isFlattened = false ∨ m.1.isAttribute = true →
              b.2.1.1.name ≠ m.1.name := by
            intro b hb hor he
            obtain ⟨b1, b2, b3⟩ := resolve_mem _ _ _ (hinv b hb).1
            have := name_unique hnames b1 hmem he
            rw [← this] at hor
            rcases hor with h1 | h1
            · rw [(hinv b hb).2] at h1; cases h1
            · rw [b2] at h1; cases h1
          cases hattr : m.1.isAttribute with
          | true =>
            simp only [if_true]
            have h1 : kv.lookup m.1.name = acc.lookup m.1.name := by
              rw [f1 _ (fun b hb => hnf b hb (.inr hattr)), m3 _ ?_]
              intro m' hm' hat _ he
              have := name_unique hnames hm' hmem he
              rw [this, hattr] at hat
              cases hat
            have h2 := a3 m hmem hattr
            rw [h1]
            cases hfi : h.attrs.find? fun a => localName a.1 = elementName m.1 with
            | none => rw [hfi] at h2; simpa using h2
            | some a => rw [hfi] at h2; exact h2
          | false =>
            simp only [Bool.false_eq_true, if_false]
            have hres : resolve sh.members (elementName m.1) = some m := by
              unfold resolve
              simp only [xml_eq]
              rw [find_reverse (fun m : Member × S => elementName m.1) _ _ helems]
              have hmf : m ∈ sh.members.filter fun m => !m.1.isAttribute := by
                simp [List.mem_filter, hmem, hattr]
              cases hfi : (sh.members.filter fun m => !m.1.isAttribute).find?
                  fun a => elementName a.1 = elementName m.1 with
              | none =>
                have := List.find?_eq_none.1 hfi m hmf
                simp at this
              | some m' =>
                have h1 := List.mem_of_find?_eq_some hfi
                have h2 : elementName m'.1 = elementName m.1 := by simpa using List.find?_some hfi
                have huniq : ∀ (l : List (Member × S)), (l.map fun e => elementName e.1).Nodup →
                    m' ∈ l → m ∈ l → m' = m := by
                  intro l
                  induction l with
                  | nil => intro _ h; cases h
                  | cons c l ih =>
                    intro hnd h3 h4
                    simp only [List.map_cons, List.nodup_cons] at hnd
                    rcases List.mem_cons.1 h3 with h3' | h3' <;> rcases List.mem_cons.1 h4 with h4' | h4'
                    · rw [h3', h4']
                    · rw [← h3'] at hnd
                      exact absurd (List.mem_map.2 ⟨m, h4', h2.symm⟩) hnd.1
                    · rw [← h4'] at hnd
                      exact absurd (List.mem_map.2 ⟨m', h3', h2⟩) hnd.1
                    · exact ih hnd.2 h3' h4'
                rw [huniq _ helems h1 hmf]
            have hacc : acc.lookup m.1.name = none := by
              rw [a1]
              · rfl
              · intro m' hm' hat he
                have := name_unique hnames hm' hmem he
                rw [this, hattr] at hat
                cases hat
            cases hfl : m.1.isFlattened with
            | true =>
              simp only [if_true]
              have h5 := m5 _ m hres hfl
              have h5' : bufOf x.2.1 (elementName m.1) = cs.filter fun c => c.name = elementName m.1 := by
                rw [h5]; simp [bufOf]
              have hx1 : x.1.lookup m.1.name = none := by
                rw [m3 _ ?_, hacc]
                intro m' hm' _ hfl' he
                have := name_unique hnames hm' hmem he
                rw [this, hfl] at hfl'
                cases hfl'
              by_cases hempty : (cs.filter fun c => c.name = elementName m.1) = []
              · rw [if_pos hempty, f1 _ ?_, hx1]
                intro b hb he
                obtain ⟨b1, b2, b3⟩ := resolve_mem _ _ _ (hinv b hb).1
                have := name_unique hnames b1 hmem he
                refine bufOf_none x.2.1 _ (h5'.trans hempty) m2 b hb ?_
                rw [← b3, this, xml_eq]
              · rw [if_neg hempty]
                obtain ⟨b, hb, hbt⟩ := bufOf_some x.2.1 (elementName m.1) (by rw [h5']; exact hempty)
                have hbm : b.2.1 = m := by
                  have := (hinv b hb).1
                  rw [hbt, hres] at this
                  exact (Option.some.inj this).symm
                have hbe := bufOf_mem x.2.1 m1 m2 _ b hb hbt
                rw [h5'] at hbe
                obtain ⟨y, h6, h7⟩ := f3 b hb
                rw [hbm] at h6 h7
                refine ⟨y, ?_, h7⟩
                rw [hbe]
                refine decode_flat_eq rd (sizes cs) m.2 b.2.2 y (hflat m hmem hfl) ?_ (by omega) h6
                intro e he
                have := size_mem cs e ((hbufs b hb).2 e he)
                omega
            | false =>
              simp only [Bool.false_eq_true, if_false]
              have h6 := m6 _ m hres hfl
              have h1 : kv.lookup m.1.name = x.1.lookup m.1.name :=
                f1 _ (fun b hb => hnf b hb (.inl hfl))
              rw [h1]
              cases hl : (cs.filter fun c => c.name = elementName m.1).getLast? with
              | none =>
                rw [hl] at h6
                simp only at h6 ⊢
                rw [h6, hacc]
              | some c =>
                rw [hl] at h6
                simp only at h6 ⊢
                obtain ⟨y, h7, h8⟩ := h6
                have hc : c ∈ cs := by
                  have := List.mem_of_getLast? hl
                  exact (List.mem_filter.1 this).1
                have := size_mem cs c hc
                rw [decode_inner rd m.2 c _ (by omega)] at h7
                exact ⟨y, h7, h8⟩
        · intro k hk
          rcases f2 k hk with h1 | h1
          · rcases m4 k h1 with h2 | h2
            · rcases a2 k h2 with h3 | h3
              · simp at h3
              · exact h3
            · exact h2
          · exact h1

/-- A union with one element, of one of its members that is not flattened, is that member. -/
theorem C45_union (rd : Reader S D F T) (hok : rd.Ok) (s : S) (sh : Shape S) (hv : rd.view s = .struct sh)
    (hu : sh.union = true) (h : Head) (hh : h.attrs = []) (c : Elem) (m : Member × S)
    (hm : ∀ tag, localName tag = c.name → memberOf sh tag = some m) (hf : m.1.isFlattened = false) :
    rd.inner s (.mk h [c]) = (rd.inner m.2 c).map (.union m.1.name) := by
  obtain ⟨hc, cs⟩ := c
  have hr : resolve sh.members (localName hc.tag) = some m := by
    rw [← memberOf_eq rd hok s sh hv]
    exact hm _ rfl
  rw [inner_decode]
  have hn : size (.mk h [.mk hc cs]) = sizes [.mk hc cs] + 1 := by rw [size, Nat.add_comm]
  have hs := size_mem [.mk hc cs] (.mk hc cs) (by simp)
  rw [hn, ← decode_inner rd m.2 (.mk hc cs) (sizes [.mk hc cs]) (by omega)]
  simp only [Reader.decode, hv, Reader.decodeStruct, Bool.false_eq_true, false_and, if_false, hu, hh,
    readAttributes_nil, decodeMembers, hr, hf]
  cases rd.decode (sizes [.mk hc cs]) false m.2 false [.mk hc cs] with
  | error err => rfl
  | ok x => simp [consume, Except.map, decodeFlush, finish]

/-- A union with several elements of its members is refused. -/
theorem C45_union_two (rd : Reader S D F T) (hok : rd.Ok) (s : S) (sh : Shape S) (hv : rd.view s = .struct sh)
    (hu : sh.union = true) (h : Head) (hh : h.attrs = []) (c d : Elem) (m m' : Member × S)
    (hm : ∀ tag, localName tag = c.name → memberOf sh tag = some m) (hf : m.1.isFlattened = false)
    (hm' : ∀ tag, localName tag = d.name → memberOf sh tag = some m') (hf' : m'.1.isFlattened = false)
    (v : Val D F T) : rd.inner s (.mk h [c, d]) ≠ .ok v := by
  obtain ⟨hc, cs⟩ := c
  obtain ⟨hd, ds⟩ := d
  have hr : resolve sh.members (localName hc.tag) = some m := by
    rw [← memberOf_eq rd hok s sh hv]; exact hm _ rfl
  have hr' : resolve sh.members (localName hd.tag) = some m' := by
    rw [← memberOf_eq rd hok s sh hv]; exact hm' _ rfl
  rw [inner_decode]
  have hn : size (.mk h [.mk hc cs, .mk hd ds]) = sizes [.mk hc cs, .mk hd ds] + 1 := by
    rw [size, Nat.add_comm]
  rw [hn]
  simp only [Reader.decode, hv, Reader.decodeStruct, Bool.false_eq_true, false_and, if_false, hu, hh,
    readAttributes_nil, decodeMembers, hr, hf, hr', hf']
  cases rd.decode (sizes [.mk hc cs, .mk hd ds]) false m.2 false [.mk hc cs] with
  | error err => simp [Except.map]
  | ok x =>
    simp only [consume, if_true]
    cases rd.decode (sizes [.mk hc cs, .mk hd ds]) false m'.2 x.2 [.mk hd ds] with
    | error err => simp [Except.map]
    | ok y => simp [Except.map]

/-! ### Maps -/

/-- An entry of a map: in an element of any name, the key and the value. -/
def entryOf (keyTag : Text) (e : Head × Text × Elem) : Elem :=
  .mk e.1 [.mk ⟨keyTag, [], e.2.1⟩ [], e.2.2]

theorem decodeEntries_spec (dec : Bool → Elem → Except XErr (Val D F T × Bool))
    (hd : ∀ e x, dec false e = .ok x → x.2 = false) (keyTag valueTag : Text)
    (hk : localName keyTag = keyTag) (hkv : valueTag ≠ keyTag) :
    ∀ (es : List (Head × Text × Elem)) (vs : List (Val D F T)) (acc : List (Text × Val D F T)),
    (∀ e ∈ es, e.2.2.name = valueTag) →
    List.Forall₂ (fun (e : Head × Text × Elem) v => (dec false e.2.2).map Prod.fst = .ok v) es vs →
    (es.map fun e => e.2.1).Nodup → (∀ e ∈ es, e.2.1 ∉ acc.map Prod.fst) →
    decodeEntries dec keyTag valueTag false acc (es.map (entryOf keyTag)) =
      .ok (acc ++ (es.map fun e => e.2.1).zip vs, false)
  | [], vs, acc, _, hf, _, _ => by
    cases hf
    simp [decodeEntries]
  | (h, k, .mk hv cs) :: es, vs, acc, hnm, hf, hnd, hacc => by
    cases hf with
    | cons h1 h2 =>
      rename_i v vs
      have hv1 : localName hv.tag = valueTag := hnm (h, k, .mk hv cs) (by simp)
      simp only [List.map_cons, List.nodup_cons] at hnd
      have hput : put acc k v = acc ++ [(k, v)] := by
        have : k ∉ acc.map Prod.fst := hacc (h, k, .mk hv cs) (by simp)
        revert this
        generalize acc = a
        induction a with
        | nil => intro _; rfl
        | cons c a ih =>
          intro hc
          simp only [List.map_cons, List.mem_cons, not_or] at hc
          simp only [put, if_neg (Ne.symm hc.1), ih hc.2, List.cons_append]
      cases hdx : dec false (.mk hv cs) with
      | error err => simp [hdx, Except.map] at h1
      | ok x =>
        simp only [hdx, Except.map, Except.ok.injEq] at h1
        have hx2 := hd _ x hdx
        have ih := decodeEntries_spec dec hd keyTag valueTag hk hkv es vs (acc ++ [(k, v)])
          (fun e he => hnm e (by simp [he])) h2 hnd.2 (by
            intro e he hin
            simp only [List.map_append, List.map_cons, List.map_nil, List.mem_append, List.mem_singleton] at hin
            rcases hin with hin | hin
            · exact hacc e (by simp [he]) hin
            · exact hnd.1 (List.mem_map.2 ⟨e, he, hin⟩))
        simp only [List.map_cons, entryOf, decodeEntries, decodeEntry, hk, if_true, hv1, if_neg hkv, hdx, h1,
          hput, hx2]
        rw [ih]
        simp

/-- A map is its entries. -/
theorem C45_map (rd : Reader S D F T) (s s' : S) (keyTag valueTag : Text)
    (hv : rd.view s = .map keyTag valueTag s') (hk : localName keyTag = keyTag) (hkv : valueTag ≠ keyTag)
    (h : Head) (es : List (Head × Text × Elem)) (vs : List (Val D F T))
    (hnm : ∀ e ∈ es, e.2.2.name = valueTag) (hnd : (es.map fun e => e.2.1).Nodup)
    (hf : List.Forall₂ (fun (e : Head × Text × Elem) v => rd.inner s' e.2.2 = .ok v) es vs) :
    rd.inner s (.mk h (es.map (entryOf keyTag))) = .ok (.map ((es.map fun e => e.2.1).zip vs)) := by
  rw [inner_decode]
  have hn : size (.mk h (es.map (entryOf keyTag))) = sizes (es.map (entryOf keyTag)) + 1 := by
    rw [size, Nat.add_comm]
  rw [hn]
  have hsz : ∀ e ∈ es, size e.2.2 ≤ sizes (es.map (entryOf keyTag)) := by
    intro e he
    have h1 := size_mem _ (entryOf keyTag e) (List.mem_map.2 ⟨e, he, rfl⟩)
    have h2 := size_mem [.mk ⟨keyTag, [], e.2.1⟩ [], e.2.2] e.2.2 (by simp)
    simp only [entryOf, size] at h1
    omega
  have hf' : List.Forall₂ (fun (e : Head × Text × Elem) v =>
      (rd.decode (sizes (es.map (entryOf keyTag))) false s' false [e.2.2]).map Prod.fst = .ok v) es vs := by
    revert hsz
    generalize sizes (es.map (entryOf keyTag)) = n
    intro hsz
    clear hn hnd hnm
    induction hf with
    | nil => exact .nil
    | cons h1 h2 ih =>
      rename_i e v es vs
      refine .cons ?_ (ih (fun e he => hsz e (by simp [he])))
      rw [decode_inner rd s' e.2.2 n (hsz e (by simp))]
      exact h1
  have h1 := decodeEntries_spec (fun r e => rd.decode (sizes (es.map (entryOf keyTag))) false s' r [e])
    (fun e x he => decode_false rd _ _ _ _ x he) keyTag valueTag hk hkv es vs [] hnm hf' hnd (by simp)
  simp only [Reader.decode, hv, Bool.false_eq_true, if_false, h1]
  simp [Except.map]

/-- A value without a key before it is refused. -/
theorem C45_value_first (rd : Reader S D F T) (s s' : S) (keyTag valueTag : Text)
    (hv : rd.view s = .map keyTag valueTag s') (h h' : Head) (c : Elem) (cs es : List Elem)
    (hc : c.name = valueTag) (hkv : valueTag ≠ keyTag) :
    rd.inner s (.mk h (.mk h' (c :: cs) :: es)) = .error .parse := by
  obtain ⟨hc', ccs⟩ := c
  rw [inner_decode]
  have hn : ∀ e : Elem, ∃ n, size e = n + 1 := fun e => ⟨size e - 1, by have := size_pos e; omega⟩
  obtain ⟨n, hn⟩ := hn (.mk h (.mk h' (.mk hc' ccs :: cs) :: es))
  have hc1 : localName hc'.tag = valueTag := hc
  rw [hn]
  simp only [Reader.decode, hv, Bool.false_eq_true, if_false, decodeEntries, decodeEntry, hc1, if_neg hkv, if_true]
  rfl

end

/-! ## The hypotheses are met -/

/-- A structure `Out` with a string, a flattened list of structures, an attribute and a map. -/
def demo : Reader Nat Unit Unit Unit where
  view
    | 0 => .struct ⟨false, "Out".toList, none,
        [(⟨"name".toList, some "Name".toList, false, false⟩, 1), (⟨"items".toList, none, false, true⟩, 2),
         (⟨"id".toList, none, true, false⟩, 1), (⟨"tags".toList, none, false, false⟩, 4),
         (⟨"words".toList, none, false, true⟩, 5)]⟩
    | 2 => .list 3
    | 3 => .struct ⟨false, "Item".toList, none, [(⟨"name".toList, none, false, false⟩, 1)]⟩
    | 4 => .map "key".toList "value".toList 1
    | 5 => .list 1
    | _ => .string
  useTimestampFormat := true
  defaultFormat := .dateTime
  int _ := none
  float _ := none
  decimal _ := none
  deserialize _ _ := none

theorem demo_ok : demo.Ok := by
  intro s sh h
  match s, h with
  | 0, h =>
    cases h
    refine ⟨by decide +kernel, by decide +kernel, ?_⟩
    intro m hm hf
    simp only [List.mem_cons, List.not_mem_nil, or_false] at hm
    rcases hm with rfl | rfl | rfl | rfl | rfl
    · cases hf
    · exact .inl ⟨3, rfl⟩
    · cases hf
    · cases hf
    · exact .inl ⟨1, rfl⟩
  | 3, h =>
    cases h
    refine ⟨by decide +kernel, by decide +kernel, ?_⟩
    intro m hm hf
    simp only [List.mem_cons, List.not_mem_nil, or_false] at hm
    subst hm
    cases hf
  | 1, h => cases h
  | 2, h => cases h
  | 4, h => cases h
  | 5, h => cases h
  | n + 6, h => cases h

/-- An element with a text. -/
def leaf (tag text : String) : Elem := .mk ⟨tag.toList, [], text.toList⟩ []

/-- An element with elements. -/
def node (tag : String) (cs : List Elem) : Elem := .mk ⟨tag.toList, [], []⟩ cs

/-- Unknown elements, one with elements that have the names of members, between the items of a list. -/
def demoElem : Elem :=
  .mk ⟨"{urn:x}Out".toList, [("id".toList, "7".toList)], []⟩
    [leaf "words" "a", node "Unknown" [leaf "Name" "wrong", node "words" []], leaf "Name" "n",
     leaf "words" "b", node "tags" [node "entry" [leaf "key" "k", leaf "other" "o", leaf "value" "v"]]]

/-- What is left without the unknown elements. -/
def demoStripped : Elem :=
  .mk ⟨"{urn:x}Out".toList, [("id".toList, "7".toList)], []⟩
    [leaf "words" "a", leaf "Name" "n",
     leaf "words" "b", node "tags" [node "entry" [leaf "key" "k", leaf "value" "v"]]]

example : demo.strip 0 demoElem = demoStripped := rfl

/-- The value. -/
def demoValue : Val Unit Unit Unit :=
  .struct [("id".toList, .string "7".toList), ("name".toList, .string "n".toList),
    ("tags".toList, .map [("k".toList, .string "v".toList)]),
    ("words".toList, .list [.string "a".toList, .string "b".toList])]

theorem demo_run : demo.run [] 0 (events demoElem) = .ok demoValue := by
  rw [run_decode]
  rfl

theorem demo_inner : demo.inner 0 demoElem = .ok demoValue := C45_outermost _ _ _ _ demo_run

example : demo.run [] 0 (events demoElem) = demo.run [] 0 (events demoStripped) :=
  C45_skip demo demo_ok 0 demoElem

example := C45_struct demo demo_ok 0 _ rfl rfl _ _ _ demo_inner
example := C45_map demo 4 1 "key".toList "value".toList rfl rfl (by decide +kernel) ⟨[], [], []⟩
  [(⟨"entry".toList, [], []⟩, "k".toList, leaf "value" "v")] [.string "v".toList]
  (by intro e he; rw [List.mem_singleton.1 he]; rfl) (by decide +kernel)
  (.cons ((C45_scalar demo 1 _ _).2.1 rfl) .nil)

/-- A union of a string and a number. -/
def demoUnion : Reader Nat Unit Unit Unit where
  view
    | 0 => .struct ⟨true, "U".toList, none,
        [(⟨"a".toList, none, false, false⟩, 1), (⟨"b".toList, none, false, false⟩, 2)]⟩
    | 1 => .string
    | _ => .integer
  useTimestampFormat := true
  defaultFormat := .dateTime
  int _ := some 5
  float _ := none
  decimal _ := none
  deserialize _ _ := none

theorem demoUnion_ok : demoUnion.Ok := by
  intro s sh h
  match s, h with
  | 0, h =>
    cases h
    refine ⟨by decide +kernel, by decide +kernel, ?_⟩
    intro m hm hf
    simp only [List.mem_cons, List.not_mem_nil, or_false] at hm
    rcases hm with rfl | rfl <;> cases hf
  | 1, h => cases h
  | n + 2, h => cases h

example : demoUnion.inner 0 (node "U" [leaf "a" "x"]) = .ok (.union "a".toList (.string "x".toList)) := by
  have h := C45_union demoUnion demoUnion_ok 0 _ rfl rfl ⟨"U".toList, [], []⟩ rfl (leaf "a" "x")
    (⟨"a".toList, none, false, false⟩, 1) (fun tag ht => by simp only [memberOf, ht]; rfl) rfl
  unfold node
  rw [h]
  have h2 := (C45_scalar demoUnion 1 ⟨"a".toList, [], "x".toList⟩ []).2.1 rfl
  unfold leaf
  rw [h2]
  rfl

example (v : Val Unit Unit Unit) : demoUnion.inner 0 (node "U" [leaf "a" "x", leaf "b" "y"]) ≠ .ok v :=
  C45_union_two demoUnion demoUnion_ok 0 _ rfl rfl ⟨"U".toList, [], []⟩ rfl (leaf "a" "x") (leaf "b" "y")
    (⟨"a".toList, none, false, false⟩, 1) (⟨"b".toList, none, false, false⟩, 2)
    (fun tag ht => by simp only [memberOf, ht]; rfl) rfl
    (fun tag ht => by simp only [memberOf, ht]; rfl) rfl v

/-- The response wrappers of a query protocol. -/
example : demo.run ["GetResponse".toList, "GetResult".toList] 0
    (.start ⟨"GetResponse".toList, [], []⟩ :: events (node "GetResult" [leaf "Name" "n"])) =
    demo.inner 0 (node "GetResult" [leaf "Name" "n"]) := by
  have h := C45_wrapped demo 0 [⟨"GetResponse".toList, [], []⟩] ⟨"GetResult".toList, [], []⟩ [leaf "Name" "n"] []
  rw [List.append_nil] at h
  exact h

example : demo.run ["GetResponse".toList, "GetResult".toList] 0
    [.start ⟨"GetResponse".toList, [], []⟩, .start ⟨"Error".toList, [], []⟩] = .error .parse :=
  C45_wrapper_refused demo 0 [⟨"GetResponse".toList, [], []⟩] "GetResult".toList [] ⟨"Error".toList, [], []⟩
    (by decide +kernel) []

/-! ## Names without namespaces -/

/-- The name of an element is its local name: what follows the namespace in braces, if it has one. -/
theorem C45_local_name (ns name : Text) (h1 : '}' ∉ ns) (h2 : name.head? ≠ some '{') :
    localName ('{' :: (ns ++ '}' :: name)) = name ∧ localName name = name := by
  refine ⟨?_, by simp [localName, h2]⟩
  have h : ∀ l : Text, '}' ∉ l → (l ++ '}' :: name).dropWhile (· ≠ '}') = '}' :: name := by
    intro l
    induction l with
    | nil => intro _; simp
    | cons c l ih =>
      intro hl
      simp only [List.mem_cons, not_or] at hl
      rw [List.cons_append, List.dropWhile_cons_of_pos (by simpa using Ne.symm hl.1), ih hl.2]
  have h' := h ('{' :: ns) (by simp [h1])
  simp only [List.cons_append] at h'
  rw [localName, if_pos (by rfl), h', List.tail_cons]

example : localName "{http://s3.amazonaws.com/doc/2006-03-01/}Key".toList = "Key".toList :=
  (C45_local_name "http://s3.amazonaws.com/doc/2006-03-01/".toList "Key".toList (by decide) (by decide)).1

/-! ## What does not hold -/

/-- One could expect that the items of a flattened list of structures may have any name the model gives
them, as the items of other lists do.  The first one must have the name of the structure: the buffered
items are read by a new deserializer, which takes the first structure for the outermost element. -/
theorem C45_flattened_structs_fails :
    demo.inner 3 (node "items" [leaf "name" "x"]) = .ok (.struct [("name".toList, .string "x".toList)]) ∧
    demo.inner 2 (node "list" [node "items" [leaf "name" "x"]]) =
      .ok (.list [.struct [("name".toList, .string "x".toList)]]) ∧
    demo.inner 0 (node "Out" [node "items" [leaf "name" "x"]]) = .error .parse := by
  refine ⟨?_, ?_, ?_⟩ <;> rw [inner_decode] <;> rfl

end Verif.Xml

import Verif.Xml.Model

/-!
# The XML deserializer (C45): lemmas

Reading the events of elements is decoding the elements.
-/

set_option autoImplicit false

namespace Verif.Xml

open Verif.Json (put)

section
variable {S D F T : Type}

/-! ## Decoding elements -/

def decodeElements (dec : Bool → Elem → Except XErr (Val D F T × Bool)) :
    Bool → List (Val D F T) → List Elem → Except XErr (List (Val D F T) × Bool)
  | root, acc, [] => .ok (acc, root)
  | root, acc, e :: es =>
    match dec root e with
    | .error err => .error err
    | .ok x => decodeElements dec x.2 (acc ++ [x.1]) es

def decodeEntry (dec : Bool → Elem → Except XErr (Val D F T × Bool)) (keyTag valueTag : Text) :
    Bool → Option Text → List (Text × Val D F T) → List Elem → Except XErr (List (Text × Val D F T) × Bool)
  | root, _, acc, [] => .ok (acc, root)
  | root, key, acc, .mk h cs :: es =>
    if localName h.tag = keyTag then decodeEntry dec keyTag valueTag root (some h.text) acc es
    else if localName h.tag = valueTag then
      match key with
      | none => .error .parse
      | some k =>
        match dec root (.mk h cs) with
        | .error err => .error err
        | .ok x => decodeEntry dec keyTag valueTag x.2 key (put acc k x.1) es
    else decodeEntry dec keyTag valueTag root key acc es

def decodeEntries (dec : Bool → Elem → Except XErr (Val D F T × Bool)) (keyTag valueTag : Text) :
    Bool → List (Text × Val D F T) → List Elem → Except XErr (List (Text × Val D F T) × Bool)
  | root, acc, [] => .ok (acc, root)
  | root, acc, .mk _ cs :: es =>
    match decodeEntry dec keyTag valueTag root none acc cs with
    | .error err => .error err
    | .ok x => decodeEntries dec keyTag valueTag x.2 x.1 es

/-- The buffers, with elements in place of events. -/
abbrev Bufs (S : Type) := List (Text × (Member × S) × List Elem)

def decodeMembers (dec : S → Bool → Elem → Except XErr (Val D F T × Bool)) (union : Bool)
    (ms : List (Member × S)) :
    Bool → List (Text × Val D F T) → Bufs S → List Elem →
    Except XErr (List (Text × Val D F T) × Bufs S × Bool)
  | root, acc, bufs, [] => .ok (acc, bufs, root)
  | root, acc, bufs, .mk h cs :: es =>
    match resolve ms (localName h.tag) with
    | some m =>
      if m.1.isFlattened then
        decodeMembers dec union ms root acc (addBuffer bufs (localName h.tag) m [.mk h cs]) es
      else
        match dec m.2 root (.mk h cs) with
        | .error err => .error err
        | .ok x =>
          match consume union acc m.1.name x.1 with
          | .error err => .error err
          | .ok acc => decodeMembers dec union ms x.2 acc bufs es
    | none => decodeMembers dec union ms root acc bufs es

def decodeFlush (all : S → List Elem → Except XErr (Val D F T)) (union : Bool) :
    List (Text × Val D F T) → Bufs S → Except XErr (List (Text × Val D F T))
  | acc, [] => .ok acc
  | acc, b :: bs =>
    match all b.2.1.2 b.2.2 with
    | .error err => .error err
    | .ok x =>
      match consume union acc b.2.1.1.name x with
      | .error err => .error err
      | .ok acc => decodeFlush all union acc bs

def Reader.decodeStruct (rd : Reader S D F T) (dec : S → Bool → Elem → Except XErr (Val D F T × Bool))
    (all : S → List Elem → Except XErr (Val D F T)) (sh : Shape S) (root : Bool) (h : Head)
    (cs : List Elem) : Except XErr (Val D F T × Bool) :=
  if root = true ∧ localName h.tag ≠ sh.rootName then .error .parse
  else
    match rd.readAttributes sh.union h.attrs [] sh.members with
    | .error err => .error err
    | .ok acc =>
      match decodeMembers dec sh.union sh.members false acc [] cs with
      | .error err => .error err
      | .ok (acc, bufs, root) =>
        match decodeFlush all sh.union acc bufs with
        | .error err => .error err
        | .ok acc => (finish sh.union acc).map fun v => (v, root)

/-- What the deserializer makes of an element, or of the elements of a flattened member; the flag is
`_is_root` before and after. -/
def Reader.decode (rd : Reader S D F T) : Nat → Bool → S → Bool → List Elem → Except XErr (Val D F T × Bool)
  | 0, _, _, _, _ => .error .fuel
  | n + 1, flat, s, root, es =>
    match rd.view s with
    | .struct sh => match es with
      | [] => .error .stop
      | .mk h cs :: _ => rd.decodeStruct (fun s r e => rd.decode n false s r [e])
          (fun s es => (rd.decode n true s true es).map Prod.fst) sh root h cs
    | .list s' =>
      if flat then
        (decodeElements (fun r e => rd.decode n false s' r [e]) root [] es).map fun x => (.list x.1, x.2)
      else match es with
        | [] => .error .stop
        | .mk _ cs :: _ =>
          (decodeElements (fun r e => rd.decode n false s' r [e]) root [] cs).map fun x => (.list x.1, x.2)
    | .map keyTag valueTag s' =>
      if flat then
        (decodeEntries (fun r e => rd.decode n false s' r [e]) keyTag valueTag root [] es).map
          fun x => (.map x.1, x.2)
      else match es with
        | [] => .error .stop
        | .mk _ cs :: _ =>
          (decodeEntries (fun r e => rd.decode n false s' r [e]) keyTag valueTag root [] cs).map
            fun x => (.map x.1, x.2)
    | .document => .error .unsupported
    | v => match es with
      | [] => .error .stop
      | .mk h _ :: _ => (rd.scalar v h.text).map fun y => (y, root)

mutual
/-- The steps needed to read an element. -/
def size : Elem → Nat
  | .mk _ cs => 1 + sizes cs
termination_by structural e => e
def sizes : List Elem → Nat
  | [] => 2
  | c :: cs => size c + sizes cs
end

theorem size_pos (e : Elem) : 1 ≤ size e := by
  cases e; simp only [size]; omega

theorem sizes_length (cs : List Elem) : cs.length + 2 ≤ sizes cs := by
  induction cs with
  | nil => simp [sizes]
  | cons c cs ih =>
    have := size_pos c
    simp only [sizes, List.length_cons]
    omega

theorem size_mem (cs : List Elem) (c : Elem) (h : c ∈ cs) : size c + 2 ≤ sizes cs := by
  induction cs with
  | nil => cases h
  | cons d cs ih =>
    simp only [sizes]
    rcases List.mem_cons.1 h with rfl | h
    · have := sizes_length cs; omega
    · have := ih h; omega

mutual
theorem size_events : ∀ e : Elem, size e + 1 ≤ 2 * (events e).length
  | .mk h cs => by
    have := sizes_events cs
    simp only [size, events, List.length_cons, List.length_append, List.length_nil]
    omega
termination_by structural e => e
theorem sizes_events : ∀ cs : List Elem, sizes cs ≤ 2 * (allEvents cs).length + 2
  | [] => by simp [sizes, allEvents]
  | c :: cs => by
    have h1 := size_events c
    have h2 := sizes_events cs
    simp only [sizes, allEvents, List.length_append]
    omega
end

/-! ## Skipping and buffering -/

mutual
theorem skip_events : ∀ (e : Elem) (d : Nat) (rest : List Ev),
    skipToEnd (d + 1) (events e ++ rest) = skipToEnd (d + 1) rest
  | .mk h cs, d, rest => by
    simp only [events, List.cons_append, List.append_assoc, List.nil_append, skipToEnd]
    exact skip_all cs (d + 1) rest
termination_by structural e => e
theorem skip_all : ∀ (cs : List Elem) (d : Nat) (rest : List Ev),
    skipToEnd (d + 1) (allEvents cs ++ .stop :: rest) = skipToEnd d rest
  | [], d, rest => by simp only [allEvents, List.nil_append, skipToEnd]
  | c :: cs, d, rest => by
    simp only [allEvents, List.append_assoc]
    rw [skip_events c d, skip_all cs d rest]
end

mutual
theorem buffer_events : ∀ (e : Elem) (d : Nat) (rest : List Ev),
    bufferFrom (d + 1) (events e ++ rest) =
      (bufferFrom (d + 1) rest).map fun x => (events e ++ x.1, x.2)
  | .mk h cs, d, rest => by
    simp only [events, List.cons_append, List.append_assoc, List.nil_append, bufferFrom]
    rw [buffer_all cs (d + 1) rest]
    cases bufferFrom (d + 1) rest <;> simp [Except.map]
termination_by structural e => e
theorem buffer_all : ∀ (cs : List Elem) (d : Nat) (rest : List Ev),
    bufferFrom (d + 1) (allEvents cs ++ .stop :: rest) =
      (bufferFrom d rest).map fun x => (allEvents cs ++ .stop :: x.1, x.2)
  | [], d, rest => by simp only [allEvents, List.nil_append, bufferFrom]
  | c :: cs, d, rest => by
    simp only [allEvents, List.append_assoc]
    rw [buffer_events c d, buffer_all cs d rest]
    cases bufferFrom d rest <;> simp [Except.map]
end

theorem buffer_element (cs : List Elem) (rest : List Ev) :
    bufferFrom 1 (allEvents cs ++ .stop :: rest) = .ok (allEvents cs ++ [.stop], rest) := by
  rw [buffer_all cs 0 rest]
  simp [bufferFrom, Except.map]

theorem skip_element (cs : List Elem) (rest : List Ev) :
    skipToEnd 1 (allEvents cs ++ .stop :: rest) = .ok rest := by
  rw [skip_all cs 0 rest]
  simp [skipToEnd]

theorem allEvents_append (a b : List Elem) : allEvents (a ++ b) = allEvents a ++ allEvents b := by
  induction a with
  | nil => rfl
  | cons c a ih => simp [allEvents, ih]

/-! ## Reading is decoding -/

/-- The result of reading an element, followed by these events. -/
def after {A : Type} (rest : List Ev) : Except XErr (A × Bool) → Except XErr (A × St)
  | .error err => .error err
  | .ok x => .ok (x.1, ⟨x.2, none, rest⟩)

/-- `read` reads this element as `dec` decodes it. -/
def Agree (read : St → Except XErr (Val D F T × St)) (dec : Bool → Elem → Except XErr (Val D F T × Bool))
    (e : Elem) : Prop := ∀ root rest, read ⟨root, none, events e ++ rest⟩ = after rest (dec root e)

theorem events_cons (e : Elem) : ∃ h r, events e = .start h :: r := by
  cases e with
  | mk h cs => exact ⟨h, _, rfl⟩

theorem readElements_spec (read : St → Except XErr (Val D F T × St))
    (dec : Bool → Elem → Except XErr (Val D F T × Bool)) : ∀ (es : List Elem), (∀ e ∈ es, Agree read dec e) →
    ∀ (n : Nat) (root : Bool) (acc : List (Val D F T)) (rest : List Ev), es.length + 1 ≤ n →
    readElements read false n acc ⟨root, none, allEvents es ++ .stop :: rest⟩ =
      after rest (decodeElements dec root acc es)
  | _, _, 0, _, _, _, hn => by omega
  | [], _, n + 1, root, acc, rest, _ => rfl
  | e :: es, h, n + 1, root, acc, rest, hn => by
    have ih := fun root acc => readElements_spec read dec es (fun e he => h e (by simp [he])) n root acc rest
      (by simp at hn; omega)
    obtain ⟨hd, r, he⟩ := events_cons e
    have h1 := h e (by simp) root (allEvents es ++ .stop :: rest)
    simp only [allEvents, List.append_assoc, decodeElements]
    rw [he] at h1 ⊢
    simp only [List.cons_append] at h1 ⊢
    simp only [readElements, h1]
    cases dec root e with
    | error err => rfl
    | ok x => exact ih x.2 _

theorem readElements_flat (read : St → Except XErr (Val D F T × St))
    (dec : Bool → Elem → Except XErr (Val D F T × Bool)) : ∀ (es : List Elem), (∀ e ∈ es, Agree read dec e) →
    ∀ (n : Nat) (root : Bool) (acc : List (Val D F T)), es.length + 1 ≤ n →
    readElements read true n acc ⟨root, none, allEvents es⟩ = after [] (decodeElements dec root acc es)
  | _, _, 0, _, _, hn => by omega
  | [], _, n + 1, root, acc, _ => rfl
  | e :: es, h, n + 1, root, acc, hn => by
    have ih := fun root acc => readElements_flat read dec es (fun e he => h e (by simp [he])) n root acc
      (by simp at hn; omega)
    obtain ⟨hd, r, he⟩ := events_cons e
    have h1 := h e (by simp) root (allEvents es)
    simp only [allEvents, decodeElements]
    rw [he] at h1 ⊢
    simp only [List.cons_append] at h1 ⊢
    simp only [readElements, h1]
    cases dec root e with
    | error err => rfl
    | ok x => exact ih x.2 _

theorem readEntry_spec (read : St → Except XErr (Val D F T × St))
    (dec : Bool → Elem → Except XErr (Val D F T × Bool)) (keyTag valueTag : Text) :
    ∀ (es : List Elem), (∀ e ∈ es, Agree read dec e) →
    ∀ (n : Nat) (root : Bool) (key : Option Text) (acc : List (Text × Val D F T)) (rest : List Ev),
    es.length + 1 ≤ n →
    readEntry read keyTag valueTag n key acc ⟨root, none, allEvents es ++ .stop :: rest⟩ =
      after rest (decodeEntry dec keyTag valueTag root key acc es)
  | _, _, 0, _, _, _, _, hn => by omega
  | [], _, n + 1, root, key, acc, rest, _ => rfl
  | .mk hd cs :: es, h, n + 1, root, key, acc, rest, hn => by
    have ih := fun root key acc => readEntry_spec read dec keyTag valueTag es (fun e he => h e (by simp [he]))
      n root key acc rest (by simp at hn; omega)
    have h1 := h (.mk hd cs) (by simp) root (allEvents es ++ .stop :: rest)
    have h2 := skip_element cs (allEvents es ++ .stop :: rest)
    simp only [allEvents, events, List.append_assoc, List.cons_append, List.nil_append] at h1 h2 ⊢
    simp only [readEntry, decodeEntry]
    by_cases hk : localName hd.tag = keyTag
    · simp only [hk, if_true, readText, consumeStart, h2, Except.map]
      exact ih _ _ _
    · simp only [hk, if_false]
      by_cases hv : localName hd.tag = valueTag
      · simp only [hv, if_true]
        cases key with
        | none => rfl
        | some k =>
          simp only [h1]
          cases dec root (.mk hd cs) with
          | error err => rfl
          | ok x => exact ih _ _ _
      · simp only [hv, if_false, h2]
        exact ih _ _ _

theorem readEntries_spec (read : St → Except XErr (Val D F T × St))
    (dec : Bool → Elem → Except XErr (Val D F T × Bool)) (keyTag valueTag : Text) (m : Nat) :
    ∀ (es : List Elem), (∀ h cs, Elem.mk h cs ∈ es → cs.length + 1 ≤ m ∧ ∀ e ∈ cs, Agree read dec e) →
    ∀ (n : Nat) (root : Bool) (acc : List (Text × Val D F T)) (rest : List Ev), es.length + 1 ≤ n →
    readEntries read keyTag valueTag m false n acc ⟨root, none, allEvents es ++ .stop :: rest⟩ =
      after rest (decodeEntries dec keyTag valueTag root acc es)
  | _, _, 0, _, _, _, hn => by omega
  | [], _, n + 1, root, acc, rest, _ => rfl
  | .mk hd cs :: es, h, n + 1, root, acc, rest, hn => by
    have ih := fun root acc => readEntries_spec read dec keyTag valueTag m es
      (fun h' cs' he => h h' cs' (by simp [he])) n root acc rest (by simp at hn; omega)
    obtain ⟨h1, h2⟩ := h hd cs (by simp)
    have h3 := readEntry_spec read dec keyTag valueTag cs h2 m root none acc
      (allEvents es ++ .stop :: rest) h1
    simp only [allEvents, events, List.append_assoc, List.cons_append, List.nil_append]
    simp only [readEntries, decodeEntries, consumeStart, h3]
    cases decodeEntry dec keyTag valueTag root none acc cs with
    | error err => rfl
    | ok x => exact ih _ _

theorem readEntries_flat (read : St → Except XErr (Val D F T × St))
    (dec : Bool → Elem → Except XErr (Val D F T × Bool)) (keyTag valueTag : Text) (m : Nat) :
    ∀ (es : List Elem), (∀ h cs, Elem.mk h cs ∈ es → cs.length + 1 ≤ m ∧ ∀ e ∈ cs, Agree read dec e) →
    ∀ (n : Nat) (root : Bool) (acc : List (Text × Val D F T)), es.length + 1 ≤ n →
    readEntries read keyTag valueTag m true n acc ⟨root, none, allEvents es⟩ =
      after [] (decodeEntries dec keyTag valueTag root acc es)
  | _, _, 0, _, _, hn => by omega
  | [], _, n + 1, root, acc, _ => rfl
  | .mk hd cs :: es, h, n + 1, root, acc, hn => by
    have ih := fun root acc => readEntries_flat read dec keyTag valueTag m es
      (fun h' cs' he => h h' cs' (by simp [he])) n root acc (by simp at hn; omega)
    obtain ⟨h1, h2⟩ := h hd cs (by simp)
    have h3 := readEntry_spec read dec keyTag valueTag cs h2 m root none acc (allEvents es) h1
    simp only [allEvents, events, List.append_assoc, List.cons_append, List.nil_append]
    simp only [readEntries, decodeEntries, consumeStart, h3]
    cases decodeEntry dec keyTag valueTag root none acc cs with
    | error err => rfl
    | ok x => exact ih _ _

/-- The buffers of events for buffers of elements. -/
def evBufs (bufs : Bufs S) : List (Text × (Member × S) × List Ev) :=
  bufs.map fun b => (b.1, b.2.1, allEvents b.2.2)

theorem addBuffer_events (bufs : Bufs S) (tag : Text) (m : Member × S) (e : Elem) :
    addBuffer (evBufs bufs) tag m (events e) = evBufs (addBuffer bufs tag m [e]) := by
  induction bufs with
  | nil => simp [evBufs, addBuffer, allEvents]
  | cons b bs ih =>
    simp only [evBufs, List.map_cons, addBuffer] at ih ⊢
    by_cases h : b.1 = tag
    · simp [h, allEvents_append, allEvents]
    · simp [h, ih]

theorem readMembers_spec (read : S → St → Except XErr (Val D F T × St))
    (dec : S → Bool → Elem → Except XErr (Val D F T × Bool)) (union : Bool) (ms : List (Member × S)) :
    ∀ (es : List Elem), (∀ s, ∀ e ∈ es, Agree (read s) (dec s) e) →
    ∀ (n : Nat) (root : Bool) (acc : List (Text × Val D F T)) (bufs : Bufs S) (rest : List Ev),
    es.length + 1 ≤ n →
    readMembers read union ms n acc (evBufs bufs) ⟨root, none, allEvents es ++ .stop :: rest⟩ =
      (decodeMembers dec union ms root acc bufs es).map fun x => (x.1, evBufs x.2.1, ⟨x.2.2, none, rest⟩)
  | _, _, 0, _, _, _, _, hn => by omega
  | [], _, n + 1, root, acc, bufs, rest, _ => rfl
  | .mk hd cs :: es, h, n + 1, root, acc, bufs, rest, hn => by
    have ih := fun root acc bufs => readMembers_spec read dec union ms es (fun s e he => h s e (by simp [he]))
      n root acc bufs rest (by simp at hn; omega)
    have h1 := fun s => h s (.mk hd cs) (by simp) root (allEvents es ++ .stop :: rest)
    have h2 := skip_element cs (allEvents es ++ .stop :: rest)
    have h3 := buffer_element cs (allEvents es ++ .stop :: rest)
    have h4 := fun m => addBuffer_events bufs (localName hd.tag) m (.mk hd cs)
    simp only [allEvents, events, List.append_assoc, List.cons_append, List.nil_append] at h1 h2 h3 h4 ⊢
    simp only [readMembers, decodeMembers]
    cases resolve ms (localName hd.tag) with
    | none =>
      simp only [h2]
      exact ih _ _ _
    | some m =>
      cases hf : m.1.isFlattened with
      | true =>
        simp only [hf, if_true, h3, h4]
        exact ih _ _ _
      | false =>
        simp only [hf, Bool.false_eq_true, if_false, h1]
        cases dec m.2 root (.mk hd cs) with
        | error err => rfl
        | ok x =>
          simp only [after]
          cases consume union acc m.1.name x.1 with
          | error err => rfl
          | ok acc' => exact ih _ _ _

theorem flush_spec (read : S → St → Except XErr (Val D F T × St))
    (all : S → List Elem → Except XErr (Val D F T)) (union : Bool) : ∀ (bufs : Bufs S),
    (∀ b ∈ bufs, (read b.2.1.2 ⟨true, none, allEvents b.2.2⟩).map Prod.fst = all b.2.1.2 b.2.2) →
    ∀ acc : List (Text × Val D F T), flush read union acc (evBufs bufs) = decodeFlush all union acc bufs
  | [], _, acc => rfl
  | b :: bs, h, acc => by
    have ih := flush_spec read all union bs (fun b hb => h b (by simp [hb]))
    have h1 := h b (by simp)
    simp only [evBufs, List.map_cons, flush, decodeFlush] at ih ⊢
    rw [← h1]
    cases read b.2.1.2 ⟨true, none, allEvents b.2.2⟩ with
    | error err => rfl
    | ok x =>
      simp only [Except.map]
      cases consume union acc b.2.1.1.name x.1 with
      | error err => rfl
      | ok acc' => exact ih acc'

/-- The elements in the buffers are elements of the structure. -/
def BufsOk (Q : Elem → Prop) (k : Nat) (bufs : Bufs S) : Prop :=
  ∀ b ∈ bufs, b.2.2.length ≤ k ∧ ∀ e ∈ b.2.2, Q e

theorem addBuffer_ok (Q : Elem → Prop) (k : Nat) (bufs : Bufs S) (tag : Text) (m : Member × S) (e : Elem)
    (h : BufsOk Q k bufs) (he : Q e) : BufsOk Q (k + 1) (addBuffer bufs tag m [e]) := by
  induction bufs with
  | nil =>
    intro b hb
    simp only [addBuffer, List.mem_singleton] at hb
    subst hb
    simp [he]
  | cons c bs ih =>
    have hc := h c (by simp)
    have hbs : BufsOk Q k bs := fun b hb => h b (by simp [hb])
    simp only [addBuffer]
    split
    · intro b hb
      rcases List.mem_cons.1 hb with rfl | hb
      · refine ⟨by simp; exact hc.1, ?_⟩
        intro x hx
        rcases List.mem_append.1 hx with hx | hx
        · exact hc.2 x hx
        · rw [List.mem_singleton.1 hx]; exact he
      · exact ⟨Nat.le_succ_of_le (hbs b hb).1, (hbs b hb).2⟩
    · intro b hb
      rcases List.mem_cons.1 hb with rfl | hb
      · exact ⟨Nat.le_succ_of_le hc.1, hc.2⟩
      · exact ih hbs b hb

theorem decodeMembers_bufs (dec : S → Bool → Elem → Except XErr (Val D F T × Bool)) (union : Bool)
    (ms : List (Member × S)) (Q : Elem → Prop) : ∀ (es : List Elem), (∀ e ∈ es, Q e) →
    ∀ (k : Nat) (root : Bool) (acc : List (Text × Val D F T)) (bufs : Bufs S)
      (x : List (Text × Val D F T) × Bufs S × Bool), BufsOk Q k bufs →
    decodeMembers dec union ms root acc bufs es = .ok x → BufsOk Q (k + es.length) x.2.1
  | [], _, k, root, acc, bufs, x, hb, h => by
    simp only [decodeMembers, Except.ok.injEq] at h
    subst h
    exact hb
  | .mk hd cs :: es, hq, k, root, acc, bufs, x, hb, h => by
    have ih := decodeMembers_bufs dec union ms Q es (fun e he => hq e (by simp [he]))
    have hb' : BufsOk Q (k + 1) bufs := fun b hx => ⟨Nat.le_succ_of_le (hb b hx).1, (hb b hx).2⟩
    have e : k + (Elem.mk hd cs :: es).length = (k + 1) + es.length := by simp; omega
    rw [e]
    simp only [decodeMembers] at h
    cases hr : resolve ms (localName hd.tag) with
    | none =>
      simp only [hr] at h
      exact ih _ _ _ _ _ hb' h
    | some m =>
      simp only [hr] at h
      split at h
      · exact ih _ _ _ _ _ (addBuffer_ok Q k bufs _ m _ hb (hq _ (by simp))) h
      · cases hd' : dec m.2 root (.mk hd cs) with
        | error err => simp [hd'] at h
        | ok y =>
          simp only [hd'] at h
          cases hc : consume union acc m.1.name y.1 with
          | error err => simp [hc] at h
          | ok acc' =>
            simp only [hc] at h
            exact ih _ _ _ _ _ hb' h

theorem readStruct_spec (rd : Reader S D F T) (read flat : S → St → Except XErr (Val D F T × St))
    (dec : S → Bool → Elem → Except XErr (Val D F T × Bool))
    (all : S → List Elem → Except XErr (Val D F T)) (n : Nat) (sh : Shape S) (root : Bool) (h : Head)
    (cs : List Elem) (rest : List Ev) (hn : cs.length + 1 ≤ n)
    (h1 : ∀ s, ∀ e ∈ cs, Agree (read s) (dec s) e)
    (h2 : ∀ s, ∀ es : List Elem, es.length ≤ cs.length → (∀ e ∈ es, e ∈ cs) →
      (flat s ⟨true, none, allEvents es⟩).map Prod.fst = all s es) :
    rd.readStruct read flat n sh ⟨root, none, events (.mk h cs) ++ rest⟩ =
      after rest (rd.decodeStruct dec all sh root h cs) := by
  have h3 := fun acc => readMembers_spec read dec sh.union sh.members cs h1 n false acc [] rest hn
  simp only [events, List.append_assoc, List.cons_append, List.nil_append] at h3 ⊢
  simp only [Reader.readStruct, Reader.decodeStruct, consumeStart]
  by_cases hr : root = true ∧ localName h.tag ≠ sh.rootName
  · rw [if_pos hr, if_pos hr]; rfl
  · rw [if_neg hr, if_neg hr]
    simp only [Option.isSome_none, Bool.false_eq_true, if_false]
    cases rd.readAttributes sh.union h.attrs [] sh.members with
    | error err => rfl
    | ok acc =>
      have h4 := h3 acc
      simp only [evBufs, List.map_nil] at h4
      simp only [h4]
      cases hm : decodeMembers dec sh.union sh.members false acc [] cs with
      | error err => rfl
      | ok x =>
        have hb := decodeMembers_bufs dec sh.union sh.members (fun e => e ∈ cs) cs (fun e he => he) 0 false acc
          [] x (fun b hb => by cases hb) hm
        have h5 := flush_spec flat all sh.union x.2.1 (fun b hb' =>
          h2 b.2.1.2 b.2.2 (by have := (hb b hb').1; omega) (hb b hb').2) x.1
        unfold evBufs at h5
        simp only [Except.map, h5]
        cases decodeFlush all sh.union x.1 x.2.1 with
        | error err => rfl
        | ok acc' =>
          simp only
          cases finish sh.union acc' <;> rfl

theorem read_spec (rd : Reader S D F T) : ∀ (n : Nat),
    (∀ s root e rest, size e ≤ n →
      rd.read n false s ⟨root, none, events e ++ rest⟩ = after rest (rd.decode n false s root [e])) ∧
    (∀ s root (es : List Elem), (∀ e ∈ es, size e + 1 ≤ n) → es.length + 2 ≤ n →
      (rd.read n true s ⟨root, none, allEvents es⟩).map Prod.fst =
        (rd.decode n true s root es).map Prod.fst)
  | 0 => ⟨fun s root e rest h => by have := size_pos e; omega, fun s root es _ h => by omega⟩
  | n + 1 => by
    obtain ⟨iha, ihb⟩ := read_spec rd n
    have hagree : ∀ (cs : List Elem), sizes cs ≤ n → ∀ s, ∀ e ∈ cs,
        Agree (rd.read n false s) (fun r e => rd.decode n false s r [e]) e := by
      intro cs hcs s e he root rest
      have := size_mem cs e he
      exact iha s root e rest (by omega)
    have hstruct : ∀ sh root h cs rest, sizes cs ≤ n →
        rd.readStruct (rd.read n false) (rd.read n true) n sh ⟨root, none, events (.mk h cs) ++ rest⟩ =
          after rest (rd.decodeStruct (fun s r e => rd.decode n false s r [e])
            (fun s es => (rd.decode n true s true es).map Prod.fst) sh root h cs) := by
      intro sh root h cs rest hcs
      have hl := sizes_length cs
      refine readStruct_spec rd _ _ _ _ n sh root h cs rest (by omega) (hagree cs hcs) ?_
      intro s es hes hmem
      refine ihb s true es ?_ (by omega)
      intro e he
      have := size_mem cs e (hmem e he)
      omega
    have hentries : ∀ (cs : List Elem), sizes cs ≤ n → ∀ s, ∀ h' cs', Elem.mk h' cs' ∈ cs → cs'.length + 1 ≤ n ∧
        ∀ e ∈ cs', Agree (rd.read n false s) (fun r e => rd.decode n false s r [e]) e := by
      intro cs hcs s h' cs' hmem
      have h1 := size_mem cs _ hmem
      simp only [size] at h1
      have h2 := sizes_length cs'
      exact ⟨by omega, hagree cs' (by omega) s⟩
    constructor
    · rintro s root ⟨h, cs⟩ rest hs
      simp only [size] at hs
      have hl := sizes_length cs
      have hst := fun sh => hstruct sh root h cs rest (by omega)
      have hli := fun s' => readElements_spec _ _ cs (hagree cs (by omega) s') n root [] rest (by omega)
      have hma := fun s' kt vt => readEntries_spec _ _ kt vt n cs (hentries cs (by omega) s') n root [] rest
        (by omega)
      have hsk := skip_element cs rest
      simp only [events, List.append_assoc, List.cons_append, List.nil_append] at hst ⊢
      simp only [Reader.read, Reader.decode]
      cases hv : rd.view s with
      | struct sh => exact hst sh
      | list s' =>
        simp only [Bool.false_eq_true, if_false, consumeStart, hli s']
        cases decodeElements (fun r e => rd.decode n false s' r [e]) root [] cs <;> rfl
      | map kt vt s' =>
        simp only [Bool.false_eq_true, if_false, consumeStart, hma s' kt vt]
        cases decodeEntries (fun r e => rd.decode n false s' r [e]) kt vt root [] cs <;> rfl
      | document => rfl
      | _ =>
        simp only [readText, consumeStart, hsk, Except.map]
        generalize rd.scalar _ h.text = y
        cases y <;> rfl
    · intro s root es hes hlen
      simp only [Reader.read, Reader.decode]
      cases hv : rd.view s with
      | struct sh =>
        cases es with
        | nil => rfl
        | cons e es =>
          obtain ⟨h, cs⟩ := e
          have := hes _ (by simp : Elem.mk h cs ∈ Elem.mk h cs :: es)
          simp only [size] at this
          simp only [allEvents]
          rw [hstruct sh root h cs (allEvents es) (by omega)]
          generalize rd.decodeStruct _ _ sh root h cs = y
          cases y <;> rfl
      | list s' =>
        simp only [if_true]
        rw [readElements_flat _ (fun r e => rd.decode n false s' r [e]) es (fun e he root rest =>
          iha s' root e rest (by have := hes e he; omega)) n root [] (by omega)]
        cases decodeElements (fun r e => rd.decode n false s' r [e]) root [] es <;> rfl
      | map kt vt s' =>
        simp only [if_true]
        rw [readEntries_flat _ (fun r e => rd.decode n false s' r [e]) kt vt n es (by
          intro h' cs' hmem
          have h1 := hes _ hmem
          simp only [size] at h1
          have h2 := sizes_length cs'
          exact ⟨by omega, hagree cs' (by omega) s'⟩) n root [] (by omega)]
        cases decodeEntries (fun r e => rd.decode n false s' r [e]) kt vt root [] es <;> rfl
      | document => rfl
      | _ =>
        cases es with
        | nil => rfl
        | cons e es =>
          obtain ⟨h, cs⟩ := e
          have hsk := skip_element cs (allEvents es)
          simp only [allEvents, events, List.append_assoc, List.cons_append, List.nil_append]
          simp only [readText, consumeStart, hsk, Except.map]
          generalize rd.scalar _ h.text = y
          cases y <;> rfl

end

end Verif.Xml

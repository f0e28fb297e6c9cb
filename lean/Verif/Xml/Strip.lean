import Verif.Xml.Lemmas

/-!
# The XML deserializer (C45): elements that make no difference, steps, and the root
-/

set_option autoImplicit false

namespace Verif.Xml

open Verif.Json (put)

section
variable {S D F T : Type}

/-! ## The members of elements -/

theorem xml_eq (m : Member) : m.xml = elementName m := by
  unfold Member.xml elementName
  cases m.xmlName <;> rfl

theorem find_reverse {A : Type} (f : A → Text) (t : Text) : ∀ l : List A, (l.map f).Nodup →
    l.reverse.find? (fun a => f a = t) = l.find? fun a => f a = t
  | [], _ => rfl
  | a :: l, h => by
    simp only [List.map_cons, List.nodup_cons] at h
    have ih := find_reverse f t l h.2
    rw [List.reverse_cons, List.find?_append, ih]
    by_cases ha : f a = t
    · have : l.find? (fun a => f a = t) = none := by
        rw [List.find?_eq_none]
        intro b hb hbt
        exact h.1 (List.mem_map.2 ⟨b, hb, (of_decide_eq_true hbt).trans ha.symm⟩)
      rw [this]
      simp [ha]
    · simp [ha]

theorem memberOf_eq (rd : Reader S D F T) (hok : rd.Ok) (s : S) (sh : Shape S) (hv : rd.view s = .struct sh)
    (tag : Text) : memberOf sh tag = resolve sh.members (localName tag) := by
  unfold memberOf resolve
  simp only [xml_eq]
  rw [find_reverse (fun m : Member × S => elementName m.1) _ _ (hok s sh hv).2.1, List.find?_filter]
  congr 1
  funext m
  simp

theorem resolve_mem (ms : List (Member × S)) (tag : Text) (m : Member × S) (h : resolve ms tag = some m) :
    m ∈ ms ∧ m.1.isAttribute = false ∧ m.1.xml = tag := by
  unfold resolve at h
  have h1 := List.mem_of_find?_eq_some h
  have h2 := List.find?_some h
  simp only [List.mem_reverse, List.mem_filter] at h1
  exact ⟨h1.1, by simpa using h1.2, of_decide_eq_true h2⟩

/-! ## Elements that are not modelled -/

/-- An element of a member, stripped. -/
def Reader.stripItem (rd : Reader S D F T) (m : Member × S) : Elem → Elem
  | .mk h cs => match m.1.isFlattened, rd.view m.2 with
    | true, .list s' => rd.strip s' (.mk h cs)
    | true, .map keyTag valueTag s' => .mk h (rd.stripEntry keyTag valueTag s' cs)
    | _, _ => rd.strip m.2 (.mk h cs)

theorem stripMembers_cons (rd : Reader S D F T) (sh : Shape S) (h : Head) (cs es : List Elem) :
    rd.stripMembers sh (.mk h cs :: es) = match memberOf sh h.tag with
      | none => rd.stripMembers sh es
      | some m => rd.stripItem m (.mk h cs) :: rd.stripMembers sh es := by
  rw [Reader.stripMembers]
  cases memberOf sh h.tag with
  | none => rfl
  | some m =>
    simp only [Reader.stripItem]
    cases m.1.isFlattened with
    | false => rfl
    | true => cases rd.view m.2 <;> rfl

theorem stripElements_map (rd : Reader S D F T) (s : S) : ∀ es : List Elem,
    rd.stripElements s es = es.map (rd.strip s)
  | [] => rfl
  | e :: es => by rw [Reader.stripElements, stripElements_map rd s es]; rfl

/-- An entry of a map, stripped. -/
def Reader.stripPair (rd : Reader S D F T) (keyTag valueTag : Text) (s : S) : Elem → Elem
  | .mk h cs => .mk h (rd.stripEntry keyTag valueTag s cs)

theorem stripEntries_map (rd : Reader S D F T) (keyTag valueTag : Text) (s : S) : ∀ es : List Elem,
    rd.stripEntries keyTag valueTag s es = es.map (rd.stripPair keyTag valueTag s)
  | [] => rfl
  | .mk h cs :: es => by rw [Reader.stripEntries, stripEntries_map rd keyTag valueTag s es]; rfl

theorem strip_head (rd : Reader S D F T) (s : S) (h : Head) (cs : List Elem) :
    ∃ cs', rd.strip s (.mk h cs) = .mk h cs' := by
  rw [Reader.strip]
  cases rd.view s <;> exact ⟨_, rfl⟩

theorem stripItem_head (rd : Reader S D F T) (m : Member × S) (h : Head) (cs : List Elem) :
    ∃ cs', rd.stripItem m (.mk h cs) = .mk h cs' := by
  simp only [Reader.stripItem]
  cases m.1.isFlattened with
  | false => exact strip_head rd m.2 h cs
  | true =>
    cases rd.view m.2 with
    | list s' => exact strip_head rd s' h cs
    | map kt vt s' => exact ⟨_, rfl⟩
    | _ => exact strip_head rd m.2 h cs

theorem decodeElements_map (dec : Bool → Elem → Except XErr (Val D F T × Bool)) (f : Elem → Elem)
    (hf : ∀ r e, dec r (f e) = dec r e) : ∀ (es : List Elem) (root : Bool) (acc : List (Val D F T)),
    decodeElements dec root acc (es.map f) = decodeElements dec root acc es
  | [], _, _ => rfl
  | e :: es, root, acc => by
    simp only [List.map_cons, decodeElements, hf]
    cases dec root e with
    | error err => rfl
    | ok x => exact decodeElements_map dec f hf es _ _

theorem decodeEntry_strip (rd : Reader S D F T) (s : S) (dec : Bool → Elem → Except XErr (Val D F T × Bool))
    (hf : ∀ r e, dec r (rd.strip s e) = dec r e) (keyTag valueTag : Text) :
    ∀ (es : List Elem) (root : Bool) (key : Option Text) (acc : List (Text × Val D F T)),
    decodeEntry dec keyTag valueTag root key acc (rd.stripEntry keyTag valueTag s es) =
      decodeEntry dec keyTag valueTag root key acc es
  | [], _, _, _ => by rw [Reader.stripEntry]
  | .mk h cs :: es, root, key, acc => by
    have ih := decodeEntry_strip rd s dec hf keyTag valueTag es
    rw [Reader.stripEntry]
    by_cases hk : localName h.tag = keyTag
    · simp only [hk, if_true, decodeEntry]
      exact ih _ _ _
    · rw [if_neg hk]
      by_cases hv : localName h.tag = valueTag
      · rw [if_pos hv]
        have h1 := hf root (.mk h cs)
        obtain ⟨cs', hs⟩ := strip_head rd s h cs
        rw [hs] at h1 ⊢
        simp only [decodeEntry, if_neg hk, if_pos hv, h1]
        cases key with
        | none => rfl
        | some k =>
          simp only
          cases dec root (.mk h cs) with
          | error err => rfl
          | ok x => exact ih _ _ _
      · rw [if_neg hv]
        simp only [decodeEntry, if_neg hk, if_neg hv]
        exact ih _ _ _

theorem decodeEntries_strip (rd : Reader S D F T) (s : S) (dec : Bool → Elem → Except XErr (Val D F T × Bool))
    (hf : ∀ r e, dec r (rd.strip s e) = dec r e) (keyTag valueTag : Text) :
    ∀ (es : List Elem) (root : Bool) (acc : List (Text × Val D F T)),
    decodeEntries dec keyTag valueTag root acc (es.map (rd.stripPair keyTag valueTag s)) =
      decodeEntries dec keyTag valueTag root acc es
  | [], _, _ => rfl
  | .mk h cs :: es, root, acc => by
    simp only [List.map_cons, Reader.stripPair, decodeEntries, decodeEntry_strip rd s dec hf]
    cases decodeEntry dec keyTag valueTag root none acc cs with
    | error err => rfl
    | ok x => exact decodeEntries_strip rd s dec hf keyTag valueTag es _ _

/-- The buffers are of flattened members. -/
def BufInv (ms : List (Member × S)) (bufs : Bufs S) : Prop :=
  ∀ b ∈ bufs, resolve ms b.1 = some b.2.1 ∧ b.2.1.1.isFlattened = true

theorem addBuffer_inv (ms : List (Member × S)) (tag : Text) (m : Member × S) (es : List Elem)
    (hm : resolve ms tag = some m) (hf : m.1.isFlattened = true) : ∀ bufs : Bufs S, BufInv ms bufs →
    BufInv ms (addBuffer bufs tag m es)
  | [], _ => by
    intro b hb
    simp only [addBuffer, List.mem_singleton] at hb
    subst hb
    exact ⟨hm, hf⟩
  | c :: bs, h => by
    simp only [addBuffer]
    split
    · rename_i hc
      intro b hb
      rcases List.mem_cons.1 hb with rfl | hb
      · have := h c (by simp)
        rw [hc] at this
        exact this
      · exact h b (by simp [hb])
    · intro b hb
      rcases List.mem_cons.1 hb with rfl | hb
      · exact h b (by simp)
      · exact addBuffer_inv ms tag m es hm hf bs (fun b hb => h b (by simp [hb])) b hb

theorem decodeMembers_inv (dec : S → Bool → Elem → Except XErr (Val D F T × Bool)) (union : Bool)
    (ms : List (Member × S)) : ∀ (es : List Elem) (root : Bool) (acc : List (Text × Val D F T)) (bufs : Bufs S)
      (x : List (Text × Val D F T) × Bufs S × Bool), BufInv ms bufs →
    decodeMembers dec union ms root acc bufs es = .ok x → BufInv ms x.2.1
  | [], root, acc, bufs, x, hb, h => by
    simp only [decodeMembers, Except.ok.injEq] at h
    subst h
    exact hb
  | .mk hd cs :: es, root, acc, bufs, x, hb, h => by
    have ih := decodeMembers_inv dec union ms es
    simp only [decodeMembers] at h
    cases hr : resolve ms (localName hd.tag) with
    | none =>
      simp only [hr] at h
      exact ih _ _ _ _ hb h
    | some m =>
      simp only [hr] at h
      split at h
      · rename_i hf
        exact ih _ _ _ _ (addBuffer_inv ms _ m _ hr hf bufs hb) h
      · cases hd' : dec m.2 root (.mk hd cs) with
        | error err => simp [hd'] at h
        | ok y =>
          simp only [hd'] at h
          cases hc : consume union acc m.1.name y.1 with
          | error err => simp [hc] at h
          | ok acc' =>
            simp only [hc] at h
            exact ih _ _ _ _ hb h

def Reader.stripBufs (rd : Reader S D F T) (bufs : Bufs S) : Bufs S :=
  bufs.map fun b => (b.1, b.2.1, b.2.2.map (rd.stripItem b.2.1))

theorem addBuffer_strip (rd : Reader S D F T) (ms : List (Member × S)) (tag : Text) (m : Member × S) (e : Elem)
    (hm : resolve ms tag = some m) : ∀ bufs : Bufs S, BufInv ms bufs →
    addBuffer (rd.stripBufs bufs) tag m [rd.stripItem m e] = rd.stripBufs (addBuffer bufs tag m [e])
  | [], _ => rfl
  | c :: bs, h => by
    have ih := addBuffer_strip rd ms tag m e hm bs (fun b hb => h b (by simp [hb]))
    simp only [Reader.stripBufs, List.map_cons, addBuffer] at ih ⊢
    by_cases hc : c.1 = tag
    · have h1 := (h c (by simp)).1
      rw [hc, hm] at h1
      simp only [hc, if_true, List.map_cons, List.map_append, List.map_nil, ← Option.some.inj h1]
    · simp only [hc, if_false, ih, List.map_cons]

theorem decodeMembers_strip (rd : Reader S D F T) (hok : rd.Ok) (s : S) (sh : Shape S)
    (hv : rd.view s = .struct sh) (dec : S → Bool → Elem → Except XErr (Val D F T × Bool))
    (hf : ∀ s r e, dec s r (rd.strip s e) = dec s r e) :
    ∀ (es : List Elem) (root : Bool) (acc : List (Text × Val D F T)) (bufs : Bufs S),
    BufInv sh.members bufs →
    decodeMembers dec sh.union sh.members root acc (rd.stripBufs bufs) (rd.stripMembers sh es) =
      (decodeMembers dec sh.union sh.members root acc bufs es).map fun x => (x.1, rd.stripBufs x.2.1, x.2.2)
  | [], _, _, _, _ => by rw [Reader.stripMembers]; rfl
  | .mk h cs :: es, root, acc, bufs, hb => by
    have ih := decodeMembers_strip rd hok s sh hv dec hf es
    rw [stripMembers_cons, memberOf_eq rd hok s sh hv]
    conv => rhs; rw [decodeMembers]
    cases hr : resolve sh.members (localName h.tag) with
    | none =>
      simp only
      exact ih _ _ _ hb
    | some m =>
      simp only
      obtain ⟨cs', hs⟩ := stripItem_head rd m h cs
      have ha := addBuffer_strip rd sh.members _ m (.mk h cs) hr bufs hb
      rw [hs] at ha
      rw [hs]
      simp only [decodeMembers, hr]
      cases hfl : m.1.isFlattened with
      | true =>
        simp only [if_true, ha]
        exact ih _ _ _ (addBuffer_inv _ _ m _ hr hfl bufs hb)
      | false =>
        have h1 := hf m.2 root (.mk h cs)
        have h2 : rd.strip m.2 (.mk h cs) = .mk h cs' := by
          rw [← hs]
          simp only [Reader.stripItem, hfl]
        rw [h2] at h1
        simp only [Bool.false_eq_true, if_false, h1]
        cases dec m.2 root (.mk h cs) with
        | error err => rfl
        | ok x =>
          simp only
          cases consume sh.union acc m.1.name x.1 with
          | error err => rfl
          | ok acc' => exact ih _ _ _ hb

theorem decodeFlush_strip (rd : Reader S D F T) (ms : List (Member × S))
    (all : S → List Elem → Except XErr (Val D F T)) (union : Bool)
    (hall : ∀ (m : Member × S) es, m.1.isFlattened = true → all m.2 (es.map (rd.stripItem m)) = all m.2 es) :
    ∀ (bufs : Bufs S), BufInv ms bufs → ∀ acc : List (Text × Val D F T),
    decodeFlush all union acc (rd.stripBufs bufs) = decodeFlush all union acc bufs
  | [], _, _ => rfl
  | b :: bs, h, acc => by
    have ih := decodeFlush_strip rd ms all union hall bs (fun b hb => h b (by simp [hb]))
    simp only [Reader.stripBufs, List.map_cons, decodeFlush] at ih ⊢
    rw [hall b.2.1 b.2.2 (h b (by simp)).2]
    cases all b.2.1.2 b.2.2 with
    | error err => rfl
    | ok x =>
      simp only
      cases consume union acc b.2.1.1.name x with
      | error err => rfl
      | ok acc' => exact ih acc'

theorem decodeStruct_strip (rd : Reader S D F T) (hok : rd.Ok) (s : S) (sh : Shape S)
    (hv : rd.view s = .struct sh) (dec : S → Bool → Elem → Except XErr (Val D F T × Bool))
    (hf : ∀ s r e, dec s r (rd.strip s e) = dec s r e)
    (all : S → List Elem → Except XErr (Val D F T))
    (hall : ∀ (m : Member × S) es, m.1.isFlattened = true → all m.2 (es.map (rd.stripItem m)) = all m.2 es)
    (root : Bool) (h : Head) (cs : List Elem) :
    rd.decodeStruct dec all sh root h (rd.stripMembers sh cs) = rd.decodeStruct dec all sh root h cs := by
  unfold Reader.decodeStruct
  by_cases hr : root = true ∧ localName h.tag ≠ sh.rootName
  · rw [if_pos hr, if_pos hr]
  · rw [if_neg hr, if_neg hr]
    cases rd.readAttributes sh.union h.attrs [] sh.members with
    | error err => rfl
    | ok acc =>
      have h1 := decodeMembers_strip rd hok s sh hv dec hf cs false acc [] (fun b hb => by cases hb)
      simp only [Reader.stripBufs, List.map_nil] at h1
      simp only [h1]
      cases hm : decodeMembers dec sh.union sh.members false acc [] cs with
      | error err => rfl
      | ok x =>
        have h2 := decodeMembers_inv dec sh.union sh.members cs false acc [] x (fun b hb => by cases hb) hm
        have h3 := decodeFlush_strip rd sh.members all sh.union hall x.2.1 h2 x.1
        unfold Reader.stripBufs at h3
        simp only [Except.map, h3]

theorem decode_strip (rd : Reader S D F T) (hok : rd.Ok) : ∀ (n : Nat),
    (∀ s root e, rd.decode n false s root [rd.strip s e] = rd.decode n false s root [e]) ∧
    (∀ (m : Member × S) root es, m.1.isFlattened = true →
      rd.decode n true m.2 root (es.map (rd.stripItem m)) = rd.decode n true m.2 root es)
  | 0 => ⟨fun _ _ _ => rfl, fun _ _ _ _ => rfl⟩
  | n + 1 => by
    obtain ⟨iha, ihb⟩ := decode_strip rd hok n
    have hst := fun s sh hv root h cs => decodeStruct_strip rd hok s sh hv
      (fun s r e => rd.decode n false s r [e]) iha
      (fun s es => (rd.decode n true s true es).map Prod.fst) (fun m es hm => by simp only [ihb m true es hm])
      root h cs
    have hel := fun s => decodeElements_map (fun r e => rd.decode n false s r [e]) (rd.strip s) (iha s)
    have hen := fun s kt vt => decodeEntries_strip rd s (fun r e => rd.decode n false s r [e]) (iha s) kt vt
    constructor
    · rintro s root ⟨h, cs⟩
      simp only [Reader.strip, Reader.decode]
      cases hv : rd.view s with
      | struct sh => simp only [hst s sh hv]
      | list s' => simp only [Bool.false_eq_true, if_false, stripElements_map, hel]
      | map kt vt s' => simp only [Bool.false_eq_true, if_false, stripEntries_map, hen]
      | _ => rfl
    · intro m root es hf
      simp only [Reader.decode]
      cases hv : rd.view m.2 with
      | list s' =>
        have : rd.stripItem m = rd.strip s' := by
          funext e
          cases e
          simp only [Reader.stripItem, hf, hv]
        simp only [if_true, this, hel]
      | map kt vt s' =>
        have : rd.stripItem m = rd.stripPair kt vt s' := by
          funext e
          cases e
          simp only [Reader.stripItem, hf, hv, Reader.stripPair]
        simp only [if_true, this, hen]
      | struct sh =>
        cases es with
        | nil => rfl
        | cons e es =>
          obtain ⟨h, cs⟩ := e
          have : rd.stripItem m (.mk h cs) = .mk h (rd.stripMembers sh cs) := by
            simp only [Reader.stripItem, hf, hv, Reader.strip]
          simp only [List.map_cons, this, hst m.2 sh hv]
      | document => rfl
      | _ =>
        cases es with
        | nil => rfl
        | cons e es =>
          obtain ⟨h, cs⟩ := e
          have : rd.stripItem m (.mk h cs) = .mk h [] := by
            simp only [Reader.stripItem, hf, hv, Reader.strip]
          simp only [List.map_cons, this]

/-! ## The number of steps makes no difference -/

theorem decodeElements_congr (dec dec' : Bool → Elem → Except XErr (Val D F T × Bool)) :
    ∀ (es : List Elem), (∀ e ∈ es, ∀ r, dec r e = dec' r e) → ∀ (root : Bool) (acc : List (Val D F T)),
    decodeElements dec root acc es = decodeElements dec' root acc es
  | [], _, _, _ => rfl
  | e :: es, h, root, acc => by
    simp only [decodeElements, h e (by simp)]
    cases dec' root e with
    | error err => rfl
    | ok x => exact decodeElements_congr dec dec' es (fun e he => h e (by simp [he])) _ _

theorem decodeEntry_congr (dec dec' : Bool → Elem → Except XErr (Val D F T × Bool)) (kt vt : Text) :
    ∀ (es : List Elem), (∀ e ∈ es, ∀ r, dec r e = dec' r e) →
    ∀ (root : Bool) (key : Option Text) (acc : List (Text × Val D F T)),
    decodeEntry dec kt vt root key acc es = decodeEntry dec' kt vt root key acc es
  | [], _, _, _, _ => rfl
  | .mk h cs :: es, hd, root, key, acc => by
    have ih := decodeEntry_congr dec dec' kt vt es (fun e he => hd e (by simp [he]))
    simp only [decodeEntry, hd (.mk h cs) (by simp), ih]

theorem decodeEntries_congr (dec dec' : Bool → Elem → Except XErr (Val D F T × Bool)) (kt vt : Text) :
    ∀ (es : List Elem), (∀ h cs, Elem.mk h cs ∈ es → ∀ e ∈ cs, ∀ r, dec r e = dec' r e) →
    ∀ (root : Bool) (acc : List (Text × Val D F T)),
    decodeEntries dec kt vt root acc es = decodeEntries dec' kt vt root acc es
  | [], _, _, _ => rfl
  | .mk h cs :: es, hd, root, acc => by
    have ih := decodeEntries_congr dec dec' kt vt es (fun h' cs' he => hd h' cs' (by simp [he]))
    simp only [decodeEntries, decodeEntry_congr dec dec' kt vt cs (hd h cs (by simp)), ih]

theorem decodeMembers_congr (dec dec' : S → Bool → Elem → Except XErr (Val D F T × Bool)) (union : Bool)
    (ms : List (Member × S)) : ∀ (es : List Elem), (∀ s, ∀ e ∈ es, ∀ r, dec s r e = dec' s r e) →
    ∀ (root : Bool) (acc : List (Text × Val D F T)) (bufs : Bufs S),
    decodeMembers dec union ms root acc bufs es = decodeMembers dec' union ms root acc bufs es
  | [], _, _, _, _ => rfl
  | .mk h cs :: es, hd, root, acc, bufs => by
    have ih := decodeMembers_congr dec dec' union ms es (fun s e he => hd s e (by simp [he]))
    simp only [decodeMembers, fun s => hd s (.mk h cs) (by simp), ih]

theorem decodeFlush_congr (all all' : S → List Elem → Except XErr (Val D F T)) (union : Bool) :
    ∀ (bufs : Bufs S), (∀ b ∈ bufs, all b.2.1.2 b.2.2 = all' b.2.1.2 b.2.2) →
    ∀ acc : List (Text × Val D F T), decodeFlush all union acc bufs = decodeFlush all' union acc bufs
  | [], _, _ => rfl
  | b :: bs, h, acc => by
    have ih := decodeFlush_congr all all' union bs (fun b hb => h b (by simp [hb]))
    simp only [decodeFlush, h b (by simp), ih]

theorem decodeStruct_congr (rd : Reader S D F T) (dec dec' : S → Bool → Elem → Except XErr (Val D F T × Bool))
    (all all' : S → List Elem → Except XErr (Val D F T)) (sh : Shape S) (root : Bool) (h : Head)
    (cs : List Elem) (h1 : ∀ s, ∀ e ∈ cs, ∀ r, dec s r e = dec' s r e)
    (h2 : ∀ s es, (∀ e ∈ es, e ∈ cs) → all s es = all' s es) :
    rd.decodeStruct dec all sh root h cs = rd.decodeStruct dec' all' sh root h cs := by
  unfold Reader.decodeStruct
  simp only [decodeMembers_congr dec dec' sh.union sh.members cs h1]
  by_cases hr : root = true ∧ localName h.tag ≠ sh.rootName
  · rw [if_pos hr, if_pos hr]
  · rw [if_neg hr, if_neg hr]
    cases rd.readAttributes sh.union h.attrs [] sh.members with
    | error err => rfl
    | ok acc =>
      simp only
      cases hm : decodeMembers dec' sh.union sh.members false acc [] cs with
      | error err => rfl
      | ok x =>
        have hb := decodeMembers_bufs dec' sh.union sh.members (fun e => e ∈ cs) cs (fun e he => he) 0 false acc
          [] x (fun b hb => by cases hb) hm
        simp only [decodeFlush_congr all all' sh.union x.2.1 (fun b hb' => h2 _ _ (hb b hb').2)]

theorem decode_step (rd : Reader S D F T) : ∀ (n : Nat),
    (∀ s root e, size e ≤ n → rd.decode (n + 1) false s root [e] = rd.decode n false s root [e]) ∧
    (∀ s root (es : List Elem), 1 ≤ n → (∀ e ∈ es, size e + 1 ≤ n) →
      rd.decode (n + 1) true s root es = rd.decode n true s root es)
  | 0 => ⟨fun s root e h => by have := size_pos e; omega, fun s root es h => by omega⟩
  | n + 1 => by
    obtain ⟨iha, ihb⟩ := decode_step rd n
    have hst : ∀ sh root h cs, sizes cs ≤ n →
        rd.decodeStruct (fun s r e => rd.decode (n + 1) false s r [e])
          (fun s es => (rd.decode (n + 1) true s true es).map Prod.fst) sh root h cs =
        rd.decodeStruct (fun s r e => rd.decode n false s r [e])
          (fun s es => (rd.decode n true s true es).map Prod.fst) sh root h cs := by
      intro sh root h cs hcs
      apply decodeStruct_congr
      · intro s e he r
        have := size_mem cs e he
        exact iha s r e (by omega)
      · intro s es hes
        have hl := sizes_length cs
        simp only [ihb s true es (by omega) (fun e he => by have := size_mem cs e (hes e he); omega)]
    have hel : ∀ s root acc (cs : List Elem), (∀ e ∈ cs, size e ≤ n) →
        decodeElements (fun r e => rd.decode (n + 1) false s r [e]) root acc cs =
        decodeElements (fun r e => rd.decode n false s r [e]) root acc cs := by
      intro s root acc cs hcs
      exact decodeElements_congr _ _ cs (fun e he r => iha s r e (hcs e he)) root acc
    have hen : ∀ s kt vt root acc (cs : List Elem), (∀ e ∈ cs, size e ≤ n) →
        decodeEntries (fun r e => rd.decode (n + 1) false s r [e]) kt vt root acc cs =
        decodeEntries (fun r e => rd.decode n false s r [e]) kt vt root acc cs := by
      intro s kt vt root acc cs hcs
      refine decodeEntries_congr _ _ kt vt cs (fun h' cs' hm e he r => iha s r e ?_) root acc
      have h1 := hcs _ hm
      simp only [size] at h1
      have := size_mem cs' e he
      omega
    constructor
    · rintro s root ⟨h, cs⟩ hs
      simp only [size] at hs
      have hm : ∀ e ∈ cs, size e ≤ n := fun e he => by have := size_mem cs e he; omega
      rw [Reader.decode, Reader.decode]
      cases hv : rd.view s with
      | struct sh => exact hst sh root h cs (by omega)
      | list s' => simp only [Bool.false_eq_true, if_false, hel s' root [] cs hm]
      | map kt vt s' => simp only [Bool.false_eq_true, if_false, hen s' kt vt root [] cs hm]
      | _ => rfl
    · intro s root es _ hes
      have hm : ∀ e ∈ es, size e ≤ n := fun e he => by have := hes e he; omega
      rw [Reader.decode, Reader.decode]
      cases hv : rd.view s with
      | struct sh =>
        cases es with
        | nil => rfl
        | cons e es =>
          obtain ⟨h, cs⟩ := e
          have := hm _ (by simp : Elem.mk h cs ∈ _)
          simp only [size] at this
          exact hst sh root h cs (by omega)
      | list s' => simp only [if_true, hel s' root [] es hm]
      | map kt vt s' => simp only [if_true, hen s' kt vt root [] es hm]
      | document => rfl
      | _ =>
        cases es with
        | nil => rfl
        | cons e es => rfl

theorem decode_size (rd : Reader S D F T) (s : S) (root : Bool) (e : Elem) (n : Nat) (h : size e ≤ n) :
    rd.decode n false s root [e] = rd.decode (size e) false s root [e] := by
  induction n with
  | zero => have := size_pos e; omega
  | succ n ih =>
    by_cases he : size e = n + 1
    · rw [he]
    · rw [(decode_step rd n).1 s root e (by omega), ih (by omega)]

/-! ## Being the root only adds a check -/

theorem decodeElements_root (dec : Bool → Elem → Except XErr (Val D F T × Bool))
    (hd : ∀ r e x, dec r e = .ok x → dec false e = .ok (x.1, false)) :
    ∀ (es : List Elem) (root : Bool) (acc : List (Val D F T)) (x : List (Val D F T) × Bool),
    decodeElements dec root acc es = .ok x → decodeElements dec false acc es = .ok (x.1, false)
  | [], root, acc, x, h => by
    simp only [decodeElements, Except.ok.injEq] at h ⊢
    subst h
    rfl
  | e :: es, root, acc, x, h => by
    simp only [decodeElements] at h ⊢
    cases he : dec root e with
    | error err => simp [he] at h
    | ok y =>
      simp only [he] at h
      simp only [hd _ _ _ he]
      exact decodeElements_root dec hd es _ _ x h

theorem decodeEntry_root (dec : Bool → Elem → Except XErr (Val D F T × Bool))
    (hd : ∀ r e x, dec r e = .ok x → dec false e = .ok (x.1, false)) (kt vt : Text) :
    ∀ (es : List Elem) (root : Bool) (key : Option Text) (acc : List (Text × Val D F T))
      (x : List (Text × Val D F T) × Bool),
    decodeEntry dec kt vt root key acc es = .ok x → decodeEntry dec kt vt false key acc es = .ok (x.1, false)
  | [], root, key, acc, x, h => by
    simp only [decodeEntry, Except.ok.injEq] at h ⊢
    subst h
    rfl
  | .mk hd' cs :: es, root, key, acc, x, h => by
    have ih := decodeEntry_root dec hd kt vt es
    simp only [decodeEntry] at h ⊢
    by_cases hk : localName hd'.tag = kt
    · rw [if_pos hk] at h ⊢
      exact ih _ _ _ x h
    · rw [if_neg hk] at h ⊢
      by_cases hv : localName hd'.tag = vt
      · rw [if_pos hv] at h ⊢
        cases key with
        | none => simp at h
        | some k =>
          simp only at h ⊢
          cases he : dec root (.mk hd' cs) with
          | error err => simp [he] at h
          | ok y =>
            simp only [he] at h
            simp only [hd _ _ _ he]
            exact ih _ _ _ x h
      · rw [if_neg hv] at h ⊢
        exact ih _ _ _ x h

theorem decodeEntries_root (dec : Bool → Elem → Except XErr (Val D F T × Bool))
    (hd : ∀ r e x, dec r e = .ok x → dec false e = .ok (x.1, false)) (kt vt : Text) :
    ∀ (es : List Elem) (root : Bool) (acc : List (Text × Val D F T)) (x : List (Text × Val D F T) × Bool),
    decodeEntries dec kt vt root acc es = .ok x → decodeEntries dec kt vt false acc es = .ok (x.1, false)
  | [], root, acc, x, h => by
    simp only [decodeEntries, Except.ok.injEq] at h ⊢
    subst h
    rfl
  | .mk hd' cs :: es, root, acc, x, h => by
    simp only [decodeEntries] at h ⊢
    cases he : decodeEntry dec kt vt root none acc cs with
    | error err => simp [he] at h
    | ok y =>
      simp only [he] at h
      simp only [decodeEntry_root dec hd kt vt cs root none acc y he]
      exact decodeEntries_root dec hd kt vt es _ _ x h

theorem decodeMembers_root (dec : S → Bool → Elem → Except XErr (Val D F T × Bool))
    (hd : ∀ s r e x, dec s r e = .ok x → dec s false e = .ok (x.1, false)) (union : Bool)
    (ms : List (Member × S)) :
    ∀ (es : List Elem) (root : Bool) (acc : List (Text × Val D F T)) (bufs : Bufs S)
      (x : List (Text × Val D F T) × Bufs S × Bool),
    decodeMembers dec union ms root acc bufs es = .ok x →
    decodeMembers dec union ms false acc bufs es = .ok (x.1, x.2.1, false)
  | [], root, acc, bufs, x, h => by
    simp only [decodeMembers, Except.ok.injEq] at h ⊢
    subst h
    rfl
  | .mk hd' cs :: es, root, acc, bufs, x, h => by
    have ih := decodeMembers_root dec hd union ms es
    simp only [decodeMembers] at h ⊢
    cases hr : resolve ms (localName hd'.tag) with
    | none =>
      simp only [hr] at h
      exact ih _ _ _ x h
    | some m =>
      simp only [hr] at h ⊢
      cases hf : m.1.isFlattened with
      | true =>
        simp only [hf, if_true] at h ⊢
        exact ih _ _ _ x h
      | false =>
        simp only [hf, Bool.false_eq_true, if_false] at h ⊢
        cases he : dec m.2 root (.mk hd' cs) with
        | error err => simp [he] at h
        | ok y =>
          simp only [he] at h
          simp only [hd _ _ _ _ he]
          cases hc : consume union acc m.1.name y.1 with
          | error err => simp [hc] at h
          | ok acc' =>
            simp only [hc] at h ⊢
            exact ih _ _ _ x h

theorem decodeStruct_root (rd : Reader S D F T) (dec : S → Bool → Elem → Except XErr (Val D F T × Bool))
    (hd : ∀ s r e x, dec s r e = .ok x → dec s false e = .ok (x.1, false))
    (all : S → List Elem → Except XErr (Val D F T)) (sh : Shape S) (root : Bool) (h : Head)
    (cs : List Elem) (x : Val D F T × Bool) (hx : rd.decodeStruct dec all sh root h cs = .ok x) :
    rd.decodeStruct dec all sh false h cs = .ok (x.1, false) := by
  unfold Reader.decodeStruct at hx ⊢
  by_cases hr : root = true ∧ localName h.tag ≠ sh.rootName
  · rw [if_pos hr] at hx
    simp at hx
  · rw [if_neg hr] at hx
    rw [if_neg (by simp)]
    cases ha : rd.readAttributes sh.union h.attrs [] sh.members with
    | error err => simp [ha] at hx
    | ok acc =>
      simp only [ha] at hx ⊢
      cases hm : decodeMembers dec sh.union sh.members false acc [] cs with
      | error err => simp [hm] at hx
      | ok y =>
        have h1 := decodeMembers_root dec hd sh.union sh.members cs false acc [] y hm
        rw [hm] at h1
        have h2 := Except.ok.inj h1
        simp only [hm] at hx
        simp only
        cases hf : decodeFlush all sh.union y.1 y.2.1 with
        | error err => simp [hf] at hx
        | ok acc' =>
          simp only [hf] at hx ⊢
          cases hfi : finish sh.union acc' with
          | error err => simp [hfi, Except.map] at hx
          | ok v =>
            simp only [hfi, Except.map, Except.ok.injEq] at hx ⊢
            subst hx
            rw [h2]

theorem decode_root (rd : Reader S D F T) : ∀ (n : Nat) (flat : Bool) (s : S) (root : Bool) (es : List Elem)
    (x : Val D F T × Bool), rd.decode n flat s root es = .ok x →
    rd.decode n flat s false es = .ok (x.1, false)
  | 0, _, _, _, _, x, h => by simp [Reader.decode] at h
  | n + 1, flat, s, root, es, x, h => by
    have ih := fun s r e x => decode_root rd n false s r [e] x
    have hel : ∀ s' cs, (decodeElements (fun r e => rd.decode n false s' r [e]) root [] cs).map
        (fun x => ((.list x.1 : Val D F T), x.2)) = .ok x →
        (decodeElements (fun r e => rd.decode n false s' r [e]) false [] cs).map
        (fun x => ((.list x.1 : Val D F T), x.2)) = .ok (x.1, false) := by
      intro s' cs h
      cases hd : decodeElements (fun r e => rd.decode n false s' r [e]) root [] cs with
      | error err => simp [hd, Except.map] at h
      | ok y =>
        rw [decodeElements_root _ (ih s') cs root [] y hd]
        simp only [hd, Except.map, Except.ok.injEq] at h ⊢
        subst h
        rfl
    have hen : ∀ s' kt vt cs, (decodeEntries (fun r e => rd.decode n false s' r [e]) kt vt root [] cs).map
        (fun x => ((.map x.1 : Val D F T), x.2)) = .ok x →
        (decodeEntries (fun r e => rd.decode n false s' r [e]) kt vt false [] cs).map
        (fun x => ((.map x.1 : Val D F T), x.2)) = .ok (x.1, false) := by
      intro s' kt vt cs h
      cases hd : decodeEntries (fun r e => rd.decode n false s' r [e]) kt vt root [] cs with
      | error err => simp [hd, Except.map] at h
      | ok y =>
        rw [decodeEntries_root _ (ih s') kt vt cs root [] y hd]
        simp only [hd, Except.map, Except.ok.injEq] at h ⊢
        subst h
        rfl
    simp only [Reader.decode] at h ⊢
    cases hv : rd.view s with
    | struct sh =>
      simp only [hv] at h ⊢
      cases es with
      | nil => simp at h
      | cons e es =>
        obtain ⟨hd, cs⟩ := e
        exact decodeStruct_root rd _ ih _ sh root hd cs x h
    | list s' =>
      simp only [hv] at h ⊢
      cases flat with
      | true => exact hel s' es h
      | false =>
        cases es with
        | nil => simp at h
        | cons e es => obtain ⟨hd, cs⟩ := e; exact hel s' cs h
    | map kt vt s' =>
      simp only [hv] at h ⊢
      cases flat with
      | true => exact hen s' kt vt es h
      | false =>
        cases es with
        | nil => simp at h
        | cons e es => obtain ⟨hd, cs⟩ := e; exact hen s' kt vt cs h
    | document => simp [hv] at h
    | _ =>
      simp only [hv] at h ⊢
      cases es with
      | nil => simp at h
      | cons e es =>
        obtain ⟨hd, cs⟩ := e
        simp only at h ⊢
        revert h
        generalize rd.scalar _ hd.text = y
        intro h
        cases y with
        | error err => simp [Except.map] at h
        | ok v =>
          simp only [Except.map, Except.ok.injEq] at h ⊢
          subst h
          rfl

end

end Verif.Xml

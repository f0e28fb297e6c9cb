import Verif.Json.ReadLemmas

/-!
# The JSON deserializer (C44): theorems
-/

set_option autoImplicit false

namespace Verif.Json

open Verif.Numerals
open Verif.Scalars.Strict (JsonNumber ascii Num Digits)

section
variable {S F T : Type}

/-! ## Reading the events of a value is decoding the value -/

def Json.isNull : Json → Bool
  | .null => true
  | _ => false

mutual
/-- What the deserializer makes of a JSON value. -/
def Reader.decode (rd : Reader S F T) (s : S) : Json → Except RErr (Val F T)
  | .null => match rd.view s with
    | .document => .ok (.document .null)
    | v => rd.readScalar v .null
  | .bool b => match rd.view s with
    | .document => .ok (.document (.bool b))
    | v => rd.readScalar v (.boolean b)
  | .num t => match rd.view s with
    | .document => .ok (.document (.num (numOf t)))
    | v => rd.readScalar v (.number (numOf t))
  | .str t => match rd.view s with
    | .document => .ok (.document (.str t))
    | v => rd.readScalar v (.string t)
  | .arr xs => match rd.view s with
    | .document => .ok (.document (plainOf (.arr xs)))
    | .list sparse s' => (rd.decodeElements sparse s' [] xs).map .list
    | v => rd.readScalar v .startArray
  | .obj es => match rd.view s with
    | .document => .ok (.document (plainOf (.obj es)))
    | .struct ms => match rd.decodeMembers false ms [] es with
      | .error err => .error err
      | .ok x => finish false x
    | .union ms => match rd.decodeMembers true ms [] es with
      | .error err => .error err
      | .ok x => finish true x
    | .map sparse s' => (rd.decodeEntries sparse s' [] es).map .map
    | v => rd.readScalar v .startMap
termination_by structural j => j
def Reader.decodeMembers (rd : Reader S F T) (union : Bool) (ms : List (Member × S))
    (acc : List (Text × Val F T)) : List (Text × Json) → Except RErr (List (Text × Val F T))
  | [] => .ok acc
  | (k, j) :: es =>
    match rd.resolve ms k with
    | none => rd.decodeMembers union ms acc es
    | some m =>
      if j.isNull = true ∧ (rd.view m.2).isDocument = false then rd.decodeMembers union ms acc es
      else
        match rd.decode m.2 j with
        | .error err => .error err
        | .ok v =>
          match consume union acc m.1.name v with
          | .error err => .error err
          | .ok acc' => rd.decodeMembers union ms acc' es
def Reader.decodeElements (rd : Reader S F T) (sparse : Bool) (s : S) (acc : List (Val F T)) :
    List Json → Except RErr (List (Val F T))
  | [] => .ok acc
  | j :: js =>
    if j.isNull = true then rd.decodeElements sparse s (if sparse then acc ++ [.null] else acc) js
    else
      match rd.decode s j with
      | .error err => .error err
      | .ok v => rd.decodeElements sparse s (acc ++ [v]) js
def Reader.decodeEntries (rd : Reader S F T) (sparse : Bool) (s : S) (acc : List (Text × Val F T)) :
    List (Text × Json) → Except RErr (List (Text × Val F T))
  | [] => .ok acc
  | (k, j) :: es =>
    if j.isNull = true then rd.decodeEntries sparse s (if sparse then put acc k .null else acc) es
    else
      match rd.decode s j with
      | .error err => .error err
      | .ok v => rd.decodeEntries sparse s (put acc k v) es
end

mutual
/-- The steps needed to read a value. -/
def size : Json → Nat
  | .arr xs => 1 + sizes xs
  | .obj es => 1 + memberSizes es
  | _ => 1
termination_by structural j => j
def sizes : List Json → Nat
  | [] => 1
  | x :: xs => 1 + size x + sizes xs
def memberSizes : List (Text × Json) → Nat
  | [] => 1
  | (_, x) :: es => 1 + size x + memberSizes es
end

mutual
theorem size_events : ∀ (j : Json) (p : List Text),
    1 ≤ (events p j).length ∧ size j + 1 ≤ 2 * (events p j).length
  | .null, p => by simp [size, events]
  | .bool _, p => by simp [size, events]
  | .num _, p => by simp [size, events]
  | .str _, p => by simp [size, events]
  | .arr xs, p => by
    have := sizes_events xs (p ++ ["item".toList])
    simp only [size, events, List.length_cons, List.length_append, List.length_nil]
    omega
  | .obj es, p => by
    have := memberSizes_events es p
    simp only [size, events, List.length_cons, List.length_append, List.length_nil]
    omega
termination_by structural j => j
theorem sizes_events : ∀ (xs : List Json) (p : List Text), sizes xs ≤ 2 * (elementEvents p xs).length + 1
  | [], p => by simp [sizes]
  | x :: xs, p => by
    have h1 := size_events x p
    have h2 := sizes_events xs p
    simp only [sizes, elementEvents, List.length_append]
    omega
theorem memberSizes_events : ∀ (es : List (Text × Json)) (p : List Text),
    memberSizes es ≤ 2 * (memberEvents p es).length + 1
  | [], p => by simp [memberSizes]
  | (k, x) :: es, p => by
    have h1 := size_events x (p ++ [k])
    have h2 := memberSizes_events es p
    simp only [memberSizes, memberEvents, List.length_cons, List.length_append]
    omega
end

theorem size_pos (j : Json) : 1 ≤ size j := by
  cases j <;> simp only [size] <;> omega

theorem sizes_pos (xs : List Json) : 1 ≤ sizes xs := by
  cases xs <;> simp only [sizes] <;> omega

theorem memberSizes_pos (xs : List (Text × Json)) : 1 ≤ memberSizes xs := by
  cases xs <;> simp only [memberSizes] <;> omega

theorem timestamp_start (rd : Reader S F T) (trait : Option Format) :
    rd.readTimestamp trait .startArray = .error .token ∧ rd.readTimestamp trait .startMap = .error .token := by
  unfold Reader.readTimestamp
  cases (if rd.useTimestampFormat then trait.getD rd.defaultFormat else rd.defaultFormat) <;>
    exact ⟨rfl, rfl⟩

/-- The first event of a value. -/
theorem events_head (p : List Text) (j : Json) : ∃ e r, events p j = e :: r ∧
    (e.ev = .null ↔ j.isNull = true) ∧ e.ev ≠ .endArray ∧ e.ev ≠ .endMap := by
  cases j <;> exact ⟨_, _, rfl, by simp [Json.isNull], by simp, by simp⟩

mutual
theorem read_spec (rd : Reader S F T) : ∀ (j : Json) (s : S) (p : List Text) (rest : List Event) (n : Nat),
    size j ≤ n → (p = [] → rd.view s = .document → RootOk j) →
    rd.read n s (events p j ++ rest) = (rd.decode s j).map fun v => (v, rest)
  | j, s, p, rest, 0, hn, _ => by have := size_pos j; omega
  | .null, s, p, rest, n + 1, hn, hr => by
    simp only [events, List.cons_append, List.nil_append, Reader.read, Reader.decode]
    cases rd.view s <;> rfl
  | .bool b, s, p, rest, n + 1, hn, hr => by
    simp only [events, List.cons_append, List.nil_append, Reader.read, Reader.decode]
    cases rd.view s <;> rfl
  | .num t, s, p, rest, n + 1, hn, hr => by
    simp only [events, List.cons_append, List.nil_append, Reader.read, Reader.decode]
    cases rd.view s <;> rfl
  | .str t, s, p, rest, n + 1, hn, hr => by
    simp only [events, List.cons_append, List.nil_append, Reader.read, Reader.decode]
    cases rd.view s <;> rfl
  | .arr xs, s, p, rest, n + 1, hn, hr => by
    simp only [size] at hn
    have hd := readDocument_spec (.arr xs) p rest (fun _ => trivial)
    have hl := fun sparse s' => readElements_spec rd xs sparse s' [] p rest n (by omega)
    simp only [events, List.cons_append, List.append_assoc, List.nil_append] at hd hl ⊢
    simp only [Reader.read, Reader.decode]
    cases hv : rd.view s with
    | document => simp only [hd]; rfl
    | list sparse s' =>
      simp only [if_true, hl sparse s']
      cases rd.decodeElements sparse s' [] xs <;> rfl
    | timestamp trait => simp only [Reader.readScalar, timestamp_start]; rfl
    | _ => rfl
  | .obj es, s, p, rest, n + 1, hn, hr => by
    simp only [size] at hn
    have hm := fun union ms => readMembers_spec rd es union ms [] p rest n (by omega)
    have he := fun sparse s' => readEntries_spec rd es sparse s' [] p rest n (by omega)
    have hd := fun h => readDocument_spec (.obj es) p rest h
    simp only [events, List.cons_append, List.append_assoc, List.nil_append] at hd hm he ⊢
    simp only [Reader.read, Reader.decode]
    cases hv : rd.view s with
    | document => simp only [hd fun hp => hr hp hv]; rfl
    | struct ms =>
      simp only [if_true, hm false ms]
      cases rd.decodeMembers false ms [] es <;> rfl
    | union ms =>
      simp only [if_true, hm true ms]
      cases rd.decodeMembers true ms [] es <;> rfl
    | map sparse s' =>
      simp only [if_true, he sparse s']
      cases rd.decodeEntries sparse s' [] es <;> rfl
    | timestamp trait => simp only [Reader.readScalar, timestamp_start]; rfl
    | _ => rfl
termination_by structural j => j
theorem readElements_spec (rd : Reader S F T) : ∀ (xs : List Json) (sparse : Bool) (s : S)
    (acc : List (Val F T)) (p : List Text) (rest : List Event) (n : Nat), sizes xs ≤ n →
    rd.readElements n sparse s acc
        (elementEvents (p ++ ["item".toList]) xs ++ ⟨join p, .endArray⟩ :: rest) =
      (rd.decodeElements sparse s acc xs).map fun v => (v, rest)
  | xs, sparse, s, acc, p, rest, 0, hn => by have := sizes_pos xs; omega
  | [], sparse, s, acc, p, rest, n + 1, hn => by
    simp only [elementEvents, List.nil_append, Reader.readElements, if_true]
    rfl
  | x :: xs, sparse, s, acc, p, rest, n + 1, hn => by
    simp only [sizes] at hn
    have hrd := read_spec rd x s (p ++ ["item".toList])
      (elementEvents (p ++ ["item".toList]) xs ++ ⟨join p, .endArray⟩ :: rest) n (by omega)
      (fun h => by simp at h)
    have ih := fun acc => readElements_spec rd xs sparse s acc p rest n (by omega)
    obtain ⟨e, r, he, hnull, hne, _⟩ := events_head (p ++ ["item".toList]) x
    simp only [elementEvents, List.append_assoc]
    rw [he] at hrd ⊢
    simp only [List.cons_append] at hrd ⊢
    simp only [Reader.readElements, hne, if_false, Reader.decodeElements]
    by_cases hx : x.isNull = true
    · have : e.ev = .null := hnull.2 hx
      simp only [this, if_true, hx]
      have hr : r = [] := by
        cases x with
        | null => simp [events] at he; exact he.2
        | _ => simp [Json.isNull] at hx
      subst hr
      exact ih _
    · have : ¬ e.ev = .null := fun h => hx (hnull.1 h)
      simp only [this, if_false, hx, hrd]
      cases rd.decode s x with
      | error err => rfl
      | ok v => exact ih _
theorem readMembers_spec (rd : Reader S F T) : ∀ (es : List (Text × Json)) (union : Bool)
    (ms : List (Member × S)) (acc : List (Text × Val F T)) (p : List Text) (rest : List Event) (n : Nat),
    memberSizes es ≤ n →
    rd.readMembers n union ms acc (memberEvents p es ++ ⟨join p, .endMap⟩ :: rest) =
      (rd.decodeMembers union ms acc es).map fun v => (v, rest)
  | es, union, ms, acc, p, rest, 0, hn => by have := memberSizes_pos es; omega
  | [], union, ms, acc, p, rest, n + 1, hn => by
    simp only [memberEvents, List.nil_append, Reader.readMembers, if_true]
    rfl
  | (k, x) :: es, union, ms, acc, p, rest, n + 1, hn => by
    simp only [memberSizes] at hn
    have hrd := fun s => read_spec rd x s (p ++ [k])
      (memberEvents p es ++ ⟨join p, .endMap⟩ :: rest) n (by omega) (fun h => by simp at h)
    have hskip := skip_spec x (p ++ [k]) (by simp) (memberEvents p es ++ ⟨join p, .endMap⟩ :: rest)
    have ih := fun acc => readMembers_spec rd es union ms acc p rest n (by omega)
    obtain ⟨e, r, he, hnull, _, _⟩ := events_head (p ++ [k]) x
    simp only [memberEvents, List.cons_append, List.append_assoc]
    rw [he] at hrd hskip ⊢
    simp only [List.cons_append] at hrd hskip ⊢
    simp only [Reader.readMembers, reduceCtorEq, if_false, readString, Reader.decodeMembers]
    cases rd.resolve ms k with
    | none =>
      simp only [hskip]
      exact ih acc
    | some m =>
      by_cases hx : x.isNull = true ∧ (rd.view m.2).isDocument = false
      · have h1 : e.ev = .null := hnull.2 hx.1
        simp only [h1, hx, and_self, if_true]
        have hr : r = [] := by
          cases x with
          | null => simp [events] at he; exact he.2
          | _ => simp [Json.isNull] at hx
        subst hr
        exact ih acc
      · have h1 : ¬ (e.ev = .null ∧ (rd.view m.2).isDocument = false) :=
          fun h => hx ⟨hnull.1 h.1, h.2⟩
        simp only [h1, hx, if_false, hrd]
        cases rd.decode m.2 x with
        | error err => rfl
        | ok v =>
          simp only [Except.map]
          cases consume union acc m.1.name v with
          | error err => rfl
          | ok acc' => exact ih acc'
theorem readEntries_spec (rd : Reader S F T) : ∀ (es : List (Text × Json)) (sparse : Bool) (s : S)
    (acc : List (Text × Val F T)) (p : List Text) (rest : List Event) (n : Nat), memberSizes es ≤ n →
    rd.readEntries n sparse s acc (memberEvents p es ++ ⟨join p, .endMap⟩ :: rest) =
      (rd.decodeEntries sparse s acc es).map fun v => (v, rest)
  | es, sparse, s, acc, p, rest, 0, hn => by have := memberSizes_pos es; omega
  | [], sparse, s, acc, p, rest, n + 1, hn => by
    simp only [memberEvents, List.nil_append, Reader.readEntries, if_true]
    rfl
  | (k, x) :: es, sparse, s, acc, p, rest, n + 1, hn => by
    simp only [memberSizes] at hn
    have hrd := read_spec rd x s (p ++ [k])
      (memberEvents p es ++ ⟨join p, .endMap⟩ :: rest) n (by omega) (fun h => by simp at h)
    have ih := fun acc => readEntries_spec rd es sparse s acc p rest n (by omega)
    obtain ⟨e, r, he, hnull, _, _⟩ := events_head (p ++ [k]) x
    simp only [memberEvents, List.cons_append, List.append_assoc]
    rw [he] at hrd ⊢
    simp only [List.cons_append] at hrd ⊢
    simp only [Reader.readEntries, reduceCtorEq, if_false, readString, Reader.decodeEntries]
    by_cases hx : x.isNull = true
    · have : e.ev = .null := hnull.2 hx
      simp only [this, if_true, hx]
      have hr : r = [] := by
        cases x with
        | null => simp [events] at he; exact he.2
        | _ => simp [Json.isNull] at hx
      subst hr
      exact ih _
    · have : ¬ e.ev = .null := fun h => hx (hnull.1 h)
      simp only [this, if_false, hx, hrd]
      cases rd.decode s x with
      | error err => rfl
      | ok v => exact ih _
end

theorem run_spec (rd : Reader S F T) (s : S) (j : Json) (h : rd.view s = .document → RootOk j) :
    rd.run s (events [] j) = rd.decode s j := by
  have h1 := size_events j []
  have h2 := read_spec rd j s [] [] (2 * (events [] j).length + 2) (by omega) (fun _ => h)
  rw [List.append_nil] at h2
  unfold Reader.run
  rw [h2]
  cases rd.decode s j <;> rfl

/-! ## Names -/

theorem find_unique {A : Type} (f : A → Text) : ∀ (ms : List A), (ms.map f).Nodup → ∀ m ∈ ms,
    ms.find? (fun e => f e = f m) = some m
  | [], _, m, h => by cases h
  | x :: xs, hn, m, h => by
    rw [List.map_cons, List.nodup_cons] at hn
    rw [List.find?_cons]
    rcases List.mem_cons.1 h with rfl | h
    · simp
    · have : f x ≠ f m := fun e => hn.1 (List.mem_map.2 ⟨m, h, e.symm⟩)
      simp only [this, decide_false]
      exact find_unique f xs hn.2 m h

/-- Members are found by their name in JSON. -/
theorem resolve_spec (rd : Reader S F T) (ms : List (Member × S)) (key : Text)
    (h1 : (ms.map fun e => e.1.name).Nodup) (h2 : (ms.map fun e => jsonKey rd.useJsonName e.1).Nodup) :
    rd.resolve ms key = ms.find? fun e => jsonKey rd.useJsonName e.1 = key := by
  unfold Reader.resolve
  cases hj : rd.useJsonName with
  | false =>
    simp only [Bool.false_eq_true, if_false]
    rfl
  | true =>
    have hk : ∀ m : Member, m.jsonName.getD m.name = jsonKey true m := by
      intro m
      unfold jsonKey
      cases m.jsonName <;> rfl
    simp only [if_true, hk]
    rw [hj] at h2
    by_cases h : ∃ m ∈ ms, jsonKey true m.1 = key
    · obtain ⟨m, hm, rfl⟩ := h
      rw [find_unique (fun e : Member × S => jsonKey true e.1) ms h2 m hm,
        find_unique (fun e : Member × S => jsonKey true e.1) ms.reverse
          (by rw [List.map_reverse]; exact (List.reverse_perm _).nodup_iff.2 h2) m (List.mem_reverse.2 hm)]
      exact find_unique (fun e : Member × S => e.1.name) ms h1 m hm
    · have hn : ∀ l : List (Member × S), (∀ m ∈ l, m ∈ ms) →
          l.find? (fun e => jsonKey true e.1 = key) = none := by
        intro l hl
        rw [List.find?_eq_none]
        intro m hm
        simp only [decide_eq_true_eq]
        exact fun e => h ⟨m, hl m hm, e⟩
      rw [hn ms fun _ h => h, hn ms.reverse fun _ h => List.mem_reverse.1 h]

/-! ## Unknown members -/

theorem strip_isNull (rd : Reader S F T) (s : S) (j : Json) : (rd.strip s j).isNull = j.isNull := by
  cases j with
  | arr xs => simp only [Reader.strip]; cases rd.view s <;> rfl
  | obj xs => simp only [Reader.strip]; cases rd.view s <;> rfl
  | _ => rfl

mutual
theorem decode_strip (rd : Reader S F T) (hrd : rd.Ok) : ∀ (j : Json) (s : S),
    rd.decode s (rd.strip s j) = rd.decode s j
  | .null, s => rfl
  | .bool b, s => rfl
  | .num t, s => rfl
  | .str t, s => rfl
  | .arr xs, s => by
    simp only [Reader.strip]
    cases hv : rd.view s with
    | list sparse s' => simp only [Reader.decode, hv, decodeElements_strip rd hrd xs]
    | _ => rfl
  | .obj es, s => by
    simp only [Reader.strip]
    cases hv : rd.view s with
    | struct ms =>
      simp only [Reader.decode, hv, decodeMembers_strip rd hrd es false ms (hrd s ms (.inl hv)).1
        (hrd s ms (.inl hv)).2]
    | union ms =>
      simp only [Reader.decode, hv, decodeMembers_strip rd hrd es true ms (hrd s ms (.inr hv)).1
        (hrd s ms (.inr hv)).2]
    | map sparse s' => simp only [Reader.decode, hv, decodeEntries_strip rd hrd es]
    | _ => rfl
termination_by structural j => j
theorem decodeMembers_strip (rd : Reader S F T) (hrd : rd.Ok) : ∀ (es : List (Text × Json)) (union : Bool)
    (ms : List (Member × S)), (ms.map fun e => e.1.name).Nodup →
    (ms.map fun e => jsonKey rd.useJsonName e.1).Nodup → ∀ acc : List (Text × Val F T),
    rd.decodeMembers union ms acc (rd.stripMembers ms es) = rd.decodeMembers union ms acc es
  | [], union, ms, _, _, acc => rfl
  | (k, j) :: es, union, ms, h1, h2, acc => by
    have ih := decodeMembers_strip rd hrd es union ms h1 h2
    have hr := resolve_spec rd ms k h1 h2
    simp only [Reader.stripMembers, Reader.decodeMembers, hr]
    cases hf : ms.find? fun e => jsonKey rd.useJsonName e.1 = k with
    | none => simp only [ih]
    | some m =>
      rw [hf] at hr
      have hd := decode_strip rd hrd j m.2
      have hkeep : ∀ x : List (Text × Json), x = (k, rd.strip m.2 j) :: rd.stripMembers ms es →
          ¬ (j.isNull = true ∧ (rd.view m.2).isDocument = false) →
          rd.decodeMembers union ms acc x =
            match rd.decode m.2 j with
            | .error err => .error err
            | .ok v =>
              match consume union acc m.1.name v with
              | .error err => .error err
              | .ok acc' => rd.decodeMembers union ms acc' es := by
        rintro x rfl hx
        simp only [Reader.decodeMembers, hr, strip_isNull, hx, if_false, hd, ih]
      by_cases hx : j.isNull = true ∧ (rd.view m.2).isDocument = false
      · have hj : j = .null := by
          cases j <;> simp [Json.isNull] at hx ⊢
        subst hj
        simp only [hx, and_self, if_true]
        exact ih acc
      · simp only [hx, if_false]
        refine hkeep _ ?_ hx
        cases j with
        | null =>
          cases hdoc : (rd.view m.2).isDocument with
          | true => rfl
          | false => exact absurd ⟨rfl, hdoc⟩ hx
        | _ => cases (rd.view m.2).isDocument <;> rfl
theorem decodeElements_strip (rd : Reader S F T) (hrd : rd.Ok) : ∀ (xs : List Json) (sparse : Bool) (s : S)
    (acc : List (Val F T)),
    rd.decodeElements sparse s acc (rd.stripElements s xs) = rd.decodeElements sparse s acc xs
  | [], sparse, s, acc => rfl
  | j :: js, sparse, s, acc => by
    simp only [Reader.stripElements, Reader.decodeElements, strip_isNull, decode_strip rd hrd j s,
      decodeElements_strip rd hrd js]
theorem decodeEntries_strip (rd : Reader S F T) (hrd : rd.Ok) : ∀ (es : List (Text × Json)) (sparse : Bool)
    (s : S) (acc : List (Text × Val F T)),
    rd.decodeEntries sparse s acc (rd.stripEntries s es) = rd.decodeEntries sparse s acc es
  | [], sparse, s, acc => rfl
  | (k, j) :: es, sparse, s, acc => by
    simp only [Reader.stripEntries, Reader.decodeEntries, strip_isNull, decode_strip rd hrd j s,
      decodeEntries_strip rd hrd es]
end

theorem strip_document (rd : Reader S F T) (s : S) (j : Json) (h : rd.view s = .document) :
    rd.strip s j = j := by
  cases j <;> simp only [Reader.strip, h]

/-- C44: members of the JSON text that the schema does not know, and members that are null, make no
difference to what is read. -/
theorem C44_unknown (rd : Reader S F T) (hrd : rd.Ok) (s : S) (j : Json)
    (h : rd.view s = .document → RootOk j) :
    rd.run s (events [] j) = rd.run s (events [] (rd.strip s j)) := by
  rw [run_spec rd s j h, run_spec rd s _ (fun hv => by rw [strip_document rd s j hv]; exact h hv),
    decode_strip rd hrd]

/-! ## Round trip -/

theorem put_new {V : Type} : ∀ (acc : List (Text × V)) (k : Text) (v : V), k ∉ acc.map Prod.fst →
    put acc k v = acc ++ [(k, v)]
  | [], k, v, _ => rfl
  | e :: d, k, v, h => by
    simp only [List.map_cons, List.mem_cons, not_or] at h
    simp only [put, if_neg (Ne.symm h.1), put_new d k v h.2, List.cons_append]

mutual
theorem noNan_doc (st : Settings F T) : ∀ p : Plain, NoNan st (docCall p)
  | .null | .bool _ | .num (.int _) | .str _ => trivial
  | .num (.dec d) => by simp [docCall, NoNan]
  | .arr xs => noNan_docs st xs
  | .obj es => noNan_docEntries st es
termination_by structural p => p
theorem noNan_docs (st : Settings F T) : ∀ ps : List Plain, NoNanElements st (docCalls ps)
  | [] => trivial
  | p :: ps => ⟨noNan_doc st p, noNan_docs st ps⟩
theorem noNan_docEntries (st : Settings F T) : ∀ ps : List (Text × Plain), NoNanEntries st (docEntries ps)
  | [] => trivial
  | (_, p) :: ps => ⟨noNan_doc st p, noNan_docEntries st ps⟩
end

mutual
theorem doc_round_trip (st : Settings F T) : ∀ (p : Plain) (j : Json), p.Ok → Mirrors st (docCall p) j →
    SamePlain p (plainOf j) ∧ (j.isNull = true → p = .null)
  | .null, j, _, h => by
    simp only [docCall, Mirrors] at h; subst h; exact ⟨rfl, fun _ => rfl⟩
  | .bool b, j, _, h => by
    simp only [docCall, Mirrors] at h; subst h; exact ⟨rfl, fun h => by cases h⟩
  | .num (.int n), j, _, h => by
    simp only [docCall, Mirrors] at h
    obtain ⟨t, rfl, h⟩ := h
    exact ⟨⟨_, rfl, by rw [numOf_integer h]⟩, fun h => by cases h⟩
  | .num (.dec d), j, hp, h => by
    simp only [docCall, Mirrors, floatJson, Plain.Ok] at h hp
    cases j with
    | num t =>
      obtain ⟨m, h1, rfl, h3⟩ := h.2 hp
      exact ⟨⟨_, rfl, by rw [numOf_value h1, h3]; rfl⟩, fun h => by cases h⟩
    | _ => cases h
  | .str s, j, _, h => by
    simp only [docCall, Mirrors] at h; subst h; exact ⟨rfl, fun h => by cases h⟩
  | .arr xs, j, hp, h => by
    simp only [docCall, Mirrors] at h
    obtain ⟨js, rfl, h⟩ := h
    obtain ⟨ys, h1, h2⟩ := docs_round_trip st xs js [] hp h
    exact ⟨⟨_, rfl, by rw [h1]; exact h2⟩, fun h => by cases h⟩
  | .obj es, j, hp, h => by
    simp only [docCall, Mirrors] at h
    obtain ⟨js, rfl, h⟩ := h
    obtain ⟨ys, h1, h2⟩ := docEntries_round_trip st es js [] hp.2 (by simpa using hp.1) h
    exact ⟨⟨_, rfl, by rw [h1]; exact h2⟩, fun h => by cases h⟩
termination_by structural p => p
theorem docs_round_trip (st : Settings F T) : ∀ (ps : List Plain) (js : List Json) (acc : List Plain),
    Plain.OkList ps → MirrorsElements st (docCalls ps) js →
    ∃ ys, plainsOf acc js = acc ++ ys ∧ SamePlains ps ys
  | [], js, acc, _, h => by
    simp only [docCalls, MirrorsElements] at h; subst h; exact ⟨[], by simp [plainsOf], rfl⟩
  | p :: ps, js, acc, hp, h => by
    simp only [docCalls, MirrorsElements] at h
    obtain ⟨j, js', rfl, hj, h⟩ := h
    obtain ⟨ys, h1, h2⟩ := docs_round_trip st ps js' (acc ++ [plainOf j]) hp.2 h
    exact ⟨plainOf j :: ys, by simp [plainsOf, h1], _, _, rfl, (doc_round_trip st p j hp.1 hj).1, h2⟩
theorem docEntries_round_trip (st : Settings F T) : ∀ (ps : List (Text × Plain)) (js : List (Text × Json))
    (acc : List (Text × Plain)), Plain.OkEntries ps → (acc.map Prod.fst ++ ps.map Prod.fst).Nodup →
    MirrorsEntries st (docEntries ps) js →
    ∃ ys, fieldsOf acc js = acc ++ ys ∧ SameFields ps ys
  | [], js, acc, _, _, h => by
    simp only [docEntries, MirrorsEntries] at h; subst h; exact ⟨[], by simp [fieldsOf], rfl⟩
  | (k, p) :: ps, js, acc, hp, hn, h => by
    simp only [docEntries, MirrorsEntries] at h
    obtain ⟨j, js', rfl, hj, h⟩ := h
    have hk : k ∉ acc.map Prod.fst := by
      intro hk
      exact (List.nodup_append.1 hn).2.2 k hk k (by simp) rfl
    obtain ⟨ys, h1, h2⟩ := docEntries_round_trip st ps js' (acc ++ [(k, plainOf j)]) hp.2
      (by simpa using hn) h
    refine ⟨(k, plainOf j) :: ys, ?_, _, _, rfl, (doc_round_trip st p j hp.1 hj).1, h2⟩
    simp [fieldsOf, put_new acc k _ hk, h1]
end

theorem int_value (n : Int) : (⟨decide (n < 0), n.natAbs, 0⟩ : Dec).value = n := by
  simp only [Dec.value, zpow_zero, mul_one]
  by_cases hn : n < 0
  · simp only [hn, decide_true, if_true]
    have : (n : ℚ) = -(n.natAbs : ℚ) := by
      have : ((-(n.natAbs : Int) : Int) : ℚ) = n := by congr 1; omega
      rw [← this, Int.cast_neg]; rfl
    rw [this]; ring
  · simp only [hn, decide_false, Bool.false_eq_true, if_false, one_mul]
    have : (((n.natAbs : Int) : Int) : ℚ) = n := by congr 1; omega
    rw [← this]; rfl

mutual
theorem noNan_call (st : Settings F T) (rd : Reader S F T) (hrd : rd.Ok) : ∀ (v : Val F T) (s : S),
    Conforms st rd s v → NoNan st (rd.callOf s v)
  | .null, s, _ => trivial
  | .boolean _, s, _ => trivial
  | .integer _, s, _ => trivial
  | .float x, s, h => h.2
  | .bigDecimal x, s, h => by
    obtain ⟨_, d, rfl, _⟩ := h
    simp [Reader.callOf, NoNan]
  | .string _, s, _ => trivial
  | .blob _, s, _ => trivial
  | .timestamp t, s, h => by
    obtain ⟨trait, hv, h⟩ := h
    simp only [Reader.callOf, hv, NoNan]
    unfold Restores at h
    generalize stampFormat st trait = f at h ⊢
    cases f with
    | epochSeconds =>
      rcases h with ⟨n, h, _⟩ | ⟨x, h, _⟩ <;> rw [h] <;> simp
    | _ => obtain ⟨x, h, _⟩ := h; rw [h]; simp
  | .document p, s, _ => noNan_doc st p
  | .struct es, s, h => by
    obtain ⟨ms, hv, h⟩ := h
    simp only [Reader.callOf, hv, NoNan]
    exact noNan_members st rd hrd es [] ms ms rfl (hrd s ms (.inl hv)).1 h
  | .union k v, s, h => by
    obtain ⟨ms, m, hv, hm, rfl, h⟩ := h
    simp only [Reader.callOf, hv,
      find_unique (fun e : Member × S => e.1.name) ms (hrd s ms (.inr hv)).1 m hm, NoNan]
    exact ⟨noNan_call st rd hrd v m.2 h, trivial⟩
  | .list vs, s, h => by
    obtain ⟨sparse, s', hv, h⟩ := h
    simp only [Reader.callOf, hv, NoNan]
    exact noNan_elements st rd hrd vs sparse s' h
  | .map es, s, h => by
    obtain ⟨sparse, s', hv, _, h⟩ := h
    simp only [Reader.callOf, hv, NoNan]
    exact noNan_entries st rd hrd es sparse s' h
termination_by structural v => v
theorem noNan_members (st : Settings F T) (rd : Reader S F T) (hrd : rd.Ok) :
    ∀ (es : List (Text × Val F T)) (pre ms post : List (Member × S)), ms = pre ++ post →
    (ms.map fun e => e.1.name).Nodup → ConformsMembers st rd post es →
    NoNanMembers st (rd.memberCalls ms es)
  | [], pre, ms, post, _, _, _ => trivial
  | (k, v) :: es, pre, ms, post, hms, hn, h => by
    obtain ⟨pre', m, post', rfl, rfl, hv, h⟩ := h
    have hm : m ∈ ms := by rw [hms]; simp
    simp only [Reader.memberCalls, find_unique (fun e : Member × S => e.1.name) ms hn m hm, NoNanMembers]
    exact ⟨noNan_call st rd hrd v m.2 hv,
      noNan_members st rd hrd es (pre ++ pre' ++ [m]) ms post' (by simp [hms]) hn h⟩
theorem noNan_elements (st : Settings F T) (rd : Reader S F T) (hrd : rd.Ok) :
    ∀ (vs : List (Val F T)) (sparse : Bool) (s : S), ConformsElements st rd sparse s vs →
    NoNanElements st (rd.elementCalls s vs)
  | [], sparse, s, _ => trivial
  | v :: vs, sparse, s, h => by
    refine ⟨?_, noNan_elements st rd hrd vs sparse s h.2⟩
    rcases h.1 with ⟨rfl, _⟩ | ⟨_, h⟩
    · trivial
    · exact noNan_call st rd hrd v s h
theorem noNan_entries (st : Settings F T) (rd : Reader S F T) (hrd : rd.Ok) :
    ∀ (vs : List (Text × Val F T)) (sparse : Bool) (s : S), ConformsEntries st rd sparse s vs →
    NoNanEntries st (rd.entryCalls s vs)
  | [], sparse, s, _ => trivial
  | (_, v) :: vs, sparse, s, h => by
    refine ⟨?_, noNan_entries st rd hrd vs sparse s h.2⟩
    rcases h.1 with ⟨rfl, _⟩ | ⟨_, h⟩
    · trivial
    · exact noNan_call st rd hrd v s h
end

theorem float_round_trip (st : Settings F T) (rd : Reader S F T) (hf : Fits st rd) (x : Num F) (j : Json)
    (h : floatJson (fun x j => j = .num (st.repr x)) x j) :
    ∃ e : Ev, (∀ s v, rd.view s = v → v.isDocument = false → rd.decode s j = rd.readScalar v e) ∧
      rd.readFloat e = .ok (.float x) ∧ j.isNull = false := by
  cases x with
  | nan => cases h
  | inf b =>
    cases b with
    | false =>
      simp only [floatJson] at h; subst h
      refine ⟨.string "Infinity".toList, ?_, rfl, rfl⟩
      rintro s v rfl hd
      simp only [Reader.decode]
      cases hv : rd.view s <;> first | rfl | (rw [hv] at hd; cases hd)
    | true =>
      simp only [floatJson] at h; subst h
      refine ⟨.string "-Infinity".toList, ?_, by simp [Reader.readFloat], rfl⟩
      rintro s v rfl hd
      simp only [Reader.decode]
      cases hv : rd.view s <;> first | rfl | (rw [hv] at hd; cases hd)
  | finite x =>
    simp only [floatJson] at h; subst h
    obtain ⟨d, h1, h2⟩ := hf.floats x
    refine ⟨.number (.dec d), ?_, by simp only [Reader.readFloat, h2], rfl⟩
    rintro s v rfl hd
    simp only [Reader.decode, h1]
    cases hv : rd.view s <;> first | rfl | (rw [hv] at hd; cases hd)

mutual
theorem value_round_trip (st : Settings F T) (rd : Reader S F T) (hrd : rd.Ok) (hf : Fits st rd) :
    ∀ (v : Val F T) (s : S) (j : Json), Conforms st rd s v → Mirrors st (rd.callOf s v) j →
    ∃ v', rd.decode s j = .ok v' ∧ Same v v' ∧ (j.isNull = true → v = .document .null)
  | .null, s, j, h, _ => by cases h
  | .boolean b, s, j, hv, h => by
    simp only [Conforms] at hv
    simp only [Reader.callOf, Mirrors] at h; subst h
    exact ⟨_, by simp only [Reader.decode, hv]; rfl, rfl, fun h => by cases h⟩
  | .integer n, s, j, hv, h => by
    simp only [Conforms] at hv
    simp only [Reader.callOf, Mirrors] at h
    obtain ⟨t, rfl, h⟩ := h
    refine ⟨_, ?_, rfl, fun h => by cases h⟩
    simp only [Reader.decode, hv, numOf_integer h]
    rfl
  | .float x, s, j, hv, h => by
    simp only [Conforms] at hv
    simp only [Reader.callOf, Mirrors] at h
    obtain ⟨e, h1, h2, h3⟩ := float_round_trip st rd hf x j h
    refine ⟨.float x, ?_, rfl, fun h => by rw [h3] at h; cases h⟩
    rw [h1 s _ hv.1 rfl]
    exact h2
  | .bigDecimal x, s, j, hv, h => by
    simp only [Conforms] at hv
    obtain ⟨hv, d, rfl, hd⟩ := hv
    simp only [Reader.callOf, Mirrors, floatJson] at h
    cases j with
    | num t =>
      obtain ⟨m, h1, rfl, h3⟩ := h.2 hd
      have hq := numOf_value h1
      rw [h3] at hq
      simp only [Reader.decode, hv, Reader.readScalar]
      cases hm : numOf m.text with
      | int n =>
        rw [hm] at hq
        exact ⟨_, rfl, ⟨_, rfl, by rw [int_value, ← hq]; rfl⟩, fun h => by cases h⟩
      | dec d' =>
        rw [hm] at hq
        exact ⟨_, rfl, ⟨_, rfl, hq⟩, fun h => by cases h⟩
    | _ => cases h
  | .string t, s, j, hv, h => by
    simp only [Conforms] at hv
    simp only [Reader.callOf, Mirrors] at h; subst h
    exact ⟨_, by simp only [Reader.decode, hv]; rfl, rfl, fun h => by cases h⟩
  | .blob bs, s, j, hv, h => by
    simp only [Conforms] at hv
    simp only [Reader.callOf, Mirrors] at h
    obtain ⟨t, rfl, rfl⟩ := h
    refine ⟨_, ?_, rfl, fun h => by cases h⟩
    simp only [Reader.decode, hv, Reader.readScalar, readBlob, Base64.decode_encode]
  | .timestamp t, s, j, hv, h => by
    simp only [Conforms] at hv
    obtain ⟨trait, hv, hr⟩ := hv
    simp only [Reader.callOf, hv, Mirrors] at h
    have hfmt : (if rd.useTimestampFormat then trait.getD rd.defaultFormat else rd.defaultFormat) =
        stampFormat st trait := by
      rw [hf.formats, hf.default]
      exact format_eq st trait
    unfold Restores at hr
    generalize stampFormat st trait = f at h hr hfmt
    have htext : ∀ x, f ≠ .epochSeconds → st.serialize f t = .text x → rd.deserialize f (.text x) = some t →
        ∃ v', rd.decode s j = .ok v' ∧ Same (.timestamp t) v' ∧
          (j.isNull = true → Val.timestamp t = .document (.null) (F := F)) := by
      intro x hne h1 h2
      rw [h1] at h
      subst h
      refine ⟨.timestamp t, ?_, rfl, fun h => by cases h⟩
      simp only [Reader.decode, hv, Reader.readScalar, Reader.readTimestamp, hfmt]
      cases f with
      | epochSeconds => exact absurd rfl hne
      | _ => simp only [readString, Except.map, h2]
    cases f with
    | epochSeconds =>
      rcases hr with ⟨n, h1, h2⟩ | ⟨x, h1, h2⟩
      · rw [h1] at h
        obtain ⟨x, rfl, h⟩ := h
        refine ⟨.timestamp t, ?_, rfl, fun h => by cases h⟩
        simp only [Reader.decode, hv, Reader.readScalar, Reader.readTimestamp, hfmt, numOf_integer h,
          Reader.readFloat, Except.map, toStamp, h2]
      · rw [h1] at h
        obtain ⟨e, he, h3, h4⟩ := float_round_trip st rd hf (.finite x) j h
        refine ⟨.timestamp t, ?_, rfl, fun h => by rw [h4] at h; cases h⟩
        rw [he s _ hv rfl]
        simp only [Reader.readScalar, Reader.readTimestamp, hfmt, h3, Except.map, toStamp, h2]
    | dateTime => obtain ⟨x, h1, h2⟩ := hr; exact htext x (by simp) h1 h2
    | httpDate => obtain ⟨x, h1, h2⟩ := hr; exact htext x (by simp) h1 h2
  | .document p, s, j, hv, h => by
    simp only [Conforms] at hv
    simp only [Reader.callOf] at h
    obtain ⟨h1, h2⟩ := doc_round_trip st p j hv.2 h
    refine ⟨.document (plainOf j), ?_, ⟨_, rfl, h1⟩, fun h => by rw [h2 h]⟩
    cases j <;> simp only [Reader.decode, hv.1] <;> rfl
  | .struct es, s, j, hv, h => by
    simp only [Conforms] at hv
    obtain ⟨ms, hv, hc⟩ := hv
    simp only [Reader.callOf, hv, Mirrors] at h
    obtain ⟨js, rfl, h⟩ := h
    obtain ⟨fs, h1, h2⟩ := members_round_trip st rd hrd hf es [] ms ms js [] rfl (hrd s ms (.inl hv)).1
      (hrd s ms (.inl hv)).2 (by simp) hc h
    refine ⟨.struct fs, ?_, ⟨fs, rfl, h2⟩, fun h => by cases h⟩
    simp only [Reader.decode, hv, h1, List.nil_append]
    rfl
  | .union k v, s, j, hv, h => by
    simp only [Conforms] at hv
    obtain ⟨ms, m, hv, hm, rfl, hc⟩ := hv
    obtain ⟨hn1, hn2⟩ := hrd s ms (.inr hv)
    simp only [Reader.callOf, hv, find_unique (fun e : Member × S => e.1.name) ms hn1 m hm, Mirrors,
      MirrorsMembers, ← hf.names] at h
    obtain ⟨_, rfl, j, _, rfl, h, rfl⟩ := h
    obtain ⟨v', h1, h2, h3⟩ := value_round_trip st rd hrd hf v m.2 j hc h
    refine ⟨.union m.1.name v', ?_, ⟨_, rfl, h2⟩, fun h => by cases h⟩
    have hx : ¬ (j.isNull = true ∧ (rd.view m.2).isDocument = false) := by
      rintro ⟨hj, hd⟩
      rw [h3 hj] at hc
      simp only [Conforms] at hc
      rw [hc.1] at hd; cases hd
    simp only [Reader.decode, hv, Reader.decodeMembers, resolve_spec rd ms _ hn1 hn2,
      find_unique (fun e : Member × S => jsonKey rd.useJsonName e.1) ms hn2 m hm, hx, if_false, h1]
    rfl
  | .list vs, s, j, hv, h => by
    simp only [Conforms] at hv
    obtain ⟨sparse, s', hv, hc⟩ := hv
    simp only [Reader.callOf, hv, Mirrors] at h
    obtain ⟨js, rfl, h⟩ := h
    obtain ⟨ws, h1, h2⟩ := elements_round_trip st rd hrd hf vs sparse s' js [] hc h
    refine ⟨.list ws, ?_, ⟨ws, rfl, h2⟩, fun h => by cases h⟩
    simp only [Reader.decode, hv, h1, List.nil_append]
    rfl
  | .map es, s, j, hv, h => by
    simp only [Conforms] at hv
    obtain ⟨sparse, s', hv, hn, hc⟩ := hv
    simp only [Reader.callOf, hv, Mirrors] at h
    obtain ⟨js, rfl, h⟩ := h
    obtain ⟨ws, h1, h2⟩ := entries_round_trip st rd hrd hf es sparse s' js [] (by simpa using hn) hc h
    refine ⟨.map ws, ?_, ⟨ws, rfl, h2⟩, fun h => by cases h⟩
    simp only [Reader.decode, hv, h1, List.nil_append]
    rfl
termination_by structural v => v
theorem members_round_trip (st : Settings F T) (rd : Reader S F T) (hrd : rd.Ok) (hf : Fits st rd) :
    ∀ (vs : List (Text × Val F T)) (pre ms post : List (Member × S)) (js : List (Text × Json))
      (acc : List (Text × Val F T)), ms = pre ++ post → (ms.map fun e => e.1.name).Nodup →
    (ms.map fun e => jsonKey rd.useJsonName e.1).Nodup →
    (∀ k ∈ acc.map Prod.fst, k ∈ pre.map fun e => e.1.name) →
    ConformsMembers st rd post vs → MirrorsMembers st (rd.memberCalls ms vs) js →
    ∃ fs, rd.decodeMembers false ms acc js = .ok (acc ++ fs) ∧ SameEntries vs fs
  | [], pre, ms, post, js, acc, _, _, _, _, _, h => by
    simp only [Reader.memberCalls, MirrorsMembers] at h; subst h
    exact ⟨[], by simp [Reader.decodeMembers], rfl⟩
  | (k, v) :: vs, pre, ms, post, js, acc, hms, hn1, hn2, ha, hc, h => by
    simp only [ConformsMembers] at hc
    obtain ⟨pre', m, post', rfl, rfl, hc, hcs⟩ := hc
    have hm : m ∈ ms := by rw [hms]; simp
    simp only [Reader.memberCalls, find_unique (fun e : Member × S => e.1.name) ms hn1 m hm,
      MirrorsMembers, ← hf.names] at h
    obtain ⟨j, js', rfl, h, hs⟩ := h
    obtain ⟨v', h1, h2, h3⟩ := value_round_trip st rd hrd hf v m.2 j hc h
    have hx : ¬ (j.isNull = true ∧ (rd.view m.2).isDocument = false) := by
      rintro ⟨hj, hd⟩
      rw [h3 hj] at hc
      simp only [Conforms] at hc
      rw [hc.1] at hd; cases hd
    have hk : m.1.name ∉ acc.map Prod.fst := by
      intro hk
      have hk := ha _ hk
      rw [hms, List.map_append, List.nodup_append] at hn1
      exact hn1.2.2 _ hk m.1.name (by simp) rfl
    obtain ⟨fs, h4, h5⟩ := members_round_trip st rd hrd hf vs (pre ++ pre' ++ [m]) ms post' js'
      (acc ++ [(m.1.name, v')]) (by simp [hms]) hn1 hn2 (by
        intro k hk
        simp only [List.map_append, List.mem_append, List.map_cons, List.map_nil, List.mem_singleton] at hk ⊢
        rcases hk with hk | hk
        · exact .inl (.inl (ha k hk))
        · exact .inr hk) hcs hs
    refine ⟨(m.1.name, v') :: fs, ?_, _, _, rfl, h2, h5⟩
    simp only [Reader.decodeMembers, resolve_spec rd ms _ hn1 hn2,
      find_unique (fun e : Member × S => jsonKey rd.useJsonName e.1) ms hn2 m hm, hx, if_false, h1,
      consume, Bool.false_eq_true, put_new acc _ _ hk, h4]
    simp
theorem elements_round_trip (st : Settings F T) (rd : Reader S F T) (hrd : rd.Ok) (hf : Fits st rd) :
    ∀ (vs : List (Val F T)) (sparse : Bool) (s : S) (js : List Json) (acc : List (Val F T)),
    ConformsElements st rd sparse s vs → MirrorsElements st (rd.elementCalls s vs) js →
    ∃ ws, rd.decodeElements sparse s acc js = .ok (acc ++ ws) ∧ SameElements vs ws
  | [], sparse, s, js, acc, _, h => by
    simp only [Reader.elementCalls, MirrorsElements] at h; subst h
    exact ⟨[], by simp [Reader.decodeElements], rfl⟩
  | v :: vs, sparse, s, js, acc, hc, h => by
    simp only [Reader.elementCalls, MirrorsElements] at h
    obtain ⟨j, js', rfl, h, hs⟩ := h
    have ih := fun acc => elements_round_trip st rd hrd hf vs sparse s js' acc hc.2 hs
    rcases hc.1 with ⟨rfl, rfl⟩ | ⟨hne, hc⟩
    · simp only [Reader.callOf, Mirrors] at h; subst h
      obtain ⟨ws, h1, h2⟩ := ih (acc ++ [.null])
      exact ⟨.null :: ws, by simp [Reader.decodeElements, Json.isNull, h1], _, _, rfl, rfl, h2⟩
    · obtain ⟨v', h1, h2, h3⟩ := value_round_trip st rd hrd hf v s j hc h
      obtain ⟨ws, h4, h5⟩ := ih (acc ++ [v'])
      have hj : ¬ j.isNull = true := fun hj => hne (h3 hj)
      exact ⟨v' :: ws, by simp [Reader.decodeElements, hj, h1, h4], _, _, rfl, h2, h5⟩
theorem entries_round_trip (st : Settings F T) (rd : Reader S F T) (hrd : rd.Ok) (hf : Fits st rd) :
    ∀ (vs : List (Text × Val F T)) (sparse : Bool) (s : S) (js : List (Text × Json))
      (acc : List (Text × Val F T)), (acc.map Prod.fst ++ vs.map Prod.fst).Nodup →
    ConformsEntries st rd sparse s vs → MirrorsEntries st (rd.entryCalls s vs) js →
    ∃ ws, rd.decodeEntries sparse s acc js = .ok (acc ++ ws) ∧ SameEntries vs ws
  | [], sparse, s, js, acc, _, _, h => by
    simp only [Reader.entryCalls, MirrorsEntries] at h; subst h
    exact ⟨[], by simp [Reader.decodeEntries], rfl⟩
  | (k, v) :: vs, sparse, s, js, acc, hn, hc, h => by
    simp only [Reader.entryCalls, MirrorsEntries] at h
    obtain ⟨j, js', rfl, h, hs⟩ := h
    have hk : k ∉ acc.map Prod.fst := by
      intro hk
      exact (List.nodup_append.1 hn).2.2 k hk k (by simp) rfl
    have ih := fun x => entries_round_trip st rd hrd hf vs sparse s js' (acc ++ [(k, x)])
      (by simpa using hn) hc.2 hs
    rcases hc.1 with ⟨rfl, rfl⟩ | ⟨hne, hc⟩
    · simp only [Reader.callOf, Mirrors] at h; subst h
      obtain ⟨ws, h1, h2⟩ := ih .null
      exact ⟨(k, .null) :: ws, by simp [Reader.decodeEntries, Json.isNull, put_new acc k _ hk, h1],
        _, _, rfl, rfl, h2⟩
    · obtain ⟨v', h1, h2, h3⟩ := value_round_trip st rd hrd hf v s j hc h
      obtain ⟨ws, h4, h5⟩ := ih v'
      have hj : ¬ j.isNull = true := fun hj => hne (h3 hj)
      exact ⟨(k, v') :: ws, by simp [Reader.decodeEntries, hj, h1, put_new acc k _ hk, h4],
        _, _, rfl, h2, h5⟩
end

/-- A document at the top has no member with an empty name that is an object or a document of such. -/
def Val.RootOk : Val F T → Prop
  | .document (.obj es) => ∀ k x, (k, Plain.obj x) ∈ es → k ≠ []
  | _ => True

theorem docEntries_obj (st : Settings F T) : ∀ (es : List (Text × Plain)) (js : List (Text × Json)),
    MirrorsEntries st (docEntries es) js → ∀ k x, (k, Json.obj x) ∈ js → ∃ y, (k, Plain.obj y) ∈ es
  | [], js, h, k, x, hm => by
    simp only [docEntries, MirrorsEntries] at h; subst h; cases hm
  | (k', p) :: es, js, h, k, x, hm => by
    simp only [docEntries, MirrorsEntries] at h
    obtain ⟨j, js', rfl, hj, h⟩ := h
    rcases List.mem_cons.1 hm with e | hm
    · cases e
      cases p with
      | obj y => exact ⟨y, by simp⟩
      | num n =>
        cases n with
        | int n => simp [docCall, Mirrors] at hj
        | dec d => simp [docCall, Mirrors, floatJson, decimalJson] at hj
      | _ => simp [docCall, Mirrors] at hj
    · obtain ⟨y, hy⟩ := docEntries_obj st es js' h k x hm
      exact ⟨y, List.mem_cons_of_mem _ hy⟩

/-- C44: what the serializer writes for a value, the deserializer reads as the same value. -/
theorem C44_round_trip_partial (st : Settings F T) (hst : st.Ok) (rd : Reader S F T) (hrd : rd.Ok)
    (hf : Fits st rd) (s : S) (v : Val F T) (hv : Conforms st rd s v) (hroot : v.RootOk) :
    ∃ j, IsJsonText (write st [] (rd.callOf s v)) j ∧
      (∀ j', IsJsonText (write st [] (rd.callOf s v)) j' → j' = j) ∧
      ∃ v', rd.run s (events [] j) = .ok v' ∧ Same v v' := by
  obtain ⟨j, h1, h2, h3⟩ := C43_well_formed_partial st hst _ (noNan_call st rd hrd v s hv)
  obtain ⟨v', h4, h5, _⟩ := value_round_trip st rd hrd hf v s j hv h2
  refine ⟨j, h1, h3, v', ?_, h5⟩
  rw [run_spec rd s j, h4]
  intro hd
  cases v with
  | document p =>
    cases p with
    | obj es =>
      simp only [Reader.callOf, docCall, Mirrors] at h2
      obtain ⟨js, rfl, h2⟩ := h2
      intro k x hm
      obtain ⟨y, hy⟩ := docEntries_obj st es js h2 k x hm
      exact hroot k y hy
    | num n =>
      cases n with
      | int n =>
        simp only [Reader.callOf, docCall, Mirrors] at h2
        obtain ⟨t, rfl, _⟩ := h2
        trivial
      | dec d =>
        simp only [Reader.callOf, docCall, Mirrors, floatJson] at h2
        cases j <;> first | trivial | cases h2
    | arr xs =>
      simp only [Reader.callOf, docCall, Mirrors] at h2
      obtain ⟨t, rfl, _⟩ := h2
      trivial
    | _ =>
      simp only [Reader.callOf, docCall, Mirrors] at h2
      subst h2
      trivial
  | null => cases hv
  | timestamp t => obtain ⟨trait, hv, _⟩ := hv; rw [hv] at hd; cases hd
  | struct t => obtain ⟨ms, hv, _⟩ := hv; rw [hv] at hd; cases hd
  | union k t => obtain ⟨ms, m, hv, _⟩ := hv; rw [hv] at hd; cases hd
  | list t => obtain ⟨sp, s', hv, _⟩ := hv; rw [hv] at hd; cases hd
  | map t => obtain ⟨sp, s', hv, _⟩ := hv; rw [hv] at hd; cases hd
  | float x => rw [hv.1] at hd; cases hd
  | bigDecimal x => rw [hv.1] at hd; cases hd
  | _ => simp only [Conforms] at hv; rw [hv] at hd; cases hd

/-! ## Where the property does not hold -/

/-- A document at the top ends at the end of a member with an empty name. -/
theorem C44_root_fails (rd : Reader S F T) (s : S) (h : rd.view s = .document) :
    rd.run s (events [] (.obj [([], .obj []), (['a'], .bool true)])) =
      .ok (.document (.obj [([], .obj [])])) := by
  simp only [Reader.run, events, memberEvents, List.nil_append, List.cons_append, List.length_cons,
    List.length_nil, Reader.read, h]
  rfl

/-- An infinite big decimal is written as a string, which is then refused. -/
theorem C44_infinite_fails (st : Settings F T) (rd : Reader S F T) (s : S) (h : rd.view s = .bigDecimal) :
    write st [] (rd.callOf s (.bigDecimal (.inf false))) = "\"Infinity\"".toList ∧
    rd.run s (events [] (.str "Infinity".toList)) = .error .token := by
  refine ⟨rfl, ?_⟩
  rw [run_spec rd s _ (fun hd => by rw [h] at hd; cases hd)]
  simp only [Reader.decode, h]
  rfl

/-- A big decimal with more than 28 digits is read as another number. -/
theorem C44_digits_fails (st : Settings F T) (rd : Reader S F T) (s : S) (h : rd.view s = .bigDecimal) :
    write st [] (rd.callOf s (.bigDecimal (.finite ⟨false, 10 ^ 28 + 1, 0⟩))) = "1E+28".toList ∧
    rd.run s (events [] (.num "1E+28".toList)) = .ok (.bigDecimal (.finite ⟨false, 1, 28⟩)) := by
  refine ⟨C43_digits_fails st, ?_⟩
  rw [run_spec rd s _ (fun hd => by rw [h] at hd; cases hd)]
  have : numOf "1E+28".toList = .dec ⟨false, 1, 28⟩ := by decide +kernel
  simp only [Reader.decode, h, this]
  rfl

/-- Null documents in a list are lost. -/
theorem C44_null_document_fails (st : Settings F T) (rd : Reader S F T) (s s' : S)
    (h : rd.view s = .list false s') :
    write st [] (rd.callOf s (.list [.document .null])) = "[null]".toList ∧
    rd.run s (events [] (.arr [.null])) = .ok (.list []) := by
  constructor
  · simp only [Reader.callOf, h]
    rfl
  · rw [run_spec rd s _ (fun hd => by rw [h] at hd; cases hd)]
    simp only [Reader.decode, h]
    rfl

/-- A JSON boolean is accepted where a number is expected: integers and floats are then booleans, and big decimals are 0
or 1. -/
theorem C44_boolean_fails (rd : Reader S F T) (s : S) (b : Bool) :
    (rd.view s = .integer ∨ rd.view s = .float → rd.run s (events [] (.bool b)) = .ok (.boolean b)) ∧
    (rd.view s = .bigDecimal →
      rd.run s (events [] (.bool b)) = .ok (.bigDecimal (.finite ⟨false, if b then 1 else 0, 0⟩))) := by
  refine ⟨?_, ?_⟩
  · rintro (h | h) <;>
      (rw [run_spec rd s _ (fun hd => by rw [h] at hd; cases hd)]; simp only [Reader.decode, h]; rfl)
  · intro h
    rw [run_spec rd s _ (fun hd => by rw [h] at hd; cases hd)]; simp only [Reader.decode, h]; rfl

end

/-! ## The hypotheses are met -/

/-- A recursive structure (0) with members of most kinds. -/
def exampleReader : Reader Nat Unit Unit where
  view
    | 0 => .struct [(⟨['a'], some ['x', '"']⟩, 1), (⟨['b'], none⟩, 3), (⟨['c'], some ['a']⟩, 5),
        (⟨['d'], none⟩, 6), (⟨['e'], none⟩, 7), (⟨['f'], none⟩, 8), (⟨['g'], none⟩, 9),
        (⟨['h'], none⟩, 10), (⟨['i'], none⟩, 0)]
    | 1 => .list true 2
    | 2 => .integer
    | 3 => .map false 4
    | 4 => .float
    | 5 => .blob
    | 6 => .timestamp none
    | 7 => .timestamp (some .dateTime)
    | 8 => .bigDecimal
    | 9 => .document
    | 10 => .union [(⟨['u'], none⟩, 9), (⟨['v'], none⟩, 2)]
    | _ => .boolean
  useJsonName := true
  useTimestampFormat := true
  defaultFormat := .epochSeconds
  float := fun _ => .finite ()
  deserialize := fun _ _ => some ()

def exampleValue : Val Unit Unit :=
  .struct [(['a'], .list [.null, .integer (-3)]),
    (['b'], .map [([], .float (.inf true)), (['k'], .float (.finite ()))]),
    (['c'], .blob [1, 2]), (['d'], .timestamp ()), (['e'], .timestamp ()),
    (['f'], .bigDecimal (.finite ⟨true, 150, -2⟩)), (['g'], .document (.obj [([], .arr [.null])])),
    (['h'], .union ['u'] (.document .null)), (['i'], .struct [])]

theorem exampleReader_ok : exampleReader.Ok := by
  intro s ms h
  match s with
  | 0 =>
    rcases h with h | h
    · cases h; decide
    · cases h
  | 10 =>
    rcases h with h | h
    · cases h
    · cases h; decide
  | 1 | 2 | 3 | 4 | 5 | 6 | 7 | 8 | 9 | _ + 11 => rcases h with h | h <;> cases h

theorem example_fits : Fits exampleSettings exampleReader :=
  have h : numOf ['1', '.', '5'] = .dec ⟨false, 15, -1⟩ := by decide +kernel
  ⟨rfl, rfl, rfl, fun _ => ⟨⟨false, 15, -1⟩, h, rfl⟩⟩

example : Conforms exampleSettings exampleReader 0 exampleValue ∧ exampleValue.RootOk := by
  refine ⟨⟨_, rfl, ?_⟩, trivial⟩
  refine ⟨[], _, _, rfl, rfl, ⟨true, 2, rfl, .inl ⟨rfl, rfl⟩, .inr ⟨by simp, rfl⟩, trivial⟩, ?_⟩
  refine ⟨[], _, _, rfl, rfl, ⟨false, 4, rfl, by simp, .inr ⟨by simp, rfl, by simp⟩,
    .inr ⟨by simp, rfl, by simp⟩, trivial⟩, ?_⟩
  refine ⟨[], _, _, rfl, rfl, rfl, [], _, _, rfl, rfl, ⟨none, rfl, .inl ⟨7, rfl, rfl⟩⟩, ?_⟩
  refine ⟨[], _, _, rfl, rfl, ⟨some .dateTime, rfl, ⟨_, rfl, rfl⟩⟩, ?_⟩
  refine ⟨[], _, _, rfl, rfl, ⟨rfl, ⟨true, 150, -2⟩, rfl, by decide +kernel⟩, ?_⟩
  refine ⟨[], _, _, rfl, rfl, ⟨rfl, by simp, ⟨trivial, trivial⟩, trivial⟩, ?_⟩
  refine ⟨[], _, _, rfl, rfl, ⟨_, (⟨['u'], none⟩, 9), rfl, by simp, rfl, rfl, trivial⟩, ?_⟩
  exact ⟨[], _, _, rfl, rfl, ⟨_, rfl, trivial⟩, trivial⟩

/-- A text with unknown and null members, and what is left of it. -/
example : exampleReader.strip 0 (.obj [(['z'], .obj [(['a'], .arr [])]), (['x', '"'], .null),
      (['i'], .obj [(['y'], .num ['1']), (['g'], .null)]), (['a'], .str ['A', 'Q', 'I', '='])]) =
    .obj [(['i'], .obj [(['g'], .null)]), (['a'], .str ['A', 'Q', 'I', '='])] := rfl

end Verif.Json

import Verif.AwsQuery.Model
import Mathlib.Data.List.Nodup

/-!
# The AWS query serializer (C46): theorems
-/

set_option autoImplicit false

namespace Verif.AwsQuery

open Verif.Uri Verif.Text
open Verif.Json (Format)
open Verif.Numerals

variable {F D T : Type}

/-! ## What is written, as a list of paths -/

mutual
/-- The scalars of a call with their paths, in the order in which they are written. -/
def places (st : Settings F D T) : Call F D T → List (List Bytes × Bytes)
  | .struct ms => placesMembers st ms
  | .list _ _ [] => [([], [])]
  | .list flattened item (c :: cs) => placesElements st flattened item 0 (c :: cs)
  | .map flattened kn vn es => placesEntries st flattened kn vn 0 es
  | .null => []
  | .document => []
  | .boolean b => [([], if b then asc "true" else asc "false")]
  | .integer n => [([], bytes (intText n))]
  | .float x => [([], st.float x)]
  | .bigDecimal x => [([], st.decimal x)]
  | .string s => [([], s)]
  | .blob bs => [([], bytes (Base64.encode bs))]
  | .timestamp trait value => [([], st.stamp (trait.getD st.defaultFormat) value)]
termination_by structural c => c
def placesMembers (st : Settings F D T) : List (Member × Call F D T) → List (List Bytes × Bytes)
  | [] => []
  | (m, c) :: ms =>
    (places st c).map (fun e => (named m.xmlName m.name :: e.1, e.2)) ++ placesMembers st ms
def placesElements (st : Settings F D T) (flattened : Bool) (item : Option Bytes) (i : Nat) :
    List (Call F D T) → List (List Bytes × Bytes)
  | [] => []
  | c :: cs =>
    (places st c).map (fun e => (elementPath flattened item (i + 1) ++ e.1, e.2)) ++
      placesElements st flattened item (i + 1) cs
def placesEntries (st : Settings F D T) (flattened : Bool) (kn vn : Option Bytes) (i : Nat) :
    List (Bytes × Call F D T) → List (List Bytes × Bytes)
  | [] => []
  | (k, c) :: es =>
    (entryPath flattened (i + 1) ++ [named kn (asc "key")], k) ::
      ((places st c).map (fun e => (entryPath flattened (i + 1) ++ named vn (asc "value") :: e.1, e.2)) ++
        placesEntries st flattened kn vn (i + 1) es)
end

theorem resolveName_eq (x : Option Bytes) (d : Bytes) : resolveName x d = named x d := by
  cases x <;> rfl

theorem index_eq (n : Nat) : index n = decimal n := rfl

theorem append_eq (path : List Bytes) (params : List (Bytes × Bytes)) (v : Bytes) (h : path ≠ []) :
    append path params v = .ok (params ++ [(join (ch '.') path, v)]) := by
  simp [append, h]

/-- The pairs for places below a path. -/
def under (path : List Bytes) (e : List Bytes × Bytes) : Bytes × Bytes := (join (ch '.') (path ++ e.1), e.2)

mutual
theorem write_spec (st : Settings F D T) (path : List Bytes) (params : List (Bytes × Bytes))
    (c : Call F D T) (hc : c.Ok) (hp : path ≠ [] ∨ ∃ ms, c = .struct ms) :
    write st path params c = .ok (params ++ (places st c).map (under path)) := by
  match c with
  | .struct ms =>
    simp only [Call.Ok] at hc
    simp only [write, places]
    exact writeMembers_spec st path params ms hc.2
  | .list flattened item [] =>
    obtain hp | ⟨ms, hm⟩ := hp
    · simp [write, places, append_eq _ _ _ hp, writeElements, under]
    · simp at hm
  | .list flattened item (c :: cs) =>
    obtain hp | ⟨ms, hm⟩ := hp
    · simp only [Call.Ok] at hc
      simp only [write, places, List.length_cons, Nat.succ_ne_zero, if_false]
      exact writeElements_spec st flattened item 0 path params (c :: cs) hc.2 hp
    · simp at hm
  | .map flattened kn vn es =>
    obtain hp | ⟨ms, hm⟩ := hp
    · simp only [Call.Ok] at hc
      simp only [write, places]
      exact writeEntries_spec st flattened kn vn 0 path params es hc.2.2.2 hp
    · simp at hm
  | .null => simp [write, places]
  | .document => simp [Call.Ok] at hc
  | .boolean b =>
    obtain hp | ⟨ms, hm⟩ := hp
    · simp [write, places, append_eq _ _ _ hp, under]
    · simp at hm
  | .integer n =>
    obtain hp | ⟨ms, hm⟩ := hp
    · simp [write, places, append_eq _ _ _ hp, under]
    · simp at hm
  | .float x =>
    obtain hp | ⟨ms, hm⟩ := hp
    · simp [write, places, append_eq _ _ _ hp, under]
    · simp at hm
  | .bigDecimal x =>
    obtain hp | ⟨ms, hm⟩ := hp
    · simp [write, places, append_eq _ _ _ hp, under]
    · simp at hm
  | .string s =>
    obtain hp | ⟨ms, hm⟩ := hp
    · simp [write, places, append_eq _ _ _ hp, under]
    · simp at hm
  | .blob bs =>
    obtain hp | ⟨ms, hm⟩ := hp
    · simp [write, places, append_eq _ _ _ hp, under]
    · simp at hm
  | .timestamp trait value =>
    obtain hp | ⟨ms, hm⟩ := hp
    · simp [write, places, append_eq _ _ _ hp, under]
    · simp at hm
termination_by structural c
theorem writeMembers_spec (st : Settings F D T) (path : List Bytes) (params : List (Bytes × Bytes))
    (ms : List (Member × Call F D T)) (h : MembersOk ms) :
    writeMembers st path params ms = .ok (params ++ (placesMembers st ms).map (under path)) := by
  match ms with
  | [] => simp [writeMembers, placesMembers]
  | (m, c) :: ms =>
    simp only [MembersOk] at h
    simp only [writeMembers, placesMembers, 
      write_spec st (path ++ [resolveName m.xmlName m.name]) params c h.2.1 (.inl (by simp)),
      writeMembers_spec st path _ ms h.2.2]
    simp [under, resolveName_eq, Function.comp_def]
theorem writeElements_spec (st : Settings F D T) (flattened : Bool) (item : Option Bytes) (i : Nat)
    (path : List Bytes) (params : List (Bytes × Bytes)) (cs : List (Call F D T)) (h : ElementsOk cs)
    (hp : path ≠ []) :
    writeElements st flattened item i path params cs =
      .ok (params ++ (placesElements st flattened item i cs).map (under path)) := by
  match cs with
  | [] => simp [writeElements, placesElements]
  | c :: cs =>
    simp only [ElementsOk] at h
    simp only [writeElements, placesElements, 
      write_spec st (path ++ elementPath flattened item (i + 1)) params c h.1 (.inl (by simp [hp])),
      writeElements_spec st flattened item (i + 1) path _ cs h.2 hp]
    simp [under, Function.comp_def]
theorem writeEntries_spec (st : Settings F D T) (flattened : Bool) (kn vn : Option Bytes) (i : Nat)
    (path : List Bytes) (params : List (Bytes × Bytes)) (es : List (Bytes × Call F D T)) (h : EntriesOk es)
    (hp : path ≠ []) :
    writeEntries st flattened kn vn i path params es =
      .ok (params ++ (placesEntries st flattened kn vn i es).map (under path)) := by
  match es with
  | [] => simp [writeEntries, placesEntries]
  | (k, c) :: es =>
    simp only [EntriesOk] at h
    simp only [writeEntries, placesEntries,
      append_eq (path ++ entryPath flattened (i + 1) ++ [resolveName kn (asc "key")]) params k (by simp),
      write_spec st (path ++ entryPath flattened (i + 1) ++ [resolveName vn (asc "value")]) _ c h.1
        (.inl (by simp)), writeEntries_spec st flattened kn vn (i + 1) path _ es h.2 hp]
    simp [under, resolveName_eq, Function.comp_def]
end

/-! ## The places are those of the specification -/

theorem decimal_bytes_int (n : Int) :
    bytes (intText n) = if n < 0 then ch '-' :: decimal n.natAbs else decimal n.natAbs := by
  unfold intText bytes
  split <;> rfl

mutual
theorem mem_places (st : Settings F D T) (c : Call F D T) (p : List Bytes) (v : Bytes) :
    (p, v) ∈ places st c ↔ At st c p v := by
  match c with
  | .struct ms =>
    simp only [places, mem_placesMembers st ms p v]
    constructor
    · rintro ⟨m, c, q, hm, rfl, h⟩; exact .member hm h
    · intro h
      cases h with
      | scalar h => simp [scalarText] at h
      | member hm h => exact ⟨_, _, _, hm, rfl, h⟩
  | .list flattened item [] =>
    simp only [places, List.mem_singleton, Prod.mk.injEq]
    constructor
    · rintro ⟨rfl, rfl⟩; exact .empty
    · intro h
      cases h with
      | scalar h => simp [scalarText] at h
      | empty => simp
      | flatElement hi h => simp at hi
      | element hi h => simp at hi
  | .list flattened item (c :: cs) =>
    simp only [places, mem_placesElements st flattened item 0 (c :: cs) p v, Nat.zero_add]
    constructor
    · rintro ⟨j, e, q, hj, rfl, h⟩
      cases flattened
      · simpa [elementPath, resolveName_eq, index_eq] using At.element hj h
      · simpa [elementPath, resolveName_eq, index_eq] using At.flatElement hj h
    · intro h
      cases h with
      | scalar h => simp [scalarText] at h
      | flatElement hi h => exact ⟨_, _, _, hi, by simp [elementPath, index_eq], h⟩
      | element hi h => exact ⟨_, _, _, hi, by simp [elementPath, index_eq, resolveName_eq], h⟩
  | .map flattened kn vn es =>
    simp only [places, mem_placesEntries st flattened kn vn 0 es p v, Nat.zero_add]
    constructor
    · rintro ⟨j, k, e, hj, ⟨rfl, rfl⟩ | ⟨q, rfl, h⟩⟩
      · cases flattened
        · simpa [entryPath, index_eq] using At.key hj
        · simpa [entryPath, index_eq] using At.flatKey hj
      · cases flattened
        · simpa [entryPath, index_eq] using At.value hj h
        · simpa [entryPath, index_eq] using At.flatValue hj h
    · intro h
      cases h with
      | scalar h => simp [scalarText] at h
      | flatKey hi => exact ⟨_, _, _, hi, .inl (by simp [entryPath, index_eq])⟩
      | key hi => exact ⟨_, _, _, hi, .inl (by simp [entryPath, index_eq])⟩
      | flatValue hi h => exact ⟨_, _, _, hi, .inr ⟨_, by simp [entryPath, index_eq], h⟩⟩
      | value hi h => exact ⟨_, _, _, hi, .inr ⟨_, by simp [entryPath, index_eq], h⟩⟩
  | .null =>
    simp only [places, List.not_mem_nil, false_iff]
    intro h; cases h with | scalar h => simp [scalarText] at h
  | .document =>
    simp only [places, List.not_mem_nil, false_iff]
    intro h; cases h with | scalar h => simp [scalarText] at h
  | .boolean b =>
    simp only [places, List.mem_singleton, Prod.mk.injEq]
    constructor
    · rintro ⟨rfl, rfl⟩; exact .scalar (by cases b <;> rfl)
    · intro h; cases h with | scalar h => cases b <;> simpa [scalarText, eq_comm] using h
  | .integer n =>
    simp only [places, List.mem_singleton, Prod.mk.injEq, decimal_bytes_int]
    constructor
    · rintro ⟨rfl, rfl⟩; exact .scalar rfl
    · intro h; cases h with | scalar h => simpa [scalarText, eq_comm] using h
  | .float x =>
    simp only [places, List.mem_singleton, Prod.mk.injEq]
    constructor
    · rintro ⟨rfl, rfl⟩; exact .scalar rfl
    · intro h; cases h with | scalar h => simpa [scalarText, eq_comm] using h
  | .bigDecimal x =>
    simp only [places, List.mem_singleton, Prod.mk.injEq]
    constructor
    · rintro ⟨rfl, rfl⟩; exact .scalar rfl
    · intro h; cases h with | scalar h => simpa [scalarText, eq_comm] using h
  | .string s =>
    simp only [places, List.mem_singleton, Prod.mk.injEq]
    constructor
    · rintro ⟨rfl, rfl⟩; exact .scalar rfl
    · intro h; cases h with | scalar h => simpa [scalarText, eq_comm] using h
  | .blob bs =>
    simp only [places, List.mem_singleton, Prod.mk.injEq]
    constructor
    · rintro ⟨rfl, rfl⟩; exact .scalar rfl
    · intro h; cases h with | scalar h => simpa [scalarText, bytes, eq_comm] using h
  | .timestamp trait value =>
    simp only [places, List.mem_singleton, Prod.mk.injEq]
    constructor
    · rintro ⟨rfl, rfl⟩; exact .scalar (by cases trait <;> rfl)
    · intro h; cases h with | scalar h => cases trait <;> simpa [scalarText, eq_comm] using h
termination_by structural c
theorem mem_placesMembers (st : Settings F D T) (ms : List (Member × Call F D T)) (p : List Bytes) (v : Bytes) :
    (p, v) ∈ placesMembers st ms ↔
      ∃ m c q, (m, c) ∈ ms ∧ p = named m.xmlName m.name :: q ∧ At st c q v := by
  match ms with
  | [] => simp [placesMembers]
  | (m, c) :: ms =>
    simp only [placesMembers, List.mem_append, List.mem_map, Prod.mk.injEq, Prod.exists,
      mem_placesMembers st ms, List.mem_cons]
    constructor
    · rintro (⟨q, w, hq, rfl, rfl⟩ | ⟨m', c', q, hm, rfl, h⟩)
      · exact ⟨m, c, q, .inl ⟨rfl, rfl⟩, rfl, (mem_places st c q w).1 hq⟩
      · exact ⟨m', c', q, .inr hm, rfl, h⟩
    · rintro ⟨m', c', q, ⟨hm, hc⟩ | hm, rfl, h⟩
      · rw [hc] at h
        exact .inl ⟨q, v, (mem_places st c q v).2 h, by rw [hm], rfl⟩
      · exact .inr ⟨m', c', q, hm, rfl, h⟩
theorem mem_placesElements (st : Settings F D T) (flattened : Bool) (item : Option Bytes) (i : Nat)
    (cs : List (Call F D T)) (p : List Bytes) (v : Bytes) :
    (p, v) ∈ placesElements st flattened item i cs ↔
      ∃ j c q, cs[j]? = some c ∧ p = elementPath flattened item (i + j + 1) ++ q ∧ At st c q v := by
  match cs with
  | [] => simp [placesElements]
  | c :: cs =>
    simp only [placesElements, List.mem_append, List.mem_map, Prod.mk.injEq, Prod.exists,
      mem_placesElements st flattened item (i + 1) cs]
    constructor
    · rintro (⟨q, w, hq, rfl, rfl⟩ | ⟨j, c', q, hm, rfl, h⟩)
      · exact ⟨0, c, q, rfl, rfl, (mem_places st c q w).1 hq⟩
      · exact ⟨j + 1, c', q, hm, by rw [Nat.add_right_comm i 1 j]; rfl, h⟩
    · rintro ⟨j, c', q, hj, rfl, h⟩
      cases j with
      | zero =>
        simp only [List.getElem?_cons_zero, Option.some.injEq] at hj
        subst hj
        exact .inl ⟨q, v, (mem_places st c q v).2 h, rfl, rfl⟩
      | succ j => exact .inr ⟨j, c', q, by simpa using hj, by rw [Nat.add_right_comm i 1 j]; rfl, h⟩
theorem mem_placesEntries (st : Settings F D T) (flattened : Bool) (kn vn : Option Bytes) (i : Nat)
    (es : List (Bytes × Call F D T)) (p : List Bytes) (v : Bytes) :
    (p, v) ∈ placesEntries st flattened kn vn i es ↔
      ∃ j k c, es[j]? = some (k, c) ∧
        ((p = entryPath flattened (i + j + 1) ++ [named kn (asc "key")] ∧ v = k) ∨
          ∃ q, p = entryPath flattened (i + j + 1) ++ named vn (asc "value") :: q ∧ At st c q v) := by
  match es with
  | [] => simp [placesEntries]
  | (k, c) :: es =>
    simp only [placesEntries, List.mem_append, List.mem_map, Prod.mk.injEq, Prod.exists, List.mem_cons,
      mem_placesEntries st flattened kn vn (i + 1) es]
    constructor
    · rintro (⟨rfl, rfl⟩ | ⟨q, w, hq, rfl, rfl⟩ | ⟨j, k', c', hj, h⟩)
      · exact ⟨0, v, c, rfl, .inl ⟨rfl, rfl⟩⟩
      · exact ⟨0, k, c, rfl, .inr ⟨q, rfl, (mem_places st c q w).1 hq⟩⟩
      · exact ⟨j + 1, k', c', hj, by rw [Nat.add_right_comm i 1 j] at h; exact h⟩
    · rintro ⟨j, k', c', hj, h⟩
      cases j with
      | zero =>
        simp only [List.getElem?_cons_zero, Option.some.injEq, Prod.mk.injEq] at hj
        obtain ⟨rfl, rfl⟩ := hj
        obtain ⟨rfl, rfl⟩ | ⟨q, rfl, h⟩ := h
        · exact .inl ⟨rfl, rfl⟩
        · exact .inr (.inl ⟨q, v, (mem_places st c q v).2 h, rfl, rfl⟩)
      | succ j =>
        refine .inr (.inr ⟨j, k', c', by simpa using hj, ?_⟩)
        rw [Nat.add_right_comm i 1 j]; exact h
end

/-! ## No two scalars have the same key -/

theorem ch_ascii : ∀ m < 128, ∀ n < 128, UInt8.ofNat m = UInt8.ofNat n → m = n := by
  intro m hm n hn h
  have := congrArg UInt8.toNat h
  simp only [UInt8.toNat_ofNat'] at this
  omega

theorem decimal_plain (n : Nat) : Plain (decimal n) := by
  intro h
  obtain ⟨c, hc, he⟩ := List.mem_map.1 h
  have hd := Nat.isDigit_of_mem_toDigits (by decide) (by decide) hc
  have hlt : c.toNat ≤ 57 ∧ 48 ≤ c.toNat := by
    simp only [Char.isDigit, Bool.and_eq_true, decide_eq_true_eq] at hd
    exact ⟨hd.2, hd.1⟩
  have := ch_ascii _ (by omega) _ (by decide : ('.').toNat < 128) he
  have h2 : ('.').toNat = 46 := rfl
  omega

theorem bytes_inj : ∀ a b : List Char, (∀ c ∈ a, c.toNat < 128) → (∀ c ∈ b, c.toNat < 128) →
    a.map (fun c => UInt8.ofNat c.toNat) = b.map (fun c => UInt8.ofNat c.toNat) → a = b
  | [], [], _, _, _ => rfl
  | [], _ :: _, _, _, h => by simp at h
  | _ :: _, [], _, _, h => by simp at h
  | x :: a, y :: b, ha, hb, h => by
    simp only [List.map_cons, List.cons.injEq] at h
    rw [bytes_inj a b (fun c hc => ha c (by simp [hc])) (fun c hc => hb c (by simp [hc])) h.2]
    have := ch_ascii _ (ha x (by simp)) _ (hb y (by simp)) h.1
    rw [Char.toNat_inj.1 this]

theorem digits_small (n : Nat) : ∀ c ∈ Nat.toDigits 10 n, c.toNat < 128 := by
  intro c hc
  have hd := Nat.isDigit_of_mem_toDigits (by decide) (by decide) hc
  simp only [Char.isDigit, Bool.and_eq_true, decide_eq_true_eq] at hd
  have : c.toNat ≤ 57 := hd.2
  omega

theorem decimal_inj {m n : Nat} (h : decimal m = decimal n) : m = n :=
  natText_inj (bytes_inj _ _ (digits_small m) (digits_small n) h)

theorem elementPath_append_inj {flattened : Bool} {item : Option Bytes} {i j : Nat} {p q : List Bytes}
    (h : elementPath flattened item i ++ p = elementPath flattened item j ++ q) : i = j ∧ p = q := by
  cases flattened <;>
    · simp [elementPath, index_eq] at h
      exact ⟨decimal_inj h.1, h.2⟩

theorem entryPath_append_inj {flattened : Bool} {i j : Nat} {p q : List Bytes}
    (h : entryPath flattened i ++ p = entryPath flattened j ++ q) : i = j ∧ p = q := by
  cases flattened <;>
    · simp [entryPath, index_eq] at h
      exact ⟨decimal_inj h.1, h.2⟩

mutual
theorem places_nodup (st : Settings F D T) (c : Call F D T) (hc : c.Ok) : ((places st c).map Prod.fst).Nodup := by
  match c with
  | .struct ms =>
    simp only [Call.Ok] at hc
    simp only [places]
    exact placesMembers_nodup st ms hc.1 hc.2
  | .list flattened item [] => simp [places]
  | .list flattened item (c :: cs) =>
    simp only [Call.Ok] at hc
    simp only [places]
    exact placesElements_nodup st flattened item 0 (c :: cs) hc.2
  | .map flattened kn vn es =>
    simp only [Call.Ok] at hc
    simp only [places]
    exact placesEntries_nodup st flattened kn vn 0 es hc.2.2.1 hc.2.2.2
  | .null => simp [places]
  | .document => simp [places]
  | .boolean b => simp [places]
  | .integer n => simp [places]
  | .float x => simp [places]
  | .bigDecimal x => simp [places]
  | .string s => simp [places]
  | .blob bs => simp [places]
  | .timestamp trait value => simp [places]
termination_by structural c
theorem placesMembers_nodup (st : Settings F D T) (ms : List (Member × Call F D T))
    (hn : (ms.map fun e => named e.1.xmlName e.1.name).Nodup) (h : MembersOk ms) :
    ((placesMembers st ms).map Prod.fst).Nodup := by
  match ms with
  | [] => simp [placesMembers]
  | (m, c) :: ms =>
    simp only [MembersOk] at h
    rw [List.map_cons, List.nodup_cons] at hn
    simp only [placesMembers, List.map_append, List.map_map, Function.comp_def]
    refine List.Nodup.append ?_ (placesMembers_nodup st ms hn.2 h.2.2) ?_
    · have := (places_nodup st c h.2.1).map (f := fun q => named m.xmlName m.name :: q)
        fun a b hab => (List.cons.inj hab).2
      simpa [Function.comp_def] using this
    · intro p hp hp'
      obtain ⟨e, -, rfl⟩ := List.mem_map.1 hp
      obtain ⟨⟨p', v⟩, he, hpe⟩ := List.mem_map.1 hp'
      obtain ⟨m', c', q, hm, rfl, -⟩ := (mem_placesMembers st ms p' v).1 he
      apply hn.1
      rw [← (List.cons.inj hpe).1]
      exact List.mem_map.2 ⟨(m', c'), hm, rfl⟩
theorem placesElements_nodup (st : Settings F D T) (flattened : Bool) (item : Option Bytes) (i : Nat)
    (cs : List (Call F D T)) (h : ElementsOk cs) :
    ((placesElements st flattened item i cs).map Prod.fst).Nodup := by
  match cs with
  | [] => simp [placesElements]
  | c :: cs =>
    simp only [ElementsOk] at h
    simp only [placesElements, List.map_append, List.map_map, Function.comp_def]
    refine List.Nodup.append ?_ (placesElements_nodup st flattened item (i + 1) cs h.2) ?_
    · have := (places_nodup st c h.1).map (f := fun q => elementPath flattened item (i + 1) ++ q)
        fun a b hab => List.append_cancel_left hab
      simpa [Function.comp_def] using this
    · intro p hp hp'
      obtain ⟨e, -, rfl⟩ := List.mem_map.1 hp
      obtain ⟨⟨p', v⟩, he, hpe⟩ := List.mem_map.1 hp'
      obtain ⟨j, c', q, hm, rfl, -⟩ := (mem_placesElements st flattened item (i + 1) cs p' v).1 he
      have := (elementPath_append_inj hpe).1
      omega
theorem placesEntries_nodup (st : Settings F D T) (flattened : Bool) (kn vn : Option Bytes) (i : Nat)
    (es : List (Bytes × Call F D T)) (hkv : named kn (asc "key") ≠ named vn (asc "value")) (h : EntriesOk es) :
    ((placesEntries st flattened kn vn i es).map Prod.fst).Nodup := by
  match es with
  | [] => simp [placesEntries]
  | (k, c) :: es =>
    simp only [EntriesOk] at h
    simp only [placesEntries, List.map_append, List.map_map, Function.comp_def, List.map_cons, List.nodup_cons,
      List.mem_append, not_or]
    refine ⟨⟨?_, ?_⟩, List.Nodup.append ?_ (placesEntries_nodup st flattened kn vn (i + 1) es hkv h.2) ?_⟩
    · intro hp
      obtain ⟨e, -, he⟩ := List.mem_map.1 hp
      have := (entryPath_append_inj he).2
      exact hkv (List.cons.inj this).1.symm
    · intro hp
      obtain ⟨⟨p', v⟩, he, hpe⟩ := List.mem_map.1 hp
      obtain ⟨j, k', c', -, ⟨rfl, -⟩ | ⟨q, rfl, -⟩⟩ := (mem_placesEntries st flattened kn vn (i + 1) es p' v).1 he
      · have := (entryPath_append_inj hpe).1; omega
      · have := (entryPath_append_inj hpe).1; omega
    · have := (places_nodup st c h.1).map
        (f := fun q => entryPath flattened (i + 1) ++ named vn (asc "value") :: q)
        fun a b hab => (List.cons.inj (List.append_cancel_left hab)).2
      simpa [Function.comp_def] using this
    · intro p hp hp'
      obtain ⟨e, -, rfl⟩ := List.mem_map.1 hp
      obtain ⟨⟨p', v⟩, he, hpe⟩ := List.mem_map.1 hp'
      obtain ⟨j, k', c', -, ⟨rfl, -⟩ | ⟨q, rfl, -⟩⟩ := (mem_placesEntries st flattened kn vn (i + 1) es p' v).1 he
      · have := (entryPath_append_inj hpe).1; omega
      · have := (entryPath_append_inj hpe).1; omega
end

theorem entry_plain : Plain (asc "entry") := by unfold Plain; decide

mutual
theorem places_plain (st : Settings F D T) (c : Call F D T) (hc : c.Ok) :
    ∀ e ∈ places st c, ∀ n ∈ e.1, Plain n := by
  match c with
  | .struct ms =>
    simp only [Call.Ok] at hc
    simp only [places]
    exact placesMembers_plain st ms hc.2
  | .list flattened item [] => simp [places]
  | .list flattened item (c :: cs) =>
    simp only [Call.Ok] at hc
    simp only [places]
    exact placesElements_plain st flattened item 0 (c :: cs) hc.1 hc.2
  | .map flattened kn vn es =>
    simp only [Call.Ok] at hc
    simp only [places]
    exact placesEntries_plain st flattened kn vn 0 es hc.1 hc.2.1 hc.2.2.2
  | .null => simp [places]
  | .document => simp [places]
  | .boolean b => simp [places]
  | .integer n => simp [places]
  | .float x => simp [places]
  | .bigDecimal x => simp [places]
  | .string s => simp [places]
  | .blob bs => simp [places]
  | .timestamp trait value => simp [places]
termination_by structural c
theorem placesMembers_plain (st : Settings F D T) (ms : List (Member × Call F D T)) (h : MembersOk ms) :
    ∀ e ∈ placesMembers st ms, ∀ n ∈ e.1, Plain n := by
  match ms with
  | [] => simp [placesMembers]
  | (m, c) :: ms =>
    simp only [MembersOk] at h
    simp only [placesMembers, List.mem_append, List.mem_map]
    rintro e (⟨e', he, rfl⟩ | he) n hn
    · rcases List.mem_cons.1 hn with rfl | hn
      · exact h.1
      · exact places_plain st c h.2.1 e' he n hn
    · exact placesMembers_plain st ms h.2.2 e he n hn
theorem placesElements_plain (st : Settings F D T) (flattened : Bool) (item : Option Bytes) (i : Nat)
    (cs : List (Call F D T)) (hi : Plain (named item (asc "member"))) (h : ElementsOk cs) :
    ∀ e ∈ placesElements st flattened item i cs, ∀ n ∈ e.1, Plain n := by
  match cs with
  | [] => simp [placesElements]
  | c :: cs =>
    simp only [ElementsOk] at h
    simp only [placesElements, List.mem_append, List.mem_map]
    rintro e (⟨e', he, rfl⟩ | he) n hn
    · rcases List.mem_append.1 hn with hn | hn
      · cases flattened
        · simp only [elementPath, Bool.false_eq_true, if_false, List.mem_cons, List.not_mem_nil, or_false,
            resolveName_eq, index_eq] at hn
          rcases hn with rfl | rfl
          · exact hi
          · exact decimal_plain _
        · simp only [elementPath, if_true, List.mem_singleton, index_eq] at hn
          rw [hn]; exact decimal_plain _
      · exact places_plain st c h.1 e' he n hn
    · exact placesElements_plain st flattened item (i + 1) cs hi h.2 e he n hn
theorem placesEntries_plain (st : Settings F D T) (flattened : Bool) (kn vn : Option Bytes) (i : Nat)
    (es : List (Bytes × Call F D T)) (hk : Plain (named kn (asc "key"))) (hv : Plain (named vn (asc "value")))
    (h : EntriesOk es) : ∀ e ∈ placesEntries st flattened kn vn i es, ∀ n ∈ e.1, Plain n := by
  match es with
  | [] => simp [placesEntries]
  | (k, c) :: es =>
    have hpath : ∀ n ∈ entryPath flattened (i + 1), Plain n := by
      intro n hn
      cases flattened
      · simp only [entryPath, Bool.false_eq_true, if_false, List.mem_cons, List.not_mem_nil, or_false,
          index_eq] at hn
        rcases hn with rfl | rfl
        · exact entry_plain
        · exact decimal_plain _
      · simp only [entryPath, if_true, List.mem_singleton, index_eq] at hn
        rw [hn]; exact decimal_plain _
    simp only [EntriesOk] at h
    simp only [placesEntries, List.mem_append, List.mem_map, List.mem_cons]
    rintro e (rfl | ⟨e', he, rfl⟩ | he) n hn
    · rcases List.mem_append.1 hn with hn | hn
      · exact hpath n hn
      · rw [List.mem_singleton.1 hn]; exact hk
    · rcases List.mem_append.1 hn with hn | hn
      · exact hpath n hn
      · rcases List.mem_cons.1 hn with rfl | hn
        · exact hv
        · exact places_plain st c h.1 e' he n hn
    · exact placesEntries_plain st flattened kn vn (i + 1) es hk hv h.2 e he n hn
end

theorem join_inj {p q : List Bytes} (hp : p ≠ []) (hq : q ≠ []) (hp' : ∀ n ∈ p, Plain n)
    (hq' : ∀ n ∈ q, Plain n) (h : join (ch '.') p = join (ch '.') q) : p = q := by
  rw [← split_join (ch '.') p hp hp', h, split_join (ch '.') q hq hq']

theorem struct_path_ne (st : Settings F D T) (ms : List (Member × Call F D T)) :
    ∀ e ∈ places st (.struct ms), e.1 ≠ [] := by
  rintro ⟨p, v⟩ he
  simp only [places] at he
  obtain ⟨m, c, q, -, rfl, -⟩ := (mem_placesMembers st ms p v).1 he
  simp

/-! ## Theorems -/

/-- The parameters of a structure: a parameter for each scalar, named by its path, joined by dots, and
nothing else. -/
theorem C46_parameters (st : Settings F D T) (ms : List (Member × Call F D T))
    (h : (Call.struct ms).Ok) : ∃ params, write st [] [] (.struct ms) = .ok params ∧
      (∀ k v, (k, v) ∈ params ↔ ∃ p, At st (.struct ms) p v ∧ k = join (ch '.') p) ∧
      (params.map Prod.fst).Nodup := by
  refine ⟨_, write_spec st [] [] (.struct ms) h (.inr ⟨ms, rfl⟩), ?_, ?_⟩
  · intro k v
    simp only [List.nil_append, List.mem_map, Prod.exists, under, Prod.mk.injEq]
    constructor
    · rintro ⟨p, v, hm, rfl, rfl⟩; exact ⟨p, (mem_places st _ p v).1 hm, rfl⟩
    · rintro ⟨p, hm, rfl⟩; exact ⟨p, v, (mem_places st _ p v).2 hm, rfl, rfl⟩
  · have hn := places_nodup st _ h
    have := List.Nodup.map_on (f := join (ch '.')) (l := (places st (.struct ms)).map Prod.fst) (by
      intro a ha b hb hab
      obtain ⟨x, hx, rfl⟩ := List.mem_map.1 ha
      obtain ⟨y, hy, rfl⟩ := List.mem_map.1 hb
      exact join_inj (struct_path_ne st ms x hx) (struct_path_ne st ms y hy)
        (places_plain st _ h x hx) (places_plain st _ h y hy) hab) hn
    simpa [under, Function.comp_def] using this

/-- The path of a scalar can be read off its key. -/
theorem C46_path (st : Settings F D T) (ms : List (Member × Call F D T)) (h : (Call.struct ms).Ok)
    (p : List Bytes) (v : Bytes) (hp : At st (.struct ms) p v) : split (ch '.') (join (ch '.') p) = p := by
  have hm := (mem_places st _ p v).2 hp
  exact split_join _ _ (struct_path_ne st ms _ hm) (places_plain st _ h _ hm)

theorem parse_pair (k v : Bytes) :
    parseParam (quote querySafe k ++ [ch '='] ++ quote querySafe v) = (k, some v) := by
  have h : quote querySafe k ++ [ch '='] ++ quote querySafe v = quote querySafe k ++ ch '=' :: quote querySafe v := by
    simp
  rw [h, parseParam, cut_append _ _ _ (not_mem_quote querySafe k _ (by decide) (by decide) (by decide))]
  simp [unquote_quote querySafe (by decide)]

/-- A form body decodes to the pairs it was made from, in order. -/
theorem C46_decodes (action version : Bytes) (params : List (Bytes × Bytes)) :
    parseQuery (flush (some action) (some version) params) =
      (asc "Action", some action) :: (asc "Version", some version) :: params.map fun p => (p.1, some p.2) := by
  unfold flush
  have hne : withAction (some action) (some version) params ≠ [] := by simp [withAction]
  generalize hps : withAction (some action) (some version) params = ps at hne
  have hj : join (ch '&') (ps.map fun p => quote querySafe p.1 ++ [ch '='] ++ quote querySafe p.2) ≠ [] := by
    cases ps with
    | nil => exact absurd rfl hne
    | cons p ps => cases ps <;> simp [join]
  rw [parseQuery, if_neg hj, split_join _ _ (by simpa using hne)]
  · rw [List.map_map]
    have : (parseParam ∘ fun p : Bytes × Bytes => quote querySafe p.1 ++ [ch '='] ++ quote querySafe p.2) =
        fun p => (p.1, some p.2) := by
      funext p; exact parse_pair p.1 p.2
    rw [this, ← hps]
    simp [withAction]
  · intro t ht
    obtain ⟨p, -, rfl⟩ := List.mem_map.1 ht
    simp only [List.mem_append, List.mem_singleton, not_or]
    exact ⟨⟨not_mem_quote _ _ _ (by decide) (by decide) (by decide), by decide⟩,
      not_mem_quote _ _ _ (by decide) (by decide) (by decide)⟩

/-- The request: the body starts with action and version, then has one pair for each scalar, and the
content length is its number of bytes. -/
theorem C46_request (st : Settings F D T) (operation version : Bytes) (ms : List (Member × Call F D T))
    (h : (Call.struct ms).Ok) : ∃ (req : Request) (pairs : List (Bytes × Bytes)), serializeRequest st operation version (.struct ms) = .ok req ∧
      parseQuery req.body = (asc "Action", some operation) :: (asc "Version", some version) ::
        pairs.map (fun p => (p.1, some p.2)) ∧
      (∀ k v, (k, v) ∈ pairs ↔ ∃ p, At st (.struct ms) p v ∧ k = join (ch '.') p) ∧
      (pairs.map Prod.fst).Nodup ∧
      req.method = asc "POST" ∧ req.path = asc "/" ∧
      req.fields = [(asc "content-type", asc "application/x-www-form-urlencoded"),
        (asc "content-length", decimal req.body.length)] := by
  obtain ⟨params, hw, hm, hn⟩ := C46_parameters st ms h
  refine ⟨_, params, by rw [serializeRequest, hw], ?_, hm, hn, rfl, rfl, rfl⟩
  exact C46_decodes operation version params

/-- If no member of the input is called `Action` or `Version`, no scalar has such a key. -/
theorem C46_no_clash (st : Settings F D T) (ms : List (Member × Call F D T)) (h : (Call.struct ms).Ok)
    (hr : ∀ e ∈ ms, named e.1.xmlName e.1.name ≠ asc "Action" ∧ named e.1.xmlName e.1.name ≠ asc "Version")
    (p : List Bytes) (v : Bytes) (hp : At st (.struct ms) p v) :
    join (ch '.') p ≠ asc "Action" ∧ join (ch '.') p ≠ asc "Version" := by
  have hsplit := C46_path st ms h p v hp
  cases hp with
  | scalar hs => simp [scalarText] at hs
  | @member _ m c q _ hm _ =>
    have := hr _ hm
    constructor <;> intro hj <;> rw [hj] at hsplit
    · have h2 : split (ch '.') (asc "Action") = [asc "Action"] := by decide
      rw [h2] at hsplit
      exact this.1 (List.cons.inj hsplit).1.symm
    · have h2 : split (ch '.') (asc "Version") = [asc "Version"] := by decide
      rw [h2] at hsplit
      exact this.2 (List.cons.inj hsplit).1.symm

mutual
/-- There is a document somewhere. -/
def Call.hasDocument : Call F D T → Bool
  | .document => true
  | .struct ms => membersHave ms
  | .list _ _ es => elementsHave es
  | .map _ _ _ es => entriesHave es
  | _ => false
termination_by structural c => c
def membersHave : List (Member × Call F D T) → Bool
  | [] => false
  | (_, c) :: ms => c.hasDocument || membersHave ms
def elementsHave : List (Call F D T) → Bool
  | [] => false
  | c :: cs => c.hasDocument || elementsHave cs
def entriesHave : List (Bytes × Call F D T) → Bool
  | [] => false
  | (_, c) :: es => c.hasDocument || entriesHave es
end

mutual
theorem write_document (st : Settings F D T) (path : List Bytes) (params : List (Bytes × Bytes))
    (c : Call F D T) (hc : c.hasDocument = true) : ∀ r, write st path params c ≠ .ok r := by
  match c with
  | .document => intro r h; simp [write] at h
  | .struct ms =>
    simp only [Call.hasDocument] at hc
    simp only [write]
    exact writeMembers_document st path params ms hc
  | .list flattened item es =>
    simp only [Call.hasDocument] at hc
    simp only [write]
    intro r
    cases (if es.length = 0 then append path params [] else .ok params) with
    | error err => simp
    | ok params' => exact writeElements_document st flattened item 0 path params' es hc r
  | .map flattened kn vn es =>
    simp only [Call.hasDocument] at hc
    simp only [write]
    exact writeEntries_document st flattened kn vn 0 path params es hc
  | .null => simp [Call.hasDocument] at hc
  | .boolean b => simp [Call.hasDocument] at hc
  | .integer n => simp [Call.hasDocument] at hc
  | .float x => simp [Call.hasDocument] at hc
  | .bigDecimal x => simp [Call.hasDocument] at hc
  | .string s => simp [Call.hasDocument] at hc
  | .blob bs => simp [Call.hasDocument] at hc
  | .timestamp trait value => simp [Call.hasDocument] at hc
termination_by structural c
theorem writeMembers_document (st : Settings F D T) (path : List Bytes) (params : List (Bytes × Bytes))
    (ms : List (Member × Call F D T)) (h : membersHave ms = true) :
    ∀ r, writeMembers st path params ms ≠ .ok r := by
  match ms with
  | [] => simp [membersHave] at h
  | (m, c) :: ms =>
    simp only [membersHave, Bool.or_eq_true] at h
    intro r
    simp only [writeMembers]
    have h1 := write_document st (path ++ [resolveName m.xmlName m.name]) params c
    cases hw : write st (path ++ [resolveName m.xmlName m.name]) params c with
    | error err => simp
    | ok params' =>
      rcases h with h | h
      · exact absurd hw (h1 h params')
      · exact writeMembers_document st path params' ms h r
theorem writeElements_document (st : Settings F D T) (flattened : Bool) (item : Option Bytes) (i : Nat)
    (path : List Bytes) (params : List (Bytes × Bytes)) (cs : List (Call F D T)) (h : elementsHave cs = true) :
    ∀ r, writeElements st flattened item i path params cs ≠ .ok r := by
  match cs with
  | [] => simp [elementsHave] at h
  | c :: cs =>
    simp only [elementsHave, Bool.or_eq_true] at h
    intro r
    simp only [writeElements]
    have h1 := write_document st (path ++ elementPath flattened item (i + 1)) params c
    cases hw : write st (path ++ elementPath flattened item (i + 1)) params c with
    | error err => simp
    | ok params' =>
      rcases h with h | h
      · exact absurd hw (h1 h params')
      · exact writeElements_document st flattened item (i + 1) path params' cs h r
theorem writeEntries_document (st : Settings F D T) (flattened : Bool) (kn vn : Option Bytes) (i : Nat)
    (path : List Bytes) (params : List (Bytes × Bytes)) (es : List (Bytes × Call F D T))
    (h : entriesHave es = true) : ∀ r, writeEntries st flattened kn vn i path params es ≠ .ok r := by
  match es with
  | [] => simp [entriesHave] at h
  | (k, c) :: es =>
    simp only [entriesHave, Bool.or_eq_true] at h
    intro r
    simp only [writeEntries]
    cases append (path ++ entryPath flattened (i + 1) ++ [resolveName kn (asc "key")]) params k with
    | error err => simp
    | ok params' =>
      have h1 := write_document st (path ++ entryPath flattened (i + 1) ++ [resolveName vn (asc "value")]) params' c
      cases hw : write st (path ++ entryPath flattened (i + 1) ++ [resolveName vn (asc "value")]) params' c with
      | error err => simp only [hw]; simp
      | ok params'' =>
        simp only [hw]
        rcases h with h | h
        · exact absurd hw (h1 h params'')
        · exact writeEntries_document st flattened kn vn (i + 1) path params'' es h r
end

/-- An input with a document anywhere in it is refused. -/
theorem C46_document (st : Settings F D T) (operation version : Bytes) (c : Call F D T)
    (h : c.hasDocument = true) : ∃ err, serializeRequest st operation version c = .error err := by
  cases hw : write st [] [] c with
  | error err => exact ⟨err, by rw [serializeRequest, hw]⟩
  | ok r => exact absurd hw (write_document st [] [] c h r)

/-! ## The hypotheses are met -/

section Examples

def demo : Settings Unit Unit Unit := ⟨.dateTime, fun _ => [], fun _ => [], fun _ _ => asc "t"⟩

def m (n : String) : Member := ⟨asc n, none⟩

/-- `{Name: "a b", Ids: [7, null, -1], Tags (flattened): {"k": "v"}, None: []}`. -/
def input : Call Unit Unit Unit :=
  .struct [(m "Name", .string (asc "a b")),
    (⟨asc "Ids", some (asc "Id")⟩, .list false (some (asc "item")) [.integer 7, .null, .integer (-1)]),
    (m "Tags", .map true none (some (asc "Value")) [(asc "k", .string (asc "v"))]),
    (m "None", .list false none [])]

example : input.Ok := by
  refine ⟨by decide, ?_⟩
  refine ⟨by unfold Plain; decide, trivial, by unfold Plain; decide, ⟨by unfold Plain; decide, ?_⟩, by unfold Plain; decide, ⟨?_, ?_, by decide, ?_⟩,
    by unfold Plain; decide, ⟨?_, trivial⟩, trivial⟩
  · exact ⟨trivial, trivial, trivial, trivial⟩
  · unfold Plain; decide
  · unfold Plain; decide
  · exact ⟨trivial, trivial⟩
  · unfold Plain; decide

example : (serializeRequest demo (asc "Op") (asc "1") input).map Request.body =
    .ok (asc "Action=Op&Version=1&Name=a%20b&Id.item.1=7&Id.item.3=-1&Tags.1.key=k&Tags.1.Value=v&None=") := by
  decide +kernel

example : (Call.struct [(m "D", .list false none [.document])] : Call Unit Unit Unit).hasDocument = true := rfl

end Examples

/-! ## What does not hold -/

/-- A member called `Action` makes a second `Action`, with a value chosen by the caller. -/
theorem C46_reserved_fails :
    (serializeRequest demo (asc "Op") (asc "1") (.struct [(m "Action", .string (asc "Other"))])).map
      (fun r => parseQuery r.body) =
    .ok [(asc "Action", some (asc "Op")), (asc "Version", some (asc "1")), (asc "Action", some (asc "Other"))] := by
  decide +kernel

/-- With dots in names two scalars can have the same key. -/
theorem C46_dots_fails :
    write demo [] [] (.struct [(⟨asc "A", some (asc "A.B")⟩, .integer 1),
      (m "A", .struct [(m "B", .integer 2)])]) = .ok [(asc "A.B", asc "1"), (asc "A.B", asc "2")] := by
  decide +kernel

end Verif.AwsQuery

import Verif.AwsQuery.Props
import Mathlib.Data.List.Nodup
import Mathlib.Data.List.Perm.Subperm
import Mathlib.Tactic.Common

/-!
# A service can read a query request back (C93)

`Verif/AwsQuery/Props.lean` says which parameters a request has (C46).  Here a service reads them: it looks
up the parameters by name, following the model of the operation, and gets the input the request was made from.
The reader is specification; the requests are those of `serializeRequest` (`Verif/AwsQuery/Model.lean`).
-/

set_option autoImplicit false

namespace Verif.AwsQuery.RoundTrip

open Verif.Uri Verif.Text Verif.AwsQuery Verif.Numerals
open Verif.Json (Format)

variable {F D T ι : Type}

/-! ## Specification: a service -/

/-- Shapes of the model of a service: structures are named, so that they can be recursive. -/
inductive Shape (ι : Type) where
  | boolean | integer | float | bigDecimal | string | blob
  | timestamp (trait : Option Format)
  | struct (name : ι)
  | list (flattened : Bool) (item : Option Bytes) (element : Shape ι)
  | map (flattened : Bool) (keyName valueName : Option Bytes) (value : Shape ι)

/-- The members of the structures. -/
abbrev Structures (ι : Type) := ι → List (Member × Shape ι)

/-- How a service reads the texts of floats, decimals and timestamps. -/
structure Texts (F D T : Type) where
  float : Bytes → Option F
  decimal : Bytes → Option D
  stamp : Format → Bytes → Option T

/-- Parameters: the names separated by dots, and the value. -/
abbrev Pairs := List (List Bytes × Bytes)

/-- The parameters whose first name is this one, without it. -/
def sub (name : Bytes) : Pairs → Pairs
  | [] => []
  | ([], _) :: ps => sub name ps
  | (n :: p, v) :: ps => if n = name then (p, v) :: sub name ps else sub name ps

/-- The value of the parameter without further names. -/
def valueAt : Pairs → Option Bytes
  | [] => none
  | ([], v) :: _ => some v
  | (_ :: _, _) :: ps => valueAt ps

/-- Reading what is there. -/
def given {α : Type} (rd : Pairs → Option α) (ps : Pairs) : Option α := if ps.isEmpty then none else rd ps

/-- Bytes as ASCII text. -/
def text (t : Bytes) : List Char := t.map fun b => Char.ofNat b.toNat

def readBoolean (t : Bytes) : Option Bool :=
  if t = asc "true" then some true else if t = asc "false" then some false else none

/-- The elements numbered 1, 2, and so on. -/
def readNumbered {α : Type} (rd : Pairs → Option α) (ps : Pairs) : List α :=
  (List.range ps.length).filterMap fun i => given rd (sub (decimal (i + 1)) ps)

/-- A key and its value, null if there is none. -/
def readEntry (rd : Pairs → Option (Call F D T)) (keyName valueName : Option Bytes) (ps : Pairs) :
    Option (Bytes × Call F D T) :=
  (valueAt (sub (named keyName (asc "key")) ps)).map fun k =>
    (k, (given rd (sub (named valueName (asc "value")) ps)).getD .null)

/-- The members there are parameters for. -/
def readMembers (rd : Shape ι → Pairs → Option (Call F D T)) (members : List (Member × Shape ι)) (ps : Pairs) :
    List (Member × Call F D T) :=
  members.filterMap fun m => (given (rd m.2) (sub (named m.1.xmlName m.1.name) ps)).map fun c => (m.1, c)

/-- Reading a value of a shape, structures nested no deeper than the number. -/
def read (tx : Texts F D T) (defaultFormat : Format) (structures : Structures ι) :
    Nat → Shape ι → Pairs → Option (Call F D T)
  | 0, _, _ => none
  | n + 1, s, ps =>
    match s with
    | .boolean => ((valueAt ps).bind readBoolean).map .boolean
    | .integer => (valueAt ps).map fun v => .integer (intValue (text v))
    | .float => ((valueAt ps).bind tx.float).map .float
    | .bigDecimal => ((valueAt ps).bind tx.decimal).map .bigDecimal
    | .string => (valueAt ps).map .string
    | .blob => ((valueAt ps).bind fun v => Base64.decode (text v)).map .blob
    | .timestamp trait =>
      ((valueAt ps).bind (tx.stamp (trait.getD defaultFormat))).map (.timestamp trait)
    | .struct i => some (.struct (readMembers (read tx defaultFormat structures n) (structures i) ps))
    | .list flattened item e =>
      match valueAt ps with
      | some _ => some (.list flattened item [])
      | none => some (.list flattened item (readNumbered (read tx defaultFormat structures n e)
          (if flattened then ps else sub (named item (asc "member")) ps)))
    | .map flattened kn vn e =>
      some (.map flattened kn vn (readNumbered (readEntry (read tx defaultFormat structures n e) kn vn)
        (if flattened then ps else sub (asc "entry") ps)))

/-- What a service makes of a body: action, version and input. -/
def service (tx : Texts F D T) (defaultFormat : Format) (structures : Structures ι) (depth : Nat) (input : ι)
    (pairs : List (Bytes × Option Bytes)) : Option (Bytes × Bytes × Call F D T) :=
  let ps : Pairs := pairs.filterMap fun p => p.2.map fun v => (split (ch '.') p.1, v)
  match valueAt (sub (asc "Action") ps), valueAt (sub (asc "Version") ps),
    read tx defaultFormat structures depth (.struct input) ps with
  | some a, some v, some c => some (a, v, c)
  | _, _, _ => none

/-! ## Specification: inputs -/

/-- Names have no dots, and those of key and value differ. -/
def Shape.Ok : Shape ι → Prop
  | .list _ item e => Plain (named item (asc "member")) ∧ e.Ok
  | .map _ kn vn e => Plain (named kn (asc "key")) ∧ Plain (named vn (asc "value")) ∧
      named kn (asc "key") ≠ named vn (asc "value") ∧ e.Ok
  | _ => True

/-- Members of a structure have different names, without dots. -/
def StructuresOk (structures : Structures ι) : Prop :=
  ∀ i, ((structures i).map fun m => named m.1.xmlName m.1.name).Nodup ∧
    ∀ m ∈ structures i, Plain (named m.1.xmlName m.1.name) ∧ m.2.Ok

/-- Values with something to write: not null, nor a structure or map with nothing in it. -/
def shows : Call F D T → Bool
  | .null => false
  | .struct [] => false
  | .map _ _ _ [] => false
  | _ => true

/-- Values of a shape in which every member and element has something to write, and floats, decimals and times have
texts that the service reads; the values of maps may also be null.  Members are written in the order of the model. -/
inductive Readable (st : Settings F D T) (tx : Texts F D T) (structures : Structures ι) : Shape ι → Call F D T → Prop
  | boolean (b) : Readable st tx structures .boolean (.boolean b)
  | integer (n) : Readable st tx structures .integer (.integer n)
  | float (x) : tx.float (st.float x) = some x → Readable st tx structures .float (.float x)
  | bigDecimal (x) : tx.decimal (st.decimal x) = some x → Readable st tx structures .bigDecimal (.bigDecimal x)
  | string (s) : Readable st tx structures .string (.string s)
  | blob (b) : Readable st tx structures .blob (.blob b)
  | timestamp (trait t) : tx.stamp (trait.getD st.defaultFormat) (st.stamp (trait.getD st.defaultFormat) t) = some t →
      Readable st tx structures (.timestamp trait) (.timestamp trait t)
  | struct {i : ι} {ms : List (Member × Call F D T)} (shape : Member → Shape ι) :
      (ms.map Prod.fst).Sublist ((structures i).map Prod.fst) →
      (∀ m c, (m, c) ∈ ms → (m, shape m) ∈ structures i) →
      (∀ m c, (m, c) ∈ ms → shows c = true) →
      (∀ m c, (m, c) ∈ ms → Readable st tx structures (shape m) c) → Readable st tx structures (.struct i) (.struct ms)
  | list {flattened item e} {es : List (Call F D T)} : (∀ c ∈ es, shows c = true) →
      (∀ c ∈ es, Readable st tx structures e c) → Readable st tx structures (.list flattened item e) (.list flattened item es)
  | map {flattened kn vn e} {es : List (Bytes × Call F D T)} :
      (∀ k c, (k, c) ∈ es → c ≠ .null → shows c = true) →
      (∀ k c, (k, c) ∈ es → c ≠ .null → Readable st tx structures e c) →
      Readable st tx structures (.map flattened kn vn e) (.map flattened kn vn es)

/-! ## Lemmas -/

theorem mem_sub (name : Bytes) (ps : Pairs) (p : List Bytes) (v : Bytes) :
    (p, v) ∈ sub name ps ↔ (name :: p, v) ∈ ps := by
  induction ps with
  | nil => simp [sub]
  | cons q ps ih =>
    obtain ⟨q, w⟩ := q
    cases q with
    | nil => simp [sub, ih]
    | cons n q =>
      by_cases h : n = name
      · subst h; simp [sub, ih]
      · have h' : ¬ name = n := fun e => h e.symm
        simp [sub, h, h', ih]

theorem valueAt_some (ps : Pairs) (v : Bytes) (h : ([], v) ∈ ps) (hu : ∀ w, ([], w) ∈ ps → w = v) :
    valueAt ps = some v := by
  induction ps with
  | nil => simp at h
  | cons q ps ih =>
    obtain ⟨q, w⟩ := q
    cases q with
    | nil => rw [valueAt, hu w (by simp)]
    | cons n q =>
      rw [valueAt]
      exact ih (by simpa using h) fun w hw => hu w (by simp [hw])

theorem valueAt_none (ps : Pairs) (h : ∀ w, ([], w) ∉ ps) : valueAt ps = none := by
  induction ps with
  | nil => rfl
  | cons q ps ih =>
    obtain ⟨q, w⟩ := q
    cases q with
    | nil => exact absurd (by simp) (h w)
    | cons n q => rw [valueAt]; exact ih fun w hw => h w (by simp [hw])

theorem given_of_mem {α : Type} (rd : Pairs → Option α) (ps : Pairs) (x : List Bytes × Bytes) (h : x ∈ ps) :
    given rd ps = rd ps := by
  cases ps with
  | nil => simp at h
  | cons _ _ => rfl

theorem given_of_none {α : Type} (rd : Pairs → Option α) (ps : Pairs) (h : ∀ p v, (p, v) ∉ ps) :
    given rd ps = none := by
  cases ps with
  | nil => rfl
  | cons q _ => exact absurd (by simp) (h q.1 q.2)

theorem text_bytes (t : List Char) (h : ∀ c ∈ t, c.toNat < 128) : text (t.map ch) = t := by
  rw [text, List.map_map]
  conv_rhs => rw [← List.map_id t]
  apply List.map_congr_left
  intro c hc
  have hc := h c hc
  have : (UInt8.ofNat c.toNat).toNat = c.toNat := by
    rw [UInt8.toNat_ofNat']; omega
  show Char.ofNat (UInt8.ofNat c.toNat).toNat = c
  rw [this, Char.ofNat_toNat]

theorem text_int (n : Int) :
    intValue (text (if n < 0 then ch '-' :: decimal n.natAbs else decimal n.natAbs)) = n := by
  have h : (if n < 0 then ch '-' :: decimal n.natAbs else decimal n.natAbs) = (intText n).map ch := by
    have := decimal_bytes_int n
    rw [← this, bytes]
  rw [h, text_bytes, intValue_intText]
  intro c hc
  unfold intText at hc
  split at hc
  · rcases List.mem_cons.1 hc with rfl | hc
    · decide
    · exact digits_small _ c hc
  · exact digits_small _ c hc

theorem charOf_small (n : Nat) : (Base64.charOf n).toNat < 128 := by
  by_cases h : n < 64
  · have : ∀ n < 64, (Base64.charOf n).toNat < 128 := by decide +kernel
    exact this n h
  · have : Base64.charOf n = '/' := by
      rw [Base64.charOf, if_neg (by omega), if_neg (by omega), if_neg (by omega), if_neg (by omega)]
    rw [this]; decide

theorem encode_small (bs : List Base64.Byte) : ∀ c ∈ Base64.encode bs, c.toNat < 128 := by
  induction bs using Base64.encode.induct with
  | case1 => simp [Base64.encode]
  | case2 a =>
    intro c hc
    simp only [Base64.encode, List.mem_cons, List.not_mem_nil, or_false] at hc
    rcases hc with rfl | rfl | rfl | rfl
    · exact charOf_small _
    · exact charOf_small _
    · decide
    · decide
  | case3 a b =>
    intro c hc
    simp only [Base64.encode, List.mem_cons, List.not_mem_nil, or_false] at hc
    rcases hc with rfl | rfl | rfl | rfl
    · exact charOf_small _
    · exact charOf_small _
    · exact charOf_small _
    · decide
  | case4 a b d r ih =>
    intro c hc
    simp only [Base64.encode, List.mem_cons] at hc
    rcases hc with rfl | rfl | rfl | rfl | hc
    · exact charOf_small _
    · exact charOf_small _
    · exact charOf_small _
    · exact charOf_small _
    · exact ih c hc

theorem range_getElem {α : Type} (xs : List α) : ∀ n, xs.length ≤ n →
    (List.range n).filterMap (fun i => xs[i]?) = xs := by
  induction xs with
  | nil => intro n _; simp
  | cons x xs ih =>
    intro n hn
    obtain ⟨m, rfl⟩ : ∃ m, n = m + 1 := ⟨n - 1, by simp only [List.length_cons] at hn; omega⟩
    rw [List.range_succ_eq_map, List.filterMap_cons_some (b := x) (by rfl), List.filterMap_map]
    congr 1
    exact ih m (by simp only [List.length_cons] at hn; omega)

theorem numbered_spec {α : Type} (rd : Pairs → Option α) (q : Pairs) (xs : List α)
    (h : ∀ i x, xs[i]? = some x → (∃ p v, (decimal (i + 1) :: p, v) ∈ q) ∧ rd (sub (decimal (i + 1)) q) = some x)
    (hn : ∀ i p v, (decimal (i + 1) :: p, v) ∈ q → i < xs.length) : readNumbered rd q = xs := by
  have hlen : xs.length ≤ q.length := by
    have hnd : ((List.range xs.length).map fun i => decimal (i + 1)).Nodup := by
      apply List.Nodup.map_on
      · intro a _ b _ hab
        have := decimal_inj hab
        omega
      · exact List.nodup_range
    have hsub : ((List.range xs.length).map fun i => decimal (i + 1)) ⊆ q.map fun x => x.1.headD [] := by
      intro d hd
      obtain ⟨i, hi, rfl⟩ := List.mem_map.1 hd
      have hi := List.mem_range.1 hi
      obtain ⟨⟨p, v, hm⟩, _⟩ := h i xs[i] (List.getElem?_eq_getElem hi)
      exact List.mem_map.2 ⟨_, hm, rfl⟩
    have := (List.subperm_of_subset hnd hsub).length_le
    simpa using this
  unfold readNumbered
  conv_rhs => rw [← range_getElem xs q.length hlen]
  congr 1
  funext i
  cases hx : xs[i]? with
  | none =>
    apply given_of_none
    intro p v hm
    have := hn i p v ((mem_sub _ _ _ _).1 hm)
    rw [List.getElem?_eq_none_iff] at hx
    omega
  | some x =>
    obtain ⟨⟨p, v, hm⟩, hr⟩ := h i x hx
    rw [given_of_mem _ _ _ ((mem_sub _ _ _ _).2 hm), hr]

theorem shows_at (st : Settings F D T) {tx : Texts F D T} (structures : Structures ι) (s : Shape ι) (c : Call F D T)
    (h : Readable st tx structures s c) : shows c = true → ∃ p v, At st c p v := by
  induction h with
  | boolean b => intro _; cases b <;> exact ⟨[], _, .scalar rfl⟩
  | integer n => intro _; exact ⟨[], _, .scalar rfl⟩
  | float x => intro _; exact ⟨[], _, .scalar rfl⟩
  | bigDecimal x => intro _; exact ⟨[], _, .scalar rfl⟩
  | string s => intro _; exact ⟨[], _, .scalar rfl⟩
  | blob b => intro _; exact ⟨[], _, .scalar rfl⟩
  | timestamp trait t => intro _; cases trait <;> exact ⟨[], _, .scalar rfl⟩
  | @struct i ms shape _ _ hsh _ ih =>
    intro hs
    cases ms with
    | nil => simp [shows] at hs
    | cons e ms =>
      obtain ⟨m, c⟩ := e
      obtain ⟨p, v, ha⟩ := ih m c (by simp) (hsh m c (by simp))
      exact ⟨_, v, .member (m := m) (c := c) (by simp) ha⟩
  | @list flattened item e es hsh _ ih =>
    intro _
    cases es with
    | nil => exact ⟨[], [], .empty⟩
    | cons c es =>
      obtain ⟨p, v, ha⟩ := ih c (by simp) (hsh c (by simp))
      cases flattened
      · exact ⟨_, v, .element (i := 0) (c := c) rfl ha⟩
      · exact ⟨_, v, .flatElement (i := 0) (c := c) rfl ha⟩
  | @map flattened kn vn e es _ _ _ =>
    intro hs
    cases es with
    | nil => simp [shows] at hs
    | cons x es =>
      obtain ⟨k, c⟩ := x
      cases flattened
      · exact ⟨_, k, .key (i := 0) (k := k) (c := c) rfl⟩
      · exact ⟨_, k, .flatKey (i := 0) (k := k) (c := c) rfl⟩

/-- The parameters are those of the value. -/
def Of (st : Settings F D T) (c : Call F D T) (ps : Pairs) : Prop := ∀ p v, (p, v) ∈ ps ↔ At st c p v

theorem of_scalar (st : Settings F D T) (c : Call F D T) (ps : Pairs) (v : Bytes) (hs : scalarText st c = some v)
    (h : Of st c ps) : valueAt ps = some v := by
  apply valueAt_some
  · exact (h _ _).2 (.scalar hs)
  · intro w hw
    have := (h _ _).1 hw
    cases this with
    | scalar h' => rw [hs] at h'; exact (Option.some.inj h').symm
    | empty => simp [scalarText] at hs

theorem filterMap_sublist {α β γ : Type} (f : α × β → Option (α × γ)) (all : List (α × β)) (ms : List (α × γ))
    (hnd : (all.map Prod.fst).Nodup) (hsub : (ms.map Prod.fst).Sublist (all.map Prod.fst))
    (hin : ∀ a b c, (a, b) ∈ all → (a, c) ∈ ms → f (a, b) = some (a, c))
    (hout : ∀ a b, (a, b) ∈ all → a ∉ ms.map Prod.fst → f (a, b) = none) : all.filterMap f = ms := by
  induction all generalizing ms with
  | nil =>
    cases ms with
    | nil => rfl
    | cons m ms => simp at hsub
  | cons x all ih =>
    obtain ⟨a, b⟩ := x
    simp only [List.map_cons, List.nodup_cons] at hnd
    by_cases ha : a ∈ ms.map Prod.fst
    · cases ms with
      | nil => simp at ha
      | cons m ms =>
        obtain ⟨a', c⟩ := m
        simp only [List.map_cons] at hsub
        have haa : a' = a := by
          cases hsub with
          | cons _ hs =>
            exfalso
            exact hnd.1 (hs.subset (by simpa using ha))
          | cons_cons _ hs => rfl
        subst haa
        have hs : (ms.map Prod.fst).Sublist (all.map Prod.fst) := by
          cases hsub with
          | cons _ hs => exact absurd (hs.subset (by simp)) hnd.1
          | cons_cons _ hs => exact hs
        rw [List.filterMap_cons_some (hin a' b c (by simp) (by simp))]
        congr 1
        apply ih ms hnd.2 hs
        · intro a b c hab hac
          exact hin a b c (by simp [hab]) (by simp [hac])
        · intro d b hdb hd
          refine hout d b (by simp [hdb]) ?_
          rw [List.map_cons, List.mem_cons, not_or]
          refine ⟨?_, hd⟩
          rintro rfl
          exact hnd.1 (List.mem_map.2 ⟨_, hdb, rfl⟩)
    · rw [List.filterMap_cons_none (hout a b (by simp) ha)]
      apply ih ms hnd.2
      · simp only [List.map_cons] at hsub
        rcases List.sublist_cons_iff.1 hsub with hs | ⟨r, hr, _⟩
        · exact hs
        · exact absurd (by rw [hr]; simp) ha
      · intro a b c hab hac
        exact hin a b c (by simp [hab]) hac
      · intro a b hab h
        exact hout a b (by simp [hab]) h

theorem name_inj (members : List (Member × Shape ι))
    (hnd : (members.map fun m => named m.1.xmlName m.1.name).Nodup) {a b : Member × Shape ι} (ha : a ∈ members)
    (hb : b ∈ members) (h : named a.1.xmlName a.1.name = named b.1.xmlName b.1.name) : a = b :=
  List.inj_on_of_nodup_map hnd ha hb h

/-- Structures, among parameters of other names. -/
theorem members_spec (st : Settings F D T) (structures : Structures ι) (hok : StructuresOk structures) (i : ι)
    (ms : List (Member × Call F D T)) (shape : Member → Shape ι)
    (hsub : (ms.map Prod.fst).Sublist ((structures i).map Prod.fst))
    (hin : ∀ m c, (m, c) ∈ ms → (m, shape m) ∈ structures i)
    (hshow : ∀ m c, (m, c) ∈ ms → ∃ p v, At st c p v)
    (rd : Shape ι → Pairs → Option (Call F D T)) (ps : Pairs)
    (hps : ∀ m ∈ structures i, ∀ p v, (named m.1.xmlName m.1.name :: p, v) ∈ ps ↔
      At st (.struct ms) (named m.1.xmlName m.1.name :: p) v)
    (hrd : ∀ m c, (m, c) ∈ ms → ∀ ps, Of st c ps → rd (shape m) ps = some c) :
    readMembers rd (structures i) ps = ms := by
  obtain ⟨hnd, _⟩ := hok i
  have hmn : ((structures i).map Prod.fst).Nodup := by
    have h : (((structures i).map Prod.fst).map fun m : Member => named m.xmlName m.name).Nodup := by
      rw [List.map_map]; exact hnd
    exact List.Nodup.of_map _ h
  have hms : (ms.map Prod.fst).Nodup := hmn.sublist hsub
  apply filterMap_sublist _ _ _ hmn hsub
  · intro m s c hm hc
    have hs : s = shape m :=
      (Prod.ext_iff.1 (name_inj _ hnd hm (hin m c hc) rfl)).2
    subst hs
    have hof : Of st c (sub (named m.xmlName m.name) ps) := by
      intro p v
      rw [mem_sub, hps _ hm]
      constructor
      · intro h
        generalize hq : named m.xmlName m.name :: p = q at h
        cases h with
        | scalar h => simp [scalarText] at h
        | @member _ m' c' p' _ hm' ha =>
          obtain ⟨hn, hp⟩ := List.cons.inj hq
          have := name_inj _ hnd hm (hin m' c' hm') hn
          have hmm : m = m' := (Prod.ext_iff.1 this).1
          subst hmm
          subst hp
          have hcc : c' = c := (Prod.ext_iff.1 (List.inj_on_of_nodup_map hms hm' hc rfl)).2
          rw [hcc] at ha
          exact ha
      · exact fun h => .member hc h
    obtain ⟨p, v, ha⟩ := hshow m c hc
    rw [given_of_mem _ _ _ ((hof p v).2 ha), hrd m c hc _ hof]
    rfl
  · intro m s hm hno
    rw [given_of_none]
    · rfl
    · intro p v h
      rw [mem_sub, hps _ hm] at h
      generalize hq : named m.xmlName m.name :: p = q at h
      cases h with
      | scalar h => simp [scalarText] at h
      | @member _ m' c' p' _ hm' ha =>
        obtain ⟨hn, hp⟩ := List.cons.inj hq
        have := name_inj _ hnd hm (hin m' c' hm') hn
        have hmm : m = m' := (Prod.ext_iff.1 this).1
        exact hno (List.mem_map.2 ⟨_, hm', hmm.symm⟩)

/-- There is a depth for all of a list. -/
theorem depth_all {α : Type} (xs : List α) (P : α → Nat → Prop) (h : ∀ x ∈ xs, ∃ n, ∀ k, n ≤ k → P x k) :
    ∃ n, ∀ k, n ≤ k → ∀ x ∈ xs, P x k := by
  induction xs with
  | nil => exact ⟨0, fun _ _ _ hx => absurd hx (by simp)⟩
  | cons x xs ih =>
    obtain ⟨n, hn⟩ := h x (by simp)
    obtain ⟨m, hm⟩ := ih fun y hy => h y (by simp [hy])
    refine ⟨n + m, fun k hk y hy => ?_⟩
    rcases List.mem_cons.1 hy with rfl | hy
    · exact hn k (by omega)
    · exact hm k (by omega) y hy

theorem elements_spec (st : Settings F D T) (flattened : Bool) (item : Option Bytes) (es : List (Call F D T))
    (hshow : ∀ c ∈ es, ∃ p v, At st c p v) (rd : Pairs → Option (Call F D T)) (ps : Pairs)
    (hps : Of st (.list flattened item es) ps) (hrd : ∀ c ∈ es, ∀ ps, Of st c ps → rd ps = some c) :
    readNumbered rd (if flattened then ps else sub (named item (asc "member")) ps) = es := by
  have hq : ∀ i p v, (decimal (i + 1) :: p, v) ∈ (if flattened then ps else sub (named item (asc "member")) ps) ↔
      ∃ c, es[i]? = some c ∧ At st c p v := by
    intro i p v
    cases flattened with
    | true =>
      rw [if_pos rfl, hps]
      constructor
      · intro h
        generalize hq : decimal (i + 1) :: p = q at h
        cases h with
        | scalar h => simp [scalarText] at h
        | empty => simp at hq
        | @flatElement _ _ j c p' _ hc ha =>
          obtain ⟨hn, hp⟩ := List.cons.inj hq
          have := decimal_inj hn
          obtain rfl : i = j := by omega
          subst hp
          exact ⟨c, hc, ha⟩
      · rintro ⟨c, hc, ha⟩; exact .flatElement hc ha
    | false =>
      rw [if_neg (by decide), mem_sub, hps]
      constructor
      · intro h
        generalize hq : named item (asc "member") :: decimal (i + 1) :: p = q at h
        cases h with
        | scalar h => simp [scalarText] at h
        | empty => simp at hq
        | @element _ _ j c p' _ hc ha =>
          obtain ⟨_, hq⟩ := List.cons.inj hq
          obtain ⟨hn, hp⟩ := List.cons.inj hq
          have := decimal_inj hn
          obtain rfl : i = j := by omega
          subst hp
          exact ⟨c, hc, ha⟩
      · rintro ⟨c, hc, ha⟩; exact .element hc ha
  apply numbered_spec
  · intro i c hc
    have hmem := List.mem_of_getElem? hc
    obtain ⟨p, v, ha⟩ := hshow c hmem
    refine ⟨⟨p, v, (hq i p v).2 ⟨c, hc, ha⟩⟩, ?_⟩
    apply hrd c hmem
    intro p v
    rw [mem_sub, hq]
    constructor
    · rintro ⟨c', hc', ha⟩
      rw [hc] at hc'
      rw [Option.some.inj hc']; exact ha
    · exact fun h => ⟨c, hc, h⟩
  · intro i p v h
    obtain ⟨c, hc, _⟩ := (hq i p v).1 h
    exact (List.getElem?_eq_some_iff.1 hc).1

theorem entries_spec (st : Settings F D T) (flattened : Bool) (kn vn : Option Bytes)
    (hkv : named kn (asc "key") ≠ named vn (asc "value")) (es : List (Bytes × Call F D T))
    (hshow : ∀ k c, (k, c) ∈ es → c ≠ .null → ∃ p v, At st c p v) (rd : Pairs → Option (Call F D T)) (ps : Pairs)
    (hps : Of st (.map flattened kn vn es) ps)
    (hrd : ∀ k c, (k, c) ∈ es → c ≠ .null → ∀ ps, Of st c ps → rd ps = some c) :
    readNumbered (readEntry rd kn vn) (if flattened then ps else sub (asc "entry") ps) = es := by
  have hq : ∀ i p v, (decimal (i + 1) :: p, v) ∈ (if flattened then ps else sub (asc "entry") ps) ↔
      ∃ k c, es[i]? = some (k, c) ∧ ((p = [named kn (asc "key")] ∧ v = k) ∨
        ∃ p', p = named vn (asc "value") :: p' ∧ At st c p' v) := by
    intro i p v
    cases flattened with
    | true =>
      rw [if_pos rfl, hps]
      constructor
      · intro h
        generalize hq : decimal (i + 1) :: p = q at h
        cases h with
        | scalar h => simp [scalarText] at h
        | @flatKey _ _ _ j k c hc =>
          obtain ⟨hn, hp⟩ := List.cons.inj hq
          have := decimal_inj hn
          obtain rfl : i = j := by omega
          exact ⟨_, c, hc, .inl ⟨hp, rfl⟩⟩
        | @flatValue _ _ _ j k c p' _ hc ha =>
          obtain ⟨hn, hp⟩ := List.cons.inj hq
          have := decimal_inj hn
          obtain rfl : i = j := by omega
          exact ⟨k, c, hc, .inr ⟨_, hp, ha⟩⟩
      · rintro ⟨k, c, hc, ⟨rfl, rfl⟩ | ⟨p', rfl, ha⟩⟩
        · exact .flatKey hc
        · exact .flatValue hc ha
    | false =>
      rw [if_neg (by decide), mem_sub, hps]
      constructor
      · intro h
        generalize hq : asc "entry" :: decimal (i + 1) :: p = q at h
        cases h with
        | scalar h => simp [scalarText] at h
        | @key _ _ _ j k c hc =>
          obtain ⟨_, hq⟩ := List.cons.inj hq
          obtain ⟨hn, hp⟩ := List.cons.inj hq
          have := decimal_inj hn
          obtain rfl : i = j := by omega
          exact ⟨_, c, hc, .inl ⟨hp, rfl⟩⟩
        | @value _ _ _ j k c p' _ hc ha =>
          obtain ⟨_, hq⟩ := List.cons.inj hq
          obtain ⟨hn, hp⟩ := List.cons.inj hq
          have := decimal_inj hn
          obtain rfl : i = j := by omega
          exact ⟨k, c, hc, .inr ⟨_, hp, ha⟩⟩
      · rintro ⟨k, c, hc, ⟨rfl, rfl⟩ | ⟨p', rfl, ha⟩⟩
        · exact .key hc
        · exact .value hc ha
  apply numbered_spec
  · rintro i ⟨k, c⟩ hc
    have hmem := List.mem_of_getElem? hc
    have hkey : ([named kn (asc "key")], k) ∈
        sub (decimal (i + 1)) (if flattened then ps else sub (asc "entry") ps) :=
      (mem_sub _ _ _ _).2 ((hq i _ k).2 ⟨k, c, hc, .inl ⟨rfl, rfl⟩⟩)
    refine ⟨⟨_, k, (mem_sub _ _ _ _).1 hkey⟩, ?_⟩
    have hk : valueAt (sub (named kn (asc "key"))
        (sub (decimal (i + 1)) (if flattened then ps else sub (asc "entry") ps))) = some k := by
      apply valueAt_some
      · exact (mem_sub _ _ _ _).2 hkey
      · intro w hw
        rw [mem_sub, mem_sub] at hw
        obtain ⟨k', c', hc', ⟨_, rfl⟩ | ⟨p', hp, _⟩⟩ := (hq i _ w).1 hw
        · rw [hc] at hc'
          exact (Prod.ext_iff.1 (Option.some.inj hc')).1.symm
        · exact absurd (List.cons.inj hp).1 hkv
    have hof : Of st c (sub (named vn (asc "value"))
        (sub (decimal (i + 1)) (if flattened then ps else sub (asc "entry") ps))) := by
      intro p v
      rw [mem_sub, mem_sub, hq]
      constructor
      · rintro ⟨k', c', hc', ⟨hp, _⟩ | ⟨p', hp, ha⟩⟩
        · exact absurd (List.cons.inj hp).1.symm hkv
        · rw [hc] at hc'
          have hcc : c = c' := (Prod.ext_iff.1 (Option.some.inj hc')).2
          rw [(List.cons.inj hp).2, hcc]
          exact ha
      · exact fun h => ⟨k, c, hc, .inr ⟨p, rfl, h⟩⟩
    rw [readEntry, hk]
    by_cases hnull : c = .null
    · rw [given_of_none]
      · rw [hnull]; rfl
      · intro p v h
        have := (hof p v).1 h
        rw [hnull] at this
        cases this with
        | scalar h => simp [scalarText] at h
    · obtain ⟨p, v, ha⟩ := hshow k c hmem hnull
      rw [given_of_mem _ _ _ ((hof p v).2 ha), hrd k c hmem hnull _ hof]
      rfl
  · intro i p v h
    obtain ⟨k, c, hc, _⟩ := (hq i p v).1 h
    exact (List.getElem?_eq_some_iff.1 hc).1

theorem read_spec (st : Settings F D T) (tx : Texts F D T) (structures : Structures ι)
    (hok : StructuresOk structures) (s : Shape ι) (c : Call F D T) (h : Readable st tx structures s c) : s.Ok →
    ∃ n, ∀ k, n ≤ k → ∀ ps, Of st c ps → read tx st.defaultFormat structures k s ps = some c := by
  have one : ∀ k, 1 ≤ k → ∃ m, k = m + 1 := fun k hk => ⟨k - 1, by omega⟩
  induction h with
  | boolean b =>
    intro _
    refine ⟨1, fun k hk ps hps => ?_⟩
    obtain ⟨m, rfl⟩ := one k hk
    cases b with
    | true => rw [read, of_scalar st _ ps (asc "true") rfl hps]; rfl
    | false => rw [read, of_scalar st _ ps (asc "false") rfl hps]; rfl
  | integer n =>
    intro _
    refine ⟨1, fun k hk ps hps => ?_⟩
    obtain ⟨m, rfl⟩ := one k hk
    rw [read, of_scalar st _ ps _ rfl hps, Option.map_some, text_int]
  | float x hx =>
    intro _
    refine ⟨1, fun k hk ps hps => ?_⟩
    obtain ⟨m, rfl⟩ := one k hk
    rw [read, of_scalar st _ ps _ rfl hps, Option.bind_some, hx]; rfl
  | bigDecimal x hx =>
    intro _
    refine ⟨1, fun k hk ps hps => ?_⟩
    obtain ⟨m, rfl⟩ := one k hk
    rw [read, of_scalar st _ ps _ rfl hps, Option.bind_some, hx]; rfl
  | string t =>
    intro _
    refine ⟨1, fun k hk ps hps => ?_⟩
    obtain ⟨m, rfl⟩ := one k hk
    rw [read, of_scalar st _ ps _ rfl hps]; rfl
  | blob b =>
    intro _
    refine ⟨1, fun k hk ps hps => ?_⟩
    obtain ⟨m, rfl⟩ := one k hk
    rw [read, of_scalar st _ ps _ rfl hps, Option.bind_some, text_bytes _ (encode_small b), Base64.decode_encode]
    rfl
  | timestamp trait t hx =>
    intro _
    refine ⟨1, fun k hk ps hps => ?_⟩
    obtain ⟨m, rfl⟩ := one k hk
    cases trait with
    | none => rw [Option.getD_none] at hx; rw [read, of_scalar st _ ps _ rfl hps, Option.bind_some, Option.getD_none, hx]; rfl
    | some f => rw [Option.getD_some] at hx; rw [read, of_scalar st _ ps _ rfl hps, Option.bind_some, Option.getD_some, hx]; rfl
  | @struct i ms shape hsub hin hsh hrd ih =>
    intro _
    obtain ⟨n, hn⟩ := depth_all ms
      (fun e k => ∀ ps, Of st e.2 ps → read tx st.defaultFormat structures k (shape e.1) ps = some e.2)
      fun e he => ih e.1 e.2 he ((hok i).2 _ (hin e.1 e.2 he)).2
    refine ⟨n + 1, fun k hk ps hps => ?_⟩
    obtain ⟨m, rfl⟩ := one k (by omega)
    rw [read]
    have := members_spec st structures hok i ms shape hsub hin
      (fun m c hc => shows_at st structures _ c (hrd m c hc) (hsh m c hc))
      (read tx st.defaultFormat structures m) ps (fun m _ p v => hps _ _)
      (fun a c hc => hn m (by omega) (a, c) hc)
    rw [this]
  | @list flattened item e es hsh hrd ih =>
    intro hs
    obtain ⟨n, hn⟩ := depth_all es
      (fun c k => ∀ ps, Of st c ps → read tx st.defaultFormat structures k e ps = some c)
      fun c hc => ih c hc hs.2
    refine ⟨n + 1, fun k hk ps hps => ?_⟩
    obtain ⟨m, rfl⟩ := one k (by omega)
    cases es with
    | nil =>
      have : valueAt ps = some [] := by
        apply valueAt_some
        · exact (hps _ _).2 .empty
        · intro w hw
          have := (hps _ _).1 hw
          cases this with
          | scalar h => simp [scalarText] at h
          | empty => rfl
      simp only [read, this]
    | cons c es =>
      have hv : valueAt ps = none := by
        apply valueAt_none
        intro w hw
        have := (hps _ _).1 hw
        cases this with
        | scalar h => simp [scalarText] at h
      have := elements_spec st flattened item (c :: es)
        (fun c hc => shows_at st structures _ c (hrd c hc) (hsh c hc))
        (read tx st.defaultFormat structures m e) ps hps (hn m (by omega))
      simp only [read, hv, this]
  | @map flattened kn vn e es hsh hrd ih =>
    intro hs
    obtain ⟨n, hn⟩ := depth_all es
      (fun x k => x.2 ≠ .null → ∀ ps, Of st x.2 ps → read tx st.defaultFormat structures k e ps = some x.2)
      (by
        intro x hx
        by_cases hnull : x.2 = .null
        · exact ⟨0, fun _ _ h => absurd hnull h⟩
        · obtain ⟨n, hn⟩ := ih x.1 x.2 hx hnull hs.2.2.2
          exact ⟨n, fun k hk _ => hn k hk⟩)
    refine ⟨n + 1, fun k hk ps hps => ?_⟩
    obtain ⟨m, rfl⟩ := one k (by omega)
    have := entries_spec st flattened kn vn hs.2.2.1 es
      (fun k c hc hnull => shows_at st structures _ c (hrd k c hc hnull) (hsh k c hc hnull))
      (read tx st.defaultFormat structures m e) ps hps (fun k c hc => hn m (by omega) (k, c) hc)
    simp only [read, this]

theorem membersOk_of (ms : List (Member × Call F D T)) (h : ∀ e ∈ ms, Plain (named e.1.xmlName e.1.name) ∧ e.2.Ok) :
    MembersOk ms := by
  induction ms with
  | nil => simp only [MembersOk]
  | cons e ms ih =>
    obtain ⟨m, c⟩ := e
    simp only [MembersOk]
    exact ⟨(h (m, c) (by simp)).1, (h (m, c) (by simp)).2, ih fun e he => h e (by simp [he])⟩

theorem elementsOk_of (es : List (Call F D T)) (h : ∀ c ∈ es, c.Ok) : ElementsOk es := by
  induction es with
  | nil => simp only [ElementsOk]
  | cons c es ih =>
    simp only [ElementsOk]
    exact ⟨h _ (by simp), ih fun e he => h e (by simp [he])⟩

theorem entriesOk_of (es : List (Bytes × Call F D T)) (h : ∀ e ∈ es, e.2.Ok) : EntriesOk es := by
  induction es with
  | nil => simp only [EntriesOk]
  | cons e es ih =>
    obtain ⟨k, c⟩ := e
    simp only [EntriesOk]
    exact ⟨h (k, c) (by simp), ih fun e he => h e (by simp [he])⟩

theorem ok_of {st : Settings F D T} {tx : Texts F D T} (structures : Structures ι) (hok : StructuresOk structures) (s : Shape ι) (c : Call F D T)
    (h : Readable st tx structures s c) : s.Ok → c.Ok := by
  induction h with
  | boolean | integer | float | bigDecimal | string | blob | timestamp => intro _; simp only [Call.Ok]
  | @struct i ms shape hsub hin hsh hrd ih =>
    intro _
    simp only [Call.Ok]
    constructor
    · have := (hok i).1
      have hs := hsub.map fun m : Member => named m.xmlName m.name
      rw [List.map_map, List.map_map] at hs
      exact List.Nodup.sublist hs this
    · exact membersOk_of ms fun e he =>
        ⟨((hok i).2 _ (hin e.1 e.2 he)).1, ih e.1 e.2 he ((hok i).2 _ (hin e.1 e.2 he)).2⟩
  | @list flattened item e es hsh hrd ih =>
    intro hs
    simp only [Call.Ok]
    exact ⟨hs.1, elementsOk_of es fun c hc => ih c hc hs.2⟩
  | @map flattened kn vn e es hsh hrd ih =>
    intro hs
    simp only [Call.Ok]
    refine ⟨hs.1, hs.2.1, hs.2.2.1, entriesOk_of es fun x hx => ?_⟩
    by_cases hnull : x.2 = .null
    · rw [hnull]; simp only [Call.Ok]
    · exact ih x.1 x.2 hx hnull hs.2.2.2

/-! ## Theorems -/

/-- A service that reads the parameters of a request by name, in whatever order they come, gets the action,
the version and the input. -/
theorem C93_partial (st : Settings F D T) (tx : Texts F D T) (structures : Structures ι)
    (hok : StructuresOk structures) (input : ι)
    (hr : ∀ m ∈ structures input, named m.1.xmlName m.1.name ≠ asc "Action" ∧
      named m.1.xmlName m.1.name ≠ asc "Version")
    (operation version : Bytes) (c : Call F D T) (h : Readable st tx structures (.struct input) c) :
    ∃ (req : Request) (n : Nat), serializeRequest st operation version c = .ok req ∧
      ∀ depth, n ≤ depth → ∀ pairs, pairs.Perm (parseQuery req.body) →
        service tx st.defaultFormat structures depth input pairs = some (operation, version, c) := by
  have hc := ok_of structures hok _ c h trivial
  cases h with
  | @struct _ ms shape hsub hin hsh hrd =>
    obtain ⟨req, prs, hreq, hparse, hmem, _, _⟩ := C46_request st operation version ms hc
    obtain ⟨n, hn⟩ := depth_all ms
      (fun e k => ∀ ps, Of st e.2 ps → read tx st.defaultFormat structures k (shape e.1) ps = some e.2)
      fun e he => read_spec st tx structures hok _ e.2 (hrd e.1 e.2 he) ((hok input).2 _ (hin e.1 e.2 he)).2
    refine ⟨req, n + 1, hreq, fun depth hd pairs hperm => ?_⟩
    obtain ⟨m, rfl⟩ : ∃ m, depth = m + 1 := ⟨depth - 1, by omega⟩
    rw [service]
    generalize hps : (pairs.filterMap fun p => p.2.map fun v => (split (ch '.') p.1, v)) = ps
    have hA : split (ch '.') (asc "Action") = [asc "Action"] := by decide
    have hV : split (ch '.') (asc "Version") = [asc "Version"] := by decide
    have hmem' : ∀ p v, (p, v) ∈ ps ↔ (p = [asc "Action"] ∧ v = operation) ∨ (p = [asc "Version"] ∧ v = version) ∨
        At st (.struct ms) p v := by
      intro p v
      rw [← hps, List.mem_filterMap]
      constructor
      · rintro ⟨⟨k, o⟩, hk, ho⟩
        rw [hperm.mem_iff, hparse] at hk
        simp only [List.mem_cons, List.mem_map, Prod.mk.injEq, Prod.exists] at hk
        rcases hk with ⟨rfl, rfl⟩ | ⟨rfl, rfl⟩ | ⟨k', v', hk', rfl, rfl⟩
        · simp only [Option.map_some, Option.some.injEq, Prod.mk.injEq, hA] at ho
          exact .inl ⟨ho.1.symm, ho.2.symm⟩
        · simp only [Option.map_some, Option.some.injEq, Prod.mk.injEq, hV] at ho
          exact .inr (.inl ⟨ho.1.symm, ho.2.symm⟩)
        · simp only [Option.map_some, Option.some.injEq, Prod.mk.injEq] at ho
          obtain ⟨q, hq, rfl⟩ := (hmem _ _).1 hk'
          rw [C46_path st ms hc q v' hq] at ho
          obtain ⟨rfl, rfl⟩ := ho
          exact .inr (.inr hq)
      · intro h
        rcases h with ⟨rfl, rfl⟩ | ⟨rfl, rfl⟩ | h
        · exact ⟨(asc "Action", some v), by rw [hperm.mem_iff, hparse]; simp, by simp [hA]⟩
        · exact ⟨(asc "Version", some v), by rw [hperm.mem_iff, hparse]; simp, by simp [hV]⟩
        · refine ⟨(join (ch '.') p, some v), ?_, ?_⟩
          · rw [hperm.mem_iff, hparse]
            have := (hmem _ _).2 ⟨p, h, rfl⟩
            simp only [List.mem_cons, List.mem_map, Prod.exists]
            exact .inr (.inr ⟨_, _, this, rfl⟩)
          · simp only [Option.map_some, C46_path st ms hc p v h]
    have hAV : asc "Action" ≠ asc "Version" := by decide
    have none_at : ∀ n, (n = asc "Action" ∨ n = asc "Version") → ∀ p v, ¬ At st (.struct ms) (n :: p) v := by
      intro n hn p v h
      generalize hq : n :: p = q at h
      cases h with
      | scalar h => simp [scalarText] at h
      | @member _ m c p' _ hm ha =>
        have := hr _ (hin m c hm)
        rcases hn with rfl | rfl
        · exact this.1 (List.cons.inj hq).1.symm
        · exact this.2 (List.cons.inj hq).1.symm
    have h1 : valueAt (sub (asc "Action") ps) = some operation := by
      apply valueAt_some
      · rw [mem_sub, hmem']; exact .inl ⟨rfl, rfl⟩
      · intro w hw
        rw [mem_sub, hmem'] at hw
        rcases hw with ⟨_, hw⟩ | ⟨hw, _⟩ | hw
        · exact hw
        · exact absurd (List.cons.inj hw).1 hAV
        · exact absurd hw (none_at _ (.inl rfl) _ _)
    have h2 : valueAt (sub (asc "Version") ps) = some version := by
      apply valueAt_some
      · rw [mem_sub, hmem']; exact .inr (.inl ⟨rfl, rfl⟩)
      · intro w hw
        rw [mem_sub, hmem'] at hw
        rcases hw with ⟨hw, _⟩ | ⟨_, hw⟩ | hw
        · exact absurd (List.cons.inj hw).1.symm hAV
        · exact hw
        · exact absurd hw (none_at _ (.inr rfl) _ _)
    have h3 : read tx st.defaultFormat structures (m + 1) (.struct input) ps = some (.struct ms) := by
      rw [read]
      have := members_spec st structures hok input ms shape hsub hin
        (fun m c hc => shows_at st structures _ c (hrd m c hc) (hsh m c hc))
        (read tx st.defaultFormat structures m) ps
        (by
          intro a ha p v
          rw [hmem']
          constructor
          · rintro (⟨hp, _⟩ | ⟨hp, _⟩ | h)
            · exact absurd (List.cons.inj hp).1 (hr a ha).1
            · exact absurd (List.cons.inj hp).1 (hr a ha).2
            · exact h
          · exact fun h => .inr (.inr h))
        (fun a c hc => hn m (by omega) (a, c) hc)
      rw [this]
    rw [h1, h2, h3]

/-- Different inputs make different requests. -/
theorem C93_different_partial (st : Settings F D T) (tx : Texts F D T)
    (structures : Structures ι) (hok : StructuresOk structures) (input : ι)
    (hr : ∀ m ∈ structures input, named m.1.xmlName m.1.name ≠ asc "Action" ∧
      named m.1.xmlName m.1.name ≠ asc "Version")
    (operation version : Bytes) (c d : Call F D T) (hc : Readable st tx structures (.struct input) c)
    (hd : Readable st tx structures (.struct input) d)
    (h : serializeRequest st operation version c = serializeRequest st operation version d) : c = d := by
  obtain ⟨r, n, hr1, h1⟩ := C93_partial st tx structures hok input hr operation version c hc
  obtain ⟨r', n', hr2, h2⟩ := C93_partial st tx structures hok input hr operation version d hd
  rw [hr1, hr2] at h
  obtain rfl := Except.ok.inj h
  have a := h1 (n + n') (by omega) _ (List.Perm.refl _)
  have b := h2 (n + n') (by omega) _ (List.Perm.refl _)
  rw [a] at b
  exact (Prod.ext_iff.1 (Prod.ext_iff.1 (Option.some.inj b)).2).2

/-! ## The hypotheses are met -/

section Examples

/-- A structure that contains itself, a list, a flattened list and a map. -/
inductive Name where
  | input | tree
  deriving DecidableEq

def mem (n : String) : Member := ⟨asc n, none⟩

def structures : Structures Name
  | .input => [(mem "Name", .string), (mem "Tree", .struct .tree), (mem "Tags", .map false none none .string)]
  | .tree => [(⟨asc "value", some (asc "Value")⟩, .integer), (mem "Children", .list true none (.struct .tree)),
      (mem "Notes", .list false (some (asc "note")) .boolean)]

theorem structures_ok : StructuresOk structures := by
  intro i
  cases i
  · refine ⟨by decide, ?_⟩
    intro m hm
    simp only [structures, List.mem_cons, List.not_mem_nil, or_false] at hm
    rcases hm with rfl | rfl | rfl
    · exact ⟨by unfold Plain; decide, trivial⟩
    · exact ⟨by unfold Plain; decide, trivial⟩
    · exact ⟨by unfold Plain; decide, by unfold Plain; decide, by unfold Plain; decide, by decide, trivial⟩
  · refine ⟨by decide, ?_⟩
    intro m hm
    simp only [structures, List.mem_cons, List.not_mem_nil, or_false] at hm
    rcases hm with rfl | rfl | rfl
    · exact ⟨by unfold Plain; decide, trivial⟩
    · exact ⟨by unfold Plain; decide, by unfold Plain; decide, trivial⟩
    · exact ⟨by unfold Plain; decide, by unfold Plain; decide, trivial⟩

def leaf (n : Int) : Call Empty Empty Empty := .struct [(⟨asc "value", some (asc "Value")⟩, .integer n)]

/-- `{Name: "a.b&c", Tree: {Value: -1, Children: [{Value: 2}, {Value: 3}], Notes: []}, Tags: {"k": null}}`. -/
def sample : Call Empty Empty Empty :=
  .struct [(mem "Name", .string (asc "a.b&c")),
    (mem "Tree", .struct [(⟨asc "value", some (asc "Value")⟩, .integer (-1)),
      (mem "Children", .list true none [leaf 2, leaf 3]), (mem "Notes", .list false (some (asc "note")) [])]),
    (mem "Tags", .map false none none [(asc "k", .null)])]

def st : Settings Empty Empty Empty :=
  ⟨.dateTime, fun x => x.elim, fun x => x.elim, fun _ x => x.elim⟩

def tx : Texts Empty Empty Empty := ⟨fun _ => none, fun _ => none, fun _ _ => none⟩

/-- The shape of a member of the examples. -/
def shapeOf (m : Member) : Shape Name :=
  if m.name = asc "Name" then .string
  else if m.name = asc "Tree" then .struct .tree
  else if m.name = asc "Tags" then .map false none none .string
  else if m.name = asc "value" then .integer
  else if m.name = asc "Children" then .list true none (.struct .tree)
  else .list false (some (asc "note")) .boolean

theorem shapeOf_eq : shapeOf (mem "Name") = .string ∧ shapeOf (mem "Tree") = .struct .tree ∧
    shapeOf (mem "Tags") = .map false none none .string ∧
    shapeOf ⟨asc "value", some (asc "Value")⟩ = .integer ∧
    shapeOf (mem "Children") = .list true none (.struct .tree) ∧
    shapeOf (mem "Notes") = .list false (some (asc "note")) .boolean :=
  ⟨rfl, rfl, rfl, rfl, rfl, rfl⟩

theorem leaf_readable (n : Int) : Readable st tx structures (.struct .tree) (leaf n) := by
  refine .struct shapeOf ?_ ?_ ?_ ?_
  · exact .cons_cons _ (.cons _ (.cons _ .slnil))
  · intro m c hm
    obtain ⟨rfl, rfl⟩ := Prod.mk.inj (List.mem_singleton.1 hm)
    exact List.mem_cons_self
  · intro m c hm
    obtain ⟨rfl, rfl⟩ := Prod.mk.inj (List.mem_singleton.1 hm)
    rfl
  · intro m c hm
    obtain ⟨rfl, rfl⟩ := Prod.mk.inj (List.mem_singleton.1 hm)
    exact .integer n

theorem tree_readable : Readable st tx structures (.struct .tree)
    (.struct [(⟨asc "value", some (asc "Value")⟩, (.integer (-1) : Call Empty Empty Empty)),
      (mem "Children", .list true none [leaf 2, leaf 3]), (mem "Notes", .list false (some (asc "note")) [])]) := by
  refine .struct shapeOf ?_ ?_ ?_ ?_
  · exact List.Sublist.refl _
  · intro m c hm
    simp only [List.mem_cons, List.not_mem_nil, or_false, Prod.mk.injEq] at hm
    rcases hm with ⟨rfl, rfl⟩ | ⟨rfl, rfl⟩ | ⟨rfl, rfl⟩
    · exact List.mem_cons_self
    · exact List.mem_cons_of_mem _ List.mem_cons_self
    · exact List.mem_cons_of_mem _ (List.mem_cons_of_mem _ List.mem_cons_self)
  · intro m c hm
    simp only [List.mem_cons, List.not_mem_nil, or_false, Prod.mk.injEq] at hm
    rcases hm with ⟨rfl, rfl⟩ | ⟨rfl, rfl⟩ | ⟨rfl, rfl⟩ <;> rfl
  · intro m c hm
    simp only [List.mem_cons, List.not_mem_nil, or_false, Prod.mk.injEq] at hm
    rcases hm with ⟨rfl, rfl⟩ | ⟨rfl, rfl⟩ | ⟨rfl, rfl⟩
    · exact .integer _
    · refine .list ?_ ?_
      · intro c hc
        simp only [List.mem_cons, List.not_mem_nil, or_false] at hc
        rcases hc with rfl | rfl <;> rfl
      · intro c hc
        simp only [List.mem_cons, List.not_mem_nil, or_false] at hc
        rcases hc with rfl | rfl <;> exact leaf_readable _
    · exact .list (by simp) (by simp)

theorem sample_readable : Readable st tx structures (.struct .input) sample := by
  refine .struct shapeOf ?_ ?_ ?_ ?_
  · exact List.Sublist.refl _
  · intro m c hm
    simp only [List.mem_cons, List.not_mem_nil, or_false, Prod.mk.injEq] at hm
    rcases hm with ⟨rfl, rfl⟩ | ⟨rfl, rfl⟩ | ⟨rfl, rfl⟩
    · exact List.mem_cons_self
    · exact List.mem_cons_of_mem _ List.mem_cons_self
    · exact List.mem_cons_of_mem _ (List.mem_cons_of_mem _ List.mem_cons_self)
  · intro m c hm
    simp only [List.mem_cons, List.not_mem_nil, or_false, Prod.mk.injEq] at hm
    rcases hm with ⟨rfl, rfl⟩ | ⟨rfl, rfl⟩ | ⟨rfl, rfl⟩ <;> rfl
  · intro m c hm
    simp only [List.mem_cons, List.not_mem_nil, or_false, Prod.mk.injEq] at hm
    rcases hm with ⟨rfl, rfl⟩ | ⟨rfl, rfl⟩ | ⟨rfl, rfl⟩
    · exact .string _
    · exact tree_readable
    · refine .map ?_ ?_
      · intro k c hc hn
        simp only [List.mem_cons, List.not_mem_nil, or_false, Prod.mk.injEq] at hc
        exact absurd hc.2 hn
      · intro k c hc hn
        simp only [List.mem_cons, List.not_mem_nil, or_false, Prod.mk.injEq] at hc
        exact absurd hc.2 hn

/-- C93: its hypotheses are met. -/
example : ∃ (req : Request) (n : Nat), serializeRequest st (asc "Op") (asc "2024-01-01") sample = .ok req ∧
    ∀ depth, n ≤ depth → ∀ pairs, pairs.Perm (parseQuery req.body) →
      service tx st.defaultFormat structures depth .input pairs = some (asc "Op", asc "2024-01-01", sample) :=
  C93_partial st tx structures structures_ok .input
    (by
      intro m hm
      simp only [structures, List.mem_cons, List.not_mem_nil, or_false] at hm
      rcases hm with rfl | rfl | rfl <;> exact ⟨by decide, by decide⟩)
    _ _ sample sample_readable

/-- The parameters of the example. -/
example : (serializeRequest st (asc "Op") (asc "1") sample).map (fun r => r.body) =
    .ok (asc "Action=Op&Version=1&Name=a.b%26c&Tree.Value=-1&Tree.Children.1.Value=2&Tree.Children.2.Value=3&Tree.Notes=&Tags.entry.1.key=k") := by
  decide +kernel

end Examples

/-! ## What does not hold -/

/-- A structure with nothing in it is not written, nor is a map, nor are nulls in lists: requests for such
inputs are the same as those for other inputs. -/
theorem C93_nothing_written_fails :
    serializeRequest st (asc "Op") (asc "1") (.struct [(mem "Tree", .struct [])]) =
      serializeRequest st (asc "Op") (asc "1") (.struct []) ∧
    serializeRequest st (asc "Op") (asc "1") (.struct [(mem "Tags", .map false none none [])]) =
      serializeRequest st (asc "Op") (asc "1") (.struct []) ∧
    serializeRequest st (asc "Op") (asc "1") (.struct [(mem "L", .list false none [.null])]) =
      serializeRequest st (asc "Op") (asc "1") (.struct []) ∧
    serializeRequest st (asc "Op") (asc "1") (.struct [(mem "L", .list false none [.integer 1, .null])]) =
      serializeRequest st (asc "Op") (asc "1") (.struct [(mem "L", .list false none [.integer 1])]) := by
  refine ⟨?_, ?_, ?_, ?_⟩ <;> decide +kernel

end Verif.AwsQuery.RoundTrip

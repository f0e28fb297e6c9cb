import Verif.QueryAnswer.Lemmas

/-!
# What callers of AWS Query operations get (C132): theorems
-/

set_option autoImplicit false

namespace Verif.QueryAnswer

open Verif.Json (Text Format Dec)
open Verif.Scalars.Strict (Num)
open Verif.GeneratedSerde (Py Ref Model Shape Simple Member Err Same memberName valueName findMember)
open Verif.Xml (Val Reader View Elem Head Ev events)
open Verif.Xml.RoundTrip (Writer Readable Typed AttributesDiffer C92_inside_partial)
open Verif.Http.Errors (Operation C32_query)
open Verif.Shapes (Registry)

variable {F T : Type} {m : Model F T} {t : Traits} {rd : Reader Ref (Num Dec) F T} {w : Writer Ref (Num Dec) F T}

/-! ## Specification -/

/-- Each of these elements is the first in the one before; the last one has these elements in it.  After the first others may
follow. -/
inductive Wrapped : List Text → Elem → List Elem → Prop
  | last {n : Text} {h : Head} {cs : List Elem} : Xml.localName h.tag = n → Wrapped [n] (.mk h cs) cs
  | inside {n n' : Text} {ns : List Text} {h : Head} {e : Elem} {cs rest : List Elem} : Xml.localName h.tag = n →
      Wrapped (n' :: ns) e cs → Wrapped (n :: n' :: ns) (.mk h (e :: rest)) cs

/-- These are the elements that the service writes for the value and, among them and in them, elements that the client does not
know. -/
def Holds (rd : Reader Ref (Num Dec) F T) (w : Writer Ref (Num Dec) F T) (cls : Nat) (u : Val (Num Dec) F T) (cs : List Elem) : Prop :=
  rd.strip (.shape cls) (.mk ⟨[], [], []⟩ cs) = rd.strip (.shape cls) (.mk ⟨[], [], []⟩ (w.body rd (.shape cls) (w.item (.shape cls)) u))

/-- The text of the first element `Code`. -/
def HasCode (cs : List Elem) (code : Text) : Prop :=
  ∃ before h inside after, cs = before ++ .mk h inside :: after ∧ Xml.localName h.tag = "Code".toList ∧ h.text = code ∧
    ∀ h' inside', Elem.mk h' inside' ∈ before → Xml.localName h'.tag ≠ "Code".toList

/-- The code of an error stands for a registered class: the first error of the operation with that code in `@awsQueryError`, or else the
shape of that name in the namespace of the service. -/
def Named (ns : Text) (op : Operation) (registry : Registry Nat) (code tgt : Text) : Prop :=
  (∃ before e after, op.errors = before ++ e :: after ∧ (∀ b ∈ before, b.2 ≠ some code) ∧
    e.2 = some code ∧ registry.contains e.1.id = true ∧ tgt = e.1.id) ∨
  ((∀ before e after, op.errors = before ++ e :: after → (∀ b ∈ before, b.2 ≠ some code) →
      e.2 = some code → registry.contains e.1.id = false) ∧
    tgt = ns ++ '#' :: code ∧ registry.contains tgt = true)

/-- What is needed of the model, the deserializer and the service. -/
structure Agree (m : Model F T) (t : Traits) (rd : Reader Ref (Num Dec) F T) (w : Writer Ref (Num Dec) F T) : Prop where
  names : NamesOk m
  view : rd.view = view m t
  elements : rd.Ok
  attributes : AttributesDiffer rd
  readable : Readable rd w

/-! ## Lemmas -/

theorem wrapped_events {ws : List Text} {e : Elem} {cs : List Elem} (h : Wrapped ws e cs) :
    ∃ (outer : List Head) (hd : Head) (rest : List Ev), ws = (outer ++ [hd]).map (fun o => Xml.localName o.tag) ∧
      events e = outer.map .start ++ events (.mk hd cs) ++ rest := by
  induction h with
  | @last n h cs hn => exact ⟨[], h, [], by simp [hn], by simp⟩
  | @inside n n' ns h e cs rest hn _ ih =>
    obtain ⟨outer, hd, r, h1, h2⟩ := ih
    refine ⟨h :: outer, hd, r ++ Xml.allEvents rest ++ [.stop], ?_, ?_⟩
    · rw [h1]; simp [hn]
    · simp [events, Xml.allEvents, h2]

theorem inner_head {s : Ref} {sh : Xml.Shape Ref} (hv : rd.view s = .struct sh) (h h' : Head) (ha : h.attrs = h'.attrs) (cs : List Elem) :
    rd.inner s (.mk h cs) = rd.inner s (.mk h' cs) := by
  rw [Xml.inner_decode, Xml.inner_decode]
  have hn : ∀ h : Head, Xml.size (.mk h cs) = Xml.sizes cs + 1 := fun h => by rw [Xml.size, Nat.add_comm]
  rw [hn, hn]
  simp only [Reader.decode, hv, Reader.decodeStruct, Bool.false_eq_true, false_and, if_false, ha]

theorem run_holds (ha : Agree m t rd w) {cls : Nat} {ms : List (Member F T)} (hs : m.shape cls = some (.struct ms))
    {u : Val (Num Dec) F T} (hty : Typed rd w (.shape cls) u) (hattr : ∀ x ∈ ms, (t.member cls x.name).2.1 = false)
    {ws : List Text} {body : Elem} {cs : List Elem} (hw : Wrapped ws body cs) (hh : Holds rd w cls u cs) :
    rd.run ws (.shape cls) (events body) = .ok (Xml.RoundTrip.arranged rd (.shape cls) u) := by
  have hv := view_eq (t := t) (s := .shape cls) (m := m) rfl hs
  rw [← ha.view] at hv
  obtain ⟨outer, hd, rest, h1, h2⟩ := wrapped_events hw
  rw [h1, h2, Xml.C45_wrapped, inner_head hv { hd with attrs := [] } ⟨[], [], []⟩ rfl, Xml.C45_skip_inner rd ha.elements, hh,
    ← Xml.C45_skip_inner rd ha.elements]
  have hin := C92_inside_partial rd w ha.readable ha.elements ha.attributes (.shape cls) [] u hty
  rw [← hin]
  unfold Writer.write
  refine inner_head hv _ _ ?_ _
  cases u with
  | struct kv =>
    simp only [Writer.head, hv]
    symm
    rw [List.filterMap_eq_nil_iff]
    intro e _
    unfold Writer.attribute
    split
    · rfl
    · next y hy =>
      have hmem := List.mem_of_find?_eq_some hy
      obtain ⟨x, hx, rfl⟩ := List.mem_map.1 hmem
      simp only [hattr x hx, Bool.false_eq_true, if_false]
  | _ => simp only [Writer.head]

theorem receive_holds (ha : Agree m t rd w) {cls : Nat} {ms : List (Member F T)} (hs : m.shape cls = some (.struct ms))
    {v : Py F T} {u : Val (Num Dec) F T} (hu : Says m cls v u) (hty : Typed rd w (.shape cls) u)
    (hattr : ∀ x ∈ ms, (t.member cls x.name).2.1 = false)
    {ws : List Text} {body : Elem} {cs : List Elem} (hw : Wrapped ws body cs) (hh : Holds rd w cls u cs) :
    ∃ v', receive m rd ws cls body = .ok v' ∧ Same v v' := by
  obtain ⟨v', h1, h2⟩ := fromVal_says (w := w) ha.names ha.view ha.elements hu (.shape cls) rfl hty
  refine ⟨v', ?_, h2⟩
  unfold receive
  rw [run_holds ha hs hty hattr hw hh]
  simp only [h1]

theorem localName_eq (tag : Text) : Http.Errors.localName tag = Xml.localName tag := by
  unfold Http.Errors.localName Xml.localName
  split
  · next r =>
    simp only [List.head?_cons, if_true]
    have : ∀ l : Text, ((Verif.Text.cut '}' l).2).getD [] = (l.dropWhile (· ≠ '}')).tail := by
      intro l
      induction l with
      | nil => rfl
      | cons c l ih =>
        by_cases hc : c = '}'
        · simp [Verif.Text.cut, hc]
        · simp only [Verif.Text.cut, if_neg hc]
          rw [ih, List.dropWhile_cons_of_pos (by simpa using hc)]
    exact this _
  · next h =>
    rw [if_neg]
    intro hc
    cases tag with
    | nil => cases hc
    | cons c l =>
      simp only [List.head?_cons, Option.some.injEq] at hc
      exact h l (by rw [hc])

theorem plains_map : ∀ cs : List Elem, plains cs = cs.map plain
  | [] => rfl
  | c :: cs => by rw [plains, plains_map cs]; rfl

theorem carries {body : Elem} {cs : List Elem} {code : Text} (hw : Wrapped ["ErrorResponse".toList, "Error".toList] body cs)
    (hc : HasCode cs code) (hne : code ≠ []) : Http.Errors.QueryCarries (some (plain body)) code := by
  cases hw with
  | @inside _ _ _ h e _ rest hn hw =>
    cases hw with
    | @last _ he _ hn2 =>
      obtain ⟨before, hh, inside, after, rfl, h1, h2, h3⟩ := hc
      refine ⟨_, plain (.mk he (before ++ .mk hh inside :: after)), plain (.mk hh inside), rfl, ?_, ?_, ?_, ?_⟩
      · simp only [plain, Http.Errors.Elem.tag, localName_eq, hn]
      · refine ⟨[], plains rest, ?_, ?_, fun _ h => by cases h⟩
        · simp only [plain, plains, Http.Errors.Elem.children, List.nil_append]
        · simp only [plain, Http.Errors.Elem.tag, localName_eq, hn2]
      · refine ⟨before.map plain, after.map plain, ?_, ?_, ?_⟩
        · simp only [plain, Http.Errors.Elem.children, plains_map, List.map_append, List.map_cons]
        · simp only [plain, Http.Errors.Elem.tag, localName_eq, h1]
        · intro b hb
          obtain ⟨⟨h', i'⟩, hb', rfl⟩ := List.mem_map.1 hb
          simp only [plain, Http.Errors.Elem.tag, localName_eq]
          exact h3 h' i' hb'
      · simp only [plain, Http.Errors.Elem.text, h2, if_neg hne]

theorem schemas_eq {o : Own} (h : o.Apart m) : o.schemas m = o.modelled := by
  have key : ∀ id n, (o.member id n).1.or ((m.target (.member id n)).bind o.xmlName) = (o.member id n).1 := by
    intro id n
    cases hx : (o.member id n).1 with
    | some x => rfl
    | none =>
      cases ht : m.target (.member id n) with
      | none => rfl
      | some target =>
        cases hn : o.xmlName target with
        | none => simp [hn]
        | some y => exact absurd hx (h id n target y ht hn)
  have hk : keyName = "key".toList := by decide +kernel
  have hv : valueName = "value".toList := by decide +kernel
  unfold Own.schemas Own.modelled
  simp only [key, hk, hv]

theorem client_eq {o : Own} (h : o.Apart m) (hv : rd.view = view m o.modelled) : { rd with view := view m (o.schemas m) } = rd := by
  rw [schemas_eq h, ← hv]

/-! ## Theorems -/

/-- **C132**, outputs: whoever calls an operation of an AWS Query service gets the output of the service, if the service says that it
succeeded and writes the output as an element `NameResult`, the first in `NameResponse`.  What else is in the elements makes no
difference.  The names of elements are those in the model of the service (`Own.modelled`), the client takes them from its schemas.
Partial: see `Typed` (C92) for the values; no member of the output itself is an attribute; and no member has a target with `@xmlName`
without having it. -/
theorem C132_output_partial {D : Type} {o : Own} (ha : Agree m o.modelled rd w) (ho : o.Apart m) {cls : Nat} {ms : List (Member F T)} (hs : m.shape cls = some (.struct ms))
    {v : Py F T} {u : Val (Num Dec) F T} (hu : Says m cls v u) (hty : Typed rd w (.shape cls) u)
    (hattr : ∀ x ∈ ms, (o.member cls x.name).2.1 = false) (ns name : Text) (op : Operation) (registry : Registry Nat) (delay : Option D)
    {status : Nat} (hlo : 200 ≤ status) (hhi : status ≤ 299) {body : Elem} {cs : List Elem} (hh : Holds rd w cls u cs)
    (hw : Wrapped (if ms = [] then [name ++ "Response".toList] else [name ++ "Response".toList, name ++ "Result".toList]) body cs) :
    ∃ v', answer m { rd with view := view m (o.schemas m) } ns name op registry cls delay status body = .ok (.output v') ∧ Same v v' := by
  rw [client_eq ho ha.view]
  obtain ⟨v', h1, h2⟩ := receive_holds ha hs hu hty hattr hw hh
  refine ⟨v', ?_, h2⟩
  have hmem : m.members cls = ms := by simp only [Model.members, hs]
  have : responseWrappers name (m.members cls) =
      if ms = [] then [name ++ "Response".toList] else [name ++ "Response".toList, name ++ "Result".toList] := by
    rw [hmem]
    cases ms <;> rfl
  unfold answer
  rw [if_pos ⟨hlo, by omega⟩, this, h1]

/-- **C132**, errors: they get the error of the service, if it says that it failed and writes the error as an element `Error`, the first
in `ErrorResponse`, in which `Code` names it. -/
theorem C132_error_partial {D : Type} {o : Own} (ha : Agree m o.modelled rd w) (ho : o.Apart m) {cls : Nat} {ms : List (Member F T)} (hs : m.shape cls = some (.struct ms))
    {v : Py F T} {u : Val (Num Dec) F T} (hu : Says m cls v u) (hty : Typed rd w (.shape cls) u)
    (hattr : ∀ x ∈ ms, (o.member cls x.name).2.1 = false) (ns name : Text) (hns : ns ≠ [] ∧ '#' ∉ ns) (op : Operation)
    (registry : Registry Nat) (out : Nat) (delay : Option D) {status : Nat} (hst : status < 200 ∨ 299 < status) {body : Elem}
    {cs : List Elem} (hh : Holds rd w cls u cs) (hw : Wrapped ["ErrorResponse".toList, "Error".toList] body cs) {code tgt : Text}
    (hc : HasCode cs code) (hcode : code ≠ [] ∧ '$' ∉ code) (hn : Named ns op registry code tgt) (hget : registry.get tgt = some cls) :
    ∃ v', answer m { rd with view := view m (o.schemas m) } ns name op registry out delay status body = .ok (.raised (.modeled tgt ⟨v', delay⟩)) ∧ Same v v' := by
  rw [client_eq ho ha.view]
  obtain ⟨v', h1, h2⟩ := receive_holds ha hs hu hty hattr hw hh
  refine ⟨v', ?_, h2⟩
  unfold answer
  rw [if_neg (by omega)]
  generalize hf : (fun cls => (⟨true, match receive m rd Http.Errors.errorWrappers cls body with
      | .error e => .error e
      | .ok v => .ok ⟨v, none⟩⟩ : Http.Errors.Class (Py F T) QErr D)) = f
  obtain ⟨hg, -, -⟩ := C32_query ns hns op (registry.map f) (some (plain body)) status delay
  obtain ⟨c, hc1, hc2⟩ := hg code tgt (carries hw hc hcode.1) hcode (by
    unfold Http.Errors.QueryStands
    simp only [Registry.contains_map]
    exact hn)
  rw [Registry.get_map, hget, Option.map_some, Option.some.injEq] at hc1
  subst hc1
  rw [hc2 ⟨v', none⟩ (by rw [← hf]) (by
    rw [← hf]
    have h3 : receive m rd Http.Errors.errorWrappers cls body = .ok v' := h1
    simp only [h3])]
  simp only [Option.or_none]

end Verif.QueryAnswer

import Verif.RestJson.Answer
import Verif.RestJson.PayloadExamples

/-!
# What the caller of an operation gets: outputs and errors with a payload (C131)
-/

set_option autoImplicit false

namespace Verif.RestJson

open Verif.GeneratedSerde (Py Ref Model Shape Simple Typed Same)
open Verif.Timestamps (DateTime)
open Verif.Http.Reading (Source REnv RErr Incoming Content)
open Verif.Http.RoundTrip (received)
open Verif.Http.Errors (Operation isSuccess)
open Verif.Http.RestJson (utf8)
open Verif.Shapes (Registry PlainCode PlainNs)
open Verif.Scalars.Strict (Num)
open Verif.Numerals (natValue natText)

variable {w : World} {nearest : Rat → Num Rat} {cls : Nat} {p : GMember}

/-! ## Specification -/

/-- A body that differs from what the service wrote for the payload, a structure, union, list or map, only in members that the client
does not know and in the order of members, at any depth (`SameContent`). -/
def Unread (w : World) (p : GMember) (written body : Bytes) : Prop :=
  ((∃ ms, w.model.shape p.target = some (.struct ms)) ∨ (∃ s ms, w.model.shape p.target = some (.union s ms)) ∨
    (∃ s e, w.model.shape p.target = some (.list s e)) ∨ (∃ s e, w.model.shape p.target = some (.map s e))) ∧
  w.model.NoStreams ∧ written ≠ [] ∧ body ≠ [] ∧ ∃ j k, w.parse written = some j ∧ w.parse body = some k ∧
    GeneratedSerde.SameContent w.model w.rd.useJsonName p.target j k

/-! ## Theorems -/

/-- Whether the body is empty does not depend on the header for its length. -/
theorem empty_covers (hw : w.Ok nearest) {r : Incoming} {fields : List (Fields.Field Text)} {b : Bytes}
    (h : ∀ f, (fields.find? fun f => w.lower f.name = w.lower "content-length".toList) = some f → f.values = [natText b.length]) :
    Http.Reading.hasEmptyBody (w.renv cls) { r with fields := fields } (some (.bytes b)) = .ok b.isEmpty := by
  unfold Http.Reading.hasEmptyBody
  cases hf : Http.Reading.find (w.renv cls) fields "content-length".toList with
  | none => rfl
  | some f =>
    have h5 : f.values = [natText b.length] := h f hf
    have h6 : (w.renv cls).int (HeaderText.asString [natText b.length]) = some (b.length : Int) := hw.int b.length
    simp only [h5, h6]
    cases b with
    | nil => rfl
    | cons => rfl

/-- Other fields change nothing. -/
theorem receive_carries (hw : w.Ok nearest) (hb : w.Carries cls p) {r : Incoming} {fields : List (Fields.Field Text)} {b : Bytes}
    (h : Covers w cls fields r.fields b) (h0 : Covers w cls r.fields r.fields b) :
    w.receive cls { r with fields := fields } (some (.bytes b)) = w.receive cls r (some (.bytes b)) := by
  have he : Http.Reading.hasEmptyBody (w.renv cls) { r with fields := fields } (some (.bytes b)) =
      Http.Reading.hasEmptyBody (w.renv cls) r (some (.bytes b)) :=
    (empty_covers hw h.2.1).trans (empty_covers (r := r) hw h0.2.1).symm
  obtain ⟨e1, e2, e3⟩ := carries_matcher hb
  have hone : ∀ x ∈ w.model.members cls,
      Http.Reading.readMember (w.renv cls) { r with fields := fields } (some (.bytes b))
        (Http.Matcher.of Http.matchResponse (w.members cls)) (w.member x) =
      Http.Reading.readMember (w.renv cls) r (some (.bytes b)) (Http.Matcher.of Http.matchResponse (w.members cls)) (w.member x) := by
    intro x hx
    unfold Http.Reading.readMember
    by_cases hxp : x = p
    · rw [hxp]
      simp only [carries_loc hb, e1, e2, Http.Reading.shouldReadPayload, he]
      rfl
    · rcases carries_others hb hx hxp with ⟨_, hl⟩ | ⟨_, k, hk, hl⟩ | ⟨_, q, hq, hl⟩
      · simp only [hl]
      · have hk' : (w.member x).header = some k := hk
        simp only [hl, hk', Option.getD_some]
        have : Http.Reading.find (w.renv cls) fields k = Http.Reading.find (w.renv cls) r.fields k := h.1 x hx k hk
        rw [this]
      · simp only [hl, prefix_covers h hx hq]
  have hall : ∀ xs : List GMember, (∀ x ∈ xs, x ∈ w.model.members cls) →
      Http.Reading.readMembers (w.renv cls) { r with fields := fields } (some (.bytes b))
        (Http.Matcher.of Http.matchResponse (w.members cls)) (xs.map w.member) =
      Http.Reading.readMembers (w.renv cls) r (some (.bytes b)) (Http.Matcher.of Http.matchResponse (w.members cls))
        (xs.map w.member) := by
    intro xs
    induction xs with
    | nil => exact fun _ => rfl
    | cons x xs ih =>
      intro hx
      simp only [List.map_cons, Http.Reading.readMembers, hone x (hx x List.mem_cons_self),
        ih fun y hy => hx y (List.mem_cons_of_mem _ hy)]
  have h2 : Http.Reading.readStruct (w.renv cls) { r with fields := fields } (some (.bytes b)) (w.members cls) =
      Http.Reading.readStruct (w.renv cls) r (some (.bytes b)) (w.members cls) := by
    have := hall (w.model.members cls) fun _ h => h
    rw [show (w.model.members cls).map w.member = w.members cls from rfl] at this
    unfold Http.Reading.readStruct Http.Reading.readBody
    simp only [this, e3, Bool.false_eq_true, if_false]
  unfold World.receive
  rw [h2]

/-- Calls of the consumer that differ in the document that is read for the payload. -/
def Alike (w : World) (p : GMember) (bytes body : Bytes) (u u' : Http.Member × Source P) : Prop :=
  u = u' ∨ (u = (w.member p, .document bytes) ∧ u' = (w.member p, .document body))

theorem consume_alike (hw : w.Ok nearest) (hb : w.Carries cls p) {bytes body : Bytes}
    (hread : ∀ v, w.readDocument cls p bytes = .ok v → w.readDocument cls p body = .ok v)
    {calls calls' : List (Http.Member × Source P)} (h : List.Forall₂ (Alike w p bytes body) calls calls') :
    ∀ kwargs kw, w.consume cls kwargs calls = .ok kw → w.consume cls kwargs calls' = .ok kw := by
  induction h with
  | nil => intro kwargs kw h; exact h
  | @cons u u' us us' hu _ ih =>
    intro kwargs kw h
    rcases hu with rfl | ⟨rfl, rfl⟩
    · obtain ⟨m, src⟩ := u
      unfold World.consume at h ⊢
      cases hf : (w.model.members cls).find? fun x => x.name = m.name with
      | none => simp only [hf] at h; cases h
      | some x =>
        simp only [hf] at h ⊢
        cases hv : w.readSource cls x src with
        | error e => simp only [hv] at h; cases h
        | ok v =>
          simp only [hv] at h ⊢
          exact ih _ _ h
    · have hfind : (w.model.members cls).find? (fun y => y.name = (w.member p).name) = some p := GeneratedSerde.find_name hw.names hb.member
      unfold World.consume at h ⊢
      simp only [hfind] at h ⊢
      cases hd : w.readDocument cls p bytes with
      | error e => simp only [World.readSource, hd] at h; cases h
      | ok v =>
        simp only [World.readSource, hd, hread v hd] at h ⊢
        exact ih _ _ h

/-- A body with members that the client does not know is read alike. -/
theorem receive_other (hw : w.Ok nearest) (hb : w.Carries cls p) {r r' : Incoming} {bytes body : Bytes}
    (hstatus : r'.status = r.status) (h : Covers w cls r'.fields r.fields body) (h0 : Covers w cls r.fields r.fields bytes)
    (hw' : Unread w p bytes body) {v : P} (hv : w.receive cls r (some (.bytes bytes)) = .ok v) :
    w.receive cls r' (some (.bytes body)) = .ok v := by
  obtain ⟨hshape, hno, hn1, hn2, j, k, hj, hk, hjk⟩ := hw'
  obtain ⟨hsh, hdoc⟩ := httpShape_structured hshape
  have he : Http.Reading.hasEmptyBody (w.renv cls) r (some (.bytes bytes)) = .ok false :=
    (empty_covers (r := r) hw h0.2.1).trans (by rw [List.isEmpty_eq_false_iff.2 hn1])
  have he' : Http.Reading.hasEmptyBody (w.renv cls) r' (some (.bytes body)) = .ok false :=
    (empty_covers (r := r') hw h.2.1).trans (by rw [List.isEmpty_eq_false_iff.2 hn2])
  have hsh1 : (w.member p).shape = .list ∨ (w.member p).shape = .map ∨ (w.member p).shape = .union ∨
      (w.member p).shape = .structure := hsh.elim (fun h => by tauto) fun h => by tauto
  have hsh2 : ¬ ((w.member p).shape = .blob ∨ (w.member p).shape = .string ∨ (w.member p).shape = .enum) := by
    rintro (h | h | h) <;> rw [h] at hsh1 <;> simp at hsh1
  obtain ⟨e1, e2, e3⟩ := carries_matcher hb
  have hone : ∀ x ∈ w.model.members cls, ∃ c c',
      Http.Reading.readMember (w.renv cls) r (some (.bytes bytes)) (Http.Matcher.of Http.matchResponse (w.members cls))
        (w.member x) = .ok c ∧
      Http.Reading.readMember (w.renv cls) r' (some (.bytes body)) (Http.Matcher.of Http.matchResponse (w.members cls))
        (w.member x) = .ok c' ∧ List.Forall₂ (Alike w p bytes body) c c' := by
    intro x hx
    have same : ∀ c : List (Http.Member × Source P), List.Forall₂ (Alike w p bytes body) c c :=
      fun c => List.forall₂_same.2 fun _ _ => .inl rfl
    unfold Http.Reading.readMember
    by_cases hxp : x = p
    · rw [hxp]
      simp only [carries_loc hb, e1, e2, Http.Reading.shouldReadPayload, if_pos hsh1, he, he', Except.map, Bool.not_false,
        Http.Reading.payloadSource, if_neg hsh2, Http.Reading.bodyBytes, Option.getD_some]
      exact ⟨_, _, rfl, rfl, .cons (.inr ⟨rfl, rfl⟩) .nil⟩
    · rcases carries_others hb hx hxp with ⟨_, hl⟩ | ⟨_, k, hk, hl⟩ | ⟨_, q, hq, hl⟩
      · simp only [hl, hstatus]
        exact ⟨_, _, rfl, rfl, same _⟩
      · have hk' : (w.member x).header = some k := hk
        simp only [hl, hk', Option.getD_some]
        have : Http.Reading.find (w.renv cls) r'.fields k = Http.Reading.find (w.renv cls) r.fields k := h.1 x hx k hk
        rw [this]
        cases Http.Reading.find (w.renv cls) r.fields k with
        | none => exact ⟨_, _, rfl, rfl, same _⟩
        | some f =>
          simp only
          by_cases hs : (w.member x).shape = .list
          · rw [if_pos hs]; exact ⟨_, _, rfl, rfl, same _⟩
          · rw [if_neg hs]; exact ⟨_, _, rfl, rfl, same _⟩
      · simp only [hl, prefix_covers h hx hq]
        exact ⟨_, _, rfl, rfl, same _⟩
  have hall : ∀ xs : List GMember, (∀ x ∈ xs, x ∈ w.model.members cls) → ∃ c c',
      Http.Reading.readMembers (w.renv cls) r (some (.bytes bytes)) (Http.Matcher.of Http.matchResponse (w.members cls))
        (xs.map w.member) = .ok c ∧
      Http.Reading.readMembers (w.renv cls) r' (some (.bytes body)) (Http.Matcher.of Http.matchResponse (w.members cls))
        (xs.map w.member) = .ok c' ∧ List.Forall₂ (Alike w p bytes body) c c' := by
    intro xs
    induction xs with
    | nil => exact fun _ => ⟨[], [], rfl, rfl, .nil⟩
    | cons x xs ih =>
      intro hx
      obtain ⟨c, c', h1, h2, h3⟩ := hone x (hx x List.mem_cons_self)
      obtain ⟨cs, cs', h4, h5, h6⟩ := ih fun y hy => hx y (List.mem_cons_of_mem _ hy)
      exact ⟨c ++ cs, c' ++ cs', by simp only [List.map_cons, Http.Reading.readMembers, h1, h4],
        by simp only [List.map_cons, Http.Reading.readMembers, h2, h5], List.rel_append h3 h6⟩
  obtain ⟨c, c', h1, h2, h3⟩ := hall (w.model.members cls) fun _ h => h
  rw [show (w.model.members cls).map w.member = w.members cls from rfl] at h1 h2
  have hread : ∀ v, w.readDocument cls p bytes = .ok v → w.readDocument cls p body = .ok v := by
    intro v hv
    have ht := GeneratedSerde.target_member hw.names hb.member
    have ha := GeneratedSerde.same_content hw.names hjk
    have sz : ∀ x : Json.Json, Json.size x ≤ 2 * (Json.events [] x).length + 4 := fun x => by
      have := Json.size_events x []
      omega
    unfold World.readDocument at hv ⊢
    rw [hj] at hv
    rw [hk]
    simp only at hv ⊢
    split at hv
    · cases hv
    · next y hy =>
      cases hv
      obtain ⟨v, rest⟩ := y
      rw [← List.append_nil (Json.events [] j)] at hy
      have h7 := (GeneratedSerde.any hw.names hno hw.view j p.target _ [] [] _ ht (by simpa using sz j) (fun h => absurd h hdoc) v rest).1 hy
      have h8 := (GeneratedSerde.any hw.names hno hw.view k p.target _ [] [] (2 * (Json.events [] k).length + 4) ht (sz k)
        (fun h => absurd h hdoc) v []).2 ⟨rfl, (ha.1 _ _).1 h7.2⟩
      rw [List.append_nil] at h8
      simp only [h8]
  unfold World.receive Http.Reading.readStruct Http.Reading.readBody at hv ⊢
  simp only [h1, h2, e3, Bool.false_eq_true, if_false, List.append_nil] at hv ⊢
  split at hv
  · cases hv
  · next kw hkw =>
    simp only [consume_alike hw hb hread h3 _ _ hkw]
    exact hv

/-- What the caller gets from a response with a payload, with other headers and members. -/
theorem payload_received (hw : w.Ok nearest) (hb : w.Carries cls p) {ms : List GMember}
    (hs : w.model.shape cls = some (.struct ms)) {value : GMember → P} (hx : ∀ x ∈ ms, x ≠ p → Field w nearest cls x (value x))
    (hp : PayloadOk w cls p (value p)) {v : P}
    (hv : v = .object cls ((w.model.attributes ms).map fun x => (x.attr, value x))) {n : Nat} (hn : v.depth ≤ n)
    (errorStatus : Option Text) (code : Text) (omitEmpty : Bool) :
    ∃ r bytes, w.respond n cls v errorStatus code omitEmpty = .ok r ∧ r.body = .bytes bytes ∧
      (∀ b, value p = .bytes b → bytes = b.map UInt8.ofFin) ∧ (∀ t, value p = .str t → bytes = utf8 t) ∧
      Covers w cls r.fields r.fields bytes ∧
      ∀ fields body, Covers w cls fields r.fields body → body = bytes ∨ Unread w p bytes body →
        ∃ v', w.receive cls { received r body with fields := fields } (some (.bytes body)) = .ok v' ∧ Same v v' := by
  obtain ⟨r, bytes, h1, h2, h3, h4, hd, hl, h5⟩ := payload_core hw hb hs hx hp hv hn errorStatus code omitEmpty
  have h0 : Covers w cls r.fields r.fields bytes := by
    refine ⟨fun _ _ _ _ => rfl, fun f hf => ?_, fun _ _ _ _ => rfl⟩
    rcases Http.Reading.find_spec (w.renv cls) r.fields hd "content-length".toList with ⟨h, _⟩ | ⟨f', h5, h6, h7, h8⟩
    · rw [show Http.Reading.find (w.renv cls) r.fields "content-length".toList = some f from hf] at h
      cases h
    · rw [show Http.Reading.find (w.renv cls) r.fields "content-length".toList = some f from hf] at h5
      cases h5
      exact h8.trans hl
  refine ⟨r, bytes, h1, h2, h3, h4, h0, fun fields body hf hin => ?_⟩
  obtain ⟨v', h6, h7⟩ := h5 _ (.inr rfl)
  rcases hin with rfl | hin
  · exact ⟨v', by rw [receive_carries hw hb (r := received r body) hf h0, h6], h7⟩
  · exact ⟨v', receive_other (r := received r bytes) (r' := { received r body with fields := fields }) hw hb rfl hf h0 hin h6, h7⟩

/-- **C131**, outputs with a payload: whoever calls an operation gets the output of a service that says that it succeeded, whatever
other headers there are, as long as a length is that of the body, and whatever members that the class does not have, at any depth, are
in a body that is JSON. A blob that is the payload is the body, and so is a string, in UTF-8.
Missing: what is missing in `C129_payload_partial`. -/
theorem C131_payload_partial {D : Type} (hw : w.Ok nearest) (hb : w.Carries cls p) {ms : List GMember}
    (hs : w.model.shape cls = some (.struct ms)) {value : GMember → P} (hx : ∀ x ∈ ms, x ≠ p → Field w nearest cls x (value x))
    (hp : PayloadOk w cls p (value p)) {v : P}
    (hv : v = .object cls ((w.model.attributes ms).map fun x => (x.attr, value x))) {n : Nat} (hn : v.depth ≤ n)
    (errorStatus : Option Text) (code : Text) (omitEmpty : Bool) :
    ∃ r bytes, w.respond n cls v errorStatus code omitEmpty = .ok r ∧ r.body = .bytes bytes ∧
      (∀ b, value p = .bytes b → bytes = b.map UInt8.ofFin) ∧ (∀ t, value p = .str t → bytes = utf8 t) ∧
      Covers w cls r.fields r.fields bytes ∧
      ((∀ x ∈ w.model.members cls, (w.traits x).responseCode = false) → r.status = errorStatus.getD code) ∧
      ∀ (ns : Text) (op : Operation) (registry : Registry Nat) (delay : Option D) (fields : List (Fields.Field Text))
        (body : Bytes), Covers w cls fields r.fields body → body = bytes ∨ Unread w p bytes body →
        200 ≤ natValue r.status → natValue r.status < 300 →
        ∃ v', w.answer ns op registry cls delay { received r body with fields := fields } body = .ok (.output v') ∧ Same v v' := by
  obtain ⟨r, bytes, h1, h2, h3, h4, h0, h5⟩ := payload_received hw hb hs hx hp hv hn errorStatus code omitEmpty
  refine ⟨r, bytes, h1, h2, h3, h4, h0, respond_status h1, fun ns op registry delay fields body hf hin hlo hhi => ?_⟩
  obtain ⟨v', h6, h7⟩ := h5 fields body hf hin
  refine ⟨v', ?_, h7⟩
  unfold World.answer
  rw [if_pos (by simp [isSuccess, received, hlo, hhi]), h6]

/-- **C131**, errors with a payload: whoever calls an operation gets the error of a service that says that it failed and names the
error in `x-amzn-errortype`, or in the body, if that is JSON and has a name, whatever other headers and members there are.
Missing: what is missing in `C129_payload_partial`. -/
theorem C131_error_payload_partial {D : Type} (hw : w.Ok nearest) (hb : w.Carries cls p) {ms : List GMember}
    (hs : w.model.shape cls = some (.struct ms)) {value : GMember → P} (hx : ∀ x ∈ ms, x ≠ p → Field w nearest cls x (value x))
    (hp : PayloadOk w cls p (value p)) {v : P}
    (hv : v = .object cls ((w.model.attributes ms).map fun x => (x.attr, value x))) {n : Nat} (hn : v.depth ≤ n)
    (errorStatus : Option Text) (code : Text) (omitEmpty : Bool) :
    ∃ r bytes, w.respond n cls v errorStatus code omitEmpty = .ok r ∧ r.body = .bytes bytes ∧
      (∀ b, value p = .bytes b → bytes = b.map UInt8.ofFin) ∧ (∀ t, value p = .str t → bytes = utf8 t) ∧
      Covers w cls r.fields r.fields bytes ∧
      ((∀ x ∈ w.model.members cls, (w.traits x).responseCode = false) → r.status = errorStatus.getD code) ∧
      ∀ (ns : Text) (op : Operation) (registry : Registry Nat) (out : Nat) (delay : Option D) (sent : Shapes.Sent) (dns tgt : Text)
        (fields : List (Fields.Field Text)) (body : Bytes), Covers w cls fields r.fields body →
        body = bytes ∨ Unread w p bytes body → ¬ (200 ≤ natValue r.status ∧ natValue r.status < 300) →
        PlainCode sent.code → (∀ n, sent.ns = some n → PlainNs n) → PlainNs dns →
        Names w ns op fields body sent.text dns → Named op dns registry sent tgt → registry.get tgt = some cls →
        ∃ v', w.answer ns op registry out delay { received r body with fields := fields } body =
          .ok (.raised (.modeled tgt ⟨v', delay⟩)) ∧ Same v v' := by
  obtain ⟨r, bytes, h1, h2, h3, h4, h0, h5⟩ := payload_received hw hb hs hx hp hv hn errorStatus code omitEmpty
  refine ⟨r, bytes, h1, h2, h3, h4, h0, respond_status h1,
    fun ns op registry out delay sent dns tgt fields body hf hin hst hc hns hon hnames hnamed hget => ?_⟩
  obtain ⟨v', h6, h7⟩ := h5 fields body hf hin
  exact ⟨v', answer_raised h6 hst hc hns hon hnames hnamed hget, h7⟩

namespace PayloadExample

/-- The hypotheses are met: `C131_payload_partial` says this of a structure that is the payload. -/
example : ∃ r bytes, world.respond 9 0 (.object 0 ((model.attributes (model.members 0)).map fun x => (x.attr, value thing x))) none
      "200".toList true = .ok r ∧ r.body = .bytes bytes ∧
    (∀ b, value thing item = .bytes b → bytes = b.map UInt8.ofFin) ∧ (∀ t, value thing item = .str t → bytes = utf8 t) ∧
    Covers world 0 r.fields r.fields bytes ∧
    ((∀ x ∈ world.model.members 0, (world.traits x).responseCode = false) → r.status = "200".toList) ∧
    ∀ (ns : Text) (op : Operation) (registry : Registry Nat) (delay : Option Nat) (fields : List (Fields.Field Text))
      (body : Bytes), Covers world 0 fields r.fields body → body = bytes ∨ Unread world item bytes body →
      200 ≤ natValue r.status → natValue r.status < 300 →
      ∃ v', world.answer ns op registry 0 delay { received r body with fields := fields } body = .ok (.output v') ∧
        Same (.object 0 ((model.attributes (model.members 0)).map fun x => (x.attr, value thing x))) v' :=
  C131_payload_partial world_ok carries_item rfl (value_item thing) (.value (.inl ⟨_, rfl⟩) thing_typed) rfl (by decide +kernel) none
    "200".toList true

theorem no_streams : model.NoStreams := by
  have h : ∀ i, model.members i = [] ∨ i = 0 ∨ i = 4 ∨ i = 5 := by
    intro i
    match i with
    | 0 => exact .inr (.inl rfl)
    | 4 => exact .inr (.inr (.inl rfl))
    | 5 => exact .inr (.inr (.inr rfl))
    | 1 | 2 | 3 | 6 | _ + 7 => exact .inl rfl
  intro i ms hs x hx
  rcases h i with h | rfl | rfl | rfl
  · simp only [Model.members, hs] at h
    rw [h] at hx; cases hx
  all_goals
    cases hs
    revert x
    decide +kernel

/-- What the service writes for the item. -/
def written : List (Json.Member × Json.Call Double DateTime) :=
  [(⟨"name".toList, some "n".toList⟩, .string "é\"".toList), (⟨"tags".toList, none⟩, .list [.string "a".toList, .string []])]

theorem responds : world.respond 9 0 (.object 0 ((model.attributes (model.members 0)).map fun x => (x.attr, value thing x))) none
    "200".toList true = .ok ⟨[⟨"X-Tag".toList, ["a, b".toList], .header⟩, ⟨"content-type".toList, ["application/json".toList], .header⟩,
      ⟨"content-length".toList, [natText 28], .header⟩], "201".toList,
      .bytes (utf8 (Json.write world.st [] (.struct written)))⟩ := by
  with_unfolding_all rfl

/-- The item with a member that the client does not know. -/
noncomputable def newer : Bytes := utf8 (Json.write world.st [] (.struct ((⟨"size".toList, none⟩, .string "new".toList) :: written)))

theorem written_parsed : world.parse (utf8 (Json.write world.st [] (.struct written))) =
    some (.obj [("n".toList, .str "é\"".toList), ("tags".toList, .arr [.str "a".toList, .str []])]) := by
  obtain ⟨j, h1, ⟨es, rfl, _, _, rfl, rfl, _, _, rfl, ⟨_, rfl, _, _, rfl, rfl, _, _, rfl, rfl, rfl⟩, rfl⟩, -⟩ :=
    Json.C43_well_formed_partial world.st world_ok.settings (.struct written) ⟨trivial, ⟨trivial, trivial, trivial⟩, trivial⟩
  exact world_ok.parse _ _ h1

theorem newer_parsed : world.parse newer = some (.obj [("size".toList, .str "new".toList), ("n".toList, .str "é\"".toList),
    ("tags".toList, .arr [.str "a".toList, .str []])]) := by
  obtain ⟨j, h1, ⟨es, rfl, _, _, rfl, rfl, _, _, rfl, rfl, _, _, rfl, ⟨_, rfl, _, _, rfl, rfl, _, _, rfl, rfl, rfl⟩, rfl⟩, -⟩ :=
    Json.C43_well_formed_partial world.st world_ok.settings
      (.struct ((⟨"size".toList, none⟩, .string "new".toList) :: written)) ⟨trivial, trivial, ⟨trivial, trivial, trivial⟩, trivial⟩
  exact world_ok.parse _ _ h1

theorem item_newer {rest : List (Text × Json.Json)} : GeneratedSerde.SameContent model true 4 (.obj rest)
    (.obj (("size".toList, .str "new".toList) :: rest)) := by
  refine .object (.inl ⟨_, rfl⟩) (.added (by decide +kernel) ?_)
  induction rest with
  | nil => exact .nil
  | cons e rest ih => exact .kept (fun _ _ _ => .same) ih

/-- The client of an older model gets the output, although the item in the body has a member that it does not know. -/
example : ∃ v',
    world.answer "com.example".toList Example.operation (.alone []) 0 (none : Option Nat)
      ⟨"201".toList, [⟨"X-Tag".toList, ["a, b".toList], .header⟩, ⟨"X-New".toList, ["1".toList], .header⟩], .bytes newer⟩ newer =
      .ok (.output v') ∧
    Same (.object 0 ((model.attributes (model.members 0)).map fun x => (x.attr, value thing x))) v' := by
  obtain ⟨r, bytes, h1, hbytes, -, -, -, -, h4⟩ := C131_payload_partial (D := Nat) world_ok carries_item rfl (value_item thing)
    (.value (.inl ⟨_, rfl⟩) thing_typed) rfl (n := 9) (by decide +kernel) none "200".toList true
  cases Except.ok.inj (responds.symm.trans h1)
  cases hbytes
  refine h4 "com.example".toList Example.operation _ none
    [⟨"X-Tag".toList, ["a, b".toList], .header⟩, ⟨"X-New".toList, ["1".toList], .header⟩] newer ⟨?_, ?_⟩
    (.inr ⟨.inl ⟨_, rfl⟩, no_streams, ?_, ?_, _, _, written_parsed, newer_parsed, item_newer⟩) ?_ ?_
  · intro x _ name hn
    rw [(only_tag hn).2]
    decide +kernel
  · refine ⟨fun f hf => ?_, fun _ _ _ h => nomatch h⟩
    rw [List.find?_eq_none.2 (by decide +kernel)] at hf
    cases hf
  · decide +kernel
  · decide +kernel
  · decide +kernel
  · decide +kernel

/-- Were the item a member of the body, there could be another member in it as well: this is what `Within` says of such bodies. -/
example : Adds world 0 [("item".toList, .obj [("n".toList, .str [])])]
    [("new".toList, .null), ("item".toList, .obj [("size".toList, .str "new".toList), ("n".toList, .str [])])] := by
  refine .extra (by decide +kernel) (.inside no_streams (fun x hx hk => ?_) .nil)
  have : x.target = 4 := by
    revert x
    decide +kernel
  rw [this]
  exact item_newer

/-- An error with its status and a blob for the payload. -/
def failed (x : GMember) : P :=
  if x.name = "tag".toList then .str "a, b".toList else if x.name = "code".toList then .int 404 else .bytes [0, 255]

theorem failed_field : ∀ x ∈ model.members 5, x ≠ data → Field world (fun q => .finite (Verif.EventStream.rnd q)) 5 x (failed x) := by
  intro x hx hne
  replace hx : x ∈ [(⟨"tag".toList, "tag".toList, none, 1, none, true, none⟩ : GMember),
    ⟨"code".toList, "code".toList, none, 3, none, true, none⟩, data] := hx
  rcases List.mem_cons.1 hx with rfl | hx
  · exact tag_field 5
  · rcases List.mem_cons.1 hx with rfl | hx
    · exact .status (t := .integer) (by decide +kernel) rfl (by simp)
    · exact absurd (List.mem_singleton.1 hx) hne

theorem failed_responds : world.respond 9 5 (.object 5 ((model.attributes (model.members 5)).map fun x => (x.attr, failed x)))
    none "200".toList true =
      .ok ⟨[⟨"X-Tag".toList, ["a, b".toList], .header⟩, ⟨"content-type".toList, ["application/octet-stream".toList], .header⟩,
        ⟨"content-length".toList, [natText 2], .header⟩], "404".toList, .bytes [0, 255]⟩ := by
  with_unfolding_all rfl

/-- The hypotheses are met: `C131_error_payload_partial` says that the caller gets the error with the blob. -/
example : ∃ v',
    world.answer "com.example".toList Example.operation (.alone [("com.example#Missing".toList, 5)]) 0 (some 3)
      ⟨"404".toList, [⟨"X-Amzn-ErrorType".toList, ["Missing".toList], .header⟩, ⟨"X-Tag".toList, ["a, b".toList], .header⟩],
        .bytes [0, 255]⟩ [0, 255] =
      .ok (.raised (.modeled "com.example#Missing".toList ⟨v', some 3⟩)) ∧
    Same (.object 5 ((model.attributes (model.members 5)).map fun x => (x.attr, failed x))) v' := by
  obtain ⟨r, bytes, h1, hbytes, -, -, -, -, h4⟩ := C131_error_payload_partial (D := Nat) world_ok carries_data (ms := model.members 5)
    rfl failed_field (.blob rfl) rfl (n := 9) (by decide +kernel) none "200".toList true
  cases Except.ok.inj (failed_responds.symm.trans h1)
  cases hbytes
  refine h4 "com.example".toList Example.operation _ 0 (some 3) ⟨none, "Missing".toList, none⟩ Example.operation.ns _
    [⟨"X-Amzn-ErrorType".toList, ["Missing".toList], .header⟩, ⟨"X-Tag".toList, ["a, b".toList], .header⟩] _
    ⟨?_, ?_⟩ (.inl rfl) ?_ ?_ ?_ ?_ (.header _ [] (List.find?_cons_of_pos (by decide +kernel)) ?_) ?_ ?_
  · intro x _ name hn
    rw [(only_tag hn).2]
    decide +kernel
  · refine ⟨fun f hf => ?_, fun _ _ _ h => nomatch h⟩
    rw [List.find?_eq_none.2 (by decide +kernel)] at hf
    cases hf
  · decide +kernel
  · refine ⟨?_, ?_, ?_, ?_⟩ <;> decide +kernel
  · intro n h; cases h
  · refine ⟨?_, ?_, ?_⟩ <;> decide +kernel
  · decide +kernel
  · exact .inl ⟨by decide +kernel, by decide +kernel⟩
  · rfl

end PayloadExample

end Verif.RestJson

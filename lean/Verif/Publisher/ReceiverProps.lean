import Verif.Publisher.Props
import Verif.EventStream.Props

/-! # The event receiver (C10) -/

set_option autoImplicit false

namespace Verif.Publisher
open Verif.EventStream Verif.EventStream.Spec Verif.Publisher.Spec

namespace Spec

/-- What a call that delivers event `e` ends with. -/
def delivery {α ε : Type} (deser : Event → Except ε α) (e : Event) : RRes α ε :=
  match deser e with
  | .ok v => .value v
  | .error x => .raised x

/-- What the call that meets a malformed frame ends with. -/
def failure {α ε : Type} (x : Err) : RRes α ε := if x.isEventError then .eventError x else .osError

/-- The result of the `i`-th call of `receive` on a stream of the events `es` that ends with `fin`:
the `i`-th event; then the failure, once, if there is one; then nothing. -/
def nth {α ε : Type} (deser : Event → Except ε α) (es : List Event) (fin : Except Err Unit) (i : Nat) :
    RRes α ε :=
  match es[i]?, fin with
  | some e, _ => delivery deser e
  | none, .error x => if i = es.length then failure x else .none
  | none, .ok _ => .none

/-- Whether a result reports a malformed frame. -/
def isFailure {α ε : Type} : RRes α ε → Bool
  | .eventError _ | .osError => true
  | _ => false

end Spec

theorem decode_none_rest {src rest : Bytes} (h : Event.decode src = (.ok none, rest)) :
    src = [] ∧ rest = [] := by
  have h1 := decode_none h
  subst h1
  rw [decode_nil] at h
  cases h
  exact ⟨rfl, rfl⟩

theorem runR_closed {α ε : Type} (deser : Event → Except ε α) (s : RSt) (h : s.closed = true)
    (ops : List ROp) : (∀ r ∈ (runR deser s ops).1, r = .none) ∧ (runR deser s ops).2 = s := by
  induction ops with
  | nil => simp [runR]
  | cons o ops ih =>
    cases o with
    | close =>
      have : s.close = s := by simp [RSt.close, h]
      simp only [runR, this]
      exact ih
    | receive =>
      have : receive deser s = (.none, s) := by simp [receive, h]
      simp only [runR, this]
      exact ⟨by simpa using ih.1, ih.2⟩

theorem runR_append {α ε : Type} (deser : Event → Except ε α) (s : RSt) (a b : List ROp) :
    runR deser s (a ++ b) = ((runR deser s a).1 ++ (runR deser (runR deser s a).2 b).1,
      (runR deser (runR deser s a).2 b).2) := by
  induction a generalizing s with
  | nil => simp [runR]
  | cons o a ih =>
    cases o with
    | close => simp only [List.cons_append, runR, ih]
    | receive => simp [runR, ih]

/-- **C10.** The calls of `receive` deliver the events of the source in stream order, each once; at the
first malformed frame one call reports it, and every other call returns nothing. -/
theorem C10_deliveries {α ε : Type} (deser : Event → Except ε α) (src : Bytes) (n : Nat) :
    (runR deser { src } (List.replicate n .receive)).1 =
      (List.range n).map (nth deser (decodeAll src).1 (decodeAll src).2) := by
  induction n generalizing src with
  | zero => rfl
  | succ n ih =>
    rw [List.replicate_succ, List.range_succ_eq_map, List.map_cons, List.map_map]
    match hd : Event.decode src with
    | (.error x, rest) =>
      have hda : decodeAll src = ([], .error x) := by rw [decodeAll]; split <;> simp_all
      rw [hda]
      have hr : receive deser { src } = (Spec.failure x, RSt.close { src := rest }) := by
        simp [receive, hd, Spec.failure]
      simp only [runR, hr]
      congr 1
      obtain ⟨h1, _⟩ := runR_closed deser (RSt.close { src := rest }) rfl (List.replicate n .receive)
      apply List.ext_getElem
      · have : ∀ (s : RSt) (k : Nat), (runR deser s (List.replicate k .receive)).1.length = k := by
          intro s k
          induction k generalizing s with
          | zero => rfl
          | succ k ih => simp [List.replicate_succ, runR, ih]
        simp [this]
      · intro i h2 h3
        rw [h1 _ (List.getElem_mem h2)]
        simp [nth]
    | (.ok none, rest) =>
      obtain ⟨rfl, rfl⟩ := decode_none_rest hd
      have hda : decodeAll [] = ([], .ok ()) := decodeAll_nil
      have hr : receive deser { src := [] } = (.none, { src := [] }) := by simp [receive, hd]
      have := ih []
      rw [hda] at this ⊢
      simp only [runR, hr, this]
      rfl
    | (.ok (some e), rest) =>
      rw [decodeAll_some hd]
      have hr : receive deser { src } = (delivery deser e, { src := rest }) := by
        unfold receive delivery
        simp only [hd]
        cases deser e <;> rfl
      simp only [runR, hr, ih rest]
      congr 1
      apply List.map_congr_left
      intro i _
      simp [nth]

/-- **C10.** Receiving from a source that holds the encodings of messages delivers exactly these
messages, in order and each once, and then nothing. -/
theorem C10_delivers_messages {α ε : Type} (d : EventMessage → Except ε α) (ms : List EventMessage)
    (fs : List Bytes) (henc : ms.map EventMessage.encode = fs.map Except.ok)
    (hw : ∀ m ∈ ms, ∀ x ∈ m.headers, WholeSecond x.2) (k : Nat) :
    (runR (fun e => d e.message) { src := fs.flatten } (List.replicate (ms.length + k) .receive)).1 =
      ms.map (fun m => match d m with | .ok v => .value v | .error x => .raised x) ++
        List.replicate k .none := by
  obtain ⟨h1, h2⟩ := C05_stream ms fs henc hw
  rw [C10_deliveries, h2]
  generalize (decodeAll fs.flatten).1 = es at h1
  subst h1
  apply List.ext_getElem
  · simp
  · intro i h3 h4
    simp only [List.length_map] at h3 h4 ⊢
    simp only [List.getElem_map, List.getElem_range, nth]
    by_cases hi : i < es.length
    · rw [List.getElem?_eq_getElem hi, List.getElem_append_left (by simpa using hi)]
      simp [delivery]
    · rw [List.getElem?_eq_none (by omega), List.getElem_append_right (by simpa using hi)]
      simp

/-- **C10.** After a call of `close`, or after a malformed frame was reported, every `receive` returns
nothing, whatever else is called. -/
theorem C10_nothing_after_close {α ε : Type} (deser : Event → Except ε α) (src : Bytes)
    (before after : List ROp) :
    ∀ r ∈ (runR deser (runR deser { src } (before ++ [.close])).2 after).1, r = .none := by
  apply (runR_closed deser _ _ after).1
  rw [runR_append]
  simp only [runR, RSt.close]
  split <;> simp_all

theorem runR_closed_mono {α ε : Type} (deser : Event → Except ε α) (s : RSt) (ops : List ROp)
    (h : ∃ r ∈ (runR deser s ops).1, isFailure r = true) : (runR deser s ops).2.closed = true := by
  induction ops generalizing s with
  | nil => simp [runR] at h
  | cons o ops ih =>
    cases o with
    | close => exact ih _ h
    | receive =>
      obtain ⟨r, hr, hf⟩ := h
      simp only [runR, List.mem_cons] at hr ⊢
      rcases hr with rfl | hr
      · have hc : (receive deser s).2.closed = true := by
          unfold receive at hf ⊢
          split
          · rename_i h; exact h
          · rename_i h
            rw [if_neg h] at hf
            split
            · simp only [RSt.close]; split <;> simp_all
            · rename_i heq; rw [heq] at hf; cases hf
            · rename_i e rest heq
              rw [heq] at hf
              simp only at hf
              split at hf <;> cases hf
        rw [(runR_closed deser _ hc ops).2]
        exact hc
      · exact ih _ ⟨r, hr, hf⟩

/-- **C10.** After a malformed frame was reported every `receive` returns nothing. -/
theorem C10_nothing_after_failure {α ε : Type} (deser : Event → Except ε α) (src : Bytes)
    (before after : List ROp) (h : ∃ r ∈ (runR deser { src } before).1, isFailure r = true) :
    ∀ r ∈ (runR deser (runR deser { src } before).2 after).1, r = .none :=
  (runR_closed deser _ (runR_closed_mono deser _ _ h) after).1

/-- **C10.** The source is closed exactly once if `close` was called or a malformed frame was reported,
and not at all otherwise. -/
theorem C10_source_closed_once {α ε : Type} (deser : Event → Except ε α) (src : Bytes) (ops : List ROp) :
    (runR deser { src } ops).2.sourceClosed =
      if ops.contains .close || (runR deser { src } ops).1.any isFailure then 1 else 0 := by
  have hcl : ∀ (s : RSt) (ops : List ROp), s.closed = true → (runR deser s ops).2 = s :=
    fun s ops h => (runR_closed deser s h ops).2
  have key : ∀ (s : RSt), s.closed = false → (runR deser s ops).2.sourceClosed =
      s.sourceClosed + if ops.contains .close || (runR deser s ops).1.any isFailure then 1 else 0 := by
    induction ops with
    | nil => intro s _; simp [runR]
    | cons o ops ih =>
      intro s hs
      cases o with
      | close =>
        simp only [runR]
        rw [hcl _ _ (by simp [RSt.close, hs])]
        simp [RSt.close, hs]
      | receive =>
        simp only [runR, List.any_cons, List.contains_cons]
        by_cases hf : isFailure (receive deser s).1 = true
        · have : (receive deser s).2.closed = true ∧
              (receive deser s).2.sourceClosed = s.sourceClosed + 1 := by
            unfold receive at hf ⊢
            rw [if_neg (by simp [hs])] at hf ⊢
            split
            · simp [RSt.close, hs]
            · rename_i heq; rw [heq] at hf; cases hf
            · rename_i e rest heq
              rw [heq] at hf
              simp only at hf
              split at hf <;> cases hf
          rw [hcl _ _ this.1, this.2, hf]
          simp
        · have : (receive deser s).2.closed = false ∧
              (receive deser s).2.sourceClosed = s.sourceClosed := by
            unfold receive at hf ⊢
            rw [if_neg (by simp [hs])] at hf ⊢
            split
            · rename_i x rest heq
              rw [heq] at hf
              exfalso
              apply hf
              dsimp only
              split <;> rfl
            · exact ⟨hs, rfl⟩
            · split <;> exact ⟨hs, rfl⟩
          rw [ih _ this.1, this.2]
          have hf' : isFailure (receive deser s).1 = false := by simpa using hf
          simp [hf']
  have := key { src } rfl
  simp only [Nat.zero_add] at this
  rw [this]

/-- The hypotheses of `C10_delivers_messages` are met by two copies of a message with headers. -/
example : ∃ fs : List Bytes, [sample, sample].map EventMessage.encode = fs.map Except.ok ∧
    ∀ m ∈ [sample, sample], ∀ x ∈ m.headers, WholeSecond x.2 := by
  obtain ⟨f, hf⟩ := sample_encodes
  exact ⟨[f, f], by simp [hf], by simpa using sample_whole⟩

/-- The hypothesis of `C10_nothing_after_failure` is met: one byte is not a frame. -/
example : ∃ r ∈ (runR (ε := Unit) (fun e => .ok e) { src := [0] } [.receive]).1, isFailure r = true := by
  obtain ⟨x, r, h⟩ : ∃ x r, Event.decode [0] = (.error x, r) := by
    match hd : Event.decode [0] with
    | (.error x, r) => exact ⟨x, r, rfl⟩
    | (.ok none, r) => exact absurd (decode_none hd) (by simp)
    | (.ok (some e), r) =>
      have h0 : (Event.decode [0]).1.isOk = false := by decide +kernel
      rw [hd] at h0
      cases h0
  refine ⟨(receive (ε := Unit) (fun e => .ok e) { src := [0] }).1, by simp [runR], ?_⟩
  simp only [receive, h]
  by_cases hx : x.isEventError = true <;> simp [hx, isFailure]

end Verif.Publisher

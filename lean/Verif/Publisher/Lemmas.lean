import Verif.Publisher.Spec
import Verif.EventStream.Lemmas

/-! Invariants of the publisher. -/

set_option autoImplicit false

namespace Verif.Publisher
open Verif.EventStream

/-- Induction over the happenings of a run, last one first. -/
theorem run_induction {cfg : Option SignCfg} {initial : Bytes} {P : List Act → St → Prop}
    (h0 : P [] (St.init initial))
    (hs : ∀ acts a, P acts (run cfg initial acts) →
      P (acts ++ [a]) (step cfg (run cfg initial acts) a)) :
    ∀ acts, P acts (run cfg initial acts) := by
  intro acts
  induction acts using snoc_induction with
  | h0 => exact h0
  | h1 acts a ih =>
    have : run cfg initial (acts ++ [a]) = step cfg (run cfg initial acts) a := by
      simp [run, List.foldl_append]
    rw [this]
    exact hs acts a ih

/-- Tasks that are inside `close` and have not yet called the writer's `close`. -/
def isCloser : Phase → Bool
  | .closeIdentity _ | .closeWrite _ => true
  | _ => false

def closers (s : St) : Nat := s.tasks.countP isCloser

def closes (s : St) : Nat := s.out.count .close

theorem countP_set {α : Type} (p : α → Bool) (l : List α) (i : Nat) (a b : α) (h : l[i]? = some a) :
    (l.set i b).countP p + (if p a then 1 else 0) = l.countP p + (if p b then 1 else 0) := by
  induction l generalizing i with
  | nil => simp at h
  | cons x l ih =>
    cases i with
    | zero =>
      simp only [List.getElem?_cons_zero, Option.some.injEq] at h
      subst h
      simp only [List.set_cons_zero, List.countP_cons]
      omega
    | succ i =>
      simp only [List.getElem?_cons_succ] at h
      have := ih i h
      simp only [List.set_cons_succ, List.countP_cons]
      omega

/-- The bookkeeping invariant of `close`. -/
def Inv1 (s : St) : Prop := closers s + closes s = if s.closed then 1 else 0

theorem inv1_setTask {s : St} {i : Nat} {p q : Phase} (h : s.tasks[i]? = some p)
    (hpq : isCloser p = isCloser q) (hi : Inv1 s) : Inv1 (s.setTask i q) := by
  unfold Inv1 closers closes St.setTask at *
  have := countP_set isCloser s.tasks i p q h
  simp only [hpq] at this
  dsimp only
  omega

theorem inv1_write {s : St} (b : Bytes) (hi : Inv1 s) : Inv1 (s.write b) := by
  unfold Inv1 closers closes St.write at *
  simpa [List.count_append] using hi

theorem inv1_encodeAndWrite {s : St} {i : Nat} {p : Phase} {m : EventMessage}
    (h : s.tasks[i]? = some p) (hp : isCloser p = false) (hi : Inv1 s) :
    Inv1 (s.encodeAndWrite i m) := by
  unfold St.encodeAndWrite
  split
  · exact inv1_setTask h (by rw [hp]; rfl) hi
  · exact inv1_setTask (p := p) (by exact h) (by rw [hp]; rfl) (inv1_write _ hi)

theorem inv1_finallyClose {s : St} {i : Nat} {p : Phase} {c : Caller} {r : Option PErr}
    (h : s.tasks[i]? = some p) (hp : isCloser p = true) (hi : Inv1 s) :
    Inv1 (s.finallyClose i c r) := by
  unfold Inv1 closers closes St.finallyClose St.setTask at *
  have := countP_set isCloser s.tasks i p (.closeWriter c r) h
  rw [hp, show isCloser (.closeWriter c r) = false from rfl] at this
  simp only [List.count_append, List.count_singleton] at *
  simp at *
  omega

theorem inv1_startClose {cfg : Option SignCfg} {s : St} {i : Nat} {p : Phase} {c : Caller}
    (h : s.tasks[i]? = some p) (hp : isCloser p = false) (hi : Inv1 s) :
    Inv1 (s.startClose cfg i c) := by
  unfold St.startClose
  split
  · exact inv1_setTask h (by rw [hp]; rfl) hi
  · rename_i hc
    dsimp only
    have hc' : s.closed = false := by simpa using hc
    split
    · unfold Inv1 closers closes St.setTask at *
      have := countP_set isCloser s.tasks i p (.closeIdentity c) h
      rw [hp, show isCloser (.closeIdentity c) = true from rfl] at this
      simp only [hc', Bool.false_eq_true, if_false] at hi
      simp at this ⊢
      omega
    · unfold Inv1 closers closes St.finallyClose St.setTask at *
      have := countP_set isCloser s.tasks i p (.closeWriter c none) h
      rw [hp, show isCloser (.closeWriter c none) = false from rfl] at this
      simp only [hc', Bool.false_eq_true, if_false] at hi
      simp [List.count_append] at this ⊢
      omega

theorem inv1_addTask {s : St} {p : Phase} (hp : isCloser p = false) (hi : Inv1 s) :
    Inv1 { s with tasks := s.tasks ++ [p] } := by
  unfold Inv1 closers closes at *
  simpa [hp] using hi

theorem inv1_signer {s : St} {g : Signer} (hi : Inv1 s) : Inv1 { s with signer := g } := hi

theorem getElem?_new {α : Type} (l : List α) (a : α) : (l ++ [a])[l.length]? = some a := by simp

theorem inv1_step {cfg : Option SignCfg} {s : St} {a : Act} (hi : Inv1 s) : Inv1 (step cfg s a) := by
  cases a with
  | send ser =>
    unfold step
    dsimp only
    split
    · exact inv1_addTask rfl hi
    · split
      · exact inv1_addTask rfl hi
      · split
        · exact inv1_addTask rfl hi
        · exact inv1_encodeAndWrite (getElem?_new _ _) rfl (inv1_addTask rfl hi)
  | close =>
    unfold step
    exact inv1_startClose (getElem?_new _ _) rfl (inv1_addTask rfl hi)
  | identity i secret now =>
    unfold step
    dsimp only
    split
    · exact hi
    · split
      · rename_i m hm
        split
        · exact inv1_setTask hm rfl hi
        · split
          · exact inv1_setTask hm rfl hi
          · exact inv1_encodeAndWrite hm rfl (inv1_signer hi)
      · rename_i c hm
        split
        · exact inv1_finallyClose hm rfl hi
        · split
          · exact inv1_finallyClose hm rfl hi
          · split
            · exact inv1_finallyClose (by exact hm) rfl (inv1_signer hi)
            · exact inv1_setTask (p := .closeIdentity c) (by exact hm) rfl
                (inv1_write _ (inv1_signer hi))
      · exact hi
  | finished i ok =>
    unfold step
    dsimp only
    split
    · rename_i hm
      split
      · exact inv1_setTask hm rfl hi
      · exact inv1_startClose hm rfl hi
    · rename_i hm
      exact inv1_finallyClose hm rfl hi
    · rename_i hm
      exact inv1_setTask hm rfl hi
    · exact hi

theorem inv1_run (cfg : Option SignCfg) (initial : Bytes) (acts : List Act) :
    Inv1 (run cfg initial acts) :=
  run_induction (P := fun _ s => Inv1 s) rfl (fun _ _ ih => inv1_step ih) acts

/-! ### How a step changes `closed`, `out` and the signer -/

theorem setTask_closed (s : St) (i : Nat) (p : Phase) : (s.setTask i p).closed = s.closed := rfl
theorem setTask_out (s : St) (i : Nat) (p : Phase) : (s.setTask i p).out = s.out := rfl
theorem setTask_signer (s : St) (i : Nat) (p : Phase) : (s.setTask i p).signer = s.signer := rfl

/-- `closed` never goes back. -/
theorem closed_step {cfg : Option SignCfg} {s : St} {a : Act} (h : s.closed = true) :
    (step cfg s a).closed = true := by
  cases a <;> unfold step <;>
    simp only [St.encodeAndWrite, St.startClose, St.finallyClose, St.setTask, St.write] <;>
    (repeat' split) <;> first | exact h | rfl

/-- The ways in which the calls made on the writer can grow in one step. -/
theorem out_step (cfg : Option SignCfg) (s : St) (a : Act) :
    (step cfg s a).out = s.out ∨
    (step cfg s a).out = s.out ++ [.close] ∨
    (∃ m b, cfg = none ∧ a = .send (some m) ∧ s.closed = false ∧ m.encode = .ok b ∧
      (step cfg s a).out = s.out ++ [.write b] ∧ (step cfg s a).closed = false) ∨
    (∃ c i k now m m' g b, cfg = some c ∧ a = .identity i (some k) now ∧
      s.tasks[i]? = some (.sendIdentity m) ∧ sign c s.signer k now m = .ok (m', g) ∧
      m'.encode = .ok b ∧ (step cfg s a).out = s.out ++ [.write b] ∧ (step cfg s a).signer = g) ∨
    (∃ c i k now q m' g b, cfg = some c ∧ a = .identity i (some k) now ∧
      s.tasks[i]? = some (.closeIdentity q) ∧ signEmpty c s.signer k now = .ok (m', g) ∧
      m'.encode = .ok b ∧ (step cfg s a).out = s.out ++ [.write b] ∧ (step cfg s a).signer = g) := by
  cases a with
  | send ser =>
    unfold step
    dsimp only
    split
    · exact .inl rfl
    · rename_i hc
      split
      · exact .inl rfl
      · rename_i m
        split
        · exact .inl rfl
        · unfold St.encodeAndWrite
          split
          · exact .inl rfl
          · rename_i b hb
            refine .inr (.inr (.inl ⟨m, b, rfl, rfl, by simpa using hc, hb, rfl, by
              show s.closed = false; simpa using hc⟩))
  | close =>
    unfold step St.startClose St.finallyClose
    dsimp only
    split
    · exact .inl rfl
    · split
      · exact .inl rfl
      · exact .inr (.inl rfl)
  | identity i secret now =>
    unfold step
    dsimp only
    split
    · exact .inl rfl
    · rename_i c
      split
      · rename_i m hm
        split
        · exact .inl rfl
        · rename_i k
          split
          · exact .inl rfl
          · rename_i m' g hs
            unfold St.encodeAndWrite
            split
            · exact .inl rfl
            · rename_i b hb
              exact .inr (.inr (.inr (.inl ⟨c, i, k, now, m, m', g, b, rfl, rfl, hm, hs, hb, rfl, rfl⟩)))
      · rename_i q hm
        split
        · exact .inr (.inl rfl)
        · rename_i k
          split
          · exact .inr (.inl rfl)
          · rename_i m' g hs
            split
            · exact .inr (.inl rfl)
            · rename_i b hb
              exact .inr (.inr (.inr (.inr ⟨c, i, k, now, q, m', g, b, rfl, rfl, hm, hs, hb, rfl, rfl⟩)))
      · exact .inl rfl
  | finished i ok =>
    unfold step
    dsimp only
    split
    · split
      · exact .inl rfl
      · unfold St.startClose St.finallyClose
        split
        · exact .inl rfl
        · dsimp only
          split
          · exact .inl rfl
          · exact .inr (.inl rfl)
    · exact .inr (.inl rfl)
    · exact .inl rfl
    · exact .inl rfl

theorem closer_pos {s : St} {i : Nat} {p : Phase} (h : s.tasks[i]? = some p) (hp : isCloser p = true) :
    0 < closers s := by
  unfold closers
  rw [List.countP_pos_iff]
  exact ⟨p, List.mem_of_getElem? h, hp⟩

theorem close_mem {s : St} (h : Inv1 s) (hm : Out.close ∈ s.out) : s.closed = true ∧ closers s = 0 := by
  have : 0 < closes s := List.count_pos_iff.2 hm
  unfold Inv1 at h
  split at h
  · rename_i hc; exact ⟨by simpa using hc, by omega⟩
  · omega

/-! ### Signing -/

theorem signPayload_ok {c : SignCfg} {s g : Signer} {k : Bytes} {now : Int} {pl : Bytes} {fin : Bool}
    {m : EventMessage} (h : signPayload c s k now pl fin = .ok (m, g)) :
    s.finalized = false ∧ g.finalized = fin ∧
    ∃ hdr sig, Spec.WireHeaders [(":date", .timestamp now)] hdr ∧
      sig = signEvent c k (c.date.getD (c.format now))
        (stringToSign c (c.date.getD (c.format now)) hdr pl s.prior) ∧
      m = { headers := [(":date", .timestamp now), (":chunk-signature", .blob sig)], payload := pl } ∧
      g.prior = hexlify sig := by
  unfold signPayload at h
  split at h
  · cases h
  rename_i hf
  dsimp only at h
  split at h
  · cases h
  rename_i e he
  split at h
  · cases h
  rename_i hdr hr
  cases h
  refine ⟨by simpa using hf, rfl, hdr, _, ?_, rfl, rfl, rfl⟩
  obtain ⟨_, _, _, b, hb, hbuf⟩ := encodeHeaders_none he
  unfold HEnc.getResult at hr
  split at hr
  · cases hr
  · cases hr
    rw [hbuf]
    simpa using hb

/-- The `:date` header can be encoded (always the case for a `datetime`). -/
def DateOk (now : Int) : Prop := Spec.Fits 8 (timestampMillis now)

theorem date_encodes {now : Int} (h : DateOk now) :
    ∃ e hdr, ({} : HEnc).encodeHeaders [(":date", .timestamp now)] = (e, none) ∧
      e.getResult = .ok hdr := by
  obtain ⟨e, he⟩ := (encodeHeaders_isNone_iff {} [(":date", HeaderValue.timestamp now)]).2
    ⟨by simp, by simp, by
      intro x hx
      simp only [List.mem_cons, List.not_mem_nil, or_false] at hx
      subst hx
      exact ⟨by decide +kernel, h⟩⟩
  obtain ⟨_, _, _, b, hb, hbuf⟩ := encodeHeaders_none he
  refine ⟨e, b, he, ?_⟩
  have hlen : b.length ≤ 131072 := by
    cases hb with
    | cons h1 h2 =>
      cases h2
      obtain ⟨l, v, rfl, hl, t, rfl, ht⟩ := h1
      have : (utf8Encode ":date").length = 5 := by decide +kernel
      have h3 := hl.1
      have h4 := ht.2.1
      simp [this, h3, h4]
  unfold HEnc.getResult
  rw [hbuf]
  simp only [List.nil_append]
  rw [if_neg (by simp only [maxHeadersLength]; omega)]

theorem signPayload_isOk {c : SignCfg} {s : Signer} {k : Bytes} {now : Int} {pl : Bytes} {fin : Bool}
    (hf : s.finalized = false) (hd : DateOk now) :
    ∃ m g, signPayload c s k now pl fin = .ok (m, g) := by
  obtain ⟨e, hdr, h1, h2⟩ := date_encodes hd
  unfold signPayload
  simp only [hf, h1, h2]
  exact ⟨_, _, rfl⟩

/-- A signed message can be encoded exactly if its payload is within the limit. -/
theorem signed_encodes {now : Int} {sig pl : Bytes} (hd : DateOk now) (hs : sig.length = 32) :
    (∃ f, EventMessage.encode ⟨[(":date", .timestamp now), (":chunk-signature", .blob sig)], pl⟩ = .ok f)
      ↔ pl.length ≤ 16777216 := by
  obtain ⟨e, he⟩ := (encodeHeaders_isNone_iff {}
      [(":date", HeaderValue.timestamp now), (":chunk-signature", .blob sig)]).2
    ⟨by simp, by simp, by
      intro x hx
      simp only [List.mem_cons, List.not_mem_nil, or_false] at hx
      rcases hx with rfl | rfl
      · exact ⟨by decide +kernel, hd⟩
      · refine ⟨by decide +kernel, ?_⟩
        show sig.length ≤ 32767
        omega⟩
  obtain ⟨_, _, _, b, hb, hbuf⟩ := encodeHeaders_none he
  have hlen : b.length ≤ 131072 := by
    cases hb with
    | cons h1 h2 =>
      cases h2 with
      | cons h2 h3 =>
        cases h3
        obtain ⟨l, v, rfl, hl, t, rfl, ht⟩ := h1
        obtain ⟨l', v', rfl, hl', t', rfl, ht', ht''⟩ := h2
        have e1 : (utf8Encode ":date").length = 5 := by decide +kernel
        have e2 : (utf8Encode ":chunk-signature").length = 16 := by decide +kernel
        have h3 := hl.1
        have h4 := ht.2.1
        have h5 := hl'.1
        have h6 := ht''.1
        simp [e1, e2, h3, h4, h5, h6, hs]
  have hh : EventMessage.headersBytes
      ⟨[(":date", .timestamp now), (":chunk-signature", .blob sig)], pl⟩ = .ok b := by
    unfold EventMessage.headersBytes
    rw [he]
    simp only [HEnc.getResult, hbuf, List.nil_append]
    rw [if_neg (by simp only [maxHeadersLength]; omega)]
  unfold EventMessage.encode
  rw [hh]
  simp only
  rw [encodeFrame_isOk_iff]
  simp [hlen]

theorem signEvent_length (c : SignCfg) (k t m : Bytes) : (signEvent c k t m).length = 32 :=
  c.crypto.hmac_length _ _

end Verif.Publisher

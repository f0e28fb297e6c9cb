import Verif.Publisher.Lemmas
import Verif.EventStream.TimestampProps

/-! # Properties of the event publisher and receiver (C09, C10, C11, C63) -/

set_option autoImplicit false

namespace Verif.Publisher
open Verif.EventStream Verif.EventStream.Spec Verif.Publisher.Spec

theorem run_append (cfg : Option SignCfg) (initial : Bytes) (a b : List Act) :
    run cfg initial (a ++ b) = b.foldl (step cfg) (run cfg initial a) := by
  simp [run, List.foldl_append]

theorem run_snoc (cfg : Option SignCfg) (initial : Bytes) (a : List Act) (x : Act) :
    run cfg initial (a ++ [x]) = step cfg (run cfg initial a) x := by
  simp [run_append]

/-! ### C09 -/

/-- **C09.** Whatever calls are made, concurrently or not, and whatever fails, the writer is closed at
most once, and only if the publisher is closed. -/
theorem C09_writer_closed_at_most_once (cfg : Option SignCfg) (initial : Bytes) (acts : List Act) :
    (run cfg initial acts).out.count .close ≤ 1 ∧
    ((run cfg initial acts).closed = false → Out.close ∉ (run cfg initial acts).out) := by
  have h := inv1_run cfg initial acts
  constructor
  · unfold Inv1 closes at h
    split at h <;> omega
  · intro hc hm
    have := (close_mem h hm).1
    rw [hc] at this
    cases this

/-- **C09.** Once the publisher is closed and no call is in progress, the writer has been closed
(exactly once). -/
theorem C09_writer_closed_when_idle (cfg : Option SignCfg) (initial : Bytes) (acts : List Act)
    (hc : (run cfg initial acts).closed = true) (hi : Idle (run cfg initial acts)) :
    (run cfg initial acts).out.count .close = 1 := by
  have h := inv1_run cfg initial acts
  unfold Inv1 closes at h
  rw [hc, if_pos rfl] at h
  have : closers (run cfg initial acts) = 0 := by
    unfold closers
    rw [List.countP_eq_zero]
    intro p hp
    obtain ⟨r, rfl⟩ := hi p hp
    simp [isCloser]
  omega

/-- **C09.** A closed publisher stays closed. -/
theorem C09_stays_closed (cfg : Option SignCfg) (initial : Bytes) (acts more : List Act)
    (hc : (run cfg initial acts).closed = true) : (run cfg initial (acts ++ more)).closed = true := by
  rw [run_append]
  generalize run cfg initial acts = s at hc
  induction more generalizing s with
  | nil => exact hc
  | cons a more ih => exact ih _ (closed_step hc)

/-- **C09.** A `send` on a closed publisher raises `OSError` and does nothing to the writer. -/
theorem C09_send_after_close (cfg : Option SignCfg) (initial : Bytes) (acts : List Act)
    (ser : Option EventMessage) (hc : (run cfg initial acts).closed = true) :
    (run cfg initial (acts ++ [.send ser])).out = (run cfg initial acts).out ∧
    (run cfg initial (acts ++ [.send ser])).tasks =
      (run cfg initial acts).tasks ++ [.done (some .osError)] := by
  rw [run_snoc]
  simp [step, hc]

/-- **C09.** A `close` on a closed publisher returns and does nothing to the writer. -/
theorem C09_close_after_close (cfg : Option SignCfg) (initial : Bytes) (acts : List Act)
    (hc : (run cfg initial acts).closed = true) :
    (run cfg initial (acts ++ [.close])).out = (run cfg initial acts).out ∧
    (run cfg initial (acts ++ [.close])).tasks = (run cfg initial acts).tasks ++ [.done none] := by
  rw [run_snoc]
  simp [step, St.startClose, hc, St.setTask, closeResult]

/-- A `send` whose write failed: it is closing the publisher or has ended with an exception. -/
def FailedSend : Phase → Prop
  | .closeIdentity .failedSend | .closeWrite .failedSend | .closeWriter .failedSend _ => True
  | .done (some _) => True
  | _ => False

theorem failedSend_closeResult (r : Option PErr) : FailedSend (.done (closeResult .failedSend r)) := by
  cases r <;> simp [closeResult, FailedSend]

theorem failedSend_step {cfg : Option SignCfg} {s : St} {a : Act} {i : Nat} {p : Phase}
    (h : s.tasks[i]? = some p) (hp : FailedSend p) :
    ∃ q, (step cfg s a).tasks[i]? = some q ∧ FailedSend q := by
  have hlt : i < s.tasks.length := by
    rcases Nat.lt_or_ge i s.tasks.length with h' | h'
    · exact h'
    · rw [List.getElem?_eq_none h'] at h; cases h
  have hset : ∀ (l : List Phase) j q, l[i]? = some p → (j = i → FailedSend q) →
      ∃ r, (l.set j q)[i]? = some r ∧ FailedSend r := by
    intro l j q hl hj
    by_cases hji : j = i
    · subst hji
      have : j < l.length := by
        rcases Nat.lt_or_ge j l.length with h' | h'
        · exact h'
        · rw [List.getElem?_eq_none h'] at hl; cases hl
      exact ⟨q, by simp [this], hj rfl⟩
    · exact ⟨p, by rw [List.getElem?_set_ne hji]; exact hl, hp⟩
  have happ : ∀ q, (s.tasks ++ [q])[i]? = some p := by
    intro q; rw [List.getElem?_append_left hlt]; exact h
  have hne : ∀ q, FailedSend q → s.tasks.length = i → FailedSend q := fun _ h _ => h
  cases a with
  | send ser =>
    unfold step
    dsimp only
    split
    · exact ⟨p, happ _, hp⟩
    · split
      · exact ⟨p, happ _, hp⟩
      · split
        · exact ⟨p, happ _, hp⟩
        · unfold St.encodeAndWrite
          split
          · exact hset _ _ _ (happ _) (fun h => by omega)
          · exact hset _ _ _ (happ _) (fun h => by omega)
  | close =>
    unfold step St.startClose St.finallyClose
    dsimp only
    split
    · exact hset _ _ _ (happ _) (fun h => by omega)
    · split
      · exact hset _ _ _ (happ _) (fun h => by omega)
      · exact hset _ _ _ (happ _) (fun h => by omega)
  | identity j secret now =>
    unfold step
    dsimp only
    split
    · exact ⟨p, h, hp⟩
    · split
      · rename_i m hm
        have hji : j ≠ i := by
          rintro rfl; rw [hm] at h; cases h; exact hp
        split
        · exact hset _ _ _ h (fun h => absurd h hji)
        · split
          · exact hset _ _ _ h (fun h => absurd h hji)
          · unfold St.encodeAndWrite
            split
            · exact hset _ _ _ h (fun h => absurd h hji)
            · exact hset _ _ _ h (fun h => absurd h hji)
      · rename_i q hm
        have hq : j = i → q = .failedSend := by
          rintro rfl; rw [hm] at h; cases h
          cases q with
          | failedSend => rfl
          | user => exact absurd hp (by simp [FailedSend])
        split
        · exact hset _ _ _ h (fun h => by rw [hq h]; trivial)
        · split
          · exact hset _ _ _ h (fun h => by rw [hq h]; trivial)
          · split
            · exact hset _ _ _ h (fun h => by rw [hq h]; trivial)
            · exact hset _ _ _ h (fun h => by rw [hq h]; trivial)
      · exact ⟨p, h, hp⟩
  | finished j ok =>
    unfold step
    dsimp only
    split
    · rename_i hm
      have hji : j ≠ i := by
        rintro rfl; rw [hm] at h; cases h; exact hp
      split
      · exact hset _ _ _ h (fun h => absurd h hji)
      · unfold St.startClose St.finallyClose
        split
        · exact hset _ _ _ h (fun h => absurd h hji)
        · dsimp only
          split
          · exact hset _ _ _ h (fun h => absurd h hji)
          · exact hset _ _ _ h (fun h => absurd h hji)
    · rename_i q hm
      have hq : j = i → q = .failedSend := by
        rintro rfl; rw [hm] at h; cases h
        cases q with
        | failedSend => rfl
        | user => exact absurd hp (by simp [FailedSend])
      exact hset _ _ _ h (fun h => by rw [hq h]; trivial)
    · rename_i q r hm
      have hq : j = i → q = .failedSend := by
        rintro rfl; rw [hm] at h; cases h
        cases q with
        | failedSend => rfl
        | user => exact absurd hp (by simp [FailedSend])
      exact hset _ _ _ h (fun h => by rw [hq h]; exact failedSend_closeResult _)
    · exact ⟨p, h, hp⟩

/-- **C09.** When a write fails the publisher is closed at once, and the `send` that failed never ends
normally. -/
theorem C09_failed_write_closes (cfg : Option SignCfg) (initial : Bytes) (acts more : List Act) (i : Nat)
    (hi : (run cfg initial acts).tasks[i]? = some .sendWrite) :
    (run cfg initial (acts ++ [.finished i false])).closed = true ∧
    (run cfg initial (acts ++ [.finished i false] ++ more)).tasks[i]? ≠ some (.done none) := by
  have hlt : i < (run cfg initial acts).tasks.length := by
    rcases Nat.lt_or_ge i (run cfg initial acts).tasks.length with h' | h'
    · exact h'
    · rw [List.getElem?_eq_none h'] at hi; cases hi
  have hfirst : (run cfg initial (acts ++ [.finished i false])).closed = true ∧
      ∃ q, (run cfg initial (acts ++ [.finished i false])).tasks[i]? = some q ∧ FailedSend q := by
    rw [run_snoc]
    simp only [step, hi]
    unfold St.startClose St.finallyClose St.setTask
    by_cases hc : (run cfg initial acts).closed = true
    · simp [hc, hlt, closeResult, FailedSend]
    · cases cfg <;> simp [hc, hlt, FailedSend]
  refine ⟨hfirst.1, ?_⟩
  rw [run_append]
  obtain ⟨q, h1, h2⟩ := hfirst.2
  generalize run cfg initial (acts ++ [.finished i false]) = s at h1
  have : ∃ q, (more.foldl (step cfg) s).tasks[i]? = some q ∧ FailedSend q := by
    clear hfirst
    induction more generalizing s q with
    | nil => exact ⟨q, h1, h2⟩
    | cons a more ih =>
      obtain ⟨q', h3, h4⟩ := failedSend_step (cfg := cfg) (a := a) h1 h2
      exact ih _ h4 _ h3
  obtain ⟨q, h3, h4⟩ := this
  rw [h3]
  rintro ⟨rfl⟩
  exact h4

/-- Adding a call on the writer keeps the property if the writer was not closed yet. -/
theorem nothingAfter_snoc {out : List Out} {x : Out} (hn : Out.close ∉ out) :
    NothingAfterClose (out ++ [x]) := by
  intro a b h
  rcases List.eq_nil_or_concat b with rfl | ⟨b', y, rfl⟩
  · rfl
  · exfalso
    have h2 := congrArg List.dropLast h
    rw [List.dropLast_concat, List.concat_eq_append, ← List.cons_append, ← List.append_assoc,
      List.dropLast_concat] at h2
    apply hn
    rw [h2]
    simp

theorem isNilOut {out : List Out} (hn : Out.close ∉ out) : NothingAfterClose out := by
  intro a b h
  exact absurd (by rw [h]; simp) hn

/-- In a sequence of calls at most one is in progress, and none is about to sign once closed. -/
def SeqInv (s : St) : Prop :=
  (∀ (i j : Nat) (p q : Phase), s.tasks[i]? = some p → s.tasks[j]? = some q → (∀ r, p ≠ .done r) → (∀ r, q ≠ .done r) →
    i = j) ∧
  (s.closed = true → ∀ (i : Nat) (m : EventMessage), s.tasks[i]? ≠ some (.sendIdentity m))

theorem set_append_new {α : Type} (l : List α) (a b : α) : (l ++ [a]).set l.length b = l ++ [b] := by
  rw [List.set_append_right _ _ (by omega)]
  simp

theorem tasks_call {cfg : Option SignCfg} {s : St} {a : Act} (ha : IsCall a) :
    ∃ p, (step cfg s a).tasks = s.tasks ++ [p] ∧
      ((∃ m, p = .sendIdentity m) → (step cfg s a).closed = false) := by
  cases a with
  | send ser =>
    unfold step
    dsimp only
    split
    · exact ⟨_, rfl, fun ⟨_, h⟩ => by cases h⟩
    · rename_i hc
      split
      · exact ⟨_, rfl, fun ⟨_, h⟩ => by cases h⟩
      · split
        · exact ⟨_, rfl, fun _ => by show s.closed = false; simpa using hc⟩
        · unfold St.encodeAndWrite
          split
          · exact ⟨_, set_append_new _ _ _, fun ⟨_, h⟩ => by cases h⟩
          · exact ⟨_, set_append_new _ _ _, fun ⟨_, h⟩ => by cases h⟩
  | close =>
    unfold step St.startClose St.finallyClose
    dsimp only
    split
    · exact ⟨_, set_append_new _ _ _, fun ⟨_, h⟩ => by cases h⟩
    · split
      · exact ⟨_, set_append_new _ _ _, fun ⟨_, h⟩ => by cases h⟩
      · exact ⟨_, set_append_new _ _ _, fun ⟨_, h⟩ => by cases h⟩
  | identity i k n => exact ha.elim
  | finished i ok => exact ha.elim

theorem tasks_progress {cfg : Option SignCfg} {s : St} {a : Act} (ha : ¬ IsCall a) :
    step cfg s a = s ∨
    ∃ (i : Nat) (p q : Phase), s.tasks[i]? = some p ∧ (∀ r, p ≠ .done r) ∧ (∀ m, q ≠ .sendIdentity m) ∧
      (step cfg s a).tasks = s.tasks.set i q ∧
      ((step cfg s a).closed = s.closed ∨ p = .sendWrite) := by
  cases a with
  | send ser => exact absurd trivial ha
  | close => exact absurd trivial ha
  | identity i k n =>
    unfold step
    dsimp only
    split
    · exact .inl rfl
    · split
      · rename_i m hm
        right
        refine ⟨i, s.tasks[i]?.getD (.done none), ?_⟩
        rw [hm]
        simp only [Option.getD_some]
        split
        · exact ⟨_, trivial, by simp, by simp, rfl, .inl rfl⟩
        · split
          · exact ⟨_, trivial, by simp, by simp, rfl, .inl rfl⟩
          · unfold St.encodeAndWrite
            split
            · exact ⟨_, trivial, by simp, by simp, rfl, .inl rfl⟩
            · exact ⟨_, trivial, by simp, by simp, rfl, .inl rfl⟩
      · rename_i q hm
        right
        refine ⟨i, s.tasks[i]?.getD (.done none), ?_⟩
        rw [hm]
        simp only [Option.getD_some]
        split
        · exact ⟨_, trivial, by simp, by simp, rfl, .inl rfl⟩
        · split
          · exact ⟨_, trivial, by simp, by simp, rfl, .inl rfl⟩
          · split
            · exact ⟨_, trivial, by simp, by simp, rfl, .inl rfl⟩
            · exact ⟨_, trivial, by simp, by simp, rfl, .inl rfl⟩
      · exact .inl rfl
  | finished i ok =>
    unfold step
    dsimp only
    split
    · rename_i hm
      right
      refine ⟨i, .sendWrite, ?_⟩
      split
      · exact ⟨_, hm, by simp, by simp, rfl, .inr rfl⟩
      · unfold St.startClose St.finallyClose
        split
        · exact ⟨_, hm, by simp, by simp, rfl, .inr rfl⟩
        · dsimp only
          split
          · exact ⟨_, hm, by simp, by simp, rfl, .inr rfl⟩
          · exact ⟨_, hm, by simp, by simp, rfl, .inr rfl⟩
    · rename_i q hm
      exact .inr ⟨i, _, _, hm, by simp, by simp, rfl, .inl rfl⟩
    · rename_i q r hm
      exact .inr ⟨i, _, _, hm, by simp, by simp, rfl, .inl rfl⟩
    · exact .inl rfl

theorem getElem?_append_one {α : Type} {l : List α} {x y : α} {i : Nat}
    (h : (l ++ [x])[i]? = some y) : l[i]? = some y ∨ i = l.length ∧ y = x := by
  rcases Nat.lt_trichotomy i l.length with h' | h' | h'
  · rw [List.getElem?_append_left h'] at h; exact .inl h
  · subst h'; simp at h; exact .inr ⟨rfl, h.symm⟩
  · rw [List.getElem?_eq_none (by simp; omega)] at h; cases h

theorem getElem?_set_cases {α : Type} {l : List α} {x y : α} {i j : Nat}
    (h : (l.set i x)[j]? = some y) : i ≠ j ∧ l[j]? = some y ∨ i = j ∧ y = x := by
  by_cases hij : i = j
  · subst hij
    rw [List.getElem?_set] at h
    split at h <;> simp_all
  · rw [List.getElem?_set_ne hij] at h
    exact .inl ⟨hij, h⟩

theorem seqInv_step {cfg : Option SignCfg} {s : St} {a : Act} (hs : SeqInv s)
    (hidle : IsCall a → Idle s) : SeqInv (step cfg s a) := by
  by_cases ha : IsCall a
  · obtain ⟨p, hp, hcl⟩ := tasks_call (cfg := cfg) (s := s) ha
    have hid := hidle ha
    have hdone : ∀ (i : Nat) (q : Phase), s.tasks[i]? = some q → ∃ r, q = .done r :=
      fun i q h => hid q (List.mem_of_getElem? h)
    constructor
    · intro i j q r hi hj hq hr
      rw [hp] at hi hj
      rcases getElem?_append_one hi with hi | hi
      · obtain ⟨x, rfl⟩ := hdone _ _ hi; exact absurd rfl (hq x)
      · rcases getElem?_append_one hj with hj | hj
        · obtain ⟨x, rfl⟩ := hdone _ _ hj; exact absurd rfl (hr x)
        · omega
    · intro hc i m hi
      rw [hp] at hi
      rcases getElem?_append_one hi with hi | hi
      · obtain ⟨x, hx⟩ := hdone _ _ hi; cases hx
      · have := hcl ⟨m, hi.2.symm⟩
        rw [hc] at this; cases this
  · rcases tasks_progress (cfg := cfg) (s := s) ha with h | ⟨i, p, q, hip, hpd, hqs, ht, hc⟩
    · rw [h]; exact hs
    · constructor
      · intro i' j' p' q' hi hj hp' hq'
        rw [ht] at hi hj
        have key : ∀ j r, (s.tasks.set i q)[j]? = some r → (∀ x, r ≠ .done x) → i = j := by
          intro j r hj hr
          rcases getElem?_set_cases hj with ⟨_, hj⟩ | ⟨rfl, _⟩
          · exact hs.1 i j p r hip hj hpd hr
          · rfl
        have h1 := key _ _ hi hp'
        have h2 := key _ _ hj hq'
        omega
      · intro hcl j m hj
        rw [ht] at hj
        rcases getElem?_set_cases hj with ⟨hij, hj⟩ | ⟨_, rfl⟩
        · exact hij (hs.1 i j p _ hip hj hpd (by simp))
        · exact absurd rfl (hqs m)

theorem nothingAfter_step {cfg : Option SignCfg} {s : St} {a : Act} (h1 : Inv1 s)
    (hn : NothingAfterClose s.out)
    (hsend : Out.close ∈ s.out → ∀ c i k now m m' g, cfg = some c → a = .identity i (some k) now →
      s.tasks[i]? = some (.sendIdentity m) → sign c s.signer k now m = .ok (m', g) → False) :
    NothingAfterClose (step cfg s a).out := by
  have key : Out.close ∈ s.out → (step cfg s a).out = s.out := by
    intro hm
    obtain ⟨hc, h0⟩ := close_mem h1 hm
    rcases out_step cfg s a with h | h | ⟨m, b, _, _, hcf, _⟩ | ⟨c, i, k, now, m, m', g, b, hcf, ha, hi, hsg, _⟩ |
      ⟨c, i, k, now, q, m', g, b, _, _, hi, _⟩
    · exact h
    · exfalso
      have h2 : Inv1 (step cfg s a) := inv1_step h1
      have hcl := closed_step (cfg := cfg) (a := a) hc
      unfold Inv1 at h2
      rw [hcl, if_pos rfl] at h2
      unfold closes at h2
      rw [h] at h2
      have : 0 < s.out.count .close := List.count_pos_iff.2 hm
      simp [List.count_append] at h2
      omega
    · rw [hc] at hcf; cases hcf
    · exact (hsend hm c i k now m m' g hcf ha hi hsg).elim
    · have := closer_pos hi rfl
      omega
  by_cases hm : Out.close ∈ s.out
  · rw [key hm]; exact hn
  · rcases out_step cfg s a with h | h | ⟨m, b, _, _, _, _, h, _⟩ | ⟨c, i, k, now, m, m', g, b, _, _, _, _, _, h, _⟩ |
      ⟨c, i, k, now, q, m', g, b, _, _, _, _, _, h, _⟩ <;> rw [h]
    · exact hn
    all_goals exact nothingAfter_snoc hm

theorem sequential_prefix {cfg : Option SignCfg} {initial : Bytes} {acts : List Act} {a : Act}
    (h : Sequential cfg initial (acts ++ [a])) : Sequential cfg initial acts := by
  intro pre x post he hx
  exact h pre x (post ++ [a]) (by rw [he]; simp) hx

/-- **C09.** When calls are made one after the other, the publisher never touches its writer after
closing it, whatever fails. -/
theorem C09_no_write_after_close (cfg : Option SignCfg) (initial : Bytes) (acts : List Act)
    (hseq : Sequential cfg initial acts) : NothingAfterClose (run cfg initial acts).out := by
  have := run_induction (cfg := cfg) (initial := initial)
    (P := fun acts s => Sequential cfg initial acts → SeqInv s ∧ NothingAfterClose s.out)
    (by
      intro _
      refine ⟨⟨by simp [St.init], by simp [St.init]⟩, ?_⟩
      intro a b h
      simp [St.init] at h)
    (by
      intro acts a ih hs
      obtain ⟨h1, h2⟩ := ih (sequential_prefix hs)
      have hidle : IsCall a → Idle (run cfg initial acts) := hs acts a [] rfl
      refine ⟨seqInv_step h1 hidle, nothingAfter_step (inv1_run _ _ _) h2 ?_⟩
      intro hm c i k now m m' g _ _ hi _
      exact h1.2 (close_mem (inv1_run _ _ _) hm).1 i m hi)
    acts
  exact (this hseq).2

/-! ### C63: concurrent calls -/

/-- **C63** is false of the code: while a `send` waits for the identity, `close` fails to get the
identity and closes the writer without finishing the signature chain; the `send` then writes to the
closed writer. -/
theorem C63_write_after_close_fails (c : SignCfg) : ∃ (acts : List Act) (b : Bytes),
    (run (some c) [] acts).out = [.close, .write b] := by
  have hd : DateOk 0 := by
    unfold DateOk Fits
    decide +kernel
  obtain ⟨pl, hpl⟩ : ∃ pl, EventMessage.encode {} = .ok pl := ⟨_, rfl⟩
  have hpll : pl.length ≤ 16777216 := by
    obtain ⟨h, hw, hf, _⟩ := encode_ok hpl
    cases hw
    obtain ⟨t, l, c, d, hfe, ht, hl, hc, hd⟩ := hf
    rw [hfe]
    simp [ht.1, hl.1, hc.1, hd.1]
  obtain ⟨m, g, hm⟩ := signPayload_isOk (c := c) (s := { prior := [] }) (k := []) (pl := pl)
    (fin := false) rfl hd
  obtain ⟨_, _, hdr, sig, _, hsig, hm', _⟩ := signPayload_ok hm
  obtain ⟨b, hb⟩ := (signed_encodes (sig := sig) (pl := pl) hd (by rw [hsig]; exact signEvent_length _ _ _ _)).2
    hpll
  refine ⟨[.send (some {}), .close, .identity 1 none 0, .identity 0 (some []) 0], b, ?_⟩
  have h3 : run (some c) [] [.send (some {}), .close, .identity 1 none 0] =
      { closed := true, signer := { prior := [] }, out := [.close],
        tasks := [.sendIdentity {}, .closeWriter .user (some .identity)] } := rfl
  have h4 := run_snoc (some c) [] [.send (some {}), .close, .identity 1 none 0] (.identity 0 (some []) 0)
  simp only [List.cons_append, List.nil_append] at h4
  rw [h4, h3]
  simp only [step, List.getElem?_cons_zero, sign, hpl, hm, St.encodeAndWrite, hm', hb, St.write, St.setTask,
    List.cons_append, List.nil_append]

/-- With the identity always available, the signature chain is finished before the writer closes. -/
def FinInv (s : St) : Prop :=
  (∀ (i : Nat) (q : Caller), s.tasks[i]? = some (.closeWrite q) → s.signer.finalized = true) ∧
  (Out.close ∈ s.out → s.signer.finalized = true)

theorem finInv_set {s : St} {i : Nat} {q : Phase} (hf : FinInv s)
    (hq : ∀ r, q = .closeWrite r → s.signer.finalized = true) : FinInv (s.setTask i q) := by
  refine ⟨fun j r hj => ?_, hf.2⟩
  rcases getElem?_set_cases hj with ⟨_, hj⟩ | ⟨_, rfl⟩
  · exact hf.1 j r hj
  · exact hq r rfl

theorem finInv_add {s : St} {q : Phase} (hf : FinInv s) (hq : ∀ r, q ≠ .closeWrite r) :
    FinInv { s with tasks := s.tasks ++ [q] } := by
  refine ⟨fun j r hj => ?_, hf.2⟩
  rcases getElem?_append_one hj with hj | ⟨_, hj⟩
  · exact hf.1 j r hj
  · exact absurd hj.symm (hq r)

theorem finInv_finally {s : St} {i : Nat} {r : Caller} {x : Option PErr} (hf : FinInv s)
    (h : s.signer.finalized = true) : FinInv (s.finallyClose i r x) := by
  refine ⟨fun j q hj => ?_, fun _ => h⟩
  rcases getElem?_set_cases hj with ⟨_, hj⟩ | ⟨_, h'⟩
  · exact hf.1 j q hj
  · cases h'

theorem finInv_write {s : St} {b : Bytes} (hf : FinInv s) : FinInv (s.write b) := by
  refine ⟨hf.1, fun h => hf.2 ?_⟩
  simpa [St.write] using h

theorem finInv_startClose {c : SignCfg} {s : St} {i : Nat} {r : Caller} (hf : FinInv s) :
    FinInv (s.startClose (some c) i r) := by
  unfold St.startClose
  split
  · exact finInv_set hf (by simp)
  · exact finInv_set (s := { s with closed := true }) hf (by simp)

theorem finInv_step {c : SignCfg} {s : St} {a : Act} (hf : FinInv s)
    (ha : ∀ i k n, a = .identity i k n → k ≠ none ∧ DateOk n) : FinInv (step (some c) s a) := by
  cases a with
  | send ser =>
    unfold step
    dsimp only
    split
    · exact finInv_add hf (by simp)
    · split
      · exact finInv_add hf (by simp)
      · exact finInv_add hf (by simp)
  | close =>
    unfold step
    exact finInv_startClose (finInv_add hf (by simp))
  | identity i k n =>
    obtain ⟨hk, hd⟩ := ha i k n rfl
    match k, hk with
    | some k, _ =>
      unfold step
      dsimp only
      split
      · rename_i m hm
        split
        · exact finInv_set hf (by simp)
        · rename_i m' g hs
          have hnf : s.signer.finalized = false := by
            unfold sign at hs
            split at hs
            · cases hs
            · exact (signPayload_ok hs).1
          have hf' : FinInv { s with signer := g } :=
            ⟨fun j r hj => (by have := hf.1 j r hj; rw [hnf] at this; cases this),
             fun h => (by have := hf.2 h; rw [hnf] at this; cases this)⟩
          unfold St.encodeAndWrite
          split
          · exact finInv_set hf' (by simp)
          · exact finInv_set (finInv_write hf') (by simp)
      · rename_i q hm
        split
        · rename_i x hx
          apply finInv_finally hf
          by_cases hnf : s.signer.finalized = false
          · obtain ⟨m, g, h⟩ := signPayload_isOk (c := c) (k := k) (pl := []) (fin := true) hnf hd
            unfold signEmpty at hx
            rw [h] at hx
            cases hx
          · simpa using hnf
        · rename_i m' g hs
          obtain ⟨_, hg, _⟩ := signPayload_ok hs
          have hf' : FinInv { s with signer := g } := ⟨fun _ _ _ => hg, fun _ => hg⟩
          split
          · exact finInv_finally hf' hg
          · exact finInv_set (finInv_write hf') (fun _ _ => hg)
      · exact hf
  | finished i ok =>
    unfold step
    dsimp only
    split
    · split
      · exact finInv_set hf (by simp)
      · exact finInv_startClose hf
    · rename_i q hm
      exact finInv_finally hf (hf.1 i q hm)
    · exact finInv_set hf (by simp)
    · exact hf

theorem dateOk {now : Int} (h : IsDatetime now) : DateOk now := by
  unfold DateOk Fits
  have := C02_written_within_one_partial now h.1 h.2
  obtain ⟨h1, h2⟩ := h
  have h3 : -62135596800000 ≤ now.tdiv 1000 := by
    have := Int.tdiv_le_tdiv (a := minMicros) (b := now) (c := 1000) (by decide) h1
    exact this
  have h4 : now.tdiv 1000 ≤ 253402300799999 := by
    have := Int.tdiv_le_tdiv (a := now) (b := maxMicros) (c := 1000) (by decide) h2
    exact this
  rw [abs_le] at this
  omega

/-- **C63**, proved part: even with calls in progress concurrently, the publisher never touches its
writer after closing it, if the identity can always be resolved (or nothing is signed). Missing: an
identity resolver that fails (false, see above). -/
theorem C63_no_write_after_close_partial (cfg : Option SignCfg) (initial : Bytes) (acts : List Act)
    (hid : ∀ i secret now, .identity i secret now ∈ acts → secret ≠ none ∧ IsDatetime now) :
    NothingAfterClose (run cfg initial acts).out := by
  replace hid : ∀ i secret now, .identity i secret now ∈ acts → secret ≠ none ∧ DateOk now :=
    fun i k n h => ⟨(hid i k n h).1, dateOk (hid i k n h).2⟩
  have := run_induction (cfg := cfg) (initial := initial)
    (P := fun acts s => (∀ i secret now, .identity i secret now ∈ acts → secret ≠ none ∧ DateOk now) →
      (cfg ≠ none → FinInv s) ∧ NothingAfterClose s.out)
    (by
      intro _
      refine ⟨fun _ => ⟨by simp [St.init], by simp [St.init]⟩, ?_⟩
      intro a b h
      simp [St.init] at h)
    (by
      intro acts a ih hs
      obtain ⟨h1, h2⟩ := ih (fun i k n h => hs i k n (List.mem_append_left _ h))
      have ha : ∀ i k n, a = .identity i k n → k ≠ none ∧ DateOk n := fun i k n h =>
        hs i k n (by rw [h]; simp)
      generalize hS : run cfg initial acts = s at *
      have hI1 : Inv1 s := hS ▸ inv1_run cfg initial acts
      refine ⟨fun hc => ?_, nothingAfter_step hI1 h2 ?_⟩
      · have hf := h1 hc
        match cfg, hc with
        | some c, _ => exact finInv_step hf ha
      · intro hm c i k now m m' g hcf _ _ hsg
        have hf := (h1 (by rw [hcf]; simp)).2 hm
        unfold sign at hsg
        split at hsg
        · cases hsg
        · have := (signPayload_ok hsg).1
          rw [hf] at this
          cases this)
    acts
  exact (this hid).2

end Verif.Publisher

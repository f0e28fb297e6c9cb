import Verif.Publisher.Props
import Verif.EventStream.Props

/-! # The signature chain (C11) -/

set_option autoImplicit false

namespace Verif.Publisher
open Verif.EventStream Verif.EventStream.Spec Verif.Publisher.Spec

/-! ### C11: the signature chain -/

theorem hexDigit_spec : ∀ n : Fin 16,
    (utf8Encode "0123456789abcdef").getD n.val 0 = hexDigit n.val := by decide +kernel

theorem hex_eq (b : Bytes) : hex b = hexlify b := by
  unfold hex hexlify
  dsimp only
  rw [List.flatMap_def]
  congr 1
  apply List.map_congr_left
  intro x _
  have hx := x.toNat_lt
  rw [hexDigit_spec ⟨x.toNat / 16, by omega⟩, hexDigit_spec ⟨x.toNat % 16, by omega⟩]

theorem stringToSign_spec (c : SignCfg) (t hdr pl p : Bytes) :
    stringToSign c t hdr pl p = eventStringToSign c t p hdr pl := by
  have : ascii "AWS4-HMAC-SHA256-PAYLOAD\n" = utf8Encode "AWS4-HMAC-SHA256-PAYLOAD" ++ utf8Encode "\n" := by
    decide +kernel
  have h2 : ascii "/aws4_request" = utf8Encode "/" ++ utf8Encode "aws4_request" := by decide +kernel
  unfold ascii at this h2
  simp [stringToSign, eventStringToSign, credentialScope, scope, this, h2, hex_eq, List.intercalate, ascii]

theorem signEvent_spec (c : SignCfg) (k t m : Bytes) :
    signEvent c k t m = c.crypto.hmac (signingKey c k t) m := rfl

theorem chain_snoc {c : SignCfg} {p q : Bytes} {evs : List (Option EventMessage)} {fs : List Bytes}
    (h : Chain c p evs fs q) {ev : Option EventMessage} {secret hdr pl sig frame : Bytes} {now : Int}
    (h1 : WireHeaders [(":date", .timestamp now)] hdr) (h2 : IsPayload ev pl)
    (h3 : sig = signEvent c secret (c.date.getD (c.format now))
      (stringToSign c (c.date.getD (c.format now)) hdr pl q))
    (h4 : EventMessage.encode ⟨[(":date", .timestamp now), (":chunk-signature", .blob sig)], pl⟩ =
      .ok frame) :
    Chain c p (evs ++ [ev]) (fs ++ [frame]) (hexlify sig) := by
  rw [stringToSign_spec, signEvent_spec] at h3
  rw [← hex_eq]
  induction h with
  | nil => exact .cons rfl h1 h2 h3 h4 .nil
  | cons a1 a2 a3 a4 a5 _ ih => exact .cons a1 a2 a3 a4 a5 (ih h3)

/-- What has been signed and written so far: the frames of `evs`. -/
structure ChainInv (c : SignCfg) (initial : Bytes) (s : St) (evs : List (Option EventMessage)) : Prop where
  chain : Chain c initial evs (written s.out) s.signer.prior
  fin : s.signer.finalized = true ↔ none ∈ evs
  last : ∀ a b, evs = a ++ none :: b → b = [] ∧ none ∉ a

theorem written_close (out : List Out) : written (out ++ [.close]) = written out := by
  simp [written]

theorem written_write (out : List Out) (b : Bytes) : written (out ++ [.write b]) = written out ++ [b] := by
  simp [written]

/-- How a step changes the tasks and the sequence of signed events. -/
def Moved (a : Act) (t t' : List Phase) (evs evs' : List (Option EventMessage)) : Prop :=
  (evs' = evs ∧ IsCall a ∧ ∃ q, t' = t ++ [q] ∧ ∀ m, q = .sendIdentity m → a = .send (some m)) ∨
  (evs' = evs ∧ ¬ IsCall a ∧ ∃ i q, (∀ m, q ≠ .sendIdentity m) ∧ t' = t.set i q) ∨
  (¬ IsCall a ∧ ∃ (i : Nat) (m : EventMessage) (q : Phase), t[i]? = some (.sendIdentity m) ∧
    (∀ m, q ≠ .sendIdentity m) ∧ evs' = evs ++ [some m] ∧ t' = t.set i q) ∨
  (¬ IsCall a ∧ ∃ (i : Nat) (q : Phase), (∀ m, q ≠ .sendIdentity m) ∧ evs' = evs ++ [none] ∧ t' = t.set i q)

theorem chainInv_same {c : SignCfg} {initial : Bytes} {s s' : St} {evs : List (Option EventMessage)}
    (h : ChainInv c initial s evs) (hs : s'.signer = s.signer) (hw : written s'.out = written s.out) :
    ChainInv c initial s' evs :=
  ⟨by rw [hs, hw]; exact h.chain, by rw [hs]; exact h.fin, h.last⟩

theorem chainInv_grow {c : SignCfg} {initial : Bytes} {s s' : St} {evs : List (Option EventMessage)}
    {g : Signer} {m' : EventMessage} {ev : Option EventMessage} {k pl b : Bytes} {now : Int} {fin : Bool}
    (h : ChainInv c initial s evs) (hsg : signPayload c s.signer k now pl fin = .ok (m', g))
    (hev : IsPayload ev pl) (hfin : ev = none ↔ fin = true)
    (hb : m'.encode = .ok b) (hs : s'.signer = g) (hw : s'.out = s.out ++ [.write b]) :
    ChainInv c initial s' (evs ++ [ev]) := by
  obtain ⟨hnf, hgf, hdr, sig, hw1, hsig, hm', hpr⟩ := signPayload_ok hsg
  rw [hm'] at hb
  have hno : none ∉ evs := by
    intro hn
    rw [h.fin.2 hn] at hnf
    cases hnf
  refine ⟨?_, ?_, ?_⟩
  · rw [hw, written_write, hs, hpr]
    exact chain_snoc h.chain hw1 hev hsig hb
  · rw [hs, hgf, ← hfin, List.mem_append, List.mem_singleton]
    exact ⟨fun h => .inr h.symm, fun h => h.elim (fun h => absurd h hno) Eq.symm⟩
  · intro x y hxy
    rcases List.eq_nil_or_concat y with rfl | ⟨y', z, rfl⟩
    · have := (List.append_inj' (hxy : evs ++ [ev] = x ++ [none]) rfl).1
      exact ⟨rfl, this ▸ hno⟩
    · exfalso
      have h5 := congrArg List.dropLast hxy
      rw [List.dropLast_concat, List.concat_eq_append, ← List.cons_append, ← List.append_assoc,
        List.dropLast_concat] at h5
      apply hno
      rw [h5]
      simp

theorem chainInv_step {c : SignCfg} {initial : Bytes} {s : St} {a : Act}
    {evs : List (Option EventMessage)}
    (hsz : ∀ (i : Nat) (m : EventMessage), s.tasks[i]? = some (.sendIdentity m) →
      ∀ f, m.encode = .ok f → f.length ≤ 16777216)
    (h : ChainInv c initial s evs) :
    ∃ evs', ChainInv c initial (step (some c) s a) evs' ∧
      Moved a s.tasks (step (some c) s a).tasks evs evs' := by
  have hdate : ∀ {now : Int} {hdr : Bytes}, WireHeaders [(":date", .timestamp now)] hdr → DateOk now := by
    intro now hdr hw
    cases hw with
    | cons h1 _ =>
      obtain ⟨l, v, rfl, hl, t, rfl, ht⟩ := h1
      exact ht.1
  have same : ∀ (s' : St) (i : Nat) (q : Phase), ¬ IsCall a → (∀ m, q ≠ .sendIdentity m) →
      s'.tasks = s.tasks.set i q → s'.signer = s.signer → written s'.out = written s.out →
      ∃ evs', ChainInv c initial s' evs' ∧ Moved a s.tasks s'.tasks evs evs' :=
    fun s' i q ha hq ht hs hw => ⟨evs, chainInv_same h hs hw, .inr (.inl ⟨rfl, ha, i, q, hq, ht⟩)⟩
  have call : ∀ (s' : St) (q : Phase), IsCall a → (∀ m, q = .sendIdentity m → a = .send (some m)) →
      s'.tasks = s.tasks ++ [q] → s'.signer = s.signer → written s'.out = written s.out →
      ∃ evs', ChainInv c initial s' evs' ∧ Moved a s.tasks s'.tasks evs evs' :=
    fun s' q ha hq ht hs hw => ⟨evs, chainInv_same h hs hw, .inl ⟨rfl, ha, q, ht, hq⟩⟩
  have stay : ¬ IsCall a → ∃ evs', ChainInv c initial s evs' ∧ Moved a s.tasks s.tasks evs evs' :=
    fun ha => same s s.tasks.length (.done none) ha (by simp)
      (List.set_eq_of_length_le (Nat.le_refl _)).symm rfl rfl
  cases a with
  | send ser =>
    unfold step
    dsimp only
    split
    · exact call _ _ trivial (by simp) rfl rfl rfl
    · split
      · exact call _ _ trivial (by simp) rfl rfl rfl
      · exact call _ _ trivial (by simp) rfl rfl rfl
  | close =>
    unfold step St.startClose
    dsimp only
    split
    · exact call _ (.done none) trivial (by simp) (set_append_new _ _ _) rfl rfl
    · exact call _ (.closeIdentity .user) trivial (by simp) (set_append_new _ _ _) rfl rfl
  | identity i k n =>
    have hn : ¬ IsCall (.identity i k n) := fun h => h
    unfold step
    dsimp only
    split
    · rename_i m hm
      split
      · exact same _ i _ hn (by simp) rfl rfl rfl
      · rename_i k
        split
        · exact same _ i _ hn (by simp) rfl rfl rfl
        · rename_i m' g hs
          unfold sign at hs
          split at hs
          · cases hs
          · rename_i pl hpl
            have hlen := hsz i m hm pl hpl
            obtain ⟨_, _, hdr, sig, hw1, hsig, hm', _⟩ := signPayload_ok hs
            obtain ⟨f, hf⟩ := (signed_encodes (sig := sig) (pl := pl) (hdate hw1)
              (by rw [hsig]; exact signEvent_length _ _ _ _)).2 hlen
            rw [← hm'] at hf
            unfold St.encodeAndWrite
            rw [hf]
            exact ⟨_, chainInv_grow h hs (ev := some m) hpl (by simp) hf rfl rfl,
              .inr (.inr (.inl ⟨hn, i, m, .sendWrite, hm, by simp, rfl, rfl⟩))⟩
    · rename_i q hm
      split
      · exact same _ i _ hn (by simp) rfl rfl (written_close _)
      · rename_i k
        split
        · exact same _ i _ hn (by simp) rfl rfl (written_close _)
        · rename_i m' g hs
          obtain ⟨_, _, hdr, sig, hw1, hsig, hm', _⟩ := signPayload_ok hs
          obtain ⟨f, hf⟩ := (signed_encodes (sig := sig) (pl := []) (hdate hw1)
            (by rw [hsig]; exact signEvent_length _ _ _ _)).2 (by simp)
          rw [← hm'] at hf
          rw [hf]
          exact ⟨_, chainInv_grow h hs (ev := none) rfl (by simp) hf rfl rfl,
            .inr (.inr (.inr ⟨hn, i, .closeWrite q, by simp, rfl, rfl⟩))⟩
    · exact stay hn
  | finished i ok =>
    have hn : ¬ IsCall (.finished i ok) := fun h => h
    unfold step
    dsimp only
    split
    · split
      · exact same _ i _ hn (by simp) rfl rfl rfl
      · unfold St.startClose
        split
        · exact same _ i _ hn (by simp) rfl rfl rfl
        · exact same _ i _ hn (by simp) rfl rfl rfl
    · exact same _ i _ hn (by simp) rfl rfl (written_close _)
    · exact same _ i _ hn (by simp) rfl rfl rfl
    · exact stay hn

theorem sent_append (a b : List Act) : sent (a ++ b) = sent a ++ sent b := List.filterMap_append

theorem sent_call_none {a : Act} (h : ∀ m, a ≠ .send (some m)) : sent [a] = [] := by
  cases a with
  | send s => cases s with
    | none => rfl
    | some m => exact absurd rfl (h m)
  | _ => rfl

/-- Every signed event was sent, as often as it was signed. -/
theorem moved_count {a : Act} {t t' : List Phase} {evs evs' : List (Option EventMessage)} {acts : List Act}
    (hm : Moved a t t' evs evs')
    (h : ∀ m, evs.count (some m) + t.count (.sendIdentity m) ≤ (sent acts).count m) (m : EventMessage) :
    evs'.count (some m) + t'.count (.sendIdentity m) ≤ (sent (acts ++ [a])).count m := by
  have hset : ∀ (i : Nat) (q : Phase), (∀ m, q ≠ .sendIdentity m) →
      (t.set i q).count (.sendIdentity m) + (if t[i]? = some (.sendIdentity m) then 1 else 0) =
        t.count (.sendIdentity m) := by
    intro i q hq
    match hi : t[i]? with
    | none =>
      rw [List.set_eq_of_length_le (by simpa using hi)]
      simp
    | some p =>
      have := countP_set (· == .sendIdentity m) t i p q hi
      simp only [List.count]
      have hq' : (q == Phase.sendIdentity m) = false := by simpa using hq m
      rw [hq'] at this
      simp only [Option.some.injEq]
      by_cases hp : p = .sendIdentity m
      · simp [hp] at this ⊢; omega
      · have hp' : (p == Phase.sendIdentity m) = false := by simpa using hp
        rw [hp'] at this
        simp [hp] at this ⊢; omega
  have hle : (sent acts).count m ≤ (sent (acts ++ [a])).count m := by
    rw [sent_append, List.count_append]; omega
  have hm0 := h m
  rcases hm with ⟨rfl, _, q, rfl, hq⟩ | ⟨rfl, _, i, q, hq, rfl⟩ | ⟨_, i, m₁, q, hi, hq, rfl, rfl⟩ |
    ⟨_, i, q, hq, rfl, rfl⟩
  · rw [List.count_append]
    by_cases hqm : q = .sendIdentity m
    · rw [hq m hqm, sent_append, List.count_append, hqm]
      simp [sent]
      simp [sent] at hm0
      omega
    · have : [q].count (.sendIdentity m) = 0 := by
        rw [List.count_eq_zero]; simpa using fun h => hqm h.symm
      omega
  · have := hset i q hq; omega
  · have := hset i q hq
    rw [hi] at this
    rw [List.count_append]
    by_cases hmm : m₁ = m
    · subst hmm
      simp at this ⊢
      omega
    · have h0 : [some m₁].count (some m) = 0 := by
        rw [List.count_eq_zero]; simpa using fun h => hmm h.symm
      omega
  · have := hset i q hq
    rw [List.count_append]
    have h0 : [(none : Option EventMessage)].count (some m) = 0 := by
      rw [List.count_eq_zero]; simp
    omega

/-- Events are signed in the order of the calls, when calls are made one after the other. -/
theorem moved_order {a : Act} {t t' : List Phase} {evs evs' : List (Option EventMessage)} {acts : List Act}
    (hm : Moved a t t' evs evs')
    (hone : ∀ (i j : Nat) (m m' : EventMessage), t[i]? = some (.sendIdentity m) →
      t[j]? = some (.sendIdentity m') → i = j)
    (hidle : IsCall a → ∀ (i : Nat) (m : EventMessage), t[i]? ≠ some (.sendIdentity m))
    (h : (evs.filterMap id).Sublist (sent acts) ∧ ∀ (i : Nat) (m : EventMessage),
      t[i]? = some (.sendIdentity m) → (evs.filterMap id ++ [m]).Sublist (sent acts)) :
    (evs'.filterMap id).Sublist (sent (acts ++ [a])) ∧ ∀ (i : Nat) (m : EventMessage),
      t'[i]? = some (.sendIdentity m) → (evs'.filterMap id ++ [m]).Sublist (sent (acts ++ [a])) := by
  have grow : ∀ {l : List EventMessage}, l.Sublist (sent acts) → l.Sublist (sent (acts ++ [a])) := by
    intro l hl
    rw [sent_append]
    exact hl.trans (List.sublist_append_left _ _)
  have hset : ∀ {i j : Nat} {q : Phase} {m : EventMessage}, (∀ m, q ≠ .sendIdentity m) →
      (t.set i q)[j]? = some (.sendIdentity m) → i ≠ j ∧ t[j]? = some (.sendIdentity m) := by
    intro i j q m hq hj
    rcases getElem?_set_cases hj with ⟨hij, hj⟩ | ⟨_, hj⟩
    · exact ⟨hij, hj⟩
    · exact absurd hj.symm (hq m)
  rcases hm with ⟨rfl, ha, q, rfl, hq⟩ | ⟨rfl, _, i, q, hq, rfl⟩ | ⟨_, i, m₁, q, hi, hq, rfl, rfl⟩ |
    ⟨_, i, q, hq, rfl, rfl⟩
  · refine ⟨grow h.1, fun i m hi => ?_⟩
    rcases getElem?_append_one hi with hi | ⟨_, hi⟩
    · exact absurd hi (hidle ha i m)
    · rw [hq m hi.symm, sent_append]
      exact List.Sublist.append h.1 (List.Sublist.refl _)
  · exact ⟨grow h.1, fun j m hj => grow (h.2 j m (hset hq hj).2)⟩
  · rw [List.filterMap_append]
    refine ⟨grow (h.2 i m₁ hi), fun j m hj => ?_⟩
    obtain ⟨hij, hj⟩ := hset hq hj
    exact absurd (hone i j m₁ m hi hj) hij
  · rw [List.filterMap_append]
    simp only [List.filterMap_cons, id, List.filterMap_nil, List.append_nil]
    exact ⟨grow h.1, fun j m hj => grow (h.2 j m (hset hq hj).2)⟩

/-- Every event sent leaves room for the frame around it. -/
def FitsSigned (acts : List Act) : Prop :=
  ∀ m ∈ sent acts, ∀ f, m.encode = .ok f → f.length ≤ 16777216

theorem chainInv_run (c : SignCfg) (initial : Bytes) (acts : List Act) (hsz : FitsSigned acts) :
    ∃ evs, ChainInv c initial (run (some c) initial acts) evs ∧
      (∀ m, evs.count (some m) + (run (some c) initial acts).tasks.count (.sendIdentity m) ≤
        (sent acts).count m) ∧
      (Sequential (some c) initial acts → SeqInv (run (some c) initial acts) ∧
        (evs.filterMap id).Sublist (sent acts) ∧ ∀ (i : Nat) (m : EventMessage),
          (run (some c) initial acts).tasks[i]? = some (.sendIdentity m) →
            (evs.filterMap id ++ [m]).Sublist (sent acts)) := by
  induction acts using snoc_induction with
  | h0 =>
    exact ⟨[], ⟨.nil, by simp [run, St.init], by simp⟩, by simp [run, St.init],
      fun _ => ⟨⟨by simp [run, St.init], by simp [run, St.init]⟩, by simp, by simp [run, St.init]⟩⟩
  | h1 acts a ih =>
    have hs' : FitsSigned acts := fun m hm => hsz m (by rw [sent_append]; exact List.mem_append_left _ hm)
    obtain ⟨evs, h1, h2, h3⟩ := ih hs'
    rw [run_snoc]
    obtain ⟨evs', h4, h5⟩ := chainInv_step (a := a) (fun i m hi => hs' m (by
      have := h2 m
      have h6 : 0 < (run (some c) initial acts).tasks.count (.sendIdentity m) :=
        List.count_pos_iff.2 (List.mem_of_getElem? hi)
      exact List.count_pos_iff.1 (by omega))) h1
    refine ⟨evs', h4, moved_count h5 h2, fun hq => ?_⟩
    obtain ⟨h6, h7⟩ := h3 (sequential_prefix hq)
    have hidle : IsCall a → Idle (run (some c) initial acts) := hq acts a [] rfl
    refine ⟨seqInv_step h6 hidle, moved_order h5 ?_ ?_ h7⟩
    · intro i j m m' hi hj
      exact h6.1 i j _ _ hi hj (by simp) (by simp)
    · intro ha i m hi
      obtain ⟨r, hr⟩ := hidle ha _ (List.mem_of_getElem? hi)
      cases hr

/-- **C11**, proved part: with signing configured, however the calls interleave and whatever fails, the
frames handed to the writer are a signature chain that starts at the request's signature, over events
that were sent (none more often than it was sent), in which the empty end frame occurs at most once and
only at the end.  Missing: events whose encoding is larger than a payload may be, for which it is false
(see `C11_oversized_event_fails`). -/
theorem C11_signature_chain_partial (c : SignCfg) (initial : Bytes) (acts : List Act)
    (hsz : FitsSigned acts) :
    ∃ evs, Chain c initial evs (written (run (some c) initial acts).out)
        (run (some c) initial acts).signer.prior ∧
      (∀ m, evs.count (some m) ≤ (sent acts).count m) ∧
      (∀ a b, evs = a ++ none :: b → b = [] ∧ none ∉ a) := by
  obtain ⟨evs, h1, h2, _⟩ := chainInv_run c initial acts hsz
  exact ⟨evs, h1.chain, fun m => by have := h2 m; omega, h1.last⟩

/-- **C11**, proved part: when calls are made one after the other, the chain runs over the events in the
order in which they were sent. -/
theorem C11_chain_in_order_partial (c : SignCfg) (initial : Bytes) (acts : List Act)
    (hsz : FitsSigned acts) (hseq : Sequential (some c) initial acts) :
    ∃ evs, Chain c initial evs (written (run (some c) initial acts).out)
        (run (some c) initial acts).signer.prior ∧
      (evs.filterMap id).Sublist (sent acts) ∧
      (∀ a b, evs = a ++ none :: b → b = [] ∧ none ∉ a) := by
  obtain ⟨evs, h1, _, h3⟩ := chainInv_run c initial acts hsz
  exact ⟨evs, h1.chain, (h3 hseq).2.1, h1.last⟩

/-- **C11**, proved part: once the publisher is closed and no call is in progress, the chain has been
ended by the empty frame, if the identity can always be resolved. -/
theorem C11_close_ends_chain_partial (c : SignCfg) (initial : Bytes) (acts : List Act)
    (hsz : FitsSigned acts)
    (hid : ∀ i secret now, .identity i secret now ∈ acts → secret ≠ none ∧ IsDatetime now)
    (hc : (run (some c) initial acts).closed = true) (hi : Idle (run (some c) initial acts)) :
    ∃ evs, Chain c initial (evs ++ [none]) (written (run (some c) initial acts).out)
        (run (some c) initial acts).signer.prior ∧ none ∉ evs := by
  replace hid : ∀ i secret now, .identity i secret now ∈ acts → secret ≠ none ∧ DateOk now :=
    fun i k n h => ⟨(hid i k n h).1, dateOk (hid i k n h).2⟩
  obtain ⟨evs, h1, _⟩ := chainInv_run c initial acts hsz
  have hf : FinInv (run (some c) initial acts) := by
    have := run_induction (cfg := some c) (initial := initial)
      (P := fun acts s => (∀ i secret now, .identity i secret now ∈ acts → secret ≠ none ∧ DateOk now) →
        FinInv s)
      (fun _ => ⟨by simp [St.init], by simp [St.init]⟩)
      (fun acts a ih hs => finInv_step (ih fun i k n h => hs i k n (List.mem_append_left _ h))
        (fun i k n h => hs i k n (by rw [h]; simp)))
      acts
    exact this hid
  have hcl := C09_writer_closed_when_idle (some c) initial acts hc hi
  have hmem : Out.close ∈ (run (some c) initial acts).out := List.count_pos_iff.1 (by omega)
  have hn : none ∈ evs := h1.fin.1 (hf.2 hmem)
  obtain ⟨x, y, rfl⟩ := List.append_of_mem hn
  obtain ⟨rfl, hx⟩ := h1.last x y rfl
  exact ⟨x, h1.chain, hx⟩

/-- **C11** is false of the code for events at the payload limit: signing wraps the encoded event as a
payload, which is then too large to be encoded, but the chain has advanced; the next frame written is
signed with a signature that was never sent. -/
theorem C11_oversized_event_fails (c : SignCfg) : ∃ (acts : List Act) (b prior : Bytes),
    written (run (some c) [] acts).out = [b] ∧ prior ≠ [] ∧ ∃ ev q, Chain c prior [ev] [b] q := by
  have hd : DateOk 0 := by
    unfold DateOk Fits
    decide +kernel
  obtain ⟨data, hdata⟩ : ∃ data : Bytes, data.length = 16777216 :=
    ⟨List.replicate 16777216 0, List.length_replicate⟩
  obtain ⟨big, hbh, hbp⟩ : ∃ big : EventMessage, big.headers = [] ∧ big.payload = data :=
    ⟨{ payload := data }, rfl, rfl⟩
  obtain ⟨f, hf⟩ : ∃ f, big.encode = .ok f :=
    (C06_encode_succeeds_iff big).2 ⟨by simp [hbh], by simp [hbh],
      ⟨[], by rw [hbh]; exact .nil, by simp⟩, by rw [hbp, hdata]⟩
  have hfl : ¬ f.length ≤ 16777216 := by
    obtain ⟨h, hw, ⟨t, l, c, d, hfe, ht, hl, hc, hd⟩, _⟩ := encode_ok hf
    rw [hfe]
    simp [ht.1, hl.1, hc.1, hd.1, hbp, hdata]
    omega
  obtain ⟨pl, hpl⟩ : ∃ pl, EventMessage.encode {} = .ok pl := ⟨_, rfl⟩
  have hpll : pl.length ≤ 16777216 := by
    obtain ⟨h, hw, hf, _⟩ := encode_ok hpl
    cases hw
    obtain ⟨t, l, c, d, hfe, ht, hl, hc, hd⟩ := hf
    rw [hfe]
    simp [ht.1, hl.1, hc.1, hd.1]
  obtain ⟨m1, g1, hm1⟩ := signPayload_isOk (c := c) (s := { prior := [] }) (k := []) (pl := f)
    (fin := false) rfl hd
  obtain ⟨_, hg1, hdr1, sig1, _, hsig1, hm1', hp1⟩ := signPayload_ok hm1
  obtain ⟨m2, g2, hm2⟩ := signPayload_isOk (c := c) (s := g1) (k := []) (pl := pl)
    (fin := false) hg1 hd
  obtain ⟨_, hg2, hdr2, sig2, hw2, hsig2, hm2', hp2⟩ := signPayload_ok hm2
  have hl1 : sig1.length = 32 := by rw [hsig1]; exact signEvent_length _ _ _ _
  obtain ⟨x, hx⟩ : ∃ x, m1.encode = .error x := by
    match h : m1.encode with
    | .error x => exact ⟨x, rfl⟩
    | .ok f' => rw [hm1'] at h; exact absurd ((signed_encodes hd hl1).1 ⟨f', h⟩) hfl
  obtain ⟨b, hb⟩ := (signed_encodes (sig := sig2) (pl := pl) hd
    (by rw [hsig2]; exact signEvent_length _ _ _ _)).2 hpll
  rw [← hm2'] at hb
  refine ⟨[.send (some big), .identity 0 (some []) 0, .send (some {}), .identity 1 (some []) 0], b,
    g1.prior, ?_, ?_, some {}, g2.prior, ?_⟩
  · have e1 : step (some c) (St.init []) (.send (some big)) =
        { signer := { prior := [] }, tasks := [.sendIdentity big] } := rfl
    have e2 : step (some c) { signer := { prior := [] }, tasks := [.sendIdentity big] }
        (.identity 0 (some []) 0) = { signer := g1, tasks := [.done (some (.codec x))] } := by
      simp [step, sign, hf, hm1, St.encodeAndWrite, hx, St.setTask]
    have e3 : step (some c) { signer := g1, tasks := [.done (some (.codec x))] } (.send (some {})) =
        { signer := g1, tasks := [.done (some (.codec x)), .sendIdentity {}] } := rfl
    have e4 : step (some c) { signer := g1, tasks := [.done (some (.codec x)), .sendIdentity {}] }
        (.identity 1 (some []) 0) =
        { signer := g2, tasks := [.done (some (.codec x)), .sendWrite], out := [.write b] } := by
      simp [step, sign, hpl, hm2, St.encodeAndWrite, hb, St.setTask, St.write]
    simp only [run, List.foldl_cons, List.foldl_nil, e1, e2, e3, e4, written]
    rfl
  · rw [hp1]
    intro hn
    match sig1, hl1 with
    | x :: y, _ => simp [hexlify] at hn
  · rw [hp2]
    rw [hm2'] at hb
    exact chain_snoc .nil hw2 hpl hsig2 hb

/-! ### The hypotheses are met -/

/-- A (silly) hash, only to have something to compute with. -/
def sampleCfg : SignCfg :=
  { crypto := ⟨fun _ => [], fun _ _ => List.replicate 32 7, by simp⟩
    region := ascii "us-east-1", service := ascii "svc", date := none
    format := fun _ => ascii "20260101T000000Z" }

/-- A small event. -/
def smallEvent : EventMessage := { payload := [1, 2, 3] }

/-- Two events are sent, one after the other, then the publisher is closed. -/
def sampleRun : List Act :=
  [.send (some smallEvent), .identity 0 (some [1]) 0, .finished 0 true,
   .send (some {}), .identity 1 (some [2]) 1000000, .finished 1 true,
   .close, .identity 2 (some [3]) 2000000, .finished 2 true, .finished 2 true]

instance (s : St) : Decidable (Idle s) :=
  decidable_of_iff (∀ p ∈ s.tasks, (match p with | .done _ => true | _ => false) = true) (by
    constructor
    · intro h p hp
      have := h p hp
      cases p <;> simp_all
    · intro h p hp
      obtain ⟨r, rfl⟩ := h p hp
      rfl)

instance (a : Act) : Decidable (IsCall a) :=
  match a with
  | .send _ | .close => isTrue trivial
  | .identity _ _ _ | .finished _ _ => isFalse id

theorem sequential_of_check {cfg : Option SignCfg} {initial : Bytes} {acts : List Act}
    (h : ∀ i, i < acts.length → ∀ a, acts[i]? = some a → IsCall a → Idle (run cfg initial (acts.take i))) :
    Sequential cfg initial acts := by
  rintro pre a post rfl ha
  have := h pre.length (by simp) a (by simp) ha
  simpa using this

theorem fitsSigned_of_check {acts : List Act}
    (h : (sent acts).all (fun m => match m.encode with | .ok f => f.length ≤ 16777216 | .error _ => true)
      = true) : FitsSigned acts := by
  intro m hm f hf
  have := List.all_eq_true.1 h m hm
  rw [hf] at this
  simpa using this

theorem sampleRun_sequential : Sequential (some sampleCfg) [5] sampleRun := by
  apply sequential_of_check
  intro i hi a ha hc
  have hi' : i < 10 := hi
  have : ∀ i : Fin 10, ∀ a, sampleRun[i.val]? = some a → IsCall a →
      Idle (run (some sampleCfg) [5] (sampleRun.take i.val)) := by
    intro i a ha
    have key : ∀ i : Fin 10, (match sampleRun[i.val]? with
      | some a => decide (IsCall a → Idle (run (some sampleCfg) [5] (sampleRun.take i.val)))
      | none => true) = true := by decide +kernel
    have := key i
    rw [ha] at this
    exact of_decide_eq_true this
  exact this ⟨i, hi'⟩ a ha hc

/-- Hypotheses of the C09, C63 and C11 theorems. -/
example : Sequential (some sampleCfg) [5] sampleRun ∧ FitsSigned sampleRun ∧
    (run (some sampleCfg) [5] sampleRun).closed = true ∧ Idle (run (some sampleCfg) [5] sampleRun) ∧
    (written (run (some sampleCfg) [5] sampleRun).out).length = 3 ∧
    (∀ i secret now, .identity i secret now ∈ sampleRun → secret ≠ none ∧ IsDatetime now) := by
  refine ⟨sampleRun_sequential, fitsSigned_of_check (by decide +kernel), by decide +kernel,
    by decide +kernel, by decide +kernel, ?_⟩
  intro i k n h
  simp only [sampleRun, List.mem_cons, List.not_mem_nil, reduceCtorEq, or_false, false_or,
    Act.identity.injEq] at h
  rcases h with ⟨_, rfl, rfl⟩ | ⟨_, rfl, rfl⟩ | ⟨_, rfl, rfl⟩ <;>
    exact ⟨by simp, by decide, by decide⟩

/-- Hypothesis of `C09_failed_write_closes`. -/
example : (run none [] [.send (some smallEvent)]).tasks[0]? = some .sendWrite := by decide +kernel

end Verif.Publisher

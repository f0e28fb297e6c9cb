import Verif.EventStream.CrcLemmas
import Verif.EventStream.HeaderInversion
import Verif.EventStream.Float64Lemmas

/-! Whole streams, cut streams and corrupted frames. -/

set_option autoImplicit false

namespace Verif.EventStream
open Spec

theorem readBack_wholeSecond {v : HeaderValue} (h : WholeSecond v) : readBack v = .ok v := by
  cases v with
  | timestamp us =>
    obtain ⟨h0, h1, h2⟩ := h
    simp only [readBack, readBack_whole h0 h1 h2]
  | _ => rfl

theorem decode_encode_whole {m : EventMessage} {f : Bytes} (rest : Bytes) (he : m.encode = .ok f)
    (hw : ∀ x ∈ m.headers, WholeSecond x.2) :
    ∃ e, Event.decode (f ++ rest) = (.ok (some e), rest) ∧ e.message = m := by
  obtain ⟨e, h1, h2⟩ := decode_encode rest id he (fun x hx => readBack_wholeSecond (hw x hx))
  exact ⟨e, h1, by rw [h2]; simp⟩

theorem decodeAll_some {src rest : Bytes} {e : Event} (h : Event.decode src = (.ok (some e), rest)) :
    decodeAll src = (e :: (decodeAll rest).1, (decodeAll rest).2) := by
  rw [decodeAll]
  split
  · rename_i h'; rw [h] at h'; cases h'
  · rename_i h'; rw [h] at h'; cases h'
  · rename_i h'; rw [h] at h'; cases h'; rfl

theorem decodeAll_nil : decodeAll [] = ([], .ok ()) := by
  rw [decodeAll]
  split
  · rename_i h'; rw [decode_nil] at h'; cases h'
  · rfl
  · rename_i h'; rw [decode_nil] at h'; cases h'

theorem decodeAll_error {src r : Bytes} {x : Err} (h : Event.decode src = (.error x, r)) :
    decodeAll src = ([], .error x) := by
  rw [decodeAll]
  split
  · rename_i h'; rw [h] at h'; cases h'; rfl
  · rename_i h'; rw [h] at h'; cases h'
  · rename_i h'; rw [h] at h'; cases h'

theorem decodeAll_cut {ms : List EventMessage} {fs : List Bytes}
    (henc : ms.map EventMessage.encode = fs.map Except.ok)
    (hw : ∀ m ∈ ms, ∀ x ∈ m.headers, WholeSecond x.2) (n : Nat) (hn : n ≤ fs.flatten.length) :
    ∃ k, k ≤ ms.length ∧ (decodeAll (fs.flatten.take n)).1.map Event.message = ms.take k ∧
      (fs.take k).flatten.length ≤ n ∧
      if n = (fs.take k).flatten.length then (decodeAll (fs.flatten.take n)).2 = .ok ()
      else n < (fs.take (k + 1)).flatten.length ∧
        ∃ x, (decodeAll (fs.flatten.take n)).2 = .error x := by
  induction fs generalizing ms n with
  | nil =>
    simp only [List.flatten_nil, List.length_nil] at hn
    refine ⟨0, by omega, ?_⟩
    simp only [List.flatten_nil, List.take_nil, decodeAll_nil, List.length_nil]
    simp
    omega
  | cons f fs ih =>
    match ms, henc with
    | m :: ms, henc =>
      simp only [List.map_cons, List.cons.injEq] at henc
      obtain ⟨hm, henc⟩ := henc
      by_cases hlt : f.length ≤ n
      · obtain ⟨k, hk, h1, h2, h3⟩ := ih henc (fun m hm => hw m (.tail _ hm)) (n - f.length)
          (by simp only [List.flatten_cons, List.length_append] at hn; omega)
        have ht : (f :: fs).flatten.take n = f ++ fs.flatten.take (n - f.length) := by
          simp only [List.flatten_cons]
          rw [List.take_append, List.take_of_length_le hlt]
        obtain ⟨e, hd, hem⟩ := decode_encode_whole (fs.flatten.take (n - f.length)) hm
          (hw m (.head _))
        refine ⟨k + 1, by simp only [List.length_cons]; omega, ?_⟩
        rw [ht, decodeAll_some hd]
        simp only [List.map_cons, hem, h1, List.take_succ_cons, List.flatten_cons, List.length_append,
          true_and]
        refine ⟨by omega, ?_⟩
        by_cases he : n - f.length = (fs.take k).flatten.length
        · rw [if_pos he] at h3
          rw [if_pos (by omega)]
          exact h3
        · rw [if_neg he] at h3
          rw [if_neg (by omega)]
          exact ⟨by omega, h3.2⟩
      · refine ⟨0, by omega, ?_⟩
        have ht : (f :: fs).flatten.take n = f.take n := by
          simp only [List.flatten_cons]
          rw [List.take_append_of_le_length (by omega)]
        rw [ht]
        by_cases h0 : n = 0
        · subst h0
          simp [decodeAll_nil]
        · obtain ⟨h, _, hf, _⟩ := encode_ok hm
          obtain ⟨x, r, hx⟩ := decode_cut hf (n := n) (by omega) (by omega)
          rw [decodeAll_error hx]
          simp [h0]
          omega

theorem isFrame_length {h p f : Bytes} (hf : IsFrame h p f) :
    f.length = h.length + p.length + 16 := by
  obtain ⟨t, l, c, d, hfe, ht, hl, hc, hd⟩ := hf
  rw [hfe]
  simp only [List.length_append, ht.1, hl.1, hc.1, hd.1]
  omega

/-- A frame altered within a short window is not decoded. -/
theorem decode_corrupt {h p f g rest : Bytes} {i n : Nat} (hf : IsFrame h p f)
    (hd : DiffersOnlyIn i n f g) (hne : g ≠ f)
    (hn : n ≤ 3 ∨ n ≤ 4 ∧ (i + n ≤ 8 ∨ 8 ≤ i) ∧ (i + n + 4 ≤ f.length ∨ f.length ≤ i + 4)) :
    ∃ x r, Event.decode (g ++ rest) = (.error x, r) := by
  match hdec : Event.decode (g ++ rest) with
  | (.error x, r) => exact ⟨x, r, rfl⟩
  | (.ok none, r) =>
    have := decode_none hdec
    simp only [List.append_eq_nil_iff] at this
    have h1 := isFrame_length hf
    have h2 := hd.1
    rw [this.1] at h2
    simp only [List.length_nil] at h2
    omega
  | (.ok (some e), r) =>
    exfalso
    have hfl := isFrame_length hf
    obtain ⟨pre, c', msg, d', hsrc, hpre, hc', hd', hlen, _⟩ := decode_some hdec
    obtain ⟨t, l, c, d, hfe, ht, hl, hc, hdd⟩ := hf
    have hgl : g.length = f.length := hd.1.symm
    -- first twelve bytes
    have g12 : g.take 12 = pre ++ c' := by
      have : (g ++ rest).take 12 = g.take 12 := List.take_append_of_le_length (by omega)
      rw [← this, hsrc]
      simp only [List.append_assoc]
      rw [← List.append_assoc]
      exact List.take_left' (by rw [List.length_append, hpre, hc'.1])
    have f12 : f.take 12 = (t ++ l) ++ c := by
      rw [hfe]
      simp only [List.append_assoc]
      rw [← List.append_assoc, ← List.append_assoc, List.append_assoc t]
      exact List.take_left' (by simp only [List.length_append, ht.1, hl.1, hc.1])
    have d12 : DiffersOnlyIn i n ((t ++ l) ++ c) (pre ++ c') := by
      rw [← f12, ← g12]
      refine ⟨by simp only [List.length_take]; omega, fun j hj => ?_⟩
      by_cases hj12 : j < 12
      · rw [List.getElem?_take_of_lt hj12, List.getElem?_take_of_lt hj12]; exact hd.2 j hj
      · rw [List.getElem?_take_eq_none (by omega), List.getElem?_take_eq_none (by omega)]
    have htl : (t ++ l).length = 8 := by simp only [List.length_append, ht.1, hl.1]
    obtain ⟨hp1, hp2⟩ := codeword_window (by omega) hc hc' d12 (by rw [htl]; omega)
    subst hp1 hp2
    -- so the frame read has the same length
    have hlen' : (t ++ l ++ c ++ msg ++ d').length = g.length := by
      rw [hlen, List.take_left' ht.1, ht.2, hgl]
    have hgeq : g = t ++ l ++ c ++ msg ++ d' := by
      have h1 : (g ++ rest).take g.length = g := List.take_left' rfl
      rw [hsrc, ← hlen', List.take_left' rfl] at h1
      exact h1.symm
    rw [hfe, hgeq] at hd
    have hmsg : (t ++ l ++ c ++ h ++ p).length = (t ++ l ++ c ++ msg).length := by
      simp only [List.length_append, hd'.1, ht.1, hl.1, hc.1] at hlen' hgl ⊢
      omega
    have hPl : (t ++ l ++ c ++ h ++ p).length + 4 = f.length := by
      rw [hfe]; simp only [List.length_append, hdd.1]
    obtain ⟨h1, h2⟩ := codeword_window hmsg hdd hd' hd (by omega)
    apply hne
    rw [hgeq, hfe, h1, h2]

end Verif.EventStream

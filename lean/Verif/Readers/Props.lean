import Verif.Readers.Spec
import Mathlib.Tactic.Linarith

/-! # Readers (C16, C17) -/

set_option autoImplicit false

namespace Verif.Readers
open Verif.EventStream (Bytes)
open Verif.Readers.Spec

theorem pull_spec (size : Nat) (result : Bytes) (cs : List Bytes) :
    (pull size result cs).1 ++ (pull size result cs).2.flatten = result ++ cs.flatten ∧
    (size ≤ (pull size result cs).1.length ∨ (pull size result cs).2 = []) := by
  induction cs generalizing result with
  | nil => simp [pull]
  | cons c cs ih =>
    unfold pull
    split
    · rename_i h; simp; left; simpa using h
    · have := ih (result ++ c)
      simpa using this

theorem take_append_enough {a b : Bytes} {n : Nat} (h : n ≤ a.length ∨ b = []) :
    (a ++ b).take n = a.take n := by
  rcases h with h | rfl
  · rw [List.take_append_of_le_length h]
  · simp

theorem drop_append_enough {a b : Bytes} {n : Nat} (h : n ≤ a.length ∨ b = []) :
    (a ++ b).drop n = a.drop n ++ b := by
  rcases h with h | rfl
  · rw [List.drop_append_of_le_length h]
  · simp

theorem take_wanted {n : Int} (hn : ¬ n < 0) (b : Bytes) : b.take (wanted n b.length) = b.take n.toNat := by
  unfold wanted
  rw [if_neg hn]
  rcases Nat.le_total n.toNat b.length with h | h
  · rw [Nat.min_eq_left h]
  · rw [Nat.min_eq_right h, List.take_length, List.take_of_length_le h]

theorem drop_wanted {n : Int} (hn : ¬ n < 0) (b : Bytes) : b.drop (wanted n b.length) = b.drop n.toNat := by
  unfold wanted
  rw [if_neg hn]
  rcases Nat.le_total n.toNat b.length with h | h
  · rw [Nat.min_eq_left h]
  · rw [Nat.min_eq_right h, List.drop_length, List.drop_of_length_le h]

theorem flatten_nil_right {cs : List Bytes} (h : cs = []) : cs.flatten = [] := by subst h; rfl

/-- One read of an open reader. -/
theorem read_ok {r : Reader} (hg : Good r) (hc : r.closed = false) (n : Int) :
    ∃ r', r.read n = (.ok ((remaining r).take (wanted n (remaining r).length)), r') ∧
      remaining r' = (remaining r).drop (wanted n (remaining r).length) ∧ Good r' ∧ r'.closed = false ∧
      r'.srcClosed = r.srcClosed := by
  obtain ⟨src, guarded, rem, closed, k⟩ := r
  simp only at hc
  subst hc
  unfold Reader.read
  simp only [Bool.false_eq_true, if_false]
  cases src with
  | stream rest limit =>
    cases limit with
    | some l => exact absurd rfl (hg.full rest l)
    | none =>
      have hrem : rem = [] := hg.stream rest none rfl
      subst hrem
      simp only [remaining, Src.content, List.nil_append]
      by_cases hn : n < 0
      · rw [if_pos hn]
        have : wanted n rest.length = rest.length := by unfold wanted; rw [if_pos hn]
        rw [this]
        refine ⟨_, by rw [List.take_length], by simp, ⟨?_, ?_, ?_⟩, rfl, rfl⟩
        · intro cs f h; cases h
        · intro a b h; cases h
        · intro a b h; rfl
      · rw [if_neg hn, take_wanted hn, drop_wanted hn]
        refine ⟨_, rfl, rfl, ⟨?_, ?_, ?_⟩, rfl, rfl⟩
        · intro cs f h; cases h
        · intro a b h; cases h
        · intro a b h; rfl
  | iter chunks again =>
    cases again with
    | some fresh => exact absurd rfl (hg.oneShot chunks fresh)
    | none =>
      simp only [remaining, Src.content, aiter]
      by_cases hn : n < 0
      · rw [if_pos hn]
        have : wanted n (rem ++ chunks.flatten).length = (rem ++ chunks.flatten).length := by
          unfold wanted; rw [if_pos hn]
        rw [this]
        refine ⟨_, by rw [List.take_length], by simp, ⟨?_, ?_, ?_⟩, rfl, rfl⟩
        · intro cs f h; cases h
        · intro a b h; cases h
        · intro a b h; cases h
      · rw [if_neg hn, take_wanted hn, drop_wanted hn]
        by_cases hgd : (guarded && !decide (rem.length < n.toNat)) = true
        · rw [if_pos hgd]
          have hle : n.toNat ≤ rem.length := by
            simp only [Bool.and_eq_true, Bool.not_eq_true', decide_eq_false_iff_not] at hgd
            omega
          refine ⟨_, by rw [take_append_enough (Or.inl hle)], by rw [drop_append_enough (Or.inl hle)],
            ⟨?_, ?_, ?_⟩, rfl, rfl⟩
          · intro cs f h; cases h
          · intro a b h; cases h
          · intro a b h; cases h
        · rw [if_neg hgd]
          have hp := pull_spec n.toNat rem chunks
          rw [← hp.1]
          have hor : n.toNat ≤ (pull n.toNat rem chunks).1.length ∨ (pull n.toNat rem chunks).2.flatten = [] :=
            hp.2.imp_right flatten_nil_right
          refine ⟨_, by rw [take_append_enough hor], by rw [drop_append_enough hor],
            ⟨?_, ?_, ?_⟩, rfl, rfl⟩
          · intro cs f h; cases h
          · intro a b h; cases h
          · intro a b h; cases h

/-! ## C16 -/

/-- C16: a read of an open reader returns the next bytes, as many as were asked for or all that are left,
however the source is chunked, in both variants of the class. -/
theorem C16_read_exact_partial {r : Reader} (hg : Good r) (hc : r.closed = false) (n : Int) :
    ∃ r', r.read n = (.ok ((remaining r).take (wanted n (remaining r).length)), r') ∧
      remaining r' = (remaining r).drop (wanted n (remaining r).length) := by
  obtain ⟨r', h1, h2, _⟩ := read_ok hg hc n
  exact ⟨r', h1, h2⟩

theorem reads_good {r : Reader} (hg : Good r) (hc : r.closed = false) (ns : List Int) :
    delivered (r.reads ns).1 ++ remaining (r.reads ns).2 = remaining r ∧ Good (r.reads ns).2 ∧
      (r.reads ns).2.closed = false ∧ ∀ x ∈ (r.reads ns).1, ∃ b, x = .ok b := by
  induction ns generalizing r with
  | nil => exact ⟨rfl, hg, hc, by simp [Reader.reads]⟩
  | cons n ns ih =>
    obtain ⟨r', h1, h2, h3, h4, _⟩ := read_ok hg hc n
    obtain ⟨i1, i2, i3, i4⟩ := ih h3 h4
    simp only [Reader.reads, h1, delivered]
    refine ⟨?_, i2, i3, ?_⟩
    · rw [List.append_assoc, i1, h2, List.take_append_drop]
    · intro x hx
      rcases List.mem_cons.mp hx with rfl | hx
      · exact ⟨_, rfl⟩
      · exact i4 x hx

/-- C16: over any sequence of reads no byte is lost, repeated or reordered: what was delivered, followed
by what a final read of everything returns, is the source's content. -/
theorem C16_nothing_lost_partial {r : Reader} (hg : Good r) (hc : r.closed = false) (ns : List Int) :
    ∃ last r', (r.reads ns).2.read (-1) = (.ok last, r') ∧
      delivered (r.reads ns).1 ++ last = remaining r ∧ remaining r' = [] := by
  obtain ⟨h1, h2, h3, _⟩ := reads_good hg hc ns
  obtain ⟨r', e1, e2, _⟩ := read_ok h2 h3 (-1)
  have : wanted (-1) (remaining (r.reads ns).2).length = (remaining (r.reads ns).2).length := rfl
  rw [this, List.take_length] at e1
  rw [this, List.drop_length] at e2
  exact ⟨_, r', e1, h1, e2⟩

theorem iterate_pieces {σ : Type} (read : σ → Int → Except RErr Bytes × σ) (rem : σ → Bytes) (P : σ → Prop)
    (k : Nat)
    (h : ∀ s, P s → ∃ s', read s (k + 1 : Nat) = (.ok ((rem s).take (k + 1)), s') ∧
      rem s' = (rem s).drop (k + 1) ∧ P s') :
    ∀ (n : Nat) (s : σ), P s → (rem s).length < n →
      iterate read (k + 1 : Nat) n s = (pieces k (rem s), true) := by
  intro n
  induction n with
  | zero => intro s _ hl; omega
  | succ n ih =>
    intro s hs hl
    obtain ⟨s', h1, h2, h3⟩ := h s hs
    unfold iterate anext
    rw [h1]
    simp only
    rw [pieces]
    by_cases he : rem s = []
    · rw [dif_pos he]
      simp [he]
    · rw [dif_neg he]
      have hne : (rem s).take (k + 1) ≠ [] := by
        cases hr : rem s with
        | nil => exact absurd hr he
        | cons a l => simp
      rw [if_neg hne]
      have := ih s' h3 (by rw [h2, List.length_drop]; have := List.length_pos_iff.mpr he; omega)
      simp only [this, h2]

/-- C16: iterating over a reader in chunks of a positive size yields the content cut into chunks of
exactly that size (only the last may be shorter, none is empty), and ends. -/
theorem C16_iter_chunks_partial {r : Reader} (hg : Good r) (hc : r.closed = false) (k n : Nat)
    (hn : (remaining r).length < n) :
    iterate Reader.read (k + 1 : Nat) n r = (pieces k (remaining r), true) := by
  refine iterate_pieces Reader.read remaining (fun r => Good r ∧ r.closed = false) k ?_ n r ⟨hg, hc⟩ hn
  intro s ⟨h1, h2⟩
  obtain ⟨s', e1, e2, e3, e4, _⟩ := read_ok h1 h2 (k + 1 : Nat)
  have hnn : ¬ ((k + 1 : Nat) : Int) < 0 := by omega
  rw [take_wanted hnn] at e1
  rw [drop_wanted hnn] at e2
  exact ⟨s', e1, e2, e3, e4⟩

theorem pieces_flatten (k : Nat) (b : Bytes) : (pieces k b).flatten = b ∧ ∀ p ∈ pieces k b, p ≠ [] ∧ p.length ≤ k + 1 := by
  induction hl : b.length using Nat.strong_induction_on generalizing b with
  | _ n ih =>
    subst hl
    rw [pieces]
    by_cases h : b = []
    · subst h; simp
    · rw [dif_neg h]
      have hp := List.length_pos_iff.mpr h
      obtain ⟨i1, i2⟩ := ih (b.drop (k + 1)).length (by rw [List.length_drop]; omega) _ rfl
      refine ⟨by rw [List.flatten_cons, i1, List.take_append_drop], ?_⟩
      intro p hp'
      rcases List.mem_cons.mp hp' with rfl | hp'
      · refine ⟨?_, by rw [List.length_take]; omega⟩
        cases b with
        | nil => exact absurd rfl h
        | cons a l => simp
      · exact i2 p hp'

/-- C16: the chunks of an iteration put together are the content. -/
theorem C16_chunks_concatenate_partial {r : Reader} (hg : Good r) (hc : r.closed = false) (k : Nat) :
    ∃ cs, (∀ n, (remaining r).length < n → iterate Reader.read (k + 1 : Nat) n r = (cs, true)) ∧
      cs.flatten = remaining r ∧ ∀ c ∈ cs, c ≠ [] ∧ c.length ≤ k + 1 :=
  ⟨_, fun n hn => C16_iter_chunks_partial hg hc k n hn, (pieces_flatten k _).1, (pieces_flatten k _).2⟩

/-- C16: a closed reader delivers nothing, and closing it closes its source exactly once. -/
theorem C16_closed (r : Reader) (hk : r.closed = false) (n : Int) :
    r.close.read n = (.error .valueError, r.close) ∧ r.close.srcClosed = r.srcClosed + 1 ∧
      r.close.close = r.close := by
  unfold Reader.close Reader.read
  simp [hk]

/-- C16: the general claim is false of the code: a source that is an iterable but not an iterator is
started afresh by every read, so bytes are delivered again. -/
theorem C16_reiterable_fails :
    ∃ (r : Reader) (ns : List Int), r.closed = false ∧ r.remainder = [] ∧
      delivered (r.reads ns).1 = [1, 2, 3, 1, 2] ∧ remaining r = [1, 2, 3] :=
  ⟨{ src := .iter [[1, 2, 3]] (some [[1, 2, 3]]) }, [2, 3], by decide +kernel⟩

/-- A source in uneven chunks, one of them empty. -/
def sampleReader (g : Bool) : Reader := { src := .iter [[1, 2], [], [3], [4, 5, 6, 7]] none, guarded := g }

theorem sampleReader_good (g : Bool) : Good (sampleReader g) :=
  ⟨(by intro a b h; cases h), (by intro a b h; cases h), (by intro a b h; cases h)⟩

example : (sampleReader true).reads [3, 0, 2, -1] =
    ([.ok [1, 2, 3], .ok [], .ok [4, 5], .ok [6, 7]],
      { sampleReader true with src := .iter [] none }) := by decide +kernel
example : ((sampleReader false).reads [3, 0, 2, -1]).1 = [.ok [1, 2, 3], .ok [], .ok [4, 5], .ok [6, 7]] := by
  decide +kernel
example : iterate Reader.read 3 8 (sampleReader true) = ([[1, 2, 3], [4, 5, 6], [7]], true) := by decide +kernel

/-! ## C17 -/

/-- A seekable reader and the file it should look like. -/
structure Refines (s : Seekable) (f : File) : Prop where
  pos : s.buffer.pos = f.pos
  closed : s.buffer.closed = f.closed
  content : f.closed = false → f.content = s.buffer.content ++ (match s.source with | none => [] | some r => remaining r)
  source : ∀ r, s.source = some r → Good r ∧ r.closed = false ∧ f.closed = false

/-- Reading into the buffer. -/
theorem readInto {b : File} {r : Reader} (hg : Good r) (hc : r.closed = false) (n : Int) :
    ∃ s', Seekable.readIntoBuffer { buffer := b, source := some r } n = (.ok (), s') ∧
      s'.buffer.content = b.content ++ (remaining r).take (wanted n (remaining r).length) ∧
      s'.buffer.closed = b.closed ∧
      s'.buffer.content ++ (match s'.source with | none => [] | some r => remaining r) = b.content ++ remaining r ∧
      (∀ r', s'.source = some r' → Good r' ∧ r'.closed = false) := by
  obtain ⟨r', h1, h2, h3, h4, _⟩ := read_ok hg hc n
  unfold Seekable.readIntoBuffer
  simp only [h1]
  refine ⟨_, rfl, rfl, rfl, ?_, ?_⟩
  · simp only [File.append]
    by_cases hshort : ((((remaining r).take (wanted n (remaining r).length)).length : Int) < n ∨ n < 0)
    · rw [if_pos hshort]
      simp only [List.append_nil]
      congr 1
      apply List.take_of_length_le
      rw [List.length_take] at hshort
      unfold wanted at hshort ⊢
      split at hshort <;> split <;> omega
    · rw [if_neg hshort]
      simp only [h2, List.append_assoc, List.take_append_drop]
  · intro r'' hr
    by_cases hshort : ((((remaining r).take (wanted n (remaining r).length)).length : Int) < n ∨ n < 0)
    · rw [if_pos hshort] at hr; cases hr
    · rw [if_neg hshort] at hr; cases hr; exact ⟨h3, h4⟩

theorem drop_take_eq {a b : Bytes} {p n : Nat} (h : p + n ≤ a.length ∨ b = []) :
    ((a ++ b).drop p).take n = (a.drop p).take n := by
  rcases h with h | rfl
  · rw [List.drop_append_of_le_length (by omega), List.take_append_of_le_length (by rw [List.length_drop]; omega)]
  · simp

theorem refines_read {s : Seekable} {f : File} (h : Refines s f) (n : Int) :
    (s.read n).1 = (f.read n).1 ∧ Refines (s.read n).2 (f.read n).2 := by
  obtain ⟨⟨bc, bp, bcl⟩, source⟩ := s
  obtain ⟨fc, fp, fcl⟩ := f
  obtain ⟨hp, hcl, hcont, hsrc⟩ := h
  simp only at hp hcl hcont hsrc
  subst hp hcl
  cases source with
  | none =>
    simp only [List.append_nil] at hcont
    unfold Seekable.read File.read
    simp only [true_or, if_true]
    cases bcl with
    | true => simp only [if_true]; exact ⟨by simp, rfl, rfl, by simp, by simp⟩
    | false =>
      have := hcont rfl
      subst this
      simp only [Bool.false_eq_true, if_false]
      refine ⟨by simp, rfl, rfl, by simp, by simp⟩
  | some r =>
    obtain ⟨hg, hrc, hfc⟩ := hsrc r rfl
    subst hfc
    have hcont := hcont rfl
    simp only at hcont
    subst hcont
    unfold Seekable.read
    by_cases hn0 : n = 0
    · subst hn0
      simp only [or_true, if_true]
      unfold File.read
      simp only [Bool.false_eq_true, if_false, lt_irrefl]
      refine ⟨by simp, by simp, rfl, fun _ => rfl, ?_⟩
      intro r' hr; cases hr; exact ⟨hg, hrc, rfl⟩
    · rw [if_neg (by simp [hn0])]
      simp only
      by_cases hneg : n < 0
      · simp only [if_pos hneg]
        obtain ⟨s', e1, e2, e3, e4, e5⟩ := readInto (b := { content := bc, pos := bc.length, closed := false }) hg hrc n
        rw [e1]
        simp only
        have hw : wanted n (remaining r).length = (remaining r).length := by unfold wanted; rw [if_pos hneg]
        rw [hw, List.take_length] at e2
        simp only at e2 e3 e4
        unfold File.read
        simp only [e3, Bool.false_eq_true, if_false, if_pos hneg, e2]
        refine ⟨by simp, rfl, rfl, fun _ => by rw [e2] at e4; exact e4.symm, ?_⟩
        intro r' hr
        exact ⟨(e5 r' hr).1, (e5 r' hr).2, rfl⟩
      · simp only [if_neg hneg]
        by_cases hmore : (bp : Int) + n > bc.length
        · simp only [if_pos hmore]
          obtain ⟨s', e1, e2, e3, e4, e5⟩ := readInto (b := { content := bc, pos := bc.length, closed := false })
            hg hrc (bp + n - bc.length)
          rw [e1]
          simp only at e2 e3 e4 ⊢
          unfold File.read
          simp only [e3, Bool.false_eq_true, if_false, if_neg hneg]
          have hcut : bp + n.toNat ≤ s'.buffer.content.length ∨
              (match s'.source with | none => [] | some r => remaining r) = [] := by
            have hw : wanted (bp + n - bc.length) (remaining r).length =
                min ((bp : Int) + n - bc.length).toNat (remaining r).length := by
              unfold wanted; rw [if_neg (by omega)]
            rcases Nat.le_total ((bp : Int) + n - bc.length).toNat (remaining r).length with hl | hl
            · left
              rw [e2, List.length_append, List.length_take, hw]
              omega
            · right
              have hl4 := congrArg List.length e4
              simp only [List.length_append] at hl4
              rw [e2, List.length_append, List.length_take, hw, Nat.min_eq_right hl, Nat.min_self] at hl4
              apply List.eq_nil_of_length_eq_zero
              exact (by omega : ∀ {a b c : Nat}, a + b + c = a + b → c = 0) hl4
          rw [← e4, drop_take_eq hcut]
          refine ⟨by simp, rfl, rfl, fun _ => rfl, ?_⟩
          intro r' hr
          exact ⟨(e5 r' hr).1, (e5 r' hr).2, rfl⟩
        · simp only [if_neg hmore]
          unfold File.read
          simp only [Bool.false_eq_true, if_false, if_neg hneg]
          rw [drop_take_eq (Or.inl (by omega))]
          refine ⟨by simp, rfl, rfl, fun _ => rfl, ?_⟩
          intro r' hr; cases hr; exact ⟨hg, hrc, rfl⟩

theorem refines_seek {s : Seekable} {f : File} (h : Refines s f) (o w : Int)
    (hs : Sensible f.pos (.seek o w)) :
    (s.seek o w).1 = (f.seek o w).1 ∧ Refines (s.seek o w).2 (f.seek o w).2 := by
  obtain ⟨⟨bc, bp, bcl⟩, source⟩ := s
  obtain ⟨fc, fp, fcl⟩ := f
  obtain ⟨hp, hcl, hcont, hsrc⟩ := h
  simp only at hp hcl hcont hsrc
  subst hp hcl
  cases source with
  | none =>
    simp only [List.append_nil] at hcont
    unfold Seekable.seek File.seek
    simp only
    cases bcl with
    | true => simp only [if_true]; exact ⟨by simp, rfl, rfl, by simp, by simp⟩
    | false =>
      have := hcont rfl
      subst this
      simp only [Bool.false_eq_true, if_false]
      split
      · exact ⟨by simp, rfl, rfl, by simp, by simp⟩
      · split
        · exact ⟨by simp, rfl, rfl, by simp, by simp⟩
        · exact ⟨by simp, rfl, rfl, by simp, by simp⟩
  | some r =>
    obtain ⟨hg, hrc, hfc⟩ := hsrc r rfl
    subst hfc
    have hcont := hcont rfl
    simp only at hcont
    subst hcont
    unfold Seekable.seek
    simp only
    simp only [Sensible] at hs
    by_cases hw2 : w = 2
    · subst hw2
      simp only [ge_iff_le, le_refl, if_true]
      obtain ⟨r', h1, h2, h3, h4, _⟩ := read_ok hg hrc (-1)
      have hw : wanted (-1) (remaining r).length = (remaining r).length := rfl
      rw [hw, List.take_length] at h1
      rw [hw, List.drop_length] at h2
      simp only [h1, File.seek, File.append, Bool.false_eq_true, if_false, show ((2 : Int) = 0) = False by simp,
        and_false, false_or, show ((2 : Int) = 1) = False by simp, if_true]
      refine ⟨by simp, rfl, rfl, ?_, ?_⟩
      · intro _; simp [h2]
      · intro r'' hr; cases hr; exact ⟨h3, h4, rfl⟩
    · have hw01 : w = 0 ∨ w = 1 := by
        rcases hs with ⟨h, _⟩ | ⟨h, _⟩ | h
        · exact Or.inl h
        · exact Or.inr h
        · exact absurd h hw2
      rw [if_neg (by omega)]
      have htgt : 0 ≤ (if w = 1 then o + bp else o) := by
        split <;> omega
      have hfile : (File.seek { content := bc ++ remaining r, pos := bp, closed := false } o w) =
          (.ok (if w = 1 then o + bp else o).toNat,
            { content := bc ++ remaining r, pos := (if w = 1 then o + bp else o).toNat, closed := false }) := by
        unfold File.seek
        rcases hw01 with rfl | rfl
        · simp only [Bool.false_eq_true, if_false]
          rw [if_neg (by simp at htgt; omega)]
          simp
        · simp [Int.add_comm]
      rw [hfile]
      generalize (if w = 1 then o + (bp : Int) else o) = tgt at htgt
      have hseek : ∀ (c : Bytes) (p : Nat), File.seek { content := c, pos := p, closed := false } tgt 0 =
          (.ok tgt.toNat, { content := c, pos := tgt.toNat, closed := false }) := by
        intro c p
        unfold File.seek
        simp only [Bool.false_eq_true, if_false]
        rw [if_neg (by omega)]
        simp
      by_cases hmore : (bc.length : Int) < tgt
      · simp only [if_pos hmore]
        obtain ⟨s', e1, e2, e3, e4, e5⟩ := readInto (b := { content := bc, pos := bc.length, closed := false })
          hg hrc (tgt - bc.length)
        rw [e1]
        obtain ⟨⟨c', p', cl'⟩, src'⟩ := s'
        simp only at e2 e3 e4 e5 ⊢
        subst e3
        rw [hseek]
        refine ⟨by simp, rfl, rfl, fun _ => e4.symm, ?_⟩
        intro r' hr
        exact ⟨(e5 r' hr).1, (e5 r' hr).2, rfl⟩
      · simp only [if_neg hmore]
        rw [hseek]
        refine ⟨by simp, rfl, rfl, fun _ => rfl, ?_⟩
        intro r' hr; cases hr; exact ⟨hg, hrc, rfl⟩

theorem refines_step {s : Seekable} {f : File} (h : Refines s f) (op : Op) (hs : Sensible f.pos op) :
    (s.step op).1 = (f.step op).1 ∧ Refines (s.step op).2 (f.step op).2 := by
  cases op with
  | read n =>
    obtain ⟨h1, h2⟩ := refines_read h n
    exact ⟨congrArg Res.bytes h1, h2⟩
  | seek o w =>
    obtain ⟨h1, h2⟩ := refines_seek h o w hs
    exact ⟨congrArg Res.pos h1, h2⟩
  | tell =>
    refine ⟨?_, h⟩
    simp only [Seekable.step, File.step, Seekable.tell, File.tell, h.closed, h.pos]
  | close =>
    refine ⟨rfl, ?_⟩
    exact ⟨h.pos, rfl, by simp [File.step, File.close], by simp [Seekable.step, Seekable.close]⟩

/-- C17: whatever the source and however it is chunked, a seekable reader answers every sequence of reads,
seeks, tells and closes exactly as a file holding the whole content does, as long as no seek goes to a
negative position. -/
theorem C17_like_a_file_partial {r : Reader} (hg : Good r) (hc : r.closed = false) (ops : List Op)
    (hs : AllSensible { content := remaining r } ops) :
    (runOps Seekable.step (Seekable.ofSource r) ops).1 = (runOps File.step { content := remaining r } ops).1 := by
  have key : ∀ (ops : List Op) (s : Seekable) (f : File), Refines s f → AllSensible f ops →
      (runOps Seekable.step s ops).1 = (runOps File.step f ops).1 := by
    intro ops
    induction ops with
    | nil => intro s f _ _; rfl
    | cons op ops ih =>
      intro s f h ha
      obtain ⟨h1, h2⟩ := refines_step h op ha.1
      simp only [runOps]
      rw [h1, ih _ _ h2 ha.2]
  refine key ops _ _ ⟨rfl, rfl, fun _ => rfl, ?_⟩ hs
  intro r' hr
  cases hr
  exact ⟨hg, hc, rfl⟩

/-- C17: over bytes in memory there is no restriction. -/
theorem C17_bytes_like_a_file (b : Bytes) (ops : List Op) :
    (runOps Seekable.step (Seekable.ofBytes b) ops).1 = (runOps File.step { content := b } ops).1 := by
  have key : ∀ (ops : List Op) (f : File),
      (runOps Seekable.step { buffer := f, source := none } ops).1 = (runOps File.step f ops).1 := by
    intro ops
    induction ops with
    | nil => intro f; rfl
    | cons op ops ih =>
      intro f
      cases op with
      | read n =>
        simp only [runOps, Seekable.step, File.step, Seekable.read, true_or, if_true]
        rw [ih]
      | seek o w =>
        simp only [runOps, Seekable.step, File.step, Seekable.seek]
        rw [ih]
      | tell => simp only [runOps, Seekable.step, File.step, Seekable.tell]; rw [ih]
      | close => simp only [runOps, Seekable.step, File.step, Seekable.close]; rw [ih]
  exact key ops _

/-- C17: iterating over a seekable reader from its cursor yields the rest of the content in chunks. -/
theorem C17_iter_chunks_partial {s : Seekable} {f : File} (h : Refines s f) (ho : f.closed = false) (k n : Nat)
    (hn : (f.content.drop f.pos).length < n) :
    iterate Seekable.read (k + 1 : Nat) n s = (pieces k (f.content.drop f.pos), true) := by
  have key : ∀ (n : Nat) (s : Seekable) (f : File), Refines s f → f.closed = false →
      iterate Seekable.read (k + 1 : Nat) n s = iterate File.read (k + 1 : Nat) n f := by
    intro n
    induction n with
    | zero => intro s f _ _; rfl
    | succ n ih =>
      intro s f h ho
      obtain ⟨h1, h2⟩ := refines_read h (k + 1 : Nat)
      have hf : (f.read (k + 1 : Nat)).2.closed = false := by unfold File.read; simp [ho]
      unfold iterate anext
      rcases hsr : s.read (k + 1 : Nat) with ⟨x, s'⟩
      rcases hfr : f.read (k + 1 : Nat) with ⟨y, f'⟩
      rw [hsr, hfr] at h1 h2
      rw [hfr] at hf
      simp only at h1 h2 hf ⊢
      subst h1
      cases x with
      | error e => rfl
      | ok d =>
        have := ih s' f' h2 hf
        by_cases hd : d = [] <;> simp only [hd, if_true, if_false, this]
  rw [key n s f h ho]
  refine iterate_pieces File.read (fun f => f.content.drop f.pos) (fun f => f.closed = false) k ?_ n f ho hn
  intro g hg
  unfold File.read
  simp only [hg, Bool.false_eq_true, if_false]
  rw [if_neg (by omega)]
  refine ⟨_, rfl, ?_, rfl⟩
  simp only [List.length_take, List.length_drop, Int.toNat_natCast, List.drop_drop]
  rcases Nat.le_total (k + 1) (g.content.length - g.pos) with hl | hl
  · rw [Nat.min_eq_left hl]
  · rw [Nat.min_eq_right hl, List.drop_of_length_le (by omega), List.drop_of_length_le (by omega)]

/-- C17: without the restriction the claim is false of the code.  A seek to a negative position fails, as it
does for a file, but leaves the cursor at the end of what happened to be buffered. -/
theorem C17_failed_seek_moves_cursor_fails :
    ∃ (r : Reader) (ops : List Op), Good r ∧ r.closed = false ∧
      (runOps Seekable.step (Seekable.ofSource r) ops).1 =
        [.bytes (.ok [1]), .pos (.ok 2), .pos (.ok 0), .pos (.error .valueError), .pos (.ok 2)] ∧
      (runOps File.step { content := remaining r } ops).1 =
        [.bytes (.ok [1]), .pos (.ok 2), .pos (.ok 0), .pos (.error .valueError), .pos (.ok 0)] :=
  ⟨{ src := .iter [[1, 2, 3]] none }, [.read 1, .seek 2 0, .seek 0 0, .seek (-1) 0, .tell],
    ⟨(by intro a b h; cases h), (by intro a b h; cases h), (by intro a b h; cases h)⟩, rfl, by decide +kernel⟩

/-- C17: the same seek can succeed or fail depending on how much was read before: relative to the cursor, a
seek before the start raises while the source has more and goes to the start once it is exhausted. -/
theorem C17_relative_seek_depends_on_buffer_fails :
    ∃ r : Reader, Good r ∧ r.closed = false ∧
      (runOps Seekable.step (Seekable.ofSource r) [.seek (-1) 1]).1 = [.pos (.error .valueError)] ∧
      (runOps Seekable.step (Seekable.ofSource r) [.read (-1), .seek 0 0, .seek (-1) 1]).1 =
        [.bytes (.ok [1, 2, 3]), .pos (.ok 0), .pos (.ok 0)] :=
  ⟨{ src := .iter [[1, 2, 3]] none },
    ⟨(by intro a b h; cases h), (by intro a b h; cases h), (by intro a b h; cases h)⟩, rfl, by decide +kernel⟩

/-- C17: a source whose reads may be short loses data: a short read is taken for the end. -/
theorem C17_short_read_fails :
    ∃ (r : Reader), r.closed = false ∧ remaining r = [1, 2, 3, 4] ∧
      (runOps Seekable.step (Seekable.ofSource r) [.read 3, .read (-1)]).1 =
        [.bytes (.ok [1, 2]), .bytes (.ok [])] :=
  ⟨{ src := .stream [1, 2, 3, 4] (some 2) }, by decide +kernel⟩

/-- A history on a chunked source with seeks beyond what is buffered and beyond the end. -/
example :
    let r := sampleReader true
    let ops : List Op := [.read 2, .seek 5 0, .tell, .read 1, .seek (-2) 1, .read 9, .seek 20 0, .read 1,
      .seek (-3) 2, .read (-1), .close, .tell]
    (runOps Seekable.step (Seekable.ofSource r) ops).1 =
      [.bytes (.ok [1, 2]), .pos (.ok 5), .pos (.ok 5), .bytes (.ok [6]), .pos (.ok 4), .bytes (.ok [5, 6, 7]),
       .pos (.ok 20), .bytes (.ok []), .pos (.ok 4), .bytes (.ok [5, 6, 7]), .unit, .pos (.error .valueError)] ∧
    AllSensible { content := remaining r } ops := by
  refine ⟨by decide +kernel, ?_⟩
  simp [AllSensible, Sensible, File.step, File.read, File.seek, File.tell, File.close, remaining, sampleReader,
    Src.content]

end Verif.Readers

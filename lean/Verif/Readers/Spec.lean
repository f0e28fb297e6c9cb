import Verif.Readers.Model

/-! Specification vocabulary for readers. -/

set_option autoImplicit false

namespace Verif.Readers.Spec
open Verif.EventStream (Bytes)
open Verif.Readers

/-- The bytes a source will still deliver, all concatenated. -/
def Src.content : Src → Bytes
  | .stream rest _ => rest
  | .iter chunks _ => chunks.flatten

/-- The bytes a reader will still deliver. -/
def remaining (r : Reader) : Bytes := r.remainder ++ Src.content r.src

/-- A source that can be read in several steps: it is an iterator (or a stream), not an iterable that
starts afresh. -/
def OneShot (r : Reader) : Prop := ∀ cs fresh, r.src ≠ .iter cs (some fresh)

/-- A source whose reads are not short before the end. -/
def FullReads (r : Reader) : Prop := ∀ rest l, r.src ≠ .stream rest (some l)

/-- A stream has no remainder. -/
def Fresh (r : Reader) : Prop := r.remainder = [] ∧ r.closed = false

/-- A reader as it can be. -/
structure Good (r : Reader) : Prop where
  oneShot : OneShot r
  full : FullReads r
  stream : ∀ rest l, r.src = .stream rest l → r.remainder = []

/-- The bytes that a list of results delivered. -/
def delivered : List (Except RErr Bytes) → Bytes
  | [] => []
  | .ok b :: xs => b ++ delivered xs
  | .error _ :: xs => delivered xs

/-- How many bytes a read asks for. -/
def wanted (size : Int) (available : Nat) : Nat := if size < 0 then available else min size.toNat available

/-- Content cut into pieces of `k + 1` bytes. -/
def pieces (k : Nat) (b : Bytes) : List Bytes :=
  if _h : b = [] then [] else b.take (k + 1) :: pieces k (b.drop (k + 1))
termination_by b.length
decreasing_by
  have := List.length_pos_iff.mpr _h
  simp only [List.length_drop]
  omega

/-- Calls whose outcome does not depend on what is buffered: no seek to a negative position, and no
unknown `whence`. `pos` is where the cursor is. -/
def Sensible (pos : Nat) : Op → Prop
  | .seek offset whence => (whence = 0 ∧ 0 ≤ offset) ∨ (whence = 1 ∧ 0 ≤ pos + offset) ∨ whence = 2
  | _ => True

/-- All calls of a sequence are sensible, judged by a plain file. -/
def AllSensible : File → List Op → Prop
  | _, [] => True
  | f, op :: ops => Sensible f.pos op ∧ AllSensible (f.step op).2 ops

end Verif.Readers.Spec

import Verif.Pipeline.Props
import Verif.Readers.Props

/-!
# The body of a request that is tried again

Models what `_retry` (`smithy_core/aio/client.py:323-375`) does to the body of the request between
attempts: `await seek(request_context.transport_request.body, 0)` (line 372), with `seek` of
`smithy_core/aio/utils.py:63-72`.  The retry loop itself is that of `Verif.Pipeline.Model`; here its
collaborators are given bodies to work on.

`copy(request_context.transport_request)` (line 345) is shallow, so the requests of all attempts
hold the same body object: `bodyOf q w` is the state, in the world `w`, of the object that the
request `q` holds.
-/

set_option autoImplicit false

namespace Verif.Pipeline.Replay
open Verif.EventStream (Bytes)
open Verif.Readers Verif.Readers.Spec
open Verif.Pipeline

/-! ## Bodies -/

/-- Bodies of requests (`StreamingBlob`, `smithy_core/aio/interfaces/__init__.py`).

* `plain`: `bytes`, which is read afresh each time;
* `reader`: an `AsyncBytesReader` over an in-memory file, which is what the serializers make of any
  input that is not a stream (`smithy_http/serializers.py:130,145,170`,
  `smithy_aws_core/aio/protocols.py:297`); `closed` when the reader was closed;
* `buffered`: a `SeekableAsyncBytesReader`;
* `oneShot`: an `AsyncBytesReader` over something that cannot seek. -/
inductive Body where
  | plain (b : Bytes)
  | reader (f : File)
  | buffered (s : Seekable)
  | oneShot (r : Reader)
  deriving DecidableEq, Repr

/-- `await seek(body, 0)` (utils.py:63-72).  `bytes` have no `seek`; an `AsyncBytesReader` over
something that cannot seek says so by `seekable()` (types.py:143-145) and is left alone; closing an
`AsyncBytesReader` drops the file (types.py:152-156), and seeking it does nothing (types.py:92 with
`None`). -/
def rewind : Body → Except RErr Unit × Body
  | .plain b => (.ok (), .plain b)
  | .reader f =>
    if f.closed then (.ok (), .reader f)
    else
      match f.seek 0 0 with
      | (.ok _, f) => (.ok (), .reader f)
      | (.error e, f) => (.error e, .reader f)
  | .buffered s =>
    match s.seek 0 0 with
    | (.ok _, s) => (.ok (), .buffered s)
    | (.error e, s) => (.error e, .buffered s)
  | .oneShot r => (.ok (), .oneShot r)

/-- `await body.read()`, or the bytes. -/
def readAll : Body → Except RErr Bytes × Body
  | .plain b => (.ok b, .plain b)
  | .reader f => ((f.read (-1)).1, .reader (f.read (-1)).2)
  | .buffered s => ((s.read (-1)).1, .buffered (s.read (-1)).2)
  | .oneShot r => ((r.read (-1)).1, .oneShot (r.read (-1)).2)

/-- What anyone who holds the body may do to it short of closing it. -/
inductive BodyOp where
  | read (size : Int)
  | seek (offset whence : Int)
  deriving DecidableEq, Repr

/-- The body after such a call, whatever it returned or raised. -/
def touch : Body → BodyOp → Body
  | .plain b, _ => .plain b
  | .reader f, .read n => .reader (f.read n).2
  | .reader f, .seek o w => .reader (f.seek o w).2
  | .buffered s, .read n => .buffered (s.read n).2
  | .buffered s, .seek o w => .buffered (s.seek o w).2
  | .oneShot r, .read n => .oneShot (r.read n).2
  | .oneShot r, .seek _ _ => .oneShot r

/-- `ClientCall.retryable` (client.py:86-88): whether the operation's input has a streaming member. -/
def retryable {A : Type} (inputStreamMember : Option A) : Bool := inputStreamMember.isNone

/-! ## Specification -/

/-- The body reads as `content`. -/
def ReadsAs (content : Bytes) (b : Body) : Prop := (readAll b).1 = .ok content

/-- `content` can be had from the body by rewinding it: it can seek and is not closed. -/
def Holds (content : Bytes) : Body → Prop
  | .plain b => b = content
  | .reader f => f.content = content ∧ f.closed = false
  | .buffered s => s.buffer.closed = false ∧
      match s.source with
      | none => s.buffer.content = content
      | some r => Good r ∧ r.closed = false ∧ s.buffer.content ++ remaining r = content
  | .oneShot _ => False

/-- How often a request was sent. -/
def sends {I Q R O E : Type} (t : List (XEv I Q R O E)) : Nat := (stagesOf t).count .send

section
variable {W I Q R O E T N K P D : Type}

/-- A step that happens before the request is sent.  It sends nothing; the body of the request that
entered the loop can still be rewound; and if the body of the request it is given reads as `content`,
so does that of the request it hands on. -/
def Carries {α : Type} (bodyOf : Q → W → Body) (sent : W → List Body) (content : Bytes) (start : Q)
    (m : M W E α) (q : Q) (next : α → Q) : Prop :=
  ∀ w, sent (m w).2 = sent w ∧
    (Holds content (bodyOf start w) → Holds content (bodyOf start (m w).2)) ∧
    ∀ a, (m w).1 = .ok a → ReadsAs content (bodyOf q w) → ReadsAs content (bodyOf (next a) (m w).2)

/-- A step that happens after the request was sent: it sends nothing, and the body of the request
that entered the loop can still be rewound. -/
def Spares {α : Type} (bodyOf : Q → W → Body) (sent : W → List Body) (content : Bytes) (start : Q)
    (m : M W E α) : Prop :=
  ∀ w, sent (m w).2 = sent w ∧
    (Holds content (bodyOf start w) → Holds content (bodyOf start (m w).2))

/-- What is asked of the collaborators.  `sent w` lists the bodies the transport was handed, in the
state in which it was handed them. -/
structure Courteous (bodyOf : Q → W → Body) (sent : W → List Body) (content : Bytes) (start : Q)
    (env : Env W I Q R O E T N K P D) : Prop where
  acquire : Carries bodyOf sent content start env.acquire start fun _ => start
  sleep : ∀ t, Carries bodyOf sent content start (env.sleep t) start fun _ => start
  readBeforeAttempt : ∀ i q,
    Carries bodyOf sent content start (env.hooks.readBeforeAttempt ⟨i, q⟩) q fun _ => q
  resolveEndpoint : ∀ i q, Carries bodyOf sent content start (env.resolveEndpoint i) q fun _ => q
  setEndpoint : ∀ q n, Carries bodyOf sent content start (env.setEndpoint q n) q id
  modifyBeforeSigning : ∀ i q,
    Carries bodyOf sent content start (env.hooks.modifyBeforeSigning ⟨i, q⟩) q id
  readBeforeSigning : ∀ i q,
    Carries bodyOf sent content start (env.hooks.readBeforeSigning ⟨i, q⟩) q fun _ => q
  resolveAuth : ∀ q, Carries bodyOf sent content start (resolveAuth env) q fun _ => q
  getIdentity : ∀ o s q, env.supported o.schemeId = some s →
    Carries bodyOf sent content start (identityOf env o s) q fun _ => q
  sign : ∀ o s q d, env.supported o.schemeId = some s →
    Carries bodyOf sent content start (signWith env o s q d) q id
  readAfterSigning : ∀ i q,
    Carries bodyOf sent content start (env.hooks.readAfterSigning ⟨i, q⟩) q fun _ => q
  modifyBeforeTransmit : ∀ i q,
    Carries bodyOf sent content start (env.hooks.modifyBeforeTransmit ⟨i, q⟩) q id
  readBeforeTransmit : ∀ i q,
    Carries bodyOf sent content start (env.hooks.readBeforeTransmit ⟨i, q⟩) q fun _ => q
  /-- The transport is handed the body as it is, and does not close it. -/
  send : ∀ q w, sent (env.send q w).2 = sent w ++ [bodyOf q w] ∧
    (Holds content (bodyOf start w) → Holds content (bodyOf start (env.send q w).2))
  readAfterTransmit : ∀ c, Spares bodyOf sent content start (env.hooks.readAfterTransmit c)
  modifyBeforeDeserialization : ∀ c,
    Spares bodyOf sent content start (env.hooks.modifyBeforeDeserialization c)
  readBeforeDeserialization : ∀ c,
    Spares bodyOf sent content start (env.hooks.readBeforeDeserialization c)
  deserialize : ∀ q r, Spares bodyOf sent content start (env.deserialize q r)
  readAfterDeserialization : ∀ c,
    Spares bodyOf sent content start (env.hooks.readAfterDeserialization c)
  modifyBeforeAttemptCompletion : ∀ c,
    Spares bodyOf sent content start (env.hooks.modifyBeforeAttemptCompletion c)
  readAfterAttempt : ∀ c, Spares bodyOf sent content start (env.hooks.readAfterAttempt c)
  refresh : ∀ t e, Spares bodyOf sent content start (env.refresh t e)
  sleepAfterRefusal : ∀ e, Spares bodyOf sent content start (env.sleepAfterRefusal e)
  recordSuccess : ∀ t, Spares bodyOf sent content start (env.recordSuccess t)
  /-- `seek` is the modelled one. -/
  rewind : ∀ q w, sent (env.rewind q w).2 = sent w ∧
    bodyOf q (env.rewind q w).2 = (Replay.rewind (bodyOf q w)).2

end

/-! ## Bodies: proofs -/

theorem file_read_content (f : File) (n : Int) :
    (f.read n).2.content = f.content ∧ (f.read n).2.closed = f.closed := by
  simp only [File.read]
  split
  · exact ⟨rfl, rfl⟩
  · exact ⟨rfl, rfl⟩

theorem file_seek_content (f : File) (o w : Int) :
    (f.seek o w).2.content = f.content ∧ (f.seek o w).2.closed = f.closed := by
  simp only [File.seek]
  split
  · exact ⟨rfl, rfl⟩
  · split
    · exact ⟨rfl, rfl⟩
    · split
      · exact ⟨rfl, rfl⟩
      · exact ⟨rfl, rfl⟩

theorem holds_file {s : Seekable} {content : Bytes} (h : Holds content (.buffered s)) :
    Refines s ⟨content, s.buffer.pos, false⟩ := by
  obtain ⟨hc, hs⟩ := h
  refine ⟨rfl, hc, fun _ => ?_, fun r hr => ?_⟩
  · cases hsrc : s.source with
    | none => rw [hsrc] at hs; simpa using hs.symm
    | some r => rw [hsrc] at hs; exact hs.2.2.symm
  · rw [hr] at hs; exact ⟨hs.1, hs.2.1, rfl⟩

theorem file_holds {s : Seekable} {f : File} (h : Refines s f) (hf : f.closed = false) :
    Holds f.content (.buffered s) := by
  obtain ⟨hp, hc, hcont, hsrc⟩ := h
  refine ⟨hc.trans hf, ?_⟩
  have hcont := hcont hf
  cases hs : s.source with
  | none => rw [hs] at hcont; simpa using hcont.symm
  | some r => rw [hs] at hcont; exact ⟨(hsrc r hs).1, (hsrc r hs).2.1, hcont.symm⟩

theorem holds_seek {s : Seekable} {content : Bytes} (h : Holds content (.buffered s)) (o w : Int) :
    Holds content (.buffered (s.seek o w).2) := by
  obtain ⟨hc, hs⟩ := h
  obtain ⟨buffer, source⟩ := s
  cases source with
  | none =>
    simp only [Seekable.seek]
    exact ⟨(file_seek_content buffer o w).2.trans hc, (file_seek_content buffer o w).1.trans hs⟩
  | some r =>
    simp only at hs hc
    obtain ⟨hg, hrc, hrem⟩ := hs
    simp only [Seekable.seek]
    split
    · obtain ⟨r', h1, h2, h3, h4, _⟩ := read_ok hg hrc (-1)
      simp only [h1]
      refine ⟨(file_seek_content _ o w).2.trans hc, h3, h4, ?_⟩
      rw [(file_seek_content _ o w).1, h2]
      simp only [File.append, List.append_assoc, List.take_append_drop]
      exact hrem
    · generalize (if w = 1 then o + (buffer.pos : Int) else o) = target
      by_cases ht : (buffer.content.length : Int) < target
      · obtain ⟨s', h1, _, h3, h4, h5⟩ := readInto (b := { buffer with pos := buffer.content.length }) hg hrc
          (target - buffer.content.length)
        simp only [if_pos ht, h1]
        refine ⟨(file_seek_content _ _ _).2.trans (h3.trans hc), ?_⟩
        cases hsrc : s'.source with
        | none =>
          simp only [hsrc, List.append_nil] at h4 ⊢
          exact (file_seek_content _ _ _).1.trans (h4.trans hrem)
        | some r' =>
          simp only [hsrc] at h4 ⊢
          refine ⟨(h5 r' hsrc).1, (h5 r' hsrc).2, ?_⟩
          rw [(file_seek_content _ _ _).1]
          exact h4.trans hrem
      · simp only [if_neg ht]
        exact ⟨(file_seek_content _ _ _).2.trans hc, hg, hrc, by
          rw [(file_seek_content _ _ _).1]; exact hrem⟩

/-- **C60 (what others may do).** Reading a body and moving about in it, in any order and whether the
calls succeed or not, never loses its content. -/
theorem C60_reads_and_seeks {content : Bytes} {b : Body} (h : Holds content b) (ops : List BodyOp) :
    Holds content (ops.foldl touch b) := by
  induction ops generalizing b with
  | nil => exact h
  | cons op ops ih =>
    refine ih ?_
    cases b with
    | plain b => exact h
    | reader f =>
      cases op with
      | read n => exact ⟨(file_read_content f n).1.trans h.1, (file_read_content f n).2.trans h.2⟩
      | seek o w => exact ⟨(file_seek_content f o w).1.trans h.1, (file_seek_content f o w).2.trans h.2⟩
    | buffered s =>
      cases op with
      | read n =>
        have hr := refines_read (holds_file h) n
        have := file_holds hr.2 (file_read_content _ n).2
        rwa [(file_read_content _ n).1] at this
      | seek o w => exact holds_seek h o w
    | oneShot r => exact absurd h (by simp [Holds])

/-- **C60 (rewinding).** A body that holds `content` reads as `content` from its start after it was
rewound, however far it had been read, and still holds it. -/
theorem C60_rewound {content : Bytes} {b : Body} (h : Holds content b) :
    (rewind b).1 = .ok () ∧ ReadsAs content (rewind b).2 ∧ Holds content (rewind b).2 := by
  cases b with
  | plain b => exact ⟨rfl, congrArg _ h, h⟩
  | reader f =>
    obtain ⟨c, p, cl⟩ := f
    obtain ⟨h1, h2⟩ := h
    simp only at h1 h2
    subst h1 h2
    refine ⟨by simp [rewind, File.seek], ?_, by simp [rewind, File.seek, Holds]⟩
    simp [ReadsAs, readAll, rewind, File.seek, File.read]
  | buffered s =>
    have hs := refines_seek (holds_file h) 0 0 (Or.inl ⟨rfl, Int.le_refl 0⟩)
    have hh := holds_seek h 0 0
    obtain ⟨h1, h2⟩ := hs
    simp only [rewind]
    generalize s.seek 0 0 = x at h1 h2 hh
    obtain ⟨res, s'⟩ := x
    simp only [File.seek] at h1 h2
    simp at h1 h2
    subst h1
    refine ⟨rfl, ?_, hh⟩
    have hr := (refines_read h2 (-1)).1
    simp only [ReadsAs, readAll]
    rw [hr]
    simp [File.read]
  | oneShot r => exact absurd h (by simp [Holds])

/-! ## The loop: proofs -/

/-- From states with `P`, a computation that returns ends with `ok`, others with `bad`. -/
def Triple {S E α : Type} (P : S → Prop) (m : M S E α) (ok : α → S → Prop) (bad : S → Prop) : Prop :=
  ∀ s, P s → match m s with
    | (.ok a, s') => ok a s'
    | (_, s') => bad s'

theorem Triple.bind {S E α β : Type} {P : S → Prop} {m : M S E α} {mid : α → S → Prop}
    {bad : S → Prop} {f : α → M S E β} {ok : β → S → Prop} (h : Triple P m mid bad)
    (hf : ∀ a, Triple (mid a) (f a) ok bad) : Triple P (M.bind m f) ok bad := by
  intro s hs
  have h := h s hs
  simp only [M.bind]
  generalize m s = x at h
  obtain ⟨o, s'⟩ := x
  cases o with
  | ok a => exact hf a s' h
  | raised e => exact h
  | aborted => exact h

theorem Triple.pure {S E α : Type} {P : S → Prop} {a : α} {ok : α → S → Prop} {bad : S → Prop}
    (h : ∀ s, P s → ok a s) : Triple (E := E) P (M.pure a) ok bad := fun s hs => h s hs

theorem Triple.raise {S E α : Type} {P : S → Prop} {e : E} {ok : α → S → Prop} {bad : S → Prop}
    (h : ∀ s, P s → bad s) : Triple P (M.raise e : M S E α) ok bad := fun s hs => h s hs

theorem Triple.catch {S E α : Type} {P : S → Prop} {m : M S E α} {ok : α → S → Prop}
    {mid bad : S → Prop} {h : E → M S E α} (hm : Triple P m ok mid) (hb : ∀ s, mid s → bad s)
    (hh : ∀ e, Triple mid (h e) ok bad) : Triple P (M.catch m h) ok bad := by
  intro s hs
  have hm := hm s hs
  simp only [M.catch]
  generalize m s = x at hm
  obtain ⟨o, s'⟩ := x
  cases o with
  | ok a => exact hm
  | raised e => exact hh e s' hm
  | aborted => exact hb _ hm

theorem Triple.mono {S E α : Type} {P P' : S → Prop} {m : M S E α} {ok ok' : α → S → Prop}
    {bad bad' : S → Prop} (h : Triple P m ok bad) (hP : ∀ s, P' s → P s)
    (hok : ∀ a s, ok a s → ok' a s) (hbad : ∀ s, bad s → bad' s) : Triple P' m ok' bad' := by
  intro s hs
  have h := h s (hP s hs)
  generalize m s = x at h
  obtain ⟨o, s'⟩ := x
  cases o with
  | ok a => exact hok a s' h
  | raised e => exact hbad _ h
  | aborted => exact hbad _ h

/-- What a computation returned is something it can return. -/
theorem Triple.returned {S E α : Type} {P : S → Prop} {m : M S E α} {ok : α → S → Prop}
    {bad : S → Prop} (h : Triple P m ok bad) :
    Triple P m (fun a s => ok a s ∧ ∃ s₀, (m s₀).1 = .ok a) bad := by
  intro s hs
  have h := h s hs
  have hm : ∀ a, (m s).1 = .ok a → ∃ s₀, (m s₀).1 = .ok a := fun a ha => ⟨s, ha⟩
  generalize m s = x at h hm
  obtain ⟨o, s'⟩ := x
  cases o with
  | ok a => exact ⟨h, hm a rfl⟩
  | raised e => exact h
  | aborted => exact h

theorem Triple.final {S E α : Type} {P : S → Prop} {m : M S E α} {post : S → Prop}
    (h : Triple P m (fun _ => post) post) {s : S} (hs : P s) : post (m s).2 := by
  have h := h s hs
  generalize m s = x at h
  obtain ⟨o, s'⟩ := x
  cases o <;> exact h

section
variable {W I Q R O E T N K P D : Type}
variable {bodyOf : Q → W → Body} {sent : W → List Body} {content : Bytes} {start : Q}

/-- In an attempt, before the request was sent. -/
def Before (bodyOf : Q → W → Body) (sent : W → List Body) (content : Bytes) (start : Q)
    (base : List Body) (q : Q) (s : AttS W I Q R O E) : Prop :=
  ReadsAs content (bodyOf q s.w) ∧ Holds content (bodyOf start s.w) ∧ sent s.w = base ∧
    (s.trace.map Ev.stage).count .send = 0

/-- In an attempt, at any time: what was sent. -/
def Log (bodyOf : Q → W → Body) (sent : W → List Body) (content : Bytes) (start : Q)
    (base : List Body) (s : AttS W I Q R O E) : Prop :=
  Holds content (bodyOf start s.w) ∧
    ((sent s.w = base ∧ (s.trace.map Ev.stage).count .send = 0) ∨
      ∃ b, sent s.w = base ++ [b] ∧ ReadsAs content b ∧ (s.trace.map Ev.stage).count .send = 1)

theorem Before.log {base : List Body} {q : Q} {s : AttS W I Q R O E}
    (h : Before bodyOf sent content start base q s) : Log bodyOf sent content start base s :=
  ⟨h.2.1, .inl ⟨h.2.2.1, h.2.2.2⟩⟩

theorem count_append_other {t : List (Ev I Q R O E)} {st : Stage} {arg : Val I Q R O E}
    {ret : Out E (Val I Q R O E)} (h : st ≠ .send) :
    ((t ++ [(⟨st, arg, ret⟩ : Ev I Q R O E)]).map Ev.stage).count Stage.send =
      (t.map Ev.stage).count Stage.send := by
  simp only [List.map_append, List.map_cons, List.map_nil, List.count_append, List.count_cons,
    List.count_nil]
  simp [h]

theorem carry_step {α : Type} {base : List Body} {q : Q} {next : α → Q} {m : M W E α} {st : Stage}
    {arg : Val I Q R O E} {val : α → Val I Q R O E}
    (h : Carries bodyOf sent content start m q next) (hst : st ≠ .send) :
    Triple (Before bodyOf sent content start base q) (astep st arg val m)
      (fun a => Before bodyOf sent content start base (next a))
      (Log bodyOf sent content start base) := by
  intro s hs
  obtain ⟨h1, h2, h3, h4⟩ := hs
  obtain ⟨k1, k2, k3⟩ := h s.w
  simp only [astep]
  have hcount := fun ret => (count_append_other (t := s.trace) (st := st) (arg := arg) (ret := ret) hst).trans h4
  generalize hx : m s.w = x at k1 k2 k3
  obtain ⟨o, w'⟩ := x
  simp only at k1 k2 k3
  cases o with
  | ok a => exact ⟨k3 a rfl h1, k2 h2, k1.trans h3, hcount _⟩
  | raised e => exact ⟨k2 h2, .inl ⟨k1.trans h3, hcount _⟩⟩
  | aborted => exact ⟨k2 h2, .inl ⟨k1.trans h3, hcount _⟩⟩

theorem spare_step {α : Type} {base : List Body} {m : M W E α} {st : Stage}
    {arg : Val I Q R O E} {val : α → Val I Q R O E}
    (h : Spares bodyOf sent content start m) (hst : st ≠ .send) :
    Triple (Log bodyOf sent content start base) (astep st arg val m)
      (fun _ => Log bodyOf sent content start base) (Log bodyOf sent content start base) := by
  intro s hs
  obtain ⟨h1, h2⟩ := hs
  obtain ⟨k1, k2⟩ := h s.w
  have hcount := fun ret => (count_append_other (t := s.trace) (st := st) (arg := arg) (ret := ret) hst)
  have key : ∀ o, Log bodyOf sent content start base
      { s with w := (m s.w).2, trace := s.trace ++ [⟨st, arg, o⟩] } := by
    intro o
    refine ⟨k2 h1, ?_⟩
    rcases h2 with ⟨h2, h3⟩ | ⟨b, h2, h3, h4⟩
    · exact .inl ⟨k1.trans h2, (hcount _).trans h3⟩
    · exact .inr ⟨b, k1.trans h2, h3, (hcount _).trans h4⟩
  simp only [astep]
  have key := key ((m s.w).1.map val)
  generalize hx : m s.w = x at key
  obtain ⟨o, w'⟩ := x
  cases o <;> exact key

theorem cur_step {base : List Body} {q q' : Q} :
    Triple (E := E) (Before (W := W) (I := I) (R := R) (O := O) bodyOf sent content start base q) (setCur q')
      (fun _ => Before bodyOf sent content start base q) (Log bodyOf sent content start base) :=
  fun _ hs => hs

theorem send_step {base : List Body} {q : Q} {env : Env W I Q R O E T N K P D}
    {arg : Val I Q R O E} {val : R → Val I Q R O E}
    (hc : Courteous bodyOf sent content start env) :
    Triple (Before bodyOf sent content start base q) (astep .send arg val (sendRequest env q))
      (fun _ => Log bodyOf sent content start base) (Log bodyOf sent content start base) := by
  intro s hs
  obtain ⟨h1, h2, h3, h4⟩ := hs
  obtain ⟨k1, k2⟩ := hc.send q s.w
  have hw : (sendRequest env q s.w).2 = (env.send q s.w).2 := by
    simp only [sendRequest]
    generalize env.send q s.w = x
    obtain ⟨o, w'⟩ := x
    cases o <;> rfl
  have key : ∀ o, Log bodyOf sent content start base
      { s with w := (sendRequest env q s.w).2, trace := s.trace ++ [⟨.send, arg, o⟩] } := by
    intro o
    refine ⟨by rw [hw]; exact k2 h2, .inr ⟨bodyOf q s.w, ?_, h1, ?_⟩⟩
    · show sent (sendRequest env q s.w).2 = _
      rw [hw, k1, h3]
    · show (List.map Ev.stage (s.trace ++ [_])).count .send = 1
      simp only [List.map_append, List.count_append, h4]
      rfl
  simp only [astep]
  have key := key ((sendRequest env q s.w).1.map val)
  generalize sendRequest env q s.w = x at key
  obtain ⟨o, w'⟩ := x
  cases o <;> exact key

theorem authenticate_triple {base : List Body} {q : Q} {env : Env W I Q R O E T N K P D}
    (hc : Courteous bodyOf sent content start env)
    (auth : Option (AuthOption K P × Scheme W Q E P D))
    (ha : ∀ o sch, auth = some (o, sch) → env.supported o.schemeId = some sch) :
    Triple (Before bodyOf sent content start base q) (authenticate env q auth)
      (fun q => Before bodyOf sent content start base q) (Log bodyOf sent content start base) := by
  cases auth with
  | none => exact Triple.pure fun _ h => h
  | some x =>
    obtain ⟨o, sch⟩ := x
    refine Triple.bind (carry_step (hc.getIdentity o sch q (ha o sch rfl)) (by decide)) fun d => ?_
    refine Triple.bind (carry_step (hc.sign o sch q d (ha o sch rfl)) (by decide)) fun q' => ?_
    exact Triple.bind cur_step fun _ => Triple.pure fun _ h => h

theorem transmit_triple {base : List Body} {i : I} {q : Q} {env : Env W I Q R O E T N K P D}
    (hc : Courteous bodyOf sent content start env) :
    Triple (Before bodyOf sent content start base q) (transmit env i q)
      (fun _ => Log bodyOf sent content start base) (Log bodyOf sent content start base) := by
  refine Triple.bind (carry_step (hc.readAfterSigning i q) (by decide)) fun _ => ?_
  refine Triple.bind (carry_step (hc.modifyBeforeTransmit i q) (by decide)) fun q' => ?_
  refine Triple.bind cur_step fun _ => ?_
  refine Triple.bind (carry_step (hc.readBeforeTransmit i q') (by decide)) fun _ => ?_
  exact Triple.bind (send_step hc) fun r => Triple.pure fun _ h => h

theorem pickScheme_supported {supported : K → Option (Scheme W Q E P D)} {os : List (AuthOption K P)}
    {o : AuthOption K P} {sch : Scheme W Q E P D} (h : pickScheme supported os = some (o, sch)) :
    supported o.schemeId = some sch := by
  induction os with
  | nil => cases h
  | cons o' os ih =>
    simp only [pickScheme] at h
    cases hs : supported o'.schemeId with
    | some s => simp only [hs, Option.some.injEq, Prod.mk.injEq] at h; rw [← h.1, hs, h.2]
    | none => simp only [hs] at h; exact ih h

theorem attemptRequest_triple {base : List Body} {i : I} {q : Q} {env : Env W I Q R O E T N K P D}
    (hc : Courteous bodyOf sent content start env) :
    Triple (Before bodyOf sent content start base q) (attemptRequest env i q)
      (fun _ => Log bodyOf sent content start base) (Log bodyOf sent content start base) := by
  refine Triple.bind (carry_step (hc.readBeforeAttempt i q) (by decide)) fun _ => ?_
  refine Triple.bind (carry_step (hc.resolveEndpoint env.input q) (by decide)) fun n => ?_
  refine Triple.bind (carry_step (hc.setEndpoint q n) (by decide)) fun q1 => ?_
  refine Triple.bind cur_step fun _ => ?_
  refine Triple.bind (carry_step (hc.modifyBeforeSigning i q1) (by decide)) fun q2 => ?_
  refine Triple.bind cur_step fun _ => ?_
  refine Triple.bind (carry_step (hc.readBeforeSigning i q2) (by decide)) fun _ => ?_
  refine Triple.bind (Triple.returned (carry_step (hc.resolveAuth q2) (by decide))) fun auth => ?_
  intro s hs
  obtain ⟨hs, s₀, ha⟩ := hs
  refine Triple.bind (authenticate_triple hc auth fun o sch hx => ?_) (fun q3 => transmit_triple hc) s hs
  have ha : (resolveAuth env s₀.w).1 = .ok auth := ha
  simp only [resolveAuth, M.bind] at ha
  generalize env.authOptions s₀.w = x at ha
  obtain ⟨r, w⟩ := x
  cases r with
  | ok os =>
    simp only [M.pure, Out.ok.injEq] at ha
    exact pickScheme_supported (ha.trans hx)
  | raised e => cases ha
  | aborted => cases ha

theorem attemptResponse_triple {base : List Body} {i : I} {q : Q} {r : R}
    {env : Env W I Q R O E T N K P D} (hc : Courteous bodyOf sent content start env) :
    Triple (Log bodyOf sent content start base) (attemptResponse env i q r)
      (fun _ => Log bodyOf sent content start base) (Log bodyOf sent content start base) := by
  refine Triple.bind (spare_step (hc.readAfterTransmit _) (by decide)) fun _ => ?_
  refine Triple.bind (spare_step (hc.modifyBeforeDeserialization _) (by decide)) fun r' => ?_
  refine Triple.bind (spare_step (hc.readBeforeDeserialization _) (by decide)) fun _ => ?_
  refine Triple.bind (spare_step (hc.deserialize _ _) (by decide)) fun o => ?_
  refine Triple.bind (spare_step (hc.readAfterDeserialization _) (by decide)) fun _ => ?_
  exact Triple.pure fun _ h => h

theorem finalizeAttempt_triple {base : List Body} {c : OutCtx I Q R O E}
    {env : Env W I Q R O E T N K P D} (hc : Courteous bodyOf sent content start env) :
    Triple (Log bodyOf sent content start base) (finalizeAttempt env c)
      (fun _ => Log bodyOf sent content start base) (Log bodyOf sent content start base) := by
  refine Triple.bind (mid := fun _ => Log bodyOf sent content start base) ?_ fun r => ?_
  · exact Triple.catch (spare_step (hc.modifyBeforeAttemptCompletion _) (by decide)) (fun _ h => h)
      fun e => Triple.pure fun _ h => h
  · refine Triple.catch (mid := Log bodyOf sent content start base) ?_ (fun _ h => h)
      fun e => Triple.pure fun _ h => h
    exact Triple.bind (spare_step (hc.readAfterAttempt _) (by decide)) fun _ => Triple.pure fun _ h => h

theorem handleAttempt_triple {base : List Body} {i : I} {q : Q} {env : Env W I Q R O E T N K P D}
    (hc : Courteous bodyOf sent content start env) :
    Triple (Before bodyOf sent content start base q) (handleAttempt env i q)
      (fun _ => Log bodyOf sent content start base) (Log bodyOf sent content start base) := by
  refine Triple.bind (mid := fun _ => Log bodyOf sent content start base) ?_
    fun c => finalizeAttempt_triple hc
  refine Triple.catch (mid := Log bodyOf sent content start base) ?_ (fun _ h => h) fun e s h => h
  exact Triple.bind (attemptRequest_triple hc) fun x => attemptResponse_triple hc

/-- In the loop: what was sent since the trace was `t₀` and the log `base`. -/
def Loop (bodyOf : Q → W → Body) (sent : W → List Body) (content : Bytes) (start : Q)
    (base : List Body) (t₀ : List (XEv I Q R O E)) (s : ExecS W I Q R O E) : Prop :=
  Holds content (bodyOf start s.w) ∧
    ∃ new, sent s.w = base ++ new ∧ (∀ b ∈ new, ReadsAs content b) ∧
      sends s.trace = sends t₀ + new.length

/-- At the start of an attempt. -/
def Ready (bodyOf : Q → W → Body) (sent : W → List Body) (content : Bytes) (start : Q)
    (base : List Body) (t₀ : List (XEv I Q R O E)) (s : ExecS W I Q R O E) : Prop :=
  ReadsAs content (bodyOf start s.w) ∧ Loop bodyOf sent content start base t₀ s

theorem sends_step {t : List (XEv I Q R O E)} {st : Stage} {arg : Val I Q R O E}
    {ret : Out E (Val I Q R O E)} (h : st ≠ .send) : sends (t ++ [.step ⟨st, arg, ret⟩]) = sends t := by
  simp only [sends, stagesOf, List.flatMap_append, List.flatMap_cons, List.flatMap_nil, XEv.stages,
    List.append_nil, List.count_append, List.count_cons, List.count_nil]
  simp [h]

theorem sends_attempt {t : List (XEv I Q R O E)} {q : Q} {evs : List (Ev I Q R O E)} :
    sends (t ++ [.attempt q evs]) = sends t + (evs.map Ev.stage).count .send := by
  simp only [sends, stagesOf, List.flatMap_append, List.flatMap_cons, List.flatMap_nil, XEv.stages,
    List.append_nil, List.count_append]

theorem spare_xstep {α : Type} {base : List Body} {t₀ : List (XEv I Q R O E)} {m : M W E α}
    {st : Stage} {arg : Val I Q R O E} {val : α → Val I Q R O E}
    (h : Spares bodyOf sent content start m) (hst : st ≠ .send) :
    Triple (Loop bodyOf sent content start base t₀) (xstep st arg val m)
      (fun _ => Loop bodyOf sent content start base t₀) (Loop bodyOf sent content start base t₀) := by
  intro s hs
  obtain ⟨h1, new, h2, h3, h4⟩ := hs
  obtain ⟨k1, k2⟩ := h s.w
  have key : ∀ o, Loop bodyOf sent content start base t₀
      { w := (m s.w).2, trace := s.trace ++ [.step ⟨st, arg, o⟩] } := fun o =>
    ⟨k2 h1, new, k1.trans h2, h3, (sends_step hst).trans h4⟩
  simp only [xstep]
  have key := key ((m s.w).1.map val)
  generalize m s.w = x at key
  obtain ⟨o, w'⟩ := x
  cases o <;> exact key

theorem carry_xstep {α : Type} {base : List Body} {t₀ : List (XEv I Q R O E)} {m : M W E α}
    {st : Stage} {arg : Val I Q R O E} {val : α → Val I Q R O E}
    (h : Carries bodyOf sent content start m start fun _ => start) (hst : st ≠ .send) :
    Triple (Ready bodyOf sent content start base t₀) (xstep st arg val m)
      (fun _ => Ready bodyOf sent content start base t₀) (Loop bodyOf sent content start base t₀) := by
  intro s hs
  obtain ⟨h0, h1, new, h2, h3, h4⟩ := hs
  obtain ⟨k1, k2, k3⟩ := h s.w
  have key : ∀ o, Loop bodyOf sent content start base t₀
      { w := (m s.w).2, trace := s.trace ++ [.step ⟨st, arg, o⟩] } := fun o =>
    ⟨k2 h1, new, k1.trans h2, h3, (sends_step hst).trans h4⟩
  simp only [xstep]
  have key := key ((m s.w).1.map val)
  generalize m s.w = x at key k3
  obtain ⟨o, w'⟩ := x
  cases o with
  | ok a => exact ⟨k3 a rfl h0, key⟩
  | raised e => exact key
  | aborted => exact key

theorem rewind_xstep {base : List Body} {t₀ : List (XEv I Q R O E)}
    {env : Env W I Q R O E T N K P D} {arg : Val I Q R O E} {val : Unit → Val I Q R O E}
    (hc : Courteous bodyOf sent content start env) :
    Triple (Loop bodyOf sent content start base t₀) (xstep .rewindBody arg val (env.rewind start))
      (fun _ => Ready bodyOf sent content start base t₀) (Loop bodyOf sent content start base t₀) := by
  intro s hs
  obtain ⟨h1, new, h2, h3, h4⟩ := hs
  obtain ⟨k1, k2⟩ := hc.rewind start s.w
  obtain ⟨-, r2, r3⟩ := C60_rewound h1
  have key : ∀ o, Ready bodyOf sent content start base t₀
      { w := (env.rewind start s.w).2, trace := s.trace ++ [.step ⟨.rewindBody, arg, o⟩] } := fun o =>
    ⟨by rw [k2]; exact r2, by rw [k2]; exact r3, new, k1.trans h2, h3, (sends_step (by decide)).trans h4⟩
  simp only [xstep]
  have key := key ((env.rewind start s.w).1.map val)
  generalize env.rewind start s.w = x at key
  obtain ⟨o, w'⟩ := x
  cases o with
  | ok a => exact key
  | raised e => exact key.2
  | aborted => exact key.2

theorem runAttempt_triple {base : List Body} {t₀ : List (XEv I Q R O E)} {i : I}
    {env : Env W I Q R O E T N K P D} (hc : Courteous bodyOf sent content start env) :
    Triple (Ready bodyOf sent content start base t₀) (runAttempt start (handleAttempt env i start))
      (fun _ => Loop bodyOf sent content start base t₀) (Loop bodyOf sent content start base t₀) := by
  intro s hs
  obtain ⟨h0, h1, new, h2, h3, h4⟩ := hs
  have hlog := Triple.final (handleAttempt_triple (i := i) (base := base ++ new) hc)
    (s := { w := s.w, trace := [], cur := start }) ⟨h0, h1, h2, rfl⟩
  have key : Loop bodyOf sent content start base t₀
      (runAttempt start (handleAttempt env i start) s).2 := by
    simp only [runAttempt]
    obtain ⟨g1, g2⟩ := hlog
    refine ⟨g1, ?_⟩
    rcases g2 with ⟨g2, g3⟩ | ⟨b, g2, g3, g4⟩
    · exact ⟨new, g2, h3, by rw [sends_attempt, g3, h4, Nat.add_zero]⟩
    · refine ⟨new ++ [b], by rw [g2, List.append_assoc], ?_, ?_⟩
      · intro b' hb
        rcases List.mem_append.mp hb with hb | hb
        · exact h3 b' hb
        · rw [List.mem_singleton.mp hb]; exact g3
      · rw [sends_attempt, g4, h4, List.length_append]; rfl
  generalize runAttempt start (handleAttempt env i start) s = x at key
  obtain ⟨o, s'⟩ := x
  cases o <;> exact key

theorem afterFailure_triple {base : List Body} {t₀ : List (XEv I Q R O E)}
    {env : Env W I Q R O E T N K P D} (hc : Courteous bodyOf sent content start env) (t : T) (e : E)
    {again : T → M (ExecS W I Q R O E) E (OutCtx I Q R O E)}
    (ha : ∀ t, Triple (Ready bodyOf sent content start base t₀) (again t)
      (fun _ => Loop bodyOf sent content start base t₀) (Loop bodyOf sent content start base t₀)) :
    Triple (Loop bodyOf sent content start base t₀) (afterFailure env start t e again)
      (fun _ => Loop bodyOf sent content start base t₀) (Loop bodyOf sent content start base t₀) := by
  refine Triple.bind (mid := fun _ => Loop bodyOf sent content start base t₀) ?_ fun t' => ?_
  · refine Triple.catch (spare_xstep (hc.refresh t e) (by decide)) (fun _ h => h) fun re => ?_
    split
    · refine Triple.bind (mid := fun _ => Loop bodyOf sent content start base t₀) ?_ fun _ =>
        Triple.raise fun _ h => h
      split
      · exact spare_xstep (hc.sleepAfterRefusal re) (by decide)
      · exact Triple.pure fun _ h => h
    · exact Triple.raise fun _ h => h
  · exact Triple.bind (rewind_xstep hc) fun _ => ha t'

theorem retryLoop_triple {base : List Body} {t₀ : List (XEv I Q R O E)} {i : I}
    {env : Env W I Q R O E T N K P D} (hc : Courteous bodyOf sent content start env) (fuel : Nat) :
    ∀ t, Triple (Ready bodyOf sent content start base t₀) (retryLoop env i start fuel t)
      (fun _ => Loop bodyOf sent content start base t₀) (Loop bodyOf sent content start base t₀) := by
  induction fuel with
  | zero => exact fun t s h => h.2
  | succ fuel ih =>
    intro t
    refine Triple.bind (mid := fun _ => Ready bodyOf sent content start base t₀) ?_ fun _ => ?_
    · split
      · exact carry_xstep (hc.sleep t) (by decide)
      · exact Triple.pure fun _ h => h
    · refine Triple.bind (runAttempt_triple hc) fun c => ?_
      split
      · exact afterFailure_triple hc t _ ih
      · exact Triple.bind (spare_xstep (hc.recordSuccess t) (by decide)) fun _ => Triple.pure fun _ h => h

/-- **C60.** However often a request is tried, and however each attempt ends: if its body holds
`content` and reads as it when the request enters the retry loop, then every time the transport is
handed a request, its body reads as the whole of `content` from the start.  (`_partial`: the
collaborators are asked not to close the body and, before the request is sent, not to leave it
partly read; see the counterexamples below.) -/
theorem C60_replay_partial {env : Env W I Q R O E T N K P D} (q : Q)
    (hc : Courteous bodyOf sent content q env) (fuel : Nat) (i : I) (s : ExecS W I Q R O E)
    (hh : Holds content (bodyOf q s.w)) (hr : ReadsAs content (bodyOf q s.w)) :
    ∃ new, sent (retry env fuel i q s).2.w = sent s.w ++ new ∧
      (∀ b ∈ new, (readAll b).1 = .ok content) ∧
      sends (retry env fuel i q s).2.trace = sends s.trace + new.length := by
  have hready : Ready bodyOf sent content q (sent s.w) s.trace s :=
    ⟨hr, hh, [], by simp, by simp, rfl⟩
  have : Loop bodyOf sent content q (sent s.w) s.trace (retry env fuel i q s).2 := by
    refine Triple.final (P := Ready bodyOf sent content q (sent s.w) s.trace) ?_ hready
    simp only [retry]
    split
    · exact Triple.bind (carry_xstep hc.acquire (by decide)) fun t => retryLoop_triple hc fuel t
    · exact runAttempt_triple hc
  exact this.2

end

/-! ## Streaming input -/

theorem isAttempt_sends {l : List Stage} (h : IsAttempt l) : l.count .send ≤ 1 := by
  obtain ⟨auth, p, -, hp, rfl⟩ := h
  have h1 : p.count Stage.send ≤ (attemptSteps auth).count .send := hp.sublist.count_le _
  have h2 : (attemptSteps auth).count .send = 1 := by cases auth <;> decide
  have h3 : attemptEnd.count Stage.send = 0 := by decide
  rw [List.count_append, h3]
  omega

theorem documented_sends {l : List Stage} (h : Documented false l) : l.count .send ≤ 1 := by
  obtain ⟨p, loop, -, hp, hl, rfl⟩ := h
  have h1 : p.count Stage.send ≤ beforeLoop.count .send := hp.sublist.count_le _
  have h2 : beforeLoop.count Stage.send = 0 := by decide
  have h3 : executionEnd.count Stage.send = 0 := by decide
  have h4 : loop.count Stage.send ≤ 1 := by
    rcases hl with rfl | ⟨-, hl⟩
    · exact Nat.zero_le _
    · exact isAttempt_sends (by simpa [IsLoop] using hl)
  rw [List.count_append, List.count_append]
  omega

section
variable {W I Q R O E T N K P D : Type}

/-- **C60 (streams).** A call whose input has a streaming member sends at most one request, whatever
its collaborators do and however the attempt ends. -/
theorem C60_stream_sent_once {A : Type} (env : Env W I Q R O E T N K P D) (member : A)
    (h : env.retryable = retryable (some member)) (fuel : Nat) (w : W) :
    sends (execute env fuel ⟨w, []⟩).2.trace ≤ 1 := by
  have h : env.retryable = false := h
  obtain ⟨h1, h2⟩ := C23_documented_order env fuel w
  rw [h] at h1 h2
  by_cases ha : (execute env fuel ⟨w, []⟩).1 = .aborted
  · obtain ⟨l, hl, hp⟩ := h2 ha
    exact Nat.le_trans (hp.sublist.count_le _) (documented_sends hl)
  · exact documented_sends (h1 ha)

end

/-! ## Signing

`AsyncSigV4Signer` hashes the body of the request it is given (`aws_sdk_signers/signers.py:801-805`)
and puts the cursor back to where it was. -/

/-- `position = body.tell(); async for chunk in body: ...; await body.seek(position)` for a file. -/
def hashFile (f : File) : File := ((f.read (-1)).2.seek (f.pos : Int) 0).2

/-- **C60 (signing).** Hashing a body leaves it where it was: it reads and holds the same. -/
theorem C60_hashed {content : Bytes} {f : File} (hr : ReadsAs content (.reader f))
    (hh : Holds content (.reader f)) :
    ReadsAs content (.reader (hashFile f)) ∧ Holds content (.reader (hashFile f)) := by
  obtain ⟨c, p, cl⟩ := f
  obtain ⟨h1, h2⟩ := hh
  simp only at h1 h2
  subst h1 h2
  have : hashFile ⟨c, p, false⟩ = ⟨c, p, false⟩ := by
    have hp : ¬ ((p : Int) < 0) := by omega
    simp [hashFile, File.read, File.seek, hp]
  rw [this]
  exact ⟨hr, rfl, rfl⟩

/-! ## The hypotheses are met -/

/-- A body and what was sent. -/
structure Toy where
  body : Body
  sent : List Body
  deriving DecidableEq

/-- A transport that reads the whole body, does `after` to it and fails; at most three attempts. -/
def toyEnv (after : Body → Body) (retryable : Bool) :
    Env Toy Nat Nat Nat Nat String Nat Nat Nat Nat Nat where
  input := 10
  hooks := chain []
  serialize := M.pure
  resolveEndpoint _ := M.pure 0
  setEndpoint q _ := M.pure q
  authOptions := M.pure [⟨8, 100, 200⟩]
  supported k := if k = 8 then some ⟨M.pure 1, fun p => M.pure p, M.pure 2, fun q _ _ => M.pure q⟩ else none
  update a b := a + b
  send _ w := (.raised "refused", ⟨after (readAll w.body).2, w.sent ++ [w.body]⟩)
  isTimeout _ := false
  timeoutError := ""
  deserialize _ r := M.pure r
  retryable := retryable
  acquire := M.pure 1
  hasDelay t := t ≥ 2
  sleep _ := M.pure ()
  refresh t _ := if t < 3 then M.pure (t + 1) else M.raise "no more"
  isRetryError e := e = "no more"
  backsOff _ := false
  sleepAfterRefusal _ := M.pure ()
  rewind _ w := (.ok (), { w with body := (rewind w.body).2 })
  recordSuccess _ := M.pure ()
  isSmithyError _ := true
  wrap e := e

/-- Three attempts, and the transport is handed the whole body each time. -/
example : (retry (toyEnv id true) 5 10 10 ⟨⟨.reader { content := [1, 2, 3] }, []⟩, []⟩).2.w.sent =
    [.reader { content := [1, 2, 3] }, .reader { content := [1, 2, 3] },
      .reader { content := [1, 2, 3] }] := by decide +kernel

/-- A body that is buffered as it is read. -/
example : ((retry (toyEnv id true) 5 10 10 ⟨⟨.buffered (Seekable.ofSource
      { src := .iter [[1, 2], [3]] none }), []⟩, []⟩).2.w.sent.map fun b => (readAll b).1) =
    [.ok [1, 2, 3], .ok [1, 2, 3], .ok [1, 2, 3]] := by decide +kernel

/-- With streaming input there is one attempt. -/
example : (retry (toyEnv id (retryable (some ()))) 5 10 10
    ⟨⟨.reader { content := [1, 2, 3] }, []⟩, []⟩).2.w.sent.length = 1 := by decide +kernel

theorem readAll_holds {content : Bytes} {b : Body} (h : Holds content b) : Holds content (readAll b).2 := by
  have := C60_reads_and_seeks h [.read (-1)]
  cases b <;> exact this

/-- The collaborators of the examples are courteous, and the theorem applies to them. -/
theorem toy_courteous (content : Bytes) (r : Bool) :
    Courteous (fun _ w => w.body) Toy.sent content 10 (toyEnv id r) where
  acquire _ := ⟨rfl, id, fun _ _ h => h⟩
  sleep _ _ := ⟨rfl, id, fun _ _ h => h⟩
  readBeforeAttempt _ _ _ := ⟨rfl, id, fun _ _ h => h⟩
  resolveEndpoint _ _ _ := ⟨rfl, id, fun _ _ h => h⟩
  setEndpoint _ _ _ := ⟨rfl, id, fun _ _ h => h⟩
  modifyBeforeSigning _ _ _ := ⟨rfl, id, fun _ _ h => h⟩
  readBeforeSigning _ _ _ := ⟨rfl, id, fun _ _ h => h⟩
  resolveAuth _ _ := ⟨rfl, id, fun _ _ h => h⟩
  getIdentity o s q h := by
    simp only [toyEnv] at h
    split at h
    · cases h; exact fun _ => ⟨rfl, id, fun _ _ h => h⟩
    · cases h
  sign o s q d h := by
    simp only [toyEnv] at h
    split at h
    · cases h; exact fun _ => ⟨rfl, id, fun a ha h => by cases ha; exact h⟩
    · cases h
  readAfterSigning _ _ _ := ⟨rfl, id, fun _ _ h => h⟩
  modifyBeforeTransmit _ _ _ := ⟨rfl, id, fun _ _ h => h⟩
  readBeforeTransmit _ _ _ := ⟨rfl, id, fun _ _ h => h⟩
  send _ _ := ⟨rfl, readAll_holds⟩
  readAfterTransmit _ _ := ⟨rfl, id⟩
  modifyBeforeDeserialization _ _ := ⟨rfl, id⟩
  readBeforeDeserialization _ _ := ⟨rfl, id⟩
  deserialize _ _ _ := ⟨rfl, id⟩
  readAfterDeserialization _ _ := ⟨rfl, id⟩
  modifyBeforeAttemptCompletion _ _ := ⟨rfl, id⟩
  readAfterAttempt _ _ := ⟨rfl, id⟩
  refresh t _ w := by
    simp only [toyEnv]
    split <;> exact ⟨rfl, id⟩
  sleepAfterRefusal _ _ := ⟨rfl, id⟩
  recordSuccess _ _ := ⟨rfl, id⟩
  rewind _ _ := ⟨rfl, rfl⟩

example (b : Bytes) (fuel : Nat) (s : ExecS Toy Nat Nat Nat Nat String)
    (hs : s.w.body = .reader { content := b }) :
    ∃ new, (retry (toyEnv id true) fuel 10 10 s).2.w.sent = s.w.sent ++ new ∧
      (∀ x ∈ new, (readAll x).1 = .ok b) ∧
      sends (retry (toyEnv id true) fuel 10 10 s).2.trace = sends s.trace + new.length :=
  C60_replay_partial 10 (toy_courteous b true) fuel 10 s (by rw [hs]; exact ⟨rfl, rfl⟩)
    (by rw [hs]; simp [ReadsAs, readAll, File.read])

/-- C60 is false if the transport closes the body, as HTTP clients may do: the body cannot be
rewound, nothing is said about it, and the next attempt is handed a closed body. -/
theorem C60_closed_by_transport_fails :
    (retry (toyEnv (fun b => match b with | .reader f => .reader f.close | b => b) true) 5 10 10
      ⟨⟨.reader { content := [1, 2, 3] }, []⟩, []⟩).2.w.sent.map (fun b => (readAll b).1) =
    [.ok [1, 2, 3], .error .valueError, .error .valueError] := by decide +kernel

/-- C60 is false of bodies that cannot seek in operations without streaming input, which an
interceptor may have put in place of the serialized body: the request is tried again with what is
left of it. -/
theorem C60_unseekable_retried_fails :
    (retry (toyEnv id (retryable (none : Option Unit))) 5 10 10
      ⟨⟨.oneShot { src := .iter [[1, 2], [3]] none }, []⟩, []⟩).2.w.sent.map (fun b => (readAll b).1) =
    [.ok [1, 2, 3], .ok [], .ok []] := by decide +kernel

end Verif.Pipeline.Replay

import Verif.Uri.Build
import Verif.Transport.Aiohttp

/-!
# The CRT client: requests and connections (C89, C90)

Models `AWSCRTHTTPClient._marshal_request` and `_render_path` (smithy_http/aio/crt.py:282-315) and its connections:
`_get_connection`, `_create_connection`, `_build_new_connection` and `_validate_connection` (219-280).

`awscrt` is not modelled: it is trusted to send the method, target and headers it is handed, to connect to the host and
port it is given and to tell the version of a connection.  Texts are lists of characters and `lower` is arbitrary.
-/

set_option autoImplicit false

namespace Verif.Transport.Crt
open Verif.Text
open Verif.Fields (Field Kind lookup Distinct same)
open Verif.Http.Destination (Uri setEndpoint)
open Verif.Transport.Aiohttp (headersList responseFields)

abbrev Text := List Char

/-! ## Model -/

/-- `if name not in request.fields: request.fields.set_field(Field(name=name, values=[value]))` (crt.py:293-299).  A field
that is not there is put at the end. -/
def addMissing {S : Type} [DecidableEq S] (lower : S → S) (name value : S) (fs : List (Field S)) : List (Field S) :=
  if fs.any fun f => lower f.name = lower name then fs else fs ++ [⟨name, [value], .header⟩]

section
variable (lower : Text → Text)

/-- What `_marshal_request` leaves in `request.fields` (crt.py:293-299).  `netloc` is that of the destination. -/
def marshalFields (netloc : Text) (fs : List (Field Text)) : List (Field Text) :=
  addMissing lower "accept".toList "*/*".toList (addMissing lower "host".toList netloc fs)

/-- The headers that are handed to the CRT (crt.py:301-305). -/
def headers (netloc : Text) (fs : List (Field Text)) : List (Text × Text) :=
  headersList ((marshalFields lower netloc fs).filter fun f => f.kind = .header)

end

/-- `_render_path` (crt.py:282-285). -/
def renderPath (u : Uri) : Text :=
  (match u.path with | some p => p | none => ['/']) ++ (match u.query with | some q => '?' :: q | none => [])

/-- `connection_key` (crt.py:231). -/
abbrev Key := Text × Text × Option Nat

/-- A connection: what it was built with (crt.py:260-266), its version, and whether it is open.  `tls` is the server name of
the TLS options. -/
structure Conn where
  host : Text
  port : Nat
  tls : Option Text
  http2 : Bool
  isOpen : Bool
  deriving DecidableEq, Repr

/-- A call of `send`. -/
inductive Task where
  /-- waits for the connection that it builds -/
  | building (u : Uri)
  /-- has been given the connection, by its number -/
  | given (u : Uri) (c : Nat)
  /-- has raised an exception -/
  | failed (u : Uri)
  deriving DecidableEq, Repr

/-- The client with all connections ever built and all calls of `send`. -/
structure Client where
  conns : List Conn
  pool : List (Key × Nat)
  tasks : List Task
  deriving DecidableEq, Repr

/-- A new client (crt.py:162). -/
def Client.new : Client := ⟨[], [], []⟩

/-- `(url.scheme, url.host, url.port)` (crt.py:231). -/
def key (u : Uri) : Key := (u.scheme, u.host, u.port)

/-- `self._connections.get(key)` (crt.py:232). -/
def poolGet (pool : List (Key × Nat)) (k : Key) : Option Nat := (pool.find? fun e => e.1 = k).map (·.2)

/-- `self._connections[key] = connection` (crt.py:238). -/
def poolSet (pool : List (Key × Nat)) (k : Key) (c : Nat) : List (Key × Nat) :=
  (k, c) :: pool.filter fun e => e.1 ≠ k

/-- `connection.is_open()` -/
def Client.openAt (s : Client) (c : Nat) : Bool := match s.conns[c]? with
  | some k => k.isOpen
  | none => false

/-- The options of a new connection (crt.py:244-266), or an exception for other schemes. -/
def options (u : Uri) : Option (Nat × Option Text) :=
  if u.scheme = "http".toList then some (match u.port with | some p => p | none => 80, none)
  else if u.scheme = "https".toList then some (match u.port with | some p => p | none => 443, some u.host)
  else none

/-- `send` up to its first `await` that waits (crt.py:177, 227-237, 241-258). -/
def start (s : Client) (u : Uri) : Client :=
  let build : Task := if (options u).isSome then .building u else .failed u
  match poolGet s.pool (key u) with
  | some c => { s with tasks := s.tasks ++ [if s.openAt c then .given u c else build] }
  | none => { s with tasks := s.tasks ++ [build] }

/-- The connection that a call waits for is built (crt.py:223-225, 237-239, 268-280).  The time that closing a refused
connection takes is left out. -/
def built (force : Bool) (s : Client) (i : Nat) (http2 : Bool) : Client :=
  match s.tasks[i]? with
  | some (.building u) =>
    match options u with
    | none => s
    | some (port, tls) =>
      let c := s.conns.length
      if force && !http2 then
        { s with conns := s.conns ++ [⟨u.host, port, tls, http2, false⟩], tasks := s.tasks.set i (.failed u) }
      else
        { conns := s.conns ++ [⟨u.host, port, tls, http2, true⟩]
          pool := poolSet s.pool (key u) c
          tasks := s.tasks.set i (.given u c) }
  | _ => s

/-- What may happen: a call of `send`, a connection that is built or fails, and a connection that is closed. -/
inductive Step (force : Bool) : Client → Client → Prop where
  | start (s : Client) (u : Uri) : Step force s (start s u)
  | built (s : Client) (i : Nat) (http2 : Bool) : Step force s (built force s i http2)
  | fail (s : Client) (i : Nat) (u : Uri) (h : s.tasks[i]? = some (.building u)) :
      Step force s { s with tasks := s.tasks.set i (.failed u) }
  | close (s : Client) (c : Nat) (k : Conn) (h : s.conns[c]? = some k) :
      Step force s { s with conns := s.conns.set c { k with isOpen := false } }

/-- The clients that there may be. -/
inductive Reachable (force : Bool) : Client → Prop where
  | new : Reachable force .new
  | step {s t : Client} : Reachable force s → Step force s t → Reachable force t

/-- A call of `send` without others in between: its connection is built at once if it needs one. -/
def sendAlone (force : Bool) (s : Client) (u : Uri) (http2 : Bool) : Client :=
  built force (start s u) s.tasks.length http2

/-! ## Specification -/

/-- The connection is one for the scheme, host and port of the URI. -/
def Conn.For (k : Conn) (scheme host : Text) (port : Option Nat) : Prop :=
  k.host = host ∧
    ((scheme = ['h', 't', 't', 'p'] ∧ k.port = port.getD 80 ∧ k.tls = none) ∨
     (scheme = ['h', 't', 't', 'p', 's'] ∧ k.port = port.getD 443 ∧ k.tls = some host))

/-! ## Lemmas -/

theorem options_some (u : Uri) (port : Nat) (tls : Option Text) (h : options u = some (port, tls)) (b o : Bool) :
    (Conn.mk u.host port tls b o).For u.scheme u.host u.port := by
  unfold options at h
  split at h
  · rename_i hs
    cases h
    refine ⟨rfl, .inl ⟨hs, ?_, rfl⟩⟩
    cases u.port <;> rfl
  · split at h
    · rename_i hs
      cases h
      refine ⟨rfl, .inr ⟨hs, ?_, rfl⟩⟩
      cases u.port <;> rfl
    · cases h

theorem poolGet_set (pool : List (Key × Nat)) (k j : Key) (c : Nat) :
    poolGet (poolSet pool k c) j = if k = j then some c else poolGet pool j := by
  by_cases h : k = j
  · subst h; simp [poolGet, poolSet]
  · rw [if_neg h, poolGet, poolSet, List.find?_cons_of_neg (by simpa using h), List.find?_filter, poolGet]
    congr 2
    funext e
    by_cases he : e.1 = j
    · have : e.1 ≠ k := fun hk => h (hk.symm.trans he)
      simp [he, Ne.symm h]
    · simp [he]

/-- Every connection in the pool, and every one that a call has been given, is one for its key; with HTTP/2 if that is
forced. -/
structure Inv (force : Bool) (s : Client) : Prop where
  pool : ∀ scheme host port c, poolGet s.pool (scheme, host, port) = some c →
    ∃ k, s.conns[c]? = some k ∧ k.For scheme host port ∧ (force = true → k.http2 = true)
  tasks : ∀ u c, Task.given u c ∈ s.tasks →
    ∃ k, s.conns[c]? = some k ∧ k.For u.scheme u.host u.port ∧ (force = true → k.http2 = true)

theorem getElem?_append_some {α : Type} (l m : List α) (i : Nat) (x : α) (h : l[i]? = some x) :
    (l ++ m)[i]? = some x := by
  rw [List.getElem?_append_left (List.getElem?_eq_some_iff.1 h).1, h]

theorem inv_start (force : Bool) (s : Client) (u : Uri) (h : Inv force s) : Inv force (start s u) := by
  unfold start
  cases hp : poolGet s.pool (key u) with
  | none =>
    refine ⟨h.pool, fun v c hm => ?_⟩
    rcases List.mem_append.1 hm with hm | hm
    · exact h.tasks v c hm
    · rw [List.mem_singleton] at hm
      split at hm <;> cases hm
  | some d =>
    refine ⟨h.pool, fun v c hm => ?_⟩
    rcases List.mem_append.1 hm with hm | hm
    · exact h.tasks v c hm
    · rw [List.mem_singleton] at hm
      split at hm
      · cases hm
        exact h.pool _ _ _ _ hp
      · split at hm <;> cases hm

theorem inv_built (force : Bool) (s : Client) (i : Nat) (b : Bool) (h : Inv force s) : Inv force (built force s i b) := by
  unfold built
  split
  · rename_i u hi
    split
    · exact h
    · rename_i port tls ho
      by_cases hf : (force && !b) = true
      · simp only [hf, if_true]
        refine ⟨fun a b c d hp => ?_, fun v c hm => ?_⟩
        · obtain ⟨k, h1, h2⟩ := h.pool a b c d hp
          exact ⟨k, getElem?_append_some _ _ _ _ h1, h2⟩
        · rcases List.mem_or_eq_of_mem_set hm with hm | hm
          · obtain ⟨k, h1, h2⟩ := h.tasks v c hm
            exact ⟨k, getElem?_append_some _ _ _ _ h1, h2⟩
          · cases hm
      · simp only [hf]
        have hnew : ∃ k, (s.conns ++ [⟨u.host, port, tls, b, true⟩])[s.conns.length]? = some k ∧
            k.For u.scheme u.host u.port ∧ (force = true → k.http2 = true) := by
          refine ⟨⟨u.host, port, tls, b, true⟩, by simp, options_some u port tls ho b true, fun hfo => ?_⟩
          rw [hfo, Bool.true_and, Bool.not_eq_true', Bool.not_eq_false] at hf
          exact hf
        refine ⟨fun a b c d hp => ?_, fun v c hm => ?_⟩
        · simp only [Bool.false_eq_true, if_false] at hp
          rw [poolGet_set] at hp
          split at hp
          · rename_i hk
            cases hk; cases hp
            exact hnew
          · obtain ⟨k, h1, h2⟩ := h.pool a b c d hp
            exact ⟨k, getElem?_append_some _ _ _ _ h1, h2⟩
        · simp only [Bool.false_eq_true, if_false] at hm
          rcases List.mem_or_eq_of_mem_set hm with hm | hm
          · obtain ⟨k, h1, h2⟩ := h.tasks v c hm
            exact ⟨k, getElem?_append_some _ _ _ _ h1, h2⟩
          · cases hm
            exact hnew
  · exact h

theorem inv_reachable (force : Bool) (s : Client) (h : Reachable force s) : Inv force s := by
  induction h with
  | new => exact ⟨fun _ _ _ _ h => (by cases h), fun _ _ h => (by cases h)⟩
  | @step s t _ hs ih =>
    cases hs with
    | start u => exact inv_start force _ u ih
    | built i b => exact inv_built force _ i b ih
    | fail i u h =>
      refine ⟨ih.pool, fun v c hm => ?_⟩
      rcases List.mem_or_eq_of_mem_set hm with hm | hm
      · exact ih.tasks v c hm
      · cases hm
    | close c k h =>
      have key : ∀ (d : Nat) scheme host port, (∃ k : Conn, s.conns[d]? = some k ∧ k.For scheme host port ∧
          (force = true → k.http2 = true)) →
          ∃ k' : Conn, (s.conns.set c { k with isOpen := false })[d]? = some k' ∧ k'.For scheme host port ∧
            (force = true → k'.http2 = true) := by
        rintro d scheme host port ⟨k', h1, h2, h3⟩
        by_cases hd : c = d
        · subst hd
          rw [h] at h1; cases h1
          refine ⟨{ k with isOpen := false }, ?_, h2, h3⟩
          rw [List.getElem?_set_self (List.getElem?_eq_some_iff.1 h).1]
        · exact ⟨k', by rw [List.getElem?_set_ne hd, h1], h2, h3⟩
      exact ⟨fun a b d e hp => key _ _ _ _ (ih.pool a b d e hp), fun v d hm => key _ _ _ _ (ih.tasks v d hm)⟩

theorem addMissing_eq {S : Type} [DecidableEq S] (lower : S → S) (n v : S) (fs : List (Field S)) :
    addMissing lower n v fs = fs ++ (match lookup lower fs n with
      | some _ => []
      | none => [⟨n, [v], .header⟩]) := by
  unfold addMissing lookup
  cases h : fs.find? fun f => same lower f.name n with
  | none =>
    rw [if_neg]
    intro ha
    obtain ⟨f, hf, he⟩ := List.any_eq_true.1 ha
    exact List.find?_eq_none.1 h f hf he
  | some f =>
    rw [if_pos (List.any_eq_true.2 ⟨f, List.mem_of_find?_eq_some h, (by have := List.find?_some h; exact this)⟩),
      List.append_nil]

theorem lookup_append {S : Type} [DecidableEq S] (lower : S → S) (fs gs : List (Field S)) (n : S) :
    lookup lower (fs ++ gs) n = (lookup lower fs n).or (lookup lower gs n) := by
  unfold lookup
  rw [List.find?_append]

/-- The values that are sent under a name are those of the field of that name. -/
theorem sent_values {S : Type} [DecidableEq S] (lower : S → S) (fs : List (Field S)) (hd : Distinct lower fs) (n : S) :
    ((headersList (fs.filter fun f => f.kind = .header)).filter fun t => lower t.1 = lower n).map Prod.snd =
      match lookup lower fs n with
      | some f => if f.kind = .header then f.values else []
      | none => [] := by
  have hnone : ∀ gs : List (Field S), (∀ g ∈ gs, lower g.name ≠ lower n) →
      ((headersList (gs.filter fun f => f.kind = .header)).filter fun t => lower t.1 = lower n) = [] := by
    intro gs hg
    rw [List.filter_eq_nil_iff]
    intro t ht
    obtain ⟨g, hgm, htm⟩ := List.mem_flatMap.1 ht
    obtain ⟨v, _, rfl⟩ := List.mem_map.1 htm
    simpa using hg g (List.mem_filter.1 hgm).1
  induction fs with
  | nil => rfl
  | cons f fs ih =>
    obtain ⟨h1, h2⟩ := List.pairwise_cons.1 hd
    by_cases hn : lower f.name = lower n
    · have hl : lookup lower (f :: fs) n = some f := by
        unfold lookup
        rw [List.find?_cons_of_pos (by simpa [same] using hn)]
      rw [hl]
      have hrest := hnone fs fun g hg he => h1 g hg (hn.trans he.symm)
      by_cases hk : f.kind = .header
      · rw [List.filter_cons_of_pos (by simpa using hk)]
        simp only [headersList, List.flatMap_cons, List.filter_append] at hrest ⊢
        rw [hrest, List.append_nil, if_pos hk, List.filter_eq_self.2]
        · simp [Field.asTuples]
        · intro t ht
          obtain ⟨v, _, rfl⟩ := List.mem_map.1 ht
          simpa using hn
      · rw [List.filter_cons_of_neg (by simpa using hk), hrest]
        exact (if_neg hk).symm
    · have hl : lookup lower (f :: fs) n = lookup lower fs n := by
        unfold lookup
        rw [List.find?_cons_of_neg (by simpa [same] using hn)]
      rw [hl, ← ih h2]
      by_cases hk : f.kind = .header
      · rw [List.filter_cons_of_pos (by simpa using hk)]
        simp only [headersList, List.flatMap_cons, List.filter_append]
        rw [List.filter_eq_nil_iff.2 (by
          intro t ht
          obtain ⟨v, _, rfl⟩ := List.mem_map.1 ht
          simpa using hn), List.nil_append]
      · rw [List.filter_cons_of_neg (by simpa using hk)]

theorem distinct_add {S : Type} [DecidableEq S] (lower : S → S) (n v : S) (fs : List (Field S)) (hd : Distinct lower fs) :
    Distinct lower (addMissing lower n v fs) := by
  unfold addMissing
  split
  · exact hd
  · rename_i h
    refine List.pairwise_append.2 ⟨hd, by simp, fun f hf g hg => ?_⟩
    rw [List.mem_singleton] at hg
    subst hg
    intro he
    exact h (List.any_eq_true.2 ⟨f, hf, by simpa using he⟩)

theorem lookup_add {S : Type} [DecidableEq S] (lower : S → S) (n m v : S) (gs : List (Field S)) :
    lookup lower (addMissing lower m v gs) n = match lookup lower gs n with
      | some f => some f
      | none => if lower m = lower n then some ⟨m, [v], .header⟩ else none := by
  have hone : lookup lower [(⟨m, [v], .header⟩ : Field S)] n =
      if lower m = lower n then some ⟨m, [v], .header⟩ else none := by
    unfold lookup same
    by_cases h : lower m = lower n
    · rw [if_pos h, List.find?_cons_of_pos (by simpa using h)]
    · rw [if_neg h, List.find?_cons_of_neg (by simpa using h)]; rfl
  rw [addMissing_eq, lookup_append]
  cases h1 : lookup lower gs n with
  | some f => rfl
  | none =>
    rw [Option.none_or]
    by_cases hm : lower m = lower n
    · have : lookup lower gs m = none := by rw [← h1]; unfold lookup same; rw [hm]
      rw [this, if_pos hm]
      exact hone.trans (if_pos hm)
    · rw [if_neg hm]
      cases lookup lower gs m with
      | some _ => rfl
      | none => exact hone.trans (if_neg hm)

theorem lookup_marshal (lower : Text → Text) (netloc n : Text) (fs : List (Field Text)) :
    lookup lower (marshalFields lower netloc fs) n = match lookup lower fs n with
      | some f => some f
      | none =>
        if lower "host".toList = lower n then some ⟨"host".toList, [netloc], .header⟩
        else if lower "accept".toList = lower n then some ⟨"accept".toList, ["*/*".toList], .header⟩
        else none := by
  rw [marshalFields, lookup_add, lookup_add]
  cases lookup lower fs n with
  | some f => rfl
  | none =>
    simp only
    by_cases h1 : lower "host".toList = lower n
    · rw [if_pos h1]
      exact (if_pos h1).symm
    · rw [if_neg h1]
      exact (if_neg h1).symm

theorem start_tasks (s : Client) (u : Uri) : ∃ t, (start s u).tasks = s.tasks ++ [t] ∧ (start s u).conns = s.conns ∧
    (start s u).pool = s.pool ∧
    t = match poolGet s.pool (key u) with
      | some c => if s.openAt c then .given u c else if (options u).isSome then .building u else .failed u
      | none => if (options u).isSome then .building u else .failed u := by
  unfold start
  cases poolGet s.pool (key u) with
  | some c => exact ⟨_, rfl, rfl, rfl, rfl⟩
  | none => exact ⟨_, rfl, rfl, rfl, rfl⟩

theorem sendAlone_keeps (force : Bool) (s : Client) (u : Uri) (b : Bool) (k : Key) (c : Nat)
    (hp : poolGet s.pool k = some c) (ho : s.openAt c = true) :
    poolGet (sendAlone force s u b).pool k = some c ∧ (sendAlone force s u b).openAt c = true := by
  obtain ⟨t, h1, h2, h3, h4⟩ := start_tasks s u
  have hopen : ∀ m tasks pool, (Client.mk (s.conns ++ m) pool tasks).openAt c = true := by
    intro m tasks pool
    unfold Client.openAt at ho ⊢
    cases h : s.conns[c]? with
    | none => rw [h] at ho; cases ho
    | some x =>
      rw [h] at ho
      simp only [getElem?_append_some _ m _ _ h]
      exact ho
  have hsame : (start s u).openAt c = true := by unfold Client.openAt at ho ⊢; rw [h2]; exact ho
  unfold sendAlone built
  split
  · rename_i v hi
    rw [h1, List.getElem?_append_right (Nat.le_refl _), Nat.sub_self] at hi
    simp only [List.getElem?_cons_zero, Option.some.injEq] at hi
    split
    · exact ⟨by rw [h3]; exact hp, hsame⟩
    · rename_i port tls hopt
      by_cases hk : key v = k
      · have huv : v = u := by
          rw [h4] at hi
          split at hi <;> (try split at hi) <;> (try split at hi) <;> cases hi <;> rfl
        subst huv
        rw [hk, hp] at h4
        simp only [ho, if_true] at h4
        rw [h4] at hi
        cases hi
      · split
        · exact ⟨by simp only [h3]; exact hp, by simp only [h2]; exact hopen _ _ _⟩
        · exact ⟨by simp only [h3]; rw [poolGet_set, if_neg hk]; exact hp, by simp only [h2]; exact hopen _ _ _⟩
  · exact ⟨by rw [h3]; exact hp, hsame⟩

/-! ## Theorems -/

/-- **C89.**  Under every name exactly the values of the request's header of that name are sent, in order; if the request
has no field of that name, `host` is sent with the authority of the destination, `accept` with `*/*`, and nothing under
any other name.  (Trailers are not sent.) -/
theorem C89_headers (lower : Text → Text) (netloc : Text) (fs : List (Field Text)) (hd : Distinct lower fs)
    (name : Text) :
    ((headers lower netloc fs).filter fun t => lower t.1 = lower name).map Prod.snd =
      match lookup lower fs name with
      | some f => if f.kind = .header then f.values else []
      | none =>
        if lower name = lower ['h', 'o', 's', 't'] then [netloc]
        else if lower name = lower ['a', 'c', 'c', 'e', 'p', 't'] then [['*', '/', '*']]
        else [] := by
  have h := sent_values lower (marshalFields lower netloc fs)
    (distinct_add lower _ _ _ (distinct_add lower _ _ _ hd)) name
  rw [lookup_marshal lower netloc name fs] at h
  rw [headers, h]
  cases lookup lower fs name with
  | some f => rfl
  | none =>
    simp only
    by_cases h1 : lower name = lower ['h', 'o', 's', 't']
    · have h1' : lower "host".toList = lower name := h1.symm
      rw [if_pos h1', if_pos h1]; rfl
    · have h1' : ¬ lower "host".toList = lower name := fun h => h1 h.symm
      rw [if_neg h1', if_neg h1]
      by_cases h2 : lower name = lower ['a', 'c', 'c', 'e', 'p', 't']
      · have h2' : lower "accept".toList = lower name := h2.symm
        rw [if_pos h2', if_pos h2]; rfl
      · have h2' : ¬ lower "accept".toList = lower name := fun h => h2 h.symm
        rw [if_neg h2', if_neg h2]

/-- **C89.**  Headers that are there already are sent first, in their order. -/
theorem C89_order (lower : Text → Text) (netloc : Text) (fs : List (Field Text)) :
    ∃ added, headers lower netloc fs = headersList (fs.filter fun f => f.kind = .header) ++ added ∧
      added.length ≤ 2 := by
  have hadd : ∀ (n v : Text) (gs : List (Field Text)), ∃ extra, addMissing lower n v gs = gs ++ extra ∧
      (headersList (extra.filter fun f => f.kind = .header)).length ≤ 1 := by
    intro n v gs
    unfold addMissing
    split
    · exact ⟨[], by simp, by simp [headersList]⟩
    · exact ⟨_, rfl, by simp [headersList, Field.asTuples]⟩
  obtain ⟨e1, h1, k1⟩ := hadd "host".toList netloc fs
  obtain ⟨e2, h2, k2⟩ := hadd "accept".toList "*/*".toList (fs ++ e1)
  refine ⟨headersList (e1.filter fun f => f.kind = .header) ++ headersList (e2.filter fun f => f.kind = .header), ?_, ?_⟩
  · rw [headers, marshalFields, h1, h2]
    simp [headersList]
  · rw [List.length_append]; omega

/-- **C89 (negative).**  The host header that is added is the authority with user name and password, so these are sent to
the server. -/
theorem C89_userinfo_fails (natText : Nat → Text) (lower : Text → Text) (u : Uri) (user password : Text)
    (hu : u.username = some user) (hp : u.password = some password) :
    ∃ hostport, ((headers lower (Verif.Uri.Build.netloc natText u) []).filter fun t =>
      lower t.1 = lower "host".toList).map Prod.snd = [user ++ [':'] ++ password ++ ['@'] ++ hostport] := by
  refine ⟨(if Verif.Uri.Host.hostType u.host = .ipv6 then '[' :: u.host ++ [']'] else u.host) ++
      (match u.port with
      | some p => ':' :: natText p
      | none => []), ?_⟩
  rw [C89_headers lower _ [] (by simp [Distinct]) "host".toList]
  have : lookup lower [] "host".toList = none := rfl
  rw [this]
  simp only
  have hh : lower "host".toList = lower ['h', 'o', 's', 't'] := rfl
  rw [if_pos hh]
  cases hq : u.port <;> simp [Verif.Uri.Build.netloc, hu, hp, hq]

/-- **C89 (negative).**  Sending changes the fields of the request, which the attempts of a call share (client.py:345): an
attempt that goes to another destination sends the host of the first one. -/
theorem C89_retry_fails (lower : Text → Text) (first second : Text) (fs : List (Field Text)) (hd : Distinct lower fs)
    (hh : lookup lower fs "host".toList = none) :
    ((headers lower second (marshalFields lower first fs)).filter fun t => lower t.1 = lower "host".toList).map
      Prod.snd = [first] := by
  rw [C89_headers lower second (marshalFields lower first fs)
      (distinct_add lower _ _ _ (distinct_add lower _ _ _ hd)), lookup_marshal lower first _ fs, hh]
  simp

/-- **C89.**  The target of a request to an endpoint begins with a slash, and the server that splits it at the first
question mark gets the path of the destination and its query. -/
theorem C89_target (uri previous : Uri) (hq : ∀ p, (setEndpoint uri previous).path = some p → '?' ∉ p) :
    (renderPath (setEndpoint uri previous)).head? = some '/' ∧
    cut '?' (renderPath (setEndpoint uri previous)) =
      ((setEndpoint uri previous).path.getD ['/'], (setEndpoint uri previous).query) := by
  have hpath : (setEndpoint uri previous).path = none ∨ ∃ t, (setEndpoint uri previous).path = some ('/' :: t) := by
    have key : ∀ path : Option Text, (match path with
        | some p => if p.head? = some '/' then some p else some ('/' :: p)
        | none => none) = none ∨ ∃ t, (match path with
        | some p => if p.head? = some '/' then some p else some ('/' :: p)
        | none => none) = some ('/' :: t) := by
      intro path
      cases path with
      | none => exact .inl rfl
      | some p =>
      refine .inr ?_
      simp only
      split
      · rename_i h
        cases p with
        | nil => cases h
        | cons c p => simp only [List.head?_cons, Option.some.injEq] at h; subst h; exact ⟨p, rfl⟩
      · exact ⟨p, rfl⟩
    exact key _
  generalize setEndpoint uri previous = u at hq hpath
  have hr : ∃ t, renderPath u = ('/' :: t) ++ (match u.query with | some q => '?' :: q | none => []) ∧
      '?' ∉ ('/' :: t) ∧ u.path.getD ['/'] = '/' :: t := by
    unfold renderPath
    rcases hpath with h | ⟨t, h⟩
    · exact ⟨[], by rw [h], by decide, by rw [h]; rfl⟩
    · exact ⟨t, by rw [h], hq _ h, by rw [h]; rfl⟩
  obtain ⟨t, h1, h2, h3⟩ := hr
  refine ⟨by rw [h1]; rfl, ?_⟩
  rw [h1, h3]
  cases u.query with
  | none => rw [List.append_nil, cut_of_not_mem _ _ h2]
  | some q => exact cut_append _ _ _ h2

/-- **C89 (negative).**  The target of a request to a URI with an empty path is empty: `GET  HTTP/1.1`. -/
theorem C89_empty_path_fails (u : Uri) (hp : u.path = some []) (hq : u.query = none) : renderPath u = [] := by
  simp [renderPath, hp, hq]

/-- **C90.**  However calls, new connections and closed connections follow each other, a call of `send` is only given a
connection to the host and port of its destination (80 and 443 if it has none), over TLS with the name of that host if and
only if the scheme is `https`, and over HTTP/2 if that is forced. -/
theorem C90_right_server (force : Bool) (s : Client) (h : Reachable force s) (u : Uri) (c : Nat)
    (hu : Task.given u c ∈ s.tasks) :
    ∃ k, s.conns[c]? = some k ∧ k.For u.scheme u.host u.port ∧ (force = true → k.http2 = true) :=
  (inv_reachable force s h).tasks u c hu

/-- **C90.**  A call for another scheme than `http` and `https` fails; no connection is built. -/
theorem C90_scheme (force : Bool) (s : Client) (h : Reachable force s) (u : Uri)
    (h1 : u.scheme ≠ ['h', 't', 't', 'p']) (h2 : u.scheme ≠ ['h', 't', 't', 'p', 's']) :
    (start s u).tasks = s.tasks ++ [.failed u] ∧ (start s u).conns = s.conns := by
  obtain ⟨t, h3, h4, _, h5⟩ := start_tasks s u
  have ho : (options u).isSome = false := by
    unfold options
    have h1' : ¬ u.scheme = "http".toList := h1
    have h2' : ¬ u.scheme = "https".toList := h2
    rw [if_neg h1', if_neg h2']; rfl
  have hp : poolGet s.pool (key u) = none := by
    cases hp : poolGet s.pool (key u) with
    | none => rfl
    | some c =>
      obtain ⟨k, _, ⟨_, hs | hs⟩, _⟩ := (inv_reachable force s h).pool _ _ _ _ hp
      · exact absurd hs.1 h1
      · exact absurd hs.1 h2
  rw [hp] at h5
  simp only [ho, Bool.false_eq_true, if_false] at h5
  rw [h3, h5]
  exact ⟨rfl, h4⟩

/-- **C90.**  A call is never given a connection that is closed at that moment. -/
theorem C90_open (s : Client) (u : Uri) (c : Nat) (h : (start s u).tasks = s.tasks ++ [.given u c]) :
    s.openAt c = true := by
  obtain ⟨t, h1, _, _, h2⟩ := start_tasks s u
  rw [h1] at h
  have ht : t = .given u c := by simpa using h
  rw [h2] at ht
  split at ht
  · split at ht
    · rename_i ho
      cases ht
      exact ho
    · split at ht <;> cases ht
  · split at ht <;> cases ht

/-- **C90 (partial).**  A connection that was built for a call is used again by later calls for the same scheme, host and
port, as long as it stays open, if calls do not overlap while connections are built.  Missing: calls that do, see
`C90_overlap_fails`. -/
theorem C90_reused_partial (force : Bool) (s : Client) (u : Uri) (c : Nat) (hp : poolGet s.pool (key u) = some c)
    (ho : s.openAt c = true) (others : List (Uri × Bool)) (v : Uri) (b : Bool)
    (hv : v.scheme = u.scheme ∧ v.host = u.host ∧ v.port = u.port) :
    ∃ tasks, (sendAlone force (others.foldl (fun s o => sendAlone force s o.1 o.2) s) v b).tasks =
      tasks ++ [.given v c] ∧
      (sendAlone force (others.foldl (fun s o => sendAlone force s o.1 o.2) s) v b).conns =
        (others.foldl (fun s o => sendAlone force s o.1 o.2) s).conns := by
  have hkeep : ∀ s : Client, poolGet s.pool (key u) = some c → s.openAt c = true →
      poolGet (others.foldl (fun s o => sendAlone force s o.1 o.2) s).pool (key u) = some c ∧
      (others.foldl (fun s o => sendAlone force s o.1 o.2) s).openAt c = true := by
    induction others with
    | nil => exact fun s h1 h2 => ⟨h1, h2⟩
    | cons o os ih =>
      intro s h1 h2
      obtain ⟨h3, h4⟩ := sendAlone_keeps force s o.1 o.2 (key u) c h1 h2
      exact ih _ h3 h4
  obtain ⟨h1, h2⟩ := hkeep s hp ho
  generalize others.foldl (fun s o => sendAlone force s o.1 o.2) s = s' at h1 h2
  obtain ⟨t, h3, h4, _, h6⟩ := start_tasks s' v
  have hk : key v = key u := by unfold key; rw [hv.1, hv.2.1, hv.2.2]
  rw [hk, h1] at h6
  simp only [h2, if_true] at h6
  subst h6
  have hb : sendAlone force s' v b = start s' v := by
    unfold sendAlone built
    rw [h3, List.getElem?_append_right (Nat.le_refl _), Nat.sub_self]
    rfl
  rw [hb]
  exact ⟨s'.tasks, h3, h4⟩

/-- **C90 (negative).**  Two calls that overlap build two connections; the first one is dropped from the pool while it is
open: nobody closes it and no later call is given it. -/
theorem C90_overlap_fails (u : Uri) (hs : u.scheme = "https".toList) :
    ∃ s, Reachable false s ∧ s.openAt 0 = true ∧ s.openAt 1 = true ∧ (∀ k, poolGet s.pool k ≠ some 0) ∧
      s.tasks = [.given u 0, .given u 1] := by
  refine ⟨built false (built false (start (start .new u) u) 0 true) 1 true,
    .step (.step (.step (.step .new (.start _ u)) (.start _ u)) (.built _ 0 true)) (.built _ 1 true), ?_⟩
  have ho : options u = some (match u.port with | some p => p | none => 443, some u.host) := by
    have h1 : ¬ u.scheme = "http".toList := by rw [hs]; decide
    rw [options, if_neg h1, if_pos hs]
  have h1 : start (start .new u) u = ⟨[], [], [.building u, .building u]⟩ := by
    simp [start, Client.new, poolGet, ho]
  rw [h1]
  simp only [built, ho, List.getElem?_cons_zero, List.length_nil, Bool.false_and, Bool.false_eq_true, if_false,
    List.set_cons_zero, List.getElem?_cons_succ, List.nil_append, List.length_cons, List.set_cons_succ]
  refine ⟨rfl, rfl, fun k => ?_, trivial⟩
  rw [poolGet_set]
  split
  · simp
  · rename_i hk
    rw [poolGet_set, if_neg hk]
    simp [poolGet]

/-! ## The hypotheses are met -/

/-- A request with fields. -/
example : let lower : Text → Text := List.map Char.toLower
    headers lower "example.com".toList [⟨"X-A".toList, ["1".toList, "2".toList], .header⟩, ⟨"Accept".toList, ["b".toList], .header⟩] =
      [("X-A".toList, "1".toList), ("X-A".toList, "2".toList), ("Accept".toList, "b".toList),
        ("host".toList, "example.com".toList)] := by
  decide +kernel

/-- A client that has sent one request and may be used again. -/
example : let u : Uri := { host := "example.com".toList }
    let s := sendAlone true .new u true
    Reachable true s ∧ poolGet s.pool (key u) = some 0 ∧ s.openAt 0 = true ∧ Task.given u 0 ∈ s.tasks := by
  refine ⟨.step (.step .new (.start _ _)) (.built _ _ _), ?_, ?_, ?_⟩ <;> decide +kernel

end Verif.Transport.Crt

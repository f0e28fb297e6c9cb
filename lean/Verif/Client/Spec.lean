import Verif.Client.Model

/-!
# What the copy of a configuration has to be

The words of the statements about calls, in terms of objects and the values they hold.
-/

set_option autoImplicit false

namespace Verif.Client

/-- The objects that can be reached from a value by following what objects hold. -/
inductive Reach (h : Heap) : Val → Addr → Prop
  | here (a : Addr) : Reach h (.ref a) a
  | there {a : Addr} {o : Obj} {n : String} {v : Val} {b : Addr} (ho : h[a]? = some o)
      (hv : (n, v) ∈ o.fields) (hb : Reach h v b) : Reach h (.ref a) b

/-- All values that objects hold are objects that exist. -/
def Closed (h : Heap) : Prop :=
  ∀ (a : Addr) (o : Obj), h[a]? = some o → ∀ n b, (n, Val.ref b) ∈ o.fields → b < h.length

/-- The objects a deep copy makes new ones for: those found by following what objects hold, but
neither into objects that are their own copy nor into attributes that a class does not copy. -/
inductive Copied (hk : String → Hook) (h : Heap) : Val → Addr → Prop
  | here {a : Addr} {o : Obj} (ho : h[a]? = some o) (hn : hk o.cls ≠ .itself) :
      Copied hk h (.ref a) a
  | plain {a : Addr} {o : Obj} {n : String} {v : Val} {b : Addr} (ho : h[a]? = some o)
      (hp : hk o.cls = .plain) (hv : (n, v) ∈ o.fields) (hb : Copied hk h v b) :
      Copied hk h (.ref a) b
  | rebuilt {a : Addr} {o : Obj} {acts : List (String × Act)} {n : String} {v : Val} {b : Addr}
      (ho : h[a]? = some o) (hp : hk o.cls = .rebuild acts) (hn : (n, Act.copy) ∈ acts)
      (hv : o.fields.lookup n = some v) (hb : Copied hk h v b) : Copied hk h (.ref a) b

/-- The objects that a deep copy holds although they are not new: those that are their own copy,
attributes that are taken over, and what an object holds that is copied without what it holds. -/
inductive Kept (hk : String → Hook) (h : Heap) : Val → Addr → Prop
  | itself {a : Addr} {o : Obj} (ho : h[a]? = some o) (hs : hk o.cls = .itself) :
      Kept hk h (.ref a) a
  | plain {a : Addr} {o : Obj} {n : String} {v : Val} {b : Addr} (ho : h[a]? = some o)
      (hp : hk o.cls = .plain) (hv : (n, v) ∈ o.fields) (hb : Kept hk h v b) :
      Kept hk h (.ref a) b
  | rebuilt {a : Addr} {o : Obj} {acts : List (String × Act)} {n : String} {v : Val} {b : Addr}
      (ho : h[a]? = some o) (hp : hk o.cls = .rebuild acts) (hn : (n, Act.copy) ∈ acts)
      (hv : o.fields.lookup n = some v) (hb : Kept hk h v b) : Kept hk h (.ref a) b
  | share {a : Addr} {o : Obj} {acts : List (String × Act)} {n : String} {b : Addr}
      (ho : h[a]? = some o) (hp : hk o.cls = .rebuild acts) (hn : (n, Act.share) ∈ acts)
      (hv : o.fields.lookup n = some (.ref b)) : Kept hk h (.ref a) b
  | shallow {a : Addr} {o : Obj} {acts : List (String × Act)} {n k : String} {s : Addr} {t : Obj}
      {b : Addr} (ho : h[a]? = some o) (hp : hk o.cls = .rebuild acts)
      (hn : (n, Act.shallow) ∈ acts) (hv : o.fields.lookup n = some (.ref s))
      (ht : h[s]? = some t) (hb : (k, Val.ref b) ∈ t.fields) : Kept hk h (.ref a) b

/-- The objects a path leads through, except for the last, are copied as they are. -/
def Plainly (hk : String → Hook) (h : Heap) : Val → List String → Prop
  | _, [] => True
  | .prim _, _ :: _ => False
  | .ref a, n :: ns =>
    ∃ o v, h[a]? = some o ∧ hk o.cls = .plain ∧ o.fields.lookup n = some v ∧ Plainly hk h v ns

/-- What is found in the copy (`w`, on the heap `h'`) for the value `v` (on the heap `h`): an equal
value, the same object if it is its own copy, and otherwise a new object of the same class, with
values of the same names if the class does not say itself how it is copied. -/
def Shows (hk : String → Hook) (h h' : Heap) (v w : Val) : Prop :=
  match v with
  | .prim _ => w = v
  | .ref a => ∃ o, h[a]? = some o ∧
      if hk o.cls = .itself then w = v
      else ∃ b o', w = .ref b ∧ h.length ≤ b ∧ h'[b]? = some o' ∧ o'.cls = o.cls ∧
        (hk o.cls = .plain → o'.fields.map (·.1) = o.fields.map (·.1))

/-! ## Calls -/

/-- The heap and the configurations of the calls that have been started, by the order they were
started in. -/
structure System where
  heap : Heap
  calls : List Addr

/-- What a call may do at a time, be it a plugin, an interceptor, a resolver, or the transport: it
changes objects that it can reach from its configuration, makes new ones, and uses objects that are
`common`; what it can reach afterwards is new, or it could reach it before, or it is common; the
common objects hold only common objects afterwards; no object changes its class; and objects hold
objects that exist. -/
structure Acts (common : Addr → Prop) (h : Heap) (config : Addr) (h' : Heap) : Prop where
  grows : h.length ≤ h'.length
  only : ∀ a < h.length, ¬ Reach h (.ref config) a → ¬ common a → h'[a]? = h[a]?
  reach : ∀ a < h.length, Reach h' (.ref config) a → Reach h (.ref config) a ∨ common a
  inside : ∀ a o, common a → h'[a]? = some o → ∀ n b, (n, Val.ref b) ∈ o.fields → common b
  cls : ∀ a < h.length, h'[a]?.map (·.cls) = h[a]?.map (·.cls)
  closed : Closed h'

/-- One thing that happens: a call of an operation of the client is started, which copies the
client's configuration, or a call that has been started does something. -/
inductive Happens (hk : String → Hook) (client : Addr) (common : Addr → Prop) :
    System → System → Prop
  | start {s : System} {fuel : Nat} {h' : Heap} {m' : Memo} {b : Addr}
      (hd : deepcopy hk fuel s.heap [] (.ref client) = some (h', m', .ref b)) :
      Happens hk client common s ⟨h', s.calls ++ [b]⟩
  | act {s : System} {i : Nat} {config : Addr} {h' : Heap} (hi : s.calls[i]? = some config)
      (ha : Acts common s.heap config h') : Happens hk client common s ⟨h', s.calls⟩

/-- Any number of calls, in any order and overlapping in any way. -/
inductive Runs (hk : String → Hook) (client : Addr) (common : Addr → Prop) (s : System) :
    System → Prop
  | refl : Runs hk client common s s
  | tail {t u : System} (hst : Runs hk client common s t) (htu : Happens hk client common t u) :
      Runs hk client common s u

/-- What is assumed of the objects when the client has been made: `common` are objects that exist
and hold only common ones; among them are the objects that deep copies keep, and not among them the
ones that deep copies make new ones for. -/
structure Setting (hk : String → Hook) (h : Heap) (client : Addr) (common : Addr → Prop) :
    Prop where
  closed : Closed h
  exists' : client < h.length
  old : ∀ a, common a → a < h.length
  inside : ∀ a o, common a → h[a]? = some o → ∀ n b, (n, Val.ref b) ∈ o.fields → common b
  kept : ∀ a, Kept hk h (.ref client) a → common a
  apart : ∀ a, Copied hk h (.ref client) a → ¬ common a

end Verif.Client

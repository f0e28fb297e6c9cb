import Verif.Client.Calls

/-!
# Theorems on the calls of a client
-/

set_option autoImplicit false

namespace Verif.Client

variable {hk : String → Hook}

/-! ## More lemmas -/

theorem plainly_copied {h : Heap} (path : List String) {v : Val} (hp : Plainly hk h v path)
    {a : Addr} {o : Obj} (hw : walk h v path = some (.ref a)) (ho : h[a]? = some o)
    (hn : hk o.cls ≠ .itself) : Copied hk h v a := by
  induction path generalizing v with
  | nil =>
    simp only [walk, Option.some.injEq] at hw
    subst hw
    exact .here ho hn
  | cons n ns ih =>
    cases v with
    | prim p => exact hp.elim
    | ref x =>
      obtain ⟨o', v', ho', hpl, hl, hrest⟩ := hp
      simp only [walk, step, ho', Option.bind_some, hl] at hw
      exact .plain ho' hpl (lookup_mem' hl) (ih hrest hw)

theorem walk_plainly {h : Heap} (path : List String) {v : Val} (hp : Plainly hk h v path) :
    ∃ u, walk h v path = some u := by
  induction path generalizing v with
  | nil => exact ⟨v, rfl⟩
  | cons n ns ih =>
    cases v with
    | prim p => exact hp.elim
    | ref x =>
      obtain ⟨o', v', ho', hpl, hl, hrest⟩ := hp
      obtain ⟨u, hu⟩ := ih hrest
      exact ⟨u, by simp [walk, step, ho', hl, hu]⟩

/-- A path through objects that are left alone leads through the same objects. -/
theorem plainly_same {h g : Heap} (path : List String) {v : Val} (hp : Plainly hk h v path)
    (hs : ∀ a, Copied hk h v a → g[a]? = h[a]?) :
    Plainly hk g v path ∧ walk g v path = walk h v path := by
  induction path generalizing v with
  | nil => exact ⟨trivial, rfl⟩
  | cons n ns ih =>
    cases v with
    | prim p => exact hp.elim
    | ref x =>
      obtain ⟨o', v', ho', hpl, hl, hrest⟩ := hp
      have hx := hs x (.here ho' (by rw [hpl]; simp))
      obtain ⟨h₁, h₂⟩ := ih hrest (fun a ha => hs a (.plain ho' hpl (lookup_mem' hl) ha))
      rw [ho'] at hx
      exact ⟨⟨o', v', hx, hpl, hl, h₁⟩, by simp [walk, step, hx, ho', hl, h₂]⟩

theorem copied_bounded {h : Heap} {v : Val} {a : Addr} (hc : Copied hk h v a) : a < h.length := by
  induction hc with
  | here ho _ => exact getElem?_lt ho
  | plain _ _ _ _ ih => exact ih
  | rebuilt _ _ _ _ _ ih => exact ih

theorem forall₂_acts {g : Heap} {R : Addr → Addr → Prop} {lo : Nat} {h : Heap} {o : Obj}
    {acts : List (String × Act)} {ws : List (String × Val)}
    (hf : List.Forall₂ (fun p q => q.1 = p.1 ∧
      ∃ v, o.fields.lookup p.1 = some v ∧ ActRel hk g R lo h p.2 v q.2) acts ws)
    {n : String} {act : Act} (hn : acts.lookup n = some act) :
    ∃ v w, o.fields.lookup n = some v ∧ ws.lookup n = some w ∧ ActRel hk g R lo h act v w := by
  induction hf with
  | nil => simp at hn
  | @cons p q ps qs hpq _ ih =>
    obtain ⟨pn, pa⟩ := p
    obtain ⟨qn, qv⟩ := q
    obtain ⟨h₁, v, hv, ha⟩ := hpq
    simp only at h₁ hv ha
    subst h₁
    rw [List.lookup_cons] at hn ⊢
    cases hx : n == qn with
    | true =>
      simp only [hx, Option.some.injEq] at hn
      subst hn
      have := eq_of_beq hx
      subst this
      exact ⟨v, qv, hv, rfl, ha⟩
    | false =>
      simp only [hx] at hn
      simpa using ih hn

/-- What the attributes of a value at a path are in the copy, when its class says how it is
copied. -/
theorem walk_rebuilt {g : Heap} {root : Addr} {h' : Heap} {w₀ : Val} {R : Addr → Addr → Prop}
    (c : Copy hk g root h' w₀ R) (path : List String) (hp : Plainly hk g (.ref root) path)
    {a : Addr} {o : Obj} (hw : walk g (.ref root) path = some (.ref a)) (ho : g[a]? = some o)
    {acts : List (String × Act)} (hh : hk o.cls = .rebuild acts) {n : String} {act : Act}
    (hn : acts.lookup n = some act) :
    ∃ b o' v w, walk h' w₀ path = some (.ref b) ∧ h'[b]? = some o' ∧ o'.cls = o.cls ∧
      o.fields.lookup n = some v ∧ o'.fields.lookup n = some w ∧
      ActRel hk g R g.length h' act v w := by
  obtain ⟨u, u', hu, hu', hr⟩ := walk_copy c path hp c.result
  rw [hw] at hu
  cases hu
  rcases hr with ⟨rfl, t, ht, hi⟩ | ⟨b, rfl, hab⟩
  · rw [ho] at ht
    cases ht
    rw [hh] at hi
    cases hi
  · obtain ⟨_, _, o₁, o', ho₁, ho', hcls, hf⟩ := c.pairs a b hab
    rw [ho] at ho₁
    cases ho₁
    unfold FieldsRel at hf
    rw [hh] at hf
    obtain ⟨v, w, hv, hw', ha⟩ := forall₂_acts hf hn
    exact ⟨b, o', v, w, hu', ho', hcls, hv, hw', ha⟩

theorem walk_append {h : Heap} {v w : Val} (p q : List String) (hp : walk h v p = some w) :
    walk h v (p ++ q) = walk h w q := by
  induction p generalizing v with
  | nil =>
    simp only [walk, Option.some.injEq] at hp
    rw [hp]
    rfl
  | cons n ns ih =>
    simp only [walk, List.cons_append] at hp ⊢
    cases hs : step h v n with
    | none => simp [hs] at hp
    | some u =>
      simp only [hs, Option.bind_some] at hp ⊢
      exact ih hp

/-! ## Isolation -/

/-- What calls do does not reach the client: however many calls are made, in whatever order and
overlapping in whatever way, and whatever their plugins and the calls themselves do with their
configurations, no object that is not common is changed, and so none of the objects the client's
configuration is copied from. -/
theorem C104_client {h : Heap} {client : Addr} {common : Addr → Prop}
    (st : Setting hk h client common) {s : System} (hr : Runs hk client common ⟨h, []⟩ s) :
    (∀ a < h.length, ¬ common a → s.heap[a]? = h[a]?) ∧
      ∀ a, Copied hk h (.ref client) a → s.heap[a]? = h[a]? := by
  obtain ⟨own, inv⟩ := inv_runs st hr
  exact ⟨inv.same, fun a ha => inv.same a (copied_bounded ha) (st.apart a ha)⟩

/-- What a call does does not reach another call: no object that another call can reach is changed
unless it is common. -/
theorem C104_others {h : Heap} {client : Addr} {common : Addr → Prop}
    (st : Setting hk h client common) {s : System} (hr : Runs hk client common ⟨h, []⟩ s)
    {i j : Nat} {ci cj : Addr} (hi : s.calls[i]? = some ci) (hj : s.calls[j]? = some cj)
    (hij : i ≠ j) {h' : Heap} (ha : Acts common s.heap ci h') :
    ∀ a, Reach s.heap (.ref cj) a → ¬ common a → h'[a]? = s.heap[a]? := by
  obtain ⟨own, inv⟩ := inv_runs st hr
  intro a har hc
  obtain ⟨hb, hrj⟩ := inv.calls j cj hj
  refine ha.only a (reach_bounded inv.closed har (by rintro x h; cases h; exact hb)) ?_ hc
  intro hai
  rcases hrj a har with h₁ | h₁
  · rcases (inv.calls i ci hi).2 a hai with h₂ | h₂
    · rw [h₁] at h₂
      exact hij (Option.some.inj h₂).symm
    · exact hc h₂
  · exact hc h₁

/-- A call starts with the client's configuration as it was when the client was made: at every path
through objects that are copied as they are, the copy has the value the client's configuration had
then, in new objects where they are not their own copies. -/
theorem C104_seen {h : Heap} {client : Addr} {common : Addr → Prop}
    (st : Setting hk h client common) {s : System} (hr : Runs hk client common ⟨h, []⟩ s)
    {fuel : Nat} {h' : Heap} {m' : Memo} {b : Addr}
    (hd : deepcopy hk fuel s.heap [] (.ref client) = some (h', m', .ref b))
    {path : List String} (hp : Plainly hk h (.ref client) path) :
    ∃ u u', walk h (.ref client) path = some u ∧ walk h' (.ref b) path = some u' ∧
      Shows hk s.heap h' u u' := by
  obtain ⟨own, inv⟩ := inv_runs st hr
  obtain ⟨R, c⟩ := copy_of_deepcopy inv.closed (Nat.lt_of_lt_of_le st.exists' inv.len) hd
  obtain ⟨hp', hw⟩ := plainly_same path hp (C104_client st hr).2
  obtain ⟨u, u', hu, hu', hrel⟩ := walk_copy c path hp' c.result
  exact ⟨u, u', by rw [← hw]; exact hu, hu', shows_of_vrel c hrel⟩

/-- Starting a call changes no object that is there. -/
theorem C104_start {h : Heap} {client : Addr} {common : Addr → Prop}
    (st : Setting hk h client common) {s : System} (hr : Runs hk client common ⟨h, []⟩ s)
    {fuel : Nat} {h' : Heap} {m' : Memo} {b : Addr}
    (hd : deepcopy hk fuel s.heap [] (.ref client) = some (h', m', .ref b)) :
    (∀ a < s.heap.length, h'[a]? = s.heap[a]?) ∧
      ∀ a, Reach h' (.ref b) a → ¬ common a → s.heap.length ≤ a := by
  obtain ⟨own, inv⟩ := inv_runs st hr
  obtain ⟨R, c⟩ := copy_of_deepcopy inv.closed (Nat.lt_of_lt_of_le st.exists' inv.len) hd
  refine ⟨c.same, ?_⟩
  intro a ha hc
  rcases reach_copy inv.closed c ha with h | ⟨k, hkk, hrk⟩
  · exact h
  · refine absurd (reach_common inv.inside hrk ?_) hc
    rintro x hx
    cases hx
    exact kept_common st inv hkk (by rintro x h; cases h; exact st.exists') st.kept st.apart

/-- The first part of a call, with plugins that do what calls may do, is one of the things the
theorems above are about: it starts a call, and the plugins then act for it one after the other. -/
theorem C104_prepare {h : Heap} {client : Addr} {common : Addr → Prop}
    (st : Setting hk h client common) {s : System} (hr : Runs hk client common ⟨h, []⟩ s)
    {fuel : Nat} {operationPlugins given : List Plugin}
    (hpl : ∀ p ∈ operationPlugins ++ given, ∀ g b, Closed g → b < g.length →
      (∀ a o, common a → g[a]? = some o → ∀ n c, (n, Val.ref c) ∈ o.fields → common c) →
      Acts common g b (p g b))
    {h' : Heap} {b : Addr}
    (hprep : prepare hk fuel operationPlugins given s.heap client = some (h', b)) :
    Runs hk client common ⟨h, []⟩ ⟨h', s.calls ++ [b]⟩ := by
  unfold prepare at hprep
  split at hprep
  · rename_i h1 m1 b1 hd
    simp only [Option.some.injEq, Prod.mk.injEq] at hprep
    obtain ⟨rfl, rfl⟩ := hprep
    have hstart : Runs hk client common ⟨h, []⟩ ⟨h1, s.calls ++ [b1]⟩ := hr.tail (.start hd)
    clear hd
    revert hpl
    generalize operationPlugins ++ given = plugins
    intro hpl
    induction plugins generalizing h1 with
    | nil => exact hstart
    | cons p ps ih =>
      obtain ⟨own, inv⟩ := inv_runs st hstart
      have hi : (s.calls ++ [b1])[s.calls.length]? = some b1 := by simp
      refine ih (p h1 b1) ?_ (fun q hq => hpl q (List.mem_cons_of_mem _ hq))
      exact hstart.tail (.act hi (hpl p List.mem_cons_self h1 b1 inv.closed
        (inv.calls _ _ hi).1 inv.inside))
  · cases hprep

/-! ## What calls have in common -/

/-- All calls of a client use one retry strategy object, and so one retry quota, when the client is
configured with a strategy of one of the classes here: the configuration of every call has the
client's own strategy object. -/
theorem C105_quota {h : Heap} {client : Addr} {common : Addr → Prop}
    (st : Setting hook h client common) {s : System} (hr : Runs hook client common ⟨h, []⟩ s)
    {fuel : Nat} {h' : Heap} {m' : Memo} {b : Addr}
    (hd : deepcopy hook fuel s.heap [] (.ref client) = some (h', m', .ref b))
    (hp : Plainly hook h (.ref client) ["retry_strategy"]) {a : Addr} {o : Obj}
    (hw : walk h (.ref client) ["retry_strategy"] = some (.ref a)) (ho : h[a]? = some o)
    (hcls : o.cls = "StandardRetryStrategy" ∨ o.cls = "SimpleRetryStrategy") :
    walk h' (.ref b) ["retry_strategy"] = some (.ref a) := by
  obtain ⟨own, inv⟩ := inv_runs st hr
  obtain ⟨u, u', hu, hu', hs⟩ := C104_seen st hr hd hp
  rw [hw] at hu
  cases hu
  obtain ⟨t, ht, hs⟩ := hs
  have hc := inv.cls a (getElem?_lt ho)
  rw [ht, ho] at hc
  simp only [Option.map_some, Option.some.injEq] at hc
  rw [if_pos (by rw [hc]; rcases hcls with h | h <;> rw [h] <;> rfl)] at hs
  rw [hu', hs]

/-- What a call has stored in an object that is copied is not there in a later call: a value that
the client's configuration holds, such as the credentials a resolver has stored, is in every call
what it was when the client was made. -/
theorem C105_forgotten {h : Heap} {client : Addr} {common : Addr → Prop}
    (st : Setting hk h client common) {s : System} (hr : Runs hk client common ⟨h, []⟩ s)
    {fuel : Nat} {h' : Heap} {m' : Memo} {b : Addr}
    (hd : deepcopy hk fuel s.heap [] (.ref client) = some (h', m', .ref b))
    {path : List String} (hp : Plainly hk h (.ref client) path) {text : String}
    (hw : walk h (.ref client) path = some (.prim text)) :
    walk h' (.ref b) path = some (.prim text) := by
  obtain ⟨u, u', hu, hu', hs⟩ := C104_seen st hr hd hp
  rw [hw] at hu
  cases hu
  rw [hu', hs]

/-- The CRT client of a call has the client's event loop but no connections: every call opens its
own, and none is used again by a later call. -/
theorem C105_crt {h : Heap} {client : Addr} {common : Addr → Prop}
    (st : Setting hook h client common) {s : System} (hr : Runs hook client common ⟨h, []⟩ s)
    {fuel : Nat} {h' : Heap} {m' : Memo} {b : Addr}
    (hd : deepcopy hook fuel s.heap [] (.ref client) = some (h', m', .ref b))
    (hp : Plainly hook h (.ref client) ["transport"]) {a : Addr} {o : Obj}
    (hw : walk h (.ref client) ["transport"] = some (.ref a)) (ho : h[a]? = some o)
    (hcls : o.cls = "AWSCRTHTTPClient") :
    walk h' (.ref b) ["transport", "_eventloop"] = walk h (.ref client) ["transport", "_eventloop"] ∧
      ∃ x, walk h' (.ref b) ["transport", "_connections"] = some (.ref x) ∧
        s.heap.length ≤ x ∧ h'[x]? = some ⟨"dict", []⟩ := by
  obtain ⟨own, inv⟩ := inv_runs st hr
  obtain ⟨R, c⟩ := copy_of_deepcopy inv.closed (Nat.lt_of_lt_of_le st.exists' inv.len) hd
  obtain ⟨hp', hw'⟩ := plainly_same _ hp (C104_client st hr).2
  rw [hw] at hw'
  have hoa : s.heap[a]? = some o := by
    rw [(C104_client st hr).2 a (plainly_copied _ hp hw ho (by rw [hcls]; decide)), ho]
  have hh : hook o.cls = .rebuild
      [("_config", .copy), ("_eventloop", .share), ("_client_bootstrap", .share),
        ("_tls_ctx", .fresh "ClientTlsContext"), ("_socket_options", .fresh "SocketOptions"),
        ("_connections", .fresh "dict")] := by
    rw [hcls]
    rfl
  refine ⟨?_, ?_⟩
  · obtain ⟨y, o', v, w, hy, ho', _, hv, hwl, ha⟩ :=
      walk_rebuilt c _ hp' hw' hoa hh (n := "_eventloop") (act := .share) (by decide)
    have : w = v := ha
    subst this
    have h₁ := walk_append (q := ["_eventloop"]) _ hy
    have h₂ := walk_append (q := ["_eventloop"]) _ hw
    simp only [List.cons_append, List.nil_append] at h₁ h₂
    rw [h₁, h₂]
    simp [walk, step, ho', ho, hv, hwl]
  · obtain ⟨y, o', v, w, hy, ho', _, hv, hwl, ha⟩ :=
      walk_rebuilt c _ hp' hw' hoa hh (n := "_connections") (act := .fresh "dict") (by decide)
    obtain ⟨x, hx, rfl, hox⟩ := ha
    have h₁ := walk_append (q := ["_connections"]) _ hy
    simp only [List.cons_append, List.nil_append] at h₁
    refine ⟨x, ?_, hx, hox⟩
    rw [h₁]
    simp [walk, step, ho', hwl]

/-- The aiohttp client of a call has a session of its own that holds what the client's session
holds, among it the connector with the connections, so that connections are used again. -/
theorem C105_aiohttp {h : Heap} {client : Addr} {common : Addr → Prop}
    (st : Setting hook h client common) {s : System} (hr : Runs hook client common ⟨h, []⟩ s)
    {fuel : Nat} {h' : Heap} {m' : Memo} {b : Addr}
    (hd : deepcopy hook fuel s.heap [] (.ref client) = some (h', m', .ref b))
    (hp : Plainly hook h (.ref client) ["transport"]) {a : Addr} {o : Obj}
    (hw : walk h (.ref client) ["transport"] = some (.ref a)) (ho : h[a]? = some o)
    (hcls : o.cls = "AIOHTTPClient") {n : Addr}
    (hn : walk h (.ref client) ["transport", "_session"] = some (.ref n)) :
    ∃ x, walk h' (.ref b) ["transport", "_session"] = some (.ref x) ∧ s.heap.length ≤ x ∧
      h'[x]? = s.heap[n]? ∧
      ∀ k, walk h' (.ref b) ["transport", "_session", k] =
        walk s.heap (.ref client) ["transport", "_session", k] := by
  obtain ⟨own, inv⟩ := inv_runs st hr
  obtain ⟨R, c⟩ := copy_of_deepcopy inv.closed (Nat.lt_of_lt_of_le st.exists' inv.len) hd
  obtain ⟨hp', hw'⟩ := plainly_same _ hp (C104_client st hr).2
  rw [hw] at hw'
  have hoa : s.heap[a]? = some o := by
    rw [(C104_client st hr).2 a (plainly_copied _ hp hw ho (by rw [hcls]; decide)), ho]
  have hh : hook o.cls = .rebuild [("_config", .copy), ("_session", .shallow)] := by
    rw [hcls]
    rfl
  obtain ⟨y, o', v, w, hy, ho', _, hv, hwl, ha⟩ :=
    walk_rebuilt c _ hp' hw' hoa hh (n := "_session") (act := .shallow) (by decide)
  have h₂ := walk_append (q := ["_session"]) _ hw
  simp only [List.cons_append, List.nil_append] at h₂
  rw [hn] at h₂
  have hvn : v = .ref n := by
    simp only [walk, step, ho, Option.bind_some, hv, Option.some.injEq] at h₂
    exact h₂.symm
  subst hvn
  obtain ⟨x, t, hx, rfl, ht, hox⟩ := ha
  have hxs : walk h' (.ref b) ["transport", "_session"] = some (.ref x) := by
    have h₁ := walk_append (q := ["_session"]) _ hy
    simp only [List.cons_append, List.nil_append] at h₁
    rw [h₁]
    simp [walk, step, ho', hwl]
  have hns : walk s.heap (.ref client) ["transport", "_session"] = some (.ref n) := by
    have h₁ := walk_append (q := ["_session"]) _ hw'
    simp only [List.cons_append, List.nil_append] at h₁
    rw [h₁]
    simp [walk, step, hoa, hv]
  refine ⟨x, hxs, hx, by rw [hox, ht], ?_⟩
  intro k
  have h₃ := walk_append (q := [k]) _ hxs
  have h₄ := walk_append (q := [k]) _ hns
  simp only [List.cons_append, List.nil_append] at h₃ h₄
  rw [h₃, h₄]
  simp [walk, step, hox, ht]

/-! ## Copies are made -/

theorem deepcopy_extends {g : Heap} (hg : Closed g) {fuel : Nat} {h h' : Heap} {m m' : Memo}
    {v w : Val} (he : Extends g h) (hv : Inside g v)
    (hd : deepcopy hk fuel h m v = some (h', m', w)) : Extends g h' := by
  obtain ⟨R, p, _⟩ := deepcopy_spec hg fuel h m v h' m' w (fun x y => (x, y) ∈ m) he hv
    (fun _ hp => hp) hd
  exact he.trans p.same p.len

/-- How many objects have not been copied yet. -/
def left (g : Heap) (m : Memo) : Nat :=
  (List.range g.length).countP fun a => (m.lookup a).isNone

theorem left_le (g : Heap) (m : Memo) : left g m ≤ g.length := by
  have := List.countP_le_length (p := fun a => (m.lookup a).isNone) (l := List.range g.length)
  simpa [left] using this

theorem left_mono {g : Heap} {m m' : Memo}
    (hm : ∀ a, (m.lookup a).isSome = true → (m'.lookup a).isSome = true) :
    left g m' ≤ left g m := by
  refine List.countP_mono_left ?_
  intro a _ h
  cases h₁ : m.lookup a with
  | none => rfl
  | some b =>
    have := hm a (by rw [h₁]; rfl)
    cases h₂ : m'.lookup a with
    | none => simp [h₂] at this
    | some c => simp [h₂] at h

theorem left_cons {g : Heap} {m : Memo} {a b : Addr} (ha : a < g.length)
    (hl : m.lookup a = none) : left g ((a, b) :: m) < left g m := by
  have key : ∀ l : List Nat, a ∈ l →
      l.countP (fun x => (List.lookup x ((a, b) :: m)).isNone) <
        l.countP fun x => (m.lookup x).isNone := by
    intro l
    induction l with
    | nil => simp
    | cons y l ih =>
      intro hy
      have hle : l.countP (fun x => (List.lookup x ((a, b) :: m)).isNone) ≤
          l.countP fun x => (m.lookup x).isNone := by
        refine List.countP_mono_left ?_
        intro x _ hx
        rw [List.lookup_cons] at hx
        split at hx
        · simp at hx
        · exact hx
      rw [List.countP_cons, List.countP_cons]
      by_cases hya : y = a
      · subst hya
        simp only [List.lookup_cons, beq_self_eq_true, hl]
        simp only [Option.isNone_some, Bool.false_eq_true, if_false, Option.isNone_none, if_true]
        simp only [List.lookup_cons] at hle
        exact Nat.lt_succ_of_le hle
      · have := ih (by simpa [Ne.symm hya] using hy)
        have he : List.lookup y ((a, b) :: m) = m.lookup y := by
          rw [List.lookup_cons, beq_false_of_ne hya]
        rw [he]
        omega
  exact key _ (List.mem_range.mpr ha)

theorem copyVals_memo {dc : Heap → Memo → Val → Option (Heap × Memo × Val)}
    (hdc : ∀ h m v h' m' w, dc h m v = some (h', m', w) →
      ∀ a, (m.lookup a).isSome = true → (m'.lookup a).isSome = true) (fs : List (String × Val)) :
    ∀ h m h' m' ws, copyVals dc fs h m = some (h', m', ws) →
      ∀ a, (m.lookup a).isSome = true → (m'.lookup a).isSome = true := by
  induction fs with
  | nil =>
    intro h m h' m' ws hc a ha
    simp only [copyVals, Option.some.injEq, Prod.mk.injEq] at hc
    rw [← hc.2.1]
    exact ha
  | cons f fs ih =>
    obtain ⟨n, v⟩ := f
    intro h m h' m' ws hc a ha
    rw [copyVals] at hc
    split at hc
    · cases hc
    · rename_i h1 m1 w h₁
      split at hc
      · cases hc
      · rename_i h2 m2 ws' h₂
        simp only [Option.some.injEq, Prod.mk.injEq] at hc
        rw [← hc.2.1]
        exact ih _ _ _ _ _ h₂ a (hdc _ _ _ _ _ _ h₁ a ha)

theorem lookup_cons_isSome {m : Memo} {x a b : Addr} (h : (m.lookup a).isSome = true) :
    (List.lookup a ((x, b) :: m)).isSome = true := by
  rw [List.lookup_cons]
  split
  · rfl
  · exact h

theorem deepcopy_memo (fuel : Nat) : ∀ h m v h' m' w,
    deepcopy hk fuel h m v = some (h', m', w) →
      ∀ a, (m.lookup a).isSome = true → (m'.lookup a).isSome = true := by
  induction fuel with
  | zero =>
    intro h m v h' m' w hd
    simp [deepcopy] at hd
  | succ fuel ih =>
    intro h m v h' m' w hd a ha
    cases v with
    | prim p =>
      simp only [deepcopy, Option.some.injEq, Prod.mk.injEq] at hd
      rw [← hd.2.1]
      exact ha
    | ref x =>
      rw [deepcopy] at hd
      split at hd
      · simp only [Option.some.injEq, Prod.mk.injEq] at hd
        rw [← hd.2.1]
        exact ha
      · split at hd
        · cases hd
        · split at hd
          · simp only [Option.some.injEq, Prod.mk.injEq] at hd
            rw [← hd.2.1]
            exact ha
          · split at hd
            · cases hd
            · rename_i h₁
              simp only [Option.some.injEq, Prod.mk.injEq] at hd
              rw [← hd.2.1]
              exact copyVals_memo ih _ _ _ _ _ _ h₁ a (lookup_cons_isSome ha)
          · split at hd
            · cases hd
            · simp only [Option.some.injEq, Prod.mk.injEq] at hd
              rw [← hd.2.1]
              exact lookup_cons_isSome ha

theorem copyVals_some {g : Heap} (hg : Closed g) {fuel : Nat} (fs : List (String × Val))
    (hv : ∀ p ∈ fs, Inside g p.2) {bound : Nat}
    (hdc : ∀ p ∈ fs, ∀ h m, Extends g h → left g m ≤ bound →
      ∃ r, deepcopy hk fuel h m p.2 = some r) (h : Heap)
    (m : Memo) (he : Extends g h) (hm : left g m ≤ bound) :
    ∃ r, copyVals (deepcopy hk fuel) fs h m = some r := by
  induction fs generalizing h m with
  | nil => exact ⟨_, rfl⟩
  | cons f fs ih =>
    obtain ⟨n, v⟩ := f
    obtain ⟨⟨h1, m1, w⟩, h₁⟩ := hdc (n, v) List.mem_cons_self h m he hm
    simp only at h₁
    have he₁ := deepcopy_extends hg he (hv (n, v) List.mem_cons_self) h₁
    have hm₁ := Nat.le_trans (left_mono (g := g) (deepcopy_memo _ _ _ _ _ _ _ h₁)) hm
    obtain ⟨⟨h2, m2, ws⟩, h₂⟩ := ih (fun p hp => hv p (List.mem_cons_of_mem _ hp))
      (fun p hp => hdc p (List.mem_cons_of_mem _ hp)) h1 m1 he₁ hm₁
    exact ⟨_, by rw [copyVals, h₁]; simp only; rw [h₂]⟩

theorem rebuild_some {g : Heap} (hg : Closed g) {fuel : Nat} (o : Obj)
    (hv : ∀ p ∈ o.fields, Inside g p.2) (acts : List (String × Act))
    (hdc : ∀ n v, (n, Act.copy) ∈ acts → o.fields.lookup n = some v → ∀ h, Extends g h →
      ∃ r, deepcopy hk fuel h [] v = some r)
    (hn : ∀ p ∈ acts, ∃ v, o.fields.lookup p.1 = some v) (h : Heap)
    (he : Extends g h) : ∃ r, rebuild (deepcopy hk fuel) o acts h = some r := by
  induction acts generalizing h with
  | nil => exact ⟨_, rfl⟩
  | cons x acts ih =>
    obtain ⟨n, act⟩ := x
    obtain ⟨v, hl⟩ := hn (n, act) List.mem_cons_self
    simp only at hl
    have hvi := hv _ (lookup_mem' hl)
    have key : ∃ h1 w, rebuilt (deepcopy hk fuel) h act v = some (h1, w) ∧ Extends g h1 := by
      cases act with
      | share => exact ⟨h, v, rfl, he⟩
      | copy =>
        obtain ⟨⟨h1, m1, w⟩, h₁⟩ := hdc n v List.mem_cons_self hl h he
        exact ⟨h1, w, by simp [rebuilt, h₁], deepcopy_extends hg he hvi h₁⟩
      | fresh c =>
        exact ⟨_, _, rfl, he.trans (fun i hi => List.getElem?_append_left hi) (by simp)⟩
      | shallow =>
        cases v with
        | prim p => exact ⟨h, _, rfl, he⟩
        | ref a =>
          have ha : a < h.length := Nat.lt_of_lt_of_le (hvi a rfl) he.len
          exact ⟨h ++ [h[a]], .ref h.length, by simp [rebuilt, List.getElem?_eq_getElem ha],
            he.trans (fun i hi => List.getElem?_append_left hi) (by simp)⟩
    obtain ⟨h1, w, h₁, he₁⟩ := key
    obtain ⟨⟨h2, ws⟩, h₂⟩ := ih (fun n v hm => hdc n v (List.mem_cons_of_mem _ hm))
      (fun p hp => hn p (List.mem_cons_of_mem _ hp)) h1 he₁
    exact ⟨_, by rw [rebuild, hl]; simp only; rw [h₁]; simp only; rw [h₂]⟩

/-- Calls get their copy: objects may hold each other in circles, as long as no object that makes its
own copy is in a circle by way of an attribute that it copies (`rank` goes down there and never up),
and the objects whose class says how they are copied have the attributes it names.  Then a
configuration can be copied, with a stack whose depth is bounded by the number of objects and the
rank. -/
theorem C104_returns {g : Heap} (hg : Closed g) (rank : Addr → Nat)
    (hplain : ∀ (a : Addr) (o : Obj) n b, g[a]? = some o → hk o.cls = .plain →
      (n, Val.ref b) ∈ o.fields → rank b ≤ rank a)
    (hrebuild : ∀ (a : Addr) (o : Obj) acts n b, g[a]? = some o → hk o.cls = .rebuild acts →
      (n, Act.copy) ∈ acts → o.fields.lookup n = some (.ref b) → rank b < rank a)
    (hattr : ∀ (a : Addr) (o : Obj) acts, g[a]? = some o → hk o.cls = .rebuild acts →
      ∀ p ∈ acts, ∃ v, o.fields.lookup p.1 = some v)
    {a : Addr} (ha : a < g.length) {fuel : Nat}
    (hf : (rank a + 1) * (g.length + 2) ≤ fuel) :
    ∃ h' m' w, deepcopy hk fuel g [] (.ref a) = some (h', m', w) := by
  have key : ∀ (fuel : Nat) (h : Heap) (m : Memo) (v : Val), Extends g h → Inside g v →
      (∀ a, v = .ref a → rank a * (g.length + 2) + left g m + 1 ≤ fuel) → 0 < fuel →
      ∃ r, deepcopy hk fuel h m v = some r := by
    intro fuel
    induction fuel with
    | zero =>
      intro h m v _ _ _ hf
      omega
    | succ fuel ih =>
      intro h m v he hv hf _
      cases v with
      | prim p => exact ⟨_, rfl⟩
      | ref a =>
        rw [deepcopy]
        cases hl : m.lookup a with
        | some b => exact ⟨_, rfl⟩
        | none =>
          have hag := hv a rfl
          have ho : h[a]? = some g[a] := by
            rw [he.same a hag, List.getElem?_eq_getElem hag]
          have ho' : g[a]? = some g[a] := List.getElem?_eq_getElem hag
          have hfa := hf a rfl
          have hleft := left_cons (b := h.length) hag hl
          rw [ho]
          have hins : ∀ p ∈ g[a].fields, Inside g p.2 := by
            rintro ⟨n, v⟩ hp b rfl
            exact hg a _ ho' n b hp
          simp only
          cases hh : hk g[a].cls with
          | itself => exact ⟨_, rfl⟩
          | plain =>
            have hdc : ∀ p ∈ g[a].fields, ∀ h' m', Extends g h' →
                left g m' ≤ left g ((a, h.length) :: m) →
                ∃ r, deepcopy hk fuel h' m' p.2 = some r := by
              rintro ⟨n, v⟩ hp h' m' he hm
              refine ih h' m' v he (hins _ hp) ?_ (by omega)
              rintro b rfl
              have := hplain a _ n b ho' hh hp
              have := Nat.mul_le_mul_right (g.length + 2) this
              omega
            obtain ⟨⟨h1, m1, ws⟩, h₁⟩ := copyVals_some hg g[a].fields hins hdc
              (h ++ [⟨g[a].cls, []⟩]) ((a, h.length) :: m)
              (he.trans (fun i hi => List.getElem?_append_left hi) (by simp)) (Nat.le_refl _)
            simp only
            rw [h₁]
            exact ⟨_, rfl⟩
          | rebuild acts =>
            have hdc : ∀ n v, (n, Act.copy) ∈ acts → g[a].fields.lookup n = some v →
                ∀ h, Extends g h → ∃ r, deepcopy hk fuel h [] v = some r := by
              intro n v hn hv h he
              refine ih h [] v he (hins _ (lookup_mem' hv)) ?_ (by omega)
              rintro b rfl
              have := hrebuild a _ acts n b ho' hh hn hv
              have h₁ := Nat.mul_le_mul_right (g.length + 2) (Nat.succ_le_of_lt this)
              rw [Nat.succ_mul] at h₁
              have := left_le g []
              omega
            obtain ⟨⟨h1, ws⟩, h₁⟩ := rebuild_some hg g[a] hins acts hdc
              (hattr a _ acts ho' hh) h he
            simp only
            rw [h₁]
            exact ⟨_, rfl⟩
  have hpos : 0 < fuel := by
    have : 0 < (rank a + 1) * (g.length + 2) := Nat.mul_pos (by omega) (by omega)
    omega
  obtain ⟨⟨h', m', w⟩, hr⟩ := key fuel g [] (.ref a) ⟨fun _ _ => rfl, Nat.le_refl _⟩
    (by rintro b hb; cases hb; exact ha)
    (by
      rintro b hb
      cases hb
      have := left_le g []
      rw [Nat.succ_mul] at hf
      omega) hpos
  exact ⟨h', m', w, hr⟩

/-- Plugins are run one after the other, each on what those before it have made, those of the service
before those given: by the constructor on the configuration it gets. -/
theorem C104_plugins (service given : List Plugin) (p : Plugin) (h : Heap) (config : Addr) :
    construct [] [] h config = h ∧
    construct (service ++ [p]) [] h config = p (construct service [] h config) config ∧
    construct service (given ++ [p]) h config = p (construct service given h config) config := by
  refine ⟨rfl, ?_, ?_⟩
  · simp only [construct, List.append_nil, List.foldl_append, List.foldl_cons, List.foldl_nil]
  · simp only [construct, List.foldl_append, List.foldl_cons, List.foldl_nil]

/-- Likewise those of the operation and those given with a call, on the copy, which is there before any
of them is run. -/
theorem C104_call_plugins (hk : String → Hook) (fuel : Nat) (operation given : List Plugin) (p : Plugin)
    (h : Heap) (config : Addr) :
    (prepare hk fuel [] [] h config =
      match deepcopy hk fuel h [] (.ref config) with
      | some (h', _, .ref b) => some (h', b)
      | _ => none) ∧
    prepare hk fuel (operation ++ [p]) [] h config =
      (prepare hk fuel operation [] h config).map (fun r => (p r.1 r.2, r.2)) ∧
    prepare hk fuel operation (given ++ [p]) h config =
      (prepare hk fuel operation given h config).map (fun r => (p r.1 r.2, r.2)) := by
  refine ⟨?_, ?_, ?_⟩
  · rfl
  · unfold prepare
    split
    · simp only [List.append_nil, List.foldl_append, List.foldl_cons, List.foldl_nil, Option.map_some]
    · rfl
  · unfold prepare
    split
    · simp only [List.foldl_append, List.foldl_cons, List.foldl_nil, Option.map_some]
    · rfl

end Verif.Client

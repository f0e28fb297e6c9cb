import Verif.Client.Props

/-!
# Calls of a client: the hypotheses are met, and what does not hold
-/

set_option autoImplicit false

namespace Verif.Client

/-! ## Assignments are what calls may do -/

theorem walk_reach {h : Heap} (path : List String) {v : Val} {a : Addr}
    (hw : walk h v path = some (.ref a)) : Reach h v a := by
  induction path generalizing v with
  | nil =>
    simp only [walk, Option.some.injEq] at hw
    subst hw
    exact .here a
  | cons n ns ih =>
    cases v with
    | prim p => simp [walk, step] at hw
    | ref x =>
      cases ho : h[x]? with
      | none => simp [walk, step, ho] at hw
      | some o =>
        cases hl : o.fields.lookup n with
        | none => simp [walk, step, ho, hl] at hw
        | some v' =>
          simp only [walk, step, ho, Option.bind_some, hl] at hw
          exact .there ho (lookup_mem' hl) (ih hw)

/-- `config.a.b.c = value`, with a value that is no object, is something a plugin may do. -/
theorem acts_assign {common : Addr → Prop} {h : Heap} {config : Addr} (hc : Closed h)
    (hi : ∀ a o, common a → h[a]? = some o → ∀ n b, (n, Val.ref b) ∈ o.fields → common b)
    (path : List String) (n : String) (text : String) :
    Acts common h config (assign h (.ref config) path n (.prim text)) := by
  have trivially : Acts common h config h :=
    ⟨Nat.le_refl _, fun _ _ _ _ => rfl, fun _ _ h => .inl h, hi, fun _ _ => rfl, hc⟩
  unfold assign
  split
  · rename_i a hw
    split
    · rename_i o ho
      have hlt := getElem?_lt ho
      let o' : Obj := ⟨o.cls, (n, .prim text) :: o.fields.filter (·.1 ≠ n)⟩
      have hsub : ∀ k b, (k, Val.ref b) ∈ o'.fields → (k, Val.ref b) ∈ o.fields := by
        intro k b hm
        rcases List.mem_cons.mp hm with h | h
        · simp at h
        · exact List.mem_of_mem_filter h
      have hget : ∀ (x : Nat) (t : Obj), (h.set a o')[x]? = some t →
          ∃ t₀, h[x]? = some t₀ ∧ ∀ k b, (k, Val.ref b) ∈ t.fields → (k, Val.ref b) ∈ t₀.fields := by
        intro x t ht
        by_cases hx : x = a
        · subst hx
          rw [List.getElem?_set_self hlt] at ht
          cases ht
          exact ⟨o, ho, hsub⟩
        · rw [List.getElem?_set_ne (fun h => hx h.symm)] at ht
          exact ⟨t, ht, fun _ _ h => h⟩
      refine ⟨by simp, ?_, ?_, ?_, ?_, ?_⟩
      · intro x _ hr _
        have : x ≠ a := by
          rintro rfl
          exact hr (walk_reach path hw)
        exact List.getElem?_set_ne (fun h => this h.symm)
      · intro x _ hr
        left
        have key : ∀ v y, Reach (h.set a o') v y → Reach h v y := by
          intro v y hv
          induction hv with
          | here y => exact .here y
          | @there y t k u z ht hm hz ih =>
            obtain ⟨t₀, ht₀, hs⟩ := hget y t ht
            cases u with
            | prim p => cases hz
            | ref w => exact .there ht₀ (hs k w hm) ih
        exact key _ _ hr
      · intro x t hcx ht k b hm
        obtain ⟨t₀, ht₀, hs⟩ := hget x t ht
        exact hi x t₀ hcx ht₀ k b (hs k b hm)
      · intro x _
        by_cases hx : x = a
        · subst hx
          rw [List.getElem?_set_self hlt, ho]
          rfl
        · rw [List.getElem?_set_ne (fun h => hx h.symm)]
      · intro x t ht k b hm
        obtain ⟨t₀, ht₀, hs⟩ := hget x t ht
        rw [List.length_set]
        exact hc x t₀ ht₀ k b (hs k b hm)
    · exact trivially
  · exact trivially

/-! ## Checking a heap -/

/-- A value is copied into `D` or kept in `K`. -/
def valueOk (hk : String → Hook) (h : Heap) (D K : List Addr) : Val → Bool
  | .prim _ => true
  | .ref b =>
    match h[b]? with
    | none => false
    | some t => if hk t.cls = .itself then K.contains b else D.contains b

/-- What an object in `D` holds is copied into `D` or kept in `K`. -/
def objectOk (hk : String → Hook) (h : Heap) (D K : List Addr) (a : Addr) : Bool :=
  match h[a]? with
  | none => false
  | some o =>
    match hk o.cls with
    | .itself => false
    | .plain => o.fields.all fun p => valueOk hk h D K p.2
    | .rebuild acts => acts.all fun p =>
      match p.2, o.fields.lookup p.1 with
      | _, none => false
      | .share, some (.ref b) => K.contains b
      | .copy, some v => valueOk hk h D K v
      | .shallow, some (.ref s) =>
        match h[s]? with
        | none => false
        | some t => t.fields.all fun q => match q.2 with
          | .prim _ => true
          | .ref b => K.contains b
      | _, _ => true

/-- All values that the objects hold are in `K` if the objects are. -/
def insideOk (h : Heap) (K : List Addr) : Bool :=
  K.all fun a => match h[a]? with
    | none => false
    | some o => o.fields.all fun q => match q.2 with
      | .prim _ => true
      | .ref b => K.contains b

def closedOk (h : Heap) : Bool :=
  h.all fun o => o.fields.all fun q => match q.2 with
    | .prim _ => true
    | .ref b => b < h.length

/-- A heap with `D` the objects that are copied and `K` the common ones. -/
def settingOk (hk : String → Hook) (h : Heap) (client : Addr) (D K : List Addr) : Bool :=
  closedOk h && D.contains client && D.all (objectOk hk h D K) && insideOk h K &&
    D.all (fun a => !K.contains a)

theorem settingOk_setting {hk : String → Hook} {h : Heap} {client : Addr} {D K : List Addr}
    (hs : settingOk hk h client D K = true) : Setting hk h client (· ∈ K) := by
  simp only [settingOk, Bool.and_eq_true] at hs
  obtain ⟨⟨⟨⟨hclosed, hclient⟩, hobj⟩, hin⟩, hdis⟩ := hs
  have hclient : client ∈ D := by simpa using hclient
  have hobj : ∀ a ∈ D, objectOk hk h D K a = true := by simpa using hobj
  have hdis : ∀ a ∈ D, a ∉ K := by simpa using hdis
  have hin : ∀ (a : Nat) (o : Obj), a ∈ K → h[a]? = some o → ∀ n b, (n, Val.ref b) ∈ o.fields →
      b ∈ K := by
    intro a o ha ho n b hm
    simp only [insideOk, List.all_eq_true] at hin
    have := hin a ha
    rw [ho] at this
    have := List.all_eq_true.mp this _ hm
    simpa using this
  have hval : ∀ b t, valueOk hk h D K (.ref b) = true → h[b]? = some t →
      (hk t.cls = .itself → b ∈ K) ∧ (hk t.cls ≠ .itself → b ∈ D) := by
    intro b t hv ht
    simp only [valueOk, ht] at hv
    by_cases hi : hk t.cls = .itself
    · simp only [hi, if_true] at hv
      exact ⟨fun _ => by simpa using hv, fun h => absurd hi h⟩
    · simp only [hi, if_false] at hv
      exact ⟨fun h => absurd h hi, fun _ => by simpa using hv⟩
  have hrebuild : ∀ (a : Nat) (o : Obj) (acts : List (String × Act)), a ∈ D → h[a]? = some o →
      hk o.cls = .rebuild acts → ∀ n act v, (n, act) ∈ acts → o.fields.lookup n = some v →
      (act = .copy → valueOk hk h D K v = true) ∧
      (act = .share → ∀ b, v = .ref b → b ∈ K) ∧
      (act = .shallow → ∀ s t, v = .ref s → h[s]? = some t →
        ∀ k b, (k, Val.ref b) ∈ t.fields → b ∈ K) := by
    intro a o acts ha ho hh n act v hm hl
    have := hobj a ha
    simp only [objectOk, ho, hh] at this
    have := List.all_eq_true.mp this _ hm
    simp only [hl] at this
    refine ⟨?_, ?_, ?_⟩
    · rintro rfl
      cases v <;> simpa using this
    · rintro rfl b rfl
      simpa using this
    · rintro rfl s t rfl ht k b hb
      simp only [ht] at this
      have := List.all_eq_true.mp this _ hb
      simpa using this
  have hcopied : ∀ v a, Copied hk h v a → valueOk hk h D K v = true → a ∈ D := by
    intro v a hc
    induction hc with
    | here ho hn => exact fun hv => (hval _ _ hv ho).2 hn
    | @plain a o n v b ho hp hm _ ih =>
      intro hv
      have := hobj a ((hval _ _ hv ho).2 (by rw [hp]; simp))
      simp only [objectOk, ho, hp] at this
      exact ih (List.all_eq_true.mp this _ hm)
    | @rebuilt a o acts n v b ho hp hn hl _ ih =>
      intro hv
      exact ih ((hrebuild a o acts ((hval _ _ hv ho).2 (by rw [hp]; simp)) ho hp n _ v hn hl).1 rfl)
  have hkept : ∀ v a, Kept hk h v a → valueOk hk h D K v = true → a ∈ K := by
    intro v a hc
    induction hc with
    | itself ho hn => exact fun hv => (hval _ _ hv ho).1 hn
    | @plain a o n v b ho hp hm _ ih =>
      intro hv
      have := hobj a ((hval _ _ hv ho).2 (by rw [hp]; simp))
      simp only [objectOk, ho, hp] at this
      exact ih (List.all_eq_true.mp this _ hm)
    | @rebuilt a o acts n v b ho hp hn hl _ ih =>
      intro hv
      exact ih ((hrebuild a o acts ((hval _ _ hv ho).2 (by rw [hp]; simp)) ho hp n _ v hn hl).1 rfl)
    | @share a o acts n b ho hp hn hl =>
      intro hv
      exact (hrebuild a o acts ((hval _ _ hv ho).2 (by rw [hp]; simp)) ho hp n _ _ hn hl).2.1 rfl
        b rfl
    | @shallow a o acts n k s t b ho hp hn hl ht hb =>
      intro hv
      exact (hrebuild a o acts ((hval _ _ hv ho).2 (by rw [hp]; simp)) ho hp n _ _ hn hl).2.2 rfl
        s t rfl ht k b hb
  have hroot : valueOk hk h D K (.ref client) = true := by
    have := hobj client hclient
    simp only [objectOk] at this
    cases ho : h[client]? with
    | none => simp [ho] at this
    | some o =>
      simp only [ho] at this
      have hn : hk o.cls ≠ .itself := by
        intro hi
        simp [hi] at this
      simp [valueOk, ho, hn, hclient]
  refine ⟨?_, ?_, ?_, ?_, ?_, ?_⟩
  · intro a o ho n b hm
    simp only [closedOk, List.all_eq_true] at hclosed
    have := hclosed o (List.mem_of_getElem? ho) _ hm
    simpa using this
  · have := hobj client hclient
    simp only [objectOk] at this
    cases ho : h[client]? with
    | none => simp [ho] at this
    | some o => exact getElem?_lt ho
  · intro a ha
    cases ho : h[a]? with
    | none =>
      have := ‹insideOk h K = true›
      simp only [insideOk, List.all_eq_true] at this
      have := this a ha
      simp [ho] at this
    | some o => exact getElem?_lt ho
  · exact hin
  · exact fun a ha => hkept _ a ha hroot
  · exact fun a ha => hdis a (hcopied _ a ha hroot)

/-! ## The hypotheses are met -/

/-- A client with a standard retry strategy, an aiohttp transport, and a credentials resolver that
uses the same transport. -/
def sample : Heap :=
  [ ⟨"Config", [("interceptors", .ref 1), ("retry_strategy", .ref 2), ("transport", .ref 4),
      ("aws_credentials_identity_resolver", .ref 7), ("region", .prim "us-east-1"),
      ("protocol", .ref 9)]⟩,
    ⟨"list", []⟩,
    ⟨"StandardRetryStrategy", [("max_attempts", .prim "3"), ("_retry_quota", .ref 3)]⟩,
    ⟨"StandardRetryQuota", [("_available_capacity", .prim "500")]⟩,
    ⟨"AIOHTTPClient", [("_config", .ref 5), ("_session", .ref 6)]⟩,
    ⟨"AIOHTTPClientConfig", []⟩,
    ⟨"ClientSession", [("_connector", .ref 8)]⟩,
    ⟨"IMDSCredentialsResolver", [("_credentials", .prim "None"), ("_http_client", .ref 4)]⟩,
    ⟨"TCPConnector", [("_conns", .prim "{}")]⟩,
    ⟨"RestJsonClientProtocol", [("_content_type", .prim "application/json")]⟩ ]

/-- The same with the CRT transport. -/
def sampleCrt : Heap :=
  [ ⟨"Config", [("interceptors", .ref 1), ("retry_strategy", .ref 2), ("transport", .ref 4)]⟩,
    ⟨"list", []⟩,
    ⟨"SimpleRetryStrategy", [("max_attempts", .prim "5")]⟩,
    ⟨"_AWSCRTEventLoop", [("bootstrap", .ref 6)]⟩,
    ⟨"AWSCRTHTTPClient", [("_config", .ref 5), ("_eventloop", .ref 3),
      ("_client_bootstrap", .ref 6), ("_tls_ctx", .ref 7), ("_socket_options", .ref 8),
      ("_connections", .ref 9)]⟩,
    ⟨"AWSCRTHTTPClientConfig", []⟩,
    ⟨"ClientBootstrap", []⟩,
    ⟨"ClientTlsContext", []⟩,
    ⟨"SocketOptions", []⟩,
    ⟨"dict", [("https/example.com/443", .ref 10)]⟩,
    ⟨"HttpClientConnection", []⟩ ]

theorem sample_setting : Setting hook sample 0 (· ∈ [2, 3, 8]) :=
  settingOk_setting (D := [0, 1, 4, 5, 7, 9]) (by decide +kernel)

theorem sampleCrt_setting : Setting hook sampleCrt 0 (· ∈ [2, 3, 6]) :=
  settingOk_setting (D := [0, 1, 4, 5]) (by decide +kernel)

/-- A plugin of an operation that sets a value of the configuration. -/
def setRegion (region : String) : Plugin := fun h config =>
  assign h (.ref config) [] "region" (.prim region)

/-- A plugin of an operation that sets a value of the retry strategy. -/
def setMaxAttempts (n : String) : Plugin := fun h config =>
  assign h (.ref config) ["retry_strategy"] "max_attempts" (.prim n)

/-- What `get_identity` of a resolver that stores what it has found does
(`smithy_aws_core/identity/imds.py:197-234`). -/
def storeCredentials : Plugin := fun h config =>
  assign h (.ref config) ["aws_credentials_identity_resolver"] "_credentials" (.prim "AKID")

/-- A call with a plugin is made from the client of the example, and the plugin is heeded. -/
example : (prepare hook 20 [] [setRegion "eu-west-1"] sample 0).map
    (fun r => (walk r.1 (.ref r.2) ["region"], walk r.1 (.ref 0) ["region"])) =
    some (some (.prim "eu-west-1"), some (.prim "us-east-1")) := by decide +kernel

/-- The hypotheses of `C104_prepare` are met by plugins that set values. -/
example {g : Heap} {b : Nat}
    (h : prepare hook 20 [] [setRegion "eu-west-1", setMaxAttempts "9"] sample 0 = some (g, b)) :
    Runs hook 0 (· ∈ [2, 3, 8]) ⟨sample, []⟩ ⟨g, [b]⟩ := by
  refine C104_prepare sample_setting .refl ?_ h
  intro p hp g b hg _ hi
  simp only [List.nil_append, List.mem_cons, List.not_mem_nil, or_false] at hp
  rcases hp with rfl | rfl
  · exact acts_assign hg hi [] _ _
  · exact acts_assign hg hi ["retry_strategy"] _ _

/-- So are those of `C104_client`, by two calls of which the first acts after the second was
started. -/
theorem sample_runs : ∃ s : System, Runs hook 0 (· ∈ [2, 3, 8]) ⟨sample, []⟩ s ∧
    s.calls.length = 2 ∧
    (∃ b, s.calls[0]? = some b ∧
      walk s.heap (.ref b) ["aws_credentials_identity_resolver", "_credentials"] =
        some (.prim "AKID")) ∧
    (∃ b, s.calls[1]? = some b ∧
      walk s.heap (.ref b) ["aws_credentials_identity_resolver", "_credentials"] =
        some (.prim "None")) := by
  obtain ⟨g₁, b₁, h₁⟩ : ∃ g₁ b₁, prepare hook 20 [] [] sample 0 = some (g₁, b₁) := by
    refine ⟨((prepare hook 20 [] [] sample 0).getD ([], 0)).1,
      ((prepare hook 20 [] [] sample 0).getD ([], 0)).2, ?_⟩
    decide +kernel
  have r₁ := C104_prepare sample_setting .refl (by simp) h₁
  obtain ⟨g₂, b₂, h₂⟩ : ∃ g₂ b₂, prepare hook 20 [] [] g₁ 0 = some (g₂, b₂) := by
    have e : prepare hook 20 [] [] sample 0 = some (g₁, b₁) := h₁
    refine ⟨((prepare hook 20 [] [] g₁ 0).getD ([], 0)).1,
      ((prepare hook 20 [] [] g₁ 0).getD ([], 0)).2, ?_⟩
    have : g₁ = ((prepare hook 20 [] [] sample 0).getD ([], 0)).1 := by rw [e]; rfl
    rw [this]
    decide +kernel
  have r₂ := C104_prepare sample_setting r₁ (by simp) h₂
  obtain ⟨own, inv⟩ := inv_runs sample_setting r₂
  have e₁ : g₁ = ((prepare hook 20 [] [] sample 0).getD ([], 0)).1 := by rw [h₁]; rfl
  have e₁' : b₁ = ((prepare hook 20 [] [] sample 0).getD ([], 0)).2 := by rw [h₁]; rfl
  have e₂ : g₂ = ((prepare hook 20 [] [] g₁ 0).getD ([], 0)).1 := by rw [h₂]; rfl
  have e₂' : b₂ = ((prepare hook 20 [] [] g₁ 0).getD ([], 0)).2 := by rw [h₂]; rfl
  refine ⟨⟨storeCredentials g₂ b₁, [b₁, b₂]⟩, r₂.tail (.act (i := 0) (config := b₁) rfl
    (acts_assign inv.closed inv.inside ["aws_credentials_identity_resolver"] _ _)), rfl,
    ⟨b₁, rfl, ?_⟩, ⟨b₂, rfl, ?_⟩⟩
  · show walk (storeCredentials g₂ b₁) (.ref b₁) _ = _
    rw [e₂, e₁, e₁']
    decide +kernel
  · rw [e₂', e₂, e₁, e₁']
    decide +kernel

/-- The hypotheses of `C105_quota`, `C105_aiohttp` and `C105_forgotten` are met: a call of the
example. -/
example : (prepare hook 20 [] [] sample 0).map (fun r =>
    [walk r.1 (.ref r.2) ["retry_strategy"], walk r.1 (.ref r.2) ["transport", "_session"],
      walk r.1 (.ref r.2) ["transport", "_session", "_connector"],
      walk r.1 (.ref r.2) ["aws_credentials_identity_resolver", "_credentials"]]) =
    some [some (.ref 2), some (.ref 13), some (.ref 8), some (.prim "None")] := by
  decide +kernel

example : Plainly hook sample (.ref 0) ["aws_credentials_identity_resolver", "_credentials"] :=
  ⟨_, _, rfl, by decide +kernel, rfl, ⟨_, _, rfl, by decide +kernel, rfl, trivial⟩⟩

/-- The hypotheses of `C105_crt` are met. -/
example : Plainly hook sampleCrt (.ref 0) ["transport"] ∧
    (deepcopy hook 20 sampleCrt [] (.ref 0)).isSome = true :=
  ⟨⟨_, _, rfl, by decide +kernel, rfl, trivial⟩, by decide +kernel⟩

/-- A configuration that the list of its interceptors leads back to, with an aiohttp transport. -/
def sampleCircle : Heap :=
  [ ⟨"Config", [("interceptors", .ref 1), ("transport", .ref 2)]⟩,
    ⟨"list", [("0", .ref 3)]⟩,
    ⟨"AIOHTTPClient", [("_config", .ref 4), ("_session", .ref 5)]⟩,
    ⟨"MyInterceptor", [("config", .ref 0)]⟩,
    ⟨"AIOHTTPClientConfig", []⟩,
    ⟨"ClientSession", []⟩ ]

/-- The hypotheses of `C104_returns` are met. -/
example : ∃ h' m' w, deepcopy hook 16 sampleCircle [] (.ref 0) = some (h', m', w) := by
  let rank : Nat → Nat := fun a => if a < 4 then 1 else 0
  have hplain : sampleCircle.zipIdx.all (fun q => hook q.1.cls != .plain ||
      q.1.fields.all fun p => match p.2 with
        | .prim _ => true
        | .ref b => decide (rank b ≤ rank q.2)) = true := by decide +kernel
  have hrebuild : sampleCircle.zipIdx.all (fun q => match hook q.1.cls with
      | .rebuild acts => acts.all fun p => p.2 != .copy || match q.1.fields.lookup p.1 with
        | some (.ref b) => decide (rank b < rank q.2)
        | _ => true
      | _ => true) = true := by decide +kernel
  have hattr : sampleCircle.all (fun o => match hook o.cls with
      | .rebuild acts => acts.all fun p => (o.fields.lookup p.1).isSome
      | _ => true) = true := by decide +kernel
  have hclosed : closedOk sampleCircle = true := by decide +kernel
  refine C104_returns (rank := rank) ?_ ?_ ?_ ?_ (by decide) (by decide +kernel)
  · intro a o ho n b hm
    simp only [closedOk, List.all_eq_true] at hclosed
    have := hclosed o (List.mem_of_getElem? ho) _ hm
    simpa using this
  · intro a o n b ho hh hm
    have := List.all_eq_true.mp hplain (o, a) (by rw [List.mem_zipIdx_iff_getElem?]; exact ho)
    simp only [hh, bne_self_eq_false, Bool.false_or] at this
    exact of_decide_eq_true (List.all_eq_true.mp this _ hm)
  · intro a o acts n b ho hh hm hl
    have := List.all_eq_true.mp hrebuild (o, a) (by rw [List.mem_zipIdx_iff_getElem?]; exact ho)
    simp only [hh] at this
    have := List.all_eq_true.mp this _ hm
    simp only [hl, bne_self_eq_false, Bool.false_or] at this
    exact of_decide_eq_true this
  · intro a o acts ho hh p hp
    have := List.all_eq_true.mp hattr o (List.mem_of_getElem? ho)
    simp only [hh] at this
    exact Option.isSome_iff_exists.mp (List.all_eq_true.mp this p hp)

/-! ## What does not hold -/

/-- It does not hold that what a plugin of one call sets is seen by that call only: the retry
strategy is the client's own object in every call, so a plugin that sets `max_attempts` of it for
its call sets it for the client and for all calls. -/
theorem C104_strategy_fails : ¬ ∀ (h : Heap) (client : Nat) (plugin : Plugin) (g : Heap) (b : Nat)
    (path : List String), prepare hook 20 [] [plugin] h client = some (g, b) →
    walk g (.ref client) path = walk h (.ref client) path := by
  intro hall
  have h := hall sample 0 (setMaxAttempts "9")
    ((prepare hook 20 [] [setMaxAttempts "9"] sample 0).getD ([], 0)).1
    ((prepare hook 20 [] [setMaxAttempts "9"] sample 0).getD ([], 0)).2
    ["retry_strategy", "max_attempts"] (by decide +kernel)
  revert h
  decide +kernel

/-- It does not hold that a configuration can be used for two clients: the plugins of the service
change the caller's configuration, and those of the second client do it again, so that the
interceptor that writes the user agent is there twice in both. -/
theorem C104_config_fails : ¬ ∀ (h : Heap) (config : Nat),
    walk (construct [userAgentPlugin] [] (construct [userAgentPlugin] [] h config) config)
      (.ref config) ["interceptors", "1"] = none := by
  intro hall
  have h := hall sample 0
  revert h
  decide +kernel

/-- It does not hold that credentials that have been found are used again by later calls: a resolver
stores them in the copy of itself that belongs to the call, and a call that is started afterwards
has a copy without them, so that every call asks the source of the credentials. -/
theorem C105_credentials_fails : ¬ ∀ (h g₁ g₂ : Heap) (client b₁ b₂ : Nat),
    prepare hook 20 [] [] h client = some (g₁, b₁) →
    prepare hook 20 [] [] (storeCredentials g₁ b₁) client = some (g₂, b₂) →
    walk g₂ (.ref b₂) ["aws_credentials_identity_resolver", "_credentials"] =
      some (.prim "AKID") := by
  intro hall
  let r₁ := (prepare hook 20 [] [] sample 0).getD ([], 0)
  let r₂ := (prepare hook 20 [] [] (storeCredentials r₁.1 r₁.2) 0).getD ([], 0)
  have h := hall sample r₁.1 r₂.1 0 r₁.2 r₂.2 (by decide +kernel) (by decide +kernel)
  revert h
  decide +kernel

/-- It does not hold that every configuration can be copied with a stack that is deep enough: the
aiohttp client copies its configuration without saying what has been copied already
(`smithy_http/aio/aiohttp.py:163`), so when that leads back to the client there is no end. -/
theorem C104_circle_fails : ∃ h : Heap, Closed h ∧ ∀ fuel,
    deepcopy hook fuel h [] (.ref 0) = none := by
  refine ⟨[⟨"AIOHTTPClient", [("_config", .ref 1), ("_session", .prim "")]⟩,
    ⟨"MyAIOHTTPClientConfig", [("owner", .ref 0)]⟩], ?_, ?_⟩
  · intro a o ho n b hm
    have : closedOk [⟨"AIOHTTPClient", [("_config", .ref 1), ("_session", .prim "")]⟩,
      ⟨"MyAIOHTTPClientConfig", [("owner", .ref 0)]⟩] = true := by decide +kernel
    simp only [closedOk, List.all_eq_true] at this
    have := this o (List.mem_of_getElem? ho) _ hm
    simpa using this
  · intro fuel
    have key : ∀ (fuel : Nat) (h : Heap) (m : Memo),
        h[0]? = some ⟨"AIOHTTPClient", [("_config", .ref 1), ("_session", .prim "")]⟩ →
        h[1]? = some ⟨"MyAIOHTTPClientConfig", [("owner", .ref 0)]⟩ → 
        m.lookup 0 = none → deepcopy hook fuel h m (.ref 0) = none := by
      intro fuel
      induction fuel using Nat.strongRecOn with
      | ind fuel ih =>
        intro h m h₀ h₁ hm
        cases fuel with
        | zero => rfl
        | succ f =>
          rw [deepcopy, hm]
          simp only [h₀, hook, rebuild]
          simp only [List.lookup_cons, beq_self_eq_true, rebuilt]
          cases f with
          | zero => rfl
          | succ f =>
            have h2 : 2 ≤ h.length := getElem?_lt h₁
            rw [deepcopy]
            simp only [List.lookup_nil, h₁, hook, copyVals]
            rw [ih f (by omega) _ _ (by rw [List.getElem?_append_left (by omega)]; exact h₀)
              (by rw [List.getElem?_append_left (by omega)]; exact h₁)
              (by simp [List.lookup_cons])]
            rfl
    exact key fuel _ _ rfl rfl rfl

end Verif.Client

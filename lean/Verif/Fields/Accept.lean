import Verif.Fields.Props

/-!
# Requests to API Gateway say what they accept (C128)

Models the interceptor and the plugin that
codegen/aws/core/src/main/java/software/amazon/smithy/python/aws/codegen/customizations/apigateway/ApiGatewayIntegration.java
writes into clients, on the collection of fields of C25.
-/

set_option autoImplicit false

namespace Verif.Fields.Accept

abbrev Text := List Char

/-! ## Model -/

/-- `modify_before_signing` (ApiGatewayIntegration.java:32-36). -/
def intercept (lower : Text → Text) (s : St Text) : St Text :=
  if contains lower s.entries "Accept".toList then s
  else (s.step lower (.setField ⟨"Accept".toList, ["application/json".toList], .header⟩)).1

/-- The interceptors of a client: `accept_header_plugin` (39-40) has been run on its configuration some number of times. -/
def interceptors (lower : Text → Text) : Nat → St Text → St Text
  | 0, s => s
  | n + 1, s => interceptors lower n (intercept lower s)

/-- The plugins of a service: only this one has it (25-26, 86), and only over HTTP (45-47). -/
def plugins (isHttp : Bool) (service : Text) : Nat :=
  if !isHttp then 0 else if service = "com.amazonaws.apigateway#BackplaneControlService".toList then 1 else 0

/-! ## Theorems -/

theorem intercept_rep {lower : Text → Text} {s : St Text} {c : List (Field Text)} (h : Rep lower s.heap s.entries c) :
    ∃ c', Rep lower (intercept lower s).heap (intercept lower s).entries c' ∧
      c' = if c.any (fun f => same lower f.name "Accept".toList) then c
        else c ++ [⟨"Accept".toList, ["application/json".toList], .header⟩] := by
  have hc := step_spec (lower := lower) s c h (.contains "Accept".toList)
  have hcon : contains lower s.entries "Accept".toList = c.any fun f => same lower f.name "Accept".toList := by
    have := hc.1
    simp only [St.step, specStep, Res.bool.injEq] at this
    exact this
  rw [intercept, hcon]
  by_cases ha : (c.any fun f => same lower f.name "Accept".toList) = true
  · rw [if_pos ha, if_pos ha]
    exact ⟨c, h, rfl⟩
  · rw [if_neg ha, if_neg ha]
    refine ⟨_, (step_spec (lower := lower) s c h (.setField ⟨"Accept".toList, ["application/json".toList], .header⟩)).2, ?_⟩
    simp only [specStep, put]
    rw [if_neg]
    intro hs
    rw [lookup, List.find?_isSome] at hs
    exact ha (by simpa using hs)

/-- C128: a request to API Gateway has the fields it had, and `Accept: application/json` at the end if none of them was named so
in any case; the same if the plugin was run several times. -/
theorem C128_accept (lower : Text → Text) (ops : List (Op Text)) (n : Nat) :
    let s := (St.run lower ⟨[], []⟩ ops).1
    let t := interceptors lower (n + 1) s
    fields t.heap t.entries =
      if ∃ f ∈ fields s.heap s.entries, lower f.name = lower "Accept".toList then fields s.heap s.entries
      else fields s.heap s.entries ++ [⟨"Accept".toList, ["application/json".toList], .header⟩] := by
  obtain ⟨-, h⟩ := run_spec (lower := lower) ops ⟨[], []⟩ [] ⟨.nil, by simp, by simp⟩
  have again : ∀ (n : Nat) (s : St Text) (c : List (Field Text)), Rep lower s.heap s.entries c →
      (c.any fun f => same lower f.name "Accept".toList) = true →
      Rep lower (interceptors lower n s).heap (interceptors lower n s).entries c := by
    intro n
    induction n with
    | zero => exact fun s c h _ => h
    | succ n ih =>
      intro s c h ha
      obtain ⟨c', h1, h2⟩ := intercept_rep h
      rw [if_pos ha] at h2
      subst h2
      exact ih _ _ h1 ha
  intro s t
  obtain ⟨c', h1, h2⟩ := intercept_rep h
  have hc : fields s.heap s.entries = _ := forall2_fields h.all
  rw [hc]
  have hif : (∃ f ∈ (specRun lower [] ops).1, lower f.name = lower "Accept".toList) ↔
      ((specRun lower [] ops).1.any fun f => same lower f.name "Accept".toList) = true := by
    simp [same]
  have hh : (c'.any fun f => same lower f.name "Accept".toList) = true := by
    rw [h2]
    split
    · assumption
    · simp [same]
  have := again n _ c' h1 hh
  show fields t.heap t.entries = _
  rw [show t = interceptors lower n (intercept lower s) from rfl, forall2_fields this.all, h2]
  by_cases ha : ∃ f ∈ (specRun lower [] ops).1, lower f.name = lower "Accept".toList
  · rw [if_pos ha, if_pos (hif.1 ha)]
  · rw [if_neg ha, if_neg (fun h => ha (hif.2 h))]

/-- C128: requests of clients of other services are left as they are. -/
theorem C128_others (lower : Text → Text) (service : Text)
    (h : service ≠ "com.amazonaws.apigateway#BackplaneControlService".toList) (isHttp : Bool) (s : St Text) :
    interceptors lower (plugins isHttp service) s = s := by
  rw [plugins, if_neg h]
  cases isHttp <;> rfl

/-- C128: API Gateway's have it. -/
theorem C128_plugin : plugins true "com.amazonaws.apigateway#BackplaneControlService".toList = 1 := by decide +kernel

/-! ## Examples -/

/-- A field that was set in another case is kept. -/
example : let s := (St.run ascii ⟨[], []⟩ [.setField ⟨"accept".toList, ["text/csv".toList], .header⟩]).1
    fields (interceptors ascii 2 s).heap (interceptors ascii 2 s).entries = [⟨"accept".toList, ["text/csv".toList], .header⟩] := by
  decide +kernel

example : let s := (St.run ascii ⟨[], []⟩ [.setField ⟨"Host".toList, ["h".toList], .header⟩]).1
    fields (interceptors ascii 2 s).heap (interceptors ascii 2 s).entries =
      [⟨"Host".toList, ["h".toList], .header⟩, ⟨"Accept".toList, ["application/json".toList], .header⟩] := by
  decide +kernel

end Verif.Fields.Accept

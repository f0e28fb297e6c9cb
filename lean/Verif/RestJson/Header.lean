import Verif.RestJson.Spec

/-!
# The output of an operation: values in headers (C129)
-/

set_option autoImplicit false

namespace Verif.RestJson

open Verif.GeneratedSerde (Py Ref Model Shape Simple Typed Same)
open Verif.Timestamps (DateTime)
open Verif.Timestamps.Spec
open Verif.Http.HeaderValue
open Verif.Numerals (natText intText)
open Verif.Scalars.Strict (Num)
open Verif.HeaderText (Trimmed)
open Verif.EventStream (rnd)

variable {w : World} {nearest : Rat → Num Rat}

theorem ofNum_toNum (x : Num Double) : ofNum (toNum x) = x := by
  cases x with
  | nan => rfl
  | inf b => rfl
  | finite x =>
    simp only [toNum, ofNum]
    rw [dif_pos x.2]

theorem format_eq {id : Nat} {s : Ref} {f : Option Json.Format} (ht : w.model.target s = some id)
    (hs : w.model.shape id = some (.timestamp f)) : w.model.format s = (w.model.ownFormat s).or f := by
  simp only [Model.format, ht, Option.bind_some, hs]

/-- A `datetime` in UTC is read back. -/
theorem time_restores (h : w.hdr.Sane nearest) {f : Option Json.Format} {dt : DateTime} (ho : TimeOk w f dt) :
    ∃ t, write w.hdr (.timestamp (f.map format)) (.timestamp dt) = .ok t ∧
      read w.hdr (.timestamp (f.map format)) t = .ok (.timestamp dt) := by
  obtain ⟨hv, hz, hc⟩ := ho
  have hu : UtcOf (instant dt) dt := ⟨hv, hz, rfl⟩
  have hr := Timestamps.utcOf_representable hu
  obtain ⟨c1, c2, c3, -⟩ := C78_timestamp w.hdr nearest h dt hv hr
  have whole : instant dt % 1000000 = 0 → instant dt / 1000000 * 1000000 = instant dt := fun h => by omega
  have http : ∀ g : Option Format, g = none ∨ g = some .httpDate → instant dt % 1000000 = 0 →
      -59011459200000000 ≤ instant dt → ∃ t, write w.hdr (.timestamp g) (.timestamp dt) = .ok t ∧
      read w.hdr (.timestamp g) t = .ok (.timestamp dt) := by
    intro g hg hm hl
    obtain ⟨t, u, h1, h2, h3⟩ := c2 hl g hg
    rw [whole hm] at h3
    exact ⟨t, h1, by rw [h2, Timestamps.utcOf_unique h3 hu]⟩
  cases f with
  | none => exact http none (.inl rfl) hc.1 hc.2
  | some f =>
    cases f with
    | httpDate => exact http _ (.inr rfl) hc.1 hc.2
    | dateTime =>
      obtain ⟨t, u, h1, h2, h3⟩ := c1 hc
      exact ⟨t, h1, by simp only [Option.map_some, format]; rw [h2, Timestamps.utcOf_unique h3 hu]⟩
    | epochSeconds =>
      obtain ⟨u, h1, h2, h3⟩ := c3 hc
      exact ⟨_, h1, by simp only [Option.map_some, format]; rw [h2, Timestamps.utcOf_unique h3 hu]⟩

/-- What is put into a header is written, and an equal value is read from it. -/
theorem header_restores (h : w.hdr.Sane nearest) {id : Nat} {s : Ref} {v : P} (hv : HeaderOk w nearest id s v) :
    ∃ k x t x', w.kind id s = some k ∧ scalarOf v = some x ∧ write w.hdr k x = .ok t ∧
      read w.hdr k t = .ok x' ∧ Same v (w.wrap id x') := by
  cases hv with
  | @boolean b hs =>
    obtain ⟨h1, h2⟩ := C78_boolean w.hdr (if b then "true".toList else "false".toList) b
    exact ⟨_, _, _, _, by simp only [World.kind, hs], rfl, h1, h2.2 rfl, .refl _⟩
  | @integer n t hs ht hl =>
    obtain ⟨h1, h2⟩ := C78_integer w.hdr h.py n hl
    refine ⟨_, _, _, _, ?_, rfl, h1, h2, ?_⟩
    · rcases ht with rfl | rfl | rfl | rfl | rfl <;> simp only [World.kind, hs]
    · simp only [World.wrap, hs]
      exact .refl _
  | @intEnum n hs hl =>
    obtain ⟨h1, h2⟩ := C78_integer w.hdr h.py n hl
    refine ⟨_, _, _, _, by simp only [World.kind, hs], rfl, h1, h2, ?_⟩
    simp only [World.wrap, hs]
    exact .refl _
  | @float x t hs ht hx =>
    obtain ⟨t', h1, h2⟩ := C78_float w.hdr nearest h (toNum x) (by
      cases x <;> simp only [toNum, reduceCtorEq, Num.finite.injEq, false_implies, implies_true]
      rintro q rfl
      exact hx _ rfl)
    refine ⟨_, _, _, _, ?_, rfl, h1, h2, ?_⟩
    · rcases ht with rfl | rfl <;> simp only [World.kind, hs]
    · simp only [World.wrap, ofNum_toNum]
      exact .refl _
  | @decimal x hs hx =>
    obtain ⟨h1, h2⟩ := C78_decimal w.hdr nearest h
    have hk : w.kind id s = some .decimal := by simp only [World.kind, hs]
    cases x with
    | finite d =>
      obtain ⟨t, d', h3, h4, h5⟩ := h1 d (hx d rfl)
      exact ⟨_, _, _, _, hk, rfl, h3, h4, .decimal h5⟩
    | nan =>
      obtain ⟨t, h3, h4⟩ := h2 .nan (by simp)
      exact ⟨_, _, _, _, hk, rfl, h3, h4, .refl _⟩
    | inf b =>
      obtain ⟨t, h3, h4⟩ := h2 (.inf b) (by simp)
      exact ⟨_, _, _, _, hk, rfl, h3, h4, .refl _⟩
  | @string t hs =>
    have hk : w.kind id s = some (.string (w.media s)) := by simp only [World.kind, hs]
    obtain ⟨⟨h1, h2⟩, t', h3, h4, -⟩ := C78_string w.hdr t
    have hsame : Same (Py.str t : P) (w.wrap id (.string t)) := by
      simp only [World.wrap, hs]
      exact .refl _
    cases hm : w.media s with
    | false => exact ⟨_, _, _, _, hm ▸ hk, rfl, h1, h2, hsame⟩
    | true => exact ⟨_, _, _, _, hm ▸ hk, rfl, h3, h4, hsame⟩
  | @enum t hs =>
    have hk : w.kind id s = some (.string (w.media s)) := by simp only [World.kind, hs]
    obtain ⟨⟨h1, h2⟩, t', h3, h4, -⟩ := C78_string w.hdr t
    have hsame : Same (Py.strEnum id t : P) (w.wrap id (.string t)) := by
      simp only [World.wrap, hs]
      exact .refl _
    cases hm : w.media s with
    | false => exact ⟨_, _, _, _, hm ▸ hk, rfl, h1, h2, hsame⟩
    | true => exact ⟨_, _, _, _, hm ▸ hk, rfl, h3, h4, hsame⟩
  | @timestamp f dt ht hs hok =>
    obtain ⟨t, h1, h2⟩ := time_restores h hok
    refine ⟨_, _, _, _, ?_, rfl, h1, h2, .refl _⟩
    simp only [World.kind, hs, format_eq ht hs]

theorem headerText_ok (h : w.hdr.Sane nearest) {id : Nat} {s : Ref} {v : P} (hv : HeaderOk w nearest id s v) :
    ∃ t v', w.headerText id s v = .ok t ∧ w.headerRead id s t = .ok v' ∧ Same v v' := by
  obtain ⟨k, x, t, x', h1, h2, h3, h4, h5⟩ := header_restores h hv
  exact ⟨t, _, by simp only [World.headerText, h1, h2, h3], by simp only [World.headerRead, h1, h4], h5⟩

/-- The generated code makes one call for a value without parts. -/
theorem headerOk_call {id : Nat} {s : Ref} {v : P} (hv : HeaderOk w nearest id s v) (n : Nat) :
    ∃ method, w.model.memberCall (n + 1) id s v = .ok (.write method s v) ∧ v.isNone = false := by
  cases hv with
  | boolean hs => exact ⟨_, (by simp only [Model.memberCall, hs]; rfl), rfl⟩
  | integer hs => exact ⟨_, (by simp only [Model.memberCall, hs]; rfl), rfl⟩
  | intEnum hs => exact ⟨_, (by simp only [Model.memberCall, hs]; rfl), rfl⟩
  | float hs => exact ⟨_, (by simp only [Model.memberCall, hs]; rfl), rfl⟩
  | decimal hs => exact ⟨_, (by simp only [Model.memberCall, hs]; rfl), rfl⟩
  | string hs => exact ⟨_, (by simp only [Model.memberCall, hs]; rfl), rfl⟩
  | enum hs => exact ⟨_, (by simp only [Model.memberCall, hs]; rfl), rfl⟩
  | timestamp _ hs => exact ⟨_, (by simp only [Model.memberCall, hs]; rfl), rfl⟩

theorem headerOk_notList {id : Nat} {s : Ref} {v : P} (hv : HeaderOk w nearest id s v) : w.httpShape id ≠ .list := by
  cases hv with
  | boolean hs => simp [World.httpShape, hs]
  | @integer _ t hs ht => rcases ht with rfl | rfl | rfl | rfl | rfl <;> simp [World.httpShape, hs]
  | intEnum hs => simp [World.httpShape, hs]
  | @float _ t hs ht => rcases ht with rfl | rfl <;> simp [World.httpShape, hs]
  | decimal hs => simp [World.httpShape, hs]
  | string hs => simp [World.httpShape, hs]
  | enum hs => simp [World.httpShape, hs]
  | timestamp _ hs => simp [World.httpShape, hs]

/-- The texts of a list with one value are not taken apart. -/
theorem alone_values (h : w.hdr.Sane nearest) {id : Nat} {s : Ref} {v : P} {k : Kind} {x : Scalar} {t : Text}
    (hv : HeaderOk w nearest id s v) (ha : Alone w nearest s v) (hk : w.kind id s = some k) (hx : scalarOf v = some x)
    (hw : write w.hdr k x = .ok t) : listValues w.hdr k [t] = .ok [t] := by
  have written : ∀ (_ : k ≠ .string false) (_ : x ≠ .string []), (∀ dt, x ≠ .timestamp dt) →
      (∀ q, x = .float (.finite q) → Shown w.hdr nearest q) → listValues w.hdr k [t] = .ok [t] := by
    intro h1 h2 h3 h4
    exact C78_list_of_one_written w.hdr nearest h k x t hw h1 h2 h4 fun dt he => absurd he (h3 dt)
  cases ha with
  | @text _ t' hv' hm htr hh hc =>
    have hxt : x = .string t' := by
      rcases hv' with rfl | ⟨c, rfl⟩ <;> simp only [scalarOf, Option.some.injEq] at hx <;> exact hx.symm
    have hkk : k = .string false := by
      rcases hv' with rfl | ⟨c, rfl⟩ <;> cases hv <;> rename_i hs <;>
        simp only [World.kind, hs, hm, Option.some.injEq] at hk <;> exact hk.symm
    subst hxt hkk
    simp only [write, Bool.false_eq_true, if_false, Except.ok.injEq] at hw
    subst hw
    exact C78_list_of_one w.hdr h.py (.string false) t' htr hh (by
      rw [if_neg (by simp)]
      exact List.count_eq_zero.2 hc)
  | @media _ t' hv' hm hne =>
    have hxt : x = .string t' := by
      rcases hv' with rfl | ⟨c, rfl⟩ <;> simp only [scalarOf, Option.some.injEq] at hx <;> exact hx.symm
    have hkk : k = .string true := by
      rcases hv' with rfl | ⟨c, rfl⟩ <;> cases hv <;> rename_i hs <;>
        simp only [World.kind, hs, hm, Option.some.injEq] at hk <;> exact hk.symm
    subst hxt hkk
    exact written (by simp) (by simpa using hne) (by simp) (by simp)
  | number hv' =>
    rcases hv' with ⟨b, rfl⟩ | ⟨n, rfl⟩ | ⟨c, n, rfl⟩ | ⟨y, rfl⟩ | ⟨y, rfl⟩ <;>
      simp only [scalarOf, Option.some.injEq] at hx <;> subst hx
    · cases hv with
      | boolean hs =>
        simp only [World.kind, hs, Option.some.injEq] at hk
        subst hk
        exact written (by simp) (by simp) (by simp) (by simp)
    · cases hv with
      | integer hs ht =>
        rcases ht with rfl | rfl | rfl | rfl | rfl <;>
        · simp only [World.kind, hs, Option.some.injEq] at hk
          subst hk
          exact written (by simp) (by simp) (by simp) (by simp)
    · cases hv with
      | intEnum hs =>
        simp only [World.kind, hs, Option.some.injEq] at hk
        subst hk
        exact written (by simp) (by simp) (by simp) (by simp)
    · cases hv with
      | float hs ht hq =>
        rcases ht with rfl | rfl <;>
        · simp only [World.kind, hs, Option.some.injEq] at hk
          subst hk
          exact written (by simp) (by simp) (by simp) (fun q he => by
            cases y <;> simp only [toNum, Scalar.float.injEq, reduceCtorEq, Num.finite.injEq] at he
            subst he
            exact hq _ rfl)
    · cases hv with
      | decimal hs =>
        simp only [World.kind, hs, Option.some.injEq] at hk
        subst hk
        exact written (by simp) (by simp) (by simp) (by simp)
  | @time dt hy hsh =>
    simp only [scalarOf, Option.some.injEq] at hx
    subst hx
    cases hv with
    | timestamp ht hs hok =>
      simp only [World.kind, hs, Option.some.injEq] at hk
      subst hk
      have hr := Timestamps.utcOf_representable (⟨hok.1, hok.2.1, rfl⟩ : UtcOf (instant dt) dt)
      exact C78_list_of_one_written w.hdr nearest h _ _ t hw (by simp) (by simp) (by simp) fun dt' he => by
        simp only [Scalar.timestamp.injEq] at he
        subst he
        exact ⟨hok.1, hr, hy, hsh⟩

/-- A list of values in a header: what is written, and that an equal list is read. -/
theorem headers_restore (h : w.hdr.Sane nearest) {id : Nat} {s : Ref} {xs : List P} (hne : xs ≠ [])
    (hx : ∀ v ∈ xs, HeaderOk w nearest id s v) (ha : ∀ v, xs = [v] → Alone w nearest s v) :
    ∃ ts ys k, each (fun v => w.headerText id s v) xs = .ok ts ∧ ts ≠ [] ∧ w.kind id s = some k ∧
      listValues w.hdr k ts = .ok ts ∧ each (w.headerRead id s) ts = .ok ys ∧ List.Forall₂ Same xs ys := by
  have key : ∀ xs : List P, (∀ v ∈ xs, HeaderOk w nearest id s v) → ∃ ts ys,
      each (fun v => w.headerText id s v) xs = .ok ts ∧ ts.length = xs.length ∧ each (w.headerRead id s) ts = .ok ys ∧
        List.Forall₂ Same xs ys := by
    intro xs
    induction xs with
    | nil => exact fun _ => ⟨[], [], rfl, rfl, rfl, .nil⟩
    | cons v xs ih =>
      intro hx
      obtain ⟨t, v', h1, h2, h3⟩ := headerText_ok h (hx v (by simp))
      obtain ⟨ts, ys, h4, h5, h6, h7⟩ := ih fun v hv => hx v (by simp [hv])
      exact ⟨t :: ts, v' :: ys, by simp only [each, h1, h4], by simp [h5], by simp only [each, h2, h6], .cons h3 h7⟩
  obtain ⟨ts, ys, h1, h2, h3, h4⟩ := key xs hx
  cases xs with
  | nil => exact absurd rfl hne
  | cons v xs =>
    obtain ⟨k, x, t, x', g1, g2, g3, g4, g5⟩ := header_restores h (hx v (by simp))
    refine ⟨ts, ys, k, h1, ?_, g1, ?_, h3, h4⟩
    · intro he
      rw [he] at h2
      cases h2
    · cases xs with
      | nil =>
        have : ts = [t] := by
          simp only [each, World.headerText, g1, g2, g3, Except.ok.injEq] at h1
          exact h1.symm
        rw [this]
        exact alone_values h (hx v (by simp)) (ha v rfl) g1 g2 g3
      | cons v2 xs =>
        match ts, h2 with
        | a :: b :: ts, _ => rfl

end Verif.RestJson

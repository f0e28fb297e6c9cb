import Verif.Uri.Percent
import Mathlib.Data.Nat.Init

/-!
# Removing dot segments (C36)

Models `remove_dot_segments` (smithy_core/utils.py:230-254) and the identical `_remove_dot_segments`
(aws_sdk_signers/signers.py:988-1011), which differ in the default of the second argument only.
-/

set_option autoImplicit false

namespace Verif.Uri

open Verif.Text

/-! ## Model -/

def dot : Bytes := asc "."
def dotdot : Bytes := asc ".."

/-- The loop over the segments (utils.py:239-246). -/
def dotLoop (output : List Bytes) : List Bytes → List Bytes
  | [] => output
  | s :: ss =>
    if s = dot then dotLoop output ss
    else if s ≠ dotdot then dotLoop (output ++ [s]) ss
    else if output ≠ [] then dotLoop output.dropLast ss
    else dotLoop output ss

/-- `text.replace("//", "/")`: one pass from the left. -/
def mergeSlashes : Bytes → Bytes
  | a :: b :: t => if a = ch '/' ∧ b = ch '/' then ch '/' :: mergeSlashes t
      else a :: mergeSlashes (b :: t)
  | t => t

/-- `remove_dot_segments` (utils.py:230-254). -/
def removeDots (path : Bytes) (merge : Bool) : Bytes :=
  let output := dotLoop [] (split (ch '/') path)
  let output := if [ch '/'].isPrefixOf path && (output = [] || output.head? ≠ some []) then
    [] :: output else output
  let output := if output ≠ [] && ((asc "/.").isSuffixOf path || (asc "/..").isSuffixOf path) then
    output ++ [[]] else output
  let result := join (ch '/') output
  if merge then mergeSlashes result else result

/-! ## Specification: RFC 3986, 5.2.4 -/

/-- "remove the last segment and its preceding "/" (if any) from the output buffer". -/
def dropLastSegment (out : Bytes) : Bytes :=
  ((out.reverse.dropWhile (· ≠ ch '/')).drop 1).reverse

/-- "the first path segment in the input buffer ..., including the initial "/" character (if any)
and any subsequent characters up to, but not including, the next "/" character or the end". -/
def firstSegment : Bytes → Bytes × Bytes
  | [] => ([], [])
  | c :: cs => (c :: cs.takeWhile (· ≠ ch '/'), cs.dropWhile (· ≠ ch '/'))

/-- Steps 2A to 2E; the number of steps is bounded by the length of the input. -/
def rfcLoop : Nat → Bytes → Bytes → Bytes
  | 0, _, out => out
  | n + 1, inp, out =>
    if inp = [] then out
    else if (asc "../").isPrefixOf inp then rfcLoop n (inp.drop 3) out
    else if (asc "./").isPrefixOf inp then rfcLoop n (inp.drop 2) out
    else if (asc "/./").isPrefixOf inp then rfcLoop n (ch '/' :: inp.drop 3) out
    else if inp = asc "/." then rfcLoop n [ch '/'] out
    else if (asc "/../").isPrefixOf inp then rfcLoop n (ch '/' :: inp.drop 4) (dropLastSegment out)
    else if inp = asc "/.." then rfcLoop n [ch '/'] (dropLastSegment out)
    else if inp = dot ∨ inp = dotdot then rfcLoop n [] out
    else rfcLoop n (firstSegment inp).2 (out ++ (firstSegment inp).1)

def rfc3986 (path : Bytes) : Bytes := rfcLoop (path.length + 1) path []

/-- The segments of an absolute path, as a stack walk: does some `..` come when nothing is left? -/
def climbs (depth : Nat) : List Bytes → Bool
  | [] => false
  | s :: ss =>
    if s = dot then climbs depth ss
    else if s = dotdot then
      match depth with
      | 0 => true
      | d + 1 => climbs d ss
    else climbs (depth + 1) ss

/-! ## The walk over the segments -/

/-- The segments that are left, starting from those in `st`. -/
def walk (st : List Bytes) : List Bytes → List Bytes
  | [] => st
  | s :: ss =>
    if s = dot then walk st ss
    else if s = dotdot then walk st.dropLast ss
    else walk (st ++ [s]) ss

theorem dotLoop_walk (ss : List Bytes) : ∀ out, dotLoop out ss = walk out ss := by
  induction ss with
  | nil => intro out; rfl
  | cons s ss ih =>
    intro out
    simp only [dotLoop, walk]
    by_cases h1 : s = dot
    · simp only [h1, if_true, ih]
    · by_cases h2 : s = dotdot
      · subst h2
        rw [if_neg h1, if_neg h1]
        simp only [ne_eq, not_true_eq_false, if_false, if_true, ih]
        by_cases ho : out = []
        · subst ho; simp
        · simp [ho]
      · simp only [h1, h2, ne_eq, not_false_eq_true, if_true, if_false, ih]

theorem walk_append (ss ts : List Bytes) : ∀ st, walk st (ss ++ ts) = walk (walk st ss) ts := by
  induction ss with
  | nil => intro st; rfl
  | cons s ss ih =>
    intro st
    simp only [List.cons_append, walk]
    split
    · exact ih _
    · split
      · exact ih _
      · exact ih _

theorem walk_mem (ss : List Bytes) : ∀ (st : List Bytes), ∀ s ∈ walk st ss,
    s ∈ st ∨ (s ∈ ss ∧ s ≠ dot ∧ s ≠ dotdot) := by
  induction ss with
  | nil => intro st s hs; exact Or.inl hs
  | cons x ss ih =>
    intro st s hs
    simp only [walk] at hs
    split at hs
    · rcases ih st s hs with h | h
      · exact Or.inl h
      · exact Or.inr ⟨by simp [h.1], h.2⟩
    · split at hs
      · rcases ih _ s hs with h | h
        · exact Or.inl (List.dropLast_subset _ h)
        · exact Or.inr ⟨by simp [h.1], h.2⟩
      · next h1 h2 =>
        rcases ih _ s hs with h | h
        · rcases List.mem_append.1 h with h | h
          · exact Or.inl h
          · simp only [List.mem_singleton] at h
            subst h
            exact Or.inr ⟨by simp, h1, h2⟩
        · exact Or.inr ⟨by simp [h.1], h.2⟩

/-- Nothing to do when there is no dot segment. -/
theorem walk_id (ss : List Bytes) (h : ∀ s ∈ ss, s ≠ dot ∧ s ≠ dotdot) : ∀ st,
    walk st ss = st ++ ss := by
  induction ss with
  | nil => intro st; simp [walk]
  | cons s ss ih =>
    intro st
    have := h s (by simp)
    rw [walk, if_neg this.1, if_neg this.2, ih fun x hx => h x (by simp [hx])]
    simp

/-- The path ends in `/.` or `/..`. -/
def endsInDots (path : Bytes) : Bool :=
  (asc "/.").isSuffixOf path || (asc "/..").isSuffixOf path

/-- The leading empty segment put back. -/
def rooted (path : Bytes) (o : List Bytes) : List Bytes :=
  if [ch '/'].isPrefixOf path && (o = [] || o.head? ≠ some []) then [] :: o else o

/-- The empty segment a dot segment at the end leaves. -/
def closed (path : Bytes) (o : List Bytes) : List Bytes :=
  if o ≠ [] && endsInDots path then o ++ [[]] else o

/-- The segments put back together, before slashes are merged. -/
def outSegments (path : Bytes) : List Bytes :=
  closed path (rooted path (walk [] (split (ch '/') path)))

theorem removeDots_eq (path : Bytes) (merge : Bool) :
    removeDots path merge =
      if merge then mergeSlashes (join (ch '/') (outSegments path))
      else join (ch '/') (outSegments path) := by
  simp only [removeDots, dotLoop_walk]
  rfl

theorem outSegments_spec (path : Bytes) :
    ∀ s ∈ outSegments path, (s ≠ dot ∧ s ≠ dotdot) ∧ ch '/' ∉ s := by
  have hw : ∀ s ∈ walk [] (split (ch '/') path), (s ≠ dot ∧ s ≠ dotdot) ∧ ch '/' ∉ s := by
    intro s hs
    rcases walk_mem _ _ s hs with h | h
    · cases h
    · exact ⟨h.2, split_no_sep _ _ s h.1⟩
  have hnil : (([] : Bytes) ≠ dot ∧ ([] : Bytes) ≠ dotdot) ∧ ch '/' ∉ ([] : Bytes) :=
    ⟨⟨by decide, by decide⟩, by simp⟩
  have h1 : ∀ s ∈ rooted path (walk [] (split (ch '/') path)),
      (s ≠ dot ∧ s ≠ dotdot) ∧ ch '/' ∉ s := by
    intro s hs
    unfold rooted at hs
    split at hs
    · rcases List.mem_cons.1 hs with rfl | hs
      · exact hnil
      · exact hw s hs
    · exact hw s hs
  intro s hs
  unfold outSegments closed at hs
  split at hs
  · rcases List.mem_append.1 hs with hs | hs
    · exact h1 s hs
    · simp only [List.mem_singleton] at hs
      subst hs; exact hnil
  · exact h1 s hs

theorem split_join_segments (ss : List Bytes) (h : ∀ s ∈ ss, ch '/' ∉ s) :
    split (ch '/') (join (ch '/') ss) = if ss = [] then [[]] else ss := by
  by_cases hs : ss = []
  · subst hs; rfl
  · rw [if_neg hs, split_join _ _ hs h]

/-- Merging slashes only drops empty segments. -/
theorem mergeSlashes_segments (n : Nat) : ∀ (t : Bytes), t.length ≤ n →
    ∀ s ∈ split (ch '/') (mergeSlashes t), s ∈ split (ch '/') t ∨ s = [] := by
  have aux : ∀ (n : Nat) (t : Bytes), t.length ≤ n →
      ((split (ch '/') (mergeSlashes t)).head? = (split (ch '/') t).head? ∧
      ∀ s ∈ (split (ch '/') (mergeSlashes t)).tail, s ∈ (split (ch '/') t).tail ∨ s = []) := by
    intro n
    induction n using Nat.strongRecOn with
    | _ n ih =>
      intro t ht
      match t with
      | [] => exact ⟨rfl, fun s hs => Or.inl hs⟩
      | [a] => exact ⟨rfl, fun s hs => Or.inl hs⟩
      | a :: b :: t =>
        simp only [mergeSlashes]
        simp only [List.length_cons] at ht
        split
        · next h =>
          obtain ⟨rfl, rfl⟩ := h
          obtain ⟨h1, h2⟩ := ih (n - 2) (by omega) t (by omega)
          simp only [split, if_true, List.head?_cons, List.tail_cons, true_and]
          intro s hs
          cases hm : split (ch '/') (mergeSlashes t) with
          | nil => exact absurd hm (split_ne_nil _ _)
          | cons p ps =>
            rw [hm] at hs h1 h2
            rcases List.mem_cons.1 hs with rfl | hs
            · cases ht' : split (ch '/') t with
              | nil => exact absurd ht' (split_ne_nil _ _)
              | cons q qs =>
                rw [ht'] at h1
                simp only [List.head?_cons, Option.some.injEq] at h1
                left; simp [h1]
            · rcases h2 s hs with h | h
              · left; exact List.mem_cons_of_mem _ (List.mem_of_mem_tail h)
              · exact Or.inr h
        · next h =>
          obtain ⟨h1, h2⟩ := ih (n - 1) (by omega) (b :: t) (by simp; omega)
          cases hm : split (ch '/') (mergeSlashes (b :: t)) with
          | nil => exact absurd hm (split_ne_nil _ _)
          | cons p ps =>
            cases ht' : split (ch '/') (b :: t) with
            | nil => exact absurd ht' (split_ne_nil _ _)
            | cons q qs =>
              rw [hm, ht'] at h1 h2
              simp only [List.head?_cons, Option.some.injEq, List.tail_cons] at h1 h2
              subst h1
              by_cases ha : a = ch '/'
              · subst ha
                rw [split, if_pos rfl, hm]
                conv => rhs; intro s hs; rw [split, if_pos rfl, ht']
                rw [show split (ch '/') (ch '/' :: b :: t) = [] :: p :: qs by
                  rw [split, if_pos rfl, ht']]
                refine ⟨rfl, ?_⟩
                intro s hs
                simp only [List.tail_cons] at hs ⊢
                rcases List.mem_cons.1 hs with rfl | hs
                · left; simp
                · rcases h2 s hs with h | h
                  · left; simp [h]
                  · exact Or.inr h
              · rw [show split (ch '/') (a :: mergeSlashes (b :: t)) = (a :: p) :: ps by
                  rw [split, if_neg ha, hm]]
                rw [show split (ch '/') (a :: b :: t) = (a :: p) :: qs by
                  rw [split, if_neg ha, ht']]
                exact ⟨rfl, h2⟩
  intro t ht s hs
  obtain ⟨h1, h2⟩ := aux n t ht
  cases hm : split (ch '/') (mergeSlashes t) with
  | nil => exact absurd hm (split_ne_nil _ _)
  | cons p ps =>
    cases ht' : split (ch '/') t with
    | nil => exact absurd ht' (split_ne_nil _ _)
    | cons q qs =>
      rw [hm, ht'] at h1 h2
      rw [hm] at hs
      simp only [List.head?_cons, Option.some.injEq, List.tail_cons] at h1 h2
      rcases List.mem_cons.1 hs with rfl | hs
      · left; simp [h1]
      · rcases h2 s hs with h | h
        · left; simp [h]
        · exact Or.inr h

/-- **C36**: the normalized path has no `.` or `..` segment, for every path and either setting. -/
theorem C36_no_dot_segments (path : Bytes) (merge : Bool) :
    ∀ s ∈ split (ch '/') (removeDots path merge), s ≠ asc "." ∧ s ≠ asc ".." := by
  have hbase : ∀ s ∈ split (ch '/') (join (ch '/') (outSegments path)), s ≠ dot ∧ s ≠ dotdot := by
    intro s hs
    rw [split_join_segments _ fun s hs => (outSegments_spec path s hs).2] at hs
    split at hs
    · simp only [List.mem_singleton] at hs
      subst hs; exact ⟨by decide, by decide⟩
    · exact (outSegments_spec path s hs).1
  intro s hs
  rw [removeDots_eq] at hs
  split at hs
  · rcases mergeSlashes_segments _ _ (Nat.le_refl _) s hs with h | h
    · exact hbase s h
    · subst h; exact ⟨by decide, by decide⟩
  · exact hbase s hs

theorem prefix_slash (path : Bytes) :
    [ch '/'].isPrefixOf path = true ↔ ∃ t, path = ch '/' :: t := by
  cases path with
  | nil => simp
  | cons c t =>
    simp only [List.isPrefixOf, Bool.and_true, beq_iff_eq, List.cons.injEq]
    constructor
    · intro h; exact ⟨t, h.symm, rfl⟩
    · rintro ⟨t', h, -⟩; exact h.symm

theorem ends_last (path : Bytes) (h : endsInDots path = true) :
    ∃ s ∈ split (ch '/') path, s = dot ∨ s = dotdot := by
  simp only [endsInDots, Bool.or_eq_true, List.isSuffixOf_iff_suffix] at h
  rcases h with ⟨t, ht⟩ | ⟨t, ht⟩
  · refine ⟨dot, ?_, Or.inl rfl⟩
    have : path = t ++ ch '/' :: dot := by rw [← ht]; rfl
    rw [this, split_append_sep, split_of_not_mem _ dot (by decide)]
    simp
  · refine ⟨dotdot, ?_, Or.inr rfl⟩
    have : path = t ++ ch '/' :: dotdot := by rw [← ht]; rfl
    rw [this, split_append_sep, split_of_not_mem _ dotdot (by decide)]
    simp

/-- A path without dot segments stays as it is. -/
theorem removeDots_id (path : Bytes) (h : ∀ s ∈ split (ch '/') path, s ≠ dot ∧ s ≠ dotdot) :
    removeDots path false = path := by
  have hends : endsInDots path = false := by
    cases he : endsInDots path with
    | false => rfl
    | true =>
      obtain ⟨s, hs, he⟩ := ends_last path he
      have := h s hs
      rcases he with rfl | rfl
      · exact absurd rfl this.1
      · exact absurd rfl this.2
  have hw : walk [] (split (ch '/') path) = split (ch '/') path := by
    rw [walk_id _ h]; rfl
  have hins : ([ch '/'].isPrefixOf path && (decide (split (ch '/') path = []) ||
      decide ((split (ch '/') path).head? ≠ some []))) = false := by
    cases hp : [ch '/'].isPrefixOf path with
    | false => rfl
    | true =>
      obtain ⟨t, rfl⟩ := (prefix_slash path).1 hp
      simp [split]
  rw [removeDots_eq]
  simp only [Bool.false_eq_true, if_false]
  have : outSegments path = split (ch '/') path := by
    simp only [outSegments, closed, rooted, hw, hends, hins, Bool.and_false, Bool.false_eq_true,
      if_false]
  rw [this, join_split]

/-- **C36**: normalizing twice is the same as normalizing once (without merging of slashes). -/
theorem C36_idempotent_partial (path : Bytes) :
    removeDots (removeDots path false) false = removeDots path false :=
  removeDots_id _ (C36_no_dot_segments path false)

/-- What is false of the code: merging slashes is a single pass and so is not idempotent; one call
leaves consecutive slashes. -/
theorem C36_merge_slashes_fails :
    removeDots (asc "/a///b") true = asc "/a//b" ∧
    removeDots (removeDots (asc "/a///b") true) true = asc "/a/b" := by decide +kernel

/-! ## Agreement with RFC 3986 -/

/-- What the segments after the initial slash come to. -/
def target (st : List Bytes) : List Bytes → List Bytes
  | [] => st
  | [s] =>
    if s = dot then st ++ [[]] else if s = dotdot then st.dropLast ++ [[]] else st ++ [s]
  | s :: t :: ss =>
    if s = dot then target st (t :: ss)
    else if s = dotdot then target st.dropLast (t :: ss)
    else target (st ++ [s]) (t :: ss)

/-- Segments each with its slash. -/
def slashed (ss : List Bytes) : Bytes := ss.flatMap fun s => ch '/' :: s

theorem slashed_cons (s : Bytes) (ss : List Bytes) :
    slashed (s :: ss) = ch '/' :: join (ch '/') (s :: ss) := by
  induction ss generalizing s with
  | nil => simp [slashed, join]
  | cons t ss ih =>
    have := ih t
    simp only [slashed, List.flatMap_cons, join] at this ⊢
    rw [this]; rfl

theorem slashed_append (ss ts : List Bytes) : slashed (ss ++ ts) = slashed ss ++ slashed ts := by
  simp [slashed]

theorem dropLastSegment_slashed (st : List Bytes) (h : ∀ s ∈ st, ch '/' ∉ s) :
    dropLastSegment (slashed st) = slashed st.dropLast := by
  rcases List.eq_nil_or_concat st with rfl | ⟨st', s, rfl⟩
  · rfl
  · have hs : ch '/' ∉ s := h s (by simp)
    rw [List.concat_eq_append, List.dropLast_concat, slashed_append]
    unfold dropLastSegment
    simp only [slashed, List.flatMap_cons, List.flatMap_nil, List.append_nil, List.reverse_append,
      List.reverse_cons, List.append_assoc]
    have hd : ∀ (r u : Bytes), ch '/' ∉ r →
        (r ++ ([ch '/'] ++ u)).dropWhile (· ≠ ch '/') = ch '/' :: u := by
      intro r u hr
      induction r with
      | nil => simp
      | cons c r ih =>
        simp only [List.mem_cons, not_or] at hr
        rw [List.cons_append, List.dropWhile_cons_of_pos (by simpa using Ne.symm hr.1)]
        exact ih hr.2
    rw [hd _ _ (by simpa using hs)]
    simp

/-- Every step of the RFC's loop works on the input from a slash on. -/
theorem rfcLoop_target (ss : List Bytes) : ∀ (n : Nat) (s : Bytes) (st : List Bytes),
    (slashed (s :: ss)).length < n → (∀ x ∈ s :: ss, ch '/' ∉ x) → (∀ x ∈ st, ch '/' ∉ x) →
    rfcLoop n (slashed (s :: ss)) (slashed st) = slashed (target st (s :: ss)) := by
  have last : ∀ (n : Nat) (st : List Bytes), 1 < n →
      rfcLoop n [ch '/'] (slashed st) = slashed (st ++ [[]]) := by
    intro n st hn
    match n, hn with
    | n + 2, _ =>
      have e : rfcLoop (n + 2) [ch '/'] (slashed st) =
          rfcLoop (n + 1) [] (slashed st ++ [ch '/']) := by
        rw [rfcLoop]
        rfl
      rw [e, rfcLoop, if_pos rfl, slashed_append]
      rfl
  -- the conditions of the loop on input starting with a slash
  have step : ∀ (n : Nat) (s : Bytes) (ss : List Bytes) (out : Bytes), ch '/' ∉ s →
      rfcLoop (n + 1) (slashed (s :: ss)) out =
        if s = dot then
          (if ss = [] then rfcLoop n [ch '/'] out else rfcLoop n (slashed ss) out)
        else if s = dotdot then
          (if ss = [] then rfcLoop n [ch '/'] (dropLastSegment out)
            else rfcLoop n (slashed ss) (dropLastSegment out))
        else rfcLoop n (slashed ss) (out ++ ch '/' :: s) := by
    intro n s ss out hs
    have hslash : slashed (s :: ss) = ch '/' :: (s ++ slashed ss) := by
      simp [slashed]
    have hss : ∀ (c : UInt8) (u : Bytes), slashed ss = c :: u → c = ch '/' := by
      intro c u h
      cases ss with
      | nil => simp [slashed] at h
      | cons x xs => simp [slashed] at h; exact h.1.symm
    have hss' : ss ≠ [] → ∃ u, slashed ss = ch '/' :: u := by
      intro h
      cases ss with
      | nil => exact absurd rfl h
      | cons x xs => exact ⟨_, rfl⟩
    have p1 : (asc "../").isPrefixOf (ch '/' :: (s ++ slashed ss)) = false := by
      rw [show asc "../" = [ch '.', ch '.', ch '/'] from rfl]
      simp only [List.isPrefixOf]
      rw [show (ch '.' == ch '/') = false by decide]; rfl
    have p2 : (asc "./").isPrefixOf (ch '/' :: (s ++ slashed ss)) = false := by
      rw [show asc "./" = [ch '.', ch '/'] from rfl]
      simp only [List.isPrefixOf]
      rw [show (ch '.' == ch '/') = false by decide]; rfl
    have p8 : ¬ (ch '/' :: (s ++ slashed ss) = dot ∨ ch '/' :: (s ++ slashed ss) = dotdot) := by
      rw [show dot = [ch '.'] from rfl, show dotdot = [ch '.', ch '.'] from rfl]
      simp only [List.cons.injEq, not_or, not_and]
      exact ⟨fun h => absurd h (by decide), fun h => absurd h (by decide)⟩
    rw [hslash, rfcLoop, if_neg (by simp), if_neg (by simp [p1]), if_neg (by simp [p2])]
    -- what comes after the slash decides
    by_cases h1 : s = dot
    · subst h1
      rw [if_pos rfl]
      by_cases hn : ss = []
      · subst hn
        rw [if_pos rfl]
        rw [show (ch '/' :: (dot ++ slashed [])) = asc "/." from rfl]
        rw [if_neg (by decide), if_pos rfl]
      · obtain ⟨u, hu⟩ := hss' hn
        rw [if_neg hn, hu]
        rw [show (ch '/' :: (dot ++ ch '/' :: u)) = asc "/./" ++ u from rfl]
        rw [if_pos (by rw [List.isPrefixOf_iff_prefix]; exact List.prefix_append _ _)]
        rfl
    · rw [if_neg h1]
      have q3 : (asc "/./").isPrefixOf (ch '/' :: (s ++ slashed ss)) = false := by
        cases hq : (asc "/./").isPrefixOf (ch '/' :: (s ++ slashed ss)) with
        | false => rfl
        | true =>
          rw [List.isPrefixOf_iff_prefix] at hq
          obtain ⟨u, hu⟩ := hq
          rw [show asc "/./" ++ u = ch '/' :: ch '.' :: ch '/' :: u from rfl] at hu
          simp only [List.cons.injEq, true_and] at hu
          match s, hs, h1, hu with
          | [], _, _, hu => exact absurd (hss _ _ hu.symm) (by decide)
          | [a], _, h1, hu =>
            simp only [List.cons_append, List.cons.injEq] at hu
            exact absurd (by rw [← hu.1]; rfl) h1
          | a :: b :: s', hs, _, hu =>
            simp only [List.cons_append, List.cons.injEq] at hu
            exact absurd (by rw [hu.2.1]; simp) hs
      have q4 : ch '/' :: (s ++ slashed ss) ≠ asc "/." := by
        intro hq
        rw [show asc "/." = [ch '/', ch '.'] from rfl] at hq
        simp only [List.cons.injEq, true_and] at hq
        match s, h1, hq with
        | [], _, hq => exact absurd (hss _ _ hq) (by decide)
        | [a], h1, hq =>
          simp only [List.cons_append, List.nil_append, List.cons.injEq] at hq
          exact absurd (by rw [hq.1]; rfl) h1
        | a :: b :: s', _, hq => simp at hq
      rw [if_neg (by simp [q3]), if_neg q4]
      by_cases h2 : s = dotdot
      · subst h2
        rw [if_pos rfl]
        by_cases hn : ss = []
        · subst hn
          rw [if_pos rfl]
          rw [show (ch '/' :: (dotdot ++ slashed [])) = asc "/.." from rfl]
          rw [if_neg (by decide), if_pos rfl]
        · obtain ⟨u, hu⟩ := hss' hn
          rw [if_neg hn, hu]
          rw [show (ch '/' :: (dotdot ++ ch '/' :: u)) = asc "/../" ++ u from rfl]
          rw [if_pos (by rw [List.isPrefixOf_iff_prefix]; exact List.prefix_append _ _)]
          rfl
      · rw [if_neg h2]
        have q5 : (asc "/../").isPrefixOf (ch '/' :: (s ++ slashed ss)) = false := by
          cases hq : (asc "/../").isPrefixOf (ch '/' :: (s ++ slashed ss)) with
          | false => rfl
          | true =>
            rw [List.isPrefixOf_iff_prefix] at hq
            obtain ⟨u, hu⟩ := hq
            rw [show asc "/../" ++ u = ch '/' :: ch '.' :: ch '.' :: ch '/' :: u from rfl] at hu
            simp only [List.cons.injEq, true_and] at hu
            match s, hs, h2, hu with
            | [], _, _, hu => exact absurd (hss _ _ hu.symm) (by decide)
            | [a], _, _, hu =>
              simp only [List.cons_append, List.nil_append, List.cons.injEq] at hu
              exact absurd (hss _ _ hu.2.symm) (by decide)
            | [a, b], _, h2, hu =>
              simp only [List.cons_append, List.cons.injEq] at hu
              exact absurd (by rw [← hu.1, ← hu.2.1]; rfl) h2
            | a :: b :: c :: s', hs, _, hu =>
              simp only [List.cons_append, List.cons.injEq] at hu
              exact absurd (by rw [hu.2.2.1]; simp) hs
        have q6 : ch '/' :: (s ++ slashed ss) ≠ asc "/.." := by
          intro hq
          rw [show asc "/.." = [ch '/', ch '.', ch '.'] from rfl] at hq
          simp only [List.cons.injEq, true_and] at hq
          match s, h2, hq with
          | [], _, hq => exact absurd (hss _ _ hq) (by decide)
          | [a], _, hq =>
            simp only [List.cons_append, List.nil_append, List.cons.injEq] at hq
            exact absurd (hss _ _ hq.2) (by decide)
          | [a, b], h2, hq =>
            simp only [List.cons_append, List.nil_append, List.cons.injEq] at hq
            exact absurd (by rw [hq.1, hq.2.1]; rfl) h2
          | a :: b :: c :: s', _, hq => simp at hq
        rw [if_neg (by simp [q5]), if_neg q6, if_neg p8]
        have ht : ∀ (s : Bytes), ch '/' ∉ s →
            (s ++ slashed ss).takeWhile (· ≠ ch '/') = s ∧
            (s ++ slashed ss).dropWhile (· ≠ ch '/') = slashed ss := by
          intro s hs
          induction s with
          | nil =>
            cases hx : slashed ss with
            | nil => simp
            | cons c u =>
              have := hss c u hx
              subst this
              simp
          | cons c s ih =>
            simp only [List.mem_cons, not_or] at hs
            obtain ⟨i1, i2⟩ := ih hs.2
            have hc : decide (c ≠ ch '/') = true := by simpa using Ne.symm hs.1
            rw [List.cons_append, List.takeWhile_cons_of_pos (p := fun x => decide (x ≠ ch '/')) hc,
              List.dropWhile_cons_of_pos (p := fun x => decide (x ≠ ch '/')) hc, i1, i2]
            exact ⟨rfl, rfl⟩
        simp only [firstSegment, (ht s hs).1, (ht s hs).2]
  induction ss with
  | nil =>
    intro n s st hn hss hst
    have hs := hss s (by simp)
    match n, hn with
    | n + 1, hn =>
      rw [step n s [] _ hs]
      simp only [if_true, target]
      have hlen : (slashed [s]).length = s.length + 1 := by simp [slashed]
      by_cases h1 : s = dot
      · have : 1 < n := by rw [hlen, h1] at hn; simp [dot, asc] at hn; omega
        rw [if_pos h1, if_pos h1, last n st this]
      · by_cases h2 : s = dotdot
        · have : 1 < n := by rw [hlen, h2] at hn; simp [dotdot, asc] at hn; omega
          rw [if_neg h1, if_pos h2, if_neg h1, if_pos h2, dropLastSegment_slashed st hst,
            last n _ this]
        · rw [if_neg h1, if_neg h2, if_neg h1, if_neg h2, slashed_append]
          have : ∃ m, n = m + 1 := ⟨n - 1, by omega⟩
          obtain ⟨m, rfl⟩ := this
          rw [show slashed [] = ([] : Bytes) from rfl, rfcLoop, if_pos rfl]
          simp [slashed]
  | cons t ss ih =>
    intro n s st hn hss hst
    have hs := hss s (by simp)
    have hrest : ∀ x ∈ t :: ss, ch '/' ∉ x := fun x hx => hss x (List.mem_cons_of_mem _ hx)
    match n, hn with
    | n + 1, hn =>
      rw [step n s (t :: ss) _ hs]
      have hlen : (slashed (t :: ss)).length < n := by
        have : (slashed (s :: t :: ss)).length = s.length + 1 + (slashed (t :: ss)).length := by
          simp [slashed]; omega
        omega
      simp only [target, reduceCtorEq, if_false]
      by_cases h1 : s = dot
      · rw [if_pos h1, if_pos h1, ih n t st hlen hrest hst]
      · by_cases h2 : s = dotdot
        · rw [if_neg h1, if_pos h2, if_neg h1, if_pos h2, dropLastSegment_slashed st hst,
            ih n t _ hlen hrest fun x hx => hst x (List.dropLast_subset _ hx)]
        · rw [if_neg h1, if_neg h2, if_neg h1, if_neg h2]
          have e : slashed st ++ ch '/' :: s = slashed (st ++ [s]) := by
            rw [slashed_append]; simp [slashed]
          rw [e, ih n t _ hlen hrest]
          intro x hx
          rcases List.mem_append.1 hx with hx | hx
          · exact hst x hx
          · simp only [List.mem_singleton] at hx; subst hx; exact hs

/-- What a dot segment at the end leaves. -/
def trail (ss : List Bytes) : List Bytes :=
  if ss.getLast? = some dot ∨ ss.getLast? = some dotdot then [[]] else []

theorem target_walk (ss : List Bytes) : ∀ st, target st ss = walk st ss ++ trail ss := by
  induction ss with
  | nil => intro st; simp [target, walk, trail]
  | cons s ss ih =>
    intro st
    cases ss with
    | nil =>
      simp only [target, walk, trail, List.getLast?_singleton, Option.some.injEq]
      by_cases h1 : s = dot
      · simp [h1]
      · by_cases h2 : s = dotdot
        · subst h2; simp [h1]
        · simp [h1, h2]
    | cons t ss =>
      have htr : trail (s :: t :: ss) = trail (t :: ss) := by simp [trail, List.getLast?_cons_cons]
      rw [target, walk, htr]
      split
      · exact ih _
      · split
        · exact ih _
        · exact ih _

theorem walk_root (ss : List Bytes) : ∀ st, walk ([] :: st) ss = [] :: walk st ss ∨
    walk ([] :: st) ss = walk st ss := by
  induction ss with
  | nil => intro st; exact Or.inl rfl
  | cons s ss ih =>
    intro st
    simp only [walk]
    split
    · exact ih st
    · split
      · cases st with
        | nil => exact Or.inr rfl
        | cons x st => exact ih _
      · exact ih _

theorem walk_root_low (ss : List Bytes) : ∀ st, climbs st.length ss = false →
    walk ([] :: st) ss = [] :: walk st ss := by
  induction ss with
  | nil => intro st _; rfl
  | cons s ss ih =>
    intro st h
    simp only [walk, climbs] at h ⊢
    by_cases h1 : s = dot
    · simp only [h1, if_true] at h ⊢; exact ih st h
    · by_cases h2 : s = dotdot
      · simp only [h1, h2, if_true, if_false] at h ⊢
        rw [h2] at h1
        simp only [h1, if_false] at h ⊢
        cases st with
        | nil => simp at h
        | cons x st =>
          rw [show ([] :: x :: st : List Bytes).dropLast = [] :: (x :: st).dropLast from rfl]
          refine ih _ ?_
          simpa using h
      · simp only [h1, h2, if_false] at h ⊢
        rw [show ([] :: st ++ [s] : List Bytes) = [] :: (st ++ [s]) from rfl]
        refine ih _ ?_
        simpa using h

theorem join_root (w : List Bytes) : join (ch '/') ([] :: w) = slashed w := by
  cases w with
  | nil => rfl
  | cons x w => rw [slashed_cons]; rfl

theorem endsInDots_trail (t : Bytes) :
    endsInDots (ch '/' :: t) = true ↔ trail (split (ch '/') t) = [[]] := by
  have key : ∀ (d : Bytes), ch '/' ∉ d →
      ((ch '/' :: d) <:+ (ch '/' :: t) ↔ (split (ch '/') t).getLast? = some d) := by
    intro d hd
    constructor
    · rintro ⟨u, hu⟩
      cases u with
      | nil =>
        simp only [List.nil_append, List.cons.injEq, true_and] at hu
        subst hu
        rw [split_of_not_mem _ _ hd]; rfl
      | cons c u =>
        simp only [List.cons_append, List.cons.injEq] at hu
        rw [← hu.2, split_append_sep, split_of_not_mem _ _ hd]
        simp
    · intro h
      have hj := join_split (ch '/') t
      rcases List.eq_nil_or_concat (split (ch '/') t) with hn | ⟨ss, x, hx⟩
      · exact absurd hn (split_ne_nil _ _)
      · rw [hx] at h hj
        simp only [List.concat_eq_append, List.getLast?_append, List.getLast?_singleton,
          Option.some_or, Option.some.injEq] at h hj
        subst h
        by_cases hs : ss = []
        · subst hs
          simp only [List.nil_append, join] at hj
          rw [hj]; exact List.suffix_refl _
        · rw [join_append _ _ _ hs (by simp)] at hj
          simp only [join] at hj
          rw [← hj]
          exact ⟨ch '/' :: join (ch '/') ss, by simp⟩
  have h1 := key dot (by decide)
  have h2 := key dotdot (by decide)
  simp only [endsInDots, Bool.or_eq_true, List.isSuffixOf_iff_suffix, trail]
  rw [show asc "/." = ch '/' :: dot from rfl, show asc "/.." = ch '/' :: dotdot from rfl, h1, h2]
  split <;> simp_all

/-- The code's segments are the RFC's. -/
theorem outSegments_root (t : Bytes)
    (h : walk [[]] (split (ch '/') t) = [] :: walk [] (split (ch '/') t) ∨
      (walk [] (split (ch '/') t)).head? ≠ some []) :
    outSegments (ch '/' :: t) = [] :: target [] (split (ch '/') t) := by
  have hs : split (ch '/') (ch '/' :: t) = [] :: split (ch '/') t := by simp [split]
  have hw : walk [] (split (ch '/') (ch '/' :: t)) = walk [[]] (split (ch '/') t) := by
    rw [hs, walk, if_neg (by decide), if_neg (by decide)]; rfl
  have hp : [ch '/'].isPrefixOf (ch '/' :: t) = true := (prefix_slash _).2 ⟨t, rfl⟩
  have hr : rooted (ch '/' :: t) (walk [[]] (split (ch '/') t)) =
      [] :: walk [] (split (ch '/') t) := by
    unfold rooted
    rcases walk_root (split (ch '/') t) [] with h1 | h1
    · rw [h1, if_neg (by simp)]
    · rw [h1]
      rcases h with h | h
      · rw [h1] at h
        have := congrArg List.length h
        simp at this
      · rw [if_pos (by simp only [hp, Bool.true_and, Bool.or_eq_true, decide_eq_true_eq]; exact Or.inr h)]
  rw [outSegments, hw, hr, target_walk, closed]
  have he := endsInDots_trail t
  by_cases hd : endsInDots (ch '/' :: t) = true
  · rw [if_pos (by simp [hd]), he.1 hd]; rfl
  · rw [if_neg (by simp [hd])]
    have : trail (split (ch '/') t) = [] := by
      have hne : ¬ trail (split (ch '/') t) = [[]] := fun hx => hd (he.2 hx)
      unfold trail at hne ⊢
      split
      · next hx => rw [if_pos hx] at hne; exact absurd rfl hne
      · rfl
    rw [this]; simp

theorem rfc_target (t : Bytes) : rfc3986 (ch '/' :: t) = slashed (target [] (split (ch '/') t)) := by
  cases hs : split (ch '/') t with
  | nil => exact absurd hs (split_ne_nil _ _)
  | cons s ss =>
    have ht : ch '/' :: t = slashed (s :: ss) := by
      rw [slashed_cons, ← hs, join_split]
    unfold rfc3986
    rw [ht]
    refine rfcLoop_target ss _ s [] (by simp) ?_ (by simp)
    rw [← hs]
    exact split_no_sep _ _

/-- **C36**: on absolute paths the result is that of the algorithm of RFC 3986, unless some `..`
climbs above the root and there are empty segments (`C36_climb_fails`). -/
theorem C36_agrees_with_rfc_partial (t : Bytes)
    (h : climbs 0 (split (ch '/') t) = false ∨ [] ∉ split (ch '/') t) :
    removeDots (ch '/' :: t) false = rfc3986 (ch '/' :: t) := by
  rw [removeDots_eq, rfc_target, outSegments_root, join_root]
  · simp
  · rcases h with h | h
    · exact Or.inl (walk_root_low _ [] h)
    · right
      intro he
      have hm := List.mem_of_mem_head? he
      rcases walk_mem _ _ _ hm with hx | hx
      · cases hx
      · exact h hx.1

/-- **C36**: under the same conditions the normalized path is absolute. -/
theorem C36_stays_absolute_partial (t : Bytes)
    (h : climbs 0 (split (ch '/') t) = false ∨ [] ∉ split (ch '/') t) :
    ∃ u, removeDots (ch '/' :: t) false = ch '/' :: u := by
  rw [C36_agrees_with_rfc_partial t h, rfc_target]
  have hne : target [] (split (ch '/') t) ≠ [] := by
    have gen : ∀ (ss : List Bytes) (st : List Bytes), ss ≠ [] → target st ss ≠ [] := by
      intro ss
      induction ss with
      | nil => intro st h; exact absurd rfl h
      | cons s ss ih =>
        intro st _
        cases ss with
        | nil => simp only [target]; split <;> [simp; (split <;> simp)]
        | cons x ss =>
          simp only [target]
          split
          · exact ih _ (by simp)
          · split
            · exact ih _ (by simp)
            · exact ih _ (by simp)
    exact gen _ _ (split_ne_nil _ _)
  cases ht : target [] (split (ch '/') t) with
  | nil => exact absurd ht hne
  | cons s ss => exact ⟨_, slashed_cons s ss⟩

/-- What is false of the code: after climbing above the root an empty segment is taken for the root,
so that an absolute path can become the empty path. -/
theorem C36_climb_fails :
    removeDots (asc "/../") false = [] ∧ rfc3986 (asc "/../") = asc "/" ∧
    removeDots (asc "/..//a") false = asc "/a" ∧ rfc3986 (asc "/..//a") = asc "//a" := by
  decide +kernel

/-! ## The hypotheses are met -/

example : climbs 0 (split (ch '/') (asc "a/b/c/./../../g//")) = false := by decide +kernel
example : removeDots (asc "/a/b/c/./../../g//") false = asc "/a/g//" := by decide +kernel
example : [] ∉ split (ch '/') (asc "../a/../..") := by decide +kernel
example : removeDots (asc "/../a/../..") false = asc "/" := by decide +kernel
example : removeDots (asc "mid/content=5/../6") false = asc "mid/6" := by decide +kernel

end Verif.Uri

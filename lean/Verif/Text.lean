import Verif.Common

/-!
# Text as lists: splitting and joining

`str.split(c)` and `c.join(...)` for a one-character separator, on lists of any kind of character.
-/

set_option autoImplicit false

namespace Verif.Text

variable {α : Type} [DecidableEq α]

/-- `str.split(sep)` for a separator of one character. -/
def split (sep : α) : List α → List (List α)
  | [] => [[]]
  | c :: cs =>
    if c = sep then [] :: split sep cs
    else
      match split sep cs with
      | [] => [[c]]
      | p :: ps => (c :: p) :: ps

/-- `sep.join(parts)` for a separator of one character. -/
def join (sep : α) : List (List α) → List α
  | [] => []
  | [p] => p
  | p :: q :: ps => p ++ sep :: join sep (q :: ps)

theorem split_ne_nil (sep : α) (t : List α) : split sep t ≠ [] := by
  induction t with
  | nil => simp [split]
  | cons c t ih =>
    simp only [split]
    split
    · simp
    · split <;> simp

theorem join_cons (sep : α) (p : List α) (ps : List (List α)) (h : ps ≠ []) :
    join sep (p :: ps) = p ++ sep :: join sep ps := by
  cases ps with
  | nil => exact absurd rfl h
  | cons q ps => rfl

/-- Joining the parts gives the text back. -/
theorem join_split (sep : α) (t : List α) : join sep (split sep t) = t := by
  induction t with
  | nil => rfl
  | cons c t ih =>
    simp only [split]
    split
    · next h =>
      subst h
      rw [join_cons _ _ _ (split_ne_nil _ _), ih, List.nil_append]
    · split
      · next h => exact absurd h (split_ne_nil _ _)
      · next p ps h =>
        rw [h] at ih
        cases ps with
        | nil => simp only [join] at ih ⊢; rw [ih]
        | cons q ps => simp only [join, List.cons_append] at ih ⊢; rw [ih]

theorem split_no_sep (sep : α) (t : List α) : ∀ p ∈ split sep t, sep ∉ p := by
  induction t with
  | nil => simp [split]
  | cons c t ih =>
    simp only [split]
    split
    · intro p hp
      rcases List.mem_cons.1 hp with rfl | hp
      · simp
      · exact ih p hp
    · next hc =>
      split
      · next h => exact absurd h (split_ne_nil _ _)
      · next q qs h =>
        rw [h] at ih
        intro p hp
        rcases List.mem_cons.1 hp with rfl | hp
        · have := ih q (by simp)
          simp only [List.mem_cons, not_or]
          exact ⟨fun e => hc e.symm, this⟩
        · exact ih p (by simp [hp])

theorem split_of_not_mem (sep : α) (t : List α) (h : sep ∉ t) : split sep t = [t] := by
  induction t with
  | nil => rfl
  | cons c t ih =>
    simp only [List.mem_cons, not_or] at h
    simp only [split, ih h.2]
    rw [if_neg fun e => h.1 e.symm]

/-- A text without separators, a separator, and more. -/
theorem split_append (sep : α) (p t : List α) (h : sep ∉ p) :
    split sep (p ++ sep :: t) = p :: split sep t := by
  induction p with
  | nil => simp [split]
  | cons c p ih =>
    simp only [List.mem_cons, not_or] at h
    rw [List.cons_append, split, ih h.2, if_neg fun e => h.1 e.symm]

theorem split_append_sep (sep : α) (t p : List α) :
    split sep (t ++ sep :: p) = split sep t ++ split sep p := by
  induction t with
  | nil => simp [split]
  | cons c t ih =>
    rw [List.cons_append]
    simp only [split, ih]
    split
    · rfl
    · cases h : split sep t with
      | nil => exact absurd h (split_ne_nil _ _)
      | cons q qs => rfl

/-- Splitting what was joined gives the parts back, when no part has a separator. -/
theorem split_join (sep : α) (ps : List (List α)) (hne : ps ≠ []) (h : ∀ p ∈ ps, sep ∉ p) :
    split sep (join sep ps) = ps := by
  induction ps with
  | nil => exact absurd rfl hne
  | cons p ps ih =>
    cases ps with
    | nil => exact split_of_not_mem sep p (h p (by simp))
    | cons q ps =>
      rw [join, split_append sep p _ (h p (by simp)), ih (by simp) fun x hx => h x (by simp [hx])]

theorem split_cons_ne (sep c : α) (t : List α) (h : c ≠ sep) :
    ∃ p ps, split sep t = p :: ps ∧ split sep (c :: t) = (c :: p) :: ps := by
  cases hs : split sep t with
  | nil => exact absurd hs (split_ne_nil _ _)
  | cons p ps => exact ⟨p, ps, rfl, by simp [split, hs, h]⟩

theorem mem_split (sep : α) (t p : List α) (hp : p ∈ split sep t) (c : α) (hc : c ∈ p) : c ∈ t := by
  induction t generalizing p with
  | nil => simp [split] at hp; subst hp; simp at hc
  | cons x t ih =>
    by_cases hx : x = sep
    · simp only [split, hx, if_true] at hp
      rcases List.mem_cons.1 hp with rfl | hp
      · simp at hc
      · exact List.mem_cons_of_mem _ (ih p hp hc)
    · obtain ⟨q, qs, h1, h2⟩ := split_cons_ne sep x t hx
      rw [h2] at hp
      rcases List.mem_cons.1 hp with rfl | hp
      · rcases List.mem_cons.1 hc with rfl | hc
        · simp
        · exact List.mem_cons_of_mem _ (ih q (by simp [h1]) hc)
      · exact List.mem_cons_of_mem _ (ih p (by simp [h1, hp]) hc)

theorem join_append (sep : α) (ps qs : List (List α)) (hp : ps ≠ []) (hq : qs ≠ []) :
    join sep (ps ++ qs) = join sep ps ++ sep :: join sep qs := by
  induction ps with
  | nil => exact absurd rfl hp
  | cons p ps ih =>
    cases ps with
    | nil => rw [List.singleton_append, join_cons _ _ _ hq]; rfl
    | cons r ps =>
      rw [List.cons_append, join_cons _ _ _ (by simp), ih (by simp),
        join_cons sep p (r :: ps) (by simp)]
      simp

/-- `str.partition(sep)` for a separator of one character: text before the first separator, and what
follows it if there is one. -/
def cut (sep : α) : List α → List α × Option (List α)
  | [] => ([], none)
  | c :: cs => if c = sep then ([], some cs) else let r := cut sep cs; (c :: r.1, r.2)

theorem cut_of_not_mem (sep : α) (t : List α) (h : sep ∉ t) : cut sep t = (t, none) := by
  induction t with
  | nil => rfl
  | cons c t ih =>
    simp only [List.mem_cons, not_or] at h
    simp only [cut, ih h.2]
    rw [if_neg fun e => h.1 e.symm]

theorem cut_append (sep : α) (p t : List α) (h : sep ∉ p) :
    cut sep (p ++ sep :: t) = (p, some t) := by
  induction p with
  | nil => simp [cut]
  | cons c p ih =>
    simp only [List.mem_cons, not_or] at h
    rw [List.cons_append, cut, if_neg fun e => h.1 e.symm, ih h.2]

end Verif.Text

import Verif.Common.Strings
/-!
# Splitting and joining text (lists of characters)

Go's `strings.SplitN(s, sep, 2)`, `strings.Split`, `strings.Join`, `strings.HasPrefix` for single-character separators, on lists of
characters (any element type with decidable equality).
-/
namespace Verif.Text

variable {α : Type} [DecidableEq α]

/-- `strings.SplitN(s, c, 2)`: the text before and after the first `c`, if there is one. -/
def cut (c : α) : List α → Option (List α × List α)
  | [] => none
  | x :: xs => if x = c then some ([], xs) else (cut c xs).map (fun p => (x :: p.1, p.2))

/-- `strings.Split(s, c)`; never empty. -/
def split (c : α) : List α → List (List α)
  | [] => [[]]
  | x :: xs => if x = c then [] :: split c xs else
    match split c xs with
    | [] => [[x]]
    | y :: ys => (x :: y) :: ys

/-- `strings.Join(l, c)`. -/
def join (c : α) (l : List (List α)) : List α := [c].intercalate l

theorem cut_none {c : α} {s : List α} : cut c s = none ↔ c ∉ s := by
  induction s with
  | nil => simp [cut]
  | cons x xs ih =>
    unfold cut
    split
    · rename_i h; simp [h]
    · rename_i h; simp [ih]; intro _; exact fun h' => h h'.symm

theorem cut_some {c : α} {s a b : List α} : cut c s = some (a, b) ↔ s = a ++ c :: b ∧ c ∉ a := by
  induction s generalizing a b with
  | nil => simp [cut]
  | cons x xs ih =>
    unfold cut
    split
    · rename_i h
      subst h
      constructor
      · intro h; cases h; simp
      · rintro ⟨h, hn⟩
        cases a with
        | nil => simp at h; simp [h]
        | cons y a => simp at h; exact absurd (h.1 ▸ List.mem_cons_self ..) hn
    · rename_i h
      constructor
      · intro he
        cases hc : cut c xs with
        | none => rw [hc] at he; cases he
        | some p =>
          rw [hc] at he
          simp at he
          obtain ⟨rfl, rfl⟩ := he
          obtain ⟨rfl, hn⟩ := ih.1 hc
          refine ⟨rfl, ?_⟩
          intro hm
          rcases List.mem_cons.1 hm with hm | hm
          · exact h hm.symm
          · exact hn hm
      · rintro ⟨he, hn⟩
        cases a with
        | nil => simp at he; exact absurd he.1 h
        | cons y a =>
          simp only [List.cons_append, List.cons.injEq] at he
          obtain ⟨rfl, rfl⟩ := he
          rw [ih.2 ⟨rfl, fun hm => hn (List.mem_cons_of_mem _ hm)⟩]
          rfl

theorem cut_append {c : α} {a b : List α} (h : c ∉ a) : cut c (a ++ c :: b) = some (a, b) := cut_some.2 ⟨rfl, h⟩

theorem split_ne_nil {c : α} {s : List α} : split c s ≠ [] := by
  cases s with
  | nil => simp [split]
  | cons x xs => unfold split; split <;> (try split) <;> simp

theorem split_not_mem {c : α} {s : List α} : c ∉ s → split c s = [s] := by
  induction s with
  | nil => simp [split]
  | cons x xs ih =>
    intro h
    unfold split
    rw [if_neg (fun (e : x = c) => h (e ▸ List.mem_cons_self ..)), ih (fun hm => h (List.mem_cons_of_mem _ hm))]

theorem split_cons (c x : α) (xs : List α) : split c (x :: xs) = if x = c then [] :: split c xs else
    match split c xs with
    | [] => [[x]]
    | y :: ys => (x :: y) :: ys := rfl

theorem split_append {c : α} {a b : List α} (h : c ∉ a) : split c (a ++ c :: b) = a :: split c b := by
  induction a with
  | nil => simp [split]
  | cons x xs ih =>
    rw [List.cons_append, split_cons]
    rw [if_neg (fun (e : x = c) => h (e ▸ List.mem_cons_self ..)), ih (fun hm => h (List.mem_cons_of_mem _ hm))]

/-- Splitting at a separator that is the last one. -/
theorem split_concat {c : α} {a b : List α} (h : c ∉ b) : split c (a ++ c :: b) = split c a ++ [b] := by
  induction a with
  | nil => simp [split, split_not_mem h]
  | cons x xs ih =>
    rw [List.cons_append, split_cons, split_cons]
    by_cases hx : x = c
    · rw [if_pos hx, if_pos hx, ih]; rfl
    · rw [if_neg hx, if_neg hx, ih]
      cases hs : split c xs with
      | nil => exact absurd hs split_ne_nil
      | cons y ys => rfl

theorem mem_split {c : α} {s : List α} : ∀ p ∈ split c s, c ∉ p := by
  induction s with
  | nil => simp [split]
  | cons x xs ih =>
    unfold split
    split
    · intro p hp
      rcases List.mem_cons.1 hp with rfl | hp
      · simp
      · exact ih p hp
    · rename_i hx
      cases hs : split c xs with
      | nil => exact absurd hs split_ne_nil
      | cons y ys =>
        rw [hs] at ih
        intro p hp
        rcases List.mem_cons.1 hp with rfl | hp
        · intro hm
          rcases List.mem_cons.1 hm with hm | hm
          · exact hx hm.symm
          · exact ih y (List.mem_cons_self ..) hm
        · exact ih p (List.mem_cons_of_mem _ hp)

theorem join_split {c : α} {s : List α} : join c (split c s) = s := by
  induction s with
  | nil => simp [split, join, List.intercalate]
  | cons x xs ih =>
    unfold split
    split
    · rename_i hx
      subst hx
      cases hs : split x xs with
      | nil => exact absurd hs split_ne_nil
      | cons y ys =>
        rw [hs] at ih
        unfold join at ih ⊢
        rw [List.intercalate_cons_cons, ih]
        rfl
    · cases hs : split c xs with
      | nil => exact absurd hs split_ne_nil
      | cons y ys =>
        rw [hs] at ih
        unfold join at ih ⊢
        cases ys with
        | nil => simp [List.intercalate] at ih ⊢; exact ih
        | cons z zs => rw [List.intercalate_cons_cons] at ih ⊢; simp at ih ⊢; exact ih

theorem split_join {c : α} {l : List (List α)} (hl : l ≠ []) (h : ∀ p ∈ l, c ∉ p) : split c (join c l) = l := by
  induction l with
  | nil => exact absurd rfl hl
  | cons a l ih =>
    cases l with
    | nil => simp [join, List.intercalate]; exact split_not_mem (h a (by simp))
    | cons b l =>
      unfold join
      rw [List.intercalate_cons_cons]
      simp only [List.append_assoc, List.singleton_append]
      rw [split_append (h a (by simp))]
      have := ih (by simp) (fun p hp => h p (List.mem_cons_of_mem _ hp))
      unfold join at this
      rw [this]

/-- Either the separator does not occur, or there is a last one. -/
theorem last_sep (c : α) (s : List α) : c ∉ s ∨ ∃ a b, s = a ++ c :: b ∧ c ∉ b := by
  induction s with
  | nil => simp
  | cons x xs ih =>
    rcases ih with h | ⟨a, b, rfl, h⟩
    · by_cases hx : x = c
      · exact .inr ⟨[], xs, by simp [hx], h⟩
      · left; intro hm
        rcases List.mem_cons.1 hm with hm | hm
        · exact hx hm.symm
        · exact h hm
    · exact .inr ⟨x :: a, b, rfl, h⟩

end Verif.Text

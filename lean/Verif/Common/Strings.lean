/-! # Lemmas about separators in strings -/
namespace Verif

/-- Splitting at the first separator is unambiguous. -/
theorem sep_inj {α : Type} {c : α} {a b s t : List α} (ha : c ∉ a) (hb : c ∉ b)
    (h : a ++ c :: s = b ++ c :: t) : a = b ∧ s = t := by
  induction a generalizing b with
  | nil =>
    cases b with
    | nil => simp at h; exact ⟨rfl, h⟩
    | cons x b =>
      simp only [List.nil_append, List.cons_append, List.cons.injEq] at h
      exact absurd (h.1 ▸ List.mem_cons_self ..) hb
  | cons x a ih =>
    cases b with
    | nil =>
      simp only [List.nil_append, List.cons_append, List.cons.injEq] at h
      exact absurd (h.1 ▸ List.mem_cons_self ..) ha
    | cons y b =>
      simp only [List.cons_append, List.cons.injEq] at h
      have := ih (fun h => ha (List.mem_cons_of_mem _ h)) (fun h => hb (List.mem_cons_of_mem _ h)) h.2
      exact ⟨by rw [h.1, this.1], this.2⟩

/-- Splitting at the first separator, with nothing after it on one side. -/
theorem sep_ne {α : Type} {c : α} {a b s : List α} (ha : c ∉ a)
    (h : a = b ++ c :: s) : False := by
  apply ha; rw [h]; simp

theorem intercalate_mem {α : Type} {c x : α} {l : List (List α)}
    (h : x ∈ [c].intercalate l) : x = c ∨ ∃ a ∈ l, x ∈ a := by
  induction l with
  | nil => simp [List.intercalate] at h
  | cons a l ih =>
    cases l with
    | nil => exact .inr ⟨a, by simp, by simpa [List.intercalate] using h⟩
    | cons b l =>
      rw [List.intercalate_cons_cons] at h
      simp only [List.append_assoc, List.mem_append, List.mem_singleton] at h
      rcases h with h | h | h
      · exact .inr ⟨a, by simp, h⟩
      · exact .inl h
      · rcases ih h with h | ⟨y, hy, h⟩
        · exact .inl h
        · exact .inr ⟨y, List.mem_cons_of_mem _ hy, h⟩

/-- Joining with a separator is injective on nonempty lists of separator-free strings. -/
theorem intercalate_inj {α : Type} {c : α} {a b : List (List α)} (ha : a ≠ []) (hb : b ≠ [])
    (sa : ∀ s ∈ a, c ∉ s) (sb : ∀ s ∈ b, c ∉ s)
    (h : [c].intercalate a = [c].intercalate b) : a = b := by
  induction a generalizing b with
  | nil => exact absurd rfl ha
  | cons x a ih =>
    cases b with
    | nil => exact absurd rfl hb
    | cons y b =>
      have hx := sa x (List.mem_cons_self ..)
      have hy := sb y (List.mem_cons_self ..)
      cases a with
      | nil =>
        cases b with
        | nil => simpa [List.intercalate] using h
        | cons y' b =>
          rw [List.intercalate_cons_cons] at h
          exact (sep_ne hx (by simpa [List.intercalate] using h)).elim
      | cons x' a =>
        cases b with
        | nil =>
          rw [List.intercalate_cons_cons] at h
          exact (sep_ne hy (by simpa [List.intercalate] using h.symm)).elim
        | cons y' b =>
          rw [List.intercalate_cons_cons, List.intercalate_cons_cons] at h
          simp only [List.append_assoc, List.singleton_append] at h
          have := sep_inj hx hy h
          rw [this.1, ih (by simp) (by simp) (fun s hs => sa s (List.mem_cons_of_mem _ hs))
            (fun s hs => sb s (List.mem_cons_of_mem _ hs)) this.2]

end Verif

/-!
# Stable insertion sort

`sort.Strings`, `sort.Stable` and friends are modelled by a stable sort.  For inputs without
order-equivalent distinct elements every sorting algorithm gives the same answer, so the choice of
algorithm is immaterial; insertion sort reduces in the kernel, which keeps concrete
examples checkable by `decide`.
-/
namespace Verif

variable {α : Type}

/-- Insert `a` before the first element that is not strictly smaller (keeps the order of equals). -/
def insertBy (le : α → α → Bool) (a : α) : List α → List α
  | [] => [a]
  | b :: l => if le a b then a :: b :: l else b :: insertBy le a l

/-- Stable insertion sort. -/
def sortBy (le : α → α → Bool) : List α → List α
  | [] => []
  | a :: l => insertBy le a (sortBy le l)

theorem insertBy_perm (le : α → α → Bool) (a : α) (l : List α) :
    (insertBy le a l).Perm (a :: l) := by
  induction l with
  | nil => exact List.Perm.refl _
  | cons b l ih =>
    simp only [insertBy]
    split
    · exact List.Perm.refl _
    · exact (ih.cons b).trans (List.Perm.swap a b l)

theorem sortBy_perm (le : α → α → Bool) (l : List α) : (sortBy le l).Perm l := by
  induction l with
  | nil => exact List.Perm.refl _
  | cons a l ih => exact (insertBy_perm le a _).trans (ih.cons a)

theorem mem_sortBy {le : α → α → Bool} {l : List α} {a : α} : a ∈ sortBy le l ↔ a ∈ l :=
  (sortBy_perm le l).mem_iff

theorem nodup_sortBy {le : α → α → Bool} {l : List α} : (sortBy le l).Nodup ↔ l.Nodup :=
  (sortBy_perm le l).nodup_iff

theorem length_sortBy {le : α → α → Bool} {l : List α} : (sortBy le l).length = l.length :=
  (sortBy_perm le l).length_eq

theorem insertBy_pairwise {le : α → α → Bool}
    (trans : ∀ a b c, le a b = true → le b c = true → le a c = true)
    (total : ∀ a b, le a b = true ∨ le b a = true) (a : α) (l : List α)
    (h : l.Pairwise (fun x y => le x y = true)) :
    (insertBy le a l).Pairwise (fun x y => le x y = true) := by
  induction l with
  | nil => simp [insertBy]
  | cons b l ih =>
    simp only [insertBy]
    have hb := List.pairwise_cons.1 h
    split
    · rename_i hab
      refine List.pairwise_cons.2 ⟨?_, h⟩
      intro c hc
      rcases List.mem_cons.1 hc with rfl | hc
      · exact hab
      · exact trans _ _ _ hab (hb.1 c hc)
    · rename_i hab
      refine List.pairwise_cons.2 ⟨?_, ih hb.2⟩
      intro c hc
      rcases List.mem_cons.1 ((insertBy_perm le a l).mem_iff.1 hc) with rfl | hc
      · rcases total c b with h' | h'
        · exact absurd h' hab
        · exact h'
      · exact hb.1 c hc

theorem sortBy_pairwise {le : α → α → Bool}
    (trans : ∀ a b c, le a b = true → le b c = true → le a c = true)
    (total : ∀ a b, le a b = true ∨ le b a = true) (l : List α) :
    (sortBy le l).Pairwise (fun x y => le x y = true) := by
  induction l with
  | nil => simp [sortBy]
  | cons a l ih => exact insertBy_pairwise trans total a _ ih

/-- Sorting is canonical on permutations whenever order-equivalent members are equal. -/
theorem sortBy_eq_of_perm {le : α → α → Bool}
    (trans : ∀ a b c, le a b = true → le b c = true → le a c = true)
    (total : ∀ a b, le a b = true ∨ le b a = true) {l₁ l₂ : List α}
    (anti : ∀ a b, a ∈ l₁ → b ∈ l₁ → le a b = true → le b a = true → a = b)
    (h : l₁.Perm l₂) : sortBy le l₁ = sortBy le l₂ := by
  refine List.Perm.eq_of_pairwise (le := fun x y => le x y = true) ?_
    (sortBy_pairwise trans total _) (sortBy_pairwise trans total _)
    (((sortBy_perm le l₁).trans h).trans (sortBy_perm le l₂).symm)
  intro a b ha hb
  exact anti a b (mem_sortBy.1 ha) (h.mem_iff.2 (mem_sortBy.1 hb))

/-- A sorted list is left unchanged by sorting (stability on already sorted input). -/
theorem sortBy_eq_self {le : α → α → Bool} {l : List α}
    (h : l.Pairwise (fun x y => le x y = true)) : sortBy le l = l := by
  induction l with
  | nil => rfl
  | cons a l ih =>
    have h' := List.pairwise_cons.1 h
    simp only [sortBy, ih h'.2]
    cases l with
    | nil => rfl
    | cons b l => simp [insertBy, h'.1 b (List.mem_cons_self ..)]

/-- String order used by `sort.Strings`. -/
def strLe (a b : String) : Bool := decide (a ≤ b)

theorem strLe_trans (a b c : String) : strLe a b = true → strLe b c = true → strLe a c = true := by
  simp only [strLe, decide_eq_true_eq]; exact String.le_trans

theorem strLe_total (a b : String) : strLe a b = true ∨ strLe b a = true := by
  simp only [strLe, decide_eq_true_eq]; exact String.le_total a b

theorem strLe_antisymm {a b : String} : strLe a b = true → strLe b a = true → a = b := by
  simp only [strLe, decide_eq_true_eq]; exact String.le_antisymm

/-- `sort.Strings`. -/
def sortStrings (l : List String) : List String := sortBy strLe l

/-- Stability: sorting does not reorder the members of a class of mutually equivalent elements. -/
theorem insertBy_filter {le : α → α → Bool} {p : α → Bool} (a : α) (l : List α)
    (h : p a = true → ∀ b ∈ l, p b = true → le a b = true) :
    (insertBy le a l).filter p = (a :: l).filter p := by
  induction l with
  | nil => rfl
  | cons b l ih =>
    unfold insertBy
    split
    · rfl
    · rename_i hle
      have ih := ih (fun ha c hc => h ha c (List.mem_cons_of_mem _ hc))
      rw [List.filter_cons, ih]
      by_cases ha : p a = true
      · have hb : ¬ p b = true := fun hb => hle (h ha b (List.mem_cons_self ..) hb)
        simp [List.filter_cons, ha, hb]
      · simp [List.filter_cons, ha]

theorem sortBy_filter {le : α → α → Bool} {p : α → Bool} (l : List α)
    (h : ∀ a ∈ l, ∀ b ∈ l, p a = true → p b = true → le a b = true) :
    (sortBy le l).filter p = l.filter p := by
  induction l with
  | nil => rfl
  | cons a l ih =>
    unfold sortBy
    rw [insertBy_filter, List.filter_cons, List.filter_cons,
      ih (fun x hx y hy => h x (List.mem_cons_of_mem _ hx) y (List.mem_cons_of_mem _ hy))]
    intro ha b hb
    exact h a (List.mem_cons_self ..) b (List.mem_cons_of_mem _ (mem_sortBy.1 hb)) ha

/-- Filtering before or after a stable sort gives the same list. -/
theorem insertBy_filter_comm {le : α → α → Bool} (trans : ∀ a b c, le a b = true → le b c = true → le a c = true)
    (p : α → Bool) (a : α) (l : List α) (hl : l.Pairwise (fun x y => le x y = true)) :
    (insertBy le a l).filter p = if p a then insertBy le a (l.filter p) else l.filter p := by
  induction l with
  | nil => by_cases h : p a <;> simp [insertBy, h]
  | cons b l ih =>
    rw [List.pairwise_cons] at hl
    have ih := ih hl.2
    rw [show insertBy le a (b :: l) = if le a b then a :: b :: l else b :: insertBy le a l from rfl]
    by_cases hle : le a b = true
    · simp only [hle, if_true]
      by_cases ha : p a = true
      · simp only [ha, if_true, List.filter_cons]
        by_cases hb : p b = true
        · simp [hb, insertBy, hle]
        · simp only [hb, Bool.false_eq_true, if_false]
          cases hf : l.filter p with
          | nil => simp [insertBy]
          | cons c l' =>
            have hc : c ∈ l := (List.mem_filter.1 (hf ▸ List.mem_cons_self .. : c ∈ l.filter p)).1
            simp [insertBy, trans _ _ _ hle (hl.1 c hc)]
      · simp [ha, List.filter_cons]
    · simp only [hle, Bool.false_eq_true, if_false, List.filter_cons, ih]
      by_cases ha : p a = true <;> by_cases hb : p b = true <;> simp [ha, hb, insertBy, hle]

theorem sortBy_filter_comm {le : α → α → Bool} (trans : ∀ a b c, le a b = true → le b c = true → le a c = true)
    (total : ∀ a b, le a b = true ∨ le b a = true) (p : α → Bool) (l : List α) :
    (sortBy le l).filter p = sortBy le (l.filter p) := by
  induction l with
  | nil => rfl
  | cons a l ih =>
    rw [sortBy, insertBy_filter_comm trans p a _ (sortBy_pairwise trans total l), ih, List.filter_cons]
    by_cases h : p a = true <;> simp [h, sortBy]

/-- Two duplicate-free sorted string lists with the same members are equal. -/
theorem sorted_nodup_ext {l₁ l₂ : List String}
    (s₁ : l₁.Pairwise (fun x y => strLe x y = true)) (s₂ : l₂.Pairwise (fun x y => strLe x y = true))
    (n₁ : l₁.Nodup) (n₂ : l₂.Nodup) (h : ∀ a, a ∈ l₁ ↔ a ∈ l₂) : l₁ = l₂ :=
  List.Perm.eq_of_pairwise (le := fun x y => strLe x y = true)
    (fun _ _ _ _ => strLe_antisymm) s₁ s₂ ((List.perm_ext_iff_of_nodup n₁ n₂).2 h)

theorem sortStrings_perm_eq {l₁ l₂ : List String} (h : l₁.Perm l₂) :
    sortStrings l₁ = sortStrings l₂ :=
  sortBy_eq_of_perm strLe_trans strLe_total (fun _ _ _ _ => strLe_antisymm) h

theorem strLt_iff {a b : String} : a < b ↔ strLe a b = true ∧ a ≠ b := by
  simp only [strLe, decide_eq_true_eq]
  constructor
  · intro h
    refine ⟨?_, ?_⟩
    · rcases String.le_total a b with h' | h'
      · exact h'
      · exact absurd h (String.not_lt.2 h')
    · rintro rfl
      exact String.lt_irrefl _ h
  · rintro ⟨h, hne⟩
    rcases Decidable.em (a < b) with h' | h'
    · exact h'
    · exact absurd (String.le_antisymm h (String.not_lt.1 h')) hne

theorem nodup_eraseDups (l : List String) : l.eraseDups.Nodup := by
  match l with
  | [] => simp
  | a :: l =>
    rw [List.eraseDups_cons]
    refine List.nodup_cons.2 ⟨?_, nodup_eraseDups _⟩
    rw [List.mem_eraseDups]
    simp
  termination_by l.length
  decreasing_by
    simp only [List.length_cons]
    exact Nat.lt_succ_of_le (List.length_filter_le _ _)

end Verif

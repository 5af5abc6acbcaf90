/-! # Pointwise relation between two lists of the same length -/
namespace Verif

/-- `All2 R [a₁,…,aₙ] [b₁,…,bₙ]` iff `R aᵢ bᵢ` for all `i`. -/
inductive All2 {α β : Type} (R : α → β → Prop) : List α → List β → Prop
  | nil : All2 R [] []
  | cons {a b l m} : R a b → All2 R l m → All2 R (a :: l) (b :: m)

namespace All2
variable {α β : Type} {R : α → β → Prop}

instance decAll2 [∀ a b, Decidable (R a b)] : ∀ l m, Decidable (All2 R l m)
  | [], [] => isTrue .nil
  | [], _ :: _ => isFalse (fun h => by cases h)
  | _ :: _, [] => isFalse (fun h => by cases h)
  | a :: l, b :: m =>
    if h : R a b then
      match decAll2 l m with
      | isTrue h' => isTrue (.cons h h')
      | isFalse h' => isFalse (fun hc => by cases hc with | cons _ h2 => exact h' h2)
    else isFalse (fun hc => by cases hc with | cons h1 _ => exact h h1)

theorem append {l l' : List α} {m m' : List β} (h : All2 R l m) (h' : All2 R l' m') :
    All2 R (l ++ l') (m ++ m') := by
  induction h with
  | nil => exact h'
  | cons hab _ ih => exact .cons hab ih

theorem length_eq {l : List α} {m : List β} (h : All2 R l m) : l.length = m.length := by
  induction h with
  | nil => rfl
  | cons _ _ ih => simp [ih]

theorem exists_right {l : List α} {m : List β} (h : All2 R l m) {a : α} (ha : a ∈ l) : ∃ b ∈ m, R a b := by
  induction h with
  | nil => cases ha
  | cons hab _ ih =>
    rcases List.mem_cons.1 ha with rfl | ha
    · exact ⟨_, List.mem_cons_self .., hab⟩
    · obtain ⟨b, hb, hR⟩ := ih ha
      exact ⟨b, List.mem_cons_of_mem _ hb, hR⟩

theorem exists_left {l : List α} {m : List β} (h : All2 R l m) {b : β} (hb : b ∈ m) : ∃ a ∈ l, R a b := by
  induction h with
  | nil => cases hb
  | cons hab _ ih =>
    rcases List.mem_cons.1 hb with rfl | hb
    · exact ⟨_, List.mem_cons_self .., hab⟩
    · obtain ⟨a, ha, hR⟩ := ih hb
      exact ⟨a, List.mem_cons_of_mem _ ha, hR⟩

theorem imp {S : α → β → Prop} {l : List α} {m : List β} (h : All2 R l m)
    (hi : ∀ a ∈ l, ∀ b ∈ m, R a b → S a b) : All2 S l m := by
  induction h with
  | nil => exact .nil
  | cons hab _ ih =>
    exact .cons (hi _ (List.mem_cons_self ..) _ (List.mem_cons_self ..) hab)
      (ih (fun a ha b hb => hi a (List.mem_cons_of_mem _ ha) b (List.mem_cons_of_mem _ hb)))

theorem map_right {f : α → β} {l : List α} (h : ∀ a ∈ l, R a (f a)) : All2 R l (l.map f) := by
  induction l with
  | nil => exact .nil
  | cons a l ih =>
    exact .cons (h a (List.mem_cons_self ..)) (ih (fun b hb => h b (List.mem_cons_of_mem _ hb)))

end All2
end Verif

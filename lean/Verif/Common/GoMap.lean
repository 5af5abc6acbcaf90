/-!
# Go maps as association lists

A Go `map[K]V` is modelled by a list of entries with pairwise distinct keys, in insertion order.  The
insertion order is never observable in the model except through `Sched.order`, which permutes it arbitrarily.
-/
namespace Verif.GoMap

variable {κ ν α : Type} [DecidableEq κ]

/-- `m[k] = v`: overwrite in place, or add an entry. -/
def put (m : List (κ × ν)) (k : κ) (v : ν) : List (κ × ν) :=
  match m with
  | [] => [(k, v)]
  | (k', v') :: m => if k' = k then (k, v) :: m else (k', v') :: put m k v

/-- `v, ok := m[k]`. -/
def get (m : List (κ × ν)) (k : κ) : Option ν :=
  match m with
  | [] => none
  | (k', v') :: m => if k' = k then some v' else get m k

/-- `m[k] = append(m[k], a)` on a map of slices. -/
def appendAt (m : List (κ × List α)) (k : κ) (a : α) : List (κ × List α) :=
  match m with
  | [] => [(k, [a])]
  | (k', l) :: m => if k' = k then (k', l ++ [a]) :: m else (k', l) :: appendAt m k a

/-- The keys of the map. -/
def keys (m : List (κ × ν)) : List κ := m.map (·.1)

/-- Well-formed: keys are pairwise distinct. -/
def WF (m : List (κ × ν)) : Prop := (keys m).Nodup

omit [DecidableEq κ] in
theorem mem_keys {m : List (κ × ν)} {k : κ} : k ∈ keys m ↔ ∃ v, (k, v) ∈ m := by
  simp [keys]

theorem mem_keys_put {m : List (κ × ν)} {k k' : κ} {v : ν} :
    k' ∈ keys (put m k v) ↔ k' = k ∨ k' ∈ keys m := by
  induction m with
  | nil => simp [put, keys]
  | cons e m ih =>
    obtain ⟨k₀, v₀⟩ := e
    simp only [put]
    split
    · rename_i h; subst h; simp [keys]
    · simp only [keys, List.map_cons, List.mem_cons] at ih ⊢
      rw [ih]
      constructor
      · rintro (h | h | h) <;> simp [h]
      · rintro (h | h | h) <;> simp [h]

theorem put_wf {m : List (κ × ν)} (h : WF m) (k : κ) (v : ν) : WF (put m k v) := by
  induction m with
  | nil => simp [put, WF, keys]
  | cons e m ih =>
    obtain ⟨k₀, v₀⟩ := e
    have h' : k₀ ∉ keys m ∧ WF m := by simpa [WF, keys] using h
    simp only [put]
    split
    · rename_i hk; subst hk; exact h
    · rename_i hk
      have : k₀ ∉ keys (put m k v) := by
        rw [mem_keys_put]; rintro (h1 | h1)
        · exact hk h1
        · exact h'.1 h1
      have := List.nodup_cons.2 ⟨this, ih h'.2⟩
      simpa [WF, keys] using this

theorem mem_put {m : List (κ × ν)} (h : WF m) {k : κ} {v : ν} {e : κ × ν} :
    e ∈ put m k v ↔ e = (k, v) ∨ (e ∈ m ∧ e.1 ≠ k) := by
  induction m with
  | nil => simp [put]
  | cons e₀ m ih =>
    obtain ⟨k₀, v₀⟩ := e₀
    have h' : k₀ ∉ keys m ∧ WF m := by simpa [WF, keys] using h
    simp only [put]
    split
    · rename_i hk; subst hk
      simp only [List.mem_cons]
      constructor
      · rintro (h1 | h1)
        · exact .inl h1
        · refine .inr ⟨.inr h1, ?_⟩
          intro he
          apply h'.1
          rw [← he]; exact mem_keys.2 ⟨e.2, h1⟩
      · rintro (h1 | ⟨h1 | h1, h2⟩)
        · exact .inl h1
        · exact absurd (by rw [h1]) h2
        · exact .inr h1
    · rename_i hk
      simp only [List.mem_cons, ih h'.2]
      constructor
      · rintro (h1 | h1 | h1)
        · exact .inr ⟨.inl h1, by rw [h1]; exact hk⟩
        · exact .inl h1
        · exact .inr ⟨.inr h1.1, h1.2⟩
      · rintro (h1 | ⟨h1 | h1, h2⟩)
        · exact .inr (.inl h1)
        · exact .inl h1
        · exact .inr (.inr ⟨h1, h2⟩)

theorem mem_of_mem_put {m : List (κ × ν)} {k : κ} {v : ν} {e : κ × ν}
    (h : e ∈ put m k v) : e = (k, v) ∨ e ∈ m := by
  induction m with
  | nil => simp [put] at h; exact .inl h
  | cons e₀ m ih =>
    obtain ⟨k₀, v₀⟩ := e₀
    simp only [put] at h
    split at h
    · rcases List.mem_cons.1 h with h | h
      · exact .inl h
      · exact .inr (List.mem_cons_of_mem _ h)
    · rcases List.mem_cons.1 h with h | h
      · exact .inr (h ▸ List.mem_cons_self ..)
      · rcases ih h with h | h
        · exact .inl h
        · exact .inr (List.mem_cons_of_mem _ h)

theorem get_eq_some {m : List (κ × ν)} (h : WF m) {k : κ} {v : ν} :
    get m k = some v ↔ (k, v) ∈ m := by
  induction m with
  | nil => simp [get]
  | cons e₀ m ih =>
    obtain ⟨k₀, v₀⟩ := e₀
    have h' : k₀ ∉ keys m ∧ WF m := by simpa [WF, keys] using h
    simp only [get]
    split
    · rename_i hk; subst hk
      simp only [Option.some.injEq, List.mem_cons, Prod.mk.injEq, true_and]
      constructor
      · intro h1; exact .inl h1.symm
      · rintro (h1 | h1)
        · exact h1.symm
        · exact absurd (mem_keys.2 ⟨v, h1⟩) h'.1
    · rename_i hk
      rw [ih h'.2]
      simp only [List.mem_cons, Prod.mk.injEq]
      constructor
      · exact .inr
      · rintro (h1 | h1)
        · exact absurd h1.1.symm hk
        · exact h1

theorem get_eq_none {m : List (κ × ν)} {k : κ} : get m k = none ↔ k ∉ keys m := by
  induction m with
  | nil => simp [get, keys]
  | cons e₀ m ih =>
    obtain ⟨k₀, v₀⟩ := e₀
    simp only [get]
    split
    · rename_i hk; subst hk; simp [keys]
    · rename_i hk
      rw [ih]
      simp only [keys, List.map_cons, List.mem_cons, not_or]
      exact ⟨fun h => ⟨fun h' => hk h'.symm, h⟩, fun h => h.2⟩

theorem get_put {m : List (κ × ν)} {k k' : κ} {v : ν} :
    get (put m k v) k' = if k' = k then some v else get m k' := by
  induction m with
  | nil =>
            simp only [put, get]
            by_cases h : k' = k
            · simp [h]
            · simp [h, Ne.symm h]
  | cons e₀ m ih =>
    obtain ⟨k₀, v₀⟩ := e₀
    simp only [put]
    split
    · rename_i hk; subst hk
      simp only [get]
      by_cases h : k' = k₀
      · simp [h]
      · simp [h, Ne.symm h]
    · rename_i hk
      simp only [get, ih]
      by_cases h : k' = k
      · subst h; simp [hk]
      · simp [h]

omit [DecidableEq κ] in
theorem wf_unique {m : List (κ × ν)} (h : WF m) {k : κ} {v w : ν}
    (h1 : (k, v) ∈ m) (h2 : (k, w) ∈ m) : v = w := by
  induction m with
  | nil => simp at h1
  | cons e₀ m ih =>
    obtain ⟨k₀, v₀⟩ := e₀
    have h' : k₀ ∉ keys m ∧ WF m := by simpa [WF, keys] using h
    rcases List.mem_cons.1 h1 with a | a <;> rcases List.mem_cons.1 h2 with b | b
    · cases a; cases b; rfl
    · cases a; exact absurd (mem_keys.2 ⟨w, b⟩) h'.1
    · cases b; exact absurd (mem_keys.2 ⟨v, a⟩) h'.1
    · exact ih h'.2 a b

omit [DecidableEq κ] in
theorem WF.nodup {m : List (κ × ν)} (h : WF m) : m.Nodup := by
  rw [WF, keys, List.Nodup, List.pairwise_map] at h
  exact List.Pairwise.imp (fun hne h => hne (by rw [h])) h

omit [DecidableEq κ] in
theorem WF.perm {m m' : List (κ × ν)} (h : WF m) (p : m.Perm m') : WF m' :=
  (List.Perm.map Prod.fst p).nodup_iff.1 h

/-! ## Grouping -/

/-- Group a list by key with `appendAt`, as the idiom
`for _, x := range l { m[key(x)] = append(m[key(x)], x) }` does. -/
def groupOn (key : α → κ) (l : List α) : List (κ × List α) :=
  l.foldl (fun b a => appendAt b (key a) a) []

theorem mem_keys_appendAt {m : List (κ × List α)} {k k' : κ} {a : α} :
    k' ∈ keys (appendAt m k a) ↔ k' = k ∨ k' ∈ keys m := by
  induction m with
  | nil => simp [appendAt, keys]
  | cons e m ih =>
    obtain ⟨k₀, v₀⟩ := e
    simp only [appendAt]
    split
    · rename_i h; subst h; simp [keys]
    · simp only [keys, List.map_cons, List.mem_cons] at ih ⊢
      rw [ih]
      constructor
      · rintro (h | h | h) <;> simp [h]
      · rintro (h | h | h) <;> simp [h]

theorem appendAt_wf {m : List (κ × List α)} (h : WF m) (k : κ) (a : α) : WF (appendAt m k a) := by
  induction m with
  | nil => simp [appendAt, WF, keys]
  | cons e m ih =>
    obtain ⟨k₀, v₀⟩ := e
    have h' : k₀ ∉ keys m ∧ WF m := by simpa [WF, keys] using h
    simp only [appendAt]
    split
    · rename_i hk; subst hk; simpa [WF, keys] using h'
    · rename_i hk
      have : k₀ ∉ keys (appendAt m k a) := by
        rw [mem_keys_appendAt]; rintro (h1 | h1)
        · exact hk h1
        · exact h'.1 h1
      have := List.nodup_cons.2 ⟨this, ih h'.2⟩
      simpa [WF, keys] using this

theorem get_appendAt {m : List (κ × List α)} {k k' : κ} {a : α} :
    get (appendAt m k a) k' =
      if k' = k then some (((get m k).getD []) ++ [a]) else get m k' := by
  induction m with
  | nil =>
            simp only [appendAt, get]
            by_cases h : k' = k
            · simp [h]
            · simp [h, Ne.symm h]
  | cons e₀ m ih =>
    obtain ⟨k₀, v₀⟩ := e₀
    simp only [appendAt]
    split
    · rename_i hk; subst hk
      simp only [get]
      by_cases h : k' = k₀
      · simp [h]
      · simp [h, Ne.symm h]
    · rename_i hk
      simp only [get, ih, hk, if_false]
      by_cases h : k' = k
      · subst h; simp [hk]
      · simp [h]

theorem groupOn_concat (key : α → κ) (l : List α) (a : α) :
    groupOn key (l ++ [a]) = appendAt (groupOn key l) (key a) a := by
  simp [groupOn, List.foldl_append]

/-- Induction from the right end of a list. -/
theorem revInduction {α : Type} {P : List α → Prop} (nil : P [])
    (concat : ∀ l a, P l → P (l ++ [a])) : ∀ l, P l := by
  intro l
  rw [← List.reverse_reverse l]
  induction l.reverse with
  | nil => exact nil
  | cons a l ih => rw [List.reverse_cons]; exact concat _ _ ih

theorem groupOn_wf (key : α → κ) (l : List α) : WF (groupOn key l) := by
  induction l using revInduction with
  | nil => simp [groupOn, WF, keys]
  | concat l a ih => rw [groupOn_concat]; exact appendAt_wf ih _ _

theorem get_groupOn (key : α → κ) (l : List α) (k : κ) :
    get (groupOn key l) k =
      if l.filter (fun a => key a = k) = [] then none else some (l.filter (fun a => key a = k)) := by
  induction l using revInduction with
  | nil => simp [groupOn, get]
  | concat l a ih =>
    rw [groupOn_concat, get_appendAt, List.filter_append]
    by_cases hk : k = key a
    · subst hk
      rw [ih]
      by_cases hf : l.filter (fun x => key x = key a) = []
      · simp [hf]
      · simp [hf]
    · have : ¬ key a = k := fun h => hk h.symm
      simp only [hk, if_false, ih, List.filter_cons, this, decide_false, Bool.false_eq_true,
        List.filter_nil, List.append_nil]

theorem mem_groupOn (key : α → κ) (l : List α) {k : κ} {rs : List α} :
    (k, rs) ∈ groupOn key l ↔ rs = l.filter (fun a => key a = k) ∧ rs ≠ [] := by
  rw [← get_eq_some (groupOn_wf key l), get_groupOn]
  constructor
  · intro h
    split at h
    · exact absurd h (by simp)
    · rename_i hne
      cases h
      exact ⟨rfl, hne⟩
  · rintro ⟨rfl, hne⟩
    simp [hne]

end Verif.GoMap

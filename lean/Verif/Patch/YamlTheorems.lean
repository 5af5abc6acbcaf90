import Verif.Patch.YamlLemmas
import Verif.Patch.YamlSpec
/-!
# C38: YAML path edits obey get/set/delete laws
-/
namespace Verif.Patch
open Spec

/-! ## Keys and pairs -/

theorem findKey_none_iff (k : String) : ∀ (c : List Node), findKey k c = none ↔ k ∉ keys c
  | [] => by simp [findKey, keys]
  | [a] => by simp [findKey, keys]
  | a :: b :: c => by
    rw [findKey, keys]
    have ih := findKey_none_iff k c
    by_cases h : a.value = k
    · simp [h]
    · rw [if_neg h]
      simp [Ne.symm h, ih]

theorem findKey_split (k : String) : ∀ {c : List Node} {i : Nat}, findKey k c = some i →
    ∃ pre key old post, pre.length = i ∧ i % 2 = 0 ∧ k ∉ keys pre ∧ key.value = k ∧ c = pre ++ key :: old :: post
  | [], i, h => by cases h
  | [_], i, h => by cases h
  | a :: b :: c, i, h => by
    rw [findKey] at h
    split at h
    · rename_i e; cases h; exact ⟨[], a, b, c, rfl, rfl, by simp [keys], e, rfl⟩
    · rename_i e
      cases hf : findKey k c with
      | none => rw [hf] at h; cases h
      | some j =>
        rw [hf] at h
        simp only [Option.map_some, Option.some.injEq] at h
        subst h
        obtain ⟨pre, key, old, post, h1, h2, h3, h4, h5⟩ := findKey_split k hf
        refine ⟨a :: b :: pre, key, old, post, by simp [h1], by omega, ?_, h4, by simp [h5]⟩
        rw [keys]
        simp only [List.mem_cons, not_or]
        exact ⟨fun e' => e e'.symm, h3⟩

theorem findKey_nodup {k : String} : ∀ {c : List Node} {i : Nat}, (keys c).Nodup → findKey k c = some i → findKey k (c.take i ++ c.drop (i + 2)) = none
  | [], i, _, h => by cases h
  | [_], i, _, h => by cases h
  | a :: b :: c, i, hn, h => by
    rw [keys, List.nodup_cons] at hn
    rw [findKey] at h
    split at h
    · rename_i e
      cases h
      simp only [List.take_zero, List.nil_append, List.drop_succ_cons, List.drop_zero]
      exact (findKey_none_iff k c).2 (e ▸ hn.1)
    · rename_i e
      cases hf : findKey k c with
      | none => rw [hf] at h; cases h
      | some j =>
        rw [hf] at h
        simp only [Option.map_some, Option.some.injEq] at h
        subst h
        have eq : (a :: b :: c).take (j + 2) ++ (a :: b :: c).drop (j + 2 + 2) = a :: b :: (c.take j ++ c.drop (j + 2)) := by simp
        rw [eq, findKey, if_neg e, findKey_nodup hn.2 hf]
        rfl

theorem Spec.Pairs.child {n c : Node} (h : Pairs n) (hc : c ∈ n.content) : Pairs c := fun m hm => h m (.inside hc hm)
theorem Spec.Unique.child {n c : Node} (h : Unique n) (hc : c ∈ n.content) : Unique c := fun m hm => h m (.inside hc hm)

theorem child_mem {n : Node} {k : String} {i : Nat} {v : Node} (h : child n k = some (i, v)) : v ∈ n.content :=
  List.mem_of_getElem? (child_at h).2

/-- The child that was put under a key. -/
theorem child_put {n : Node} {k : String} {i : Nat} {v v' : Node} (h : child n k = some (i, v)) :
    child (n.withContent (n.content.set (i + 1) v')) k = some (i, v') := by
  obtain ⟨h1, h2⟩ := child_at h
  have hs := findKey_spec k h1
  unfold child
  rw [withContent_content, findKey_set_odd k _ i v' hs.1, h1]
  simp only [Option.bind_some]
  rw [List.getElem?_set_self hs.2.1]
  rfl

/-- The other children. -/
theorem child_put_ne {n : Node} {k k' : String} {i : Nat} {v v' : Node} (hk : k ≠ k') (h : child n k = some (i, v)) :
    child (n.withContent (n.content.set (i + 1) v')) k' = child n k' := by
  obtain ⟨h1, h2⟩ := child_at h
  have hs := findKey_spec k h1
  unfold child
  rw [withContent_content, findKey_set_odd k' _ i v' hs.1]
  cases h3 : findKey k' n.content with
  | none => rfl
  | some j =>
    simp only [Option.bind_some]
    rw [List.getElem?_set_ne]
    intro e
    have e : i = j := by omega
    subst e
    obtain ⟨_, _, x, hx, hxk⟩ := hs
    obtain ⟨_, _, y, hy, hyk⟩ := findKey_spec k' h3
    rw [hx] at hy
    cases hy
    exact hk (hxk.symm.trans hyk)

theorem child_extend {n v : Node} {k : String} {path : List String} (he : n.content.length % 2 = 0) (h : child n k = none) :
    child (extend v (k :: path) n) k = some (n.content.length, extend v path emptyMapping) := by
  unfold child
  rw [extend, withContent_content, findKey_append_eq _ _ he (child_none h)]
  simp

theorem child_extend_ne {n v : Node} {k k' : String} {path : List String} (hk : k ≠ k') (he : n.content.length % 2 = 0) :
    child (extend v (k :: path) n) k' = child n k' := by
  unfold child
  rw [extend, withContent_content, findKey_append_ne hk _ _ he]
  cases h3 : findKey k' n.content with
  | none => rfl
  | some j =>
    simp only [Option.bind_some]
    have := (findKey_spec k' h3).2.1
    rw [List.getElem?_append_left this]

/-! ## Setting -/

theorem get_extend (v : Node) (s : List String) : ∀ (p : List String), getFrom (extend v p emptyMapping) (p ++ s) = getFrom v s
  | [] => rfl
  | k :: p => by
    rw [List.cons_append, getFrom]
    have : (extend v (k :: p) emptyMapping).kind = .mapping := rfl
    rw [if_neg (by simp [this]), child_extend rfl rfl]
    exact get_extend v s p

theorem set_get {v : Node} (s : List String) : ∀ (p : List String) {n n' : Node}, Pairs n → setFrom v n p = some n' → getFrom n' (p ++ s) = getFrom v s
  | [], n, n', _, h => by cases h; rfl
  | k :: p, n, n', hp, h => by
    rw [setFrom] at h
    split at h
    · cases h
    · rename_i hm
      have hm : n.kind = .mapping := by simpa using hm
      rw [List.cons_append, getFrom]
      cases hc : child n k with
      | none =>
        rw [hc] at h
        cases h
        rw [if_neg (by simp [extend, hm]), child_extend (hp n (.root n) hm) hc]
        exact get_extend v s p
      | some iv =>
        obtain ⟨i, c⟩ := iv
        rw [hc] at h
        simp only at h
        cases hs : setFrom v c p with
        | none => rw [hs] at h; cases h
        | some c' =>
          rw [hs] at h
          cases h
          rw [if_neg (by simp [hm]), child_put hc]
          exact set_get s p (hp.child (child_mem hc)) hs

theorem get_extend_other (v : Node) : ∀ (p q : List String), Unrelated p q → getFrom (extend v p emptyMapping) q = some none
  | [], q, h => absurd (List.nil_prefix) h.1
  | k :: p, [], h => absurd (List.nil_prefix) h.2
  | k :: p, k' :: q, h => by
    rw [getFrom]
    have : (extend v (k :: p) emptyMapping).kind = .mapping := rfl
    rw [if_neg (by simp [this])]
    by_cases hk : k = k'
    · subst hk
      rw [child_extend rfl rfl]
      exact get_extend_other v p q ⟨fun hp => h.1 (List.cons_prefix_cons.2 ⟨rfl, hp⟩), fun hp => h.2 (List.cons_prefix_cons.2 ⟨rfl, hp⟩)⟩
    · rw [child_extend_ne hk rfl]
      rfl

theorem set_get_other {v : Node} : ∀ (p q : List String) {n n' : Node}, Pairs n → Unrelated p q → setFrom v n p = some n' → getFrom n' q = getFrom n q
  | [], q, n, n', _, hq, h => absurd (List.nil_prefix) hq.1
  | k :: p, [], n, n', _, hq, h => absurd (List.nil_prefix) hq.2
  | k :: p, k' :: q, n, n', hp, hq, h => by
    have hq' : k = k' → Unrelated p q := fun e => ⟨fun hp => hq.1 (List.cons_prefix_cons.2 ⟨e, hp⟩), fun hp => hq.2 (List.cons_prefix_cons.2 ⟨e.symm, hp⟩)⟩
    rw [setFrom] at h
    split at h
    · cases h
    · rename_i hm
      have hm : n.kind = .mapping := by simpa using hm
      rw [getFrom, getFrom]
      cases hc : child n k with
      | none =>
        rw [hc] at h
        cases h
        have he := hp n (.root n) hm
        rw [if_neg (by simp [extend, hm]), if_neg (by simp [hm])]
        by_cases hk : k = k'
        · subst hk
          rw [child_extend he hc, hc]
          exact get_extend_other v p q (hq' rfl)
        · rw [child_extend_ne hk he]
      | some iv =>
        obtain ⟨i, c⟩ := iv
        rw [hc] at h
        simp only at h
        cases hs : setFrom v c p with
        | none => rw [hs] at h; cases h
        | some c' =>
          rw [hs] at h
          cases h
          rw [if_neg (by simp [hm]), if_neg (by simp [hm])]
          by_cases hk : k = k'
          · subst hk
            rw [child_put hc, hc]
            exact set_get_other p q (hp.child (child_mem hc)) (hq' rfl) hs
          · rw [child_put_ne hk hc]

theorem replaced_put {n : Node} {k : String} {i : Nat} {v v' : Node} (h : child n k = some (i, v)) :
    Replaced k n (n.withContent (n.content.set (i + 1) v')) := by
  obtain ⟨h1, h2⟩ := child_at h
  obtain ⟨pre, key, old, post, e1, e2, e3, e4, e5⟩ := findKey_split k h1
  refine ⟨by simp, by simp, pre, key, old, v', post, by omega, e3, e4, e5, ?_⟩
  rw [withContent_content, e5, ← e1, List.set_append_right _ _ (by omega)]
  simp

/-- What the nodes above the one that is set become. -/
theorem set_above {v : Node} (k : String) (s : List String) : ∀ (q : List String) {n n' m : Node}, Pairs n → setFrom v n (q ++ k :: s) = some n' →
    getFrom n q = some (some m) → ∃ m', getFrom n' q = some (some m') ∧ (Replaced k m m' ∨ Added k m m')
  | [], n, n', m, hp, h, hg => by
    cases hg
    refine ⟨n', rfl, ?_⟩
    rw [List.nil_append, setFrom] at h
    split at h
    · cases h
    · cases hc : child n k with
      | none =>
        rw [hc] at h
        cases h
        refine Or.inr ⟨by simp [extend], by simp [extend], (findKey_none_iff _ _).1 (child_none hc), keyNode k, _, ⟨rfl, rfl, rfl, rfl⟩, by rw [extend, withContent_content]⟩
      | some iv =>
        obtain ⟨i, c⟩ := iv
        rw [hc] at h
        simp only at h
        cases hs : setFrom v c s with
        | none => rw [hs] at h; cases h
        | some c' =>
          rw [hs] at h
          cases h
          exact Or.inl (replaced_put hc)
  | k' :: q, n, n', m, hp, h, hg => by
    rw [List.cons_append, setFrom] at h
    rw [getFrom] at hg ⊢
    split at h
    · cases h
    · rename_i hm
      have hm : n.kind = .mapping := by simpa using hm
      rw [if_neg (by simp [hm])] at hg
      cases hc : child n k' with
      | none => rw [hc] at hg; cases hg
      | some iv =>
        obtain ⟨i, c⟩ := iv
        rw [hc] at h hg
        simp only at h hg
        cases hs : setFrom v c (q ++ k :: s) with
        | none => rw [hs] at h; cases h
        | some c' =>
          rw [hs] at h
          cases h
          rw [if_neg (by simp [hm]), child_put hc]
          exact set_above k s q (hp.child (child_mem hc)) hs hg

theorem set_none (v : Node) : ∀ (p : List String) (n : Node), setFrom v n p = none ↔ getFrom n p = none
  | [], n => by simp [setFrom, getFrom]
  | k :: p, n => by
    rw [setFrom, getFrom]
    split
    · simp
    · cases child n k with
      | none => simp
      | some iv => simpa using set_none v p iv.2

/-! ## Deleting -/

theorem child_remove {n : Node} {key : String} (hu : (keys n.content).Nodup) : child (removeKey key n) key = none := by
  unfold removeKey
  cases hf : findKey key n.content with
  | none => unfold child; rw [hf]; rfl
  | some i =>
    unfold child
    rw [withContent_content, findKey_nodup hu hf]
    rfl

theorem child_remove_ne {n : Node} {key k' : String} (hk : key ≠ k') : (child (removeKey key n) k').map (·.2) = (child n k').map (·.2) := by
  unfold removeKey
  cases hf : findKey key n.content with
  | none => rfl
  | some i =>
    obtain ⟨h1, h2⟩ := findKey_remove_ne hk hf
    unfold child
    rw [withContent_content]
    cases hf' : findKey k' n.content with
    | none => rw [h2 hf']; rfl
    | some j =>
      obtain ⟨h3, h4, h5⟩ := h1 j hf'
      rw [h3]
      simp only [Option.bind_some]
      rw [h5]
      cases n.content[j + 1]? <;> rfl

@[simp] theorem removeKey_kind (key : String) (n : Node) : (removeKey key n).kind = n.kind := by unfold removeKey; split <;> simp
@[simp] theorem removeKey_attr (key : String) (n : Node) : (removeKey key n).attr = n.attr := by unfold removeKey; split <;> simp

theorem getFrom_cons (n : Node) (k : String) (p : List String) : getFrom n (k :: p) =
    if n.kind ≠ .mapping then none else match (child n k).map (·.2) with | none => some none | some v => getFrom v p := by
  rw [getFrom]
  split
  · rfl
  · cases child n k <;> rfl

theorem delete_get {key : String} (s : List String) : ∀ (p : List String) {n n' : Node}, Unique n → deleteFrom key n p = some n' → getFrom n' (p ++ key :: s) = some none
  | [], n, n', hu, h => by
    rw [deleteFrom] at h
    split at h
    · cases h
    · rename_i hm
      have hm : n.kind = .mapping := by simpa using hm
      cases h
      rw [List.nil_append, getFrom, if_neg (by simp [hm]), child_remove (hu n (.root n) hm)]
  | k :: p, n, n', hu, h => by
    rw [deleteFrom] at h
    split at h
    · cases h
    · rename_i hm
      have hm : n.kind = .mapping := by simpa using hm
      rw [List.cons_append, getFrom]
      cases hc : child n k with
      | none => rw [hc] at h; cases h; rw [if_neg (by simp [hm]), hc]
      | some iv =>
        obtain ⟨i, c⟩ := iv
        rw [hc] at h
        simp only at h
        cases hs : deleteFrom key c p with
        | none => rw [hs] at h; cases h
        | some c' =>
          rw [hs] at h
          cases h
          rw [if_neg (by simp [hm]), child_put hc]
          exact delete_get s p (hu.child (child_mem hc)) hs

theorem delete_get_other {key : String} : ∀ (p q : List String) {n n' : Node}, Unrelated (p ++ [key]) q → deleteFrom key n p = some n' → getFrom n' q = getFrom n q
  | p, [], n, n', hq, h => absurd (List.nil_prefix) hq.2
  | [], k' :: q, n, n', hq, h => by
    rw [deleteFrom] at h
    split at h
    · cases h
    · rename_i hm
      have hm : n.kind = .mapping := by simpa using hm
      cases h
      have hk : key ≠ k' := by
        intro e
        subst e
        exact hq.1 (by simp)
      rw [getFrom_cons, getFrom_cons, if_neg (by simp [hm]), if_neg (by simp [hm]), child_remove_ne hk]
  | k :: p, k' :: q, n, n', hq, h => by
    have hq' : k = k' → Unrelated (p ++ [key]) q := fun e =>
      ⟨fun hp => hq.1 (by rw [List.cons_append]; exact List.cons_prefix_cons.2 ⟨e, hp⟩), fun hp => hq.2 (by rw [List.cons_append]; exact List.cons_prefix_cons.2 ⟨e.symm, hp⟩)⟩
    rw [deleteFrom] at h
    split at h
    · cases h
    · rename_i hm
      have hm : n.kind = .mapping := by simpa using hm
      cases hc : child n k with
      | none => rw [hc] at h; cases h; rfl
      | some iv =>
        obtain ⟨i, c⟩ := iv
        rw [hc] at h
        simp only at h
        cases hs : deleteFrom key c p with
        | none => rw [hs] at h; cases h
        | some c' =>
          rw [hs] at h
          cases h
          rw [getFrom, getFrom, if_neg (by simp [hm]), if_neg (by simp [hm])]
          by_cases hk : k = k'
          · subst hk
            rw [child_put hc, hc]
            exact delete_get_other p q (hq' rfl) hs
          · rw [child_put_ne hk hc]

theorem delete_parent {key : String} : ∀ (p : List String) {n n' m : Node}, deleteFrom key n p = some n' → getFrom n p = some (some m) →
    ∃ m', getFrom n' p = some (some m') ∧ (Dropped key m m' ∨ m' = m ∧ key ∉ keys m.content)
  | [], n, n', m, h, hg => by
    cases hg
    rw [deleteFrom] at h
    split at h
    · cases h
    · cases h
      refine ⟨_, rfl, ?_⟩
      cases hf : findKey key n.content with
      | none => exact Or.inr ⟨by unfold removeKey; rw [hf], (findKey_none_iff _ _).1 hf⟩
      | some i =>
        obtain ⟨pre, k, old, post, e1, e2, e3, e4, e5⟩ := findKey_split key hf
        refine Or.inl ⟨by simp, by simp, pre, k, old, post, by omega, e3, e4, e5, ?_⟩
        unfold removeKey
        rw [hf]
        simp only [withContent_content]
        rw [e5, ← e1, List.take_left, List.drop_append]
        simp
  | k :: p, n, n', m, h, hg => by
    rw [deleteFrom] at h
    rw [getFrom] at hg ⊢
    split at h
    · cases h
    · rename_i hm
      have hm : n.kind = .mapping := by simpa using hm
      rw [if_neg (by simp [hm])] at hg
      cases hc : child n k with
      | none => rw [hc] at hg; cases hg
      | some iv =>
        obtain ⟨i, c⟩ := iv
        rw [hc] at h hg
        simp only at h hg
        cases hs : deleteFrom key c p with
        | none => rw [hs] at h; cases h
        | some c' =>
          rw [hs] at h
          cases h
          rw [if_neg (by simp [hm]), child_put hc]
          exact delete_parent p hs hg

theorem delete_above {key : String} (k : String) (s : List String) : ∀ (q : List String) {n n' m : Node}, deleteFrom key n (q ++ k :: s) = some n' →
    getFrom n q = some (some m) → ∃ m', getFrom n' q = some (some m') ∧ (Replaced k m m' ∨ m' = m)
  | [], n, n', m, h, hg => by
    cases hg
    refine ⟨n', rfl, ?_⟩
    rw [List.nil_append, deleteFrom] at h
    split at h
    · cases h
    · cases hc : child n k with
      | none => rw [hc] at h; cases h; exact Or.inr rfl
      | some iv =>
        obtain ⟨i, c⟩ := iv
        rw [hc] at h
        simp only at h
        cases hs : deleteFrom key c s with
        | none => rw [hs] at h; cases h
        | some c' =>
          rw [hs] at h
          cases h
          exact Or.inl (replaced_put hc)
  | k' :: q, n, n', m, h, hg => by
    rw [List.cons_append, deleteFrom] at h
    rw [getFrom] at hg ⊢
    split at h
    · cases h
    · rename_i hm
      have hm : n.kind = .mapping := by simpa using hm
      rw [if_neg (by simp [hm])] at hg
      cases hc : child n k' with
      | none => rw [hc] at hg; cases hg
      | some iv =>
        obtain ⟨i, c⟩ := iv
        rw [hc] at h hg
        simp only at h hg
        cases hs : deleteFrom key c (q ++ k :: s) with
        | none => rw [hs] at h; cases h
        | some c' =>
          rw [hs] at h
          cases h
          rw [if_neg (by simp [hm]), child_put hc]
          exact delete_above k s q hs hg

theorem delete_absent {key : String} : ∀ (p : List String) {n : Node}, getFrom n (p ++ [key]) = some none → deleteFrom key n p = some n
  | [], n, h => by
    rw [List.nil_append, getFrom] at h
    rw [deleteFrom]
    split at h
    · cases h
    · rename_i hm
      rw [if_neg hm]
      cases hc : child n key with
      | none => unfold removeKey; rw [child_none hc]
      | some iv => rw [hc] at h; cases h
  | k :: p, n, h => by
    rw [List.cons_append, getFrom] at h
    rw [deleteFrom]
    split at h
    · cases h
    · rename_i hm
      rw [if_neg hm]
      cases hc : child n k with
      | none => rfl
      | some iv =>
        obtain ⟨i, c⟩ := iv
        rw [hc] at h
        simp only at h ⊢
        rw [delete_absent p h]
        simp only [Option.map_some]
        congr 1
        obtain ⟨_, h2⟩ := child_at hc
        have := (List.getElem?_eq_some_iff.1 h2).2
        rw [← this, List.set_getElem_self, withContent_self]

theorem delete_none {key : String} : ∀ (p : List String) (n : Node), deleteFrom key n p = none ↔ getFrom n (p ++ [key]) = none
  | [], n => by
    rw [deleteFrom, List.nil_append, getFrom]
    split
    · simp
    · cases child n key <;> simp [getFrom]
  | k :: p, n => by
    rw [deleteFrom, List.cons_append, getFrom]
    split
    · simp
    · cases child n k with
      | none => simp
      | some iv => simpa using delete_none p iv.2

/-! ## From the root -/

theorem top_putTop {root n : Node} (h : n.kind ≠ .document) : top (putTop root n) = n := by
  obtain ⟨a, c, cs, rfl⟩ | ⟨h1, h2, h3⟩ := root_cases root
  · rfl
  · rw [h3]
    obtain ⟨a, c, cs, rfl⟩ | ⟨h1', _⟩ := root_cases n
    · exact absurd rfl h
    · exact h1'

theorem top_within (root : Node) : Within (top root) root := by
  obtain ⟨a, c, cs, rfl⟩ | ⟨h1, h2, h3⟩ := root_cases root
  · exact .inside (List.mem_cons_self ..) (.root _)
  · rw [h1]; exact .root _

theorem Spec.Within.trans {a b c : Node} (h : Within a b) (h' : Within b c) : Within a c := by
  induction h' with
  | root => exact h
  | inside hm _ ih => exact .inside hm (ih h)

theorem Spec.Pairs.top {root : Node} (h : Pairs root) : Pairs (top root) := fun m hm => h m (hm.trans (top_within root))
theorem Spec.Unique.top {root : Node} (h : Unique root) : Unique (top root) := fun m hm => h m (hm.trans (top_within root))

theorem set_kind {v n n' : Node} {p : List String} (hv : v.kind ≠ .document) (h : setFrom v n p = some n') : n'.kind ≠ .document := by
  cases p with
  | nil => cases h; exact hv
  | cons k p =>
    rw [setFrom] at h
    split at h
    · cases h
    · rename_i hm
      have hm : n.kind = .mapping := by simpa using hm
      split at h
      · cases h; simp [extend, hm]
      · obtain ⟨v', _, rfl⟩ := Option.map_eq_some_iff.1 h
        simp [hm]

theorem delete_kind {key : String} {n n' : Node} {p : List String} (h : deleteFrom key n p = some n') : n'.kind ≠ .document := by
  cases p with
  | nil =>
    rw [deleteFrom] at h
    split at h
    · cases h
    · rename_i hm
      have hm : n.kind = .mapping := by simpa using hm
      cases h
      simp [hm]
  | cons k p =>
    rw [deleteFrom] at h
    split at h
    · cases h
    · rename_i hm
      have hm : n.kind = .mapping := by simpa using hm
      split at h
      · cases h; simp [hm]
      · obtain ⟨v', _, rfl⟩ := Option.map_eq_some_iff.1 h
        simp [hm]

theorem set_top {root val root' : Node} {path : List String} (hv : val.kind ≠ .document) (h : setNode root val path = some root') :
    ∃ n', setFrom val (top root) path = some n' ∧ top root' = n' := by
  rw [setNode_eq] at h
  obtain ⟨n', h1, rfl⟩ := Option.map_eq_some_iff.1 h
  exact ⟨n', h1, top_putTop (set_kind hv h1)⟩

theorem delete_top {root root' : Node} {path : List String} {key : String} (h : deleteNode root (path ++ [key]) = some root') :
    ∃ n', deleteFrom key (top root) path = some n' ∧ top root' = n' := by
  rw [deleteNode_eq] at h
  obtain ⟨n', h1, rfl⟩ := Option.map_eq_some_iff.1 h
  exact ⟨n', h1, top_putTop (delete_kind h1)⟩

theorem path_cases (path : List String) : path = [] ∨ ∃ p key, path = p ++ [key] := by
  by_cases h : path = []
  · exact Or.inl h
  · exact Or.inr ⟨path.dropLast, path.getLast h, (List.dropLast_concat_getLast h).symm⟩

/-! ## The property -/

/-- C38: what was set is what one gets: the new node at the path, and its parts below the path. -/
theorem C38_set (root val root' : Node) (path : List String) (hroot : Pairs root) (hval : val.kind ≠ .document) (h : setNode root val path = some root') :
    getNode root' path = some (some val) ∧ ∀ sub, getNode root' (path ++ sub) = getNode val sub := by
  obtain ⟨n', h1, h2⟩ := set_top hval h
  have hall : ∀ sub, getNode root' (path ++ sub) = getNode val sub := by
    intro sub
    have hvt : top val = val := by
      obtain ⟨a, c, cs, rfl⟩ | ⟨h1', _⟩ := root_cases val
      · exact absurd rfl hval
      · exact h1'
    rw [getNode_eq, getNode_eq, h2, hvt]
    exact set_get sub path hroot.top h1
  refine ⟨?_, hall⟩
  have := set_get [] path hroot.top h1
  rw [List.append_nil] at this
  rw [getNode_eq, h2, this]
  rfl

/-- C38: setting a path leaves every unrelated path as it was: the same node, absent as before, or an error as before. -/
theorem C38_set_other (root val root' : Node) (path other : List String) (hroot : Pairs root) (hval : val.kind ≠ .document)
    (hother : Unrelated path other) (h : setNode root val path = some root') : getNode root' other = getNode root other := by
  obtain ⟨n', h1, h2⟩ := set_top hval h
  rw [getNode_eq, getNode_eq, h2]
  exact set_get_other path other hroot.top hother h1

/-- C38: the mappings on the way to what is set keep their pairs and the order of them: one value is replaced, or one pair is added at the end. -/
theorem C38_set_order (root val root' m : Node) (above : List String) (k : String) (below : List String) (hroot : Pairs root) (hval : val.kind ≠ .document)
    (h : setNode root val (above ++ k :: below) = some root') (hm : getNode root above = some (some m)) :
    ∃ m', getNode root' above = some (some m') ∧ (Replaced k m m' ∨ Added k m m') := by
  obtain ⟨n', h1, h2⟩ := set_top hval h
  rw [getNode_eq] at hm
  rw [getNode_eq, h2]
  exact set_above k below above hroot.top h1 hm

/-- C38: setting fails exactly where getting does. -/
theorem C38_set_error (root val : Node) (path : List String) : setNode root val path = none ↔ getNode root path = none := by
  rw [setNode_eq, getNode_eq, Option.map_eq_none_iff]
  exact set_none val path _

/-- C38, for trees in which no mapping has a key twice: what was deleted is absent, and so is everything below it.
Missing: trees with duplicate keys (`C38_violated`). -/
theorem C38_delete_partial (root root' : Node) (path : List String) (hroot : Unique root) (h : deleteNode root path = some root') (sub : List String) :
    getNode root' (path ++ sub) = some none := by
  obtain rfl | ⟨p, key, rfl⟩ := path_cases path
  · cases h
  · obtain ⟨n', h1, h2⟩ := delete_top h
    rw [getNode_eq, h2, List.append_assoc]
    exact delete_get sub p hroot.top h1

/-- C38: deleting a path leaves every unrelated path as it was. -/
theorem C38_delete_other (root root' : Node) (path other : List String) (hother : Unrelated path other) (h : deleteNode root path = some root') :
    getNode root' other = getNode root other := by
  obtain rfl | ⟨p, key, rfl⟩ := path_cases path
  · cases h
  · obtain ⟨n', h1, h2⟩ := delete_top h
    rw [getNode_eq, getNode_eq, h2]
    exact delete_get_other p other hother h1

/-- C38: deleting drops one pair from the mapping, keeping the others and their order, if there is such a pair; and the mappings above keep theirs. -/
theorem C38_delete_order (root root' m : Node) (path : List String) (key : String) (h : deleteNode root (path ++ [key]) = some root') :
    (getNode root path = some (some m) → ∃ m', getNode root' path = some (some m') ∧ (Dropped key m m' ∨ m' = m ∧ key ∉ keys m.content)) ∧
    ∀ above k below, path = above ++ k :: below → getNode root above = some (some m) →
      ∃ m', getNode root' above = some (some m') ∧ (Replaced k m m' ∨ m' = m) := by
  obtain ⟨n', h1, h2⟩ := delete_top h
  constructor
  · intro hm
    rw [getNode_eq] at hm
    rw [getNode_eq, h2]
    exact delete_parent path h1 hm
  · intro above k below hp hm
    subst hp
    rw [getNode_eq] at hm
    rw [getNode_eq, h2]
    exact delete_above k below above h1 hm

/-- C38: deleting what is absent changes nothing. -/
theorem C38_delete_absent (root : Node) (path : List String) (h : getNode root path = some none) : deleteNode root path = some root := by
  obtain rfl | ⟨p, key, rfl⟩ := path_cases path
  · rw [getNode_eq] at h; cases h
  · rw [getNode_eq] at h
    rw [deleteNode_eq, delete_absent p h, Option.map_some]
    congr 1
    obtain ⟨a, c, cs, rfl⟩ | ⟨h1, h2, h3⟩ := root_cases root
    · rfl
    · rw [h3, h1]

/-- C38: deleting a path that is not empty fails exactly where getting it does. -/
theorem C38_delete_error (root : Node) (path : List String) (hp : path ≠ []) : deleteNode root path = none ↔ getNode root path = none := by
  obtain rfl | ⟨p, key, rfl⟩ := path_cases path
  · exact absurd rfl hp
  · rw [deleteNode_eq, getNode_eq, Option.map_eq_none_iff]
    exact delete_none p _

/-! ## Cases -/

/-- A scalar. -/
def str (s : String) : Node := .mk .scalar { value := s, tag := "!!str" } []

/-- A mapping. -/
def map (l : List (String × Node)) : Node := .mk .mapping { tag := "!!map" } (l.flatMap fun (k, v) => [str k, v])

/-- `{a: {b: x, c: y}, d: z}`, as a document. -/
def sample : Node := .mk .document {} [map [("a", map [("b", str "x"), ("c", str "y")]), ("d", str "z")]]

/-- A decision procedure for `Pairs` and `Unique`. -/
def checkNode (f : Node → Bool) : Node → Bool
  | .mk k a c => f (.mk k a c) && checkList f c
where
  checkList (f : Node → Bool) : List Node → Bool
    | [] => true
    | n :: l => checkNode f n && checkList f l

theorem checkList_mem {f : Node → Bool} : ∀ {l : List Node}, checkNode.checkList f l = true → ∀ {c}, c ∈ l → checkNode f c = true
  | [], _, c, h => by cases h
  | n :: l, h, c, hc => by
    rw [checkNode.checkList, Bool.and_eq_true] at h
    rcases List.mem_cons.1 hc with e | e
    · rw [e]; exact h.1
    · exact checkList_mem h.2 e

theorem check_within {f : Node → Bool} {m root : Node} (h : Within m root) : checkNode f root = true → f m = true := by
  induction h with
  | root n => intro h; cases n; rw [checkNode, Bool.and_eq_true] at h; exact h.1
  | @inside n m c hc _ ih =>
    intro h
    cases n
    rw [checkNode, Bool.and_eq_true] at h
    exact ih (checkList_mem h.2 hc)

theorem pairs_of_check {root : Node} (h : checkNode (fun m => m.kind != .mapping || m.content.length % 2 == 0) root = true) : Pairs root := by
  intro m hm hk
  have := check_within hm h
  simpa [hk] using this

theorem unique_of_check {root : Node} (h : checkNode (fun m => m.kind != .mapping || decide (keys m.content).Nodup) root = true) : Unique root := by
  intro m hm hk
  have := check_within hm h
  simpa [hk] using this

theorem sample_pairs : Pairs sample := pairs_of_check (by decide +kernel)
theorem sample_unique : Unique sample := unique_of_check (by decide +kernel)

/-- The theorems apply to the sample: setting what is there, setting what is not, deleting. -/
example : (setNode sample (str "new") ["a", "c"]).isSome ∧ (setNode sample (str "new") ["e", "f", "g"]).isSome ∧ (deleteNode sample ["a", "b"]).isSome := by decide +kernel
example : Unrelated ["a", "b"] ["a", "c", "d"] ∧ Unrelated ["a", "b"] ["d"] := by unfold Unrelated; decide +kernel
example : setNode sample (str "new") ["d", "x"] = none ∧ getNode sample ["d", "x"] = none := by decide +kernel
example : getNode sample ["a", "x"] = some none := by rfl

/-- C38 is violated by a mapping with a key twice, which the parser of nodes accepts: after the deletion the path is still there. -/
theorem C38_violated : let root := map [("a", str "x"), ("a", str "y")]
    ∃ root', deleteNode root ["a"] = some root' ∧ getNode root' ["a"] = some (some (str "y")) :=
  ⟨map [("a", str "y")], rfl, rfl⟩

end Verif.Patch

import Verif.Patch.Yaml
/-!
# Paths in YAML trees: lemmas
-/
namespace Verif.Patch

/-- The value of a key of a mapping. -/
def child (n : Node) (k : String) : Option (Nat × Node) := (findKey k n.content).bind fun i => (n.content[i + 1]?).map fun v => (i, v)

@[simp] theorem withContent_kind (n : Node) (c : List Node) : (n.withContent c).kind = n.kind := by cases n; rfl
@[simp] theorem withContent_attr (n : Node) (c : List Node) : (n.withContent c).attr = n.attr := by cases n; rfl
@[simp] theorem withContent_content (n : Node) (c : List Node) : (n.withContent c).content = c := by cases n; rfl
@[simp] theorem withContent_self (n : Node) : n.withContent n.content = n := by cases n; rfl
@[simp] theorem withContent_twice (n : Node) (c c' : List Node) : (n.withContent c).withContent c' = n.withContent c' := by cases n; rfl

/-! ## Keys -/

theorem findKey_spec (k : String) : ∀ {c : List Node} {i : Nat}, findKey k c = some i → i % 2 = 0 ∧ i + 1 < c.length ∧ ∃ x, c[i]? = some x ∧ x.value = k
  | [], i, h => by cases h
  | [_], i, h => by cases h
  | a :: b :: c, i, h => by
    rw [findKey] at h
    split at h
    · rename_i e; cases h; exact ⟨rfl, by simp, a, rfl, e⟩
    · cases hf : findKey k c with
      | none => rw [hf] at h; cases h
      | some j =>
        rw [hf] at h
        simp only [Option.map_some, Option.some.injEq] at h
        subst h
        obtain ⟨h1, h2, x, h3, h4⟩ := findKey_spec k hf
        exact ⟨by omega, by simp; omega, x, by simpa using h3, h4⟩

theorem findKey_set_odd (k : String) : ∀ (c : List Node) (j : Nat) (x : Node), j % 2 = 0 → findKey k (c.set (j + 1) x) = findKey k c
  | [], j, x, _ => by simp
  | [a], j, x, _ => by simp [findKey]
  | a :: b :: c, j, x, h => by
    match j with
    | 0 => simp [findKey]
    | j + 2 =>
      have : (a :: b :: c).set (j + 2 + 1) x = a :: b :: c.set (j + 1) x := by simp
      rw [this, findKey, findKey, findKey_set_odd k c j x (by omega)]
    | 1 => omega

theorem findKey_append_ne {k k' : String} (hk : k ≠ k') : ∀ (c : List Node) (v : Node), c.length % 2 = 0 → findKey k' (c ++ [keyNode k, v]) = findKey k' c
  | [], v, _ => by
    have : (keyNode k).value ≠ k' := hk
    simp [findKey, this]
  | [a], v, h => by simp at h
  | a :: b :: c, v, h => by
    simp only [List.length_cons] at h
    show findKey k' (a :: b :: (c ++ [keyNode k, v])) = _
    rw [findKey, findKey, findKey_append_ne hk c v (by omega)]

theorem findKey_append_eq {k : String} : ∀ (c : List Node) (v : Node), c.length % 2 = 0 → findKey k c = none → findKey k (c ++ [keyNode k, v]) = some c.length
  | [], v, _, _ => by
    have : (keyNode k).value = k := rfl
    simp [findKey, this]
  | [a], v, h, _ => by simp at h
  | a :: b :: c, v, h, hn => by
    simp only [List.length_cons] at h
    show findKey k (a :: b :: (c ++ [keyNode k, v])) = _
    rw [findKey] at hn ⊢
    split at hn
    · cases hn
    · rename_i e
      rw [if_neg e, findKey_append_eq c v (by omega) (by simpa using hn)]
      rfl

theorem findKey_remove_ne {k k' : String} (hk : k ≠ k') : ∀ {c : List Node} {i : Nat}, findKey k c = some i →
    (∀ j, findKey k' c = some j → findKey k' (c.take i ++ c.drop (i + 2)) = some (if j < i then j else j - 2) ∧ j ≠ i ∧ (c.take i ++ c.drop (i + 2))[(if j < i then j else j - 2) + 1]? = c[j + 1]?) ∧
    (findKey k' c = none → findKey k' (c.take i ++ c.drop (i + 2)) = none)
  | [], i, h => by cases h
  | [_], i, h => by cases h
  | a :: b :: c, i, h => by
    rw [findKey] at h
    split at h
    · rename_i e
      cases h
      have e' : a.value ≠ k' := fun e' => hk (e ▸ e')
      constructor
      · intro j hj
        rw [findKey, if_neg e'] at hj
        cases hf : findKey k' c with
        | none => rw [hf] at hj; cases hj
        | some j' =>
          rw [hf] at hj
          simp only [Option.map_some, Option.some.injEq] at hj
          subst hj
          refine ⟨by simpa using hf, by omega, by simp⟩
      · intro hj
        rw [findKey, if_neg e'] at hj
        simpa using hj
    · rename_i e
      cases hf : findKey k c with
      | none => rw [hf] at h; cases h
      | some i' =>
        rw [hf] at h
        cases h
        obtain ⟨h1, h2⟩ := findKey_remove_ne hk hf
        have eq : (a :: b :: c).take (i' + 2) ++ (a :: b :: c).drop (i' + 2 + 2) = a :: b :: (c.take i' ++ c.drop (i' + 2)) := by simp
        rw [eq]
        constructor
        · intro j hj
          rw [findKey] at hj ⊢
          split at hj
          · rename_i e'
            cases hj
            rw [if_pos e']
            simp
          · rename_i e'
            rw [if_neg e']
            cases hf' : findKey k' c with
            | none => rw [hf'] at hj; cases hj
            | some j' =>
              rw [hf'] at hj
              cases hj
              obtain ⟨h3, h4, h5⟩ := h1 j' hf'
              rw [h3]
              have hlt : (if j' + 2 < i' + 2 then j' + 2 else j' + 2 - 2) = (if j' < i' then j' else j' - 2) + 2 := by
                have hpar := (findKey_spec k' hf').1
                have hpar' := (findKey_spec k hf).1
                by_cases hlt : j' < i'
                · rw [if_pos hlt, if_pos (by omega)]
                · rw [if_neg hlt, if_neg (by omega)]; omega
              simp only
              refine ⟨by rw [hlt]; rfl, by omega, ?_⟩
              rw [hlt]
              simpa using h5
        · intro hj
          rw [findKey] at hj ⊢
          split at hj
          · cases hj
          · rename_i e'
            rw [if_neg e', h2 (by simpa using hj)]
            rfl

/-! ## From a node on -/

def getFrom (n : Node) : List String → Option (Option Node)
  | [] => some (some n)
  | k :: path =>
    if n.kind ≠ .mapping then none
    else match child n k with
      | none => some none
      | some (_, v) => getFrom v path

def setFrom (val : Node) (n : Node) : List String → Option Node
  | [] => some val
  | k :: path =>
    if n.kind ≠ .mapping then none
    else match child n k with
      | none => some (extend val (k :: path) n)
      | some (i, v) => (setFrom val v path).map fun v' => n.withContent (n.content.set (i + 1) v')

def deleteFrom (key : String) (n : Node) : List String → Option Node
  | [] => if n.kind ≠ .mapping then none else some (removeKey key n)
  | k :: path =>
    if n.kind ≠ .mapping then none
    else match child n k with
      | none => some n
      | some (i, v) => (deleteFrom key v path).map fun v' => n.withContent (n.content.set (i + 1) v')

theorem closestFrom_eq (n : Node) (k : String) (path : List String) : closestFrom n (k :: path) =
    if n.kind ≠ .mapping then none
    else match child n k with
      | none => some ([], k :: path)
      | some (i, v) => (closestFrom v path).map fun (pos, rest) => ((i + 1) :: pos, rest) := by
  rw [closestFrom]
  unfold child
  split
  · rfl
  · cases findKey k n.content with
    | none => rfl
    | some i =>
      simp only [Option.bind_some]
      cases n.content[i + 1]? <;> rfl

theorem child_at {n : Node} {k : String} {i : Nat} {v : Node} (h : child n k = some (i, v)) : findKey k n.content = some i ∧ n.content[i + 1]? = some v := by
  unfold child at h
  cases hf : findKey k n.content with
  | none => rw [hf] at h; cases h
  | some j =>
    rw [hf] at h
    simp only [Option.bind_some] at h
    cases hv : n.content[j + 1]? with
    | none => rw [hv] at h; cases h
    | some w =>
      rw [hv] at h
      cases h
      exact ⟨rfl, hv⟩

theorem child_none {n : Node} {k : String} (h : child n k = none) : findKey k n.content = none := by
  cases hf : findKey k n.content with
  | none => rfl
  | some i =>
    obtain ⟨_, h2, _⟩ := findKey_spec k hf
    unfold child at h
    rw [hf] at h
    simp only [Option.bind_some] at h
    rw [List.getElem?_eq_getElem h2] at h
    cases h

theorem get_eq (n : Node) : ∀ (path : List String), ((closestFrom n path).map fun (pos, rest) => if rest ≠ [] then none else n.at pos) = getFrom n path := by
  intro path
  induction path generalizing n with
  | nil => simp [closestFrom, getFrom, Node.at]
  | cons k path ih =>
    rw [closestFrom_eq, getFrom]
    split
    · rfl
    · cases hc : child n k with
      | none => simp
      | some iv =>
        obtain ⟨i, v⟩ := iv
        simp only
        rw [← ih v]
        cases closestFrom v path with
        | none => rfl
        | some pr =>
          obtain ⟨pos, rest⟩ := pr
          simp only [Option.map_some, Node.at, (child_at hc).2, Option.bind_some]

theorem set_eq (val n : Node) : ∀ (path : List String), ((closestFrom n path).bind fun (pos, rest) =>
    if rest ≠ [] ∧ (n.at pos).map (·.kind) ≠ some .mapping then none else some (n.modify (extend val rest) pos)) = setFrom val n path := by
  intro path
  induction path generalizing n with
  | nil => simp [closestFrom, setFrom, Node.modify, extend]
  | cons k path ih =>
    rw [closestFrom_eq, setFrom]
    split
    · rfl
    · rename_i hk
      have hk : n.kind = .mapping := by simpa using hk
      cases hc : child n k with
      | none => simp [Node.at, hk, Node.modify]
      | some iv =>
        obtain ⟨i, v⟩ := iv
        simp only
        rw [← ih v]
        cases closestFrom v path with
        | none => rfl
        | some pr =>
          obtain ⟨pos, rest⟩ := pr
          simp only [Option.map_some, Option.bind_some, Node.at, (child_at hc).2, Node.modify]
          split <;> rfl

theorem delete_eq (key : String) (n : Node) : ∀ (path : List String), ((closestFrom n path).bind fun (pos, rest) =>
    if rest ≠ [] then some n else if (n.at pos).map (·.kind) ≠ some .mapping then none else some (n.modify (removeKey key) pos)) = deleteFrom key n path := by
  intro path
  induction path generalizing n with
  | nil => simp [closestFrom, deleteFrom, Node.modify, Node.at]
  | cons k path ih =>
    rw [closestFrom_eq, deleteFrom]
    split
    · rfl
    · rename_i hk
      have hk : n.kind = .mapping := by simpa using hk
      cases hc : child n k with
      | none => simp
      | some iv =>
        obtain ⟨i, v⟩ := iv
        simp only
        rw [← ih v]
        have hv := (child_at hc).2
        cases closestFrom v path with
        | none => rfl
        | some pr =>
          obtain ⟨pos, rest⟩ := pr
          simp only [Option.map_some, Option.bind_some, Node.at, hv, Node.modify]
          by_cases hr : rest = []
          · simp only [hr, ne_eq, not_true_eq_false, if_false]
            split <;> rfl
          · simp only [hr, ne_eq, not_false_eq_true, if_true, Option.map_some]
            congr 1
            have hlt := (List.getElem?_eq_some_iff.1 hv).1
            have := (List.getElem?_eq_some_iff.1 hv).2
            rw [← this, List.set_getElem_self, withContent_self]

/-- The node that paths are from: that of the document, or the root. -/
def top (root : Node) : Node :=
  match root with
  | .mk .document _ (c :: _) => c
  | root => root

def putTop (root n : Node) : Node :=
  match root with
  | .mk .document a (_ :: cs) => .mk .document a (n :: cs)
  | _ => n

def isDoc (root : Node) : Prop := root.kind = .document ∧ root.content ≠ []

theorem root_cases (root : Node) : (∃ a c cs, root = .mk .document a (c :: cs)) ∨
    (top root = root ∧ (∀ path, closest root path = closestFrom root path) ∧ ∀ n, putTop root n = n) := by
  match root with
  | .mk .document a (c :: cs) => exact Or.inl ⟨a, c, cs, rfl⟩
  | .mk .document a [] => exact Or.inr ⟨rfl, fun _ => rfl, fun _ => rfl⟩
  | .mk .zero a cs | .mk .sequence a cs | .mk .mapping a cs | .mk .scalar a cs | .mk .alias a cs => exact Or.inr ⟨rfl, fun _ => rfl, fun _ => rfl⟩

theorem doc_at (a : Attr) (c : Node) (cs : List Node) (pos : List Nat) : (Node.mk .document a (c :: cs)).at (0 :: pos) = c.at pos := rfl
theorem doc_modify (f : Node → Node) (a : Attr) (c : Node) (cs : List Node) (pos : List Nat) :
    (Node.mk .document a (c :: cs)).modify f (0 :: pos) = Node.mk .document a (c.modify f pos :: cs) := rfl

theorem getNode_eq (root : Node) (path : List String) : getNode root path = getFrom (top root) path := by
  rw [← get_eq]
  unfold getNode
  obtain ⟨a, c, cs, rfl⟩ | ⟨h1, h2, h3⟩ := root_cases root
  · simp only [closest, top]
    cases closestFrom c path with
    | none => rfl
    | some pr => rfl
  · rw [h1, h2]

theorem setNode_eq (root val : Node) (path : List String) : setNode root val path = (setFrom val (top root) path).map (putTop root) := by
  rw [← set_eq]
  unfold setNode
  obtain ⟨a, c, cs, rfl⟩ | ⟨h1, h2, h3⟩ := root_cases root
  · simp only [closest, top]
    cases closestFrom c path with
    | none => rfl
    | some pr =>
      obtain ⟨pos, rest⟩ := pr
      show (if rest ≠ [] ∧ (c.at pos).map (·.kind) ≠ some .mapping then none else some (Node.mk .document a (c.modify (extend val rest) pos :: cs))) =
        Option.map (putTop (.mk .document a (c :: cs))) (if rest ≠ [] ∧ (c.at pos).map (·.kind) ≠ some .mapping then none else some (c.modify (extend val rest) pos))
      by_cases h : rest ≠ [] ∧ (c.at pos).map (·.kind) ≠ some .mapping
      · rw [if_pos h, if_pos h]; rfl
      · rw [if_neg h, if_neg h]; rfl
  · rw [h1, h2, show putTop root = id from funext h3, Option.map_id]
    rfl

theorem deleteNode_eq (root : Node) (path : List String) (key : String) : deleteNode root (path ++ [key]) = (deleteFrom key (top root) path).map (putTop root) := by
  rw [← delete_eq]
  unfold deleteNode
  simp only [List.getLast?_append, List.getLast?_singleton, Option.some_or, List.dropLast_append_of_ne_nil, ne_eq, List.cons_ne_nil, not_false_eq_true, List.dropLast_singleton, List.append_nil]
  obtain ⟨a, c, cs, rfl⟩ | ⟨h1, h2, h3⟩ := root_cases root
  · simp only [closest, top]
    cases closestFrom c path with
    | none => rfl
    | some pr =>
      obtain ⟨pos, rest⟩ := pr
      show (if ¬ rest = [] then some (Node.mk .document a (c :: cs)) else if ¬ (c.at pos).map (·.kind) = some .mapping then none else some (Node.mk .document a (c.modify (removeKey key) pos :: cs))) =
        Option.map (putTop (.mk .document a (c :: cs))) (if ¬ rest = [] then some c else if ¬ (c.at pos).map (·.kind) = some .mapping then none else some (c.modify (removeKey key) pos))
      by_cases hr : rest = []
      · simp only [hr, not_true_eq_false, if_false]
        by_cases h : ¬ (c.at pos).map (·.kind) = some .mapping
        · rw [if_pos h, if_pos h]; rfl
        · rw [if_neg h, if_neg h]; rfl
      · simp only [hr, not_false_eq_true, if_true, Option.map_some]
        rfl
  · rw [h1, h2, show putTop root = id from funext h3, Option.map_id]
    rfl

end Verif.Patch

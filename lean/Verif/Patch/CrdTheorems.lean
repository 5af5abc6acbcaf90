import Verif.Patch.YamlTheorems
import Verif.Patch.CrdSpec
import Verif.Patch.Crd
/-!
# C39: schema patching only touches schemas
-/
namespace Verif.Patch
open Spec

theorem modify_const (f : Node → Node) : ∀ (pos : List Nat) {n m : Node}, n.at pos = some m → n.modify f pos = n.modify (fun _ => f m) pos
  | [], n, m, h => by cases h; rfl
  | i :: pos, n, m, h => by
    rw [Node.at] at h
    rw [Node.modify, Node.modify]
    cases hc : n.content[i]? with
    | none => rfl
    | some c =>
      rw [hc] at h
      simp only
      rw [modify_const f pos h]

theorem closestFrom_at : ∀ (path : List String) {n : Node} {pos : List Nat} {rest : List String}, closestFrom n path = some (pos, rest) → (n.at pos).isSome
  | [], n, pos, rest, h => by cases h; rfl
  | k :: path, n, pos, rest, h => by
    rw [closestFrom_eq] at h
    split at h
    · cases h
    · cases hc : child n k with
      | none => rw [hc] at h; cases h; rfl
      | some iv =>
        obtain ⟨i, v⟩ := iv
        rw [hc] at h
        obtain ⟨⟨pos', rest'⟩, h1, h2⟩ := Option.map_eq_some_iff.1 h
        cases h2
        rw [Node.at, (child_at hc).2]
        exact closestFrom_at path h1

theorem closest_at {root : Node} {path : List String} {pos : List Nat} {rest : List String} (h : closest root path = some (pos, rest)) : (root.at pos).isSome := by
  obtain ⟨a, c, cs, rfl⟩ | ⟨h1, h2, h3⟩ := root_cases root
  · obtain ⟨⟨pos', rest'⟩, h1, h2⟩ := Option.map_eq_some_iff.1 h
    cases h2
    rw [doc_at]
    exact closestFrom_at path h1
  · rw [h2] at h
    exact closestFrom_at path h

/-- `patch` in terms of getting and setting. -/
theorem patch_eq (s : Schemas) (root : Node) : patch s root =
    match deleteNode root ["spec", "validation"] with
    | none => .err
    | some root =>
      match getNode root ["spec", "versions"] with
      | some (some versions) =>
        if versions.kind ≠ .sequence then .err
        else match patchVersions s versions.content with
          | .ok content => match setNode root (versions.withContent content) ["spec", "versions"] with
            | some root => .ok root
            | none => .err
          | .err => .err
          | .panic => .panic
      | _ => .err := by
  unfold patch
  cases deleteNode root ["spec", "validation"] with
  | none => rfl
  | some root =>
    simp only
    unfold getNode setNode
    cases hc : closest root ["spec", "versions"] with
    | none => rfl
    | some pr =>
      obtain ⟨pos, rest⟩ := pr
      simp only [Option.map_some]
      by_cases hr : rest = []
      · subst hr
        simp only [ne_eq, not_true_eq_false, if_false]
        cases ha : root.at pos with
        | none =>
          have := closest_at hc
          rw [ha] at this
          cases this
        | some versions =>
          simp only
          split
          · rfl
          · cases patchVersions s versions.content with
            | ok content =>
              simp only [Option.bind_some]
              rw [modify_const _ pos ha]
              simp [extend]
            | err => rfl
            | panic => rfl
      · simp [hr]

/-! ## Keeping, and replacing one value -/

theorem replacedBy_put {R : Node → Node → Prop} {n : Node} {k : String} {i : Nat} {v v' : Node} (hm : n.kind = .mapping) (h : child n k = some (i, v)) (hR : R v v') :
    ReplacedBy R k n (n.withContent (n.content.set (i + 1) v')) := by
  obtain ⟨h1, h2⟩ := child_at h
  obtain ⟨pre, key, old, post, e1, e2, e3, e4, e5⟩ := findKey_split k h1
  refine ⟨hm, by simp, by simp, pre, key, old, v', post, by omega, e3, e4, e5, ?_, ?_⟩
  · rw [withContent_content, e5, ← e1, List.set_append_right _ _ (by omega)]
    simp
  · rw [e5, ← e1, List.getElem?_append_right (by omega)] at h2
    simp at h2
    rw [h2]
    exact hR

theorem has_of_child {n : Node} {k : String} {i : Nat} {v : Node} (hm : n.kind = .mapping) (h : child n k = some (i, v)) : Has k v n := by
  obtain ⟨h1, h2⟩ := child_at h
  obtain ⟨pre, key, old, post, e1, e2, e3, e4, e5⟩ := findKey_split k h1
  refine ⟨hm, pre, key, post, by omega, e3, e4, ?_⟩
  rw [e5, ← e1, List.getElem?_append_right (by omega)] at h2
  simp at h2
  rw [e5, h2]

theorem without_removeKey {k : String} {n : Node} (hm : n.kind = .mapping) : Without k n (removeKey k n) := by
  refine ⟨hm, ?_⟩
  have h1 : deleteFrom k n [] = some (removeKey k n) := by rw [deleteFrom, if_neg (by simp [hm])]
  obtain ⟨m', h2, h3⟩ := delete_parent [] h1 rfl
  cases h2
  exact h3

theorem getFrom_one {n v : Node} {k : String} (h : getFrom n [k] = some (some v)) : n.kind = .mapping ∧ ∃ i, child n k = some (i, v) := by
  rw [getFrom] at h
  split at h
  · cases h
  · rename_i hm
    refine ⟨by simpa using hm, ?_⟩
    cases hc : child n k with
    | none => rw [hc] at h; cases h
    | some iv =>
      obtain ⟨i, c⟩ := iv
      rw [hc] at h
      cases h
      exact ⟨i, rfl⟩

theorem set_withSchema {sch v v' : Node} (h : setFrom sch v ["schema", "openAPIV3Schema"] = some v') : WithSchema sch v v' := by
  rw [setFrom] at h
  split at h
  · cases h
  · rename_i hm
    have hm : v.kind = .mapping := by simpa using hm
    cases hc : child v "schema" with
    | none =>
      rw [hc] at h
      cases h
      exact Or.inr ⟨hm, by simp [extend], by simp [extend], (findKey_none_iff _ _).1 (child_none hc), keyNode "schema", _, ⟨rfl, rfl, rfl, rfl⟩, by rw [extend, withContent_content], rfl, keyNode "openAPIV3Schema", ⟨rfl, rfl, rfl, rfl⟩, rfl⟩
    | some iv =>
      obtain ⟨i, c⟩ := iv
      rw [hc] at h
      simp only at h
      obtain ⟨c', h1, rfl⟩ := Option.map_eq_some_iff.1 h
      refine Or.inl (replacedBy_put hm hc ?_)
      rw [setFrom] at h1
      split at h1
      · cases h1
      · rename_i hm'
        have hm' : c.kind = .mapping := by simpa using hm'
        cases hc' : child c "openAPIV3Schema" with
        | none =>
          rw [hc'] at h1
          cases h1
          exact Or.inr ⟨hm', by simp [extend], by simp [extend], (findKey_none_iff _ _).1 (child_none hc'), keyNode "openAPIV3Schema", _, ⟨rfl, rfl, rfl, rfl⟩, by rw [extend, withContent_content]; rfl, rfl⟩
        | some iv' =>
          obtain ⟨i', c''⟩ := iv'
          rw [hc'] at h1
          cases h1
          exact Or.inl (replacedBy_put hm' hc' rfl)

theorem top_of_kind {n : Node} (h : n.kind ≠ .document) : top n = n ∧ ∀ m, putTop n m = m := by
  obtain ⟨a, c, cs, rfl⟩ | ⟨h1', _, h3⟩ := root_cases n
  · exact absurd rfl h
  · exact ⟨h1', h3⟩

theorem patchVersion_rel {s : Schemas} {v v' : Node} (hv : v.kind ≠ .document) (h : patchVersion s v = .ok v') : PatchedVersion s v v' := by
  obtain ⟨ht, hp⟩ := top_of_kind hv
  unfold patchVersion at h
  split at h
  · rename_i name hg
    rw [getNode_eq, ht] at hg
    obtain ⟨hm, i, hc⟩ := getFrom_one hg
    split at h
    · cases h
    · rename_i hk
      simp only [not_or, ne_eq, Decidable.not_not] at hk
      split at h
      · cases h
      · rename_i he
        refine ⟨name, has_of_child hm hc, hk.1, hk.2, he, ?_⟩
        cases hs : s name.value with
        | none =>
          rw [hs] at h
          simp only at h
          cases hd : deleteNode v ["schema"] with
          | none => rw [hd] at h; cases h
          | some w =>
            rw [hd] at h
            cases h
            have := deleteNode_eq v [] "schema"
            rw [List.nil_append, hd, ht, deleteFrom, if_neg (by simp [hm])] at this
            simp only [Option.map_some, hp, Option.some.injEq] at this
            rw [this]
            exact Or.inr ⟨rfl, without_removeKey hm⟩
        | some sch =>
          rw [hs] at h
          simp only at h
          cases hd : setNode v sch ["schema", "openAPIV3Schema"] with
          | none => rw [hd] at h; cases h
          | some w =>
            rw [hd] at h
            cases h
            rw [setNode_eq, ht] at hd
            obtain ⟨w', h1, h2⟩ := Option.map_eq_some_iff.1 hd
            rw [hp] at h2
            subst h2
            exact Or.inl ⟨sch, rfl, set_withSchema h1⟩
  · cases h

theorem patchVersions_rel {s : Schemas} : ∀ {l l' : List Node}, (∀ v ∈ l, v.kind ≠ .document) → patchVersions s l = .ok l' → Pairwise2 (PatchedVersion s) l l'
  | [], l', _, h => by cases h; exact .nil
  | v :: l, l', hd, h => by
    rw [patchVersions] at h
    split at h
    · rename_i w hw
      split at h
      · rename_i r hr
        cases h
        exact .cons (patchVersion_rel (hd v (List.mem_cons_self ..)) hw) (patchVersions_rel (fun x hx => hd x (List.mem_cons_of_mem _ hx)) hr)
      · cases h
      · cases h
    · cases h
    · cases h

/-- What `patch` does, taken apart. -/
theorem patch_parts {s : Schemas} {a : Attr} {m d' : Node} (h : patch s (.mk .document a [m]) = .ok d') :
    ∃ i spec j versions content,
      m.kind = .mapping ∧ child m "spec" = some (i, spec) ∧ spec.kind = .mapping ∧
      child (removeKey "validation" spec) "versions" = some (j, versions) ∧ versions.kind = .sequence ∧ patchVersions s versions.content = .ok content ∧
      d' = .mk .document a [m.withContent (m.content.set (i + 1)
        ((removeKey "validation" spec).withContent ((removeKey "validation" spec).content.set (j + 1) (versions.withContent content))))] := by
  rw [patch_eq] at h
  have hd := deleteNode_eq (.mk .document a [m]) ["spec"] "validation"
  rw [show (["spec"] ++ ["validation"] : List String) = ["spec", "validation"] from rfl] at hd
  rw [hd] at h
  simp only [top] at h
  rw [deleteFrom] at h
  by_cases hm : m.kind = .mapping
  · rw [if_neg (by simp [hm])] at h
    cases hc : child m "spec" with
    | none =>
      rw [hc] at h
      simp only [Option.map_some, getNode_eq, putTop, top] at h
      rw [getFrom, if_neg (by simp [hm]), hc] at h
      cases h
    | some iv =>
      obtain ⟨i, spec⟩ := iv
      rw [hc] at h
      simp only at h
      rw [deleteFrom] at h
      by_cases hk : spec.kind = .mapping
      · rw [if_neg (by simp [hk])] at h
        simp only [Option.map_some, getNode_eq, putTop, top] at h
        rw [getFrom, if_neg (by simp [hm]), child_put hc] at h
        simp only at h
        rw [getFrom, if_neg (by simp [hk])] at h
        cases hv : child (removeKey "validation" spec) "versions" with
        | none => rw [hv] at h; cases h
        | some jv =>
          obtain ⟨j, versions⟩ := jv
          rw [hv] at h
          simp only [getFrom] at h
          by_cases hs : versions.kind = .sequence
          · rw [if_neg (by simp [hs])] at h
            cases hp : patchVersions s versions.content with
            | ok content =>
              rw [hp] at h
              simp only [setNode_eq, top] at h
              rw [setFrom, if_neg (by simp [hm]), child_put hc] at h
              simp only at h
              rw [setFrom, if_neg (by simp [hk]), hv] at h
              simp only [setFrom, Option.map_some, putTop, withContent_twice, withContent_content, List.set_set] at h
              cases h
              exact ⟨i, spec, j, versions, content, hm, rfl, hk, hv, hs, hp, rfl⟩
            | err => rw [hp] at h; cases h
            | panic => rw [hp] at h; cases h
          · rw [if_pos (by simp [hs])] at h
            cases h
      · rw [if_pos (by simp [hk])] at h
        cases h
  · rw [if_pos (by simp [hm])] at h
    cases h

theorem removeKey_mem {k : String} {n c : Node} (h : c ∈ (removeKey k n).content) : c ∈ n.content := by
  unfold removeKey at h
  split at h
  · exact h
  · rw [withContent_content] at h
    rcases List.mem_append.1 h with h | h
    · exact List.mem_of_mem_take h
    · exact List.mem_of_mem_drop h

/-- C39: patching changes only `spec.validation`, which goes, and the schemas of the versions, which become exactly the ones for their names; a version without one loses its schema.
Everything else is as before, in the same order. -/
theorem C39_frame (s : Schemas) (d d' : Node) (hd : Parsed d) (h : patch s d = .ok d') : PatchedDocument s d d' := by
  obtain ⟨a, m, rfl, hdoc, _⟩ := hd
  obtain ⟨i, spec, j, versions, content, hm, hc, hk, hv, hs, hp, rfl⟩ := patch_parts h
  refine ⟨a, m, _, rfl, rfl, replacedBy_put hm hc ⟨removeKey "validation" spec, without_removeKey hk, replacedBy_put (by simp [hk]) hv ?_⟩⟩
  refine ⟨hs, by simp [hs], by simp, ?_⟩
  rw [withContent_content]
  refine patchVersions_rel (fun v hx => ?_) hp
  exact hdoc v (.inside (child_mem hc) (.inside (removeKey_mem (child_mem hv)) (.inside hx (.root v))))

/-! ## Twice -/

theorem put_same {n : Node} {k : String} {i : Nat} {v : Node} (h : child n k = some (i, v)) : n.withContent (n.content.set (i + 1) v) = n := by
  obtain ⟨_, h2⟩ := child_at h
  have := (List.getElem?_eq_some_iff.1 h2).2
  rw [← this, List.set_getElem_self, withContent_self]

theorem set_same {v : Node} : ∀ (p : List String) {n : Node}, getFrom n p = some (some v) → setFrom v n p = some n
  | [], n, h => by cases h; rfl
  | k :: p, n, h => by
    rw [getFrom] at h
    rw [setFrom]
    split at h
    · cases h
    · rename_i hm
      rw [if_neg hm]
      cases hc : child n k with
      | none => rw [hc] at h; cases h
      | some iv =>
        obtain ⟨i, c⟩ := iv
        rw [hc] at h
        simp only at h ⊢
        rw [set_same p h, Option.map_some, put_same hc]

theorem putTop_top (root : Node) : putTop root (top root) = root := by
  obtain ⟨a, c, cs, rfl⟩ | ⟨h1, h2, h3⟩ := root_cases root
  · rfl
  · rw [h3, h1]

theorem patchVersion_twice {s : Schemas} {v v' : Node} (hs : ∀ n sch, s n = some sch → sch.kind ≠ .document) (hp : Pairs v) (hu : Unique v) (h : patchVersion s v = .ok v') :
    patchVersion s v' = .ok v' := by
  unfold patchVersion at h
  split at h
  · rename_i name hg
    split at h
    · cases h
    · rename_i hk
      split at h
      · cases h
      · rename_i he
        unfold patchVersion
        cases hsn : s name.value with
        | none =>
          rw [hsn] at h
          simp only at h
          cases hd : deleteNode v ["schema"] with
          | none => rw [hd] at h; cases h
          | some w =>
            rw [hd] at h
            cases h
            have h1 := C38_delete_other v _ ["schema"] ["name"] (by unfold Unrelated; decide +kernel) hd
            have h2 := C38_delete_partial v _ ["schema"] hu hd []
            rw [h1, hg]
            simp only
            rw [if_neg hk, if_neg he, hsn]
            simp only
            rw [C38_delete_absent _ _ (by simpa using h2)]
        | some sch =>
          rw [hsn] at h
          simp only at h
          cases hd : setNode v sch ["schema", "openAPIV3Schema"] with
          | none => rw [hd] at h; cases h
          | some w =>
            rw [hd] at h
            cases h
            have h1 := C38_set_other v sch _ ["schema", "openAPIV3Schema"] ["name"] hp (hs _ _ hsn) (by unfold Unrelated; decide +kernel) hd
            have h2 := (C38_set v sch _ _ hp (hs _ _ hsn) hd).1
            rw [h1, hg]
            simp only
            rw [if_neg hk, if_neg he, hsn]
            simp only
            rw [getNode_eq] at h2
            rw [setNode_eq, set_same _ h2, Option.map_some, putTop_top]
  · cases h

theorem patchVersions_twice {s : Schemas} (hs : ∀ n sch, s n = some sch → sch.kind ≠ .document) : ∀ {l l' : List Node}, (∀ v ∈ l, Pairs v ∧ Unique v) → patchVersions s l = .ok l' →
    patchVersions s l' = .ok l'
  | [], l', _, h => by cases h; rfl
  | v :: l, l', hd, h => by
    rw [patchVersions] at h
    split at h
    · rename_i w hw
      split at h
      · rename_i r hr
        cases h
        have hv := hd v (List.mem_cons_self ..)
        rw [patchVersions, patchVersion_twice hs hv.1 hv.2 hw, patchVersions_twice hs (fun x hx => hd x (List.mem_cons_of_mem _ hx)) hr]
      · cases h
      · cases h
    · cases h
    · cases h

theorem keys_set_odd : ∀ (c : List Node) (j : Nat) (x : Node), j % 2 = 0 → keys (c.set (j + 1) x) = keys c
  | [], j, x, _ => by simp
  | [a], j, x, _ => by simp [keys]
  | a :: b :: c, j, x, h => by
    match j with
    | 0 => simp [keys]
    | j + 2 =>
      have : (a :: b :: c).set (j + 2 + 1) x = a :: b :: c.set (j + 1) x := by simp
      rw [this, keys, keys, keys_set_odd c j x (by omega)]
    | 1 => omega

/-- C39, for documents in which no mapping has a key twice: patching twice is patching once.
Missing: documents with duplicate keys (`C39_violated_twice`). -/
theorem C39_twice_partial (s : Schemas) (d d' : Node) (hd : Parsed d) (hu : Unique d) (hs : ∀ n sch, s n = some sch → sch.kind ≠ .document) (h : patch s d = .ok d') :
    patch s d' = .ok d' := by
  obtain ⟨a, m, rfl, hdoc, hpairs⟩ := hd
  obtain ⟨i, spec, j, versions, content, hm, hc, hk, hv, hvs, hp, rfl⟩ := patch_parts h
  have hw : ∀ x, x ∈ versions.content → Within x (.mk .document a [m]) := fun x hx =>
    .inside (List.mem_cons_self ..) (.inside (child_mem hc) (.inside (removeKey_mem (child_mem hv)) (.inside hx (.root x))))
  have hp' := patchVersions_twice hs (fun v hx => ⟨fun n hn => hpairs n (hn.trans (hw v hx)), fun n hn => hu n (hn.trans (hw v hx))⟩) hp
  generalize hspec' : (removeKey "validation" spec).withContent ((removeKey "validation" spec).content.set (j + 1) (versions.withContent content)) = spec'
  have hspec : spec'.kind = .mapping := by rw [← hspec']; simp [hk]
  have hcv : child spec' "versions" = some (j, versions.withContent content) := by rw [← hspec']; exact child_put hv
  have hrem : removeKey "validation" spec' = spec' := by
    unfold removeKey
    have hn : (keys spec.content).Nodup := hu spec (.inside (List.mem_cons_self ..) (.inside (child_mem hc) (.root spec))) hk
    have : findKey "validation" spec'.content = none := by
      rw [findKey_none_iff, ← hspec', withContent_content, keys_set_odd _ _ _ (findKey_spec _ (child_at hv).1).1, ← findKey_none_iff]
      exact child_none (child_remove hn)
    rw [this]
  generalize hm' : m.withContent (m.content.set (i + 1) spec') = m'
  have hmk : m'.kind = .mapping := by rw [← hm']; simp [hm]
  have hcs : child m' "spec" = some (i, spec') := by rw [← hm']; exact child_put hc
  have hdel : deleteNode (.mk .document a [m']) ["spec", "validation"] = some (.mk .document a [m']) := by
    have hd := deleteNode_eq (.mk .document a [m']) ["spec"] "validation"
    rw [show (["spec"] ++ ["validation"] : List String) = ["spec", "validation"] from rfl] at hd
    rw [hd]
    simp only [top]
    rw [deleteFrom, if_neg (by simp [hmk]), hcs]
    simp only
    rw [deleteFrom, if_neg (by simp [hspec]), hrem, Option.map_some, put_same hcs]
    rfl
  have hget : getFrom m' ["spec", "versions"] = some (some (versions.withContent content)) := by
    rw [getFrom, if_neg (by simp [hmk]), hcs]
    simp only
    rw [getFrom, if_neg (by simp [hspec]), hcv]
    rfl
  rw [patch_eq, hdel]
  simp only [getNode_eq, top]
  rw [hget]
  simp only [withContent_kind, withContent_content, withContent_twice]
  rw [if_neg (by simp [hvs]), hp']
  simp only [setNode_eq, top]
  rw [set_same _ hget]
  rfl

/-! ## Errors and crashes -/

theorem findKey_of_split {k : String} {key v : Node} {post : List Node} (hk : key.value = k) : ∀ (pre : List Node), pre.length % 2 = 0 → k ∉ keys pre →
    findKey k (pre ++ key :: v :: post) = some pre.length
  | [], _, _ => by simp [findKey, hk]
  | [a], h, _ => by simp at h
  | a :: b :: pre, h, hn => by
    rw [keys] at hn
    simp only [List.mem_cons, not_or] at hn
    simp only [List.length_cons] at h
    show findKey k (a :: b :: (pre ++ key :: v :: post)) = _
    rw [findKey, if_neg (fun e => hn.1 e.symm), findKey_of_split hk pre (by omega) hn.2]
    rfl

theorem child_of_has {k : String} {v n : Node} (h : Has k v n) : ∃ i, child n k = some (i, v) := by
  obtain ⟨_, pre, key, post, h1, h2, h3, h4⟩ := h
  refine ⟨pre.length, ?_⟩
  unfold child
  rw [h4, findKey_of_split h3 pre h1 h2]
  simp

theorem patchVersion_panic {s : Schemas} {v : Node} (hv : v.kind ≠ .document) : patchVersion s v = .panic ↔ ¬ ∃ name, Has "name" name v := by
  obtain ⟨ht, hp⟩ := top_of_kind hv
  unfold patchVersion
  rw [getNode_eq, ht]
  constructor
  · intro h ⟨name, hn⟩
    obtain ⟨i, hc⟩ := child_of_has hn
    have : getFrom v ["name"] = some (some name) := by
      rw [getFrom, if_neg (by simp [hn.1]), hc]; rfl
    rw [this] at h
    simp only at h
    split at h
    · cases h
    · split at h
      · cases h
      · split at h
        · split at h <;> cases h
        · split at h <;> cases h
  · intro h
    split
    · rename_i name hg
      obtain ⟨hm, i, hc⟩ := getFrom_one hg
      exact absurd ⟨name, has_of_child hm hc⟩ h
    · rfl

theorem patchVersions_panic {s : Schemas} : ∀ {l : List Node}, (∀ v ∈ l, v.kind ≠ .document) → patchVersions s l = .panic → ∃ v ∈ l, ¬ ∃ name, Has "name" name v
  | [], _, h => by cases h
  | v :: l, hd, h => by
    rw [patchVersions] at h
    split at h
    · split at h
      · cases h
      · cases h
      · rename_i hr
        obtain ⟨x, hx, hn⟩ := patchVersions_panic (fun x hx => hd x (List.mem_cons_of_mem _ hx)) hr
        exact ⟨x, List.mem_cons_of_mem _ hx, hn⟩
    · cases h
    · rename_i hr
      exact ⟨v, List.mem_cons_self .., (patchVersion_panic (hd v (List.mem_cons_self ..))).1 hr⟩

/-- C39, for manifests whose versions are mappings with a name: patching does not crash.
Missing: versions that are not mappings, or have no name (`C39_violated_crash`). -/
theorem C39_no_crash_partial (s : Schemas) (d : Node) (hd : Parsed d)
    (hv : ∀ versions, getNode d ["spec", "versions"] = some (some versions) → ∀ v ∈ versions.content, ∃ name, Has "name" name v) : patch s d ≠ .panic := by
  obtain ⟨a, m, rfl, hdoc, hpairs⟩ := hd
  intro h
  rw [patch_eq] at h
  split at h
  · cases h
  · rename_i root hdel
    have hother := C38_delete_other _ _ ["spec", "validation"] ["spec", "versions"] (by unfold Unrelated; decide +kernel) hdel
    rw [hother] at h
    split at h
    · rename_i versions hg
      split at h
      · cases h
      · split at h
        · split at h <;> cases h
        · cases h
        · rename_i hp
          have hw : ∀ v ∈ versions.content, v.kind ≠ .document := by
            intro v hx
            rw [getNode_eq] at hg
            have hg : getFrom m ["spec", "versions"] = some (some versions) := hg
            rw [getFrom] at hg
            split at hg
            · cases hg
            · cases hc : child m "spec" with
              | none => rw [hc] at hg; cases hg
              | some iv =>
                rw [hc] at hg
                obtain ⟨hk, j, hj⟩ := getFrom_one hg
                exact hdoc v (.inside (child_mem hc) (.inside (child_mem hj) (.inside hx (.root v))))
          obtain ⟨v, hx, hn⟩ := patchVersions_panic hw hp
          exact hn (hv versions hg v hx)
    · cases h

/-- C39: without a list of versions, patching is an error. -/
theorem C39_no_versions (s : Schemas) (d : Node) (hv : ∀ versions, getNode d ["spec", "versions"] = some (some versions) → versions.kind ≠ .sequence) : patch s d = .err := by
  rw [patch_eq]
  split
  · rfl
  · rename_i root hdel
    have hother := C38_delete_other _ _ ["spec", "validation"] ["spec", "versions"] (by unfold Unrelated; decide +kernel) hdel
    rw [hother]
    split
    · rename_i versions hg
      rw [if_pos (hv versions hg)]
    · rfl

theorem patchVersions_err {s : Schemas} : ∀ {l : List Node} {v name : Node}, (∀ v ∈ l, v.kind ≠ .document) → v ∈ l → Has "name" name v →
    (name.kind ≠ .scalar ∨ name.attr.tag ≠ "!!str" ∨ name.value = "") → ∀ l', patchVersions s l ≠ .ok l' := by
  intro l v name hd hx hn hbad l' h
  have hrel := patchVersions_rel hd h
  clear h
  induction hrel with
  | nil => cases hx
  | @cons a b l l' hab _ ih =>
    rcases List.mem_cons.1 hx with e | e
    · subst e
      obtain ⟨name', hn', h1, h2, h3, _⟩ := hab
      obtain ⟨i, hc⟩ := child_of_has hn
      obtain ⟨i', hc'⟩ := child_of_has hn'
      rw [hc] at hc'
      cases hc'
      rcases hbad with h | h | h
      · exact h h1
      · exact h h2
      · exact h3 h
    · exact ih (fun x hx => hd x (List.mem_cons_of_mem _ hx)) e

/-- C39: if the name of a version is not a string, or is empty, patching does not succeed. -/
theorem C39_bad_name (s : Schemas) (d versions v name : Node) (hd : Parsed d) (hg : getNode d ["spec", "versions"] = some (some versions)) (hv : v ∈ versions.content)
    (hn : Has "name" name v) (hbad : name.kind ≠ .scalar ∨ name.attr.tag ≠ "!!str" ∨ name.value = "") : ∀ d', patch s d ≠ .ok d' := by
  obtain ⟨a, m, rfl, hdoc, hpairs⟩ := hd
  intro d' h
  obtain ⟨i, spec, j, versions', content, hm, hc, hk, hj, hs, hp, _⟩ := patch_parts h
  have hj' : (child spec "versions").map (·.2) = some versions' := by rw [← child_remove_ne (key := "validation") (by decide), hj]; rfl
  rw [getNode_eq] at hg
  have hg : getFrom m ["spec", "versions"] = some (some versions) := hg
  rw [getFrom, if_neg (by simp [hm]), hc] at hg
  simp only at hg
  obtain ⟨_, j', hj''⟩ := getFrom_one hg
  rw [hj''] at hj'
  cases hj'
  refine patchVersions_err (fun v hx => ?_) hv hn hbad content hp
  exact hdoc v (.inside (child_mem hc) (.inside (child_mem hj'') (.inside hx (.root v))))

/-! ## Cases -/

def seq (l : List Node) : Node := .mk .sequence { tag := "!!seq" } l

/-- A manifest with a validation, two versions of which one has a schema, and other parts. -/
def manifest : Node := .mk .document {} [map [
  ("kind", str "CustomResourceDefinition"),
  ("spec", map [
    ("group", str "example.com"),
    ("validation", map [("openAPIV3Schema", str "old")]),
    ("versions", seq [
      map [("name", str "v1"), ("schema", map [("openAPIV3Schema", str "old"), ("x", str "kept")]), ("served", str "true")],
      map [("name", str "v2"), ("schema", map [("openAPIV3Schema", str "old")])],
      map [("served", str "true"), ("name", str "v3")]]),
    ("scope", str "Namespaced")]),
  ("status", str "")]]

def schemas : Schemas := fun n => if n = "v1" then some (map [("type", str "one")]) else if n = "v3" then some (map [("type", str "three")]) else none

/-- What becomes of it. -/
def patched : Node := .mk .document {} [map [
  ("kind", str "CustomResourceDefinition"),
  ("spec", map [
    ("group", str "example.com"),
    ("versions", seq [
      map [("name", str "v1"), ("schema", map [("openAPIV3Schema", map [("type", str "one")]), ("x", str "kept")]), ("served", str "true")],
      map [("name", str "v2")],
      .mk .mapping { tag := "!!map" } [str "served", str "true", str "name", str "v3", keyNode "schema", .mk .mapping {} [keyNode "openAPIV3Schema", map [("type", str "three")]]]]),
    ("scope", str "Namespaced")]),
  ("status", str "")]]

theorem manifest_unique : Unique manifest := unique_of_check (by decide +kernel)

theorem nodocs_of_check {root : Node} (h : checkNode (fun m => m.kind != .document) root = true) : ∀ n, Within n root → n.kind ≠ .document := by
  intro m hm
  have := check_within hm h
  simpa using this

theorem manifest_parsed : Parsed manifest :=
  ⟨{}, _, rfl, nodocs_of_check (by decide +kernel), pairs_of_check (by decide +kernel)⟩

theorem manifest_patched : patch schemas manifest = .ok patched := by rfl

/-- The theorems apply to it. -/
example : PatchedDocument schemas manifest patched := C39_frame _ _ _ manifest_parsed manifest_patched

theorem schemas_nodocs : ∀ n sch, schemas n = some sch → sch.kind ≠ .document := by
  intro n sch h
  unfold schemas at h
  split at h
  · cases h; decide
  · split at h
    · cases h; decide
    · cases h

example : patch schemas patched = .ok patched := C39_twice_partial _ _ _ manifest_parsed manifest_unique schemas_nodocs manifest_patched

/-- C39 is violated by a version that is not a mapping, and by one without a name: they crash the program. -/
theorem C39_violated_crash :
    patch schemas (.mk .document {} [map [("spec", map [("versions", seq [str "v1"])])]]) = .panic ∧
    patch schemas (.mk .document {} [map [("spec", map [("versions", seq [map [("served", str "true")]])])]]) = .panic := ⟨rfl, rfl⟩

/-- C39 is violated by a key that is there twice: each run drops one of the pairs. -/
theorem C39_violated_twice :
    let d := .mk .document {} [map [("spec", map [("validation", str "a"), ("validation", str "b"), ("versions", seq [])])]]
    ∃ d' d'', patch schemas d = .ok d' ∧ patch schemas d' = .ok d'' ∧ getNode d' ["spec", "validation"] = some (some (str "b")) ∧ getNode d'' ["spec", "validation"] = some none :=
  ⟨_, _, rfl, rfl, rfl, rfl⟩

/-- Two versions that share their schema by an anchor and an alias: patching them is an error, although nothing is wrong with the manifest. -/
theorem C39_alias_rejected :
    patch (fun _ => some (map [("type", str "object")])) (.mk .document {} [map [("spec", map [("versions", seq [
      map [("name", str "v1"), ("schema", .mk .mapping { tag := "!!map", anchor := "s" } [str "openAPIV3Schema", str "old"])],
      map [("name", str "v2"), ("schema", .mk .alias { value := "s" } [])]])])]]) = .err := rfl

/-- The names of anchors and of aliases in a tree. -/
def anchors : Node → List String
  | .mk _ a c => a.anchor :: anchorsAll c
where
  anchorsAll : List Node → List String
    | [] => []
    | n :: l => anchors n ++ anchorsAll l

def aliases : Node → List String
  | .mk k a c => (if k = .alias then [a.value] else []) ++ aliasesAll c
where
  aliasesAll : List Node → List String
    | [] => []
    | n :: l => aliases n ++ aliasesAll l

/-- A manifest in which something refers to the old schema of a version. -/
def anchored : Node := .mk .document {} [map [("spec", map [("versions", seq [
  map [("name", str "v1"), ("schema", map [("openAPIV3Schema", .mk .mapping { tag := "!!map", anchor := "s" } [])])]]), ("old", .mk .alias { value := "s" } [])])]]

/-- C39 is violated by a reference to a schema that is replaced: it then refers to nothing, and the file cannot be read any more. -/
theorem C39_violated_alias : (∀ x ∈ aliases anchored, x ∈ anchors anchored) ∧
    ∃ d', patch schemas anchored = .ok d' ∧ ∃ x ∈ aliases d', x ∉ anchors d' :=
  ⟨by decide +kernel, _, rfl, "s", by decide +kernel, by decide +kernel⟩

end Verif.Patch

import Verif.Crd.AllOfCollect
/-!
# C28, C29: flattening allOf

The meaning of schemas is given in `SchemaSpec`; the code is modelled in `AllOf`.
-/
namespace Verif.Crd
open Spec

/-- C28 (partial: for the schemas that `Guard` describes, which excludes, at the places where two schemas are really merged: nullable, exclusive bounds,
`properties` together with `additionalProperties`, `additionalProperties: false`, patternProperties and additionalItems).  If flattening reports no error, exactly the same values are valid before and after. -/
theorem C28_flatten_preserves_partial (M : Meaning) (s s' : Schema) (hs : Guard s) (h : flattenEmbedded s = (s', [])) (j : Json) :
    Valid M s' j ↔ Valid M s j := by
  have := walk_sem M (2 * s.rank) s hs
  unfold flattenEmbedded at h
  have h2 := this (by rw [h]) j
  rw [h] at h2
  exact h2

/-! ## What the restrictions exclude -/

section
/-- `{}` with a maximum. -/
private def maxi (q : Rat) (excl : Bool) : Schema := .leaf { maximum := some q, exclusiveMaximum := excl }
private def withAllOf (l : List Schema) : Schema := .mk {} none l [] [] none [] none [] [] none []
private def props (l : List (String × Schema)) : Schema := .mk {} none [] [] [] none l none [] [] none []
private def addl (o : OrBool) : Schema := .mk {} none [] [] [] none [] (some o) [] [] none []

private theorem valid_leaf {M : Meaning} {b : Base} {j : Json} : Valid M (.leaf b) j ↔ BaseOk M b j := by
  rw [valid_iff]
  simp [Schema.leaf, Schema.base, Schema.items, Schema.allOf, Schema.oneOf, Schema.anyOf, Schema.not, Schema.properties,
    Schema.additionalProperties, Schema.patternProperties, Schema.dependencies, Schema.additionalItems, ValidItems, ValidAll, ValidOpt,
    ValidProps, ValidAddl, ValidPats, ValidDeps]

private theorem valid_withAllOf {M : Meaning} {l : List Schema} {b : Base} {j : Json} :
    Valid M (.mk b none l [] [] none [] none [] [] none []) j ↔ BaseOk M b j ∧ ∀ s ∈ l, Valid M s j := by
  rw [valid_iff]
  simp [Schema.base, Schema.items, Schema.allOf, Schema.oneOf, Schema.anyOf, Schema.not, Schema.properties,
    Schema.additionalProperties, Schema.patternProperties, Schema.dependencies, Schema.additionalItems, ValidItems, validAll_iff, ValidOpt,
    ValidProps, ValidAddl, ValidPats, ValidDeps]

private theorem valid_object {M : Meaning} {l : List (String × Schema)} {o : Option OrBool} {m : List (String × Json)} :
    Valid M (.mk {} none [] [] [] none l o [] [] none []) (.obj m) ↔ (∀ e ∈ l, ∀ v, m.lookup e.1 = some v → Valid M e.2 v) ∧
      ValidAddl M o (fun v => ∃ k, (k, v) ∈ m ∧ k ∉ l.map (·.1)) := by
  rw [valid_iff]
  simp [Schema.base, Schema.items, Schema.allOf, Schema.oneOf, Schema.anyOf, Schema.not, Schema.properties,
    Schema.additionalProperties, Schema.patternProperties, Schema.dependencies, Schema.additionalItems, ValidItems, ValidAll, ValidOpt,
    validProps_iff, ValidAddl, ValidPats, ValidDeps, baseOk_empty, Json.get]

/-- C28 is violated by exclusive bounds: when two bounds are moved to allOf members, `exclusiveMaximum` is left behind, without effect.
`{allOf: [{maximum: 10, exclusiveMaximum: true}, {maximum: 20}]}` rejects 10, its flattened form accepts it. -/
theorem C28_violated_exclusive (M : Meaning) : ∃ s s' j, flattenEmbedded s = (s', []) ∧ Valid M s' j ∧ ¬ Valid M s j := by
  refine ⟨withAllOf [maxi 10 true, maxi 20 false], .mk { exclusiveMaximum := true } none [maxi 10 false, maxi 20 false] [] [] none [] none [] [] none [],
    .num 10, by decide +kernel, ?_, ?_⟩
  · rw [valid_withAllOf]
    refine ⟨by constructor <;> simp [TypeOk, hasType_nil, MaxOk, MinOk], ?_⟩
    intro s hs
    simp only [List.mem_cons, List.not_mem_nil, or_false] at hs
    rcases hs with rfl | rfl
    · rw [maxi, valid_leaf]; constructor <;> simp [TypeOk, hasType_nil, MaxOk, MinOk]
    · rw [maxi, valid_leaf]; constructor <;> simp [TypeOk, hasType_nil, MaxOk, MinOk] <;> decide +kernel
  · rw [withAllOf, valid_withAllOf]
    rintro ⟨-, h⟩
    have h1 := h _ (List.mem_cons_self ..)
    rw [maxi, valid_leaf] at h1
    have := h1.maximum 10 10 rfl rfl
    simp at this

/-- C28 is violated by `nullable`: `{allOf: [{type: string}, {nullable: true}]}` rejects null, its flattened form accepts it. -/
theorem C28_violated_nullable (M : Meaning) : ∃ s s' j, flattenEmbedded s = (s', []) ∧ Valid M s' j ∧ ¬ Valid M s j := by
  refine ⟨withAllOf [.leaf { type := "string" }, .leaf { nullable := true }], .leaf { type := "string", nullable := true }, .null, by decide +kernel, ?_, ?_⟩
  · rw [valid_leaf]; constructor <;> simp [TypeOk, MaxOk, MinOk]
  · rw [withAllOf, valid_withAllOf]
    rintro ⟨-, h⟩
    have h1 := h _ (List.mem_cons_self ..)
    rw [valid_leaf] at h1
    have := h1.type
    simp [TypeOk, HasType] at this

/-- C28 is violated by `properties` beside `additionalProperties`:
`{allOf: [{properties: {a: {}}}, {additionalProperties: {type: string}}]}` rejects `{"a": true}`, its flattened form accepts it. -/
theorem C28_violated_additional (M : Meaning) : ∃ s s' j, flattenEmbedded s = (s', []) ∧ Valid M s' j ∧ ¬ Valid M s j := by
  refine ⟨withAllOf [props [("a", .empty)], addl (.mk true (some (.leaf { type := "string" })))],
    .mk {} none [] [] [] none [("a", .empty)] (some (.mk true (some (.leaf { type := "string" })))) [] [] none [], .obj [("a", .bool true)], by decide +kernel, ?_, ?_⟩
  · rw [valid_object]
    simp [ValidAddl, valid_empty]
  · rw [withAllOf, valid_withAllOf]
    rintro ⟨-, h⟩
    have h1 := h (addl (.mk true (some (.leaf { type := "string" })))) (by simp)
    rw [addl, valid_object] at h1
    have := h1.2
    simp only [ValidAddl] at this
    have := this (.bool true) ⟨"a", by simp, by simp⟩
    rw [valid_leaf] at this
    have := this.type
    simp [TypeOk, HasType] at this

/-- C28 is violated by `additionalProperties: false`, which is lost when it is merged with a schema for additional properties. -/
theorem C28_violated_closed (M : Meaning) : ∃ s s' j, flattenEmbedded s = (s', []) ∧ Valid M s' j ∧ ¬ Valid M s j := by
  refine ⟨withAllOf [addl (.mk true (some .empty)), addl (.mk false none)],
    .mk {} none [] [] [] none [] (some (.mk true (some .empty))) [] [] none [], .obj [("a", .bool true)], by decide +kernel, ?_, ?_⟩
  · rw [valid_object]
    simp [ValidAddl, valid_empty]
  · rw [withAllOf, valid_withAllOf]
    rintro ⟨-, h⟩
    have h1 := h (addl (.mk false none)) (by simp)
    rw [addl, valid_object] at h1
    have := h1.2
    simp [ValidAddl] at this
end

/-! ## C29 -/

/-- The depth to which `flattenEmbedded` walks is no restriction: walking deeper gives the same result. -/
theorem C29_depth (s : Schema) (n : Nat) (h : 2 * s.rank ≤ n) : walkAllOf n s = flattenEmbedded s := walk_enough s n h

/-- C29, first part: after flattening, an allOf member anywhere in the schema has no allOf members, no type, no required names and no properties
or additionalProperties of its own. -/
theorem C29_members (s u c : Schema) (hu : Sub (flattenEmbedded s).1 u) (hc : c ∈ u.allOf) :
    c.allOf = [] ∧ c.base.type = "" ∧ c.base.required = [] ∧ c.properties = [] ∧ c.additionalProperties = none := by
  have h := walk_flat (2 * s.rank) s (.inl (Nat.le_refl _)) u hu c hc
  exact ⟨h.allOf, h.type, h.required, h.properties, h.additionalProperties⟩

theorem node_sub {r t : Schema} {p : List (Option String)} (h : Node r p t) : Sub r t := by
  induction h with
  | here => exact .refl
  | prop hc _ ih => exact .step (.property hc) ih
  | addl hc _ ih => exact .step (.additionalProperties hc rfl) ih

theorem node_at {r t : Schema} {p : List (Option String)} (h : Node r p t) : At r p t := by
  induction h with
  | here => exact .here
  | prop hc _ ih => exact .prop hc ih
  | addl hc _ ih => exact .addl hc ih

theorem at_flat {F : Schema → String → Prop} (hF : Collect F) {r t : Schema} {p : List (Option String)} {k : String} (h : At r p t)
    (hr : ∀ u, Sub r u → ∀ c ∈ u.allOf, Rem c) (hk : F t k) : ∃ t', Node r p t' ∧ F t' k := by
  induction h with
  | here => exact ⟨_, .here, hk⟩
  | allOf hc ht => exact absurd ⟨_, ht, hk⟩ (atF_rem hF (hr _ .refl _ hc) _ k)
  | prop hc _ ih =>
    obtain ⟨t', h1, h2⟩ := ih (fun u hu => hr u (.step (.property hc) hu)) hk
    exact ⟨t', .prop hc h1, h2⟩
  | addl hc _ ih =>
    obtain ⟨t', h1, h2⟩ := ih (fun u hu => hr u (.step (.additionalProperties hc rfl) hu)) hk
    exact ⟨t', .addl hc h1, h2⟩

theorem node_collect {F : Schema → String → Prop} (hF : Collect F) (s : Schema) (p : List (Option String)) (k : String) :
    (∃ t, Node (flattenEmbedded s).1 p t ∧ F t k) ↔ ∃ u, At s p u ∧ F u k := by
  refine Iff.trans ?_ (walk_atF hF (2 * s.rank) s p k)
  constructor
  · rintro ⟨t, h1, h2⟩
    exact ⟨t, node_at h1, h2⟩
  · rintro ⟨u, h1, h2⟩
    exact at_flat hF h1 (walk_flat (2 * s.rank) s (.inl (Nat.le_refl _))) h2

/-- C29, second part: the names required at a path after flattening are exactly the names required there by any of the merged schemas. -/
theorem C29_required (s : Schema) (p : List (Option String)) (k : String) :
    (∃ t, Node (flattenEmbedded s).1 p t ∧ k ∈ t.base.required) ↔ ∃ u, At s p u ∧ k ∈ u.base.required :=
  node_collect collect_required s p k

/-- C29, third part: the property names at a path after flattening are exactly those of the merged schemas there. -/
theorem C29_properties (s : Schema) (p : List (Option String)) (k : String) :
    (∃ t, Node (flattenEmbedded s).1 p t ∧ k ∈ t.properties.map (·.1)) ↔ ∃ u, At s p u ∧ k ∈ u.properties.map (·.1) :=
  node_collect collect_properties s p k

/-- ... and there is a schema for additional properties at a path iff one of the merged schemas has one. -/
theorem C29_additional (s : Schema) (p : List (Option String)) :
    (∃ t, Node (flattenEmbedded s).1 p t ∧ ∃ b c, t.additionalProperties = some (.mk b (some c))) ↔
      ∃ u, At s p u ∧ ∃ b c, u.additionalProperties = some (.mk b (some c)) :=
  node_collect collect_addl s p ""

/-- C29, fourth part: a schema with allOf members has a sorted required list without duplicates after flattening. -/
theorem C29_sorted (s : Schema) (h : s.allOf ≠ []) : (flattenEmbedded s).1.base.required.Pairwise (· < ·) := by
  unfold flattenEmbedded
  obtain ⟨m, hm⟩ : ∃ m, 2 * s.rank = m + 1 := ⟨2 * s.rank - 1, by have := rank_pos s; omega⟩
  rw [hm, walkAllOf, visitAllOf_eq]
  have := all_normal (.mk s.base s.items [] s.oneOf s.anyOf s.not s.properties s.additionalProperties
    s.patternProperties s.dependencies s.additionalItems s.definitions) s.allOf h
  revert this
  cases (flattenAllInto (.mk s.base s.items [] s.oneOf s.anyOf s.not s.properties s.additionalProperties
    s.patternProperties s.dependencies s.additionalItems s.definitions) s.allOf).1
  exact id

/-- ... and anywhere in the result a required list is sorted and without duplicates, or it is the untouched list of a schema without allOf
members of the input. -/
theorem C29_sorted_below (s u : Schema) (hu : Sub (flattenEmbedded s).1 u) :
    u.base.required.Pairwise (· < ·) ∨ ∃ v, Sub s v ∧ v.allOf = [] ∧ v.base.required = u.base.required :=
  walk_reqOk (O := fun l => ∃ v, Sub s v ∧ v.allOf = [] ∧ v.base.required = l) (2 * s.rank) s
    (fun v hv ha => .inr ⟨v, hv, ha, rfl⟩) (.inl (Nat.le_refl _)) u hu

/-- C29: the merged properties do not depend on the order in which the (map of) properties is iterated: the schema of a name is the one schema there
is for it, or the two merged. -/
theorem C29_lookup (d s : List (String × Schema)) (hs : (s.map (·.1)).Nodup) (k : String) :
    GoMap.get (mergeProps d s).1 k = match GoMap.get d k, GoMap.get s k with
      | some x, some y => some (flattenInto x y).1
      | some x, none => some x
      | none, o => o := by
  induction s generalizing d with
  | nil => simp only [mergeProps, GoMap.get]; cases GoMap.get d k <;> rfl
  | cons e s ih =>
    obtain ⟨n, v⟩ := e
    have hn : n ∉ s.map (·.1) := (List.nodup_cons.1 hs).1
    have hs' := (List.nodup_cons.1 hs).2
    have hgn : GoMap.get s n = none := GoMap.get_eq_none.2 hn
    rw [mergeProps]
    simp only [GoMap.get]
    by_cases hk : n = k
    · subst hk
      simp only [if_true]
      cases hg : GoMap.get d n with
      | none => simp only; rw [ih _ hs', GoMap.get_put]; simp [hgn]
      | some x => simp only; rw [ih _ hs', GoMap.get_put]; simp [hgn]
    · rw [if_neg hk]
      have hk' : ¬ k = n := fun h => hk h.symm
      cases hg : GoMap.get d n with
      | none => simp only; rw [ih _ hs', GoMap.get_put]; simp [hk']
      | some x => simp only; rw [ih _ hs', GoMap.get_put]; simp [hk']

/-! ## Examples -/

section
private def obj (req : List String) (l : List (String × Schema)) : Schema := .mk { type := "object", required := req } none [] [] [] none l none [] [] none []
/-- A struct with an embedded struct, and a field of a struct type with a field marker (as the generator produces it): two bounds for the same
property, one name required twice. -/
private def sample : Schema := .mk { type := "object", required := ["b", "a"] } none
  [obj ["c", "b"] [("a", .leaf { maximum := some 5 }), ("c", .leaf { maximum := some 3, exclusiveMaximum := true })], obj ["b"] [("a", .leaf { maximum := some 9, format := "int32" })]]
  [] [] none [("b", .leaf { type := "boolean", nullable := true })] none [] [] none []

/-- The bounds are moved to allOf members of the property, the rest is merged. -/
example : flattenEmbedded sample = (.mk { type := "object", required := ["a", "b", "c"] } none [] [] [] none
  [("b", .leaf { type := "boolean", nullable := true }),
   ("a", .mk { format := "int32" } none [.leaf { maximum := some 5 }, .leaf { maximum := some 9 }] [] [] none [] none [] [] none []),
   ("c", .leaf { maximum := some 3, exclusiveMaximum := true })] none [] [] none [], []) := by decide +kernel

private theorem nodeOk_leaf (b : Base) (h1 : b.nullable = false) (h2 : b.exclusiveMaximum = false) (h3 : b.exclusiveMinimum = false) : NodeOk (.leaf b) :=
  ⟨h1, h2, h3, rfl, rfl, nofun, List.nodup_nil⟩

private theorem inv_leaf (R P : Path → Prop) (b : Base) (h : R [] → NodeOk (.leaf b)) : Inv R P (.leaf b) :=
  inv_of (fun hR => ⟨h hR, fun h => absurd rfl h, fun _ => rfl⟩) nofun nofun nofun nofun fun l _ _ _ e => by cases l <;> cases e

private theorem guard_leaf (b : Base) : Guard (.leaf b) := by
  rw [guard_iff]
  refine ⟨fun h => absurd rfl h, fun c hc => ?_⟩
  cases hc with
  | items h1 h2 => simp [Schema.leaf, Schema.items] at h1
  | itemsArr h1 h2 => simp [Schema.leaf, Schema.items] at h1
  | allOf h => simp [Schema.leaf, Schema.allOf] at h
  | oneOf h => simp [Schema.leaf, Schema.oneOf] at h
  | anyOf h => simp [Schema.leaf, Schema.anyOf] at h
  | not h => simp [Schema.leaf, Schema.not] at h
  | property h => simp [Schema.leaf, Schema.properties] at h
  | additionalProperties h1 h2 => simp [Schema.leaf, Schema.additionalProperties] at h1
  | patternProperty h => simp [Schema.leaf, Schema.patternProperties] at h
  | dependency h1 h2 => simp [Schema.leaf, Schema.dependencies] at h1
  | additionalItems h1 h2 => simp [Schema.leaf, Schema.additionalItems] at h1
  | definition h => simp [Schema.leaf, Schema.definitions] at h

private theorem inv_obj (R P : Path → Prop) (req : List String) (l : List (String × Schema)) (hl : (l.map (·.1)).Nodup) (hP : P [])
    (h : ∀ e ∈ l, Inv (fun p => R (some e.1 :: p)) (fun p => P (some e.1 :: p)) e.2) : Inv R P (obj req l) :=
  inv_of (fun _ => ⟨⟨rfl, rfl, rfl, rfl, rfl, nofun, hl⟩, fun _ => hP, fun _ => rfl⟩) nofun h nofun nofun fun l _ _ _ e => by cases l <;> cases e

private theorem occ_leaf {b : Base} {p : Path} (h : Occ (.leaf b) p) : p = [] := occ_flat rfl rfl rfl h

private theorem occ_obj {req : List String} {l : List (String × Schema)} (hl : ∀ e ∈ l, ∃ b, e.2 = .leaf b) {p : Path} (h : Occ (obj req l) p) :
    p = [] ∨ ∃ e ∈ l, p = [some e.1] := by
  cases h with
  | here => exact .inl rfl
  | allOf hc => cases hc
  | @prop _ k c p hc h =>
    obtain ⟨b, hb⟩ := hl _ hc
    cases hb
    exact .inr ⟨_, hc, by rw [occ_leaf h]⟩
  | addl hb => cases hb
  | flag hb => cases hb

private theorem child_object {b : Base} {al : List Schema} {l : List (String × Schema)} {c : Schema}
    (h : Child (.mk b none al [] [] none l none [] [] none []) c) : c ∈ al ∨ ∃ k, (k, c) ∈ l := by
  cases h with
  | items h1 h2 => simp [Schema.items] at h1
  | itemsArr h1 h2 => simp [Schema.items] at h1
  | allOf h => exact .inl h
  | oneOf h => simp [Schema.oneOf] at h
  | anyOf h => simp [Schema.anyOf] at h
  | not h => simp [Schema.not] at h
  | property h => exact .inr ⟨_, h⟩
  | additionalProperties h1 h2 => simp [Schema.additionalProperties] at h1
  | patternProperty h => simp [Schema.patternProperties] at h
  | dependency h1 h2 => simp [Schema.dependencies] at h1
  | additionalItems h1 h2 => simp [Schema.additionalItems] at h1
  | definition h => simp [Schema.definitions] at h

/-- The example meets the hypothesis of `C28_flatten_preserves_partial`. -/
private theorem guard_sample : Guard sample := by
  rw [guard_iff]
  constructor
  · intro _
    rw [mergeable_iff]
    have hl : ∀ e ∈ [("a", Schema.leaf { maximum := some 5 }), ("c", .leaf { maximum := some 3, exclusiveMaximum := true })], ∃ b, e.2 = .leaf b := by
      simp only [List.forall_mem_cons]; exact ⟨⟨_, rfl⟩, ⟨_, rfl⟩, nofun⟩
    have hl' : ∀ e ∈ [("a", Schema.leaf { maximum := some 9, format := "int32" })], ∃ b, e.2 = .leaf b := by
      simp only [List.forall_mem_cons]; exact ⟨⟨_, rfl⟩, nofun⟩
    refine ⟨fun p => p = [] ∨ p = [some "a"], fun p => p = [], inv_of (fun _ => ⟨⟨rfl, rfl, rfl, rfl, rfl, nofun, by decide⟩, fun _ => rfl, fun _ => rfl⟩) ?_ ?_ nofun ?_ ?_⟩
    · intro c hc
      simp only [sample, Schema.allOf, List.mem_cons, List.not_mem_nil, or_false] at hc
      rcases hc with rfl | rfl
      · refine inv_obj _ _ _ _ (by decide) rfl ?_
        intro e he
        simp only [List.mem_cons, List.not_mem_nil, or_false] at he
        rcases he with rfl | rfl
        · exact inv_leaf _ _ _ fun _ => nodeOk_leaf _ rfl rfl rfl
        · exact inv_leaf _ _ _ fun h => absurd h (by decide)
      · refine inv_obj _ _ _ _ (by decide) rfl ?_
        intro e he
        simp only [List.mem_cons, List.not_mem_nil, or_false] at he
        rcases he with rfl
        exact inv_leaf _ _ _ fun _ => nodeOk_leaf _ rfl rfl rfl
    · intro e he
      simp only [sample, Schema.properties, List.mem_cons, List.not_mem_nil, or_false] at he
      rcases he with rfl
      exact inv_leaf _ _ _ fun h => absurd h (by decide)
    · intro c hc p ho hw
      have hp : p = [] ∨ p = [some "b"] := by
        cases hw with
        | here => exact .inl rfl
        | prop hc h =>
          simp only [sample, Schema.properties, List.mem_cons, List.not_mem_nil, or_false, Prod.mk.injEq] at hc
          obtain ⟨rfl, rfl⟩ := hc
          rw [occ_leaf h]; exact .inr rfl
        | addl hb => cases hb
        | flag hb => cases hb
      rcases hp with rfl | rfl
      · exact .inl rfl
      · simp only [sample, Schema.allOf, List.mem_cons, List.not_mem_nil, or_false] at hc
        rcases hc with rfl | rfl
        · rcases occ_obj hl ho with h | ⟨e, he, h⟩
          · cases h
          · simp only [List.mem_cons, List.not_mem_nil, or_false] at he
            rcases he with rfl | rfl <;> simp at h
        · rcases occ_obj hl' ho with h | ⟨e, he, h⟩
          · cases h
          · simp only [List.mem_cons, List.not_mem_nil, or_false] at he
            rcases he with rfl; simp at h
    · intro l c l' c' e hc' p h1 h2
      have hc : c' = obj ["b"] [("a", .leaf { maximum := some 9, format := "int32" })] := by
        have e : [_, _] = l ++ c :: l' := e
        match l, e with
        | [], e => cases e; simpa using hc'
        | [_], e => cases e; cases hc'
        | _ :: _ :: l, e => simp at e
      subst hc
      rcases occ_obj hl' h2 with h | ⟨e, he, h⟩
      · exact .inl h
      · simp only [List.mem_cons, List.not_mem_nil, or_false] at he
        rcases he with rfl
        exact .inr h
  · intro c hc
    rcases child_object hc with hc | ⟨k, hc⟩
    · have : ∀ req l, c = obj req l → (∀ e ∈ l, ∃ b, e.2 = .leaf b) → Guard c := by
        rintro req l rfl hl
        rw [guard_iff]
        refine ⟨fun h => absurd rfl h, fun c hc => ?_⟩
        rcases child_object hc with hc | ⟨k, hc⟩
        · simp at hc
        · obtain ⟨b, hb⟩ := hl _ hc
          simp only at hb
          rw [hb]; exact guard_leaf b
      simp only [List.mem_cons, List.not_mem_nil, or_false] at hc
      rcases hc with hc | hc
      · exact this _ _ hc (by simp only [List.forall_mem_cons]; exact ⟨⟨_, rfl⟩, ⟨_, rfl⟩, nofun⟩)
      · exact this _ _ hc (by simp only [List.forall_mem_cons]; exact ⟨⟨_, rfl⟩, nofun⟩)
    · simp only [List.mem_cons, List.not_mem_nil, or_false, Prod.mk.injEq] at hc
      rw [hc.2]; exact guard_leaf _

example : Guard sample ∧ (flattenEmbedded sample).2 = [] ∧ sample.allOf ≠ [] := ⟨guard_sample, by decide +kernel, by simp [sample, Schema.allOf]⟩
end

end Verif.Crd

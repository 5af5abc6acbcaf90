import Verif.Crd.Flat
import Verif.Common.Sort

/-! # Lemmas about places below a schema -/
namespace Verif.Crd

theorem lookup_eq_get {α : Type} (m : List (String × α)) (k : String) : m.lookup k = GoMap.get m k := by
  induction m with
  | nil => rfl
  | cons e m ih =>
    obtain ⟨k', v⟩ := e
    rw [List.lookup_cons, GoMap.get, ih]
    by_cases h : k' = k
    · simp [h]
    · have : (k == k') = false := by simpa using fun e => h e.symm
      simp [h, this]

theorem lookup_put {α : Type} (m : List (String × α)) (k k' : String) (v : α) : (GoMap.put m k v).lookup k' = if k' = k then some v else m.lookup k' := by
  rw [lookup_eq_get, lookup_eq_get, GoMap.get_put]

theorem base_set (s : Schema) (p : Step) (c : Schema) : (s.set p c).base = s.base := by
  obtain ⟨b, it, al, oo, an, nt, pr, ad, pa, de, ai, df⟩ := s
  cases p <;> rfl

theorem dep_set {de : List (String × OrArray)} {k k' : String} {c : Schema} (h : ((de.lookup k).bind OrArray.schema).isSome) :
    ((setDep de k c).lookup k').bind OrArray.schema = if k' = k then some c else (de.lookup k').bind OrArray.schema := by
  unfold setDep
  rw [lookup_eq_get] at h
  cases hg : GoMap.get de k with
  | none => simp [hg] at h
  | some o =>
    obtain ⟨s, ps⟩ := o
    simp only
    rw [lookup_put]
    by_cases hk : k' = k
    · simp [hk, OrArray.schema]
    · simp [hk]

/-- Reading a place after writing one. -/
theorem child_set {s : Schema} {p q : Step} {c : Schema} (h : (s.child p).isSome) : (s.set p c).child q = if q = p then some c else s.child q := by
  obtain ⟨b, it, al, oo, an, nt, pr, ad, pa, de, ai, df⟩ := s
  have hl : ∀ (l : List Schema) (i j : Nat), (l[i]?).isSome → (l.set i c)[j]? = if j = i then some c else l[j]? := by
    intro l i j hi
    rw [List.getElem?_set]
    by_cases hj : i = j
    · subst hj
      have : i < l.length := by simpa using hi
      simp [this]
    · rw [if_neg hj, if_neg (Ne.symm hj)]
  cases p with
  | items =>
    cases it with
    | none => simp [Schema.child, Schema.items] at h
    | some i =>
      obtain ⟨s, l⟩ := i
      cases q <;> simp [Schema.set, setItems, Schema.child, Schema.items, Items.schema, Items.arr, Schema.allOf, Schema.oneOf, Schema.anyOf, Schema.not, Schema.properties,
        Schema.additionalProperties, Schema.patternProperties, Schema.dependencies, Schema.additionalItems, Schema.definitions]
  | itemsAt i =>
    cases it with
    | none => simp [Schema.child, Schema.items] at h
    | some x =>
      obtain ⟨s, l⟩ := x
      have h' : (l[i]?).isSome := by simpa [Schema.child, Schema.items, Items.arr] using h
      cases q with
      | itemsAt j => simpa [Schema.set, setItems, Schema.child, Schema.items, Items.arr] using hl l i j h'
      | _ => simp [Schema.set, setItems, Schema.child, Schema.items, Items.schema, Items.arr, Schema.allOf, Schema.oneOf, Schema.anyOf, Schema.not, Schema.properties,
        Schema.additionalProperties, Schema.patternProperties, Schema.dependencies, Schema.additionalItems, Schema.definitions]
  | allOf i =>
    cases q with
    | allOf j => simpa [Schema.set, Schema.child, Schema.allOf] using hl al i j h
    | _ => simp [Schema.set, Schema.child, Schema.items, Schema.oneOf, Schema.anyOf, Schema.not, Schema.properties,
        Schema.additionalProperties, Schema.patternProperties, Schema.dependencies, Schema.additionalItems, Schema.definitions]
  | oneOf i =>
    cases q with
    | oneOf j => simpa [Schema.set, Schema.child, Schema.oneOf] using hl oo i j h
    | _ => simp [Schema.set, Schema.child, Schema.items, Schema.allOf, Schema.anyOf, Schema.not, Schema.properties,
        Schema.additionalProperties, Schema.patternProperties, Schema.dependencies, Schema.additionalItems, Schema.definitions]
  | anyOf i =>
    cases q with
    | anyOf j => simpa [Schema.set, Schema.child, Schema.anyOf] using hl an i j h
    | _ => simp [Schema.set, Schema.child, Schema.items, Schema.allOf, Schema.oneOf, Schema.not, Schema.properties,
        Schema.additionalProperties, Schema.patternProperties, Schema.dependencies, Schema.additionalItems, Schema.definitions]
  | not =>
    cases q <;> simp [Schema.set, Schema.child, Schema.items, Schema.allOf, Schema.oneOf, Schema.anyOf, Schema.not, Schema.properties,
        Schema.additionalProperties, Schema.patternProperties, Schema.dependencies, Schema.additionalItems, Schema.definitions]
  | property k =>
    cases q with
    | property j => simp [Schema.set, Schema.child, Schema.properties, lookup_put]
    | _ => simp [Schema.set, Schema.child, Schema.items, Schema.allOf, Schema.oneOf, Schema.anyOf, Schema.not,
        Schema.additionalProperties, Schema.patternProperties, Schema.dependencies, Schema.additionalItems, Schema.definitions]
  | additionalProperties =>
    cases ad with
    | none => simp [Schema.child, Schema.additionalProperties] at h
    | some x =>
      obtain ⟨a, s⟩ := x
      cases q <;> simp [Schema.set, setOrBool, Schema.child, Schema.items, Schema.allOf, Schema.oneOf, Schema.anyOf, Schema.not, Schema.properties, OrBool.schema,
        Schema.additionalProperties, Schema.patternProperties, Schema.dependencies, Schema.additionalItems, Schema.definitions]
  | patternProperty k =>
    cases q with
    | patternProperty j => simp [Schema.set, Schema.child, Schema.patternProperties, lookup_put]
    | _ => simp [Schema.set, Schema.child, Schema.items, Schema.allOf, Schema.oneOf, Schema.anyOf, Schema.not, Schema.properties,
        Schema.additionalProperties, Schema.dependencies, Schema.additionalItems, Schema.definitions]
  | dependency k =>
    cases q with
    | dependency j => simpa [Schema.set, Schema.child, Schema.dependencies] using dep_set h
    | _ => simp [Schema.set, Schema.child, Schema.items, Schema.allOf, Schema.oneOf, Schema.anyOf, Schema.not, Schema.properties,
        Schema.additionalProperties, Schema.patternProperties, Schema.additionalItems, Schema.definitions]
  | additionalItems =>
    cases ai with
    | none => simp [Schema.child, Schema.additionalItems] at h
    | some x =>
      obtain ⟨a, s⟩ := x
      cases q <;> simp [Schema.set, setOrBool, Schema.child, Schema.items, Schema.allOf, Schema.oneOf, Schema.anyOf, Schema.not, Schema.properties, OrBool.schema,
        Schema.additionalProperties, Schema.patternProperties, Schema.dependencies, Schema.additionalItems, Schema.definitions]
  | definition k =>
    cases q with
    | definition j => simp [Schema.set, Schema.child, Schema.definitions, lookup_put]
    | _ => simp [Schema.set, Schema.child, Schema.items, Schema.allOf, Schema.oneOf, Schema.anyOf, Schema.not, Schema.properties,
        Schema.additionalProperties, Schema.patternProperties, Schema.dependencies, Schema.additionalItems]

theorem lookup_mem {α : Type} {m : List (String × α)} {k : String} (h : (m.lookup k).isSome) : k ∈ GoMap.keys m := by
  induction m with
  | nil => simp at h
  | cons e m ih =>
    obtain ⟨k', v⟩ := e
    rw [List.lookup_cons] at h
    by_cases hk : k = k'
    · simp [GoMap.keys, hk]
    · have : (k == k') = false := by simpa using hk
      rw [this] at h
      exact List.mem_cons_of_mem _ (ih h)

/-- Every place that holds a schema is visited. -/
theorem mem_visitOrder (σ : Sched) (t : Nat) {s : Schema} {p : Step} (h : (s.child p).isSome) : p ∈ visitOrder σ t s := by
  obtain ⟨b, it, al, oo, an, nt, pr, ad, pa, de, ai, df⟩ := s
  have hr : ∀ (l : List Schema) (i : Nat), (l[i]?).isSome → i < l.length := by
    intro l i hi; simpa using hi
  have hm : ∀ (t : Nat) {α : Type} (m : List (String × α)) (k : String), (m.lookup k).isSome → k ∈ σ.order t (GoMap.keys m).eraseDups := by
    intro t α m k hk
    rw [σ.mem_order, List.mem_eraseDups]; exact lookup_mem hk
  cases p with
  | itemsAt i =>
    have : i < it.elim 0 (·.arr.length) := by
      cases it with
      | none => simp [Schema.child, Schema.items] at h
      | some x => exact hr _ _ (by simpa [Schema.child, Schema.items] using h)
    simp [visitOrder, this]
  | allOf i =>
    have := hr al i h
    simp [visitOrder, this]
  | oneOf i =>
    have := hr oo i h
    simp [visitOrder, this]
  | anyOf i =>
    have := hr an i h
    simp [visitOrder, this]
  | property k => simp [visitOrder, hm t pr k h]
  | patternProperty k => simp [visitOrder, hm (t + 1) pa k h]
  | definition k => simp [visitOrder, hm (t + 3) df k h]
  | dependency k =>
    have : (de.lookup k).isSome := by
      simp only [Schema.child, Schema.dependencies] at h
      cases hd : de.lookup k with
      | none => rw [hd] at h; simp at h
      | some x => rfl
    simp [visitOrder, hm (t + 2) de k this]
  | _ => simp [visitOrder]

/-- No place is visited twice. -/
theorem nodup_visitOrder (σ : Sched) (t : Nat) (s : Schema) : (visitOrder σ t s).Nodup := by
  obtain ⟨b, it, al, oo, an, nt, pr, ad, pa, de, ai, df⟩ := s
  have hn : ∀ {α β : Type} {l : List α} {f : α → β}, Function.Injective f → l.Nodup → (l.map f).Nodup := by
    intro α β l f hf hl
    exact List.Pairwise.map f (fun a b hab h => hab (hf h)) hl
  have ho : ∀ t (l : List String), (σ.order t l.eraseDups).Nodup := fun t l => (σ.nodup_order t _).2 (nodup_eraseDups l)
  have i1 : Function.Injective Step.itemsAt := fun a b h => by simpa using h
  have i2 : Function.Injective Step.allOf := fun a b h => by simpa using h
  have i3 : Function.Injective Step.oneOf := fun a b h => by simpa using h
  have i4 : Function.Injective Step.anyOf := fun a b h => by simpa using h
  have i5 : Function.Injective Step.property := fun a b h => by simpa using h
  have i6 : Function.Injective Step.patternProperty := fun a b h => by simpa using h
  have i7 : Function.Injective Step.dependency := fun a b h => by simpa using h
  have i8 : Function.Injective Step.definition := fun a b h => by simpa using h
  have r := @List.nodup_range
  unfold visitOrder
  simp [List.nodup_append, hn i1 r, hn i2 r, hn i3 r, hn i4 r, hn i5 (ho _ _), hn i6 (ho _ _), hn i7 (ho _ _), hn i8 (ho _ _)]
  and_intros
  all_goals first
    | (rintro a ha b hb rfl; simp at hb)
    | skip

end Verif.Crd

import Verif.Crd.AllOfWalk
/-!
# Lemmas for C29: what is collected from the allOf members
-/
namespace Verif.Crd
open Spec

/-- Some schema at the path has `k` among what `F` collects. -/
def AtF (F : Schema → String → Prop) (s : Schema) (p : List (Option String)) (k : String) : Prop := ∃ u, At s p u ∧ F u k

theorem atF_iff {F : Schema → String → Prop} {s : Schema} {p : List (Option String)} {k : String} : AtF F s p k ↔
    (p = [] ∧ F s k) ∨ (∃ c ∈ s.allOf, AtF F c p k) ∨ (∃ e ∈ s.properties, ∃ q, p = some e.1 :: q ∧ AtF F e.2 q k) ∨
    (∃ b c q, s.additionalProperties = some (.mk b (some c)) ∧ p = none :: q ∧ AtF F c q k) := by
  constructor
  · rintro ⟨u, hu, hk⟩
    cases hu with
    | here => exact .inl ⟨rfl, hk⟩
    | allOf hc hu => exact .inr (.inl ⟨_, hc, u, hu, hk⟩)
    | prop hc hu => exact .inr (.inr (.inl ⟨_, hc, _, rfl, u, hu, hk⟩))
    | addl hc hu => exact .inr (.inr (.inr ⟨_, _, _, hc, rfl, u, hu, hk⟩))
  · rintro (⟨rfl, hk⟩ | ⟨c, hc, u, hu, hk⟩ | ⟨e, he, q, rfl, u, hu, hk⟩ | ⟨b, c, q, hc, rfl, u, hu, hk⟩)
    · exact ⟨s, .here, hk⟩
    · exact ⟨u, .allOf hc hu, hk⟩
    · exact ⟨u, .prop he hu, hk⟩
    · exact ⟨u, .addl hc hu, hk⟩

/-- What is collected is joined by merging. -/
structure Collect (F : Schema → String → Prop) : Prop where
  merge : ∀ {d s k}, F (mergeRest d s (mergeProps d.properties s.properties).1 (mergeAddl d.additionalProperties s.additionalProperties).1) k ↔ F d k ∨ F s k
  rem : ∀ {c k}, Rem c → ¬ F c k
  bare : ∀ {s k}, F (.mk s.base s.items [] s.oneOf s.anyOf s.not s.properties s.additionalProperties
    s.patternProperties s.dependencies s.additionalItems s.definitions) k ↔ F s k
  map : ∀ {f : Schema → Schema × List (String × String)} {s k}, F (mapChildren f s).1 k ↔ F s k

theorem rem_empty : Rem Schema.empty := ⟨rfl, rfl, rfl, rfl, rfl, ⟨rfl, rfl, rfl, rfl, rfl, rfl, rfl, rfl⟩⟩

section
variable {F : Schema → String → Prop} (hF : Collect F)
include hF

theorem atF_rem {c : Schema} (h : Rem c) (p : List (Option String)) (k : String) : ¬ AtF F c p k := by
  rw [atF_iff, h.allOf, h.properties, h.additionalProperties]
  rintro (⟨-, h1⟩ | ⟨c, h1, -⟩ | ⟨c, h1, -⟩ | ⟨b, c, q, h1, -⟩)
  · exact hF.rem h h1
  · simp at h1
  · simp at h1
  · simp at h1

omit hF in
theorem exists_put {l : List (String × Schema)} {k : String} {x m : Schema} {Φ : String × Schema → Prop} {Ψ : Prop} (hg : GoMap.get l k = some x)
    (h : Φ (k, m) ↔ Φ (k, x) ∨ Ψ) : (∃ e ∈ GoMap.put l k m, Φ e) ↔ (∃ e ∈ l, Φ e) ∨ Ψ := by
  induction l with
  | nil => simp [GoMap.get] at hg
  | cons e l ih =>
    obtain ⟨k', v⟩ := e
    simp only [GoMap.get, GoMap.put] at hg ⊢
    split at hg
    · rename_i hk
      cases hg
      subst hk
      simp only [if_true, List.mem_cons, exists_eq_or_imp, h]
      constructor
      · rintro ((h1 | h1) | h1)
        · exact .inl (.inl h1)
        · exact .inr h1
        · exact .inl (.inr h1)
      · rintro ((h1 | h1) | h1)
        · exact .inl (.inl h1)
        · exact .inr h1
        · exact .inl (.inr h1)
    · rename_i hk
      rw [if_neg hk]
      simp only [List.mem_cons, exists_eq_or_imp, ih hg, or_assoc]

omit hF in
theorem exists_put' {l : List (String × Schema)} {k : String} {m : Schema} {Φ : String × Schema → Prop} (hg : GoMap.get l k = none) :
    (∃ e ∈ GoMap.put l k m, Φ e) ↔ (∃ e ∈ l, Φ e) ∨ Φ (k, m) := by
  induction l with
  | nil => simp [GoMap.put]
  | cons e l ih =>
    obtain ⟨k', v⟩ := e
    simp only [GoMap.get, GoMap.put] at hg ⊢
    split at hg
    · simp at hg
    · rename_i hk
      rw [if_neg hk]
      simp only [List.mem_cons, exists_eq_or_imp, ih hg, or_assoc]

mutual
theorem into_atF (d : Schema) : (s : Schema) → ∀ p k, AtF F (flattenInto d s).1 p k ↔ AtF F d p k ∨ AtF F s p k
  | .mk b it al oo an nt pr ad pa de ai df, p, k => by
    have h1 := all_atF d al p k
    have h2 := props_atF (flattenAllInto d al).1.properties pr p k
    have h3 := addl_atF (flattenAllInto d al).1.additionalProperties ad p k
    rw [flattenInto_eq, atF_iff, hF.merge]
    rw [atF_iff (s := (flattenAllInto d al).1)] at h1
    rw [atF_iff (s := Schema.mk b it al oo an nt pr ad pa de ai df)]
    simp only [mergeRest, Schema.allOf_mk, Schema.properties_mk, Schema.additionalProperties_mk]
    rw [h2, h3]
    have h4 : (∃ c ∈ (flattenAllInto d al).1.allOf ++ remainders (flattenAllInto d al).1 (Schema.mk b it al oo an nt pr ad pa de ai df), AtF F c p k) ↔
        ∃ c ∈ (flattenAllInto d al).1.allOf, AtF F c p k := by
      constructor
      · rintro ⟨c, hc, h⟩
        rcases List.mem_append.1 hc with hc | hc
        · exact ⟨c, hc, h⟩
        · exact absurd h (atF_rem hF (rem_remainders hc) p k)
      · rintro ⟨c, hc, h⟩
        exact ⟨c, List.mem_append.2 (.inl hc), h⟩
    rw [h4]
    generalize (∃ c ∈ (flattenAllInto d al).1.allOf, AtF F c p k) = A at h1 ⊢
    generalize (∃ c ∈ al, AtF F c p k) = B at h1 ⊢
    generalize (∃ e ∈ (flattenAllInto d al).1.properties, ∃ q, p = some e.1 :: q ∧ AtF F e.2 q k) = C at h1 ⊢
    generalize (∃ e ∈ pr, ∃ q, p = some e.1 :: q ∧ AtF F e.2 q k) = D at h1 ⊢
    generalize (∃ b c q, (flattenAllInto d al).1.additionalProperties = some (.mk b (some c)) ∧ p = none :: q ∧ AtF F c q k) = E at h1 ⊢
    generalize (∃ b c q, ad = some (.mk b (some c)) ∧ p = none :: q ∧ AtF F c q k) = G at h1 ⊢
    constructor
    · rintro (⟨h, h' | h'⟩ | h | (h | h) | (h | h))
      · exact (h1.1 (.inl ⟨h, h'⟩)).elim .inl fun h => .inr (.inr (.inl h))
      · exact .inr (.inl ⟨h, h'⟩)
      · exact (h1.1 (.inr (.inl h))).elim .inl fun h => .inr (.inr (.inl h))
      · exact (h1.1 (.inr (.inr (.inl h)))).elim .inl fun h => .inr (.inr (.inl h))
      · exact .inr (.inr (.inr (.inl h)))
      · exact (h1.1 (.inr (.inr (.inr h)))).elim .inl fun h => .inr (.inr (.inl h))
      · exact .inr (.inr (.inr (.inr h)))
    · rintro (h | ⟨h, h'⟩ | h | h | h)
      · rcases h1.2 (.inl h) with ⟨h, h'⟩ | h | h | h
        · exact .inl ⟨h, .inl h'⟩
        · exact .inr (.inl h)
        · exact .inr (.inr (.inl (.inl h)))
        · exact .inr (.inr (.inr (.inl h)))
      · exact .inl ⟨h, .inr h'⟩
      · rcases h1.2 (.inr h) with ⟨h, h'⟩ | h | h | h
        · exact .inl ⟨h, .inl h'⟩
        · exact .inr (.inl h)
        · exact .inr (.inr (.inl (.inl h)))
        · exact .inr (.inr (.inr (.inl h)))
      · exact .inr (.inr (.inl (.inr h)))
      · exact .inr (.inr (.inr (.inr h)))
theorem all_atF (d : Schema) : (l : List Schema) → ∀ p k, AtF F (flattenAllInto d l).1 p k ↔ AtF F d p k ∨ ∃ c ∈ l, AtF F c p k
  | [], p, k => by simp [flattenAllInto]
  | s :: l, p, k => by
    simp only [flattenAllInto, List.mem_cons, exists_eq_or_imp]
    rw [all_atF _ l, into_atF d s, or_assoc]
theorem props_atF (d : List (String × Schema)) : (s : List (String × Schema)) → ∀ p k,
    (∃ e ∈ (mergeProps d s).1, ∃ q, p = some e.1 :: q ∧ AtF F e.2 q k) ↔
      (∃ e ∈ d, ∃ q, p = some e.1 :: q ∧ AtF F e.2 q k) ∨ ∃ e ∈ s, ∃ q, p = some e.1 :: q ∧ AtF F e.2 q k
  | [], p, k => by simp [mergeProps]
  | (n, v) :: l, p, k => by
    rw [mergeProps]
    simp only [List.mem_cons, exists_eq_or_imp]
    cases hg : GoMap.get d n with
    | none =>
      simp only
      rw [props_atF _ l, exists_put' hg, or_assoc]
    | some x =>
      simp only
      rw [props_atF _ l, exists_put (Ψ := ∃ q, p = some n :: q ∧ AtF F v q k) hg, or_assoc]
      constructor
      · rintro ⟨q, rfl, h⟩
        exact ((into_atF x v q k).1 h).elim (fun h => .inl ⟨q, rfl, h⟩) fun h => .inr ⟨q, rfl, h⟩
      · rintro (⟨q, rfl, h⟩ | ⟨q, rfl, h⟩)
        · exact ⟨q, rfl, (into_atF x v q k).2 (.inl h)⟩
        · exact ⟨q, rfl, (into_atF x v q k).2 (.inr h)⟩
theorem addl_atF (d : Option OrBool) : (s : Option OrBool) → ∀ p k,
    (∃ b c q, (mergeAddl d s).1 = some (.mk b (some c)) ∧ p = none :: q ∧ AtF F c q k) ↔
      (∃ b c q, d = some (.mk b (some c)) ∧ p = none :: q ∧ AtF F c q k) ∨ ∃ b c q, s = some (.mk b (some c)) ∧ p = none :: q ∧ AtF F c q k
  | none, p, k => by simp [mergeAddl]
  | some (.mk a none), p, k => by
    simp only [mergeAddl]
    cases d <;> simp
  | some (.mk a (some s)), p, k => by
    cases d with
    | none => simp [mergeAddl]
    | some o =>
      obtain ⟨b, x⟩ := o
      simp only [mergeAddl]
      constructor
      · rintro ⟨b', c, q, hc, rfl, h⟩
        simp only [Option.some.injEq, OrBool.mk.injEq] at hc
        rw [← hc.2] at h
        rcases (into_atF _ s q k).1 h with h | h
        · cases x with
          | none => exact absurd h (atF_rem hF rem_empty q k)
          | some x => exact .inl ⟨b, x, q, rfl, rfl, h⟩
        · exact .inr ⟨a, s, q, rfl, rfl, h⟩
      · rintro (⟨b', c, q, hc, rfl, h⟩ | ⟨b', c, q, hc, rfl, h⟩)
        · simp only [Option.some.injEq, OrBool.mk.injEq] at hc
          refine ⟨b, _, q, rfl, rfl, (into_atF _ s q k).2 (.inl ?_)⟩
          rw [hc.2]; exact h
        · simp only [Option.some.injEq, OrBool.mk.injEq] at hc
          refine ⟨b, _, q, rfl, rfl, (into_atF _ s q k).2 (.inr ?_)⟩
          rw [hc.2]; exact h
end

theorem visit_atF (s : Schema) (p : List (Option String)) (k : String) : AtF F (visitAllOf s).1 p k ↔ AtF F s p k := by
  rw [visitAllOf_eq, all_atF hF, atF_iff, atF_iff (s := s), hF.bare]
  simp only [Schema.allOf_mk, Schema.properties_mk, Schema.additionalProperties_mk, List.not_mem_nil, false_and, exists_false, false_or]
  constructor
  · rintro ((h | h) | h)
    · exact .inl h
    · exact .inr (.inr h)
    · exact .inr (.inl h)
  · rintro (h | h | h)
    · exact .inl (.inl h)
    · exact .inr h
    · exact .inl (.inr h)

theorem map_atF {f : Schema → Schema × List (String × String)} {s : Schema} (h : ∀ c, Child s c → ∀ p k, AtF F (f c).1 p k ↔ AtF F c p k)
    (p : List (Option String)) (k : String) : AtF F (mapChildren f s).1 p k ↔ AtF F s p k := by
  rw [atF_iff, hF.map, atF_iff (s := s)]
  obtain ⟨b, it, al, oo, an, nt, pr, ad, pa, de, ai, df⟩ := s
  have h1 : (∃ c ∈ (mapSlice f al).1, AtF F c p k) ↔ ∃ c ∈ al, AtF F c p k := by
    simp only [mapSlice, List.mem_map]
    constructor
    · rintro ⟨_, ⟨c, hc, rfl⟩, h'⟩
      exact ⟨c, hc, (h c (.allOf hc) p k).1 h'⟩
    · rintro ⟨c, hc, h'⟩
      exact ⟨_, ⟨c, hc, rfl⟩, (h c (.allOf hc) p k).2 h'⟩
  have h2 : (∃ e ∈ (mapMap f pr).1, ∃ q, p = some e.1 :: q ∧ AtF F e.2 q k) ↔ ∃ e ∈ pr, ∃ q, p = some e.1 :: q ∧ AtF F e.2 q k := by
    simp only [mapMap, List.mem_map]
    constructor
    · rintro ⟨_, ⟨c, hc, rfl⟩, q, hq, h'⟩
      exact ⟨c, hc, q, hq, (h c.2 (.property (k := c.1) hc) q k).1 h'⟩
    · rintro ⟨c, hc, q, hq, h'⟩
      exact ⟨_, ⟨c, hc, rfl⟩, q, hq, (h c.2 (.property (k := c.1) hc) q k).2 h'⟩
  have h3 : (∃ b c q, (mapOrBool f ad).1 = some (.mk b (some c)) ∧ p = none :: q ∧ AtF F c q k) ↔
      ∃ b c q, ad = some (.mk b (some c)) ∧ p = none :: q ∧ AtF F c q k := by
    cases ad with
    | none => simp [mapOrBool]
    | some o =>
      obtain ⟨b', x⟩ := o
      cases x with
      | none => simp [mapOrBool, mapOpt]
      | some x =>
        have h4 := h x (.additionalProperties rfl rfl)
        simp only [mapOrBool, mapOpt, Option.some.injEq, OrBool.mk.injEq]
        constructor
        · rintro ⟨b, c, q, ⟨e1, rfl⟩, hq, h'⟩
          exact ⟨b, x, q, ⟨e1, rfl⟩, hq, (h4 q k).1 h'⟩
        · rintro ⟨b, c, q, ⟨e1, rfl⟩, hq, h'⟩
          exact ⟨b, _, q, ⟨e1, rfl⟩, hq, (h4 q k).2 h'⟩
  simp only [mapChildren, Schema.allOf_mk, Schema.properties_mk, Schema.additionalProperties_mk, h1, h2, h3]

theorem walk_atF (n : Nat) : ∀ (s : Schema) (p : List (Option String)) (k : String), AtF F (walkAllOf n s).1 p k ↔ AtF F s p k := by
  induction n with
  | zero => intro s p k; simp [walkAllOf]
  | succ n ih =>
    intro s p k
    simp only [walkAllOf]
    rw [map_atF hF (fun c _ => ih c), visit_atF hF]

end

/-! ## The two collections -/

theorem put_keys {l : List (String × Schema)} {k k' : String} {v : Schema} :
    k' ∈ (GoMap.put l k v).map (·.1) ↔ k' = k ∨ k' ∈ l.map (·.1) := GoMap.mem_keys_put

theorem mergeProps_keys (s : List (String × Schema)) : ∀ (d : List (String × Schema)) (k : String),
    k ∈ (mergeProps d s).1.map (·.1) ↔ k ∈ d.map (·.1) ∨ k ∈ s.map (·.1) := by
  induction s with
  | nil => intro d k; simp [mergeProps]
  | cons e s ih =>
    obtain ⟨n, v⟩ := e
    intro d k
    rw [mergeProps]
    have : ∀ x, k ∈ (mergeProps (GoMap.put d n x) s).1.map (·.1) ↔ k ∈ d.map (·.1) ∨ k ∈ ((n, v) :: s).map (·.1) := by
      intro x
      rw [ih, put_keys, List.map_cons, List.mem_cons]
      constructor
      · rintro ((h | h) | h)
        · exact .inr (.inl h)
        · exact .inl h
        · exact .inr (.inr h)
      · rintro (h | h | h)
        · exact .inl (.inr h)
        · exact .inl (.inl h)
        · exact .inr h
    cases hg : GoMap.get d n with
    | none => exact this v
    | some x => exact this _

theorem collect_required : Collect (fun s k => k ∈ s.base.required) where
  merge := by intro d s k; simp [mergeRest, Schema.base_mk, mergeBase, mem_dedupSort]
  rem := by intro c k h; simp [h.required]
  bare := Iff.rfl
  map := by intro f s k; cases s; exact Iff.rfl

theorem collect_properties : Collect (fun s k => k ∈ s.properties.map (·.1)) where
  merge := by intro d s k; exact mergeProps_keys s.properties d.properties k
  rem := by intro c k h; simp [h.properties]
  bare := Iff.rfl
  map := by
    intro f s k; obtain ⟨b, it, al, oo, an, nt, pr, ad, pa, de, ai, df⟩ := s
    simp only [mapChildren, Schema.properties_mk, map_keys]

theorem collect_addl : Collect (fun s _ => ∃ b c, s.additionalProperties = some (.mk b (some c))) where
  merge := by
    intro d s k
    show (∃ b c, (mergeAddl d.additionalProperties s.additionalProperties).1 = some (.mk b (some c))) ↔ _
    generalize d.additionalProperties = x
    generalize s.additionalProperties = y
    cases y with
    | none => simp [mergeAddl]
    | some y =>
      obtain ⟨a, y⟩ := y
      cases y with
      | none => cases x <;> simp [mergeAddl]
      | some y =>
        cases x with
        | none => simp [mergeAddl]
        | some x => obtain ⟨b, x⟩ := x; simp [mergeAddl]
  rem := by intro c k h; simp [h.additionalProperties]
  bare := Iff.rfl
  map := by
    intro f s k; obtain ⟨b, it, al, oo, an, nt, pr, ad, pa, de, ai, df⟩ := s
    simp only [mapChildren, Schema.additionalProperties_mk]
    cases ad with
    | none => simp [mapOrBool]
    | some o => obtain ⟨b', x⟩ := o; cases x <;> simp [mapOrBool, mapOpt]

/-! ## All schemas of the result -/

theorem child_map {f : Schema → Schema × List (String × String)} {s c : Schema} (h : Child (mapChildren f s).1 c) : ∃ c₀, Child s c₀ ∧ c = (f c₀).1 := by
  have hopt : ∀ {o : Option Schema}, (mapOpt f o).1 = some c → ∃ c₀, o = some c₀ ∧ c = (f c₀).1 := by
    intro o ho
    cases o with
    | none => simp [mapOpt] at ho
    | some x => simp [mapOpt] at ho; exact ⟨x, rfl, ho.symm⟩
  have hlist : ∀ {l : List Schema}, c ∈ (mapSlice f l).1 → ∃ c₀ ∈ l, c = (f c₀).1 := by
    intro l hl
    simp only [mapSlice, List.mem_map] at hl
    obtain ⟨x, hx, rfl⟩ := hl
    exact ⟨x, hx, rfl⟩
  have hmap : ∀ {l : List (String × Schema)} {k}, (k, c) ∈ (mapMap f l).1 → ∃ c₀, (k, c₀) ∈ l ∧ c = (f c₀).1 := by
    intro l k hl
    simp only [mapMap, List.mem_map, Prod.mk.injEq] at hl
    obtain ⟨x, hx, rfl, rfl⟩ := hl
    exact ⟨x.2, hx, rfl⟩
  have hob : ∀ {o : Option OrBool} {x}, (mapOrBool f o).1 = some x → x.schema = some c → ∃ y c₀, o = some y ∧ y.schema = some c₀ ∧ c = (f c₀).1 := by
    intro o x ho hx
    cases o with
    | none => simp [mapOrBool] at ho
    | some y =>
      obtain ⟨b, y⟩ := y
      simp only [mapOrBool, Option.some.injEq] at ho
      subst ho
      obtain ⟨c₀, h1, h2⟩ := hopt hx
      exact ⟨_, c₀, rfl, h1, h2⟩
  obtain ⟨b, it, al, oo, an, nt, pr, ad, pa, de, ai, df⟩ := s
  cases h with
  | @items x _ a b =>
    cases it with
    | none => simp [mapChildren, Schema.items_mk, mapItems] at a
    | some i =>
      obtain ⟨i, l⟩ := i
      simp only [mapChildren, Schema.items_mk, mapItems, Option.some.injEq] at a
      subst a
      obtain ⟨c₀, h1, h2⟩ := hopt b
      exact ⟨c₀, .items rfl h1, h2⟩
  | @itemsArr x _ a b =>
    cases it with
    | none => simp [mapChildren, Schema.items_mk, mapItems] at a
    | some i =>
      obtain ⟨i, l⟩ := i
      simp only [mapChildren, Schema.items_mk, mapItems, Option.some.injEq] at a
      subst a
      obtain ⟨c₀, h1, h2⟩ := hlist b
      exact ⟨c₀, .itemsArr rfl h1, h2⟩
  | allOf a => obtain ⟨c₀, h1, h2⟩ := hlist a; exact ⟨c₀, .allOf h1, h2⟩
  | oneOf a => obtain ⟨c₀, h1, h2⟩ := hlist a; exact ⟨c₀, .oneOf h1, h2⟩
  | anyOf a => obtain ⟨c₀, h1, h2⟩ := hlist a; exact ⟨c₀, .anyOf h1, h2⟩
  | not a => obtain ⟨c₀, h1, h2⟩ := hopt a; exact ⟨c₀, .not h1, h2⟩
  | property a => obtain ⟨c₀, h1, h2⟩ := hmap a; exact ⟨c₀, .property h1, h2⟩
  | additionalProperties a b => obtain ⟨y, c₀, h0, h1, h2⟩ := hob a b; exact ⟨c₀, .additionalProperties h0 h1, h2⟩
  | patternProperty a => obtain ⟨c₀, h1, h2⟩ := hmap a; exact ⟨c₀, .patternProperty h1, h2⟩
  | @dependency k o _ a b =>
    simp only [mapChildren, Schema.dependencies_mk, mapDeps, List.mem_map] at a
    obtain ⟨⟨k', x, ps⟩, hx, he⟩ := a
    simp only [Prod.mk.injEq] at he
    obtain ⟨-, rfl⟩ := he
    obtain ⟨c₀, h1, h2⟩ := hopt b
    exact ⟨c₀, .dependency (o := .mk x ps) hx h1, h2⟩
  | additionalItems a b => obtain ⟨y, c₀, h0, h1, h2⟩ := hob a b; exact ⟨c₀, .additionalItems h0 h1, h2⟩
  | definition a => obtain ⟨c₀, h1, h2⟩ := hmap a; exact ⟨c₀, .definition h1, h2⟩

theorem rem_map {f : Schema → Schema × List (String × String)} {s : Schema} (h : Rem s) : Rem (mapChildren f s).1 := by
  obtain ⟨b, it, al, oo, an, nt, pr, ad, pa, de, ai, df⟩ := s
  have h1 : al = [] := h.allOf
  have h2 : pr = [] := h.properties
  have h3 : ad = none := h.additionalProperties
  subst h1 h2 h3
  exact ⟨rfl, h.type, h.required, rfl, rfl, h.still⟩

theorem rem_walk (n : Nat) {s : Schema} (h : Rem s) : Rem (walkAllOf n s).1 := by
  cases n with
  | zero => exact h
  | succ n =>
    simp only [walkAllOf, visit_flat h.allOf]
    exact rem_map h

/-- With enough depth, all allOf members in the result are remainders. -/
theorem walk_flat (n : Nat) : ∀ s : Schema, (2 * s.rank ≤ n ∨ (s.allOf = [] ∧ 2 * s.rank ≤ n + 1)) →
    ∀ u, Sub (walkAllOf n s).1 u → ∀ c ∈ u.allOf, Rem c := by
  induction n with
  | zero => intro s h; have := rank_pos s; omega
  | succ n ih =>
    intro s h u hu
    have hr := visit_rank s
    simp only [walkAllOf] at hu
    cases hu with
    | refl =>
      intro c hc
      have : c ∈ (mapSlice (walkAllOf n) (visitAllOf s).1.allOf).1 := by
        revert hc
        cases (visitAllOf s).1
        exact id
      simp only [mapSlice, List.mem_map] at this
      obtain ⟨c₀, h1, rfl⟩ := this
      exact rem_walk n (visit_rem s c₀ h1)
    | step hc hu =>
      obtain ⟨c₀, hc₀, rfl⟩ := child_map hc
      refine ih c₀ ?_ u hu
      rcases rank_child hc₀ with h1 | ⟨h1, h2⟩
      · left; omega
      · have h3 := (visit_rem s c₀ h2).allOf
        rcases h with h | ⟨h0, h⟩
        · right; exact ⟨h3, by omega⟩
        · rw [visit_flat h0] at h2
          simp [h0] at h2

/-! ## Required lists are normalised -/

/-- Sorted, without duplicates. -/
def Normal (l : List String) : Prop := l.Pairwise (· < ·)

theorem normal_dedupSort (l : List String) : Normal (dedupSort l) := by
  have h1 : (dedupSort l).Nodup := nodup_sortBy.2 (nodup_eraseDups l)
  have h2 : (dedupSort l).Pairwise fun x y => strLe x y = true := sortBy_pairwise strLe_trans strLe_total l.eraseDups
  exact (List.pairwise_and_iff.2 ⟨h2, h1⟩).imp fun h => strLt_iff.2 h

/-- All schemas somewhere below have the property. -/
def AllSub (K : Schema → Prop) (s : Schema) : Prop := ∀ u, Sub s u → K u

theorem allSub_iff {K : Schema → Prop} {s : Schema} : AllSub K s ↔ K s ∧ ∀ c, Child s c → AllSub K c := by
  constructor
  · intro h
    exact ⟨h s .refl, fun c hc u hu => h u (.step hc hu)⟩
  · rintro ⟨h1, h2⟩ u hu
    cases hu with
    | refl => exact h1
    | step hc hu => exact h2 _ hc u hu

section
variable {K : Schema → Prop} (hm : ∀ d s pr ad, K (mergeRest d s pr ad)) (hr : ∀ c, Rem c → K c)
include hm hr

mutual
theorem into_allSub (d : Schema) : (s : Schema) → (∀ c, Child d c → AllSub K c) → AllSub K s → AllSub K (flattenInto d s).1
  | .mk b it al oo an nt pr ad pa de ai df, hd, hs => by
    have hs' := (allSub_iff.1 hs).2
    have h1' := all_allSub d al hd fun c hc => hs' c (.allOf hc)
    have h2 := props_allSub (flattenAllInto d al).1.properties pr (fun e he => h1' _ (.property (k := e.1) he)) fun e he => hs' _ (.property (k := e.1) he)
    have h3 := addl_allSub (flattenAllInto d al).1.additionalProperties ad (fun b c hc => h1' _ (.additionalProperties hc rfl)) fun b c hc => hs' _ (.additionalProperties hc rfl)
    rw [flattenInto_eq, allSub_iff]
    refine ⟨hm _ _ _ _, fun c hc => ?_⟩
    rcases child_mergeRest hc with hc | hc | hc | ⟨k, hc⟩ | ⟨b', hc⟩
    · exact h1' c hc
    · exact hs' c hc
    · rw [allSub_iff]
      refine ⟨hr c (rem_remainders hc), ?_⟩
      rcases mem_remainders hc with rfl | rfl
      · exact fun c hc => h1' c (child_dstRem hc)
      · exact fun c hc => hs' c (child_srcRem hc)
    · exact h2 _ hc
    · exact h3 _ _ hc
theorem all_allSub (d : Schema) : (l : List Schema) → (∀ c, Child d c → AllSub K c) → (∀ c ∈ l, AllSub K c) →
    ∀ c, Child (flattenAllInto d l).1 c → AllSub K c
  | [], hd, _ => by simpa only [flattenAllInto] using hd
  | s :: l, hd, hl => by
    simp only [flattenAllInto]
    exact all_allSub _ l (allSub_iff.1 (into_allSub d s hd (hl s (by simp)))).2 fun c hc => hl c (by simp [hc])
theorem props_allSub (d : List (String × Schema)) : (s : List (String × Schema)) → (∀ e ∈ d, AllSub K e.2) → (∀ e ∈ s, AllSub K e.2) →
    ∀ e ∈ (mergeProps d s).1, AllSub K e.2
  | [], hd, _ => by simp only [mergeProps]; exact hd
  | (k, v) :: l, hd, hs => by
    have hput : ∀ x, AllSub K x → ∀ e ∈ GoMap.put d k x, AllSub K e.2 := by
      intro x hx e he
      rcases GoMap.mem_of_mem_put he with rfl | he
      · exact hx
      · exact hd e he
    rw [mergeProps]
    cases hg : GoMap.get d k with
    | none => exact props_allSub _ l (hput v (hs (k, v) (by simp))) fun e he => hs e (List.mem_cons_of_mem _ he)
    | some x =>
      exact props_allSub _ l (hput _ (into_allSub x v (allSub_iff.1 (hd _ (get_mem hg))).2 (hs (k, v) (by simp)))) fun e he => hs e (List.mem_cons_of_mem _ he)
theorem addl_allSub (d : Option OrBool) : (s : Option OrBool) → (∀ b c, d = some (.mk b (some c)) → AllSub K c) →
    (∀ b c, s = some (.mk b (some c)) → AllSub K c) → ∀ b c, (mergeAddl d s).1 = some (.mk b (some c)) → AllSub K c
  | none, hd, _ => by simp only [mergeAddl]; exact hd
  | some (.mk a none), hd, hs => by
    simp only [mergeAddl]
    cases d with
    | none => exact hs
    | some o => exact hd
  | some (.mk a (some s)), hd, hs => by
    cases d with
    | none => simp only [mergeAddl]; exact hs
    | some o =>
      obtain ⟨b, x⟩ := o
      simp only [mergeAddl]
      intro b' c hc
      simp only [Option.some.injEq, OrBool.mk.injEq] at hc
      rw [← hc.2]
      refine into_allSub _ s ?_ (hs a s rfl)
      cases x with
      | none =>
        intro c hc
        cases hc with
        | items h1 h2 => simp [Schema.empty, Schema.leaf, Schema.items] at h1
        | itemsArr h1 h2 => simp [Schema.empty, Schema.leaf, Schema.items] at h1
        | allOf h => simp [Schema.empty, Schema.leaf, Schema.allOf] at h
        | oneOf h => simp [Schema.empty, Schema.leaf, Schema.oneOf] at h
        | anyOf h => simp [Schema.empty, Schema.leaf, Schema.anyOf] at h
        | not h => simp [Schema.empty, Schema.leaf, Schema.not] at h
        | property h => simp [Schema.empty, Schema.leaf, Schema.properties] at h
        | additionalProperties h1 h2 => simp [Schema.empty, Schema.leaf, Schema.additionalProperties] at h1
        | patternProperty h => simp [Schema.empty, Schema.leaf, Schema.patternProperties] at h
        | dependency h1 h2 => simp [Schema.empty, Schema.leaf, Schema.dependencies] at h1
        | additionalItems h1 h2 => simp [Schema.empty, Schema.leaf, Schema.additionalItems] at h1
        | definition h => simp [Schema.empty, Schema.leaf, Schema.definitions] at h
      | some x => exact (allSub_iff.1 (hd b x rfl)).2
end
end

theorem into_normal (d s : Schema) : Normal (flattenInto d s).1.base.required := by
  rw [flattenInto_eq]; exact normal_dedupSort _

theorem all_normal (d : Schema) (l : List Schema) (hl : l ≠ []) : Normal (flattenAllInto d l).1.base.required := by
  induction l generalizing d with
  | nil => exact absurd rfl hl
  | cons s l ih =>
    simp only [flattenAllInto]
    by_cases h : l = []
    · subst h; simp only [flattenAllInto]; exact into_normal d s
    · exact ih _ h

/-- A schema that needs no visit has a required list that is normal, or one of the original schemas'. -/
def ReqOk (O : List String → Prop) (u : Schema) : Prop := u.allOf = [] → Normal u.base.required ∨ O u.base.required

theorem visit_reqOk {O : List String → Prop} {s : Schema} (h : AllSub (ReqOk O) s) :
    (Normal (visitAllOf s).1.base.required ∨ O (visitAllOf s).1.base.required) ∧ ∀ c, Child (visitAllOf s).1 c → AllSub (ReqOk O) c := by
  have hm : ∀ d s pr ad, ReqOk O (mergeRest d s pr ad) := fun d s pr ad _ => .inl (normal_dedupSort _)
  have hr : ∀ c, Rem c → ReqOk O c := fun c hc _ => .inl (by rw [hc.required]; exact List.Pairwise.nil)
  have h' := allSub_iff.1 h
  by_cases ha : s.allOf = []
  · rw [visit_flat ha]
    exact ⟨h'.1 ha, h'.2⟩
  · rw [visitAllOf_eq]
    exact ⟨.inl (all_normal _ _ ha), all_allSub hm hr _ _ (fun c hc => h'.2 c (child_bare hc)) fun c hc => h'.2 c (.allOf hc)⟩

theorem walk_reqOk {O : List String → Prop} (n : Nat) : ∀ s : Schema, AllSub (ReqOk O) s → (2 * s.rank ≤ n ∨ (s.allOf = [] ∧ 2 * s.rank ≤ n + 1)) →
    ∀ u, Sub (walkAllOf n s).1 u → Normal u.base.required ∨ O u.base.required := by
  induction n with
  | zero => intro s _ h; have := rank_pos s; omega
  | succ n ih =>
    intro s hs h u hu
    have hr := visit_rank s
    have hv := visit_reqOk hs
    simp only [walkAllOf] at hu
    cases hu with
    | refl =>
      have : (mapChildren (walkAllOf n) (visitAllOf s).1).1.base = (visitAllOf s).1.base := by cases (visitAllOf s).1; rfl
      rw [this]; exact hv.1
    | step hc hu =>
      obtain ⟨c₀, hc₀, rfl⟩ := child_map hc
      refine ih c₀ (hv.2 c₀ hc₀) ?_ u hu
      rcases rank_child hc₀ with h1 | ⟨h1, h2⟩
      · left; omega
      · have h3 := (visit_rem s c₀ h2).allOf
        rcases h with h | ⟨h0, h⟩
        · right; exact ⟨h3, by omega⟩
        · rw [visit_flat h0] at h2
          simp [h0] at h2

end Verif.Crd

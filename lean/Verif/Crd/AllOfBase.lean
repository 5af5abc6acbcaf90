import Verif.Crd.AllOf
import Verif.Crd.SchemaSpec
/-!
# Lemmas for C28: merging plain keywords
-/
namespace Verif.Crd
open Spec

theorem field_sem {α : Type} [DecidableEq α] (Φ : α → Prop) {cmp : Bool} {z d s : α} (h0 : Φ z) :
    (Φ (mergeField cmp z d s).val ∧ Φ (mergeField cmp z d s).dstRem ∧ Φ (mergeField cmp z d s).srcRem) ↔ (Φ d ∧ Φ s) := by
  simp only [mergeField]
  split
  · rename_i h; subst h; simp [h0]
  · split
    · rename_i h; subst h; simp [h0]
    · split
      · rename_i h; rw [h.2]; simp [h0]
      · simp [h0]

theorem opt_sem {α : Type} (Φ : Option α → Prop) {d s : Option α} (h0 : Φ none) :
    (Φ (mergeOpt d s).val ∧ Φ (mergeOpt d s).dstRem ∧ Φ (mergeOpt d s).srcRem) ↔ (Φ d ∧ Φ s) := by
  cases d <;> cases s <;> simp [mergeOpt, h0]

theorem list_sem {α : Type} (Φ : List α → Prop) {d s : List α} (h0 : Φ []) :
    (Φ (mergeList d s).val ∧ Φ (mergeList d s).dstRem ∧ Φ (mergeList d s).srcRem) ↔ (Φ d ∧ Φ s) := by
  cases d <;> cases s <;> simp [mergeList, h0]

theorem hasType_nil (j : Json) : HasType "" j := by simp [HasType]

theorem mem_dedupSort {l : List String} {k : String} : k ∈ dedupSort l ↔ k ∈ l := by
  simp [dedupSort, sortStrings, mem_sortBy, List.mem_eraseDups]

/-- The plain keywords whose meaning depends on another keyword are at their defaults. -/
structure Plain (b : Base) : Prop where
  nullable : b.nullable = false
  exclusiveMaximum : b.exclusiveMaximum = false
  exclusiveMinimum : b.exclusiveMinimum = false

theorem Plain.merge {d s : Base} (hd : Plain d) (hs : Plain s) : Plain (mergeBase d s) := by
  constructor <;> simp [mergeBase, mergeField, hd.1, hd.2, hd.3, hs.1, hs.2, hs.3]
theorem Plain.dstRem {d s : Base} (hs : Plain s) : Plain (dstRemBase d s) := by
  constructor <;> simp [dstRemBase, mergeField, hs.1, hs.2, hs.3]
theorem Plain.srcRem {d s : Base} (hs : Plain s) : Plain (srcRemBase d s) := by
  constructor <;> simp [srcRemBase, mergeField, hs.1, hs.2, hs.3]

theorem typeOk_plain {b : Base} (h : Plain b) (j : Json) : TypeOk b j ↔ HasType b.type j := by simp [TypeOk, h.nullable]
theorem maxOk_plain {b : Base} (h : Plain b) (j : Json) : MaxOk b j ↔ ∀ q m, j = .num q → b.maximum = some m → q ≤ m := by
  simp [MaxOk, h.exclusiveMaximum]
theorem minOk_plain {b : Base} (h : Plain b) (j : Json) : MinOk b j ↔ ∀ q m, j = .num q → b.minimum = some m → m ≤ q := by
  simp [MinOk, h.exclusiveMinimum]

theorem list_or {A : String → Prop} {d s : List String} : (∀ k ∈ dedupSort (d ++ s), A k) ↔ (∀ k ∈ d, A k) ∧ ∀ k ∈ s, A k := by
  simp only [mem_dedupSort, List.mem_append]
  exact ⟨fun h => ⟨fun k hk => h k (.inl hk), fun k hk => h k (.inr hk)⟩, fun h k hk => hk.elim (h.1 k) (h.2 k)⟩

theorem list_or' {α : Type} {A : α → Prop} {d s : List α} : (∀ k ∈ s ++ d, A k) ↔ (∀ k ∈ d, A k) ∧ ∀ k ∈ s, A k := by
  simp only [List.mem_append]
  exact ⟨fun h => ⟨fun k hk => h k (.inr hk), fun k hk => h k (.inl hk)⟩, fun h k hk => hk.elim (h.2 k) (h.1 k)⟩

theorem baseOk_merge (M : Meaning) {d s : Base} (hd : Plain d) (hs : Plain s) (ht : (mergeType d.type s.type).2 = []) (j : Json) :
    (BaseOk M (mergeBase d s) j ∧ BaseOk M (dstRemBase d s) j ∧ BaseOk M (srcRemBase d s) j) ↔ (BaseOk M d j ∧ BaseOk M s j) := by
  have h_type : (TypeOk (mergeBase d s) j ∧ TypeOk (dstRemBase d s) j ∧ TypeOk (srcRemBase d s) j) ↔ (TypeOk d j ∧ TypeOk s j) := by
    rw [typeOk_plain (hd.merge hs), typeOk_plain hs.dstRem, typeOk_plain hs.srcRem, typeOk_plain hd, typeOk_plain hs]
    simp only [mergeBase, dstRemBase, srcRemBase, hasType_nil, and_true]
    simp only [mergeType] at ht ⊢
    split
    · rename_i h; simp [h, hasType_nil]
    · split
      · rename_i h; simp [h, hasType_nil]
      · split
        · rename_i h; simp [h]
        · rename_i h1 h2 h3; simp [h1, h2, h3] at ht
  have h_maximum : (MaxOk (mergeBase d s) j ∧ MaxOk (dstRemBase d s) j ∧ MaxOk (srcRemBase d s) j) ↔ (MaxOk d j ∧ MaxOk s j) := by
    rw [maxOk_plain (hd.merge hs), maxOk_plain hs.dstRem, maxOk_plain hs.srcRem, maxOk_plain hd, maxOk_plain hs]
    exact field_sem (fun o => ∀ q m, j = .num q → o = some m → q ≤ m) (by nofun)
  have h_minimum : (MinOk (mergeBase d s) j ∧ MinOk (dstRemBase d s) j ∧ MinOk (srcRemBase d s) j) ↔ (MinOk d j ∧ MinOk s j) := by
    rw [minOk_plain (hd.merge hs), minOk_plain hs.dstRem, minOk_plain hs.srcRem, minOk_plain hd, minOk_plain hs]
    exact field_sem (fun o => ∀ q m, j = .num q → o = some m → m ≤ q) (by nofun)
  have h_required := list_or (A := fun k => ∀ m, j = .obj m → k ∈ m.map (·.1)) (d := d.required) (s := s.required)
  have h_rules := list_or' (A := fun r => M.rule r j) (d := d.xValidations) (s := s.xValidations)

  have h_format := field_sem (cmp := true) (z := "") (d := d.format) (s := s.format) (fun o : String => o ≠ "" → M.format o j) (by simp)
  have h_multipleOf := field_sem (cmp := false) (z := none) (d := d.multipleOf) (s := s.multipleOf) (fun o : Option Rat => ∀ q m, j = .num q → o = some m → ∃ z : Int, q = z * m) (by simp)
  have h_maxLength := field_sem (cmp := false) (z := none) (d := d.maxLength) (s := s.maxLength) (fun o : Option Int => ∀ s n, j = .str s → o = some n → (s.length : Int) ≤ n) (by simp)
  have h_minLength := field_sem (cmp := false) (z := none) (d := d.minLength) (s := s.minLength) (fun o : Option Int => ∀ s n, j = .str s → o = some n → n ≤ (s.length : Int)) (by simp)
  have h_pattern := field_sem (cmp := true) (z := "") (d := d.pattern) (s := s.pattern) (fun o : String => ∀ s, j = .str s → o ≠ "" → M.matches_ o s) (by simp)
  have h_maxItems := field_sem (cmp := false) (z := none) (d := d.maxItems) (s := s.maxItems) (fun o : Option Int => ∀ l n, j = .arr l → o = some n → (l.length : Int) ≤ n) (by simp)
  have h_minItems := field_sem (cmp := false) (z := none) (d := d.minItems) (s := s.minItems) (fun o : Option Int => ∀ l n, j = .arr l → o = some n → n ≤ (l.length : Int)) (by simp)
  have h_uniqueItems := field_sem (cmp := true) (z := false) (d := d.uniqueItems) (s := s.uniqueItems) (fun o : Bool => ∀ l, j = .arr l → o = true → l.Nodup) (by simp)
  have h_maxProperties := field_sem (cmp := false) (z := none) (d := d.maxProperties) (s := s.maxProperties) (fun o : Option Int => ∀ m n, j = .obj m → o = some n → (m.length : Int) ≤ n) (by simp)
  have h_minProperties := field_sem (cmp := false) (z := none) (d := d.minProperties) (s := s.minProperties) (fun o : Option Int => ∀ m n, j = .obj m → o = some n → n ≤ (m.length : Int)) (by simp)
  have h_enum := field_sem (cmp := false) (z := []) (d := d.enum) (s := s.enum) (fun o : List Raw => o ≠ [] → ∃ r ∈ o, M.value r = j) (by simp)
  have h_intOrString := field_sem (cmp := true) (z := false) (d := d.xIntOrString) (s := s.xIntOrString) (fun o : Bool => o = true → (∃ z : Int, j = .num z) ∨ ∃ s, j = .str s) (by simp)
  constructor
  · rintro ⟨⟨a_type, a_format, a_maximum, a_minimum, a_multipleOf, a_maxLength, a_minLength, a_pattern, a_maxItems, a_minItems, a_uniqueItems, a_maxProperties, a_minProperties, a_required, a_enum, a_intOrString, a_rules⟩, ⟨b_type, b_format, b_maximum, b_minimum, b_multipleOf, b_maxLength, b_minLength, b_pattern, b_maxItems, b_minItems, b_uniqueItems, b_maxProperties, b_minProperties, b_required, b_enum, b_intOrString, b_rules⟩, ⟨c_type, c_format, c_maximum, c_minimum, c_multipleOf, c_maxLength, c_minLength, c_pattern, c_maxItems, c_minItems, c_uniqueItems, c_maxProperties, c_minProperties, c_required, c_enum, c_intOrString, c_rules⟩⟩
    exact ⟨⟨(h_type.1 ⟨a_type, b_type, c_type⟩).1, (h_format.1 ⟨a_format, b_format, c_format⟩).1, (h_maximum.1 ⟨a_maximum, b_maximum, c_maximum⟩).1, (h_minimum.1 ⟨a_minimum, b_minimum, c_minimum⟩).1, (h_multipleOf.1 ⟨a_multipleOf, b_multipleOf, c_multipleOf⟩).1, (h_maxLength.1 ⟨a_maxLength, b_maxLength, c_maxLength⟩).1, (h_minLength.1 ⟨a_minLength, b_minLength, c_minLength⟩).1, (h_pattern.1 ⟨a_pattern, b_pattern, c_pattern⟩).1, (h_maxItems.1 ⟨a_maxItems, b_maxItems, c_maxItems⟩).1, (h_minItems.1 ⟨a_minItems, b_minItems, c_minItems⟩).1, (h_uniqueItems.1 ⟨a_uniqueItems, b_uniqueItems, c_uniqueItems⟩).1, (h_maxProperties.1 ⟨a_maxProperties, b_maxProperties, c_maxProperties⟩).1, (h_minProperties.1 ⟨a_minProperties, b_minProperties, c_minProperties⟩).1, fun m k hj hk => (h_required.1 (fun k hk m hj => a_required m k hj hk)).1 k hk m hj, (h_enum.1 ⟨a_enum, b_enum, c_enum⟩).1, (h_intOrString.1 ⟨a_intOrString, b_intOrString, c_intOrString⟩).1, (h_rules.1 a_rules).1⟩,
      ⟨(h_type.1 ⟨a_type, b_type, c_type⟩).2, (h_format.1 ⟨a_format, b_format, c_format⟩).2, (h_maximum.1 ⟨a_maximum, b_maximum, c_maximum⟩).2, (h_minimum.1 ⟨a_minimum, b_minimum, c_minimum⟩).2, (h_multipleOf.1 ⟨a_multipleOf, b_multipleOf, c_multipleOf⟩).2, (h_maxLength.1 ⟨a_maxLength, b_maxLength, c_maxLength⟩).2, (h_minLength.1 ⟨a_minLength, b_minLength, c_minLength⟩).2, (h_pattern.1 ⟨a_pattern, b_pattern, c_pattern⟩).2, (h_maxItems.1 ⟨a_maxItems, b_maxItems, c_maxItems⟩).2, (h_minItems.1 ⟨a_minItems, b_minItems, c_minItems⟩).2, (h_uniqueItems.1 ⟨a_uniqueItems, b_uniqueItems, c_uniqueItems⟩).2, (h_maxProperties.1 ⟨a_maxProperties, b_maxProperties, c_maxProperties⟩).2, (h_minProperties.1 ⟨a_minProperties, b_minProperties, c_minProperties⟩).2, fun m k hj hk => (h_required.1 (fun k hk m hj => a_required m k hj hk)).2 k hk m hj, (h_enum.1 ⟨a_enum, b_enum, c_enum⟩).2, (h_intOrString.1 ⟨a_intOrString, b_intOrString, c_intOrString⟩).2, (h_rules.1 a_rules).2⟩⟩
  · rintro ⟨⟨a_type, a_format, a_maximum, a_minimum, a_multipleOf, a_maxLength, a_minLength, a_pattern, a_maxItems, a_minItems, a_uniqueItems, a_maxProperties, a_minProperties, a_required, a_enum, a_intOrString, a_rules⟩, ⟨b_type, b_format, b_maximum, b_minimum, b_multipleOf, b_maxLength, b_minLength, b_pattern, b_maxItems, b_minItems, b_uniqueItems, b_maxProperties, b_minProperties, b_required, b_enum, b_intOrString, b_rules⟩⟩
    exact ⟨⟨(h_type.2 ⟨a_type, b_type⟩).1, (h_format.2 ⟨a_format, b_format⟩).1, (h_maximum.2 ⟨a_maximum, b_maximum⟩).1, (h_minimum.2 ⟨a_minimum, b_minimum⟩).1, (h_multipleOf.2 ⟨a_multipleOf, b_multipleOf⟩).1, (h_maxLength.2 ⟨a_maxLength, b_maxLength⟩).1, (h_minLength.2 ⟨a_minLength, b_minLength⟩).1, (h_pattern.2 ⟨a_pattern, b_pattern⟩).1, (h_maxItems.2 ⟨a_maxItems, b_maxItems⟩).1, (h_minItems.2 ⟨a_minItems, b_minItems⟩).1, (h_uniqueItems.2 ⟨a_uniqueItems, b_uniqueItems⟩).1, (h_maxProperties.2 ⟨a_maxProperties, b_maxProperties⟩).1, (h_minProperties.2 ⟨a_minProperties, b_minProperties⟩).1, fun m k hj hk => h_required.2 ⟨fun k hk m hj => a_required m k hj hk, fun k hk m hj => b_required m k hj hk⟩ k hk m hj, (h_enum.2 ⟨a_enum, b_enum⟩).1, (h_intOrString.2 ⟨a_intOrString, b_intOrString⟩).1, h_rules.2 ⟨a_rules, b_rules⟩⟩,
      ⟨(h_type.2 ⟨a_type, b_type⟩).2.1, (h_format.2 ⟨a_format, b_format⟩).2.1, (h_maximum.2 ⟨a_maximum, b_maximum⟩).2.1, (h_minimum.2 ⟨a_minimum, b_minimum⟩).2.1, (h_multipleOf.2 ⟨a_multipleOf, b_multipleOf⟩).2.1, (h_maxLength.2 ⟨a_maxLength, b_maxLength⟩).2.1, (h_minLength.2 ⟨a_minLength, b_minLength⟩).2.1, (h_pattern.2 ⟨a_pattern, b_pattern⟩).2.1, (h_maxItems.2 ⟨a_maxItems, b_maxItems⟩).2.1, (h_minItems.2 ⟨a_minItems, b_minItems⟩).2.1, (h_uniqueItems.2 ⟨a_uniqueItems, b_uniqueItems⟩).2.1, (h_maxProperties.2 ⟨a_maxProperties, b_maxProperties⟩).2.1, (h_minProperties.2 ⟨a_minProperties, b_minProperties⟩).2.1, fun m k hj hk => absurd hk (by simp [dstRemBase, srcRemBase]), (h_enum.2 ⟨a_enum, b_enum⟩).2.1, (h_intOrString.2 ⟨a_intOrString, b_intOrString⟩).2.1, fun r hr => absurd hr (by simp [dstRemBase, srcRemBase])⟩,
      ⟨(h_type.2 ⟨a_type, b_type⟩).2.2, (h_format.2 ⟨a_format, b_format⟩).2.2, (h_maximum.2 ⟨a_maximum, b_maximum⟩).2.2, (h_minimum.2 ⟨a_minimum, b_minimum⟩).2.2, (h_multipleOf.2 ⟨a_multipleOf, b_multipleOf⟩).2.2, (h_maxLength.2 ⟨a_maxLength, b_maxLength⟩).2.2, (h_minLength.2 ⟨a_minLength, b_minLength⟩).2.2, (h_pattern.2 ⟨a_pattern, b_pattern⟩).2.2, (h_maxItems.2 ⟨a_maxItems, b_maxItems⟩).2.2, (h_minItems.2 ⟨a_minItems, b_minItems⟩).2.2, (h_uniqueItems.2 ⟨a_uniqueItems, b_uniqueItems⟩).2.2, (h_maxProperties.2 ⟨a_maxProperties, b_maxProperties⟩).2.2, (h_minProperties.2 ⟨a_minProperties, b_minProperties⟩).2.2, fun m k hj hk => absurd hk (by simp [dstRemBase, srcRemBase]), (h_enum.2 ⟨a_enum, b_enum⟩).2.2, (h_intOrString.2 ⟨a_intOrString, b_intOrString⟩).2.2, fun r hr => absurd hr (by simp [dstRemBase, srcRemBase])⟩⟩

end Verif.Crd

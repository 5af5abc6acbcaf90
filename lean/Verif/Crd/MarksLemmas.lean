import Verif.Crd.MarksSpec

/-! # Lemmas on the application of a marker -/
namespace Verif.Crd
open Spec

theorem isIntegral_iff {v : Rat} : isIntegral v = true ↔ ∃ z : Int, v = z := by
  unfold isIntegral
  rw [decide_eq_true_eq]
  constructor
  · exact fun h => ⟨_, h⟩
  · rintro ⟨z, rfl⟩
    rw [Rat.floor_intCast]

theorem numericOk_iff {b : Base} {v : Rat} : numericOk b v = true ↔ Numeric b v := by
  unfold numericOk hasNumericType Numeric
  rw [← isIntegral_iff]
  by_cases h1 : b.type = "integer"
  · simp [h1]
  · simp [h1]

theorem numericType_iff {b : Base} : hasNumericType b = true ↔ b.type = "number" ∨ b.type = "integer" := by
  unfold hasNumericType
  simp [or_comm]

theorem textualType_iff {b : Base} : hasTextualType b = true ↔ b.type = "string" ∨ b.xIntOrString = true := by
  unfold hasTextualType
  simp

theorem marshalAll_some {marshal : AnyVal → Option Raw} {vs : List AnyVal} : (∀ v ∈ vs, (marshal v).isSome) → marshalAll marshal vs = some (vs.filterMap marshal) := by
  induction vs with
  | nil => intro _; rfl
  | cons v vs ih =>
    intro h
    have hv := h v (List.mem_cons_self ..)
    rw [marshalAll]
    cases hm : marshal v with
    | none => rw [hm] at hv; cases hv
    | some r =>
      simp only [ih (fun x hx => h x (List.mem_cons_of_mem _ hx)), List.filterMap_cons, hm]

theorem marshalAll_none {marshal : AnyVal → Option Raw} {vs : List AnyVal} : ¬ (∀ v ∈ vs, (marshal v).isSome) → marshalAll marshal vs = none := by
  induction vs with
  | nil => intro h; exact absurd nofun h
  | cons v vs ih =>
    intro h
    rw [marshalAll]
    cases hm : marshal v with
    | none => rfl
    | some r =>
      simp only
      rw [ih]
      intro h'
      apply h
      intro x hx
      rcases List.mem_cons.1 hx with rfl | hx
      · rw [hm]; rfl
      · exact h' x hx

theorem reason_iff {reason : String} : (reason ≠ "" ∧ reason ∉ knownReasons) ↔
    ¬ (reason = "" ∨ reason = "FieldValueRequired" ∨ reason = "FieldValueInvalid" ∨ reason = "FieldValueForbidden" ∨ reason = "FieldValueDuplicate") := by
  simp [knownReasons]

/-- The result is `none` or an update of one keyword. -/
theorem apply_none (marshal : AnyVal → Option Raw) (b : Base) (m : Mark) (h : ¬ Compatible marshal b m) : m.apply marshal b = none := by
  cases m <;> simp only [Compatible, not_true] at h
  case maximum v => simp [Mark.apply, numericOk_iff, h]
  case minimum v => simp [Mark.apply, numericOk_iff, h]
  case multipleOf v => simp [Mark.apply, numericOk_iff, h]
  case exclusiveMaximum v => simp [Mark.apply, numericType_iff]; simpa using h
  case exclusiveMinimum v => simp [Mark.apply, numericType_iff]; simpa using h
  case minProperties v => simp [Mark.apply, h]
  case maxProperties v => simp [Mark.apply, h]
  case maxLength v => rw [Mark.apply, if_neg (by rw [textualType_iff]; exact h)]
  case minLength v => rw [Mark.apply, if_neg (by rw [textualType_iff]; exact h)]
  case pattern v => rw [Mark.apply, if_neg (by rw [textualType_iff]; exact h)]
  case maxItems v => simp [Mark.apply, h]
  case minItems v => simp [Mark.apply, h]
  case uniqueItems v => simp [Mark.apply, h]
  case enum vs => rw [Mark.apply, marshalAll_none h]
  case default v =>
    rw [Mark.apply]
    cases hm : marshal v with
    | none => rfl
    | some r => simp [hm] at h
  case example_ v =>
    rw [Mark.apply]
    cases hm : marshal v with
    | none => rfl
    | some r => simp [hm] at h
  case title v =>
    cases v with
    | nil => simp at h
    | str s => simp at h
    | other n => rfl
  case kubernetesDefault v =>
    rw [Mark.apply, if_neg (fun e => h (.inl e))]
    cases hm : marshal v with
    | none => rfl
    | some r => simp [hm] at h
  case validation r m me re f o => rw [Mark.apply, if_pos (reason_iff.2 h)]
  case listType v =>
    rw [Mark.apply]
    by_cases ht : b.type = "array"
    · rw [if_neg (by simpa using ht), if_pos]
      simp only [ht, true_and, not_or] at h
      exact ⟨h.1, h.2.2, h.2.1⟩
    · rw [if_pos ht]
  case listMapKey v =>
    rw [Mark.apply]
    by_cases ht : b.type = "array"
    · rw [if_neg (by simpa using ht), if_pos]
      simpa [ht] using h
    · rw [if_pos ht]
  case mapType v =>
    rw [Mark.apply]
    by_cases ht : b.type = "object"
    · rw [if_neg (by simpa using ht), if_pos]
      simpa [ht] using h
    · rw [if_pos ht]
  case structType v =>
    rw [Mark.apply]
    by_cases ht : b.type = "object" ∨ b.type = ""
    · rw [if_neg (by simpa [← not_or] using ht), if_pos]
      simpa [ht] using h
    · rw [if_pos (by simpa using ht)]

/-- Set a keyword. -/
def putKey (b : Base) : (k : Keyword) → k.Val → Base
  | .id, v => { b with id := v } | .schema, v => { b with schema := v } | .ref, v => { b with ref := v } | .description, v => { b with description := v }
  | .type, v => { b with type := v } | .format, v => { b with format := v } | .title, v => { b with title := v } | .default, v => { b with default := v }
  | .maximum, v => { b with maximum := v } | .exclusiveMaximum, v => { b with exclusiveMaximum := v } | .minimum, v => { b with minimum := v }
  | .exclusiveMinimum, v => { b with exclusiveMinimum := v } | .maxLength, v => { b with maxLength := v } | .minLength, v => { b with minLength := v }
  | .pattern, v => { b with pattern := v } | .maxItems, v => { b with maxItems := v } | .minItems, v => { b with minItems := v }
  | .uniqueItems, v => { b with uniqueItems := v } | .multipleOf, v => { b with multipleOf := v } | .enum, v => { b with enum := v }
  | .maxProperties, v => { b with maxProperties := v } | .minProperties, v => { b with minProperties := v } | .required, v => { b with required := v }
  | .externalDocs, v => { b with externalDocs := v } | .example_, v => { b with example_ := v } | .nullable, v => { b with nullable := v }
  | .xPreserveUnknownFields, v => { b with xPreserveUnknownFields := v } | .xEmbeddedResource, v => { b with xEmbeddedResource := v }
  | .xIntOrString, v => { b with xIntOrString := v } | .xListMapKeys, v => { b with xListMapKeys := v } | .xListType, v => { b with xListType := v }
  | .xMapType, v => { b with xMapType := v } | .xValidations, v => { b with xValidations := v }

theorem get_putKey (b : Base) (k : Keyword) (v : k.Val) : k.get (putKey b k v) = v := by
  cases k <;> rfl

theorem get_putKey_ne (b : Base) (k k' : Keyword) (v : k.Val) (h : k' ≠ k) : k'.get (putKey b k v) = k'.get b := by
  cases k <;> cases k' <;> first | rfl | exact absurd rfl h

theorem putKey_get (b : Base) (k : Keyword) : putKey b k (k.get b) = b := by
  cases k <;> rfl

theorem putKey_comm (b : Base) (k k' : Keyword) (v : k.Val) (v' : k'.Val) (h : k ≠ k') : putKey (putKey b k v) k' v' = putKey (putKey b k' v') k v := by
  apply Keyword.ext
  intro x
  by_cases h1 : x = k
  · subst h1
    rw [get_putKey_ne _ _ _ _ h, get_putKey, get_putKey]
  · by_cases h2 : x = k'
    · subst h2
      rw [get_putKey, get_putKey_ne _ _ _ _ h1, get_putKey]
    · rw [get_putKey_ne _ _ _ _ h2, get_putKey_ne _ _ _ _ h1, get_putKey_ne _ _ _ _ h1, get_putKey_ne _ _ _ _ h2]

theorem apply_some (marshal : AnyVal → Option Raw) (b : Base) (m : Mark) (h : Compatible marshal b m) : m.apply marshal b = some (putKey b (target m) (written marshal b m)) := by
  cases m <;> simp only [Compatible] at h
  case maximum v => rw [Mark.apply, if_pos (numericOk_iff.2 h)]; rfl
  case minimum v => rw [Mark.apply, if_pos (numericOk_iff.2 h)]; rfl
  case multipleOf v => rw [Mark.apply, if_pos (numericOk_iff.2 h)]; rfl
  case exclusiveMaximum v => rw [Mark.apply, if_pos (numericType_iff.2 h)]; rfl
  case exclusiveMinimum v => rw [Mark.apply, if_pos (numericType_iff.2 h)]; rfl
  case minProperties v => rw [Mark.apply, if_pos h]; rfl
  case maxProperties v => rw [Mark.apply, if_pos h]; rfl
  case maxLength v => rw [Mark.apply, if_pos (textualType_iff.2 h)]; rfl
  case minLength v => rw [Mark.apply, if_pos (textualType_iff.2 h)]; rfl
  case pattern v => rw [Mark.apply, if_pos (textualType_iff.2 h)]; rfl
  case maxItems v => rw [Mark.apply, if_pos h]; rfl
  case minItems v => rw [Mark.apply, if_pos h]; rfl
  case uniqueItems v => rw [Mark.apply, if_pos h]; rfl
  case enum vs => rw [Mark.apply, marshalAll_some h]; rfl
  case default v =>
    rw [Mark.apply]
    cases hm : marshal v with
    | none => rw [hm] at h; cases h
    | some r =>
      simp only [target, written, putKey, hm, Option.some.injEq]
      congr 1
      split <;> rfl
  case example_ v =>
    rw [Mark.apply]
    cases hm : marshal v with
    | none => rw [hm] at h; cases h
    | some r => simp only [target, written, putKey, hm]
  case title v =>
    cases v with
    | nil => rfl
    | str s => rfl
    | other n => exact absurd rfl (h n)
  case kubernetesDefault v =>
    rw [Mark.apply]
    by_cases hv : v = .nil
    · rw [if_pos hv]
      simp only [target, written, putKey, if_pos hv]
    · rw [if_neg hv]
      cases hm : marshal v with
      | none => rw [hm] at h; simp [hv] at h
      | some r => simp only [target, written, putKey, hm, if_neg hv]
  case validation r m me re f o => rw [Mark.apply, if_neg (fun hh => reason_iff.1 hh h)]; rfl
  case listType v => rw [Mark.apply, if_neg (by simpa using h.1), if_neg (fun hh => by rcases h.2 with h | h | h <;> simp [h] at hh)]; rfl
  case listMapKey v => rw [Mark.apply, if_neg (by simpa using h.1), if_neg (by simpa using h.2)]; rfl
  case mapType v => rw [Mark.apply, if_neg (by simpa using h.1), if_neg (fun hh => by rcases h.2 with h | h <;> simp [h] at hh)]; rfl
  case structType v =>
    rw [Mark.apply, if_neg (fun hh => by rcases h.1 with h | h <;> simp [h] at hh), if_neg (fun hh => by rcases h.2 with h | h <;> simp [h] at hh)]; rfl
  all_goals rfl

theorem base_withBase (s : Schema) (b : Base) : (s.withBase b).base = b := by cases s; rfl
theorem withBase_base (s : Schema) : s.withBase s.base = s := by cases s; rfl
theorem withBase_withBase (s : Schema) (b b' : Base) : (s.withBase b).withBase b' = s.withBase b' := by cases s; rfl
theorem same_withBase (s : Schema) (b : Base) : SameParts s (s.withBase b) := by cases s; exact ⟨rfl, rfl, rfl, rfl, rfl, rfl, rfl, rfl, rfl, rfl, rfl⟩

end Verif.Crd

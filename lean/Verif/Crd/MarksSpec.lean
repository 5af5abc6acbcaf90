import Verif.Crd.Marks
import Verif.Crd.SchemaSpec

/-! # Specification for C24, C25 and C53: which keyword a marker sets, to what, and on which schemas -/
namespace Verif.Crd.Spec
open Verif.Crd

/-- The keywords that do not contain schemas. -/
inductive Keyword
  | id | schema | ref | description | type | format | title | default | maximum | exclusiveMaximum | minimum | exclusiveMinimum | maxLength | minLength | pattern
  | maxItems | minItems | uniqueItems | multipleOf | enum | maxProperties | minProperties | required | externalDocs | example_ | nullable | xPreserveUnknownFields
  | xEmbeddedResource | xIntOrString | xListMapKeys | xListType | xMapType | xValidations
deriving DecidableEq, Repr

/-- The type of the value of a keyword. -/
abbrev Keyword.Val : Keyword → Type
  | .id | .schema | .type | .format | .title | .pattern => String
  | .ref => Option String
  | .description => Bytes
  | .default | .example_ => Option Raw
  | .maximum | .minimum | .multipleOf => Option Rat
  | .exclusiveMaximum | .exclusiveMinimum | .uniqueItems | .nullable | .xEmbeddedResource | .xIntOrString => Bool
  | .maxLength | .minLength | .maxItems | .minItems | .maxProperties | .minProperties => Option Int
  | .enum => List Raw
  | .required | .xListMapKeys => List String
  | .externalDocs => Option (String × String)
  | .xPreserveUnknownFields => Option Bool
  | .xListType | .xMapType => Option String
  | .xValidations => List ValidationRule

/-- The value of a keyword. -/
def Keyword.get (b : Base) : (k : Keyword) → k.Val
  | .id => b.id | .schema => b.schema | .ref => b.ref | .description => b.description | .type => b.type | .format => b.format | .title => b.title
  | .default => b.default | .maximum => b.maximum | .exclusiveMaximum => b.exclusiveMaximum | .minimum => b.minimum | .exclusiveMinimum => b.exclusiveMinimum
  | .maxLength => b.maxLength | .minLength => b.minLength | .pattern => b.pattern | .maxItems => b.maxItems | .minItems => b.minItems | .uniqueItems => b.uniqueItems
  | .multipleOf => b.multipleOf | .enum => b.enum | .maxProperties => b.maxProperties | .minProperties => b.minProperties | .required => b.required
  | .externalDocs => b.externalDocs | .example_ => b.example_ | .nullable => b.nullable | .xPreserveUnknownFields => b.xPreserveUnknownFields
  | .xEmbeddedResource => b.xEmbeddedResource | .xIntOrString => b.xIntOrString | .xListMapKeys => b.xListMapKeys | .xListType => b.xListType | .xMapType => b.xMapType
  | .xValidations => b.xValidations

/-- Nothing else is in the plain part of a schema. -/
theorem Keyword.ext {b b' : Base} (h : ∀ k : Keyword, k.get b = k.get b') : b = b' := by
  cases b; cases b'
  simp only [Base.mk.injEq]
  exact ⟨h .id, h .schema, h .ref, h .description, h .type, h .format, h .title, h .default, h .maximum, h .exclusiveMaximum, h .minimum, h .exclusiveMinimum, h .maxLength,
    h .minLength, h .pattern, h .maxItems, h .minItems, h .uniqueItems, h .multipleOf, h .enum, h .maxProperties, h .minProperties, h .required, h .externalDocs, h .example_,
    h .nullable, h .xPreserveUnknownFields, h .xEmbeddedResource, h .xIntOrString, h .xListMapKeys, h .xListType, h .xMapType, h .xValidations⟩

/-- A schema of the type `integer`, for integral values, or of the type `number`. -/
def Numeric (b : Base) (v : Rat) : Prop := b.type = "number" ∨ (b.type = "integer" ∧ ∃ z : Int, v = z)

/-- The schemas a marker may be applied to. -/
def Compatible (marshal : AnyVal → Option Raw) (b : Base) : Mark → Prop
  | .maximum v | .minimum v | .multipleOf v => Numeric b v
  | .exclusiveMaximum _ | .exclusiveMinimum _ => b.type = "number" ∨ b.type = "integer"
  | .maxLength _ | .minLength _ | .pattern _ => b.type = "string" ∨ b.xIntOrString = true
  | .maxItems _ | .minItems _ | .uniqueItems _ => b.type = "array"
  | .maxProperties _ | .minProperties _ => b.type = "object"
  | .enum vs => ∀ v ∈ vs, (marshal v).isSome
  | .default v | .example_ v => (marshal v).isSome
  | .kubernetesDefault v => v = .nil ∨ (marshal v).isSome
  | .title v => ∀ n, v ≠ .other n
  | .validation _ _ _ reason _ _ => reason = "" ∨ reason = "FieldValueRequired" ∨ reason = "FieldValueInvalid" ∨ reason = "FieldValueForbidden" ∨ reason = "FieldValueDuplicate"
  | .listType v => b.type = "array" ∧ (v = "map" ∨ v = "set" ∨ v = "atomic")
  | .listMapKey _ => b.type = "array" ∧ b.xListType = some "map"
  | .mapType v => b.type = "object" ∧ (v = "atomic" ∨ v = "granular")
  | .structType v => (b.type = "object" ∨ b.type = "") ∧ (v = "atomic" ∨ v = "granular")
  | .format _ | .type _ | .nullable | .preserveUnknownFields | .embeddedResource | .intOrString => True

/-- The keyword a marker is about. -/
def target : Mark → Keyword
  | .maximum _ => .maximum
  | .minimum _ => .minimum
  | .exclusiveMaximum _ => .exclusiveMaximum
  | .exclusiveMinimum _ => .exclusiveMinimum
  | .multipleOf _ => .multipleOf
  | .minProperties _ => .minProperties
  | .maxProperties _ => .maxProperties
  | .maxLength _ => .maxLength
  | .minLength _ => .minLength
  | .pattern _ => .pattern
  | .maxItems _ => .maxItems
  | .minItems _ => .minItems
  | .uniqueItems _ => .uniqueItems
  | .enum _ => .enum
  | .format _ => .format
  | .type _ => .type
  | .nullable => .nullable
  | .default _ => .default
  | .title _ => .title
  | .kubernetesDefault _ => .default
  | .example_ _ => .example_
  | .preserveUnknownFields => .xPreserveUnknownFields
  | .embeddedResource => .xEmbeddedResource
  | .intOrString => .xIntOrString
  | .validation .. => .xValidations
  | .listType _ => .xListType
  | .listMapKey _ => .xListMapKeys
  | .mapType _ => .xMapType
  | .structType _ => .xMapType

/-- The rule a validation marker stands for. -/
def ruleOf (rule message messageExpression reason fieldPath : String) (old : Option Bool) : ValidationRule :=
  ⟨rule, message, messageExpression, if reason = "" then none else some reason, fieldPath, old⟩

/-- The value the keyword gets.  Validation rules and list keys are added to those that are already there; the others replace what is there. -/
def written (marshal : AnyVal → Option Raw) (b : Base) : (m : Mark) → (target m).Val
  | .maximum v => (some v : Option Rat)
  | .minimum v => (some v : Option Rat)
  | .exclusiveMaximum v => (v : Bool)
  | .exclusiveMinimum v => (v : Bool)
  | .multipleOf v => (some v : Option Rat)
  | .minProperties v => (some v : Option Int)
  | .maxProperties v => (some v : Option Int)
  | .maxLength v => (some v : Option Int)
  | .minLength v => (some v : Option Int)
  | .pattern v => (v : String)
  | .maxItems v => (some v : Option Int)
  | .minItems v => (some v : Option Int)
  | .uniqueItems v => (v : Bool)
  | .enum vs => (vs.filterMap marshal : List Raw)
  | .format v => (v : String)
  | .type v => (v : String)
  | .nullable => true
  | .default v => (if b.type = "array" ∧ marshal v = some "{}" then some "[]" else marshal v : Option Raw)
  | .title v => (match v with | .str s => s | _ => b.title : String)
  | .kubernetesDefault v => (if v = .nil then b.default else marshal v : Option Raw)
  | .example_ v => (marshal v : Option Raw)
  | .preserveUnknownFields => (some true : Option Bool)
  | .embeddedResource => true
  | .intOrString => true
  | .validation r m me re f o => (b.xValidations ++ [ruleOf r m me re f o] : List ValidationRule)
  | .listType v => (some v : Option String)
  | .listMapKey v => (b.xListMapKeys ++ [v] : List String)
  | .mapType v => (some v : Option String)
  | .structType v => (some v : Option String)

/-- The part of a schema that contains schemas is the same. -/
def SameParts (s s' : Schema) : Prop :=
  s.items = s'.items ∧ s.allOf = s'.allOf ∧ s.oneOf = s'.oneOf ∧ s.anyOf = s'.anyOf ∧ s.not = s'.not ∧ s.properties = s'.properties ∧
  s.additionalProperties = s'.additionalProperties ∧ s.patternProperties = s'.patternProperties ∧ s.dependencies = s'.dependencies ∧
  s.additionalItems = s'.additionalItems ∧ s.definitions = s'.definitions

/-- The constraint on values that a marker stands for. -/
def Constraint (M : Meaning) (marshal : AnyVal → Option Raw) (j : Json) : Mark → Prop
  | .maximum v => ∀ q, j = .num q → q ≤ v
  | .minimum v => ∀ q, j = .num q → v ≤ q
  | .multipleOf v => ∀ q, j = .num q → ∃ z : Int, q = z * v
  | .minProperties v => ∀ m, j = .obj m → v ≤ (m.length : Int)
  | .maxProperties v => ∀ m, j = .obj m → (m.length : Int) ≤ v
  | .maxLength v => ∀ s, j = .str s → (s.length : Int) ≤ v
  | .minLength v => ∀ s, j = .str s → v ≤ (s.length : Int)
  | .pattern v => ∀ s, j = .str s → v ≠ "" → M.matches_ v s
  | .maxItems v => ∀ l, j = .arr l → (l.length : Int) ≤ v
  | .minItems v => ∀ l, j = .arr l → v ≤ (l.length : Int)
  | .uniqueItems v => ∀ l, j = .arr l → v = true → l.Nodup
  | .enum vs => vs ≠ [] → ∃ v ∈ vs, ∃ r, marshal v = some r ∧ M.value r = j
  | .format v => v ≠ "" → M.format v j
  | .type t => HasType t j
  | .intOrString => (∃ z : Int, j = .num z) ∨ ∃ s, j = .str s
  | .validation r m me re f o => M.rule (ruleOf r m me re f o) j
  | _ => True

/-- The keyword of the marker is not yet used, and it is not one that modifies others. -/
def Unused (b : Base) : Mark → Prop
  | .maximum _ => b.maximum = none ∧ b.exclusiveMaximum = false
  | .minimum _ => b.minimum = none ∧ b.exclusiveMinimum = false
  | .multipleOf _ => b.multipleOf = none
  | .minProperties _ => b.minProperties = none
  | .maxProperties _ => b.maxProperties = none
  | .maxLength _ => b.maxLength = none
  | .minLength _ => b.minLength = none
  | .pattern _ => b.pattern = ""
  | .maxItems _ => b.maxItems = none
  | .minItems _ => b.minItems = none
  | .uniqueItems _ => b.uniqueItems = false
  | .enum _ => b.enum = []
  | .format _ => b.format = ""
  | .type _ => b.type = "" ∧ b.nullable = false
  | .exclusiveMaximum _ | .exclusiveMinimum _ | .nullable => False
  | _ => True

/-- The names under which the markers are registered (validation.go:43-140, topology.go:28-45). -/
def names : Mark → List String
  | .maximum _ => both "Maximum"
  | .minimum _ => both "Minimum"
  | .exclusiveMaximum _ => both "ExclusiveMaximum"
  | .exclusiveMinimum _ => both "ExclusiveMinimum"
  | .multipleOf _ => both "MultipleOf"
  | .minProperties _ => both "MinProperties"
  | .maxProperties _ => both "MaxProperties"
  | .maxLength _ => both "MaxLength"
  | .minLength _ => both "MinLength"
  | .pattern _ => both "Pattern"
  | .maxItems _ => both "MaxItems"
  | .minItems _ => both "MinItems"
  | .uniqueItems _ => both "UniqueItems"
  | .enum _ => both "Enum"
  | .format _ => both "Format"
  | .type _ => both "Type"
  | .nullable => ["nullable"]
  | .default _ => ["kubebuilder:default"]
  | .title _ => ["kubebuilder:title"]
  | .kubernetesDefault _ => ["default"]
  | .example_ _ => ["kubebuilder:example"]
  | .preserveUnknownFields => both "XPreserveUnknownFields" ++ ["kubebuilder:pruning:PreserveUnknownFields"]
  | .embeddedResource => both "XEmbeddedResource" ++ ["kubebuilder:validation:EmbeddedResource"]
  | .intOrString => both "XIntOrString"
  | .validation .. => both "XValidation"
  | .listType _ => ["listType"]
  | .listMapKey _ => ["listMapKey"]
  | .mapType _ => ["mapType"]
  | .structType _ => ["structType"]
where both (n : String) : List String := ["kubebuilder:validation:" ++ n, "kubebuilder:validation:items:" ++ n]

/-- A marker of the set. -/
def Has (set : List (String × List (Option Mark))) (name : String) (m : Mark) : Prop := ∃ vs, (name, vs) ∈ set ∧ some m ∈ vs

/-- The markers that are applied before the others: the type, the list type, `XIntOrString` and the Kubernetes default. -/
def Early : Mark → Prop
  | .type _ | .listType _ | .intOrString | .kubernetesDefault _ => True
  | _ => False

/-- The number of schema markers of the set. -/
def count (set : List (String × List (Option Mark))) : Nat := (set.map fun e => (e.2.filter Option.isSome).length).sum

/-- At most twelve markers, or none that is applied before others. -/
def Steady (set : List (String × List (Option Mark))) : Prop := count set ≤ 12 ∨ ∀ n m, Has set n m → ¬ Early m

end Verif.Crd.Spec

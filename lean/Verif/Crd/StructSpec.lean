import Verif.Crd.SchemaSpec
import Verif.Crd.BreakSpec

/-!
# Specification for C79: structural schemas

The rules of the API server for the schema of a CRD ("Specifying a structural schema" in the Kubernetes documentation on custom resource definitions).
-/
namespace Verif.Crd.Spec
open Verif.Crd

/-- Where a value is found in another one: the value of a field, an item of a list, or the value of a field that is not listed. -/
inductive Where
  | field (k : String)
  | item
  | extra
deriving DecidableEq

/-- `Outside s p t`: the values at `p` are specified by `t`, which is found through properties, items and additionalProperties only. -/
inductive Outside : Schema → List Where → Schema → Prop
  | here {s} : Outside s [] s
  | field {s k c p t} : (k, c) ∈ s.properties → Outside c p t → Outside s (.field k :: p) t
  | item {s i c p t} : s.items = some i → (i.schema = some c ∨ c ∈ i.arr) → Outside c p t → Outside s (.item :: p) t
  | extra {s b c p t} : s.additionalProperties = some (.mk b (some c)) → Outside c p t → Outside s (.extra :: p) t

/-- A schema directly within a logical junctor of another one. -/
inductive Within : Schema → Schema → Prop
  | allOf {s c} : c ∈ s.allOf → Within s c
  | anyOf {s c} : c ∈ s.anyOf → Within s c
  | oneOf {s c} : c ∈ s.oneOf → Within s c
  | not {s c} : s.not = some c → Within s c

/-- `Anywhere s p t`: the values at `p` are specified by `t`, which may be found through logical junctors, too. -/
inductive Anywhere : Schema → List Where → Schema → Prop
  | here {s} : Anywhere s [] s
  | field {s k c p t} : (k, c) ∈ s.properties → Anywhere c p t → Anywhere s (.field k :: p) t
  | item {s i c p t} : s.items = some i → (i.schema = some c ∨ c ∈ i.arr) → Anywhere c p t → Anywhere s (.item :: p) t
  | extra {s b c p t} : s.additionalProperties = some (.mk b (some c)) → Anywhere c p t → Anywhere s (.extra :: p) t
  | within {s c p t} : Within s c → Anywhere c p t → Anywhere s p t

/-- A type is specified, or it is one of the two exceptions. -/
def Typed (b : Base) : Prop := b.type ≠ "" ∨ b.xIntOrString = true ∨ b.xPreserveUnknownFields = some true

/-- What must not be used within a logical junctor is not used: description, type, default, additionalProperties and nullable; and, which the API server checks as well, title and the
`x-kubernetes-` keywords other than validation rules. -/
structure Quiet (c : Schema) : Prop where
  description : c.base.description = []
  title : c.base.title = ""
  type : c.base.type = ""
  default : c.base.default = none
  additionalProperties : c.additionalProperties = none
  nullable : c.base.nullable = false
  xPreserveUnknownFields : c.base.xPreserveUnknownFields = none
  xEmbeddedResource : c.base.xEmbeddedResource = false
  xIntOrString : c.base.xIntOrString = false
  xListMapKeys : c.base.xListMapKeys = []
  xListType : c.base.xListType = none
  xMapType : c.base.xMapType = none

/-- The exception for integers or strings. -/
def IntOrStringPattern (u c : Schema) : Prop :=
  u.base.xIntOrString = true ∧ u.anyOf = [.leaf { type := "integer" }, .leaf { type := "string" }] ∧ c ∈ u.anyOf

/-- A structural schema. -/
structure Structural (s : Schema) : Prop where
  /-- a type is specified for the root, for every field and for every item -/
  typed : ∀ p u, Outside s p u → Typed u.base
  /-- what is specified within a logical junctor is specified outside of them as well -/
  outside : ∀ p t, Anywhere s p t → ∃ u, Outside s p u
  /-- logical junctors only restrict values -/
  quiet : ∀ p u c, Outside s p u → Within u c → (∀ q d, Anywhere c q d → Quiet d) ∨ IntOrStringPattern u c

mutual
/-- How many of the schemas that are about the values at the path (see `At`) have the feature. -/
def tally (F : Schema → Bool) : Schema → List (Option String) → Nat
  | .mk b it al oo an nt pr ad pa de ai df, p =>
    (if p = [] ∧ F (.mk b it al oo an nt pr ad pa de ai df) = true then 1 else 0) + tallyAll F al p + tallyProps F pr p + tallyAddl F ad p
def tallyAll (F : Schema → Bool) : List Schema → List (Option String) → Nat
  | [], _ => 0
  | s :: l, p => tally F s p + tallyAll F l p
def tallyProps (F : Schema → Bool) : List (String × Schema) → List (Option String) → Nat
  | [], _ => 0
  | (k, s) :: l, p => (match p with | some k' :: q => if k' = k then tally F s q else 0 | _ => 0) + tallyProps F l p
def tallyAddl (F : Schema → Bool) : Option OrBool → List (Option String) → Nat
  | some (.mk _ (some s)), p => (match p with | none :: q => tally F s q | _ => 0)
  | _, _ => 0
end

/-- The features of which no two may be given for the same values. -/
def hasDefault (s : Schema) : Bool := s.base.default.isSome
def hasListType (s : Schema) : Bool := s.base.xListType.isSome
def hasListMapKeys (s : Schema) : Bool := !s.base.xListMapKeys.isEmpty
def hasItems (s : Schema) : Bool := s.items.isSome
def hasAnyOf (s : Schema) : Bool := !s.anyOf.isEmpty

/-- At no place of the schema two of the schemas that are about the same values have the feature. -/
def Lone (F : Schema → Bool) (s : Schema) : Prop := ∀ u, Sub s u → ∀ p, tally F u p ≤ 1

/-- For no values a default, a list type, list map keys, items or an anyOf are given twice. -/
structure NoTwice (t : Schema) : Prop where
  default : Lone hasDefault t
  listType : Lone hasListType t
  listMapKeys : Lone hasListMapKeys t
  items : Lone hasItems t
  anyOf : Lone hasAnyOf t

/-- A schema for a field, for the items or for the fields that are not listed. -/
inductive Place : Schema → Schema → Prop
  | field {s k c} : (k, c) ∈ s.properties → Place s c
  | item {s i c} : s.items = some i → (i.schema = some c ∨ c ∈ i.arr) → Place s c
  | extra {s b c} : s.additionalProperties = some (.mk b (some c)) → Place s c

/-- A schema or a member of its allOf, of theirs and so on, specifies a type. -/
def TypedTogether (c : Schema) : Prop := ∃ v, At c [] v ∧ Typed v.base

/-- What schemas look like before merging: no `oneOf` and no `not`, `anyOf` for integers or strings only, fields that are not listed are preserved or nothing is said about
them, and types for all fields and items, possibly in an allOf member. -/
structure Prepared (u : Schema) : Prop where
  oneOf : u.oneOf = []
  not : u.not = none
  anyOf : u.anyOf = [] ∨ (u.anyOf = [.leaf { type := "integer" }, .leaf { type := "string" }] ∧ u.base.xIntOrString = true)
  preserve : u.base.xPreserveUnknownFields ≠ some false
  typed : ∀ c, Place u c → TypedTogether c

/-- Markers that say what the values are like. -/
def Gives (own : Mark → Prop) : Prop := (∃ t, own (.type t)) ∨ own .intOrString ∨ own .preserveUnknownFields

/-- No marker takes the type away, and fields that are marked as schemaless have a marker that gives one. -/
structure TypedMarks (d : Decl) : Prop where
  own : ¬ OnValue d.markers (.type "") ∧ ¬ OnItems d.markers (.type "")
  fields : ∀ f ∈ d.fields, ¬ OnValue f.markers (.type "") ∧ ¬ OnItems f.markers (.type "")
  schemaless : ∀ f ∈ d.fields, Marked f.markers "kubebuilder:validation:Schemaless" → Gives (OnValue f.markers)

end Verif.Crd.Spec

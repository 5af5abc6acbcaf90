/-!
# `apiext.JSONSchemaProps`

The schema type of `k8s.io/apiextensions-apiserver/pkg/apis/apiextensions/v1` (an external dependency; its fields are those the
code in /repo/pkg/crd reads, writes or walks, e.g. schema_visitor.go:80-107 and flatten.go:69-159).
-/
namespace Verif.Crd

/-- Raw bytes of a Go string, where byte offsets matter. -/
abbrev Bytes := List UInt8

/-- Raw JSON text (`apiext.JSON`), kept uninterpreted. -/
abbrev Raw := String

/-- `apiext.ValidationRule`. -/
structure ValidationRule where
  rule : String
  message : String := ""
  messageExpression : String := ""
  reason : Option String := none
  fieldPath : String := ""
  optionalOldSelf : Option Bool := none
deriving DecidableEq, Repr, Inhabited

/-- The fields of `JSONSchemaProps` that do not contain schemas.  Go `float64` bounds are rationals (no NaN, no infinity, no rounding),
`int64` bounds are integers.  nil and empty slices are identified. -/
structure Base where
  id : String := ""
  schema : String := ""
  ref : Option String := none
  description : Bytes := []
  type : String := ""
  format : String := ""
  title : String := ""
  default : Option Raw := none
  maximum : Option Rat := none
  exclusiveMaximum : Bool := false
  minimum : Option Rat := none
  exclusiveMinimum : Bool := false
  maxLength : Option Int := none
  minLength : Option Int := none
  pattern : String := ""
  maxItems : Option Int := none
  minItems : Option Int := none
  uniqueItems : Bool := false
  multipleOf : Option Rat := none
  enum : List Raw := []
  maxProperties : Option Int := none
  minProperties : Option Int := none
  required : List String := []
  externalDocs : Option (String × String) := none
  example_ : Option Raw := none
  nullable : Bool := false
  xPreserveUnknownFields : Option Bool := none
  xEmbeddedResource : Bool := false
  xIntOrString : Bool := false
  xListMapKeys : List String := []
  xListType : Option String := none
  xMapType : Option String := none
  xValidations : List ValidationRule := []
deriving DecidableEq, Repr

instance : Inhabited Base := ⟨{}⟩

mutual
/-- `apiext.JSONSchemaProps`: the plain fields and the fields that contain schemas.  Maps are association lists (keys unique in
well-formed values); nil and empty maps/slices are identified. -/
inductive Schema where
  | mk (base : Base) (items : Option Items) (allOf oneOf anyOf : List Schema) (not : Option Schema)
    (properties : List (String × Schema)) (additionalProperties : Option OrBool)
    (patternProperties : List (String × Schema)) (dependencies : List (String × OrArray))
    (additionalItems : Option OrBool) (definitions : List (String × Schema))
/-- `apiext.JSONSchemaPropsOrArray`. -/
inductive Items where
  | mk (schema : Option Schema) (arr : List Schema)
/-- `apiext.JSONSchemaPropsOrBool`. -/
inductive OrBool where
  | mk (allows : Bool) (schema : Option Schema)
/-- `apiext.JSONSchemaPropsOrStringArray`. -/
inductive OrArray where
  | mk (schema : Option Schema) (property : List String)
end

namespace Schema

def base : Schema → Base | mk b .. => b
def items : Schema → Option Items | mk _ i .. => i
def allOf : Schema → List Schema | mk _ _ a .. => a
def oneOf : Schema → List Schema | mk _ _ _ o .. => o
def anyOf : Schema → List Schema | mk _ _ _ _ a .. => a
def not : Schema → Option Schema | mk _ _ _ _ _ n .. => n
def properties : Schema → List (String × Schema) | mk _ _ _ _ _ _ p .. => p
def additionalProperties : Schema → Option OrBool | mk _ _ _ _ _ _ _ a .. => a
def patternProperties : Schema → List (String × Schema) | mk _ _ _ _ _ _ _ _ p .. => p
def dependencies : Schema → List (String × OrArray) | mk _ _ _ _ _ _ _ _ _ d .. => d
def additionalItems : Schema → Option OrBool | mk _ _ _ _ _ _ _ _ _ _ a .. => a
def definitions : Schema → List (String × Schema) | mk _ _ _ _ _ _ _ _ _ _ _ d => d

/-- A schema with plain fields only. -/
def leaf (b : Base) : Schema := mk b none [] [] [] none [] none [] [] none []

/-- `JSONSchemaProps{}`. -/
def empty : Schema := leaf {}

instance : Inhabited Schema := ⟨empty⟩

end Schema

mutual
/-- Decidable equality, by hand since the type is nested. -/
def Schema.decEq : (a b : Schema) → Decidable (a = b)
  | .mk b1 i1 a1 o1 n1 t1 p1 d1 q1 e1 f1 g1, .mk b2 i2 a2 o2 n2 t2 p2 d2 q2 e2 f2 g2 =>
    let x0 : Decidable (b1 = b2) := inferInstance
    let x1 := decItems i1 i2
    let x2 := decList a1 a2
    let x3 := decList o1 o2
    let x4 := decList n1 n2
    let x5 := decOpt t1 t2
    let x6 := decMap p1 p2
    let x7 := decOrBool d1 d2
    let x8 := decMap q1 q2
    let x9 := decDeps e1 e2
    let x10 := decOrBool f1 f2
    let x11 := decMap g1 g2
    decidable_of_iff (b1 = b2 ∧ i1 = i2 ∧ a1 = a2 ∧ o1 = o2 ∧ n1 = n2 ∧ t1 = t2 ∧ p1 = p2 ∧ d1 = d2 ∧ q1 = q2 ∧ e1 = e2 ∧
      f1 = f2 ∧ g1 = g2) (by simp)
def decItems : (a b : Option Items) → Decidable (a = b)
  | none, none => isTrue rfl
  | none, some _ => isFalse nofun
  | some _, none => isFalse nofun
  | some (.mk s l), some (.mk s' l') =>
    let x := decOpt s s'
    let y := decList l l'
    decidable_of_iff (s = s' ∧ l = l') (by simp)
def decOpt : (a b : Option Schema) → Decidable (a = b)
  | none, none => isTrue rfl
  | none, some _ => isFalse nofun
  | some _, none => isFalse nofun
  | some s, some s' =>
    let x := Schema.decEq s s'
    decidable_of_iff (s = s') (by simp)
def decList : (a b : List Schema) → Decidable (a = b)
  | [], [] => isTrue rfl
  | [], _ :: _ => isFalse nofun
  | _ :: _, [] => isFalse nofun
  | s :: l, s' :: l' =>
    let x := Schema.decEq s s'
    let y := decList l l'
    decidable_of_iff (s = s' ∧ l = l') (by simp)
def decMap : (a b : List (String × Schema)) → Decidable (a = b)
  | [], [] => isTrue rfl
  | [], _ :: _ => isFalse nofun
  | _ :: _, [] => isFalse nofun
  | (k, s) :: l, (k', s') :: l' =>
    let x := Schema.decEq s s'
    let y := decMap l l'
    decidable_of_iff (k = k' ∧ s = s' ∧ l = l') (by simp [and_assoc])
def decOrBool : (a b : Option OrBool) → Decidable (a = b)
  | none, none => isTrue rfl
  | none, some _ => isFalse nofun
  | some _, none => isFalse nofun
  | some (.mk s l), some (.mk s' l') =>
    let x := decOpt l l'
    decidable_of_iff (s = s' ∧ l = l') (by simp)
def decDeps : (a b : List (String × OrArray)) → Decidable (a = b)
  | [], [] => isTrue rfl
  | [], _ :: _ => isFalse nofun
  | _ :: _, [] => isFalse nofun
  | (k, .mk s p) :: l, (k', .mk s' p') :: l' =>
    let x := decOpt s s'
    let y := decDeps l l'
    decidable_of_iff (k = k' ∧ s = s' ∧ p = p' ∧ l = l') (by simp [and_assoc])
end

instance : DecidableEq Schema := Schema.decEq

/-- One step from a schema to a schema directly below it. -/
inductive Step
  | items
  | itemsAt (i : Nat)
  | allOf (i : Nat)
  | oneOf (i : Nat)
  | anyOf (i : Nat)
  | not
  | property (name : String)
  | additionalProperties
  | patternProperty (name : String)
  | dependency (name : String)
  | additionalItems
  | definition (name : String)
deriving DecidableEq, Repr

def OrBool.schema : OrBool → Option Schema | mk _ s => s
def OrBool.allows : OrBool → Bool | mk b _ => b
def OrArray.schema : OrArray → Option Schema | mk s _ => s
def OrArray.property : OrArray → List String | mk _ p => p
def Items.schema : Items → Option Schema | mk s _ => s
def Items.arr : Items → List Schema | mk _ l => l

/-- The schema one step below. -/
def Schema.child (s : Schema) : Step → Option Schema
  | .items => s.items.bind Items.schema
  | .itemsAt i => (s.items.map Items.arr).bind (·[i]?)
  | .allOf i => s.allOf[i]?
  | .oneOf i => s.oneOf[i]?
  | .anyOf i => s.anyOf[i]?
  | .not => s.not
  | .property n => s.properties.lookup n
  | .additionalProperties => s.additionalProperties.bind OrBool.schema
  | .patternProperty n => s.patternProperties.lookup n
  | .dependency n => (s.dependencies.lookup n).bind OrArray.schema
  | .additionalItems => s.additionalItems.bind OrBool.schema
  | .definition n => s.definitions.lookup n

/-- The schema at a path. -/
def Schema.at (s : Schema) : List Step → Option Schema
  | [] => some s
  | p :: ps => (s.child p).bind (·.at ps)

mutual
/-- Apply `g` to the plain fields of every schema of a tree. -/
def Schema.mapBase (g : Base → Base) : Schema → Schema
  | .mk b i a o n t p d q e f h =>
    .mk (g b) (mapBaseItems g i) (mapBaseList g a) (mapBaseList g o) (mapBaseList g n) (mapBaseOpt g t) (mapBaseMap g p)
      (mapBaseOrBool g d) (mapBaseMap g q) (mapBaseDeps g e) (mapBaseOrBool g f) (mapBaseMap g h)
def mapBaseItems (g : Base → Base) : Option Items → Option Items
  | none => none
  | some (.mk s l) => some (.mk (mapBaseOpt g s) (mapBaseList g l))
def mapBaseOpt (g : Base → Base) : Option Schema → Option Schema
  | none => none
  | some s => some (s.mapBase g)
def mapBaseList (g : Base → Base) : List Schema → List Schema
  | [] => []
  | s :: l => s.mapBase g :: mapBaseList g l
def mapBaseMap (g : Base → Base) : List (String × Schema) → List (String × Schema)
  | [] => []
  | (k, s) :: l => (k, s.mapBase g) :: mapBaseMap g l
def mapBaseOrBool (g : Base → Base) : Option OrBool → Option OrBool
  | none => none
  | some (.mk b s) => some (.mk b (mapBaseOpt g s))
def mapBaseDeps (g : Base → Base) : List (String × OrArray) → List (String × OrArray)
  | [] => []
  | (k, .mk s p) :: l => (k, .mk (mapBaseOpt g s) p) :: mapBaseDeps g l
end

end Verif.Crd

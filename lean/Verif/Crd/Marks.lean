import Verif.Common.GoMap
import Verif.Common.Sched
import Verif.Common.Sort
import Verif.Common.Pdq
import Verif.Crd.Schema

/-!
# Schema markers and their application (markers/validation.go, markers/topology.go, markers/priority.go, schema.go:141-212)
-/
namespace Verif.Crd

/-- A value of a marker of type `interface{}`: nil, a string, or something else (numbers, booleans, slices, maps), of which nothing is used but its JSON text. -/
inductive AnyVal
  | nil
  | str (s : String)
  | other (n : Nat)
deriving DecidableEq, Repr

/-- The values of the markers that implement `SchemaMarker`, one constructor per Go type (validation.go:146-307, topology.go:51-118).  `float64` values are rationals: the
argument parser only yields finite numbers, rounding is not modelled. -/
inductive Mark
  | maximum (v : Rat)
  | minimum (v : Rat)
  | exclusiveMaximum (v : Bool)
  | exclusiveMinimum (v : Bool)
  | multipleOf (v : Rat)
  | minProperties (v : Int)
  | maxProperties (v : Int)
  | maxLength (v : Int)
  | minLength (v : Int)
  | pattern (v : String)
  | maxItems (v : Int)
  | minItems (v : Int)
  | uniqueItems (v : Bool)
  | enum (v : List AnyVal)
  | format (v : String)
  | type (v : String)
  | nullable
  | default (v : AnyVal)
  | title (v : AnyVal)
  | kubernetesDefault (v : AnyVal)
  | example_ (v : AnyVal)
  | preserveUnknownFields
  | embeddedResource
  | intOrString
  | validation (rule message messageExpression reason fieldPath : String) (optionalOldSelf : Option Bool)
  | listType (v : String)
  | listMapKey (v : String)
  | mapType (v : String)
  | structType (v : String)
deriving DecidableEq, Repr

/-- `hasNumericType` (validation.go:309-311). -/
def hasNumericType (b : Base) : Bool := b.type = "integer" || b.type = "number"

/-- `hasTextualType` (validation.go:313-315). -/
def hasTextualType (b : Base) : Bool := b.type = "string" || b.xIntOrString

/-- `isIntegral` (validation.go:317-319), for a finite number. -/
def isIntegral (v : Rat) : Bool := v = (v.floor : Rat)

/-- The checks of `Maximum`, `Minimum` and `MultipleOf` (validation.go:356-362, 370-376, 401-407). -/
def numericOk (b : Base) (v : Rat) : Bool := hasNumericType b && !(b.type = "integer" && !isIntegral v)

/-- The marshalled values of an enum (validation.go:487-497): the first error ends the loop. -/
def marshalAll (marshal : AnyVal → Option Raw) : List AnyVal → Option (List Raw)
  | [] => some []
  | v :: vs =>
    match marshal v with
    | none => none
    | some r =>
      match marshalAll marshal vs with
      | none => none
      | some rs => some (r :: rs)

/-- The reasons known to the API server (validation.go:621, apiext constants). -/
def knownReasons : List String := ["FieldValueRequired", "FieldValueInvalid", "FieldValueForbidden", "FieldValueDuplicate"]

/-- `ApplyToSchema` of all markers; `none` is an error.  No method changes the schema before it returns an error.  `marshal` is `json.Marshal`. -/
def Mark.apply (marshal : AnyVal → Option Raw) (b : Base) : Mark → Option Base
  -- validation.go:355-367
  | .maximum v => if numericOk b v then some { b with maximum := some v } else none
  -- validation.go:369-381
  | .minimum v => if numericOk b v then some { b with minimum := some v } else none
  -- validation.go:383-389
  | .exclusiveMaximum v => if hasNumericType b then some { b with exclusiveMaximum := v } else none
  -- validation.go:391-398
  | .exclusiveMinimum v => if hasNumericType b then some { b with exclusiveMinimum := v } else none
  -- validation.go:400-412
  | .multipleOf v => if numericOk b v then some { b with multipleOf := some v } else none
  -- validation.go:466-473
  | .minProperties v => if b.type = "object" then some { b with minProperties := some v } else none
  -- validation.go:475-482
  | .maxProperties v => if b.type = "object" then some { b with maxProperties := some v } else none
  -- validation.go:414-421
  | .maxLength v => if hasTextualType b then some { b with maxLength := some v } else none
  -- validation.go:423-430
  | .minLength v => if hasTextualType b then some { b with minLength := some v } else none
  -- validation.go:432-438
  | .pattern v => if hasTextualType b then some { b with pattern := v } else none
  -- validation.go:440-447
  | .maxItems v => if b.type = "array" then some { b with maxItems := some v } else none
  -- validation.go:449-456
  | .minItems v => if b.type = "array" then some { b with minItems := some v } else none
  -- validation.go:458-464
  | .uniqueItems v => if b.type = "array" then some { b with uniqueItems := v } else none
  -- validation.go:484-500
  | .enum vs =>
    match marshalAll marshal vs with
    | none => none
    | some rs => some { b with enum := rs }
  -- validation.go:502-505
  | .format v => some { b with format := v }
  -- validation.go:512-515
  | .type v => some { b with type := v }
  -- validation.go:521-524
  | .nullable => some { b with nullable := true }
  -- validation.go:527-537
  | .default v =>
    match marshal v with
    | none => none
    | some r => some { b with default := some (if b.type = "array" ∧ r = "{}" then "[]" else r) }
  -- validation.go:544-555
  | .title v =>
    match v with
    | .nil => some b
    | .str s => some { b with title := s }
    | .other _ => none
  -- validation.go:567-578
  | .kubernetesDefault v =>
    if v = .nil then some b else
      match marshal v with
      | none => none
      | some r => some { b with default := some r }
  -- validation.go:585-592
  | .example_ v =>
    match marshal v with
    | none => none
    | some r => some { b with example_ := some r }
  -- validation.go:594-598
  | .preserveUnknownFields => some { b with xPreserveUnknownFields := some true }
  -- validation.go:600-603
  | .embeddedResource => some { b with xEmbeddedResource := true }
  -- validation.go:608-611
  | .intOrString => some { b with xIntOrString := true }
  -- validation.go:617-637
  | .validation rule message messageExpression reason fieldPath optionalOldSelf =>
    if reason ≠ "" ∧ reason ∉ knownReasons then none
    else some { b with xValidations := b.xValidations ++
      [{ rule, message, messageExpression, reason := if reason = "" then none else some reason, fieldPath, optionalOldSelf }] }
  -- topology.go:120-130
  | .listType v =>
    if b.type ≠ "array" then none
    else if v ≠ "map" ∧ v ≠ "atomic" ∧ v ≠ "set" then none
    else some { b with xListType := some v }
  -- topology.go:136-145
  | .listMapKey v =>
    if b.type ≠ "array" then none
    else if b.xListType ≠ some "map" then none
    else some { b with xListMapKeys := b.xListMapKeys ++ [v] }
  -- topology.go:147-160
  | .mapType v =>
    if b.type ≠ "object" then none
    else if v ≠ "atomic" ∧ v ≠ "granular" then none
    else some { b with xMapType := some v }
  -- topology.go:162-175
  | .structType v =>
    if b.type ≠ "object" ∧ b.type ≠ "" then none
    else if v ≠ "atomic" ∧ v ≠ "granular" then none
    else some { b with xMapType := some v }

/-- The priority of a marker: `ApplyPriority` where there is one (validation.go:517-519, 539-542, 580-583, 613-615, topology.go:132-134), the default otherwise (schema.go:169-179,
priority.go:23-32).  No marker of the repository implements `applyFirstMarker`. -/
def Mark.priority : Mark → Nat
  | .type _ => 10 - 1
  | .intOrString => 10 - 1
  | .listType _ => 10 - 1
  | .default _ => 10
  | .kubernetesDefault _ => 9
  | _ => 10

/-- `ValidationItemsPrefix` (validation.go:33). -/
def itemsPrefix : List Char := "kubebuilder:validation:items:".toList

def isItemsName (name : String) : Bool := itemsPrefix.isPrefixOf name.toList

/-- A marker as it is collected: name, position among the values of that name, and value.  (The code keeps the name and the value, schema.go:141-144.) -/
structure Named where
  name : String
  idx : Nat
  mark : Mark
deriving DecidableEq

/-- The schema markers among the values of one marker name (schema.go:152-164); `none` is a value that does not implement `SchemaMarker`. -/
def namedMarks (name : String) (vs : List (Option Mark)) : List Named :=
  vs.zipIdx.filterMap fun x => x.1.map fun m => ⟨name, x.2, m⟩

/-- The loop over the marker set (schema.go:151-167), in the order chosen by the schedule. -/
def collectMarks (σ : Sched) (t : Nat) (set : List (String × List (Option Mark))) : List Named :=
  (σ.order t set).flatMap fun e => namedMarks e.1 e.2

/-- The order of priorities (schema.go:169-191). -/
def prioLe (a b : Named) : Bool := a.mark.priority ≤ b.mark.priority

/-- `sort.Slice` (library function, `Verif.Pdq.slice`): a stable sort up to 12 elements, and a slice that is sorted already is left alone; otherwise the result is sorted, and the order
of equal elements is taken to be arbitrary. -/
def sliceSort (σ : Sched) (t : Nat) (l : List Named) : List Named :=
  if l.length ≤ 12 ∨ l.Pairwise (fun a b => prioLe a b = true) then sortBy prioLe l else sortBy prioLe (σ.order t l)

/-- Replace the plain fields of a schema. -/
def Schema.withBase : Schema → Base → Schema
  | .mk _ it al oo an nt pr ad pa de ai df, b => .mk b it al oo an nt pr ad pa de ai df

/-- One marker applied to a schema; errors are counted (schema.go:195-199). -/
def applyOne (marshal : AnyVal → Option Raw) (x : Schema × Nat) (m : Named) : Schema × Nat :=
  match m.mark.apply marshal x.1.base with
  | none => (x.1, x.2 + 1)
  | some b => (x.1.withBase b, x.2)

/-- One marker applied to the items of a schema (schema.go:201-211). -/
def applyItem (marshal : AnyVal → Option Raw) (x : Schema × Nat) (m : Named) : Schema × Nat :=
  match x.1 with
  | .mk b (some (.mk (some c) l)) al oo an nt pr ad pa de ai df =>
    if b.type ≠ "array" then (x.1, x.2 + 1)
    else
      match applyOne marshal (c, x.2) m with
      | (c', n) => (.mk b (some (.mk (some c') l)) al oo an nt pr ad pa de ai df, n)
  | _ => (x.1, x.2 + 1)

/-- `applyMarkers` (schema.go:147-212): the schema afterwards and the number of errors. -/
def applyMarkers (marshal : AnyVal → Option Raw) (σ : Sched) (set : List (String × List (Option Mark))) (s : Schema) : Schema × Nat :=
  let all := collectMarks σ 0 set
  let marks := sliceSort σ 1 (all.filter fun m => !isItemsName m.name)
  let items := sliceSort σ 2 (all.filter fun m => isItemsName m.name)
  items.foldl (applyItem marshal) (marks.foldl (applyOne marshal) (s, 0))

end Verif.Crd

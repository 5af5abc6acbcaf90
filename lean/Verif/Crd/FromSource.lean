import Verif.Crd.Need
import Verif.Markers.Info
import Verif.Markers.Args
/-!
# From comments to declarations: the values of markers as the schema generator sees them

`NeedSchemaFor` works on the types that `EachType` reports (parser.go:150-162); their markers are Go values of the registered types (markers/parse.go:828-928, crd/markers/validation.go, topology.go).
-/
namespace Verif.Crd
open Verif.Markers (Value)
open Verif.Markers.Args (stringArg flagArg)
open Verif.Markers.Collect (Node)
open Verif.Markers.Source (File Syntax FieldInfo TypeInfo typesOf)

/-- The Go types of the markers that implement `SchemaMarker` (validation.go:146-307, topology.go:51-118). -/
inductive MarkKind
  | maximum | minimum | exclusiveMaximum | exclusiveMinimum | multipleOf | minProperties | maxProperties | maxLength | minLength | pattern | maxItems | minItems | uniqueItems | enum | format | type
  | preserveUnknownFields | embeddedResource | intOrString | validation | nullable | default | kubernetesDefault | example_ | title | listType | listMapKey | mapType | structType
deriving DecidableEq

/-- The types of `ValidationMarkers` (validation.go:42-76): the name is that of the type. -/
def validationKinds : List (String × MarkKind) := [
  ("Maximum", .maximum), ("Minimum", .minimum), ("ExclusiveMaximum", .exclusiveMaximum), ("ExclusiveMinimum", .exclusiveMinimum), ("MultipleOf", .multipleOf),
  ("MinProperties", .minProperties), ("MaxProperties", .maxProperties), ("MaxLength", .maxLength), ("MinLength", .minLength), ("Pattern", .pattern), ("MaxItems", .maxItems), ("MinItems", .minItems),
  ("UniqueItems", .uniqueItems), ("Enum", .enum), ("Format", .format), ("Type", .type), ("XPreserveUnknownFields", .preserveUnknownFields), ("XEmbeddedResource", .embeddedResource),
  ("XIntOrString", .intOrString), ("XValidation", .validation)]

/-- The Go types by the names of the markers: validation.go:42-144, topology.go:28-45.  Markers that are not listed have other types. -/
def markKinds : List (String × MarkKind) :=
  validationKinds.map (fun e => ("kubebuilder:validation:" ++ e.1, e.2)) ++ validationKinds.map (fun e => ("kubebuilder:validation:items:" ++ e.1, e.2)) ++
  [("nullable", .nullable), ("kubebuilder:default", .default), ("default", .kubernetesDefault), ("kubebuilder:example", .example_), ("kubebuilder:validation:EmbeddedResource", .embeddedResource),
   ("kubebuilder:title", .title), ("kubebuilder:pruning:PreserveUnknownFields", .preserveUnknownFields), ("listType", .listType), ("listMapKey", .listMapKey), ("mapType", .mapType),
   ("structType", .structType)]

/-- The Go value that the arguments of a marker are stored in (parse.go:840-928 with the types of validation.go:146-353 and topology.go:51-118).  `code` stands for values of type `interface{}`.
(`none` does not occur: arguments have the types of the definition.) -/
def MarkKind.build (code : Value → AnyVal) : MarkKind → List (List Char × Value) → Option Mark
  | .maximum, [(_, .num q)] => some (.maximum q)
  | .minimum, [(_, .num q)] => some (.minimum q)
  | .exclusiveMaximum, [(_, .bool b)] => some (.exclusiveMaximum b)
  | .exclusiveMinimum, [(_, .bool b)] => some (.exclusiveMinimum b)
  | .multipleOf, [(_, .num q)] => some (.multipleOf q)
  | .minProperties, [(_, .int z)] => some (.minProperties z)
  | .maxProperties, [(_, .int z)] => some (.maxProperties z)
  | .maxLength, [(_, .int z)] => some (.maxLength z)
  | .minLength, [(_, .int z)] => some (.minLength z)
  | .pattern, [(_, .str s)] => some (.pattern (String.ofList s))
  | .maxItems, [(_, .int z)] => some (.maxItems z)
  | .minItems, [(_, .int z)] => some (.minItems z)
  | .uniqueItems, [(_, .bool b)] => some (.uniqueItems b)
  | .enum, [(_, .slice l)] => some (.enum (l.map code))
  | .format, [(_, .str s)] => some (.format (String.ofList s))
  | .type, [(_, .str s)] => some (.type (String.ofList s))
  | .preserveUnknownFields, [] => some .preserveUnknownFields
  | .embeddedResource, [] => some .embeddedResource
  | .intOrString, [] => some .intOrString
  | .validation, vals => some (.validation (stringArg vals "rule") (stringArg vals "message") (stringArg vals "messageExpression") (stringArg vals "reason") (stringArg vals "fieldPath") (flagArg vals "optionalOldSelf"))
  | .nullable, [] => some .nullable
  | .default, [(_, v)] => some (.default (code v))
  | .kubernetesDefault, [(_, v)] => some (.kubernetesDefault (code v))
  | .example_, [(_, v)] => some (.example_ (code v))
  | .title, [(_, v)] => some (.title (code v))
  | .listType, [(_, .str s)] => some (.listType (String.ofList s))
  | .listMapKey, [(_, .str s)] => some (.listMapKey (String.ofList s))
  | .mapType, [(_, .str s)] => some (.mapType (String.ofList s))
  | .structType, [(_, .str s)] => some (.structType (String.ofList s))
  | _, _ => none

/-- The value of a marker, if it is a schema marker (schema.go:152-164). -/
def markOf (code : Value → AnyVal) (name : String) (vals : List (List Char × Value)) : Option Mark := (markKinds.lookup name).bind fun k => k.build code vals

/-- `MarkerValues` (collect.go:31-41), as the schema generator sees them. -/
def setOf (code : Value → AnyVal) (markers : List (String × List (List (List Char × Value)))) : MarkerSet := markers.map fun e => (e.1, e.2.map (markOf code e.1))

/-- What else is read off the syntax of types and fields: documentation (C17), tags, types, and what the type checker says about methods (schema.go:115-137). -/
structure Shape where
  doc : Node → Bytes
  tag : Node → Option (List Char)
  type : Node → TExpr
  jsonMarshaler : Node → Bool
  textMarshaler : Node → Bool

/-- `FieldInfo` (zip.go:139-154). -/
def fieldOf (code : Value → AnyVal) (sh : Shape) (x : FieldInfo (List (List Char × Value))) : Field where
  name := x.name
  doc := sh.doc x.node
  tag := sh.tag x.node
  markers := setOf code x.markers
  type := sh.type x.node

/-- `TypeInfo` (zip.go:156-177). -/
def declOf (code : Value → AnyVal) (sh : Shape) (t : TypeInfo (List (List Char × Value))) : Decl where
  name := t.name
  doc := sh.doc t.spec
  markers := setOf code t.markers
  fields := t.fields.map (fieldOf code sh)
  type := sh.type t.spec
  jsonMarshaler := sh.jsonMarshaler t.spec
  textMarshaler := sh.textMarshaler t.spec

/-- A package: its files, what is read off them, and the orders of map iteration. -/
structure Package where
  files : List File
  syn : Syntax
  shape : Shape
  σ : Nat → Sched

/-- The types that `EachType` reports (zip.go:192-234); none if there is an error. -/
def Package.infos (hist : List (Markers.Def Markers.Loaded)) (E : Markers.Env) (pk : Package) : List (TypeInfo (List (List Char × Value))) :=
  match typesOf hist E pk.syn pk.σ pk.files with
  | some (some l) => l
  | _ => []

/-- The types that `indexTypes` finds (parser.go:150-162). -/
def Package.decls (hist : List (Markers.Def Markers.Loaded)) (E : Markers.Env) (code : Value → AnyVal) (pk : Package) : List Decl := (pk.infos hist E).map (declOf code pk.shape)

end Verif.Crd

import Verif.Markers.Define
import Verif.Markers.Parse
import Verif.Json.Default
/-!
# The markers of controller-gen: `/repo/pkg/crd/markers/*.go`, and `RegisterMarkers` of the generators

The Go types of markers are written as terms (`Output`); `unicode.ToLower` is only used for the first letters of the names of their fields, which are ASCII letters.
-/
namespace Verif.Markers

/-- A field of a struct type that is exported, as reflection shows it. -/
def sf (name : String) (type : GoType) (tag : Option String := none) : StructField := ⟨name.toList, true, tag.map String.toList, type⟩

/-- A marker that is defined in the code: its name, target and Go type; `anyType` says that it is made by `MakeAnyTypeDefinition`, `optional` that its value may be left out (`mustOptional`). -/
structure Marker where
  name : Str
  target : Target
  output : Output
  anyType : Bool := false
  optional : Bool := false
deriving DecidableEq

/-- `MakeAnyTypeDefinition` (parse.go:953-962): the argument without a name has the type of the argument `value`.  (If there is none, it is the zero value of `Argument`.) -/
def makeAnyType (d : Def Loaded) : Def Loaded :=
  { d with payload := { fields := [([], (GoMap.get d.payload.fields "value".toList).getD (.leaf .invalid false false))], fieldNames := [([], "Value".toList)] } }

/-- `mustOptional` (crd/markers/register.go:64-77); `none` is its panic. -/
def makeOptional (d : Def Loaded) : Option (Def Loaded) :=
  match d.payload.fields with
  | [([], a)] => some { d with payload := { d.payload with fields := [([], a.setOptional true)] } }
  | _ => none

/-- The definition of a marker; `none` is the panic of `Must` (regutil.go:20-25). -/
def Marker.define (m : Marker) : Option (Def Loaded) :=
  match makeDefinition Char.toLower m.name m.target m.output with
  | none => none
  | some d =>
    let d := if m.anyType then makeAnyType d else d
    if m.optional then makeOptional d else some d

/-- Whether values of this type are stored as `int32` (parse.go:651): a pointer, slice or map of them counts too. -/
def GoType.int32s : GoType → Bool
  | .int32 => true
  | .ptr t => t.int32s
  | .slice t => t.int32s
  | .map _ t => t.int32s
  | _ => false

/-- The argument as `Parse` looks at it. -/
def Argument.toArg (int32s : Bool) : Argument → Arg
  | .leaf k _ _ =>
    match k with
    | .int => .int int32s
    | .number => .num
    | .string => .str
    | .bool => .bool
    | .any => .any
    | .raw => .raw
    | _ => .invalid
  | .node k _ _ i =>
    match k with
    | .slice => .slice (i.toArg int32s)
    | .map => .map (i.toArg int32s)
    | .int => .int int32s
    | .number => .num
    | .string => .str
    | .bool => .bool
    | .any => .any
    | .raw => .raw
    | .invalid => .invalid

/-- The Go type that the argument `n` is stored in: the field of the struct that `FieldNames` gives for it (parse.go:842-849), or the type of the marker. -/
def Marker.typeOf (m : Marker) (d : Loaded) (n : Str) : Option GoType :=
  match m.output with
  | .plain t => some t
  | .struct fs => ((GoMap.get d.fieldNames n).bind fun g => fs.find? fun f => f.name = g).map (·.type)

/-- The definition of a marker as `Parse` looks at it: all definitions are strict (parse.go:940). -/
def Marker.parser (m : Marker) (d : Def Loaded) : Definition where
  fields := d.payload.fields.map fun (n, a) => ⟨n, a.toArg (((m.typeOf d.payload n).map GoType.int32s).getD false), a.optional⟩
  strict := true

/-- The markers whose type has a `ParseMarker` of its own: `KubernetesDefault` only (crd/markers/validation.go:93, 557). -/
def Marker.hook (m : Marker) : Bool := m.name = "default".toList

/-- `Definition.Parse` (parse.go:828-928) for a marker of controller-gen.  The value of `default` is kept as JSON text, `Json.parseDefault` is what it stands for. -/
def Marker.parse (E : Env) (m : Marker) (d : Def Loaded) (text : Str) : Except PErr (List (Str × Value)) :=
  if m.hook then
    match Json.kubernetesDefault ⟨E.round, fun _ => []⟩ text with
    | none => .error .extra
    | some _ => .ok [("value".toList, .raw (splitMarker text).2.2)]
  else (m.parser d).parse E text

namespace Shipped
open GoType

/-- The type of a field with the tag `marker:",optional"`. -/
def opt : Option String := some ",optional"

/-- crd/markers/crd.go:79-421: the types of the markers of crd.go:29-60. -/
def crdMarkers : List Marker := [
  ⟨"kubebuilder:subresource:status".toList, .type, .struct [], false, false⟩,
  ⟨"kubebuilder:subresource:scale".toList, .type, .struct [sf "SpecPath" string (some "specpath"), sf "StatusPath" string (some "statuspath"), sf "SelectorPath" (ptr string) (some "selectorpath")], false, false⟩,
  ⟨"kubebuilder:printcolumn".toList, .type, .struct [sf "Name" string, sf "Type" string, sf "JSONPath" string (some "JSONPath"), sf "Description" string opt, sf "Format" string opt, sf "Priority" int32 opt], false, false⟩,
  ⟨"kubebuilder:resource".toList, .type, .struct [sf "Path" string opt, sf "ShortName" (slice string) opt, sf "Categories" (slice string) opt, sf "Singular" string opt, sf "Scope" string opt], false, false⟩,
  ⟨"kubebuilder:storageversion".toList, .type, .struct [], false, false⟩,
  ⟨"kubebuilder:skipversion".toList, .type, .struct [], false, false⟩,
  ⟨"kubebuilder:unservedversion".toList, .type, .struct [], false, false⟩,
  ⟨"kubebuilder:deprecatedversion".toList, .type, .struct [sf "Warning" (ptr string) opt], false, false⟩,
  ⟨"kubebuilder:metadata".toList, .type, .struct [sf "Annotations" (slice string) opt, sf "Labels" (slice string) opt], false, false⟩,
  ⟨"kubebuilder:selectablefield".toList, .type, .struct [sf "JSONPath" string (some "JSONPath")], false, false⟩]

/-- crd/markers/package.go:23-40. -/
def packageMarkers : List Marker := [
  ⟨"groupName".toList, .package, .plain string, false, true⟩,
  ⟨"versionName".toList, .package, .plain string, false, false⟩,
  ⟨"kubebuilder:validation:Optional".toList, .package, .struct [], false, false⟩,
  ⟨"kubebuilder:validation:Required".toList, .package, .struct [], false, false⟩,
  ⟨"kubebuilder:skip".toList, .package, .struct [], false, false⟩]

/-- crd/markers/topology.go:28-45. -/
def topologyMarkers : List Marker :=
  ["listMapKey", "listType", "mapType", "structType"].flatMap fun n => [⟨n.toList, .field, .plain string, false, false⟩, ⟨n.toList, .type, .plain string, false, false⟩]

/-- The type of `XValidation` (validation.go:346-353). -/
def xValidation : Output :=
  .struct [sf "Rule" string, sf "Message" string opt, sf "MessageExpression" string (some "messageExpression,optional"), sf "Reason" string (some "reason,optional"),
    sf "FieldPath" string (some "fieldPath,optional"), sf "OptionalOldSelf" (ptr bool) (some "optionalOldSelf,optional")]

/-- The names and types of `ValidationMarkers` (validation.go:42-76, 146-353). -/
def validationTypes : List (String × Output) := [
  ("Maximum", .plain float64), ("Minimum", .plain float64), ("ExclusiveMaximum", .plain bool), ("ExclusiveMinimum", .plain bool), ("MultipleOf", .plain float64),
  ("MinProperties", .plain int), ("MaxProperties", .plain int), ("MaxLength", .plain int), ("MinLength", .plain int), ("Pattern", .plain string),
  ("MaxItems", .plain int), ("MinItems", .plain int), ("UniqueItems", .plain bool), ("Enum", .plain (slice emptyInterface)), ("Format", .plain string), ("Type", .plain string),
  ("XPreserveUnknownFields", .struct []), ("XEmbeddedResource", .struct []), ("XIntOrString", .struct []), ("XValidation", xValidation)]

/-- `ValidationMarkers` (validation.go:42-76, `mustMakeAllWithPrefix` register.go:83-95). -/
def validationMarkers : List Marker := validationTypes.map fun e => ⟨"kubebuilder:validation:".toList ++ e.1.toList, .field, e.2, false, false⟩

/-- `FieldOnlyMarkers` (validation.go:80-109). -/
def fieldOnlyMarkers : List Marker :=
  let value : Output := .struct [sf "Value" emptyInterface]
  [⟨"kubebuilder:validation:Required".toList, .field, .struct [], false, false⟩,
   ⟨"kubebuilder:validation:Optional".toList, .field, .struct [], false, false⟩,
   ⟨"required".toList, .field, .struct [], false, false⟩,
   ⟨"optional".toList, .field, .struct [], false, false⟩,
   ⟨"nullable".toList, .field, .struct [], false, false⟩,
   ⟨"kubebuilder:default".toList, .field, value, true, false⟩,
   ⟨"default".toList, .field, value, false, false⟩,
   ⟨"kubebuilder:example".toList, .field, value, true, false⟩,
   ⟨"kubebuilder:validation:EmbeddedResource".toList, .field, .struct [], false, false⟩,
   ⟨"kubebuilder:validation:Schemaless".toList, .field, .struct [], false, false⟩,
   ⟨"kubebuilder:title".toList, .field, value, true, false⟩]

/-- `ValidationIshMarkers` (validation.go:114-119). -/
def validationIshMarkers : List Marker := [
  ⟨"kubebuilder:pruning:PreserveUnknownFields".toList, .field, .struct [], false, false⟩,
  ⟨"kubebuilder:pruning:PreserveUnknownFields".toList, .type, .struct [], false, false⟩]

/-- `strings.TrimPrefix` (library). -/
def trimPrefix (pre s : Str) : Str := if pre.isPrefixOf s then s.drop pre.length else s

/-- The name for array items (validation.go:129). -/
def itemsName (n : Str) : Str := "kubebuilder:validation:items:".toList ++ trimPrefix "kubebuilder:validation:".toList n

/-- `AllDefinitions` of package crd/markers: crd.go:29-60, and the `init` functions of package.go:23-40, topology.go:47-49 and validation.go:121-144. -/
def allDefinitions : List Marker :=
  crdMarkers ++ packageMarkers ++ topologyMarkers ++ validationMarkers ++
  validationMarkers.flatMap (fun m => [{ m with target := .type }, { m with name := itemsName m.name }, { m with name := itemsName m.name, target := .type }]) ++
  fieldOnlyMarkers ++ validationIshMarkers

/-- rbac/parser.go:39, 45-63. -/
def rbacMarkers : List Marker := [
  ⟨"kubebuilder:rbac".toList, .package, .struct [sf "Groups" (slice string) opt, sf "Resources" (slice string) opt, sf "ResourceNames" (slice string) opt, sf "Verbs" (slice string),
    sf "URLs" (slice string) (some "urls,optional"), sf "Namespace" string opt], false, false⟩]

/-- deepcopy/gen.go:41-47, 69-72. -/
def objectMarkers : List Marker := [
  ⟨"kubebuilder:object:generate".toList, .package, .plain bool, false, false⟩,
  ⟨"k8s:deepcopy-gen".toList, .package, .plain rawArguments, false, false⟩,
  ⟨"kubebuilder:object:generate".toList, .type, .plain bool, false, false⟩,
  ⟨"k8s:deepcopy-gen".toList, .type, .plain rawArguments, false, false⟩,
  ⟨"kubebuilder:object:root".toList, .type, .plain bool, false, false⟩,
  ⟨"k8s:deepcopy-gen:interfaces".toList, .type, .plain string, false, false⟩]

/-- applyconfiguration/gen.go:43-46, 67-70; `kubebuilder:resource` has the type of crd/markers. -/
def applyMarkers : List Marker := [
  ⟨"kubebuilder:resource".toList, .type, .struct [sf "Path" string opt, sf "ShortName" (slice string) opt, sf "Categories" (slice string) opt, sf "Singular" string opt, sf "Scope" string opt], false, false⟩,
  ⟨"kubebuilder:ac:generate".toList, .package, .plain bool, false, false⟩,
  ⟨"kubebuilder:ac:generate".toList, .type, .plain bool, false, false⟩,
  ⟨"kubebuilder:ac:output:package".toList, .package, .plain string, false, false⟩]

/-- webhook/parser.go:49-51, 54-181. -/
def webhookMarkers : List Marker := [
  ⟨"kubebuilder:webhook".toList, .package, .struct [sf "Mutating" bool, sf "FailurePolicy" string, sf "MatchPolicy" string opt, sf "SideEffects" string opt, sf "TimeoutSeconds" int opt,
    sf "Groups" (slice string), sf "Resources" (slice string), sf "Verbs" (slice string), sf "Versions" (slice string), sf "Name" string,
    sf "ServiceName" string (some "serviceName,optional"), sf "ServiceNamespace" string (some "serviceNamespace,optional"), sf "Path" string (some "path,optional"),
    sf "ServicePort" (ptr int32) (some "servicePort,optional"), sf "WebhookVersions" (slice string) (some "webhookVersions,optional"),
    sf "AdmissionReviewVersions" (slice string) (some "admissionReviewVersions"), sf "ReinvocationPolicy" string (some "reinvocationPolicy,optional"), sf "URL" string (some "url,optional")], false, false⟩,
  ⟨"kubebuilder:webhookconfiguration".toList, .package, .struct [sf "Mutating" bool, sf "Name" string (some "name,optional")], false, false⟩]

/-- `RegisterMarkers` of the generators, by their names on the command line (cmd/controller-gen/main.go:53-60, crd/gen.go:106-108, schemapatcher/gen.go:85-87). -/
def registers : List (String × List Marker) := [
  ("crd", allDefinitions), ("rbac", rbacMarkers), ("object", objectMarkers), ("applyconfiguration", applyMarkers), ("webhook", webhookMarkers), ("schemapatch", allDefinitions)]

/-- All markers of controller-gen. -/
def all : List Marker := registers.flatMap (·.2)

/-- The history of registrations for some generators, one after the other (`Generators.RegisterMarkers`, genall.go:38-45); `none` if a definition panics or a name is unknown. -/
def history : List String → Option (List (Def Loaded))
  | [] => some []
  | g :: gs =>
    match registers.lookup g with
    | none => none
    | some ms =>
      match ms.mapM Marker.define, history gs with
      | some ds, some rest => some (ds ++ rest)
      | _, _ => none

end Shipped
end Verif.Markers

import Verif.Markers.ShippedTheorems
/-!
# A manual of the markers of controller-gen (C68)

The manual says how each marker is written: its name, what it stands above, and its arguments with their types; `?` stands behind arguments that may be left out.  An argument without `=` has no name: it is the value of the marker itself.
It is written from the documentation of the markers, and not from the definitions of the model.
-/
namespace Verif.Markers.Manual

/-- The validation markers: what follows `kubebuilder:validation:` and the arguments. -/
def validations : List (String × String) := [
  ("Maximum", " number"), ("Minimum", " number"), ("ExclusiveMaximum", " bool"), ("ExclusiveMinimum", " bool"), ("MultipleOf", " number"), ("MinProperties", " int"), ("MaxProperties", " int"),
  ("MaxLength", " int"), ("MinLength", " int"), ("Pattern", " string"), ("MaxItems", " int"), ("MinItems", " int"), ("UniqueItems", " bool"), ("Enum", " []any"), ("Format", " string"), ("Type", " string"),
  ("XPreserveUnknownFields", ""), ("XEmbeddedResource", ""), ("XIntOrString", ""),
  ("XValidation", " rule=string message=string? messageExpression=string? reason=string? fieldPath=string? optionalOldSelf=bool?")]

def line (pre name target args : String) : Str := pre.toList ++ name.toList ++ target.toList ++ args.toList

/-- The markers for CRDs. -/
def crd : List Str :=
  ["kubebuilder:subresource:status type",
   "kubebuilder:subresource:scale type specpath=string statuspath=string selectorpath=string?",
   "kubebuilder:printcolumn type name=string type=string JSONPath=string description=string? format=string? priority=int32?",
   "kubebuilder:resource type path=string? shortName=[]string? categories=[]string? singular=string? scope=string?",
   "kubebuilder:storageversion type",
   "kubebuilder:skipversion type",
   "kubebuilder:unservedversion type",
   "kubebuilder:deprecatedversion type warning=string?",
   "kubebuilder:metadata type annotations=[]string? labels=[]string?",
   "kubebuilder:selectablefield type JSONPath=string",
   "groupName package string?",
   "versionName package string",
   "kubebuilder:validation:Optional package",
   "kubebuilder:validation:Required package",
   "kubebuilder:skip package",
   "listMapKey field string", "listMapKey type string",
   "listType field string", "listType type string",
   "mapType field string", "mapType type string",
   "structType field string", "structType type string"].map String.toList ++
  validations.map (fun v => line "kubebuilder:validation:" v.1 " field" v.2) ++
  validations.flatMap (fun v => [line "kubebuilder:validation:" v.1 " type" v.2, line "kubebuilder:validation:items:" v.1 " field" v.2, line "kubebuilder:validation:items:" v.1 " type" v.2]) ++
  ["kubebuilder:validation:Required field",
   "kubebuilder:validation:Optional field",
   "required field",
   "optional field",
   "nullable field",
   "kubebuilder:default field any",
   "default field value=any",
   "kubebuilder:example field any",
   "kubebuilder:validation:EmbeddedResource field",
   "kubebuilder:validation:Schemaless field",
   "kubebuilder:title field any",
   "kubebuilder:pruning:PreserveUnknownFields field", "kubebuilder:pruning:PreserveUnknownFields type"].map String.toList

/-- The markers of each generator. -/
def markers : List (String × List Str) := [
  ("crd", crd),
  ("rbac", ["kubebuilder:rbac package groups=[]string? resources=[]string? resourceNames=[]string? verbs=[]string urls=[]string? namespace=string?".toList]),
  ("object", ["kubebuilder:object:generate package bool", "k8s:deepcopy-gen package raw", "kubebuilder:object:generate type bool", "k8s:deepcopy-gen type raw", "kubebuilder:object:root type bool",
    "k8s:deepcopy-gen:interfaces type string"].map String.toList),
  ("applyconfiguration", ["kubebuilder:resource type path=string? shortName=[]string? categories=[]string? singular=string? scope=string?", "kubebuilder:ac:generate package bool", "kubebuilder:ac:generate type bool",
    "kubebuilder:ac:output:package package string"].map String.toList),
  ("webhook", ["kubebuilder:webhook package mutating=bool failurePolicy=string matchPolicy=string? sideEffects=string? timeoutSeconds=int? groups=[]string resources=[]string verbs=[]string versions=[]string".toList ++
      " name=string serviceName=string? serviceNamespace=string? path=string? servicePort=int32? webhookVersions=[]string? admissionReviewVersions=[]string reinvocationPolicy=string? url=string?".toList,
    "kubebuilder:webhookconfiguration package mutating=bool name=string?".toList]),
  ("schemapatch", crd)]

/-! ## How a definition reads -/

/-- The type of an argument. -/
def typeText : Arg → Str
  | .int true => "int32".toList
  | .int false => "int".toList
  | .num => "number".toList
  | .str => "string".toList
  | .bool => "bool".toList
  | .any => "any".toList
  | .raw => "raw".toList
  | .invalid => "invalid".toList
  | .slice a => "[]".toList ++ typeText a
  | .map a => "map[string]".toList ++ typeText a

def fieldText (f : Field) : Str :=
  ' ' :: (if f.name = [] then [] else f.name ++ ['=']) ++ typeText f.arg ++ (if f.optional then ['?'] else [])

def targetText : Target → Str
  | .package => " package".toList
  | .type => " type".toList
  | .field => " field".toList
  | _ => " nothing".toList

/-- A marker as the manual writes it. -/
def usage (name : Str) (t : Target) (d : Definition) : Str := name ++ targetText t ++ d.fields.flatMap fieldText

end Manual

set_option maxRecDepth 100000 in
/-- **C68 (the manual is right).** The markers that a generator registers are those of the manual, with the targets and arguments that it says; and each definition is made without a panic. -/
theorem C68_manual : Shipped.registers.map (fun r => (r.1, r.2.map fun m => m.define.map fun d => Manual.usage d.name d.target (m.parser d))) = Manual.markers.map fun r => (r.1, r.2.map some) := by
  decide +kernel

end Verif.Markers

import Verif.Common.Text

/-! Model of `type-scaffold` (pkg/typescaffold and cmd/type-scaffold): the check of the options and the text that is
printed. -/

namespace Verif.Scaffold

abbrev Str := List Char

/-- The inflection library (github.com/gobuffalo/flect) and `strings.ToLower`: not modelled, any functions.
Used at pkg/typescaffold/resource.go:45 and 48. -/
structure Inflector where
  pluralize : Str → Str
  pascalize : Str → Str
  lower : Str → Str

/-- `Resource`, pkg/typescaffold/resource.go:27-36. -/
structure Resource where
  namespaced : Bool
  kind : Str
  resource : Str
deriving DecidableEq, Repr

/-- `ScaffoldOptions`, pkg/typescaffold/scaffold.go:87-91. -/
structure Options where
  resource : Resource
  additionalHelp : Str
  generateClients : Bool
deriving DecidableEq, Repr

/-- The errors of `Validate`, pkg/typescaffold/resource.go:41 and 49. -/
inductive Invalid where
  | emptyKind
  | notCamelCase (expected was : Str)
deriving DecidableEq, Repr

/-- `(*Resource).Validate`, pkg/typescaffold/resource.go:39-53 (`ScaffoldOptions.Validate`, scaffold.go:94-97, only
calls it): the resource as the pointer leaves it, and the error. -/
def validate (f : Inflector) (r : Resource) : Resource × Option Invalid :=
  if r.kind.length = 0 then (r, some .emptyKind) else
  let r := if r.resource.length = 0 then { r with resource := f.pluralize (f.lower r.kind) } else r
  if r.kind ≠ f.pascalize r.kind then (r, some (.notCamelCase (f.pascalize r.kind) r.kind)) else (r, none)

/-- The part `{{- if .AdditionalHelp }}{{- range .AdditionalHelp | SplitLines }} … {{- end }}{{- end }}` of the
template, pkg/typescaffold/scaffold.go:29-33 and 40-44, with `SplitLines` of line 78: one line of the template for each
line of the help. The trimming marks `{{-` take away the line break before each action. -/
def helpRows (help : Str) : List Str :=
  if help = [] then [] else (Text.split '\n' help).map (fun l => "\t// ".toList ++ l)

/-- The lines of the template `typesTemplateRaw`, pkg/typescaffold/scaffold.go:26-76, with its actions executed: the
pieces between the line breaks that the template itself holds. The template ends in a line break, hence the last,
empty, piece. -/
def rows (o : Options) : List Str :=
  let k := o.resource.kind
  ["// ".toList ++ k ++ "Spec defines the desired state of ".toList ++ k,
   "type ".toList ++ k ++ "Spec struct {".toList,
   "\t// INSERT ADDITIONAL SPEC FIELDS -- desired state of cluster".toList] ++
  helpRows o.additionalHelp ++
  ["}".toList,
   [],
   "// ".toList ++ k ++ "Status defines the observed state of ".toList ++ k ++ ".".toList,
   "// It should always be reconstructable from the state of the cluster and/or outside world.".toList,
   "type ".toList ++ k ++ "Status struct {".toList,
   "\t// INSERT ADDITIONAL STATUS FIELDS -- observed state of cluster".toList] ++
  helpRows o.additionalHelp ++
  ["}".toList,
   [],
   "// +k8s:deepcopy-gen:interfaces=k8s.io/apimachinery/pkg/runtime.Object".toList] ++
  (if o.generateClients then "// +genclient".toList ::
    (if !o.resource.namespaced then ["// +genclient:nonNamespaced".toList] else []) else []) ++
  [[],
   "// ".toList ++ k ++ " is the Schema for the ".toList ++ o.resource.resource ++ " API".toList,
   "// +k8s:openapi-gen=true".toList,
   "type ".toList ++ k ++ " struct {".toList,
   "\tmetav1.TypeMeta   `json:\",inline\"`".toList,
   "\tmetav1.ObjectMeta `json:\"metadata,omitempty\"`".toList,
   [],
   "\tSpec   ".toList ++ k ++ "Spec   `json:\"spec,omitempty\"`".toList,
   "\tStatus ".toList ++ k ++ "Status `json:\"status,omitempty\"`".toList,
   "}".toList,
   [],
   "// +k8s:deepcopy-gen:interfaces=k8s.io/apimachinery/pkg/runtime.Object".toList] ++
  (if o.generateClients && !o.resource.namespaced then ["// +genclient:nonNamespaced".toList] else []) ++
  [[],
   "// ".toList ++ k ++ "List contains a list of ".toList ++ k,
   "type ".toList ++ k ++ "List struct {".toList,
   "\tmetav1.TypeMeta `json:\",inline\"`".toList,
   "\tmetav1.ListMeta `json:\"metadata,omitempty\"`".toList,
   "\tItems           []".toList ++ k ++ " `json:\"items\"`".toList,
   "}".toList,
   []]

/-- `Scaffold`, pkg/typescaffold/scaffold.go:100-102: the text written. `text/template` inserts strings as they are. -/
def scaffold (o : Options) : Str := Text.join '\n' (rows o)

/-- The flags of `type-scaffold`, cmd/type-scaffold/main.go:57-59, as cobra read them: `none` is a flag that was not
given. `--kind` is required (line 61): without it cobra does not call `RunE`. -/
structure Flags where
  kind : Option Str
  resource : Option Str
  namespaced : Option Bool
deriving DecidableEq, Repr

/-- What the program does: it prints a text and leaves with status 0, or prints an error and leaves with status 1. -/
inductive Result where
  | printed (s : Str)
  | missingKind
  | refused (e : Invalid)
deriving DecidableEq, Repr

/-- `main`, cmd/type-scaffold/main.go:26-72. -/
def main (f : Inflector) (fl : Flags) : Result :=
  match fl.kind with
  | none => .missingKind
  | some kind =>
    let o : Options :=
      { resource := { namespaced := fl.namespaced.getD true, kind := kind, resource := fl.resource.getD [] },
        additionalHelp := [], generateClients := false }
    match validate f o.resource with
    | (_, some e) => .refused e
    | (r, none) => .printed (scaffold { o with resource := r })

end Verif.Scaffold

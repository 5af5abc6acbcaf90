import Verif.CrdGen.Generate
import Verif.Crd.FromSource
import Verif.Markers.Args
/-!
# From the files of the packages to the CRD generator

What `Generate` (crd/gen.go:126-212) sees of the program, when the markers come from the comments in the files.
-/
namespace Verif.CrdGen
open Verif.Markers (Value Def Loaded Env Values)
open Verif.Markers.Args
open Verif.Markers.Source (TypeInfo markersOf)
open Verif.Crd (AnyVal PkgCtx Override Package TypeIdent setOf)

/-- The Go value that the arguments of a marker are stored in (markers/parse.go:840-928), for the types of crd/markers/crd.go:79-421. -/
def crdMarkerOf (name : String) (vals : List (List Char × Value)) : Marker :=
  if name = "kubebuilder:subresource:status" then .status
  else if name = "kubebuilder:subresource:scale" then .scale { specPath := stringArg vals "specpath", statusPath := stringArg vals "statuspath", selectorPath := pointerArg vals "selectorpath" }
  else if name = "kubebuilder:printcolumn" then .printColumn
    { name := stringArg vals "name"
      type := stringArg vals "type"
      jsonPath := stringArg vals "JSONPath"
      description := stringArg vals "description"
      format := stringArg vals "format"
      priority := (intArg vals "priority").getD 0 }
  else if name = "kubebuilder:resource" then .resource
    { path := stringArg vals "path"
      shortName := stringsArg vals "shortName"
      categories := stringsArg vals "categories"
      singular := stringArg vals "singular"
      scope := stringArg vals "scope" }
  else if name = "kubebuilder:storageversion" then .storageVersion
  else if name = "kubebuilder:skipversion" then .skipVersion
  else if name = "kubebuilder:unservedversion" then .unservedVersion
  else if name = "kubebuilder:deprecatedversion" then .deprecatedVersion (pointerArg vals "warning")
  else if name = "kubebuilder:metadata" then .metadata (stringsArg vals "annotations") (stringsArg vals "labels")
  else if name = "kubebuilder:selectablefield" then .selectableField (stringArg vals "JSONPath")
  else .other

/-- `MarkerValues` (markers/collect.go:31-41), as `NeedCRDFor` sees them. -/
def crdSetOf (markers : List (String × List (List (List Char × Value)))) : List (String × List Marker) := markers.map fun e => (e.1, e.2.map (crdMarkerOf e.1))

/-- The packages that can be loaded. -/
structure World where
  /-- their files -/
  pk : String → Package
  /-- the order of the map iterations in `PackageMarkers` -/
  τ : String → Sched
  /-- the type checker and the options; not the package markers -/
  ctx : String → PkgCtx
  imports : String → String → Option String
  path : String → String
  overrides : List (String × Override)
  pkgName : String → String

variable (hist : List (Def Loaded)) (E : Env) (code : Value → AnyVal) (W : World)

/-- The package markers (parser.go:128); none if they cannot be collected (parser.go:129-130). -/
def World.values (pkg : String) : Values (List (List Char × Value)) :=
  match markersOf hist E (W.pk pkg).σ (W.τ pkg) (W.pk pkg).files with
  | some (some v) => v
  | _ => []

/-- `pkgMarkers.Get(name)` for a marker that is a string (parser.go:135-142): the value of a comment without a value is the empty string. -/
def World.label (name pkg : String) : Option String := ((W.values hist E pkg).first name.toList).map fun vals => stringArg vals ""

/-- The last type of that name (parser.go:150-158: later ones overwrite). -/
def World.info (id : TypeIdent) : Option (TypeInfo (List (List Char × Value))) := (((W.pk id.pkg).infos hist E).filter fun t => t.name = id.name).getLast?

/-- What the generator sees. -/
def World.gsrc : GSrc where
  src :=
    { ctx := fun p => { W.ctx p with markers := setOf code ((W.values hist E p).map fun e => (String.ofList e.1, e.2)) }
      imports := W.imports
      decls := fun p => (W.pk p).decls hist E code
      path := W.path
      overrides := W.overrides }
  pkgName := W.pkgName
  groupName := W.label hist E "groupName"
  versionName := W.label hist E "versionName"
  crdMarkers := fun id => ((W.info hist E id).map fun t => crdSetOf t.markers).getD []

end Verif.CrdGen

import Verif.Help.ShippedTable
import Verif.Markers.Shipped
/-!
# The help of the markers of controller-gen: `RegisterMarkers` of the generators with the calls of `AddHelp`, which `Markers/Shipped.lean` leaves out

Definitions are package level variables, so that each has one address, whatever the generators that register it; here it is the position in a list of all of them.
-/
namespace Verif.Help.Shipped
open Markers (Str Def Marker)

/-- The method `Help` of a type; a type without one does not compile. -/
def ofType (type : String) : DefHelp := (typeHelps.lookup type).getD {}

/-- `SimpleHelp` (markers/help.go:65-70). -/
def simple (category summary : String) : DefHelp := help category summary "" []

/-- `DeprecatedHelp` (markers/help.go:75-81). -/
def deprecatedFor (inFavorOf category summary : String) : DefHelp := { simple category summary with deprecated := some inFavorOf.toList }

/-- The help of `CRDMarkers` (crd/markers/crd.go:29-60). -/
def crdHelp : List DefHelp :=
  ["SubresourceStatus", "SubresourceScale", "PrintColumn", "Resource", "StorageVersion", "SkipVersion", "UnservedVersion", "DeprecatedVersion", "Metadata", "SelectableField"].map ofType

/-- crd/markers/package.go:23-40. -/
def packageHelp : List DefHelp := [
  simple "CRD" "specifies the API group name for this package.",
  simple "CRD" "overrides the API group version for this package (defaults to the package name).",
  simple "CRD validation" "specifies that all fields in this package are optional by default.",
  simple "CRD validation" "specifies that all fields in this package are required by default.",
  simple "CRD" "don't consider this package as an API version."]

/-- crd/markers/topology.go:28-45. -/
def topologyHelp : List DefHelp := ["ListMapKey", "ListType", "MapType", "StructType"].flatMap fun n => [ofType n, ofType n]

/-- The help of `ValidationMarkers` (`mustMakeAllWithPrefix`, register.go:83-95): that of the type the marker is named after. -/
def validationHelp : List DefHelp := Markers.Shipped.validationTypes.map fun e => ofType e.1

/-- `itemsFieldDef.Help.Summary = "for array items " + itemsFieldDef.Help.Summary` (validation.go:132, 137); `clone` (register.go:46-52) copies the help first. -/
def forItems (h : DefHelp) : DefHelp := { h with text := { h.text with summary := "for array items ".toList ++ h.text.summary } }

/-- The help of `FieldOnlyMarkers` (validation.go:80-109). -/
def fieldOnlyHelp : List DefHelp := [
  simple "CRD validation" "specifies that this field is required.",
  simple "CRD validation" "specifies that this field is optional.",
  simple "CRD validation" "specifies that this field is required.",
  simple "CRD validation" "specifies that this field is optional.",
  ofType "Nullable", ofType "Default", ofType "KubernetesDefault", ofType "Example", ofType "XEmbeddedResource", ofType "Schemaless", ofType "Title"]

/-- The help of `AllDefinitions`, in its order (crd.go:65-67, package.go:23-40, topology.go:47-49, validation.go:121-144). -/
def allHelp : List DefHelp :=
  crdHelp ++ packageHelp ++ topologyHelp ++ validationHelp ++ validationHelp.flatMap (fun h => [h, forItems h, forItems h]) ++ fieldOnlyHelp ++
  [ofType "XPreserveUnknownFields", ofType "XPreserveUnknownFields"]

/-- deepcopy/gen.go:75-87, in the order of the markers (gen.go:70-72). -/
def objectHelp : List DefHelp := [
  simple "object" "enables or disables object interface & deepcopy implementation generation for this package",
  deprecatedFor "kubebuilder:object:generate" "object" "enables or disables object interface & deepcopy implementation generation for this package",
  simple "object" "overrides enabling or disabling deepcopy generation for this type",
  deprecatedFor "kubebuilder:object:generate" "object" "overrides enabling or disabling deepcopy generation for this type",
  simple "object" "enables object interface implementation generation for this type",
  deprecatedFor "kubebuilder:object:root" "object" "enables object interface implementation generation for this type"]

/-- applyconfiguration/gen.go:73-80, in the order of the markers (gen.go:68-69). -/
def applyHelp : List DefHelp := [
  simple "apply" "enables apply configuration generation for this type",
  simple "apply" "overrides enabling or disabling applyconfiguration generation for the package",
  simple "apply" "overrides enabling or disabling applyconfiguration generation for the type, can be used to generate applyconfiguration for a single type when the package generation is disabled, or to disable generation for a single type when the package generation is enabled",
  simple "apply" "overrides the default output package for the applyconfiguration generation, supports relative paths to the API directory. The default value is \"applyconfiguration\""]

/-- webhook/parser.go:438-439: both have the help of `Config`. -/
def webhookHelp : List DefHelp := [ofType "webhook.Config", ofType "webhook.Config"]

/-- rbac/parser.go:178. -/
def rbacHelp : List DefHelp := [ofType "rbac.Rule"]

/-- A definition with its address and its help. -/
structure Entry where
  ptr : Nat
  marker : Marker
  help : DefHelp
deriving DecidableEq

def entries (start : Nat) (ms : List Marker) (hs : List DefHelp) : List Entry := ((ms.zip hs).zipIdx start).map fun e => ⟨e.2, e.1.1, e.1.2⟩

def crdEntries : List Entry := entries 0 Markers.Shipped.allDefinitions allHelp
def rbacEntries : List Entry := entries 1000 Markers.Shipped.rbacMarkers rbacHelp
def objectEntries : List Entry := entries 2000 Markers.Shipped.objectMarkers objectHelp
def applyEntries : List Entry := entries 3000 Markers.Shipped.applyMarkers applyHelp
def webhookEntries : List Entry := entries 4000 Markers.Shipped.webhookMarkers webhookHelp

/-- The call of `Register` for a definition, if it can be made (see `Marker.define`). -/
def Entry.register (e : Entry) : List Op := (e.marker.define.map fun d => Op.register ⟨d.name, d.target, ⟨e.ptr, d.payload⟩⟩).toList

/-- The call of `AddHelp`. -/
def Entry.addHelp (e : Entry) : Op := .addHelp e.ptr e.help

/-- Register each, with its help (`definitionWithHelp.Register`, register.go:36-44, and `Register`, register.go:97-105). -/
def oneByOne (es : List Entry) : List Op := es.flatMap fun e => e.register ++ [e.addHelp]

/-- Register all, and then add the help.  (deepcopy/gen.go adds it in another order than this, which makes no difference, as the addresses are different.) -/
def thenHelp (es : List Entry) : List Op := es.flatMap (·.register) ++ es.map (·.addHelp)

/-- `RegisterMarkers` of the generators (crd/gen.go:106-108, schemapatcher/gen.go:85-87, rbac/parser.go:174-180, deepcopy/gen.go:69-88, applyconfiguration/gen.go:66-82, webhook/parser.go:431-441). -/
def registers : List (String × List Op) := [
  ("crd", oneByOne crdEntries), ("rbac", thenHelp rbacEntries), ("object", thenHelp objectEntries), ("applyconfiguration", thenHelp applyEntries), ("webhook", thenHelp webhookEntries),
  ("schemapatch", oneByOne crdEntries)]

/-- The calls for some generators, one after the other (`Generators.RegisterMarkers`, genall.go:38-45); `none` if a name is unknown. -/
def calls : List String → Option (List Op)
  | [] => some []
  | g :: gs =>
    match registers.lookup g, calls gs with
    | some ops, some rest => some (ops ++ rest)
    | _, _ => none

end Verif.Help.Shipped

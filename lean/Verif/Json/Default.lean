import Verif.Json.Model
import Verif.Markers.Parse
import Verif.Markers.Registry
import Verif.Markers.Doc
/-!
# Values of markers in the schema: `default`, `kubebuilder:default`, `example`, `enum` (markers/validation.go:484-592)

How a value gets from the text of a marker to the JSON text in the schema.  What the markers do with the JSON text is in `Verif.Crd.Marks`.
-/
namespace Verif.Json

/-- `KubernetesDefault.ParseMarker` (validation.go:557-564): the value, `null` for nil; `none` is an error.  `restFields` is the text after the equals sign (markers/parse.go:829-837). -/
def parseDefault (F : Floats) (restFields : Str) : Option G :=
  if "ref(".toList.isPrefixOf (Markers.Doc.trimSpace restFields) then some .null else unmarshal F restFields

/-- `Definition.Parse` of a `+default=…` comment (markers/parse.go:829-837): the hook gets the fields as text. -/
def kubernetesDefault (F : Floats) (marker : Str) : Option G := parseDefault F (Markers.splitMarker marker).2.2

mutual
/-- The Go value of a parsed argument of type `interface{}` (markers/parse.go:603-660); raw text does not occur there and is not modelled here. -/
def valueGo : Markers.Value → Option G
  | .int z => some (.int z)
  | .num q => some (.float q)
  | .str s => some (.str s)
  | .bool b => some (.bool b)
  | .slice l => (valuesGo l).map .arr
  | .map m => (entriesGo m).map .obj
  | .raw _ => none
def valuesGo : List Markers.Value → Option (List G)
  | [] => some []
  | v :: l =>
    match valueGo v, valuesGo l with
    | some v, some l => some (v :: l)
    | _, _ => none
def entriesGo : List (Str × Markers.Value) → Option (List (Str × G))
  | [] => some []
  | (k, v) :: m =>
    match valueGo v, entriesGo m with
    | some v, some m => some ((k, v) :: m)
    | _, _ => none
end

end Verif.Json

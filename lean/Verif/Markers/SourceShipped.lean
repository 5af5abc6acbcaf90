import Verif.Markers.Source
import Verif.Markers.Shipped
/-!
# The markers of controller-gen in the files of a package

The collector of `/repo/pkg/markers` with the registry of `/repo/pkg/genall/genall.go` (38-45, 139-170).
-/
namespace Verif.Markers.Source
open Verif Verif.Markers.Collect

/-- `TargetType` (parse.go:684-693), as the collector uses it. -/
def toTarget : Collect.Target → Markers.Target
  | .package => .package
  | .type => .type
  | .field => .field

/-- `Registry.Lookup` (reg.go:97-113) after the generators registered their markers. -/
def lookupIn (h : List (Def Loaded)) (text : Str) (t : Collect.Target) : Option (Def Loaded) := (Registry.after h).lookup text (toTarget t)

/-- `Definition.Parse` (parse.go:828-928) for a definition of controller-gen: the Go type of the marker decides how numbers are stored.  (All definitions are found: `history_name`.) -/
def parseWith (E : Env) (d : Def Loaded) (text : Str) : Except PErr (List (Str × Value)) :=
  match Shipped.all.find? fun m => m.name = d.name ∧ m.target = d.target with
  | some m => m.parse E d text
  | none => .error .extra

/-- `PackageMarkers` (zip.go:123-137) of a package whose files were parsed. -/
def markersOf (h : List (Def Loaded)) (E : Env) (σ : Nat → Sched) (τ : Sched) (files : List File) : Option (Option (Values (List (Str × Value)))) :=
  packageValues (lookupIn h) (fun d => String.ofList d.name) (parseWith E) σ τ files

end Verif.Markers.Source

import Verif.Markers.Collect
import Verif.Markers.Package
/-!
# Model of the way from the files of a package to the values of its package-level markers: `/repo/pkg/markers/collect.go` (75-143), `zip.go` (123-137)
-/
namespace Verif.Markers.Source
open Verif Verif.Markers.Collect

/-- `ast.File`: its comments, its node, and what is in it. -/
structure File where
  groups : List Group
  node : Node
  children : List Tree

/-- The calls of `Visit` for the file. -/
def File.events (f : File) : List Event := (Tree.node f.node f.children).events none

variable {Def Val Err : Type} (lookup : Str → Collect.Target → Option Def) (name : Def → String) (parse : Def → Str → Except Err Val)

/-- `associatePkgMarkers` (collect.go:131-143), the `i`-th file first, by file: nodes of different files are different.  `none` is a panic. -/
def associate (σ : Nat → Sched) : Nat → List File → Option (List (List (Node × List MarkerComment)))
  | _, [] => some []
  | i, f :: fs =>
    match associateFile lookup (σ i) f.groups f.node f.children, associate σ (i + 1) fs with
    | some r, some rs => some (r :: rs)
    | _, _ => none

/-- Whether `parseMarkersInPackage` returns an error (collect.go:99-128): some marker of some node does not parse.  The order in which the nodes are visited is the order of the errors only. -/
def faulty (rs : List (List (Node × List MarkerComment))) : Bool :=
  rs.any fun r => r.any fun e => !(parseNode lookup name parse e.1.target e.2 [] []).2.isEmpty

/-- `markers[file]` (zip.go:131): the values of the markers of a file. -/
def fileValues (f : File) (r : List (Node × List MarkerComment)) : Values Val :=
  (parseNode lookup name parse f.node.target ((GoMap.get r f.node).getD []) [] []).1.map fun e => (e.1.toList, e.2)

/-- `PackageMarkers` (zip.go:123-137), with `MarkersInPackage` (collect.go:75-96) without its cache (see C18).  `none` is a panic, `some none` an error. -/
def packageValues (σ : Nat → Sched) (τ : Sched) (files : List File) : Option (Option (Values Val)) :=
  match associate lookup σ 0 files with
  | none => none
  | some rs =>
    if faulty lookup name parse rs then some (packageMarkers τ none)
    else some (packageMarkers τ (some (List.zipWith (fileValues lookup name parse) files rs)))

end Verif.Markers.Source

import Verif.Common.GoMap
import Verif.Common.Sched
import Verif.Markers.Registry
/-!
# Model of the markers of a package: `/repo/pkg/markers/zip.go` (122-137) and `MarkerValues.Get` (`collect.go` 43-52)
-/
namespace Verif.Markers

variable {α : Type}

/-- `MarkerValues` (collect.go:40-41). -/
abbrev Values (α : Type) := List (Str × List α)

/-- `Get` (collect.go:43-49): `none` is nil. -/
def Values.first (v : Values α) (name : Str) : Option α :=
  match GoMap.get v name with
  | none => none
  | some vals => vals.head?

/-- `res[name] = append(res[name], vals...)` (zip.go:132). -/
def addValues (res : Values α) (e : Str × List α) : Values α := GoMap.put res e.1 ((GoMap.get res e.1).getD [] ++ e.2)

/-- The loop over the files (zip.go:129-134), the `i`-th of them first; the inner loop is over a map. -/
def packageLoop (σ : Sched) : Nat → List (Values α) → Values α → Values α
  | _, [], res => res
  | i, file :: files, res => packageLoop σ (i + 1) files ((σ.order i file).foldl addValues res)

/-- `PackageMarkers` (zip.go:123-137): the input are the values of the markers on each file of `pkg.Syntax`, in its order, or the error of `MarkersInPackage`. -/
def packageMarkers (σ : Sched) : Option (List (Values α)) → Option (Values α)
  | none => none
  | some files => some (packageLoop σ 0 files [])

end Verif.Markers

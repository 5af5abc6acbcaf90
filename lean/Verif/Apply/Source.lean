import Verif.Apply.Model
import Verif.Markers.Info
import Verif.Markers.Args
/-!
# applyconfiguration/gen.go: from the files of a package to what the library is asked for
-/
namespace Verif.Apply
open Verif.Markers (Str Values Value Def Loaded Env)
open Verif.Markers.Args
open Verif.Markers.Source (File Syntax associate faulty fileValues lookupIn parseWith typesOf)

/-- The value of a marker, which has the type of its definition (gen.go:43-46). -/
def valOf (name : Str) (vals : List (Str × Value)) : Val :=
  if name = generateName then .bool (boolArg vals "")
  else if name = outputName then .str (stringArg vals "").toList
  else .other

/-- The markers of a file (markers/zip.go:131). -/
def valsOf (v : Values (List (Str × Value))) : Values Val := v.map fun e => (e.1, e.2.map (valOf e.1))

/-- What `EachType` reports (markers/zip.go:222-230). -/
def infoOf (t : Markers.Source.TypeInfo (List (Str × Value))) : TypeInfo := ⟨t.name.toList, valsOf (t.markers.map fun e => (e.1.toList, e.2))⟩

/-- A root (`loader.Package`). -/
structure SourceRoot where
  dir : Str
  pkgPath : Str
  goFiles : List Str
  files : List File
  syn : Syntax
  /-- the order of map iterations: in the collector, and in `PackageMarkers` -/
  σ : Nat → Sched
  τ : Sched

variable (hist : List (Def Loaded)) (E : Env)

/-- `MarkersInPackage` (markers/collect.go:75-96) as `PackageMarkers` and `EachType` use it.  `none` is a panic, `some none` an error. -/
def SourceRoot.markers (r : SourceRoot) : Option (Option (List (Values Val) × List TypeInfo)) :=
  match associate (lookupIn hist) r.σ 0 r.files, typesOf hist E r.syn r.σ r.files with
  | some _, some none => some none
  | some rs, some (some infos) => some (some ((List.zipWith (fileValues (lookupIn hist) (fun d => String.ofList d.name) (parseWith E)) r.files rs).map valsOf, infos.map infoOf))
  | _, _ => none

/-- `generateForPackage` (gen.go:168-236) for the files of the package. -/
def SourceRoot.generate (lib : Library) (header : Str) (r : SourceRoot) : Result :=
  match r.markers hist E with
  | none => .panic
  | some m => generateForPackage r.τ lib header ⟨r.dir, r.pkgPath, r.goFiles, m⟩

/-- `Generate` (gen.go:145-156): the requests in order, and whether it fails; `none` is a panic. -/
def generateSources (lib : Library) (header : Str) : List SourceRoot → Option (List Request × Bool)
  | [] => some ([], false)
  | r :: rs =>
    match r.generate hist E lib header with
    | .panic => none
    | .done q e =>
      match generateSources lib header rs with
      | none => none
      | some (qs, es) => some (q.toList ++ qs, e || es)

end Verif.Apply

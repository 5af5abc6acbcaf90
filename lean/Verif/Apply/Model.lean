import Verif.Markers.Package
import Verif.Genall.Output
/-!
# Model of the generator of apply configurations: `/repo/pkg/applyconfiguration/gen.go` (40-236)

The code of the library k8s.io/code-generator, which writes the files, is a function here; what is modelled is for which types, and where, it is asked to write.
-/
namespace Verif.Apply
open Markers (Str Values)
open Genall (joinPath)

/-- The value of a marker, as an `interface{}`. -/
inductive Val
  | bool (b : Bool)
  | str (s : Str)
  | other
deriving DecidableEq

def generateName : Str := "kubebuilder:ac:generate".toList
def outputName : Str := "kubebuilder:ac:output:package".toList
def resourceName : Str := "kubebuilder:resource".toList

/-- A declared type (`markers.TypeInfo`, markers/zip.go:150-170), as far as it is looked at. -/
structure TypeInfo where
  name : Str
  markers : Values Val

/-- `enabledOnPackage` (gen.go:84-94): the two results; `none` is the panic of a failed type assertion. -/
def enabledOnPackage (v : Option (Values Val)) : Option (Bool × Bool) :=
  match v with
  | none => some (false, true)
  | some v =>
    match v.first generateName with
    | some (.bool b) => some (b, false)
    | some _ => none
    | none => some (false, false)

/-- `isCRD` (gen.go:119-122). -/
def isCRD (t : TypeInfo) : Bool := (t.markers.first resourceName).isSome

/-- `enabledOnType` (gen.go:96-101). -/
def enabledOnType (t : TypeInfo) : Option Bool :=
  match t.markers.first generateName with
  | some (.bool b) => some b
  | some _ => none
  | none => some (isCRD t)

/-- `outputPkg` (gen.go:103-117). -/
def outputPkg (v : Option (Values Val)) : Option Str :=
  match v with
  | none => some "applyconfiguration".toList
  | some v =>
    match v.first outputName with
    | some (.str s) => some s
    | some _ => none
    | none => some "applyconfiguration".toList

/-- The comments of a type (library, gengo `types.Type`): the lines of its documentation and of the group of comments before, without comment markers. -/
structure Comments where
  lines : List Str
  second : List Str
deriving DecidableEq

/-- What the library is asked for: where to write, under which import path, which header file, and the types of the package with their comments. -/
structure Request where
  dir : Str
  pkg : Str
  header : Str
  types : List (Str × Comments)

/-- A root package: its markers on files and types, or an error of `MarkersInPackage`. -/
structure Root where
  dir : Str
  pkgPath : Str
  goFiles : List Str
  markers : Option (List (Values Val) × List TypeInfo)

/-- The library: `LoadPackages` and `NewContext` (gen.go:188-196, `none` is an error) with the package in `Universe` (gen.go:198-201), and whether `ExecuteTargets` succeeds. -/
structure Library where
  load : Str → Option (Option (List (Str × Comments)))
  execute : Request → Bool

/-- The body of the function for `EachType` (gen.go:205-221). -/
def markType (types : List (Str × Comments)) (t : TypeInfo) : Option (List (Str × Comments)) :=
  match enabledOnType t with
  | none => none
  | some false => some types
  | some true =>
    match GoMap.get types t.name with
    | none => some types
    | some c =>
      if "// +genclient".toList ∈ c.lines ++ c.second then some types
      else some (GoMap.put types t.name { c with lines := c.lines ++ ["+genclient".toList] })

/-- `EachType` (gen.go:205-223). -/
def markTypes : List TypeInfo → List (Str × Comments) → Option (List (Str × Comments))
  | [], types => some types
  | t :: ts, types =>
    match markType types t with
    | none => none
    | some types => markTypes ts types

/-- What happens for a package: a panic, or what the library was asked for and whether an error is returned. -/
inductive Result
  | panic
  | done (request : Option Request) (error : Bool)

/-- `generateForPackage` (gen.go:168-236). -/
def generateForPackage (σ : Sched) (lib : Library) (header : Str) (root : Root) : Result :=
  let pkgMarkers := Markers.packageMarkers σ (root.markers.map (·.1))
  match enabledOnPackage pkgMarkers with
  | none => .panic
  | some (false, _) => .done none false
  | some (true, _) =>
    if root.goFiles = [] then .done none false
    else
      match outputPkg pkgMarkers with
      | none => .panic
      | some outpkg =>
        match lib.load root.pkgPath with
        | none => .done none true
        | some none => .done none true
        | some (some types) =>
          match root.markers with
          | none => .done none true
          | some (_, infos) =>
            match markTypes infos types with
            | none => .panic
            | some types =>
              let r : Request := { dir := joinPath root.dir outpkg, pkg := joinPath root.pkgPath outpkg, header := header, types := types }
              .done (some r) (!lib.execute r)

/-- The loop of `Generate` (gen.go:145-156): the requests in order, and whether it fails; `none` is a panic. -/
def generateLoop (σ : Sched) (lib : Library) (header : Str) : List Root → Option (List Request × Bool)
  | [] => some ([], false)
  | root :: roots =>
    match generateForPackage σ lib header root with
    | .panic => none
    | .done r e =>
      match generateLoop σ lib header roots with
      | none => none
      | some (rs, es) => some (r.toList ++ rs, e || es)

/-- `Generate` (gen.go:124-157); without a header file an empty temporary file `temp` is used.  Simplified: making it does not fail. -/
def generate (σ : Sched) (lib : Library) (headerFile temp : Str) (roots : List Root) : Option (List Request × Bool) :=
  generateLoop σ lib (if headerFile = [] then temp else headerFile) roots

end Verif.Apply

import Verif.DeepCopy.Enable
import Verif.Markers.Info
import Verif.Markers.SourceShipped
import Verif.Markers.Args
/-!
# deepcopy/gen.go: from the files of a package to the methods that are generated

Simplified: the header file is left out (gen.go:139-146), and the text of methods (see Model.lean).
-/
namespace Verif.DeepCopy
open Verif.Markers (Value Def Loaded Env Values)
open Verif.Markers.Args
open Verif.Markers.Source (File Syntax TypeInfo markersOf typesOf)
open Verif.Markers.Collect (Node)

/-- The value of a marker of type `RawArguments` (markers/parse.go:560-576). -/
def rawArg (vals : List (List Char × Value)) : String :=
  match GoMap.get vals [] with
  | some (.raw s) => String.ofList s
  | _ => ""

/-- The markers of a package that `enabledOnPackage` looks at (gen.go:96, 100).  The values have the types of the definitions (gen.go:41, 45). -/
def pkgMarkersOf (values : Values (List (List Char × Value))) : PkgMarkers where
  generate := ((GoMap.get values "kubebuilder:object:generate".toList).getD []).map fun v => boolArg v ""
  legacy := ((GoMap.get values "k8s:deepcopy-gen".toList).getD []).map rawArg

/-- The markers of a type that `enabledOnType` and `genObjectInterface` look at (gen.go:111, 114, 123, 128). -/
def typeMarkersOf (markers : List (String × List (List (List Char × Value)))) : TypeMarkers where
  generate := ((GoMap.get markers "kubebuilder:object:generate").getD []).map fun v => boolArg v ""
  legacy := ((GoMap.get markers "k8s:deepcopy-gen").getD []).map rawArg
  root := ((GoMap.get markers "kubebuilder:object:root").getD []).map fun v => boolArg v ""
  interfaces := ((GoMap.get markers "k8s:deepcopy-gen:interfaces").getD []).map fun v => stringArg v ""

/-- A root (`loader.Package`). -/
structure Root where
  path : String
  files : List File
  syn : Syntax
  /-- the order of map iterations: in the collector, in `PackageMarkers` and in `writeMethods` -/
  σ : Nat → Sched
  τ : Sched
  ρ : Sched
  /-- what the type checker knows of the types of the package -/
  prog : Prog
  kind : Node → DeclKind

/-- What comes of a root: whether an error is added to it, and the methods in its file, if there is a file. -/
structure Result where
  error : Bool
  file : Option (List (String × List Method))

/-- What `EachType` reports (markers/zip.go:139-190). -/
def Root.decl (r : Root) (t : TypeInfo (List (List Char × Value))) : Decl := ⟨t.name, r.kind t.spec, typeMarkersOf t.markers⟩

variable (hist : List (Def Loaded)) (E : Env) (exported : String → Bool)

/-- `generateForPackage` (gen.go:199-268).  `none` is a panic. -/
def Root.generate (r : Root) : Option Result :=
  match markersOf hist E r.σ r.τ r.files with
  | none => none
  | some none => some ⟨true, none⟩
  | some (some values) =>
    match typesOf hist E r.syn r.σ r.files with
    | none => none
    | some none => some ⟨true, none⟩
    | some (some infos) => some ⟨false, r.prog.generateFor r.ρ exported (pkgMarkersOf values) (infos.map r.decl)⟩

/-- The loop of `Generate` (gen.go:154-161): the files `zz_generated.deepcopy.go` that are written, by root. -/
def generateAll : List Root → Option (List (String × List (String × List Method)))
  | [] => some []
  | r :: rs =>
    match r.generate hist E exported, generateAll rs with
    | some res, some out =>
      match res.file with
      | none => some out
      | some l => some ((r.path, l) :: out)
    | _, _ => none

end Verif.DeepCopy

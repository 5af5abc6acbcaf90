import Verif.DeepCopy.Model
import Verif.Common.GoMap
import Verif.Common.Sched
import Verif.Common.Sort
/-!
# deepcopy/gen.go: for which types methods are generated

Simplified: marker values have the types of their definitions (gen.go:44-51); the text of methods is left out (see Model.lean).
-/
namespace Verif.DeepCopy

/-- The markers of a package that the generator looks at (gen.go:44, 48): all the values, in order. -/
structure PkgMarkers where
  /-- `kubebuilder:object:generate` -/
  generate : List Bool := []
  /-- `k8s:deepcopy-gen` -/
  legacy : List String := []

/-- The markers of a type that the generator looks at (gen.go:45-46, 49-50). -/
structure TypeMarkers where
  /-- `kubebuilder:object:generate` -/
  generate : List Bool := []
  /-- `k8s:deepcopy-gen` -/
  legacy : List String := []
  /-- `kubebuilder:object:root` -/
  root : List Bool := []
  /-- `k8s:deepcopy-gen:interfaces` -/
  interfaces : List String := []

/-- `enabledOnPackage` (gen.go:91-108).  `Get` yields the first value (markers/collect.go:43-49). -/
def enabledOnPackage (m : PkgMarkers) : Bool :=
  match m.generate with
  | b :: _ => b
  | [] =>
    match m.legacy with
    | s :: _ => s.toList.takeWhile (· ≠ ',') = "package".toList
    | [] => false

/-- `genObjectInterface` (gen.go:122-134). -/
def genObjectInterface (m : TypeMarkers) : Bool :=
  match m.root with
  | b :: _ => b
  | [] => m.interfaces.any (· = "k8s.io/apimachinery/pkg/runtime.Object")

/-- `enabledOnType` (gen.go:110-120). -/
def enabledOnType (allTypes : Bool) (m : TypeMarkers) : Bool :=
  match m.generate with
  | b :: _ => b
  | [] =>
    match m.legacy with
    | s :: _ => s = "true"
    | [] => allTypes || genObjectInterface m

/-- What a declaration declares: a defined type, an alias, or something without a valid type. -/
inductive DeclKind
  | defined
  | alias
  | invalid

/-- A declaration of a type (`markers.TypeInfo`, markers/zip.go:150-170). -/
structure Decl where
  name : String
  kind : DeclKind
  markers : TypeMarkers

variable (P : Prog)

/-- `shouldBeCopied` (traverse.go:615-657); `exported` is `ast.IsExported` (library).  The loop ends after one round: the underlying type is its own underlying type. -/
def Prog.shouldBeCopied (exported : String → Bool) (d : Decl) : Bool :=
  exported d.name &&
    match d.kind with
    | .defined =>
      match P.under d.name with
      -- `lastType` and `typeInfo` are the pointer type
      | .ptr t => P.hasAny (.ptr t)
      | .basic _ => P.hasAny (.named d.name)
      | _ => true
    -- no case for aliases: neither `Named` nor `Struct`
    | .alias => false
    | .invalid => false

/-- The methods. -/
inductive Method
  | deepCopyInto
  | deepCopy
  | deepCopyObject
deriving DecidableEq

/-- `GenerateMethodsFor` (traverse.go:219-279): the methods that are written. -/
def Prog.methodsFor (d : Decl) : List Method :=
  (if P.hasInto (.named d.name) then [] else [.deepCopyInto]) ++
    if (P.hasCopy (.named d.name)).isSome then [] else .deepCopy :: if genObjectInterface d.markers then [.deepCopyObject] else []

/-- The loop over the types (gen.go:219-246): `byType`. -/
def Prog.byType (exported : String → Bool) (allTypes : Bool) : List Decl → List (String × List Method) → List (String × List Method)
  | [], m => m
  | d :: ds, m =>
    if enabledOnType allTypes d.markers && P.shouldBeCopied exported d && !(P.methodsFor d).isEmpty then Prog.byType exported allTypes ds (GoMap.put m d.name (P.methodsFor d))
    else Prog.byType exported allTypes ds m

/-- `generateForPackage` and `writeMethods` (gen.go:199-284): the methods in the file, none if there is no file.  The names are sorted after a loop over a map. -/
def Prog.generateFor (σ : Sched) (exported : String → Bool) (pkg : PkgMarkers) (ds : List Decl) : Option (List (String × List Method)) :=
  let m := P.byType exported (enabledOnPackage pkg) ds []
  if m = [] then none else some ((sortStrings (σ.order 0 (GoMap.keys m))).map fun n => (n, (GoMap.get m n).getD []))

end Verif.DeepCopy

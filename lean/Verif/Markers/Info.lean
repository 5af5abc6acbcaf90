import Verif.Markers.SourceShipped
import Verif.Markers.Each
/-!
# Model of `EachType` with the markers of types and fields: `/repo/pkg/markers/zip.go` (139-235)
-/
namespace Verif.Markers.Source
open Verif Verif.Markers.Collect

/-- What is read off the syntax of types and fields (go/ast). -/
structure Syntax where
  /-- `spec.Name.Name` -/
  typeName : Node → String
  /-- `spec.Type.(*ast.StructType).Fields.List`, if the type is a struct -/
  structFields : Node → Option (List Node)
  /-- `field.Names`; nil for an embedded field -/
  names : Node → List String

/-- `FieldInfo` (zip.go:140-154), without documentation and tag. -/
structure FieldInfo (Val : Type) where
  name : String
  markers : List (String × List Val)
  node : Node

/-- `TypeInfo` (zip.go:157-177), without documentation. -/
structure TypeInfo (Val : Type) where
  name : String
  markers : List (String × List Val)
  fields : List (FieldInfo Val)
  decl : Option Node
  spec : Node

variable {Def Val Err : Type} (lookup : Str → Collect.Target → Option Def) (name : Def → String) (parse : Def → Str → Except Err Val)

/-- `nodeMarkers[n]` after `associatePkgMarkers` (collect.go:131-143): a node is a key of the map of a file at most once, so the order of these maps does not matter. -/
def nodeComments (rs : List (List (Node × List MarkerComment))) (n : Node) : List MarkerComment := rs.flatMap fun r => (GoMap.get r n).getD []

/-- `markers[n]` (collect.go:99-128). -/
def nodeValues (rs : List (List (Node × List MarkerComment))) (n : Node) : List (String × List Val) := (parseNode lookup name parse n.target (nodeComments rs n) [] []).1

/-- The fields of a struct (zip.go:199-220). -/
def fieldInfos (syn : Syntax) (rs : List (List (Node × List MarkerComment))) (fields : List Node) : List (FieldInfo Val) :=
  fields.flatMap fun f =>
    (syn.names f).map (fun s => ⟨s, nodeValues lookup name parse rs f, f⟩) ++
    if (syn.names f).isEmpty then [⟨"", nodeValues lookup name parse rs f, f⟩] else []

/-- The argument of the callback for a type (zip.go:222-230). -/
def typeInfo (syn : Syntax) (rs : List (List (Node × List MarkerComment))) (e : Option Node × Node) : TypeInfo Val where
  name := syn.typeName e.2
  markers := nodeValues lookup name parse rs e.2
  fields := fieldInfos lookup name parse syn rs ((syn.structFields e.2).getD [])
  decl := e.1
  spec := e.2

/-- `EachType` (zip.go:192-234): the arguments of the callback, one after the other.  `none` is a panic, `some none` an error. -/
def eachInfo (syn : Syntax) (σ : Nat → Sched) (files : List File) : Option (Option (List (TypeInfo Val))) :=
  match associate lookup σ 0 files with
  | none => none
  | some rs =>
    if faulty lookup name parse rs then some none
    else some (some ((Each.eachType (files.map fun f => .node f.node f.children)).map (typeInfo lookup name parse syn rs)))

/-- `EachType` (zip.go:192-234) with the markers of controller-gen. -/
def typesOf (hist : List (Markers.Def Loaded)) (E : Env) (syn : Syntax) (σ : Nat → Sched) (files : List File) : Option (Option (List (TypeInfo (List (List Char × Value))))) :=
  eachInfo (lookupIn hist) (fun d => String.ofList d.name) (parseWith E) syn σ files

end Verif.Markers.Source

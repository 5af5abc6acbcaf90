import Verif.Common.GoMap
import Verif.Common.Sched
import Verif.Loader.Check
/-!
# Model of finding the packages that types refer to: `/repo/pkg/loader/refs.go` (50-231), and of the filters of the generators

`Verif.Loader.Check` models how the packages that are found here are type-checked; there, they are `Graph.refs`.
-/
namespace Verif.Loader
abbrev Name := List Char

/-- A syntax tree (library, go/ast), as far as `referenceCollector.Visit` (refs.go:126-146) and the filters tell nodes apart.  Of a field, whether its tag has the key `json`; the names of
fields and the selected name are identifiers, which are never followed, and are left out. -/
inductive Ast
  | ident (name : Name)
  | selector (x : Ast)
  | iface (children : List Ast)
  | field (json : Bool) (children : List Ast)
  /-- any other node, with the children in the order of `ast.Walk` -/
  | other (children : List Ast)

/-- A package that is imported: its number, ID and name. -/
structure Imported where
  pkg : Pkg
  id : Name
  name : Name
deriving DecidableEq

/-- An import of a file (library, go/ast): its name, and its path as `strconv.Unquote` gives it. -/
structure ImportSpec where
  name : Option Name
  path : Option Name
deriving DecidableEq

/-- A declaration of a type (library, go/ast), with its type parameters. -/
structure TypeDecl where
  params : List Ast := []
  type : Ast

/-- A file: its imports, and the types that `EachType` (visit.go:33-68, see `Verif.Markers.Each`) finds in it. -/
structure SourceFile where
  imports : List ImportSpec
  types : List TypeDecl

/-- The errors that are added to the package. -/
inductive RefError
  /-- `strconv.Unquote` failed (refs.go:55-58) -/
  | path
  /-- "no such package located" (refs.go:60-62) -/
  | missing (path : Name)
  /-- "use of unimported package" (refs.go:113-116) -/
  | unimported (name : Name)
deriving DecidableEq

/-- `importsMap` (refs.go:41-46). -/
structure ImportsMap where
  dotImports : List (Name × Imported) := []
  byName : List (Name × Imported) := []

/-- The loop of `mapImports` (refs.go:54-75). -/
def mapImportsFrom (imported : List (Name × Imported)) (m : ImportsMap) : List ImportSpec → Except RefError ImportsMap
  | [] => .ok m
  | i :: is =>
    match i.path with
    | none => .error .path
    | some path =>
      match GoMap.get imported path with
      | none => .error (.missing path)
      | some p =>
        match i.name with
        | none => mapImportsFrom imported { m with byName := GoMap.put m.byName p.name p } is
        | some n =>
          if n = ['.'] then mapImportsFrom imported { m with dotImports := GoMap.put m.dotImports p.id p } is
          else mapImportsFrom imported { m with byName := GoMap.put m.byName n p } is

/-- `mapImports` (refs.go:49-78). -/
def mapImports (f : SourceFile) (imported : List (Name × Imported)) : Except RefError ImportsMap := mapImportsFrom imported {} f.imports

/-- `NodeFilter` (refs.go:95-97). -/
abbrev NodeFilter := Ast → Bool

mutual
/-- `ast.Walk` (library) with `referenceCollector.Visit` (refs.go:100-109, 126-146): the names for which `external` is called, in this order. -/
def collect (keep : NodeFilter) : Ast → List Name
  | .ident _ => []
  | .selector x =>
    if keep (.selector x) then
      match x with
      | .ident n => [n]
      | _ => collect keep x
    else []
  | .iface cs => if keep (.iface cs) then collectList keep cs else []
  | .field j cs => if keep (.field j cs) then collectList keep cs else []
  | .other cs => if keep (.other cs) then collectList keep cs else []

def collectList (keep : NodeFilter) : List Ast → List Name
  | [] => []
  | c :: cs => collect keep c ++ collectList keep cs
end

/-- `externalRefs` of a file is a set; adding to it. -/
def addRef (refs : List Imported) (p : Imported) : List Imported := if p ∈ refs then refs else refs ++ [p]

/-- `external` (refs.go:112-119) for some names: the set and the errors. -/
def externals (m : ImportsMap) : List Name → List Imported × List RefError → List Imported × List RefError
  | [], s => s
  | n :: ns, s =>
    match GoMap.get m.byName n with
    | none => externals m ns (s.1, s.2 ++ [.unimported n])
    | some p => externals m ns (addRef s.1 p, s.2)

/-- The loop over the files and their imports (refs.go:152-164): the imports of all files, or the first error. -/
def importsOf (imported : List (Name × Imported)) : List SourceFile → Except RefError (List (SourceFile × ImportsMap))
  | [] => .ok []
  | f :: fs =>
    match mapImports f imported with
    | .error e => .error e
    | .ok m =>
      match importsOf imported fs with
      | .error e => .error e
      | .ok ms => .ok ((f, m) :: ms)

/-- The references of a file and the errors (refs.go:166-169). -/
def fileRefs (keep : NodeFilter) (f : SourceFile) (m : ImportsMap) : List Imported × List RefError :=
  externals m (f.types.flatMap fun t => collect keep t.type) ([], [])

/-- `allReferencedPackages` (refs.go:149-186): the packages, in the order of an iteration over a map, and the errors that are added to the package. -/
def allReferenced (σ : Sched) (imported : List (Name × Imported)) (keep : NodeFilter) (files : List SourceFile) : List Imported × List RefError :=
  match importsOf imported files with
  | .error e => ([], [e])
  | .ok ms =>
    let all := (σ.order 0 ms).foldl (init := []) fun acc e =>
      let acc := ((σ.order 1 e.2.dotImports).map (·.2)).foldl addRef acc
      (σ.order 2 (fileRefs keep e.1 e.2).1).foldl addRef acc
    (σ.order 3 all, ms.flatMap fun e => (fileRefs keep e.1 e.2).2)

/-- `isNodeInteresting` (refs.go:218-231). -/
def isNodeInteresting (filters : List NodeFilter) : NodeFilter := fun n =>
  if filters.length = 0 then true else filters.any fun f => f n

/-- `filterTypesForCRDs` (crd/gen.go:338-355). -/
def crdFilter : NodeFilter
  | .iface _ => false
  | .field json _ => json
  | _ => true

/-- The filters of the generators of DeepCopy methods (deepcopy/gen.go:61-67) and of apply configurations (applyconfiguration/gen.go:59-65). -/
def objectFilter : NodeFilter
  | .iface _ => false
  | _ => true

end Verif.Loader

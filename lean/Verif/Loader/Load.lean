import Verif.Genall.Output
/-!
# Model of the loading of root packages: `LoadRootsWithConfig` of `/repo/pkg/loader/loader.go` (368-604)

The import graph is adjusted at the end (`visitImports`); that is modelled in `Verif.Loader.Roots`.
-/
namespace Verif.Loader
open Markers (Str)
open Genall (clean joinPath dirOf)

/-- `filepath.Base` (library function, Unix). -/
def baseName (p : Str) : Str :=
  if p = [] then ['.']
  else match (Text.split '/' p).reverse.dropWhile (· = []) with
    | [] => ['/']
    | n :: _ => n

/-- `filepath.IsAbs` (library function, Unix). -/
def isAbs (p : Str) : Bool := p.head? = some '/'

/-- A package as `packages.Load` returns it: its ID, and the address that tells apart two results for the same package. -/
structure RawPkg where
  id : Str
  ptr : Nat
deriving DecidableEq, Repr

/-- What `filepath.WalkDir` visits: the names that lead to it from the directory where the walk begins, and whether it is a directory. -/
structure Entry where
  names : List Str
  isDir : Bool
deriving DecidableEq, Repr

/-- What the loader is given by the system.  `load dir patterns` is `packages.Load` (library function) with `cfg.Dir = dir`, and `walk dir` the entries that `filepath.WalkDir` visits below
`dir`, in its order; `none` is an error. -/
structure System where
  cwd : Str
  load : Str → List Str → Option (List RawPkg)
  walk : Str → Option (List Entry)

/-- The state of a call: the IDs seen so far and the packages found. -/
structure Found where
  ids : List Str := []
  roots : List RawPkg := []
deriving DecidableEq, Repr

/-- The loop of `loadPackages` over the packages (loader.go:418-424). -/
def addPkgs (f : Found) : List RawPkg → Found
  | [] => f
  | p :: ps => if p.id ∈ f.ids then addPkgs f ps else addPkgs { ids := p.id :: f.ids, roots := f.roots ++ [p] } ps

/-- `loadPackages`, and the packages it returns are appended to the roots (loader.go:409-426, 431-435, 462-466, 596-600). -/
def loadPackages (sys : System) (dir : Str) (patterns : List Str) (f : Found) : Option Found :=
  match sys.load dir patterns with
  | none => none
  | some ps => some (addPkgs f ps)

/-- Roots that are paths of the file system (loader.go:447-455): the regular expression is `^\.{1,2}`. -/
def isPathRoot (r : Str) : Bool := isAbs r || r.head? = some '.'

/-- A root as an absolute path (loader.go:521-540). -/
def resolve (sys : System) (cfgDir r : Str) : Str :=
  let r := clean r
  if isAbs r then r
  else if cfgDir ≠ [] then joinPath cfgDir r
  else joinPath sys.cwd r

/-- The path of an entry of a walk: `WalkDir` joins the names. -/
def entryPath (d : Str) (e : Entry) : Str := e.names.foldl joinPath d

/-- The roots for nested modules that a walk adds (loader.go:494-505). -/
def nestedModules (d : Str) (entries : List Entry) : List Str :=
  (entries.filter fun e => !e.isDir && baseName (entryPath d e) = "go.mod".toList).map fun e => joinPath (dirOf (entryPath d e)) "...".toList

/-- The first pass over the roots that are paths (loader.go:518-559): the absolute roots, and the roots for nested modules; the latter are appended to the slice after all of the former, and the loop does not get to them. -/
def firstPass (sys : System) (cfgDir : Str) : List Str → Option (List Str × List Str)
  | [] => some ([], [])
  | r :: rs =>
    let r := resolve sys cfgDir r
    let nested := if baseName r = "...".toList then (sys.walk (dirOf r)).map (nestedModules (dirOf r)) else some []
    match nested, firstPass sys cfgDir rs with
    | some n, some (abs, more) => some (r :: abs, n ++ more)
    | _, _ => none

/-- One iteration of the second pass: the directory and the pattern (loader.go:572-593). -/
def target (r : Str) : Str × Str :=
  if baseName r = "...".toList then (dirOf r, "./...".toList) else (r, "./.".toList)

/-- The second pass (loader.go:571-601). -/
def secondPass (sys : System) : List Str → Found → Option Found
  | [], f => some f
  | r :: rs, f =>
    match loadPackages sys (target r).1 [(target r).2] f with
    | none => none
    | some f => secondPass sys rs f

/-- `LoadRootsWithConfig` (loader.go:368-604): the packages, or an error. -/
def loadRoots (sys : System) (cfgDir : Str) (roots : List Str) : Option (List RawPkg) :=
  if roots = [] then (loadPackages sys cfgDir [] {}).map (·.roots)
  else
    let fspRoots := roots.filter isPathRoot
    let pkgRoots := roots.filter fun r => !isPathRoot r
    let first := if pkgRoots ≠ [] then loadPackages sys cfgDir pkgRoots {} else some {}
    match first with
    | none => none
    | some f =>
      if fspRoots = [] then some f.roots
      else
        match firstPass sys cfgDir fspRoots with
        | none => none
        | some (abs, nested) => (secondPass sys (abs ++ nested) f).map (·.roots)

end Verif.Loader

import Verif.Common.GoMap
import Verif.Common.Sched
/-!
# deepcopy/traverse.go: imports of the generated file

Strings are lists of characters.  Simplified: import paths are valid UTF-8.  `unicode.IsLetter` and `unicode.IsDigit` are arbitrary predicates.
-/
namespace Verif.DeepCopy

abbrev Str := List Char

/-- `unicode.IsLetter`, `unicode.IsDigit` (library). -/
structure Unicode where
  letter : Char → Bool
  digit : Char → Bool

/-- What follows the last `/vendor/`. -/
def afterVendor : Str → Option Str
  | [] => none
  | c :: s =>
    match afterVendor s with
    | some r => some r
    | none => if "/vendor/".toList.isPrefixOf (c :: s) then some ((c :: s).drop 8) else none

/-- The first lines of `NeedImport` (traverse.go:96-98). -/
def nonVendor (p : Str) : Str := (afterVendor p).getD p

/-- `path.Split` (library): the directory, with the slash, and the file. -/
def pathSplit (p : Str) : Str × Str := ((p.reverse.dropWhile (· ≠ '/')).reverse, (p.reverse.takeWhile (· ≠ '/')).reverse)

/-- The variables of the loop of `NeedImport` (traverse.go:107-109). -/
structure Search where
  rest : Str
  word : Str
  alias : Str

/-- The characters of an identifier (traverse.go:123-128). -/
def identChar (U : Unicode) (c : Char) : Char := if U.letter c || U.digit c || c = '_' then c else '_'

/-- The body of the loop of `NeedImport` (traverse.go:110-134). -/
def Search.next (U : Unicode) (s : Search) : Search :=
  let alias := if s.rest = [] then s.alias ++ ['x'] else s.alias
  let word := (s.word.dropWhile U.digit).map (identChar U)
  let (rest, word') := if s.rest = [] then (s.rest, word) else pathSplit s.rest.dropLast
  { rest, word := word', alias := word ++ alias }

/-- `importsList` (traverse.go:84-89), without the package. -/
structure Imports where
  byPath : List (Str × Str) := []
  byAlias : List (Str × Str) := []

/-- The loop of `NeedImport` (traverse.go:109-135), with a bound on its rounds: none if that is not enough. -/
def Imports.search (U : Unicode) (l : Imports) (path : Str) : Nat → Search → Option Str
  | 0, _ => none
  | n + 1, s =>
    match GoMap.get l.byAlias (s.next U).alias with
    | none => some (s.next U).alias
    | some other => if other = path then some (s.next U).alias else Imports.search U l path n (s.next U)

/-- `NeedImport` (traverse.go:93-140), with a bound on the rounds of its loop: the list of imports, and the alias. -/
def Imports.need (U : Unicode) (rounds : Nat) (l : Imports) (importPath : Str) : Option (Imports × Str) :=
  let path := nonVendor importPath
  match GoMap.get l.byPath path with
  | some alias => some (l, alias)
  | none =>
    -- the loop is not entered for an empty path
    (if path = [] then some [] else l.search U path rounds { rest := (pathSplit path).1, word := (pathSplit path).2, alias := [] }).map fun alias =>
      ({ byPath := GoMap.put l.byPath path alias, byAlias := GoMap.put l.byAlias alias path }, alias)

/-- The list of imports in the beginning (gen.go:211-217): the name of the package is reserved. -/
def Imports.start (name : Str) : Imports := { byAlias := [(name, [])] }

/-- `ImportSpecs` (traverse.go:145-158): the aliases that are written, if any, and the paths.  `pkgName` gives the names of the packages that the package imports (`pkg.Imports()`). -/
def Imports.specs (σ : Sched) (pkgName : Str → Option Str) (l : Imports) : List (Option Str × Str) :=
  (σ.order 0 l.byPath).map fun e => (if pkgName e.1 = some e.2 then none else some e.2, e.1)

end Verif.DeepCopy

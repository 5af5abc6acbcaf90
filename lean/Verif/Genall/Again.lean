import Verif.Genall.Artifacts
import Verif.Genall.Main
import Verif.Markers.Doc
import Verif.Common.Text
/-!
# Model of running controller-gen again: the build tag of generated code (`/repo/pkg/deepcopy/gen.go` 175-193), the build flags (`/repo/pkg/loader/loader.go` 375-384, `/repo/cmd/controller-gen/main.go` 177-178, 198), and
which files the go command then passes on

Left out, as in `Artifacts.lean`: errors of the file system, `schemapatch` and `applyconfiguration`.
-/
namespace Verif.Genall
open Markers (Str)
open Markers.Doc (trimSpace)

/-! ## Build constraints (library: go/build) -/

/-- `isGoBuildComment` of go/build (library). -/
def isGoBuild (line : Str) : Bool :=
  "//go:build".toList.isPrefixOf line && (let rest := (trimSpace line).drop 10; rest.isEmpty || (trimSpace rest).length < rest.length)

/-- `bytes.Index(line, "*/")` (library): what follows. -/
def afterClose : Str → Option Str
  | [] => none
  | c :: s => if "*/".toList.isPrefixOf (c :: s) then some (s.drop 1) else afterClose s

/-- The loop over the comments of a line in `parseFileHeader` of go/build (library): whether a comment goes on in the next line; `none` at text that is not a comment.  Each round takes away some of the line, so `n` rounds
are enough for a line shorter than `n`. -/
def skipComments : Nat → Bool → Str → Option Bool
  | 0, star, _ => some star
  | n + 1, star, line =>
    if line = [] then some star
    else if star then
      match afterClose line with
      | some rest => skipComments n false (trimSpace rest)
      | none => some true
    else if "//".toList.isPrefixOf line then some false
    else if "/*".toList.isPrefixOf line then skipComments n true (trimSpace (line.drop 2))
    else none

/-- The build constraint of a file. -/
inductive Constraint
  | absent
  | one (line : Str)
  /-- an error -/
  | several
deriving DecidableEq

/-- The loop over the lines in `parseFileHeader` of go/build (library): the comments before the package clause are searched. -/
def scanHeader : List Str → Bool → Option Str → Constraint
  | [], _, found => match found with | none => .absent | some l => .one l
  | l :: ls, star, found =>
    let line := trimSpace l
    if !star && isGoBuild line then
      match found with
      | some _ => .several
      -- the rest of such a line is a comment
      | none => scanHeader ls false (some line)
    else
      match skipComments (line.length + 1) star line with
      | some star => scanHeader ls star found
      | none => match found with | none => .absent | some l => .one l

def constraint (text : Str) : Constraint := scanHeader (Text.split '\n' text) false none

/-- The go command (library), as far as it chooses files. -/
structure GoCmd where
  /-- names of files that belong to a package, for this system -/
  named : Str → Bool
  /-- evaluation of the expression of a constraint -/
  satisfied : Str → List Str → Bool
  /-- evaluation of `// +build` lines, which count if there is no constraint -/
  legacy : Str → List Str → Bool

/-- Whether a file is passed on.  Simplified: a file with several constraints is not (the go command reports an error as well). -/
def GoCmd.chooses (G : GoCmd) (tags : List Str) (place : List Str) (text : Str) : Bool :=
  G.named (place.getLastD []) &&
    match constraint text with
    | .absent => G.legacy text tags
    | .one line => G.satisfied (trimSpace (line.drop 10)) tags
    | .several => false

/-- The tags of a list of build flags: those of the last flag `-tags` count (library, and the comment at loader.go:379-383). -/
def effectiveTags : List Str → List Str
  | [] => []
  | f :: fs => if fs.any ("-tags=".toList.isPrefixOf ·) then effectiveTags fs else if "-tags=".toList.isPrefixOf f then Text.split ',' (f.drop 6) else effectiveTags fs

/-- The build flags of a run (loader.go:384, main.go:177-178). -/
def buildFlags (tags : List Str) : List Str := "-tags=ignore_autogenerated".toList :: [tagsFlag tags]

/-! ## The text of generated code -/

/-- `writeHeader` and `writeMethods` (gen.go:175-193, 270-284). -/
def rawCode (header pkg : Str) (imports bodies : List Str) : Str :=
  "//go:build !ignore_autogenerated\n\n".toList ++ header ++ "\n\n// Code generated by controller-gen. DO NOT EDIT.\n\npackage ".toList ++ pkg ++ "\n\nimport (\n".toList ++ Text.join '\n' imports ++ "\n)\n\n".toList ++
    bodies.flatten

/-- gen.go:253-266: `format` is `format.Source` (library), `none` is an error. -/
def code (format : Str → Option Str) (header pkg : Str) (imports bodies : List Str) : Str := (format (rawCode header pkg imports bodies)).getD (rawCode header pkg imports bodies)

/-! ## A run -/

/-- A command: `plan` is what the generators make of the Go files that are loaded and of the header files. -/
structure Command where
  cwd : List Str
  tags : List Str
  rules : OutputRules
  headers : List (List Str)
  plan : List (List Str × Str) → List (Option Str) → List Step
  errors : World → Nat → List Loader.PkgErr
  visited : World → List Nat

variable (G : GoCmd)

/-- The Go files that are loaded. -/
def Command.loaded (c : Command) (disk : List (List Str × Str)) : List (List Str × Str) := disk.filter fun e => G.chooses (effectiveTags (buildFlags c.tags)) e.1 e.2

/-- What is to be written. -/
def Command.steps (c : Command) (disk : List (List Str × Str)) : List Step := c.plan (c.loaded G disk) (c.headers.map (GoMap.get disk))

/-- The disk after the run (genall.go:252-284). -/
def Command.run (c : Command) (disk : List (List Str × Str)) : List (List Str × Str) :=
  (Genall.run c.rules c.errors c.visited ((c.steps G disk).map (Step.gen c.cwd)) { disk := disk }).1.disk

end Verif.Genall

import Verif.Genall.Options
/-!
# Model of where artifacts are written: `/repo/pkg/genall/output.go`, and the functions of the library `path/filepath` (Unix) it uses
-/
namespace Verif.Genall
open Markers (Str)

/-- One step of `filepath.Clean` (library function): `st` are the names so far, the last one first. -/
def cleanStep (rooted : Bool) (st : List Str) (seg : Str) : List Str :=
  if seg = [] ∨ seg = ['.'] then st
  else if seg = ['.', '.'] then
    match st with
    | [] => if rooted then [] else [seg]
    | t :: rest => if t = ['.', '.'] then seg :: st else rest
  else seg :: st

/-- `filepath.Clean` (library function). -/
def clean (p : Str) : Str :=
  let rooted := p.head? == some '/'
  let names := ((Text.split '/' p).foldl (cleanStep rooted) []).reverse
  if rooted then '/' :: Text.join '/' names
  else if names = [] then ['.'] else Text.join '/' names

/-- `filepath.Join` of two elements (library function). -/
def joinPath (a b : Str) : Str :=
  if a ≠ [] then clean (a ++ '/' :: b)
  else if b ≠ [] then clean b
  else []

/-- The text up to the last slash, with the slash. -/
def uptoSlash (p : Str) : Str :=
  match (Text.split '/' p).dropLast with
  | [] => []
  | l => Text.join '/' l ++ ['/']

/-- `filepath.Dir` (library function). -/
def dirOf (p : Str) : Str := clean (uptoSlash p)

/-- Where an artifact goes. -/
inductive Dest
  | discard
  | stdout
  | file (path : Str)
deriving DecidableEq, Repr

/-- `Open` of the output rules (output.go:93-95, 103-110, 124-126, 144-165): where the artifact goes, and the directory that is made if it is missing; `none` is the error for a package without files.  `pkg` are the
`CompiledGoFiles` of the package, for an artifact that belongs to one.  Simplified: errors of the file system are those of `FileSystem` below. -/
def openRule (rule : Rule) (pkg : Option (List Str)) (itemPath : Str) : Option (Dest × Option Str) :=
  match rule with
  | .nothing => some (.discard, none)
  | .stdout => some (.stdout, none)
  | .dir d => some (.file (joinPath d itemPath), some (dirOf (joinPath d itemPath)))
  | .artifacts config code =>
    match pkg with
    | none => some (.file (joinPath config itemPath), some (dirOf (joinPath config itemPath)))
    | some files =>
      if code ≠ [] then some (.file (joinPath code itemPath), some (dirOf (joinPath code itemPath)))
      else match files with
        | [] => none
        | f :: _ => some (.file (joinPath (dirOf f) itemPath), some (dirOf f))

end Verif.Genall

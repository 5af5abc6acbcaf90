import Verif.Genall.Again
/-!
# Model of a run that is interrupted: what `Open` and `Write` of `/repo/pkg/genall/output.go` do to the disk, one after the other
-/
namespace Verif.Genall
open Markers (Str)
open Spec

/-- What is done to the disk. -/
inductive Op
  /-- `os.Create` (output.go:109, 164): the file is there, and empty -/
  | create (place : List Str)
  /-- some of a `Write` (genall.go:151, 161; deepcopy/gen.go:294) -/
  | append (place : List Str) (s : Str)
deriving DecidableEq

def Op.apply (disk : List (List Str × Str)) : Op → List (List Str × Str)
  | .create p => GoMap.put disk p []
  | .append p s => GoMap.put disk p ((GoMap.get disk p).getD [] ++ s)

/-- One artifact (output.go:93-95, 103-110, 124-126, 144-165).  `pieces` says how its text is divided, by the calls of `Write` (a header and one for each object; for code only one) and by the system.  `none` is an error. -/
def Artifact.ops (cwd : List Str) (rule : Rule) (pieces : Artifact → List Str) (a : Artifact) : Option (List Op) :=
  match openRule rule a.pkg a.item with
  | none => none
  | some (.discard, _) => some []
  | some (.stdout, _) => some []
  | some (.file path, _) => some (.create (locate cwd path) :: (pieces a).map (.append (locate cwd path)))

/-- The artifacts of a generator; see `writeAll`. -/
def opsAll (cwd : List Str) (rule : Rule) (goOn : Bool) (pieces : Artifact → List Str) : List Artifact → List Op
  | [] => []
  | a :: as =>
    match a.ops cwd rule pieces with
    | some l => l ++ opsAll cwd rule goOn pieces as
    | none => if goOn then opsAll cwd rule goOn pieces as else []

/-- The loop of `Run` (genall.go:266-280). -/
def opsLoop (cwd : List Str) (rules : OutputRules) (pieces : Artifact → List Str) : Nat → List Step → List Op
  | _, [] => []
  | i, s :: ss => (match rules.forGenerator i with | none => [] | some r => opsAll cwd r (s.tool == .object) pieces s.artifacts) ++ opsLoop cwd rules pieces (i + 1) ss

/-- All of a run. -/
def Command.ops (G : GoCmd) (c : Command) (pieces : Artifact → List Str) (disk : List (List Str × Str)) : List Op := opsLoop c.cwd c.rules pieces 0 (c.steps G disk)

/-- The disk, if the run is interrupted after `n` of them. -/
def Command.interrupted (G : GoCmd) (c : Command) (pieces : Artifact → List Str) (n : Nat) (disk : List (List Str × Str)) : List (List Str × Str) := ((c.ops G pieces disk).take n).foldl Op.apply disk

end Verif.Genall

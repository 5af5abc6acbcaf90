import Verif.Genall.Crash
import Verif.Genall.ArtifactsSpec
/-!
# Specification for C92: histories of edits and runs
-/
namespace Verif.Genall.Spec
open Markers (Str)
open Markers.Doc (trimSpace)

abbrev Disk := List (List Str × Str)

/-- The go command as documented: packages consist of files whose names end with `.go`, and `!ignore_autogenerated` is true unless the tag is given. -/
structure GoCmd.Documented (G : GoCmd) : Prop where
  go : ∀ n, G.named n = true → ".go".toList <:+ n
  ignore : ∀ tags, G.satisfied "!ignore_autogenerated".toList tags = true ↔ "ignore_autogenerated".toList ∉ tags

/-- gofmt keeps the build constraint of a file. -/
def KeepsConstraint (format : Str → Option Str) : Prop := ∀ s s' line, format s = some s' → constraint s = .one line → constraint s' = .one line

/-- No line is a build constraint. -/
def NoConstraint (s : Str) : Prop := ∀ l ∈ Text.split '\n' s, ¬ "//go:build".toList <+: trimSpace l

/-- The conditions of C92 on a run of a command: it has the tag `ignore_autogenerated` (as it does without `--load-build-tags`), what its generators write is as in C91, the file of roles is not a Go file, and neither the header
nor the code have a build constraint of their own. -/
structure Command.Good (G : GoCmd) (c : Command) (disk : Disk) : Prop where
  tags : "ignore_autogenerated".toList ∈ c.tags
  rules : ∀ i, c.rules.forGenerator i ≠ none
  made : ∀ s ∈ c.steps G disk, Made s.tool s.artifacts
  roles : ∀ s ∈ c.steps G disk, s.tool = .rbac → ∀ a ∈ s.artifacts, ¬ ".go".toList <:+ a.item
  code : ∃ format, KeepsConstraint format ∧ ∀ s ∈ c.steps G disk, s.tool = .object → ∀ a ∈ s.artifacts,
    ∃ header pkg imports bodies, a.text = Genall.code format header pkg imports bodies ∧ NoConstraint header ∧ '\n' ∉ pkg ∧ (∀ i ∈ imports, NoConstraint i) ∧ NoConstraint bodies.flatten

/-- A run of the command does not write to a file that it reads: to Go files that are loaded, or to headers. -/
def Command.Keeps (G : GoCmd) (c : Command) (disk : Disk) : Prop :=
  ∀ place text, Written c.cwd c.rules (c.steps G disk) place text → place ∉ c.headers ∧ ∀ text', GoMap.get disk place = some text' → (place, text') ∉ c.loaded G disk

/-- The ways to divide the texts of artifacts. -/
def Divides (pieces : Artifact → List Str) : Prop := ∀ a, (pieces a).flatten = a.text

/-- The code that is written begins with its build constraint, and no other line is one (as `writeHeader` makes it, and gofmt leaves it). -/
def Command.Begins (G : GoCmd) (c : Command) (disk : Disk) : Prop :=
  ∀ s ∈ c.steps G disk, s.tool = .object → ∀ a ∈ s.artifacts, ∃ rest, a.text = "//go:build !ignore_autogenerated\n".toList ++ rest ∧ NoConstraint rest

/-- Histories: the files that runs have written, and the disk.  Between runs, files are added, changed and deleted, but files that runs have written are at most deleted.  Runs may be interrupted at any time, except that no Go file
is left whose build constraint is not there yet. -/
inductive History (G : GoCmd) : List (List Str) → Disk → Prop
  | start {disk} : GoMap.WF disk → History G [] disk
  | edit {past disk disk'} : History G past disk → GoMap.WF disk' → (∀ place ∈ past, GoMap.get disk' place = GoMap.get disk place ∨ GoMap.get disk' place = none) → History G past disk'
  | run {past past' disk} (c : Command) : History G past disk → Command.Good G c disk → Command.Keeps G c disk → (∀ place, place ∈ past' ↔ place ∈ past ∨ ∃ text, Written c.cwd c.rules (c.steps G disk) place text) →
      History G past' (c.run G disk)
  | crash {past past' disk} (c : Command) (pieces : Artifact → List Str) (n : Nat) : History G past disk → Command.Good G c disk → Command.Keeps G c disk → Divides pieces →
      (∀ place text, GoMap.get (c.interrupted G pieces n disk) place = some text → GoMap.get disk place ≠ some text → ".go".toList <:+ place.getLastD [] →
        constraint text = .one "//go:build !ignore_autogenerated".toList) →
      (∀ place, place ∈ past' ↔ place ∈ past ∨ GoMap.get (c.interrupted G pieces n disk) place ≠ GoMap.get disk place) → History G past' (c.interrupted G pieces n disk)

/-- A clean checkout: the disk without the files that runs have written. -/
def checkout (past : List (List Str)) (disk : Disk) : Disk := disk.filter fun e => decide (e.1 ∉ past)

end Verif.Genall.Spec

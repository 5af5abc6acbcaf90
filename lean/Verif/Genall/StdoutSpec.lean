import Verif.Common.All2
import Verif.Genall.Artifacts
import Verif.Genall.WriteYamlSpec
/-!
# Specification for C94: what is printed with `output:stdout`, and how it is read
-/
namespace Verif.Genall.Spec
open Markers (Str)

/-- The artifacts that are printed, in order: all those of the generators whose rule says so (`i` is the number of the first). -/
def printedFrom (rules : OutputRules) : Nat → List Step → List Artifact
  | _, [] => []
  | i, s :: ss => (if rules.forGenerator i = some .stdout then s.artifacts else []) ++ printedFrom rules (i + 1) ss

def printed (rules : OutputRules) (steps : List Step) : List Artifact := printedFrom rules 0 steps

/-- The text of a manifest (C37): a header of comments, the last line of which is complete, and documents as the YAML library writes them. -/
def Manifest (t : Str) : Prop :=
  ∃ header docs, t = fileText header docs ∧ HeaderText header ∧ (header = [] ∨ ∃ h, header = h ++ ['\n']) ∧ ∀ d ∈ docs, DocText d

/-- A document has the lines of another, and apart from them only comments, at its end. -/
def SameDocument (x d : List Str) : Prop := ∃ comments, x = d ++ comments ∧ ∀ l ∈ comments, IsComment l

end Verif.Genall.Spec

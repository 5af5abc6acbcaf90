import Verif.Markers.SourceTheorems
import Verif.Markers.ParseSpec
/-!
# Markers of a package in its files: specification
-/
namespace Verif.Markers.Source
open Verif Verif.Markers.Collect Verif.Markers.Doc Verif.Markers.Spec

/-- The comment is at a place where a marker of the package is looked for: not at the end of a line, inside of a declaration, or in the documentation of a function or of a group of
declarations (`NoPlace`); not in the documentation of a type or of a field; and not directly above a field: the closest
comment above it that is not documentation, after all that is before it. -/
def Placed (f : File) (c : Comment) : Prop :=
  ∀ g ∈ f.groups, c ∈ g.comments → ¬ NoPlace f.events g.pos ∧
    ∀ a n k, Carries f.events a n k → k.doc ≠ some g.pos ∧ (n.kind = .field → ¬ (Closest f.groups k g ∧ ¬ Passed a g.pos))

/-- The comment reads `+name:` and then the arguments `vals`, for a definition with the arguments `d`: every argument at most once, and all that are required. -/
def Reads (E : Env) (name : Str) (d : Definition) (c : Comment) (vals : List (Str × Value)) : Prop :=
  ∃ y, textOf c = '+' :: (name ++ ':' :: y) ∧ ShowsArgs E d vals y ∧ (vals.map (·.1)).Nodup ∧ ∀ f ∈ d.fields, f.optional = false → f.name ∈ vals.map (·.1)

end Verif.Markers.Source

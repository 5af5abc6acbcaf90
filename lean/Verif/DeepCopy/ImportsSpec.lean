import Verif.DeepCopy.Imports
/-!
# What the imports of a generated file should be
-/
namespace Verif.DeepCopy

/-- Requests for imports, one after the other, and the aliases that are given, for some bounds on loops. -/
inductive Requests (U : Unicode) : Imports → List (Str × Str) → Imports → Prop
  | nil (l : Imports) : Requests U l [] l
  | cons {l l' l'' : Imports} {p a : Str} {rs : List (Str × Str)} (rounds : Nat) : l.need U rounds p = some (l', a) → Requests U l' rs l'' → Requests U l ((p, a) :: rs) l''

/-- The path by which a package is imported: what follows the last `/vendor/`, if there is one. -/
inductive Imported : Str → Str → Prop
  | vendored (pre p : Str) : (∀ pre' p', pre' ++ "/vendor/".toList ++ p' = pre ++ "/vendor/".toList ++ p → pre'.length ≤ pre.length) → Imported (pre ++ "/vendor/".toList ++ p) p
  | plain (p : Str) : (¬ ∃ pre p', p = pre ++ "/vendor/".toList ++ p') → Imported p p

/-- A specification in a list of imports declares a name: the alias, or the name of the package. -/
def Declares (pkgName : Str → Option Str) (spec : Option Str × Str) (name : Str) : Prop := spec.1 = some name ∨ spec.1 = none ∧ pkgName spec.2 = some name

end Verif.DeepCopy

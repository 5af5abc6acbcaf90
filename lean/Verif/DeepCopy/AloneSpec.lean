import Verif.DeepCopy.SourceSpec
/-!
# Specification for C100: the deepcopy code of a package in two runs
-/
namespace Verif.DeepCopy.Spec
open Verif.DeepCopy

/-- The same package in two runs: all is equal but the orders of maps (`σ`, `τ` and `ρ`). -/
structure SamePackage (r r' : Root) : Prop where
  path : r.path = r'.path
  files : r.files = r'.files
  syn : r.syn = r'.syn
  prog : r.prog = r'.prog
  kind : r.kind = r'.kind

end Verif.DeepCopy.Spec

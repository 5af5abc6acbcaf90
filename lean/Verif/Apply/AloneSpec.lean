import Verif.Apply.SourceSpec
/-!
# Specification for C101: the apply configurations of a package in two runs
-/
namespace Verif.Apply.Spec
open Verif.Apply
open Verif.Markers (Env)
open Verif.Markers.Source (File)

/-- The same package in two runs: all is equal but the orders of maps (`σ` and `τ`). -/
structure SamePackage (r r' : SourceRoot) : Prop where
  dir : r.dir = r'.dir
  pkgPath : r.pkgPath = r'.pkgPath
  goFiles : r.goFiles = r'.goFiles
  files : r.files = r'.files
  syn : r.syn = r'.syn

/-- The comments of a package do not contradict each other about where to write. -/
def OneOutput (E : Env) (files : List File) : Prop := NoOutput files ∨ ∃ s, OutputSet E files s

end Verif.Apply.Spec

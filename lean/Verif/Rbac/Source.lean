import Verif.Rbac.Model
import Verif.Markers.SourceShipped
/-!
# Model of `GenerateRoles` from the files of the packages on: `/repo/pkg/rbac/parser.go` (184-222)
-/
namespace Verif.Rbac
open Verif.Markers Verif.Markers.Source

/-- A list of strings as the parser stores it (parse.go:644-682): the slice of an argument, nil if it is not given. -/
def stringsOf (vals : List (Str × Value)) (n : String) : List String :=
  match GoMap.get vals n.toList with
  | some (.slice l) => l.filterMap fun v => match v with
    | .str s => some (String.ofList s)
    | _ => none
  | _ => []

/-- A string, empty if it is not given. -/
def stringOf (vals : List (Str × Value)) (n : String) : String :=
  match GoMap.get vals n.toList with
  | some (.str s) => String.ofList s
  | _ => ""

/-- The `Rule` (parser.go:45-63) that the values of the arguments of a marker are stored in (markers/parse.go:842-905). -/
def ruleOf (vals : List (Str × Value)) : Rule where
  groups := stringsOf vals "groups"
  resources := stringsOf vals "resources"
  resourceNames := stringsOf vals "resourceNames"
  verbs := stringsOf vals "verbs"
  urls := stringsOf vals "urls"
  ns := stringOf vals "namespace"

/-- The rules of one root package (parser.go:187-193), and whether an error was recorded for it (189-191); `none` is a panic.  After an error `markerSet` is nil. -/
def rootRules (h : List (Def Loaded)) (E : Env) (σ : Nat → Sched) (τ : Sched) (files : List File) : Option (List Rule × Bool) :=
  match markersOf h E σ τ files with
  | none => none
  | some none => some ([], true)
  | some (some res) => some (((GoMap.get res "kubebuilder:rbac".toList).getD []).map ruleOf, false)

/-- The loop over the root packages (parser.go:186-222), the `i`-th one first. -/
def allRules (h : List (Def Loaded)) (E : Env) (σ : Nat → Nat → Sched) (τ : Nat → Sched) : Nat → List (List File) → Option (List (List Rule × Bool))
  | _, [] => some []
  | i, p :: ps =>
    match rootRules h E (σ i) (τ i) p, allRules h E σ τ (i + 1) ps with
    | some r, some rs => some (r :: rs)
    | _, _ => none

/-- `GenerateRoles` (parser.go:184-367): the objects, and for each root package whether an error was recorded for it. -/
def rolesFrom (h : List (Def Loaded)) (E : Env) (σ : Nat → Nat → Sched) (τ : Nat → Sched) (σ' : String → Sched) (τ' : Sched) (roleName : String) (roots : List (List File)) : Option (List RoleObj × List Bool) :=
  (allRules h E σ τ 0 roots).map fun rs => (generateRoles σ' τ' roleName (rs.flatMap (·.1)), rs.map (·.2))

end Verif.Rbac

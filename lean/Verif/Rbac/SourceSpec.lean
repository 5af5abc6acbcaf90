import Verif.Rbac.Spec
import Verif.Markers.SourceSpec
/-!
# What RBAC markers in source files ask for: specification
-/
namespace Verif.Rbac.Spec
open Verif.Markers Verif.Markers.Source Verif.Markers.Spec Verif.Markers.Collect

/-- The arguments of `+kubebuilder:rbac`: five lists of strings and a namespace; only `verbs` is required. -/
def arguments : Definition where
  fields := [⟨"groups".toList, .slice .str, true⟩, ⟨"resources".toList, .slice .str, true⟩, ⟨"resourceNames".toList, .slice .str, true⟩, ⟨"verbs".toList, .slice .str, false⟩,
    ⟨"urls".toList, .slice .str, true⟩, ⟨"namespace".toList, .str, true⟩]
  strict := true

/-- The argument `n` is the list `l`; an argument that is not given is the empty list. -/
def IsList (vals : List (Str × Value)) (n : String) (l : List String) : Prop :=
  (n.toList, Value.slice (l.map fun s => .str s.toList)) ∈ vals ∨ (n.toList ∉ vals.map (·.1) ∧ l = [])

/-- The comment asks for the rule `m`: it reads `+kubebuilder:rbac:groups=…,resources=…,…` with the lists of `m`. -/
def Asks (E : Env) (c : Comment) (m : Rule) : Prop :=
  ∃ vals, Reads E "kubebuilder:rbac".toList arguments c vals ∧
    IsList vals "groups" m.groups ∧ IsList vals "resources" m.resources ∧ IsList vals "resourceNames" m.resourceNames ∧ IsList vals "verbs" m.verbs ∧ IsList vals "urls" m.urls ∧
    (("namespace".toList, Value.str m.ns.toList) ∈ vals ∨ ("namespace".toList ∉ vals.map (·.1) ∧ m.ns = ""))

/-- Some comment in the files of the packages asks for `m`. -/
def AskedFor (E : Env) (roots : List (List File)) (m : Rule) : Prop := ∃ files ∈ roots, ∃ f ∈ files, ∃ c, f.Marks c ∧ Asks E c m

/-- All comments with the marker are written as they should be. -/
def WellWritten (E : Env) (roots : List (List File)) : Prop :=
  ∀ files ∈ roots, ∀ f ∈ files, ∀ c, f.Marks c → "+kubebuilder:rbac".toList <+: textOf c → ∃ m, Asks E c m

end Verif.Rbac.Spec

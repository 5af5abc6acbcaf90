import Verif.Apply.Model
/-!
# Specification for C70: for which types apply configurations are generated
-/
namespace Verif.Apply.Spec
open Markers (Str Values)

/-- The first value of the marker on the type or file. -/
def Says (m : Values Val) (name : String) (v : Val) : Prop := ∃ vs, (name.toList, v :: vs) ∈ m

/-- The first value of the marker in the package: that of the first file that carries it. -/
def PkgSays (files : List (Values Val)) (name : String) (v : Val) : Prop :=
  ∃ before f after, files = before ++ f :: after ∧ Says f name v ∧ ∀ f' ∈ before, ∀ v', ¬ Says f' name v'

/-- `+kubebuilder:ac:generate` decides; otherwise types with `+kubebuilder:resource` are generated. -/
def TypeEnabled (t : TypeInfo) : Prop :=
  Says t.markers "kubebuilder:ac:generate" (.bool true) ∨ (∀ v, ¬ Says t.markers "kubebuilder:ac:generate" v) ∧ ∃ v, Says t.markers "kubebuilder:resource" v

/-- The library generates an apply configuration for the types with the tag `+genclient`. -/
def Tagged (c : Comments) : Prop := "+genclient".toList ∈ c.lines ++ c.second

/-- The library is asked to generate for the type. -/
def Requested (r : Request) (name : Str) : Prop := ∃ c, (name, c) ∈ r.types ∧ Tagged c

/-- Maps have each key once, and values are those that the definitions of the markers give. -/
structure Values.OK (m : Values Val) : Prop where
  wf : GoMap.WF m
  generate : ∀ v, Says m "kubebuilder:ac:generate" v → ∃ b, v = .bool b
  output : ∀ v, Says m "kubebuilder:ac:output:package" v → ∃ s, v = .str s

structure Root.OK (root : Root) : Prop where
  files : ∀ fs ts, root.markers = some (fs, ts) → ∀ f ∈ fs, Values.OK f
  types : ∀ fs ts, root.markers = some (fs, ts) → ∀ t ∈ ts, Values.OK t.markers

end Verif.Apply.Spec

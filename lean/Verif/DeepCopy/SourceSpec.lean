import Verif.DeepCopy.EnableSpec
import Verif.DeepCopy.Source
import Verif.Markers.CommentSpec
/-!
# What the comments in the source say about deepcopy methods: specification

https://book.kubebuilder.io/reference/markers/object.html
-/
namespace Verif.DeepCopy.Spec
open Verif.DeepCopy
open Verif.Markers (Env)
open Verif.Markers.Collect (Node)
open Verif.Markers.Source (File TypeValues PkgValues SetsTo IsRaw IsString Declared)

/-- The markers of a type are those of the comments on it. -/
structure TypeSays (E : Env) (f : File) (n : Node) (m : TypeMarkers) : Prop where
  generate : TypeValues f n "kubebuilder:object:generate" (SetsTo E "kubebuilder:object:generate") m.generate
  legacy : TypeValues f n "k8s:deepcopy-gen" (IsRaw "k8s:deepcopy-gen") m.legacy
  root : TypeValues f n "kubebuilder:object:root" (SetsTo E "kubebuilder:object:root") m.root
  interfaces : TypeValues f n "k8s:deepcopy-gen:interfaces" (IsString E "k8s:deepcopy-gen:interfaces") m.interfaces

/-- The markers of a package are those of the comments in its files. -/
structure PkgSays (E : Env) (files : List File) (m : PkgMarkers) : Prop where
  generate : PkgValues files "kubebuilder:object:generate" (SetsTo E "kubebuilder:object:generate") m.generate
  legacy : PkgValues files "k8s:deepcopy-gen" (IsRaw "k8s:deepcopy-gen") m.legacy

/-- Exported types have different names, as Go requires. -/
def Distinct (exported : String → Bool) (r : Root) : Prop :=
  (((r.files.flatMap fun f => Markers.Each.declared (.node f.node f.children)).map fun e => r.syn.typeName e.2).filter exported).Nodup

/-- No exported pointer type has a method, nor what it refers to (see `C45_violated_pointer`). -/
def NoPointerMethods (exported : String → Bool) (r : Root) : Prop :=
  ∀ f ∈ r.files, ∀ n, Declared f n → exported (r.syn.typeName n) = true → ∀ t, r.prog.under (r.syn.typeName n) = .ptr t →
    ¬ OwnMethod r.prog (r.syn.typeName n) ∧ ∀ m, t = .named m ∨ (∃ a, t = .alias a ∧ r.prog.target a = .named m) → ¬ OwnMethod r.prog m

end Verif.DeepCopy.Spec

import Verif.Apply.Spec
import Verif.Apply.Source
import Verif.Markers.CommentSpec
/-!
# What the comments in the source say about apply configurations: specification

https://book.kubebuilder.io/reference/markers (`+kubebuilder:ac:generate`, `+kubebuilder:ac:output:package`, `+kubebuilder:resource`)
-/
namespace Verif.Apply.Spec
open Verif.Markers (Str Env Definition)
open Verif.Markers.Collect (Comment Node)
open Verif.Markers.Source (File TypeValues PkgValues PkgOnlyValues SetsTo IsString Begins Written)

/-- The arguments of `+kubebuilder:resource`. -/
def resourceArgs : Definition where
  fields := [⟨"path".toList, .str, true⟩, ⟨"shortName".toList, .slice .str, true⟩, ⟨"categories".toList, .slice .str, true⟩, ⟨"singular".toList, .str, true⟩, ⟨"scope".toList, .str, true⟩]
  strict := true

/-- `+kubebuilder:resource`, possibly with arguments. -/
def IsResource (E : Env) (c : Comment) : Prop := ∃ vals, Written E "kubebuilder:resource".toList resourceArgs c vals

/-- What the comments on a type say: the values of `+kubebuilder:ac:generate`, and how many are `+kubebuilder:resource`. -/
structure TypeSays (E : Env) (f : File) (n : Node) (generate : List Bool) (resource : List Unit) : Prop where
  generate : TypeValues f n "kubebuilder:ac:generate" (SetsTo E "kubebuilder:ac:generate") generate
  resource : TypeValues f n "kubebuilder:resource" (fun c _ => IsResource E c) resource

/-- What the comments of the package say: the values of `+kubebuilder:ac:generate` and `+kubebuilder:ac:output:package`. -/
structure SourceSays (E : Env) (files : List File) (generate : List Bool) (output : List String) : Prop where
  generate : PkgValues files "kubebuilder:ac:generate" (SetsTo E "kubebuilder:ac:generate") generate
  output : PkgOnlyValues files "kubebuilder:ac:output:package" (IsString E "kubebuilder:ac:output:package") output

/-- The type is enabled: by its first `+kubebuilder:ac:generate`, or without one by `+kubebuilder:resource`. -/
def Enabled (generate : List Bool) (resource : List Unit) : Prop := (∃ rest, generate = true :: rest) ∨ generate = [] ∧ resource ≠ []

/-- The only value of `+kubebuilder:ac:output:package` in the files is `s`. -/
def OutputSet (E : Env) (files : List File) (s : String) : Prop :=
  (∃ f ∈ files, ∃ c, f.Marks c ∧ Markers.Source.Placed f c ∧ IsString E "kubebuilder:ac:output:package" c s) ∧
    ∀ f ∈ files, ∀ c, f.Marks c → Begins "kubebuilder:ac:output:package" c → IsString E "kubebuilder:ac:output:package" c s

/-- No comment begins with `+kubebuilder:ac:output:package`. -/
def NoOutput (files : List File) : Prop := ∀ f ∈ files, ∀ c, f.Marks c → ¬ Begins "kubebuilder:ac:output:package" c

end Verif.Apply.Spec

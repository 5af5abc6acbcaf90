import Verif.Apply.AloneTheorems
import Verif.Apply.SourceExamples
/-!
# C101: examples and violations
-/
namespace Verif.Apply.AloneCase
open Verif Verif.Apply Verif.Apply.Spec
open Verif.Markers (exEnv)
open Verif.Markers.Source
open Verif.Markers.Collect (Comment)
open Verif.Markers.Collect.Examples (c other fileWF)
open Verif.Apply.SourceExamples (root lib yes foo declFoo bar declBar parsed syn_ok output_set asked asked_root)

/-! ## The package of C88, with other orders of maps -/

def again : SourceRoot := { root with σ := fun _ => .fifo, τ := .fifo }

theorem same : SamePackage root again := ⟨rfl, rfl, rfl, rfl, rfl⟩

/-- The hypotheses of `C101_package_partial` hold, and the library is asked for `Foo`. -/
example : asked again = some (false, ["api/ac", "example.com/api/ac", "Foo"]) := by
  have h := asked_root
  unfold asked at h ⊢
  obtain ⟨hist, h1, h2⟩ := Option.bind_eq_some_iff.1 h
  rw [h1, Option.bind_some]
  rw [C101_package_partial (by simp) h1 parsed syn_ok (.inr ⟨_, output_set _⟩) same] at h2
  exact h2

/-! ## Comments that name two packages

    // +kubebuilder:ac:generate=true
    package v1

    // +kubebuilder:ac:output:package=one

    // +kubebuilder:resource
    type Foo struct{}

    // +kubebuilder:ac:output:package=two

    type Bar struct{}
-/

def one : Comment := c 60 "// +kubebuilder:ac:output:package=one"
def two : Comment := c 200 "// +kubebuilder:ac:output:package=two"

def file : File where
  groups := [⟨0, [c 0 yes]⟩, ⟨60, [one]⟩, ⟨110, [c 110 "// +kubebuilder:resource"]⟩, ⟨200, [two]⟩]
  node := { id := 0, kind := .file, pos := 40, «end» := 260, doc := some 0 }
  children := [.node (other 8 48 50) [], .node { declFoo with doc := some 110 } [.node (other 9 110 134) [], .node foo []], .node { declBar with doc := none } [.node bar []]]

theorem file_wf : file.WF :=
  fileWF (by decide +kernel) (by decide +kernel) (by decide +kernel) (by decide +kernel) (by decide +kernel) (by decide +kernel) rfl (by decide +kernel)

def twice (s : Sched) : SourceRoot := { root with files := [file], σ := fun _ => s }

theorem twice_same (s s' : Sched) : SamePackage (twice s) (twice s') := ⟨rfl, rfl, rfl, rfl, rfl⟩

theorem typed : Markers.Each.Typed (.node file.node file.children) := by
  refine ⟨rfl, ?_, ?_⟩
  · intro d hd
    simp only [file, Markers.Each.sub, List.mem_cons, List.not_mem_nil, or_false] at hd
    obtain rfl | rfl | rfl := hd
    · exact .inr rfl
    · exact .inl ⟨_, _, rfl⟩
    · exact .inl ⟨_, _, rfl⟩
  · intro d hd hk s hs
    simp only [file, Markers.Each.sub, List.mem_cons, List.not_mem_nil, or_false] at hd
    obtain rfl | rfl | rfl := hd
    · cases hs
    · simp only [Markers.Each.sub, List.mem_cons, List.not_mem_nil, or_false] at hs
      obtain rfl | rfl := hs
      · exact .inr rfl
      · exact .inl rfl
    · simp only [Markers.Each.sub, List.mem_cons, List.not_mem_nil, or_false] at hs
      subst hs
      exact .inl rfl

theorem twice_parsed (s : Sched) : Parsed (twice s).files := by
  refine ⟨fun f hf => by rw [List.mem_singleton.1 hf]; exact file_wf, fun f hf => ?_, by simp only [twice]; decide +kernel⟩
  rw [List.mem_singleton.1 hf]
  exact typed

/-- The hypotheses of `C101_types` hold of this package. -/
example {hist : List (Markers.Def Markers.Loaded)} (hh : Markers.Shipped.history ["applyconfiguration", "crd"] = some hist) {s s' : Sched} {q q' : Option Request} {e e' : Bool}
    (ho : (twice s).generate hist exEnv lib [] = .done q e) (ho' : (twice s').generate hist exEnv lib [] = .done q' e') : q.map (·.types) = q'.map (·.types) :=
  C101_types (by simp) hh (twice_parsed s) (fun _ _ _ _ _ h => nomatch h) (twice_same s s') ho ho'

/-- Where the apply configurations of the same package are written differs between two runs: the comments are markers of the package, although they are above types, and are found in the order of a map of types. -/
theorem C101_violated_output : asked (twice .fifo) = some (false, ["api/one", "example.com/api/one", "Foo"]) ∧ asked (twice .lifo) = some (false, ["api/two", "example.com/api/two", "Foo"]) := by
  decide +kernel

end Verif.Apply.AloneCase

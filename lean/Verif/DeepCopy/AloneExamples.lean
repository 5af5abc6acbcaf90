import Verif.DeepCopy.AloneTheorems
import Verif.DeepCopy.SourceExamples
/-!
# C100: examples
-/
namespace Verif.DeepCopy.AloneCase
open Verif Verif.DeepCopy Verif.DeepCopy.Spec
open Verif.Markers (exEnv)
open Verif.Markers.Source
open Verif.Markers.Collect (Comment Node)
open Verif.Markers.Collect.Examples (c other fileWF)
open Verif.DeepCopy.SourceExamples (root file_parsed syn_ok)

/-! ## The package of C87, with other orders of maps -/

def again : Root := { root with σ := fun _ => .fifo, τ := .fifo, ρ := .fifo }

theorem same : SamePackage root again := ⟨rfl, rfl, rfl, rfl, rfl⟩

/-- The hypotheses of `C100_package` hold, and a file is generated. -/
example : ∃ hist l, Markers.Shipped.history ["object"] = some hist ∧ again.generate hist exEnv capital = some ⟨false, some (("Baz", [.deepCopyInto]) :: l)⟩ := by
  obtain ⟨res, h1, h2⟩ := Option.map_eq_some_iff.1 SourceExamples.generated
  obtain ⟨hist, h3, h4⟩ := Option.bind_eq_some_iff.1 h1
  obtain ⟨e, file'⟩ := res
  obtain ⟨rfl, h5⟩ := Prod.mk.inj h2
  have h5 : file' = _ := h5
  subst h5
  exact ⟨hist, _, h3, by rw [← C100_package (by simp) h3 file_parsed syn_ok same]; exact h4⟩

/-! ## Comments that contradict each other

    package foo

    // +kubebuilder:object:generate=true

    var x int

    // +kubebuilder:object:generate=false

    func g() {}

    type Baz []string
-/

def on : Comment := c 20 "// +kubebuilder:object:generate=true"
def off : Comment := c 80 "// +kubebuilder:object:generate=false"
def baz : Node := { id := 7, kind := .typeSpec, pos := 225, «end» := 240 }

def file : File where
  groups := [⟨20, [on]⟩, ⟨80, [off]⟩]
  node := { id := 0, kind := .file, pos := 0, «end» := 240 }
  children := [.node (other 1 8 11) [], .node (other 2 60 75) [], .node (other 3 120 131) [], .node { id := 6, kind := .genDecl true false, pos := 220, «end» := 240 } [.node baz []]]

theorem file_wf : file.WF :=
  fileWF (by decide +kernel) (by decide +kernel) (by decide +kernel) (by decide +kernel) (by decide +kernel) (by decide +kernel) rfl (by decide +kernel)

def prog : Prog where
  under _ := .slice (.basic true)
  target _ := .basic true
  manual _ := {}
  generated _ := true
  methods _ := true
  depth := 5

def contradictory (σ : Sched) : Root where
  path := "example.com/foo"
  files := [file]
  syn := ⟨fun _ => "Baz", fun _ => none, fun _ => []⟩
  σ := fun _ => σ
  τ := σ
  ρ := σ
  prog := prog
  kind := fun _ => .defined

/-- The names of the types with methods. -/
def run (σ : Sched) : Option (Bool × Option (List String)) :=
  ((Markers.Shipped.history ["object"]).bind fun h => (contradictory σ).generate h exEnv capital).map fun res => (res.error, res.file.map fun l => l.map (·.1))

/-- The first comment counts, in all runs. -/
theorem first_counts : run .fifo = some (false, some ["Baz"]) ∧ run .lifo = some (false, some ["Baz"]) := ⟨by decide +kernel, by decide +kernel⟩

/-! ## Two runs that name different packages -/

/-- The hypotheses of `C100_files` hold of two runs: one names both packages, the other only the first one. -/
theorem contradictory_parsed (σ : Sched) : Parsed (contradictory σ).files := by
  refine ⟨fun f hf => by rw [List.mem_singleton.1 hf]; exact file_wf, fun f hf => ?_, by show List.Nodup ([file].flatMap File.nodes); decide +kernel⟩
  rw [List.mem_singleton.1 hf]
  refine ⟨rfl, ?_, ?_⟩
  · intro d hd
    simp only [file, Markers.Each.sub, List.mem_cons, List.not_mem_nil, or_false] at hd
    obtain rfl | rfl | rfl | rfl := hd
    · exact .inr rfl
    · exact .inr rfl
    · exact .inr rfl
    · exact .inl ⟨_, _, rfl⟩
  · intro d hd hk s hs
    simp only [file, Markers.Each.sub, List.mem_cons, List.not_mem_nil, or_false] at hd
    obtain rfl | rfl | rfl | rfl := hd
    · cases hs
    · cases hs
    · cases hs
    · simp only [Markers.Each.sub, List.mem_cons, List.not_mem_nil, or_false] at hs
      subst hs
      exact .inl rfl

example : ∃ hist out out', Markers.Shipped.history ["object"] = some hist ∧ generateAll hist exEnv capital [contradictory .lifo, root] = some out ∧ generateAll hist exEnv capital [again] = some out' ∧
    ∀ l, (root.path, l) ∈ out ↔ (root.path, l) ∈ out' := by
  obtain ⟨hist, hh⟩ := Markers.C68_defined ["object"] (by decide)
  have hp : ∀ r ∈ [contradictory .lifo, root], Parsed r.files := by
    intro r hr
    simp only [List.mem_cons, List.not_mem_nil, or_false] at hr
    rcases hr with rfl | rfl
    · exact contradictory_parsed _
    · exact file_parsed
  have hp' : ∀ r ∈ [again], Parsed r.files := by
    intro r hr
    rw [List.mem_singleton.1 hr]
    exact file_parsed
  obtain ⟨out, h1, -⟩ := C87_files (hist := hist) (E := exEnv) (exported := capital) hp
  obtain ⟨out', h2, -⟩ := C87_files (hist := hist) (E := exEnv) (exported := capital) hp'
  exact ⟨hist, out, out', hh, h1, h2, C100_files (by simp) hh hp hp' (by decide) (by decide) (by simp) (by simp) syn_ok same h1 h2⟩

end Verif.DeepCopy.AloneCase

import Verif.DeepCopy.SourceTheorems
import Verif.DeepCopy.EnableExamples
import Verif.Markers.CollectExamples
import Verif.Markers.ParseExamples
import Verif.Markers.OnExamples
/-!
# C87: examples
-/
namespace Verif.DeepCopy.SourceExamples
open Verif Verif.DeepCopy Verif.DeepCopy.Spec
open Verif.Markers (Env exEnv)
open Verif.Markers.Source
open Verif.Markers.Collect (Comment Node)
open Verif.Markers.Collect.Examples (c other fileWF)

/-! ## A file

    // +kubebuilder:object:generate=true
    package v1

    // +kubebuilder:object:root=true

    // Foo is a root object
    type Foo struct { S []string }

    // +kubebuilder:object:generate=false
    type Bar struct{}

    type Baz []string
-/

def onPkg : Comment := c 0 "// +kubebuilder:object:generate=true"
def onFoo : Comment := c 50 "// +kubebuilder:object:root=true"
def docFoo : Comment := c 84 "// Foo is a root object"
def onBar : Comment := c 150 "//+kubebuilder:object:generate=false"

def foo : Node := { id := 3, kind := .typeSpec, pos := 115, «end» := 140 }
def declFoo : Node := { id := 2, kind := .genDecl true false, pos := 110, «end» := 140, doc := some 84 }
def bar : Node := { id := 5, kind := .typeSpec, pos := 195, «end» := 210 }
def declBar : Node := { id := 4, kind := .genDecl true false, pos := 190, «end» := 210, doc := some 150 }
def baz : Node := { id := 7, kind := .typeSpec, pos := 225, «end» := 240 }
def declBaz : Node := { id := 6, kind := .genDecl true false, pos := 220, «end» := 240 }

def file : File where
  groups := [⟨0, [onPkg]⟩, ⟨50, [onFoo]⟩, ⟨84, [docFoo]⟩, ⟨150, [onBar]⟩]
  node := { id := 0, kind := .file, pos := 38, «end» := 240, doc := some 0 }
  children := [.node (other 8 46 48) [], .node declFoo [.node (other 9 84 107) [], .node foo []], .node declBar [.node (other 10 150 187) [], .node bar []], .node declBaz [.node baz []]]

def syn : Syntax where
  typeName n := if n.id = 3 then "Foo" else if n.id = 5 then "Bar" else "Baz"
  structFields _ := none
  names _ := []

/-- `Baz` has a `DeepCopy` in the source. -/
def prog : Prog where
  under n := if n = "Foo" then .struct [("S", .slice (.basic true))] else if n = "Baz" then .slice (.basic true) else .struct []
  target _ := .basic true
  manual n := if n = "Baz" then { copy := some false } else {}
  generated n := n = "Foo"
  methods n := n = "Foo" ∨ n = "Baz"
  depth := 5

def root : Root where
  path := "example.com/v1"
  files := [file]
  syn := syn
  σ := fun _ => .lifo
  τ := .lifo
  ρ := .lifo
  prog := prog
  kind := fun _ => .defined

theorem file_wf : file.WF :=
  fileWF (by decide +kernel) (by decide +kernel) (by decide +kernel) (by decide +kernel) (by decide +kernel) (by decide +kernel) rfl (by decide +kernel)

theorem file_parsed : Parsed root.files := by
  refine ⟨fun f hf => by rw [List.mem_singleton.1 hf]; exact file_wf, fun f hf => ?_, by decide +kernel⟩
  rw [List.mem_singleton.1 hf]
  refine ⟨rfl, ?_, ?_⟩
  · intro d hd
    simp only [file, Markers.Each.sub, List.mem_cons, List.not_mem_nil, or_false] at hd
    obtain rfl | rfl | rfl | rfl := hd
    · exact .inr rfl
    · exact .inl ⟨_, _, rfl⟩
    · exact .inl ⟨_, _, rfl⟩
    · exact .inl ⟨_, _, rfl⟩
  · intro d hd hk s hs
    simp only [file, Markers.Each.sub, List.mem_cons, List.not_mem_nil, or_false] at hd
    obtain rfl | rfl | rfl | rfl := hd
    · cases hs
    · simp only [Markers.Each.sub, List.mem_cons, List.not_mem_nil, or_false] at hs
      obtain rfl | rfl := hs
      · exact .inr rfl
      · exact .inl rfl
    · simp only [Markers.Each.sub, List.mem_cons, List.not_mem_nil, or_false] at hs
      obtain rfl | rfl := hs
      · exact .inr rfl
      · exact .inl rfl
    · simp only [Markers.Each.sub, List.mem_cons, List.not_mem_nil, or_false] at hs
      subst hs
      exact .inl rfl

theorem syn_ok : root.syn.OK root.files := fun _ _ _ _ _ h => nomatch h

/-- The types are declared. -/
theorem declared : Declared file foo ∧ Declared file bar ∧ Declared file baz := ⟨⟨declFoo, by decide +kernel⟩, ⟨declBar, by decide +kernel⟩, ⟨declBaz, by decide +kernel⟩⟩

theorem distinct : Distinct capital root := by
  show List.Nodup _
  decide +kernel

theorem no_pointers : NoPointerMethods capital root := by
  intro f hf n hn hx t ht
  simp only [root, prog] at ht
  split at ht
  · cases ht
  · split at ht <;> cases ht

theorem marks {x : Comment} (h : file.Marks x) : x ∈ [onPkg, onFoo, onBar] := by
  obtain ⟨g, hg, hx, hm⟩ := h
  have : ∀ g ∈ file.groups, ∀ x ∈ g.comments, Markers.Doc.isMarkerComment x.text = true → x ∈ [onPkg, onFoo, onBar] := by decide +kernel
  exact this g hg x hx hm

theorem sets (E : Env) : SetsTo E "kubebuilder:object:generate" onPkg true ∧ SetsTo E "kubebuilder:object:root" onFoo true ∧ SetsTo E "kubebuilder:object:generate" onBar false :=
  ⟨⟨Markers.Spec.showBool true, by decide +kernel, .value .bool⟩, ⟨Markers.Spec.showBool true, by decide +kernel, .value .bool⟩, ⟨Markers.Spec.showBool false, by decide +kernel, .value .bool⟩⟩

theorem set_foo (E : Env) : TypeSet E file foo "kubebuilder:object:root" true := by
  refine ⟨⟨onFoo, ⟨⟨⟨50, [onFoo]⟩, by simp [file], by simp, by decide +kernel⟩, onB_iff.1 (by decide +kernel)⟩, (sets E).2.1⟩, fun x hx hb => ?_⟩
  have h1 := marks hx.1
  simp only [List.mem_cons, List.not_mem_nil, or_false] at h1
  obtain rfl | rfl | rfl := h1
  · exact absurd hb (by unfold Begins; decide +kernel)
  · exact (sets E).2.1
  · exact absurd hb (by unfold Begins; decide +kernel)

theorem set_bar (E : Env) : TypeSet E file bar "kubebuilder:object:generate" false := by
  refine ⟨⟨onBar, ⟨⟨⟨150, [onBar]⟩, by simp [file], by simp, by decide +kernel⟩, onB_iff.1 (by decide +kernel)⟩, (sets E).2.2⟩, fun x hx hb => ?_⟩
  have h1 := marks hx.1
  simp only [List.mem_cons, List.not_mem_nil, or_false] at h1
  obtain rfl | rfl | rfl := h1
  · exact absurd (onB_iff.2 hx.2) (by decide +kernel)
  · exact absurd hb (by unfold Begins; decide +kernel)
  · exact (sets E).2.2

theorem silent {n : Node} (hn : onB file n onPkg = false ∧ onB file n onBar = false) : Silent file n "kubebuilder:object:generate" ∧ Silent file n "k8s:deepcopy-gen" := by
  constructor
  · intro x hx hb
    have h1 := marks hx.1
    simp only [List.mem_cons, List.not_mem_nil, or_false] at h1
    obtain rfl | rfl | rfl := h1
    · exact absurd (onB_iff.2 hx.2) (by simp [hn.1])
    · exact absurd hb (by unfold Begins; decide +kernel)
    · exact absurd (onB_iff.2 hx.2) (by simp [hn.2])
  · intro x hx
    have h1 := marks hx.1
    simp only [List.mem_cons, List.not_mem_nil, or_false] at h1
    obtain rfl | rfl | rfl := h1 <;> (unfold Begins; decide +kernel)

theorem pkg_set (E : Env) : PkgSet E root.files "kubebuilder:object:generate" true := by
  refine ⟨⟨file, List.mem_singleton.2 rfl, onPkg, ⟨⟨0, [onPkg]⟩, by simp [file], by simp, by decide +kernel⟩, freeB_spec (by decide +kernel), (sets E).1⟩, fun f hf x hx hb => ?_⟩
  rw [List.mem_singleton.1 hf] at hx ⊢
  have h1 := marks hx
  simp only [List.mem_cons, List.not_mem_nil, or_false] at h1
  obtain rfl | rfl | rfl := h1
  · exact .inr (sets E).1
  · exact absurd hb (by unfold Begins; decide +kernel)
  · exact .inl ⟨bar, onB_iff.1 (by decide +kernel)⟩

/-- What is generated: `Foo` is a root object; `Bar` is disabled; `Baz` has a `DeepCopy` already. -/
theorem generated : ((Markers.Shipped.history ["object"]).bind fun h => root.generate h exEnv capital).map (fun res => (res.error, res.file)) =
    some (false, some [("Baz", [.deepCopyInto]), ("Foo", [.deepCopyInto, .deepCopy, .deepCopyObject])]) := by
  decide +kernel

/-- The hypotheses of `C87_root`, `C87_disabled` and `C87_package` hold of `Foo`, `Bar` and `Baz`. -/
example : ∃ hist file', Markers.Shipped.history ["object"] = some hist ∧ root.generate hist exEnv capital = some ⟨false, file'⟩ ∧ InFile file' "Foo" .deepCopyObject ∧ ¬ InFile file' "Bar" .deepCopy ∧
    InFile file' "Baz" .deepCopyInto := by
  have h := generated
  obtain ⟨res, h1, h2⟩ := Option.map_eq_some_iff.1 h
  obtain ⟨hist, h3, h4⟩ := Option.bind_eq_some_iff.1 h1
  obtain ⟨e, file'⟩ := res
  obtain ⟨rfl, -⟩ := Prod.mk.inj h2
  have hm := List.mem_singleton.2 (rfl : file = file)
  refine ⟨hist, file', h3, h4, ?_, ?_, ?_⟩
  · exact (C87_root (by simp) h3 file_parsed syn_ok distinct no_pointers h4 hm declared.1 (by decide +kernel) (.type rfl (by intro ok h; cases h) (by intro t h; cases h)) (set_foo _)
      (silent (by decide +kernel)).1 (silent (by decide +kernel)).2).2.2.2 rfl
  · exact C87_disabled (by simp) h3 file_parsed syn_ok distinct no_pointers h4 hm declared.2.1 (set_bar _) _
  · exact (C87_package (by simp) h3 file_parsed syn_ok distinct no_pointers h4 hm declared.2.2 (by decide +kernel) (.type rfl (by intro ok h; cases h) (by intro t h; cases h)) (pkg_set _)
      (silent (by decide +kernel)).1 (silent (by decide +kernel)).2).1.2 rfl

end Verif.DeepCopy.SourceExamples

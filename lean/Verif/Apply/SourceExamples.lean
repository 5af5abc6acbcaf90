import Verif.Apply.SourceTheorems
import Verif.Markers.CollectExamples
import Verif.Markers.ParseExamples
import Verif.Markers.OnExamples
/-!
# C88: examples and violations
-/
namespace Verif.Apply.SourceExamples
open Verif Verif.Apply Verif.Apply.Spec
open Verif.Markers (Str Env exEnv)
open Verif.Markers.Source
open Verif.Markers.Collect (Comment Node Group)
open Verif.Markers.Collect.Examples (c other fileWF)

/-! ## A file

    // +kubebuilder:ac:generate=true
    // +kubebuilder:ac:output:package=ac
    package v1

    // +kubebuilder:resource

    // Foo is a resource
    type Foo struct{}

    // +kubebuilder:ac:generate=false
    type Bar struct{}

    type Baz struct{}

The first comment is a parameter.
-/

def onPkg (s : String) : Comment := c 0 s
def outPkg : Comment := c 33 "// +kubebuilder:ac:output:package=ac"
def onFoo : Comment := c 100 "// +kubebuilder:resource"
def docFoo : Comment := c 134 "// Foo is a resource"
def onBar (s : String) : Comment := c 200 s

def foo : Node := { id := 3, kind := .typeSpec, pos := 165, «end» := 190 }
def declFoo : Node := { id := 2, kind := .genDecl true false, pos := 160, «end» := 190, doc := some 134 }
def bar : Node := { id := 5, kind := .typeSpec, pos := 245, «end» := 260 }
def declBar : Node := { id := 4, kind := .genDecl true false, pos := 240, «end» := 260, doc := some 200 }
def baz : Node := { id := 7, kind := .typeSpec, pos := 275, «end» := 290 }
def declBaz : Node := { id := 6, kind := .genDecl true false, pos := 270, «end» := 290 }

def fileWith (p b : String) : File where
  groups := [⟨0, [onPkg p, outPkg]⟩, ⟨100, [onFoo]⟩, ⟨134, [docFoo]⟩, ⟨200, [onBar b]⟩]
  node := { id := 0, kind := .file, pos := 80, «end» := 290, doc := some 0 }
  children := [.node (other 8 88 90) [], .node declFoo [.node (other 9 134 154) [], .node foo []], .node declBar [.node (other 10 200 235) [], .node bar []], .node declBaz [.node baz []]]

def syn : Syntax where
  typeName n := if n.id = 3 then "Foo" else if n.id = 5 then "Bar" else "Baz"
  structFields _ := none
  names _ := []

def rootWith (p b : String) : SourceRoot where
  dir := "api".toList
  pkgPath := "example.com/api".toList
  goFiles := ["api/types.go".toList]
  files := [fileWith p b]
  syn := syn
  σ := fun _ => .lifo
  τ := .lifo

def yes : String := "// +kubebuilder:ac:generate=true"
def no : String := "// +kubebuilder:ac:generate=false"
def file : File := fileWith yes no
def root : SourceRoot := rootWith yes no

/-- The package as the library sees it. -/
def world : List (Str × Comments) := [("Foo".toList, ⟨["Foo is a resource".toList], ["+kubebuilder:resource".toList]⟩), ("Bar".toList, ⟨["+kubebuilder:ac:generate=false".toList], []⟩), ("Baz".toList, ⟨[], []⟩)]
def lib : Library := { load := fun _ => some (some world), execute := fun _ => true }

theorem typed (p b : String) : Markers.Each.Typed (.node (fileWith p b).node (fileWith p b).children) := by
  refine ⟨rfl, ?_, ?_⟩
  · intro d hd
    simp only [fileWith, Markers.Each.sub, List.mem_cons, List.not_mem_nil, or_false] at hd
    obtain rfl | rfl | rfl | rfl := hd
    · exact .inr rfl
    · exact .inl ⟨_, _, rfl⟩
    · exact .inl ⟨_, _, rfl⟩
    · exact .inl ⟨_, _, rfl⟩
  · intro d hd hk s hs
    simp only [fileWith, Markers.Each.sub, List.mem_cons, List.not_mem_nil, or_false] at hd
    obtain rfl | rfl | rfl | rfl := hd
    · cases hs
    · simp only [Markers.Each.sub, List.mem_cons, List.not_mem_nil, or_false] at hs
      obtain rfl | rfl := hs
      · exact .inr rfl
      · exact .inl rfl
    · simp only [Markers.Each.sub, List.mem_cons, List.not_mem_nil, or_false] at hs
      obtain rfl | rfl := hs
      · exact .inr rfl
      · exact .inl rfl
    · simp only [Markers.Each.sub, List.mem_cons, List.not_mem_nil, or_false] at hs
      subst hs
      exact .inl rfl

theorem file_wf : file.WF :=
  fileWF (by decide +kernel) (by decide +kernel) (by decide +kernel) (by decide +kernel) (by decide +kernel) (by decide +kernel) rfl (by decide +kernel)

theorem parsed : Parsed root.files := by
  refine ⟨fun f hf => by rw [List.mem_singleton.1 hf]; exact file_wf, fun f hf => ?_, by decide +kernel⟩
  rw [List.mem_singleton.1 hf]
  exact typed _ _

theorem syn_ok : root.syn.OK root.files := fun _ _ _ _ _ h => nomatch h

theorem declared : Declared file foo ∧ Declared file bar ∧ Declared file baz := ⟨⟨declFoo, by decide +kernel⟩, ⟨declBar, by decide +kernel⟩, ⟨declBaz, by decide +kernel⟩⟩

theorem distinct {n : Node} (hn : n ∈ [foo, bar, baz]) : ∀ f' ∈ root.files, ∀ n', Declared f' n' → root.syn.typeName n' = root.syn.typeName n → n' = n := by
  rintro f' hf' n' ⟨d, hd⟩ he
  rw [List.mem_singleton.1 hf'] at hd
  have h1 : ∀ e ∈ Markers.Each.declared (.node file.node file.children), ∀ n ∈ [foo, bar, baz], root.syn.typeName e.2 = root.syn.typeName n → e.2 = n := by decide +kernel
  exact h1 _ hd n hn he

theorem marks {x : Comment} (h : file.Marks x) : x ∈ [onPkg yes, outPkg, onFoo, onBar no] := by
  obtain ⟨g, hg, hx, hm⟩ := h
  have : ∀ g ∈ file.groups, ∀ x ∈ g.comments, Markers.Doc.isMarkerComment x.text = true → x ∈ [onPkg yes, outPkg, onFoo, onBar no] := by decide +kernel
  exact this g hg x hx hm

theorem marked {x : Comment} (h : x ∈ [onPkg yes, outPkg, onFoo, onBar no]) : file.Marks x := by
  simp only [List.mem_cons, List.not_mem_nil, or_false] at h
  obtain rfl | rfl | rfl | rfl := h
  · exact ⟨⟨0, [onPkg yes, outPkg]⟩, by simp [file, fileWith], by simp, by decide +kernel⟩
  · exact ⟨⟨0, [onPkg yes, outPkg]⟩, by simp [file, fileWith], by simp, by decide +kernel⟩
  · exact ⟨⟨100, [onFoo]⟩, by simp [file, fileWith], by simp, by decide +kernel⟩
  · exact ⟨⟨200, [onBar no]⟩, by simp [file, fileWith], by simp, by decide +kernel⟩

theorem sets (E : Env) : SetsTo E "kubebuilder:ac:generate" (onPkg yes) true ∧ SetsTo E "kubebuilder:ac:generate" (onBar no) false :=
  ⟨⟨Markers.Spec.showBool true, by decide +kernel, .value .bool⟩, ⟨Markers.Spec.showBool false, by decide +kernel, .value .bool⟩⟩

theorem set_bar (E : Env) : TypeSet E file bar "kubebuilder:ac:generate" false := by
  refine ⟨⟨onBar no, ⟨marked (by simp), onB_iff.1 (by decide +kernel)⟩, (sets E).2⟩, fun x hx hb => ?_⟩
  have h1 := marks hx.1
  simp only [List.mem_cons, List.not_mem_nil, or_false] at h1
  obtain rfl | rfl | rfl | rfl := h1
  · exact absurd (onB_iff.2 hx.2) (by decide +kernel)
  · exact absurd hb (by unfold Begins; decide +kernel)
  · exact absurd hb (by unfold Begins; decide +kernel)
  · exact (sets E).2

theorem silent {n : Node} (hn : onB file n (onPkg yes) = false ∧ onB file n (onBar no) = false) : Silent file n "kubebuilder:ac:generate" := by
  intro x hx hb
  have h1 := marks hx.1
  simp only [List.mem_cons, List.not_mem_nil, or_false] at h1
  obtain rfl | rfl | rfl | rfl := h1
  · exact absurd (onB_iff.2 hx.2) (by simp [hn.1])
  · exact absurd hb (by unfold Begins; decide +kernel)
  · exact absurd hb (by unfold Begins; decide +kernel)
  · exact absurd (onB_iff.2 hx.2) (by simp [hn.2])

theorem silent_baz : Silent file baz "kubebuilder:resource" := by
  intro x hx hb
  have h1 := marks hx.1
  simp only [List.mem_cons, List.not_mem_nil, or_false] at h1
  obtain rfl | rfl | rfl | rfl := h1
  · exact absurd hb (by unfold Begins; decide +kernel)
  · exact absurd hb (by unfold Begins; decide +kernel)
  · exact absurd (onB_iff.2 hx.2) (by decide +kernel)
  · exact absurd hb (by unfold Begins; decide +kernel)

theorem pkg_set (E : Env) : PkgSet E root.files "kubebuilder:ac:generate" true := by
  refine ⟨⟨file, List.mem_singleton.2 rfl, onPkg yes, marked (by simp), freeB_spec (by decide +kernel), (sets E).1⟩, fun f hf x hx hb => ?_⟩
  rw [List.mem_singleton.1 hf] at hx ⊢
  have h1 := marks hx
  simp only [List.mem_cons, List.not_mem_nil, or_false] at h1
  obtain rfl | rfl | rfl | rfl := h1
  · exact .inr (sets E).1
  · exact absurd hb (by unfold Begins; decide +kernel)
  · exact absurd hb (by unfold Begins; decide +kernel)
  · exact .inl ⟨bar, onB_iff.1 (by decide +kernel)⟩

theorem placed_of_free {f : File} {x : Comment} (h : FreeStanding f x) : Placed f x := by
  intro g hg hx
  refine ⟨h.1 g hg hx, fun a n k hc => ⟨fun hd => (h.2 n).1 ⟨a, k, hc, g, hg, hx, hd⟩, fun _ hp => (h.2 n).2 ⟨a, k, hc, g, hg, hx, hp⟩⟩⟩

theorem output_set (E : Env) : OutputSet E root.files "ac" := by
  have hs : IsString E "kubebuilder:ac:output:package" outPkg "ac" := ⟨"ac".toList, by decide +kernel, .value (.str (.word ⟨⟨'a', "c".toList, by decide, by decide⟩, by decide⟩ (by decide +kernel) (by decide +kernel)))⟩
  refine ⟨⟨file, List.mem_singleton.2 rfl, outPkg, marked (by simp), placed_of_free (freeB_spec (by decide +kernel)), hs⟩, fun f hf x hx hb => ?_⟩
  rw [List.mem_singleton.1 hf] at hx
  have h1 := marks hx
  simp only [List.mem_cons, List.not_mem_nil, or_false] at h1
  obtain rfl | rfl | rfl | rfl := h1
  · exact absurd hb (by unfold Begins; decide +kernel)
  · exact hs
  · exact absurd hb (by unfold Begins; decide +kernel)
  · exact absurd hb (by unfold Begins; decide +kernel)

/-- Whether there is an error, and what the library is asked for, if it is: where, and for which types. -/
def asked (r : SourceRoot) : Option (Bool × List String) :=
  (Markers.Shipped.history ["applyconfiguration", "crd"]).bind fun hist =>
    match r.generate hist exEnv lib [] with
    | .panic => none
    | .done none e => some (e, [])
    | .done (some q) e => some (e, (q.dir :: q.pkg :: (q.types.filter fun t => "+genclient".toList ∈ t.2.lines ++ t.2.second).map (·.1)).map String.ofList)

theorem asked_root : asked root = some (false, ["api/ac", "example.com/api/ac", "Foo"]) := by decide +kernel

/-- The hypotheses of the theorems hold of `Foo`, `Bar` and `Baz`. -/
example : ∃ hist q e, Markers.Shipped.history ["applyconfiguration", "crd"] = some hist ∧ root.generate hist exEnv lib [] = .done (some q) e ∧ Requested q "Foo".toList ∧ ¬ Requested q "Bar".toList ∧
    ¬ Requested q "Baz".toList ∧ Genall.Spec.locate [] q.dir = Genall.Spec.locateIn (Genall.Spec.locate [] "api".toList) "ac".toList := by
  have h := asked_root
  unfold asked at h
  obtain ⟨hist, h1, h2⟩ := Option.bind_eq_some_iff.1 h
  cases h3 : root.generate hist exEnv lib [] with
  | panic => rw [h3] at h2; cases h2
  | done q e =>
    rw [h3] at h2
    cases q with
    | none => cases h2
    | some q =>
      have hu : GoMap.WF world := by simp only [GoMap.WF]; decide +kernel
      have hm := List.mem_singleton.2 (rfl : file = file)
      refine ⟨hist, q, e, h1, h3, ?_, ?_, ?_, ?_⟩
      · exact C88_resource (c := ⟨["Foo is a resource".toList], ["+kubebuilder:resource".toList]⟩) (x := onFoo) (by simp) h1 parsed syn_ok hu rfl h3 hm declared.1 (distinct (by simp)) (by decide +kernel) (by decide +kernel)
          (silent (by decide +kernel)) ⟨marked (by simp), onB_iff.1 (by decide +kernel)⟩ ⟨[], .plain (by decide +kernel) (by decide +kernel) (by decide +kernel)⟩
      · exact fun hr => absurd ((C88_disabled (c := ⟨["+kubebuilder:ac:generate=false".toList], []⟩) (by simp) h1 parsed syn_ok hu rfl h3 hm declared.2.1 (distinct (by simp)) (by decide +kernel) (by decide +kernel)
          (set_bar _)).1 hr) (by unfold Tagged; decide +kernel)
      · exact fun hr => absurd ((C88_nothing (c := ⟨[], []⟩) (by simp) h1 parsed syn_ok hu rfl h3 hm declared.2.2 (distinct (by simp)) (by decide +kernel) (by decide +kernel)
          (silent (by decide +kernel)) silent_baz).1 hr) (by unfold Tagged; decide +kernel)
      · exact (C88_where (s := "ac") (by simp) h1 parsed syn_ok hu rfl h3 (by decide +kernel) (.inl (output_set _)) []).1

/-! ## Violations -/

/-- The documentation says that `+kubebuilder:ac:generate=true` on a type can be used if it is not enabled for the package.  Nothing is generated, and there is no error. -/
theorem C88_violated_single : asked (rootWith no yes) = some (false, []) := by decide +kernel

/-- A comment that does not parse (`+kubebuilder:ac:generate=tru`) disables the package without an error. -/
theorem C88_violated_error : asked (rootWith "// +kubebuilder:ac:generate=tru" no) = some (false, []) := by decide +kernel

/-- So does one on a type (`+kubebuilder:ac:generate=fals`), although the package is enabled. -/
theorem C88_violated_error_type : asked (rootWith yes "// +kubebuilder:ac:generate=fals") = some (false, []) := by decide +kernel

end Verif.Apply.SourceExamples

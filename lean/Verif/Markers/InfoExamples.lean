import Verif.Markers.InfoTheorems
import Verif.Markers.CollectExamples
import Verif.Markers.ParseExamples
/-!
# C82: examples
-/
namespace Verif.Markers.Source.InfoExamples
open Verif Verif.Markers Verif.Markers.Spec Verif.Markers.Collect Verif.Markers.Doc
open Verif.Markers.Collect.Examples (c other fileWF)

/-! ## A file

    package foo

    // +kubebuilder:resource:scope=Cluster

    // Foo is a type
    // +kubebuilder:printcolumn:name=A,type=string,JSONPath=x
    // +kubebuilder:printcolumn:name=B,type=date,JSONPath=y
    type Foo struct {
        // +optional
        // +kubebuilder:validation:MinLength=1
        A, B string
        Bar // +nullable
    }

    type Bar struct{}
-/

def scope : Comment := c 13 "// +kubebuilder:resource:scope=Cluster"
def colA : Comment := c 71 "// +kubebuilder:printcolumn:name=A,type=string,JSONPath=x"
def colB : Comment := c 129 "//+kubebuilder:printcolumn:name=B,type=date,JSONPath=y"
def optional : Comment := c 210 "// +optional"
def minLength : Comment := c 224 "// +kubebuilder:validation:MinLength=1"

def foo : Node := { id := 3, kind := .typeSpec, pos := 192, «end» := 310 }
def decl : Node := { id := 2, kind := .genDecl true false, pos := 187, «end» := 310, doc := some 54 }
def ab : Node := { id := 6, kind := .field, pos := 264, «end» := 275, doc := some 210 }
def embedded : Node := { id := 7, kind := .field, pos := 280, «end» := 283, line := some 284 }
def bar : Node := { id := 9, kind := .typeSpec, pos := 320, «end» := 335 }
def decl2 : Node := { id := 8, kind := .genDecl true false, pos := 315, «end» := 335 }

def file : File where
  groups := [⟨13, [scope]⟩, ⟨54, [c 54 "// Foo is a type", colA, colB]⟩, ⟨210, [optional, minLength]⟩, ⟨284, [c 284 "// +nullable"]⟩]
  node := { id := 0, kind := .file, pos := 0, «end» := 340 }
  children := [.node (other 1 8 11) [], .node decl [.node (other 4 54 186) [], .node foo [.node (other 5 200 310) [.node ab [.node (other 10 210 262) []], .node embedded [.node (other 11 284 296) []]]]], .node decl2 [.node bar []]]

def syn : Syntax where
  typeName n := if n.id = 3 then "Foo" else "Bar"
  structFields n := if n.id = 3 then some [ab, embedded] else if n.id = 9 then some [] else none
  names n := if n.id = 6 then ["A", "B"] else []

theorem file_wf : file.WF :=
  fileWF (by decide +kernel) (by decide +kernel) (by decide +kernel) (by decide +kernel) (by decide +kernel) (by decide +kernel) rfl (by decide +kernel)

theorem file_parsed : Parsed [file] := by
  refine ⟨fun f hf => by rw [List.mem_singleton.1 hf]; exact file_wf, fun f hf => ?_, by decide +kernel⟩
  rw [List.mem_singleton.1 hf]
  refine ⟨rfl, ?_, ?_⟩
  · intro d hd
    simp only [file, Each.sub, List.mem_cons, List.not_mem_nil, or_false] at hd
    obtain rfl | rfl | rfl := hd
    · exact .inr rfl
    · exact .inl ⟨_, _, rfl⟩
    · exact .inl ⟨_, _, rfl⟩
  · intro d hd hk s hs
    simp only [file, Each.sub, List.mem_cons, List.not_mem_nil, or_false] at hd
    obtain rfl | rfl | rfl := hd
    · cases hs
    · simp only [Each.sub, List.mem_cons, List.not_mem_nil, or_false] at hs
      obtain rfl | rfl := hs
      · exact .inr rfl
      · exact .inl rfl
    · simp only [Each.sub, List.mem_cons, List.not_mem_nil, or_false] at hs
      subst hs
      exact .inl rfl

theorem syn_ok : syn.OK [file] := by
  intro f hf n hn l hl x hx
  rw [List.mem_singleton.1 hf] at hn ⊢
  simp only [syn] at hl
  split at hl
  · cases hl
    simp only [List.mem_cons, List.not_mem_nil, or_false] at hx
    obtain rfl | rfl := hx <;> exact ⟨by decide +kernel, rfl⟩
  · split at hl
    · cases hl; cases hx
    · cases hl

/-- Texts and numbers. -/
def shown : Value → String
  | .str s => String.ofList s
  | .int n => toString n
  | .raw s => String.ofList s
  | _ => "?"

/-- The markers of a type or field. -/
def lines (owner : String) (l : List (String × List (List (List Char × Value)))) : List (List String) :=
  l.flatMap fun e => e.2.map fun v => owner :: e.1 :: v.flatMap fun a => [String.ofList a.1, shown a.2]

/-- What is reported: the marker of the type in the comment above, those in its documentation, in order, and those of the fields; but not the one at the end of the line. -/
theorem file_types : (((Shipped.history ["crd"]).bind fun h => typesOf h exEnv syn (fun _ => Sched.lifo) [file]).map fun r => r.map fun l => l.flatMap fun t =>
      [t.name, "type"] :: (lines t.name t.markers ++ t.fields.flatMap fun x => [x.name, "field"] :: lines x.name x.markers)) =
    some (some [["Foo", "type"], ["Foo", "kubebuilder:resource", "scope", "Cluster"],
      ["Foo", "kubebuilder:printcolumn", "name", "A", "type", "string", "JSONPath", "x"], ["Foo", "kubebuilder:printcolumn", "name", "B", "type", "date", "JSONPath", "y"],
      ["A", "field"], ["A", "optional"], ["A", "kubebuilder:validation:MinLength", "", "1"],
      ["B", "field"], ["B", "optional"], ["B", "kubebuilder:validation:MinLength", "", "1"], ["", "field"], ["Bar", "type"]]) := by
  decide +kernel

theorem in_doc : InDoc file ab minLength :=
  ⟨[.enter file.node none, .enter (other 1 8 11) (some file.node), .leave (other 1 8 11), .enter decl (some file.node), .enter (other 4 54 186) (some decl), .leave (other 4 54 186), .enter foo (some decl),
      .enter (other 5 200 310) (some foo)], ab, ⟨some (other 5 200 310), file.events.drop 9, by decide +kernel, .inl ⟨rfl, .inl rfl⟩⟩, ⟨210, [optional, minLength]⟩, by simp [file], by simp, rfl⟩

theorem above : Above file foo scope := by
  refine ⟨[.enter file.node none, .enter (other 1 8 11) (some file.node), .leave (other 1 8 11)], decl, ⟨some file.node, file.events.drop 4, by decide +kernel, .inr ⟨rfl, rfl,
    [.enter (other 4 54 186) (some decl), .leave (other 4 54 186)], some decl, file.events.drop 7, by decide +kernel, ?_⟩⟩, ⟨13, [scope]⟩, by simp [file], by simp, ⟨by decide, by decide, ?_⟩, ?_⟩
  · decide +kernel
  · decide +kernel
  · rintro ⟨e, he, h⟩
    revert e
    decide +kernel

def minLengthMarker : Marker := ⟨"kubebuilder:validation:".toList ++ "MinLength".toList, .field, .plain .int, false, false⟩

theorem chosen : Chosen ["crd"] .field minLengthMarker ⟨[⟨[], .int false, false⟩], true⟩ := by
  have : minLengthMarker.define.map minLengthMarker.parser = some ⟨[⟨[], .int false, false⟩], true⟩ := by decide +kernel
  obtain ⟨d, h1, h2⟩ := Option.map_eq_some_iff.1 this
  refine ⟨"crd", by simp, Shipped.allDefinitions, by simp [Shipped.registers], ?_, rfl, d, h1, h2⟩
  have : minLengthMarker ∈ Shipped.validationMarkers := List.mem_map.2 ⟨("MinLength", .plain .int), by simp [Shipped.validationTypes], rfl⟩
  simp only [Shipped.allDefinitions, List.mem_append]
  exact .inl (.inl (.inl (.inr this)))

/-- Some of the facts that `Faithful` is about. -/
example (E : Env) : file.Marks minLength ∧ InDoc file ab minLength ∧ Above file foo scope ∧ Written E minLengthMarker.name ⟨[⟨[], .int false, false⟩], true⟩ minLength [([], .int 1)] :=
  ⟨⟨⟨210, [optional, minLength]⟩, by simp [file], by simp, by decide +kernel⟩, in_doc, above, .value (x := showInt 1) (by decide +kernel) (by decide +kernel) rfl rfl (.value (.int (by decide) (by decide)))⟩

/-- What a comment on a field is parsed as. -/
def parsed (text : String) : Option (Option (List String)) :=
  (Shipped.history ["crd"]).bind fun h => (lookupIn h text.toList .field).map fun d => match parseWith exEnv d text.toList with
    | .ok vals => some (vals.flatMap fun a => [String.ofList a.1, shown a.2])
    | .error _ => none

/-- The marker `default` takes JSON, or a reference; `kubebuilder:default` takes the usual syntax. -/
example : parsed "+default={\"a\": [1, true]}" = some (some ["value", "{\"a\": [1, true]}"]) ∧ parsed "+default=ref(Foo)" = some (some ["value", "ref(Foo)"]) ∧ parsed "+default=abc" = some none ∧
    parsed "+kubebuilder:default=abc" = some (some ["", "abc"]) := by
  decide +kernel

end Verif.Markers.Source.InfoExamples

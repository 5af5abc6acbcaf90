import Verif.DeepCopy.EnableTheorems
import Verif.DeepCopy.Examples
/-!
# C45, C58: examples, and types that are treated wrongly
-/
namespace Verif.DeepCopy

/-- All names but those that begin with a small letter of ASCII. -/
def capital (n : String) : Bool := !(n.toList.head?.any Char.isLower)

/-- Declarations: types of the sample program, one of them disabled, one with methods of its own, a basic type, an alias, and a type that is not exported. -/
def sampleDecls : List Decl :=
  [⟨"Spec", .defined, { root := [true] }⟩, ⟨"Kinds", .defined, {}⟩, ⟨"Quantity", .defined, {}⟩, ⟨"Item", .defined, { generate := [false, true], root := [true] }⟩, ⟨"Name", .defined, {}⟩, ⟨"Other", .alias, {}⟩,
    ⟨"spec", .defined, {}⟩]

example : sample.generateFor .lifo capital { legacy := ["package,register"] } sampleDecls =
    some [("Kinds", [.deepCopyInto, .deepCopy]), ("Quantity", [.deepCopyInto]), ("Spec", [.deepCopyInto, .deepCopy, .deepCopyObject])] := by decide +kernel

example : (sampleDecls.map (·.name)).Nodup := by decide +kernel

/-- **C45**, violated: methods are written for `type P *Quantity` if `Quantity` has a method of its own.  Go does not allow methods of pointer types. -/
theorem C45_violated_pointer : ∃ (P : Prog) (d : Decl), P.under d.name = .ptr (.named "Quantity") ∧ ¬ OwnMethod P d.name ∧
    ∀ σ, P.generateFor σ capital { generate := [true] } [d] = some [("P", [.deepCopyInto, .deepCopy])] := by
  refine ⟨single "P" (.ptr (.named "Quantity")) [("Quantity", .struct [("i", .ptr (.basic true))])] (fun n => if n = "Quantity" then { copy := some false } else {}) ["Quantity"], ⟨"P", .defined, {}⟩, rfl, ?_, fun σ => ?_⟩
  · rintro (h | h)
    · exact h rfl
    · cases h
  · rw [(C45_file _ capital _ (ds := [⟨"P", .defined, {}⟩]) (by decide)).1 σ .fifo]
    decide +kernel

/-- **C45**, violated: in a package that is enabled, each exported interface type is taken for a type to copy, and the run reports an error for it. -/
theorem C45_violated_interface (P : Prog) (d : Decl) (hk : d.kind = .defined) (hm : d.markers.generate = [] ∧ d.markers.legacy = []) (he : capital d.name = true) {s : String} (hu : P.under d.name = .other s)
    (ho : (P.manual d.name).copy = none ∧ (P.manual d.name).into = false) (σ : Sched) :
    InFile (P.generateFor σ capital { generate := [true] } [d]) d.name .deepCopyInto ∧ ∀ depth, P.genInto (depth + 1) d.name = some (some { errs := 1 }) := by
  refine ⟨(C45_methods_partial P capital σ _ (ds := [d]) (by simp) ?_ d.name .deepCopyInto).2 ⟨d, List.mem_singleton.2 rfl, rfl, he, .type hk ?_ ?_, .package hm.1 hm.2 (.generate _ rfl), .deepCopyInto ho.2⟩, fun depth => ?_⟩
  · intro d' hd' t ht
    rw [List.mem_singleton.1 hd', hu] at ht
    cases ht
  · intro ok h; rw [hu] at h; cases h
  · intro ok h; rw [hu] at h; cases h
  · have h1 : P.hasCopy (.named d.name) = none := ho.1
    have h2 : P.hasInto (.named d.name) = false := ho.2
    have h3 : P.underlying (.named d.name) = .other s := hu
    simp [Prog.genInto, Prog.genBlock, Prog.genStep, Prog.hasAny, h1, h2, h3]

/-- **C58**, violated: a root object with a `DeepCopy` in the source gets no `DeepCopyObject`, whatever its markers are. -/
theorem C58_violated (P : Prog) (exported : String → Bool) (σ : Sched) (pkg : PkgMarkers) {ds : List Decl} (hnd : (ds.map (·.name)).Nodup) {d : Decl} (hd : d ∈ ds) (hc : (P.manual d.name).copy ≠ none) :
    ¬ InFile (P.generateFor σ exported pkg ds) d.name .deepCopyObject := by
  rw [generateFor_get, byType_get hnd (by intro d _; rfl), (find?_name hnd).2 ⟨hd, rfl⟩]
  rintro ⟨ms, h, hm⟩
  simp only at h
  split at h
  · cases h
    cases mem_methodsFor.1 hm with
    | deepCopyObject h1 _ => exact hc h1
  · cases h

/-- Such an object. -/
example : sample.generateFor .fifo capital { generate := [true] } [⟨"Quantity", .defined, { root := [true] }⟩] = some [("Quantity", [.deepCopyInto])] := by decide +kernel

end Verif.DeepCopy

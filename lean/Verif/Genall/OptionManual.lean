import Verif.Genall.OptionTableTheorems
import Verif.Markers.Manual
/-!
# A manual of the options of controller-gen (C73)

In the notation of `Verif.Markers.Manual`, written from the documentation of the options.
-/
namespace Verif.Genall
open Markers (Str Def Registry Loaded Env)
namespace OptionManual

/-- The generators. -/
def generators : List (String × String) := [
  ("crd", " ignoreUnexportedFields=bool? allowDangerousTypes=bool? maxDescLen=int? crdVersions=[]string? generateEmbeddedObjectMeta=bool? headerFile=string? year=string? deprecatedV1beta1CompatibilityPreserveUnknownFields=bool?"),
  ("rbac", " roleName=string fileName=string? headerFile=string? year=string?"),
  ("object", " headerFile=string? year=string?"),
  ("applyconfiguration", " headerFile=string?"),
  ("webhook", " headerFile=string? year=string?"),
  ("schemapatch", " manifests=string maxDescLen=int? generateEmbeddedObjectMeta=bool?")]

/-- The output rules. -/
def rules : List (String × String) := [("dir", " string"), ("none", ""), ("stdout", ""), ("artifacts", " config=string code=string?")]

/-- All options: each generator, each output rule for each generator and for all, and the paths. -/
def options : List (Str × Str) :=
  generators.flatMap (fun g => (g.1.toList, g.2.toList) :: rules.map fun r => ("output:".toList ++ g.1.toList ++ ':' :: r.1.toList, r.2.toList)) ++
  rules.map (fun r => ("output:".toList ++ r.1.toList, r.2.toList)) ++
  [("paths".toList, " []string".toList)]

end OptionManual

set_option maxRecDepth 100000 in
theorem optionTable_manual : (optionTable.map fun o => o.marker.define.map fun d => (d.name, (o.marker.parser d).fields.flatMap Markers.Manual.fieldText)) = OptionManual.options.map some := by
  decide +kernel

/-- **C73 (the manual is right).** Whatever the order of the maps, the options that are registered are those of the manual, with the arguments that it says, and each is registered once. -/
theorem C73_manual (σ : Sched) : ((initOptions σ).map fun o => o.marker.define.map fun d => (d.name, (o.marker.parser d).fields.flatMap Markers.Manual.fieldText)).Perm (OptionManual.options.map some) := by
  rw [← optionTable_manual]
  exact (initOptions_perm σ .fifo).map _

set_option maxRecDepth 100000 in
/-- What is made of the options: the generator of that name, the output rule of that name with its directories, or paths. -/
theorem C73_kinds : ∀ o ∈ optionTable,
    (∃ g ∈ OptionManual.generators, o.name = g.1.toList ∧ ∀ vals, o.value vals = .generator (o.name, vals)) ∨
    (∃ r ∈ OptionManual.rules, (o.name = "output:".toList ++ r.1.toList ∨ ∃ g ∈ OptionManual.generators, o.name = "output:".toList ++ g.1.toList ++ ':' :: r.1.toList) ∧ o.kind = .rule r.1.toList) ∨
    o.name = "paths".toList ∧ o.kind = .paths := by
  have h : (optionTable.all fun o => (OptionManual.generators.any fun g => decide (o.name = g.1.toList ∧ o.kind = .generator)) ||
      (OptionManual.rules.any fun r => decide ((o.name = "output:".toList ++ r.1.toList ∨ ∃ g ∈ OptionManual.generators, o.name = "output:".toList ++ g.1.toList ++ ':' :: r.1.toList) ∧ o.kind = .rule r.1.toList)) ||
      decide (o.name = "paths".toList ∧ o.kind = .paths)) = true := by decide +kernel
  intro o ho
  have := List.all_eq_true.1 h o ho
  simp only [Bool.or_eq_true, List.any_eq_true, decide_eq_true_eq] at this
  rcases this with (⟨g, hg, h1, h2⟩ | ⟨r, hr, h1, h2⟩) | h3
  · exact Or.inl ⟨g, hg, h1, fun vals => by rw [Opt.value, h2]⟩
  · exact Or.inr (Or.inl ⟨r, hr, h1, h2⟩)
  · exact Or.inr (Or.inr h3)

/-- What an output rule becomes: its directories are those that were given. -/
theorem C73_rules (n : Str) (out : Markers.Output) (vals : List (Str × Markers.Value)) (d c : Str) :
    (GoMap.get vals [] = some (.str d) → Opt.value ⟨n, .rule "dir".toList, out⟩ vals = .rule (.dir d)) ∧
    Opt.value ⟨n, .rule "none".toList, out⟩ vals = .rule .nothing ∧ Opt.value ⟨n, .rule "stdout".toList, out⟩ vals = .rule .stdout ∧
    (GoMap.get vals "config".toList = some (.str d) → GoMap.get vals "code".toList = some (.str c) → Opt.value ⟨n, .rule "artifacts".toList, out⟩ vals = .rule (.artifacts d c)) ∧
    (GoMap.get vals "config".toList = some (.str d) → GoMap.get vals "code".toList = none → Opt.value ⟨n, .rule "artifacts".toList, out⟩ vals = .rule (.artifacts d [])) := by
  have h1 : "none".toList ≠ "dir".toList := by decide +kernel
  have h2 : "stdout".toList ≠ "dir".toList ∧ "stdout".toList ≠ "none".toList := by decide +kernel
  have h3 : "artifacts".toList ≠ "dir".toList ∧ "artifacts".toList ≠ "none".toList ∧ "artifacts".toList ≠ "stdout".toList := by decide +kernel
  refine ⟨fun h => ?_, ?_, ?_, fun h h' => ?_, fun h h' => ?_⟩
  · rw [Opt.value]; dsimp only
    rw [if_pos rfl, textOf, h]
  · rw [Opt.value]; dsimp only
    rw [if_neg h1, if_pos rfl]
  · rw [Opt.value]; dsimp only
    rw [if_neg h2.1, if_neg h2.2, if_pos rfl]
  · rw [Opt.value]; dsimp only
    rw [if_neg h3.1, if_neg h3.2.1, if_neg h3.2.2, textOf, textOf, h, h']
  · rw [Opt.value]; dsimp only
    rw [if_neg h3.1, if_neg h3.2.1, if_neg h3.2.2, textOf, textOf, h, h']

end Verif.Genall

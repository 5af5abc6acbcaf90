import Verif.Patch.AgreeTheorems
import Verif.Patch.SourceExamples
import Verif.CrdGen.SameExamples
/-!
# C96: concrete cases, and what does not hold
-/
namespace Verif.Patch.AgreeCase
open Spec SourceCase
open Verif.Crd (Schema Stop metaPath addKnownTypes)
open Verif.Crd.Spec (envOf Tidy)
open Verif.CrdGen (GSrc Opts State Scheds GroupKind findMetav1 findKinds)
open Verif.CrdGen.Spec (OrderlyTypes Plain KindIn)
open Verif.CrdGen.SameSample (S opts fifo lifo few all fine plain_of)

/-! ## A manifest of `Box` with both versions, patched from the packages `v1` and `v2` -/

abbrev exec := execLoop S opts fifo (set ["v1", "v2"]) (S.groupVersions (start S few).parser) ["v2", "v1"] [] (start S few) []

def lidS : Schema := .mk { type := "object", required := ["name"] } none [] [] [] none [("name", .leaf { type := "string" })] none [] [] none []
def box2S : Schema := .mk { type := "object", required := ["lid"] } none [] [] [] none [("metadata", .leaf { type := "object" }), ("lid", lidS)] none [] [] none []

def box1S : Schema := .mk { type := "object", required := ["lid", "size"] } none [] [] [] none
  [("metadata", .leaf { type := "object" }), ("size", .leaf { type := "string", maxLength := some 3, pattern := "a" }), ("lid", lidS)] none [] [] none []

def execNew : New := [("v2", box2S), ("v1", box1S)]
def execSt : State := match exec with | some (.ok (st, _)) => st | _ => {}

theorem exec_new : newOf exec = some (execNew, 0, 0) := by decide +kernel
theorem fine_exec : fine (envOf S.src execSt.parser) := by decide +kernel
theorem found_meta : findMetav1 S few = some metaPath := by decide +kernel
theorem found_kinds : findKinds S fifo.kinds metaPath (start S few).parser = [⟨"g.io", "Box"⟩] := by decide +kernel
theorem parsed_two : Parsed (crdWith ["v1", "v2"]) := ⟨{}, _, rfl, nodocs_of_check (by decide +kernel), pairs_of_check (by decide +kernel)⟩

abbrev written : Run := patchAndWrite .fifo tree [(("g.io", "Box"), set ["v1", "v2"])] [(("g.io", "Box"), execNew)]

theorem written_ok : written.status = .ok () := by decide +kernel
theorem written_one : ∃ w, written.writes = [w] := List.length_eq_one_iff.1 (by decide +kernel)
theorem crd_here : DirExample.crdOf (crdWith ["v1", "v2"]) = some ⟨"g.io", "Box", ["v1", "v2"]⟩ := by decide +kernel

theorem run_here : ∃ st, Runs S opts fifo .fifo tree (lib ["v1", "v2"]) (some dir) few (.ok (st, written)) ∧ Plain S st := by
  obtain ⟨st, hne, hx, hr⟩ := runs_exist tree found_meta found_kinds sets_two exec_new
  have : execSt = st := by unfold execSt exec; rw [hx]
  exact ⟨st, hr, plain_of hne.1 (this ▸ fine_exec)⟩

theorem perVersion (group : String) : PackagePerVersion S group := by
  have hv : ∀ pkg ver, CrdGen.Spec.VersionOfPkg S pkg ver → ver = pkg := by
    rintro pkg ver (h | ⟨-, h⟩)
    · cases h
    · exact h
  intro pkg pkg' ver _ _ h h'
  rw [← hv pkg ver h, ← hv pkg' ver h']

theorem crd_files : ((CrdGen.SameSample.out lifo all).files.map fun f => (f.2.group, f.2.names.kind, f.2.versions.map fun v => v.name)) = [("g.io", "Box", ["v1", "v2"]), ("o.io", "Crate", ["o1"])] := by decide +kernel

open CrdGen.SameSample in
/-- The hypotheses of `C96_agree_partial` are met by a run of the CRD generator with another package as well, and other orders of maps: both versions of the manifest of `Box` get the schemas of the CRD. -/
example : ∃ (st' : State) (run : Run) (w : CrdFile) (s : String → Option Schema) (f : String × CrdGen.Crd), Runs S opts fifo .fifo tree (lib ["v1", "v2"]) (some dir) few (.ok (st', run)) ∧ w ∈ run.writes ∧
    PatchedDocument (fun ver => (s ver).map tree) (crdWith ["v1", "v2"]) w.doc ∧ f ∈ (out lifo all).files ∧ f.2.versions.map (·.name) = ["v1", "v2"] ∧ ∀ v ∈ f.2.versions, s v.name = some v.schema := by
  obtain ⟨st', hr, hp⟩ := run_here
  obtain ⟨w, hw⟩ := written_one
  have hw : w ∈ written.writes := by rw [hw]; simp
  obtain ⟨e, -, c, doc, -, hm, s, h1, h2⟩ := C96_agree_partial (b := false) rfl tidy orderlyTypes (run_ok ran_all.1) ran_all.2.1 hr written_ok (plain_of ran_all.2.2 fine_all) hp
    (fun e _ c doc h => by rw [(manifest_eq h).1]; exact parsed_two) w hw
  obtain ⟨rfl, hc⟩ := manifest_eq hm
  rw [crd_here] at hc
  cases hc
  have hmem : ("g.io", "Box", ["v1", "v2"]) ∈ (out lifo all).files.map fun f => (f.2.group, f.2.names.kind, f.2.versions.map fun v => v.name) := by rw [crd_files]; simp
  obtain ⟨f, hf, he⟩ := List.mem_map.1 hmem
  simp only [Prod.mk.injEq] at he
  obtain ⟨e1, e2, e3⟩ := he
  have ha := h2 (perVersion _) f hf e1 e2
  have hall : ∀ v ∈ f.2.versions, s v.name = some v.schema := by
    intro v hv
    have hn : v.name ∈ ["v1", "v2"] := e3 ▸ List.mem_map_of_mem hv
    refine ha.there v hv hn ⟨v.name, hn, ⟨(kind_few _).2 rfl, ?_, .inr ⟨rfl, rfl⟩⟩⟩
    simp only [List.mem_cons, List.not_mem_nil, or_false] at hn
    rcases hn with e | e <;> rw [e] <;> decide +kernel
  refine ⟨st', _, w, s, f, hr, hw, ?_, hf, e3, hall⟩
  rcases h1 with ⟨h1, -⟩ | h1
  · have hv : ∃ v, v ∈ f.2.versions := by
      cases hx : f.2.versions with
      | nil => rw [hx] at e3; cases e3
      | cons v _ => exact ⟨v, by simp⟩
    obtain ⟨v, hv⟩ := hv
    have := hall v hv
    rw [h1] at this
    cases this
  · exact h1

/-! ## What does not hold -/

open CrdGen.SameSample in
abbrev otherExec := execLoop (other "Apple") opts fifo (set ["v1", "v2"]) ((other "Apple").groupVersions (start (other "Apple") ["v1", "o1"]).parser) ["v1", "o1"] [] (start (other "Apple") ["v1", "o1"]) []

def otherNew : New := [("v1", .mk { type := "object" } none [] [] [] none [("metadata", .leaf { type := "object" })] none [] [] none [])]

open CrdGen.SameSample in
theorem other_kinds : findKinds (other "Apple") fifo.kinds metaPath (start (other "Apple") ["v1", "o1"]).parser = [⟨"o.io", "Apple"⟩, ⟨"g.io", "Box"⟩] := by decide +kernel

open CrdGen.SameSample in
/-- **C96 does not hold** for versions in packages that are not named on the command line: with `paths=./v1;./o1`, the CRD generator writes the versions `v1` and `v2` of `Box`, since it makes the schema of the kind `Apple` first,
for which package `v2` is loaded.  With the same command line, and the manifest of `Box` only, schemapatch does not make the schema of `Apple`: it removes the schema of `v2` from the manifest.  No error is reported. -/
theorem C96_violated_unnamed : versions (CrdGen.generate (other "Apple") opts fifo ["v1", "o1"]) = some ["v1", "v2"] ∧
    ∃ st run, CrdGen.Spec.NoErrors st ∧ Runs (other "Apple") opts fifo .fifo tree (lib ["v1", "v2"]) (some dir) ["v1", "o1"] (.ok (st, run)) ∧ run.status = .ok () ∧
      shown run = some [("v1", some ("object", ["metadata"])), ("v2", none)] := by
  refine ⟨C95_violated_other.2.1, ?_⟩
  have h : newOf otherExec = some (otherNew, 0, 0) := by decide +kernel
  cases hx : otherExec with
  | none => rw [hx] at h; cases h
  | some r =>
    cases r with
    | error x => rw [hx] at h; cases h
    | ok x =>
      obtain ⟨st, n⟩ := x
      rw [hx] at h
      simp only [newOf, Option.some.injEq, Prod.mk.injEq] at h
      obtain ⟨rfl, h4, h5⟩ := h
      refine ⟨st, patchAndWrite .fifo tree [(("g.io", "Box"), set ["v1", "v2"])] [(("g.io", "Box"), otherNew)], ⟨h4, h5⟩, .patched (m := metaPath) (by decide +kernel) sets_two ?_, by decide +kernel, by decide +kernel⟩
      rw [other_kinds]
      exact .other rfl (.wanted (set := set ["v1", "v2"]) rfl (execLoop_loop hx) .nil)

end Verif.Patch.AgreeCase

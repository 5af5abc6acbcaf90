import Verif.Genall.OutputTheorems
import Verif.CrdGen.Generate
/-!
# Where the files of CRDs go (C36)
-/
namespace Verif.Genall
open Markers (Str)
open Spec

/-- **C36** (CRDs), for groups, plurals and versions without a slash: the file of a CRD is directly in the directory of the rule, under a name that begins with the group and the plural. -/
theorem C36_crd_file_partial (cwd : List Str) {d : Str} (hd : d ≠ []) (crd : CrdGen.Crd) (i : Nat) (ver : String) (hg : '/' ∉ crd.group.toList) (hp : '/' ∉ crd.names.plural.toList) (hv : '/' ∉ ver.toList) :
    locate cwd (joinPath d (CrdGen.fileName crd i ver).toList) = locate cwd d ++ [(CrdGen.fileName crd i ver).toList] ∧
    (crd.group ++ "_" ++ crd.names.plural).toList <+: (CrdGen.fileName crd i ver).toList := by
  have hname : ∃ rest, (CrdGen.fileName crd i ver).toList = crd.group.toList ++ '_' :: crd.names.plural.toList ++ rest ∧ '/' ∉ rest := by
    unfold CrdGen.fileName
    split
    · exact ⟨".yaml".toList, by simp, by decide +kernel⟩
    · refine ⟨".".toList ++ ver.toList ++ ".yaml".toList, by simp, ?_⟩
      simp only [List.mem_append, not_or]
      exact ⟨⟨by decide +kernel, hv⟩, by decide +kernel⟩
  obtain ⟨rest, he, hr⟩ := hname
  have hu : '_' ∈ (CrdGen.fileName crd i ver).toList := by rw [he]; simp
  constructor
  · refine C36_direct cwd hd ?_ ?_ ?_ ?_
    · rw [he]
      simp only [List.mem_append, List.mem_cons, not_or]
      exact ⟨⟨hg, by decide, hp⟩, hr⟩
    all_goals (intro h; rw [h] at hu; simp at hu)
  · rw [he]
    exact ⟨rest, by simp⟩

/-- **C36** (CRDs), violated: the group is what the marker `+groupName` says, with slashes if there are some, and then the file is outside of the directory. -/
theorem C36_violated_group : ∃ crd : CrdGen.Crd, joinPath "config/crd".toList (CrdGen.fileName crd 0 "v1").toList = "../../etc/x_foos.yaml".toList := by
  refine ⟨{ group := "../../../../etc/x", names := { plural := "foos" } }, ?_⟩
  decide +kernel

end Verif.Genall

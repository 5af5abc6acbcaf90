import Verif.Genall.CrashTheorems
import Verif.Genall.AgainExamples
import Verif.Genall.ArtifactsExamples
/-!
# Interrupted runs of the command of `AgainExamples.lean` (C93)
-/
namespace Verif.Genall.AgainCase
open Markers (Str)
open Spec
open DeepCopy (Method)

/-- The text of an artifact in two parts, the first of which ends after the build constraint. -/
def halves (a : Artifact) : List Str := [a.text.take 34, a.text.drop 34]

theorem divides_halves : Divides halves := fun a => by simp [halves]

theorem root_of2' : check ((command usual).loaded go (diskWith src2 file1)) = [root2] := by rw [check2]; exact root_of2

theorem ops_eq (pieces : Artifact → List Str) : (command usual).ops go pieces (diskWith src2 file1) =
    .create zz :: (pieces ⟨some ["/p/v1/types.go".toList], "zz_generated.deepcopy.go".toList, text header file2⟩).map (.append zz) := by
  unfold Command.ops
  rw [steps_of root_of2' out2 ((get_header _).2 _)]
  have hz : locate ["p".toList] (joinPath (dirOf "/p/v1/types.go".toList) "zz_generated.deepcopy.go".toList) = zz := by decide +kernel
  rw [← hz]
  show _ ++ [] = _
  rw [List.append_nil]
  show _ ++ [] = _
  rw [List.append_nil]
  rfl

theorem good2 : Command.Good go (command usual) (diskWith src2 file1) := good root_of2' out2 ((get_header _).2 _) noC2
theorem keeps2 : Command.Keeps go (command usual) (diskWith src2 file1) := keeps root_of2' out2 ((get_header _).2 _) (by rw [check2]; decide +kernel)

theorem apart2 : Apart (command usual).cwd (command usual).rules ((command usual).steps go (diskWith src2 file1)) := by
  rw [steps_of root_of2' out2 ((get_header _).2 _)]
  refine ⟨fun i j s t r r' h1 h2 hne => ?_, fun i s r h1 _ _ => ?_⟩
  · have hi := (List.getElem?_eq_some_iff.1 h1).1
    have hj := (List.getElem?_eq_some_iff.1 h2).1
    simp only [List.length_singleton] at hi hj
    omega
  · have hs := List.mem_of_getElem? h1
    rw [List.mem_singleton] at hs
    subst hs
    exact List.pairwise_singleton _ _

theorem put_zz (v : Str) : GoMap.put (diskWith src2 file1) zz v = [(types, src2), (boilerplate, header), (zz, v)] := by
  have h1 : types ≠ zz := by decide +kernel
  have h2 : boilerplate ≠ zz := by decide +kernel
  simp [diskWith, GoMap.put, h1, h2]

theorem begun : (command usual).interrupted go halves 1 (diskWith src2 file1) = [(types, src2), (boilerplate, header), (zz, [])] := by
  unfold Command.interrupted
  rw [ops_eq]
  exact put_zz []

theorem half : (command usual).interrupted go halves 2 (diskWith src2 file1) = GoMap.put (diskWith src2 file1) zz ((text header file2).take 34) := by
  unfold Command.interrupted
  rw [ops_eq]
  show GoMap.put (GoMap.put _ zz []) zz ((GoMap.get (GoMap.put _ zz []) zz).getD [] ++ _) = _
  rw [put_put, GoMap.get_put, if_pos rfl]
  rfl

/-- The hypotheses of `C93_one_partial` are met; -/
example (n : Nat) := C93_one_partial good2 apart2 divides_halves n

/-- so are those of `C93_other`, for the source; -/
example (n : Nat) : GoMap.get ((command usual).interrupted go halves n (diskWith src2 file1)) types = some src2 := by
  refine (C93_other good2 divides_halves n fun t h => ?_).trans (by simp [diskWith, GoMap.get])
  refine (keeps2 _ _ h).2 src2 (by simp [diskWith, GoMap.get]) ?_
  rw [check2]
  exact List.mem_singleton.2 rfl

/-- of `C93_whole`; -/
example (place : List Str) : GoMap.get ((command usual).interrupted go halves 3 (diskWith src2 file1)) place = GoMap.get ((command usual).run go (diskWith src2 file1)) place :=
  C93_whole good2 divides_halves (by rw [ops_eq]; exact Nat.le_refl 3) place

theorem half_constraint : constraint ((text header file2).take 34) = .one "//go:build !ignore_autogenerated".toList := by decide +kernel

/-- and of `C93_repair_partial`, half way through the file. -/
example : GoMap.get ((command usual).run go ((command usual).interrupted go halves 2 (diskWith src2 file1))) zz = some (text header file2) := by
  refine (C93_repair_partial documented (wf2 _ _) good2 keeps2 divides_halves 2 (fun p t h1 h2 _ => ?_) zz).trans ?_
  · rw [half, GoMap.get_put] at h1
    split at h1
    · cases h1
      exact half_constraint
    · exact (h2 h1).elim
  · rw [run_of root_of2' out2 ((get_header _).2 _), GoMap.get_put, if_pos rfl]

theorem begins2 : Command.Begins go (command usual) (diskWith src2 file1) := by
  intro s hs _ a ha
  rw [steps_of root_of2' out2 ((get_header _).2 _), List.mem_singleton] at hs
  subst hs
  cases List.mem_singleton.1 ha
  exact ⟨(text header file2).drop 33, by decide +kernel, by unfold NoConstraint; decide +kernel⟩

/-- So are those of `C93_repair_code_partial`, there. -/
example : GoMap.get ((command usual).run go ((command usual).interrupted go halves 2 (diskWith src2 file1))) zz = some (text header file2) := by
  refine (C93_repair_code_partial documented (wf2 _ _) good2 keeps2 begins2 divides_halves 2 (fun p t h1 h2 _ => ?_) zz).trans ?_
  · rw [half, GoMap.get_put] at h1
    split at h1
    · cases h1
      rw [← List.isPrefixOf_iff_prefix]
      decide +kernel
    · exact (h2 h1).elim
  · rw [run_of root_of2' out2 ((get_header _).2 _), GoMap.get_put, if_pos rfl]

/-- `controller-gen rbac:roleName=manager webhook output:dir=out paths=./...`, for some texts of the roles and webhooks. -/
def manifests (roleText : List Rbac.RoleObj → Str) (hookText : List Webhook.Obj → Str) : Command where
  cwd := ["p".toList]
  tags := usual
  rules := { default := some (.dir "out".toList), byGenerator := [] }
  headers := []
  plan := fun _ _ => [ArtifactsCase.rbacStep roleText "manager", ⟨.webhook, webhookArtifacts hookText ArtifactsCase.webhooks, none⟩]
  errors := fun _ _ => []
  visited := fun _ => []

/-- The hypotheses of `C93_repair_manifests` are met by this command on any disk: wherever it is interrupted, its roles are there after the next run. -/
example (roleText : List Rbac.RoleObj → Str) (hookText : List Webhook.Obj → Str) {d : Disk} (hwf : GoMap.WF d) (n : Nat) (place : List Str) :
    GoMap.get ((manifests roleText hookText).run go ((manifests roleText hookText).interrupted go halves n d)) place = GoMap.get ((manifests roleText hookText).run go d) place := by
  have hr : ∀ i, (manifests roleText hookText).rules.forGenerator i = some (.dir "out".toList) := fun i => by simp [manifests, OutputRules.forGenerator, GoMap.get]
  have hst : (manifests roleText hookText).steps go d = [ArtifactsCase.rbacStep roleText "manager", ⟨.webhook, webhookArtifacts hookText ArtifactsCase.webhooks, none⟩] := rfl
  have hrole : ∀ a ∈ (ArtifactsCase.rbacStep roleText "manager").artifacts, a.item = "role.yaml".toList := by
    intro a ha
    simp only [ArtifactsCase.rbacStep, ArtifactsCase.roles, rbacArtifacts, Option.toList_some, List.map_cons, List.map_nil, List.mem_singleton] at ha
    rw [ha]
  have hmade : ∀ s ∈ (manifests roleText hookText).steps go d, Made s.tool s.artifacts := by
    rw [hst]
    intro s hs
    rcases List.mem_cons.1 hs with rfl | hs
    · exact ArtifactsCase.made_rbac roleText "manager"
    · rw [List.mem_singleton] at hs
      subst hs
      exact ArtifactsCase.made_webhook hookText
  have hobj : ∀ s ∈ (manifests roleText hookText).steps go d, s.tool ≠ .object := by
    rw [hst]
    intro s hs
    rcases List.mem_cons.1 hs with rfl | hs
    · nofun
    · rw [List.mem_singleton] at hs
      subst hs
      nofun
  have hroles : ∀ s ∈ (manifests roleText hookText).steps go d, s.tool = .rbac → ∀ a ∈ s.artifacts, ¬ ".go".toList <:+ a.item := by
    rw [hst]
    intro s hs ht a ha
    rcases List.mem_cons.1 hs with rfl | hs
    · rw [hrole a ha]
      decide +kernel
    · rw [List.mem_singleton] at hs
      subst hs
      cases ht
  have hgood : Command.Good go (manifests roleText hookText) d :=
    ⟨by simp [manifests, usual], fun i => by rw [hr]; nofun, hmade, hroles, some, fun s s' l e h => by cases e; exact h, fun s hs ht => (hobj s hs ht).elim⟩
  refine C93_repair_manifests documented hwf hgood (fun p t hw => ⟨nofun, fun t' _ hm => ?_⟩) divides_halves n hobj place
  obtain ⟨i, s, r, a, dir, k1, -, k3, -, rfl, -⟩ := hw
  have hs := List.mem_of_getElem? k1
  have hgo : ".go".toList <:+ a.item := by
    have h2 := (List.mem_filter.1 hm).2
    unfold GoCmd.chooses at h2
    rw [Bool.and_eq_true] at h2
    have h3 := documented.go _ h2.1
    rw [List.getLastD_eq_getLast?, List.getLast?_append] at h3
    simpa using h3
  rw [hst] at hs
  rcases List.mem_cons.1 hs with rfl | hs
  · rw [hrole a k3] at hgo
    exact absurd hgo (by decide +kernel)
  · rw [List.mem_singleton] at hs
    subst hs
    have hn := (facts (ArtifactsCase.made_webhook hookText)).named a k3
    rw [show a.item = "manifests.yaml".toList from hn] at hgo
    exact absurd hgo (by decide +kernel)

/-- **C93**, violated: `os.Create` empties the file before anything is written, so a run that is interrupted there leaves neither the methods of the earlier run nor those of this one. -/
theorem C93_violated_lost : ∃ (G : GoCmd) (c : Command) (pieces : Artifact → List Str) (n : Nat) (disk : Disk) (place : List Str) (old new : Str), GoCmd.Documented G ∧ Command.Good G c disk ∧ Command.Keeps G c disk ∧
    Apart c.cwd c.rules (c.steps G disk) ∧ Divides pieces ∧ GoMap.get disk place = some old ∧ GoMap.get (c.run G disk) place = some new ∧ old ≠ [] ∧ new ≠ [] ∧
    GoMap.get (c.interrupted G pieces n disk) place = some [] := by
  refine ⟨go, command usual, halves, 1, diskWith src2 file1, zz, text header file1, text header file2, documented, good2, keeps2, apart2, divides_halves, get_zz' _ _, ?_, by decide +kernel, by decide +kernel, ?_⟩
  · rw [run_of root_of2' out2 ((get_header _).2 _), GoMap.get_put, if_pos rfl]
  · rw [begun]
    decide +kernel

/-- **C93**, violated: the empty Go file has no build constraint, so the next run loads it as one of the sources, which it does with no other file of an earlier run. -/
theorem C93_violated_loaded : ∃ (G : GoCmd) (c : Command) (pieces : Artifact → List Str) (n : Nat) (disk : Disk) (place : List Str), GoCmd.Documented G ∧ Command.Good G c disk ∧ Command.Keeps G c disk ∧
    Divides pieces ∧ (∀ text, (place, text) ∉ c.loaded G disk) ∧ (∀ text, (place, text) ∉ c.loaded G (c.run G disk)) ∧ (place, []) ∈ c.loaded G (c.interrupted G pieces n disk) := by
  have h0 : ∀ text, (zz, text) ∉ (command usual).loaded go (diskWith src2 file1) := by
    rw [check2]
    intro t h
    have := congrArg Prod.fst (List.mem_singleton.1 h)
    exact absurd this (by decide +kernel : zz ≠ types)
  refine ⟨go, command usual, halves, 1, diskWith src2 file1, zz, documented, good2, keeps2, divides_halves, h0, ?_, ?_⟩
  · rw [loaded_run documented good2 (wf2 _ _) keeps2]
    exact h0
  · rw [begun]
    decide +kernel

end Verif.Genall.AgainCase

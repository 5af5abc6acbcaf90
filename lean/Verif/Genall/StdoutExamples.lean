import Verif.Genall.StdoutTheorems
import Verif.Genall.ArtifactsExamples
/-!
# Runs that print (C94)
-/
namespace Verif.Genall.StdoutCase
open Markers (Str)
open Loader (PkgErr)
open Spec ToolExample ArtifactsCase

/-- `rbac` and `webhook` print, `object` writes its files. -/
def line : List String := ["rbac:roleName=manager", "webhook", "object", "output:stdout", "output:object:artifacts:config=out", "paths=./..."]

theorem line_ok : understood line = some (.ok
    { paths := ["./...".toList], generators := [("rbac".toList, [("roleName".toList, .str "manager".toList)]), ("webhook".toList, []), ("object".toList, [])],
      rules := { default := some .stdout, byGenerator := [(2, .artifacts "out".toList [])] }, generatorsByName := [("rbac".toList, 0), ("webhook".toList, 1), ("object".toList, 2)] }) := by decide +kernel

theorem line_rules : rulesOf line = { default := some .stdout, byGenerator := [(2, .artifacts "out".toList [])] } := by
  rw [rulesOf, line_ok]
  decide +kernel

/-- The texts of the manifests, shortened, with the header of an option `headerFile`. -/
def roleText (header : Str) : List Rbac.RoleObj → Str := fun _ => fileText header ["kind: ClusterRole\n".toList]
def hookText (header : Str) : List Webhook.Obj → Str := fun _ => fileText header ["kind: MutatingWebhookConfiguration\n".toList, "kind: ValidatingWebhookConfiguration\n".toList]
def codeText : String → List (String × List DeepCopy.Method) → Str := fun p _ => "package ".toList ++ p.toList ++ "\n".toList

theorem webhooks_files : webhooks.map (·.1) = ["manifests.yaml"] := by decide +kernel

attribute [local irreducible] webhooks

def steps (header : Str) : List Step := [rbacStep (roleText header) "manager", ⟨.webhook, webhookArtifacts (hookText header) webhooks, none⟩, objectStep codeText]

theorem role_artifacts (header : Str) : (rbacStep (roleText header) "manager").artifacts.map (·.text) = [fileText header ["kind: ClusterRole\n".toList]] := by
  rw [rbacStep, roles]
  rfl

theorem hook_artifacts (header : Str) : (webhookArtifacts (hookText header) webhooks).map (·.text) = [fileText header ["kind: MutatingWebhookConfiguration\n".toList, "kind: ValidatingWebhookConfiguration\n".toList]] := by
  have h := congrArg (List.map fun _ => fileText header ["kind: MutatingWebhookConfiguration\n".toList, "kind: ValidatingWebhookConfiguration\n".toList]) webhooks_files
  rw [List.map_map] at h
  rw [webhookArtifacts, List.map_map]
  exact h

/-- What is printed: not the Go files. -/
theorem printed_texts (header : Str) : (printed (rulesOf line) (steps header)).map (·.text) =
    [fileText header ["kind: ClusterRole\n".toList], fileText header ["kind: MutatingWebhookConfiguration\n".toList, "kind: ValidatingWebhookConfiguration\n".toList]] := by
  have h : printed (rulesOf line) (steps header) = (rbacStep (roleText header) "manager").artifacts ++ webhookArtifacts (hookText header) webhooks := by
    rw [line_rules]
    simp [printed, printedFrom, steps, OutputRules.forGenerator, GoMap.get]
  rw [h, List.map_append, role_artifacts, hook_artifacts]
  rfl

theorem stdout_eq (header : Str) (errors : World → Nat → List PkgErr) (visited : World → List Nat) {w : World} (hw : w.stdout = []) :
    (run (rulesOf line) errors visited ((steps header).map (Step.gen ["p".toList])) w).1.stdout =
      fileText header ["kind: ClusterRole\n".toList] ++ fileText header ["kind: MutatingWebhookConfiguration\n".toList, "kind: ValidatingWebhookConfiguration\n".toList] := by
  rw [C94_printed, hw, printed_texts]
  simp

theorem doc_ok : ∀ d ∈ ["kind: ClusterRole\n".toList, "kind: MutatingWebhookConfiguration\n".toList, "kind: ValidatingWebhookConfiguration\n".toList], DocText d := by
  intro d hd
  simp only [List.mem_cons, List.not_mem_nil, or_false] at hd
  rcases hd with rfl | rfl | rfl
  · exact ⟨⟨"kind: ClusterRole".toList, by decide +kernel⟩, by decide +kernel, "kind: ClusterRole".toList, [], by decide +kernel, by decide +kernel⟩
  · exact ⟨⟨"kind: MutatingWebhookConfiguration".toList, by decide +kernel⟩, by decide +kernel, "kind: MutatingWebhookConfiguration".toList, [], by decide +kernel, by decide +kernel⟩
  · exact ⟨⟨"kind: ValidatingWebhookConfiguration".toList, by decide +kernel⟩, by decide +kernel, "kind: ValidatingWebhookConfiguration".toList, [], by decide +kernel, by decide +kernel⟩

/-- The hypotheses of `C94_read_partial` hold of this run with the header `# Copyright` and a newline. -/
theorem reads (errors : World → Nat → List PkgErr) (visited : World → List Nat) {w : World} (hw : w.stdout = []) :
    All2 SameDocument (documents (run (rulesOf line) errors visited ((steps "# Copyright\n".toList).map (Step.gen ["p".toList])) w).1.stdout)
      ((printed (rulesOf line) (steps "# Copyright\n".toList)).flatMap fun a => documents a.text) := by
  refine C94_read_partial _ _ _ errors visited hw fun a ha => ?_
  have h : a.text ∈ (printed (rulesOf line) (steps "# Copyright\n".toList)).map (·.text) := List.mem_map.2 ⟨a, ha, rfl⟩
  rw [printed_texts, List.mem_cons, List.mem_singleton] at h
  have hh : HeaderText "# Copyright\n".toList := by unfold HeaderText; decide +kernel
  have hn : "# Copyright\n".toList = [] ∨ ∃ h, "# Copyright\n".toList = h ++ ['\n'] := .inr ⟨"# Copyright".toList, by decide +kernel⟩
  rcases h with h | h
  · exact ⟨_, _, h, hh, hn, fun d hd => doc_ok d (by simp only [List.mem_singleton] at hd; simp [hd])⟩
  · exact ⟨_, _, h, hh, hn, fun d hd => doc_ok d (by simp only [List.mem_cons, List.not_mem_nil, or_false] at hd; rcases hd with hd | hd <;> simp [hd])⟩

/-- There are three documents; the header of the second file is at the end of the first document. -/
theorem three (errors : World → Nat → List PkgErr) (visited : World → List Nat) {w : World} (hw : w.stdout = []) :
    documents (run (rulesOf line) errors visited ((steps "# Copyright\n".toList).map (Step.gen ["p".toList])) w).1.stdout =
      [["kind: ClusterRole".toList, "# Copyright".toList], ["kind: MutatingWebhookConfiguration".toList], ["kind: ValidatingWebhookConfiguration".toList]] := by
  rw [stdout_eq _ _ _ hw]
  decide +kernel

/-- **C94 is violated**: without the newline at the end of the header, the `---` of the second file is part of the comment, and the objects of two files are read as one document (with two `kind`s). -/
theorem C94_violated_header (errors : World → Nat → List PkgErr) (visited : World → List Nat) {w : World} (hw : w.stdout = []) :
    let docs := documents (run (rulesOf line) errors visited ((steps "# Copyright".toList).map (Step.gen ["p".toList])) w).1.stdout
    docs = [["kind: ClusterRole".toList, "# Copyright---".toList, "kind: MutatingWebhookConfiguration".toList], ["kind: ValidatingWebhookConfiguration".toList]] ∧
    ¬ All2 SameDocument docs ((printed (rulesOf line) (steps "# Copyright".toList)).flatMap fun a => documents a.text) := by
  have h : documents (run (rulesOf line) errors visited ((steps "# Copyright".toList).map (Step.gen ["p".toList])) w).1.stdout =
      [["kind: ClusterRole".toList, "# Copyright---".toList, "kind: MutatingWebhookConfiguration".toList], ["kind: ValidatingWebhookConfiguration".toList]] := by
    rw [stdout_eq _ _ _ hw]
    decide +kernel
  refine ⟨h, fun hc => ?_⟩
  have hl := hc.length_eq
  rw [h, show (printed (rulesOf line) (steps "# Copyright".toList)).flatMap (fun a => documents a.text) = ((printed (rulesOf line) (steps "# Copyright".toList)).map (·.text)).flatMap documents by rw [List.flatMap_map], printed_texts] at hl
  revert hl
  decide +kernel

/-- `rbac` and `object`, both printed. -/
def codeLine : List String := ["rbac:roleName=manager", "object", "output:stdout", "paths=./..."]

theorem codeLine_ok : understood codeLine = some (.ok
    { paths := ["./...".toList], generators := [("rbac".toList, [("roleName".toList, .str "manager".toList)]), ("object".toList, [])],
      rules := { default := some .stdout, byGenerator := [] }, generatorsByName := [("rbac".toList, 0), ("object".toList, 1)] }) := by decide +kernel

theorem codeLine_rules : rulesOf codeLine = { default := some .stdout, byGenerator := [] } := by
  rw [rulesOf, codeLine_ok]
  decide +kernel

/-- **C94 is violated**: with `output:stdout` the Go files of `object` are printed too, and are read as a part of the last manifest. -/
theorem C94_violated_code (errors : World → Nat → List PkgErr) (visited : World → List Nat) {w : World} (hw : w.stdout = []) :
    documents (run (rulesOf codeLine) errors visited ([rbacStep (roleText []) "manager", objectStep codeText].map (Step.gen ["p".toList])) w).1.stdout =
      [["kind: ClusterRole".toList, "package example.com/v1".toList, "package example.com/v2".toList]] := by
  rw [C94_printed, hw, codeLine_rules]
  have h : (printed { default := some .stdout, byGenerator := [] } [rbacStep (roleText []) "manager", objectStep codeText]).map (·.text) =
      (rbacStep (roleText []) "manager").artifacts.map (·.text) ++ ["package example.com/v1\n".toList, "package example.com/v2\n".toList] := by
    simp only [printed, printedFrom, OutputRules.forGenerator, GoMap.get, if_pos, List.append_nil, List.map_append]
    congr 1
  rw [h, role_artifacts]
  decide +kernel

end Verif.Genall.StdoutCase

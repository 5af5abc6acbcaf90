import Verif.Webhook.TogetherTheorems
import Verif.Webhook.SourceExamples
/-!
# C99: examples, and where the property does not hold
-/
namespace Verif.Webhook.TogetherCase
open Verif Verif.Markers Verif.Markers.Source Verif.Markers.Spec Verif.Markers.Collect Spec
open Verif.Webhook.SourceExamples
open Verif.Markers.Collect.Examples (c other fileWF)

/-! ## A package with a webhook only, and one with a name only -/

def hookFile : File where
  groups := [⟨140, [hook]⟩]
  node := { id := 0, kind := .file, pos := 0, «end» := 450 }
  children := [.node (other 1 8 11) [], .node { id := 4, kind := .genDecl true false, pos := 420, «end» := 440 } [.node { id := 5, kind := .typeSpec, pos := 425, «end» := 440 } []]]

def confFile : File where
  groups := [⟨20, [conf]⟩]
  node := { id := 0, kind := .file, pos := 0, «end» := 450 }
  children := [.node (other 1 8 11) [], .node { id := 4, kind := .genDecl true false, pos := 420, «end» := 440 } [.node { id := 5, kind := .typeSpec, pos := 425, «end» := 440 } []]]

theorem hookFile_wf : hookFile.WF :=
  fileWF (by decide +kernel) (by decide +kernel) (by decide +kernel) (by decide +kernel) (by decide +kernel) (by decide +kernel) rfl (by decide +kernel)

theorem confFile_wf : confFile.WF :=
  fileWF (by decide +kernel) (by decide +kernel) (by decide +kernel) (by decide +kernel) (by decide +kernel) (by decide +kernel) rfl (by decide +kernel)

theorem marks_hookFile {x : Comment} (h : hookFile.Marks x) : x = hook := by
  obtain ⟨g, hg, hx, -⟩ := h
  simp only [hookFile, List.mem_cons, List.not_mem_nil, or_false] at hg
  subst hg
  simpa using hx

/-- The hypotheses of `C99_name_partial` hold of two packages that both have a webhook, of which the first names the object. -/
theorem named_ok (E : Env) : (∀ files ∈ [[file], [hookFile]], ∀ f ∈ files, f.WF) ∧ WellWritten E [[file], [hookFile]] ∧ (∀ files' ∈ [[file], [hookFile]], files' ≠ [file] → ¬ Names E true files') ∧ Names E true [file] := by
  refine ⟨?_, ?_, ?_, ?_⟩
  · intro files hf f hff
    simp only [List.mem_cons, List.not_mem_nil, or_false] at hf
    rcases hf with rfl | rfl
    · rw [List.mem_singleton] at hff; subst hff; exact file_wf
    · rw [List.mem_singleton] at hff; subst hff; exact hookFile_wf
  · intro files hf f hff x hx _
    simp only [List.mem_cons, List.not_mem_nil, or_false] at hf
    rcases hf with rfl | rfl
    · rw [List.mem_singleton] at hff; subst hff
      rcases marks_file hx with rfl | rfl
      · exact .inr ⟨_, asks_conf E⟩
      · exact .inl ⟨_, asks_hook E⟩
    · rw [List.mem_singleton] at hff; subst hff
      rw [marks_hookFile hx]
      exact .inl ⟨_, asks_hook E⟩
  · rintro files hf hne ⟨f, hff, x, hx, w, ha, -⟩
    simp only [List.mem_cons, List.not_mem_nil, or_false] at hf
    rcases hf with rfl | rfl
    · exact hne rfl
    · rw [List.mem_singleton] at hff; subst hff
      rw [marks_hookFile hx] at ha
      exact apart (asks_hook E) ha
  · exact ⟨file, List.mem_singleton.2 rfl, conf, ⟨⟨20, [conf]⟩, by simp [file], by simp, by decide +kernel⟩, _, asks_conf E, rfl⟩

/-- What is generated for packages: the kinds and names of the objects, with the names of their webhooks. -/
def shown (roots : List (List File)) : Option (List (String × String × List String)) :=
  match (Shipped.history ["webhook"]).bind fun h => generateFrom h exEnv (fun _ _ => Sched.fifo) (fun _ => Sched.lifo) Sched.lifo roots with
    | some (.ok (out, _)) => some (out.flatMap fun f => f.2.map fun o => (o.kind, o.name, o.webhooks.map (·.name)))
    | _ => none

theorem shown_both : shown [[file], [hookFile]] = some [("MutatingWebhookConfiguration", "conf", ["m.example.com", "m.example.com"])] := by decide +kernel
theorem shown_first : shown [[file]] = some [("MutatingWebhookConfiguration", "conf", ["m.example.com"])] := by decide +kernel
theorem shown_second : shown [[hookFile]] = some [("MutatingWebhookConfiguration", "mutating-webhook-configuration", ["m.example.com"])] := by decide +kernel

/-! ## Violation: a package that has no webhook renames the object of another one -/

theorem shown_renamed : shown [[hookFile], [confFile]] = some [("MutatingWebhookConfiguration", "conf", ["m.example.com"])] := by decide +kernel
theorem shown_nothing : shown [[confFile]] = some [] := by decide +kernel

/-- **C99 is violated** for the names of objects: a package for which nothing is generated changes, when it is named as well, the name of the object that is generated for another one; no error is reported. -/
theorem C99_violated_name : ∃ a b : List File, (∀ f ∈ a ++ b, f.WF) ∧ shown [b] = some [] ∧
    ∃ kind n n' ws, shown [a] = some [(kind, n, ws)] ∧ shown [a, b] = some [(kind, n', ws)] ∧ n ≠ n' := by
  refine ⟨[hookFile], [confFile], ?_, shown_nothing, _, _, _, _, shown_second, shown_renamed, by decide⟩
  intro f hf
  simp only [List.cons_append, List.nil_append, List.mem_cons, List.not_mem_nil, or_false] at hf
  rcases hf with rfl | rfl
  · exact hookFile_wf
  · exact confFile_wf

end Verif.Webhook.TogetherCase

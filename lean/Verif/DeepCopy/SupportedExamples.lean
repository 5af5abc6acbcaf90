import Verif.DeepCopy.SupportedTheorems
import Verif.DeepCopy.Examples
/-!
# C43: cases that meet the hypotheses of the theorems about supported types
-/
namespace Verif.DeepCopy
open Spec

/-- All types of the sample that methods are generated for are supported. -/
theorem sample_supported : (∀ n, sample.generated n = true → n ∈ ["Spec", "Item", "Kinds"]) ∧ ∀ n, sample.generated n = true → Supported sample n := by
  have own : ∀ n, n ≠ "Quantity" → ¬ HasOwn sample n := by
    intro n hn h
    have hm : sample.manual n = {} := by
      simp only [sample]
    rcases h with h | h <;> (rw [hm] at h; exact absurd h (by decide))
  have item : Flat sample (.named "Item") := .struct (own _ (by decide)) rfl rfl
  have quantity : Own sample "Quantity" := ⟨.inl (by decide), rfl, nofun⟩
  constructor
  · intro n hn
    simpa [sample] using hn
  · intro n hn
    have hn : n = "Spec" ∨ n = "Item" ∨ n = "Kinds" := by simpa [sample] using hn
    obtain rfl | rfl | rfl := hn
    · refine .struct (own _ (by decide)) rfl ?_
      simp only [List.forall_mem_cons]
      exact ⟨.ptrFlat .basic, .map (.inl rfl) nofun (.flat .basic), .map (.inl rfl) nofun (.slice nofun (.flat .basic)), .slice nofun (.flat item), .flat item, .own quantity, .ptrOwn quantity,
        .named (own _ (by decide)) (.slice _) (.slice nofun (.flat .basic)), nofun⟩
    · refine .struct (own _ (by decide)) rfl ?_
      simp only [List.forall_mem_cons]
      exact ⟨.flat .basic, .ptrFlat item, nofun⟩
    · exact .ref (own _ (by decide)) (.slice _) (.slice nofun (.flat .basic))

example : ∃ d, ∀ depth, d ≤ depth → sample.Clean depth := C43_clean sample (by decide) _ sample_supported.1 sample_supported.2

/-- A map of pointers to unnamed structs: its type is named in the code, and that is an error. -/
example : ((single "T" (.struct [("F", .map (.basic true) (.ptr (.struct [("G", .basic true)])))]) [] (fun _ => {}) []).genInto 10 "T").map (·.map (·.errs)) = some (some 3) := rfl

/-- The names in the code for the sample. -/
example : ∃ g, sample.genInto 10 "Spec" = some (some g) ∧ g.errs = 0 ∧ namesAll g.code = [.basic true, .map (.basic true) (.basic true), .map (.basic true) (.slice (.basic true)), .slice (.basic true), .slice (.basic true),
    .slice (.named "Item"), .named "Kinds"] := ⟨_, rfl, rfl, rfl⟩

end Verif.DeepCopy

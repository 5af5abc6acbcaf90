import Verif.Markers.Registry
/-!
# Specification of marker lookup (C13)
-/
namespace Verif.Markers.Spec
open Markers

variable {π : Type}

/-- `d` is the last definition registered for this name and target in the history. -/
def LastRegistered (h : List (Def π)) (n : Str) (t : Target) (d : Def π) : Prop :=
  d.name = n ∧ d.target = t ∧ ∃ before after, h = before ++ d :: after ∧ ∀ d' ∈ after, ¬ (d'.name = n ∧ d'.target = t)

/-- Nothing was registered for this name and target. -/
def NeverRegistered (h : List (Def π)) (n : Str) (t : Target) : Prop := ∀ d ∈ h, ¬ (d.name = n ∧ d.target = t)

/-- A target that definitions can have. -/
def Valid (t : Target) : Prop := t = .package ∨ t = .type ∨ t = .field

instance (t : Target) : Decidable (Valid t) := by unfold Valid; infer_instance

/-- The definition found for the name `n`, where the result may be absent. -/
def Found (h : List (Def π)) (n : Str) (t : Target) (r : Option (Def π)) : Prop :=
  (∃ d, r = some d ∧ Valid t ∧ LastRegistered h n t d) ∨ (r = none ∧ (¬ Valid t ∨ NeverRegistered h n t))

end Verif.Markers.Spec

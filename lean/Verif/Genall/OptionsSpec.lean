import Verif.Common.All2
import Verif.Genall.Options
/-!
# Specification of the options (C34, C36)
-/
namespace Verif.Genall.Spec
open Markers (Str Def Registry Target)

variable {γ : Type}

/-- The option `opt` is the one called `name`, and its value is `v`: with a `+` before it (one, even if it was written with one), it is found among the options for packages, and its definition accepts the text. -/
def Means (reg : Registry (Parser γ)) (opt : Str) (m : Str × Value γ) : Prop :=
  ∃ raw d, ((∃ rest, opt = '+' :: rest ∧ raw = opt) ∨ (∃ c rest, opt = c :: rest ∧ c ≠ '+' ∧ raw = '+' :: opt)) ∧
    reg.lookup raw .package = some d ∧ d.name = m.1 ∧ d.payload raw = some m.2

/-- For which generator an output rule called `name` is: `output:rule` is the default (`none`), `output:generator:rule` is for the generator; a generator's name is not empty, so that `output::rule` is a default too. -/
inductive Addressed : Str → Option Str → Prop
  | default {a rule : Str} : ':' ∉ a → ':' ∉ rule → Addressed (a ++ ':' :: rule) none
  | unnamed {a rule : Str} : ':' ∉ a → Addressed (a ++ ':' :: ':' :: rule) none
  | generator {a gen rule : Str} : ':' ∉ a → ':' ∉ gen → gen ≠ [] → Addressed (a ++ ':' :: gen ++ ':' :: rule) (some gen)

/-- The generators among the options, with their names, in order. -/
def generators (ms : List (Str × Value γ)) : List (Str × γ) :=
  ms.filterMap fun m => match m.2 with
    | .generator g => some (m.1, g)
    | _ => none

/-- The paths given by the options, in order. -/
def paths (ms : List (Str × Value γ)) : List Str :=
  ms.flatMap fun m => match m.2 with
    | .paths ps => ps
    | _ => []

/-- This is an output rule for `tgt` (a generator, or `none` for the default). -/
def IsRuleFor (tgt : Option Str) (r : Rule) (m : Str × Value γ) : Prop := m.2 = .rule r ∧ Addressed m.1 tgt

/-- `r` is the last output rule for `tgt`. -/
def LastRule (ms : List (Str × Value γ)) (tgt : Option Str) (r : Rule) : Prop :=
  ∃ before m after, ms = before ++ m :: after ∧ IsRuleFor tgt r m ∧ ∀ m' ∈ after, ∀ r', ¬ IsRuleFor tgt r' m'

/-- There is no output rule for `tgt`. -/
def NoRule (ms : List (Str × Value γ)) (tgt : Option Str) : Prop := ∀ m ∈ ms, ∀ r, ¬ IsRuleFor tgt r m

/-- The options fit together: no generator is given twice, every option is a generator, an output rule or paths, and every output rule for a generator is for one that is given. -/
structure Acceptable (ms : List (Str × Value γ)) : Prop where
  once : ((generators ms).map (·.1)).Nodup
  kinds : ∀ m ∈ ms, m.2 ≠ .other
  rules : ∀ m ∈ ms, ∀ r, m.2 = .rule r → ∃ tgt, Addressed m.1 tgt ∧ ∀ gen, tgt = some gen → gen ∈ (generators ms).map (·.1)

/-- What an error says is true of the options. -/
def Blamed (reg : Registry (Parser γ)) (opts : List Str) : OptErr → Prop
  | .unknown t => ∃ opt ∈ opts, (opt = t ∨ opt = '+' :: t) ∧ reg.lookup ('+' :: t) .package = none
  | .unparsable t => ∃ opt ∈ opts, (opt = t ∨ opt = '+' :: t) ∧ ∃ d, reg.lookup ('+' :: t) .package = some d ∧ d.payload ('+' :: t) = none
  | .duplicate n => ∃ o₁ o₂ o₃ a b g₁ g₂, opts = o₁ ++ a :: o₂ ++ b :: o₃ ∧ Means reg a (n, .generator g₁) ∧ Means reg b (n, .generator g₂)
  | .notAnOption n => ∃ opt ∈ opts, Means reg opt (n, .other)
  | .notInvoked n => (∃ opt ∈ opts, ∃ name r, Means reg opt (name, .rule r) ∧ Addressed name (some n)) ∧ ∀ opt ∈ opts, ∀ g, ¬ Means reg opt (n, .generator g)

end Verif.Genall.Spec

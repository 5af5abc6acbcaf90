import Verif.Webhook.SourceSpec
/-!
# Specification for C99: the webhooks of packages that are named together
-/
namespace Verif.Webhook.Spec
open Verif.Markers Verif.Markers.Source

/-- The objects of a kind in the files of a run. -/
def objectsOf (kind : String) (out : List (String × List Obj)) : List Obj := out.flatMap fun f => f.2.filter fun o => o.kind = kind

/-- The webhooks in the objects of a kind. -/
def hooksOf (kind : String) (out : List (String × List Obj)) : List Webhook := (objectsOf kind out).flatMap (·.webhooks)

/-- The two kinds of objects. -/
def kindName (mutating : Bool) : String := if mutating then "MutatingWebhookConfiguration" else "ValidatingWebhookConfiguration"

/-- Some comment of the package names the object of mutating, or of validating webhooks. -/
def Names (E : Env) (mutating : Bool) (files : List File) : Prop := ∃ f ∈ files, ∃ c, f.Marks c ∧ ∃ w, AsksName E c w ∧ w.mutating = mutating

end Verif.Webhook.Spec

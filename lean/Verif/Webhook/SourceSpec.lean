import Verif.Webhook.Spec
import Verif.Markers.SourceSpec
import Verif.Markers.ArgSpec
/-!
# What webhook markers in source files ask for: specification
-/
namespace Verif.Webhook.Spec
open Verif.Markers Verif.Markers.Source Verif.Markers.Spec Verif.Markers.Collect Verif.Markers.Args

/-- The arguments of `+kubebuilder:webhook` (https://book.kubebuilder.io/reference/markers/webhook.html). -/
def arguments : Definition where
  fields := [⟨"mutating".toList, .bool, false⟩, ⟨"failurePolicy".toList, .str, false⟩, ⟨"matchPolicy".toList, .str, true⟩, ⟨"sideEffects".toList, .str, true⟩, ⟨"timeoutSeconds".toList, .int false, true⟩,
    ⟨"groups".toList, .slice .str, false⟩, ⟨"resources".toList, .slice .str, false⟩, ⟨"verbs".toList, .slice .str, false⟩, ⟨"versions".toList, .slice .str, false⟩, ⟨"name".toList, .str, false⟩,
    ⟨"serviceName".toList, .str, true⟩, ⟨"serviceNamespace".toList, .str, true⟩, ⟨"path".toList, .str, true⟩, ⟨"servicePort".toList, .int true, true⟩, ⟨"webhookVersions".toList, .slice .str, true⟩,
    ⟨"admissionReviewVersions".toList, .slice .str, false⟩, ⟨"reinvocationPolicy".toList, .str, true⟩, ⟨"url".toList, .str, true⟩]
  strict := true

/-- The arguments of `+kubebuilder:webhookconfiguration`. -/
def configArguments : Definition where
  fields := [⟨"mutating".toList, .bool, false⟩, ⟨"name".toList, .str, true⟩]
  strict := true

/-- The comment asks for the webhook `w`: it reads `+kubebuilder:webhook:mutating=…,path=…,…` with what is in `w`. -/
def Asks (E : Env) (c : Comment) (w : Config) : Prop :=
  ∃ vals, Reads E "kubebuilder:webhook".toList arguments c vals ∧ ("mutating".toList, Value.bool w.mutating) ∈ vals ∧
    (IsText vals "failurePolicy" w.failurePolicy ∧ IsText vals "matchPolicy" w.matchPolicy ∧ IsText vals "sideEffects" w.sideEffects ∧ IsText vals "name" w.name ∧ IsText vals "serviceName" w.serviceName ∧
      IsText vals "serviceNamespace" w.serviceNamespace ∧ IsText vals "path" w.path ∧ IsText vals "reinvocationPolicy" w.reinvocationPolicy ∧ IsText vals "url" w.url) ∧
    (IsList vals "groups" w.groups ∧ IsList vals "resources" w.resources ∧ IsList vals "verbs" w.verbs ∧ IsList vals "versions" w.versions ∧ IsList vals "webhookVersions" w.webhookVersions ∧
      IsList vals "admissionReviewVersions" w.admissionReviewVersions) ∧
    (∃ t, IsNumber vals "timeoutSeconds" t ∧ w.timeoutSeconds = t.getD 0) ∧ IsNumber vals "servicePort" w.servicePort

/-- The comment names the configuration object of the mutating or validating webhooks. -/
def AsksName (E : Env) (c : Comment) (w : WebhookConfig) : Prop :=
  ∃ vals, Reads E "kubebuilder:webhookconfiguration".toList configArguments c vals ∧ ("mutating".toList, Value.bool w.mutating) ∈ vals ∧ IsText vals "name" w.name

/-- All comments with the markers are written as they should be. -/
def WellWritten (E : Env) (roots : List (List File)) : Prop :=
  ∀ files ∈ roots, ∀ f ∈ files, ∀ c, f.Marks c → "+kubebuilder:webhook".toList <+: textOf c → (∃ w, Asks E c w) ∨ ∃ w, AsksName E c w

/-- `l` lists what the comments of the files ask for: each comment counts once, and all that are placed. -/
def Collects {α : Type} (asks : Comment → α → Prop) (files : List File) (l : List α) : Prop :=
  ∃ L : List (List (Comment × α)), l = L.flatten.map (·.2) ∧ All2 (fun f m => (m.map (·.1)).Nodup ∧ (∀ e ∈ m, f.Marks e.1 ∧ asks e.1 e.2) ∧ ∀ c, f.Marks c → Placed f c → ∀ a, asks c a → (c, a) ∈ m) files L

/-- The markers of a package: those its comments ask for; none, if an error was recorded for it. -/
def Package (E : Env) (files : List File) (err : Bool) (r : Root) : Prop :=
  if err then r = ⟨[], []⟩ else Collects (Asks E) files r.cfgs ∧ Collects (AsksName E) files r.webhookCfgs

end Verif.Webhook.Spec

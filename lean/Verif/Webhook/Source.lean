import Verif.Webhook.Model
import Verif.Markers.SourceShipped
import Verif.Markers.Args
/-!
# Model of `Generate` from the files of the packages on: `/repo/pkg/webhook/parser.go` (445-515)
-/
namespace Verif.Webhook
open Verif.Markers Verif.Markers.Source Verif.Markers.Args

/-- The `Config` (parser.go:78-162) that the values of the arguments of a marker are stored in (markers/parse.go:842-905). -/
def configOf (vals : List (Str × Value)) : Config where
  mutating := boolArg vals "mutating"
  failurePolicy := stringArg vals "failurePolicy"
  matchPolicy := stringArg vals "matchPolicy"
  sideEffects := stringArg vals "sideEffects"
  timeoutSeconds := (intArg vals "timeoutSeconds").getD 0
  groups := stringsArg vals "groups"
  resources := stringsArg vals "resources"
  verbs := stringsArg vals "verbs"
  versions := stringsArg vals "versions"
  name := stringArg vals "name"
  serviceName := stringArg vals "serviceName"
  serviceNamespace := stringArg vals "serviceNamespace"
  path := stringArg vals "path"
  servicePort := intArg vals "servicePort"
  webhookVersions := stringsArg vals "webhookVersions"
  admissionReviewVersions := stringsArg vals "admissionReviewVersions"
  reinvocationPolicy := stringArg vals "reinvocationPolicy"
  url := stringArg vals "url"

/-- The `WebhookConfig` (parser.go:61-70) for the arguments of a marker. -/
def webhookConfigOf (vals : List (Str × Value)) : WebhookConfig where
  mutating := boolArg vals "mutating"
  name := stringArg vals "name"

/-- The markers of one root package (parser.go:453-458, 486), and whether an error was recorded for it; `none` is a panic.  After an error `markerSet` is nil. -/
def rootOf (h : List (Def Loaded)) (E : Env) (σ : Nat → Sched) (τ : Sched) (files : List File) : Option (Root × Bool) :=
  match markersOf h E σ τ files with
  | none => none
  | some none => some (⟨[], []⟩, true)
  | some (some res) => some (⟨((GoMap.get res "kubebuilder:webhookconfiguration".toList).getD []).map webhookConfigOf, ((GoMap.get res "kubebuilder:webhook".toList).getD []).map configOf⟩, false)

/-- The markers of all root packages (parser.go:452-515), the `i`-th one first. -/
def allRoots (h : List (Def Loaded)) (E : Env) (σ : Nat → Nat → Sched) (τ : Nat → Sched) : Nat → List (List File) → Option (List (Root × Bool))
  | _, [] => some []
  | i, p :: ps =>
    match rootOf h E (σ i) (τ i) p, allRoots h E σ τ (i + 1) ps with
    | some r, some rs => some (r :: rs)
    | _, _ => none

/-- `Generate` (parser.go:445-615): the files, and for each root package whether an error was recorded for it; or the error that is returned.  (In the code packages after the one with the error are not looked at;
here they are, to no effect.) -/
def generateFrom (h : List (Def Loaded)) (E : Env) (σ : Nat → Nat → Sched) (τ : Nat → Sched) (ρ : Sched) (roots : List (List File)) : Option (Except Err (List (String × List Obj) × List Bool)) :=
  (allRoots h E σ τ 0 roots).map fun rs =>
    match generate ρ (rs.map (·.1)) with
    | .error e => .error e
    | .ok out => .ok (out, rs.map (·.2))

end Verif.Webhook

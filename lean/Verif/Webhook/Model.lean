import Verif.Common.Sort
import Verif.Common.GoMap
import Verif.Common.Sched
import Verif.Common.GoStrings
/-!
# Model of `/repo/pkg/webhook/parser.go`
-/
namespace Verif.Webhook
open GoStr

/-- `WebhookConfig` (parser.go:61-70), the `+kubebuilder:webhookconfiguration` marker. -/
structure WebhookConfig where
  mutating : Bool
  name : String
deriving DecidableEq, Repr

/-- `Config` (parser.go:78-162), the `+kubebuilder:webhook` marker.  A missing optional argument is the zero value ("" / 0 / []);
`ServicePort` is a pointer.  Go `int` is 64 bits wide; any integer is allowed here, which includes all of those. -/
structure Config where
  mutating : Bool
  failurePolicy : String
  matchPolicy : String
  sideEffects : String
  timeoutSeconds : Int
  groups : List String
  resources : List String
  verbs : List String
  versions : List String
  name : String
  serviceName : String
  serviceNamespace : String
  path : String
  servicePort : Option Int
  webhookVersions : List String
  admissionReviewVersions : List String
  reinvocationPolicy : String
  url : String
deriving DecidableEq, Repr

/-- The errors returned by parser.go. -/
inductive Err
  /-- parser.go:464 -/
  | duplicateMutating (name : String)
  /-- parser.go:474 -/
  | duplicateValidating (name : String)
  /-- parser.go:212, 241 -/
  | wrongKind (name : String)
  /-- parser.go:318 -/
  | unknownMatchPolicy (v : String)
  /-- parser.go:326 -/
  | pathXorURL
  /-- parser.go:414 -/
  | unsupportedVersion (v : String)
  /-- parser.go:619 -/
  | sideEffectsRequired
  /-- parser.go:623 -/
  | sideEffectsNotAllowed
  /-- parser.go:630 -/
  | timeoutOutOfRange
  /-- parser.go:548, 585 -/
  | admissionReviewVersionsRequired
deriving DecidableEq, Repr

/-- `admissionregv1.ServiceReference` as built at parser.go:347-352. -/
structure ServiceReference where
  name : String
  ns : String
  path : String
  port : Option Int
deriving DecidableEq, Repr

/-- `admissionregv1.WebhookClientConfig` (two optional fields; the third, CABundle, is never set). -/
structure ClientConfig where
  url : Option String
  service : Option ServiceReference
deriving DecidableEq, Repr

/-- `admissionregv1.RuleWithOperations` as built at parser.go:269-276. -/
structure RuleWithOperations where
  operations : List String
  apiGroups : List String
  apiVersions : List String
  resources : List String
deriving DecidableEq, Repr

/-- `MutatingWebhook` / `ValidatingWebhook` of the Kubernetes API.  The two structs differ only in that the validating one has
no `reinvocationPolicy`; it is `none` here. -/
structure Webhook where
  name : String
  rules : List RuleWithOperations
  failurePolicy : Option String
  matchPolicy : Option String
  clientConfig : ClientConfig
  sideEffects : Option String
  timeoutSeconds : Option Int
  admissionReviewVersions : List String
  reinvocationPolicy : Option String
deriving DecidableEq, Repr

/-- `verbToAPIVariant` (parser.go:166-181). -/
def verbToAPIVariant (verbRaw : String) : String :=
  let l := toLower verbRaw
  if l = toLower "CREATE" then "CREATE"
  else if l = toLower "UPDATE" then "UPDATE"
  else if l = toLower "DELETE" then "DELETE"
  else if l = toLower "CONNECT" then "CONNECT"
  else if l = toLower "*" then "*"
  else verbRaw

/-- `Config.rules` (parser.go:268-290).  The loop at 283-287 writes through the marker's own slice; later reads of the same marker
see the replaced group, which the replacement leaves unchanged. -/
def Config.rules (c : Config) : List RuleWithOperations :=
  [{ apiGroups := c.groups.map (fun g => if g = "core" then "" else g)
     apiVersions := c.versions
     resources := c.resources
     operations := c.verbs.map verbToAPIVariant }]

/-- `Config.failurePolicy` (parser.go:294-305); always non-nil. -/
def Config.failurePolicyOut (c : Config) : Option String :=
  let l := toLower c.failurePolicy
  some (if l = toLower "Ignore" then "Ignore"
    else if l = toLower "Fail" then "Fail"
    else c.failurePolicy)

/-- `Config.matchPolicy` (parser.go:308-321). -/
def Config.matchPolicyOut (c : Config) : Except Err (Option String) :=
  let l := toLower c.matchPolicy
  if l = toLower "Exact" then .ok (some "Exact")
  else if l = toLower "Equivalent" then .ok (some "Equivalent")
  else if l = "" then .ok none
  else .error (.unknownMatchPolicy c.matchPolicy)

/-- `Config.clientConfig` (parser.go:324-362). -/
def Config.clientConfig (c : Config) : Except Err ClientConfig :=
  if (c.path ≠ "" ∧ c.url ≠ "") ∨ (c.path = "" ∧ c.url = "") then .error .pathXorURL
  else if c.path ≠ "" then
    .ok { url := none
          service := some
            { name := if c.serviceName ≠ "" then c.serviceName else "webhook-service"
              ns := if c.serviceNamespace ≠ "" then c.serviceNamespace else "system"
              path := c.path
              port := c.servicePort } }
  else .ok { url := some c.url, service := none }

/-- `Config.sideEffects` (parser.go:365-380). -/
def Config.sideEffectsOut (c : Config) : Option String :=
  let l := toLower c.sideEffects
  if l = toLower "None" then some "None"
  else if l = toLower "NoneOnDryRun" then some "NoneOnDryRun"
  else if l = toLower "Some" then some "Some"
  else none

/-- The Go conversion `int32(x)`: the value modulo 2^32, read as a signed number. -/
def toInt32 (x : Int) : Int := Int.bmod x (2 ^ 32)

/-- `Config.timeoutSeconds` (parser.go:383-389). -/
def Config.timeoutSecondsOut (c : Config) : Option Int :=
  if c.timeoutSeconds ≠ 0 then some (toInt32 c.timeoutSeconds) else none

/-- `Config.reinvocationPolicy` (parser.go:392-403). -/
def Config.reinvocationPolicyOut (c : Config) : Option String :=
  let l := toLower c.reinvocationPolicy
  if l = toLower "Never" then some "Never"
  else if l = toLower "IfNeeded" then some "IfNeeded"
  else none

/-- `ToMutatingWebhook` (parser.go:210-236). -/
def Config.toMutatingWebhook (c : Config) : Except Err Webhook :=
  if ¬ c.mutating then .error (.wrongKind c.name)
  else match c.matchPolicyOut with
    | .error e => .error e
    | .ok mp => match c.clientConfig with
      | .error e => .error e
      | .ok cc => .ok
        { name := c.name
          rules := c.rules
          failurePolicy := c.failurePolicyOut
          matchPolicy := mp
          clientConfig := cc
          sideEffects := c.sideEffectsOut
          timeoutSeconds := c.timeoutSecondsOut
          admissionReviewVersions := c.admissionReviewVersions
          reinvocationPolicy := c.reinvocationPolicyOut }

/-- `ToValidatingWebhook` (parser.go:239-264). -/
def Config.toValidatingWebhook (c : Config) : Except Err Webhook :=
  if c.mutating then .error (.wrongKind c.name)
  else match c.matchPolicyOut with
    | .error e => .error e
    | .ok mp => match c.clientConfig with
      | .error e => .error e
      | .ok cc => .ok
        { name := c.name
          rules := c.rules
          failurePolicy := c.failurePolicyOut
          matchPolicy := mp
          clientConfig := cc
          sideEffects := c.sideEffectsOut
          timeoutSeconds := c.timeoutSecondsOut
          admissionReviewVersions := c.admissionReviewVersions
          reinvocationPolicy := none }

/-- `supportedWebhookVersions` (parser.go:54-56). -/
def supportedWebhookVersions : List String := ["v1"]

/-- `Config.webhookVersions` (parser.go:406-418); the result is a set listed in arbitrary order. -/
def Config.webhookVersionsOut (σ : Sched) (c : Config) : Except Err (List String) :=
  if c.webhookVersions = [] then .ok ["v1"]
  else match c.webhookVersions.find? (fun v => ¬ v ∈ supportedWebhookVersions) with
    | some v => .error (.unsupportedVersion v)
    | none => .ok (σ.order 0 c.webhookVersions.eraseDups)

/-- One root package: its `webhookconfiguration` and `webhook` markers (parser.go:452-458, 486). -/
structure Root where
  webhookCfgs : List WebhookConfig
  cfgs : List Config
deriving DecidableEq, Repr

/-- The variables of `Generate` that survive a root (parser.go:446-450).  Of the two configuration objects only the name is ever
set before line 506, so the name stands for the object. -/
structure St where
  mutatingCfgs : List (String × List Webhook)
  validatingCfgs : List (String × List Webhook)
  mutatingName : String
  validatingName : String
deriving DecidableEq, Repr

/-- The loop over the `webhookconfiguration` markers of one root (parser.go:459-484). -/
def configLoop : List WebhookConfig → (hasV hasM : Bool) → St → Except Err St
  | [], _, _, st => .ok st
  | w :: ws, hasV, hasM, st =>
    if w.mutating then
      if hasM then .error (.duplicateMutating w.name)
      else configLoop ws hasV true { st with mutatingName := w.name }
    else
      if hasV then .error (.duplicateValidating w.name)
      else configLoop ws true hasM { st with validatingName := w.name }

/-- The order of `sort.SliceStable` at parser.go:487-489: `le a b` is "not b before a". -/
def cfgLe (a b : Config) : Bool := strLe a.name b.name

/-- `m[version] = append(m[version], w)` for all versions (parser.go:502-504, 510-512). -/
def addAll (vs : List String) (w : Webhook) (m : List (String × List Webhook)) : List (String × List Webhook) :=
  vs.foldl (fun m v => GoMap.appendAt m v w) m

/-- The loop over the `webhook` markers of one root (parser.go:491-514). -/
def cfgLoop (σ : Sched) : List Config → St → Except Err St
  | [], st => .ok st
  | c :: cs, st =>
    match c.webhookVersionsOut σ with
    | .error e => .error e
    | .ok vs =>
      if c.mutating then
        match c.toMutatingWebhook with
        | .error e => .error e
        | .ok w => cfgLoop σ cs { st with mutatingCfgs := addAll vs w st.mutatingCfgs }
      else
        match c.toValidatingWebhook with
        | .error e => .error e
        | .ok w => cfgLoop σ cs { st with validatingCfgs := addAll vs w st.validatingCfgs }

/-- The loop over the roots (parser.go:452-515). -/
def rootLoop (σ : Sched) : List Root → St → Except Err St
  | [], st => .ok st
  | r :: rs, st =>
    match configLoop r.webhookCfgs false false st with
    | .error e => .error e
    | .ok st =>
      match cfgLoop σ (sortBy cfgLe r.cfgs) st with
      | .error e => .error e
      | .ok st => rootLoop σ rs st

/-- `checkSideEffectsForV1` (parser.go:617-626). -/
def checkSideEffects (s : Option String) : Except Err Unit :=
  match s with
  | none => .error .sideEffectsRequired
  | some v => if v = "Unknown" ∨ v = "Some" then .error .sideEffectsNotAllowed else .ok ()

/-- `checkTimeoutSeconds` (parser.go:628-633). -/
def checkTimeout (t : Option Int) : Except Err Unit :=
  match t with
  | none => .ok ()
  | some x => if x < 1 ∨ x > 30 then .error .timeoutOutOfRange else .ok ()

/-- The per-webhook checks (parser.go:534-551, 571-588). -/
def checkWebhook (w : Webhook) : Except Err Unit :=
  match checkSideEffects w.sideEffects with
  | .error e => .error e
  | .ok () => match checkTimeout w.timeoutSeconds with
    | .error e => .error e
    | .ok () => if w.admissionReviewVersions = [] then .error .admissionReviewVersionsRequired else .ok ()

/-- The loop calling those checks. -/
def checkAll : List Webhook → Except Err Unit
  | [] => .ok ()
  | w :: ws => match checkWebhook w with
    | .error e => .error e
    | .ok () => checkAll ws

/-- A generated object: its kind, API version, name and webhooks (parser.go:518-533, 555-570). -/
structure Obj where
  kind : String
  apiVersion : String
  name : String
  webhooks : List Webhook
deriving DecidableEq, Repr

/-- The object of one kind for one version, if there are webhooks of that kind (parser.go:517-553 and 554-590). -/
def objFor (kind name dflt version : String) (m : List (String × List Webhook)) : Except Err (List Obj) :=
  match GoMap.get m version with
  | none => .ok []
  | some ws => match checkAll ws with
    | .error e => .error e
    | .ok () => .ok [{ kind := kind
                       apiVersion := "admissionregistration.k8s.io/" ++ version
                       name := if name ≠ "" then name else dflt
                       webhooks := ws }]

/-- The loop over the supported versions (parser.go:516-592), producing `versionedWebhooks`. -/
def versionLoop (st : St) : List String → Except Err (List (String × List Obj))
  | [] => .ok []
  | v :: vs =>
    match objFor "MutatingWebhookConfiguration" st.mutatingName "mutating-webhook-configuration" v st.mutatingCfgs with
    | .error e => .error e
    | .ok ms =>
      match objFor "ValidatingWebhookConfiguration" st.validatingName "validating-webhook-configuration" v st.validatingCfgs with
      | .error e => .error e
      | .ok vals =>
        match versionLoop st vs with
        | .error e => .error e
        | .ok rest => .ok (if ms ++ vals = [] then rest else (v, ms ++ vals) :: rest)

/-- The file a version is written to (parser.go:604-609). -/
def fileName (k : String) : String :=
  if k = "v1" then "manifests.yaml" else "manifests." ++ k ++ ".yaml"

/-- `Generate` (parser.go:445-615) up to the writing of the files: the list of files with the objects they contain.  Not modelled:
the header (594-602) and errors of the file system. -/
def generate (σ : Sched) (roots : List Root) : Except Err (List (String × List Obj)) :=
  match rootLoop σ roots ⟨[], [], "", ""⟩ with
  | .error e => .error e
  | .ok st =>
    match versionLoop st supportedWebhookVersions with
    | .error e => .error e
    | .ok vw => .ok ((σ.order 1 vw).map (fun kv => (fileName kv.1, kv.2)))

end Verif.Webhook

import Verif.Webhook.Model
import Verif.Common.All2
/-!
# What a generated webhook configuration must say (independent of the generator's functions)
-/
namespace Verif.Webhook.Spec

/-- The same letter, ignoring case.  Go's case conversion also takes U+0130 to `i` and the Kelvin sign to `k`. -/
def SameLetter (c d : Char) : Prop :=
  c = d ∨ (c.isUpper ∧ d.toNat = c.toNat + 32) ∨ (d.isUpper ∧ c.toNat = d.toNat + 32) ∨
  (c = '\u0130' ∧ (d = 'i' ∨ d = 'I')) ∨ (c = '\u212a' ∧ (d = 'k' ∨ d = 'K'))

instance (c d : Char) : Decidable (SameLetter c d) := by unfold SameLetter; infer_instance

/-- `s` is the (ASCII) constant `k` up to case. -/
def EqFold (s k : String) : Prop := All2 SameLetter s.toList k.toList

instance (s k : String) : Decidable (EqFold s k) := by unfold EqFold; infer_instance

/-- `out` is the constant that `raw` spells up to case, or `raw` itself if it spells none. -/
def Translate (consts : List String) (raw out : String) : Prop :=
  (∃ k ∈ consts, EqFold raw k ∧ out = k) ∨ ((∀ k ∈ consts, ¬ EqFold raw k) ∧ out = raw)

/-- `out` is the constant that `raw` spells up to case, or absent if it spells none. -/
def Known (consts : List String) (raw : String) (out : Option String) : Prop :=
  (∃ k ∈ consts, EqFold raw k ∧ out = some k) ∨ ((∀ k ∈ consts, ¬ EqFold raw k) ∧ out = none)

/-- Exactly one of `path` and `url` is given. -/
def PathXorURL (c : Config) : Prop :=
  (c.path ≠ "" ∧ c.url = "") ∨ (c.path = "" ∧ c.url ≠ "")

/-- A value, or a default when it is empty. -/
def orDefault (v dflt : String) : String := if v = "" then dflt else v

/-- C06: the client configuration is exactly the URL, or exactly a service reference. -/
def ClientOK (c : Config) (cc : ClientConfig) : Prop :=
  (c.path = "" ∧ c.url ≠ "" ∧ cc.url = some c.url ∧ cc.service = none) ∨
  (c.path ≠ "" ∧ c.url = "" ∧ cc.url = none ∧
    cc.service = some ⟨orDefault c.serviceName "webhook-service", orDefault c.serviceNamespace "system",
      c.path, c.servicePort⟩)

/-- C07: side effects and timeout as the v1 API requires them. -/
structure LimitsOK (c : Config) (w : Webhook) : Prop where
  sideEffects : ∃ k, (k = "None" ∨ k = "NoneOnDryRun") ∧ EqFold c.sideEffects k ∧ w.sideEffects = some k
  /-- absent iff not given (or 0), else between 1 and 30 -/
  timeout : (c.timeoutSeconds = 0 ∧ w.timeoutSeconds = none) ∨
    ∃ t, w.timeoutSeconds = some t ∧ 1 ≤ t ∧ t ≤ 30 ∧ (2 ^ 32 : Int) ∣ c.timeoutSeconds - t
  reviewVersions : w.admissionReviewVersions = c.admissionReviewVersions ∧ c.admissionReviewVersions ≠ []

/-- The timeout that is emitted is the one that was written. -/
def TimeoutExact (c : Config) (w : Webhook) : Prop :=
  w.timeoutSeconds = if c.timeoutSeconds = 0 then none else some c.timeoutSeconds

/-- The timeout fits in 32 bits, the size of the API's field. -/
def FitsInt32 (x : Int) : Prop := -2 ^ 31 ≤ x ∧ x < 2 ^ 31

/-- C09: rule and policies. -/
structure RulesOK (c : Config) (w : Webhook) : Prop where
  rule : ∃ r, w.rules = [r] ∧ r.apiVersions = c.versions ∧ r.resources = c.resources ∧
    All2 (fun g g' => g' = if g = "core" then "" else g) c.groups r.apiGroups ∧
    All2 (Translate ["CREATE", "UPDATE", "DELETE", "CONNECT", "*"]) c.verbs r.operations
  failurePolicy : ∃ f, w.failurePolicy = some f ∧ Translate ["Ignore", "Fail"] c.failurePolicy f
  matchPolicy : (c.matchPolicy = "" ∧ w.matchPolicy = none) ∨
    ∃ k, (k = "Exact" ∨ k = "Equivalent") ∧ EqFold c.matchPolicy k ∧ w.matchPolicy = some k
  reinvocation : if c.mutating then Known ["Never", "IfNeeded"] c.reinvocationPolicy w.reinvocationPolicy
    else w.reinvocationPolicy = none

/-- `w` is what marker `c` asks for. -/
structure Emitted (c : Config) (w : Webhook) : Prop where
  name : w.name = c.name
  client : ClientOK c w.clientConfig
  limits : LimitsOK c w
  rules : RulesOK c w

/-- `l'` is `l` stably sorted by webhook name. -/
def SortedByName (l l' : List Config) : Prop :=
  l'.Perm l ∧ l'.Pairwise (fun a b => a.name ≤ b.name) ∧
    ∀ n, l'.filter (fun c => c.name = n) = l.filter (fun c => c.name = n)

/-- C08: `ws` lists, root by root, the webhooks of the markers of one kind, each exactly once and sorted by name within its root. -/
def ListsAll (roots : List Root) (mutating : Bool) (ws : List Webhook) : Prop :=
  ∃ sorted : Root → List Config,
    (∀ r ∈ roots, SortedByName (r.cfgs.filter (fun c => c.mutating = mutating)) (sorted r)) ∧
    All2 Emitted (roots.flatMap sorted) ws

/-- C10: the name of the object of one kind: that of the last configuration marker of the kind if nonempty, else the default. -/
def objectName (roots : List Root) (mutating : Bool) (dflt : String) : String :=
  match ((roots.flatMap (·.webhookCfgs)).filter (fun w => w.mutating = mutating)).getLast? with
  | some w => orDefault w.name dflt
  | none => dflt

/-- The object for the webhooks of one kind: none if there are no webhooks. -/
def objects (kind name : String) (ws : List Webhook) : List Obj :=
  if ws = [] then [] else [⟨kind, "admissionregistration.k8s.io/v1", name, ws⟩]

/-- One file with the objects, or no file if there are none. -/
def files (objs : List Obj) : List (String × List Obj) :=
  if objs = [] then [] else [("manifests.yaml", objs)]

/-- At most one configuration marker of each kind in the package. -/
def NoDuplicateConfig (r : Root) : Prop :=
  ∀ k, (r.webhookCfgs.filter (fun w => w.mutating = k)).length ≤ 1

/-- A marker that can be accepted. -/
structure Acceptable (c : Config) : Prop where
  client : PathXorURL c
  versions : ∀ v ∈ c.webhookVersions, v = "v1"
  matchPolicy : c.matchPolicy = "" ∨ EqFold c.matchPolicy "Exact" ∨ EqFold c.matchPolicy "Equivalent"
  sideEffects : EqFold c.sideEffects "None" ∨ EqFold c.sideEffects "NoneOnDryRun"
  /-- up to the 32-bit conversion -/
  timeout : c.timeoutSeconds = 0 ∨ ∃ t, 1 ≤ t ∧ t ≤ 30 ∧ (2 ^ 32 : Int) ∣ c.timeoutSeconds - t
  reviewVersions : c.admissionReviewVersions ≠ []

end Verif.Webhook.Spec

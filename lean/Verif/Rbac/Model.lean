import Verif.Common.Sched
import Verif.Common.Sort
import Verif.Common.GoMap
/-!
# Model of `/repo/pkg/rbac/parser.go`
-/
namespace Verif.Rbac

/-- `Rule` (parser.go:45-63): one `+kubebuilder:rbac` marker, or a rule derived from it.
Nil and empty slices are identified: the code only ever takes `len`, ranges over or
joins them, and `removeDupAndSort` turns both into nil. -/
structure Rule where
  groups : List String
  resources : List String
  resourceNames : List String
  verbs : List String
  urls : List String
  ns : String
deriving DecidableEq, Repr

/-- `ruleKey` (parser.go:66-71). -/
structure RuleKey where
  groups : String
  resources : String
  resourceNames : String
  urls : String
deriving DecidableEq, Repr

/-- `ruleKey.String` (parser.go:73-75). -/
def RuleKey.print (k : RuleKey) : String :=
  k.groups ++ " + " ++ k.resources ++ " + " ++ k.resourceNames ++ " + " ++ k.urls

/-- `removeDupAndSort` (parser.go:130-144).  The Go code collects the keys of a map in an
arbitrary order and then sorts them; `ord` is that order.  -/
def removeDupAndSortWith (ord : List String → List String) (strs : List String) : List String :=
  sortStrings (ord (strs.eraseDups))

/-- `removeDupAndSort` (parser.go:130-144) for one particular map order.  `Lemmas.lean` proves
(`removeDupAndSortWith_eq`) that the map order does not matter, so no schedule is threaded through. -/
def removeDupAndSort (strs : List String) : List String :=
  removeDupAndSortWith id strs

/-- `Rule.normalize` (parser.go:120-126). -/
def Rule.normalize (r : Rule) : Rule :=
  { r with
    groups := removeDupAndSort r.groups
    resources := removeDupAndSort r.resources
    resourceNames := removeDupAndSort r.resourceNames
    verbs := removeDupAndSort r.verbs
    urls := removeDupAndSort r.urls }

/-- `strings.Join(l, "&")` as used by parser.go:88-91,97. -/
def join (l : List String) : String := "&".intercalate l

/-- The value returned by `Rule.key` (parser.go:85-93) for an already normalised rule; the
method also normalises its receiver, which the callers below make explicit. -/
def Rule.key (r : Rule) : RuleKey :=
  { groups := join r.groups
    resources := join r.resources
    resourceNames := join r.resourceNames
    urls := join r.urls }

/-- `Rule.addVerbs` (parser.go:115-117). -/
def Rule.addVerbs (r : Rule) (vs : List String) : Rule :=
  { r with verbs := removeDupAndSort (r.verbs ++ vs) }

/-- The field that a de-duplication pass merges. -/
inductive Fld
  | resources
  | groups
  | urls
deriving DecidableEq, Repr

/-- The three string keys `keyWithGroupResourceNamesURLsVerbs` (parser.go:95-99, used when merging
resources), `keyWithResourcesResourceNamesURLsVerbs` (101-105, groups) and
`keyWitGroupResourcesResourceNamesVerbs` (107-111, URLs), for a normalised rule. -/
def Rule.keyWithout (f : Fld) (r : Rule) : String :=
  match f with
  | .resources => join r.groups ++ " + " ++ join r.resourceNames ++ " + " ++ join r.urls ++ " + " ++ join r.verbs
  | .groups => join r.resources ++ " + " ++ join r.resourceNames ++ " + " ++ join r.urls ++ " + " ++ join r.verbs
  | .urls => join r.groups ++ " + " ++ join r.resources ++ " + " ++ join r.resourceNames ++ " + " ++ join r.verbs

/-- The merge step of a pass: `rule.F = append(rule.F, mergeRule.F...)`
(parser.go:257, 277, 296). -/
def Rule.append (f : Fld) (r s : Rule) : Rule :=
  match f with
  | .resources => { r with resources := r.resources ++ s.resources }
  | .groups => { r with groups := r.groups ++ s.groups }
  | .urls => { r with urls := r.urls ++ s.urls }

/-- A `map[ruleKey]*Rule` (parser.go:226). -/
abbrev RMap := List (RuleKey × Rule)

/-- The "core" alias (parser.go:230-234). -/
def fixCore (r : Rule) : Rule :=
  { r with groups := r.groups.map (fun g => if g = "core" then "" else g) }

/-- One iteration of the first loop of `NormalizeRules` (parser.go:228-242).
`Rule.addVerbs` mutates the rule the map points to; no other entry shares that rule, so the mutation is
the overwriting of the entry. -/
def firstStep (m : RMap) (rule : Rule) : RMap :=
  let r := (fixCore rule).normalize
  match GoMap.get m r.key with
  | none => GoMap.put m r.key r
  | some r₀ => GoMap.put m r.key (r₀.addVerbs r.verbs)

/-- The first loop of `NormalizeRules` (parser.go:226-242). -/
def firstPass (rules : List Rule) : RMap := rules.foldl firstStep []

/-- "create map based on key without F" (parser.go:246-251, 266-271, 285-290), visiting the rules
in the order given.  Computing the key normalises the rule in place. -/
def buckets (f : Fld) (rules : List Rule) : List (String × List Rule) :=
  GoMap.groupOn (Rule.keyWithout f) (rules.map Rule.normalize)

/-- The rule a bucket collapses to (parser.go:255-258 and the normalisation done by `rule.key()` at
260; likewise 275-279 and 294-298).  Buckets are never empty, so the `[]` branch is unreachable
(`GoMap.mem_groupOn`). -/
def collapse (f : Fld) (rs : List Rule) : Option Rule :=
  match rs with
  | [] => none
  | r :: rest => some (rest.foldl (Rule.append f) r).normalize

/-- One de-duplication pass (parser.go:244-262 resources, 264-281 groups, 283-300 URLs).
Sites `n` and `n+1` are its two map iterations. -/
def pass (σ : Sched) (n : Nat) (f : Fld) (m : RMap) : RMap :=
  let bs := buckets f ((σ.order n m).map (·.2))
  (σ.order (n+1) bs).foldl
    (fun acc b => match collapse f b.2 with
      | none => acc
      | some r => GoMap.put acc r.key r) []

/-- `PolicyRule` of the Kubernetes API, as produced by `ToRule` (parser.go:147-155). -/
structure PolicyRule where
  apiGroups : List String
  verbs : List String
  resources : List String
  resourceNames : List String
  nonResourceURLs : List String
deriving DecidableEq, Repr

/-- `Rule.ToRule` (parser.go:147-155). -/
def Rule.toRule (r : Rule) : PolicyRule :=
  { apiGroups := r.groups
    verbs := r.verbs
    resources := r.resources
    resourceNames := r.resourceNames
    nonResourceURLs := r.urls }

/-- Verb normalisation (parser.go:310-317). -/
def starVerbs (r : Rule) : Rule :=
  if "*" ∈ r.verbs then { r with verbs := ["*"] } else r

/-- Order used by `sort.Sort(ruleKeys(keys))` (parser.go:82). -/
def entryLe (a b : RuleKey × Rule) : Bool := strLe a.1.print b.1.print

/-- The three passes of `NormalizeRules` (parser.go:226-300). -/
def mergedMap (σ : Sched) (rules : List Rule) : RMap :=
  pass σ 4 .urls (pass σ 2 .groups (pass σ 0 .resources (firstPass rules)))

/-- `NormalizeRules` (parser.go:225-323).  Site 6 is the iteration collecting the keys (parser.go:304);
`sort.Sort` is not stable, which is covered because the order of the keys before sorting is already
arbitrary.  The loop at 310-317 touches each rule independently, so its order is irrelevant. -/
def normalizeRules (σ : Sched) (rules : List Rule) : List PolicyRule :=
  (sortBy entryLe (σ.order 6 (mergedMap σ rules))).map (fun e => (starVerbs e.2).toRule)

/-- Splitting one marker into one rule per resource (parser.go:193-221). -/
def splitRule (m : Rule) : List Rule :=
  if m.resources = [] then [{ m with resources := [] }]
  else m.resources.map (fun res => { m with resources := [res] })

/-- The objects returned by `GenerateRoles` (parser.go:341-362): `ClusterRole` or `Role`. -/
inductive RoleObj
  | clusterRole (name : String) (rules : List PolicyRule)
  | role (name : String) (ns : String) (rules : List PolicyRule)
deriving DecidableEq, Repr

/-- `rulesByNSResource[ns]` (parser.go:185-222): the rules of one namespace in marker order. -/
def rulesOf (markers : List Rule) (ns : String) : List Rule :=
  (markers.flatMap splitRule).filter (fun r => r.ns = ns)

/-- The keys of `rulesByNSResource` (parser.go:326-329), in first-insertion order. -/
def namespacesOf (markers : List Rule) : List String :=
  ((markers.flatMap splitRule).map (·.ns)).eraseDups

/-- The loop body for one namespace (parser.go:334-364). -/
def roleFor (roleName : String) (ns : String) (policyRules : List PolicyRule) : Option RoleObj :=
  if policyRules = [] then none
  else if ns = "" then some (.clusterRole roleName policyRules)
  else some (.role roleName ns policyRules)

/-- `GenerateRoles` (parser.go:184-367).  `markers` is the concatenation, over the root packages in order,
of the `+kubebuilder:rbac` marker values of the package (parser.go:186-193); a package whose
markers cannot be collected contributes none (its error is recorded at 189).
`σ ns` resolves the map iterations of `NormalizeRules` for namespace `ns`, `τ` the iteration at 327. -/
def generateRoles (σ : String → Sched) (τ : Sched) (roleName : String) (markers : List Rule) :
    List RoleObj :=
  (sortStrings (τ.order 0 (namespacesOf markers))).filterMap (fun ns =>
    roleFor roleName ns (normalizeRules (σ ns) (rulesOf markers ns)))

/-- The result of `Generator.Generate` (parser.go:369-395) as far as file names and contents go:
no objects means no file; otherwise the objects go to `FileName` or `role.yaml`. -/
def generate (σ : String → Sched) (τ : Sched) (roleName fileName : String) (markers : List Rule) :
    Option (String × List RoleObj) :=
  let objs := generateRoles σ τ roleName markers
  if objs = [] then none
  else some (if fileName = "" then "role.yaml" else fileName, objs)

end Verif.Rbac

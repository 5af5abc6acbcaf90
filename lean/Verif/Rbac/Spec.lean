import Verif.Rbac.Model
/-!
# What RBAC rules mean (independent of the generator)

The semantics of Kubernetes RBAC: which requests a policy rule allows.  Written from the
Kubernetes authorizer's documented matching rules, not from controller-tools.
-/
namespace Verif.Rbac.Spec

/-- An API request as the RBAC authorizer sees it. -/
inductive Request
  /-- a request for `resource` (`subresource` may be "") named `name` in API group `group` -/
  | resource (verb group resource subresource name : String)
  /-- a request for a non-resource URL -/
  | url (verb path : String)

/-- "*" matches everything, otherwise equality. -/
def starMatch (pat s : String) : Bool := pat == "*" || pat == s

/-- Resource patterns: `*`, `resource`, `resource/subresource`, `*/subresource`. -/
def resourceMatch (pat res sub : String) : Bool :=
  pat == "*" || pat == (if sub == "" then res else res ++ "/" ++ sub)
    || (sub != "" && pat == "*/" ++ sub)

/-- URL patterns: `*`, an exact path, or a prefix ending in `*`. -/
def urlMatch (pat path : String) : Bool :=
  pat == "*" || pat == path ||
    (pat.toList.getLast? == some '*' &&
      (pat.toList.reverse.dropWhile (· == '*')).reverse.isPrefixOf path.toList)

/-- Does a policy rule allow a request?  An empty list of resource names means any name. -/
def allows (r : PolicyRule) : Request → Bool
  | .resource verb group res sub name =>
      r.verbs.any (starMatch · verb) && r.apiGroups.any (starMatch · group)
        && r.resources.any (resourceMatch · res sub)
        && (r.resourceNames == [] || r.resourceNames.contains name)
  | .url verb path =>
      r.verbs.any (starMatch · verb) && r.nonResourceURLs.any (urlMatch · path)

/-- What the author of a `+kubebuilder:rbac` marker asked for: the marker read as a policy rule, where the
group name `core` stands for the empty (core) group. -/
def markerRule (m : Rule) : PolicyRule :=
  { apiGroups := m.groups.map (fun g => if g = "core" then "" else g)
    verbs := m.verbs
    resources := m.resources
    resourceNames := m.resourceNames
    nonResourceURLs := m.urls }

/-- The request is asked for by some marker of namespace `ns`. -/
def Requested (markers : List Rule) (ns : String) (q : Request) : Prop :=
  ∃ m ∈ markers, m.ns = ns ∧ allows (markerRule m) q = true

/-- The rules granted in namespace `ns` (cluster-wide for the empty namespace) by a list of generated objects. -/
def grantedRules (objs : List RoleObj) (ns : String) : List PolicyRule :=
  objs.flatMap (fun o => match o with
    | .clusterRole _ rs => if ns = "" then rs else []
    | .role _ ns' rs => if ns' = ns ∧ ns ≠ "" then rs else [])

/-- The request is granted by the generated objects for namespace `ns`. -/
def Granted (objs : List RoleObj) (ns : String) (q : Request) : Prop :=
  ∃ r ∈ grantedRules objs ns, allows r q = true

/-- Strings that cannot be confused with the separators used in the generator's keys: not empty, no `&`, no space. -/
def CleanStr (s : String) : Prop := s ≠ "" ∧ ∀ c ∈ s.toList, c ≠ '&' ∧ c ≠ ' '

/-- An API group: as `CleanStr`, but the core group is written "". -/
def CleanGroup (s : String) : Prop := ∀ c ∈ s.toList, c ≠ '&' ∧ c ≠ ' '

/-- A marker without spelling accidents: no separators inside strings and no empty strings
(other than the core group). -/
structure CleanMarker (m : Rule) : Prop where
  groups : ∀ s ∈ m.groups, CleanGroup s
  resources : ∀ s ∈ m.resources, CleanStr s
  names : ∀ s ∈ m.resourceNames, CleanStr s
  verbs : ∀ s ∈ m.verbs, CleanStr s
  urls : ∀ s ∈ m.urls, CleanStr s

/-- The shape the Kubernetes API server requires of a policy rule: either a resource rule (with API groups and
resources and no URLs) or a URL rule (with neither groups, resources nor resource names). -/
def ValidShape (m : Rule) : Prop :=
  (m.groups ≠ [] ∧ m.resources ≠ [] ∧ m.urls = []) ∨
  (m.groups = [] ∧ m.resources = [] ∧ m.resourceNames = [] ∧ m.urls ≠ [])

/-- Two lists denote the same set. -/
def SameSet (a b : List String) : Prop := ∀ s, s ∈ a ↔ s ∈ b

/-- Two lists have no common member. -/
def Disjoint (a b : List String) : Prop := ∀ s, s ∈ a → s ∉ b

/-- Markers do not overlap partially: any two markers of one namespace that share a resource and have the same
resource names list either the same API groups or disjoint ones; and any two markers of one namespace list
either the same URLs or disjoint ones. -/
def NoOverlap (markers : List Rule) : Prop :=
  ∀ m₁ ∈ markers, ∀ m₂ ∈ markers, m₁.ns = m₂.ns →
    ((∃ r, r ∈ m₁.resources ∧ r ∈ m₂.resources) → SameSet m₁.resourceNames m₂.resourceNames →
      (SameSet (markerRule m₁).apiGroups (markerRule m₂).apiGroups ∨
        Disjoint (markerRule m₁).apiGroups (markerRule m₂).apiGroups)) ∧
    (SameSet m₁.urls m₂.urls ∨ Disjoint m₁.urls m₂.urls)

/-! ## Observations on generated objects -/

/-- The namespace an object belongs to; a `ClusterRole` is cluster-wide. -/
def nsOf : RoleObj → String
  | .clusterRole _ _ => ""
  | .role _ ns _ => ns

/-- The name of an object. -/
def nameOf : RoleObj → String
  | .clusterRole n _ => n
  | .role n _ _ => n

/-- The rules of an object. -/
def rulesIn : RoleObj → List PolicyRule
  | .clusterRole _ rs => rs
  | .role _ _ rs => rs

/-- What distinguishes two rules of one object: everything but the verbs, each list written with `&`. -/
def ident (r : PolicyRule) : String × String × String × String :=
  ("&".intercalate r.apiGroups, "&".intercalate r.resources, "&".intercalate r.resourceNames,
    "&".intercalate r.nonResourceURLs)

/-- The printed form of that identity, by which rules are ordered. -/
def printed (r : PolicyRule) : String :=
  (ident r).1 ++ " + " ++ (ident r).2.1 ++ " + " ++ (ident r).2.2.1 ++ " + " ++ (ident r).2.2.2

/-- Strictly increasing: sorted and without duplicates. -/
def StrictlySorted (l : List String) : Prop := l.Pairwise (· < ·)

/-- A policy rule in normal form. -/
structure NormalForm (r : PolicyRule) : Prop where
  groups : StrictlySorted r.apiGroups
  resources : StrictlySorted r.resources
  names : StrictlySorted r.resourceNames
  verbs : StrictlySorted r.verbs
  urls : StrictlySorted r.nonResourceURLs
  noCore : "core" ∉ r.apiGroups
  star : "*" ∈ r.verbs → r.verbs = ["*"]

end Verif.Rbac.Spec

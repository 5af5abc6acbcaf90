import Verif.CrdGen.Model

/-!
# What users expect of the CRD of a kind

In terms of the source (the versions of the packages that declare the kind, and the markers on the types) and of the CRD.
-/
namespace Verif.CrdGen.Spec
open Verif.CrdGen
open Verif.Crd (Schema)

/-- The marker is on the type. -/
def On (e : Entry) (m : Marker) : Prop := ∃ name vals, (name, vals) ∈ e.markers ∧ m ∈ vals

/-- The name under which a marker is registered (markers/crd.go:31-60). -/
def nameOf : Marker → Option String
  | .status => some "kubebuilder:subresource:status"
  | .scale _ => some "kubebuilder:subresource:scale"
  | .printColumn _ => some "kubebuilder:printcolumn"
  | .resource _ => some "kubebuilder:resource"
  | .storageVersion => some "kubebuilder:storageversion"
  | .skipVersion => some "kubebuilder:skipversion"
  | .unservedVersion => some "kubebuilder:unservedversion"
  | .deprecatedVersion _ => some "kubebuilder:deprecatedversion"
  | .metadata _ _ => some "kubebuilder:metadata"
  | .selectableField _ => some "kubebuilder:selectablefield"
  | .other => none

/-- The names of the CRD markers. -/
def crdMarkers : List String :=
  ["kubebuilder:subresource:status", "kubebuilder:subresource:scale", "kubebuilder:printcolumn", "kubebuilder:resource", "kubebuilder:storageversion", "kubebuilder:skipversion",
   "kubebuilder:unservedversion", "kubebuilder:deprecatedversion", "kubebuilder:metadata", "kubebuilder:selectablefield"]

/-- The markers of a type as the collector yields them: a map from the names of markers to the values of the markers with this name. -/
def Collected (e : Entry) : Prop :=
  GoMap.WF e.markers ∧ ∀ name vals, (name, vals) ∈ e.markers → ∀ m ∈ vals, nameOf m = some name ∨ (m = .other ∧ name ∉ crdMarkers)

/-- The values of the markers with a name, in the order in which they are written. -/
def written (e : Entry) (name : String) : List Marker := (GoMap.get e.markers name).getD []

/-- The version is to be left out. -/
def Skipped (e : Entry) : Prop := e.version ≠ "" ∧ On e .skipVersion

/-- No two packages of the group have the same version. -/
def DistinctVersions (entries : List Entry) : Prop := (entries.map (·.version)).Nodup

/-- The columns among the markers. -/
def columns : List Marker → List Column
  | [] => []
  | .printColumn c :: ms => c :: columns ms
  | _ :: ms => columns ms

/-- The paths of selectable fields among the markers. -/
def fields : List Marker → List String
  | [] => []
  | .selectableField p :: ms => p :: fields ms
  | _ :: ms => fields ms

/-- The version of the CRD that a package stands for, apart from the storage version. -/
structure VersionOf (e : Entry) (w : Version) : Prop where
  name : w.name = e.version
  schema : w.schema = e.schema
  served : w.served = true ↔ ¬ On e .unservedVersion
  deprecated : w.deprecated = true ↔ e.version ≠ "" ∧ ∃ x, On e (.deprecatedVersion x)
  /-- the last warning counts -/
  warning : w.warning = if e.version = "" then none else
    match (written e "kubebuilder:deprecatedversion").getLast? with
    | some (.deprecatedVersion x) => x
    | _ => none
  columns : w.columns = columns (written e "kubebuilder:printcolumn")
  selectable : w.selectable = fields (written e "kubebuilder:selectablefield")
  /-- a column makes for (empty) subresources too -/
  subresources : w.sub.isSome = true ↔ On e .status ∨ (∃ s, On e (.scale s)) ∨ ∃ c, On e (.printColumn c)
  status : (w.sub.getD {}).status = true ↔ On e .status
  /-- the last scale counts -/
  scale : (w.sub.getD {}).scale =
    match (written e "kubebuilder:subresource:scale").getLast? with
    | some (.scale s) => some s
    | _ => none

/-- All resource markers on the types of the kind are the same one, `none` if there is none. -/
def Resources (entries : List Entry) (r : Option Resource) : Prop :=
  (∀ e ∈ entries, ∀ r', On e (.resource r') → r = some r') ∧ ∀ r', r = some r' → ∃ e ∈ entries, On e (.resource r')

/-- `s`, or `d` if it is empty. -/
def or' (s d : String) : String := if s = "" then d else s

/-- The names and the scope of the CRD. -/
structure NamesOf (L : Lib) (g k : String) (r : Option Resource) (crd : Crd) : Prop where
  group : crd.group = g
  kind : crd.names.kind = k
  listKind : crd.names.listKind = k ++ "List"
  plural : crd.names.plural = or' (r.elim "" (·.path)) (L.lower (L.pluralize k))
  singular : crd.names.singular = or' (r.elim "" (·.singular)) (L.lower k)
  scope : crd.scope = or' (r.elim "" (·.scope)) "Namespaced"
  shortNames : crd.names.shortNames = r.elim [] (·.shortName)
  categories : crd.names.categories = r.elim [] (·.categories)
  name : crd.name = crd.names.plural ++ "." ++ g

/-- The text is `key=value`; the key is what is before the first `=`. -/
def Pair (s key value : String) : Prop := s.toList = key.toList ++ '=' :: value.toList ∧ '=' ∉ key.toList

/-- The text has no `=`. -/
def Malformed (s : String) : Prop := '=' ∉ s.toList

/-- No two metadata markers of the kind give different values to one key. -/
def NoConflicts (entries : List Entry) : Prop :=
  ∀ e₁ ∈ entries, ∀ e₂ ∈ entries, ∀ a₁ l₁ a₂ l₂, On e₁ (.metadata a₁ l₁) → On e₂ (.metadata a₂ l₂) →
    (∀ s₁ ∈ a₁, ∀ s₂ ∈ a₂, ∀ k v₁ v₂, Pair s₁ k v₁ → Pair s₂ k v₂ → v₁ = v₂) ∧
    (∀ s₁ ∈ l₁, ∀ s₂ ∈ l₂, ∀ k v₁ v₂, Pair s₁ k v₁ → Pair s₂ k v₂ → v₁ = v₂)

/-- A marker that needs its version to be there. -/
def NeedsVersion : Marker → Prop
  | .status | .scale _ | .printColumn _ | .selectableField _ => True
  | _ => False

/-- No version is left out whose type has markers that need it. -/
def NoClash (entries : List Entry) : Prop := ∀ e ∈ entries, Skipped e → ∀ m, On e m → ¬ NeedsVersion m

/-- The storage version: it is marked, or the only one that is left. -/
def Storage (entries : List Entry) (e : Entry) : Prop :=
  (e.version ≠ "" ∧ On e .storageVersion) ∨ ∀ e' ∈ entries, ¬ Skipped e' → e' = e

/-- The markers that are about one version. -/
def VersionScoped : Marker → Prop
  | .resource _ | .metadata _ _ | .other => False
  | _ => True

/-- A package whose type has the storage version marker and is not left out. -/
def MarkedStorage (e : Entry) : Prop := ¬ Skipped e ∧ e.version ≠ "" ∧ On e .storageVersion

/-- A metadata marker without malformed texts. -/
def WellFormed (a l : List String) : Prop := (∀ s ∈ a, ¬ Malformed s) ∧ ∀ s ∈ l, ¬ Malformed s

/-- The same map. -/
def SameMap (m m' : List (String × String)) : Prop := ∀ k, GoMap.get m k = GoMap.get m' k

/-- The same CRD; the order of the entries of a map does not matter. -/
structure SameCrd (c c' : Crd) : Prop where
  name : c.name = c'.name
  group : c.group = c'.group
  names : c.names = c'.names
  scope : c.scope = c'.scope
  versions : c.versions = c'.versions
  annotations : SameMap c.annotations c'.annotations
  labels : SameMap c.labels c'.labels

/-- The same outcome of the generation: a crash in both cases, or the same CRD (or none) with the same errors. -/
inductive SameOutcome : Option (Option Crd × List Err) → Option (Option Crd × List Err) → Prop
  | crash : SameOutcome none none
  | nothing (errs errs') : errs.Perm errs' → SameOutcome (some (none, errs)) (some (none, errs'))
  | crd (c c' errs errs') : SameCrd c c' → errs.Perm errs' → SameOutcome (some (some c, errs)) (some (some c', errs'))

end Verif.CrdGen.Spec

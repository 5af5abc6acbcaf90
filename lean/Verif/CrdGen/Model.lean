import Verif.Common.GoMap
import Verif.Common.Sched
import Verif.Common.Sort
import Verif.Common.Text
import Verif.Crd.Schema

/-!
# CRD objects: `NeedCRDFor` (crd/spec.go) and the CRD markers (crd/markers/crd.go)

A pointer that may be nil is an `Option`.  Nil and empty slices and maps are identified: the YAML output leaves both out.
Errors are values; a crash is `none`.
-/
namespace Verif.CrdGen
open Verif.Crd (Schema)

/-- `CustomResourceColumnDefinition` (library type), also the marker `PrintColumn` (markers/crd.go:194-221). -/
structure Column where
  name : String
  type : String
  jsonPath : String
  description : String := ""
  format : String := ""
  priority : Int := 0
deriving DecidableEq, Repr

/-- `CustomResourceSubresourceScale` (library type), also the marker `SubresourceScale` (markers/crd.go:97-111). -/
structure Scale where
  specPath : String
  statusPath : String
  selectorPath : Option String := none
deriving DecidableEq, Repr

/-- `CustomResourceSubresources` (library type). -/
structure Subresources where
  status : Bool := false
  scale : Option Scale := none
deriving DecidableEq, Repr

/-- `CustomResourceDefinitionVersion` (library type); the pointers to the schema are never nil. -/
structure Version where
  name : String
  served : Bool := true
  storage : Bool := false
  deprecated : Bool := false
  warning : Option String := none
  schema : Schema
  sub : Option Subresources := none
  columns : List Column := []
  selectable : List String := []

/-- `CustomResourceDefinitionNames` (library type). -/
structure Names where
  kind : String := ""
  listKind : String := ""
  plural : String := ""
  singular : String := ""
  shortNames : List String := []
  categories : List String := []
deriving DecidableEq, Repr

/-- `CustomResourceDefinition` (library type): the parts that are written by the generator. -/
structure Crd where
  name : String := ""
  annotations : List (String × String) := []
  labels : List (String × String) := []
  group : String := ""
  names : Names := {}
  scope : String := ""
  versions : List Version := []

/-- The marker `Resource` (markers/crd.go:255-286). -/
structure Resource where
  path : String := ""
  shortName : List String := []
  categories : List String := []
  singular : String := ""
  scope : String := ""
deriving DecidableEq, Repr

/-- The values of markers on a type: the CRD markers (markers/crd.go:31-60), and any other one. -/
inductive Marker
  | status
  | scale (s : Scale)
  | printColumn (c : Column)
  | resource (r : Resource)
  | storageVersion
  | skipVersion
  | unservedVersion
  | deprecatedVersion (warning : Option String)
  | metadata (annotations labels : List String)
  | selectableField (path : String)
  | other
deriving DecidableEq, Repr

/-- Errors, with what their text is made of. -/
inductive Err
  /-- a marker applied to a version that is not in the CRD (markers/crd.go:88, 127, 237, 413) -/
  | notInCrd (what version : String)
  /-- markers/crd.go:175 -/
  | skipSingle
  /-- markers/crd.go:375 -/
  | badAnnotation (s : String)
  /-- spec.go:159 -/
  | noStorage
  /-- spec.go:172 -/
  | noneServed
deriving DecidableEq, Repr

/-- What a marker leaves: the CRD and an error. -/
structure Applied where
  crd : Crd
  err : Option Err := none

/-- The loops `for i := range crd.Versions { if ver.Name != version { continue } …; break }` (markers/crd.go:76-86 and others); `none` if there is no such version. -/
def onFirst (v : String) (f : Version → Version) : List Version → Option (List Version)
  | [] => none
  | w :: ws => if w.name = v then some (f w :: ws) else (onFirst v f ws).map (w :: ·)

/-- Change a version, an error if it is missing (markers/crd.go:74-92, 113-135, 223-250, 402-421). -/
def orError (what v : String) (f : Version → Version) (crd : Crd) : Applied :=
  match onFirst v f crd.versions with
  | some l => { crd := { crd with versions := l } }
  | none => { crd := crd, err := some (.notInCrd what v) }

/-- Change a version, nothing if it is missing (markers/crd.go:146-161, 315-325, 337-353). -/
def orNothing (v : String) (f : Version → Version) (crd : Crd) : Applied :=
  match onFirst v f crd.versions with
  | some l => { crd := { crd with versions := l } }
  | none => { crd := crd }

/-- `SubresourceStatus` (markers/crd.go:74-92), on the version. -/
def setStatus (w : Version) : Version := { w with sub := some { w.sub.getD {} with status := true } }

/-- `SubresourceScale` (markers/crd.go:113-135), on the version. -/
def setScale (s : Scale) (w : Version) : Version := { w with sub := some { w.sub.getD {} with scale := some s } }

/-- `PrintColumn` (markers/crd.go:223-250), on the version: there are subresources afterwards. -/
def addColumn (c : Column) (w : Version) : Version := { w with sub := some (w.sub.getD {}), columns := w.columns ++ [c] }

/-- `Resource` (markers/crd.go:288-306). -/
def setResource (r : Resource) (crd : Crd) : Crd :=
  { crd with
    names := { crd.names with
      plural := if r.path ≠ "" then r.path else crd.names.plural
      singular := if r.singular ≠ "" then r.singular else crd.names.singular
      shortNames := r.shortName
      categories := r.categories }
    scope := if r.scope = "" then "Namespaced" else r.scope }

/-- `strings.SplitN(str, "=", 2)` (markers/crd.go:373, 386): `none` if there is one part only. -/
def keyValue (s : String) : Option (String × String) :=
  (Text.cut '=' s.toList).map fun p => (String.ofList p.1, String.ofList p.2)

/-- The loop over the annotations (markers/crd.go:372-378): the annotation that stops it. -/
def addAnnotations : List String → List (String × String) → List (String × String) × Option String
  | [], m => (m, none)
  | s :: ss, m =>
    match keyValue s with
    | none => (m, some s)
    | some (k, v) => addAnnotations ss (GoMap.put m k v)

/-- The loop over the labels (markers/crd.go:385-388): `kv[1]` is out of range for a label without `=`. -/
def addLabels : List String → List (String × String) → Option (List (String × String))
  | [], m => some m
  | s :: ss, m =>
    match keyValue s with
    | none => none
    | some (k, v) => addLabels ss (GoMap.put m k v)

/-- `Metadata` (markers/crd.go:367-392). -/
def setMetadata (annotations labels : List String) (crd : Crd) : Option Applied :=
  match addAnnotations annotations crd.annotations with
  | (m, some s) => some { crd := { crd with annotations := m }, err := some (.badAnnotation s) }
  | (m, none) =>
    match addLabels labels crd.labels with
    | none => none
    | some l => some { crd := { crd with annotations := m, labels := l } }

/-- `ApplyToCRD` of each marker (markers/crd.go:74-421; the choice between the interfaces is spec.go:118-126). -/
def apply : Marker → String → Crd → Option Applied
  | .status, v, crd => some (orError "status subresource" v setStatus crd)
  | .scale s, v, crd => some (orError "scale subresource" v (setScale s) crd)
  | .printColumn c, v, crd => some (orError "printer columns" v (addColumn c) crd)
  | .selectableField p, v, crd => some (orError "selectable field" v (fun w => { w with selectable := w.selectable ++ [p] }) crd)
  | .storageVersion, v, crd => some (if v = "" then { crd } else orNothing v (fun w => { w with storage := true }) crd)
  | .unservedVersion, v, crd => some (orNothing v (fun w => { w with served := false }) crd)
  | .deprecatedVersion warning, v, crd => some (if v = "" then { crd } else orNothing v (fun w => { w with deprecated := true, warning := warning }) crd)
  | .skipVersion, v, crd =>
    some (if v = "" then { crd := crd, err := some .skipSingle } else { crd := { crd with versions := crd.versions.filter fun w => w.name ≠ v } })
  | .resource r, _, crd => some { crd := setResource r crd }
  | .metadata a l, _, crd => setMetadata a l crd
  | .other, _, crd => some { crd }

/-- The markers in turn (spec.go:116-128). -/
def applyAll : List (String × Marker) → Crd → List Err → Option (Crd × List Err)
  | [], crd, errs => some (crd, errs)
  | (v, m) :: es, crd, errs =>
    match apply m v crd with
    | none => none
    | some a => applyAll es a.crd (errs ++ a.err.toList)

/-- A package of the group that declares the kind: its version, the markers of the type (a map from names to values), its schema as it is put into the CRD (spec.go:91-96). -/
structure Entry where
  version : String
  markers : List (String × List Marker) := []
  schema : Schema

/-- The library functions `flect.Pluralize` and `strings.ToLower` (not modelled: any functions). -/
structure Lib where
  pluralize : String → String
  lower : String → String

/-- The CRD before the versions are added (spec.go:64-83). -/
def start (L : Lib) (group kind : String) : Crd :=
  { name := L.lower (L.pluralize kind) ++ "." ++ group
    group := group
    names := { kind := kind, listKind := kind ++ "List", plural := L.lower (L.pluralize kind), singular := L.lower kind }
    scope := "Namespaced" }

/-- The versions before the markers (spec.go:97-104). -/
def Entry.toVersion (e : Entry) : Version := { name := e.version, schema := e.schema }

/-- The markers in the order in which they are applied (spec.go:108-129): the map of each type in any order. -/
def events (σ : Sched) (t : Nat) : List Entry → List (String × Marker)
  | [] => []
  | e :: es => ((σ.order t e.markers).flatMap fun x => x.2.map fun m => (e.version, m)) ++ events σ (t + 1) es

/-- A single version is the storage version (spec.go:145-147). -/
def defaultStorage : List Version → List Version
  | [w] => [{ w with storage := true }]
  | l => l

/-- From the CRD with its markers to the end (spec.go:131-175).  `sort.Slice` is not stable: the versions come in any order before a stable sort. -/
def finish (σ : Sched) (t : Nat) (group : String) (crd : Crd) (errs : List Err) : Option Crd × List Err :=
  let crd := { crd with name := crd.names.plural ++ "." ++ group }
  if crd.versions = [] then (none, errs)
  else
    let vs := defaultStorage (sortBy (fun a b => strLe a.name b.name) (σ.order t crd.versions))
    let errs := if vs.any (·.storage) then errs else errs ++ [.noStorage]
    let errs := if vs.any (·.served) then errs else errs ++ [.noneServed]
    (some { crd with versions := vs }, errs)

/-- `NeedCRDFor` (spec.go:49-176) for a CRD that does not exist yet, from the packages of the group that declare the kind, in the order in which `GroupVersions` is iterated: the CRD that is stored, if any,
and the errors. -/
def build (σ : Sched) (L : Lib) (group kind : String) (entries : List Entry) : Option (Option Crd × List Err) :=
  match applyAll (events σ 1 entries) { start L group kind with versions := entries.map Entry.toVersion } [] with
  | none => none
  | some (crd, errs) => some (finish σ 0 group crd errs)

end Verif.CrdGen

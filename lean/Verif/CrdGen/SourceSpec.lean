import Verif.CrdGen.Source
import Verif.CrdGen.GenerateSpec
import Verif.Markers.InfoSpec
import Verif.Markers.ArgSpec
/-!
# What the comments in the source say about a CRD: specification

https://book.kubebuilder.io/reference/markers/crd.html
-/
namespace Verif.CrdGen.Spec
open Verif.CrdGen
open Verif.Markers (Value Definition Env)
open Verif.Markers.Args
open Verif.Markers.Collect (Comment Node)
open Verif.Markers.Spec (ShowsArg)
open Verif.Markers.Source (File Written InDoc Above Placed textOf Parsed)
open Verif.Crd (Schema TypeIdent Package)

/-- The arguments of the CRD markers. -/
def arguments : List (String × Definition) := [
  ("kubebuilder:subresource:status", ⟨[], true⟩),
  ("kubebuilder:subresource:scale", ⟨[⟨"specpath".toList, .str, false⟩, ⟨"statuspath".toList, .str, false⟩, ⟨"selectorpath".toList, .str, true⟩], true⟩),
  ("kubebuilder:printcolumn", ⟨[⟨"name".toList, .str, false⟩, ⟨"type".toList, .str, false⟩, ⟨"JSONPath".toList, .str, false⟩, ⟨"description".toList, .str, true⟩, ⟨"format".toList, .str, true⟩,
    ⟨"priority".toList, .int true, true⟩], true⟩),
  ("kubebuilder:resource", ⟨[⟨"path".toList, .str, true⟩, ⟨"shortName".toList, .slice .str, true⟩, ⟨"categories".toList, .slice .str, true⟩, ⟨"singular".toList, .str, true⟩, ⟨"scope".toList, .str, true⟩], true⟩),
  ("kubebuilder:storageversion", ⟨[], true⟩),
  ("kubebuilder:skipversion", ⟨[], true⟩),
  ("kubebuilder:unservedversion", ⟨[], true⟩),
  ("kubebuilder:deprecatedversion", ⟨[⟨"warning".toList, .str, true⟩], true⟩),
  ("kubebuilder:metadata", ⟨[⟨"annotations".toList, .slice .str, true⟩, ⟨"labels".toList, .slice .str, true⟩], true⟩),
  ("kubebuilder:selectablefield", ⟨[⟨"JSONPath".toList, .str, false⟩], true⟩)]

/-- The arguments of a comment are those of the marker. -/
def Fits (vals : List (List Char × Value)) : Marker → Prop
  | .scale s => IsText vals "specpath" s.specPath ∧ IsText vals "statuspath" s.statusPath ∧ IsPointer vals "selectorpath" s.selectorPath
  | .printColumn c => IsText vals "name" c.name ∧ IsText vals "type" c.type ∧ IsText vals "JSONPath" c.jsonPath ∧ IsText vals "description" c.description ∧ IsText vals "format" c.format ∧
      ∃ o, IsNumber vals "priority" o ∧ c.priority = o.getD 0
  | .resource r => IsText vals "path" r.path ∧ IsList vals "shortName" r.shortName ∧ IsList vals "categories" r.categories ∧ IsText vals "singular" r.singular ∧ IsText vals "scope" r.scope
  | .deprecatedVersion w => IsPointer vals "warning" w
  | .metadata a l => IsList vals "annotations" a ∧ IsList vals "labels" l
  | .selectableField p => IsText vals "JSONPath" p
  | _ => True

/-- The comment is this marker. -/
def Says (E : Env) (c : Comment) (m : Marker) : Prop := ∃ n d vals, nameOf m = some n ∧ (n, d) ∈ arguments ∧ Written E n.toList d c vals ∧ Fits vals m

/-- `ms` are the markers of the name `k` on a type: those of a list of comments that begin with this name, each of them once and in the order of the file, which are in its documentation or above it.  All comments with
a marker that are in its documentation or directly above it are among them. -/
def Listed (E : Env) (f : File) (n : Node) (k : String) (ms : List Marker) : Prop :=
  ∃ cs : List (Comment × Marker), ms = cs.map (·.2) ∧ (cs.map (·.1)).Sublist (f.groups.flatMap (·.comments)) ∧
    (∀ e ∈ cs, f.Marks e.1 ∧ (InDoc f n e.1 ∨ Above f n e.1) ∧ ('+' :: k.toList) <+: textOf e.1 ∧ ∀ m, nameOf m = some k → Says E e.1 m → m = e.2) ∧
    ∀ c m, f.Marks c → InDoc f n c ∨ Above f n c → nameOf m = some k → Says E c m → (c, m) ∈ cs

/-- The markers of a type are those of the comments on it. -/
def FromComments (E : Env) (f : File) (n : Node) (e : Entry) : Prop := Collected e ∧ ∀ k ∈ crdMarkers, Listed E f n k (written e k)

/-- The comment gives the package the group or the version `v`: `+name=v`, or just `+name` where it may be empty. -/
def Gives (E : Env) (name : String) (bare : Bool) (c : Comment) (v : String) : Prop :=
  (bare = true ∧ textOf c = '+' :: name.toList ∧ v = "") ∨ ∃ x, textOf c = '+' :: (name.toList ++ '=' :: x) ∧ ShowsArg E .str (.str v.toList) x

/-- The group or the version of a package is given by one of the comments for it; there is no such comment if there is none. -/
def Labelled (E : Env) (name : String) (bare : Bool) (files : List File) : Option String → Prop
  | some v => ∃ f ∈ files, ∃ c, f.Marks c ∧ ('+' :: name.toList) <+: textOf c ∧ ∀ v', Gives E name bare c v' → v' = v
  | none => ∀ f ∈ files, ∀ c, f.Marks c → Placed f c → ∀ v, ¬ Gives E name bare c v

/-- What is known of a package from its comments: its group, its version, and whether it is to be skipped. -/
structure Labels where
  group : Option String
  version : Option String
  skip : Prop

structure Labels.Of (E : Env) (files : List File) (l : Labels) : Prop where
  group : Labelled E "groupName" true files l.group
  version : Labelled E "versionName" false files l.version
  skip : l.skip → ∃ f ∈ files, ∃ c, f.Marks c ∧ "+kubebuilder:skip".toList <+: textOf c
  skips : ∀ f ∈ files, ∀ c, f.Marks c → Placed f c → textOf c = "+kubebuilder:skip".toList → l.skip

/-- `n` is the type of this name that is declared in the files (the last one, if there are several, such as `_`). -/
def TypeNamed (pk : Package) (name : String) (n : Node) : Prop :=
  ∃ a b, (pk.files.flatMap fun f => Markers.Each.declared (.node f.node f.children)).map (·.2) = a ++ n :: b ∧ pk.syn.typeName n = name ∧ ∀ x ∈ b, pk.syn.typeName x ≠ name

/-- The package is not replaced by fixed schemas only (known_types.go). -/
def Indexable (W : World) (pkg : String) : Prop := ∀ o, GoMap.get W.overrides (String.ofList (Loader.nonVendorPath (W.path pkg).toList)) = some o → o.add = true

/-- The entries a CRD is made of: one for each package, among those loaded so far, whose comments give it the group and that declares the kind; with the version of the package, the markers in the comments on the type
and a schema of the type. -/
def EntriesFrom (E : Env) (W : World) (labels : String → Labels) (SchemaOf : TypeIdent → Schema → Prop) (loaded : List String) (gk : GroupKind) (entries : List Entry) : Prop :=
  ∃ pkgs : List String, pkgs.Nodup ∧
    (∀ pkg, pkg ∈ pkgs ↔ pkg ∈ loaded ∧ (labels pkg).group = some gk.group ∧ ¬ (labels pkg).skip ∧ Indexable W pkg ∧ ∃ n, TypeNamed (W.pk pkg) gk.kind n) ∧
    All2 (fun pkg e => ((labels pkg).version = some e.version ∨ (labels pkg).version = none ∧ e.version = W.pkgName pkg) ∧
      (∃ f n, f ∈ (W.pk pkg).files ∧ n ∈ f.nodes ∧ TypeNamed (W.pk pkg) gk.kind n ∧ FromComments E f n e) ∧ SchemaOf ⟨pkg, gk.kind⟩ e.schema) pkgs entries

/-- The CRD is made of the entries: its versions, which are sorted, its names and its metadata. -/
structure MadeOf (L : Lib) (gk : GroupKind) (entries : List Entry) (crd : Crd) : Prop where
  versions : DistinctVersions entries → ∀ e ∈ entries, ¬ Skipped e → ∃ w ∈ crd.versions, VersionOf e w ∧ (w.storage = true ↔ Storage entries e)
  only : DistinctVersions entries → ∀ w ∈ crd.versions, ∃ e ∈ entries, ¬ Skipped e ∧ VersionOf e w ∧ (w.storage = true ↔ Storage entries e)
  sorted : DistinctVersions entries → crd.versions.Pairwise fun a b => a.name < b.name
  names : ∀ r, Resources entries r → NamesOf L gk.group gk.kind r crd
  metadata : ∀ e ∈ entries, ∀ a l, On e (.metadata a l) → WellFormed a l →
    (∀ s ∈ a, ∀ key v, Pair s key v → ∃ v', GoMap.get crd.annotations key = some v' ∧ (NoConflicts entries → v' = v)) ∧
    (∀ s ∈ l, ∀ key v, Pair s key v → ∃ v', GoMap.get crd.labels key = some v' ∧ (NoConflicts entries → v' = v))
  annotations : ∀ key v, GoMap.get crd.annotations key = some v → ∃ e ∈ entries, ∃ a l, On e (.metadata a l) ∧ ∃ s ∈ a, Pair s key v
  labels : ∀ key v, GoMap.get crd.labels key = some v → ∃ e ∈ entries, ∃ a l, On e (.metadata a l) ∧ ∃ s ∈ l, Pair s key v

/-- What a marker that is not about the whole CRD is for. -/
def Shown (w : Version) : Marker → Prop
  | .status => (w.sub.getD {}).status = true
  | .scale _ => (w.sub.getD {}).scale.isSome = true
  | .printColumn c => c ∈ w.columns
  | .selectableField p => p ∈ w.selectable
  | .storageVersion => w.storage = true
  | .unservedVersion => w.served = false
  | .deprecatedVersion _ => w.deprecated = true
  | _ => True

/-- All packages are parsed, and the collector of markers reports no error in them. -/
def Readable (hist : List (Markers.Def Markers.Loaded)) (E : Env) (W : World) : Prop :=
  ∀ p, Parsed (W.pk p).files ∧ (W.pk p).syn.OK (W.pk p).files ∧ Markers.Source.typesOf hist E (W.pk p).syn (W.pk p).σ (W.pk p).files ≠ some none

end Verif.CrdGen.Spec

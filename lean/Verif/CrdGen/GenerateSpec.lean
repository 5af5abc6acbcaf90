import Verif.CrdGen.Generate
import Verif.CrdGen.Spec
import Verif.Common.All2

/-! # What users expect of the CRD generator -/
namespace Verif.CrdGen.Spec
open Verif.CrdGen
open Verif.Crd (Schema Src PState TypeIdent Decl typeOf)
open Verif.Crd.Spec (Declares)

/-- The meta package, as the root packages import it: that of the first one that does. -/
def MetaOf (S : GSrc) (roots : List String) (m : String) : Prop :=
  ∃ a r b, roots = a ++ r :: b ∧ S.src.imports r Verif.Crd.metaPath = some m ∧ ∀ r' ∈ a, S.src.imports r' Verif.Crd.metaPath = none

/-- The struct embeds a type of the meta package. -/
def Embeds (S : GSrc) (m pkg name : String) (d : Decl) : Prop :=
  ∃ f ∈ d.fields, f.name = "" ∧ ∃ q u, typeOf (S.src.ctx pkg) f.type = .named (some q) name u ∧ S.src.imports pkg (String.ofList (Loader.nonVendorPath q.toList)) = some m

/-- An API object: a struct that embeds both `TypeMeta` and `ObjectMeta`. -/
def IsObject (S : GSrc) (m pkg : String) (d : Decl) : Prop := Embeds S m pkg "TypeMeta" d ∧ Embeds S m pkg "ObjectMeta" d

/-- The group of a package; the empty one if there is no marker. -/
def GroupOf (S : GSrc) (pkg group : String) : Prop := S.groupName pkg = some group ∨ (S.groupName pkg = none ∧ group = "")

/-- The kind is that of an API object that is declared in a root package (which is not to be skipped). -/
def KindIn (S : GSrc) (roots : List String) (gk : GroupKind) : Prop :=
  ∃ m pkg d, MetaOf S roots m ∧ pkg ∈ roots ∧ Declares S.src ⟨pkg, gk.kind⟩ d ∧ IsObject S m pkg d ∧ GroupOf S pkg gk.group

/-- The names of types are free of dots. -/
def GoNames (S : GSrc) : Prop := ∀ pkg, ∀ d ∈ S.src.decls pkg, '.' ∉ d.name.toList

/-- The version of a package with markers. -/
def VersionOfPkg (S : GSrc) (pkg version : String) : Prop := S.versionName pkg = some version ∨ (S.versionName pkg = none ∧ version = S.pkgName pkg)

/-- The entries a CRD is made of: one for each package, among those loaded so far, that has the group and declares the kind; with the version of the package, the markers on the type and a schema of the type. -/
def EntriesOf (S : GSrc) (SchemaOf : TypeIdent → Schema → Prop) (loaded : List String) (gk : GroupKind) (entries : List Entry) : Prop :=
  ∃ pkgs : List String, pkgs.Nodup ∧ (∀ pkg, pkg ∈ pkgs ↔ pkg ∈ loaded ∧ S.groupName pkg = some gk.group ∧ ∃ d, Declares S.src ⟨pkg, gk.kind⟩ d) ∧
    All2 (fun pkg e => VersionOfPkg S pkg e.version ∧ e.markers = S.crdMarkers ⟨pkg, gk.kind⟩ ∧ SchemaOf ⟨pkg, gk.kind⟩ e.schema) pkgs entries

/-- The names of the files of a CRD: the first one by group and plural, further ones also by the version of the CRD API. -/
def FileNames (crd : Crd) (versions : List String) (files : List (String × Crd)) : Prop :=
  files.length = versions.length ∧ ∀ (i : Nat) v f, versions[i]? = some v → files[i]? = some f →
    f.1 = if i = 0 then crd.group ++ "_" ++ crd.names.plural ++ ".yaml" else crd.group ++ "_" ++ crd.names.plural ++ "." ++ v ++ ".yaml"

/-- Schemas that are the same but for a property `metadata`, which is any object in the second. -/
def ExceptMetadata : Schema → Schema → Prop
  | .mk b it al oo an nt pr ad pa de ai df, .mk b' it' al' oo' an' nt' pr' ad' pa' de' ai' df' =>
    b = b' ∧ it = it' ∧ al = al' ∧ oo = oo' ∧ an = an' ∧ nt = nt' ∧ ad = ad' ∧ pa = pa' ∧ de = de' ∧ ai = ai' ∧ df = df' ∧
    (∀ k, k ≠ "metadata" → GoMap.get pr' k = GoMap.get pr k) ∧ (GoMap.get pr "metadata" = none → pr' = pr) ∧
    ((GoMap.get pr "metadata").isSome = true → GoMap.get pr' "metadata" = some (.leaf { type := "object" }))

/-- The contents of a file: the CRD, with the version of the tool as an annotation, and simple `metadata`. -/
structure Printed (tool : String) (crd crd' : Crd) : Prop where
  name : crd'.name = crd.name
  group : crd'.group = crd.group
  names : crd'.names = crd.names
  scope : crd'.scope = crd.scope
  labels : crd'.labels = crd.labels
  tool : GoMap.get crd'.annotations "controller-gen.kubebuilder.io/version" = some tool
  annotations : ∀ k, k ≠ "controller-gen.kubebuilder.io/version" → GoMap.get crd'.annotations k = GoMap.get crd.annotations k
  versions : All2 (fun w w' => w' = { w with schema := w'.schema } ∧ ExceptMetadata w.schema w'.schema) crd.versions crd'.versions

/-- The files, in turn for each kind; `crdOf` gives the CRDs. -/
def FilesOf (tool : String) (crdOf : GroupKind → Option Crd) (versions : List String) (kinds : List GroupKind) (files : List (String × Crd)) : Prop :=
  ∃ parts : List (List (String × Crd)), files = parts.flatten ∧
    All2 (fun gk fs => ∃ crd, crdOf gk = some crd ∧ FileNames crd versions fs ∧ ∀ f ∈ fs, Printed tool crd f.2) kinds parts

end Verif.CrdGen.Spec

import Verif.CrdGen.Model
import Verif.Crd.Need
import Verif.Crd.NeedSpec
import Verif.Crd.NeedLemmas
import Verif.Crd.Flat
import Verif.Crd.AllOf
import Verif.Desc.Model

/-!
# The CRD generator: `Generate` (crd/gen.go:126-212), from packages to files

Simplified: the flattener does not ask the parser for schemas again (`loadUnflattenedSchema`, flatten.go:249-257): they are all there once `NeedSchemaFor` is done (C55).  Conversion between versions of
the CRD API (`AsVersion`, conv.go:27-43) is a library function: it is the identity for `v1`.  Errors of a package are counted (parser, flattener) or listed (markers); the package they are attached to is left out.
-/
namespace Verif.CrdGen
open Verif.Crd (Schema Src PState FState TypeIdent Decl Stop AnyVal Raw GoType flattenType flattenEmbedded typeOf)
open Verif.Crd.Spec (envOf)

/-- `schema.GroupKind` (library type). -/
structure GroupKind where
  group : String
  kind : String
deriving DecidableEq, Repr

/-- `GroupKind.String` (library function). -/
def GroupKind.string (gk : GroupKind) : String := if gk.group = "" then gk.kind else gk.kind ++ "." ++ gk.group

/-- What the generator sees of the program. -/
structure GSrc where
  src : Src
  /-- `pkg.Name` -/
  pkgName : String → String
  /-- the package marker `groupName` -/
  groupName : String → Option String
  /-- the package marker `versionName` -/
  versionName : String → Option String
  /-- the markers of a type, as `NeedCRDFor` sees them -/
  crdMarkers : TypeIdent → List (String × List Marker)

/-- The group and the version of a package, if it has them once its types have been indexed (`indexTypes`, parser.go:126-146). -/
def GSrc.groupVersion (S : GSrc) (pkg : String) : Option (String × String) :=
  if S.src.indexed pkg then (S.groupName pkg).map fun g => (g, (S.versionName pkg).getD (S.pkgName pkg)) else none

/-- `GroupVersions` (parser.go:75-77): the packages that have been added, with their groups and versions. -/
def GSrc.groupVersions (S : GSrc) (p : PState) : List (String × String × String) :=
  p.packages.eraseDups.filterMap fun pkg => (S.groupVersion pkg).map fun gv => (pkg, gv.1, gv.2)

/-- The options (gen.go:47-101) and the environment. -/
structure Opts where
  lib : Lib
  /-- library functions and tables of `TruncateDescription` -/
  tables : Desc.Tables
  marshal : AnyVal → Option Raw
  maxDescLen : Option Int := none
  crdVersions : List String := []
  /-- `version.Version()` -/
  toolVersion : String := ""
  /-- whether the header file can be read (gen.go:163-169) -/
  headerOk : Bool := true
  /-- whether a file can be written (`ctx.WriteYAML`, gen.go:205) -/
  writable : String → Bool := fun _ => true
  /-- bound on the depth of the recursion of `NeedSchemaFor` -/
  fuel : Nat

/-- The state of the parser, of the flattener, and the CRDs (parser.go:48-91). -/
structure State where
  parser : PState := {}
  flattener : FState := {}
  /-- `FlattenedSchemata` -/
  flat : List (TypeIdent × Schema) := []
  /-- errors of `FlattenEmbedded` -/
  embedErrs : Nat := 0
  /-- `CustomResourceDefinitions` -/
  crds : List (GroupKind × Crd) := []
  /-- errors of `NeedCRDFor` -/
  errs : List Err := []

/-- The schedules of a run: of the schema generator, of the flattener, and of the loops over maps for CRDs (by kind). -/
structure Scheds where
  gen : Nat → Sched
  flat : Sched
  /-- over `GroupVersions` (spec.go:57), for each kind -/
  groups : GroupKind → Sched
  /-- over markers (spec.go:116), and the unstable sort (spec.go:141), for each kind -/
  crd : GroupKind → Sched
  /-- over `Types` and the set of kinds (gen.go:271, 328), and the unstable sort (gen.go:331) -/
  kinds : Sched

/-- `NeedFlattenedSchemaFor` (parser.go:197-209). -/
def needFlat (S : GSrc) (O : Opts) (σ : Scheds) (id : TypeIdent) (st : State) : Except Stop State :=
  match GoMap.get st.flat id with
  | some _ => .ok st
  | none =>
    match S.src.need O.marshal σ.gen O.fuel id st.parser with
    | .error e => .error e
    | .ok p =>
      match flattenType (envOf S.src p) σ.flat id st.flattener with
      | .error e => .error e
      | .ok (none, _) => .error .panic
      | .ok (some s, f) =>
        .ok { st with parser := p, flattener := f, flat := GoMap.put st.flat id (flattenEmbedded s).1, embedErrs := st.embedErrs + (flattenEmbedded s).2.length }

/-- The schema of a version (spec.go:92-96). -/
def versionSchema (O : Opts) (s : Schema) : Schema :=
  match O.maxDescLen with
  | none => s
  | some n => Desc.truncateDescription O.tables n s

/-- The first loop over the packages of the group (spec.go:85-105): the versions. -/
def gather (S : GSrc) (O : Opts) (σ : Scheds) (kind : String) : List (String × String × String) → State → Except Stop (List Entry × State)
  | [], st => .ok ([], st)
  | (pkg, _, ver) :: ps, st =>
    match GoMap.get st.parser.types ⟨pkg, kind⟩ with
    | none => gather S O σ kind ps st
    | some _ =>
      match needFlat S O σ ⟨pkg, kind⟩ st with
      | .error e => .error e
      | .ok st =>
        match gather S O σ kind ps st with
        | .error e => .error e
        | .ok (es, st') =>
          .ok ({ version := ver, markers := S.crdMarkers ⟨pkg, kind⟩, schema := versionSchema O ((GoMap.get st.flat ⟨pkg, kind⟩).getD .empty) } :: es, st')

/-- `NeedCRDFor` (spec.go:49-176). -/
def needCrd (S : GSrc) (O : Opts) (σ : Scheds) (gk : GroupKind) (st : State) : Except Stop State :=
  match GoMap.get st.crds gk with
  | some _ => .ok st
  | none =>
    match gather S O σ gk.kind (((σ.groups gk).order 0 (S.groupVersions st.parser)).filter fun x => x.2.1 = gk.group) st with
    | .error e => .error e
    | .ok (es, st) =>
      match build (σ.crd gk) O.lib gk.group gk.kind es with
      | none => .error .panic
      | some (none, errs) => .ok { st with errs := st.errs ++ errs }
      | some (some crd, errs) => .ok { st with errs := st.errs ++ errs, crds := GoMap.put st.crds gk crd }

/-- `FindMetav1` (gen.go:255-263). -/
def findMetav1 (S : GSrc) : List String → Option String
  | [] => none
  | r :: rs =>
    match S.src.imports r Verif.Crd.metaPath with
    | some m => some m
    | none => findMetav1 S rs

/-- A field that embeds a type of the meta package (gen.go:279-313). -/
def embeds (S : GSrc) (metav1 pkg name : String) (f : Verif.Crd.Field) : Bool :=
  if f.name ≠ "" then false
  else
    match typeOf (S.src.ctx pkg) f.type with
    | .named (some q) n _ => decide (S.src.imports pkg (String.ofList (Loader.nonVendorPath q.toList)) = some metav1 ∧ n = name)
    | _ => false

/-- `FindKubeKinds` (gen.go:268-336). -/
def findKinds (S : GSrc) (σ : Sched) (metav1 : String) (p : PState) : List GroupKind :=
  let found := ((σ.order 0 p.types).filter fun x => x.2.fields.any (embeds S metav1 x.1.pkg "ObjectMeta") && x.2.fields.any (embeds S metav1 x.1.pkg "TypeMeta")).map fun x =>
    GroupKind.mk (((GoMap.get (S.groupVersions p) x.1.pkg).map (·.1)).getD "") x.1.name
  sortBy (fun a b => strLe a.string b.string) (σ.order 2 (σ.order 1 found.eraseDups))

/-- `addAttribution` (gen.go:246-251). -/
def addAttribution (O : Opts) (crd : Crd) : Crd :=
  { crd with annotations := GoMap.put crd.annotations "controller-gen.kubebuilder.io/version" O.toolVersion }

/-- `FixTopLevelMetadata` (gen.go:233-242), on the schema. -/
def fixMetadata : Schema → Schema
  | .mk b it al oo an nt pr ad pa de ai df =>
    match GoMap.get pr "metadata" with
    | none => .mk b it al oo an nt pr ad pa de ai df
    | some _ => .mk b it al oo an nt (GoMap.put pr "metadata" (.leaf { type := "object" })) ad pa de ai df

/-- `removeDescriptionFromMetadataProps` (gen.go:222-230). -/
def dropMetadataDescription : Schema → Schema
  | .mk b it al oo an nt pr ad pa de ai df =>
    match GoMap.get pr "metadata" with
    | none => .mk b it al oo an nt pr ad pa de ai df
    | some (.mk b' it' al' oo' an' nt' pr' ad' pa' de' ai' df') =>
      .mk b it al oo an nt (GoMap.put pr "metadata" (.mk { b' with description := [] } it' al' oo' an' nt' pr' ad' pa' de' ai' df')) ad pa de ai df

/-- Change the schemas of all versions. -/
def mapSchemas (f : Schema → Schema) (crd : Crd) : Crd := { crd with versions := crd.versions.map fun w => { w with schema := f w.schema } }

/-- Whether `AsVersion` (conv.go:27-43) succeeds: it is the identity for `v1`; the internal version is also known to the library. -/
def knownVersion (ver : String) : Bool := ver = "v1" || ver = "__internal"

/-- The name of a file (gen.go:199-204). -/
def fileName (crd : Crd) (i : Nat) (ver : String) : String :=
  if i = 0 then crd.group ++ "_" ++ crd.names.plural ++ ".yaml" else crd.group ++ "_" ++ crd.names.plural ++ "." ++ ver ++ ".yaml"

/-- What has been written, and whether the generator has returned an error. -/
structure Out where
  files : List (String × Crd) := []
  failed : Bool := false

/-- The loop over the versions of one CRD that writes the files (gen.go:197-208).  The type assertion of gen.go:198 fails for the internal version. -/
def writeFiles (O : Opts) (crd : Crd) : Nat → List String → Out → Except Stop Out
  | _, [], out => .ok out
  | i, v :: vs, out =>
    if v ≠ "v1" then .error .panic
    else if O.writable (fileName crd i v) then writeFiles O crd (i + 1) vs { out with files := out.files ++ [(fileName crd i v, mapSchemas dropMetadataDescription crd)] }
    else .ok { out with failed := true }

/-- The loop over the kinds (gen.go:180-209).  A kind without a CRD has the zero value in the map (gen.go:182). -/
def writeKinds (S : GSrc) (O : Opts) (σ : Scheds) (versions : List String) : List GroupKind → State → Out → Except Stop (State × Out)
  | [], st, out => .ok (st, out)
  | gk :: gks, st, out =>
    match needCrd S O σ gk st with
    | .error e => .error e
    | .ok st =>
      let crd := mapSchemas fixMetadata (addAttribution O ((GoMap.get st.crds gk).getD {}))
      if versions.all knownVersion = false then .ok (st, { out with failed := true })
      else
        match writeFiles O crd 0 versions out with
        | .error e => .error e
        | .ok out => if out.failed then .ok (st, out) else writeKinds S O σ versions gks st out

/-- `Generate` (gen.go:126-212). -/
def generate (S : GSrc) (O : Opts) (σ : Scheds) (roots : List String) : Except Stop (State × Out) :=
  let st : State := { parser := roots.foldl (fun p r => S.src.needPackage r p) {} }
  match findMetav1 S roots with
  | none => .ok (st, {})
  | some m =>
    let kinds := findKinds S σ.kinds m st.parser
    if kinds = [] then .ok (st, {})
    else if O.headerOk = false then .ok (st, { failed := true })
    else writeKinds S O σ (if O.crdVersions = [] then ["v1"] else O.crdVersions) kinds st {}

end Verif.CrdGen

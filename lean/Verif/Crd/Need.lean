import Verif.Crd.Gen
import Verif.Crd.Flat

/-!
# Asking for schemas (parser.go:94-248, schema.go:99-111, known_types.go)

The parser indexes the types of a package when the package is needed, and generates the schema of a type when it is needed, together with the schemas of the types it refers to.  The groups and
versions of packages (parser.go:137-147) are left out here.
-/
namespace Verif.Crd

/-- A `PackageOverride` (parser.go:38-42), of which there are those in known_types.go only: fixed schemas, and whether the package is indexed as well. -/
structure Override where
  schemata : List (String × Schema)
  add : Bool

/-- `{Type: t}` and the like (known_types.go). -/
def typed (t : String) : Schema := .leaf { type := t }

/-- `anyOf: [{type: integer}, {type: string}]`, `x-kubernetes-int-or-string: true` (known_types.go:55-66, 84-94). -/
def intOrString (pattern : String) : Schema :=
  .mk { xIntOrString := true, pattern } none [] [] [typed "integer", typed "string"] none [] none [] [] none []

def metaPath : String := "k8s.io/apimachinery/pkg/apis/meta/v1"

/-- The overrides of meta/v1 (known_types.go:27-53), where `objectMeta` is the schema of `ObjectMeta`. -/
def metaOverride (objectMeta : Schema) : Override where
  schemata := [("ObjectMeta", objectMeta), ("Time", .leaf { type := "string", format := "date-time" }), ("MicroTime", .leaf { type := "string", format := "date-time" }),
    ("Duration", typed "string"), ("Fields", .mk { type := "object" } none [] [] [] none [] (some (.mk true none)) [] [] none [])]
  add := true

/-- `KnownPackages` (known_types.go:26-103). -/
def knownPackages : List (String × Override) :=
  [(metaPath, metaOverride (typed "object")),
   ("k8s.io/apimachinery/pkg/api/resource", ⟨[("Quantity",
      intOrString "^(\\+|-)?(([0-9]+(\\.[0-9]*)?)|(\\.[0-9]+))(([KMGTPE]i)|[numkMGTPE]|([eE](\\+|-)?(([0-9]+(\\.[0-9]*)?)|(\\.[0-9]+))))?$")], false⟩),
   ("k8s.io/apimachinery/pkg/runtime", ⟨[("RawExtension", .leaf { type := "object", xPreserveUnknownFields := some true })], true⟩),
   ("k8s.io/apimachinery/pkg/apis/meta/v1/unstructured", ⟨[("Unstructured", typed "object")], true⟩),
   ("k8s.io/apimachinery/pkg/util/intstr", ⟨[("IntOrString", intOrString "")], false⟩),
   ("k8s.io/apiextensions-apiserver/pkg/apis/apiextensions/v1beta1", ⟨[("JSON", .leaf { xPreserveUnknownFields := some true })], true⟩),
   ("k8s.io/apiextensions-apiserver/pkg/apis/apiextensions/v1", ⟨[("JSON", .leaf { xPreserveUnknownFields := some true })], true⟩)]

/-- A map of strings (known_types.go:123-138). -/
def stringMap : Schema := .mk { type := "object" } none [] [] [] none [] (some (.mk false (some (typed "string")))) [] [] none []

/-- `ObjectMeta` with its properties (known_types.go:114-147). -/
def embeddedObjectMeta : Schema :=
  .mk { type := "object" } none [] [] [] none
    [("name", typed "string"), ("namespace", typed "string"), ("annotations", stringMap), ("labels", stringMap),
     ("finalizers", .mk { type := "array" } (some (.mk (some (typed "string")) [])) [] [] [] none [] none [] [] none [])] none [] [] none []

/-- `AddKnownTypes` (known_types.go:153-167).  The keys of both maps are distinct, so that the order of iteration does not matter; `ObjectMetaPackages` (known_types.go:106-150) replaces the schema of
`ObjectMeta`. -/
def addKnownTypes (generateEmbeddedObjectMeta : Bool) : List (String × Override) :=
  if generateEmbeddedObjectMeta then GoMap.put knownPackages metaPath (metaOverride embeddedObjectMeta) else knownPackages

/-- What the parser sees of the program. -/
structure Src where
  /-- the type checker, the package markers and the options, for each package -/
  ctx : String → PkgCtx
  /-- `pkg.Imports()[path]` (loader.go:80-90); `none` is the nil pointer -/
  imports : String → String → Option String
  /-- the types of the package, in the order of `EachType` (zip.go:192-234); none if the markers cannot be collected -/
  decls : String → List Decl
  /-- `pkg.PkgPath` -/
  path : String → String
  /-- `PackageOverrides` -/
  overrides : List (String × Override)

/-- The state of the parser (parser.go:48-91), the number of errors, the number of calls of `applyMarkers`, and (not in the code) the types for which `infoToSchema` has been called. -/
structure PState where
  packages : List String := []
  types : List (TypeIdent × Decl) := []
  schemata : List (TypeIdent × Schema) := []
  errs : Nat := 0
  tick : Nat := 0
  made : List TypeIdent := []

/-- `AddPackage` (parser.go:209-217) with `indexTypes` (parser.go:126-162). -/
def Src.addPackage (S : Src) (pkg : String) (st : PState) : PState :=
  if pkg ∈ st.packages then st
  else { st with
    types := if (S.ctx pkg).markers.has "kubebuilder:skip" then st.types else (S.decls pkg).foldl (fun m d => GoMap.put m ⟨pkg, d.name⟩ d) st.types
    packages := pkg :: st.packages }

/-- `NeedPackage` (parser.go:221-235). -/
def Src.needPackage (S : Src) (pkg : String) (st : PState) : PState :=
  if pkg ∈ st.packages then st
  else
    match GoMap.get S.overrides (String.ofList (Loader.nonVendorPath (S.path pkg).toList)) with
    | some o =>
      let st := { st with schemata := o.schemata.foldl (fun m e => GoMap.put m ⟨pkg, e.1⟩ e.2) st.schemata }
      let st := if o.add then S.addPackage pkg st else st
      { st with packages := pkg :: st.packages }
    | none => S.addPackage pkg st

/-- The package `requestSchema` asks in (schema.go:99-111). -/
def Src.target (S : Src) (pkg path : String) : Option String := if path = "" then some pkg else S.imports pkg path

/-- A request of the schema of a type by another one (`requestSchema`, schema.go:99-111): a nil package is dereferenced (parser.go:230). -/
def Src.request (S : Src) (need : TypeIdent → PState → Except Stop PState) (pkg : String) (r : String × String) (st : PState) : Except Stop PState :=
  match S.target pkg r.1 with
  | none => .error .panic
  | some q => need ⟨q, r.2⟩ st

/-- Requests in turn. -/
def Src.requests (S : Src) (need : TypeIdent → PState → Except Stop PState) (pkg : String) : List (String × String) → PState → Except Stop PState
  | [], st => .ok st
  | r :: rs, st =>
    match S.request need pkg r st with
    | .error e => .error e
    | .ok st => S.requests need pkg rs st

/-- `NeedSchemaFor` (parser.go:157-185), where `need` stands for the calls within `infoToSchema`.  Simplified: they are done after the schema has been generated and not during the generation; the
generation does not look at the state of the parser. -/
def Src.needStep (S : Src) (marshal : AnyVal → Option Raw) (σ : Nat → Sched) (need : TypeIdent → PState → Except Stop PState) (id : TypeIdent) (st : PState) : Except Stop PState :=
  let st := S.needPackage id.pkg st
  match GoMap.get st.schemata id with
  | some _ => .ok st
  | none =>
    match GoMap.get st.types id with
    | none => .ok { st with errs := st.errs + 1 }
    | some d =>
      match infoToSchema marshal σ (S.ctx id.pkg) d { tick := st.tick } with
      | .error _ => .error .panic
      | .ok (s, g) =>
        match S.requests need id.pkg g.reqs { st with schemata := GoMap.put st.schemata id .empty, errs := st.errs + g.errs, tick := g.tick, made := st.made ++ [id] } with
        | .error e => .error e
        | .ok st => .ok { st with schemata := GoMap.put st.schemata id s }

/-- `NeedSchemaFor` (parser.go:157-185), up to a depth of recursion. -/
def Src.need (S : Src) (marshal : AnyVal → Option Raw) (σ : Nat → Sched) : Nat → TypeIdent → PState → Except Stop PState
  | 0, _, _ => .error .deep
  | n + 1, id, st => S.needStep marshal σ (S.need marshal σ n) id st

/-- Calls of `NeedSchemaFor` from outside, in turn. -/
def Src.needAll (S : Src) (marshal : AnyVal → Option Raw) (σ : Nat → Sched) (n : Nat) : List TypeIdent → PState → Except Stop PState
  | [], st => .ok st
  | id :: ids, st =>
    match S.need marshal σ n id st with
    | .error e => .error e
    | .ok st => S.needAll marshal σ n ids st

end Verif.Crd

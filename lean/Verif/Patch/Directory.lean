import Verif.Patch.Generate
import Verif.Common.Text
/-!
# schemapatcher: reading the directory of manifests

The YAML libraries are parameters: what they make of the content of a file.  A content is of any type.
-/
namespace Verif.Patch

/-- An entry of the directory (`os.DirEntry`). -/
structure Entry where
  name : String
  isDir : Bool
deriving DecidableEq

/-- `crdIsh` (gen.go:426-436). -/
structure CrdIsh where
  group : String
  kind : String
  versions : List String
deriving DecidableEq

/-- What the libraries do: `ctx.ReadFile` of a file of the directory, `kyaml.Unmarshal` into `metav1.TypeMeta` (API version and kind) and into `crdIsh`, `yaml.Unmarshal` into a node.  `none` is an error. -/
structure Library (τ : Type) where
  read : String → Option τ
  typeMeta : τ → Option (String × String)
  crdIsh : τ → Option CrdIsh
  tree : τ → Option Node

/-- `filepath.Ext` (of a name without slashes): from the last dot on. -/
def ext (name : List Char) : List Char :=
  if '.' ∈ name then '.' :: (name.reverse.takeWhile (· ≠ '.')).reverse else []

/-- `currentAPIExtVersion` (gen.go:54-56), `isSupportedAPIExtGroupVer` (gen.go:414-416). -/
def isSupported (groupVer : String) : Bool := groupVer = "apiextensions.k8s.io/v1"

/-- A set: from group and kind to the manifests.  `map[schema.GroupKind]*partialCRDSet`. -/
abbrev Sets := List ((String × String) × CrdSet)

/-- Storing a manifest in its set (gen.go:391-407).  `Versions` is a set of names. -/
def store (res : Sets) (c : CrdIsh) (f : CrdFile) : Sets :=
  let set := (GoMap.get res (c.group, c.kind)).getD { group := c.group, kind := c.kind, versions := [], crds := [] }
  GoMap.put res (c.group, c.kind) { set with versions := set.versions ++ c.versions, crds := set.crds ++ [f] }

/-- The loop of `crdsFromDirectory` (gen.go:343-408).  `none` is an error. -/
def readLoop {τ : Type} (L : Library τ) : List Entry → Sets → Option Sets
  | [], res => some res
  | e :: rest, res =>
    if e.isDir ∨ ext e.name.toList ≠ ".yaml".toList then readLoop L rest res
    else match L.read e.name with
      | none => none
      | some raw =>
        match L.typeMeta raw with
        | none => readLoop L rest res
        | some (apiVersion, kind) =>
          if apiVersion = "" ∨ kind ≠ "CustomResourceDefinition" then readLoop L rest res
          else if !isSupported apiVersion then none
          else match L.crdIsh raw with
            | none => readLoop L rest res
            | some c =>
              match L.tree raw with
              | none => readLoop L rest res
              | some t => readLoop L rest (store res c { file := e.name, doc := t })

/-- `crdsFromDirectory` (gen.go:337-410); `dir` is `os.ReadDir`. -/
def crdsFromDirectory {τ : Type} (L : Library τ) (dir : Option (List Entry)) : Option Sets :=
  match dir with
  | none => none
  | some entries => readLoop L entries []

/-- The types: the packages with their versions, the kinds, the schemas. -/
structure Types where
  gvs : List GvEntry
  kinds : List (String × String)
  schema : String → String → Node

/-- The generator (gen.go:89-212), from the directory to the files it writes; the roots import metav1 (gen.go:103-107). -/
def schemapatch {τ : Type} (L : Library τ) (σ : Sched) (t : Types) (dir : Option (List Entry)) : Run :=
  match crdsFromDirectory L dir with
  | none => { writes := [], status := .err }
  | some sets => generate σ { gvs := t.gvs, kinds := t.kinds, schema := t.schema, sets := sets.map (·.2) }

/-- Writing a document to a file replaces what was there (gen.go:196-209 with `OutputToDirectory`, output.go:98-111): the documents of the files of a directory after the writes. -/
def afterWrites (files : String → Option (List Node)) : List CrdFile → String → Option (List Node)
  | [] => files
  | w :: ws => afterWrites (fun n => if n = w.file then some [w.doc] else files n) ws

end Verif.Patch

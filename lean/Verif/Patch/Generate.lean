import Verif.Patch.Crd
import Verif.Common.Sched
/-!
# schemapatcher: Generate

What is not modelled: generating the schemas (the model of that is in `Crd/` and `CrdGen/`; here the schema of a type is an input), reading the manifests (the sets are what `crdsFromDirectory`, gen.go:337-410, returns), and failures of the output rule.
-/
namespace Verif.Patch

/-- `partialCRD` (gen.go:229-244), without the version of the CRD object, which nothing reads. -/
structure CrdFile where
  file : String
  doc : Node

/-- `partialCRDSet` (gen.go:214-227) as `crdsFromDirectory` returns it. -/
structure CrdSet where
  group : String
  kind : String
  /-- `Versions`: names of versions in the manifests -/
  versions : List String
  crds : List CrdFile

/-- A package with its group-version: an entry of `GroupVersions` (parser.go:60-61). -/
structure GvEntry where
  pkg : String
  group : String
  version : String
deriving DecidableEq

/-- The input: the entries of `GroupVersions`, the kinds that `FindKubeKinds` found, the tree of the schema of a type (after the description limit and the metadata fix of gen.go:131-141, and `ToYAML`). -/
structure Input where
  gvs : List GvEntry
  kinds : List (String × String)
  schema : String → String → Node
  sets : List CrdSet

/-- `NewSchemata` of a set after the loop of gen.go:115-146. -/
def newSchemata (σ : Sched) (inp : Input) (set : CrdSet) : List (String × Node) :=
  if (set.group, set.kind) ∉ inp.kinds then []
  else (σ.order 0 inp.gvs).foldl (fun m gv =>
    if gv.group ≠ set.group then m
    else if gv.version ∉ set.versions then m
    else GoMap.put m gv.version (inp.schema gv.pkg set.kind)) []

/-- `partialCRDSet.setVersionedSchemata` and `setGlobalSchema`, which are the same loop (gen.go:247-255, 277-284): the manifests of a set. -/
def patchFiles (s : Schemas) : List CrdFile → Outcome (List CrdFile)
  | [] => .ok []
  | f :: rest =>
    match patch s f.doc with
    | .ok doc =>
      match patchFiles s rest with
      | .ok rest => .ok ({ f with doc := doc } :: rest)
      | .err => .err
      | .panic => .panic
    | .err => .err
    | .panic => .panic

/-- One round of the loop over sets (gen.go:149-187).  Which of the two equal loops runs depends on whether the schemas are all the same, which is left out. -/
def patchSet (σ : Sched) (inp : Input) (set : CrdSet) : Outcome (List CrdFile) :=
  let new := newSchemata σ inp set
  if new = [] then .ok set.crds
  else patchFiles (fun ver => GoMap.get new ver) set.crds

/-- The loop over sets (gen.go:149-187), where `f` is a round. -/
def patchEach (f : CrdSet → Outcome (List CrdFile)) : List CrdSet → Outcome (List (List CrdFile))
  | [] => .ok []
  | set :: rest =>
    match f set with
    | .ok files =>
      match patchEach f rest with
      | .ok rest => .ok (files :: rest)
      | .err => .err
      | .panic => .panic
    | .err => .err
    | .panic => .panic

/-- The loop over sets (gen.go:149-187). -/
abbrev patchSets (σ : Sched) (inp : Input) : List CrdSet → Outcome (List (List CrdFile)) := patchEach (patchSet σ inp)

/-- What a run leaves: the files that were written, in the order of the writes, and how it ended. -/
structure Run where
  writes : List CrdFile
  status : Outcome Unit

/-- `Generate` (gen.go:89-212).  The second loop over the sets (gen.go:190-209), the one that writes, is in an order of its own. -/
def generate (σ : Sched) (inp : Input) : Run :=
  match patchSets σ inp (σ.order 1 inp.sets) with
  | .ok files => { writes := (σ.order 2 files).flatten, status := .ok () }
  | .err => { writes := [], status := .err }
  | .panic => { writes := [], status := .panic }

end Verif.Patch

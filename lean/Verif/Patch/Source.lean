import Verif.Patch.Directory
import Verif.CrdGen.Generate
/-!
# schemapatcher: Generate (gen.go:89-212), from packages and manifests to files

What `Generate.lean` takes as an input, the packages with their groups and versions and the schemas of types, is computed here.  The parser and its state are those of the CRD generator.

The inner loop (gen.go:120-145) ranges over the map `GroupVersions`, and asking for a schema adds the packages that are needed for it to that map.  Go visits each entry that was there when the loop began exactly
once; an entry that is added meanwhile is visited or it is not.  So a run is a relation here.

Simplified: with no limit for descriptions, gen.go:139-141 also changes `metadata` in the schema that the parser keeps; no other schema shares it (`FlattenEmbedded` copies), and it is not used again.  Failures of the output rule
and of `ToYAML` are left out.
-/
namespace Verif.Patch
open Verif.Crd (Schema Stop)
open Verif.CrdGen (GSrc Opts State Scheds GroupKind needFlat versionSchema fixMetadata findMetav1 findKinds)

/-- `NewSchemata` of a set (gen.go:218-219). -/
abbrev New := List (String × Schema)

/-- A round of the loop over `GroupVersions` (gen.go:121-144) for the package `e.1` of group `e.2.1` and version `e.2.2`. -/
def round (S : GSrc) (O : Opts) (σ : Scheds) (set : CrdSet) (e : String × String × String) (st : State) (new : New) : Except Stop (State × New) :=
  if e.2.1 ≠ set.group then .ok (st, new)
  else if e.2.2 ∉ set.versions then .ok (st, new)
  else
    match needFlat S O σ ⟨e.1, set.kind⟩ st with
    | .error x => .error x
    | .ok st => .ok (st, GoMap.put new e.2.2 (fixMetadata (versionSchema O ((GoMap.get st.flat ⟨e.1, set.kind⟩).getD .empty))))

/-- The loop over `GroupVersions` (gen.go:120-145).  `first` are the entries at the beginning, `seen` the packages that have been visited. -/
inductive Loop (S : GSrc) (O : Opts) (σ : Scheds) (set : CrdSet) (first : List (String × String × String)) : List String → State → New → Except Stop (State × New) → Prop
  | done {seen st new} : (∀ e ∈ first, e.1 ∈ seen) → Loop S O σ set first seen st new (.ok (st, new))
  | stop {seen st new e x} : e ∈ S.groupVersions st.parser → e.1 ∉ seen → round S O σ set e st new = .error x → Loop S O σ set first seen st new (.error x)
  | next {seen st new e st' new' r} : e ∈ S.groupVersions st.parser → e.1 ∉ seen → round S O σ set e st new = .ok (st', new') → Loop S O σ set first (e.1 :: seen) st' new' r →
      Loop S O σ set first seen st new r

/-- The loop over kinds (gen.go:114-146).  `news` has `NewSchemata` of the sets that have been looked at. -/
inductive Kinds (S : GSrc) (O : Opts) (σ : Scheds) (sets : Sets) : List GroupKind → State → List ((String × String) × New) → Except Stop (State × List ((String × String) × New)) → Prop
  | nil {st news} : Kinds S O σ sets [] st news (.ok (st, news))
  | other {gk gks st news r} : GoMap.get sets (gk.group, gk.kind) = none → Kinds S O σ sets gks st news r → Kinds S O σ sets (gk :: gks) st news r
  | stop {gk gks st news set x} : GoMap.get sets (gk.group, gk.kind) = some set →
      Loop S O σ set (S.groupVersions st.parser) [] st ((GoMap.get news (gk.group, gk.kind)).getD []) (.error x) → Kinds S O σ sets (gk :: gks) st news (.error x)
  | wanted {gk gks st news set st' new r} : GoMap.get sets (gk.group, gk.kind) = some set →
      Loop S O σ set (S.groupVersions st.parser) [] st ((GoMap.get news (gk.group, gk.kind)).getD []) (.ok (st', new)) →
      Kinds S O σ sets gks st' (GoMap.put news (gk.group, gk.kind) new) r → Kinds S O σ sets (gk :: gks) st news r

/-- A round of the loop over sets (gen.go:149-187). -/
def patchNew (toYaml : Schema → Node) (news : List ((String × String) × New)) (set : CrdSet) : Outcome (List CrdFile) :=
  let new := (GoMap.get news (set.group, set.kind)).getD []
  if new = [] then .ok set.crds
  else patchFiles (fun ver => (GoMap.get new ver).map toYaml) set.crds

/-- The loop over sets (gen.go:149-187) and the one that writes (gen.go:190-209). -/
def patchAndWrite (τ : Sched) (toYaml : Schema → Node) (sets : Sets) (news : List ((String × String) × New)) : Run :=
  match patchEach (patchNew toYaml news) (τ.order 1 (sets.map (·.2))) with
  | .ok files => { writes := (τ.order 2 files).flatten, status := .ok () }
  | .err => { writes := [], status := .err }
  | .panic => { writes := [], status := .panic }

/-- `parser.NeedPackage` for each root (gen.go:98-100). -/
def start (S : GSrc) (roots : List String) : State := { parser := roots.foldl (fun p r => S.src.needPackage r p) {} }

/-- `Generate` (gen.go:89-212): the state in which the parser is left, and what has been written. -/
inductive Runs {χ : Type} (S : GSrc) (O : Opts) (σ : Scheds) (τ : Sched) (toYaml : Schema → Node) (L : Library χ) (dir : Option (List Entry)) (roots : List String) : Except Stop (State × Run) → Prop
  | nothing : findMetav1 S roots = none → Runs S O σ τ toYaml L dir roots (.ok (start S roots, { writes := [], status := .ok () }))
  | unreadable {m} : findMetav1 S roots = some m → crdsFromDirectory L dir = none → Runs S O σ τ toYaml L dir roots (.ok (start S roots, { writes := [], status := .err }))
  | stop {m sets x} : findMetav1 S roots = some m → crdsFromDirectory L dir = some sets →
      Kinds S O σ sets (findKinds S σ.kinds m (start S roots).parser) (start S roots) [] (.error x) → Runs S O σ τ toYaml L dir roots (.error x)
  | patched {m sets st news} : findMetav1 S roots = some m → crdsFromDirectory L dir = some sets →
      Kinds S O σ sets (findKinds S σ.kinds m (start S roots).parser) (start S roots) [] (.ok (st, news)) → Runs S O σ τ toYaml L dir roots (.ok (st, patchAndWrite τ toYaml sets news))

end Verif.Patch

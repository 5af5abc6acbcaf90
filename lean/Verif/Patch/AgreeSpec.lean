import Verif.Patch.SourceSpec
import Verif.CrdGen.SameSpec
/-!
# Specification for C96: schemapatch and the CRD generator agree on the schemas of a kind
-/
namespace Verif.Patch.Spec
open Verif.CrdGen (GSrc Crd)
open Verif.CrdGen.Spec (VersionOfPkg)
open Verif.Crd (Schema)

/-- No two packages are the same version of the group. -/
def PackagePerVersion (S : GSrc) (group : String) : Prop :=
  ∀ pkg pkg' ver, S.groupName pkg = some group → S.groupName pkg' = some group → VersionOfPkg S pkg ver → VersionOfPkg S pkg' ver → pkg = pkg'

/-- The schemas `s` of versions, for the kind, are those of the CRD: no version has another schema; and each version of the CRD which is among `versions` and whose package is one of the root packages has one. -/
structure Agree (S : GSrc) (roots : List String) (group kind : String) (versions : List String) (s : String → Option Schema) (crd : Crd) : Prop where
  same : ∀ v ∈ crd.versions, ∀ p, s v.name = some p → p = v.schema
  there : ∀ v ∈ crd.versions, v.name ∈ versions → (∃ pkg ∈ roots, SchemaOf S roots group kind v.name pkg) → s v.name = some v.schema

end Verif.Patch.Spec

import Verif.Patch.Source
import Verif.CrdGen.EnforcedSpec
/-!
# What users expect of the schemas that schemapatch writes
-/
namespace Verif.Patch.Spec
open Verif.Crd (Schema TypeIdent)
open Verif.Crd.Spec (envOf Valid Meaning Prog Breaks Enc TypedDecl AcyclicFrom)
open Verif.CrdGen (GSrc Opts State Scheds)
open Verif.CrdGen.Spec (KindIn VersionOfPkg CanMerge MetadataFits MetadataObject)

/-- The package is the version of the group, of which the root packages have the kind. -/
structure SchemaOf (S : GSrc) (roots : List String) (group kind ver pkg : String) : Prop where
  kind : KindIn S roots ⟨group, kind⟩
  inGroup : S.groupName pkg = some group
  version : VersionOfPkg S pkg ver

/-- The schema `p`, which is the schema `full` of the type but for `metadata`, rejects what breaks a marker of the program, and accepts the other values of the type. -/
def Enforces (M : Meaning) (S : GSrc) (O : Opts) (σ : Scheds) (G : Prog) (st : State) (id : TypeIdent) (full p : Schema) : Prop :=
  ∃ u, (envOf S.src st.parser).raw id = some u ∧ (CanMerge S O σ st id →
    (AcyclicFrom (envOf S.src st.parser) id.pkg u → ∀ j, Breaks M O.marshal G (.decl id.pkg id.name) j → MetadataFits M full j → ¬ Valid M p j) ∧
    (G.nils = false → (∀ p n d, G.decl p n = some d → TypedDecl (G.ctx p) d) →
      ∀ j, Enc G (.decl id.pkg id.name) j → ¬ Breaks M O.marshal G (.decl id.pkg id.name) j → MetadataObject j → Valid M p j))

end Verif.Patch.Spec

import Verif.Patch.AgreeSpec
import Verif.Patch.DirectoryTheorems
/-!
# Specification for C97: patching a directory in place again changes nothing
-/
namespace Verif.Patch.Spec
open Verif.CrdGen (GSrc)

/-- The command line names all packages of the group. -/
def GroupNamed (S : GSrc) (roots : List String) (group : String) : Prop := ∀ pkg, S.groupName pkg = some group → pkg ∈ roots

/-- What the library reads of a manifest, other than its tree, is not in a schema: it is the same in the patched one. -/
def SchemaBlind (typeMeta : Node → Option (String × String)) (crdIsh : Node → Option CrdIsh) : Prop :=
  ∀ s d d', Parsed d → PatchedDocument s d d' → typeMeta d' = typeMeta d ∧ crdIsh d' = crdIsh d

end Verif.Patch.Spec

import Verif.Patch.YamlSpec
/-!
# What patching may do to a CRD manifest

Written without the functions of the model, other than the type of nodes.
-/
namespace Verif.Patch.Spec
open Verif.Patch

/-- A mapping is another one with the value of the first pair of a key replaced, the old and the new value being related. -/
def ReplacedBy (R : Node → Node → Prop) (k : String) (n n' : Node) : Prop :=
  n.kind = .mapping ∧ n'.kind = n.kind ∧ n'.attr = n.attr ∧
  ∃ pre key old new post, pre.length % 2 = 0 ∧ k ∉ keys pre ∧ key.value = k ∧ n.content = pre ++ key :: old :: post ∧ n'.content = pre ++ key :: new :: post ∧ R old new

/-- A mapping is another one with a pair for a new key at the end. -/
def AddedWith (P : Node → Prop) (k : String) (n n' : Node) : Prop :=
  n.kind = .mapping ∧ n'.kind = n.kind ∧ n'.attr = n.attr ∧ k ∉ keys n.content ∧
  ∃ key new, IsString k key ∧ n'.content = n.content ++ [key, new] ∧ P new

/-- A mapping is another one without the first pair of a key, if there is one. -/
def Without (k : String) (n n' : Node) : Prop :=
  n.kind = .mapping ∧ (Dropped k n n' ∨ n' = n ∧ k ∉ keys n.content)

/-- A key of a mapping has the value. -/
def Has (k : String) (v n : Node) : Prop :=
  n.kind = .mapping ∧ ∃ pre key post, pre.length % 2 = 0 ∧ k ∉ keys pre ∧ key.value = k ∧ n.content = pre ++ key :: v :: post

/-- Setting the schema of a version: `schema.openAPIV3Schema` is exactly it. -/
def WithSchema (sch : Node) (v v' : Node) : Prop :=
  ReplacedBy (fun old new => ReplacedBy (fun _ x => x = sch) "openAPIV3Schema" old new ∨ AddedWith (· = sch) "openAPIV3Schema" old new) "schema" v v' ∨
  AddedWith (fun new => new.kind = .mapping ∧ ∃ key, IsString "openAPIV3Schema" key ∧ new.content = [key, sch]) "schema" v v'

/-- One version: it has a name, and its schema is the one for the name, or it has none. -/
def PatchedVersion (s : String → Option Node) (v v' : Node) : Prop :=
  ∃ name, Has "name" name v ∧ name.kind = .scalar ∧ name.attr.tag = "!!str" ∧ name.value ≠ "" ∧
    ((∃ sch, s name.value = some sch ∧ WithSchema sch v v') ∨ s name.value = none ∧ Without "schema" v v')

/-- Lists of the same length whose elements are related one by one. -/
inductive Pairwise2 (R : Node → Node → Prop) : List Node → List Node → Prop
  | nil : Pairwise2 R [] []
  | cons {a b l l'} : R a b → Pairwise2 R l l' → Pairwise2 R (a :: l) (b :: l')

def PatchedVersions (s : String → Option Node) (n n' : Node) : Prop :=
  n.kind = .sequence ∧ n'.kind = .sequence ∧ n'.attr = n.attr ∧ Pairwise2 (PatchedVersion s) n.content n'.content

/-- The spec: `validation` goes, and `versions` changes; nothing else does, nor does the order. -/
def PatchedSpec (s : String → Option Node) (n n' : Node) : Prop :=
  ∃ m, Without "validation" n m ∧ ReplacedBy (PatchedVersions s) "versions" m n'

/-- The manifest: only `spec` changes. -/
def PatchedManifest (s : String → Option Node) : Node → Node → Prop := ReplacedBy (PatchedSpec s) "spec"

/-- The document, which is a node around the manifest. -/
def PatchedDocument (s : String → Option Node) (d d' : Node) : Prop :=
  ∃ a m m', d = .mk .document a [m] ∧ d' = .mk .document a [m'] ∧ PatchedManifest s m m'

/-- What the YAML parser returns: one node in a document, and no document inside of it; mappings are made of pairs. -/
def Parsed (d : Node) : Prop :=
  ∃ a m, d = .mk .document a [m] ∧ (∀ n, Within n m → n.kind ≠ .document) ∧ Pairs d

end Verif.Patch.Spec

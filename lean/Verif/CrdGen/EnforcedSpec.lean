import Verif.CrdGen.GenerateTheorems
import Verif.Crd.BreakTheorems

/-! # C86: what the CRDs in the files accept -/
namespace Verif.CrdGen.Spec
open Verif.Crd (Schema Src PState FState TypeIdent flattenType addKnownTypes AnyVal Raw)
open Verif.Crd.Spec

/-- The schema of a type after flattening references and before merging, in the run that leads to the state. -/
def Flattened (S : GSrc) (O : Opts) (σ : Scheds) (st : State) (id : TypeIdent) (t : Schema) : Prop :=
  ∃ p p' f f', Steps S O σ p f ∧ S.src.need O.marshal σ.gen O.fuel id p = .ok p' ∧ flattenType (envOf S.src p') σ.flat id f = .ok (some t, f') ∧ PState.Le p' st.parser

/-- The conditions on the program `G` that is seen as `S`, and on the run that leads to the state: those of C78. -/
structure Sound (M : Meaning) (S : GSrc) (G : Prog) (st : State) : Prop where
  overrides : ∃ b, S.src.overrides = addKnownTypes b
  tidy : ∀ p, Tidy (S.src.ctx p)
  prog : ProgOf M S.src G
  linked : Linked G (envOf S.src st.parser)
  /-- no marker is given twice -/
  once : ∀ p n d, G.decl p n = some d → OnceDecl d
  distinct : ∀ id u, (envOf S.src st.parser).raw id = some u → Distinct (envOf S.src st.parser) id.pkg u

/-- What is embedded in the type can be merged with it (C28). -/
def CanMerge (S : GSrc) (O : Opts) (σ : Scheds) (st : State) (id : TypeIdent) : Prop := ∀ t, Flattened S O σ st id t → Guard t

/-- No error has been reported about schemas: those of the parser and those of merging. -/
def NoErrors (st : State) : Prop := st.parser.errs = 0 ∧ st.embedErrs = 0

/-- `metadata`, if there is one, is an object. -/
def MetadataObject (j : Json) : Prop := ∀ x, j.get "metadata" = some x → ∃ m, x = .obj m

/-- `metadata`, if there is one, is accepted by what the schema `s` has for it. -/
def MetadataFits (M : Meaning) (s : Schema) (j : Json) : Prop := ∀ c x, ("metadata", c) ∈ s.properties → j.get "metadata" = some x → Valid M c x

/-- The CRD `crd` has a version for the kind of the package. -/
structure VersionFor (S : GSrc) (roots : List String) (crd : Crd) (w : Version) (gk : GroupKind) (pkg : String) : Prop where
  kind : KindIn S roots gk
  group : crd.group = gk.group
  names : crd.names.kind = gk.kind
  inGroup : S.groupName pkg = some gk.group
  version : VersionOfPkg S pkg w.name
  declared : ∃ d, Declares S.src ⟨pkg, gk.kind⟩ d

end Verif.CrdGen.Spec

import Verif.CrdGen.GenerateSpec
import Verif.CrdGen.Spec
import Verif.Crd.GenSame

/-! # Specification for C95: the CRD of a kind depends on the packages of the kind and on nothing else -/
namespace Verif.CrdGen.Spec
open Verif.Crd (Schema TypeIdent OrderlyDecl)
open Verif.Crd.Spec (envOf Declares Distinct AcyclicFrom)

/-- In both cases no CRD, or the same one. -/
inductive SameResult : Option Crd → Option Crd → Prop
  | none : SameResult none none
  | some {c c'} : SameCrd c c' → SameResult (some c) (some c')

/-- The same file: its name, and the CRD in it. -/
def SameFile (f f' : String × Crd) : Prop := f.1 = f'.1 ∧ SameCrd f.2 f'.2

/-- The command line names all packages of the group that declare the kind. -/
def Named (S : GSrc) (roots : List String) (gk : GroupKind) : Prop := ∀ pkg d, S.groupName pkg = some gk.group → Declares S.src ⟨pkg, gk.kind⟩ d → pkg ∈ roots

/-- There is one package `meta/v1`, whichever package imports it. -/
def OneMeta (S : GSrc) : Prop := ∀ p p' m m', S.src.imports p Verif.Crd.metaPath = some m → S.src.imports p' Verif.Crd.metaPath = some m' → m' = m

/-- The markers on the types of the kind, in the packages of the command line, do not contradict each other (C20-C23). -/
def Consistent (S : GSrc) (roots : List String) (gk : GroupKind) : Prop :=
  ∀ entries, EntriesOf S (fun _ _ => True) roots gk entries → DistinctVersions entries ∧ (∀ e ∈ entries, Collected e) ∧ (∃ r, Resources entries r) ∧ NoConflicts entries ∧ NoClash entries

/-- The validation markers of every declaration are independent of the order of maps (C25). -/
def OrderlyTypes (S : GSrc) : Prop := ∀ id d, Declares S.src id d → OrderlyDecl d

/-- A run in which the schema generator has found no error, and no recursive type. -/
structure Plain (S : GSrc) (st : State) : Prop where
  errs : st.parser.errs = 0
  distinct : ∀ id u, (envOf S.src st.parser).raw id = some u → Distinct (envOf S.src st.parser) id.pkg u
  acyclic : ∀ id u, (envOf S.src st.parser).raw id = some u → AcyclicFrom (envOf S.src st.parser) id.pkg u

end Verif.CrdGen.Spec

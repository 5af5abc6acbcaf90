import Verif.Crd.Need
import Verif.Crd.GenSpec
import Verif.Crd.EncSpec

/-! # Specification for C55: the schemas that are needed -/
namespace Verif.Crd.Spec
open Verif.Crd

/-- The override of a package: they are given by the import path without vendor directories. -/
def OverrideOf (S : Src) (pkg : String) (o : Override) : Prop := GoMap.get S.overrides (String.ofList (Loader.nonVendorPath (S.path pkg).toList)) = some o

/-- The type has a fixed schema (the last one, if there are several). -/
def Fixed (S : Src) (id : TypeIdent) (s : Schema) : Prop :=
  ∃ o a b, OverrideOf S id.pkg o ∧ o.schemata = a ++ (id.name, s) :: b ∧ ∀ e ∈ b, e.1 ≠ id.name

/-- The type is declared in its package (the last one, if there are several, such as `_`), and the package is not to be skipped. -/
def Declares (S : Src) (id : TypeIdent) (d : Decl) : Prop :=
  ¬ Marked (S.ctx id.pkg).markers "kubebuilder:skip" ∧ (∀ o, OverrideOf S id.pkg o → o.add = true) ∧
    ∃ a b, S.decls id.pkg = a ++ d :: b ∧ d.name = id.name ∧ ∀ e ∈ b, e.name ≠ id.name

/-- The schema has been generated from the declaration, without an error. -/
def GeneratedFrom (marshal : AnyVal → Option Raw) (S : Src) (id : TypeIdent) (d : Decl) (s : Schema) : Prop :=
  ∃ (σ : Nat → Sched) (st st' : GState), infoToSchema marshal σ (S.ctx id.pkg) d st = .ok (s, st') ∧ st'.errs = st.errs

/-- The schemas of the parser, as the flattener sees them. -/
def envOf (S : Src) (st : PState) : Env where
  imports := S.imports
  schemata := st.schemata

/-- The type refers to another one: its schema has a link, at any depth, that leads there. -/
def RefersTo (env : Env) (id id' : TypeIdent) : Prop :=
  ∃ s t r, env.raw id = some s ∧ Sub s t ∧ t.base.ref = some r ∧ env.find r id.pkg = .ok id'

/-- The packages the program consists of, if it starts in one of them. -/
def Whole (S : Src) (pkgs : List String) : Prop := ∀ p ∈ pkgs, ∀ path q, S.imports p path = some q → q ∈ pkgs

/-- Names and import paths are free of `~` (which Go and its tools do not allow). -/
structure Tidy (P : PkgCtx) : Prop where
  ident : ∀ n pkg m u, P.ident n = .named (some pkg) m u → '~' ∉ pkg.toList ∧ '~' ∉ m.toList
  aliasNamed : ∀ n q a pkg m u, P.ident n = .alias q a (.named (some pkg) m u) → '~' ∉ pkg.toList ∧ '~' ∉ m.toList
  aliasAlias : ∀ n q a pkg m u, P.ident n = .alias q a (.alias (some pkg) m u) → '~' ∉ pkg.toList ∧ '~' ∉ m.toList
  sel : ∀ x n pkg m u, P.sel x n = .named (some pkg) m u ∨ P.sel x n = .alias (some pkg) m u → '~' ∉ pkg.toList ∧ '~' ∉ m.toList
  name : ∀ n, P.ident n ≠ .invalid → '~' ∉ n.toList

/-- The states of the parser: packages and schemas are asked for in any order. -/
inductive Reachable (S : Src) (marshal : AnyVal → Option Raw) (σ : Nat → Sched) : PState → Prop
  | start : Reachable S marshal σ {}
  | package {st} (pkg : String) : Reachable S marshal σ st → Reachable S marshal σ (S.needPackage pkg st)
  | schema {st st'} (n : Nat) (id : TypeIdent) : Reachable S marshal σ st → S.need marshal σ n id st = .ok st' → Reachable S marshal σ st'

/-- The types that can be reached from a type by references. -/
inductive RefersTo.Star (env : Env) (id : TypeIdent) : TypeIdent → Prop
  | refl : RefersTo.Star env id id
  | step {a b} : RefersTo.Star env id a → RefersTo env a b → RefersTo.Star env id b

/-- The schema of a type is the one it should have: the fixed one, or the one that is generated from its declaration. -/
def RightSchema (marshal : AnyVal → Option Raw) (S : Src) (id : TypeIdent) (s : Schema) : Prop :=
  Fixed S id s ∨ ((∀ s', ¬ Fixed S id s') ∧ ∃ d, Declares S id d ∧ GeneratedFrom marshal S id d s)

/-- Code in the package names types of another package. -/
inductive Names (P : PkgCtx) (q : String) : Prop
  | ident {n m u} : q ≠ P.self → P.ident n = .named (some q) m u → Names P q
  | alias {n p a t m u} : q ≠ P.self → P.ident n = .alias p a t → t = .named (some q) m u ∨ t = .alias (some q) m u → Names P q
  | sel {x n m u} : P.sel x n = .named (some q) m u ∨ P.sel x n = .alias (some q) m u → Names P q

/-- Types of other packages can only be named if the packages are imported. -/
def Resolves (S : Src) : Prop := ∀ p q, Names (S.ctx p) q → (S.imports p (String.ofList (Loader.nonVendorPath q.toList))).isSome

/-- The program, as encoding/json sees it: types with a fixed schema are not looked into, their values must be accepted by it. -/
structure ProgOf (M : Meaning) (S : Src) (G : Prog) : Prop where
  ctx : G.ctx = S.ctx
  decl : ∀ p n d, G.decl p n = some d → Declares S ⟨p, n⟩ d ∧ ∀ s, ¬ Fixed S ⟨p, n⟩ s
  foreign : ∀ p n j, G.foreign p n j → ∃ s, Fixed S ⟨p, n⟩ s ∧ Valid M s j

end Verif.Crd.Spec

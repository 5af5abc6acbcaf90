/-!
# loader/loader.go: root packages in the import graph (`visitImports`)

Packages (`*Package`) are numbers.  A package imports a fixed set of paths; the package that a path stands for can be replaced.
-/
namespace Verif.Loader

/-- The import paths of each package: the keys of `Imports()` (loader.go:83-89). -/
abbrev Keys := Nat → List String

/-- The values of `Imports()`: the package that an import path of a package stands for. -/
abbrev Targets := Nat → String → Nat

/-- A root package: its ID and the package. -/
structure Root where
  id : String
  pkg : Nat

/-- The loop over the root packages (loader.go:615-619): the last root whose ID is the import path is taken. -/
def canon (roots : List Root) (k : String) (v : Nat) : Nat :=
  roots.foldl (fun v r => if k = r.id then r.pkg else v) v

/-- `pkg.imports[importedPkgID] = …`. -/
def Targets.put (t : Targets) (p : Nat) (k : String) (v : Nat) : Targets :=
  fun q k' => if q = p ∧ k' = k then v else t q k'

/-- The state of a call of `visitImports` for a root: the imports, the set `seen`, and for each active call its package and the import paths that are left of its loop. -/
structure Visit where
  to : Targets
  seen : List String
  stack : List (Nat × List String)

/-- One step of `visitImports` (loader.go:610-625).  A call that begins walks over its import paths in any order (it ranges over a map).  The call for an import is for the package that the map had before the replacement. -/
inductive Visit.Step (keys : Keys) (roots : List Root) : Visit → Visit → Prop
  | ret {t s p rest} : Step keys roots ⟨t, s, (p, []) :: rest⟩ ⟨t, s, rest⟩
  | old {t s p k ks rest} : k ∈ s →
      Step keys roots ⟨t, s, (p, k :: ks) :: rest⟩ ⟨t.put p k (canon roots k (t p k)), s, (p, ks) :: rest⟩
  | new {t s p k ks rest order} : k ∉ s → order.Perm (keys (t p k)) →
      Step keys roots ⟨t, s, (p, k :: ks) :: rest⟩ ⟨t.put p k (canon roots k (t p k)), k :: s, (t p k, order) :: (p, ks) :: rest⟩

/-- Steps. -/
inductive Visit.Steps (keys : Keys) (roots : List Root) : Visit → Visit → Prop
  | refl {v} : Steps keys roots v v
  | step {v v' v''} : Step keys roots v v' → Steps keys roots v' v'' → Steps keys roots v v''

/-- `visitImports(roots, root, nil)` takes the imports from `t` to `t'`. -/
def VisitRoot (keys : Keys) (roots : List Root) (p : Nat) (t t' : Targets) : Prop :=
  ∃ order seen, order.Perm (keys p) ∧ Visit.Steps keys roots ⟨t, [], [(p, order)]⟩ ⟨t', seen, []⟩

/-- The loop over the roots (loader.go:391-395). -/
inductive VisitRoots (keys : Keys) (roots : List Root) : List Root → Targets → Targets → Prop
  | nil {t} : VisitRoots keys roots [] t t
  | cons {r rs t t' t''} : VisitRoot keys roots r.pkg t t' → VisitRoots keys roots rs t' t'' → VisitRoots keys roots (r :: rs) t t''

end Verif.Loader

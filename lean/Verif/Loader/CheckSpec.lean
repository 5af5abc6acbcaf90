import Verif.Loader.Check
/-!
# What checking in parallel should do
-/
namespace Verif.Loader

/-- No package imports itself, directly or not: imports go down.  Packages that are referred to are imported. -/
structure Graph.Acyclic (G : Graph) (rank : Pkg → Nat) : Prop where
  down : ∀ p, ∀ q ∈ G.imports p, rank q < rank p
  refs : ∀ p, ∀ q ∈ G.refs p, q ∈ G.imports p

/-- `q` is reached from `p` by references. -/
inductive Graph.Reaches (G : Graph) (p : Pkg) : Pkg → Prop
  | refl : G.Reaches p p
  | step {q r : Pkg} : G.Reaches p q → r ∈ G.refs q → G.Reaches p r

/-- The packages that were checked by earlier calls have types, and so have those that they refer to; and packages have types once. -/
structure Before (G : Graph) (typed checked : List Pkg) : Prop where
  types : ∀ p ∈ checked, p ∈ typed
  closed : ∀ p ∈ checked, ∀ q ∈ G.refs p, q ∈ checked
  once : typed.Nodup

/-- Packages are type-checked once, after all those that they refer to. -/
def Ordered (G : Graph) (before typed : List Pkg) : Prop := typed.Nodup ∧ ∃ new, typed = before ++ new ∧ ∀ a p b, new = a ++ p :: b → ∀ q ∈ G.refs p, q ∈ before ++ a

end Verif.Loader

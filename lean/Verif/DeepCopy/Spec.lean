import Verif.DeepCopy.Go
/-!
# What a copy is

Stated with values and memory only: nothing here mentions the generator or the generated code.
-/
namespace Verif.DeepCopy

/-- What a value stands for, with all references followed: what `reflect.DeepEqual` compares.  A nil slice is not an empty slice.  There is no tree for a value that contains itself. -/
inductive Tree
  | basic (x : Nat)
  | nil
  | ptr (t : Tree)
  | slice (ts : List Tree)
  | map (kts : List (String × Tree))
  | struct (fs : List (String × Tree))

mutual
/-- `Has P H Q t v T`: in the memory `H`, `v` is a value of type `t` that stands for `T`, and all memory that it refers to is in cells for which `Q` holds.
The order of the entries of a map does not matter. -/
inductive Has (P : Prog) (H : Heap) (Q : Nat → Prop) : Ty → Val → Tree → Prop
  | basic (x : Nat) : Has P H Q (.basic true) (.basic x) (.basic x)
  | other (s : String) (x : Nat) : Has P H Q (.other s) (.basic x) (.basic x)
  | named {n v T} : Has P H Q (P.under n) v T → Has P H Q (.named n) v T
  | alias {n v T} : Has P H Q (P.target n) v T → Has P H Q (.alias n) v T
  | nilPtr (t : Ty) : Has P H Q (.ptr t) .nil .nil
  | nilSlice (t : Ty) : Has P H Q (.slice t) .nil .nil
  | nilMap (k t : Ty) : Has P H Q (.map k t) .nil .nil
  | ptr {t l v T} : Q l.addr → H.read l = some v → Has P H Q t v T → Has P H Q (.ptr t) (.ptr l) (.ptr T)
  | slice {t l off len vs Ts} : Q l.addr → H.read l = some (.arr vs) → off + len ≤ vs.length → HasElems P H Q t ((vs.drop off).take len) Ts →
      Has P H Q (.slice t) (.slice l off len) (.slice Ts)
  | map {k t a kvs kvs' kTs} : Q a → H.read ⟨a, []⟩ = some (.entries kvs) → (kvs.map (·.1)).Nodup → kvs.Perm kvs' → HasEntries P H Q t kvs' kTs →
      Has P H Q (.map k t) (.map a) (.map kTs)
  | struct {fs vs Ts} : (fs.map (·.1)).Nodup → HasFields P H Q fs vs Ts → Has P H Q (.struct fs) (.struct vs) (.struct Ts)

/-- The elements of a slice. -/
inductive HasElems (P : Prog) (H : Heap) (Q : Nat → Prop) : Ty → List Val → List Tree → Prop
  | nil (t : Ty) : HasElems P H Q t [] []
  | cons {t v vs T Ts} : Has P H Q t v T → HasElems P H Q t vs Ts → HasElems P H Q t (v :: vs) (T :: Ts)

/-- The entries of a map. -/
inductive HasEntries (P : Prog) (H : Heap) (Q : Nat → Prop) : Ty → List (String × Val) → List (String × Tree) → Prop
  | nil (t : Ty) : HasEntries P H Q t [] []
  | cons {t k v kvs T kTs} : Has P H Q t v T → HasEntries P H Q t kvs kTs → HasEntries P H Q t ((k, v) :: kvs) ((k, T) :: kTs)

/-- The fields of a struct. -/
inductive HasFields (P : Prog) (H : Heap) (Q : Nat → Prop) : List (String × Ty) → List (String × Val) → List (String × Tree) → Prop
  | nil : HasFields P H Q [] [] []
  | cons {f t fs v vs T Ts} : Has P H Q t v T → HasFields P H Q fs vs Ts → HasFields P H Q ((f, t) :: fs) ((f, v) :: vs) ((f, T) :: Ts)
end

/-- A cell that was not there before. -/
def New (H H' : Heap) (a : Nat) : Prop := H.length ≤ a ∧ a < H'.length

/-- All cells are as they were; there may be more of them. -/
def Extends (H H' : Heap) : Prop := ∃ new, H' = H ++ new

/-- The methods that are not generated, or not both of them, make copies: the new value stands for the same, refers to new memory only, and memory that was there is not changed. -/
def World.Copies (W : World) (P : Prog) : Prop :=
  ∀ n, P.generated n = false ∨ P.hasAny (.named n) = true → ∀ H Q v T, Has P H Q (.named n) v T → ∃ H' v', W.ext n H v = .ok (H', v') ∧ Extends H H' ∧ Has P H' (New H H') (.named n) v' T

/-- The underlying type of a type is not a name, and what an alias stands for is not an alias. -/
def Prog.Ok (P : Prog) : Prop := (∀ n, P.underlying (P.under n) = P.under n) ∧ ∀ a, P.unalias (P.target a) = P.target a

/-- Two memories differ in some cells only. -/
def ChangedOnly (Q : Nat → Prop) (H H' : Heap) : Prop := ∀ a, ¬ Q a → H'[a]? = H[a]?

end Verif.DeepCopy

import Verif.DeepCopy.Go
/-!
# Which types are supported

Stated with the types of the program only: nothing here mentions the generator or the generated code.
-/
namespace Verif.DeepCopy.Spec

/-- The type has a `DeepCopy` or a `DeepCopyInto` of its own. -/
def HasOwn (P : Prog) (n : String) : Prop := (P.manual n).copy ≠ none ∨ (P.manual n).into = true

/-- A type with methods of its own.  (In Go, the underlying type of a type with methods is not a pointer.) -/
def Own (P : Prog) (n : String) : Prop := HasOwn P n ∧ P.methods n = true ∧ ∀ t, P.under n ≠ .ptr t

/-- Scalars, and structs that get methods or have them. -/
inductive Flat (P : Prog) : Ty → Prop
  | basic : Flat P (.basic true)
  | scalar {n} : ¬ HasOwn P n → P.under n = .basic true → Flat P (.named n)
  | struct {n fs} : ¬ HasOwn P n → P.under n = .struct fs → P.methods n = true → Flat P (.named n)

/-- Slices, maps and pointers, written out. -/
inductive Ref : Ty → Prop
  | ptr (t) : Ref (.ptr t)
  | slice (t) : Ref (.slice t)
  | map (k t) : Ref (.map k t)

/-- The types of fields, elements and values that are supported.  Left out are: unnamed structs, interfaces, arrays, channels, functions, aliases; pointers to a named slice, map or pointer type;
pointers to pointers to, or slices of pointers to, a type with methods of its own, and maps of these if its `DeepCopy` does not give a pointer. -/
inductive Plain (P : Prog) : Ty → Prop
  | flat {t} : Flat P t → Plain P t
  | own {n} : Own P n → Plain P (.named n)
  | named {n} : ¬ HasOwn P n → Ref (P.under n) → Plain P (P.under n) → Plain P (.named n)
  | ptrFlat {t} : Flat P t → Plain P (.ptr t)
  | ptrOwn {n} : Own P n → Plain P (.ptr (.named n))
  | ptrRef {t} : Ref t → (∀ n, t = .ptr (.named n) → ¬ HasOwn P n) → Plain P t → Plain P (.ptr t)
  | slice {t} : (∀ n, t = .ptr (.named n) → ¬ HasOwn P n) → Plain P t → Plain P (.slice t)
  | map {k t} : (k = .basic true ∨ ∃ n, k = .named n ∧ P.under n = .basic true) → (∀ n, t = .ptr (.named n) → HasOwn P n → P.recvPtr n = true) → Plain P t → Plain P (.map k t)

/-- The types that methods can be generated for. -/
inductive Supported (P : Prog) (n : String) : Prop
  | own : HasOwn P n → P.methods n = true → Supported P n
  | scalar : ¬ HasOwn P n → P.under n = .basic true → Supported P n
  | ref : ¬ HasOwn P n → Ref (P.under n) → Plain P (P.under n) → Supported P n
  | struct {fs} : ¬ HasOwn P n → P.under n = .struct fs → (∀ f ∈ fs, Plain P f.2) → Supported P n

/-- The types that can be written in Go: named ones, basic ones, and pointers, slices and maps of them. -/
inductive Nameable : Ty → Prop
  | basic (ok) : Nameable (.basic ok)
  | named (n) : Nameable (.named n)
  | alias (n) : Nameable (.alias n)
  | ptr {t} : Nameable t → Nameable (.ptr t)
  | slice {t} : Nameable t → Nameable (.slice t)
  | map {k t} : Nameable k → Nameable t → Nameable (.map k t)

mutual
/-- The types that a statement names. -/
def names : Stmt → List Ty
  | .makeMap t => [t]
  | .makeSlice t => [t]
  | .new t => [t]
  | .elemsBlock b => namesAll b
  | .entriesBlock u b => u :: namesAll b
  | .fieldBlock _ b => namesAll b
  | .derefBlock b => namesAll b
  | _ => []

def namesAll : List Stmt → List Ty
  | [] => []
  | s :: ss => names s ++ namesAll ss
end

end Verif.DeepCopy.Spec

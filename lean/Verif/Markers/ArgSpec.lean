import Verif.Markers.Parse
/-!
# What the arguments of a marker are: specification
-/
namespace Verif.Markers.Args
open Verif Verif.Markers

/-- The argument `n` is the list `l`; an argument that is not given is the empty list. -/
def IsList (vals : List (Str × Value)) (n : String) (l : List String) : Prop :=
  (n.toList, Value.slice (l.map fun s => .str s.toList)) ∈ vals ∨ (n.toList ∉ vals.map (·.1) ∧ l = [])

/-- The argument `n` is the text `s`; an argument that is not given is empty. -/
def IsText (vals : List (Str × Value)) (n : String) (s : String) : Prop := (n.toList, Value.str s.toList) ∈ vals ∨ (n.toList ∉ vals.map (·.1) ∧ s = "")

/-- The argument `n` is the text, if there is one. -/
def IsPointer (vals : List (Str × Value)) (n : String) : Option String → Prop
  | some s => (n.toList, Value.str s.toList) ∈ vals
  | none => n.toList ∉ vals.map (·.1)

/-- The argument `n` is the number, if there is one. -/
def IsNumber (vals : List (Str × Value)) (n : String) : Option Int → Prop
  | some z => (n.toList, Value.int z) ∈ vals
  | none => n.toList ∉ vals.map (·.1)

/-- The argument `n` is true or false, if there is one. -/
def IsFlag (vals : List (Str × Value)) (n : String) : Option Bool → Prop
  | some b => (n.toList, Value.bool b) ∈ vals
  | none => n.toList ∉ vals.map (·.1)

end Verif.Markers.Args

import Verif.Markers.Parse
import Verif.Common.GoMap
/-!
# The arguments of a marker as the fields of a Go struct: `/repo/pkg/markers/parse.go` (842-905)

A field whose argument is not given keeps its zero value.
-/
namespace Verif.Markers.Args
open Verif Verif.Markers

/-- A field of type `[]string` (markers/parse.go:644-682), nil if the argument is not given. -/
def stringsArg (vals : List (Str × Value)) (n : String) : List String :=
  match GoMap.get vals n.toList with
  | some (.slice l) => l.filterMap fun v => match v with
    | .str s => some (String.ofList s)
    | _ => none
  | _ => []

/-- A field of type `*string`, nil if the argument is not given. -/
def pointerArg (vals : List (Str × Value)) (n : String) : Option String :=
  match GoMap.get vals n.toList with
  | some (.str s) => some (String.ofList s)
  | _ => none

/-- A field of type `string`, empty if the argument is not given. -/
def stringArg (vals : List (Str × Value)) (n : String) : String := (pointerArg vals n).getD ""

/-- A field of type `bool`, false if the argument is not given. -/
def boolArg (vals : List (Str × Value)) (n : String) : Bool :=
  match GoMap.get vals n.toList with
  | some (.bool b) => b
  | _ => false

/-- A field of type `*bool`, nil if the argument is not given. -/
def flagArg (vals : List (Str × Value)) (n : String) : Option Bool :=
  match GoMap.get vals n.toList with
  | some (.bool b) => some b
  | _ => none

/-- A field of type `*int32`, nil if the argument is not given; the one of a field of type `int` is its value, or 0. -/
def intArg (vals : List (Str × Value)) (n : String) : Option Int :=
  match GoMap.get vals n.toList with
  | some (.int z) => some z
  | _ => none

end Verif.Markers.Args

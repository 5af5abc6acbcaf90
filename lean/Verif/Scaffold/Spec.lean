import Verif.Common.Text
import Verif.Scaffold.Model

/-! What a user of `type-scaffold` expects of the text it prints, said about the lines of that text. -/

namespace Verif.Scaffold.Spec

/-- The lines of a text. -/
def lines (s : Str) : List Str := Text.split '\n' s

/-- A line holds nothing, or nothing but a comment: after its tabs and blanks there is nothing or `//`. -/
def inert (l : Str) : Bool :=
  match l.dropWhile (fun c => c = ' ' || c = '\t') with
  | [] => true
  | '/' :: '/' :: _ => true
  | _ => false

/-- The lines of a Go file that declare something. -/
def code (s : Str) : List Str := (lines s).filter (fun l => !inert l)

/-- The four types of a kind: its spec, its status, the root with the metadata of an object, and the list with the
metadata of a list. -/
def declarations (k : Str) : List Str :=
  ["type ".toList ++ k ++ "Spec struct {".toList,
   "}".toList,
   "type ".toList ++ k ++ "Status struct {".toList,
   "}".toList,
   "type ".toList ++ k ++ " struct {".toList,
   "\tmetav1.TypeMeta   `json:\",inline\"`".toList,
   "\tmetav1.ObjectMeta `json:\"metadata,omitempty\"`".toList,
   "\tSpec   ".toList ++ k ++ "Spec   `json:\"spec,omitempty\"`".toList,
   "\tStatus ".toList ++ k ++ "Status `json:\"status,omitempty\"`".toList,
   "}".toList,
   "type ".toList ++ k ++ "List struct {".toList,
   "\tmetav1.TypeMeta `json:\",inline\"`".toList,
   "\tmetav1.ListMeta `json:\"metadata,omitempty\"`".toList,
   "\tItems           []".toList ++ k ++ " `json:\"items\"`".toList,
   "}".toList]

/-- One line: no line break in it. -/
def OneLine (s : Str) : Prop := '\n' ∉ s

/-- The lines between the line `from` and the declaration `to`, which come one after the other in the text. -/
def Between (s : Str) (a : Str) (between : List Str) (b : Str) : Prop :=
  ∃ pre post, lines s = pre ++ a :: (between ++ b :: post)

end Verif.Scaffold.Spec

import Verif.Genall.WriteYaml
/-!
# Specification of the files that are written (C37, C63)
-/
namespace Verif.Genall.Spec
open Markers (Str)

/-- The text of a destination. -/
def contents (fs : Fs) : Dest → Str
  | .discard => []
  | .stdout => fs.stdout
  | .file p => (GoMap.get fs.files p).getD []

/-- Every other file, and standard output if it is not the destination, is the same. -/
def OthersSame (dest : Dest) (fs fs' : Fs) : Prop :=
  (∀ p, dest ≠ .file p → GoMap.get fs'.files p = GoMap.get fs.files p) ∧ (dest ≠ .stdout → fs'.stdout = fs.stdout)

/-- The text of a file of YAML: the header, and for each document a line `---` and its text. -/
def fileText (header : Str) (docs : List Str) : Str := header ++ docs.flatMap fun d => "---\n".toList ++ d

/-! ### Reading YAML back -/

/-- The lines of a text; the newline at its end ends the last line. -/
def lines (t : Str) : List Str :=
  let l := Text.split '\n' t
  if l.getLast? = some [] then l.dropLast else l

/-- A line that begins a document. -/
def IsMarker (l : Str) : Prop := l = ['-', '-', '-'] ∨ ['-', '-', '-', ' '] <+: l

instance (l : Str) : Decidable (IsMarker l) := by unfold IsMarker; infer_instance

/-- A line without content: empty, or a comment. -/
def IsComment (l : Str) : Prop := l = [] ∨ l.head? = some '#'

instance (l : Str) : Decidable (IsComment l) := by unfold IsComment; infer_instance

/-- The lines before the first marker, and those between markers. -/
def splitDocs : List Str → List Str × List (List Str)
  | [] => ([], [])
  | l :: ls => if IsMarker l then ([], (splitDocs ls).1 :: (splitDocs ls).2) else (l :: (splitDocs ls).1, (splitDocs ls).2)

/-- The documents of a stream of YAML, by their lines: those that begin with a marker, and before them what comes before the first marker, if that is more than comments (without the comments at its beginning). -/
def documents (t : Str) : List (List Str) :=
  let first := (splitDocs (lines t)).1.dropWhile (fun l => decide (IsComment l))
  (if first = [] then [] else [first]) ++ (splitDocs (lines t)).2

/-- The text of a document, as the YAML library writes a map: lines, none of which begins with `---`, and the first of which has content. -/
def DocText (c : Str) : Prop :=
  (∃ c', c = c' ++ ['\n']) ∧ (∀ l ∈ lines c, ¬ ['-', '-', '-'] <+: l) ∧ ∃ l ls, lines c = l :: ls ∧ ¬ IsComment l

/-- A header has only comments and empty lines.  (Its last line may lack the newline.) -/
def HeaderText (h : Str) : Prop := ∀ l ∈ Text.split '\n' h, IsComment l

end Verif.Genall.Spec

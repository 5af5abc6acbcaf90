import Verif.Common.Text
/-!
# markers/zip.go: documentation (`extractDoc`)

Texts are lists of characters.
-/
namespace Verif.Markers.Doc
open Verif.Text

abbrev Str := List Char

/-- `unicode.IsSpace` (library). -/
def isSpace (c : Char) : Bool :=
  let n := c.toNat
  (9 ≤ n && n ≤ 13) || n = 32 || n = 0x85 || n = 0xA0 || n = 0x1680 || (0x2000 ≤ n && n ≤ 0x200A) || n = 0x2028 || n = 0x2029 || n = 0x202F || n = 0x205F || n = 0x3000

/-- `strings.TrimRightFunc` (library). -/
def trimRight (p : Char → Bool) : Str → Str
  | [] => []
  | c :: s => match trimRight p s with
    | [] => if p c then [] else [c]
    | s' => c :: s'

/-- `strings.TrimSpace` (library). -/
def trimSpace (s : Str) : Str := trimRight isSpace (s.dropWhile isSpace)

/-- `isMarkerComment` (markers/collect.go:229-238). -/
def isMarkerComment (comment : Str) : Bool :=
  if comment.take 2 ≠ "//".toList then false
  else match trimSpace (comment.drop 2) with
    | c :: _ => c = '+'
    | [] => false

/-- Lower case letters and digits. -/
def lowerOrDigit (c : Char) : Bool := ('a' ≤ c && c ≤ 'z') || ('0' ≤ c && c ≤ '9')

/-- `isDirective` (library, go/ast): `//line`, `//go:noinline`, … -/
def isDirective (c : Str) : Bool :=
  "line ".toList.isPrefixOf c || "extern ".toList.isPrefixOf c || "export ".toList.isPrefixOf c ||
  match cut ':' c with
  | some (a, b :: _) => a ≠ [] && a.all lowerOrDigit && lowerOrDigit b
  | _ => false

/-- `isWhitespace` (library, go/ast). -/
def isWhitespace (c : Char) : Bool := c = ' ' || c = '\t' || c = '\n' || c = '\r'

/-- The lines of a comment, as `CommentGroup.Text` (library, go/ast) makes them. -/
def commentLines (comment : Str) : List Str :=
  match comment with
  | '/' :: '/' :: c =>
    match c with
    | ' ' :: c => (split '\n' c).map (trimRight isWhitespace)
    | c => if c ≠ [] ∧ isDirective c then [] else (split '\n' c).map (trimRight isWhitespace)
  | '/' :: '*' :: c => (split '\n' (c.take (c.length - 2))).map (trimRight isWhitespace)
  | c => (split '\n' c).map (trimRight isWhitespace)

/-- Leading blank lines are removed, and runs of blank lines are made one (library, go/ast).  `prev` says whether there is a line before, and it is not blank. -/
def collapse (prev : Bool) : List Str → List Str
  | [] => []
  | [] :: ls => if prev then [] :: collapse false ls else collapse false ls
  | l :: ls => l :: collapse true ls

/-- `CommentGroup.Text` (library, go/ast). -/
def groupText (g : List Str) : Str :=
  let lines := collapse false (g.flatMap commentLines)
  let lines := if lines ≠ [] ∧ lines.getLast? ≠ some [] then lines ++ [[]] else lines
  join '\n' lines

/-- The lines of the text of a group, without the last one if it is empty (zip.go:69-73). -/
def textLines (g : List Str) : List Str :=
  let lines := split '\n' (groupText g)
  if lines.getLast? = some [] then lines.dropLast else lines

/-- ```` ``` ```` or `~~~` (zip.go:95). -/
def isFence (l : Str) : Bool := "```".toList.isPrefixOf l || "~~~".toList.isPrefixOf l

/-- The loop over the lines (zip.go:75-116). -/
def keepLines (asterisk inside : Bool) : List Str → List Str
  | [] => []
  | l :: ls =>
    let line := if asterisk then trimSpace l else l
    let inside := if isFence line then !inside else inside
    if !inside && "TODO".toList.isPrefixOf line then keepLines asterisk inside ls
    else if !inside && "---".toList.isPrefixOf line then []
    else line :: keepLines asterisk inside ls

/-- The part of `extractDoc` after the comment group is found (zip.go:50-118): the lines of the documentation, which are joined by newlines. -/
def docLines (docs : List Str) : List Str :=
  let out := docs.filter fun c => !isMarkerComment c
  let asterisk := out.any fun c => "/*".toList.isPrefixOf c
  keepLines asterisk false (textLines out)

/-- The declaration of a node with documentation (zip.go:32-46).  A group is a list of comments. -/
inductive Docced
  | field (doc : Option (List Str))
  | file (doc : Option (List Str))
  | genDecl (doc : Option (List Str))
  /-- with the documentation of the declaration that it is in, and whether that has parentheses -/
  | typeSpec (doc decl : Option (List Str)) (paren : Bool)
  | other

/-- The comment group that is taken (zip.go:31-46). -/
def Docced.docs : Docced → Option (List Str)
  | .field d => d
  | .file d => d
  | .genDecl d => d
  | .typeSpec d decl paren => if d = none ∧ !paren then decl else d
  | .other => none

/-- `extractDoc` (zip.go:30-119). -/
def extractDoc (n : Docced) : Str :=
  match n.docs with
  | none => []
  | some docs => join '\n' (docLines docs)

end Verif.Markers.Doc

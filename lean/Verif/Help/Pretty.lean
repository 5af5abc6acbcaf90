import Verif.Help.Model
/-!
# Model of help on the terminal: `/repo/pkg/genall/help/pretty/{table,print,help}.go`, `helpForLevels` of `/repo/cmd/controller-gen/main.go`

A `Span` (print.go:19-25) has two methods, `VisualLength` and `WriteTo`; a span is modelled by what they give.  Writing to the terminal does not fail here.
-/
namespace Verif.Help
open Markers (Str)

/-- A piece of output: a character, or an escape sequence of the terminal, which takes no room (print.go:206-215: `Attributes.Set`, `color.Unset`). -/
inductive Tok
  | ch (c : Char)
  | esc
deriving DecidableEq, Repr

/-- `Span` (print.go:19-25). -/
structure Span where
  len : Nat
  out : List Tok
deriving DecidableEq, Repr

/-- The length of a text in bytes: `len` of a Go string. -/
def byteLen (s : Str) : Nat := (s.map Char.utf8Size).sum

def toks (s : Str) : List Tok := s.map .ch

/-- `Text` (print.go:107-114). -/
def text (s : Str) : Span := ⟨byteLen s, toks s⟩

/-- `decorated` (print.go:198-215). -/
def decorated (s : Span) : Span := ⟨s.len, .esc :: s.out ++ [.esc]⟩

/-- `fromWriter` (print.go:154-187) of a function that writes a text: the length is that of the text that it writes. -/
def fromWriter (s : Str) : Span := ⟨byteLen s, toks s⟩

/-- `SpanWriter` (print.go:218-241). -/
def spans (l : List Span) : Span := ⟨(l.map (·.len)).sum, l.flatMap (·.out)⟩

/-- `writePadding` (print.go:286-305). -/
def writePadding (typ : List Tok) (amt : Nat) : List Tok :=
  if amt ≤ typ.length then typ.take amt
  else
    let num := amt / typ.length
    let rem := amt % typ.length
    (List.replicate num typ).flatten ++ typ.take rem

/-- The padding buffers (print.go:277-281). -/
def columnPadding : List Tok := List.replicate 71 (.ch ' ')
def indentPadding : List Tok := List.replicate 35 (.ch '\t')
def linesPadding : List Tok := List.replicate 35 (.ch '\n')

/-- `lines` (print.go:244-275); `none` is nil. -/
def lines (amountBefore : Nat) (content : Option Span) : Span :=
  ⟨match content with | none => 0 | some c => c.len,
   writePadding linesPadding amountBefore ++ match content with | none => [] | some c => c.out⟩

/-- `Newlines` and `Line` (print.go:268-275). -/
def newlines (amt : Nat) : Span := lines amt none
def line (content : Span) : Span := lines 1 (some content)

/-- The loop over the lines of an indented span (print.go:129-148): `first` says that no newline is to be written before. -/
def indentLines (amount : Nat) : Bool → List (List Tok) → List Tok
  | _, [] => []
  | first, l :: ls =>
    (if first then [] else [.ch '\n']) ++ (if l = [] then [] else writePadding indentPadding amount ++ l) ++ indentLines amount false ls

/-- `Indented` (print.go:117-153). -/
def indented (amount : Nat) (s : Span) : Span := ⟨s.len, indentLines amount true (Text.split (.ch '\n') s.out)⟩

/-! ## Tables -/

/-- `cellSizesByCol[i] = append(…)` for the sizes of a row (table.go:35-37). -/
def appendSizes : List (List Nat) → List Nat → List (List Nat)
  | cols, [] => cols
  | [], _ :: _ => []
  | col :: cols, size :: sizes => (col ++ [size]) :: appendSizes cols sizes

/-- `AddRowSizes` (table.go:29-38). -/
def addRowSizes (cols : List (List Nat)) (sizes : List Nat) : List (List Nat) :=
  let cols := if sizes.length > cols.length then cols ++ List.replicate (sizes.length - cols.length) [] else cols
  appendSizes cols sizes

/-- The largest of some sizes (table.go:46-51). -/
def maxOf (l : List Nat) : Nat := l.foldl (fun m s => if m < s then s else m) 0

/-- `ColumnWidths` (table.go:42-64).  Padding and maximum are natural numbers here: `MaxWidth - Padding > 0` is `MaxWidth > Padding`. -/
def columnWidths (padding maxWidth : Nat) (cols : List (List Nat)) : List Nat :=
  cols.map fun sizes =>
    let width := maxOf sizes
    let actualMaxWidth := maxWidth - padding
    (if actualMaxWidth > 0 ∧ width > actualMaxWidth then actualMaxWidth else width) + padding

/-- A row of a table: cells between `StartRow` and `EndRow`, or `SkipRow` (print.go:39-62). -/
inductive Row
  | cells (l : List Span)
  | skip (s : Span)
deriving DecidableEq, Repr

/-- `Table` (print.go:27-36). -/
structure Table where
  padding : Nat
  maxWidth : Nat := 0
  rows : List Row
deriving DecidableEq, Repr

/-- The sizes that `EndRow` (print.go:44-51) has registered. -/
def Table.sizes (t : Table) : List (List Nat) :=
  t.rows.foldl (fun cols r => match r with | .cells l => addRowSizes cols (l.map (·.len)) | .skip _ => cols) []

/-- The inner loop of `WriteTo` (print.go:69-87); `none`: the index is out of range. -/
def writeCells : List Nat → List Span → Option (List Tok)
  | _, [] => some []
  | [], _ :: _ => none
  | colSize :: sizes, cell :: cells =>
    match writeCells sizes cells with
    | none => none
    | some rest => some (cell.out ++ (if colSize > cell.len then writePadding columnPadding (colSize - cell.len) else []) ++ rest)

/-- The outer loop of `WriteTo` (print.go:68-92). -/
def writeRows (sizes : List Nat) : List Row → Option (List Tok)
  | [] => some []
  | r :: rows =>
    match writeCells sizes (match r with | .cells l => l | .skip s => [s]), writeRows sizes rows with
    | some l, some rest => some (l ++ .ch '\n' :: rest)
    | _, _ => none

/-- A table as a span: `WriteTo` and `VisualLength` (print.go:64-105). -/
def Table.span (t : Table) : Option Span :=
  let colSizes := columnWidths t.padding t.maxWidth t.sizes
  (writeRows colSizes t.rows).map fun out => ⟨colSizes.sum, out⟩

/-! ## Markers -/

/-- `TypeString` (help/types.go:55-60).  The panic for a slice without item type does not happen for arguments that come from Go types (`C64_no_crash`). -/
def typeText (a : ArgDoc) : Str := a.typeString.getD []

/-- `fieldSyntaxHelp` (pretty/help.go:124-136). -/
def fieldSyntax (arg : FieldDoc) (sep : Str) : Span :=
  if arg.arg.optional then fromWriter ("[".toList ++ sep ++ arg.name ++ "=<".toList ++ typeText arg.arg ++ ">]".toList)
  else fromWriter (sep ++ arg.name ++ "=<".toList ++ typeText arg.arg ++ ">".toList)

/-- `markerName` (pretty/help.go:138-143): the two styles differ in their escape sequences only. -/
def markerName (d : MarkerDoc) : Span := decorated (text ('+' :: d.name))

/-- `AnonymousField` (help/types.go:102-105). -/
def MarkerDoc.anonymousField (d : MarkerDoc) : Bool :=
  match d.fields with
  | [f] => f.name = []
  | _ => false

/-- The loop over the arguments (pretty/help.go:166-169). -/
def syntaxArgs : Str → List FieldDoc → List Span
  | _, [] => []
  | sep, f :: fs => decorated (fieldSyntax f sep) :: syntaxArgs ",".toList fs

/-- `MarkerSyntaxHelp` (pretty/help.go:146-172). -/
def markerSyntax (d : MarkerDoc) : Span :=
  if d.fields = [] then spans [markerName d]
  else spans (markerName d :: syntaxArgs (if d.anonymousField then [] else ":".toList) d.fields)

/-- The summary with the replacement for a deprecated marker (pretty/help.go:34-40, 64-70). -/
def summaryOf (d : MarkerDoc) : Span :=
  match d.deprecated with
  | some f =>
    if f ≠ [] then spans [decorated (text "(use ".toList), decorated (text f), decorated (text ") ".toList), text d.text.summary]
    else spans [text d.text.summary]
  | none => spans [text d.text.summary]

/-- `MarkersSummary` (pretty/help.go:21-50). -/
def markersSummary (group : Str) (ms : List MarkerDoc) : Option Span :=
  let table : Table := { padding := 2, rows := ms.map fun m => .cells [markerSyntax m, decorated (text m.target), summaryOf m] }
  match table.span with
  | none => none
  | some t => some (spans [text "\n".toList, decorated (text group), text "\n\n".toList, t, text "\n".toList])

/-- The part of the details for one marker (pretty/help.go:60-114). -/
def markerDetails (full : Bool) (m : MarkerDoc) : Option (List Span) :=
  let head := [line (markerName m), text " ".toList, decorated (text m.target)]
  let summary := summaryOf m
  let details := m.text.details
  match m.fields, m.anonymousField with
  | f :: _, true =>
    some (head ++ [indented 1 (line (decorated (fieldSyntax f []))), text "  ".toList, summary] ++
      (if details ≠ [] ∧ full then [indented 2 (line (text details))] else []) ++ [newlines 1])
  | fields, _ =>
    let head := head ++ [indented 1 (line summary)] ++ (if details ≠ [] ∧ full then [indented 1 (line (text details))] else [])
    if fields = [] then some (head ++ [newlines 1])
    else if full then
      some (head ++ [newlines 1] ++
        fields.flatMap (fun arg => [indented 1 (line (decorated (fieldSyntax arg []))), indented 2 (line (text arg.text.summary))] ++
          if arg.text.details ≠ [] then [indented 2 (line (text arg.text.details)), newlines 1] else []) ++ [newlines 1])
    else
      let table : Table := { padding := 2, rows := fields.map fun arg => .cells [decorated (fieldSyntax arg []), text arg.text.summary] }
      match table.span with
      | none => none
      | some t => some (head ++ [newlines 1] ++ [indented 1 t])

/-- The loop over markers. -/
def detailsLoop (full : Bool) : List MarkerDoc → Option (List Span)
  | [] => some []
  | m :: ms =>
    match markerDetails full m, detailsLoop full ms with
    | some l, some rest => some (l ++ rest)
    | _, _ => none

/-- `MarkersDetails` (pretty/help.go:53-118). -/
def markersDetails (full : Bool) (group : Str) (ms : List MarkerDoc) : Option Span :=
  match detailsLoop full ms with
  | none => none
  | some l => some (spans ([line (decorated (text group)), newlines 2] ++ l))

/-- What help prints: JSON on the main output, or text on the error output; `none` is a panic. -/
inductive Printed
  | json (cats : List CategoryDoc)
  | text (out : List Tok)
  | nothing
deriving DecidableEq, Repr

/-- The loops over the categories (main.go:247-255, 257-265). -/
def printCats (render : Str → List MarkerDoc → Option Span) : List CategoryDoc → Option (List Tok)
  | [] => some []
  | c :: cs =>
    if c.category = [] then printCats render cs
    else
      match render c.category c.markers, printCats render cs with
      | some s, some rest => some (s.out ++ rest)
      | _, _ => none

/-- `helpForLevels` (main.go:238-276): levels 1 to 4 are `summaryHelp`, `detailedHelp`, `fullHelp` and `jsonHelp`. -/
def helpForLevels (σ : Sched) (level : Nat) (r : HelpRegistry) (s : Sorter) : Option Printed :=
  let helpInfo := byCategory σ r s
  match level with
  | 4 => some (.json helpInfo)
  | 2 => (printCats (markersDetails false) helpInfo).map .text
  | 3 => (printCats (markersDetails true) helpInfo).map .text
  | 1 => (printCats markersSummary helpInfo).map .text
  | _ => some .nothing

end Verif.Help

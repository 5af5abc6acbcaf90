import Verif.Common.GoMap
import Verif.Common.Sched
import Verif.Common.Sort
import Verif.Markers.Doc
import Verif.Markers.Parse
import Verif.Genall.Header
/-!
# Model of helpgen: `/repo/cmd/helpgen/main.go` (37-190), and of the fields that `EachType` reports (`/repo/pkg/markers/zip.go` 198-219)

The documentation of types and fields is the input; `Verif.Markers.Doc` models how it is taken from the source.
-/
namespace Verif.Helpgen
open Markers (Str)

/-! ## `%q` -/

/-- The characters that `strconv.IsPrint` (library) takes for printable; arbitrary outside ASCII. -/
structure Printable where
  is : Char → Bool
  ascii : ∀ c : Char, c.toNat < 128 → is c = decide (32 ≤ c.toNat ∧ c.toNat < 127)

def Printable.onlyAscii : Printable := ⟨fun c => decide (32 ≤ c.toNat ∧ c.toNat < 127), fun _ _ => rfl⟩

/-- A hexadecimal digit, in lower case. -/
def hexDigit (n : Nat) : Char := if n < 10 then Char.ofNat (48 + n) else Char.ofNat (87 + n)

/-- `k` hexadecimal digits. -/
def hexDigits : Nat → Nat → Str
  | 0, _ => []
  | k + 1, n => hexDigit (n / 16 ^ k % 16) :: hexDigits k n

/-- `appendEscapedRune` (library, strconv) for the quote `"`.  Texts are valid UTF-8. -/
def quoteChar (P : Printable) (c : Char) : Str :=
  if c = '"' ∨ c = '\\' then ['\\', c]
  else if P.is c then [c]
  else if c = '\x07' then ['\\', 'a']
  else if c = '\x08' then ['\\', 'b']
  else if c = '\x0c' then ['\\', 'f']
  else if c = '\n' then ['\\', 'n']
  else if c = '\r' then ['\\', 'r']
  else if c = '\t' then ['\\', 't']
  else if c = '\x0b' then ['\\', 'v']
  else if c.toNat < 32 ∨ c.toNat = 127 then '\\' :: 'x' :: hexDigits 2 c.toNat
  else if c.toNat < 0x10000 then '\\' :: 'u' :: hexDigits 4 c.toNat
  else '\\' :: 'U' :: hexDigits 8 c.toNat

/-- `strconv.Quote` (library): the verb `%q` for strings. -/
def quote (P : Printable) (s : Str) : Str := '"' :: (s.flatMap (quoteChar P) ++ ['"'])

/-! ## Documentation -/

/-- `strings.SplitN(s, sep, 2)` (library) for one character: the first part, and the second if there is one. -/
def splitTwo (c : Char) (s : Str) : Str × Option Str :=
  match Text.cut c s with
  | none => (s, none)
  | some (a, b) => (a, some b)

/-- `godocToDetails` (main.go:73-89). -/
def godocToDetails (typeName doc : Str) : Str × Str :=
  let (summary, rest) := splitTwo '\n' doc
  let (word, others) := splitTwo ' ' summary
  let summary := if word = typeName then others.getD [] else summary
  (summary, match rest with
    | none => []
    | some r => Markers.Doc.trimSpace r)

/-- A field in the source: `names` is nil for an embedded field. -/
structure SourceField where
  names : Option (List Str)
  doc : Str

/-- `FieldInfo` (zip.go:139-154), as far as it is looked at. -/
structure FieldInfo where
  name : Str
  doc : Str
deriving DecidableEq

/-- The fields of a struct (zip.go:198-219). -/
def fieldInfos (fs : List SourceField) : List FieldInfo :=
  fs.flatMap fun f =>
    match f.names with
    | some ns => ns.map fun n => ⟨n, f.doc⟩
    | none => [⟨[], f.doc⟩]

/-- A declared type: `category` is that of its marker `+controllertools:marker:generateHelp`, if it has one. -/
structure TypeInfo where
  name : String
  doc : Str
  category : Option Str
  fields : List SourceField

/-- An entry of `FieldHelp`, with literals. -/
structure FieldLit where
  name : Str
  summary : Str
  details : Str
deriving DecidableEq

/-- A method `Help` with the literals in it. -/
structure HelpLit where
  type : String
  category : Str
  summary : Str
  details : Str
  fields : List FieldLit
deriving DecidableEq

/-- The literals of a method (main.go:135-141). -/
def helpLit (P : Printable) (t : TypeInfo) (category : Str) : HelpLit :=
  let (summary, details) := godocToDetails t.name.toList t.doc
  { type := t.name, category := quote P category, summary := quote P summary, details := quote P details
    fields := (fieldInfos t.fields).map fun f =>
      let (summary, details) := godocToDetails f.name f.doc
      ⟨quote P f.name, quote P summary, quote P details⟩ }

/-- The text of an entry (main.go:137). -/
def FieldLit.text (f : FieldLit) : Str := f.name ++ ": {\nSummary: ".toList ++ f.summary ++ ",\n Details: ".toList ++ f.details ++ ",\n},\n".toList

/-- The text of a method (`funcBlock`, main.go:53-66, 141). -/
def HelpLit.text (h : HelpLit) : Str :=
  "\nfunc (".toList ++ h.type.toList ++ ") Help() *markers.DefinitionHelp {\n\treturn &markers.DefinitionHelp{\n\t\tCategory: ".toList ++ h.category ++
  ",\n\t\tDetailedHelp: markers.DetailedHelp{\n\t\t\tSummary: ".toList ++ h.summary ++ ",\n\t\t\tDetails: ".toList ++ h.details ++
  ",\n\t\t},\n\t\tFieldHelp: map[string]markers.DetailedHelp{\n\t\t\t".toList ++ h.fields.flatMap FieldLit.text ++ "\n\t\t},\n\t}\n}\n".toList

/-- The loop over types (main.go:127-144): the methods by type. -/
def byType (P : Printable) : List TypeInfo → List (String × HelpLit) → List (String × HelpLit)
  | [], m => m
  | t :: ts, m =>
    match t.category with
    | none => byType P ts m
    | some c => byType P ts (GoMap.put m t.name (helpLit P t c))

/-- The text before the methods (`header`, main.go:39-52, 161). -/
def headerBlock (pkgName : String) (headerText : Str) : Str :=
  "\n//go:build !ignore_autogenerated\n\n".toList ++ headerText ++ "\n\n// Code generated by helpgen. DO NOT EDIT.\n\npackage ".toList ++ pkgName.toList ++
  "\n\nimport (\n\t\"sigs.k8s.io/controller-tools/pkg/markers\"\n)\n\n".toList

/-- What happens for a package. -/
inductive Result
  | nothing
  | panic
  /-- the methods in the file, and the text before it is formatted -/
  | file (methods : List HelpLit) (text : Str)
deriving DecidableEq

/-- The body of the loop over roots (main.go:126-165), up to the formatting of the text and writing the file (C63, C36). -/
def generateFor (P : Printable) (σ : Sched) (headerText : Str) (pkgName : String) (types : List TypeInfo) : Result :=
  let m := byType P types []
  if m.length = 0 then .nothing
  else if headerText = [] then .panic
  else
    let names := sortStrings (σ.order 0 (GoMap.keys m))
    let methods := names.filterMap (GoMap.get m)
    .file methods (headerBlock pkgName headerText ++ methods.flatMap fun h => h.text ++ ['\n'])

end Verif.Helpgen

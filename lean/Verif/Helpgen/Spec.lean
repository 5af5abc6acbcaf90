import Verif.Helpgen.Model
/-!
# Specification for C72: what generated help says
-/
namespace Verif.Helpgen.Spec
open Markers (Str)

/-- The first line of a text, and what follows it. -/
inductive FirstLine : Str → Str → Option Str → Prop
  | only {l} : '\n' ∉ l → FirstLine l l none
  | more {l r} : '\n' ∉ l → FirstLine (l ++ '\n' :: r) l (some r)

/-- The summary of a documentation: its first line, without the name of what it documents if the line begins with this word. -/
inductive Summary (name : Str) : Str → Str → Prop
  | name {doc rest} : FirstLine doc name rest → Summary name doc []
  | named {doc text rest} : FirstLine doc (name ++ ' ' :: text) rest → Summary name doc text
  | plain {doc line rest} : FirstLine doc line rest → line ≠ name → (∀ text, line ≠ name ++ ' ' :: text) → Summary name doc line

/-- The details: the other lines, without white space at both ends. -/
inductive Details : Str → Str → Prop
  | none {doc line} : FirstLine doc line Option.none → Details doc []
  | lines {doc line pre d post} : FirstLine doc line (some (pre ++ d ++ post)) → (∀ c ∈ pre ++ post, Markers.Doc.isSpace c) →
      (∀ c, d.head? = some c → ¬ Markers.Doc.isSpace c) → (∀ c, d.getLast? = some c → ¬ Markers.Doc.isSpace c) → Details doc d

/-- The literal denotes the text: what Go reads it as (`strconv.Unquote`), and the literal ends where it should, whatever follows it. -/
def Denotes (lit s : Str) : Prop := Markers.unquote lit = some s ∧ ∃ body, lit = '"' :: body ∧ ∀ rest, Markers.skipStringAt .plain (body ++ rest) = some rest

/-- A name of a field of a struct (empty for embedded fields), with its documentation. -/
def HasField (t : TypeInfo) (name doc : Str) : Prop :=
  ∃ f ∈ t.fields, f.doc = doc ∧ ((∃ ns, f.names = some ns ∧ name ∈ ns) ∨ f.names = none ∧ name = [])

/-- An entry of the help of fields says what the documentation says. -/
def FieldSays (e : FieldLit) (name doc : Str) : Prop :=
  Denotes e.name name ∧ ∃ s d, Summary name doc s ∧ Details doc d ∧ Denotes e.summary s ∧ Denotes e.details d

/-- The method says what the documentation of the type says. -/
structure Says (h : HelpLit) (t : TypeInfo) (category : Str) : Prop where
  type : h.type = t.name
  category : Denotes h.category category
  help : ∃ s d, Summary t.name.toList t.doc s ∧ Details t.doc d ∧ Denotes h.summary s ∧ Denotes h.details d
  sound : ∀ e ∈ h.fields, ∃ name doc, HasField t name doc ∧ FieldSays e name doc
  complete : ∀ name doc, HasField t name doc → ∃ e ∈ h.fields, FieldSays e name doc

/-! ## The text of methods, as tokens of Go -/

/-- The text consists of these tokens, with white space before, between and after them. -/
inductive Tokens : Str → List Str → Prop
  | nil {ws} : (∀ c ∈ ws, c ∈ [' ', '\n', '\t']) → Tokens ws []
  | cons {ws tok s toks} : (∀ c ∈ ws, c ∈ [' ', '\n', '\t']) → tok ≠ [] → Tokens s toks → Tokens (ws ++ tok ++ s) (tok :: toks)

/-- A list of tokens without literals. -/
def toks (l : List String) : List Str := l.map String.toList

/-- `name: {Summary: summary, Details: details},` -/
def entryTokens (e : FieldLit) : List Str :=
  [e.name] ++ toks [":", "{", "Summary", ":"] ++ [e.summary] ++ toks [",", "Details", ":"] ++ [e.details] ++ toks [",", "}", ","]

/-- `func (T) Help() *markers.DefinitionHelp { return &markers.DefinitionHelp{ Category: c, DetailedHelp: markers.DetailedHelp{ Summary: s, Details: d, },
FieldHelp: map[string]markers.DetailedHelp{ entries }, } }` -/
def methodTokens (h : HelpLit) : List Str :=
  toks ["func", "("] ++ [h.type.toList] ++ toks [")", "Help", "(", ")", "*", "markers", ".", "DefinitionHelp", "{", "return", "&", "markers", ".", "DefinitionHelp", "{", "Category", ":"] ++ [h.category] ++
  toks [",", "DetailedHelp", ":", "markers", ".", "DetailedHelp", "{", "Summary", ":"] ++ [h.summary] ++ toks [",", "Details", ":"] ++ [h.details] ++
  toks [",", "}", ",", "FieldHelp", ":", "map", "[", "string", "]", "markers", ".", "DetailedHelp", "{"] ++ h.fields.flatMap entryTokens ++ toks ["}", ",", "}", "}"]

/-- The text of the file: the constraint for builds, the header and the notice, which are comments, and then the tokens of the package clause, the import and the methods. -/
def FileText (pkg : String) (header : Str) (methods : List HelpLit) (text : Str) : Prop :=
  ∃ rest, text = "\n//go:build !ignore_autogenerated\n\n".toList ++ header ++ "\n\n// Code generated by helpgen. DO NOT EDIT.\n".toList ++ rest ∧
    Tokens rest (toks ["package", pkg, "import", "(", "\"sigs.k8s.io/controller-tools/pkg/markers\"", ")"] ++ methods.flatMap methodTokens)

end Verif.Helpgen.Spec

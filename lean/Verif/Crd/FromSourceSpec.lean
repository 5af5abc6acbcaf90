import Verif.Crd.FromSource
import Verif.Crd.BreakSpec
import Verif.Markers.InfoSpec
import Verif.Markers.CommentSpec
import Verif.Markers.ArgSpec
/-!
# Specification for C83: the values that violate a comment

What validation comments say (https://book.kubebuilder.io/reference/markers/crd-validation.html), about JSON values and the text of comments.
-/
namespace Verif.Crd.Spec
open Verif.Crd
open Verif.Markers (Value)
open Verif.Markers.Collect (Comment)
open Verif.Markers.Spec (ShowsArg ShowsArgs)
open Verif.Markers.Args (IsText IsFlag)
open Verif.Markers.Source

/-- `SaysValue name type value mark`: what `+kubebuilder:validation:name=value` says, where the value has this type. -/
inductive SaysValue (code : Value → AnyVal) : String → Markers.Arg → Value → Mark → Prop
  | maximum (q : Rat) : SaysValue code "Maximum" .num (.num q) (.maximum q)
  | minimum (q : Rat) : SaysValue code "Minimum" .num (.num q) (.minimum q)
  | exclusiveMaximum (b : Bool) : SaysValue code "ExclusiveMaximum" .bool (.bool b) (.exclusiveMaximum b)
  | exclusiveMinimum (b : Bool) : SaysValue code "ExclusiveMinimum" .bool (.bool b) (.exclusiveMinimum b)
  | multipleOf (q : Rat) : SaysValue code "MultipleOf" .num (.num q) (.multipleOf q)
  | minProperties (z : Int) : SaysValue code "MinProperties" (.int false) (.int z) (.minProperties z)
  | maxProperties (z : Int) : SaysValue code "MaxProperties" (.int false) (.int z) (.maxProperties z)
  | maxLength (z : Int) : SaysValue code "MaxLength" (.int false) (.int z) (.maxLength z)
  | minLength (z : Int) : SaysValue code "MinLength" (.int false) (.int z) (.minLength z)
  | pattern (s : List Char) : SaysValue code "Pattern" .str (.str s) (.pattern (String.ofList s))
  | maxItems (z : Int) : SaysValue code "MaxItems" (.int false) (.int z) (.maxItems z)
  | minItems (z : Int) : SaysValue code "MinItems" (.int false) (.int z) (.minItems z)
  | uniqueItems (b : Bool) : SaysValue code "UniqueItems" .bool (.bool b) (.uniqueItems b)
  | enum (l : List Value) : SaysValue code "Enum" (.slice .any) (.slice l) (.enum (l.map code))
  | format (s : List Char) : SaysValue code "Format" .str (.str s) (.format (String.ofList s))
  | type (s : List Char) : SaysValue code "Type" .str (.str s) (.type (String.ofList s))

/-- The prefix of markers for values, or for the items of lists. -/
def marksPrefix (items : Bool) : List Char := if items then "kubebuilder:validation:items:".toList else "kubebuilder:validation:".toList

/-- The arguments of `XValidation`. -/
def ruleArgs : Markers.Definition where
  fields := [⟨"rule".toList, .str, false⟩, ⟨"message".toList, .str, true⟩, ⟨"messageExpression".toList, .str, true⟩, ⟨"reason".toList, .str, true⟩, ⟨"fieldPath".toList, .str, true⟩,
    ⟨"optionalOldSelf".toList, .bool, true⟩]
  strict := true

/-- What a comment says about values, or (`items`) about the items of lists. -/
inductive Says (E : Markers.Env) (code : Value → AnyVal) (c : Comment) (items : Bool) : Mark → Prop
  | value {n a v x m} : SaysValue code n a v m → ShowsArg E a v x → textOf c = '+' :: (marksPrefix items ++ n.toList ++ '=' :: x) → Says E code c items m
  | intOrString : textOf c = '+' :: (marksPrefix items ++ "XIntOrString".toList) → Says E code c items .intOrString
  /-- rules: each argument at most once, in any order -/
  | rule {y vals r m e s p o} : textOf c = '+' :: (marksPrefix items ++ "XValidation".toList ++ ':' :: y) → ShowsArgs E ruleArgs vals y → (vals.map (·.1)).Nodup → "rule".toList ∈ vals.map (·.1) →
      IsText vals "rule" r → IsText vals "message" m → IsText vals "messageExpression" e → IsText vals "reason" s → IsText vals "fieldPath" p → IsFlag vals "optionalOldSelf" o →
      Says E code c items (.validation r m e s p o)

/-- The comment is in the documentation of the type or field, or directly above it. -/
def On (f : File) (n : Markers.Collect.Node) (c : Comment) : Prop := f.Marks c ∧ (InDoc f n c ∨ Above f n c)

/-- A value that some comment on the type or field forbids. -/
inductive Denied (M : Meaning) (marshal : AnyVal → Option Raw) (E : Markers.Env) (code : Value → AnyVal) (f : File) (n : Markers.Collect.Node) (items : Bool) (j : Json) : Prop
  | mark (c : Comment) (m : Mark) : On f n c → Says E code c items m → (∀ t, m ≠ .type t) → ¬ Constraint M marshal j m → Denied M marshal E code f n items j
  | type (c : Comment) (t : String) : On f n c → Says E code c items (.type t) → ¬ HasType t j → j ≠ .null → Denied M marshal E code f n items j
  | exclusiveMaximum (c c' : Comment) (v : Rat) : On f n c → Says E code c items (.maximum v) → On f n c' → Says E code c' items (.exclusiveMaximum true) → j = .num v → Denied M marshal E code f n items j
  | exclusiveMinimum (c c' : Comment) (v : Rat) : On f n c → Says E code c items (.minimum v) → On f n c' → Says E code c' items (.exclusiveMinimum true) → j = .num v → Denied M marshal E code f n items j

/-- A value that some comment on the type or field forbids, or that is a list with such an item. -/
def Refused (M : Meaning) (marshal : AnyVal → Option Raw) (E : Markers.Env) (code : Value → AnyVal) (f : File) (n : Markers.Collect.Node) (j : Json) : Prop :=
  Denied M marshal E code f n false j ∨ ∃ l x, j = .arr l ∧ x ∈ l ∧ Denied M marshal E code f n true x

/-- `Inside G τ j τ' j'`: the value `j`, read as a value of the type `τ`, has in it a value `j'` of the type `τ'`. -/
inductive Inside (G : Prog) : Ty → Json → Ty → Json → Prop
  | refl {τ j} : Inside G τ j τ j
  | ident {pkg n j τ' j'} : Inside G (.go ((G.ctx pkg).ident n)) j τ' j' → Inside G (.expr pkg (.ident n)) j τ' j'
  | selector {pkg x n j τ' j'} : Inside G (.go ((G.ctx pkg).sel x n)) j τ' j' → Inside G (.expr pkg (.selector x n)) j τ' j'
  | named {p n u j τ' j'} : Inside G (.decl p n) j τ' j' → Inside G (.go (.named (some p) n u)) j τ' j'
  | alias {p n r j τ' j'} : Inside G (.decl p n) j τ' j' → Inside G (.go (.alias (some p) n r)) j τ' j'
  | element {pkg len e l x τ' j'} : (len = false → ¬ ByteLike (typeOf (G.ctx pkg) e)) → x ∈ l → Inside G (.expr pkg e) x τ' j' → Inside G (.expr pkg (.array len e)) (.arr l) τ' j'
  | mapValue {pkg k v m x τ' j'} : x ∈ m → Inside G (.expr pkg v) x.2 τ' j' → Inside G (.expr pkg (.map k v)) (.obj m) τ' j'
  | pointer {pkg e j τ' j'} : Inside G (.expr pkg e) j τ' j' → Inside G (.expr pkg (.star e)) j τ' j'
  /-- a declared type that is no struct: as its type expression -/
  | type {p n d j τ' j'} : G.decl p n = some d → d.textMarshaler = false → d.jsonMarshaler = false → d.type ≠ .struct → Inside G (.expr p d.type) j τ' j' → Inside G (.decl p n) j τ' j'
  /-- the value of a field (the last one, if several have the same JSON name), unless the field is schemaless -/
  | field {p n d m a f b k om v τ' j'} : G.decl p n = some d → d.textMarshaler = false → d.jsonMarshaler = false → d.type = .struct →
      d.fields = a ++ f :: b → FieldIn (G.ctx p) f k false om → (∀ g ∈ b, ∀ om', ¬ FieldIn (G.ctx p) g k false om') → ¬ Marked f.markers "kubebuilder:validation:Schemaless" →
      m.lookup k = some v → Inside G (.expr p f.type) v τ' j' → Inside G (.decl p n) (.obj m) τ' j'
  /-- the members of an embedded struct are members of the object -/
  | embedded {p n d f k om j τ' j'} : G.decl p n = some d → d.textMarshaler = false → d.jsonMarshaler = false → d.type = .struct →
      f ∈ d.fields → FieldIn (G.ctx p) f k true om → ¬ Marked f.markers "kubebuilder:validation:Schemaless" → Inside G (.expr p f.type) j τ' j' → Inside G (.decl p n) j τ' j'

/-- The comment reads `+name`. -/
def ReadsAs (c : Comment) (name : String) : Prop := textOf c = '+' :: name.toList

/-- No comment at the type or field begins with this marker. -/
def NoneOf (f : File) (n : Markers.Collect.Node) (name : String) : Prop := ∀ c, f.Marks c → InDoc f n c ∨ Above f n c → ¬ ('+' :: name.toList) <+: textOf c

/-- All comments that begin with this marker are in the documentation of types and fields. -/
def OnlyInDocs (files : List File) (name : String) : Prop := ∀ f ∈ files, ∀ c, f.Marks c → Begins name c → ∃ n, InDoc f n c

/-- The markers of a package come from comments in its files that are not in the documentation of a type or field. -/
def PackageFrom (files : List File) (set : MarkerSet) : Prop := ∀ k, Marked set k → ∃ f ∈ files, ∃ c, f.Marks c ∧ Begins k c ∧ ∀ n, ¬ InDoc f n c

/-- `Offends τ j`: the value `j`, read as a value of the type `τ`, violates a comment in the source, at any depth: one on a type, one on a field, or one that says that a field is required; or
it lacks a field that no comment makes optional, neither on it nor for the package, and that is not omitted when it is empty. -/
inductive Offends (M : Meaning) (marshal : AnyVal → Option Raw) (E : Markers.Env) (code : Value → AnyVal) (hist : List (Markers.Def Markers.Loaded)) (pk : String → Package) (G : Prog) : Ty → Json → Prop
  | inside {τ j τ' j'} : Inside G τ j τ' j' → Offends M marshal E code hist pk G τ' j' → Offends M marshal E code hist pk G τ j
  | type {p n t f j} : t ∈ (pk p).infos hist E → G.decl p n = some (declOf code (pk p).shape t) → f ∈ (pk p).files → t.spec ∈ f.nodes →
      Refused M marshal E code f t.spec j → Offends M marshal E code hist pk G (.decl p n) j
  | field {p n t f a x b k om m v} : t ∈ (pk p).infos hist E → G.decl p n = some (declOf code (pk p).shape t) → f ∈ (pk p).files → t.spec ∈ f.nodes →
      (pk p).shape.textMarshaler t.spec = false → (pk p).shape.jsonMarshaler t.spec = false → (pk p).shape.type t.spec = .struct →
      t.fields = a ++ x :: b → FieldIn (G.ctx p) (fieldOf code (pk p).shape x) k false om → (∀ y ∈ b, ∀ om', ¬ FieldIn (G.ctx p) (fieldOf code (pk p).shape y) k false om') →
      m.lookup k = some v → Refused M marshal E code f x.node v → Offends M marshal E code hist pk G (.decl p n) (.obj m)
  | embedded {p n t f x k om j} : t ∈ (pk p).infos hist E → G.decl p n = some (declOf code (pk p).shape t) → f ∈ (pk p).files → t.spec ∈ f.nodes →
      (pk p).shape.textMarshaler t.spec = false → (pk p).shape.jsonMarshaler t.spec = false → (pk p).shape.type t.spec = .struct →
      x ∈ t.fields → FieldIn (G.ctx p) (fieldOf code (pk p).shape x) k true om → Refused M marshal E code f x.node j → Offends M marshal E code hist pk G (.decl p n) j
  | required {p n t f x k om m c} : t ∈ (pk p).infos hist E → G.decl p n = some (declOf code (pk p).shape t) → f ∈ (pk p).files → t.spec ∈ f.nodes →
      (pk p).shape.textMarshaler t.spec = false → (pk p).shape.jsonMarshaler t.spec = false → (pk p).shape.type t.spec = .struct →
      x ∈ t.fields → FieldIn (G.ctx p) (fieldOf code (pk p).shape x) k false om → On f x.node c →
      ReadsAs c "kubebuilder:validation:Required" ∧ NoneOf f x.node "kubebuilder:validation:Optional" ∨ ReadsAs c "required" ∧ NoneOf f x.node "kubebuilder:validation:Optional" ∧ NoneOf f x.node "optional" →
      k ∉ m.map (·.1) → Offends M marshal E code hist pk G (.decl p n) (.obj m)
  | byDefault {p n t f x k m} : t ∈ (pk p).infos hist E → G.decl p n = some (declOf code (pk p).shape t) → f ∈ (pk p).files → t.spec ∈ f.nodes →
      (pk p).shape.textMarshaler t.spec = false → (pk p).shape.jsonMarshaler t.spec = false → (pk p).shape.type t.spec = .struct →
      x ∈ t.fields → FieldIn (G.ctx p) (fieldOf code (pk p).shape x) k false false → NoneOf f x.node "kubebuilder:validation:Optional" → NoneOf f x.node "optional" →
      PackageFrom (pk p).files (G.ctx p).markers → OnlyInDocs (pk p).files "kubebuilder:validation:Optional" →
      k ∉ m.map (·.1) → Offends M marshal E code hist pk G (.decl p n) (.obj m)

/-- The markers are those in the comments on the type or field. -/
def MarkersFrom (gs : List String) (E : Markers.Env) (files : List File) (n : Markers.Collect.Node) (set : MarkerSet) : Prop :=
  ∃ f ∈ files, n ∈ f.nodes ∧ ∃ values, Faithful gs E f n values ∧ ∀ k, Marked set k ↔ ∃ v vs, GoMap.get values k = some (v :: vs)

/-- The field `f` of a program is the field `n` in the source, under the name `s`. -/
structure FieldFrom (gs : List String) (E : Markers.Env) (pk : Package) (s : String) (n : Markers.Collect.Node) (f : Field) : Prop where
  name : f.name = s
  tag : f.tag = pk.shape.tag n
  type : f.type = pk.shape.type n
  doc : f.doc = pk.shape.doc n
  markers : MarkersFrom gs E pk.files n f.markers

/-- The fields of a type in the source, one for each name; embedded fields have none. -/
def fieldNames (syn : Syntax) (spec : Markers.Collect.Node) : List (String × Markers.Collect.Node) :=
  match syn.structFields spec with
  | none => []
  | some l => l.flatMap fun x => if syn.names x = [] then [("", x)] else (syn.names x).map fun s => (s, x)

/-- The declaration `d` of a program is the type `spec` in the source. -/
structure DeclFrom (gs : List String) (E : Markers.Env) (pk : Package) (spec : Markers.Collect.Node) (d : Decl) : Prop where
  name : d.name = pk.syn.typeName spec
  type : d.type = pk.shape.type spec
  doc : d.doc = pk.shape.doc spec
  jsonMarshaler : d.jsonMarshaler = pk.shape.jsonMarshaler spec
  textMarshaler : d.textMarshaler = pk.shape.textMarshaler spec
  markers : MarkersFrom gs E pk.files spec d.markers
  fields : All2 (fun e f => FieldFrom gs E pk e.1 e.2 f) (fieldNames pk.syn spec) d.fields

end Verif.Crd.Spec

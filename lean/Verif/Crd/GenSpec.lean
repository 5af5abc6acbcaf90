import Verif.Crd.Gen
import Verif.Crd.MarksSpec
import Verif.Common.All2

/-! # Specification for C30, C31 and C54: fields, tags and types -/
namespace Verif.Crd.Spec
open Verif.Crd

/-- The meaning of a json tag: the name comes first, options follow after commas; the tag `-` leaves the field out.  A field without a name is an inline field. -/
def TagMeans (tag name : List Char) (inline omitEmpty : Bool) : Prop :=
  ∃ opts : List (List Char), tag = [','].intercalate (name :: opts) ∧ ',' ∉ name ∧ (∀ o ∈ opts, ',' ∉ o) ∧ ¬ (name = ['-'] ∧ opts = []) ∧
    (inline = true ↔ "inline".toList ∈ opts ∨ name = []) ∧ (omitEmpty = true ↔ "omitempty".toList ∈ opts)

/-- The field is not skipped as an unexported one. -/
def Visible (P : PkgCtx) (f : Field) : Prop := f.name = "" ∨ P.ignoreUnexportedFields = false ∨ P.exported f.name = true

/-- The field takes part in the schema, with this JSON name and these options. -/
def FieldIn (P : PkgCtx) (f : Field) (name : String) (inline omitEmpty : Bool) : Prop :=
  Visible P f ∧ ∃ t, f.tag = some t ∧ TagMeans t name.toList inline omitEmpty

/-- The marker is there. -/
def Marked (set : MarkerSet) (name : String) : Prop := ∃ v vs, GoMap.get set name = some (v :: vs)

/-- A field is required: markers decide, those of kubebuilder before those of Kubernetes; otherwise it is the default of the package, and fields that are inline or omitempty are optional. -/
def MustHave (P : PkgCtx) (f : Field) (inline omitEmpty : Bool) : Prop :=
  ¬ Marked f.markers "kubebuilder:validation:Optional" ∧
    (Marked f.markers "kubebuilder:validation:Required" ∨
      (¬ Marked f.markers "optional" ∧
        (Marked f.markers "required" ∨ (¬ Marked P.markers "kubebuilder:validation:Optional" ∧ inline = false ∧ omitEmpty = false))))

/-- The schema of a field: that of its type (or nothing, if it is marked as schemaless), with the documentation of the field, and changed by its markers. -/
def FieldSchema (marshal : AnyVal → Option Raw) (σ : Nat → Sched) (P : PkgCtx) (f : Field) (c : Schema) : Prop :=
  ∃ k raw, (Marked f.markers "kubebuilder:validation:Schemaless" → raw = Schema.empty) ∧
    (¬ Marked f.markers "kubebuilder:validation:Schemaless" → ∃ st st', innerType P f.type st = .ok (raw, st')) ∧
    c = (applyMarkers marshal (σ k) f.markers (raw.withBase { raw.base with description := f.doc })).1

/-- The JSON type of the values of a basic type, according to encoding/json; complex numbers and pointers cannot be encoded. -/
def jsonType : Kind → Option String
  | .bool => some "boolean"
  | .string => some "string"
  | .int | .int8 | .int16 | .int32 | .int64 | .uint | .uint8 | .uint16 | .uint32 | .uint64 | .uintptr => some "integer"
  | .float32 | .float64 => some "number"
  | .complex64 | .complex128 | .unsafePointer => none

/-- A type that becomes a string when it is used as the key of a map: `string`, or a type defined as such. -/
inductive StringLike : GoType → Prop
  | string (n : String) : StringLike (.basic ⟨.string, n⟩)
  | named {pkg name u} : StringLike u → StringLike (.named pkg name u)

/-- The format that goes with a JSON type: the width of integers, if it is 32 or 64 bits. -/
def widthFormat : Kind → String
  | .int32 | .uint32 => "int32"
  | .int64 | .uint64 => "int64"
  | _ => ""

/-- The schema of a builtin type; floating-point numbers have one only if dangerous types are allowed. -/
def BuiltinSchema (P : PkgCtx) (k : Kind) (type format : String) : Prop :=
  jsonType k = some type ∧ format = widthFormat k ∧ (type = "number" → P.allowDangerousTypes = true)

/-- A link to a declared type, as it is written in the package `P`: the package is left out if it is the same one. -/
def LinkTo (P : PkgCtx) (pkg name link : String) : Prop :=
  (pkg = P.self → link = refLink "" name) ∧ (pkg ≠ P.self → link = refLink (String.ofList (Loader.nonVendorPath pkg.toList)) name)

/-- `TypeSchema P e s`: the schema that stands for a type expression in the package `P`. -/
inductive TypeSchema (P : PkgCtx) : TExpr → Schema → Prop
  | builtin {n b t f} : P.ident n = .basic b → b.name = n → BuiltinSchema P b.kind t f → TypeSchema P (.ident n) (.leaf { type := t, format := f })
  | named {n pkg name under l} : P.ident n = .named (some pkg) name under → LinkTo P pkg name l → TypeSchema P (.ident n) (.leaf { ref := some l })
  | aliasNamed {n p a pkg name under l} : P.ident n = .alias p a (.named (some pkg) name under) → LinkTo P pkg name l → TypeSchema P (.ident n) (.leaf { ref := some l })
  | aliasAlias {n p a pkg name rhs l} : P.ident n = .alias p a (.alias (some pkg) name rhs) → LinkTo P pkg name l → TypeSchema P (.ident n) (.leaf { ref := some l })
  /-- an alias of a builtin type under another name keeps a link to the alias, for its documentation -/
  | aliasBuiltin {n p a b t f} : P.ident n = .alias p a (.basic b) ∨ P.ident n = .basic b → b.name ≠ n → BuiltinSchema P b.kind t f →
      TypeSchema P (.ident n) (.leaf { type := t, format := f, ref := some (refLink "" n) })
  | aliasSame {n p a b t f} : P.ident n = .alias p a (.basic b) → b.name = n → BuiltinSchema P b.kind t f → TypeSchema P (.ident n) (.leaf { type := t, format := f })
  | selector {x n pkg name rest} : P.sel x n = .named (some pkg) name rest ∨ P.sel x n = .alias (some pkg) name rest →
      TypeSchema P (.selector x n) (.leaf { ref := some (refLink (String.ofList (Loader.nonVendorPath pkg.toList)) name) })
  | bytes {e} : typeOf P e = .basic ⟨.uint8, "byte"⟩ → TypeSchema P (.array false e) (.leaf { type := "string", format := "byte" })
  | array {len e s} : (len = false → typeOf P e ≠ .basic ⟨.uint8, "byte"⟩) → TypeSchema P e s →
      TypeSchema P (.array len e) (.mk { type := "array" } (some (.mk (some s) [])) [] [] [] none [] none [] [] none [])
  | map {k v s} : StringLike (typeOf P k) → TypeSchema P v s → TypeSchema P (.map k v) (.mk { type := "object" } none [] [] [] none [] (some (.mk true (some s))) [] [] none [])
  | pointer {e s} : TypeSchema P e s → TypeSchema P (.star e) s

/-- Types without a name, and types of no package. -/
def Nameless : GoType → Prop
  | .other => True
  | .named none _ _ => True
  | .alias none _ _ => True
  | _ => False

/-- What the generator cannot deal with: anonymous structs, and names of types that have no name or no package of their own (such as `any` and `error`). -/
inductive Troublesome (P : PkgCtx) : TExpr → Prop
  | struct : Troublesome P .struct
  | here {n} : (P.ident n = .other ∨ ∃ m u, P.ident n = .named none m u) → Troublesome P (.ident n)
  | alias {n p a r} : P.ident n = .alias p a r → Nameless r → Troublesome P (.ident n)
  | there {x n} : Nameless (P.sel x n) ∨ (∃ b, P.sel x n = .basic b) → Troublesome P (.selector x n)
  | array {len e} : Troublesome P e → (len = false → typeOf P e ≠ .basic ⟨.uint8, "byte"⟩) → Troublesome P (.array len e)
  | map {k v} : StringLike (typeOf P k) → v ≠ .struct → Troublesome P v → Troublesome P (.map k v)
  | pointer {e} : Troublesome P e → Troublesome P (.star e)

/-- The fields the generator looks at. -/
def LookedAt (P : PkgCtx) (d : Decl) (f : Field) : Prop :=
  f ∈ d.fields ∧ (∃ k i o, FieldIn P f k i o) ∧ ¬ Marked f.markers "kubebuilder:validation:Schemaless"

/-- A declaration of such a type: a struct with such a field (a struct behind a pointer is reported), or any other such type. -/
inductive TroublesomeDecl (P : PkgCtx) (d : Decl) : Bool → TExpr → Prop
  | field {f} : LookedAt P d f → Troublesome P f.type → TroublesomeDecl P d true .struct
  | pointer {top e} : TroublesomeDecl P d false e → TroublesomeDecl P d top (.star e)
  | type {top e} : e ≠ .struct → (∀ x, e ≠ .star x) → Troublesome P e → TroublesomeDecl P d top e

end Verif.Crd.Spec

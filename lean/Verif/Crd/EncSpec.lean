import Verif.Crd.GenSpec
import Verif.Crd.FlatSpec

/-!
# Specification for C56: the JSON values of Go types

What encoding/json (Go standard library) writes for the values of a declared type, at any depth.
-/
namespace Verif.Crd.Spec
open Verif.Crd

/-- A program: the packages and the types declared in them. -/
structure Prog where
  ctx : String → PkgCtx
  decl : String → String → Option Decl
  /-- the values of the types that are not looked at, since their schemas are built in (`metav1.Time`, `resource.Quantity`, ...) -/
  foreign : String → String → Json → Prop
  /-- there are nil pointers, slices and maps in the values -/
  nils : Bool := false

/-- The bounds of the integer types (`int` and `uint` have 64 bits). -/
def bounds : Kind → Option (Int × Int)
  | .int8 => some (-2^7, 2^7 - 1)
  | .int16 => some (-2^15, 2^15 - 1)
  | .int32 => some (-2^31, 2^31 - 1)
  | .int64 | .int => some (-2^63, 2^63 - 1)
  | .uint8 => some (0, 2^8 - 1)
  | .uint16 => some (0, 2^16 - 1)
  | .uint32 => some (0, 2^32 - 1)
  | .uint64 | .uint | .uintptr => some (0, 2^64 - 1)
  | _ => none

/-- The JSON value of a value of a basic type. -/
inductive BasicVal : Kind → Json → Prop
  | bool (b : Bool) : BasicVal .bool (.bool b)
  | string (s : String) : BasicVal .string (.str s)
  | int {k lo hi} (z : Int) : bounds k = some (lo, hi) → lo ≤ z → z ≤ hi → BasicVal k (.num z)
  | float {k} (q : Rat) : k = .float32 ∨ k = .float64 → BasicVal k (.num q)

/-- The type is a byte type: its underlying type is `uint8`. -/
def ByteLike : GoType → Prop
  | .basic b => b.kind = .uint8
  | .named _ _ u => ByteLike u
  | .alias _ _ r => ByteLike r
  | _ => False

/-- A type: written in a package, known to the type checker, or declared. -/
inductive Ty
  | expr (pkg : String) (e : TExpr)
  | go (t : GoType)
  | decl (pkg name : String)

/-- The option is in the json tag of the field, after the name. -/
def HasOption (f : Field) (o : String) : Prop := ∃ t n opts, f.tag = some t ∧ t = [','].intercalate (n :: opts) ∧ ',' ∉ n ∧ (∀ x ∈ opts, ',' ∉ x) ∧ o.toList ∈ opts

/-- `Enc G τ j`: the value `j` is written for some value of the type `τ`.  Interfaces are left out, and so are embedded pointers that are nil.  An object
may have members besides those of the struct: those of other structs that are embedded beside it, or in which it is embedded. -/
inductive Enc (G : Prog) : Ty → Json → Prop
  | ident {pkg n j} : Enc G (.go ((G.ctx pkg).ident n)) j → Enc G (.expr pkg (.ident n)) j
  | selector {pkg x n j} : Enc G (.go ((G.ctx pkg).sel x n)) j → Enc G (.expr pkg (.selector x n)) j
  | basic {b j} : BasicVal b.kind j → Enc G (.go (.basic b)) j
  | named {p n u j} : Enc G (.decl p n) j → Enc G (.go (.named (some p) n u)) j
  /-- an alias, as it is declared -/
  | alias {p n r j} : Enc G (.decl p n) j → Enc G (.go (.alias (some p) n r)) j
  /-- a byte slice is a string -/
  | bytes {pkg e} (s : String) : ByteLike (typeOf (G.ctx pkg) e) → Enc G (.expr pkg (.array false e)) (.str s)
  | array {pkg len e} (l : List Json) : (len = false → ¬ ByteLike (typeOf (G.ctx pkg) e)) → (∀ x ∈ l, Enc G (.expr pkg e) x) → Enc G (.expr pkg (.array len e)) (.arr l)
  | map {pkg k v} (m : List (String × Json)) : (∀ x ∈ m, Enc G (.expr pkg v) x.2) → Enc G (.expr pkg (.map k v)) (.obj m)
  | pointer {pkg e j} : Enc G (.expr pkg e) j → Enc G (.expr pkg (.star e)) j
  /-- nil slices, maps and pointers are written as `null` -/
  | nilSlice {pkg e} : G.nils = true → Enc G (.expr pkg (.array false e)) .null
  | nilMap {pkg k v} : G.nils = true → Enc G (.expr pkg (.map k v)) .null
  | nilPointer {pkg e} : G.nils = true → Enc G (.expr pkg (.star e)) .null
  /-- a declared type has the values of its type expression, if it is no struct -/
  | type {p n d j} : G.decl p n = some d → d.textMarshaler = false → d.jsonMarshaler = false → d.type ≠ .struct → Enc G (.expr p d.type) j → Enc G (.decl p n) j
  | text {p n d} (s : String) : G.decl p n = some d → d.textMarshaler = true → d.jsonMarshaler = false → Enc G (.decl p n) (.str s)
  /-- a struct is an object: fields are members under their JSON names (as strings if this is asked for), only those that are omitted when empty may be missing, and the members of embedded structs are members of the object itself -/
  | struct {p n d} (m : List (String × Json)) : G.decl p n = some d → d.textMarshaler = false → d.jsonMarshaler = false → d.type = .struct →
      (∀ f ∈ d.fields, ∀ k om v, FieldIn (G.ctx p) f k false om → ¬ HasOption f "string" → m.lookup k = some v → Enc G (.expr p f.type) v) →
      (∀ f ∈ d.fields, ∀ k om v, FieldIn (G.ctx p) f k false om → HasOption f "string" → m.lookup k = some v → ∃ s, v = .str s) →
      (∀ f ∈ d.fields, ∀ k om, FieldIn (G.ctx p) f k false om → ¬ HasOption f "omitempty" → ¬ HasOption f "omitzero" → k ∈ m.map (·.1)) →
      (∀ f ∈ d.fields, ∀ k om, FieldIn (G.ctx p) f k true om → Enc G (.expr p f.type) (.obj m)) →
      Enc G (.decl p n) (.obj m)
  | foreign {p n j} : G.foreign p n j → Enc G (.decl p n) j

/-- No marker of the set restricts a schema. -/
def NoMarks (set : MarkerSet) : Prop := ∀ n vs, (n, vs) ∈ set → ∀ v ∈ vs, v = none

/-- The formats of the generator are understood as usual. -/
structure Formats (M : Meaning) : Prop where
  int32 : ∀ z : Int, -2^31 ≤ z → z ≤ 2^31 - 1 → M.format "int32" (.num z)
  int64 : ∀ z : Int, -2^63 ≤ z → z ≤ 2^63 - 1 → M.format "int64" (.num z)
  byte : ∀ s : String, M.format "byte" (.str s)

/-- A type expression in which all byte slices are written with `byte`, builtin types have their own names, and none is `uint32` or `uint64` (whose format is wrong). -/
inductive PlainType (P : PkgCtx) : TExpr → Prop
  | ident {n} : (∀ b, P.ident n = .basic b → b.name = n ∧ b.kind ≠ .uint32 ∧ b.kind ≠ .uint64) → PlainType P (.ident n)
  | selector {x n} : PlainType P (.selector x n)
  | array {len e} : (len = false → ByteLike (typeOf P e) → typeOf P e = .basic ⟨.uint8, "byte"⟩) → PlainType P e → PlainType P (.array len e)
  | map {k v} : PlainType P v → PlainType P (.map k v)
  | pointer {e} : PlainType P e → PlainType P (.star e)

/-- The conditions on a declaration: no validation markers, JSON names are distinct, no field is required that may be missing. -/
structure PlainDecl (P : PkgCtx) (d : Decl) : Prop where
  marks : NoMarks d.markers
  fieldMarks : ∀ f ∈ d.fields, NoMarks f.markers
  type : d.type ≠ .struct → PlainType P d.type
  fieldType : ∀ f ∈ d.fields, PlainType P f.type
  /-- numbers are not written as strings -/
  noString : ∀ f ∈ d.fields, ¬ HasOption f "string"
  /-- no field is required that is omitted when it is empty -/
  required : ∀ f ∈ d.fields, ∀ k i om, FieldIn P f k i om → MustHave P f i om → i = false ∧ ¬ HasOption f "omitempty" ∧ ¬ HasOption f "omitzero"

/-- The name of a declared type, or of an alias. -/
inductive Points : GoType → String → String → Prop
  | named {p n u} : Points (.named (some p) n u) p n
  | alias {p n r} : Points (.alias (some p) n r) p n

/-- What an alias stands for. -/
def aim : GoType → GoType
  | .alias _ _ r => r
  | t => t

/-- The name `n`, used in the package `pkg`, is that of the alias `a` of the package `p` for `r`.  An alias of a basic type is one of the package itself.  Other aliases have no validation markers (they would have no effect), and are
not for types that have their own JSON encoding. -/
def AliasOk (G : Prog) (pkg n p a : String) (r : GoType) : Prop :=
  (∀ j, ¬ G.foreign p a j) ∧ ∃ d, G.decl p a = some d ∧ d.textMarshaler = false ∧ d.jsonMarshaler = false ∧ typeOf (G.ctx p) d.type = r ∧
    match r with
    | .basic b => p = pkg ∧ a = n ∧ '~' ∉ n.toList ∧ b.name ≠ n ∧ ∃ x, d.type = .ident x
    | _ => NoMarks d.markers

/-- The links of the program lead where they should. -/
structure Linked (G : Prog) (env : Env) : Prop where
  self : ∀ pkg, (G.ctx pkg).self = pkg
  ident : ∀ pkg n p m, Points (aim ((G.ctx pkg).ident n)) p m → '~' ∉ m.toList ∧
    (p ≠ pkg → '~' ∉ Loader.nonVendorPath p.toList ∧ Loader.nonVendorPath p.toList ≠ [] ∧ ∀ q, env.imports pkg (String.ofList (Loader.nonVendorPath p.toList)) = some q → q = p)
  sel : ∀ pkg x n p m, Points ((G.ctx pkg).sel x n) p m → '~' ∉ m.toList ∧
    '~' ∉ Loader.nonVendorPath p.toList ∧ Loader.nonVendorPath p.toList ≠ [] ∧ ∀ q, env.imports pkg (String.ofList (Loader.nonVendorPath p.toList)) = some q → q = p
  alias : ∀ pkg n p a r, (G.ctx pkg).ident n = .alias (some p) a r → AliasOk G pkg n p a r

/-- The schemas of `env` have been generated from the program without an error. -/
def Generated (marshal : AnyVal → Option Raw) (G : Prog) (env : Env) : Prop :=
  ∀ id s d, env.raw id = some s → G.decl id.pkg id.name = some d → ∃ (σ : Nat → Sched) (st st' : GState), infoToSchema marshal σ (G.ctx id.pkg) d st = .ok (s, st') ∧ st'.errs = st.errs

end Verif.Crd.Spec

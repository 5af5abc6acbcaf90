import Verif.Crd.EncSpec

/-!
# Specification for C78: the values that break a validation marker

Said about the Go source only: its types, its markers and the JSON values, not about schemas.
-/
namespace Verif.Crd.Spec
open Verif.Crd

/-- The marker is one for the values themselves. -/
def OnValue (set : MarkerSet) (m : Mark) : Prop := ∃ n, Has set n m ∧ ¬ "kubebuilder:validation:items:".toList <+: n.toList

/-- The marker is one for the items of lists. -/
def OnItems (set : MarkerSet) (m : Mark) : Prop := ∃ n, Has set n m ∧ "kubebuilder:validation:items:".toList <+: n.toList

/-- A value that is forbidden by some markers: it does not satisfy one of them.  `nullable` allows `null` beside the values of the type given by a type marker, and the exclusive markers turn bounds into
strict ones. -/
inductive Forbids (M : Meaning) (marshal : AnyVal → Option Raw) (own : Mark → Prop) (j : Json) : Prop
  | mark (m : Mark) : own m → (∀ t, m ≠ .type t) → ¬ Constraint M marshal j m → Forbids M marshal own j
  | type (t : String) : own (.type t) → ¬ HasType t j → ¬ (own .nullable ∧ j = .null) → Forbids M marshal own j
  | exclusiveMaximum (v : Rat) : own (.maximum v) → own (.exclusiveMaximum true) → j = .num v → Forbids M marshal own j
  | exclusiveMinimum (v : Rat) : own (.minimum v) → own (.exclusiveMinimum true) → j = .num v → Forbids M marshal own j

/-- A value that is forbidden by a set of markers: itself, or one of its items. -/
def SetForbids (M : Meaning) (marshal : AnyVal → Option Raw) (set : MarkerSet) (j : Json) : Prop :=
  Forbids M marshal (OnValue set) j ∨ ∃ l x, j = .arr l ∧ x ∈ l ∧ Forbids M marshal (OnItems set) x

/-- `Breaks M marshal G τ j`: the value `j`, read as a value of the type `τ`, breaks a validation marker or lacks a required field, at any depth. -/
inductive Breaks (M : Meaning) (marshal : AnyVal → Option Raw) (G : Prog) : Ty → Json → Prop
  | ident {pkg n j} : Breaks M marshal G (.go ((G.ctx pkg).ident n)) j → Breaks M marshal G (.expr pkg (.ident n)) j
  | selector {pkg x n j} : Breaks M marshal G (.go ((G.ctx pkg).sel x n)) j → Breaks M marshal G (.expr pkg (.selector x n)) j
  | named {p n u j} : Breaks M marshal G (.decl p n) j → Breaks M marshal G (.go (.named (some p) n u)) j
  /-- an alias, as it is declared -/
  | alias {p n r j} : Breaks M marshal G (.decl p n) j → Breaks M marshal G (.go (.alias (some p) n r)) j
  | element {pkg len e l x} : (len = false → ¬ ByteLike (typeOf (G.ctx pkg) e)) → x ∈ l → Breaks M marshal G (.expr pkg e) x → Breaks M marshal G (.expr pkg (.array len e)) (.arr l)
  | mapValue {pkg k v m x} : x ∈ m → Breaks M marshal G (.expr pkg v) x.2 → Breaks M marshal G (.expr pkg (.map k v)) (.obj m)
  | pointer {pkg e j} : Breaks M marshal G (.expr pkg e) j → Breaks M marshal G (.expr pkg (.star e)) j
  /-- a declared type that is no struct: as its type expression -/
  | type {p n d j} : G.decl p n = some d → d.textMarshaler = false → d.jsonMarshaler = false → d.type ≠ .struct → Breaks M marshal G (.expr p d.type) j → Breaks M marshal G (.decl p n) j
  /-- the markers of a declared type -/
  | mark {p n d j} : G.decl p n = some d → SetForbids M marshal d.markers j → Breaks M marshal G (.decl p n) j
  /-- the value of a field (the last one, if several have the same JSON name), unless the field is schemaless -/
  | field {p n d m a f b k om v} : G.decl p n = some d → d.textMarshaler = false → d.jsonMarshaler = false → d.type = .struct →
      d.fields = a ++ f :: b → FieldIn (G.ctx p) f k false om → (∀ g ∈ b, ∀ om', ¬ FieldIn (G.ctx p) g k false om') → ¬ Marked f.markers "kubebuilder:validation:Schemaless" →
      m.lookup k = some v → Breaks M marshal G (.expr p f.type) v → Breaks M marshal G (.decl p n) (.obj m)
  /-- the markers of a field -/
  | fieldMark {p n d m a f b k om v} : G.decl p n = some d → d.textMarshaler = false → d.jsonMarshaler = false → d.type = .struct →
      d.fields = a ++ f :: b → FieldIn (G.ctx p) f k false om → (∀ g ∈ b, ∀ om', ¬ FieldIn (G.ctx p) g k false om') →
      m.lookup k = some v → SetForbids M marshal f.markers v → Breaks M marshal G (.decl p n) (.obj m)
  /-- a required field is missing -/
  | missing {p n d m f k om} : G.decl p n = some d → d.textMarshaler = false → d.jsonMarshaler = false → d.type = .struct →
      f ∈ d.fields → FieldIn (G.ctx p) f k false om → MustHave (G.ctx p) f false om → k ∉ m.map (·.1) → Breaks M marshal G (.decl p n) (.obj m)
  /-- the members of an embedded struct are members of the object -/
  | embedded {p n d f k om j} : G.decl p n = some d → d.textMarshaler = false → d.jsonMarshaler = false → d.type = .struct →
      f ∈ d.fields → FieldIn (G.ctx p) f k true om → ¬ Marked f.markers "kubebuilder:validation:Schemaless" → Breaks M marshal G (.expr p f.type) j → Breaks M marshal G (.decl p n) j
  | embeddedMark {p n d f k om j} : G.decl p n = some d → d.textMarshaler = false → d.jsonMarshaler = false → d.type = .struct →
      f ∈ d.fields → FieldIn (G.ctx p) f k true om → SetForbids M marshal f.markers j → Breaks M marshal G (.decl p n) j

/-- No marker is given twice with different values, except those that add up. -/
def Once (own : Mark → Prop) : Prop := ∀ m m', own m → own m' → target m = target m' → target m ∉ [.xValidations, .xListMapKeys, .default, .title, .example_] → m = m'

/-- The same for the markers of a declaration and of its fields. -/
structure OnceDecl (d : Decl) : Prop where
  value : Once (OnValue d.markers)
  items : Once (OnItems d.markers)
  fieldValue : ∀ f ∈ d.fields, Once (OnValue f.markers)
  fieldItems : ∀ f ∈ d.fields, Once (OnItems f.markers)

/-- The conditions on a declaration under which its values are those its schema is made for, apart from markers. -/
structure TypedDecl (P : PkgCtx) (d : Decl) : Prop where
  type : d.type ≠ .struct → PlainType P d.type
  fieldType : ∀ f ∈ d.fields, PlainType P f.type
  /-- numbers are not written as strings -/
  noString : ∀ f ∈ d.fields, ¬ HasOption f "string"
  /-- embedded structs are not marked as required -/
  inlineOptional : ∀ f ∈ d.fields, ∀ k om, FieldIn P f k true om → ¬ MustHave P f true om

end Verif.Crd.Spec

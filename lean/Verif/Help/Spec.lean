import Verif.Help.Model
import Verif.Common.All2
import Verif.Markers.RegistrySpec
/-!
# Specification of marker help (C46, C64)

Only the types of the model are used.
-/
namespace Verif.Help.Spec
open Markers (Str Def Target Argument ArgKind GoType)

/-- Alphabetical order. -/
def Before (a b : Str) : Prop := String.ofList a < String.ofList b

instance (a b : Str) : Decidable (Before a b) := by unfold Before; infer_instance

/-- The calls of `Register` in a history. -/
def registrations : List Op → List (Def Info)
  | [] => []
  | .register d :: l => d :: registrations l
  | .addHelp _ _ :: l => registrations l

/-- `d` is registered after the history: it is the last one for its name and target. -/
def Registered (ops : List Op) (d : Def Info) : Prop :=
  Markers.Spec.Valid d.target ∧ Markers.Spec.LastRegistered (registrations ops) d.name d.target d

/-- The help of a definition after the history: the last one that was added for it, if any. -/
def HelpOf (ops : List Op) (d : Def Info) : Option DefHelp → Prop
  | some h => ∃ before after, ops = before ++ .addHelp d.payload.ptr h :: after ∧ ∀ h', Op.addHelp d.payload.ptr h' ∉ after
  | none => ∀ h', Op.addHelp d.payload.ptr h' ∉ ops

/-- The help text for an argument, by the name of its field; empty if there is none. -/
def FieldText (h : Option DefHelp) (goName : Str) (t : Detailed) : Prop :=
  (∃ h' , h = some h' ∧ (goName, t) ∈ h'.fieldHelp) ∨ (t = {} ∧ ∀ h', h = some h' → ∀ t', (goName, t') ∉ h'.fieldHelp)

/-- The documentation of a definition. -/
structure Documents (doc : MarkerDoc) (d : Def Info) (h : Option DefHelp) : Prop where
  name : doc.name = d.name
  target : (d.target = .package ∧ doc.target = "package".toList) ∨ (d.target = .type ∧ doc.target = "type".toList) ∨
    (d.target = .field ∧ doc.target = "field".toList)
  given : ∀ h', h = some h' → doc.text = h'.text ∧ doc.category = h'.category ∧ doc.deprecated = h'.deprecated
  missing : h = none → doc.text = {} ∧ doc.category = [] ∧ doc.deprecated = none
  /-- arguments in alphabetical order, each once -/
  sorted : doc.fields.Pairwise fun f g => Before f.name g.name
  /-- exactly the arguments of the definition -/
  fields : ∀ n, (∃ f ∈ doc.fields, f.name = n) ↔ ∃ g, (n, g) ∈ d.payload.loaded.fieldNames
  /-- with whether they are optional, and the help text -/
  each : ∀ f ∈ doc.fields, ∀ g, (f.name, g) ∈ d.payload.loaded.fieldNames →
    FieldText h g f.text ∧ ∃ a, (f.name, a) ∈ d.payload.loaded.fields ∧ f.arg.optional = a.optional

/-- A definition as `MakeDefinition` makes it: its maps have one entry per argument, for the same arguments. -/
def WellMade (d : Def Info) : Prop :=
  (d.payload.loaded.fields.map (·.1)).Nodup ∧ (d.payload.loaded.fieldNames.map (·.1)).Nodup ∧
  ∀ n, n ∈ d.payload.loaded.fieldNames.map (·.1) → n ∈ d.payload.loaded.fields.map (·.1)

/-- The maps of a help text have one entry per key. -/
def HelpWF (ops : List Op) : Prop := ∀ p h, Op.addHelp p h ∈ ops → (h.fieldHelp.map (·.1)).Nodup

/-- The generator and the rule of an option: `generator`, `output:rule`, `output:generator:rule`. -/
inductive Reads : Str → Str → Str → Prop
  | one {g} : ':' ∉ g → Reads g g []
  | two {o r} : ':' ∉ o → ':' ∉ r → Reads (o ++ ':' :: r) [] r
  | three {o g r} : ':' ∉ o → ':' ∉ g → ':' ∉ r → Reads (o ++ ':' :: (g ++ ':' :: r)) g r
  | more {o p q r} : ':' ∉ o → ':' ∉ p → ':' ∉ q → Reads (o ++ ':' :: (p ++ ':' :: (q ++ ':' :: r))) [] []

/-- The group of a definition: its category, or the kind of option it is. -/
inductive InGroup : Sorter → Def Info → Option DefHelp → Str → Prop
  | category {d h} : InGroup .byCategory d (some h) h.category
  | noHelp {d} : InGroup .byCategory d none []
  | paths {d h} : d.name = "paths".toList → InGroup .byOption d h "generic".toList
  | generator {d h} : ':' ∉ d.name → d.name ≠ "paths".toList → InGroup .byOption d h "generators".toList
  | rule {d h o r} : d.name = o ++ ':' :: r → ':' ∉ o → ':' ∉ r → InGroup .byOption d h "output rules (optionally as output:<generator>:...)".toList
  | hidden {d h o p r} : d.name = o ++ ':' :: (p ++ ':' :: r) → ':' ∉ o → ':' ∉ p → InGroup .byOption d h []

/-- The order within a group: by name; options by generator, last name first, and then by rule. -/
inductive Precedes : Sorter → Str → Str → Prop
  | name {a b} : Before a b → Precedes .byCategory a b
  | generator {a b g g' r r'} : Reads a g r → Reads b g' r' → Before g' g → Precedes .byOption a b
  | rule {a b g r r'} : Reads a g r → Reads b g r' → Before r r' → Precedes .byOption a b

/-- The help lists every registered definition once, in its group; groups are in alphabetical order and none is empty; markers are in order within a group. -/
structure Lists (ops : List Op) (s : Sorter) (cats : List CategoryDoc) : Prop where
  groups : cats.Pairwise fun c c' => Before c.category c'.category
  nonempty : ∀ c ∈ cats, c.markers ≠ []
  once : ∃ ds : List (Def Info), ds.Nodup ∧ (∀ d, d ∈ ds ↔ Registered ops d) ∧
    All2 (fun (x : Str × MarkerDoc) d => ∃ h, HelpOf ops d h ∧ InGroup s d h x.1 ∧ Documents x.2 d h)
      (cats.flatMap fun c => c.markers.map fun m => (c.category, m)) ds
  ordered : ∀ c ∈ cats, c.markers.Pairwise fun m m' => ¬ Precedes s m'.name m.name

/-- A group with at most twelve definitions. -/
def FewIn (ops : List Op) (s : Sorter) (g : Str) : Prop :=
  ∃ few : List (Def Info), few.length ≤ 12 ∧ ∀ d h, Registered ops d → HelpOf ops d h → InGroup s d h g → d ∈ few

/-- Two definitions of a group have different places, unless they have the same name and the group is small. -/
def NoTies (ops : List Op) (s : Sorter) : Prop :=
  ∀ g d d' h h', Registered ops d → Registered ops d' → HelpOf ops d h → HelpOf ops d' h' → InGroup s d h g → InGroup s d' h' g →
    d = d' ∨ Precedes s d.name d'.name ∨ Precedes s d'.name d.name ∨ (d.name = d'.name ∧ FewIn ops s g)

/-- How help should show the type of an argument: the scalars by name, `[]` for slices. -/
def shownType : GoType → Str
  | .rawArguments => "raw".toList
  | .emptyInterface => "any".toList
  | .string => "string".toList
  | .int => "int".toList
  | .int32 => "int".toList
  | .float64 => "float64".toList
  | .bool => "bool".toList
  | .ptr t => shownType t
  | .slice t => "[]".toList ++ shownType t
  | .map _ t => "map[string]".toList ++ shownType t
  | .other => "invalid".toList

/-- Types without numbers and without maps. -/
inductive Shown : GoType → Prop
  | raw : Shown .rawArguments
  | any : Shown .emptyInterface
  | string : Shown .string
  | int : Shown .int
  | int32 : Shown .int32
  | bool : Shown .bool
  | ptr {t} : Shown t → Shown (.ptr t)
  | slice {t} : Shown t → Shown (.slice t)

end Verif.Help.Spec

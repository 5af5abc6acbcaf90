import Verif.Common.Sched
import Verif.Common.Sort
import Verif.Common.Pdq
import Verif.Markers.Define
/-!
# Model of marker help: `/repo/pkg/genall/help/types.go`, `/repo/pkg/genall/help/sort.go`, `/repo/pkg/markers/help.go`, the help part of `/repo/pkg/markers/reg.go`
-/
namespace Verif.Help
open Markers (Str Def Registry Target Argument ArgKind Loaded)

/-! ## Texts in order -/

/-- Comparison of Go strings.  Go compares bytes; in UTF-8 that is the order of the characters. -/
def textLt (a b : Str) : Bool := decide (String.ofList a < String.ofList b)

/-- "Not greater". -/
def textLe (a b : Str) : Bool := !textLt b a

/-- `sort.Slice` with the order `less` (library function, `Verif.Pdq.slice`): an insertion sort, which is stable, up to 12 elements; beyond that the order of elements that are
equal under `less` is not specified. -/
def sliceSort {α : Type} (σ : Sched) (site : Nat) (less : α → α → Bool) (l : List α) : List α :=
  if l.length ≤ 12 then sortBy (fun a b => !less b a) l else sortBy (fun a b => !less b a) (σ.order site l)

/-! ## The registry with help -/

/-- `DetailedHelp` (markers/help.go:20-24, help/types.go:27-32). -/
structure Detailed where
  summary : Str := []
  details : Str := []
deriving DecidableEq, Repr

/-- `DefinitionHelp` (markers/help.go:27-46). -/
structure DefHelp where
  text : Detailed := {}
  category : Str := []
  deprecated : Option Str := none
  fieldHelp : List (Str × Detailed) := []
deriving DecidableEq, Repr

/-- A definition of a marker, with the address at which it is stored: the map of help texts is keyed by pointers (reg.go:30). -/
structure Info where
  ptr : Nat
  loaded : Loaded
deriving DecidableEq, Repr

/-- `Registry` (reg.go:26-34) with its help texts. -/
structure HelpRegistry where
  reg : Registry Info := {}
  helpFor : List (Nat × DefHelp) := []

/-- Calls that change a registry: `Register` (reg.go:66-83) and `AddHelp` (reg.go:86-93). -/
inductive Op
  | register (d : Def Info)
  | addHelp (ptr : Nat) (h : DefHelp)

/-- One call. -/
def HelpRegistry.step (r : HelpRegistry) : Op → HelpRegistry
  | .register d => { r with reg := (r.reg.register d).1 }
  | .addHelp p h => { r with helpFor := GoMap.put r.helpFor p h }

/-- The registry after a history of calls. -/
def HelpRegistry.after (ops : List Op) : HelpRegistry := ops.foldl HelpRegistry.step {}

/-- `HelpFor` (reg.go:116-123); `none` is nil. -/
def HelpRegistry.help (r : HelpRegistry) (d : Def Info) : Option DefHelp := GoMap.get r.helpFor d.payload.ptr

/-- `AllDefinitions` (reg.go:126-138): each of the three maps in the order chosen by the schedule. -/
def HelpRegistry.allDefinitions (σ : Sched) (r : HelpRegistry) : List (Def Info) :=
  (σ.order 0 r.reg.forPkg).map (·.2) ++ (σ.order 1 r.reg.forType).map (·.2) ++ (σ.order 2 r.reg.forField).map (·.2)

/-! ## Documentation -/

/-- `Argument` (help/types.go:34-42): `leaf` has no `ItemType`, `node` has one. -/
inductive ArgDoc
  | leaf (type : Str) (optional : Bool)
  | node (type : Str) (optional : Bool) (item : ArgDoc)
deriving DecidableEq, Repr

def ArgDoc.optional : ArgDoc → Bool
  | leaf _ o => o
  | node _ o _ => o

/-- `typeString` (help/types.go:44-52); `none` is the panic of a slice without an item type. -/
def ArgDoc.typeString : ArgDoc → Option Str
  | leaf t _ => if t = "slice".toList then none else some t
  | node t _ i => if t = "slice".toList then (typeString i).map (fun s => "[]".toList ++ s) else some t

/-- The switch of `ForArgument` (help/types.go:117-132).  There is no case for numbers and none for maps: the type stays empty. -/
def kindName : ArgKind → Str
  | .int => "int".toList
  | .string => "string".toList
  | .bool => "bool".toList
  | .any => "any".toList
  | .slice => "slice".toList
  | .raw => "raw".toList
  | .invalid => "invalid".toList
  | .number => []
  | .map => []

/-- `ForArgument` (help/types.go:107-135). -/
def forArgument : Argument → ArgDoc
  | .leaf k o _ => .leaf (kindName k) o
  | .node k o _ i => .node (kindName k) o (forArgument i)

/-- `FieldHelp` (help/types.go:63-71). -/
structure FieldDoc where
  name : Str
  arg : ArgDoc
  text : Detailed
deriving DecidableEq, Repr

/-- `MarkerDoc` (help/types.go:73-95). -/
structure MarkerDoc where
  name : Str
  target : Str
  text : Detailed
  category : Str
  deprecated : Option Str
  fields : List FieldDoc
deriving DecidableEq, Repr

/-- `TargetType.String` (parse.go:695-706). -/
def targetName : Target → Str
  | .package => "package".toList
  | .type => "type".toList
  | .field => "field".toList
  | .other _ => "(unknown)".toList

/-- `FieldsHelp` (markers/help.go:50-56).  The keys of `FieldNames` are different, so every iteration adds an entry; the order of the entries is of no importance,
as the only use is another iteration. -/
def fieldsHelp (h : DefHelp) (l : Loaded) : List (Str × Detailed) :=
  l.fieldNames.map fun e => (e.1, (GoMap.get h.fieldHelp e.2).getD {})

/-- The zero value of `Argument`, which a missing key of `Fields` gives (help/types.go:159). -/
def zeroArgument : Argument := .leaf .invalid false false

/-- The body of the loop over the arguments (help/types.go:158-166). -/
def fieldDoc (l : Loaded) (e : Str × Detailed) : FieldDoc :=
  { name := e.1, text := e.2, arg := forArgument ((GoMap.get l.fields e.1).getD zeroArgument) }

/-- `ForDefinition` (help/types.go:138-172). -/
def forDefinition (σ : Sched) (d : Def Info) (maybeHelp : Option DefHelp) : MarkerDoc :=
  let help := maybeHelp.getD {}
  let docs := (σ.order (5 + 3 * d.payload.ptr) (fieldsHelp help d.payload.loaded)).map (fieldDoc d.payload.loaded)
  { name := d.name, category := help.category, deprecated := help.deprecated, target := targetName d.target, text := help.text,
    fields := sliceSort σ (6 + 3 * d.payload.ptr) (fun a b => textLt a.name b.name) docs }

/-- The two values of `SortGroup` (sort.go:35-41). -/
inductive Sorter
  | byCategory
  | byOption
deriving DecidableEq, Repr

/-- The parts of an option that its place depends on (sort.go:66-90): generator and output rule. -/
def optionKey (name : Str) : Str × Str :=
  match Text.split ':' name with
  | [gen] => (gen, [])
  | [_, rule] => ([], rule)
  | [_, gen, rule] => (gen, rule)
  | _ => ([], [])

/-- `Less` (sort.go:51-53, 58-97). -/
def Sorter.less : Sorter → Def Info → Def Info → Bool
  | .byCategory, i, j => textLt i.name j.name
  | .byOption, i, j =>
    let (iGen, iRule) := optionKey i.name
    let (jGen, jRule) := optionKey j.name
    if iGen ≠ jGen then textLt jGen iGen else textLt iRule jRule

/-- `Group` (sort.go:45-50, 98-114). -/
def Sorter.group : Sorter → Def Info → Option DefHelp → Str
  | .byCategory, _, none => []
  | .byCategory, _, some h => h.category
  | .byOption, d, _ =>
    match Text.split ':' d.name with
    | [p] => if p = "paths".toList then "generic".toList else "generators".toList
    | [_, _] => "output rules (optionally as output:<generator>:...)".toList
    | _ => []

/-- `CategoryDoc` (help/types.go:174-178). -/
structure CategoryDoc where
  category : Str
  markers : List MarkerDoc
deriving DecidableEq, Repr

/-- `ByCategory` (help/types.go:181-220). -/
def byCategory (σ : Sched) (r : HelpRegistry) (s : Sorter) : List CategoryDoc :=
  let grouped := GoMap.groupOn (fun d => s.group d (r.help d)) (r.allDefinitions σ)
  let allGroups := sortBy textLe ((σ.order 3 grouped).map (·.1))
  allGroups.zipIdx.map fun e =>
    let markers := sliceSort σ (4 + 3 * e.2) s.less ((GoMap.get grouped e.1).getD [])
    { category := e.1, markers := markers.map fun d => forDefinition σ d (r.help d) }

end Verif.Help

import Verif.Common.Text
import Verif.Common.GoMap
/-!
# Model of marker names and of the registry: `/repo/pkg/markers/reg.go`, `splitMarker` of `parse.go`

Text is a list of characters.  Every operation of the registry holds its mutex (reg.go:69-70, 100-101), so a concurrent execution is
a sequence of operations.
-/
namespace Verif.Markers

abbrev Str := List Char

/-- `splitMarker` (parse.go:966-981) after the leading `+` has been dropped: name, anonymous name, fields. -/
def splitMarkerBody (raw : Str) : Str × Str × Str :=
  match Text.cut '=' raw with
  | none => (raw, raw, [])
  | some (anonymousName, restFields) =>
    let nameParts := Text.split ':' anonymousName
    let name := if nameParts.length > 1 then Text.join ':' nameParts.dropLast else anonymousName
    (name, anonymousName, restFields)

/-- `splitMarker` (parse.go:966-981).  `raw[1:]` drops the first character; the empty text would panic, but a marker starts with `+`. -/
def splitMarker (raw : Str) : Str × Str × Str := splitMarkerBody raw.tail

/-- `TargetType` (parse.go:684-693); a Go integer type, so there are values other than the three named ones. -/
inductive Target
  | package | type | field
  | other (n : Nat)
deriving DecidableEq, Repr

/-- A definition as far as the registry looks at it (parse.go:709-729): its name and target.  `payload` stands for the rest. -/
structure Def (π : Type) where
  name : Str
  target : Target
  payload : π
deriving DecidableEq, Repr

/-- `Registry` (reg.go:26-34), without the help texts. -/
structure Registry (π : Type) where
  forPkg : List (Str × Def π) := []
  forType : List (Str × Def π) := []
  forField : List (Str × Def π) := []

variable {π : Type}

/-- `Register` (reg.go:66-83): the registry afterwards, and whether it succeeded. -/
def Registry.register (r : Registry π) (d : Def π) : Registry π × Bool :=
  match d.target with
  | .package => ({ r with forPkg := GoMap.put r.forPkg d.name d }, true)
  | .type => ({ r with forType := GoMap.put r.forType d.name d }, true)
  | .field => ({ r with forField := GoMap.put r.forField d.name d }, true)
  | .other _ => (r, false)

/-- `tryAnonLookup` (reg.go:143-154). -/
def tryAnonLookup (raw : Str) (defs : List (Str × Def π)) : Option (Def π) :=
  let (name, anonName, _) := splitMarker raw
  match GoMap.get defs anonName with
  | some d => some d
  | none => GoMap.get defs name

/-- `Lookup` (reg.go:97-113). -/
def Registry.lookup (r : Registry π) (raw : Str) (t : Target) : Option (Def π) :=
  match t with
  | .package => tryAnonLookup raw r.forPkg
  | .type => tryAnonLookup raw r.forType
  | .field => tryAnonLookup raw r.forField
  | .other _ => none

/-- The registry after a history of registrations. -/
def Registry.after (h : List (Def π)) : Registry π := h.foldl (fun r d => (r.register d).1) {}

/-- `AllDefinitions` (reg.go:125-138); the order of the result is that of map iteration. -/
def Registry.allDefinitions (r : Registry π) : List (Def π) :=
  r.forPkg.map (·.2) ++ r.forType.map (·.2) ++ r.forField.map (·.2)

end Verif.Markers

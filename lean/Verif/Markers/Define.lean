import Verif.Common.Text
import Verif.Common.GoMap
import Verif.Markers.Registry
/-!
# Model of the definition of a marker from a Go type: `/repo/pkg/markers/parse.go` (55-68, 78-158, 621-680, 749-813, 930-966)

A `reflect.Type` is modelled by a term.  A named type counts as its underlying type, except `RawArguments`.
-/
namespace Verif.Markers

/-- The Go types that `ArgumentFromType` (parse.go:625-680) tells apart.  `other` stands for every type of another kind (structs, channels, `uint8`, other interfaces …). -/
inductive GoType
  | rawArguments
  | emptyInterface
  | string
  | int
  | int32
  | float64
  | bool
  | ptr (elem : GoType)
  | slice (elem : GoType)
  | map (key elem : GoType)
  | other
deriving DecidableEq, Repr

/-- `ArgumentType` (parse.go:78-103). -/
inductive ArgKind
  | invalid | int | number | string | bool | any | slice | map | raw
deriving DecidableEq, Repr

/-- `Argument` (parse.go:106-120): `leaf` has no `ItemType`, `node` has one. -/
inductive Argument
  | leaf (kind : ArgKind) (optional pointer : Bool)
  | node (kind : ArgKind) (optional pointer : Bool) (item : Argument)
deriving DecidableEq, Repr

namespace Argument

def kind : Argument → ArgKind
  | leaf k _ _ => k
  | node k _ _ _ => k

def optional : Argument → Bool
  | leaf _ o _ => o
  | node _ o _ _ => o

def pointer : Argument → Bool
  | leaf _ _ p => p
  | node _ _ p _ => p

def item : Argument → Option Argument
  | leaf _ _ _ => none
  | node _ _ _ i => some i

/-- `argType.Optional = o` (parse.go:806). -/
def setOptional (o : Bool) : Argument → Argument
  | leaf k _ p => leaf k o p
  | node k _ p i => node k o p i

/-- `typeString` (parse.go:123-152); `none` is the panic of a slice or map without an item type. -/
def typeString : Argument → Option Str
  | leaf k _ p =>
    let star : Str := if p then ['*'] else []
    match k with
    | .invalid => some (star ++ "<invalid>".toList)
    | .int => some (star ++ "int".toList)
    | .number => some (star ++ "float64".toList)
    | .string => some (star ++ "string".toList)
    | .bool => some (star ++ "bool".toList)
    | .any => some (star ++ "<any>".toList)
    | .slice => none
    | .map => none
    | .raw => some (star ++ "<raw>".toList)
  | node k _ p i =>
    let star : Str := if p then ['*'] else []
    match k with
    | .invalid => some (star ++ "<invalid>".toList)
    | .int => some (star ++ "int".toList)
    | .number => some (star ++ "float64".toList)
    | .string => some (star ++ "string".toList)
    | .bool => some (star ++ "bool".toList)
    | .any => some (star ++ "<any>".toList)
    | .slice => (typeString i).map (fun s => star ++ "[]".toList ++ s)
    | .map => (typeString i).map (fun s => star ++ "map[string]".toList ++ s)
    | .raw => some (star ++ "<raw>".toList)

end Argument

/-- `ArgumentFromType` (parse.go:625-680).  `stripped` says that the `reflect.Ptr` of lines 639-643 has been taken off, so that the comparisons of lines 626-636 are
over; `none` is an error.  Under a pointer `RawArguments` is a slice of `uint8`, whose item type is not supported. -/
def argumentFrom (stripped : Bool) : GoType → Option Argument
  | .rawArguments => if stripped then none else some (.leaf .raw false false)
  | .emptyInterface => if stripped then none else some (.leaf .any false false)
  | .ptr t => if stripped then none else argumentFrom true t
  | .string => some (.leaf .string stripped stripped)
  | .int => some (.leaf .int stripped stripped)
  | .int32 => some (.leaf .int stripped stripped)
  | .float64 => some (.leaf .number stripped stripped)
  | .bool => some (.leaf .bool stripped stripped)
  | .slice t =>
    match argumentFrom false t with
    | none => none
    | some a => some (.node .slice stripped stripped a)
  | .map k t =>
    if k ≠ .string then none
    else
      match argumentFrom false t with
      | none => none
      | some a => some (.node .map stripped stripped a)
  | .other => none

def argumentFromType (t : GoType) : Option Argument := argumentFrom false t

/-- A field of a struct type, as reflection shows it: `exported` is `PkgPath == ""`, `tag` is the value of the struct tag with key `marker`. -/
structure StructField where
  name : Str
  exported : Bool
  tag : Option Str
  type : GoType
deriving DecidableEq, Repr

/-- `lowerCamelCase` (parse.go:57-68); `lower` is `unicode.ToLower`. -/
def lowerCamelCase (lower : Char → Char) : Str → Str
  | [] => []
  | c :: s => lower c :: s

/-- `argumentInfo` (parse.go:752-769): the name of the argument, and whether the tag makes it optional. -/
def argumentInfo (lower : Char → Char) (name : Str) (tag : Option Str) : Str × Bool :=
  let parts := Text.split ',' (tag.getD [])
  let first := parts.headD []
  let argName := if tag.isSome && first ≠ [] then first else lowerCamelCase lower name
  (argName, parts.tail.any (fun o => o = "optional".toList))

/-- The two maps of `Definition` (parse.go:715-724). -/
structure Loaded where
  fields : List (Str × Argument) := []
  fieldNames : List (Str × Str) := []
deriving DecidableEq, Repr

/-- One iteration of the loop over the fields of a struct (parse.go:788-810). -/
def loadField (lower : Char → Char) (d : Loaded) (f : StructField) : Option Loaded :=
  if !f.exported then some d
  else
    let (argName, optionalOpt) := argumentInfo lower f.name f.tag
    match argumentFromType f.type with
    | none => none
    | some argType =>
      if argType.kind = .raw then none
      else
        let argType := argType.setOptional (optionalOpt || argType.optional)
        some { fields := GoMap.put d.fields argName argType, fieldNames := GoMap.put d.fieldNames argName f.name }

/-- The loop (parse.go:788-810). -/
def loadLoop (lower : Char → Char) : List StructField → Loaded → Option Loaded
  | [], d => some d
  | f :: fs, d =>
    match loadField lower d f with
    | none => none
    | some d => loadLoop lower fs d

/-- The type that a marker is deserialised into. -/
inductive Output
  | struct (fields : List StructField)
  | plain (t : GoType)
deriving DecidableEq, Repr

/-- `loadFields` (parse.go:772-813). -/
def loadFields (lower : Char → Char) : Output → Option Loaded
  | .plain t =>
    match argumentFromType t with
    | none => none
    | some a => some { fields := [([], a)], fieldNames := [([], [])] }
  | .struct fs => loadLoop lower fs {}

/-- `MakeDefinition` (parse.go:935-948), with what `loadFields` found as payload. -/
def makeDefinition (lower : Char → Char) (name : Str) (target : Target) (output : Output) : Option (Def Loaded) :=
  match loadFields lower output with
  | none => none
  | some l => some { name := name, target := target, payload := l }

end Verif.Markers

import Verif.Common.Text
import Verif.Crd.Marks
import Verif.Crd.Refs
import Verif.Loader.Paths

/-!
# From Go declarations to schemas (schema.go:59-548)

Types are what the Go parser yields, with what the type checker says about the names in them.  The type checker is not modelled, it is a parameter.  Errors that are recorded with `AddError` are
counted; a Go panic is an outcome of its own.
-/
namespace Verif.Crd

/-- The kinds of basic types of go/types (library constants). -/
inductive Kind
  | bool | string | int | int8 | int16 | int32 | int64 | uint | uint8 | uint16 | uint32 | uint64 | uintptr | float32 | float64 | complex64 | complex128 | unsafePointer
deriving DecidableEq, Repr

/-- `*types.Basic` (library type): `byte` and `rune` have the kinds of `uint8` and `int32`, but are objects of their own. -/
structure Basic where
  kind : Kind
  name : String
deriving DecidableEq, Repr

/-- `types.Universe.Lookup("byte").Type()` (schema.go:45). -/
def byteType : Basic := ⟨.uint8, "byte"⟩

/-- `Info() & IsInteger != 0` (library function). -/
def Kind.isInteger : Kind → Bool
  | .int | .int8 | .int16 | .int32 | .int64 | .uint | .uint8 | .uint16 | .uint32 | .uint64 | .uintptr => true
  | _ => false

/-- `Info() & IsFloat != 0` (library function). -/
def Kind.isFloat : Kind → Bool
  | .float32 | .float64 => true
  | _ => false

/-- `types.Type` (library type), as far as it is looked at.  Type parameters are left out. -/
inductive GoType
  /-- `types.Typ[types.Invalid]` -/
  | invalid
  | basic (b : Basic)
  /-- a defined type: package (none for the predeclared `error`), name, underlying type -/
  | named (pkg : Option String) (name : String) (under : GoType)
  /-- an alias (go.mod asks for Go 1.24, where the type checker keeps aliases) -/
  | alias (pkg : Option String) (name : String) (rhs : GoType)
  /-- all other types: slices, maps, pointers, structs, interfaces, channels, functions -/
  | other
deriving DecidableEq, Repr

/-- `ast.Expr`, as far as it stands for types. -/
inductive TExpr
  | ident (name : String)
  | selector (pkg name : String)
  /-- with a length, or a slice -/
  | array (len : Bool) (elt : TExpr)
  | map (key value : TExpr)
  | star (x : TExpr)
  | struct
  /-- interfaces, functions, channels, parentheses, instances of generic types -/
  | other
deriving DecidableEq, Repr

/-- The markers of a declaration, by name; `none` is a value that is no schema marker. -/
abbrev MarkerSet := List (String × List (Option Mark))

/-- `MarkerValues.Get(name) != nil` (collect.go:43-49). -/
def MarkerSet.has (set : MarkerSet) (name : String) : Bool :=
  match GoMap.get set name with
  | none => false
  | some vs => vs ≠ []

/-- `markers.FieldInfo` (zip.go:139-154); `tag` is the value of `Tag.Lookup("json")` (library function). -/
structure Field where
  name : String
  doc : Bytes := []
  tag : Option (List Char)
  markers : MarkerSet := []
  type : TExpr

/-- `markers.TypeInfo` (zip.go:156-177), with what the type checker says about the methods of the type (schema.go:115-137). -/
structure Decl where
  name : String
  doc : Bytes := []
  markers : MarkerSet := []
  fields : List Field := []
  type : TExpr
  jsonMarshaler : Bool := false
  textMarshaler : Bool := false

/-- The package a schema is generated in, and the options. -/
structure PkgCtx where
  /-- `pkg.Types` -/
  self : String
  /-- `TypesInfo.TypeOf` of an identifier -/
  ident : String → GoType
  /-- `TypesInfo.TypeOf` of a qualified identifier -/
  sel : String → String → GoType
  /-- `ast.IsExported` (library function) -/
  exported : String → Bool
  /-- the package markers -/
  markers : MarkerSet := []
  allowDangerousTypes : Bool := false
  ignoreUnexportedFields : Bool := false

/-- The ways in which the generator crashes. -/
inductive Panic
  /-- `ctx.info.RawSpec.Type` with a nil `RawSpec` (schema.go:406) -/
  | nilSpec
  /-- a type without a name where one is expected (schema.go:297, 318) -/
  | noObj
  /-- the package of a predeclared type (schema.go:299, 320) -/
  | nilPkg
deriving DecidableEq, Repr

/-- What generation leaves behind: the types whose schemas are requested (package path, empty for the same package, and name), the number of errors, and the number of calls of `applyMarkers` (which
picks the order of map iteration of the next one). -/
structure GState where
  reqs : List (String × String) := []
  errs : Nat := 0
  tick : Nat := 0
deriving DecidableEq

abbrev GRes := Except Panic (Schema × GState)

def GState.err (st : GState) : GState := { st with errs := st.errs + 1 }
def GState.request (st : GState) (pkg name : String) : GState := { st with reqs := st.reqs ++ [(pkg, name)] }

/-- `builtinToType` (schema.go:496-526); `none` is an error. -/
def builtinToType (b : Basic) (dangerous : Bool) : Option (String × String) :=
  let format := match b.kind with
    | .int32 | .uint32 => "int32"
    | .int64 | .uint64 => "int64"
    | _ => ""
  if b.kind = .bool then some ("boolean", format)
  else if b.kind = .string then some ("string", format)
  else if b.kind.isInteger then some ("integer", format)
  else if b.kind.isFloat then
    if dangerous then some ("number", format) else none
  else none

/-- `TypeRefLink` on strings (schema.go:255-257). -/
def refLink (pkg name : String) : String := String.ofList (typeRefLink pkg.toList name.toList)

/-- A reference to a type given by its object (schema.go:297-308): the package is empty for the package itself. -/
def objToSchema (P : PkgCtx) (pkg : Option String) (name : String) (st : GState) : GRes :=
  match pkg with
  | none => .error .nilPkg
  | some p =>
    let path := if p = P.self then "" else String.ofList (Loader.nonVendorPath p.toList)
    .ok (.leaf { ref := some (refLink path name) }, st.request path name)

/-- `localNamedToSchema` (schema.go:261-309). -/
def localNamedToSchema (P : PkgCtx) (id : String) (st : GState) : GRes :=
  let basic (b : Basic) : GRes :=
    let tf := builtinToType b P.allowDangerousTypes
    let st := if tf.isNone then st.err else st
    if b.name ≠ id then
      .ok (.leaf { type := (tf.getD ("", "")).1, format := (tf.getD ("", "")).2, ref := some (refLink "" id) }, st.request "" id)
    else .ok (.leaf { type := (tf.getD ("", "")).1, format := (tf.getD ("", "")).2 }, st)
  match P.ident id with
  | .invalid => .ok (.empty, st.err)
  | .basic b => basic b
  | .named pkg name _ => objToSchema P pkg name st
  | .other => .error .noObj
  | .alias _ _ rhs =>
    match rhs with
    | .basic b => basic b
    | .named pkg name _ => objToSchema P pkg name st
    | .alias pkg name _ => objToSchema P pkg name st
    -- `types.Typ[types.Invalid]` is a basic type, unsupported (schema.go:512-513)
    | .invalid => .ok (.leaf { ref := some (refLink "" id) }, st.err.request "" id)
    | .other => .error .noObj

/-- `namedToSchema` (schema.go:312-327).  The link is always written with the path of the package. -/
def namedToSchema (P : PkgCtx) (x sel : String) (st : GState) : GRes :=
  let obj (pkg : Option String) (name : String) : GRes :=
    match pkg with
    | none => .error .nilPkg
    | some p =>
      let path := String.ofList (Loader.nonVendorPath p.toList)
      .ok (.leaf { ref := some (refLink path name) }, st.request path name)
  match P.sel x sel with
  | .invalid => .ok (.empty, st.err)
  | .named pkg name _ => obj pkg name
  | .alias pkg name _ => obj pkg name
  | .basic _ => .error .noObj
  | .other => .error .noObj

/-- `TypesInfo.TypeOf` of a type expression. -/
def typeOf (P : PkgCtx) : TExpr → GoType
  | .ident n => P.ident n
  | .selector x s => P.sel x s
  | _ => .other

/-- The loop that checks the key of a map (schema.go:352-371).  Aliases are not looked through. -/
def keyOk : GoType → Bool
  | .basic b => b.kind = .string
  | .named _ _ u => keyOk u
  | _ => false

/-- Map values other than these are refused (schema.go:374-388). -/
def mapValueOk : TExpr → Bool
  | .struct => false
  | .other => false
  | _ => true

/-- `typeToSchema` with an empty `TypeInfo`, as it is called for what is inside a declaration (schema.go:215-241, 331-396): no documentation, no markers, no `RawSpec`. -/
def innerType (P : PkgCtx) : TExpr → GState → GRes
  | .ident n, st => localNamedToSchema P n st
  | .selector x s, st => namedToSchema P x s st
  | .array len e, st =>
    -- schema.go:331-348
    if typeOf P e = .basic byteType ∧ len = false then .ok (.leaf { type := "string", format := "byte" }, st)
    else
      match innerType P e st with
      | .error p => .error p
      | .ok (s, st) => .ok (.mk { type := "array" } (some (.mk (some s) [])) [] [] [] none [] none [] [] none [], st)
  | .map k v, st =>
    -- schema.go:352-396
    if keyOk (typeOf P k) = false then .ok (.empty, st.err)
    else if mapValueOk v = false then .ok (.empty, st.err)
    else
      match innerType P v st with
      | .error p => .error p
      | .ok (s, st) => .ok (.mk { type := "object" } none [] [] [] none [] (some (.mk true (some s))) [] [] none [], st)
  | .star e, st => innerType P e st
  | .struct, _ => .error .nilSpec
  | .other, st => .ok (.empty, st.err)

/-- `applyMarkers` within the generation: errors are counted. -/
def GState.apply (marshal : AnyVal → Option Raw) (σ : Nat → Sched) (set : MarkerSet) (s : Schema) (st : GState) : Schema × GState :=
  match applyMarkers marshal (σ st.tick) set s with
  | (s', n) => (s', { st with errs := st.errs + n, tick := st.tick + 1 })

def Schema.describe (s : Schema) (doc : Bytes) : Schema := s.withBase { s.base with description := doc }

/-- The JSON options of a field (schema.go:424-440): name, inline, omitempty; `none` for a field that is left out. -/
structure JsonOpts where
  name : String
  inline : Bool
  omitEmpty : Bool
deriving DecidableEq

/-- schema.go:424-440 -/
def jsonOpts (tag : List Char) : Option JsonOpts :=
  match Text.split ',' tag with
  | [] => none
  | [n] => if n = ['-'] then none else some ⟨String.ofList n, n = [], false⟩
  | n :: opts => some ⟨String.ofList n, opts.contains "inline".toList || n = [], opts.contains "omitempty".toList⟩

/-- Whether a field is added to the required ones (schema.go:442-471). -/
def isRequired (P : PkgCtx) (f : Field) (o : JsonOpts) : Bool :=
  if f.markers.has "kubebuilder:validation:Optional" then false
  else if f.markers.has "kubebuilder:validation:Required" then true
  else if f.markers.has "optional" then false
  else if f.markers.has "required" then true
  else if P.markers.has "kubebuilder:validation:Optional" then false
  else !o.inline && !o.omitEmpty

/-- The schema of one field (schema.go:473-481). -/
def fieldSchema (marshal : AnyVal → Option Raw) (σ : Nat → Sched) (P : PkgCtx) (f : Field) (st : GState) : GRes :=
  let raw := if f.markers.has "kubebuilder:validation:Schemaless" then .ok (.empty, st) else innerType P f.type st
  match raw with
  | .error p => .error p
  | .ok (s, st) => .ok (st.apply marshal σ f.markers (s.describe f.doc))

/-- The loop over the fields (schema.go:411-488): required names, properties and embedded schemas so far. -/
def structFields (marshal : AnyVal → Option Raw) (σ : Nat → Sched) (P : PkgCtx) :
    List Field → List String → List (String × Schema) → List Schema → GState → Except Panic ((List String × List (String × Schema) × List Schema) × GState)
  | [], req, props, all, st => .ok ((req, props, all), st)
  | f :: fs, req, props, all, st =>
    if f.name ≠ "" ∧ P.ignoreUnexportedFields ∧ P.exported f.name = false then structFields marshal σ P fs req props all st
    else
      match f.tag with
      | none => structFields marshal σ P fs req props all st.err
      | some tag =>
        match jsonOpts tag with
        | none => structFields marshal σ P fs req props all st
        | some o =>
          let req := if isRequired P f o then req ++ [o.name] else req
          match fieldSchema marshal σ P f st with
          | .error p => .error p
          | .ok (s, st) =>
            if o.inline then structFields marshal σ P fs req props (all ++ [s]) st
            else structFields marshal σ P fs req (GoMap.put props o.name s) all st

/-- `structToSchema` for the struct of a declaration (schema.go:400-491). -/
def structToSchema (marshal : AnyVal → Option Raw) (σ : Nat → Sched) (P : PkgCtx) (d : Decl) (st : GState) : GRes :=
  match structFields marshal σ P d.fields [] [] [] st with
  | .error p => .error p
  | .ok ((req, props, all), st) => .ok (.mk { type := "object", required := req } none all [] [] none props none [] [] none [], st)

/-- The end of `typeToSchema` for the type of a declaration (schema.go:235-240): documentation and markers. -/
def GRes.finish (marshal : AnyVal → Option Raw) (σ : Nat → Sched) (d : Decl) : GRes → GRes
  | .error p => .error p
  | .ok (s, st) => .ok (st.apply marshal σ d.markers (s.describe d.doc))

/-- `typeToSchema` for the type of a declaration (schema.go:215-241); `top` says that no pointer has been passed. -/
def declType (marshal : AnyVal → Option Raw) (σ : Nat → Sched) (P : PkgCtx) (d : Decl) : Bool → TExpr → GState → GRes
  -- the documentation and the markers are not used (schema.go:230-233)
  | _, .other, st => .ok (.empty, st.err)
  | _, .star x, st => GRes.finish marshal σ d (declType marshal σ P d false x st)
  | true, .struct, st => GRes.finish marshal σ d (structToSchema marshal σ P d st)
  | false, .struct, st => GRes.finish marshal σ d (.ok (.leaf { type := "object" }, st.err))
  | _, .ident n, st => GRes.finish marshal σ d (innerType P (.ident n) st)
  | _, .selector x n, st => GRes.finish marshal σ d (innerType P (.selector x n) st)
  | _, .array len e, st => GRes.finish marshal σ d (innerType P (.array len e) st)
  | _, .map k v, st => GRes.finish marshal σ d (innerType P (.map k v) st)

/-- `infoToSchema` (schema.go:114-139). -/
def infoToSchema (marshal : AnyVal → Option Raw) (σ : Nat → Sched) (P : PkgCtx) (d : Decl) (st : GState) : GRes :=
  if d.jsonMarshaler then
    match st.apply marshal σ d.markers .empty with
    | (s, st) => if s.base.type ≠ "" then .ok (s, st) else declType marshal σ P d true d.type st
  else if d.textMarshaler then
    match st.apply marshal σ d.markers (.leaf { type := "string" }) with
    | (s, st) => .ok (s, if s.base.type ≠ "string" then st.err else st)
  else declType marshal σ P d true d.type st

end Verif.Crd

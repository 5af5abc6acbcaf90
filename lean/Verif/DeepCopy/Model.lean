/-!
# deepcopy/traverse.go: the code that is generated

Lines of code are represented by statements (`Stmt`), one for each template of lines in traverse.go.  Simplified: text is not modelled, nor are comments; type parameters are left out; errors are counted.
-/
namespace Verif.DeepCopy

/-- `types.Type` (library), as far as the code looks at it.  Named types and aliases are given by names; what they stand for is in `Prog`. -/
inductive Ty
  /-- a basic type; `false` for `Invalid` and `UnsafePointer` -/
  | basic (ok : Bool)
  | named (n : String)
  | alias (n : String)
  | struct (fs : List (String × Ty))
  | ptr (t : Ty)
  | slice (t : Ty)
  | map (k v : Ty)
  /-- interfaces, arrays, channels, functions -/
  | other (n : String)

/-- The methods `DeepCopy` and `DeepCopyInto` of a named type, as far as they are in the source (generated files are left out by a build tag) and have the right signature
(`hasDeepCopyMethod`, `hasDeepCopyIntoMethod`, traverse.go:661-733): whether the receiver of `DeepCopy` is a pointer. -/
structure Manual where
  copy : Option Bool := none
  into : Bool := false

/-- The types of the program. -/
structure Prog where
  /-- `Named.Underlying` -/
  under : String → Ty
  /-- `types.Unalias` of an alias -/
  target : String → Ty
  manual : String → Manual
  /-- whether methods are generated for the type in this run (`enabledOnType`, `shouldBeCopied`: gen.go:227-235) -/
  generated : String → Bool
  /-- whether the type has the methods when the code is compiled: they are generated, or in the source, or the type is in a package with generated code -/
  methods : String → Bool
  /-- bound on the depth of the recursion of `fineToShallowCopy` (which ends, since no value contains itself) -/
  depth : Nat

variable (P : Prog)

/-- `types.Unalias` (library). -/
def Prog.unalias : Ty → Ty
  | .alias a => P.target a
  | t => t

/-- `Underlying` (library), and `eventualUnderlyingType` (traverse.go:744-753), which iterates it: the underlying type is its own underlying type. -/
def Prog.underlying (t : Ty) : Ty :=
  match P.unalias t with
  | .named n => P.under n
  | t => t

/-- The named type that `LookupFieldOrMethod` (library) looks at: methods of `T` are found for `T` and `*T`. -/
def Prog.owner (t : Ty) : Option String :=
  match P.unalias t with
  | .named n => some n
  | .ptr t =>
    match P.unalias t with
    | .named n => some n
    | _ => none
  | _ => none

/-- `hasDeepCopyMethod` (traverse.go:661-700). -/
def Prog.hasCopy (t : Ty) : Option Bool := (P.owner t).bind fun n => (P.manual n).copy

/-- `hasDeepCopyIntoMethod` (traverse.go:703-733). -/
def Prog.hasInto (t : Ty) : Bool := ((P.owner t).map fun n => (P.manual n).into).getD false

/-- `hasAnyDeepCopyMethod` (traverse.go:737-740). -/
def Prog.hasAny (t : Ty) : Bool := (P.hasCopy t).isSome || P.hasInto t

/-- `fineToShallowCopy` (traverse.go:756-782); no case for aliases. -/
def Prog.fineTo : Nat → Ty → Bool
  | _, .basic ok => ok
  | 0, _ => false
  | n + 1, .named m => Prog.fineTo n (P.under m)
  | n + 1, .struct fs => fs.all fun f => Prog.fineTo n f.2
  | _ + 1, _ => false

/-- `fineToShallowCopy` (traverse.go:756-782). -/
def Prog.fine (t : Ty) : Bool := P.fineTo P.depth t

/-- `passesByReference` (traverse.go:786-797). -/
def Ty.byRef : Ty → Bool
  | .slice _ => true
  | .map _ _ => true
  | .ptr _ => true
  | _ => false

/-- `.(*types.Pointer)` -/
def Ty.isPtr : Ty → Bool
  | .ptr _ => true
  | _ => false

/-- `usePtrReceiver` (traverse.go:569-582). -/
def Prog.usePtrReceiver : Ty → Bool
  | .ptr _ => false
  | .map _ _ => false
  | .slice _ => false
  | .named n => !(P.under n).byRef
  | _ => true

/-- `resultWillBePointer` (traverse.go:584-607), without a manual `DeepCopy`; no case for aliases.  Simplified: it is called for types with methods and pointers to them, so it does not meet
a named type whose underlying type is a pointer. -/
def Prog.resultPtr : Ty → Bool
  | .ptr t => Prog.resultPtr t
  | .map _ _ => false
  | .slice _ => false
  | .named n =>
    match P.under n with
    | .map _ _ => false
    | .slice _ => false
    | _ => true
  | _ => true

/-- Whether `DeepCopy` yields a pointer (traverse.go:352-356, 470, 527-530). -/
def Prog.yieldsPtr (t : Ty) : Bool := (P.hasCopy t).getD (P.resultPtr t)

/-- The number of errors of `Syntax` (traverse.go:169-207). -/
def Ty.unnamable : Ty → Nat
  | .basic _ => 0
  | .named _ => 0
  | .alias _ => 0
  | .ptr t => t.unnamable
  | .slice t => t.unnamable
  | .map k v => k.unnamable + v.unnamable
  | _ => 1

/-- Lines of code; `in` and `out` are pointers. -/
inductive Stmt
  /-- `*out = *in` -/
  | assign
  /-- `*out = in.DeepCopy()`, where `in` is of type `*t` -/
  | assignCall (t : Ty)
  /-- `clone := in.DeepCopy()`, `*out = *clone` -/
  | cloneCall (t : Ty)
  /-- `*out = make(t, len(*in))` for a map -/
  | makeMap (t : Ty)
  /-- `*out = make(t, len(*in))` for a slice -/
  | makeSlice (t : Ty)
  /-- `copy(*out, *in)` -/
  | copyElems
  /-- `for i := range *in { (*in)[i].DeepCopyInto(&(*out)[i]) }`, for elements of type `t` -/
  | elemsInto (t : Ty)
  /-- `for i := range *in { if (*in)[i] != nil { in, out := &(*in)[i], &(*out)[i]; b } }` -/
  | elemsBlock (b : List Stmt)
  /-- `for key, val := range *in { (*out)[key] = val }` -/
  | entriesKeep
  /-- `for key, val := range *in { (*out)[key] = val.DeepCopy() }`, for values of type `t` -/
  | entriesCall (t : Ty)
  /-- `for key, val := range *in { { x := val.DeepCopy(); (*out)[key] = &x } }` -/
  | entriesCallAddr (t : Ty)
  /-- `for key, val := range *in { (*out)[key] = *val.DeepCopy() }` -/
  | entriesCallDeref (t : Ty)
  /-- `for key, val := range *in { var outVal u; if val == nil { (*out)[key] = nil } else { inVal := (*in)[key]; in, out := &inVal, &outVal; b }; (*out)[key] = outVal }` -/
  | entriesBlock (u : Ty) (b : List Stmt)
  /-- `if in.f != nil { in, out := &in.f, &out.f; b }` -/
  | fieldBlock (f : String) (b : List Stmt)
  /-- `out.f = in.f.DeepCopy()`, for a field of type `t` -/
  | fieldCall (f : String) (t : Ty)
  /-- `in.f.DeepCopyInto(&out.f)` -/
  | fieldInto (f : String) (t : Ty)
  /-- `out.f = in.f` -/
  | fieldKeep (f : String)
  /-- `*out = (*in).DeepCopy()`, for pointers to `t` -/
  | ptrCall (t : Ty)
  /-- `x := (*in).DeepCopy()`, `*out = &x` -/
  | ptrCallAddr (t : Ty)
  /-- `*out = new(t)` -/
  | new (t : Ty)
  /-- `**out = **in` -/
  | derefAssign
  /-- `if **in != nil { in, out := *in, *out; b }` -/
  | derefBlock (b : List Stmt)
  /-- `(*in).DeepCopyInto(*out)`, for pointers to `t` -/
  | derefInto (t : Ty)

/-- The code, and the number of errors. -/
structure Gen where
  code : List Stmt := []
  errs : Nat := 0

variable (block : Ty → Ty → Option Gen)

/-- `genMapDeepCopy` (traverse.go:330-402), where `block` stands for `genDeepCopyIntoBlock`.  The first argument of `block` is the type whose name is written. -/
def Prog.genMap (name : Ty) (nameErrs : Nat) (k v : Ty) : Option Gen :=
  if P.fine k = false then some { errs := 1 }
  else if P.hasInto v || (P.hasCopy v).isSome then
    let s := if P.yieldsPtr v = v.isPtr then Stmt.entriesCall v else if v.isPtr then .entriesCallAddr v else .entriesCallDeref v
    some { code := [.makeMap name, s], errs := nameErrs }
  else if P.fine v then some { code := [.makeMap name, .entriesKeep], errs := nameErrs }
  else if (P.underlying v).byRef then
    (block v v).map fun b => { code := [.makeMap name, .entriesBlock (P.underlying v) b.code], errs := nameErrs + (P.underlying v).unnamable + b.errs }
  else
    match P.underlying v with
    | .struct _ => some { code := [.makeMap name, .entriesCallDeref v], errs := nameErrs }
    | _ => some { code := [.makeMap name], errs := nameErrs + 1 }

/-- `genSliceDeepCopy` (traverse.go:406-443). -/
def Prog.genSlice (name : Ty) (nameErrs : Nat) (e : Ty) : Option Gen :=
  if P.hasAny e then some { code := [.makeSlice name, .elemsInto e], errs := nameErrs }
  else if P.fine (P.underlying e) then some { code := [.makeSlice name, .copyElems], errs := nameErrs }
  else if (P.underlying e).byRef then
    (block e e).map fun b => { code := [.makeSlice name, .elemsBlock b.code], errs := nameErrs + b.errs }
  else
    match P.underlying e with
    | .struct _ => some { code := [.makeSlice name, .elemsInto e], errs := nameErrs }
    | _ => some { code := [.makeSlice name], errs := nameErrs + 1 }

/-- The loop over the fields (traverse.go:450-514): an error ends it. -/
def Prog.genFields : List (String × Ty) → Option Gen
  | [] => some {}
  | (f, t) :: fs =>
    if P.hasInto t || (P.hasCopy t).isSome then
      if t.isPtr then
        match block t t, Prog.genFields fs with
        | some b, some r => some { code := .fieldBlock f b.code :: r.code, errs := b.errs + r.errs }
        | _, _ => none
      else (Prog.genFields fs).map fun r => { r with code := (if P.yieldsPtr t then Stmt.fieldInto f t else .fieldCall f t) :: r.code }
    else if (P.underlying t).byRef then
      match block t t, Prog.genFields fs with
      | some b, some r => some { code := .fieldBlock f b.code :: r.code, errs := b.errs + r.errs }
      | _, _ => none
    else
      match P.underlying t with
      | .basic true => Prog.genFields fs
      | .struct _ => (Prog.genFields fs).map fun r => { r with code := (if P.fine t then Stmt.fieldKeep f else .fieldInto f t) :: r.code }
      | _ => some { errs := 1 }

/-- `genPointerDeepCopy` (traverse.go:519-565). -/
def Prog.genPtr (e : Ty) : Option Gen :=
  if P.hasInto e || (P.hasCopy e).isSome then some { code := [if P.yieldsPtr e then .ptrCall e else .ptrCallAddr e] }
  else if P.fine (P.underlying e) then some { code := [.new e, .derefAssign], errs := e.unnamable }
  else if (P.underlying e).byRef then
    (block (P.underlying e) (P.underlying e)).map fun b => { code := [.new (P.underlying e), .derefBlock b.code], errs := (P.underlying e).unnamable + b.errs }
  else
    match P.underlying e with
    | .struct _ => some { code := [.new e, .derefInto e], errs := e.unnamable }
    | _ => some { errs := 1 }

/-- `genDeepCopyIntoBlock` (traverse.go:284-326), without the recursion.  `nameErrs` are the errors of writing the name of the type. -/
def Prog.genStep (name : Ty) (nameErrs : Nat) (t : Ty) : Option Gen :=
  if (P.underlying t).isPtr = false ∧ P.hasAny t then some { code := [.assignCall t] }
  else
    match P.underlying t with
    | .basic true => some { code := (if (P.hasCopy t).isSome then [.assignCall t] else []) ++ [.assign] }
    | .map k v => P.genMap block name nameErrs k v
    | .slice e => P.genSlice block name nameErrs e
    | .struct fs => (P.genFields block fs).map fun r => { r with code := .assign :: r.code }
    | .ptr e => P.genPtr block e
    | _ => some { errs := 1 }

/-- `genDeepCopyIntoBlock` (traverse.go:284-326), up to a depth of recursion. -/
def Prog.genBlock : Nat → Ty → Ty → Option Gen
  | 0, _, _ => none
  | n + 1, name, t => P.genStep (Prog.genBlock n) name name.unnamable t

/-- The body of the `DeepCopyInto` that is generated for a type (`GenerateMethodsFor`, traverse.go:219-262): none if it is in the source.  Here the name is always a simple one (`nameOverride`). -/
def Prog.genInto (depth : Nat) (n : String) : Option (Option Gen) :=
  if P.hasInto (.named n) then some none
  else
    match P.hasCopy (.named n) with
    | some onPtr => some (some { code := [if onPtr then .cloneCall (.named n) else .assignCall (.named n)] })
    | none => (P.genBlock depth (.named n) (.named n)).map some

end Verif.DeepCopy

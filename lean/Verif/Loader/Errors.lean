/-!
# loader/loader.go, loader/errors.go: errors of packages
-/
namespace Verif.Loader

/-- `packages.ErrorKind` (library); `list` is the kind of errors of the build system. -/
inductive ErrKind
  | unknown
  | list
  | parse
  | type
deriving DecidableEq

/-- `packages.Error` (library). -/
structure PkgErr where
  pos : String
  msg : String
  kind : ErrKind
deriving DecidableEq

/-- `error`, by the types that the code looks at. -/
inductive Err
  /-- `*os.PathError`: path and message -/
  | path (path msg : String)
  /-- `scanner.ErrorList`: positions and messages -/
  | scan (l : List (String × String))
  /-- `types.Error`: position and message -/
  | type (pos msg : String)
  /-- `ErrList` -/
  | list (l : List Err)
  /-- `PositionedError` -/
  | at (pos : String) (e : Err)
  /-- an error that wraps another one (`fmt.Errorf` with `%w`) -/
  | wrap (msg : String) (e : Err)
  /-- any other error -/
  | other (msg : String)

mutual
/-- `Error()`.  Simplified: the text of library errors is the message; a list is written in brackets (errors.go:67-69). -/
def Err.text : Err → String
  | .path p m => p ++ ": " ++ m
  | .scan l => String.intercalate ", " (l.map (·.2))
  | .type p m => p ++ ": " ++ m
  | .list l => "[" ++ Err.texts l ++ "]"
  | .at _ e => e.text
  | .wrap m _ => m
  | .other m => m

/-- The texts of a list of errors. -/
def Err.texts : List Err → String
  | [] => ""
  | e :: es => e.text ++ " " ++ Err.texts es
end

mutual
/-- `AddError` (loader.go:135-178): the errors of the package after it.  `id` is the ID of the package. -/
def addError (id : String) (errs : List PkgErr) : Err → List PkgErr
  | .path p m => errs ++ [⟨p ++ ":1", m, .parse⟩]
  | .scan l => errs ++ l.map fun e => ⟨e.1, e.2, .parse⟩
  | .type p m => errs ++ [⟨p, m, .type⟩]
  | .list l => addErrors id errs l
  | .at p e => errs ++ [⟨p, e.text, .unknown⟩]
  | .wrap m _ => errs ++ [⟨id ++ ":-", m, .unknown⟩]
  | .other m => errs ++ [⟨id ++ ":-", m, .unknown⟩]

/-- The loop over an `ErrList` (loader.go:158-161). -/
def addErrors (id : String) (errs : List PkgErr) : List Err → List PkgErr
  | [] => errs
  | e :: es => addErrors id (addError id errs e) es
end

/-- `errors.As` for an `ErrList` (library): the first list among the error and those that it wraps. -/
def Err.asList : Err → Option (List Err)
  | .list l => some l
  | .wrap _ e => e.asList
  | _ => none

mutual
/-- `ErrFromNode` (errors.go:40-53). -/
def errFromNode (pos : String) : Err → Err
  | .list l => .list (errsFromNode pos l)
  | .wrap m e =>
    match e.asList with
    | some _ => errFromNode pos e
    | none => .at pos (.wrap m e)
  | e => .at pos e

/-- The loop over a list (errors.go:44-46). -/
def errsFromNode (pos : String) : List Err → List Err
  | [] => []
  | e :: es => errFromNode pos e :: errsFromNode pos es
end

/-- `MaybeErrList` (errors.go:57-62). -/
def maybeErrList (l : List Err) : Option Err := if l = [] then none else some (.list l)

/-- A package, for `PrintErrors`. -/
structure ErrPkg where
  errors : List PkgErr
  imports : List Nat

/-- `PrintErrors` (loader.go:44-64): the errors that are printed, and whether there are any.  `visited` are the packages in the order in which `packages.Visit` (library) visits them. -/
def printErrors (errors : Nat → List PkgErr) (visited : List Nat) (filter : List ErrKind) : List PkgErr × Bool :=
  let printed := visited.flatMap fun p => (errors p).filter fun e => e.kind ∉ filter
  (printed, !printed.isEmpty)

/-! ## Parsing in parallel -/

/-- A goroutine of `NeedSyntax` (loader.go:109-124) that has errors to add: those that are left, and the slice that it has read, if it has. -/
structure Adder where
  rest : List PkgErr
  loaded : Option (List PkgErr) := none

/-- The errors of the package and the goroutines. -/
structure Parse where
  errors : List PkgErr
  threads : List Adder

/-- A step of goroutine `i`: `p.Errors = append(p.Errors, e)` (loader.go:138-150) reads the slice, and then writes it; there is no lock. -/
def Parse.step (s : Parse) (i : Nat) : Option Parse :=
  match s.threads[i]? with
  | some ⟨e :: rest, none⟩ => some { s with threads := s.threads.set i ⟨e :: rest, some s.errors⟩ }
  | some ⟨e :: rest, some old⟩ => some { errors := old ++ [e], threads := s.threads.set i ⟨rest, none⟩ }
  | _ => none

/-- A run. -/
def Parse.run (s : Parse) : List Nat → Option Parse
  | [] => some s
  | i :: is => (s.step i).bind fun s' => s'.run is

/-- All goroutines have ended (`wg.Wait()`, loader.go:125). -/
def Parse.Ended (s : Parse) : Prop := ∀ t ∈ s.threads, t.rest = []

end Verif.Loader

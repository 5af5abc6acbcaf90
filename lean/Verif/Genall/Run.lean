import Verif.Genall.OptionsExamples
import Verif.Loader.ErrorsTheorems
/-!
# Model of running the generators: `Runtime.Run` and `CheckFilters` of `/repo/pkg/genall/genall.go`, the exit status of `/repo/cmd/controller-gen/main.go`

What a generator does is an arbitrary function of its context and of the state of the world (files, loaded packages with their errors, caches shared by the generators); it may return an error.
A panic of a generator ends the program and is not modelled here.
-/
namespace Verif.Genall
open Markers (Str Registry)
open Loader (PkgErr ErrKind printErrors)

/-- `GenerationContext` (genall.go:106-119), as far as `Run` changes it: the output rule (`none` is nil), and whether there is a type checker.  The rest (collector, roots, input rule) is the same for all generators. -/
structure Ctx where
  rule : Option Rule
  checker : Bool
deriving DecidableEq, Repr

/-- A `Generator` (genall.go:75-82), and whether it implements `NeedsTypeChecking` (genall.go:64-71). -/
structure Gen (W : Type) where
  needsChecking : Bool
  generate : Ctx → W → W × Option String

variable {W : Type}

/-- `CheckFilters` (genall.go:49-59); `filter` is the filter of a generator that has one. -/
def checkFilters {φ : Type} (filter : Gen W → φ) : List (Gen W) → List φ
  | [] => []
  | g :: gs => if g.needsChecking then filter g :: checkFilters filter gs else checkFilters filter gs

/-- The context of generator `i` (genall.go:267-274). -/
def ctxFor (rules : OutputRules) (i : Nat) (g : Gen W) : Ctx := { rule := rules.forGenerator i, checker := if g.needsChecking then true else false }

/-- The loop of `Run` (genall.go:266-280): the world, what has been printed, and whether there were errors. -/
def runLoop (rules : OutputRules) : Nat → List (Gen W) → W → List String → Bool → W × List String × Bool
  | _, [], w, out, had => (w, out, had)
  | i, g :: gs, w, out, had =>
    match g.generate (ctxFor rules i g) w with
    | (w', some e) => runLoop rules (i + 1) gs w' (out ++ [e]) true
    | (w', none) => runLoop rules (i + 1) gs w' out had

/-- `Run` (genall.go:252-284): the world, what has been printed to the error writer, and whether errors were found.  `errors` and `visited` are what `PrintErrors` finds in the world. -/
def run (rules : OutputRules) (errors : W → Nat → List PkgErr) (visited : W → List Nat) (gens : List (Gen W)) (w : W) : W × List String × Bool :=
  if gens = [] then (w, ["no generators to run"], true)
  else
    match runLoop rules 0 gens w [] false with
    | (w', out, had) => (w', out, (printErrors (errors w') (visited w') [.type]).2 || had)

/-- The exit status of the command without help or version options (main.go:176-193, 213-223).  `load` is what loading the packages and registering the markers (`ForRootsWithConfig`, genall.go:219-245) makes of the paths: the world, or an
error. -/
def exitStatus (reg : Registry (Parser (Gen W))) (σ : Sched) (join : Str → Str → Str) (load : List Str → List (Gen W) → Option W) (errors : W → Nat → List PkgErr) (visited : W → List Nat) (opts : List Str) :
    Outcome Empty Nat :=
  match protoFromOptions reg σ opts with
  | .panic => .panic
  | .err _ => .ok 1
  | .ok rt =>
    match load rt.paths rt.generators with
    | none => .ok 1
    | some w =>
      if rt.generators.length = 0 then .ok 1
      else if (run (runtimeRules join σ rt) errors visited rt.generators w).2.2 then .ok 1 else .ok 0

end Verif.Genall

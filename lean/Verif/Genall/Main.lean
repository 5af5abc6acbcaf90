import Verif.Genall.RunTheorems
import Verif.Help.DetailTheorems
/-!
# Model of the program `controller-gen`: `main` of `/repo/cmd/controller-gen/main.go`, `RegistryFromOptions` of `/repo/pkg/genall/options.go`, `/repo/pkg/version/version.go`

The flag library has read the flags; what is left of the command line are the options.  Loading packages, the generators and what they do to the files are parameters (as in `Verif.Genall.Run`).
-/
namespace Verif.Genall
open Markers (Str Registry)
open Loader (PkgErr)
open Help (HelpRegistry Printed Sorter helpForLevels)

variable {W : Type}

/-- `Version` (version.go:32-42): `ldflags` is the variable `version`, `info` the version of the main module of `debug.ReadBuildInfo` (`none` if there is no information). -/
def version (ldflags : Str) (info : Option Str) : Str :=
  if ldflags ≠ [] then ldflags
  else match info with
    | none => "(unknown)".toList
    | some v => if v = [] then "(unknown)".toList else v

/-- The flags (main.go:194-198). -/
structure Flags where
  version : Bool := false
  help : Nat := 0
  which : Nat := 0
  tags : List Str := ["ignore_autogenerated".toList]
deriving DecidableEq, Repr

/-- What the program depends on: the option registry with its help, the version, loading packages with a build flag (`LoadRootsWithConfig`), what a generator registers, the errors of packages. -/
structure Env (W : Type) where
  options : Registry (Parser (Gen W))
  optionsHelp : HelpRegistry
  ldflags : Str
  info : Option Str
  join : Str → Str → Str
  load : Str → List Str → Option W
  register : Gen W → HelpRegistry → Option HelpRegistry
  errors : W → Nat → List PkgErr
  visited : W → List Nat

/-- What is printed: the version (version.go:57-59), the usage with the help of the options (main.go:200-209), the help of markers, messages of generators, and the advice after a failure (main.go:219). -/
inductive Shown
  | version (line : Str)
  | usage (options : Printed)
  | markers (p : Printed)
  | messages (l : List String)
  | advice
deriving DecidableEq, Repr

/-- The end of the program: the world if packages were loaded and generators were run, the output, the exit status. -/
structure Result (W : Type) where
  world : Option W
  shown : List Shown
  status : Nat

/-- `Generators.RegisterMarkers` (genall.go:38-45). -/
def registerAll (register : Gen W → HelpRegistry → Option HelpRegistry) : List (Gen W) → HelpRegistry → Option HelpRegistry
  | [], r => some r
  | g :: gs, r =>
    match register g r with
    | none => none
    | some r' => registerAll register gs r'

/-- `RegistryFromOptions` (options.go:54-64). -/
def registryFromOptions (E : Env W) (σ : Sched) (opts : List Str) : Outcome Unit HelpRegistry :=
  match protoFromOptions E.options σ opts with
  | .panic => .panic
  | .err _ => .err ()
  | .ok rt =>
    match registerAll E.register rt.generators {} with
    | none => .err ()
    | some r => .ok r

/-- The usage (main.go:200-209): help of the options at a level; level 0 is the summary. -/
def usage (E : Env W) (σ : Sched) (level : Nat) : Option Printed :=
  helpForLevels σ (if level = 0 then 1 else level) E.optionsHelp .byOption

/-- The end after an error (main.go:211-222).  `shown` is what has been printed, `withUsage` says that the error is not a `noUsageError`. -/
def failed (E : Env W) (σ : Sched) (world : Option W) (shown : List Shown) (withUsage : Bool) : Outcome Empty (Result W) :=
  if withUsage then
    match usage E σ 0 with
    | none => .panic
    | some p => .ok { world := world, shown := shown ++ [.usage p, .advice], status := 1 }
  else .ok { world := world, shown := shown ++ [.advice], status := 1 }

/-- The build flag (main.go:177). -/
def tagsFlag (tags : List Str) : Str := "-tags=".toList ++ Text.join ',' tags

/-- `main` (main.go:131-223). -/
def main (E : Env W) (σ : Sched) (f : Flags) (opts : List Str) : Outcome Empty (Result W) :=
  if f.version then .ok { world := none, shown := [.version ("Version: ".toList ++ version E.ldflags E.info ++ ['\n'])], status := 0 }
  else if f.help > 0 then
    match usage E σ f.help with
    | none => .panic
    | some p => .ok { world := none, shown := [.usage p], status := 0 }
  else if f.which > 0 then
    match registryFromOptions E σ opts with
    | .panic => .panic
    | .err _ => failed E σ none [] true
    | .ok r =>
      match helpForLevels σ f.which r .byCategory with
      | none => .panic
      | some p => .ok { world := none, shown := [.markers p], status := 0 }
  else
    match protoFromOptions E.options σ opts with
    | .panic => .panic
    | .err _ => failed E σ none [] true
    | .ok rt =>
      match E.load (tagsFlag f.tags) rt.paths with
      | none => failed E σ none [] true
      | some w =>
        match registerAll E.register rt.generators {} with
        | none => failed E σ none [] true
        | some _ =>
          if rt.generators.length = 0 then failed E σ none [] true
          else
            match run (runtimeRules E.join σ rt) E.errors E.visited rt.generators w with
            | (w', out, had) => if had then failed E σ (some w') [.messages out] false else .ok { world := some w', shown := [.messages out], status := 0 }

end Verif.Genall

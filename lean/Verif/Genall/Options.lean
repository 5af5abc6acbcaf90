import Verif.Common.Sched
import Verif.Common.GoMap
import Verif.Markers.Registry
/-!
# Model of the options of the command line: `/repo/pkg/genall/options.go`, the option registry of `/repo/cmd/controller-gen/main.go`

An option is looked up in a registry of markers and parsed by the definition that is found there.  What a definition makes of the text
of an option is the payload of the definition: a function of the text (the marker parser itself is modelled in `Verif.Markers.Parse`).
-/
namespace Verif.Genall
open Markers (Str Def Registry Target)

/-- The output rules of the tool (output.go:86-142): `OutputToNothing`, `OutputToStdout`, `OutputToDirectory` and `OutputArtifacts`. -/
inductive Rule
  | nothing
  | stdout
  | dir (d : Str)
  | artifacts (config code : Str)
deriving DecidableEq, Repr

/-- The value of an option, by its Go type (options.go:140-161): the cases of the type switch. -/
inductive Value (γ : Type)
  | generator (g : γ)
  | rule (r : Rule)
  | paths (ps : List Str)
  | other
deriving DecidableEq, Repr

/-- What a definition makes of the text of an option (`Definition.Parse`, parse.go:850-962); `none` is an error. -/
abbrev Parser (γ : Type) := Str → Option (Value γ)

/-- The errors of `protoFromOptions` (options.go:131-170). -/
inductive OptErr
  | unknown (opt : Str)
  | unparsable (opt : Str)
  | duplicate (name : Str)
  | notAnOption (name : Str)
  | notInvoked (name : Str)
deriving DecidableEq, Repr

/-- The result of a function that may return an error or panic. -/
inductive Outcome (ε α : Type)
  | ok (a : α)
  | err (e : ε)
  | panic
deriving DecidableEq, Repr

/-- `splitOutputRuleOption` (options.go:193-201): rule name and generator name (empty for a default rule).  `none`: `parts[1]` is out of range. -/
def splitOutputRuleOption (name : Str) : Option (Str × Str) :=
  match Text.cut ':' name with
  | none => none
  | some (_, rest) =>
    match Text.cut ':' rest with
    | none => some (rest, [])
    | some (gen, rule) => some (rule, gen)

/-- The local variables of the loop of `protoFromOptions` (options.go:115-125).  A `*Generator` is modelled by the position of the generator in `gens`: every option
that is a generator makes a new variable `val`, so that the pointers are different. -/
structure Proto (γ : Type) where
  gens : List γ := []
  default : Option Rule := none
  paths : List Str := []
  outputByGen : List (Str × Rule) := []
  gensByName : List (Str × Nat) := []
deriving DecidableEq, Repr

variable {γ : Type}

/-- The text of an option with its `+` (options.go:127-129).  `none`: `rawOpt[0]` of the empty text is out of range. -/
def withPlus : Str → Option Str
  | [] => none
  | c :: cs => if c ≠ '+' then some ('+' :: c :: cs) else some (c :: cs)

/-- The body of the loop of `protoFromOptions` (options.go:126-162). -/
def optionStep (reg : Registry (Parser γ)) (s : Proto γ) (opt : Str) : Outcome OptErr (Proto γ) :=
  match withPlus opt with
  | none => .panic
  | some raw =>
    match reg.lookup raw .package with
    | none => .err (.unknown raw.tail)
    | some defn =>
      match defn.payload raw with
      | none => .err (.unparsable raw.tail)
      | some (.generator g) =>
        if (GoMap.get s.gensByName defn.name).isSome then .err (.duplicate defn.name)
        else .ok { s with gens := s.gens ++ [g], gensByName := GoMap.put s.gensByName defn.name s.gens.length }
      | some (.rule r) =>
        match splitOutputRuleOption defn.name with
        | none => .panic
        | some (_, genName) =>
          if genName = [] then .ok { s with default := some r } else .ok { s with outputByGen := GoMap.put s.outputByGen genName r }
      | some (.paths ps) => .ok { s with paths := s.paths ++ ps }
      | some .other => .err (.notAnOption defn.name)

/-- The loop over the options (options.go:126-162). -/
def optionLoop (reg : Registry (Parser γ)) : Proto γ → List Str → Outcome OptErr (Proto γ)
  | s, [] => .ok s
  | s, opt :: opts =>
    match optionStep reg s opt with
    | .ok s' => optionLoop reg s' opts
    | .err e => .err e
    | .panic => .panic

/-- The loop that associates the rules with the generators (options.go:165-172). -/
def associate (gensByName : List (Str × Nat)) : List (Str × Rule) → List (Nat × Rule) → Outcome OptErr (List (Nat × Rule))
  | [], byGen => .ok byGen
  | (genName, rule) :: rest, byGen =>
    match GoMap.get gensByName genName with
    | none => .err (.notInvoked genName)
    | some gen => associate gensByName rest (GoMap.put byGen gen rule)

/-- `OutputRules` (output.go:57-65). -/
structure OutputRules where
  default : Option Rule
  byGenerator : List (Nat × Rule)
deriving DecidableEq, Repr

/-- `protoRuntime` (options.go:184-189). -/
structure ProtoRuntime (γ : Type) where
  paths : List Str
  generators : List γ
  rules : OutputRules
  generatorsByName : List (Str × Nat)
deriving DecidableEq, Repr

/-- `protoFromOptions` (options.go:114-180).  The order in which the map `outputByGen` is visited is that of the schedule. -/
def protoFromOptions (reg : Registry (Parser γ)) (σ : Sched) (options : List Str) : Outcome OptErr (ProtoRuntime γ) :=
  match optionLoop reg {} options with
  | .err e => .err e
  | .panic => .panic
  | .ok s =>
    match associate s.gensByName (σ.order 0 s.outputByGen) [] with
    | .err e => .err e
    | .panic => .panic
    | .ok byGen => .ok { paths := s.paths, generators := s.gens, rules := { default := s.default, byGenerator := byGen }, generatorsByName := s.gensByName }

/-- `ForGenerator` (output.go:69-74); `none` is the nil rule. -/
def OutputRules.forGenerator (o : OutputRules) (gen : Nat) : Option Rule :=
  match GoMap.get o.byGenerator gen with
  | some r => some r
  | none => o.default

/-- `DirectoryPerGenerator` (output.go:41-55).  `join` is `filepath.Join`. -/
def directoryPerGenerator (join : Str → Str → Str) (σ : Sched) (base : Str) (generators : List (Str × Nat)) : OutputRules :=
  { default := some (.artifacts base []),
    byGenerator := (σ.order 1 generators).foldl (fun m e => GoMap.put m e.2 (.artifacts (join base e.1) [])) [] }

/-- The rules of the runtime of `FromOptionsWithConfig` (options.go:93-108). -/
def runtimeRules (join : Str → Str → Str) (σ : Sched) (proto : ProtoRuntime γ) : OutputRules :=
  if proto.rules.default ≠ none then proto.rules
  else
    let outRules := directoryPerGenerator join σ "config".toList proto.generatorsByName
    { outRules with byGenerator := (σ.order 2 proto.rules.byGenerator).foldl (fun m e => GoMap.put m e.1 e.2) outRules.byGenerator }

/-! ## The options of `controller-gen` -/

/-- The names of `allGenerators` (main.go:53-60). -/
def allGenerators : List Str := ["crd", "rbac", "object", "applyconfiguration", "webhook", "schemapatch"].map String.toList

/-- The names of `allOutputRules` (main.go:67-72). -/
def allOutputRules : List Str := ["dir", "none", "stdout", "artifacts"].map String.toList

/-- `init` (main.go:78-122) and `RegisterOptionsMarkers` (options.go:40-49): the names of the definitions, in the order in which they are registered.  (The maps are visited in an order
that is not fixed; the names are different, so that the order does not matter.) -/
def optionNames : List Str :=
  allGenerators.flatMap (fun g => g :: allOutputRules.map (fun r => "output:".toList ++ g ++ ':' :: r)) ++
  allOutputRules.map (fun r => "output:".toList ++ r) ++ ["paths".toList]

/-- The registry of the options (main.go:75-122).  `parser name` is the parser of the definition with this name. -/
def optionsRegistry (parser : Str → Parser γ) : Registry (Parser γ) :=
  Registry.after (optionNames.map fun n => { name := n, target := .package, payload := parser n })

end Verif.Genall

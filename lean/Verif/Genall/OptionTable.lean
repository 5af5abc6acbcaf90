import Verif.Genall.Run
import Verif.Markers.ShippedTheorems
/-!
# Model of the table of options of controller-gen: `/repo/cmd/controller-gen/main.go` (49-122), with the Go types of the generators and output rules

`Options.lean` leaves open what the definition of an option makes of its text; here it is what the parser of markers makes of it, for the definition that `MakeDefinition` makes of the Go type.
-/
namespace Verif.Genall
open Markers (Str Def Registry Target Marker Output Loaded sf Env)
open Markers.GoType

/-- The tag `marker:",optional"`. -/
def opt : Option String := some ",optional"

/-- The generators and the Go types of their options (main.go:53-60; crd/gen.go:45-101, rbac/parser.go:160-172, deepcopy/gen.go:53-59, applyconfiguration/gen.go:54-57, webhook/parser.go:423-429,
schemapatcher/gen.go:61-77). -/
def generatorTypes : List (Str × Output) := [
  ("crd".toList, .struct [sf "IgnoreUnexportedFields" (ptr bool) opt, sf "AllowDangerousTypes" (ptr bool) opt, sf "MaxDescLen" (ptr int) opt, sf "CRDVersions" (slice string) (some "crdVersions,optional"),
    sf "GenerateEmbeddedObjectMeta" (ptr bool) opt, sf "HeaderFile" string opt, sf "Year" string opt, sf "DeprecatedV1beta1CompatibilityPreserveUnknownFields" (ptr bool) opt]),
  ("rbac".toList, .struct [sf "RoleName" string, sf "FileName" string opt, sf "HeaderFile" string opt, sf "Year" string opt]),
  ("object".toList, .struct [sf "HeaderFile" string opt, sf "Year" string opt]),
  ("applyconfiguration".toList, .struct [sf "HeaderFile" string opt]),
  ("webhook".toList, .struct [sf "HeaderFile" string opt, sf "Year" string opt]),
  ("schemapatch".toList, .struct [sf "ManifestsPath" string (some "manifests"), sf "MaxDescLen" (ptr int) opt, sf "GenerateEmbeddedObjectMeta" (ptr bool) opt])]

/-- The output rules and their Go types (main.go:67-72; output.go:86-142). -/
def ruleTypes : List (Str × Output) := [
  ("dir".toList, .plain string), ("none".toList, .struct []), ("stdout".toList, .struct []), ("artifacts".toList, .struct [sf "Config" string, sf "Code" string opt])]

/-- What kind of value an option has: its Go type. -/
inductive Kind
  | generator
  | rule (name : Str)
  | paths
deriving DecidableEq

/-- An option: its name, the kind of its value, its Go type. -/
structure Opt where
  name : Str
  kind : Kind
  output : Output
deriving DecidableEq

/-- The options for one generator (main.go:79-103): the generator itself, and the output rules for it. -/
def optionsFor (rules : List (Str × Output)) (g : Str × Output) : List Opt :=
  ⟨g.1, .generator, g.2⟩ :: rules.map fun r => ⟨"output:".toList ++ g.1 ++ ':' :: r.1, .rule r.1, r.2⟩

/-- The loop over the map of generators (main.go:79-104); the inner loop is over the map of output rules. -/
def initLoop (σ : Sched) : Nat → List (Str × Output) → List Opt
  | _, [] => []
  | i, g :: gs => optionsFor (σ.order (i + 2) ruleTypes) g ++ initLoop σ (i + 1) gs

/-- `init` (main.go:78-122) and `RegisterOptionsMarkers` (options.go:40-49): the options in the order in which they are registered. -/
def initOptions (σ : Sched) : List Opt :=
  initLoop σ 0 (σ.order 0 generatorTypes) ++ (σ.order 1 ruleTypes).map (fun r => ⟨"output:".toList ++ r.1, .rule r.1, r.2⟩) ++ [⟨"paths".toList, .paths, .plain (slice string)⟩]

/-- A generator with its options: the type that `MakeDefinition` was given, with the fields that were set. -/
abbrev Chosen := Str × List (Str × Markers.Value)

/-- The text that an argument of type string was set to; unset fields are empty. -/
def textOf (vals : List (Str × Markers.Value)) (n : Str) : Str :=
  match GoMap.get vals n with
  | some (.str s) => s
  | _ => []

/-- The Go value that `Parse` returns (parse.go:828-928), by its type; the fields of generators stay a list. -/
def Opt.value (o : Opt) (vals : List (Str × Markers.Value)) : Value Chosen :=
  match o.kind with
  | .generator => .generator (o.name, vals)
  | .paths =>
    match GoMap.get vals [] with
    | some (.slice vs) => .paths (vs.filterMap fun v => match v with
      | .str s => some s
      | _ => none)
    | _ => .paths []
  | .rule r =>
    if r = "dir".toList then .rule (.dir (textOf vals []))
    else if r = "none".toList then .rule .nothing
    else if r = "stdout".toList then .rule .stdout
    else .rule (.artifacts (textOf vals "config".toList) (textOf vals "code".toList))

/-- The option as a marker for packages (main.go:81, 93, 108). -/
def Opt.marker (o : Opt) : Marker := { name := o.name, target := .package, output := o.output }

/-- The definition of an option; `none` is the panic of `Must`. -/
def Opt.define (E : Env) (o : Opt) : Option (Def (Parser Chosen)) :=
  o.marker.define.map fun d =>
    { name := d.name, target := d.target
      payload := fun raw => match (o.marker.parser d).parse E raw with
        | .error _ => none
        | .ok vals => some (o.value vals) }

/-- The registry after `init`; `none` is a panic. -/
def toolRegistry (E : Env) (σ : Sched) : Option (Registry (Parser Chosen)) := ((initOptions σ).mapM (Opt.define E)).map Registry.after

/-! ## Facts that are computed -/

/-- The options in the order of the source. -/
def optionTable : List Opt := initOptions .fifo

/-- The names of the arguments of an option. -/
def Opt.arguments (o : Opt) : List Str := o.marker.arguments

/-- The arguments that have to be given. -/
def Opt.required (o : Opt) : List Str := (o.marker.define.map fun d => ((o.marker.parser d).fields.filter fun f => !f.optional).map (·.name)).getD []

set_option maxRecDepth 100000 in
theorem options_one : (optionTable.all fun o => o.marker.define.isSome && !o.name.contains '=' && decide o.arguments.Nodup && o.arguments.all fun a => a == [] || (!a.contains '=' && !a.contains ':')) = true := by
  decide +kernel

set_option maxRecDepth 100000 in
theorem options_names : (optionTable.map (·.name)).Nodup ∧ optionTable.map (·.name) = optionNames := by decide +kernel

set_option maxRecDepth 100000 in
theorem options_args : (optionTable.all fun o => o.arguments.all fun a => a == [] || optionTable.all fun o' => decide (o'.name ≠ o.name ++ ':' :: a)) = true := by decide +kernel

set_option maxRecDepth 100000 in
theorem options_kinds : (optionTable.all fun o => match o.kind with
    | .rule _ => decide (o.name ∉ allGenerators ∧ o.name ≠ "paths".toList)
    | _ => true) = true := by decide +kernel

/-! ## The order of the maps -/

theorem initLoop_perm (σ : Sched) : ∀ (i : Nat) (gs : List (Str × Output)), (initLoop σ i gs).Perm (gs.flatMap (optionsFor ruleTypes))
  | _, [] => .nil
  | i, g :: gs => by
    rw [initLoop, List.flatMap_cons]
    exact ((σ.perm (i + 2) ruleTypes).map _ |>.cons _).append (initLoop_perm σ (i + 1) gs)

theorem initOptions_perm (σ σ' : Sched) : (initOptions σ).Perm (initOptions σ') := by
  have key : ∀ σ : Sched, (initOptions σ).Perm (generatorTypes.flatMap (optionsFor ruleTypes) ++ ruleTypes.map (fun r => ⟨"output:".toList ++ r.1, .rule r.1, r.2⟩) ++ [⟨"paths".toList, .paths, .plain (slice string)⟩]) := by
    intro σ
    unfold initOptions
    exact ((((initLoop_perm σ 0 _).trans ((σ.perm 0 generatorTypes).flatMap_right _)).append ((σ.perm 1 ruleTypes).map _))).append_right _
  exact (key σ).trans (key σ').symm

theorem mem_initOptions (σ : Sched) {o : Opt} : o ∈ initOptions σ ↔ o ∈ optionTable := (initOptions_perm σ .fifo).mem_iff

end Verif.Genall

import Verif.Genall.Main
/-!
# The program `controller-gen` (C76)
-/
namespace Verif.Genall
open Markers (Str Registry)
open Loader (PkgErr)
open Help (HelpRegistry Printed Sorter helpForLevels)
open Spec

variable {W : Type}

namespace Spec

/-- What a call can ask for. -/
inductive Mode
  | version
  | help
  | markers
  | run
deriving DecidableEq, Repr

/-- What a call asks for: the version before help, help before the markers, and generators only if none of these is asked for. -/
inductive Asks (f : Flags) : Mode → Prop
  | version : f.version = true → Asks f .version
  | help : f.version = false → f.help ≠ 0 → Asks f .help
  | markers : f.version = false → f.help = 0 → f.which ≠ 0 → Asks f .markers
  | run : f.version = false → f.help = 0 → f.which = 0 → Asks f .run

/-- The generators put their markers into a registry, one after the other. -/
inductive Registers (register : Gen W → HelpRegistry → Option HelpRegistry) : List (Gen W) → HelpRegistry → HelpRegistry → Prop
  | nil {r} : Registers register [] r r
  | cons {g gs r r₁ r₂} : register g r = some r₁ → Registers register gs r₁ r₂ → Registers register (g :: gs) r r₂

/-- The generators of the options are ready to be run: the options are understood, name generators and paths that can be loaded with the build tags, and the markers of the generators can be registered. -/
def Ready (E : Env W) (σ : Sched) (f : Flags) (opts : List Str) (rt : ProtoRuntime (Gen W)) (w : W) : Prop :=
  protoFromOptions E.options σ opts = .ok rt ∧ E.load ("-tags=".toList ++ Text.join ',' f.tags) rt.paths = some w ∧ (∃ r, Registers E.register rt.generators {} r) ∧ rt.generators ≠ []

end Spec

theorem registers_iff {register : Gen W → HelpRegistry → Option HelpRegistry} {gens : List (Gen W)} {r r' : HelpRegistry} :
    registerAll register gens r = some r' ↔ Registers register gens r r' := by
  induction gens generalizing r with
  | nil =>
    constructor
    · intro h; cases h; exact .nil
    · intro h; cases h; rfl
  | cons g gs ih =>
    rw [registerAll]
    constructor
    · intro h
      cases hg : register g r with
      | none => rw [hg] at h; cases h
      | some r₁ => rw [hg] at h; exact .cons hg (ih.1 h)
    · intro h
      cases h with
      | cons h1 h2 => rw [h1]; exact ih.2 h2

theorem helpForLevels_some (σ : Sched) (level : Nat) (r : HelpRegistry) (s : Sorter) : ∃ p, helpForLevels σ level r s = some p := by
  match level with
  | 0 => exact ⟨_, rfl⟩
  | 1 => obtain ⟨out, h, -⟩ := Help.C46_shown σ r s; exact ⟨_, h⟩
  | 2 => obtain ⟨out, h, -⟩ := Help.C46_details σ r s 2 (Or.inl rfl); exact ⟨_, h⟩
  | 3 => obtain ⟨out, h, -⟩ := Help.C46_details σ r s 3 (Or.inr rfl); exact ⟨_, h⟩
  | 4 => exact ⟨_, rfl⟩
  | _ + 5 => exact ⟨_, rfl⟩

theorem failed_usage (E : Env W) (σ : Sched) (w : Option W) (shown : List Shown) :
    ∃ p, helpForLevels σ 1 E.optionsHelp .byOption = some p ∧ failed E σ w shown true = .ok { world := w, shown := shown ++ [.usage p, .advice], status := 1 } := by
  obtain ⟨p, hp⟩ := helpForLevels_some σ 1 E.optionsHelp .byOption
  exact ⟨p, hp, by simp [failed, usage, hp]⟩

/-- **C76 (one thing at a time).** Every call asks for exactly one thing. -/
theorem C76_one (f : Flags) : (∃ m, Asks f m) ∧ ∀ m m', Asks f m → Asks f m' → m = m' := by
  constructor
  · by_cases h1 : f.version = true
    · exact ⟨_, .version h1⟩
    · have h1 : f.version = false := by simpa using h1
      by_cases h2 : f.help = 0
      · by_cases h3 : f.which = 0
        · exact ⟨_, .run h1 h2 h3⟩
        · exact ⟨_, .markers h1 h2 h3⟩
      · exact ⟨_, .help h1 h2⟩
  · intro m m' h h'
    cases h <;> cases h' <;> simp_all

theorem main_version (E : Env W) (σ : Sched) {f : Flags} (h : Asks f .version) (opts : List Str) :
    main E σ f opts = .ok { world := none, shown := [.version ("Version: ".toList ++ version E.ldflags E.info ++ ['\n'])], status := 0 } := by
  cases h with
  | version h => rw [main, if_pos h]

theorem main_help (E : Env W) (σ : Sched) {f : Flags} (h : Asks f .help) (opts : List Str) :
    ∃ p, helpForLevels σ f.help E.optionsHelp .byOption = some p ∧ main E σ f opts = .ok { world := none, shown := [.usage p], status := 0 } := by
  cases h with
  | help h1 h2 =>
    obtain ⟨p, hp⟩ := helpForLevels_some σ f.help E.optionsHelp .byOption
    refine ⟨p, hp, ?_⟩
    rw [main, if_neg (by simp [h1]), if_pos (Nat.pos_of_ne_zero h2)]
    simp [usage, h2, hp]

/-- **C76 (version).** A call that asks for the version prints one line with it and succeeds, whatever the options and other flags are, and runs nothing.  The version is the one set at build time; if there is none, the one of the module; and otherwise it is called unknown. -/
theorem C76_version (E : Env W) (σ : Sched) {f : Flags} (h : Asks f .version) (opts : List Str) :
    ∃ v, main E σ f opts = .ok { world := none, shown := [.version ("Version: ".toList ++ v ++ ['\n'])], status := 0 } ∧
      (E.ldflags ≠ [] → v = E.ldflags) ∧ (E.ldflags = [] → ∀ m, m ≠ [] → E.info = some m → v = m) ∧
      (E.ldflags = [] → E.info = none ∨ E.info = some [] → v = "(unknown)".toList) := by
  refine ⟨version E.ldflags E.info, main_version E σ h opts, ?_, ?_, ?_⟩
  · intro h; unfold version; rw [if_pos h]
  · intro h m hm hi
    unfold version
    rw [if_neg (by simp [h]), hi]
    show (if m = [] then _ else m) = m
    rw [if_neg hm]
  · intro h hi
    unfold version
    rw [if_neg (by simp [h])]
    rcases hi with hi | hi <;> rw [hi] <;> rfl

/-- **C76 (help).** A call that asks for help succeeds, whatever the options are, prints the help of the options at that level, and runs nothing. -/
theorem C76_help (E : Env W) (σ : Sched) {f : Flags} (h : Asks f .help) (opts : List Str) :
    ∃ p, helpForLevels σ f.help E.optionsHelp .byOption = some p ∧ main E σ f opts = .ok { world := none, shown := [.usage p], status := 0 } :=
  main_help E σ h opts

/-- **C76 (markers).** A call that asks for markers runs nothing.  It succeeds exactly if the options are understood and the markers of the generators they name can be registered; then it prints the help of those markers, at that level. -/
theorem C76_markers (E : Env W) (σ : Sched) {f : Flags} (h : Asks f .markers) (opts : List Str) (hc : protoFromOptions E.options σ opts ≠ .panic) :
    ∃ res, main E σ f opts = .ok res ∧ res.world = none ∧
      (res.status = 0 ↔ ∃ rt r, protoFromOptions E.options σ opts = .ok rt ∧ Registers E.register rt.generators {} r) ∧
      ∀ rt r, protoFromOptions E.options σ opts = .ok rt → Registers E.register rt.generators {} r →
        ∃ p, helpForLevels σ f.which r .byCategory = some p ∧ res.shown = [.markers p] := by
  cases h with
  | markers h1 h2 h3 =>
    rw [main, if_neg (by simp [h1]), if_neg (by simp [h2]), if_pos (Nat.pos_of_ne_zero h3), registryFromOptions]
    cases hp : protoFromOptions E.options σ opts with
    | panic => exact absurd hp hc
    | err e =>
      obtain ⟨p, -, hf⟩ := failed_usage E σ none []
      exact ⟨_, hf, rfl, by simp, by simp⟩
    | ok rt =>
      dsimp only
      cases hr : registerAll E.register rt.generators {} with
      | none =>
        obtain ⟨p, -, hf⟩ := failed_usage E σ none []
        refine ⟨_, hf, rfl, ?_, ?_⟩
        · constructor
          · intro h; cases h
          · rintro ⟨rt', r, h, hg⟩
            cases h
            rw [registers_iff.2 hg] at hr
            cases hr
        · intro rt' r h hg
          cases h
          rw [registers_iff.2 hg] at hr
          cases hr
      | some r =>
        obtain ⟨p, hp⟩ := helpForLevels_some σ f.which r .byCategory
        dsimp only
        rw [hp]
        refine ⟨_, rfl, rfl, ⟨fun _ => ⟨rt, r, rfl, registers_iff.1 hr⟩, fun _ => rfl⟩, ?_⟩
        intro rt' r' h hg
        cases h
        rw [registers_iff.2 hg] at hr
        cases hr
        exact ⟨p, hp, rfl⟩

/-- **C76 (run).** A call that asks for neither runs the generators exactly if they are ready, each once and in order (`Executes`), and succeeds exactly if they are ready and the run does not fail; otherwise nothing is run. -/
theorem C76_run (E : Env W) (σ : Sched) {reachable : W → Nat → Prop} (hv : ∀ w p, p ∈ E.visited w ↔ reachable w p) {f : Flags} (h : Asks f .run) (opts : List Str)
    (hc : protoFromOptions E.options σ opts ≠ .panic) :
    ∃ res, main E σ f opts = .ok res ∧
      (∀ rt w, Ready E σ f opts rt w → (∃ rs w', Executes (runtimeRules E.join σ rt) 0 rt.generators w rs w' ∧ res.world = some w' ∧ Shown.messages (rs.filterMap id) ∈ res.shown) ∧
        (res.status = 0 ↔ ¬ Fails (runtimeRules E.join σ rt) E.errors reachable rt.generators w)) ∧
      ((∀ rt w, ¬ Ready E σ f opts rt w) → res.world = none ∧ res.status ≠ 0) := by
  cases h with
  | run h1 h2 h3 =>
    rw [main, if_neg (by simp [h1]), if_neg (by simp [h2]), if_neg (by simp [h3])]
    cases hp : protoFromOptions E.options σ opts with
    | panic => exact absurd hp hc
    | err e =>
      obtain ⟨p, -, hf⟩ := failed_usage E σ none []
      refine ⟨_, hf, ?_, fun _ => ⟨rfl, by simp⟩⟩
      rintro rt w ⟨h, -⟩
      rw [hp] at h
      cases h
    | ok rt =>
      dsimp only
      cases hl : E.load (tagsFlag f.tags) rt.paths with
      | none =>
        obtain ⟨p, -, hf⟩ := failed_usage E σ none []
        refine ⟨_, hf, ?_, fun _ => ⟨rfl, by simp⟩⟩
        rintro rt' w ⟨h, h', -⟩
        rw [hp] at h
        cases h
        rw [tagsFlag, h'] at hl
        cases hl
      | some w =>
        dsimp only
        cases hr : registerAll E.register rt.generators {} with
        | none =>
          obtain ⟨p, -, hf⟩ := failed_usage E σ none []
          refine ⟨_, hf, ?_, fun _ => ⟨rfl, by simp⟩⟩
          rintro rt' w ⟨h, -, ⟨r, hg⟩, -⟩
          rw [hp] at h
          cases h
          rw [registers_iff.2 hg] at hr
          cases hr
        | some r =>
          dsimp only
          by_cases h0 : rt.generators.length = 0
          · rw [if_pos h0]
            obtain ⟨p, -, hf⟩ := failed_usage E σ none []
            refine ⟨_, hf, ?_, fun _ => ⟨rfl, by simp⟩⟩
            rintro rt' w ⟨h, -, -, hne⟩
            rw [hp] at h
            cases h
            exact absurd (List.length_eq_zero_iff.1 h0) hne
          · rw [if_neg h0]
            have hne : rt.generators ≠ [] := fun e => h0 (by rw [e]; rfl)
            have hready : Ready E σ f opts rt w := ⟨hp, hl, ⟨r, registers_iff.1 hr⟩, hne⟩
            have hrep := C35_reported (runtimeRules E.join σ rt) E.errors E.visited hv rt.generators w
            obtain ⟨rs, w', hex, hloop⟩ := runLoop_executes (runtimeRules E.join σ rt) rt.generators 0 w [] false
            obtain ⟨had, hrun⟩ : ∃ had, run (runtimeRules E.join σ rt) E.errors E.visited rt.generators w = (w', rs.filterMap id, had) := by
              unfold run
              rw [if_neg hne, hloop]
              exact ⟨_, rfl⟩
            rw [hrun] at hrep ⊢
            dsimp only at hrep ⊢
            have huniq : ∀ rt' v, Ready E σ f opts rt' v → rt' = rt ∧ v = w := by
              rintro rt' v ⟨h, h', -⟩
              rw [hp] at h
              cases h
              rw [tagsFlag, h'] at hl
              cases hl
              exact ⟨rfl, rfl⟩
            cases had with
            | true =>
              rw [if_pos rfl]
              refine ⟨_, rfl, ?_, fun hn => absurd hready (hn rt w)⟩
              intro rt' v hR
              obtain ⟨rfl, rfl⟩ := huniq rt' v hR
              refine ⟨⟨rs, w', hex, rfl, by simp⟩, ?_⟩
              have := hrep.1 rfl
              simp [this]
            | false =>
              rw [if_neg (by simp)]
              refine ⟨_, rfl, ?_, fun hn => absurd hready (hn rt w)⟩
              intro rt' v hR
              obtain ⟨rfl, rfl⟩ := huniq rt' v hR
              refine ⟨⟨rs, w', hex, rfl, by simp⟩, ?_⟩
              simp only [true_iff]
              intro hf
              exact absurd (hrep.2 hf) (by simp)

theorem failed_cases {E : Env W} {σ : Sched} {w : Option W} {shown : List Shown} {u : Bool} {res : Result W} (h : failed E σ w shown u = .ok res) :
    res.status = 1 ∧ res.world = w ∧ ((u = true ∧ ∃ p, helpForLevels σ 1 E.optionsHelp .byOption = some p ∧ res.shown = shown ++ [.usage p, .advice]) ∨ (u = false ∧ res.shown = shown ++ [.advice])) := by
  cases u with
  | true =>
    obtain ⟨p, hp, hf⟩ := failed_usage E σ w shown
    rw [hf] at h
    cases h
    exact ⟨rfl, rfl, Or.inl ⟨rfl, p, hp, rfl⟩⟩
  | false =>
    simp only [failed, Bool.false_eq_true, if_false, Outcome.ok.injEq] at h
    subst h
    exact ⟨rfl, rfl, Or.inr ⟨rfl, rfl⟩⟩

/-- **C76 (failure).** A call that does not succeed has the exit status 1 and ends with the advice.  If no generator was run then the summary of the options is shown; if generators were run, it is not, so that it does not hide their messages. -/
theorem C76_failure (E : Env W) (σ : Sched) (f : Flags) (opts : List Str) (res : Result W) (h : main E σ f opts = .ok res) (hs : res.status ≠ 0) :
    res.status = 1 ∧ res.shown.getLast? = some .advice ∧ (res.world = none ↔ ∃ p, Shown.usage p ∈ res.shown) ∧
      ∀ p, Shown.usage p ∈ res.shown → helpForLevels σ 1 E.optionsHelp .byOption = some p := by
  have key : ∀ (w : Option W) (u : Bool) (shown : List Shown), (u = true ↔ w = none) → (∀ p, Shown.usage p ∉ shown) → failed E σ w shown u = .ok res →
      res.status = 1 ∧ res.shown.getLast? = some .advice ∧ (res.world = none ↔ ∃ p, Shown.usage p ∈ res.shown) ∧
      ∀ p, Shown.usage p ∈ res.shown → helpForLevels σ 1 E.optionsHelp .byOption = some p := by
    intro w u shown hu hn hf
    obtain ⟨h1, h2, ⟨h3, p, hp, h4⟩ | ⟨h3, h4⟩⟩ := failed_cases hf
    · refine ⟨h1, by rw [h4]; simp, ?_, ?_⟩
      · rw [h2, h4]
        exact ⟨fun _ => ⟨p, by simp⟩, fun _ => hu.1 h3⟩
      · intro q hq
        rw [h4] at hq
        simp only [List.mem_append, List.mem_cons, Shown.usage.injEq, reduceCtorEq, List.not_mem_nil, or_false] at hq
        rcases hq with hq | rfl
        · exact absurd hq (hn q)
        · exact hp
    · have hnu : ∀ p, Shown.usage p ∉ res.shown := by
        intro p hq
        rw [h4] at hq
        simp only [List.mem_append, List.mem_cons, reduceCtorEq, List.not_mem_nil, or_false] at hq
        exact hn p hq
      refine ⟨h1, by rw [h4]; simp, ?_, fun p hq => absurd hq (hnu p)⟩
      rw [h2]
      constructor
      · intro hw
        rw [hu.2 hw] at h3
        cases h3
      · rintro ⟨p, hq⟩
        exact absurd hq (hnu p)
  obtain ⟨⟨m, ha⟩, -⟩ := C76_one f
  cases ha with
  | version hv =>
    rw [main_version E σ (.version hv)] at h
    cases h
    exact absurd rfl hs
  | help hv hh =>
    obtain ⟨p, -, hm⟩ := main_help E σ (.help hv hh) opts
    rw [hm] at h
    cases h
    exact absurd rfl hs
  | markers h1 h2 h3 =>
    rw [main, if_neg (by simp [h1]), if_neg (by simp [h2]), if_pos (Nat.pos_of_ne_zero h3)] at h
    cases hr : registryFromOptions E σ opts with
    | panic => rw [hr] at h; cases h
    | err e => rw [hr] at h; exact key none true [] (by simp) (by simp) h
    | ok r =>
      rw [hr] at h
      dsimp only at h
      cases hp : helpForLevels σ f.which r .byCategory with
      | none => rw [hp] at h; cases h
      | some p => rw [hp] at h; cases h; exact absurd rfl hs
  | run h1 h2 h3 =>
    rw [main, if_neg (by simp [h1]), if_neg (by simp [h2]), if_neg (by simp [h3])] at h
    cases hr : protoFromOptions E.options σ opts with
    | panic => rw [hr] at h; cases h
    | err e => rw [hr] at h; exact key none true [] (by simp) (by simp) h
    | ok rt =>
      rw [hr] at h
      dsimp only at h
      cases hl : E.load (tagsFlag f.tags) rt.paths with
      | none => rw [hl] at h; exact key none true [] (by simp) (by simp) h
      | some w =>
        rw [hl] at h
        dsimp only at h
        cases hg : registerAll E.register rt.generators {} with
        | none => rw [hg] at h; exact key none true [] (by simp) (by simp) h
        | some r =>
          rw [hg] at h
          dsimp only at h
          by_cases h0 : rt.generators.length = 0
          · rw [if_pos h0] at h; exact key none true [] (by simp) (by simp) h
          · rw [if_neg h0] at h
            obtain ⟨w', out, had, hrun⟩ : ∃ w' out had, run (runtimeRules E.join σ rt) E.errors E.visited rt.generators w = (w', out, had) := ⟨_, _, _, rfl⟩
            rw [hrun] at h
            dsimp only at h
            cases had with
            | true => rw [if_pos rfl] at h; exact key (some w') false [.messages out] (by simp) (by simp) h
            | false => rw [if_neg (by simp)] at h; cases h; exact absurd rfl hs

/-- **C76 (no crash).** The program crashes only where reading the options does, and never when it is asked for the version or for help. -/
theorem C76_no_crash (E : Env W) (σ : Sched) (f : Flags) (opts : List Str) (h : main E σ f opts = .panic) :
    (Asks f .markers ∨ Asks f .run) ∧ protoFromOptions E.options σ opts = .panic := by
  obtain ⟨⟨m, ha⟩, -⟩ := C76_one f
  by_cases hc : protoFromOptions E.options σ opts = .panic
  · refine ⟨?_, hc⟩
    cases ha with
    | version hv => rw [main_version E σ (.version hv)] at h; cases h
    | help hv hh =>
      obtain ⟨p, -, hm⟩ := main_help E σ (.help hv hh) opts
      rw [hm] at h
      cases h
    | markers h1 h2 h3 => exact Or.inl (.markers h1 h2 h3)
    | run h1 h2 h3 => exact Or.inr (.run h1 h2 h3)
  · exfalso
    cases ha with
    | version hv => rw [main_version E σ (.version hv)] at h; cases h
    | help hv hh =>
      obtain ⟨p, -, hm⟩ := main_help E σ (.help hv hh) opts
      rw [hm] at h
      cases h
    | markers h1 h2 h3 =>
      obtain ⟨res, hm, -⟩ := C76_markers E σ (.markers h1 h2 h3) opts hc
      rw [hm] at h
      cases h
    | run h1 h2 h3 =>
      obtain ⟨res, hm, -⟩ := C76_run E σ (reachable := fun w p => p ∈ E.visited w) (fun _ _ => Iff.rfl) (.run h1 h2 h3) opts hc
      rw [hm] at h
      cases h

/-- **C76 violated (advice).** After a failure the program says that the same call with `-w` shows all available markers.  If the options were the reason of the failure then that call fails too, and shows no markers, whatever the options are. -/
theorem C76_violated_advice (E : Env W) (σ σ' : Sched) (f : Flags) (hf : Asks f .run) (opts : List Str) (e e' : OptErr) (h : protoFromOptions E.options σ opts = .err e)
    (h' : protoFromOptions E.options σ' opts = .err e') (n : Nat) :
    (∃ res, main E σ f opts = .ok res ∧ res.status = 1 ∧ Shown.advice ∈ res.shown) ∧
    ∃ res, main E σ' { f with which := n + 1 } opts = .ok res ∧ res.status = 1 ∧ ∀ p, Shown.markers p ∉ res.shown := by
  cases hf with
  | run h1 h2 h3 =>
    constructor
    · rw [main, if_neg (by simp [h1]), if_neg (by simp [h2]), if_neg (by simp [h3]), h]
      obtain ⟨p, -, hf⟩ := failed_usage E σ none []
      exact ⟨_, hf, rfl, by simp⟩
    · rw [main, if_neg (by simp [h1]), if_neg (by simp [h2]), if_pos (Nat.succ_pos n), registryFromOptions, h']
      obtain ⟨p, -, hf⟩ := failed_usage E σ' none []
      exact ⟨_, hf, rfl, by simp⟩

/-- **C76 violated (all markers).** Without generators that call succeeds and shows no marker at any level: the text is empty, and JSON has no categories. -/
theorem C76_violated_no_generators (E : Env W) (σ : Sched) (f : Flags) (hf : Asks f .markers) (opts : List Str) (rt : ProtoRuntime (Gen W)) (h : protoFromOptions E.options σ opts = .ok rt) (hg : rt.generators = []) :
    ∃ p, main E σ f opts = .ok { world := none, shown := [.markers p], status := 0 } ∧ (p = .text [] ∨ p = .json [] ∨ p = .nothing) := by
  cases hf with
  | markers h1 h2 h3 =>
    have hb : Help.byCategory σ {} .byCategory = [] := by
      have hn : ∀ (i : Nat) (α : Type), σ.order i ([] : List α) = [] := fun i α => List.Perm.eq_nil (σ.perm i [])
      simp [Help.byCategory, HelpRegistry.allDefinitions, hn, GoMap.groupOn, sortBy]
    rw [main, if_neg (by simp [h1]), if_neg (by simp [h2]), if_pos (Nat.pos_of_ne_zero h3), registryFromOptions, h]
    simp only [hg, registerAll]
    match hw : f.which with
    | 0 => exact absurd hw h3
    | 1 => exact ⟨.text [], by simp [helpForLevels, hb, Help.printCats], Or.inl rfl⟩
    | 2 => exact ⟨.text [], by simp [helpForLevels, hb, Help.printCats], Or.inl rfl⟩
    | 3 => exact ⟨.text [], by simp [helpForLevels, hb, Help.printCats], Or.inl rfl⟩
    | 4 => exact ⟨.json [], by simp [helpForLevels, hb], Or.inr (Or.inl rfl)⟩
    | _ + 5 => exact ⟨.nothing, by simp [helpForLevels], Or.inr (Or.inr rfl)⟩

/-! ## Examples -/
namespace MainExample

/-- A generator that notes its context. -/
def gen (e : Option String) : Gen (List Ctx) := { needsChecking := true, generate := fun c w => (w ++ [c], e) }

/-- The options `crd`, `rbac` (which fails), `output:stdout` and `paths`; one marker. -/
def env : Env (List Ctx) where
  options := optionsRegistry fun n _ =>
    if n = "crd".toList then some (.generator (gen none)) else if n = "rbac".toList then some (.generator (gen (some "oops"))) else if n = "output:stdout".toList then some (.rule .stdout)
    else if n = "paths".toList then some (.paths ["./a".toList]) else none
  optionsHelp := {}
  ldflags := []
  info := some "v0.1.0".toList
  join := fun a b => a ++ '/' :: b
  load := fun tags _ => if tags = "-tags=ignore_autogenerated".toList then some [] else none
  register := fun _ r => some (r.step (.register (Help.Example.marker "a" .type 0)))
  errors := fun _ _ => []
  visited := fun _ => [0]

/-- What can be compared of a result. -/
def view : Outcome Empty (Result (List Ctx)) → Option (Option (List Ctx) × List Shown × Nat)
  | .ok r => some (r.world, r.shown, r.status)
  | _ => none

/-- A run that succeeds, and one with a generator that fails: both generators are run, and its message is shown. -/
example : view (main env .fifo {} ["crd".toList, "output:stdout".toList]) = some (some [⟨some .stdout, true⟩], [.messages []], 0) ∧
    view (main env .fifo {} ["rbac".toList, "crd".toList, "output:stdout".toList]) = some (some [⟨some .stdout, true⟩, ⟨some .stdout, true⟩], [.messages ["oops"], .advice], 1) := by decide +kernel

/-- Nothing is run: other tags, options that mean nothing, no generators. -/
example : view (main env .fifo { tags := [] } ["crd".toList]) = some (none, [.usage (.text []), .advice], 1) ∧
    view (main env .fifo {} ["crd:x".toList]) = some (none, [.usage (.text []), .advice], 1) ∧
    view (main env .fifo {} ["paths=./a".toList]) = some (none, [.usage (.text []), .advice], 1) := by decide +kernel

/-- The version is shown, even if the options mean nothing; it goes before help. -/
example : view (main env .fifo { version := true, help := 2 } ["what".toList]) = some (none, [.version "Version: v0.1.0\n".toList], 0) := by decide +kernel

/-- The markers of the generators are shown. -/
example : (match main env .fifo { which := 4 } ["crd".toList] with | .ok ⟨none, [.markers (.json cs)], 0⟩ => cs.flatMap fun c => c.markers.map (·.name) | _ => []) = ["a".toList] := by decide +kernel

/-- The generators of the first run were ready. -/
example : ∃ rt, Ready env .fifo {} ["crd".toList, "output:stdout".toList] rt [] := by
  obtain ⟨rt, h⟩ : ∃ rt, protoFromOptions env.options .fifo ["crd".toList, "output:stdout".toList] = .ok rt := by
    cases h : protoFromOptions env.options .fifo ["crd".toList, "output:stdout".toList] with
    | ok rt => exact ⟨rt, rfl⟩
    | err e =>
      have : (match protoFromOptions env.options .fifo ["crd".toList, "output:stdout".toList] with | .ok _ => true | _ => false) = true := by decide +kernel
      rw [h] at this
      cases this
    | panic =>
      have : (match protoFromOptions env.options .fifo ["crd".toList, "output:stdout".toList] with | .ok _ => true | _ => false) = true := by decide +kernel
      rw [h] at this
      cases this
  have hlen : ∀ x, protoFromOptions env.options .fifo ["crd".toList, "output:stdout".toList] = .ok x → x.generators.length = 1 := by
    intro x hx
    have : (match protoFromOptions env.options .fifo ["crd".toList, "output:stdout".toList] with | .ok x => x.generators.length | _ => 0) = 1 := by decide +kernel
    rwa [hx] at this
  have htags : "-tags=".toList ++ Text.join ',' ({} : Flags).tags = "-tags=ignore_autogenerated".toList := by decide +kernel
  refine ⟨rt, h, (by unfold env; dsimp only; rw [if_pos htags]), ?_, fun e => by have := hlen rt h; rw [e] at this; cases this⟩
  match hg : rt.generators with
  | [] => exact ⟨_, .nil⟩
  | [g] => exact ⟨_, .cons rfl .nil⟩
  | _ :: _ :: _ => have := hlen rt h; rw [hg] at this; simp at this

end MainExample

end Verif.Genall

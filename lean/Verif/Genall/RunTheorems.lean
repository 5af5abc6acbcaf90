import Verif.Genall.Run
/-!
# Running the generators (C35)
-/
namespace Verif.Genall
open Markers (Str Registry)
open Loader (PkgErr ErrKind printErrors)

variable {W : Type}

namespace Spec

/-- The generators are run one after the other from the world `w` to the world `w'`, each once, and each with its own output rule, and with a type checker exactly if it needs one; `rs` are the errors that they
return (`none`: no error).  The first generator of the list is number `i`. -/
inductive Executes (rules : OutputRules) : Nat → List (Gen W) → W → List (Option String) → W → Prop
  | done {i : Nat} {w : W} : Executes rules i [] w [] w
  | step {i : Nat} {g : Gen W} {gs : List (Gen W)} {ctx : Ctx} {w w₁ w₂ : W} {r : Option String} {rs : List (Option String)} :
      ctx.rule = rules.forGenerator i → ctx.checker = g.needsChecking → g.generate ctx w = (w₁, r) → Executes rules (i + 1) gs w₁ rs w₂ →
      Executes rules i (g :: gs) w (r :: rs) w₂

/-- The run from `w` fails: there is nothing to run, or a generator returns an error, or afterwards one of the packages that can be reached from the roots has an error that is not a type error. -/
def Fails (rules : OutputRules) (errors : W → Nat → List PkgErr) (reachable : W → Nat → Prop) (gens : List (Gen W)) (w : W) : Prop :=
  gens = [] ∨ ∃ rs w', Executes rules 0 gens w rs w' ∧ ((∃ e, some e ∈ rs) ∨ ∃ p e, reachable w' p ∧ e ∈ errors w' p ∧ e.kind ≠ .type)

end Spec
open Spec

theorem Spec.Executes.det {rules : OutputRules} {i : Nat} {gens : List (Gen W)} {w w₁ w₂ : W} {rs₁ rs₂ : List (Option String)} (h₁ : Executes rules i gens w rs₁ w₁) (h₂ : Executes rules i gens w rs₂ w₂) :
    rs₁ = rs₂ ∧ w₁ = w₂ := by
  induction h₁ generalizing rs₂ w₂ with
  | done => cases h₂; exact ⟨rfl, rfl⟩
  | @step i g gs ctx w w1 w2 r rs a1 a2 a3 a4 ih =>
    cases h₂ with
    | @step _ _ _ ctx' _ w1' _ r' rs' b1 b2 b3 b4 =>
      have : ctx = ctx' := by cases ctx; cases ctx'; simp_all
      subst this
      rw [a3] at b3
      cases b3
      obtain ⟨rfl, rfl⟩ := ih b4
      exact ⟨rfl, rfl⟩

theorem Spec.Executes.length {rules : OutputRules} {i : Nat} {gens : List (Gen W)} {w w₁ : W} {rs : List (Option String)} (h : Executes rules i gens w rs w₁) : rs.length = gens.length := by
  induction h with
  | done => rfl
  | step _ _ _ _ ih => simp [ih]

theorem runLoop_executes (rules : OutputRules) : ∀ (gens : List (Gen W)) (i : Nat) (w : W) (out : List String) (had : Bool),
    ∃ rs w', Executes rules i gens w rs w' ∧ runLoop rules i gens w out had = (w', out ++ rs.filterMap id, had || rs.any Option.isSome) := by
  intro gens
  induction gens with
  | nil => intro i w out had; exact ⟨[], w, .done, by simp [runLoop]⟩
  | cons g gs ih =>
    intro i w out had
    rw [runLoop]
    cases hg : g.generate (ctxFor rules i g) w with
    | mk w1 r =>
      cases r with
      | none =>
        obtain ⟨rs, w', h1, h2⟩ := ih (i + 1) w1 out had
        exact ⟨none :: rs, w', .step rfl (by cases h : g.needsChecking <;> simp [ctxFor, h]) hg h1, by simp [h2]⟩
      | some e =>
        obtain ⟨rs, w', h1, h2⟩ := ih (i + 1) w1 (out ++ [e]) true
        exact ⟨some e :: rs, w', .step rfl (by cases h : g.needsChecking <;> simp [ctxFor, h]) hg h1, by simp [h2]⟩

/-- **C35** (run).  Every generator is run, once, in order and with its own output rule, whether or not those before it returned errors; all errors are printed, in order. -/
theorem C35_run (rules : OutputRules) (errors : W → Nat → List PkgErr) (visited : W → List Nat) {gens : List (Gen W)} (hg : gens ≠ []) (w : W) :
    ∃ rs, Executes rules 0 gens w rs (run rules errors visited gens w).1 ∧ rs.length = gens.length ∧ (run rules errors visited gens w).2.1 = rs.filterMap id := by
  obtain ⟨rs, w', h1, h2⟩ := runLoop_executes rules gens 0 w [] false
  rw [run, if_neg hg, h2]
  exact ⟨rs, h1, h1.length, by simp⟩

/-- **C35** (reported).  The run reports failure exactly if there is nothing to run, or a generator returned an error, or one of the packages that can be reached has an error that is not a type error. -/
theorem C35_reported (rules : OutputRules) (errors : W → Nat → List PkgErr) (visited : W → List Nat) {reachable : W → Nat → Prop} (hv : ∀ w p, p ∈ visited w ↔ reachable w p) (gens : List (Gen W)) (w : W) :
    (run rules errors visited gens w).2.2 = true ↔ Fails rules errors reachable gens w := by
  by_cases hg : gens = []
  · rw [run, if_pos hg]
    simp [Fails, hg]
  · obtain ⟨rs, w', h1, h2⟩ := runLoop_executes rules gens 0 w [] false
    rw [run, if_neg hg, h2]
    simp only [Bool.or_eq_true, Bool.false_or]
    rw [(Loader.C42_printed (hv w') [.type]).1]
    have hany : rs.any Option.isSome = true ↔ ∃ e, some e ∈ rs := by
      rw [List.any_eq_true]
      constructor
      · rintro ⟨x, hx, hs⟩
        obtain ⟨e, rfl⟩ := Option.isSome_iff_exists.1 hs
        exact ⟨e, hx⟩
      · rintro ⟨e, he⟩
        exact ⟨some e, he, rfl⟩
    rw [hany]
    constructor
    · intro h
      refine .inr ⟨rs, w', h1, ?_⟩
      rcases h with ⟨p, e, h3, h4, h5⟩ | h
      · exact .inr ⟨p, e, h3, h4, by simpa using h5⟩
      · exact .inl h
    · rintro (h | ⟨rs', w'', h3, h4⟩)
      · exact absurd h hg
      · obtain ⟨rfl, rfl⟩ := h1.det h3
        rcases h4 with h4 | ⟨p, e, h5, h6, h7⟩
        · exact .inr h4
        · exact .inl ⟨p, e, h5, h6, by simpa using h7⟩

/-- **C35** (nothing to run).  Without generators nothing changes. -/
theorem C35_nothing (rules : OutputRules) (errors : W → Nat → List PkgErr) (visited : W → List Nat) (w : W) :
    run rules errors visited [] w = (w, ["no generators to run"], true) := rfl

/-- **C35** (filters).  The type checker gets the filters of all generators that have one, in order. -/
theorem C35_filters {φ : Type} (filter : Gen W → φ) (gens : List (Gen W)) : checkFilters filter gens = (gens.filter (·.needsChecking)).map filter := by
  induction gens with
  | nil => rfl
  | cons g gs ih => rw [checkFilters]; cases h : g.needsChecking <;> simp [h, ih]

/-- **C35** (exit status).  The command succeeds exactly if all options mean something and fit together, the packages can be loaded, and the run of the generators that are given, each with its rule, does not fail (there is
a generator, none returns an error, and no package has an error that is not a type error). -/
theorem C35_exit (reg : Registry (Parser (Gen W))) (σ : Sched) (join : Str → Str → Str) (load : List Str → List (Gen W) → Option W) (errors : W → Nat → List PkgErr) (visited : W → List Nat)
    {reachable : W → Nat → Prop} (hv : ∀ w p, p ∈ visited w ↔ reachable w p) (opts : List Str) :
    exitStatus reg σ join load errors visited opts = .ok 0 ↔
      ∃ rt w, protoFromOptions reg σ opts = .ok rt ∧ load rt.paths rt.generators = some w ∧ ¬ Fails (runtimeRules join σ rt) errors reachable rt.generators w := by
  rw [exitStatus]
  cases hp : protoFromOptions reg σ opts with
  | panic => simp
  | err e => simp
  | ok rt =>
    simp only
    cases hl : load rt.paths rt.generators with
    | none => simp [hl]
    | some w =>
      simp only
      have hr := C35_reported (runtimeRules join σ rt) errors visited hv rt.generators w
      by_cases h0 : rt.generators.length = 0
      · rw [if_pos h0]
        have : rt.generators = [] := List.length_eq_zero_iff.1 h0
        constructor
        · intro h; cases h
        · rintro ⟨rt', w', h1, h2, h3⟩
          cases h1
          exact absurd (.inl this) h3
      · rw [if_neg h0]
        by_cases hrun : (run (runtimeRules join σ rt) errors visited rt.generators w).2.2 = true
        · rw [if_pos hrun]
          constructor
          · intro h; cases h
          · rintro ⟨rt', w', h1, h2, h3⟩
            cases h1
            rw [hl] at h2
            cases h2
            exact absurd (hr.1 hrun) h3
        · rw [if_neg hrun]
          exact ⟨fun _ => ⟨rt, w, rfl, hl, fun h => hrun (hr.2 h)⟩, fun _ => rfl⟩

/-! ## Examples -/
namespace Example

/-- A generator that writes its number and context into the world, and fails if `e` is an error. -/
def logGen (k : Nat) (needs : Bool) (e : Option String) : Gen (List (Nat × Ctx)) := { needsChecking := needs, generate := fun c w => (w ++ [(k, c)], e) }

/-- The first generator fails; the second one is run all the same, and the run is a failure. -/
example : run { default := some .stdout, byGenerator := [(1, .nothing)] } (fun _ _ => []) (fun _ => [0]) [logGen 7 true (some "oops"), logGen 8 false none] [] =
    ([(7, { rule := some .stdout, checker := true }), (8, { rule := some .nothing, checker := false })], ["oops"], true) := by decide +kernel

/-- Nothing fails. -/
example : ¬ Fails { default := some .stdout, byGenerator := [] } (fun _ _ => [⟨"x.go:1", "undefined", .type⟩]) (fun _ p => p = 0) [logGen 7 true none] [] := by
  rw [← C35_reported _ _ (fun _ => [0]) (by simp)]
  decide +kernel

end Example
end Verif.Genall

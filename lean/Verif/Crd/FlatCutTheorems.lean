import Verif.Crd.FlatCut
import Verif.Crd.FlatTheorems

/-! # C51 and C52 for types that may be recursive -/
namespace Verif.Crd
open Spec

/-- C51 (partial).  For all types, recursive ones included: what the type accepts is accepted by its flattened schema, whatever has been flattened before.  Missing: the other direction, which is
false for recursive types (`C51_violated`) and holds for all others (`C51_meaning_partial`), and oneOf and not, which the generator does not emit. -/
theorem C51_recursive_partial (M : Meaning) (env : Env) (V : String → Schema → Json → Prop) (hV : RefMeaning M env V) (σ : Sched) (ids : List TypeIdent)
    (h : ∀ id ∈ ids, ∃ s, env.raw id = some s ∧ Good env id.pkg s)
    (id : TypeIdent) (s : Schema) (hr : env.raw id = some s) (hg : Good env id.pkg s) (hk : AllKeys env id.pkg s)
    (hp : ∀ q c, Reach env id.pkg s q c → c.oneOf = [] ∧ c.not = none) :
    ∃ ts st t u, flattenTypes env σ ids {} = .ok (ts, st) ∧ flattenType env σ id st = .ok (some t, u) ∧ ∀ j, V id.pkg s j → Valid M t j := by
  obtain ⟨ts, st, h1, -, -, h2, -⟩ := flattenTypes_noRef env σ ids {} h nofun
  have hx := flattenTypes_approx env σ ids {} st ts h nofun nofun h1
  obtain ⟨t, u, e, -⟩ := flattenType_noRef env σ hr hg h2
  exact ⟨ts, st, t, u, h1, e, approx_accepts hV (flattenType_approx env σ hr hg hx e).2 hk hp⟩

/-- C51.  The hypothesis on `V` can be met for recursive types as well: when no schema uses oneOf and not, schemas with references have a meaning. -/
theorem C51_meaning_exists_recursive (M : Meaning) (env : Env) (hp : ∀ id u, env.raw id = some u → ∀ c, Sub u c → c.oneOf = [] ∧ c.not = none) : ∃ V, RefMeaning M env V :=
  refMeaning_positive M hp

/-- C52 (partial).  For all types, recursive ones included: in the flattened schema of a type, each field that has a description, title, external documentation or example of its own keeps it.
Missing: what fields inherit from recursive types, which may be nothing (`C52_violated`). -/
theorem C52_own_partial (env : Env) (σ : Sched) (ids : List TypeIdent) (h : ∀ id ∈ ids, ∃ s, env.raw id = some s ∧ Good env id.pkg s)
    (id : TypeIdent) (s : Schema) (hr : env.raw id = some s) (hg : Good env id.pkg s) :
    ∃ ts st t u, flattenTypes env σ ids {} = .ok (ts, st) ∧ flattenType env σ id st = .ok (some t, u) ∧
      ∀ p c, s.at p = some c → (∀ p' x, p' <+: p → p' ≠ p → s.at p' = some x → x.base.ref = none) →
        ∃ c', t.at p = some c' ∧ (c.base.description ≠ [] → c'.base.description = c.base.description) ∧ (c.base.title ≠ "" → c'.base.title = c.base.title) ∧
          (c.base.externalDocs ≠ none → c'.base.externalDocs = c.base.externalDocs) ∧ (c.base.example_ ≠ none → c'.base.example_ = c.base.example_) := by
  obtain ⟨ts, st, h1, -, -, h2, -⟩ := flattenTypes_noRef env σ ids {} h nofun
  have hx := flattenTypes_approx env σ ids {} st ts h nofun nofun h1
  obtain ⟨t, u, e, -⟩ := flattenType_noRef env σ hr hg h2
  refine ⟨ts, st, t, u, h1, e, fun p c hc hp => ?_⟩
  obtain ⟨c', ha, hE⟩ := approx_at p (flattenType_approx env σ hr hg hx e).2 hc hp
  exact ⟨c', ha, approx_own (·.description) [] (fun _ _ => rfl) hE, approx_own (·.title) "" (fun _ _ => rfl) hE, approx_own (·.externalDocs) none (fun _ _ => rfl) hE,
    approx_own (·.example_) none (fun _ _ => rfl) hE⟩

/-! ## Recursive types -/
namespace RecursiveExample

def object (ps : List (String × Schema)) : Schema := .mk { type := "object" } none [] [] [] none ps none [] [] none []
def link (r : String) : Schema := .leaf { ref := some r }

/-- `type List struct { Name string; Next *List }` -/
def listRaw : Schema := object [("name", .leaf { type := "string" }), ("next", link "#/definitions/List")]

def listEnv : Env where
  imports := fun _ _ => none
  schemata := [(⟨"v1", "List"⟩, listRaw)]

def listNodes : List (String × Schema) := [("v1", listRaw), ("v1", .leaf { type := "string" }), ("v1", link "#/definitions/List")]

theorem listGood : Good listEnv "v1" listRaw :=
  ⟨closed_of (L := listNodes) (by decide +kernel) (by decide +kernel) (by decide +kernel), bare_of (L := listNodes) (by decide +kernel) (by decide +kernel) (by decide +kernel),
   distinct_of 1 (L := listNodes) (by decide +kernel) (by decide +kernel) (by decide +kernel)⟩

theorem listKeys : AllKeys listEnv "v1" listRaw := keys_of (L := listNodes) (by decide +kernel) (by decide +kernel) (by decide +kernel)

theorem listPositive (q : String) (c : Schema) (h : Reach listEnv "v1" listRaw q c) : c.oneOf = [] ∧ c.not = none := by
  have := reach_in (L := listNodes) (by decide +kernel) (by decide +kernel) h
  have hall : ∀ n ∈ listNodes, n.2.oneOf = [] ∧ n.2.not = none := by decide +kernel
  exact hall _ this

/-- The flattened schema goes two levels deep. -/
def listFlat : Schema :=
  object [("name", .leaf { type := "string" }),
    ("next", .mk {} none [object [("name", .leaf { type := "string" }), ("next", .mk {} none [.empty, .empty] [] [] none [] none [] [] none [])], .empty] [] [] none [] none [] [] none [])]

theorem valid_object {M : Meaning} {ps : List (String × Schema)} {m : List (String × Json)} (h : ∀ e ∈ ps, ∀ v, m.lookup e.1 = some v → Valid M e.2 v) : Valid M (object ps) (.obj m) := by
  rw [valid_iff]
  simp only [object, Schema.base_mk, Schema.items_mk, Schema.allOf_mk, Schema.oneOf_mk, Schema.anyOf_mk, Schema.not_mk, Schema.properties_mk,
    Schema.additionalProperties_mk, Schema.patternProperties_mk, Schema.dependencies_mk, Schema.additionalItems_mk, ValidItems, ValidAll, ValidOpt, ValidAddl, ValidPats, ValidDeps]
  refine ⟨?_, trivial, trivial, fun h => absurd rfl h, fun h => absurd rfl h, fun h => h, validProps_iff.2 h, trivial, trivial, trivial, trivial⟩
  constructor <;> simp [TypeOk, HasType, MaxOk, MinOk]

def flat? (r : Except Stop (Option Schema × FState)) : Option Schema :=
  match r with
  | .ok (some t, _) => some t
  | _ => none

theorem list_flat : flat? (flattenType listEnv .fifo ⟨"v1", "List"⟩ {}) = some listFlat := by decide +kernel

/-- A list of three elements, of which the last one has a number for its name. -/
def badList : Json := .obj [("next", .obj [("next", .obj [("name", .num 5)])])]

/-- A list of three elements. -/
def goodList : Json := .obj [("name", .str "a"), ("next", .obj [("name", .str "b"), ("next", .obj [("name", .str "c")])])]

end RecursiveExample

open RecursiveExample in
/-- C51 is violated for recursive types: the flattened schema of a list accepts a list that the type does not accept, whatever meaning the type is given. -/
theorem C51_violated (M : Meaning) : Good listEnv "v1" listRaw ∧ AllKeys listEnv "v1" listRaw ∧ (∃ V, RefMeaning M listEnv V) ∧
    ∃ t st, flattenType listEnv .fifo ⟨"v1", "List"⟩ {} = .ok (some t, st) ∧ ∃ j, Valid M t j ∧ ∀ V, RefMeaning M listEnv V → ¬ V "v1" listRaw j := by
  refine ⟨listGood, listKeys, ?_, ?_⟩
  · refine C51_meaning_exists_recursive M listEnv fun id u hu c hc => ?_
    have h1 : GoMap.get [((⟨"v1", "List"⟩ : TypeIdent), listRaw)] id = some u := hu
    rw [GoMap.get] at h1
    split at h1
    · cases h1
      have hre : ∀ {s t}, Sub s t → Reach listEnv "v1" listRaw "v1" s → Reach listEnv "v1" listRaw "v1" t := by
        intro s t h
        induction h with
        | refl => exact fun h => h
        | step h1 _ ih => exact fun h => ih (.child h h1)
      exact listPositive _ _ (hre hc .refl)
    · cases h1
  · have hf := list_flat
    unfold flat? at hf
    split at hf
    · rename_i t st heq
      cases hf
      refine ⟨_, st, heq, badList, ?_, ?_⟩
      · have hin : Valid M (object [("name", .leaf { type := "string" }), ("next", preserveFields .empty (link "#/definitions/List"))]) (.obj [("next", .obj [("name", .num 5)])]) := by
          apply valid_object
          intro e he v hv
          rcases List.mem_cons.1 he with rfl | he
          · cases hv
          · cases List.mem_singleton.1 he
            exact valid_preserve.2 ⟨valid_empty M v, valid_empty M v⟩
        apply valid_object
        intro e he v hv
        rcases List.mem_cons.1 he with rfl | he
        · cases hv
        · cases List.mem_singleton.1 he
          cases hv
          exact (valid_preserve (s := link "#/definitions/List")).2 ⟨hin, valid_empty M _⟩
      · intro V hV hj
        have name : ∀ {j}, V "v1" listRaw j → j.get "name" ≠ some (.num 5) := by
          intro j h hn
          have := ((hV _ _ _).1 h).1.properties "name" (.leaf { type := "string" }) (.num 5) (List.mem_cons_self ..) hn
          rcases ((hV _ _ _).1 this).1.plain.type with ⟨h1, -⟩ | ⟨h1, -⟩
          · obtain ⟨s, hs⟩ := h1 rfl; cases hs
          · cases h1
        have next : ∀ {j v}, V "v1" listRaw j → j.get "next" = some v → V "v1" listRaw v := by
          intro j v h hn
          have := ((hV _ _ _).1 h).1.properties "next" (link "#/definitions/List") v (List.mem_cons_of_mem _ (List.mem_cons_self ..)) hn
          exact ((hV _ _ _).1 this).2 "#/definitions/List" ⟨"v1", "List"⟩ listRaw rfl ⟨by decide +kernel, by rfl⟩
        exact name (next (next hj rfl) rfl) rfl
    · cases hf

open RecursiveExample in
/-- C51, nontrivial case: a recursive type meets the hypotheses of `C51_recursive_partial`, and its flattened schema accepts a list of three elements. -/
example (M : Meaning) : ∃ t st, flattenType listEnv .fifo ⟨"v1", "List"⟩ {} = .ok (some t, st) ∧ ∃ V, RefMeaning M listEnv V ∧ ∀ j, V "v1" listRaw j → Valid M t j := by
  obtain ⟨V, hV⟩ := (C51_violated M).2.2.1
  obtain ⟨ts, st, t, u, h1, h2, h3⟩ := C51_recursive_partial M listEnv V hV .fifo [] nofun ⟨"v1", "List"⟩ listRaw (by decide +kernel) listGood listKeys listPositive
  cases h1
  exact ⟨t, u, h2, V, hV, h3⟩

namespace RecursiveExample

/-- `A` and `B` refer to each other, and `R` refers to `A`; `A` is documented. -/
def rawR : Schema := object [("a", link "#/definitions/A")]
def rawA : Schema := .mk { type := "object", description := [65] } none [] [] [] none [("b", link "#/definitions/B")] none [] [] none []
def rawB : Schema := object [("a", link "#/definitions/A"), ("own", .leaf { description := [66], ref := some "#/definitions/A" })]

def docEnv : Env where
  imports := fun _ _ => none
  schemata := [(⟨"v1", "R"⟩, rawR), (⟨"v1", "A"⟩, rawA), (⟨"v1", "B"⟩, rawB)]

def docNodes : List (String × Schema) :=
  [("v1", rawR), ("v1", rawA), ("v1", rawB), ("v1", link "#/definitions/A"), ("v1", link "#/definitions/B"), ("v1", .leaf { description := [66], ref := some "#/definitions/A" })]

theorem docGood : Good docEnv "v1" rawR ∧ Good docEnv "v1" rawB :=
  ⟨⟨closed_of (L := docNodes) (by decide +kernel) (by decide +kernel) (by decide +kernel), bare_of (L := docNodes) (by decide +kernel) (by decide +kernel) (by decide +kernel),
    distinct_of 1 (L := docNodes) (by decide +kernel) (by decide +kernel) (by decide +kernel)⟩,
   ⟨closed_of (L := docNodes) (by decide +kernel) (by decide +kernel) (by decide +kernel), bare_of (L := docNodes) (by decide +kernel) (by decide +kernel) (by decide +kernel),
    distinct_of 1 (L := docNodes) (by decide +kernel) (by decide +kernel) (by decide +kernel)⟩⟩

/-- The description at a path of a type that is flattened after others. -/
def docAfter (env : Env) (ids : List TypeIdent) (id : TypeIdent) (p : List Step) : Option Bytes :=
  match flattenTypes env .fifo ids {} with
  | .ok (_, st) => (flat? (flattenType env .fifo id st)).bind fun t => (t.at p).map (·.base.description)
  | _ => none

end RecursiveExample

open RecursiveExample in
/-- C52 is violated for recursive types: after the type `R`, which refers to `A`, the field `a` of `B` has lost the documentation of its type `A`, though it has none of its own. -/
theorem C52_violated : (∃ s, docEnv.raw ⟨"v1", "R"⟩ = some s ∧ Good docEnv "v1" s) ∧ docEnv.raw ⟨"v1", "B"⟩ = some rawB ∧ Good docEnv "v1" rawB ∧
    ∃ c, rawB.at [.property "a"] = some c ∧ ∃ d, docAfter docEnv [⟨"v1", "R"⟩] ⟨"v1", "B"⟩ [.property "a"] = some d ∧ ¬ Doc docEnv (·.description) [] "v1" c d := by
  refine ⟨⟨rawR, by decide +kernel, docGood.1⟩, by decide +kernel, docGood.2, link "#/definitions/A", by decide +kernel, [], by decide +kernel, ?_⟩
  intro h
  have hA : ∀ d, Doc docEnv (·.description) [] "v1" rawA d → d = [65] := by
    intro d h
    cases h with
    | own _ => rfl
    | type h0 => exact absurd h0 (by decide)
  have key : ∀ c d, c = link "#/definitions/A" → Doc docEnv (·.description) [] "v1" c d → d = [65] := by
    intro c d hc h
    cases h with
    | own h => subst hc; exact absurd h (by decide)
    | type h0 hr hl h1 =>
      subst hc
      cases hr
      have e1 : docEnv.find "#/definitions/A" "v1" = .ok ⟨"v1", "A"⟩ := by decide +kernel
      have e2 := e1.symm.trans hl.1
      cases e2
      have e3 : docEnv.raw ⟨"v1", "A"⟩ = some rawA := by decide +kernel
      have e4 := e3.symm.trans hl.2
      cases e4
      exact hA _ h1
  have := key _ _ rfl h
  cases this

open RecursiveExample in
/-- C52, nontrivial case: the recursive types meet the hypotheses of `C52_own_partial`; where the field is documented itself, it stays so. -/
example : (∀ id ∈ [(⟨"v1", "R"⟩ : TypeIdent)], ∃ s, docEnv.raw id = some s ∧ Good docEnv id.pkg s) ∧ docEnv.raw ⟨"v1", "B"⟩ = some rawB ∧ Good docEnv "v1" rawB ∧
    docAfter docEnv [⟨"v1", "R"⟩] ⟨"v1", "B"⟩ [.property "own"] = some [66] := by
  refine ⟨fun id hid => ?_, by decide +kernel, docGood.2, by decide +kernel⟩
  rw [List.mem_singleton] at hid; subst hid
  exact ⟨rawR, by decide +kernel, docGood.1⟩

end Verif.Crd

import Verif.Genall.OptionsTheorems
/-!
# The options of `controller-gen`, and examples
-/
namespace Verif.Genall
open Markers (Str Def Registry Target)
open Spec

variable {γ : Type}

theorem optionNames_plain : ∀ n ∈ optionNames, '=' ∉ n := by decide +kernel

/-- What is registered under a name. -/
theorem optionsRegistry_get (parser : Str → Parser γ) (n : Str) :
    GoMap.get (Markers.tableOf (optionsRegistry parser) .package) n = if n ∈ optionNames then some { name := n, target := .package, payload := parser n } else none := by
  rcases Markers.after_get (optionNames.map fun n => ({ name := n, target := .package, payload := parser n } : Def (Parser γ))) n .package (.inl rfl) with
    ⟨d, h1, _, h2, _, b, a, h3, _⟩ | ⟨h1, h2⟩
  · rw [optionsRegistry, h1]
    have hd : d ∈ (optionNames.map fun n => ({ name := n, target := .package, payload := parser n } : Def (Parser γ))) := by rw [h3]; simp
    obtain ⟨n', hn', rfl⟩ := List.mem_map.1 hd
    simp only at h2
    subst h2
    rw [if_pos hn']
  · rw [optionsRegistry, h1, if_neg]
    intro hn
    rcases h2 with h2 | h2
    · exact h2 (.inl rfl)
    · exact h2 _ (List.mem_map.2 ⟨n, hn, rfl⟩) ⟨rfl, rfl⟩

/-- **C34** (known).  Only the options of the tool are known: the generators, `output:generator:rule`, `output:rule` and `paths`. -/
theorem C34_known {parser : Str → Parser γ} {opt : Str} {m : Str × Value γ} (h : Means (optionsRegistry parser) opt m) :
    m.1 ∈ allGenerators ∨ (∃ r ∈ allOutputRules, m.1 = "output:".toList ++ r) ∨ (∃ g ∈ allGenerators, ∃ r ∈ allOutputRules, m.1 = "output:".toList ++ g ++ ':' :: r) ∨ m.1 = "paths".toList := by
  obtain ⟨raw, d, _, hl, hn, _⟩ := h
  have hmem : d.name ∈ optionNames := by
    rw [Markers.lookup_eq _ _ _ (.inl rfl), Markers.tryAnonLookup] at hl
    simp only [optionsRegistry_get] at hl
    split at hl
    · rename_i d' hd
      cases hl
      split at hd
      · rename_i hm; cases hd; exact hm
      · cases hd
    · split at hl
      · rename_i hm; cases hl; exact hm
      · cases hl
  rw [← hn]
  rw [optionNames, List.mem_append, List.mem_append] at hmem
  rcases hmem with (hmem | hmem) | hmem
  · obtain ⟨g, hg, h⟩ := List.mem_flatMap.1 hmem
    rcases List.mem_cons.1 h with h | h
    · exact .inl (h ▸ hg)
    · obtain ⟨r, hr, h⟩ := List.mem_map.1 h
      exact .inr (.inr (.inl ⟨g, hg, r, hr, h.symm⟩))
  · obtain ⟨r, hr, h⟩ := List.mem_map.1 hmem
    exact .inr (.inl ⟨r, hr, h.symm⟩)
  · exact .inr (.inr (.inr (List.mem_singleton.1 hmem)))

/-- **C34** (found).  Every option of the tool is found under its name alone, with a value (`name=…`), and with arguments (`name:field=…`, unless `name:field` is an option itself), whatever the text of the
value is. -/
theorem C34_found (parser : Str → Parser γ) {n : Str} (hn : n ∈ optionNames) (value : Str) :
    (∃ d, (optionsRegistry parser).lookup ('+' :: n) .package = some d ∧ d.name = n ∧ d.payload = parser n) ∧
    (∃ d, (optionsRegistry parser).lookup ('+' :: (n ++ '=' :: value)) .package = some d ∧ d.name = n ∧ d.payload = parser n) ∧
    (∀ field, '=' ∉ field → ':' ∉ field → n ++ ':' :: field ∉ optionNames →
      ∃ d, (optionsRegistry parser).lookup ('+' :: (n ++ ':' :: field ++ '=' :: value)) .package = some d ∧ d.name = n ∧ d.payload = parser n) := by
  have he := optionNames_plain n hn
  refine ⟨?_, ?_, ?_⟩
  · rw [Markers.lookup_eq _ _ _ (.inl rfl), Markers.tryAnonLookup, Markers.splitMarker_plain he]
    simp only [optionsRegistry_get, if_pos hn]
    exact ⟨_, rfl, rfl, rfl⟩
  · rw [Markers.lookup_eq _ _ _ (.inl rfl), Markers.tryAnonLookup, Markers.splitMarker]
    simp only [List.tail_cons, Markers.splitMarkerBody, Text.cut_append he, optionsRegistry_get, if_pos hn]
    exact ⟨_, rfl, rfl, rfl⟩
  · intro field h1 h2 h3
    have he' : '=' ∉ n ++ ':' :: field := by simp [he, h1]
    rw [Markers.lookup_eq _ _ _ (.inl rfl), Markers.tryAnonLookup, Markers.splitMarker_colon he' h2]
    simp only [optionsRegistry_get, if_neg h3, if_pos hn]
    exact ⟨_, rfl, rfl, rfl⟩

/-- **C34** (addressed).  `output:generator:rule` is a rule for the generator, `output:rule` a default. -/
theorem C34_addressed {r : Str} (hr : r ∈ allOutputRules) : Addressed ("output:".toList ++ r) none ∧ ∀ g ∈ allGenerators, Addressed ("output:".toList ++ g ++ ':' :: r) (some g) := by
  have h1 : ∀ r ∈ allOutputRules, ':' ∉ r := by decide +kernel
  have h2 : ∀ g ∈ allGenerators, ':' ∉ g ∧ g ≠ [] := by decide +kernel
  constructor
  · exact Addressed.default (a := "output".toList) (rule := r) (by decide +kernel) (h1 r hr)
  · intro g hg
    exact Addressed.generator (a := "output".toList) (by decide +kernel) (h2 g hg).1 (h2 g hg).2

/-- **C34** (no crash) for the tool: if output rules are what the definitions of output rules make, options that are not empty do not make it crash. -/
theorem C34_tool_no_crash_partial (parser : Str → Parser γ) (hp : ∀ n raw r, parser n raw = some (.rule r) → n ∉ allGenerators ∧ n ≠ "paths".toList) (σ : Sched) {opts : List Str} (h : [] ∉ opts) :
    protoFromOptions (optionsRegistry parser) σ opts ≠ .panic := by
  refine C34_no_crash_partial σ h ?_
  intro opt _ n r hm
  have hk := C34_known hm
  obtain ⟨raw, d, _, hl, hn, hpay⟩ := hm
  have hpd : d.payload = parser d.name := by
    rw [Markers.lookup_eq _ _ _ (.inl rfl), Markers.tryAnonLookup] at hl
    simp only [optionsRegistry_get] at hl
    split at hl
    · rename_i d' hd
      cases hl
      split at hd
      · cases hd; rfl
      · cases hd
    · split at hl
      · cases hl; rfl
      · cases hl
  simp only at hn hk
  rw [hpd, hn] at hpay
  obtain ⟨h1, h2⟩ := hp n raw r hpay
  rcases hk with hk | ⟨r', _, hk⟩ | ⟨g, _, r', _, hk⟩ | hk
  · exact absurd hk h1
  · rw [hk]; simp
  · rw [hk]; simp
  · exact absurd hk h2

/-- **C34**, violated: an empty option (as in `controller-gen "" paths=./...`) is not an error, but makes the tool crash. -/
theorem C34_violated_empty (reg : Registry (Parser γ)) (σ : Sched) (opts : List Str) : protoFromOptions reg σ ([] :: opts) = .panic := rfl

/-! ## Examples -/
namespace Example

/-- Generators are numbers here; a rule `dir` has its directory after the `=`, paths are split at commas. -/
def parser (n : Str) : Parser Nat := fun raw =>
  let value := ((Text.cut '=' raw).map (·.2)).getD []
  if n ∈ allGenerators then some (.generator n.length)
  else if n = "paths".toList then some (.paths (Text.split ',' value))
  else if "dir".toList.isSuffixOf n then (if value = [] then none else some (.rule (.dir value)))
  else if "stdout".toList.isSuffixOf n then some (.rule .stdout)
  else if "none".toList.isSuffixOf n then some (.rule .nothing)
  else some (.rule (.artifacts value []))

def opts : List Str := ["rbac:roleName=x", "crd", "paths=a,b", "output:crd:dir=/tmp/crds", "+output:none", "output:stdout", "paths=c"].map String.toList

def parsed (σ : Sched) (l : List String) := protoFromOptions (optionsRegistry parser) σ (l.map String.toList)

/-- The example of the help text (main.go:137-139). -/
example : protoFromOptions (optionsRegistry parser) .fifo opts = .ok
    { paths := ["a", "b", "c"].map String.toList, generators := [4, 3],
      rules := { default := some .stdout, byGenerator := [(1, .dir "/tmp/crds".toList)] },
      generatorsByName := [("rbac".toList, 0), ("crd".toList, 1)] } := by decide +kernel

example : parsed .fifo ["crd", "crd:maxDescLen=0"] = .err (.duplicate "crd".toList) := by decide +kernel
example : parsed .fifo ["crd", "crds"] = .err (.unknown "crds".toList) := by decide +kernel
example : parsed .fifo ["crd", "output:dir"] = .err (.unparsable "output:dir".toList) := by decide +kernel
example : parsed .fifo ["crd", "output:rbac:stdout"] = .err (.notInvoked "rbac".toList) := by decide +kernel

/-- Which of two rules for generators that are not run is reported depends on the order of the map. -/
theorem C34_error_order : parsed .fifo ["output:rbac:stdout", "output:crd:stdout"] ≠ parsed .lifo ["output:rbac:stdout", "output:crd:stdout"] := by decide +kernel

/-- No default: the rule of `rbac` is the directory of its name. -/
example : ∃ rt, parsed .fifo ["rbac", "crd", "output:crd:stdout"] = .ok rt ∧
    ((runtimeRules (fun a b => a ++ '/' :: b) .fifo rt).forGenerator 0, (runtimeRules (fun a b => a ++ '/' :: b) .fifo rt).forGenerator 1) =
      (some (.artifacts "config/rbac".toList []), some .stdout) := ⟨_, rfl, by decide +kernel⟩

end Example
end Verif.Genall

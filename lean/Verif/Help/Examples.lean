import Verif.Help.Theorems
import Verif.Genall.Options
/-!
# Marker help: the options of the tool, types of arguments, examples and violations (C46, C64)
-/
namespace Verif.Help
open Spec Markers GoMap

/-! ## The options of the tool -/

theorem registered_mem {ops : List Op} {d : Def Info} (h : Registered ops d) : d ∈ registrations ops := by
  obtain ⟨_, _, _, b, a, e, _⟩ := h
  rw [e]; simp

/-- In the registry of options, two options of the same group have different places. -/
theorem options_places : ∀ n ∈ Genall.optionNames, ∀ m ∈ Genall.optionNames, n = m ∨
    Sorter.less .byOption ⟨n, .package, ⟨0, {}⟩⟩ ⟨m, .package, ⟨0, {}⟩⟩ = true ∨
    Sorter.less .byOption ⟨m, .package, ⟨0, {}⟩⟩ ⟨n, .package, ⟨0, {}⟩⟩ = true ∨
    Sorter.group .byOption ⟨n, .package, ⟨0, {}⟩⟩ none ≠ Sorter.group .byOption ⟨m, .package, ⟨0, {}⟩⟩ none := by
  decide +kernel

/-- **C46 for the options of the tool.**  Whatever definitions and help are registered for the options of the command line, two runs show the same help. -/
theorem C46_options (σ σ' : Sched) (ops : List Op) (hn : ∀ d ∈ registrations ops, d.name ∈ Genall.optionNames ∧ d.target = .package)
    (hd : ∀ d, Registered ops d → WellMade d) :
    byCategory σ (HelpRegistry.after ops) .byOption = byCategory σ' (HelpRegistry.after ops) .byOption := by
  refine C46_deterministic_partial σ σ' ops .byOption hd ?_
  intro g d d' h h' hr hr' _ _ hg hg'
  obtain ⟨n1, t1⟩ := hn d (registered_mem hr)
  obtain ⟨n2, t2⟩ := hn d' (registered_mem hr')
  have lessEq : ∀ (x y : Def Info), Sorter.less .byOption ⟨x.name, .package, ⟨0, {}⟩⟩ ⟨y.name, .package, ⟨0, {}⟩⟩ = Sorter.less .byOption x y := fun _ _ => rfl
  have groupEq : ∀ (x : Def Info) (k : Option DefHelp), Sorter.group .byOption ⟨x.name, .package, ⟨0, {}⟩⟩ none = Sorter.group .byOption x k := fun _ _ => rfl
  rcases options_places d.name n1 d'.name n2 with e | e | e | e
  · left
    exact lastRegistered_unique hr.2 (by rw [e, t1, ← t2]; exact hr'.2)
  · rw [lessEq] at e; exact .inr (.inl (less_iff.1 e))
  · rw [lessEq] at e; exact .inr (.inr (.inl (less_iff.1 e)))
  · rw [groupEq d h, groupEq d' h', group_iff.1 hg, group_iff.1 hg'] at e
    exact (e rfl).elim

/-! ## Types of arguments -/

theorem typeString_from {t : GoType} : ∀ {b : Bool} {a : Argument}, argumentFrom b t = some a → ∃ s, (forArgument a).typeString = some s ∧
    (Shown t → s = shownType t) := by
  induction t with
  | ptr t ih =>
    intro b a h
    cases b with
    | true => simp [argumentFrom] at h
    | false =>
      simp only [argumentFrom, Bool.false_eq_true, if_false] at h
      obtain ⟨s, h1, h2⟩ := ih h
      exact ⟨s, h1, fun hs => by cases hs with | ptr hs => exact h2 hs⟩
  | slice t ih =>
    intro b a h
    simp only [argumentFrom] at h
    split at h
    · cases h
    · rename_i i hi
      cases h
      obtain ⟨s, h1, h2⟩ := ih hi
      refine ⟨"[]".toList ++ s, ?_, fun hs => by cases hs with | slice hs => rw [h2 hs]; rfl⟩
      simp only [forArgument, kindName, ArgDoc.typeString, if_true, h1, Option.map_some]
  | map k t _ ih =>
    intro b a h
    simp only [argumentFrom] at h
    split at h
    · cases h
    · split at h
      · cases h
      · cases h
        refine ⟨[], rfl, fun hs => by cases hs⟩
  | other => intro b a h; simp [argumentFrom] at h
  | float64 =>
    intro b a h
    cases h
    exact ⟨[], rfl, fun hs => by cases hs⟩
  | rawArguments =>
    intro b a h
    cases b <;> simp [argumentFrom] at h
    subst h
    exact ⟨"raw".toList, rfl, fun _ => rfl⟩
  | emptyInterface =>
    intro b a h
    cases b <;> simp [argumentFrom] at h
    subst h
    exact ⟨"any".toList, rfl, fun _ => rfl⟩
  | string => intro b a h; cases h; exact ⟨"string".toList, rfl, fun _ => rfl⟩
  | int => intro b a h; cases h; exact ⟨"int".toList, rfl, fun _ => rfl⟩
  | int32 => intro b a h; cases h; exact ⟨"int".toList, rfl, fun _ => rfl⟩
  | bool => intro b a h; cases h; exact ⟨"bool".toList, rfl, fun _ => rfl⟩

/-- **C64, types in help.**  Help shows the type of an argument, for types without numbers and maps; for those the claim is false (`C64_violated_number`,
`C64_violated_map`). -/
theorem C64_type_partial {t : GoType} {a : Argument} (h : argumentFromType t = some a) (hs : Shown t) :
    (forArgument a).typeString = some (shownType t) := by
  obtain ⟨s, h1, h2⟩ := typeString_from h
  rw [h1, h2 hs]

/-- **C64, help does not crash** on the type of an argument. -/
theorem C64_no_crash {t : GoType} {a : Argument} (h : argumentFromType t = some a) : ∃ s, (forArgument a).typeString = some s := by
  obtain ⟨s, h1, _⟩ := typeString_from h
  exact ⟨s, h1⟩

/-- **C64 is violated for numbers**: the type is empty (as for the marker `kubebuilder:validation:Maximum`, shown as `Maximum=<>`). -/
theorem C64_violated_number : ∃ a, argumentFromType .float64 = some a ∧ (forArgument a).typeString = some [] := ⟨_, rfl, rfl⟩

/-- **C64 is violated for maps**: the type is empty, and a slice of maps is shown as `[]`. -/
theorem C64_violated_map : ∃ a, argumentFromType (.slice (.map .string .emptyInterface)) = some a ∧ (forArgument a).typeString = some "[]".toList :=
  ⟨_, rfl, rfl⟩

example : Shown (.slice (.ptr .string)) := .slice (.ptr .string)

/-! ## Markers with the same name -/
namespace Example

/-- A marker with one argument. -/
def marker (n : String) (t : Target) (ptr : Nat) : Def Info :=
  ⟨n.toList, t, ⟨ptr, ⟨[("max".toList, .leaf .int true false), ("by".toList, .leaf .string false false)],
    [("max".toList, "Max".toList), ("by".toList, "By".toList)]⟩⟩⟩

def names : List String := ["b", "c", "d", "e", "f", "g", "h", "i", "j", "k", "l"]

/-- Thirteen markers in a category, of which two have the same name: one for types and one for fields. -/
def ops : List Op :=
  [.register (marker "a" .type 0), .register (marker "a" .field 1), .addHelp 0 { category := "cat".toList }, .addHelp 1 { category := "cat".toList }] ++
  (names.zipIdx 2).flatMap fun e => [.register (marker e.1 .type e.2), .addHelp e.2 { category := "cat".toList }]

/-- The same without one of the markers: a small group. -/
def few : List Op := ops.take (ops.length - 2)

theorem wellMade_ops : ∀ d, Registered ops d → WellMade d := by
  intro d hd
  have hm := registered_mem hd
  have hall : ∀ d ∈ registrations ops, d.payload.loaded = (marker "a" .type 0).payload.loaded := by decide +kernel
  unfold WellMade
  rw [hall d hm]
  decide +kernel

theorem helpWF_ops : HelpWF ops := by
  intro p h hm
  have hall : (ops.all fun o => match o with | .addHelp _ h => decide (h.fieldHelp = []) | _ => true) = true := by decide +kernel
  have : h.fieldHelp = [] := of_decide_eq_true (List.all_eq_true.1 hall _ hm)
  rw [this]
  simp

/-- The hypotheses of `C46_lists` are met. -/
example (σ : Sched) : Lists ops .byCategory (byCategory σ (HelpRegistry.after ops) .byCategory) := C46_lists σ ops .byCategory wellMade_ops helpWF_ops

/-- What is shown: the markers `a` to `l`, with their arguments in alphabetical order. -/
example : (byCategory .lifo (HelpRegistry.after ops) .byCategory).map (fun c => (c.category, c.markers.map (fun m => (m.name, m.fields.map (·.name))))) =
    [("cat".toList, ("a" :: "a" :: names).map fun n => (n.toList, ["by".toList, "max".toList]))] := by
  decide +kernel

end Example

/-- The schedule that starts the map of type markers with its second entry. -/
def Example.second : Sched where
  order n l := if n = 1 then l.drop 1 ++ l.take 1 else l
  perm n l := by
    split
    · exact (List.perm_append_comm).trans (.of_eq (List.take_append_drop 1 l))
    · exact .refl _

/-- **C46 is violated for markers with the same name**: in a category with more than twelve markers, the order of the type marker and the field marker of the same
name depends on the run.  In both runs the sort does what the algorithm of `sort.Slice` does with the order in which it finds the markers. -/
theorem C46_violated : ∃ σ σ' : Sched,
    byCategory σ (HelpRegistry.after Example.ops) .byCategory ≠ byCategory σ' (HelpRegistry.after Example.ops) .byCategory ∧
    ∀ τ, τ = σ ∨ τ = σ' → Pdq.slice Sorter.byCategory.less ((HelpRegistry.after Example.ops).allDefinitions τ) =
      some (sliceSort τ 4 Sorter.byCategory.less ((HelpRegistry.after Example.ops).allDefinitions τ)) := by
  refine ⟨.revAt 4, Example.second, by decide +kernel, ?_⟩
  rintro τ (rfl | rfl) <;> decide +kernel

/-- … but not in a smaller one. -/
example : byCategory .fifo (HelpRegistry.after Example.few) .byCategory = byCategory .lifo (HelpRegistry.after Example.few) .byCategory := by
  decide +kernel

end Verif.Help

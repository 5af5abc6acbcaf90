import Verif.DeepCopy.Theorems
/-!
# C43: cases that meet the hypotheses, and code that is generated although it is wrong
-/
namespace Verif.DeepCopy

/-- A type `Spec` with a pointer, maps, slices, structs, a recursive type, and a type with a `DeepCopy` of its own. -/
def sample : Prog where
  under
    | "Spec" => .struct [("Replicas", .ptr (.basic true)), ("Labels", .map (.basic true) (.basic true)), ("Args", .map (.basic true) (.slice (.basic true))), ("Items", .slice (.named "Item")),
        ("Root", .named "Item"), ("Size", .named "Quantity"), ("Limit", .ptr (.named "Quantity")), ("Kinds", .named "Kinds")]
    | "Item" => .struct [("Name", .basic true), ("Next", .ptr (.named "Item"))]
    | "Quantity" => .struct [("i", .ptr (.basic true))]
    | "Kinds" => .slice (.basic true)
    | _ => .basic true
  target _ := .basic true
  manual
    | "Quantity" => { copy := some false }
    | _ => {}
  generated n := n = "Spec" ∨ n = "Item" ∨ n = "Kinds"
  methods n := n = "Spec" ∨ n = "Item" ∨ n = "Quantity" ∨ n = "Kinds"
  depth := 5

/-- The methods of `Quantity`. -/
def quantityCopy (H : Heap) : Val → Run (Heap × Val)
  | .struct [("i", .ptr l)] => do
    let v ← load H l
    let (H, o) := alloc H v
    return (H, .struct [("i", .ptr o)])
  | v => .ok (H, v)

def sampleWorld : World where
  ext _ := quantityCopy
  order _ kvs := kvs.reverse
  order_perm _ kvs := List.reverse_perm kvs

theorem sample_ok : sample.Ok := by
  constructor
  · intro n
    show sample.underlying (match n with | "Spec" => _ | "Item" => _ | "Quantity" => _ | "Kinds" => _ | _ => _) = (match n with | "Spec" => _ | "Item" => _ | "Quantity" => _ | "Kinds" => _ | _ => _)
    split <;> rfl
  · intro a
    rfl

theorem sample_copies : sampleWorld.Copies sample := by
  intro n hn H Q v T hv
  by_cases hq : n = "Quantity"
  · subst hq
    cases hv with
    | named hv =>
      have hv : Has sample H Q (.struct [("i", .ptr (.basic true))]) v T := hv
      cases hv with
      | @struct _ vs Ts h1 h2 =>
        cases h2 with
        | cons ha hb =>
          cases hb
          cases ha with
          | nilPtr => exact ⟨H, _, rfl, .refl H, .named (show Has sample H _ (.struct [("i", .ptr (.basic true))]) _ _ from .struct h1 (.cons (.nilPtr _) .nil))⟩
          | @ptr _ l w T1 p1 p2 p3 =>
            cases p3 with
            | basic x =>
              refine ⟨(alloc H (.basic x)).1, .struct [("i", .ptr (alloc H (.basic x)).2)], ?_, extends_alloc _ _, .named ?_⟩
              · simp [sampleWorld, quantityCopy, load_ok p2]
              · exact (show Has sample _ _ (.struct [("i", .ptr (.basic true))]) _ _ from
                  .struct h1 (.cons (.ptr ⟨Nat.le_refl _, by simp [alloc]⟩ (read_alloc _ _) (.basic x)) .nil))
  · have hsome : sample.hasAny (.named n) = false := by
      simp only [Prog.hasAny, Prog.hasCopy, Prog.hasInto, Prog.owner, Prog.unalias, sample]
      simp only [Option.bind_some, Option.map_some, Option.getD_some]
      rfl
    have hg : sample.generated n = false := hn.resolve_right (by rw [hsome]; simp)
    have hu : sample.under n = .basic true := by
      simp only [sample, decide_eq_false_iff_not, not_or] at hg ⊢
      split
      · exact absurd rfl hg.1
      · exact absurd rfl hg.2.1
      · exact absurd rfl hq
      · exact absurd rfl hg.2.2
      · rfl
    cases hv with
    | named hv =>
      rw [hu] at hv
      cases hv with
      | basic x => exact ⟨H, .basic x, rfl, .refl H, .named (by rw [hu]; exact .basic x)⟩

/-- Show that code compiles, by the definitions. -/
local macro "compiles" : tactic => `(tactic| (
  simp only [Prog.CompilesAll, Prog.Compiles]
  repeat' first
    | trivial
    | exact Or.inl rfl
    | exact ⟨_, rfl, rfl⟩
    | exact ⟨_, rfl, rfl, rfl⟩
    | rfl
    | constructor))

theorem sample_clean : sample.Clean 10 := by
  intro n hn
  refine .inr ?_
  have hn : n = "Spec" ∨ n = "Item" ∨ n = "Kinds" := by simpa [sample] using hn
  obtain rfl | rfl | rfl := hn
  · refine ⟨_, rfl, rfl, ?_, rfl⟩
    compiles
  · refine ⟨_, rfl, rfl, ?_, rfl⟩
    compiles
  · refine ⟨_, rfl, rfl, ?_, rfl⟩
    compiles

/-- Some memory: a `Spec` in the first cell, with shared memory, a slice of a part of an array, and a pointer into the value itself. -/
def sampleHeap : Heap :=
  [.struct [("Replicas", .ptr ⟨1, []⟩), ("Labels", .map 2), ("Args", .map 3), ("Items", .slice ⟨5, []⟩ 0 1), ("Root", .struct [("Name", .basic 1), ("Next", .nil)]), ("Size", .struct [("i", .ptr ⟨1, []⟩)]),
      ("Limit", .ptr ⟨0, [.field "Size"]⟩), ("Kinds", .nil)],
    .basic 3,
    .entries [("a", .basic 1), ("b", .basic 2)],
    .entries [("x", .slice ⟨4, []⟩ 1 2), ("y", .nil)],
    .arr [.basic 9, .basic 8, .basic 7, .basic 6],
    .arr [.struct [("Name", .basic 5), ("Next", .ptr ⟨6, []⟩)]],
    .struct [("Name", .basic 6), ("Next", .nil)]]

/-- What it stands for. -/
def sampleTree : Tree :=
  .struct [("Replicas", .ptr (.basic 3)), ("Labels", .map [("a", .basic 1), ("b", .basic 2)]), ("Args", .map [("x", .slice [.basic 8, .basic 7]), ("y", .nil)]),
    ("Items", .slice [.struct [("Name", .basic 5), ("Next", .ptr (.struct [("Name", .basic 6), ("Next", .nil)]))]]), ("Root", .struct [("Name", .basic 1), ("Next", .nil)]), ("Size", .struct [("i", .ptr (.basic 3))]),
    ("Limit", .ptr (.struct [("i", .ptr (.basic 3))])), ("Kinds", .nil)]

theorem sample_has : ∃ v, sampleHeap.read ⟨0, []⟩ = some v ∧ Has sample sampleHeap (fun _ => True) (.named "Spec") v sampleTree := by
  refine ⟨_, rfl, .named ?_⟩
  have hq : Has sample sampleHeap (fun _ => True) (.named "Quantity") (.struct [("i", .ptr ⟨1, []⟩)]) (.struct [("i", .ptr (.basic 3))]) :=
    .named (show Has sample sampleHeap _ (.struct [("i", .ptr (.basic true))]) _ _ from .struct (by decide) (.cons (.ptr trivial rfl (.basic _)) .nil))
  have hitem : ∀ x v T, Has sample sampleHeap (fun _ => True) (.ptr (.named "Item")) v T →
      Has sample sampleHeap (fun _ => True) (.named "Item") (.struct [("Name", .basic x), ("Next", v)]) (.struct [("Name", .basic x), ("Next", T)]) := fun x v T h =>
    .named (show Has sample sampleHeap _ (.struct [("Name", .basic true), ("Next", .ptr (.named "Item"))]) _ _ from .struct (by decide) (.cons (.basic _) (.cons h .nil)))
  exact (show Has sample sampleHeap _ (.struct [("Replicas", .ptr (.basic true)), ("Labels", .map (.basic true) (.basic true)), ("Args", .map (.basic true) (.slice (.basic true))), ("Items", .slice (.named "Item")),
        ("Root", .named "Item"), ("Size", .named "Quantity"), ("Limit", .ptr (.named "Quantity")), ("Kinds", .named "Kinds")]) _ _ from
    .struct (by decide) (.cons (.ptr trivial rfl (.basic _)) (.cons (.map trivial rfl (by decide) (.refl _) (.cons (.basic _) (.cons (.basic _) (.nil _))))
      (.cons (.map trivial rfl (by decide) (.refl _) (.cons (.slice (vs := [.basic 9, .basic 8, .basic 7, .basic 6]) trivial rfl (by decide) (.cons (.basic _) (.cons (.basic _) (.nil _)))) (.cons (.nilSlice _) (.nil _))))
      (.cons (.slice (vs := [.struct [("Name", .basic 5), ("Next", .ptr ⟨6, []⟩)]]) trivial rfl (by decide) (.cons (hitem 5 _ _ (.ptr trivial rfl (hitem 6 _ _ (.nilPtr _)))) (.nil _)))
      (.cons (hitem 1 _ _ (.nilPtr _)) (.cons hq (.cons (.ptr trivial rfl hq) (.cons (.named (show Has sample sampleHeap _ (.slice (.basic true)) _ _ from .nilSlice _)) .nil)))))))))

/-- `DeepCopy` of it. -/
example : ∃ H' o v', sample.callCopy sampleWorld (sample.run sampleWorld (sample.code 10) 100) (.named "Spec") sampleHeap ⟨0, []⟩ = .ok (H', .ptr o) ∧ H'.read o = some v' ∧
    Has sample H' (New sampleHeap H') (.named "Spec") v' sampleTree ∧ H'.take 7 = sampleHeap := by
  obtain ⟨v, h1, h2⟩ := sample_has
  obtain ⟨H', r, k1, k2, k3, -⟩ := C43_deepCopy_partial sample_ok sample_copies sample_clean "Spec" rfl h2 h1 (d := 100) (by decide) (.inl fun e => by rw [e] at h1; cases h1)
  obtain ⟨o, v', rfl, -, k5, k6⟩ := k3 rfl
  refine ⟨H', o, v', k1, k5, k6, ?_⟩
  obtain ⟨new, rfl⟩ := k2
  rfl

/-! ## Code that is wrong -/

/-- A program with one type to generate methods for, and others. -/
def single (n : String) (t : Ty) (others : List (String × Ty)) (manual : String → Manual) (methods : List String) : Prog where
  under m := if m = n then t else ((others.find? fun p => p.1 = m).map (·.2)).getD (.basic true)
  target _ := .basic true
  manual := manual
  generated m := m = n
  methods m := m = n ∨ m ∈ methods
  depth := 5

/-- There is code for the type, no error is reported, and the code does not compile. -/
def Miscompiles (P : Prog) (n : String) : Prop := ∃ depth g, P.genInto depth n = some (some g) ∧ g.errs = 0 ∧ ¬ P.CompilesAll g.code (.named n)

/-- **C43**, violated: for a pointer to a named slice type, `type Names []string; type T struct { F *Names }`, the code has `*out = new([]string)` where `*out` is a `*Names`. -/
theorem C43_violated_pointer : Miscompiles (single "T" (.struct [("F", .ptr (.named "Names"))]) [("Names", .slice (.basic true))] (fun _ => {}) ["Names"]) "T" := by
  refine ⟨10, _, rfl, rfl, ?_⟩
  -- the second line of the block for the field
  intro h
  have h := h.2.1
  have h : ∃ u, ("F", u) ∈ [("F", Ty.ptr (.named "Names"))] ∧ _ := h
  obtain ⟨u, hm, h⟩ := h
  simp only [List.mem_singleton, Prod.mk.injEq, true_and] at hm
  subst hm
  have h : Ty.slice (.basic true) = .named "Names" := by
    have h' : (single "T" (.struct [("F", .ptr (.named "Names"))]) [("Names", .slice (.basic true))] (fun _ => {}) ["Names"]).CompilesAll _ (.ptr (.named "Names")) := h
    exact h'.1
  cases h

/-- **C43**, violated: for a slice of pointers to a type with a `DeepCopy` of its own, `type T struct { F []*Quantity }`, the code has `(*in)[i].DeepCopyInto(&(*out)[i])`, where the argument is a `**Quantity`. -/
theorem C43_violated_slice :
    Miscompiles (single "T" (.struct [("F", .slice (.ptr (.named "Quantity")))]) [("Quantity", .struct [("i", .ptr (.basic true))])] (fun n => if n = "Quantity" then { copy := some false } else {}) ["Quantity"]) "T" := by
  refine ⟨10, _, rfl, rfl, ?_⟩
  intro h
  obtain ⟨u, -, h⟩ : ∃ u, _ ∧ _ := h.2.1
  obtain ⟨n, hn, -⟩ : Prog.HasMethods _ (.ptr (.named "Quantity")) := h.2.1
  cases hn

/-- **C43**, violated: for a field of an unnamed struct type with references, `type T struct { F struct { G []string } }`, the code has `in.F.DeepCopyInto(&out.F)`. -/
theorem C43_violated_struct : Miscompiles (single "T" (.struct [("F", .struct [("G", .slice (.basic true))])]) [] (fun _ => {}) []) "T" := by
  refine ⟨10, _, rfl, rfl, ?_⟩
  intro h
  obtain ⟨n, hn, -⟩ : Prog.HasMethods _ (.struct [("G", .slice (.basic true))]) := h.2.1
  cases hn

/-- **C43**, violated: for a field of a struct type that gets no methods since it is not exported, `type inner struct { G []string }; type T struct { F inner }`, the code has `in.F.DeepCopyInto(&out.F)`. -/
theorem C43_violated_unexported : Miscompiles (single "T" (.struct [("F", .named "inner")]) [("inner", .struct [("G", .slice (.basic true))])] (fun _ => {}) []) "T" := by
  refine ⟨10, _, rfl, rfl, ?_⟩
  intro h
  obtain ⟨n, hn, hm⟩ : Prog.HasMethods _ (.named "inner") := h.2.1
  cases hn
  cases hm

/-- A type with a map of pointers to a type whose `DeepCopy` has a receiver that is not a pointer: `type T struct { F map[string]*Quantity }`. -/
def mapOfPointers : Prog :=
  single "T" (.struct [("F", .map (.basic true) (.ptr (.named "Quantity")))]) [("Quantity", .struct [("i", .ptr (.basic true))])] (fun n => if n = "Quantity" then { copy := some false } else {}) ["Quantity"]

/-- **C43**, violated: no error is reported and the code compiles, but it panics for a map with a nil pointer, however many calls may be nested. -/
theorem C43_violated_nil : (∃ g, mapOfPointers.genInto 10 "T" = some (some g) ∧ g.errs = 0 ∧ mapOfPointers.CompilesAll g.code (.named "T")) ∧
    ∃ H T v, H.read ⟨0, []⟩ = some v ∧ Has mapOfPointers H (fun _ => True) (.named "T") v T ∧
      ∀ d, mapOfPointers.callCopy sampleWorld (mapOfPointers.run sampleWorld (mapOfPointers.code 10) (d + 1)) (.named "T") H ⟨0, []⟩ = .error .panic := by
  refine ⟨⟨_, rfl, rfl, by compiles⟩, [.struct [("F", .map 1)], .entries [("a", .nil)]], .struct [("F", .map [("a", .nil)])], _, rfl, .named ?_, fun d => rfl⟩
  exact (show Has mapOfPointers _ _ (.struct [("F", .map (.basic true) (.ptr (.named "Quantity")))]) _ _ from
    .struct (by decide) (.cons (.map trivial rfl (by decide) (.refl _) (.cons (.nilPtr _) (.nil _))) .nil))

/-- **C43**, violated: for `type Tree map[string]Tree` the generator does not end: no depth of recursion is enough. -/
theorem C43_violated_recursion : ∀ depth, (single "Tree" (.map (.basic true) (.named "Tree")) [] (fun _ => {}) []).genInto depth "Tree" = none := by
  intro depth
  have h : ∀ depth, (single "Tree" (.map (.basic true) (.named "Tree")) [] (fun _ => {}) []).genBlock depth (.named "Tree") (.named "Tree") = none := by
    intro depth
    induction depth with
    | zero => rfl
    | succ d ih =>
      have : (single "Tree" (.map (.basic true) (.named "Tree")) [] (fun _ => {}) []).genBlock (d + 1) (.named "Tree") (.named "Tree") =
        ((single "Tree" (.map (.basic true) (.named "Tree")) [] (fun _ => {}) []).genBlock d (.named "Tree") (.named "Tree")).map _ := rfl
      rw [this, ih]
      rfl
  have : (single "Tree" (.map (.basic true) (.named "Tree")) [] (fun _ => {}) []).genInto depth "Tree" =
    ((single "Tree" (.map (.basic true) (.named "Tree")) [] (fun _ => {}) []).genBlock depth (.named "Tree") (.named "Tree")).map some := rfl
  rw [this, h]
  rfl

/-- Maps with values of an alias, `type Name = string; type T struct { F map[string]Name }`, are rejected, although slices of them are not. -/
theorem C43_alias_rejected : ∃ g g', (single "T" (.struct [("F", .map (.basic true) (.alias "Name"))]) [] (fun _ => {}) []).genInto 10 "T" = some (some g) ∧ g.errs = 1 ∧
    (single "T" (.struct [("F", .slice (.alias "Name"))]) [] (fun _ => {}) []).genInto 10 "T" = some (some g') ∧ g'.errs = 0 :=
  ⟨_, _, rfl, rfl, rfl, rfl⟩

end Verif.DeepCopy

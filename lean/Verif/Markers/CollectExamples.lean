import Verif.Markers.CollectTheorems
/-!
# C16, C60: examples, and where the properties do not hold
-/
namespace Verif.Markers.Collect.Examples
open Verif Verif.Markers.Doc

/-! ## Checking that a file is well-formed -/

instance decSome {α : Type} (o : Option α) (P : α → Prop) [∀ a, Decidable (P a)] : Decidable (∀ a, o = some a → P a) :=
  match o with
  | none => isTrue fun _ h => by cases h
  | some a => decidable_of_iff (P a) ⟨fun h b e => by cases e; exact h, fun h => h a rfl⟩

instance : DecidableRel Fresh := fun e f => by unfold Fresh; infer_instance

def insideB (groups : List Group) : Event → Bool
  | .enter n (some p) => p.kind = .file || n.pos ≤ p.end || (p.line = some n.pos && groups.all fun g => !(decide (p.end ≤ g.pos) && decide (g.pos < n.pos)) || g.comments.all fun c => !isMarkerComment c.text)
  | _ => true

def typesB : List Event → Bool
  | [] => true
  | .enter c _ :: b => (c.kind ≠ .genDecl true false || b.any fun e => match e.node with | some m => m.kind = .typeSpec | none => false) && typesB b
  | _ :: b => typesB b

theorem typesB_spec : ∀ {evs : List Event}, typesB evs = true → ∀ a c q b, evs = a ++ .enter c q :: b → c.kind = .genDecl true false → ∃ e ∈ b, ∃ m, e.node = some m ∧ m.kind = .typeSpec
  | [], _, a, c, q, b, h, _ => by have := congrArg List.length h; simp at this
  | e :: evs, ht, [], c, q, b, h, hk => by
    cases h
    simp only [typesB, Bool.and_eq_true, Bool.or_eq_true, decide_eq_true_eq, hk, ne_eq, not_true_eq_false, false_or, List.any_eq_true] at ht
    obtain ⟨⟨e, he, h⟩, _⟩ := ht
    cases hn : e.node with
    | none => rw [hn] at h; cases h
    | some m => rw [hn] at h; exact ⟨e, he, m, hn, by simpa using h⟩
  | e :: evs, ht, e' :: a, c, q, b, h, hk => by
    cases h
    have : typesB (a ++ .enter c q :: b) = true := by
      cases e with
      | enter n p => simp only [typesB, Bool.and_eq_true] at ht; exact ht.2
      | leave n => exact ht
    exact typesB_spec this a c q b rfl hk

def leaves (p : Nat) : Event → Bool
  | .leave m => decide (m.kind ≠ .file) && decide (p < m.end)
  | _ => false

def linesB : List Event → Bool
  | [] => true
  | .enter n _ :: b =>
    (match n.line with
    | none => true
    | some p =>
      b.any (leaves p) && (b.takeWhile fun e => !leaves p e).all fun e => match e.node with | some k => decide (k.pos ≤ p) | none => true) && linesB b
  | _ :: b => linesB b

theorem linesB_spec : ∀ {a b : List Event} {n : Node} {q : Option Node} {p : Nat}, linesB (a ++ .enter n q :: b) = true → n.line = some p →
    ∃ b1 m b2, b = b1 ++ .leave m :: b2 ∧ m.kind ≠ .file ∧ p < m.end ∧ ∀ e ∈ b1, ∀ k, e.node = some k → k.pos ≤ p
  | e :: a, b, n, q, p, ht, hl => by
    have : linesB (a ++ .enter n q :: b) = true := by
      cases e with
      | enter => simp only [List.cons_append, linesB, Bool.and_eq_true] at ht; exact ht.2
      | leave => exact ht
    exact linesB_spec this hl
  | [], b, n, q, p, ht, hl => by
    simp only [List.nil_append, linesB, hl, Bool.and_eq_true] at ht
    obtain ⟨⟨h1, h2⟩, -⟩ := ht
    have hsplit := List.takeWhile_append_dropWhile (p := fun e => !leaves p e) (l := b)
    cases hd : b.dropWhile fun e => !leaves p e with
    | nil =>
      rw [hd, List.append_nil] at hsplit
      obtain ⟨x, hx, hx'⟩ := List.any_eq_true.1 h1
      rw [← hsplit] at hx
      have := List.all_eq_true.1 (List.all_takeWhile (p := fun e => !leaves p e) (l := b)) x hx
      simp [hx'] at this
    | cons x b2 =>
      have hx : leaves p x = true := by
        have := List.head?_dropWhile_not (fun e => !leaves p e) b
        rw [hd] at this
        simpa using this
      rw [hd] at hsplit
      cases x with
      | enter => cases hx
      | leave m =>
        simp only [leaves, Bool.and_eq_true, decide_eq_true_eq] at hx
        refine ⟨_, m, b2, hsplit.symm, hx.1, hx.2, fun e he k hk => ?_⟩
        have := List.all_eq_true.1 h2 e he
        rw [hk] at this
        simpa using this

theorem fileWF {groups : List Group} {file : Node} {children : List Tree}
    (h1 : groups.Pairwise fun g g' => g.pos < g'.pos) (h2 : (groups.flatMap (·.comments)).Nodup)
    (h3 : ∀ e ∈ (Tree.node file children).events none, ∀ n, e.node = some n → ∀ d, n.doc = some d → d < n.pos ∧ (∃ g ∈ groups, g.pos = d) ∧ ∀ g ∈ groups, d < g.pos → n.pos ≤ g.pos)
    (h4 : ((Tree.node file children).events none).Pairwise Fresh) (h5 : (((Tree.node file children).events none).filterMap Event.node).Nodup)
    (h6 : ((Tree.node file children).events none).all (insideB groups) = true) (h7 : file.kind = .file) (h8 : typesB ((Tree.node file children).events none) = true)
    (h9 : linesB ((Tree.node file children).events none) = true := by decide +kernel) :
    FileWF groups (.node file children) where
  sorted := h1
  distinct := h2
  docs := h3
  fresh := h4
  nodup := h5
  inside := by
    intro n p hm hk
    have := List.all_eq_true.1 h6 _ hm
    simp only [insideB, hk, decide_false, Bool.false_or, Bool.or_eq_true, decide_eq_true_eq, Bool.and_eq_true, List.all_eq_true] at this
    obtain h | ⟨h, h'⟩ := this
    · exact .inl h
    · refine .inr ⟨h, fun g hg h8 h9 c hc => ?_⟩
      obtain h10 | h10 := h' g hg
      · simp [h8, h9] at h10
      · simpa using h10 c hc
  root := by rintro n cs h; cases h; exact h7
  lines := fun _ _ _ _ _ e hl => linesB_spec (e ▸ h9) hl
  types := typesB_spec h8

/-! ## A file

    // +groupName=foo

    package foo

    // +free

    // +rbac=a

    // Foo is a type
    // +resource
    type Foo struct {
        // +optional
        A int // +line
    }

    // F is a function
    // +rbac=b
    func F() {}

    // +end
-/

def c (pos : Nat) (s : String) : Comment := ⟨pos, s.toList⟩

def groups : List Group := [⟨0, [c 0 "// +groupName=foo"]⟩, ⟨30, [c 30 "// +free"]⟩, ⟨40, [c 40 "// +rbac=a"]⟩, ⟨50, [c 50 "// Foo is a type", c 67 "// +resource"]⟩,
  ⟨110, [c 110 "// +optional"]⟩, ⟨136, [c 136 "// +line"]⟩, ⟨150, [c 150 "// F is a function", c 169 "// +rbac=b"]⟩, ⟨200, [c 200 "// +end"]⟩]

def file : Node := { id := 0, kind := .file, pos := 20, «end» := 195 }
def decl : Node := { id := 2, kind := .genDecl true false, pos := 80, «end» := 146, doc := some 50 }
def foo : Node := { id := 4, kind := .typeSpec, pos := 85, «end» := 146 }
def fieldA : Node := { id := 6, kind := .field, pos := 130, «end» := 135, doc := some 110, line := some 136 }
def func : Node := { id := 9, kind := .other, pos := 180, «end» := 191, doc := some 150 }
def other (id pos «end» : Nat) : Node := { id, kind := .other, pos, «end» }

def children : List Tree :=
  [.node (other 1 26 29) [],
   .node decl [.node (other 3 50 79) [], .node foo [.node (other 5 89 146) [.node fieldA [.node (other 7 110 122) [], .node (other 8 130 131) [], .node (other 11 136 144) []]]]],
   .node func [.node (other 10 150 179) []]]

theorem wf : FileWF groups (.node file children) :=
  fileWF (by decide +kernel) (by decide +kernel) (by decide +kernel) (by decide +kernel) (by decide +kernel) (by decide +kernel) rfl (by decide +kernel)

/-- Definitions: `groupName`, `free`, `rbac` and `end` for packages, `resource` for types, `optional` for fields. -/
def lookup (s : Str) (t : Target) : Option String :=
  let n := String.ofList ((s.drop 1).takeWhile (· ≠ '='))
  if (n, t) ∈ [("groupName", Target.package), ("free", .package), ("rbac", .package), ("end", .package), ("resource", .type), ("optional", .field), ("line", .field)] then some n else none

/-- The markers of the file. -/
theorem result : associateFile lookup Sched.fifo groups file children =
    some [(foo, [⟨c 67 "// +resource", true⟩]), (fieldA, [⟨c 110 "// +optional", true⟩]),
      (file, [⟨c 0 "// +groupName=foo", false⟩, ⟨c 30 "// +free", false⟩, ⟨c 200 "// +end", false⟩, ⟨c 40 "// +rbac=a", false⟩])] := by decide +kernel

/-- The hypotheses of `C16_claimed` hold of the documentation of the declaration of `Foo`, and of the comment above it. -/
example : ∃ a, Carries ((Tree.node file children).events none) a foo decl ∧ decl.doc = some 50 ∧ Closest groups decl ⟨40, [c 40 "// +rbac=a"]⟩ ∧ ¬ Passed a 40 := by
  refine ⟨((Tree.node file children).events none).take 3, ⟨some file, ((Tree.node file children).events none).drop 4, by decide +kernel, .inr ⟨rfl, rfl,
    (((Tree.node file children).events none).drop 4).take 2, some decl, ((Tree.node file children).events none).drop 7, by decide +kernel, ?_⟩⟩, rfl, ?_, ?_⟩
  · exact of_decide_eq_true (by decide +kernel)
  · unfold Closest; exact ⟨by decide, by decide, by decide +kernel⟩
  · unfold Passed; decide +kernel

/-- **C16**: a marker in the documentation of a function has no place, even if its definition exists for packages: this `+rbac` is ignored. -/
theorem C16_violated : ∃ g ∈ groups, c 169 "// +rbac=b" ∈ g.comments ∧ isMarkerComment (c 169 "// +rbac=b").text = true ∧
    lookup (trimSpace ((c 169 "// +rbac=b").text.drop 2)) .package = some "rbac" ∧ FileWF groups (.node file children) ∧
    ∀ σ r, associateFile lookup σ groups file children = some r → ∀ n b, ¬ Attached r n (c 169 "// +rbac=b") b := by
  refine ⟨_, List.mem_cons_of_mem _ (List.mem_cons_of_mem _ (List.mem_cons_of_mem _ (List.mem_cons_of_mem _ (List.mem_cons_of_mem _ (List.mem_cons_of_mem _ (List.mem_cons_self ..)))))), by decide +kernel, by decide +kernel, by decide +kernel, wf, ?_⟩
  intro σ r hr n b ⟨ms, h1, h2⟩
  obtain ⟨nodes, pkg, pkg', e1, e2, hp⟩ := C60_partial lookup Sched.fifo σ wf
  rw [result] at e1
  rw [hr] at e2
  cases e2
  have e3 := List.append_inj' (show ([(foo, [⟨c 67 "// +resource", true⟩]), (fieldA, [⟨c 110 "// +optional", true⟩])] : List (Node × List MarkerComment)) ++ [(file, _)] = nodes ++ [(file, pkg)] from Option.some.inj e1) rfl
  obtain h1 | h1 := List.mem_append.1 h1
  · rw [← e3.1] at h1
    rcases List.mem_cons.1 h1 with h1 | h1
    · cases h1; revert h2; cases b <;> decide +kernel
    · cases List.mem_singleton.1 h1; revert h2; cases b <;> decide +kernel
  · cases List.mem_singleton.1 h1
    have e4 : _ = pkg := congrArg Prod.snd (List.cons.inj e3.2).1
    rw [hp.mem_iff.symm, ← e4] at h2
    revert h2; cases b <;> decide +kernel

/-! ## Two types with package markers above them

    package foo

    // +groupName=a

    type A int

    // +groupName=b

    type B int
-/

def groups2 : List Group := [⟨20, [c 20 "// +groupName=a"]⟩, ⟨60, [c 60 "// +groupName=b"]⟩]
def file2 : Node := { id := 0, kind := .file, pos := 0, «end» := 100 }
def children2 : List Tree :=
  [.node (other 1 8 11) [],
   .node { id := 2, kind := .genDecl true false, pos := 40, «end» := 50 } [.node { id := 3, kind := .typeSpec, pos := 45, «end» := 50 } []],
   .node { id := 4, kind := .genDecl true false, pos := 80, «end» := 90 } [.node { id := 5, kind := .typeSpec, pos := 85, «end» := 90 } []]]

theorem wf2 : FileWF groups2 (.node file2 children2) :=
  fileWF (by decide +kernel) (by decide +kernel) (by decide +kernel) (by decide +kernel) (by decide +kernel) (by decide +kernel) rfl (by decide +kernel)

/-- The value of a marker is what is behind the `=`. -/
def parse (_ : String) (s : Str) : Except Unit Str := .ok ((s.dropWhile (· ≠ '=')).drop 1)

/-- The first value of the marker `groupName` for the package (`MarkerValues.Get`). -/
def groupName (σ : Sched) : Option Str :=
  ((associateFile lookup σ groups2 file2 children2).bind fun r => GoMap.get r file2).bind fun ms =>
    (GoMap.get (parseNode lookup id parse .package ms [] []).1 "groupName").bind List.head?

/-- **C60**: the first value of a marker of a package depends on the order in which maps are iterated over: the group of this package is `a` in one run, and `b` in another. -/
theorem C60_violated : FileWF groups2 (.node file2 children2) ∧ groupName Sched.fifo = some "a".toList ∧ groupName Sched.lifo = some "b".toList :=
  ⟨wf2, by decide +kernel, by decide +kernel⟩

end Verif.Markers.Collect.Examples

import Verif.Markers.InfoSpec
/-!
# Deciding which comments are on a type or a field, for examples
-/
namespace Verif.Markers.Source
open Verif Verif.Markers.Collect Verif.Markers.Doc

/-- The ways to split a walk at a node that is entered. -/
def splits : List Event → List Event → List (List Event × Node × List Event)
  | _, [] => []
  | a, .enter k q :: b => (a, k, b) :: splits (a ++ [.enter k q]) b
  | a, .leave k :: b => splits (a ++ [.leave k]) b

theorem mem_splits : ∀ {evs pre : List Event} {a : List Event} {k : Node} {b : List Event}, (a, k, b) ∈ splits pre evs ↔ ∃ a' q, a = pre ++ a' ∧ evs = a' ++ .enter k q :: b
  | [], pre, a, k, b => by simp [splits]
  | .enter k' q' :: evs, pre, a, k, b => by
    rw [splits, List.mem_cons, mem_splits]
    constructor
    · rintro (h | ⟨a', q, h1, h2⟩)
      · cases h; exact ⟨[], q', by simp, rfl⟩
      · exact ⟨.enter k' q' :: a', q, by simp [h1], by simp [h2]⟩
    · rintro ⟨a', q, h1, h2⟩
      cases a' with
      | nil => cases h2; exact .inl (by simp [h1])
      | cons e a' => cases h2; exact .inr ⟨a', q, by simp [h1], rfl⟩
  | .leave k' :: evs, pre, a, k, b => by
    rw [splits, mem_splits]
    constructor
    · rintro ⟨a', q, h1, h2⟩
      exact ⟨.leave k' :: a', q, by simp [h1], by simp [h2]⟩
    · rintro ⟨a', q, h1, h2⟩
      cases a' with
      | nil => cases h2
      | cons e a' => cases h2; exact ⟨a', q, by simp [h1], rfl⟩

/-- The first type that is entered. -/
def firstType (b : List Event) : Option Node := (b.filterMap Event.node).find? fun m => m.kind = .typeSpec

theorem firstType_iff {b : List Event} {n : Node} : firstType b = some n ↔ n.kind = .typeSpec ∧ ∃ b1 q b2, b = b1 ++ .enter n q :: b2 ∧ ∀ e ∈ b1, ∀ m, e.node = some m → m.kind ≠ .typeSpec := by
  unfold firstType
  constructor
  · intro h
    obtain ⟨h1, as, bs, h2, h3⟩ := List.find?_eq_some_iff_append.1 h
    obtain ⟨b1, b2, rfl, h4, h5⟩ := List.filterMap_eq_append_iff.1 h2
    obtain ⟨l1, e, l2, rfl, h6, h7, h8⟩ := List.filterMap_eq_cons_iff.1 h5
    cases e with
    | leave k => cases h7
    | enter k q =>
      cases h7
      refine ⟨by simpa using h1, b1 ++ l1, q, l2, by simp, fun e he m hm => ?_⟩
      rcases List.mem_append.1 he with he | he
      · have : m ∈ as := by rw [← h4]; exact List.mem_filterMap.2 ⟨e, he, hm⟩
        simpa using h3 m this
      · have := h6 e he
        rw [hm] at this; cases this
  · rintro ⟨h1, b1, q, b2, rfl, h2⟩
    rw [List.find?_eq_some_iff_append]
    refine ⟨by simpa using h1, b1.filterMap Event.node, b2.filterMap Event.node, by simp [List.filterMap_append, Event.node], fun m hm => ?_⟩
    obtain ⟨e, he, hm⟩ := List.mem_filterMap.1 hm
    simpa using h2 e he m hm

def carryB (n : Node) (x : List Event × Node × List Event) : Bool :=
  (x.2.1 = n && (n.kind = .field || n.kind = .typeSpec)) || (x.2.1.kind = .genDecl true false && firstType x.2.2 = some n)

theorem carries_iff {evs a : List Event} {n k : Node} : Carries evs a n k ↔ ∃ b, (a, k, b) ∈ splits [] evs ∧ carryB n (a, k, b) = true := by
  unfold Carries carryB
  simp only [Bool.or_eq_true, Bool.and_eq_true, decide_eq_true_eq, mem_splits, firstType_iff]
  constructor
  · rintro ⟨q, b, h1, h2⟩
    refine ⟨b, ⟨a, q, by simp, h1⟩, ?_⟩
    rcases h2 with h2 | ⟨h2, h3, h4⟩
    · exact .inl h2
    · exact .inr ⟨h2, h3, h4⟩
  · rintro ⟨b, ⟨a', q, h1, h2⟩, h3⟩
    rw [List.nil_append] at h1
    subst h1
    refine ⟨q, b, h2, ?_⟩
    rcases h3 with h3 | ⟨h3, h4, h5⟩
    · exact .inl h3
    · exact .inr ⟨h3, h4, h5⟩

instance (groups : List Group) (c : Node) (g : Group) : Decidable (Closest groups c g) := by unfold Closest; infer_instance
instance (evs : List Event) (pos : Nat) : Decidable (Passed evs pos) := by unfold Passed; infer_instance

/-- Whether the comment is on the type or field. -/
def onB (f : File) (n : Node) (c : Comment) : Bool :=
  (splits [] f.events).any fun x => carryB n x && f.groups.any fun g => g.comments.contains c && (x.2.1.doc = some g.pos || (decide (Closest f.groups x.2.1 g) && !decide (Passed x.1 g.pos)))

theorem onB_iff {f : File} {n : Node} {c : Comment} : onB f n c = true ↔ InDoc f n c ∨ Above f n c := by
  unfold onB InDoc Above
  simp only [List.any_eq_true, Bool.and_eq_true, Bool.or_eq_true, decide_eq_true_eq, carries_iff, List.contains_eq_mem, Bool.not_eq_true', decide_eq_false_iff_not]
  constructor
  · rintro ⟨⟨a, k, b⟩, h1, h2, g, hg, hc, h3 | h3⟩
    · exact .inl ⟨a, k, ⟨b, h1, h2⟩, g, hg, hc, h3⟩
    · exact .inr ⟨a, k, ⟨b, h1, h2⟩, g, hg, hc, h3⟩
  · rintro (⟨a, k, ⟨b, h1, h2⟩, g, hg, hc, h3⟩ | ⟨a, k, ⟨b, h1, h2⟩, g, hg, hc, h3⟩)
    · exact ⟨(a, k, b), h1, h2, g, hg, hc, .inl h3⟩
    · exact ⟨(a, k, b), h1, h2, g, hg, hc, .inr h3⟩

theorem on_nodes {f : File} {n : Node} {c : Comment} (h : InDoc f n c ∨ Above f n c) : n ∈ f.nodes := by
  have key : ∀ {a k}, Carries f.events a n k → n ∈ f.nodes := by
    rintro a k ⟨q, b, e, ⟨rfl, -⟩ | ⟨-, -, b1, q', b2, rfl, -⟩⟩
    · exact List.mem_filterMap.2 ⟨.enter k q, by rw [e]; simp, rfl⟩
    · exact List.mem_filterMap.2 ⟨.enter n q', by rw [e]; simp, rfl⟩
  rcases h with ⟨a, k, h, -⟩ | ⟨a, k, h, -⟩ <;> exact key h

/-- Whether the comment stands by itself. -/
def freeB (f : File) (c : Comment) : Bool :=
  (f.groups.all fun g => !g.comments.contains c || f.nodes.all fun n => decide (n.line ≠ some g.pos) &&
    (decide (n.doc ≠ some g.pos) || decide (n.kind = .file) || decide (n.kind = .typeSpec) || decide (n.kind = .field) || decide (n.kind = .genDecl true false)) &&
    (decide (n.kind = .file) || !(decide (n.pos ≤ g.pos) && decide (g.pos < n.end)))) && f.nodes.all fun n => !onB f n c

theorem freeB_spec {f : File} {c : Comment} (h : freeB f c = true) : FreeStanding f c := by
  unfold freeB at h
  rw [Bool.and_eq_true] at h
  refine ⟨fun g hg hc => ?_, fun n => ?_⟩
  · have h1 := List.all_eq_true.1 h.1 g hg
    simp only [List.contains_eq_mem, hc, decide_true, Bool.not_true, Bool.false_or] at h1
    rintro ⟨e, he, n, hn, h2⟩
    have h3 := List.all_eq_true.1 h1 n (List.mem_filterMap.2 ⟨e, he, hn⟩)
    simp only [Bool.and_eq_true, Bool.or_eq_true, decide_eq_true_eq, Bool.not_eq_true'] at h3
    obtain ⟨⟨h4, h5⟩, h6⟩ := h3
    rcases h2 with h2 | ⟨h2, h7⟩ | ⟨h2, h7⟩
    · exact h4 h2
    · rcases h7 with h7 | ⟨t, p, h7, h8⟩
      · rw [h7] at h5; simp [h2] at h5
      · rw [h7] at h5
        simp only [h2, ne_eq, not_true_eq_false, reduceCtorEq, Collect.Kind.genDecl.injEq, false_or] at h5
        rcases h8 with h8 | h8
        · rw [h5.2] at h8; cases h8
        · rw [h5.1] at h8; cases h8
    · rcases h6 with h6 | h6
      · exact h2 h6
      · simp [h7.1, h7.2] at h6
  · have hno : ¬ (InDoc f n c ∨ Above f n c) := fun ho => by
      have := List.all_eq_true.1 h.2 n (on_nodes ho)
      rw [onB_iff.2 ho] at this
      cases this
    exact ⟨fun h => hno (.inl h), fun h => hno (.inr h)⟩

end Verif.Markers.Source

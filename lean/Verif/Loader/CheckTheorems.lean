import Verif.Loader.CheckLemmas2
/-!
# C41, C59: type checking in parallel
-/
namespace Verif.Loader

variable {G : Graph} {rank : Pkg → Nat}

/-- **C41** (termination).  For every import graph without cycles there is a bound on the steps of a call of `Check`: no schedule has more. -/
theorem C41_ends (hG : G.Acyclic rank) (root : Pkg) (typed checked : List Pkg) : ∃ bound, ∀ is s, (St.start root typed checked).run G is = some s → is.length ≤ bound :=
  ⟨_, fun _ _ h => Nat.le_trans (Nat.le_add_right _ _) (run_left hG h)⟩

/-- **C41** (no deadlock).  In every state that can be reached, some thread can take a step, unless all have ended. -/
theorem C41_no_deadlock (hG : G.Acyclic rank) {typed checked : List Pkg} (hb : Before G typed checked) (root : Pkg) {is : List Nat} {s : St} (h : (St.start root typed checked).run G is = some s) :
    s.Ended ∨ ∃ i s', s.step G i = some s' := by
  by_cases he : s.Ended
  · exact .inl he
  · unfold St.Ended at he
    simp only [Classical.not_forall] at he
    obtain ⟨t, ht, hd⟩ := he
    obtain ⟨i, hi⟩ := List.mem_iff_getElem?.1 ht
    exact .inr (((Inv.start hb root).run hG h).progress hG _ i t (Nat.lt_succ_self _) hi hd)

/-- **C41** (a run to the end).  So every run can be continued to one that ends. -/
theorem C41_can_end (hG : G.Acyclic rank) {typed checked : List Pkg} (hb : Before G typed checked) (root : Pkg) : ∀ {is : List Nat} {s : St}, (St.start root typed checked).run G is = some s →
    ∃ is' s', s.run G is' = some s' ∧ s'.Ended := by
  have : ∀ (n : Nat) (s : St), s.left G rank < n → Inv G root typed s → ∃ is' s', s.run G is' = some s' ∧ s'.Ended := by
    intro n
    induction n with
    | zero => intro s h; omega
    | succ n ih =>
      intro s hn h
      by_cases he : s.Ended
      · exact ⟨[], s, rfl, he⟩
      · unfold St.Ended at he
        simp only [Classical.not_forall] at he
        obtain ⟨t, ht, hd⟩ := he
        obtain ⟨i, hi⟩ := List.mem_iff_getElem?.1 ht
        obtain ⟨j, s1, h1⟩ := h.progress hG _ i t (Nat.lt_succ_self _) hi hd
        obtain ⟨is', s', h2, h3⟩ := ih s1 (by have := step_left hG h1; omega) (h.step hG h1)
        exact ⟨j :: is', s', by simp [St.run, h1, h2], h3⟩
  intro is s h
  exact this _ s (Nat.lt_succ_self _) ((Inv.start hb root).run hG h)

/-- **C41** (order).  In every state that can be reached: packages were type-checked at most once, each after all those that it refers to, and none that are not reached from the root. -/
theorem C41_ordered (hG : G.Acyclic rank) {typed checked : List Pkg} (hb : Before G typed checked) (root : Pkg) {is : List Nat} {s : St} (h : (St.start root typed checked).run G is = some s) :
    Ordered G typed s.typed ∧ ∀ p ∈ s.typed, p ∈ typed ∨ G.Reaches root p :=
  have := (Inv.start hb root).run hG h
  ⟨this.order, this.from'⟩

/-- **C41** (completeness).  When a call of `Check` has ended, exactly the packages that are reached from the root by references have types, besides those that had them before; and a later call finds what it relies on. -/
theorem C41_complete (hG : G.Acyclic rank) {typed checked : List Pkg} (hb : Before G typed checked) (root : Pkg) {is : List Nat} {s : St} (h : (St.start root typed checked).run G is = some s) (he : s.Ended) :
    (∀ p, p ∈ s.typed ↔ p ∈ typed ∨ G.Reaches root p) ∧ (∀ p, G.Reaches root p → p ∈ s.checked) ∧ Before G s.typed s.checked := by
  have hi := (Inv.start hb root).run hG h
  have hroot : root ∈ s.checked := by
    obtain ⟨t, ht, rfl⟩ := hi.first
    have := hi.stage 0 t ht
    unfold Stage at this
    rw [he t (List.mem_of_getElem? ht)] at this
    exact this
  have hreach : ∀ p, G.Reaches root p → p ∈ s.checked := by
    intro p hp
    induction hp with
    | refl => exact hroot
    | step _ hr ih => exact hi.closed _ ih _ hr
  refine ⟨fun p => ⟨hi.from' p, ?_⟩, hreach, hi.types, hi.closed, hi.order.1⟩
  rintro (hp | hp)
  · obtain ⟨-, new, e, -⟩ := hi.order
    rw [e]
    exact List.mem_append_left _ hp
  · exact hi.types p (hreach p hp)

/-- **C59**.  Whatever the schedule is, the type checker gets complete types for each import that the package refers to.

Partial: for other imports it depends on the schedule (`C59_violated`). -/
theorem C59_refs_partial (hG : G.Acyclic rank) {typed checked : List Pkg} (hb : Before G typed checked) (root : Pkg) {is : List Nat} {s : St} (h : (St.start root typed checked).run G is = some s) {p q : Pkg} {b : Bool}
    (hs : (p, q, b) ∈ s.saw) (hq : q ∈ G.refs p) : b = true :=
  ((Inv.start hb root).run hG h).saw p q b hs hq

/-! ## Examples -/

/-- A diamond: 0 refers to 1 and 2, which import 3; only 2 refers to it.  3 imports 4, and refers to it. -/
def diamond : Graph where
  imports := fun p => match p with
    | 0 => [1, 2]
    | 1 => [3]
    | 2 => [3]
    | 3 => [4]
    | _ => []
  refs := fun p => match p with
    | 0 => [2, 1]
    | 2 => [3]
    | 3 => [4]
    | _ => []

theorem diamond_acyclic : diamond.Acyclic (fun p => 4 - p) where
  down p q h := by
    show 4 - q < 4 - p
    unfold diamond at h
    simp only at h
    split at h <;> simp only [List.mem_cons, List.not_mem_nil, or_false] at h
    · obtain rfl | rfl := h <;> decide
    · subst h; decide
    · subst h; decide
    · subst h; decide
  refs p q h := by
    unfold diamond at h ⊢
    simp only at h ⊢
    split at h
    · simpa [or_comm] using h
    · exact h
    · exact h
    · cases h

theorem before_nothing (G : Graph) : Before G [] [] := ⟨by simp, by simp, by simp⟩

/-- The thread for 1 is first: it does not see types of 3. -/
def schedule1 : List Nat :=
  [0, 0, 0, 0, 0] ++ [2, 2, 2, 2, 2, 2, 2, 2, 2, 2, 2] ++ [1, 1, 1, 1] ++ [3, 3, 3, 3] ++ [4, 4, 4, 4, 4, 4, 4, 4, 4] ++ [3, 3, 3, 3, 3, 3, 3, 3] ++ [1, 1, 1, 1, 1, 1, 1, 1] ++ [0, 0, 0, 0, 0, 0, 0, 0, 0, 0]

/-- The thread for 1 is last: it does. -/
def schedule2 : List Nat :=
  [0, 0, 0, 0, 0] ++ [1, 1, 1, 1] ++ [3, 3, 3, 3] ++ [4, 4, 4, 4, 4, 4, 4, 4, 4] ++ [3, 3, 3, 3, 3, 3, 3, 3] ++ [1, 1, 1, 1, 1, 1, 1, 1] ++ [2, 2, 2, 2, 2, 2, 2, 2, 2, 2, 2] ++ [0, 0, 0, 0, 0, 0, 0, 0, 0, 0]

theorem run_test {s : St} {is : List Nat} (f : St → Bool) (h : (s.run G is).any f = true) : ∃ s', s.run G is = some s' ∧ f s' = true := by
  cases hr : s.run G is with
  | none => rw [hr] at h; cases h
  | some s' => rw [hr] at h; exact ⟨s', rfl, h⟩

/-- **C59**, violated: whether the type checker gets complete types for an import that a package does not refer to depends on the schedule.  Both runs end. -/
theorem C59_violated : ∃ G rank, Graph.Acyclic G rank ∧ ∃ is is' s s', (St.start 0 [] []).run G is = some s ∧ (St.start 0 [] []).run G is' = some s' ∧ s.Ended ∧ s'.Ended ∧
    (1, 3, false) ∈ s.saw ∧ (1, 3, true) ∈ s'.saw := by
  refine ⟨diamond, _, diamond_acyclic, schedule1, schedule2, ?_⟩
  obtain ⟨s, h1, h2⟩ := run_test (G := diamond) (s := St.start 0 [] []) (is := schedule1) (fun s => s.threads.all (·.pc = .done) && s.saw.contains (1, 3, false)) (by decide)
  obtain ⟨s', h1', h2'⟩ := run_test (G := diamond) (s := St.start 0 [] []) (is := schedule2) (fun s => s.threads.all (·.pc = .done) && s.saw.contains (1, 3, true)) (by decide)
  simp only [Bool.and_eq_true, List.all_eq_true, decide_eq_true_eq, List.contains_iff_mem] at h2 h2'
  exact ⟨s, s', h1, h1', h2.1, h2'.1, h2.2, h2'.2⟩

/-- Without a graph that goes down there is a deadlock: a package that imports itself. -/
example : ∃ is s, (St.start 0 [] []).run ⟨fun _ => [0], fun _ => [0]⟩ is = some s ∧ ¬ s.Ended ∧ ∀ i, s.step ⟨fun _ => [0], fun _ => [0]⟩ i = none := by
  refine ⟨[0, 0, 0, 0], _, rfl, fun h => ?_, fun i => ?_⟩
  · cases h ⟨0, .lock, []⟩ (List.mem_cons_of_mem _ (List.mem_cons_self ..))
  · cases i with
    | zero => rfl
    | succ i =>
      cases i with
      | zero => rfl
      | succ i => rfl

end Verif.Loader

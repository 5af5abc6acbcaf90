import Verif.Markers.Cache
/-!
# C18: the cache of the collector
-/
namespace Verif.Markers.Cache
open Verif

variable {Pkg Files Vals Err : Type} [DecidableEq Pkg] (I : Input Pkg Files Vals Err)

/-- What collecting the markers of a package once gives. -/
def Input.once (p : Pkg) : Except Err Vals := I.collect ((I.read p).getD I.noFiles)

/-- The results of finished calls. -/
def State.result (s : State Pkg Files Vals Err) (i : Nat) : Option (Pkg × Except Err (Nat × Vals)) :=
  match s.calls[i]? with
  | some (p, .done r) => some (p, r)
  | _ => none

def stageOK (p : Pkg) : Stage Files Vals Err → Prop
  | .parsed (_, f) => I.read p = some f
  | .store (_, v) => I.once p = .ok v
  | .done (.ok (_, v)) => I.once p = .ok v
  | .done (.error e) => I.once p = .error e
  | _ => True

/-- A call in front of collecting has a syntax tree, or there is none. -/
def readyOK (s : State Pkg Files Vals Err) (p : Pkg) : Stage Files Vals Err → Prop
  | .collect => (GoMap.get s.syntax p).isSome ∨ I.read p = none
  | _ => True

structure Inv (s : State Pkg Files Vals Err) : Prop where
  syn : ∀ p id f, GoMap.get s.syntax p = some (id, f) → I.read p = some f
  cache : ∀ p id v, GoMap.get s.cache p = some (id, v) → I.once p = .ok v
  calls : ∀ c ∈ s.calls, stageOK I c.1 c.2
  ready : ∀ c ∈ s.calls, readyOK I s c.1 c.2

theorem inv_start (ps : List Pkg) : Inv I { calls := ps.map fun p => (p, .start) } where
  syn := by intro p id f h; cases h
  cache := by intro p id v h; cases h
  calls := by
    intro c hc
    obtain ⟨p, _, rfl⟩ := List.mem_map.1 hc
    trivial
  ready := by
    intro c hc
    obtain ⟨p, _, rfl⟩ := List.mem_map.1 hc
    trivial

theorem get_put_some {κ ν : Type} [DecidableEq κ] {m : List (κ × ν)} {k k' : κ} {v w : ν} (h : GoMap.get (GoMap.put m k v) k' = some w) : (k = k' ∧ v = w) ∨ GoMap.get m k' = some w := by
  rw [GoMap.get_put] at h
  split at h
  · rename_i e; cases h; exact .inl ⟨e.symm, rfl⟩
  · exact .inr h

theorem set_mem {α : Type} {l : List α} {i : Nat} {a x : α} (h : x ∈ l.set i a) : x = a ∨ x ∈ l := by
  induction l generalizing i with
  | nil => cases h
  | cons b l ih =>
    cases i with
    | zero => rcases List.mem_cons.1 h with h | h <;> simp [h]
    | succ i =>
      rcases List.mem_cons.1 h with h | h
      · simp [h]
      · rcases ih h with h | h <;> simp [h]

/-- A change of one call, that does not take away a syntax tree, keeps the invariant. -/
theorem Inv.set {s s' : State Pkg Files Vals Err} (h : Inv I s) {i : Nat} {p : Pkg} {st : Stage Files Vals Err} (hc : s'.calls = s.calls)
    (hsyn : ∀ p id f, GoMap.get s'.syntax p = some (id, f) → I.read p = some f) (hmono : ∀ p, (GoMap.get s.syntax p).isSome → (GoMap.get s'.syntax p).isSome)
    (hcache : ∀ p id v, GoMap.get s'.cache p = some (id, v) → I.once p = .ok v) (h1 : stageOK I p st) (h2 : readyOK I s' p st) :
    Inv I { s' with calls := s'.calls.set i (p, st) } where
  syn := hsyn
  cache := hcache
  calls := by
    intro c hm
    obtain rfl | hm := set_mem hm
    · exact h1
    · rw [hc] at hm; exact h.calls c hm
  ready := by
    intro c hm
    obtain rfl | hm := set_mem hm
    · cases st <;> first | trivial | exact h2
    · rw [hc] at hm
      have := h.ready c hm
      obtain ⟨q, st'⟩ := c
      cases st' with
      | collect => exact this.imp (hmono q) id
      | _ => trivial

theorem step_inv {s : State Pkg Files Vals Err} (h : Inv I s) (i : Nat) : Inv I (s.step I i) := by
  unfold State.step
  cases hi : s.calls[i]? with
  | none => exact h
  | some c =>
    obtain ⟨p, st⟩ := c
    have hm := List.mem_of_getElem? hi
    have hst := h.calls _ hm
    have hrd := h.ready _ hm
    simp only
    have same : ∀ st', stageOK I p st' → readyOK I s p st' → Inv I { s with calls := s.calls.set i (p, st') } :=
      fun st' h1 h2 => Inv.set I h rfl h.syn (fun _ h => h) h.cache h1 h2
    cases st with
    | start =>
      simp only [State.stage]
      cases hg : GoMap.get s.cache p with
      | some m => obtain ⟨id, v⟩ := m; exact same _ (h.cache p id v hg) trivial
      | none => exact same _ trivial trivial
    | need =>
      simp only [State.stage]
      cases hg : GoMap.get s.syntax p with
      | some m => exact same _ trivial (.inl (by rw [hg]; rfl))
      | none => exact same _ trivial trivial
    | parse =>
      simp only [State.stage]
      cases hr : I.read p with
      | some f => exact Inv.set (s' := { s with next := s.next + 1 }) I h rfl h.syn (fun _ h => h) h.cache hr trivial
      | none => exact same _ trivial (.inr hr)
    | parsed syn =>
      obtain ⟨id, f⟩ := syn
      simp only [State.stage]
      refine Inv.set (s' := { s with «syntax» := GoMap.put s.syntax p (id, f) }) I h rfl ?_ ?_ h.cache trivial (.inl ?_)
      · intro q id' f' hq
        obtain ⟨rfl, e⟩ | hq := get_put_some hq
        · cases e; exact hst
        · exact h.syn q id' f' hq
      · intro q hq
        simp only [GoMap.get_put]
        split
        · rfl
        · exact hq
      · simp [GoMap.get_put]
    | collect =>
      simp only [State.stage]
      have hf : ((GoMap.get s.syntax p).getD (0, I.noFiles)).2 = (I.read p).getD I.noFiles := by
        cases hg : GoMap.get s.syntax p with
        | some m => obtain ⟨id, f⟩ := m; rw [h.syn p id f hg]; rfl
        | none =>
          obtain h1 | h1 := hrd
          · rw [hg] at h1; cases h1
          · rw [h1]; rfl
      cases hc : I.collect ((GoMap.get s.syntax p).getD (0, I.noFiles)).2 with
      | ok v =>
        refine same _ ?_ trivial
        show I.once p = .ok v
        rw [Input.once, ← hf, hc]
      | error e =>
        refine same _ ?_ trivial
        show I.once p = .error e
        rw [Input.once, ← hf, hc]
    | store m =>
      obtain ⟨id, v⟩ := m
      simp only [State.stage]
      refine Inv.set (s' := { s with cache := GoMap.put s.cache p (id, v) }) I h rfl h.syn (fun _ h => h) ?_ hst trivial
      intro q id' v' hq
      obtain ⟨rfl, e⟩ | hq := get_put_some hq
      · cases e; exact hst
      · exact h.cache q id' v' hq
    | done r => exact same _ hst trivial

theorem run_inv : ∀ (is : List Nat) {s : State Pkg Files Vals Err}, Inv I s → Inv I (s.run I is)
  | [], _, h => h
  | i :: is, _, h => run_inv is (step_inv I h i)

/-- **C18**: for any requests, and in any order in which their steps are done, what a call returns is what collecting the markers of the package once gives: the same values, or the same error. -/
theorem C18_values (ps : List Pkg) (is : List Nat) (i : Nat) (p : Pkg) (r : Except Err (Nat × Vals))
    (h : (({ calls := ps.map fun p => (p, .start) } : State Pkg Files Vals Err).run I is).result i = some (p, r)) :
    (∀ m, r = .ok m → I.once p = .ok m.2) ∧ (∀ e, r = .error e → I.once p = .error e) := by
  have hi := run_inv I is (inv_start I ps)
  unfold State.result at h
  split at h
  · rename_i p' r' hc
    cases h
    have := hi.calls _ (List.mem_of_getElem? hc)
    constructor
    · rintro ⟨id, v⟩ rfl; exact this
    · rintro e rfl; exact this
  · cases h

/-- **C18**: the markers of a package are not in the cache if collecting them fails. -/
theorem C18_cache (ps : List Pkg) (is : List Nat) (p : Pkg) (e : Err) (h : I.once p = .error e) :
    GoMap.get (({ calls := ps.map fun p => (p, .start) } : State Pkg Files Vals Err).run I is).cache p = none := by
  have hi := run_inv I is (inv_start I ps)
  cases hg : GoMap.get (({ calls := ps.map fun p => (p, .start) } : State Pkg Files Vals Err).run I is).cache p with
  | none => rfl
  | some m =>
    have := hi.cache p m.1 m.2 hg
    rw [h] at this
    cases this

/-! ## One call after the other -/

/-- The identity of the syntax tree of a package. -/
def State.idOf (s : State Pkg Files Vals Err) (p : Pkg) : Nat := ((GoMap.get s.syntax p).map (·.1)).getD 0

/-- What is in the cache is about the syntax trees of the packages. -/
structure Quiet (s : State Pkg Files Vals Err) : Prop where
  syn : ∀ p id f, GoMap.get s.syntax p = some (id, f) → I.read p = some f
  cache : ∀ p m, GoMap.get s.cache p = some m → I.once p = .ok m.2 ∧ m.1 = s.idOf p ∧ ((GoMap.get s.syntax p).isSome ∨ I.read p = none)

theorem run_append (s : State Pkg Files Vals Err) : ∀ (is js : List Nat), s.run I (is ++ js) = (s.run I is).run I js := by
  intro is
  induction is generalizing s with
  | nil => intro js; rfl
  | cons i is ih => intro js; exact ih _ js

theorem run_done {s : State Pkg Files Vals Err} {i : Nat} {p : Pkg} {r : Except Err (Nat × Vals)} (h : s.calls[i]? = some (p, .done r)) : ∀ k, s.run I (List.replicate k i) = s
  | 0 => rfl
  | k + 1 => by
    have : s.step I i = s := by
      unfold State.step
      rw [h]
      simp only [State.stage]
      have hlt := (List.getElem?_eq_some_iff.1 h).1
      have he : s.calls[i] = (p, .done r) := (List.getElem?_eq_some_iff.1 h).2
      rw [← he, List.set_getElem_self]
    rw [List.replicate_succ, State.run, this]
    exact run_done h k

theorem step_set {calls : List (Pkg × Stage Files Vals Err)} {i : Nat} (hlt : i < calls.length) {p : Pkg} {st : Stage Files Vals Err} {s : State Pkg Files Vals Err} (hs : s.calls = calls.set i (p, st))
    {s1 : State Pkg Files Vals Err} {st1 : Stage Files Vals Err} (hst : s.stage I p st = (s1, st1)) (hc : s1.calls = s.calls) : s.step I i = { s1 with calls := calls.set i (p, st1) } := by
  have : s.calls[i]? = some (p, st) := by rw [hs]; exact List.getElem?_set_self hlt
  unfold State.step
  rw [this]
  simp only [hst]
  rw [hc, hs, List.set_set]

/-- A whole call. -/
theorem call_spec {s : State Pkg Files Vals Err} (hq : Quiet I s) {i : Nat} {p : Pkg} (h : s.calls[i]? = some (p, .start)) :
    ∃ s', s.run I (List.replicate 6 i) = s' ∧ Quiet I s' ∧ s'.calls = s.calls.set i (p, .done ((I.once p).map fun v => (s'.idOf p, v))) ∧
      ((GoMap.get s'.syntax p).isSome ∨ I.read p = none) ∧ ∀ q, (GoMap.get s.syntax q).isSome ∨ I.read q = none → GoMap.get s'.syntax q = GoMap.get s.syntax q := by
  have hlt := (List.getElem?_eq_some_iff.1 h).1
  refine ⟨_, rfl, ?_⟩
  have h0 : s.calls = s.calls.set i (p, .start) := by
    rw [← (List.getElem?_eq_some_iff.1 h).2, List.set_getElem_self]
  cases hc : GoMap.get s.cache p with
  | some m =>
    have e : s.run I (List.replicate 6 i) = { s with calls := s.calls.set i (p, .done (.ok m)) } := by
      rw [show (List.replicate 6 i) = i :: List.replicate 5 i from rfl, State.run, step_set I hlt h0 (by rw [State.stage, hc]) rfl]
      exact run_done I (p := p) (List.getElem?_set_self hlt) _
    obtain ⟨h1, h2, h3⟩ := hq.cache p m hc
    rw [e]
    refine ⟨⟨hq.syn, hq.cache⟩, ?_, h3, fun q _ => rfl⟩
    rw [h1]
    show s.calls.set i (p, .done (.ok m)) = s.calls.set i (p, .done (.ok (s.idOf p, m.2)))
    rw [← h2]
  | none =>
    -- collecting, and what comes after it
    have tail : ∀ (s1 : State Pkg Files Vals Err), (∀ p id f, GoMap.get s1.syntax p = some (id, f) → I.read p = some f) →
        (∀ q, (GoMap.get s.syntax q).isSome ∨ I.read q = none → GoMap.get s1.syntax q = GoMap.get s.syntax q) → s1.cache = s.cache →
        s1.calls = s.calls.set i (p, .collect) → ((GoMap.get s1.syntax p).isSome ∨ I.read p = none) → ∀ k,
        Quiet I (s1.run I (List.replicate (k + 2) i)) ∧ (s1.run I (List.replicate (k + 2) i)).calls = s.calls.set i (p, .done ((I.once p).map fun v => ((s1.run I (List.replicate (k + 2) i)).idOf p, v))) ∧
          ((GoMap.get (s1.run I (List.replicate (k + 2) i)).syntax p).isSome ∨ I.read p = none) ∧
          ∀ q, (GoMap.get s.syntax q).isSome ∨ I.read q = none → GoMap.get (s1.run I (List.replicate (k + 2) i)).syntax q = GoMap.get s.syntax q := by
      intro s1 h1 h2 h3 h4 h5 k
      have hf : ((GoMap.get s1.syntax p).getD (0, I.noFiles)).2 = (I.read p).getD I.noFiles := by
        cases hg : GoMap.get s1.syntax p with
        | some m => obtain ⟨id, f⟩ := m; rw [h1 p id f hg]; rfl
        | none =>
          obtain h6 | h6 := h5
          · rw [hg] at h6; cases h6
          · rw [h6]; rfl
      have hid : ((GoMap.get s1.syntax p).getD (0, I.noFiles)).1 = s1.idOf p := by
        unfold State.idOf
        cases GoMap.get s1.syntax p <;> rfl
      have hcall : s1.calls[i]? = some (p, .collect) := by rw [h4]; exact List.getElem?_set_self hlt
      have hlt1 : i < s1.calls.length := (List.getElem?_eq_some_iff.1 hcall).1
      have old : ∀ q m, GoMap.get s.cache q = some m → I.once q = .ok m.2 ∧ m.1 = s1.idOf q ∧ ((GoMap.get s1.syntax q).isSome ∨ I.read q = none) := by
        intro q m hm
        obtain ⟨a1, a2, a3⟩ := hq.cache q m hm
        refine ⟨a1, ?_, ?_⟩
        · unfold State.idOf; rw [h2 q a3]; exact a2
        · rw [h2 q a3]; exact a3
      cases ho : I.collect ((GoMap.get s1.syntax p).getD (0, I.noFiles)).2 with
      | error e =>
        have ho' : I.once p = .error e := by rw [Input.once, ← hf, ho]
        have e1 : s1.step I i = { s1 with calls := s.calls.set i (p, .done (.error e)) } := by
          unfold State.step
          rw [hcall]
          simp only [State.stage, ho]
          rw [h4, List.set_set]
        have e2 : s1.run I (List.replicate (k + 2) i) = { s1 with calls := s.calls.set i (p, .done (.error e)) } := by
          rw [show k + 2 = (k + 1) + 1 from rfl, List.replicate_succ, State.run, e1]
          exact run_done I (p := p) (List.getElem?_set_self hlt) _
        rw [e2, ho']
        refine ⟨⟨h1, ?_⟩, rfl, h5, h2⟩
        intro q m hm
        exact old q m (h3 ▸ hm)
      | ok v =>
        have ho' : I.once p = .ok v := by rw [Input.once, ← hf, ho]
        have e1 : (s1.step I i).step I i = { s1 with cache := GoMap.put s1.cache p (s1.idOf p, v), calls := s.calls.set i (p, .done (.ok (s1.idOf p, v))) } := by
          have : s1.step I i = { s1 with calls := s1.calls.set i (p, .store (s1.idOf p, v)) } := by
            unfold State.step
            rw [hcall]
            simp only [State.stage, ho, hid]
          rw [this]
          exact step_set I hlt (p := p) (st := .store (s1.idOf p, v)) (by simp only [h4, List.set_set]) rfl rfl
        have e2 : s1.run I (List.replicate (k + 2) i) = { s1 with cache := GoMap.put s1.cache p (s1.idOf p, v), calls := s.calls.set i (p, .done (.ok (s1.idOf p, v))) } := by
          rw [show k + 2 = (k + 1) + 1 from rfl, List.replicate_succ, List.replicate_succ, State.run, State.run, e1]
          exact run_done I (p := p) (List.getElem?_set_self hlt) _
        rw [e2, ho']
        refine ⟨⟨h1, ?_⟩, rfl, h5, h2⟩
        intro q m hm
        obtain ⟨rfl, e⟩ | hm := get_put_some hm
        · cases e; exact ⟨ho', rfl, h5⟩
        · exact old q m (h3 ▸ hm)
    have a1 : s.step I i = { s with calls := s.calls.set i (p, .need) } := step_set I hlt h0 (by rw [State.stage, hc]) rfl
    have a2 : ∀ st', ({ s with calls := s.calls.set i (p, .need) } : State Pkg Files Vals Err).stage I p .need = ({ s with calls := s.calls.set i (p, .need) }, st') →
        ({ s with calls := s.calls.set i (p, .need) } : State Pkg Files Vals Err).step I i = { s with calls := s.calls.set i (p, st') } :=
      fun st' h => step_set I hlt (s1 := { s with calls := s.calls.set i (p, .need) }) rfl h rfl
    cases hs : GoMap.get s.syntax p with
    | some m =>
      have e : s.run I (List.replicate 6 i) = ({ s with calls := s.calls.set i (p, .collect) } : State Pkg Files Vals Err).run I (List.replicate 4 i) := by
        rw [show (List.replicate 6 i) = i :: i :: List.replicate 4 i from rfl, State.run, State.run]
        rw [a1, a2 .collect (by simp only [State.stage, hs])]
      rw [e]
      exact tail { s with calls := s.calls.set i (p, .collect) } hq.syn (fun q _ => rfl) rfl rfl (.inl (by show (GoMap.get s.syntax p).isSome = true; rw [hs]; rfl)) 2
    | none =>
      cases hr : I.read p with
      | none =>
        have e : s.run I (List.replicate 6 i) = ({ s with calls := s.calls.set i (p, .collect) } : State Pkg Files Vals Err).run I (List.replicate 3 i) := by
          rw [show (List.replicate 6 i) = i :: i :: i :: List.replicate 3 i from rfl, State.run, State.run, State.run]
          rw [a1, a2 .parse (by simp only [State.stage, hs])]
          congr 1
          exact step_set I hlt (p := p) (st := .parse) (s1 := { s with calls := s.calls.set i (p, .parse) }) (st1 := .collect) rfl (by simp only [State.stage, hr]) rfl
        rw [e]
        have := tail { s with calls := s.calls.set i (p, .collect) } hq.syn (fun q _ => rfl) rfl rfl (.inr hr) 1
        rwa [hr] at this
      | some f =>
        have e : s.run I (List.replicate 6 i) = ({ s with next := s.next + 1, «syntax» := GoMap.put s.syntax p (s.next, f), calls := s.calls.set i (p, .collect) } : State Pkg Files Vals Err).run I (List.replicate 2 i) := by
          rw [show (List.replicate 6 i) = i :: i :: i :: i :: List.replicate 2 i from rfl, State.run, State.run, State.run, State.run]
          rw [a1, a2 .parse (by simp only [State.stage, hs])]
          congr 1
          have a3 : ({ s with calls := s.calls.set i (p, .parse) } : State Pkg Files Vals Err).step I i = { s with next := s.next + 1, calls := s.calls.set i (p, .parsed (s.next, f)) } :=
            step_set I hlt (p := p) (st := .parse) (s1 := { s with next := s.next + 1, calls := s.calls.set i (p, .parse) }) (st1 := .parsed (s.next, f)) rfl (by simp only [State.stage, hr]) rfl
          rw [a3]
          exact step_set I hlt (p := p) (st := .parsed (s.next, f)) (s := { s with next := s.next + 1, calls := s.calls.set i (p, .parsed (s.next, f)) })
            (s1 := { s with next := s.next + 1, «syntax» := GoMap.put s.syntax p (s.next, f), calls := s.calls.set i (p, .parsed (s.next, f)) }) (st1 := .collect) rfl rfl rfl
        rw [e]
        have := tail { s with next := s.next + 1, «syntax» := GoMap.put s.syntax p (s.next, f), calls := s.calls.set i (p, .collect) } ?_ ?_ rfl rfl (.inl (by simp [GoMap.get_put])) 0
        · rwa [hr] at this
        · intro q id f' hm
          obtain ⟨rfl, e⟩ | hm := get_put_some hm
          · cases e; exact hr
          · exact hq.syn q id f' hm
        · intro q hm
          simp only [GoMap.get_put]
          split
          · rename_i e
            subst e
            rw [hs, hr] at hm
            simp at hm
          · rfl

/-- **C18**: if calls are made one after the other, all return, and each of them returns what collecting the markers of the package once gives, with the nodes of its syntax tree as keys: the same result for all calls. -/
theorem C18_serial_partial (ps : List Pkg) : ∀ i p, ps[i]? = some p →
    (({ calls := ps.map fun p => (p, .start) } : State Pkg Files Vals Err).run I (serial ps.length)).result i =
      some (p, (I.once p).map fun v => ((({ calls := ps.map fun p => (p, .start) } : State Pkg Files Vals Err).run I (serial ps.length)).idOf p, v)) := by
  have key : ∀ n, n ≤ ps.length → ∃ s, ({ calls := ps.map fun p => (p, .start) } : State Pkg Files Vals Err).run I (serial n) = s ∧ Quiet I s ∧ s.calls.length = ps.length ∧
      (∀ i p, ps[i]? = some p → n ≤ i → s.calls[i]? = some (p, .start)) ∧
      (∀ i p, ps[i]? = some p → i < n → s.calls[i]? = some (p, .done ((I.once p).map fun v => (s.idOf p, v))) ∧ ((GoMap.get s.syntax p).isSome ∨ I.read p = none)) := by
    intro n
    induction n with
    | zero =>
      intro _
      refine ⟨_, rfl, ⟨?_, ?_⟩, by simp [serial, State.run], ?_, ?_⟩
      · intro p id f h; cases h
      · intro p m h; cases h
      · intro i p h _; simp [serial, State.run, h]
      · intro i p _ h; omega
    | succ n ih =>
      intro hn
      obtain ⟨s, h1, h2, h3, h4, h5⟩ := ih (by omega)
      have hp : ps[n]? = some ps[n] := List.getElem?_eq_getElem (by omega)
      obtain ⟨s', g1, g2, g3, g4, g5⟩ := call_spec I h2 (h4 n _ hp (Nat.le_refl _))
      refine ⟨s', ?_, g2, ?_, ?_, ?_⟩
      · rw [← g1, ← h1, ← run_append]
        congr 1
        simp [serial, List.range_succ]
      · rw [g3, List.length_set, h3]
      · intro i p hi hle
        rw [g3, List.getElem?_set_ne (by omega)]
        exact h4 i p hi (by omega)
      · intro i p hi hle
        by_cases e : i = n
        · subst e
          rw [hp] at hi
          cases hi
          exact ⟨by rw [g3]; exact List.getElem?_set_self (by omega), g4⟩
        · obtain ⟨a1, a2⟩ := h5 i p hi (by omega)
          have hid : s'.idOf p = s.idOf p := by unfold State.idOf; rw [g5 p a2]
          refine ⟨?_, by rw [g5 p a2]; exact a2⟩
          rw [g3, List.getElem?_set_ne (by omega), a1, hid]
  intro i p hi
  obtain ⟨s, h1, _, _, _, h5⟩ := key ps.length (Nat.le_refl _)
  rw [h1]
  unfold State.result
  rw [(h5 i p hi (List.getElem?_eq_some_iff.1 hi).1).1]

/-! ## Where the property does not hold -/

/-- One package, `p`; its only file has one marker. -/
def input : Input String (List String) (List String) String where
  read p := if p = "p" then some ["+optional"] else none
  noFiles := []
  collect f := if "+bad" ∈ f then .error "bad marker" else .ok f

/-- One call after the other: both return the markers. -/
example : (({ calls := ["p", "p"].map fun p => (p, .start) } : State String (List String) (List String) String).run input (serial 2)).result 1 = some ("p", .ok (1, ["+optional"])) := rfl

/-- **C18**, violated: with two calls at the same time, the files can be parsed twice.  Then the cache can have the markers for the nodes of one syntax tree, while the package has the other one: no marker is found for any of its nodes, from then on. -/
theorem C18_violated : ∃ is, let s := ({ calls := ["p", "p", "p"].map fun p => (p, .start) } : State String (List String) (List String) String).run input is
    GoMap.get s.syntax "p" = some (2, ["+optional"]) ∧ GoMap.get s.cache "p" = some (1, ["+optional"]) ∧ s.result 2 = some ("p", .ok (1, ["+optional"])) :=
  ⟨[0, 1, 0, 1, 0, 1, 0, 0, 1, 1, 1, 0, 2], rfl, rfl, rfl⟩

/-- **C18**, violated: a package with a file that cannot be parsed has no syntax tree, and no markers: this is a success, and stays in the cache. -/
theorem C18_violated_syntax : input.read "q" = none ∧
    let s := ({ calls := [("q", .start)] } : State String (List String) (List String) String).run input (serial 1)
    s.result 0 = some ("q", .ok (0, [])) ∧ GoMap.get s.cache "q" = some (0, []) := ⟨rfl, rfl, rfl⟩

end Verif.Markers.Cache

import Verif.Loader.Errors
/-!
# C42: errors are not lost
-/
namespace Verif.Loader

/-! ## Specification -/

/-- The errors of nested lists, from left to right. -/
inductive Leaves : Err → List Err → Prop
  | path (p m) : Leaves (.path p m) [.path p m]
  | scan (l) : Leaves (.scan l) (l.map fun e => .scan [e])
  | type (p m) : Leaves (.type p m) [.type p m]
  | at (p e) : Leaves (.at p e) [.at p e]
  | wrap (m e) : Leaves (.wrap m e) [.wrap m e]
  | other (m) : Leaves (.other m) [.other m]
  | nil : Leaves (.list []) []
  | cons {e es a b} : Leaves e a → Leaves (.list es) b → Leaves (.list (e :: es)) (a ++ b)

/-- An error of a package stands for a single error: its class gives the kind. -/
inductive StandsFor (id : String) : Err → PkgErr → Prop
  | path (p m) : StandsFor id (.path p m) ⟨p ++ ":1", m, .parse⟩
  | scan (p m) : StandsFor id (.scan [(p, m)]) ⟨p, m, .parse⟩
  | type (p m) : StandsFor id (.type p m) ⟨p, m, .type⟩
  | at (p e) : StandsFor id (.at p e) ⟨p, e.text, .unknown⟩
  | wrap (m e) : StandsFor id (.wrap m e) ⟨id ++ ":-", m, .unknown⟩
  | other (m) : StandsFor id (.other m) ⟨id ++ ":-", m, .unknown⟩

/-- Lists whose elements are related, one by one. -/
inductive AllFor (id : String) : List Err → List PkgErr → Prop
  | nil : AllFor id [] []
  | cons {e es p ps} : StandsFor id e p → AllFor id es ps → AllFor id (e :: es) (p :: ps)

theorem AllFor.append {id : String} {a c : List Err} {b d : List PkgErr} (h : AllFor id a b) (k : AllFor id c d) : AllFor id (a ++ c) (b ++ d) := by
  induction h with
  | nil => exact k
  | cons h _ ih => exact .cons h ih

mutual
theorem addError_leaves (id : String) : ∀ (e : Err) (errs : List PkgErr), ∃ ls new, Leaves e ls ∧ AllFor id ls new ∧ addError id errs e = errs ++ new
  | .path p m, errs => ⟨_, _, .path p m, .cons (.path p m) .nil, by rw [addError]⟩
  | .scan l, errs => by
    refine ⟨_, _, .scan l, ?_, by rw [addError]⟩
    induction l with
    | nil => exact .nil
    | cons e l ih => exact .cons (.scan e.1 e.2) ih
  | .type p m, errs => ⟨_, _, .type p m, .cons (.type p m) .nil, by rw [addError]⟩
  | .list l, errs => by
    obtain ⟨ls, new, h1, h2, h3⟩ := addErrors_leaves id l errs
    exact ⟨ls, new, h1, h2, by rw [addError]; exact h3⟩
  | .at p e, errs => ⟨_, _, .at p e, .cons (.at p e) .nil, by rw [addError]⟩
  | .wrap m e, errs => ⟨_, _, .wrap m e, .cons (.wrap m e) .nil, by rw [addError]⟩
  | .other m, errs => ⟨_, _, .other m, .cons (.other m) .nil, by rw [addError]⟩

theorem addErrors_leaves (id : String) : ∀ (l : List Err) (errs : List PkgErr), ∃ ls new, Leaves (.list l) ls ∧ AllFor id ls new ∧ addErrors id errs l = errs ++ new
  | [], errs => ⟨[], [], .nil, .nil, by rw [addErrors]; simp⟩
  | e :: es, errs => by
    obtain ⟨ls, new, h1, h2, h3⟩ := addError_leaves id e errs
    obtain ⟨ls', new', k1, k2, k3⟩ := addErrors_leaves id es (errs ++ new)
    exact ⟨ls ++ ls', new ++ new', .cons h1 k1, h2.append k2, by rw [addErrors, h3, k3, List.append_assoc]⟩
end

mutual
theorem Leaves.det : ∀ {e : Err} {a b : List Err}, Leaves e a → Leaves e b → a = b
  | _, _, _, .path .., .path .. => rfl
  | _, _, _, .scan .., .scan .. => rfl
  | _, _, _, .type .., .type .. => rfl
  | _, _, _, .at .., .at .. => rfl
  | _, _, _, .wrap .., .wrap .. => rfl
  | _, _, _, .other .., .other .. => rfl
  | _, _, _, .nil, .nil => rfl
  | _, _, _, .cons h1 h2, .cons k1 k2 => by rw [Leaves.det h1 k1, Leaves.det h2 k2]
end

/-- **C42** (adding).  Adding an error keeps the errors that are there, and appends one error for each error of the (nested) list, in order, of the kind of its class. -/
theorem C42_added (id : String) (errs : List PkgErr) (e : Err) : ∃ ls new, Leaves e ls ∧ AllFor id ls new ∧ addError id errs e = errs ++ new := addError_leaves id e errs

/-- **C42** (printing).  If `visited` are the packages that can be reached, each once: a run is a failure exactly if one of them has an error of a kind that is not filtered; and all these errors are printed, package by package. -/
theorem C42_printed {reachable : Nat → Prop} {errors : Nat → List PkgErr} {visited : List Nat} (hv : ∀ p, p ∈ visited ↔ reachable p) (filter : List ErrKind) :
    ((printErrors errors visited filter).2 = true ↔ ∃ p e, reachable p ∧ e ∈ errors p ∧ e.kind ∉ filter) ∧
    ∀ e, e ∈ (printErrors errors visited filter).1 ↔ ∃ p, reachable p ∧ e ∈ errors p ∧ e.kind ∉ filter := by
  have h2 : ∀ e, e ∈ (printErrors errors visited filter).1 ↔ ∃ p, reachable p ∧ e ∈ errors p ∧ e.kind ∉ filter := by
    intro e
    simp [printErrors, hv]
  refine ⟨?_, h2⟩
  have h3 : (printErrors errors visited filter).2 = true ↔ (printErrors errors visited filter).1 ≠ [] := by
    simp [printErrors]
  rw [h3]
  constructor
  · intro hne
    obtain ⟨e, he⟩ := List.exists_mem_of_ne_nil _ hne
    obtain ⟨p, hp⟩ := (h2 e).1 he
    exact ⟨p, e, hp⟩
  · rintro ⟨p, e, hp⟩ hn
    have := (h2 e).2 ⟨p, hp⟩
    rw [hn] at this
    cases this

/-- `ErrFromNode` keeps the number of errors and gives all of them the position, for lists that wrap nothing. -/
inductive Positioned (pos : String) : Err → Prop
  | at (e) : Positioned pos (.at pos e)
  | nil : Positioned pos (.list [])
  | cons {e es} : Positioned pos e → Positioned pos (.list es) → Positioned pos (.list (e :: es))

mutual
theorem errFromNode_positioned (pos : String) : ∀ e, Positioned pos (errFromNode pos e)
  | .list l => by rw [errFromNode]; exact errsFromNode_positioned pos l
  | .wrap m e => by
    rw [errFromNode]
    split
    · exact errFromNode_positioned pos e
    · exact .at _
  | .path .. => .at _
  | .scan _ => .at _
  | .type .. => .at _
  | .at .. => .at _
  | .other _ => .at _

theorem errsFromNode_positioned (pos : String) : ∀ l, Positioned pos (.list (errsFromNode pos l))
  | [] => .nil
  | e :: es => .cons (errFromNode_positioned pos e) (errsFromNode_positioned pos es)
end

/-- The errors added for a positioned error have its position. -/
theorem Positioned.added {pos : String} {e : Err} (h : Positioned pos e) : ∀ ls, Leaves e ls → ∀ l ∈ ls, ∃ e', l = .at pos e' := by
  induction h with
  | «at» e =>
    intro ls hl l hm
    cases hl
    rw [List.mem_singleton.1 hm]
    exact ⟨e, rfl⟩
  | nil => intro ls hl l hm; cases hl; cases hm
  | cons _ _ ih1 ih2 =>
    intro ls hl l hm
    cases hl with
    | cons h1 h2 =>
      obtain hm | hm := List.mem_append.1 hm
      · exact ih1 _ h1 l hm
      · exact ih2 _ h2 l hm

/-- **C42** (lists).  A list of errors is no error if it is empty, and all of its errors are added otherwise, in order. -/
theorem C42_lists (id : String) (errs : List PkgErr) (l : List Err) : (maybeErrList l = none ↔ l = []) ∧
    ∀ e, maybeErrList l = some e → addError id errs e = l.foldl (addError id) errs := by
  unfold maybeErrList
  refine ⟨?_, ?_⟩
  · split <;> simp_all
  · intro e he
    split at he
    · cases he
    · cases he
      rw [addError]
      rename_i hne
      clear hne
      induction l generalizing errs with
      | nil => rw [addErrors]; rfl
      | cons e l ih => rw [addErrors, List.foldl_cons]; exact ih _

/-- **C42** (positions).  Every error that is added for `ErrFromNode err node` has the position of the node. -/
theorem C42_positions (id pos : String) (errs : List PkgErr) (e : Err) : ∃ new, addError id errs (errFromNode pos e) = errs ++ new ∧ ∀ p ∈ new, p.pos = pos ∧ p.kind = .unknown := by
  obtain ⟨ls, new, h1, h2, h3⟩ := addError_leaves id (errFromNode pos e) errs
  have := (errFromNode_positioned pos e).added ls h1
  refine ⟨new, h3, ?_⟩
  clear h1 h3
  induction h2 with
  | nil => intro p hp; cases hp
  | cons hs _ ih =>
    intro p hp
    obtain ⟨e', rfl⟩ := this _ (List.mem_cons_self ..)
    obtain rfl | hp := List.mem_cons.1 hp
    · cases hs; exact ⟨rfl, rfl⟩
    · exact ih (fun l hl => this l (List.mem_cons_of_mem _ hl)) p hp

/-- **C42** (parsing in parallel).  Whatever the schedule is, if one of the files has an error, the package has one.

Partial: not all of them need be there (`C42_violated`). -/
theorem C42_parse_partial {s s' : Parse} {is : List Nat} (hr : s.run is = some s') (he : s'.Ended) (h : s.errors ≠ [] ∨ ∃ t ∈ s.threads, t.rest ≠ []) : s'.errors ≠ [] := by
  have key : ∀ (is : List Nat) (s : Parse), s.run is = some s' → (s.errors ≠ [] ∨ ∃ t ∈ s.threads, t.rest ≠ []) → s'.errors ≠ [] := by
    intro is
    induction is with
    | nil =>
      intro s hr h
      cases hr
      obtain h | ⟨t, ht, h⟩ := h
      · exact h
      · exact absurd (he t ht) h
    | cons i is ih =>
      intro s hr h
      obtain ⟨s1, h1, h2⟩ := Option.bind_eq_some_iff.1 hr
      refine ih s1 h2 ?_
      unfold Parse.step at h1
      split at h1
      · rename_i e rest hi
        cases h1
        have hlt := (List.getElem?_eq_some_iff.1 hi).1
        exact .inr ⟨⟨e :: rest, some s.errors⟩, List.mem_iff_getElem?.2 ⟨i, by simp [List.getElem?_set, hlt]⟩, by simp⟩
      · cases h1
        exact .inl (by simp)
      · cases h1
  exact key is s hr h

/-- **C42**, violated: two files with an error each; one of the errors is lost. -/
theorem C42_violated : ∃ (e e' : PkgErr) (is : List Nat) (s' : Parse), e ≠ e' ∧ ({ errors := [], threads := [⟨[e], none⟩, ⟨[e'], none⟩] } : Parse).run is = some s' ∧ s'.Ended ∧ s'.errors = [e'] := by
  refine ⟨⟨"a.go:1", "expected ';'", .parse⟩, ⟨"b.go:1", "expected ';'", .parse⟩, [0, 1, 0, 1], _, by decide, rfl, ?_, rfl⟩
  intro t ht
  simp only [List.set_cons_zero, List.set_cons_succ, List.mem_cons, List.not_mem_nil, or_false] at ht
  obtain rfl | rfl := ht <;> rfl

/-- A nested list. -/
example : addError "p" [] (.list [.path "a.go" "no such file", .list [.type "a.go:3" "undefined: x", .scan [("a.go:5", "expected ;"), ("a.go:7", "expected )")]], .other "bad"]) =
    [⟨"a.go:1", "no such file", .parse⟩, ⟨"a.go:3", "undefined: x", .type⟩, ⟨"a.go:5", "expected ;", .parse⟩, ⟨"a.go:7", "expected )", .parse⟩, ⟨"p:-", "bad", .unknown⟩] := by decide +kernel

end Verif.Loader

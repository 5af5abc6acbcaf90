import Verif.Markers.CollectLemmas
/-!
# Where markers belong: the invariant is kept
-/
namespace Verif.Markers.Collect
open Verif Verif.Markers.Doc

theorem put_fresh {κ ν : Type} [DecidableEq κ] {m : List (κ × ν)} {k : κ} (h : k ∉ GoMap.keys m) (v : ν) : GoMap.put m k v = m ++ [(k, v)] := by
  induction m with
  | nil => rfl
  | cons e m ih =>
    obtain ⟨k0, v0⟩ := e
    have h' : k ≠ k0 ∧ k ∉ GoMap.keys m := by simpa [GoMap.keys] using h
    rw [GoMap.put, if_neg (fun e => h'.1 (by first | exact e.symm | exact e)), ih h'.2]
    rfl

theorem addTo_fresh {m : List (Node × List MarkerComment)} {n : Node} (h : n ∉ GoMap.keys m) (l : List MarkerComment) : addTo m n l = m ++ [(n, l)] := by
  unfold addTo
  rw [GoMap.get_eq_none.2 h, put_fresh h]
  rfl

theorem Passed.mono {pre : List Event} {p : Nat} (h : Passed pre p) (e : Event) : Passed (pre ++ [e]) p := by
  obtain ⟨e', h1, h2⟩ := h
  exact ⟨e', List.mem_append_left _ h1, h2⟩

theorem NoPlace.mono {pre : List Event} {p : Nat} (h : NoPlace pre p) (e : Event) : NoPlace (pre ++ [e]) p := by
  obtain ⟨e', h1, h2⟩ := h
  exact ⟨e', List.mem_append_left _ h1, h2⟩

theorem Carries.mono {pre a : List Event} {n c : Node} (h : Carries pre a n c) (e : Event) : Carries (pre ++ [e]) a n c := by
  obtain ⟨q, b, rfl, h⟩ := h
  refine ⟨q, b ++ [e], by simp, ?_⟩
  obtain h | ⟨h1, h2, b1, q', b2, rfl, h3⟩ := h
  · exact .inl h
  · exact .inr ⟨h1, h2, b1, q', b2 ++ [e], by simp, h3⟩

theorem append_singleton_cases {pre a b : List Event} {e f : Event} (h : pre ++ [e] = a ++ f :: b) : (b = [] ∧ pre = a ∧ e = f) ∨ ∃ b', b = b' ++ [e] ∧ pre = a ++ f :: b' := by
  rcases List.eq_nil_or_concat b with rfl | ⟨b', e', rfl⟩
  · have := List.append_inj' h rfl
    exact .inl ⟨rfl, this.1, by simpa using this.2⟩
  · rw [List.concat_eq_append, show a ++ f :: (b' ++ [e']) = (a ++ f :: b') ++ [e'] by simp] at h
    have := List.append_inj' h rfl
    refine .inr ⟨b', ?_, this.1⟩
    rw [List.concat_eq_append, show e' = e by simpa using this.2.symm]

/-- Who carries comments after one more call. -/
theorem Carries.last {pre a : List Event} {e : Event} {n c : Node} (h : Carries (pre ++ [e]) a n c) :
    Carries pre a n c ∨ (e.node = some n ∧ ((a = pre ∧ c = n ∧ (n.kind = .field ∨ n.kind = .typeSpec)) ∨ (Open pre a c ∧ n.kind = .typeSpec))) := by
  obtain ⟨q, b, h1, h2⟩ := h
  obtain ⟨rfl, rfl, rfl⟩ | ⟨b', rfl, rfl⟩ := append_singleton_cases h1
  · right
    obtain ⟨rfl, h⟩ | ⟨h3, h4, b1, q', b2, h5, h6⟩ := h2
    · exact ⟨rfl, .inl ⟨rfl, rfl, h⟩⟩
    · have := congrArg List.length h5; simp at this
  · obtain ⟨rfl, h⟩ | ⟨h3, h4, b1, q', b2, h5, h6⟩ := h2
    · exact .inl ⟨q, b', rfl, .inl ⟨rfl, h⟩⟩
    · obtain ⟨rfl, rfl, rfl⟩ | ⟨b2', rfl, rfl⟩ := append_singleton_cases h5
      · exact .inr ⟨rfl, .inr ⟨⟨q, _, rfl, h3, h6⟩, h4⟩⟩
      · exact .inl ⟨q, _, rfl, .inr ⟨h3, h4, b1, q', b2', rfl, h6⟩⟩

theorem Open.last {pre a : List Event} {e : Event} {c : Node} (h : Open (pre ++ [e]) a c) :
    (Open pre a c ∧ ∀ m, e.node = some m → m.kind ≠ .typeSpec) ∨ (a = pre ∧ e.node = some c ∧ c.singleType) := by
  obtain ⟨q, b, h1, h2, h3⟩ := h
  obtain ⟨rfl, rfl, rfl⟩ | ⟨b', rfl, rfl⟩ := append_singleton_cases h1
  · exact .inr ⟨rfl, rfl, h2⟩
  · exact .inl ⟨⟨q, b', rfl, h2, fun e' he' => h3 e' (List.mem_append_left _ he')⟩, h3 e (by simp)⟩

theorem Open.extend {pre a : List Event} {e : Event} {c : Node} (h : Open pre a c) (he : ∀ m, e.node = some m → m.kind ≠ .typeSpec) : Open (pre ++ [e]) a c := by
  obtain ⟨q, b, rfl, h2, h3⟩ := h
  refine ⟨q, b ++ [e], by simp, h2, ?_⟩
  intro e' he'
  obtain he' | he' := List.mem_append.1 he'
  · exact h3 e' he'
  · rw [List.mem_singleton.1 he']; exact he

theorem Open.close {pre a : List Event} {c n : Node} {q : Option Node} (h : Open pre a c) (hn : n.kind = .typeSpec) : Carries (pre ++ [.enter n q]) a n c := by
  obtain ⟨q', b, rfl, h2, h3⟩ := h
  exact ⟨q', b ++ [.enter n q], by simp, .inr ⟨h2, hn, b, q, [], rfl, h3⟩⟩

/-- Leaving a node. -/
theorem Inv.leave {groups : List Group} {pre : List Event} {v : Visitor} (hs : groups.Pairwise fun g g' => g.pos < g'.pos) (hi : Inv groups pre v) (n : Node)
    (hn : n ∈ pre.filterMap Event.node) : Inv groups (pre ++ [.leave n]) (v.leave groups n) := by
  obtain ⟨e0, he0, hen⟩ := List.mem_filterMap.1 hn
  have hb0 : e0.bound = n.pos := by cases e0 <;> cases hen; rfl
  have common : ∀ ind', v.ind ≤ ind' → (∀ i g, v.ind ≤ i → i < ind' → groups[i]? = some g → n.kind ≠ .file ∧ g.pos < n.end) →
      (∀ i g, ind' ≤ i → groups[i]? = some g → (Event.leave n).bound ≤ g.pos) → Inv groups (pre ++ [.leave n]) { v with ind := ind' } := by
    intro ind' hle h1 h2
    refine ⟨?_, ?_, ?_, ?_, hi.wf, ?_, hi.kinds, ?_, ?_, ?_, ?_, ?_, (fun m hm hg => by obtain ⟨g, h3, h4, h5⟩ := hi.free m hm hg; exact ⟨g, h3, h4, h5.mono _⟩),
      (fun e he => (hi.order e he).trans (by rw [take_seg groups hle, List.flatMap_append]; exact List.sublist_append_left _ _)),
      hi.orderDecl.trans (by rw [take_seg groups hle, List.flatMap_append]; exact List.sublist_append_left _ _)⟩
    · obtain ⟨rest, hp, hr⟩ := hi.perm
      refine ⟨rest ++ ((groups.take ind').drop v.ind).flatMap Group.marks, ?_, ?_⟩
      · show (v.used.map (·.comment) ++ _).Perm ((groups.take ind').flatMap Group.marks)
        rw [take_seg groups hle, List.flatMap_append, ← List.append_assoc]
        rw [List.perm_iff_count] at hp ⊢
        intro x
        have := hp x
        simp only [List.count_append] at this ⊢
        rw [← take_seg groups hle]
        omega
      · intro c hc
        obtain hc | hc := List.mem_append.1 hc
        · obtain ⟨g, h3, h4, h5⟩ := hr c hc
          exact ⟨g, h3, h4, h5.mono _⟩
        · obtain ⟨g, h3, h4⟩ := List.mem_flatMap.1 hc
          obtain ⟨k, h5, h6, h7⟩ := mem_seg.1 h3
          obtain ⟨h8, h9⟩ := h1 k g h5 h6 h7
          refine ⟨g, List.mem_of_getElem? h7, h4, e0, List.mem_append_left _ he0, n, hen, .inr (.inr ⟨h8, ?_, h9⟩)⟩
          have := hi.high e0 he0 k g h5 h7
          omega
    · intro i g hi' hg
      rcases Nat.lt_or_ge i v.ind with h | h
      · exact (hi.low i g h hg).mono _
      · obtain ⟨h8, h9⟩ := h1 i g h hi' hg
        exact ⟨.leave n, by simp, .inl (by simp only [Event.bound]; rw [if_neg h8]; exact h9)⟩
    · intro e he i g hi' hg
      obtain he | he := List.mem_append.1 he
      · exact hi.high e he i g (Nat.le_trans hle hi') hg
      · rw [List.mem_singleton.1 he]; exact h2 i g hi' hg
    · intro p hp
      obtain ⟨e, he, h⟩ := hi.line p hp
      exact ⟨e, List.mem_append_left _ he, h⟩
    · intro m hm
      rw [List.filterMap_append]
      exact List.mem_append_left _ (hi.entered m hm)
    · intro m x hx
      obtain ⟨a, c, h3, h4⟩ := hi.sound m x hx
      exact ⟨a, c, h3.mono _, h4⟩
    · intro m hm
      obtain ⟨a, c, h3, h4⟩ := hi.soundDecl m hm
      exact ⟨a, c, h3.extend (fun m h => by cases h), h4⟩
    · intro a m c h
      obtain h | ⟨h, _⟩ := h.last
      · exact hi.complete a m c h
      · cases h
    · intro a c h
      obtain ⟨h, _⟩ | ⟨_, h, _⟩ := h.last
      · exact hi.completeDecl a c h
      · cases h
    · intro m hm hg
      obtain ⟨e, he, h⟩ := hi.pkg m hm hg
      exact ⟨e, List.mem_append_left _ he, h⟩
  unfold Visitor.leave
  split
  · rename_i h
    obtain ⟨a1, a2, a3, a4⟩ := advance_spec groups hs n.end v.ind (by omega)
    refine common _ a1 (fun i g h1 h2 h3 => ⟨h.1, a3 i g h1 h2 h3⟩) ?_
    intro i g h1 h2
    simp only [Event.bound]
    rw [if_neg h.1]
    exact a4 i g h1 h2
  · rename_i h
    refine common v.ind (Nat.le_refl _) (fun i g h1 h2 => by omega) ?_
    intro i g h1 h2
    simp only [Event.bound]
    split
    · exact Nat.zero_le _
    · rename_i hk
      have : ¬ v.ind < groups.length := fun h' => h ⟨hk, h'⟩
      have := (List.getElem?_eq_some_iff.1 h2).1
      omega

/-! ## Entering -/

/-- The markers that a node does not take. -/
def lost (n : Node) (collect : Bool) (block docs : List MarkerComment) : List MarkerComment :=
  match n.kind with
  | .genDecl types paren => if paren || !types then docs else []
  | .other => if collect then docs else block ++ docs
  | _ => []

theorem assign_ind (v : Visitor) (n : Node) (collect : Bool) (block docs : List MarkerComment) : (v.assign n collect block docs).ind = v.ind ∧ (v.assign n collect block docs).line = v.line := by
  unfold Visitor.assign
  split
  · split <;> exact ⟨rfl, rfl⟩
  · exact ⟨rfl, rfl⟩
  · exact ⟨rfl, rfl⟩
  · exact ⟨rfl, rfl⟩
  · split <;> exact ⟨rfl, rfl⟩

theorem assign_count (v : Visitor) (n : Node) (hn : n ∉ GoMap.keys v.nodes) (collect : Bool) (block docs : List MarkerComment) (x : Comment) :
    ((v.assign n collect block docs).used.map (·.comment)).count x + ((lost n collect block docs).map (·.comment)).count x =
      (v.used.map (·.comment)).count x + (block.map (·.comment)).count x + (docs.map (·.comment)).count x := by
  unfold Visitor.assign lost Visitor.used
  cases hk : n.kind with
  | file => simp only [List.map_append, List.count_append, List.map_nil, List.count_nil]; omega
  | typeSpec =>
    simp only [addTo_fresh hn, List.flatMap_append, List.flatMap_cons, List.flatMap_nil, List.append_nil, List.map_append, List.count_append, List.map_nil, List.count_nil]; omega
  | field =>
    simp only [addTo_fresh hn, List.flatMap_append, List.flatMap_cons, List.flatMap_nil, List.append_nil, List.map_append, List.count_append, List.map_nil, List.count_nil]; omega
  | other => cases collect <;> simp only [List.map_append, List.count_append, if_true, if_false, Bool.false_eq_true] <;> omega
  | genDecl types paren =>
    cases types <;> cases paren <;> simp only [List.map_append, List.count_append, Bool.or_true, Bool.true_or, Bool.or_false, Bool.not_true, Bool.not_false, if_true, if_false, Bool.false_eq_true, List.map_nil, List.count_nil] <;> omega

theorem assign_nodes (v : Visitor) (n : Node) (hn : n ∉ GoMap.keys v.nodes) (collect : Bool) (block docs : List MarkerComment) :
    (v.assign n collect block docs).nodes = v.nodes ++ (if n.kind = .typeSpec then [(n, v.decl ++ block ++ docs)] else if n.kind = .field then [(n, block ++ docs)] else []) := by
  unfold Visitor.assign
  cases hk : n.kind with
  | file => simp
  | typeSpec => simp [addTo_fresh hn]
  | field => simp [addTo_fresh hn]
  | other => simp; split <;> rfl
  | genDecl types paren => simp; split <;> rfl

theorem assign_decl (v : Visitor) (n : Node) (collect : Bool) (block docs : List MarkerComment) :
    (v.assign n collect block docs).decl = if n.kind = .typeSpec then [] else if n.kind = .genDecl true false then v.decl ++ block ++ docs else v.decl := by
  unfold Visitor.assign
  cases hk : n.kind with
  | file => simp
  | typeSpec => simp
  | field => simp
  | other => simp; split <;> rfl
  | genDecl types paren => cases types <;> cases paren <;> simp

theorem assign_pkg (v : Visitor) (n : Node) (collect : Bool) (block docs : List MarkerComment) :
    ∀ m ∈ (v.assign n collect block docs).pkg, m ∈ v.pkg ∨
      (m ∈ block ∧ (collect = true ∨ n.kind = .file ∨ ∃ types paren, n.kind = .genDecl types paren ∧ (paren = true ∨ types = false))) ∨ (n.kind = .file ∧ m ∈ docs) := by
  unfold Visitor.assign
  cases hk : n.kind with
  | file => intro m hm; simp at hm ⊢; rcases hm with hm | hm | hm <;> simp [hm]
  | typeSpec => intro m hm; exact .inl hm
  | field => intro m hm; exact .inl hm
  | other =>
    intro m hm
    simp only at hm
    split at hm
    · rename_i hc
      obtain hm | hm := List.mem_append.1 hm
      · exact .inl hm
      · exact .inr (.inl ⟨hm, .inl hc⟩)
    · exact .inl hm
  | genDecl types paren =>
    intro m hm
    simp only at hm
    split at hm
    · rename_i hc
      obtain hm | hm := List.mem_append.1 hm
      · exact .inl hm
      · refine .inr (.inl ⟨hm, .inr (.inr ⟨types, paren, rfl, ?_⟩)⟩)
        cases types <;> cases paren <;> simp at hc ⊢
    · exact .inl hm

theorem has_append {v : Visitor} {l : List (Node × List MarkerComment)} {v' : Visitor} (h : v'.nodes = v.nodes ++ l) {n : Node} {m : MarkerComment} :
    v'.Has n m ↔ v.Has n m ∨ ∃ ms, (n, ms) ∈ l ∧ m ∈ ms := by
  unfold Visitor.Has
  rw [h]
  constructor
  · rintro ⟨ms, h1, h2⟩
    obtain h1 | h1 := List.mem_append.1 h1
    · exact .inl ⟨ms, h1, h2⟩
    · exact .inr ⟨ms, h1, h2⟩
  · rintro (⟨ms, h1, h2⟩ | ⟨ms, h1, h2⟩)
    · exact ⟨ms, List.mem_append_left _ h1, h2⟩
    · exact ⟨ms, List.mem_append_right _ h1, h2⟩

theorem Inv.enter {groups : List Group} {pre : List Event} {v : Visitor} (hs : groups.Pairwise fun g g' => g.pos < g'.pos) (hi : Inv groups pre v) (n : Node) (p : Option Node)
    (hd : ∀ d, n.doc = some d → d < n.pos ∧ (∃ g ∈ groups, g.pos = d) ∧ ∀ g ∈ groups, d < g.pos → n.pos ≤ g.pos)
    (hf : ∀ d, n.doc = some d → ∀ e ∈ pre, e.bound ≤ d ∧ e.line ≠ some d)
    (hn : n ∉ pre.filterMap Event.node)
    (hp : ∀ q, p = some q → q ∈ pre.filterMap Event.node)
    (hin : ∀ q, p = some q → q.kind ≠ .file →
      n.pos ≤ q.end ∨ (q.line = some n.pos ∧ ∀ g ∈ groups, q.end ≤ g.pos → g.pos < n.pos → ∀ c ∈ g.comments, isMarkerComment c.text = false)) :
    ∃ v', v.enter groups n (collects p) = some v' ∧ Inv groups (pre ++ [.enter n p]) v' := by
  obtain ⟨i, stop, next, line, hE, hline, he⟩ := enter_spec hs hi n (collects p) hd hf
  refine ⟨_, he, ?_⟩
  have hnk : n ∉ GoMap.keys v.nodes := fun h => hn (hi.entered n h)
  unfold Collect.entered
  generalize hfree : (if i < stop ∧ collects p then between groups false i (stop - 1) else []) = free
  generalize hblock : (if i < stop then between groups false (stop - 1) stop else []) = block
  generalize hdocs : between groups true stop next = docs
  -- what they are
  have memBlock : ∀ m ∈ block, m.fromGodoc = false ∧ i < stop ∧ ∃ g, groups[stop - 1]? = some g ∧ m.comment ∈ g.marks := by
    intro m hm
    rw [← hblock] at hm
    split at hm
    · obtain ⟨h1, k, g, h2, h3, h4, h5⟩ := mem_between.1 hm
      have : k = stop - 1 := by omega
      subst this
      exact ⟨h1, by assumption, g, h4, h5⟩
    · cases hm
  have memDocs : ∀ m ∈ docs, m.fromGodoc = true ∧ ∃ g ∈ groups, n.doc = some g.pos ∧ m.comment ∈ g.marks := by
    intro m hm
    rw [← hdocs] at hm
    obtain ⟨h1, k, g, h2, h3, h4, h5⟩ := mem_between.1 hm
    exact ⟨h1, g, List.mem_of_getElem? h4, hE.doc k g h2 h3 h4, h5⟩
  have closest : i < stop → ∀ g, groups[stop - 1]? = some g → Closest groups n g := by
    intro h2 g h3
    refine ⟨hE.before _ g (by omega) (by have := hE.le3; omega) h3, hE.notDoc _ g (by omega) h3, ?_⟩
    intro g' hg' h5 h6
    obtain ⟨k, hk⟩ := List.mem_iff_getElem?.1 hg'
    have h7 := (sorted_lt hs h3 hk).2 h5
    have h8 : k < next := by
      rcases Nat.lt_or_ge k next with h | h
      · exact h
      · have := hE.after k g' h hk; omega
    exact hE.doc k g' (by omega) h8 hk
  have fromBlock : ∀ m ∈ block, From groups pre n m := by
    intro m hm
    obtain ⟨h1, h2, g, h3, h4⟩ := memBlock m hm
    exact ⟨g, List.mem_of_getElem? h3, h4, .inr ⟨h1, closest h2 g h3, fun e he => hi.high e he (stop - 1) g (by have := hE.le1; omega) h3⟩⟩
  have fromDocs : ∀ m ∈ docs, From groups pre n m := by
    intro m hm
    obtain ⟨h1, g, h2, h3, h4⟩ := memDocs m hm
    exact ⟨g, h2, h4, .inl ⟨h1, h3⟩⟩
  have claimed : ∀ g b, Claim groups pre n g b → ∀ x ∈ g.marks, (⟨x, b⟩ : MarkerComment) ∈ block ++ docs := by
    intro g b hc x hx
    obtain ⟨hg, ⟨rfl, h1⟩ | ⟨rfl, ⟨h1, h2, h3⟩, h4⟩⟩ := hc
    · obtain ⟨h5, h6⟩ := hE.hasDoc g hg h1
      refine List.mem_append_right _ ?_
      rw [← hdocs]
      exact mem_between.2 ⟨rfl, stop, g, Nat.le_refl _, h5, h6, hx⟩
    · obtain ⟨k, hk⟩ := List.mem_iff_getElem?.1 hg
      have hki : i ≤ k := by
        rcases Nat.lt_or_ge k i with h | h
        · exfalso
          apply h4
          rcases Nat.lt_or_ge k v.ind with h' | h'
          · exact hi.low k g h' hk
          · obtain ⟨e, he, hl⟩ := hi.line _ (hE.skipped k g h' h hk)
            exact ⟨e, he, .inr hl⟩
        · exact h
      have hkn : k < next := by
        rcases Nat.lt_or_ge k next with h | h
        · exact h
        · have := hE.after k g h hk; omega
      have hks : k < stop := by
        rcases Nat.lt_or_ge k stop with h | h
        · exact h
        · exact absurd (hE.doc k g h hkn hk) h2
      have : k = stop - 1 := by
        rcases Nat.lt_or_ge k (stop - 1) with h | h
        · have hsn := hE.le3
          have hlt : stop - 1 < groups.length := by
            rcases Nat.lt_or_ge (stop - 1) groups.length with h' | h'
            · exact h'
            · exfalso
              have hkl := (List.getElem?_eq_some_iff.1 hk).1
              have := hE.bounded
              omega
          have hg' := List.getElem?_eq_getElem hlt
          have h5 := (sorted_lt hs hk hg').1 h
          have h6 := hE.before _ _ (by omega) (by omega) hg'
          exact absurd (h3 _ (List.getElem_mem hlt) h5 h6) (hE.notDoc _ _ (by omega) hg')
        · omega
      subst this
      refine List.mem_append_left _ ?_
      rw [← hblock, if_pos (by omega)]
      exact mem_between.2 ⟨rfl, _, g, Nat.le_refl _, by omega, hk, hx⟩
  have hw : n ∉ GoMap.keys ({ v with ind := next, line, pkg := v.pkg ++ free } : Visitor).nodes := hnk
  have hnodes := assign_nodes ({ v with ind := next, line, pkg := v.pkg ++ free } : Visitor) n hw (collects p) block docs
  have hdecl := assign_decl ({ v with ind := next, line, pkg := v.pkg ++ free } : Visitor) n (collects p) block docs
  have hpkg := assign_pkg ({ v with ind := next, line, pkg := v.pkg ++ free } : Visitor) n (collects p) block docs
  have hind := assign_ind ({ v with ind := next, line, pkg := v.pkg ++ free } : Visitor) n (collects p) block docs
  have hcount := assign_count ({ v with ind := next, line, pkg := v.pkg ++ free } : Visitor) n hw (collects p) block docs
  generalize ({ v with ind := next, line, pkg := v.pkg ++ free } : Visitor).assign n (collects p) block docs = v' at hnodes hdecl hpkg hind hcount
  simp only at hnodes hdecl hpkg hind
  have hle : v.ind ≤ next := by have := hE.le1; have := hE.le2; have := hE.le3; omega
  -- where a group that is passed in a node other than the file lies
  have inNode : collects p = false → ∀ k g, v.ind ≤ k → i ≤ k → k < next → groups[k]? = some g → ∀ c ∈ g.marks, NoPlace (pre ++ [.enter n p]) g.pos := by
    intro hc k g h1 h2 h3 hg c hcm
    cases hpq : p with
    | none => rw [hpq] at hc; cases hc
    | some q =>
      rw [hpq] at hc
      have hq : q.kind ≠ .file := by simpa [collects] using hc
      obtain ⟨e0, he0, hen⟩ := List.mem_filterMap.1 (hp q hpq)
      have hb0 : e0.bound = q.pos := by cases e0 <;> cases hen; rfl
      refine ⟨e0, List.mem_append_left _ he0, q, hen, .inr (.inr ⟨hq, ?_, ?_⟩)⟩
      · have := hi.high e0 he0 k g h1 hg; omega
      · have := hE.before k g h2 h3 hg
        obtain h4 | ⟨_, h4⟩ := hin q hpq hq
        · omega
        · rcases Nat.lt_or_ge g.pos q.end with h5 | h5
          · exact h5
          · obtain ⟨h6, h7⟩ := List.mem_filter.1 hcm
            rw [h4 g (List.mem_of_getElem? hg) h5 this c h6] at h7
            cases h7
  -- the order
  have hnew : ((block ++ docs).map (·.comment)).Sublist (((groups.take next).drop v.ind).flatMap Group.marks) := by
    rw [List.map_append, ← hdocs, between_comments, ← seg_append groups (s := v.ind) (t := stop) (u := next) (by have := hE.le1; have := hE.le2; omega) hE.le3, List.flatMap_append]
    refine List.Sublist.append ?_ (List.Sublist.refl _)
    rw [← hblock]
    split
    · rename_i hlt
      rw [between_comments, ← seg_append groups (s := v.ind) (t := stop - 1) (u := stop) (by have := hE.le1; omega) (by omega), List.flatMap_append]
      exact List.sublist_append_right _ _
    · exact List.nil_sublist _
  have hgrow : ∀ l : List Comment, l.Sublist ((groups.take v.ind).flatMap Group.marks) → l.Sublist ((groups.take next).flatMap Group.marks) := fun l h =>
    h.trans (by rw [take_seg groups hle, List.flatMap_append]; exact List.sublist_append_left _ _)
  have hdeclNew : ((v.decl ++ block ++ docs).map (·.comment)).Sublist ((groups.take next).flatMap Group.marks) := by
    rw [take_seg groups hle, List.flatMap_append, List.append_assoc, List.map_append]
    exact List.Sublist.append hi.orderDecl hnew
  have hblockNew : ((block ++ docs).map (·.comment)).Sublist ((groups.take next).flatMap Group.marks) := by
    rw [take_seg groups hle, List.flatMap_append]
    exact hnew.trans (List.sublist_append_right _ _)
  have horder : ∀ e ∈ v'.nodes, (e.2.map (·.comment)).Sublist ((groups.take v'.ind).flatMap Group.marks) := by
    intro e he
    rw [hind.1]
    rw [hnodes] at he
    obtain he | he := List.mem_append.1 he
    · exact hgrow _ (hi.order e he)
    · split at he
      · rw [List.mem_singleton.1 he]; exact hdeclNew
      · split at he
        · rw [List.mem_singleton.1 he]; exact hblockNew
        · cases he
  have horderDecl : (v'.decl.map (·.comment)).Sublist ((groups.take v'.ind).flatMap Group.marks) := by
    rw [hind.1, hdecl]
    split
    · exact List.nil_sublist _
    · split
      · exact hdeclNew
      · exact hgrow _ hi.orderDecl
  refine ⟨?_, ?_, ?_, ?_, ?_, ?_, ?_, ?_, ?_, ?_, ?_, ?_, ?_, horder, horderDecl⟩
  · -- perm
    obtain ⟨rest, hperm, hr⟩ := hi.perm
    let freeAll := if i < stop then ((groups.take (stop - 1)).drop i).flatMap Group.marks else []
    let notFree : List Comment := if collects p then [] else freeAll
    refine ⟨rest ++ ((groups.take i).drop v.ind).flatMap Group.marks ++ notFree ++ (lost n (collects p) block docs).map (·.comment), ?_, ?_⟩
    · rw [hind.1]
      rw [List.perm_iff_count] at hperm ⊢
      intro x
      have h1 := hperm x
      have h2 := hcount x
      simp only [List.count_append] at h1 ⊢
      have e1 : (groups.take next).flatMap Group.marks = (groups.take v.ind).flatMap Group.marks ++ ((groups.take i).drop v.ind).flatMap Group.marks ++
          ((groups.take stop).drop i).flatMap Group.marks ++ ((groups.take next).drop stop).flatMap Group.marks := by
        have f1 := take_seg groups hle
        have f2 := seg_append groups (s := v.ind) (t := i) (u := next) hE.le1 (by have := hE.le2; have := hE.le3; omega)
        have f3 := seg_append groups hE.le2 hE.le3
        calc (groups.take next).flatMap Group.marks = (groups.take v.ind ++ ((groups.take i).drop v.ind ++ ((groups.take stop).drop i ++ (groups.take next).drop stop))).flatMap Group.marks := by rw [f3, f2, ← f1]
          _ = _ := by simp only [List.flatMap_append, List.append_assoc]
      have e2 : ((groups.take stop).drop i).flatMap Group.marks = freeAll ++ block.map (·.comment) := by
        rw [← hblock]
        simp only [freeAll]
        by_cases h : i < stop
        · rw [if_pos h, if_pos h, between_comments, ← List.flatMap_append, seg_append groups (by omega) (by omega)]
        · rw [if_neg h, if_neg h, List.drop_eq_nil_of_le (by rw [List.length_take]; omega)]
          rfl
      have e3 : ((groups.take next).drop stop).flatMap Group.marks = docs.map (·.comment) := by rw [← hdocs, between_comments]
      have e4 : (free.map (·.comment)).count x + notFree.count x = freeAll.count x := by
        rw [← hfree]
        simp only [notFree, freeAll]
        by_cases h : i < stop <;> cases hc : collects p <;> simp only [h, and_self, and_false, and_true, false_and, if_true, if_false, Bool.false_eq_true, between_comments, List.map_nil, List.count_nil, Nat.zero_add, Nat.add_zero]
      have e5 : (({ v with ind := next, line, pkg := v.pkg ++ free } : Visitor).used.map (·.comment)).count x = (v.used.map (·.comment)).count x + (free.map (·.comment)).count x := by
        unfold Visitor.used
        simp only [List.map_append, List.count_append]
        omega
      rw [e1, e2, e3]
      simp only [List.count_append]
      omega
    · intro c hc
      rw [List.mem_append, List.mem_append, List.mem_append] at hc
      obtain ((hc | hc) | hc) | hc := hc
      · obtain ⟨g, h3, h4, h5⟩ := hr c hc
        exact ⟨g, h3, h4, h5.mono _⟩
      · obtain ⟨g, h3, h4⟩ := List.mem_flatMap.1 hc
        obtain ⟨k, h5, h6, h7⟩ := mem_seg.1 h3
        obtain ⟨e, he', hl⟩ := hi.line _ (hE.skipped k g h5 h6 h7)
        cases e with
        | enter m q => exact ⟨g, List.mem_of_getElem? h7, h4, _, List.mem_append_left _ he', m, rfl, .inl hl⟩
        | leave m => cases hl
      · simp only [notFree, freeAll] at hc
        split at hc
        · cases hc
        · rename_i hcol
          split at hc
          · obtain ⟨g, h3, h4⟩ := List.mem_flatMap.1 hc
            obtain ⟨k, h5, h6, h7⟩ := mem_seg.1 h3
            exact ⟨g, List.mem_of_getElem? h7, h4, inNode (by simpa using hcol) k g (by have := hE.le1; omega) h5 (by have := hE.le3; omega) h7 c h4⟩
          · cases hc
      · obtain ⟨m, hm, rfl⟩ := List.mem_map.1 hc
        have viaDocs : ∀ m ∈ docs, (n.kind = .other ∨ ∃ types paren, n.kind = .genDecl types paren ∧ (paren = true ∨ types = false)) → ∃ g ∈ groups, m.comment ∈ g.marks ∧ NoPlace (pre ++ [.enter n p]) g.pos := by
          intro m hm hk
          obtain ⟨_, g, h2, h3, h4⟩ := memDocs m hm
          exact ⟨g, h2, h4, .enter n p, by simp, n, rfl, .inr (.inl ⟨h3, hk⟩)⟩
        unfold lost at hm
        split at hm
        · rename_i types paren hk
          split at hm
          · rename_i hc'
            refine viaDocs m hm (.inr ⟨types, paren, hk, ?_⟩)
            cases types <;> cases paren <;> simp at hc' ⊢
          · cases hm
        · rename_i hk
          split at hm
          · exact viaDocs m hm (.inl hk)
          · rename_i hcol
            obtain hm | hm := List.mem_append.1 hm
            · obtain ⟨_, h2, g, h3, h4⟩ := memBlock m hm
              exact ⟨g, List.mem_of_getElem? h3, h4, inNode (by simpa using hcol) _ g (by have := hE.le1; omega) (by omega) (by have := hE.le3; omega) h3 _ h4⟩
            · exact viaDocs m hm (.inl hk)
        · cases hm
  · -- low
    intro k g hk hg
    rw [hind.1] at hk
    rcases Nat.lt_or_ge k v.ind with h | h
    · exact (hi.low k g h hg).mono _
    · rcases Nat.lt_or_ge k i with h' | h'
      · obtain ⟨e, he', hl⟩ := hi.line _ (hE.skipped k g h h' hg)
        exact ⟨e, List.mem_append_left _ he', .inr hl⟩
      · exact ⟨.enter n p, by simp, .inl (hE.before k g h' hk hg)⟩
  · -- high
    intro e he' k g hk hg
    rw [hind.1] at hk
    obtain he' | he' := List.mem_append.1 he'
    · exact hi.high e he' k g (by omega) hg
    · rw [List.mem_singleton.1 he']; exact hE.after k g hk hg
  · -- line
    intro q hq
    rw [hind.2] at hq
    obtain h | h := hline
    · rw [h] at hq
      exact ⟨.enter n p, by simp, hq⟩
    · rw [h] at hq
      obtain ⟨e, he', hl⟩ := hi.line q hq
      exact ⟨e, List.mem_append_left _ he', hl⟩
  · -- wf
    have h : ∀ l, GoMap.WF (v.nodes ++ [(n, l)]) := by
      intro l
      rw [← put_fresh hnk]
      exact GoMap.put_wf hi.wf n l
    rw [hnodes]
    split
    · exact h _
    · split
      · exact h _
      · rw [List.append_nil]; exact hi.wf
  · -- entered
    intro m hm
    rw [hnodes] at hm
    rw [List.filterMap_append]
    unfold GoMap.keys at hm
    rw [List.map_append] at hm
    obtain hm | hm := List.mem_append.1 hm
    · exact List.mem_append_left _ (hi.entered m hm)
    · refine List.mem_append_right _ ?_
      split at hm
      · simp at hm; rw [hm]; simp [Event.node]
      · split at hm
        · simp at hm; rw [hm]; simp [Event.node]
        · cases hm
  · -- kinds
    intro m hm
    rw [hnodes] at hm
    unfold GoMap.keys at hm
    rw [List.map_append] at hm
    obtain hm | hm := List.mem_append.1 hm
    · exact hi.kinds m hm
    · split at hm
      · rename_i h; simp at hm; rw [hm]; exact .inl h
      · split at hm
        · rename_i h; simp at hm; rw [hm]; exact .inr h
        · cases hm
  · -- sound
    intro m x hx
    obtain h | ⟨ms, h1, h2⟩ := (has_append hnodes).1 hx
    · obtain ⟨a, c, h3, h4⟩ := hi.sound m x h
      exact ⟨a, c, h3.mono _, h4⟩
    · have self : n.kind = .field ∨ n.kind = .typeSpec → Carries (pre ++ [.enter n p]) pre n n := fun hk => ⟨p, [], by simp, .inl ⟨rfl, hk⟩⟩
      split at h1
      · rename_i hk
        have := List.mem_singleton.1 h1
        cases this
        rw [List.mem_append, List.mem_append] at h2
        obtain (h2 | h2) | h2 := h2
        · obtain ⟨a, c, h3, h4⟩ := hi.soundDecl x h2
          exact ⟨a, c, h3.close hk, h4⟩
        · exact ⟨pre, n, self (.inr hk), fromBlock x h2⟩
        · exact ⟨pre, n, self (.inr hk), fromDocs x h2⟩
      · split at h1
        · rename_i hk
          have := List.mem_singleton.1 h1
          cases this
          obtain h2 | h2 := List.mem_append.1 h2
          · exact ⟨pre, n, self (.inl hk), fromBlock x h2⟩
          · exact ⟨pre, n, self (.inl hk), fromDocs x h2⟩
        · cases h1
  · -- soundDecl
    intro m hm
    rw [hdecl] at hm
    split at hm
    · cases hm
    · rename_i hk
      have old : m ∈ v.decl → ∃ a c, Open (pre ++ [.enter n p]) a c ∧ From groups a c m := by
        intro hm
        obtain ⟨a, c, h3, h4⟩ := hi.soundDecl m hm
        exact ⟨a, c, h3.extend (fun m h => by cases h; exact hk), h4⟩
      split at hm
      · rename_i hk'
        have self : Open (pre ++ [.enter n p]) pre n := ⟨p, [], by simp, hk', fun e he => by cases he⟩
        rw [List.mem_append, List.mem_append] at hm
        obtain (hm | hm) | hm := hm
        · exact old hm
        · exact ⟨pre, n, self, fromBlock m hm⟩
        · exact ⟨pre, n, self, fromDocs m hm⟩
      · exact old hm
  · -- complete
    intro a m c hcar g b hcl x hx
    refine (has_append hnodes).2 ?_
    obtain h | ⟨h, h'⟩ := hcar.last
    · exact .inl (hi.complete a m c h g b hcl x hx)
    · cases h
      right
      obtain ⟨rfl, rfl, hk⟩ | ⟨hop, hk⟩ := h'
      · have := claimed g b hcl x hx
        by_cases hk' : c.kind = .typeSpec
        · rw [if_pos hk']
          exact ⟨_, List.mem_singleton.2 rfl, by rw [List.append_assoc]; exact List.mem_append_right _ this⟩
        · rw [if_neg hk', if_pos (hk.resolve_right hk')]
          exact ⟨_, List.mem_singleton.2 rfl, this⟩
      · rw [if_pos hk]
        exact ⟨_, List.mem_singleton.2 rfl, List.mem_append_left _ (List.mem_append_left _ (hi.completeDecl a c hop g b hcl x hx))⟩
  · -- completeDecl
    intro a c hop g b hcl x hx
    rw [hdecl]
    obtain ⟨h, h'⟩ | ⟨rfl, h, hk⟩ := hop.last
    · rw [if_neg (h' n rfl)]
      have := hi.completeDecl a c h g b hcl x hx
      split
      · exact List.mem_append_left _ (List.mem_append_left _ this)
      · exact this
    · cases h
      have hk : n.kind = .genDecl true false := hk
      rw [if_neg (by rw [hk]; simp), if_pos hk, List.append_assoc]
      exact List.mem_append_right _ (claimed g b hcl x hx)
  · -- pkg
    intro m hm hg
    obtain hm | hm | ⟨hk, hm⟩ := hpkg m hm
    · obtain hm | hm := List.mem_append.1 hm
      · obtain ⟨e, he', h⟩ := hi.pkg m hm hg
        exact ⟨e, List.mem_append_left _ he', h⟩
      · exfalso
        rw [← hfree] at hm
        split at hm
        · have := (mem_between.1 hm).1; rw [hg] at this; cases this
        · cases hm
    · have := (memBlock m hm.1).1
      rw [hg] at this; cases this
    · obtain ⟨_, g, h2, h3, h4⟩ := memDocs m hm
      exact ⟨.enter n p, by simp, n, rfl, hk, g, h2, h3, h4⟩
  · -- free
    have top : collects p = true → p = none ∨ n.kind = .file ∨ ∃ f, p = some f ∧ f.kind = .file := by
      intro hc
      cases p with
      | none => exact .inl rfl
      | some q => exact .inr (.inr ⟨q, rfl, by simpa [collects] using hc⟩)
    intro m hm hg
    obtain hm | hm | ⟨hk, hm⟩ := hpkg m hm
    · obtain hm | hm := List.mem_append.1 hm
      · obtain ⟨g, h1, h2, h3⟩ := hi.free m hm hg
        exact ⟨g, h1, h2, h3.mono _⟩
      · rw [← hfree] at hm
        split at hm
        · rename_i hc
          obtain ⟨_, k, g, h2, h3, h4, h5⟩ := mem_between.1 hm
          exact ⟨g, List.mem_of_getElem? h4, h5, pre, n, p, [], by simp, fun e he => hi.high e he k g (by have := hE.le1; omega) h4,
            hE.before k g h2 (by have := hE.le3; omega) h4, hE.notDoc k g (by omega) h4, .inl (top hc.2)⟩
        · cases hm
    · obtain ⟨hm, hw⟩ := hm
      obtain ⟨h1, h2, g, h3, h4⟩ := memBlock m hm
      refine ⟨g, List.mem_of_getElem? h3, h4, pre, n, p, [], by simp, fun e he => hi.high e he _ g (by have := hE.le1; omega) h3,
        hE.before _ g (by omega) (by have := hE.le3; omega) h3, hE.notDoc _ g (by omega) h3, ?_⟩
      obtain hw | hw | hw := hw
      · exact .inl (top hw)
      · exact .inl (.inr (.inl hw))
      · exact .inr ⟨closest h2 g h3, hw⟩
    · have := (memDocs m hm).1
      rw [hg] at this; cases this

end Verif.Markers.Collect

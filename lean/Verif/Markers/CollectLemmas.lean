import Verif.Markers.CollectSpec
/-!
# Where markers belong: lemmas
-/
namespace Verif.Markers.Collect
open Verif Verif.Markers.Doc

/-! ## Segments -/

theorem between_comments (groups : List Group) (b : Bool) (s t : Nat) : (between groups b s t).map (·.comment) = ((groups.take t).drop s).flatMap Group.marks := by
  unfold between
  rw [List.map_flatMap]
  have h : ∀ g : Group, (g.markers b).map (·.comment) = g.marks := by
    intro g
    unfold Group.markers Group.marks
    rw [List.map_map]
    exact List.map_id _
  simp only [h]

theorem seg_append {α : Type} (l : List α) {s t u : Nat} (h1 : s ≤ t) (h2 : t ≤ u) : (l.take t).drop s ++ (l.take u).drop t = (l.take u).drop s := by
  have e1 : l.take t = (l.take u).take t := by rw [List.take_take, Nat.min_eq_left h2]
  have e2 : (l.take u).drop s = ((l.take u).drop s).take (t - s) ++ ((l.take u).drop s).drop (t - s) := (List.take_append_drop _ _).symm
  rw [e2, List.drop_drop, List.take_drop, e1]
  congr 3 <;> omega

theorem take_seg {α : Type} (l : List α) {s t : Nat} (h : s ≤ t) : l.take t = l.take s ++ (l.take t).drop s := by
  have := seg_append l (Nat.zero_le s) h
  simpa using this.symm

theorem mem_seg {α : Type} {l : List α} {s t : Nat} {a : α} : a ∈ (l.take t).drop s ↔ ∃ k, s ≤ k ∧ k < t ∧ l[k]? = some a := by
  rw [List.mem_iff_getElem?]
  constructor
  · rintro ⟨k, hk⟩
    rw [List.getElem?_drop, List.getElem?_take] at hk
    split at hk
    · exact ⟨s + k, by omega, by assumption, hk⟩
    · cases hk
  · rintro ⟨k, h1, h2, h3⟩
    refine ⟨k - s, ?_⟩
    rw [List.getElem?_drop, List.getElem?_take, if_pos (by omega)]
    rw [show s + (k - s) = k by omega]
    exact h3

theorem mem_between {groups : List Group} {b : Bool} {s t : Nat} {m : MarkerComment} : m ∈ between groups b s t ↔
    m.fromGodoc = b ∧ ∃ k g, s ≤ k ∧ k < t ∧ groups[k]? = some g ∧ m.comment ∈ g.marks := by
  unfold between
  rw [List.mem_flatMap]
  constructor
  · rintro ⟨g, hg, hm⟩
    obtain ⟨k, h1, h2, h3⟩ := mem_seg.1 hg
    unfold Group.markers at hm
    obtain ⟨c, hc, rfl⟩ := List.mem_map.1 hm
    exact ⟨rfl, k, g, h1, h2, h3, hc⟩
  · rintro ⟨rfl, k, g, h1, h2, h3, h4⟩
    refine ⟨g, mem_seg.2 ⟨k, h1, h2, h3⟩, ?_⟩
    unfold Group.markers
    exact List.mem_map.2 ⟨m.comment, h4, rfl⟩

theorem sorted_lt {groups : List Group} (h : groups.Pairwise fun g g' => g.pos < g'.pos) {i j : Nat} {g g' : Group} (hi : groups[i]? = some g) (hj : groups[j]? = some g') :
    i < j ↔ g.pos < g'.pos := by
  have key : ∀ {i j : Nat} {g g' : Group}, groups[i]? = some g → groups[j]? = some g' → i < j → g.pos < g'.pos := by
    intro i j g g' hi hj hij
    obtain ⟨h1, rfl⟩ := List.getElem?_eq_some_iff.1 hi
    obtain ⟨h2, rfl⟩ := List.getElem?_eq_some_iff.1 hj
    exact List.pairwise_iff_getElem.1 h i j h1 h2 hij
  refine ⟨key hi hj, fun hlt => ?_⟩
  rcases Nat.lt_trichotomy i j with h | h | h
  · exact h
  · subst h; rw [hi] at hj; cases hj; omega
  · have := key hj hi h; omega

theorem sorted_eq {groups : List Group} (h : groups.Pairwise fun g g' => g.pos < g'.pos) {i j : Nat} {g g' : Group} (hi : groups[i]? = some g) (hj : groups[j]? = some g') (e : g.pos = g'.pos) : i = j := by
  have h1 := sorted_lt h hi hj
  have h2 := sorted_lt h hj hi
  omega

/-! ## `advance` -/

theorem takeWhile_length_spec {α : Type} (p : α → Bool) (l : List α) : (∀ k a, k < (l.takeWhile p).length → l[k]? = some a → p a = true) ∧
    (∀ a, l[(l.takeWhile p).length]? = some a → p a = false) ∧ (l.takeWhile p).length ≤ l.length := by
  induction l with
  | nil => simp
  | cons x l ih =>
    by_cases hx : p x = true
    · rw [List.takeWhile_cons_of_pos hx]
      refine ⟨?_, ?_, by simp only [List.length_cons]; have := ih.2.2; omega⟩
      · intro k a hk ha
        cases k with
        | zero => simp at ha; rw [← ha]; exact hx
        | succ k =>
          simp only [List.length_cons] at hk
          exact ih.1 k a (by omega) (by simpa using ha)
      · intro a ha
        simp only [List.length_cons, List.getElem?_cons_succ] at ha
        exact ih.2.1 a ha
    · rw [List.takeWhile_cons_of_neg hx]
      refine ⟨?_, ?_, by simp⟩
      · intro k a hk; simp at hk
      · intro a ha; simp at ha; rw [← ha]; simpa using hx

theorem advance_spec (groups : List Group) (hs : groups.Pairwise fun g g' => g.pos < g'.pos) (bound i : Nat) (hi : i ≤ groups.length) :
    i ≤ advance groups bound i ∧ advance groups bound i ≤ groups.length ∧
    (∀ k g, i ≤ k → k < advance groups bound i → groups[k]? = some g → g.pos < bound) ∧
    (∀ k g, advance groups bound i ≤ k → groups[k]? = some g → bound ≤ g.pos) := by
  obtain ⟨h1, h2, h3⟩ := takeWhile_length_spec (fun g : Group => decide (g.pos < bound)) (groups.drop i)
  unfold advance
  rw [List.length_drop] at h3
  refine ⟨by omega, by omega, ?_, ?_⟩
  · intro k g hk hk' hg
    have := h1 (k - i) g (by omega) (by rw [List.getElem?_drop, show i + (k - i) = k by omega]; exact hg)
    simpa using this
  · intro k g hk hg
    have hlen : i + ((groups.drop i).takeWhile fun g => decide (g.pos < bound)).length < groups.length := by
      have := (List.getElem?_eq_some_iff.1 hg).1
      omega
    have hlast := h2 _ (by rw [List.getElem?_drop]; exact List.getElem?_eq_getElem hlen)
    have hle : (groups[i + ((groups.drop i).takeWhile fun g => decide (g.pos < bound)).length]'hlen).pos ≤ g.pos := by
      rcases Nat.lt_or_ge (i + ((groups.drop i).takeWhile fun g => decide (g.pos < bound)).length) k with h | h
      · have := (sorted_lt hs (List.getElem?_eq_getElem hlen) hg).1 h
        omega
      · have e : k = i + ((groups.drop i).takeWhile fun g => decide (g.pos < bound)).length := by omega
        subst e
        rw [List.getElem?_eq_getElem hlen] at hg
        cases hg
        exact Nat.le_refl _
    have : ¬ (groups[i + ((groups.drop i).takeWhile fun g => decide (g.pos < bound)).length]'hlen).pos < bound := by simpa using hlast
    omega

/-! ## The invariant -/

/-- All markers that have a place. -/
def Visitor.used (v : Visitor) : List MarkerComment := v.pkg ++ v.decl ++ v.nodes.flatMap (·.2)

/-- Marker `m` is attached to node `n`. -/
def Visitor.Has (v : Visitor) (n : Node) (m : MarkerComment) : Prop := ∃ ms, (n, ms) ∈ v.nodes ∧ m ∈ ms

/-- `c` is a declaration of a single type, and its type has not been entered. -/
def Open (pre a : List Event) (c : Node) : Prop :=
  ∃ q b, pre = a ++ .enter c q :: b ∧ c.singleType ∧ ∀ e ∈ b, ∀ m, e.node = some m → m.kind ≠ .typeSpec

/-- Marker `m` comes from the comments of `c`, and those above it begin after all that was visited before. -/
def From (groups : List Group) (a : List Event) (c : Node) (m : MarkerComment) : Prop :=
  ∃ g ∈ groups, m.Of g ∧ ((m.fromGodoc = true ∧ c.doc = some g.pos) ∨ (m.fromGodoc = false ∧ Closest groups c g ∧ ∀ e ∈ a, e.bound ≤ g.pos))

/-- Group `g` is the documentation of `c`, or the closest group above it that was not passed before `c` is entered. -/
def Claim (groups : List Group) (a : List Event) (c : Node) (g : Group) (fromGodoc : Bool) : Prop :=
  g ∈ groups ∧ ((fromGodoc = true ∧ c.doc = some g.pos) ∨ (fromGodoc = false ∧ Closest groups c g ∧ ¬ Passed a g.pos))

structure Inv (groups : List Group) (pre : List Event) (v : Visitor) : Prop where
  /-- each marker up to here is used once, or has no place -/
  perm : ∃ rest : List Comment, (v.used.map (·.comment) ++ rest).Perm ((groups.take v.ind).flatMap Group.marks) ∧ ∀ c ∈ rest, ∃ g ∈ groups, c ∈ g.marks ∧ NoPlace pre g.pos
  low : ∀ i g, i < v.ind → groups[i]? = some g → Passed pre g.pos
  high : ∀ e ∈ pre, ∀ i g, v.ind ≤ i → groups[i]? = some g → e.bound ≤ g.pos
  line : ∀ p, v.line = some p → ∃ e ∈ pre, e.line = some p
  wf : GoMap.WF v.nodes
  entered : ∀ n ∈ GoMap.keys v.nodes, n ∈ pre.filterMap Event.node
  kinds : ∀ n ∈ GoMap.keys v.nodes, n.kind = .typeSpec ∨ n.kind = .field
  /-- what is attached to a node comes from its comments, or those of its declaration -/
  sound : ∀ n m, v.Has n m → ∃ a c, Carries pre a n c ∧ From groups a c m
  soundDecl : ∀ m ∈ v.decl, ∃ a c, Open pre a c ∧ From groups a c m
  complete : ∀ a n c, Carries pre a n c → ∀ g b, Claim groups a c g b → ∀ x ∈ g.marks, v.Has n ⟨x, b⟩
  completeDecl : ∀ a c, Open pre a c → ∀ g b, Claim groups a c g b → ∀ x ∈ g.marks, (⟨x, b⟩ : MarkerComment) ∈ v.decl
  /-- documentation in the markers of the package is that of the file -/
  pkg : ∀ m ∈ v.pkg, m.fromGodoc = true → ∃ e ∈ pre, ∃ n, e.node = some n ∧ n.kind = .file ∧ ∃ g ∈ groups, n.doc = some g.pos ∧ m.Of g
  /-- other markers of the package are free, or in front of a declaration -/
  free : ∀ m ∈ v.pkg, m.fromGodoc = false → ∃ g ∈ groups, m.Of g ∧ FreeBefore groups pre g
  /-- the markers of a node are in the order of the file -/
  order : ∀ e ∈ v.nodes, (e.2.map (·.comment)).Sublist ((groups.take v.ind).flatMap Group.marks)
  orderDecl : (v.decl.map (·.comment)).Sublist ((groups.take v.ind).flatMap Group.marks)

theorem FreeBefore.mono {groups : List Group} {pre : List Event} {g : Group} (h : FreeBefore groups pre g) (e : Event) : FreeBefore groups (pre ++ [e]) g := by
  obtain ⟨a, n, q, b, h1, h2⟩ := h
  exact ⟨a, n, q, b ++ [e], by rw [h1]; simp, h2⟩

theorem inv_start (groups : List Group) : Inv groups [] {} := by
  refine ⟨⟨[], ?_, ?_⟩, ?_, ?_, ?_, ?_, ?_, (fun n h => by cases h), ?_, ?_, ?_, ?_, ?_, (fun m h => by cases h), (fun e h => by cases h), List.nil_sublist _⟩
  · simp [Visitor.used]
  · simp
  · intro i g h; exact absurd h (by simp)
  · intro e he; cases he
  · intro p h; cases h
  · simp [GoMap.WF, GoMap.keys]
  · intro n h; cases h
  · rintro n m ⟨ms, h, _⟩; cases h
  · intro m h; cases h
  · rintro a n c ⟨q, b, h, _⟩
    have := congrArg List.length h
    simp at this
  · rintro a c ⟨q, b, h, _⟩
    have := congrArg List.length h
    simp at this
  · intro m h; cases h

/-! ## Entering a node -/

/-- What entering a node does, in terms of the places in the list of groups. -/
structure Entering (groups : List Group) (v : Visitor) (n : Node) (i stop next : Nat) : Prop where
  le1 : v.ind ≤ i
  le2 : i ≤ stop
  le3 : stop ≤ next
  skipped : ∀ k g, v.ind ≤ k → k < i → groups[k]? = some g → v.line = some g.pos
  before : ∀ k g, i ≤ k → k < next → groups[k]? = some g → g.pos < n.pos
  after : ∀ k g, next ≤ k → groups[k]? = some g → n.pos ≤ g.pos
  doc : ∀ k g, stop ≤ k → k < next → groups[k]? = some g → n.doc = some g.pos
  notDoc : ∀ k g, k < stop → groups[k]? = some g → n.doc ≠ some g.pos
  /-- no more than the list, unless all of it was passed -/
  bounded : next ≤ groups.length ∨ groups.length ≤ i
  hasDoc : ∀ g ∈ groups, n.doc = some g.pos → stop < next ∧ groups[stop]? = some g

/-- The visitor after a node is entered. -/
def entered (groups : List Group) (v : Visitor) (n : Node) (collect : Bool) (line : Option Nat) (i stop next : Nat) : Visitor :=
  ({ v with ind := next, line, pkg := v.pkg ++ (if i < stop ∧ collect then between groups false i (stop - 1) else []) } : Visitor).assign n collect
    (if i < stop then between groups false (stop - 1) stop else []) (between groups true stop next)

theorem between_beyond (groups : List Group) (b : Bool) {s t : Nat} (h : groups.length ≤ s) : between groups b s t = [] := by
  unfold between
  rw [List.drop_eq_nil_of_le (by rw [List.length_take]; omega)]
  rfl

theorem enter_spec {groups : List Group} {pre : List Event} {v : Visitor} (hs : groups.Pairwise fun g g' => g.pos < g'.pos) (hi : Inv groups pre v) (n : Node) (collect : Bool)
    (hd : ∀ d, n.doc = some d → d < n.pos ∧ (∃ g ∈ groups, g.pos = d) ∧ ∀ g ∈ groups, d < g.pos → n.pos ≤ g.pos)
    (hf : ∀ d, n.doc = some d → ∀ e ∈ pre, e.bound ≤ d ∧ e.line ≠ some d) :
    ∃ i stop next line, Entering groups v n i stop next ∧ (line = n.line ∨ line = v.line) ∧ v.enter groups n collect = some (entered groups v n collect line i stop next) := by
  unfold Visitor.enter
  generalize hi0 : (if v.line ≠ none ∧ (groups[v.ind]?.map (·.pos)) = v.line then v.ind + 1 else v.ind) = i
  have hle : v.ind ≤ i := by rw [← hi0]; split <;> omega
  have hskip : ∀ k g, v.ind ≤ k → k < i → groups[k]? = some g → v.line = some g.pos := by
    intro k g h1 h2 hg
    rw [← hi0] at h2
    split at h2
    · rename_i hl
      have : k = v.ind := by omega
      subst this
      rw [hg] at hl
      exact hl.2.symm
    · omega
  -- documentation was not passed
  have hdoc : ∀ d, n.doc = some d → ∀ k g, groups[k]? = some g → g.pos = d → i ≤ k := by
    intro d hnd k g hg e
    rcases Nat.lt_or_ge k i with h | h
    · rcases Nat.lt_or_ge k v.ind with h' | h'
      · obtain ⟨e', he', hp⟩ := hi.low k g h' hg
        have := hf d hnd e' he'
        rcases hp with hp | hp
        · rw [e] at hp; omega
        · rw [e] at hp; exact absurd hp this.2
      · have hl := hskip k g h' h hg
        obtain ⟨e', he', hp⟩ := hi.line _ hl
        rw [e] at hp
        exact absurd hp (hf d hnd e' he').2
    · exact h
  by_cases hlen : i < groups.length
  · simp only
    rw [if_pos hlen]
    obtain ⟨a1, a2, a3, a4⟩ := advance_spec groups hs n.pos i (by omega)
    generalize hnext : advance groups n.pos i = next at a1 a2 a3 a4
    -- the place of the documentation
    have hplace : ∀ d, n.doc = some d → i < next ∧ ∃ g, groups[next - 1]? = some g ∧ g.pos = d := by
      intro d hnd
      obtain ⟨h1, ⟨g, hg, e⟩, h3⟩ := hd d hnd
      obtain ⟨k, hk⟩ := List.mem_iff_getElem?.1 hg
      have hik := hdoc d hnd k g hk e
      have hkn : k < next := by
        rcases Nat.lt_or_ge k next with h | h
        · exact h
        · have := a4 k g h hk; omega
      have : k = next - 1 := by
        rcases Nat.lt_or_ge k (next - 1) with h | h
        · have hlt : next - 1 < groups.length := by omega
          have h5 := (sorted_lt hs hk (List.getElem?_eq_getElem hlt)).1 h
          have h6 := h3 _ (List.getElem_mem hlt) (by omega)
          have h7 := a3 (next - 1) _ (by omega) (by omega) (List.getElem?_eq_getElem hlt)
          omega
        · omega
      subst this
      exact ⟨by omega, g, hk, e⟩
    have hnp : ¬ (n.doc ≠ none ∧ next = 0) := by
      rintro ⟨h1, h2⟩
      cases hnd : n.doc with
      | none => exact h1 hnd
      | some d => have := (hplace d hnd).1; omega
    rw [if_neg hnp]
    have hstop : (if n.doc ≠ none ∧ (groups[next - 1]?.map (·.pos)) = n.doc then next - 1 else next) = if n.doc ≠ none then next - 1 else next := by
      cases hnd : n.doc with
      | none => simp
      | some d =>
        obtain ⟨_, g, hg, e⟩ := hplace d hnd
        simp [hg, e]
    refine ⟨i, if n.doc ≠ none then next - 1 else next, next, n.line, ⟨hle, ?_, ?_, hskip, a3, a4, ?_, ?_, .inl a2, ?_⟩, .inl rfl, ?_⟩
    · split
      · rename_i h
        cases hnd : n.doc with
        | none => exact absurd hnd h
        | some d => have := (hplace d hnd).1; omega
      · exact a1
    · split <;> omega
    · intro k g h1 h2 hg
      split at h1
      · rename_i h
        cases hnd : n.doc with
        | none => exact absurd hnd h
        | some d =>
          obtain ⟨_, g', hg', e⟩ := hplace d hnd
          have : k = next - 1 := by omega
          subst this
          rw [hg] at hg'; cases hg'
          rw [e]
      · omega
    · intro k g h1 hg
      split at h1
      · rename_i h
        cases hnd : n.doc with
        | none => exact absurd hnd h
        | some d =>
          obtain ⟨_, g', hg', e⟩ := hplace d hnd
          intro e'
          cases e'
          have := sorted_eq hs hg hg' e.symm
          omega
      · rename_i h
        cases hnd : n.doc with
        | none => simp
        | some d => exact absurd (by simp [hnd]) h
    · intro g hg hnd
      obtain ⟨h1, g', hg', e⟩ := hplace _ hnd
      rw [if_pos (by simp [hnd])]
      refine ⟨by omega, ?_⟩
      obtain ⟨k, hk⟩ := List.mem_iff_getElem?.1 hg
      have := sorted_eq hs hk hg' e.symm
      rw [this] at hk
      exact hk
    · rw [hstop]
      rfl
  · simp only
    rw [if_neg hlen]
    have hnone : n.doc = none := by
      cases hnd : n.doc with
      | none => rfl
      | some d =>
        obtain ⟨_, ⟨g, hg, e⟩, _⟩ := hd d hnd
        obtain ⟨k, hk⟩ := List.mem_iff_getElem?.1 hg
        have := hdoc d hnd k g hk e
        have := (List.getElem?_eq_some_iff.1 hk).1
        omega
    have hno : ∀ k g, i ≤ k → groups[k]? = some g → False := by
      intro k g h1 hg
      have := (List.getElem?_eq_some_iff.1 hg).1
      omega
    refine ⟨i, i + 1, i + 1, v.line, ⟨hle, by omega, Nat.le_refl _, hskip, fun k g h1 _ hg => (hno k g h1 hg).elim, fun k g h1 hg => (hno k g (by omega) hg).elim,
      fun k g h1 h2 => by omega, fun k g _ _ => by rw [hnone]; simp, .inr (by omega), fun g _ e => by rw [hnone] at e; cases e⟩, .inr rfl, ?_⟩
    unfold entered
    rw [between_beyond groups false (by omega), between_beyond groups true (by omega), between_beyond groups false (by omega)]
    simp

end Verif.Markers.Collect

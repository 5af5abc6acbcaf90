import Verif.Markers.CollectLemmas3
/-!
# C16, C60: where markers belong
-/
namespace Verif.Markers.Collect
open Verif Verif.Markers.Doc

variable {Def : Type} (lookup : Str → Target → Option Def)

/-- Marker comment `x` is attached to node `n`, as documentation or not. -/
def Attached (r : List (Node × List MarkerComment)) (n : Node) (x : Comment) (fromGodoc : Bool) : Prop := ∃ ms, (n, ms) ∈ r ∧ ⟨x, fromGodoc⟩ ∈ ms

/-- The definition for a marker exists for packages, and not for types. -/
def PackageOnly (x : Comment) : Prop := lookup (trimSpace (x.text.drop 2)) .type = none ∧ ∃ d, lookup (trimSpace (x.text.drop 2)) .package = some d

theorem isPackageLevel_iff (x : Comment) (b : Bool) : isPackageLevel lookup ⟨x, b⟩ = true ↔ b = false ∧ PackageOnly lookup x := by
  unfold isPackageLevel PackageOnly MarkerComment.text
  simp [Option.isSome_iff_exists, Option.isNone_iff_eq_none, and_assoc]

/-- **C16**: collecting the markers of a file that was parsed does not panic. -/
theorem C16_no_panic (σ : Sched) {groups : List Group} {file : Node} {children : List Tree} (h : FileWF groups (.node file children)) :
    ∃ r, associateFile lookup σ groups file children = some r := by
  obtain ⟨v, _, _, h⟩ := associateFile_eq lookup σ h
  exact ⟨_, h⟩

/-- The comments that are attached, and those that have no place, are all the markers of the file, each once. -/
theorem C16_count (σ : Sched) {groups : List Group} {file : Node} {children : List Tree} (h : FileWF groups (.node file children))
    {r : List (Node × List MarkerComment)} (hr : associateFile lookup σ groups file children = some r) :
    ∃ rest : List Comment, ((r.flatMap (·.2)).map (·.comment) ++ rest).Perm (groups.flatMap Group.marks) ∧ ∀ c ∈ rest, ∃ g ∈ groups, c ∈ g.marks ∧ NoPlace ((Tree.node file children).events none) g.pos := by
  obtain ⟨v, h0, h1, h2⟩ := associateFile_eq lookup σ h
  rw [h2] at hr
  cases hr
  obtain ⟨rest, hp, hn⟩ := h1.perm
  refine ⟨rest, ?_, hn⟩
  rw [List.perm_iff_count] at hp ⊢
  intro x
  have e1 := hp x
  have e2 := kept_moved_all lookup x v.nodes
  have e3 : ((((σ.order 0 v.nodes).flatMap (moved lookup)).map (·.comment)).count x) = (((v.nodes).flatMap (moved lookup)).map (·.comment)).count x :=
    (((σ.perm 0 v.nodes).flatMap_right _).map _).count_eq x
  simp only [List.flatMap_append, List.flatMap_cons, List.flatMap_nil, List.append_nil, List.map_append, List.count_append] at e1 e2 ⊢
  omega

theorem marks_nodup {groups : List Group} (h : (groups.flatMap (·.comments)).Nodup) : (groups.flatMap Group.marks).Nodup := by
  refine List.Sublist.nodup ?_ h
  clear h
  induction groups with
  | nil => exact List.Sublist.slnil
  | cons g gs ih => exact List.Sublist.append (List.filter_sublist) ih

theorem nodup_unique {r : List (Node × List MarkerComment)} (h : ((r.flatMap (·.2)).map (·.comment)).Nodup) {n n' : Node} {ms ms' : List MarkerComment} {m m' : MarkerComment}
    (h1 : (n, ms) ∈ r) (h2 : (n', ms') ∈ r) (h3 : m ∈ ms) (h4 : m' ∈ ms') (e : m.comment = m'.comment) : n = n' ∧ m = m' := by
  induction r with
  | nil => cases h1
  | cons a r ih =>
    rw [List.flatMap_cons, List.map_append, List.nodup_append] at h
    have inj : ∀ (l : List MarkerComment), (l.map (·.comment)).Nodup → ∀ m ∈ l, ∀ m' ∈ l, m.comment = m'.comment → m = m' := by
      intro l
      induction l with
      | nil => intro _ m hm; cases hm
      | cons x l ih =>
        intro hl m hm m' hm' e
        rw [List.map_cons, List.nodup_cons] at hl
        have key : ∀ y ∈ l, x.comment ≠ y.comment := fun y hy h => hl.1 (h ▸ List.mem_map_of_mem (f := fun m : MarkerComment => m.comment) hy)
        obtain hm | hm := List.mem_cons.1 hm
        · subst hm
          obtain hm' | hm' := List.mem_cons.1 hm'
          · exact hm'.symm
          · exact absurd e (key _ hm')
        · obtain hm' | hm' := List.mem_cons.1 hm'
          · exact absurd (hm' ▸ e.symm) (key m hm)
          · exact ih hl.2 m hm m' hm' e
    obtain h5 | h5 := List.mem_cons.1 h1
    · subst h5
      obtain h6 | h6 := List.mem_cons.1 h2
      · cases h6
        exact ⟨rfl, inj ms h.1 m h3 m' h4 e⟩
      · exact absurd e (h.2.2 _ (List.mem_map_of_mem h3) _ (List.mem_map_of_mem (List.mem_flatMap.2 ⟨(n', ms'), h6, h4⟩)))
    · obtain h6 | h6 := List.mem_cons.1 h2
      · subst h6
        exact absurd e.symm (h.2.2 _ (List.mem_map_of_mem h4) _ (List.mem_map_of_mem (List.mem_flatMap.2 ⟨(n, ms), h5, h3⟩)))
      · exact ih h.2.1 h5 h6

/-- **C16**: a marker comment is attached to at most one node, and once. -/
theorem C16_once (σ : Sched) {groups : List Group} {file : Node} {children : List Tree} (h : FileWF groups (.node file children))
    {r : List (Node × List MarkerComment)} (hr : associateFile lookup σ groups file children = some r) :
    (∀ x n n' b b', Attached r n x b → Attached r n' x b' → n = n' ∧ b = b') ∧ ∀ n ms, (n, ms) ∈ r → (ms.map (·.comment)).Nodup := by
  obtain ⟨rest, hp, _⟩ := C16_count lookup σ h hr
  have hnd : ((r.flatMap (·.2)).map (·.comment)).Nodup := (List.nodup_append.1 (hp.nodup_iff.2 (marks_nodup h.distinct))).1
  constructor
  · rintro x n n' b b' ⟨ms, h1, h2⟩ ⟨ms', h3, h4⟩
    obtain ⟨h5, h6⟩ := nodup_unique hnd h1 h3 h2 h4 rfl
    cases h6
    exact ⟨h5, rfl⟩
  · intro n ms hm
    refine List.Sublist.nodup (List.Sublist.map _ ?_) hnd
    rw [List.flatMap_def]
    exact List.sublist_flatten_of_mem (List.mem_map_of_mem (f := Prod.snd) hm)

/-- **C16**: what is attached is a marker of the file. -/
theorem C16_only (σ : Sched) {groups : List Group} {file : Node} {children : List Tree} (h : FileWF groups (.node file children))
    {r : List (Node × List MarkerComment)} (hr : associateFile lookup σ groups file children = some r) :
    ∀ n x b, Attached r n x b → ∃ g ∈ groups, x ∈ g.comments ∧ isMarkerComment x.text = true := by
  obtain ⟨rest, hp, _⟩ := C16_count lookup σ h hr
  rintro n x b ⟨ms, h1, h2⟩
  have := hp.mem_iff.1 (List.mem_append_left _ (List.mem_map_of_mem (f := fun m : MarkerComment => m.comment) (List.mem_flatMap.2 ⟨_, h1, h2⟩)))
  obtain ⟨g, hg, h3⟩ := List.mem_flatMap.1 this
  obtain ⟨h4, h5⟩ := List.mem_filter.1 h3
  exact ⟨g, hg, h4, h5⟩

/-- **C16**: a marker that is outside of all declarations, and is not the documentation of a function, or of a declaration of imports, constants, variables or several types, is attached to a node (or to the package).  What is missing: the markers for which `NoPlace` holds (`C16_violated`); for those inside of declarations see `C16_claimed`. -/
theorem C16_all_partial (σ : Sched) {groups : List Group} {file : Node} {children : List Tree} (h : FileWF groups (.node file children))
    {r : List (Node × List MarkerComment)} (hr : associateFile lookup σ groups file children = some r) {g : Group} (hg : g ∈ groups) {x : Comment} (hx : x ∈ g.comments) (hm : isMarkerComment x.text = true)
    (hp : ∀ g' ∈ groups, x ∈ g'.comments → ¬ NoPlace ((Tree.node file children).events none) g'.pos) :
    ∃ n b, Attached r n x b := by
  obtain ⟨rest, hperm, hn⟩ := C16_count lookup σ h hr
  have hx' : x ∈ groups.flatMap Group.marks := List.mem_flatMap.2 ⟨g, hg, List.mem_filter.2 ⟨hx, hm⟩⟩
  obtain h1 | h1 := List.mem_append.1 (hperm.mem_iff.2 hx')
  · obtain ⟨⟨c, b⟩, h2, rfl⟩ := List.mem_map.1 h1
    obtain ⟨⟨n, ms⟩, h3, h4⟩ := List.mem_flatMap.1 h2
    exact ⟨n, b, ms, h3, h4⟩
  · obtain ⟨g', h2, h3, h4⟩ := hn x h1
    exact absurd h4 (hp g' h2 (List.mem_filter.1 h3).1)

theorem has_kept {v : Visitor} {n : Node} {x : Comment} {b : Bool} : (∃ ms, (n, ms) ∈ v.nodes.map (kept lookup) ∧ (⟨x, b⟩ : MarkerComment) ∈ ms) ↔
    v.Has n ⟨x, b⟩ ∧ ¬ (n.kind = .typeSpec ∧ b = false ∧ PackageOnly lookup x) := by
  constructor
  · rintro ⟨ms, h1, h2⟩
    obtain ⟨⟨n', ms'⟩, h3, h4⟩ := List.mem_map.1 h1
    unfold kept at h4
    split at h4
    · cases h4
      obtain ⟨h5, h6⟩ := List.mem_filter.1 h2
      refine ⟨⟨ms', h3, h5⟩, fun h7 => ?_⟩
      rw [(isPackageLevel_iff lookup x b).2 h7.2] at h6
      cases h6
    · cases h4
      rename_i hk
      exact ⟨⟨ms, h3, h2⟩, fun h7 => hk h7.1⟩
  · rintro ⟨⟨ms, h1, h2⟩, h3⟩
    refine ⟨(kept lookup (n, ms)).2, List.mem_map.2 ⟨_, h1, ?_⟩, ?_⟩
    · unfold kept; split <;> rfl
    · unfold kept
      split
      · rename_i hk
        refine List.mem_filter.2 ⟨h2, ?_⟩
        cases hp : isPackageLevel lookup ⟨x, b⟩ with
        | false => rfl
        | true => exact absurd ⟨hk, (isPackageLevel_iff lookup x b).1 hp⟩ h3
      · exact h2

theorem mem_moved {v : Visitor} {m : MarkerComment} (h : m ∈ v.nodes.flatMap (moved lookup)) : ∃ n, n.kind = .typeSpec ∧ v.Has n m ∧ isPackageLevel lookup m = true := by
  obtain ⟨⟨n, ms⟩, h1, h2⟩ := List.mem_flatMap.1 h
  unfold moved at h2
  split at h2
  · rename_i hk
    obtain ⟨h3, h4⟩ := List.mem_filter.1 h2
    exact ⟨n, hk, ⟨ms, h1, h3⟩, h4⟩
  · cases h2

/-- What is attached to a node that is not the file, and what is attached to the file. -/
theorem attached_iff {σ : Sched} {groups : List Group} {file : Node} {children : List Tree} (h : FileWF groups (.node file children))
    {r : List (Node × List MarkerComment)} (hr : associateFile lookup σ groups file children = some r) :
    ∃ v, Done groups ((Tree.node file children).events none) v ∧
      (∀ n, n ≠ file → ∀ x b, Attached r n x b ↔ v.Has n ⟨x, b⟩ ∧ ¬ (n.kind = .typeSpec ∧ b = false ∧ PackageOnly lookup x)) ∧
      (∀ x b, Attached r file x b ↔ (⟨x, b⟩ : MarkerComment) ∈ v.pkg ∨ ∃ n, n.kind = .typeSpec ∧ v.Has n ⟨x, b⟩ ∧ b = false ∧ PackageOnly lookup x) := by
  obtain ⟨v, h0, h1, h2⟩ := associateFile_eq lookup σ h
  rw [h2] at hr
  cases hr
  have hkf : ∀ ms, (file, ms) ∈ v.nodes.map (kept lookup) → False := by
    intro ms hm
    obtain ⟨e, he, h3⟩ := List.mem_map.1 hm
    have h4 : e.1 = file := by
      have := congrArg Prod.fst h3
      unfold kept at this
      split at this <;> exact this
    have := h1.kinds e.1 (List.mem_map_of_mem (f := Prod.fst) he)
    rw [h4, h.root file children rfl] at this
    simp at this
  refine ⟨v, h1, ?_, ?_⟩
  · intro n hn x b
    rw [← has_kept lookup]
    constructor
    · rintro ⟨ms, h3, h4⟩
      obtain h3 | h3 := List.mem_append.1 h3
      · exact ⟨ms, h3, h4⟩
      · cases List.mem_singleton.1 h3; exact absurd rfl hn
    · rintro ⟨ms, h3, h4⟩
      exact ⟨ms, List.mem_append_left _ h3, h4⟩
  · intro x b
    constructor
    · rintro ⟨ms, h3, h4⟩
      obtain h3 | h3 := List.mem_append.1 h3
      · exact absurd h3 (hkf ms)
      · cases List.mem_singleton.1 h3
        obtain h4 | h4 := List.mem_append.1 h4
        · exact .inl h4
        · obtain ⟨n, h5, h6, h7⟩ := mem_moved lookup (((σ.perm 0 v.nodes).flatMap_right _).mem_iff.1 h4)
          exact .inr ⟨n, h5, h6, (isPackageLevel_iff lookup x b).1 h7⟩
    · intro h3
      refine ⟨_, List.mem_append_right _ (List.mem_singleton.2 rfl), ?_⟩
      obtain h3 | ⟨n, hk, ⟨ms, h4, h5⟩, h6⟩ := h3
      · exact List.mem_append_left _ h3
      · refine List.mem_append_right _ (((σ.perm 0 v.nodes).flatMap_right _).mem_iff.2 (List.mem_flatMap.2 ⟨(n, ms), h4, ?_⟩))
        unfold moved
        rw [if_pos hk]
        exact List.mem_filter.2 ⟨h5, (isPackageLevel_iff lookup x b).2 h6⟩

/-- A comment that begins after all that was visited before was not passed. -/
theorem not_passed {groups : List Group} {file : Tree} (h : FileWF groups file) {a b : List Event} {c : Node} {q : Option Node} (he : file.events none = a ++ .enter c q :: b) {p : Nat} (hp : p < c.pos)
    (hb : ∀ e ∈ a, e.bound ≤ p) : ¬ Passed a p := by
  rintro ⟨e, hea, h1 | h1⟩
  · have := hb e hea; omega
  · cases e with
    | leave m => cases h1
    | enter m q' =>
      obtain ⟨a1, a2, rfl⟩ := List.append_of_mem hea
      obtain ⟨b1, m', b2, h2, h3, h4, h5⟩ := h.lines a1 m q' (a2 ++ .enter c q :: b) p (by rw [he]; simp) h1
      have key : Event.leave m' ∈ a2 ∨ Event.enter c q ∈ b1 := by
        obtain ⟨x, h6, h7⟩ | ⟨x, h6, h7⟩ := List.append_eq_append_iff.1 h2
        · cases x with
          | nil => cases h7
          | cons y x =>
            cases h7
            exact .inr (by rw [h6]; simp)
        · cases x with
          | nil => cases h7
          | cons y x =>
            cases h7
            exact .inl (by rw [h6]; simp)
      obtain h6 | h6 := key
      · have := hb (.leave m') (by simp [h6])
        simp only [Event.bound, if_neg h3] at this
        omega
      · have := h5 _ h6 c rfl
        omega

/-- **C16**: a marker that is attached to a type or a field is in its documentation, or in the closest comment above it, or in one of those of the declaration of the type; a comment that belongs to something before it is not meant. -/
theorem C16_sound (σ : Sched) {groups : List Group} {file : Node} {children : List Tree} (h : FileWF groups (.node file children))
    {r : List (Node × List MarkerComment)} (hr : associateFile lookup σ groups file children = some r) {n : Node} (hn : n ≠ file) {x : Comment} {b : Bool} (ha : Attached r n x b) :
    ∃ a c, Carries ((Tree.node file children).events none) a n c ∧
      ∃ g ∈ groups, x ∈ g.comments ∧ ((b = true ∧ c.doc = some g.pos) ∨ (b = false ∧ Closest groups c g ∧ ¬ Passed a g.pos)) := by
  obtain ⟨v, h1, h2, _⟩ := attached_iff lookup h hr
  obtain ⟨a, c, h3, g, h4, h5, h6⟩ := h1.sound n _ ((h2 n hn x b).1 ha).1
  refine ⟨a, c, h3, g, h4, (List.mem_filter.1 h5).1, h6.imp_right fun ⟨h7, h8, h9⟩ => ⟨h7, h8, ?_⟩⟩
  obtain ⟨q, b', h10, -⟩ := h3
  exact not_passed h h10 h8.1 h9

/-- **C16**: the markers in the documentation of a type or a field, or of the declaration of a type, are attached to it.  So are those in the closest comment above it, if that was not passed before; but those whose definition exists for packages only are attached to the package, if the comment is that of a type. -/
theorem C16_claimed (σ : Sched) {groups : List Group} {file : Node} {children : List Tree} (h : FileWF groups (.node file children))
    {r : List (Node × List MarkerComment)} (hr : associateFile lookup σ groups file children = some r) {a : List Event} {n c : Node} (hc : Carries ((Tree.node file children).events none) a n c)
    {g : Group} (hg : g ∈ groups) {x : Comment} (hx : x ∈ g.comments) (hm : isMarkerComment x.text = true) :
    (c.doc = some g.pos → Attached r n x true) ∧
    (Closest groups c g → ¬ Passed a g.pos →
      (¬ (n.kind = .typeSpec ∧ PackageOnly lookup x) → Attached r n x false) ∧ (n.kind = .typeSpec → PackageOnly lookup x → Attached r file x false)) := by
  obtain ⟨v, h1, h2, h3⟩ := attached_iff lookup h hr
  have hn : n ≠ file := by
    rintro rfl
    have hk := h.root n children rfl
    obtain ⟨q, b, _, ⟨_, h4⟩ | ⟨_, h4, _⟩⟩ := hc <;> rw [hk] at h4 <;> simp at h4
  have hx' : x ∈ g.marks := List.mem_filter.2 ⟨hx, hm⟩
  constructor
  · intro hd
    refine (h2 n hn x true).2 ⟨h1.complete a n c hc g true ⟨hg, .inl ⟨rfl, hd⟩⟩ x hx', ?_⟩
    rintro ⟨_, h, _⟩; cases h
  · intro hcl hnp
    have := h1.complete a n c hc g false ⟨hg, .inr ⟨rfl, hcl, hnp⟩⟩ x hx'
    constructor
    · intro h4
      exact (h2 n hn x false).2 ⟨this, fun h5 => h4 ⟨h5.1, h5.2.2⟩⟩
    · intro hk hpo
      exact (h3 x false).2 (.inr ⟨n, hk, this, rfl, hpo⟩)

/-- **C16**: a marker in a comment that is not documentation is not attached to a type, if its definition exists for packages only. -/
theorem C16_package_only (σ : Sched) {groups : List Group} {file : Node} {children : List Tree} (h : FileWF groups (.node file children))
    {r : List (Node × List MarkerComment)} (hr : associateFile lookup σ groups file children = some r) {n : Node} (hk : n.kind = .typeSpec) {x : Comment} (ha : Attached r n x false) :
    ¬ PackageOnly lookup x := by
  obtain ⟨v, h1, h2, _⟩ := attached_iff lookup h hr
  have hn : n ≠ file := by rintro rfl; rw [h.root n children rfl] at hk; cases hk
  exact fun h3 => ((h2 n hn x false).1 ha).2 ⟨hk, rfl, h3⟩

/-- **C16**: the markers of a type or a field are in the order of the file. -/
theorem C16_order (σ : Sched) {groups : List Group} {file : Node} {children : List Tree} (h : FileWF groups (.node file children))
    {r : List (Node × List MarkerComment)} (hr : associateFile lookup σ groups file children = some r) {n : Node} (hn : n ≠ file) {ms : List MarkerComment} (hm : (n, ms) ∈ r) :
    (ms.map (·.comment)).Sublist (groups.flatMap Group.marks) := by
  obtain ⟨v, _, h1, h2⟩ := associateFile_eq lookup σ h
  rw [h2] at hr
  cases hr
  obtain hm | hm := List.mem_append.1 hm
  · obtain ⟨e, he, h3⟩ := List.mem_map.1 hm
    have h4 := h1.order e he
    unfold kept at h3
    split at h3
    · cases h3
      exact (List.Sublist.map _ List.filter_sublist).trans h4
    · subst h3; exact h4
  · exact absurd (congrArg Prod.fst (List.mem_singleton.1 hm)) hn

/-- **C16**: documentation that is attached to the package is that of the file. -/
theorem C16_package_doc (σ : Sched) {groups : List Group} {file : Node} {children : List Tree} (h : FileWF groups (.node file children))
    {r : List (Node × List MarkerComment)} (hr : associateFile lookup σ groups file children = some r) {x : Comment} (ha : Attached r file x true) :
    ∃ n q, Event.enter n q ∈ (Tree.node file children).events none ∧ n.kind = .file ∧ ∃ g ∈ groups, n.doc = some g.pos ∧ x ∈ g.comments := by
  obtain ⟨v, h1, _, h3⟩ := attached_iff lookup h hr
  obtain h4 | ⟨n, _, _, h4, _⟩ := (h3 x true).1 ha
  · obtain ⟨e, he, n, h5, h6, g, h7, h8, h9⟩ := h1.pkg _ h4 rfl
    cases e with
    | enter m q => cases h5; exact ⟨n, q, he, h6, g, h7, h8, (List.mem_filter.1 h9).1⟩
    | leave m => cases h5
  · cases h4

/-- **C16**: a marker that is attached to the package, and is not documentation, is one that is for packages only in the comments of a type; or its comment is between the declarations of the file, or directly above a declaration of imports, constants, variables or several types, or behind everything. -/
theorem C16_package (σ : Sched) {groups : List Group} {file : Node} {children : List Tree} (h : FileWF groups (.node file children))
    {r : List (Node × List MarkerComment)} (hr : associateFile lookup σ groups file children = some r) {x : Comment} (ha : Attached r file x false) :
    ∃ g ∈ groups, x ∈ g.comments ∧
      ((PackageOnly lookup x ∧ ∃ n a c, n.kind = .typeSpec ∧ Carries ((Tree.node file children).events none) a n c ∧ Closest groups c g ∧ ¬ Passed a g.pos) ∨
       FreeBefore groups ((Tree.node file children).events none) g ∨ ∀ e ∈ (Tree.node file children).events none, e.bound ≤ g.pos) := by
  obtain ⟨v, h1, _, h3⟩ := attached_iff lookup h hr
  obtain h4 | ⟨n, h4, h5, _, h6⟩ := (h3 x false).1 ha
  · obtain ⟨g, h5, h6, h7⟩ := h1.free _ h4 rfl
    exact ⟨g, h5, (List.mem_filter.1 h6).1, .inr h7⟩
  · obtain ⟨a, c, h7, g, h8, h9, ⟨h10, _⟩ | ⟨_, h10, h11⟩⟩ := h1.sound n _ h5
    · cases h10
    · obtain ⟨q, b', h12, -⟩ := id h7
      exact ⟨g, h8, (List.mem_filter.1 h9).1, .inl ⟨h6, n, a, c, h4, h7, h10, not_passed h h12 h10.1 h11⟩⟩

/-- The value of a marker, if its definition has name `k`. -/
def valueFor {Val Err : Type} (name : Def → String) (parse : Def → Str → Except Err Val) (t : Target) (k : String) (m : MarkerComment) : Option Val :=
  match lookup (trimSpace (m.comment.text.drop 2)) t with
  | none => none
  | some d => if name d = k then (parse d (trimSpace (m.comment.text.drop 2))).toOption else none

/-- The error of a marker. -/
def errorOf {Val Err : Type} (parse : Def → Str → Except Err Val) (t : Target) (m : MarkerComment) : Option (MarkerComment × Err) :=
  match lookup (trimSpace (m.comment.text.drop 2)) t with
  | none => none
  | some d => match parse d (trimSpace (m.comment.text.drop 2)) with
    | .ok _ => none
    | .error e => some (m, e)

theorem parseNode_spec {Val Err : Type} (name : Def → String) (parse : Def → Str → Except Err Val) (t : Target) :
    ∀ (ms : List MarkerComment) (vals : List (String × List Val)) (errs : List (MarkerComment × Err)),
      (∀ k, (GoMap.get (parseNode lookup name parse t ms vals errs).1 k).getD [] = (GoMap.get vals k).getD [] ++ ms.filterMap (valueFor lookup name parse t k)) ∧
      (parseNode lookup name parse t ms vals errs).2 = errs ++ ms.filterMap (errorOf lookup parse t)
  | [], vals, errs => by simp [parseNode]
  | m :: ms, vals, errs => by
    rw [parseNode]
    unfold parseOne
    have hv : ∀ k, valueFor lookup name parse t k m = match lookup m.text t with
      | none => none
      | some d => if name d = k then (parse d m.text).toOption else none := fun k => rfl
    have he : errorOf (Val := Val) lookup parse t m = match lookup m.text t with
      | none => none
      | some d => match parse d m.text with
        | .ok _ => none
        | .error e => some (m, e) := rfl
    cases hl : lookup m.text t with
    | none =>
      rw [hl] at hv he
      obtain ⟨h1, h2⟩ := parseNode_spec name parse t ms vals errs
      refine ⟨fun k => ?_, ?_⟩
      · rw [List.filterMap_cons_none (hv k)]; exact h1 k
      · rw [List.filterMap_cons_none he]; exact h2
    | some d =>
      rw [hl] at hv he
      simp only [Option.map_some]
      cases hp : parse d m.text with
      | error e =>
        simp only [hp] at hv he
        obtain ⟨h1, h2⟩ := parseNode_spec name parse t ms vals (errs ++ [(m, e)])
        refine ⟨fun k => ?_, ?_⟩
        · rw [List.filterMap_cons_none (by rw [hv k]; simp [Except.toOption])]; exact h1 k
        · rw [List.filterMap_cons_some he]; simp only [h2, List.append_assoc, List.singleton_append]
      | ok x =>
        simp only [hp] at hv he
        obtain ⟨h1, h2⟩ := parseNode_spec name parse t ms (GoMap.appendAt vals (name d) x) errs
        refine ⟨fun k => ?_, ?_⟩
        · simp only [h1 k, GoMap.get_appendAt]
          by_cases hk : name d = k
          · rw [List.filterMap_cons_some (b := x) (by rw [hv k, if_pos hk]; rfl)]
            subst hk
            simp
          · rw [List.filterMap_cons_none (by rw [hv k, if_neg hk])]
            simp [hk, Ne.symm hk]
        · rw [List.filterMap_cons_none he]; exact h2

/-- **C16**: the values of a node under a name are those of its markers whose definition has that name, in order; an error is reported for each marker that does not parse; and markers without a definition are ignored. -/
theorem C16_values {Val Err : Type} (name : Def → String) (parse : Def → Str → Except Err Val) (n : Node) (ms : List MarkerComment) :
    (∀ k, (GoMap.get (parseNode lookup name parse n.target ms [] []).1 k).getD [] = ms.filterMap (valueFor lookup name parse n.target k)) ∧
    (parseNode lookup name parse n.target ms [] []).2 = ms.filterMap (errorOf lookup parse n.target) := by
  obtain ⟨h1, h2⟩ := parseNode_spec lookup name parse n.target ms [] []
  exact ⟨fun k => by rw [h1 k]; rfl, by rw [h2]; rfl⟩

/-- **C16**: markers without a definition change nothing. -/
theorem C16_unknown {Val Err : Type} (name : Def → String) (parse : Def → Str → Except Err Val) (t : Target) :
    ∀ (ms : List MarkerComment) (vals : List (String × List Val)) (errs : List (MarkerComment × Err)),
      parseNode lookup name parse t ms vals errs = parseNode lookup name parse t (ms.filter fun m => (lookup (trimSpace (m.comment.text.drop 2)) t).isSome) vals errs
  | [], vals, errs => rfl
  | m :: ms, vals, errs => by
    rw [List.filter_cons]
    cases hl : lookup (trimSpace (m.comment.text.drop 2)) t with
    | none =>
      have : parseOne lookup name parse t m = none := by unfold parseOne MarkerComment.text; rw [hl]; rfl
      rw [parseNode, this]
      exact C16_unknown name parse t ms vals errs
    | some d =>
      have : parseOne lookup name parse t m = some (name d, parse d m.text) := by unfold parseOne; rw [show lookup m.text t = some d from hl]; rfl
      rw [if_pos (show (some d).isSome = true from rfl), parseNode, parseNode, this]
      cases parse d m.text with
      | error e => exact C16_unknown name parse t ms vals _
      | ok x => exact C16_unknown name parse t ms _ errs

/-! ## The order of maps -/

/-- **C60**: the markers of the nodes of a file, other than the file, do not depend on the order in which maps are iterated over, and those of the package do not either, but for their order. -/
theorem C60_partial (σ σ' : Sched) {groups : List Group} {file : Node} {children : List Tree} (h : FileWF groups (.node file children)) :
    ∃ nodes pkg pkg', associateFile lookup σ groups file children = some (nodes ++ [(file, pkg)]) ∧
      associateFile lookup σ' groups file children = some (nodes ++ [(file, pkg')]) ∧ pkg.Perm pkg' := by
  obtain ⟨v, h0, h1, h2⟩ := associateFile_eq lookup σ h
  obtain ⟨v', h0', h1', h2'⟩ := associateFile_eq lookup σ' h
  rw [h0] at h0'
  cases h0'
  exact ⟨_, _, _, h2, h2', (((σ.perm 0 v.nodes).trans (σ'.perm 0 v.nodes).symm).flatMap_right _).append_left _⟩

end Verif.Markers.Collect

import Verif.Markers.CollectLemmas2
/-!
# Where markers belong: a whole file
-/
namespace Verif.Markers.Collect
open Verif Verif.Markers.Doc

/-! ## The calls of `Visit` are nested -/

theorem nodes_leave (n : Node) (es : List Event) : (Event.leave n :: es).filterMap Event.node = es.filterMap Event.node := rfl

theorem nodes_enter (n : Node) (p : Option Node) (es : List Event) : (Event.enter n p :: es).filterMap Event.node = n :: es.filterMap Event.node := rfl

def Nested : List Node → List Event → Prop
  | _, [] => True
  | A, .enter n p :: es => (∀ q, p = some q → q ∈ A) ∧ Nested (A ++ [n]) es
  | A, .leave n :: es => n ∈ A ∧ Nested A es

theorem Nested.append : ∀ {A : List Node} {es fs : List Event}, Nested A es → Nested (A ++ es.filterMap Event.node) fs → Nested A (es ++ fs)
  | _, [], _, _, h => by simpa using h
  | A, .enter n p :: es, fs, h1, h2 => ⟨h1.1, Nested.append h1.2 (by simpa [nodes_enter, nodes_leave] using h2)⟩
  | A, .leave n :: es, fs, h1, h2 => ⟨h1.1, Nested.append h1.2 (by simpa [nodes_enter, nodes_leave] using h2)⟩

mutual
theorem nested_events (A : List Node) (p : Option Node) (hp : ∀ q, p = some q → q ∈ A) : ∀ t : Tree, Nested A (t.events p)
  | .node n cs => by
    rw [Tree.events]
    refine ⟨hp, Nested.append (nested_list (A ++ [n]) n (by simp) cs) ⟨by simp, trivial⟩⟩

theorem nested_list (A : List Node) (p : Node) (hp : p ∈ A) : ∀ ts : List Tree, Nested A (Tree.eventsList p ts)
  | [] => by rw [Tree.eventsList]; trivial
  | t :: ts => by
    rw [Tree.eventsList]
    exact Nested.append (nested_events A (some p) (fun q h => by cases h; exact hp) t) (nested_list _ p (List.mem_append_left _ hp) ts)
end

theorem run_inv {groups : List Group} (hs : groups.Pairwise fun g g' => g.pos < g'.pos) : ∀ (es pre : List Event) (v : Visitor), Inv groups pre v →
    Nested (pre.filterMap Event.node) es →
    (∀ e ∈ es, ∀ n, e.node = some n → ∀ d, n.doc = some d → d < n.pos ∧ (∃ g ∈ groups, g.pos = d) ∧ ∀ g ∈ groups, d < g.pos → n.pos ≤ g.pos) →
    (pre ++ es).Pairwise Fresh → ((pre ++ es).filterMap Event.node).Nodup →
    (∀ n p, Event.enter n (some p) ∈ es → p.kind ≠ .file →
      n.pos ≤ p.end ∨ (p.line = some n.pos ∧ ∀ g ∈ groups, p.end ≤ g.pos → g.pos < n.pos → ∀ c ∈ g.comments, isMarkerComment c.text = false)) →
    ∃ v', v.run groups es = some v' ∧ Inv groups (pre ++ es) v'
  | [], pre, v, hi, _, _, _, _, _ => ⟨v, rfl, by simpa using hi⟩
  | e :: es, pre, v, hi, hN, hd, hf, hn, hin => by
    have eq : pre ++ e :: es = (pre ++ [e]) ++ es := by simp
    have step : ∃ v', v.event groups e = some v' ∧ Inv groups (pre ++ [e]) v' ∧ Nested ((pre ++ [e]).filterMap Event.node) es := by
      cases e with
      | enter n p =>
        obtain ⟨v', h1, h2⟩ := hi.enter hs n p (hd (.enter n p) (by simp) n rfl)
          (fun d h e he => (List.pairwise_append.1 hf).2.2 e he (.enter n p) (by simp) n rfl d h)
          (by
            rw [List.filterMap_append] at hn
            intro hm
            exact (List.nodup_append.1 hn).2.2 n hm n (by simp [Event.node]) rfl)
          hN.1 (fun q h hk => hin n q (by rw [← h]; simp) hk)
        exact ⟨v', h1, h2, by simpa [nodes_enter, nodes_leave] using hN.2⟩
      | leave n => exact ⟨_, rfl, hi.leave hs n hN.1, by simpa [nodes_enter, nodes_leave] using hN.2⟩
    obtain ⟨v1, h1, h2, h3⟩ := step
    rw [eq] at hf hn ⊢
    obtain ⟨v', h4, h5⟩ := run_inv hs es (pre ++ [e]) v1 h2 h3 (fun e' he' => hd e' (List.mem_cons_of_mem _ he')) hf hn (fun n p h => hin n p (List.mem_cons_of_mem _ h))
    exact ⟨v', by rw [Visitor.run, h1]; exact h4, h5⟩

/-- What holds after the walk over a file. -/
structure Done (groups : List Group) (evs : List Event) (v : Visitor) : Prop where
  perm : ∃ rest : List Comment, ((v.pkg ++ v.nodes.flatMap (·.2)).map (·.comment) ++ rest).Perm (groups.flatMap Group.marks) ∧ ∀ c ∈ rest, ∃ g ∈ groups, c ∈ g.marks ∧ NoPlace evs g.pos
  wf : GoMap.WF v.nodes
  kinds : ∀ n ∈ GoMap.keys v.nodes, n.kind = .typeSpec ∨ n.kind = .field
  sound : ∀ n m, v.Has n m → ∃ a c, Carries evs a n c ∧ From groups a c m
  complete : ∀ a n c, Carries evs a n c → ∀ g b, Claim groups a c g b → ∀ x ∈ g.marks, v.Has n ⟨x, b⟩
  pkg : ∀ m ∈ v.pkg, m.fromGodoc = true → ∃ e ∈ evs, ∃ n, e.node = some n ∧ n.kind = .file ∧ ∃ g ∈ groups, n.doc = some g.pos ∧ m.Of g
  free : ∀ m ∈ v.pkg, m.fromGodoc = false → ∃ g ∈ groups, m.Of g ∧ (FreeBefore groups evs g ∨ ∀ e ∈ evs, e.bound ≤ g.pos)
  order : ∀ e ∈ v.nodes, (e.2.map (·.comment)).Sublist (groups.flatMap Group.marks)

theorem walk_done {groups : List Group} {file : Tree} (h : FileWF groups file) : ∃ v, walk groups file = some v ∧ Done groups (file.events none) v := by
  obtain ⟨v, h1, hi⟩ := run_inv h.sorted (file.events none) [] {} (inv_start groups) (nested_events [] none (fun q h => by cases h) file) h.docs (by simpa using h.fresh) (by simpa using h.nodup) h.inside
  rw [List.nil_append] at hi
  refine ⟨{ v with pkg := v.pkg ++ between groups false v.ind groups.length }, by rw [walk, h1]; rfl, ?_⟩
  have hdecl : v.decl = [] := by
    cases hd : v.decl with
    | nil => rfl
    | cons m ms =>
      obtain ⟨a, c, ⟨q, b, h2, h3, h4⟩, _⟩ := hi.soundDecl m (by rw [hd]; simp)
      obtain ⟨e, h5, m', h6, h7⟩ := h.types a c q b h2 h3
      exact absurd h7 (h4 e h5 m' h6)
  refine ⟨?_, hi.wf, hi.kinds, hi.sound, hi.complete, ?_, ?_, fun e he => (hi.order e he).trans ?_⟩
  · obtain ⟨rest, hp, hr⟩ := hi.perm
    refine ⟨rest, ?_, hr⟩
    have e1 : groups.flatMap Group.marks = (groups.take v.ind).flatMap Group.marks ++ ((groups.take groups.length).drop v.ind).flatMap Group.marks := by
      rw [← List.flatMap_append, List.take_length, List.take_append_drop]
    rw [e1]
    rw [List.perm_iff_count] at hp ⊢
    intro x
    have h2 := hp x
    unfold Visitor.used at h2
    rw [hdecl] at h2
    simp only [List.append_nil, List.map_append, List.count_append, between_comments] at h2 ⊢
    omega
  · intro m hm hg
    obtain hm | hm := List.mem_append.1 hm
    · exact hi.pkg m hm hg
    · have := (mem_between.1 hm).1; rw [hg] at this; cases this
  · intro m hm hg
    obtain hm | hm := List.mem_append.1 hm
    · obtain ⟨g, h1, h2, h3⟩ := hi.free m hm hg
      exact ⟨g, h1, h2, .inl h3⟩
    · obtain ⟨_, k, g, h2, h3, h4, h5⟩ := mem_between.1 hm
      exact ⟨g, List.mem_of_getElem? h4, h5, .inr fun e he => hi.high e he k g h2 h4⟩
  · rw [← List.take_append_drop v.ind groups, List.flatMap_append, List.take_append_drop]
    exact List.sublist_append_left _ _

/-! ## Markers that are in truth those of the package -/

variable {Def : Type} (lookup : Str → Target → Option Def)

/-- What a node keeps. -/
def kept (e : Node × List MarkerComment) : Node × List MarkerComment :=
  if e.1.kind = .typeSpec then (e.1, e.2.filter fun m => !isPackageLevel lookup m) else e

/-- What the package gets. -/
def moved (e : Node × List MarkerComment) : List MarkerComment :=
  if e.1.kind = .typeSpec then e.2.filter (isPackageLevel lookup) else []

theorem put_map {κ ν : Type} [DecidableEq κ] : ∀ {m : List (κ × ν)} {k : κ}, GoMap.WF m → k ∈ GoMap.keys m → ∀ v : ν, GoMap.put m k v = m.map fun e => if e.1 = k then (k, v) else e
  | [], _, _, h, _ => by cases h
  | (k0, v0) :: m, k, hw, h, v => by
    have hw' : k0 ∉ GoMap.keys m ∧ GoMap.WF m := by simpa [GoMap.WF, GoMap.keys] using hw
    by_cases hk : k0 = k
    · subst hk
      have : m.map (fun e => if e.1 = k0 then (k0, v) else e) = m := by
        conv => rhs; rw [← List.map_id m]
        apply List.map_congr_left
        intro e he
        rw [if_neg]; rfl
        intro e'
        exact hw'.1 (e' ▸ List.mem_map_of_mem he)
      simp [GoMap.put, this]
    · have : k ∈ GoMap.keys m := by
        obtain h | h := List.mem_cons.1 (show k ∈ k0 :: GoMap.keys m from h)
        · exact absurd h.symm hk
        · exact h
      simp [GoMap.put, hk, put_map hw'.2 this v]

theorem reassociate_eq : ∀ (l : List (Node × List MarkerComment)) (pkg : List MarkerComment) (nodes : List (Node × List MarkerComment)), (GoMap.keys l).Nodup → GoMap.WF nodes →
    (∀ e ∈ l, e ∈ nodes) → reassociate lookup l pkg nodes = (pkg ++ l.flatMap (moved lookup), nodes.map fun e => if e.1 ∈ GoMap.keys l then kept lookup e else e)
  | [], pkg, nodes, _, _, _ => by simp [reassociate, GoMap.keys]
  | (n, ms) :: l, pkg, nodes, hn, hw, hm => by
    have hn' : n ∉ GoMap.keys l ∧ (GoMap.keys l).Nodup := by simpa [GoMap.keys] using hn
    have hmem := hm (n, ms) (by simp)
    have hkey : n ∈ GoMap.keys nodes := List.mem_map_of_mem (f := Prod.fst) hmem
    have uniq : ∀ e ∈ nodes, e.1 = n → e = (n, ms) := by
      intro e he h
      have h1 := (GoMap.get_eq_some hw).2 hmem
      have h2 := (GoMap.get_eq_some hw).2 (show (n, e.2) ∈ nodes by rw [← h]; exact he)
      rw [h1] at h2
      cases h2; cases e; cases h; rfl
    rw [reassociate]
    split
    · rename_i hk
      rw [reassociate_eq l _ _ hn'.2 (GoMap.put_wf hw _ _)]
      · congr 1
        · simp [moved, hk]
        · rw [put_map hw hkey, List.map_map]
          apply List.map_congr_left
          intro e he
          simp only [Function.comp]
          by_cases h : e.1 = n
          · rw [uniq e he h]
            rw [if_pos rfl, if_neg hn'.1, if_pos (show n ∈ GoMap.keys ((n, ms) :: l) from List.mem_cons_self ..)]
            unfold kept
            rw [if_pos hk]
          · rw [if_neg h]
            by_cases h' : e.1 ∈ GoMap.keys l
            · rw [if_pos h', if_pos (show e.1 ∈ GoMap.keys ((n, ms) :: l) from List.mem_cons_of_mem _ h')]
            · rw [if_neg h', if_neg (fun h2 : e.1 ∈ GoMap.keys ((n, ms) :: l) => (List.mem_cons.1 h2).elim h h')]
      · intro e he
        have h1 := hm e (List.mem_cons_of_mem _ he)
        rw [put_map hw hkey]
        refine List.mem_map.2 ⟨e, h1, if_neg ?_⟩
        intro h
        exact hn'.1 (h ▸ List.mem_map_of_mem (f := Prod.fst) he)
    · rename_i hk
      rw [reassociate_eq l _ _ hn'.2 hw (fun e he => hm e (List.mem_cons_of_mem _ he))]
      congr 1
      · simp [moved, hk]
      · apply List.map_congr_left
        intro e he
        by_cases h : e.1 = n
        · rw [uniq e he h]
          rw [if_neg hn'.1, if_pos (show n ∈ GoMap.keys ((n, ms) :: l) from List.mem_cons_self ..)]
          unfold kept
          rw [if_neg hk]
        · by_cases h' : e.1 ∈ GoMap.keys l
          · rw [if_pos h', if_pos (show e.1 ∈ GoMap.keys ((n, ms) :: l) from List.mem_cons_of_mem _ h')]
          · rw [if_neg h', if_neg (fun h2 : e.1 ∈ GoMap.keys ((n, ms) :: l) => (List.mem_cons.1 h2).elim h h')]

/-- The markers of a file: those of the nodes, without the markers that are in truth those of the package; and those of the package. -/
theorem associateFile_eq (σ : Sched) {groups : List Group} {file : Node} {children : List Tree} (h : FileWF groups (.node file children)) :
    ∃ v, walk groups (.node file children) = some v ∧ Done groups ((Tree.node file children).events none) v ∧
      associateFile lookup σ groups file children = some (v.nodes.map (kept lookup) ++ [(file, v.pkg ++ (σ.order 0 v.nodes).flatMap (moved lookup))]) := by
  obtain ⟨v, h1, h2⟩ := walk_done h
  refine ⟨v, h1, h2, ?_⟩
  have hwf : (GoMap.keys v.nodes).Nodup := h2.wf
  have hord : (GoMap.keys (σ.order 0 v.nodes)).Nodup := ((σ.perm 0 v.nodes).map Prod.fst).nodup_iff.2 hwf
  have e1 := reassociate_eq lookup (σ.order 0 v.nodes) v.pkg v.nodes hord h2.wf (fun e he => (σ.mem_order 0 _ _).1 he)
  have e2 : (v.nodes.map fun e => if e.1 ∈ GoMap.keys (σ.order 0 v.nodes) then kept lookup e else e) = v.nodes.map (kept lookup) := by
    apply List.map_congr_left
    intro e he
    rw [if_pos]
    exact List.mem_map_of_mem ((σ.mem_order 0 _ _).2 he)
  rw [associateFile, h1]
  simp only [Option.map_some, e1, e2]
  rw [put_fresh]
  intro hf
  have : file ∈ GoMap.keys v.nodes := by
    obtain ⟨e, he, h3⟩ := List.mem_map.1 hf
    obtain ⟨e', he', rfl⟩ := List.mem_map.1 he
    rw [← h3]
    have : (kept lookup e').1 = e'.1 := by unfold kept; split <;> rfl
    rw [this]
    exact List.mem_map_of_mem he'
  have hk := h.root file children rfl
  have := h2.kinds file this
  rw [hk] at this
  simp at this

theorem kept_moved (e : Node × List MarkerComment) (x : Comment) : ((kept lookup e).2.map (·.comment)).count x + ((moved lookup e).map (·.comment)).count x = (e.2.map (·.comment)).count x := by
  unfold kept moved
  split
  · simp only
    induction e.2 with
    | nil => rfl
    | cons m ms ih =>
      simp only [List.filter_cons]
      cases isPackageLevel lookup m <;> simp [List.count_cons] <;> omega
  · simp

theorem kept_moved_all (x : Comment) : ∀ l : List (Node × List MarkerComment),
    (((l.map (kept lookup)).flatMap (·.2)).map (·.comment)).count x + ((l.flatMap (moved lookup)).map (·.comment)).count x = ((l.flatMap (·.2)).map (·.comment)).count x
  | [] => rfl
  | e :: l => by
    have h1 := kept_moved_all x l
    have h2 := kept_moved lookup e x
    simp only [List.map_cons, List.flatMap_cons, List.map_append, List.count_append] at h1 ⊢
    omega

end Verif.Markers.Collect

import Verif.Crd.MarksLemmas

/-! # Lemmas on the order in which markers are applied -/
namespace Verif.Crd
open Spec

/-- The order that a stable sort by priority leaves between markers. -/
def Before (a b : Named) : Prop := a.mark.priority ≤ b.mark.priority ∧ (a.mark.priority = b.mark.priority → a.name = b.name → a.idx < b.idx)

/-- The order in which values of the same name are collected. -/
def Collected (a b : Named) : Prop := a.name = b.name → a.idx < b.idx

theorem insertBy_before {a : Named} {l : List Named} (hl : l.Pairwise Before) (ha : ∀ b ∈ l, Collected a b) : (insertBy prioLe a l).Pairwise Before := by
  induction l with
  | nil => exact List.pairwise_singleton ..
  | cons b l ih =>
    rw [List.pairwise_cons] at hl
    unfold insertBy
    by_cases h : prioLe a b = true
    · rw [if_pos h]
      have h1 : a.mark.priority ≤ b.mark.priority := by simpa [prioLe] using h
      refine List.pairwise_cons.2 ⟨?_, List.pairwise_cons.2 hl⟩
      intro c hc
      refine ⟨?_, fun _ => ha c hc⟩
      rcases List.mem_cons.1 hc with rfl | hc
      · exact h1
      · exact Nat.le_trans h1 (hl.1 c hc).1
    · rw [if_neg h]
      have h1 : b.mark.priority < a.mark.priority := by simpa [prioLe] using h
      refine List.pairwise_cons.2 ⟨?_, ih hl.2 (fun c hc => ha c (List.mem_cons_of_mem _ hc))⟩
      intro c hc
      rcases List.mem_cons.1 ((insertBy_perm prioLe a l).mem_iff.1 hc) with rfl | hc
      · exact ⟨Nat.le_of_lt h1, fun h2 => by omega⟩
      · exact hl.1 c hc

theorem sortBy_before {l : List Named} (h : l.Pairwise Collected) : (sortBy prioLe l).Pairwise Before := by
  induction l with
  | nil => exact .nil
  | cons a l ih =>
    rw [List.pairwise_cons] at h
    exact insertBy_before (ih h.2) (fun b hb => h.1 b (mem_sortBy.1 hb))

theorem sortBy_prio (l : List Named) : (sortBy prioLe l).Pairwise (fun a b => a.mark.priority ≤ b.mark.priority) := by
  have := sortBy_pairwise (le := prioLe) (by simp only [prioLe, decide_eq_true_eq]; omega) (by simp only [prioLe, decide_eq_true_eq]; omega) l
  exact this.imp (by simp [prioLe])

/-- Two sequences of steps with the same effect: those pairs that come in different orders commute. -/
theorem foldl_eq {α β : Type} (f : β → α → β) (R : α → α → Prop) : ∀ {l l' : List α}, l.Perm l' → l.Pairwise R → l'.Pairwise R →
    (∀ a ∈ l, ∀ b ∈ l, R a b → R b a → ∀ x, f (f x a) b = f (f x b) a) → ∀ x, l.foldl f x = l'.foldl f x := by
  intro l
  induction l with
  | nil => intro l' h _ _ _ x; rw [h.nil_eq]
  | cons a l ih =>
    intro l' h hp hp' hc x
    have ha : a ∈ l' := h.subset (List.mem_cons_self ..)
    obtain ⟨u, v, rfl⟩ := List.append_of_mem ha
    have hperm : l.Perm (u ++ v) := (List.perm_cons a).1 (h.trans List.perm_middle)
    rw [List.pairwise_cons] at hp
    have hp'' := hp'
    rw [List.pairwise_append] at hp'
    have hmove : ∀ x, (u ++ a :: v).foldl f x = (a :: (u ++ v)).foldl f x := by
      have hu : ∀ y ∈ u, R y a ∧ R a y ∧ y ∈ l := by
        intro y hy
        have hyl : y ∈ l := hperm.mem_iff.2 (List.mem_append_left _ hy)
        exact ⟨hp'.2.2 y hy a (List.mem_cons_self ..), hp.1 y hyl, hyl⟩
      intro x
      rw [List.foldl_append, List.foldl_cons, List.foldl_cons, List.foldl_append]
      congr 1
      clear ha h hperm hp' hp''
      induction u generalizing x with
      | nil => rfl
      | cons y u ihu =>
        rw [List.foldl_cons, List.foldl_cons, ihu (fun z hz => hu z (List.mem_cons_of_mem _ hz))]
        have hy := hu y (List.mem_cons_self ..)
        rw [hc y (List.mem_cons_of_mem _ hy.2.2) a (List.mem_cons_self ..) hy.1 hy.2.1]
    rw [hmove, List.foldl_cons, List.foldl_cons]
    refine ih hperm hp.2 ?_ (fun b hb c hc' => hc b (List.mem_cons_of_mem _ hb) c (List.mem_cons_of_mem _ hc')) _
    exact hp''.sublist (List.Sublist.append_left (List.sublist_cons_self a v) u)

theorem namedMarks_pairwise (n : String) (vs : List (Option Mark)) : (namedMarks n vs).Pairwise (fun a b => a.idx < b.idx) := by
  unfold namedMarks
  rw [List.pairwise_filterMap]
  rw [List.pairwise_iff_getElem]
  intro i j hi hj hij x hx y hy
  simp only [List.getElem_zipIdx, Option.map_eq_some_iff] at hx hy
  obtain ⟨_, -, rfl⟩ := hx
  obtain ⟨_, -, rfl⟩ := hy
  show 0 + i < 0 + j
  omega

theorem name_namedMarks {n : String} {vs : List (Option Mark)} {a : Named} (h : a ∈ namedMarks n vs) : a.name = n := by
  unfold namedMarks at h
  rw [List.mem_filterMap] at h
  obtain ⟨x, -, hx⟩ := h
  rw [Option.map_eq_some_iff] at hx
  obtain ⟨_, -, rfl⟩ := hx
  rfl

theorem mark_namedMarks {n : String} {vs : List (Option Mark)} {a : Named} (h : a ∈ namedMarks n vs) : some a.mark ∈ vs := by
  unfold namedMarks at h
  rw [List.mem_filterMap] at h
  obtain ⟨x, hx, h⟩ := h
  rw [Option.map_eq_some_iff] at h
  obtain ⟨m, hm, rfl⟩ := h
  rw [← hm]
  exact List.fst_mem_of_mem_zipIdx hx

theorem mem_namedMarks {n : String} {vs : List (Option Mark)} {m : Mark} (h : some m ∈ vs) : ∃ a ∈ namedMarks n vs, a.mark = m := by
  obtain ⟨i, hi, e⟩ := List.getElem_of_mem h
  refine ⟨⟨n, i, m⟩, ?_, rfl⟩
  unfold namedMarks
  rw [List.mem_filterMap]
  refine ⟨(some m, i), ?_, rfl⟩
  rw [List.mk_mem_zipIdx_iff_getElem?]
  rw [List.getElem?_eq_getElem hi, e]

theorem mem_collect {σ : Sched} {t : Nat} {set : List (String × List (Option Mark))} {a : Named} : a ∈ collectMarks σ t set ↔ ∃ e ∈ set, a ∈ namedMarks e.1 e.2 := by
  unfold collectMarks
  simp only [List.mem_flatMap, σ.mem_order]

theorem collect_perm (σ σ' : Sched) (t t' : Nat) (set : List (String × List (Option Mark))) : (collectMarks σ t set).Perm (collectMarks σ' t' set) :=
  ((σ.perm t set).trans (σ'.perm t' set).symm).flatMap_right _

theorem collect_pairwise {σ : Sched} {t : Nat} {set : List (String × List (Option Mark))} (h : GoMap.WF set) : (collectMarks σ t set).Pairwise Collected := by
  unfold collectMarks
  have hn : ((σ.order t set).map (·.1)).Nodup := ((σ.perm t set).map _).nodup_iff.2 h
  generalize σ.order t set = l at hn
  induction l with
  | nil => exact .nil
  | cons e l ih =>
    rw [List.map_cons, List.nodup_cons] at hn
    rw [List.flatMap_cons, List.pairwise_append]
    refine ⟨List.Pairwise.imp (R := fun a b => a.idx < b.idx) (fun {a b} (h : a.idx < b.idx) => show Collected a b from fun _ => h) (namedMarks_pairwise ..), ih hn.2, ?_⟩
    intro a ha b hb hab
    obtain ⟨e', he', hb⟩ := List.mem_flatMap.1 hb
    rw [name_namedMarks ha, name_namedMarks hb] at hab
    exact absurd (List.mem_map.2 ⟨e', he', hab.symm⟩) hn.1

theorem collect_length (σ : Sched) (t : Nat) (set : List (String × List (Option Mark))) : (collectMarks σ t set).length = count set := by
  have h1 : (collectMarks σ t set).length = (set.flatMap fun e => namedMarks e.1 e.2).length := ((σ.perm t set).flatMap_right _).length_eq
  rw [h1]
  unfold count
  rw [List.length_flatMap]
  congr 1
  apply List.map_congr_left
  intro e _
  unfold namedMarks
  have : ∀ (l : List (Option Mark)) (k : Nat), ((l.zipIdx k).filterMap fun x => x.1.map fun m => (⟨e.1, x.2, m⟩ : Named)).length = (l.filter Option.isSome).length := by
    intro l
    induction l with
    | nil => intro k; rfl
    | cons x l ih =>
      intro k
      rw [List.zipIdx_cons]
      cases x with
      | none => simpa using ih (k + 1)
      | some m => simpa using ih (k + 1)
  exact this e.2 0

theorem has_of_mem {σ : Sched} {t : Nat} {set : List (String × List (Option Mark))} {a : Named} (h : a ∈ collectMarks σ t set) : Has set a.name a.mark := by
  obtain ⟨e, he, ha⟩ := mem_collect.1 h
  exact ⟨e.2, by rw [name_namedMarks ha]; exact he, mark_namedMarks ha⟩

theorem mem_of_has {σ : Sched} {t : Nat} {set : List (String × List (Option Mark))} {n : String} {m : Mark} (h : Has set n m) : ∃ a ∈ collectMarks σ t set, a.name = n ∧ a.mark = m := by
  obtain ⟨vs, he, hm⟩ := h
  obtain ⟨a, ha, e⟩ := mem_namedMarks (n := n) hm
  exact ⟨a, mem_collect.2 ⟨_, he, ha⟩, name_namedMarks ha, e⟩

theorem sliceSort_perm (σ : Sched) (t : Nat) (l : List Named) : (sliceSort σ t l).Perm l := by
  unfold sliceSort
  split
  · exact sortBy_perm ..
  · exact (sortBy_perm ..).trans (σ.perm ..)

theorem sliceSort_prio (σ : Sched) (t : Nat) (l : List Named) : (sliceSort σ t l).Pairwise (fun a b => a.mark.priority ≤ b.mark.priority) := by
  unfold sliceSort
  split <;> exact sortBy_prio _

/-! ## Markers that commute -/

/-- The keywords a marker looks at, other than its own, are not changed by the other one. -/
theorem compatible_put {marshal : AnyVal → Option Raw} {b : Base} {m : Mark} {k : Keyword} {v : k.Val}
    (h : k ≠ .xListType ∧ k ≠ .type ∧ k ≠ .xIntOrString ∨ (m.priority = 9 ∧ (k ≠ .type ∨ ∀ x, m ≠ .listType x))) :
    Compatible marshal (putKey b k v) m ↔ Compatible marshal b m := by
  have ht : k ≠ .type → (putKey b k v).type = b.type := fun h => get_putKey_ne b k .type v (Ne.symm h)
  have hi : k ≠ .xIntOrString → (putKey b k v).xIntOrString = b.xIntOrString := fun h => get_putKey_ne b k .xIntOrString v (Ne.symm h)
  have hl : k ≠ .xListType → (putKey b k v).xListType = b.xListType := fun h => get_putKey_ne b k .xListType v (Ne.symm h)
  rcases h with ⟨h1, h2, h3⟩ | ⟨h1, h2⟩
  · cases m <;> simp only [Compatible, Numeric, ht h2, hi h3, hl h1]
  · cases m <;> simp only [Mark.priority] at h1 <;> try omega
    all_goals simp only [Compatible]
    rw [ht (h2.resolve_right (fun h => h _ rfl))]

/-- The value written does not depend on keywords other than the marker's own, but for the type. -/
theorem written_put {marshal : AnyVal → Option Raw} {b : Base} {m : Mark} {k : Keyword} {v : k.Val} (h1 : target m ≠ k) (h2 : k ≠ .type ∨ m.priority = 9) :
    written marshal (putKey b k v) m = written marshal b m := by
  have hg : (target m).get (putKey b k v) = (target m).get b := get_putKey_ne b k _ v h1
  cases m <;> try rfl
  case default x =>
    have ht : (putKey b k v).type = b.type := get_putKey_ne b k .type v (Ne.symm (h2.resolve_right (by simp [Mark.priority])))
    simp only [written, ht]; rfl
  case title x =>
    cases x
    · exact hg
    · rfl
    · exact hg
  case kubernetesDefault x =>
    have hd : (putKey b k v).default = b.default := hg
    simp only [written, hd]; rfl
  case validation r m me re f o =>
    have hd : (putKey b k v).xValidations = b.xValidations := hg
    simp only [written, hd]; rfl
  case listMapKey x =>
    have hd : (putKey b k v).xListMapKeys = b.xListMapKeys := hg
    simp only [written, hd]; rfl

/-- Two markers of the same priority do not interfere: they are equal, or they are about different keywords, and neither sets the type the other one needs. -/
def Separate (m m' : Mark) : Prop :=
  m = m' ∨ (target m ≠ target m' ∧ ((∀ x, m ≠ .listType x) ∨ ∀ x, m' ≠ .type x) ∧ ((∀ x, m' ≠ .listType x) ∨ ∀ x, m ≠ .type x))

theorem prio_of {m : Mark} : m.priority = 9 ∨ (m.priority = 10 ∧ target m ≠ .xListType ∧ target m ≠ .type ∧ target m ≠ .xIntOrString) := by
  cases m <;> simp [Mark.priority, target]

theorem type_target {m : Mark} (h : target m = .type) : ∃ x, m = .type x := by
  cases m <;> simp [target] at h
  exact ⟨_, rfl⟩

theorem apply_comm {marshal : AnyVal → Option Raw} {m m' : Mark} (hp : m.priority = m'.priority) (hs : Separate m m') (x : Schema × Nat) (n n' : String) (i i' : Nat) :
    applyOne marshal (applyOne marshal x ⟨n, i, m⟩) ⟨n', i', m'⟩ = applyOne marshal (applyOne marshal x ⟨n', i', m'⟩) ⟨n, i, m⟩ := by
  rcases hs with rfl | ⟨ht, hl, hl'⟩
  · rfl
  · have hc : ∀ b v, Compatible marshal (putKey b (target m') v) m ↔ Compatible marshal b m := by
      intro b v
      apply compatible_put
      rcases prio_of (m := m) with h | ⟨h, h1, h2, h3⟩
      · right
        refine ⟨h, ?_⟩
        rcases hl with hl | hl
        · exact .inr hl
        · left; intro e; obtain ⟨y, rfl⟩ := type_target e; exact hl y rfl
      · left
        rcases prio_of (m := m') with h' | ⟨h', h1', h2', h3'⟩
        · omega
        · exact ⟨h1', h2', h3'⟩
    have hc' : ∀ b v, Compatible marshal (putKey b (target m) v) m' ↔ Compatible marshal b m' := by
      intro b v
      apply compatible_put
      rcases prio_of (m := m') with h | ⟨h, h1, h2, h3⟩
      · right
        refine ⟨h, ?_⟩
        rcases hl' with hl | hl
        · exact .inr hl
        · left; intro e; obtain ⟨y, rfl⟩ := type_target e; exact hl y rfl
      · left
        rcases prio_of (m := m) with h' | ⟨h', h1', h2', h3'⟩
        · omega
        · exact ⟨h1', h2', h3'⟩
    have hw : ∀ b v, written marshal (putKey b (target m') v) m = written marshal b m := by
      intro b v
      apply written_put ht
      rcases prio_of (m := m) with h | ⟨h, h1, h2, h3⟩
      · exact .inr h
      · left
        rcases prio_of (m := m') with h' | ⟨h', h1', h2', h3'⟩
        · omega
        · exact h2'
    have hw' : ∀ b v, written marshal (putKey b (target m) v) m' = written marshal b m' := by
      intro b v
      apply written_put (Ne.symm ht)
      rcases prio_of (m := m') with h | ⟨h, h1, h2, h3⟩
      · exact .inr h
      · left
        rcases prio_of (m := m) with h' | ⟨h', h1', h2', h3'⟩
        · omega
        · exact h2'
    have one : ∀ (x : Schema × Nat) (m : Named), Compatible marshal x.1.base m.mark → applyOne marshal x m = (x.1.withBase (putKey x.1.base (target m.mark) (written marshal x.1.base m.mark)), x.2) := by
      intro x m h
      unfold applyOne
      rw [apply_some _ _ _ h]
    have one' : ∀ (x : Schema × Nat) (m : Named), ¬ Compatible marshal x.1.base m.mark → applyOne marshal x m = (x.1, x.2 + 1) := by
      intro x m h
      unfold applyOne
      rw [apply_none _ _ _ h]
    by_cases h : Compatible marshal x.1.base m
    · rw [one x ⟨n, i, m⟩ h]
      by_cases h' : Compatible marshal x.1.base m'
      · rw [one x ⟨n', i', m'⟩ h', one _ ⟨n', i', m'⟩ (by rw [base_withBase]; exact (hc' _ _).2 h'), one _ ⟨n, i, m⟩ (by rw [base_withBase]; exact (hc _ _).2 h)]
        simp only [base_withBase, withBase_withBase]
        rw [hw, hw', putKey_comm _ _ _ _ _ ht]
      · rw [one' x ⟨n', i', m'⟩ h', one' _ ⟨n', i', m'⟩ (by rw [base_withBase]; exact fun hh => h' ((hc' _ _).1 hh)), one (x.1, x.2 + 1) ⟨n, i, m⟩ h]
    · rw [one' x ⟨n, i, m⟩ h]
      by_cases h' : Compatible marshal x.1.base m'
      · rw [one x ⟨n', i', m'⟩ h', one (x.1, x.2 + 1) ⟨n', i', m'⟩ h', one' _ ⟨n, i, m⟩ (by rw [base_withBase]; exact fun hh => h ((hc _ _).1 hh))]
      · rw [one' x ⟨n', i', m'⟩ h', one' (x.1, x.2 + 1) ⟨n', i', m'⟩ h', one' (x.1, x.2 + 1) ⟨n, i, m⟩ h]

theorem applyItem_comm {marshal : AnyVal → Option Raw} {m m' : Mark} (hp : m.priority = m'.priority) (hs : Separate m m') (x : Schema × Nat) (n n' : String) (i i' : Nat) :
    applyItem marshal (applyItem marshal x ⟨n, i, m⟩) ⟨n', i', m'⟩ = applyItem marshal (applyItem marshal x ⟨n', i', m'⟩) ⟨n, i, m⟩ := by
  obtain ⟨s, e⟩ := x
  cases s with
  | mk b it al oo an nt pr ad pa de ai df =>
    rcases it with _ | ⟨_ | c, l⟩
    · rfl
    · rfl
    · by_cases ht : b.type = "array"
      · have := apply_comm (marshal := marshal) hp hs (c, e) n n' i i'
        simp only [applyItem, ht, ne_eq, not_true, if_false]
        rw [this]
      · simp only [applyItem, ne_eq, ht, not_false_iff, if_true]

end Verif.Crd

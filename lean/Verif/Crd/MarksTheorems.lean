import Verif.Crd.MarksOrder

/-! # C24, C25, C53: schema markers -/
namespace Verif.Crd
open Spec

/-- C24.  A marker that does not fit the schema is an error and leaves the schema as it is. -/
theorem C24_rejected (marshal : AnyVal → Option Raw) (s : Schema) (n : Nat) (m : Named) (h : ¬ Compatible marshal s.base m.mark) : applyOne marshal (s, n) m = (s, n + 1) := by
  unfold applyOne
  rw [apply_none _ _ _ h]

/-- C24.  A marker that fits the schema is no error; it sets its keyword and nothing else. -/
theorem C24_applied (marshal : AnyVal → Option Raw) (s : Schema) (n : Nat) (m : Named) (h : Compatible marshal s.base m.mark) :
    ∃ s', applyOne marshal (s, n) m = (s', n) ∧ (target m.mark).get s'.base = written marshal s.base m.mark ∧ (∀ k, k ≠ target m.mark → k.get s'.base = k.get s.base) ∧ SameParts s s' := by
  refine ⟨s.withBase (putKey s.base (target m.mark) (written marshal s.base m.mark)), ?_, ?_, ?_, same_withBase ..⟩
  · unfold applyOne
    rw [apply_some _ _ _ h]
  · rw [base_withBase, get_putKey]
  · intro k hk
    rw [base_withBase, get_putKey_ne _ _ _ _ hk]

theorem valid_withBase {M : Meaning} {s : Schema} {b : Base} {j : Json} {P : Prop} (h : BaseOk M b j ↔ BaseOk M s.base j ∧ P) : Valid M (s.withBase b) j ↔ Valid M s j ∧ P := by
  cases s with
  | mk b0 it al oo an nt pr ad pa de ai df =>
    simp only [Schema.withBase, Valid]
    rw [h]
    simp only [Schema.base]
    constructor
    · rintro ⟨⟨h1, h2⟩, h3⟩; exact ⟨⟨h1, h3⟩, h2⟩
    · rintro ⟨⟨h1, h3⟩, h2⟩; exact ⟨⟨h1, h2⟩, h3⟩

theorem enum_constraint {M : Meaning} {marshal : AnyVal → Option Raw} {j : Json} {vs : List AnyVal} (h : ∀ v ∈ vs, (marshal v).isSome) :
    (vs.filterMap marshal ≠ [] → ∃ r ∈ vs.filterMap marshal, M.value r = j) ↔ (vs ≠ [] → ∃ v ∈ vs, ∃ r, marshal v = some r ∧ M.value r = j) := by
  have h1 : vs.filterMap marshal ≠ [] ↔ vs ≠ [] := by
    cases vs with
    | nil => simp
    | cons v vs =>
      have := h v (List.mem_cons_self ..)
      rw [Option.isSome_iff_exists] at this
      obtain ⟨r, hr⟩ := this
      simp [hr]
  rw [h1]
  simp only [List.mem_filterMap]
  constructor
  · intro hh hne
    obtain ⟨r, ⟨v, hv, e⟩, hj⟩ := hh hne
    exact ⟨v, hv, r, e, hj⟩
  · intro hh hne
    obtain ⟨v, hv, r, e, hj⟩ := hh hne
    exact ⟨r, ⟨v, hv, e⟩, hj⟩

/-- C24.  What a marker means: the schema afterwards accepts the values it accepted before that satisfy the constraint of the marker. -/
theorem C24_meaning (M : Meaning) (marshal : AnyVal → Option Raw) (s : Schema) (n : Nat) (m : Named) (h : Compatible marshal s.base m.mark) (hu : Unused s.base m.mark) :
    ∃ s', applyOne marshal (s, n) m = (s', n) ∧ ∀ j, Valid M s' j ↔ Valid M s j ∧ Constraint M marshal j m.mark := by
  refine ⟨s.withBase (putKey s.base (target m.mark) (written marshal s.base m.mark)), ?_, fun j => valid_withBase ?_⟩
  · unfold applyOne
    rw [apply_some _ _ _ h]
  · obtain ⟨nm, ix, m⟩ := m
    simp only at h hu ⊢
    generalize s.base = b at *
    cases m <;> simp only [Unused] at hu <;> simp only [Constraint, target, written, putKey]
    case maximum v =>
      exact ⟨fun h => ⟨{ h with maximum := by intro q m _ hm; rw [hu.1] at hm; cases hm }, fun q hq => by have := h.maximum q v hq rfl; simpa [hu.2] using this⟩,
        fun ⟨h, c⟩ => { h with maximum := by intro q m hq hm; cases hm; simp only [hu.2]; exact c q hq }⟩
    case minimum v =>
      exact ⟨fun h => ⟨{ h with minimum := by intro q m _ hm; rw [hu.1] at hm; cases hm }, fun q hq => by have := h.minimum q v hq rfl; simpa [hu.2] using this⟩,
        fun ⟨h, c⟩ => { h with minimum := by intro q m hq hm; cases hm; simp only [hu.2]; exact c q hq }⟩
    case multipleOf v =>
      exact ⟨fun h => ⟨{ h with multipleOf := by intro q m _ hm; rw [hu] at hm; cases hm }, fun q hq => h.multipleOf q v hq rfl⟩,
        fun ⟨h, c⟩ => { h with multipleOf := by intro q m hq hm; cases hm; exact c q hq }⟩
    case minProperties v =>
      exact ⟨fun h => ⟨{ h with minProperties := by intro q m _ hm; rw [hu] at hm; cases hm }, fun q hq => h.minProperties q v hq rfl⟩,
        fun ⟨h, c⟩ => { h with minProperties := by intro q m hq hm; cases hm; exact c q hq }⟩
    case maxProperties v =>
      exact ⟨fun h => ⟨{ h with maxProperties := by intro q m _ hm; rw [hu] at hm; cases hm }, fun q hq => h.maxProperties q v hq rfl⟩,
        fun ⟨h, c⟩ => { h with maxProperties := by intro q m hq hm; cases hm; exact c q hq }⟩
    case maxLength v =>
      exact ⟨fun h => ⟨{ h with maxLength := by intro q m _ hm; rw [hu] at hm; cases hm }, fun q hq => h.maxLength q v hq rfl⟩,
        fun ⟨h, c⟩ => { h with maxLength := by intro q m hq hm; cases hm; exact c q hq }⟩
    case minLength v =>
      exact ⟨fun h => ⟨{ h with minLength := by intro q m _ hm; rw [hu] at hm; cases hm }, fun q hq => h.minLength q v hq rfl⟩,
        fun ⟨h, c⟩ => { h with minLength := by intro q m hq hm; cases hm; exact c q hq }⟩
    case pattern v =>
      exact ⟨fun h => ⟨{ h with pattern := by intro q _ hm; exact absurd hu hm }, fun q hq => h.pattern q hq⟩,
        fun ⟨h, c⟩ => { h with pattern := fun q hq => c q hq }⟩
    case maxItems v =>
      exact ⟨fun h => ⟨{ h with maxItems := by intro q m _ hm; rw [hu] at hm; cases hm }, fun q hq => h.maxItems q v hq rfl⟩,
        fun ⟨h, c⟩ => { h with maxItems := by intro q m hq hm; cases hm; exact c q hq }⟩
    case minItems v =>
      exact ⟨fun h => ⟨{ h with minItems := by intro q m _ hm; rw [hu] at hm; cases hm }, fun q hq => h.minItems q v hq rfl⟩,
        fun ⟨h, c⟩ => { h with minItems := by intro q m hq hm; cases hm; exact c q hq }⟩
    case uniqueItems v =>
      exact ⟨fun h => ⟨{ h with uniqueItems := by intro q _ hm; rw [hu] at hm; cases hm }, fun q hq => h.uniqueItems q hq⟩,
        fun ⟨h, c⟩ => { h with uniqueItems := fun q hq => c q hq }⟩
    case enum vs =>
      rw [← enum_constraint h]
      exact ⟨fun h => ⟨{ h with enum := fun hm => absurd hu hm }, h.enum⟩, fun ⟨h, c⟩ => { h with enum := c }⟩
    case format v =>
      exact ⟨fun h => ⟨{ h with format := fun hm => absurd hu hm }, h.format⟩, fun ⟨h, c⟩ => { h with format := c }⟩
    case type v =>
      refine ⟨fun h => ⟨{ h with type := .inl (by rw [hu.1]; simp [HasType]) }, ?_⟩, fun ⟨h, c⟩ => { h with type := .inl c }⟩
      rcases h.type with ht | ht
      · exact ht
      · have := ht.1; simp only [hu.2] at this; cases this
    case intOrString =>
      by_cases hi : b.xIntOrString = true
      · exact ⟨fun h => ⟨{ h with intOrString := fun _ => h.intOrString rfl }, h.intOrString rfl⟩, fun ⟨h, c⟩ => { h with intOrString := fun _ => c }⟩
      · exact ⟨fun h => ⟨{ h with intOrString := fun hm => absurd hm hi }, h.intOrString rfl⟩, fun ⟨h, c⟩ => { h with intOrString := fun _ => c }⟩
    case validation r m me re f o =>
      refine ⟨fun h => ⟨{ h with rules := fun r hr => h.rules r (List.mem_append_left _ hr) }, h.rules _ (List.mem_append_right _ (List.mem_singleton_self _))⟩,
        fun ⟨h, c⟩ => { h with rules := ?_ }⟩
      intro r hr
      rcases List.mem_append.1 hr with hr | hr
      · exact h.rules r hr
      · rw [List.mem_singleton] at hr; rw [hr]; exact c
    all_goals exact ⟨fun h => ⟨{ h with }, trivial⟩, fun ⟨h, _⟩ => { h with }⟩

/-! ## C25: the order -/

theorem separate_of_names {m m' : Mark} {n n' : String} (hn : n ∈ names m) (hn' : n' ∈ names m') (hne : n ≠ n') (hi : isItemsName n = isItemsName n')
    (hp : m.priority = m'.priority) (h1 : ∀ x y, ¬ (m = .type x ∧ m' = .listType y)) (h1' : ∀ x y, ¬ (m' = .type x ∧ m = .listType y))
    (h2 : ∀ x y, ¬ (m = .mapType x ∧ m' = .structType y)) (h2' : ∀ x y, ¬ (m' = .mapType x ∧ m = .structType y)) : Separate m m' := by
  by_cases ht : target m = target m'
  · cases m <;> cases m' <;> simp only [target, reduceCtorEq] at ht
    case mapType.structType x y => exact absurd ⟨rfl, rfl⟩ (h2 x y)
    case structType.mapType x y => exact absurd ⟨rfl, rfl⟩ (h2' y x)
    case default.kubernetesDefault => simp [Mark.priority] at hp
    case kubernetesDefault.default => simp [Mark.priority] at hp
    case preserveUnknownFields.preserveUnknownFields => exact .inl rfl
    case embeddedResource.embeddedResource => exact .inl rfl
    case nullable.nullable => exact .inl rfl
    case intOrString.intOrString => exact .inl rfl
    all_goals
      exfalso
      simp only [names, names.both, List.mem_cons, List.not_mem_nil, or_false] at hn hn'
      first
      | exact hne (hn.trans hn'.symm)
      | rcases hn with rfl | rfl <;> rcases hn' with rfl | rfl <;> first | exact hne rfl | exact absurd hi (by decide +kernel)
  · right
    refine ⟨ht, ?_, ?_⟩
    · by_cases h : ∃ x, m = .listType x
      · obtain ⟨x, rfl⟩ := h
        exact .inr fun y hy => h1' y x ⟨hy, rfl⟩
      · exact .inl fun x hx => h ⟨x, hx⟩
    · by_cases h : ∃ x, m' = .listType x
      · obtain ⟨x, rfl⟩ := h
        exact .inr fun y hy => h1 y x ⟨hy, rfl⟩
      · exact .inl fun x hx => h ⟨x, hx⟩

/-- The markers of a set that do not depend on the order: each is registered under its name; there are at most twelve, or none that is applied before others, or no name has two values; the type of the schema is not set together with the list
type, and the map type not together with the struct type. -/
structure Orderly (set : List (String × List (Option Mark))) : Prop where
  keys : (set.map (·.1)).Nodup
  registered : ∀ n m, Has set n m → n ∈ names m
  few : Steady set ∨ ∀ n m m', Has set n m → Has set n m' → m = m'
  list : ∀ x y, ¬ (Has set "kubebuilder:validation:Type" (.type x) ∧ Has set "listType" (.listType y))
  map : ∀ x y, ¬ (Has set "mapType" (.mapType x) ∧ Has set "structType" (.structType y))

theorem separate_of_orderly {set : List (String × List (Option Mark))} (h : Orderly set) {n n' : String} {m m' : Mark} (hm : Has set n m) (hm' : Has set n' m') (hne : n ≠ n')
    (hi : isItemsName n = isItemsName n') (hp : m.priority = m'.priority) : Separate m m' := by
  have hn := h.registered _ _ hm
  have hn' := h.registered _ _ hm'
  have key : ∀ {n n' : String} {m m' : Mark}, Has set n m → Has set n' m' → n ∈ names m → n' ∈ names m' → isItemsName n = isItemsName n' →
      (∀ x y, ¬ (m = .type x ∧ m' = .listType y)) ∧ (∀ x y, ¬ (m = .mapType x ∧ m' = .structType y)) := by
    intro n n' m m' hm hm' hn hn' hi
    constructor
    · rintro x y ⟨rfl, rfl⟩
      simp only [names, names.both, List.mem_cons, List.not_mem_nil, or_false] at hn hn'
      subst hn'
      rcases hn with rfl | rfl
      · exact h.list x y ⟨hm, hm'⟩
      · exact absurd hi (by decide +kernel)
    · rintro x y ⟨rfl, rfl⟩
      simp only [names, List.mem_cons, List.not_mem_nil, or_false] at hn hn'
      subst hn hn'
      exact h.map x y ⟨hm, hm'⟩
  have k := key hm hm' hn hn' hi
  have k' := key hm' hm hn' hn hi.symm
  exact separate_of_names hn hn' hne hi hp k.1 k'.1 k.2 k'.2

/-- Sorted by priority and, for few markers or markers of one priority, values of the same name in order. -/
def Sorted (set : List (String × List (Option Mark))) (l : List Named) : Prop :=
  l.Pairwise (fun a b => a.mark.priority ≤ b.mark.priority) ∧ (Steady set → l.Pairwise Before)

theorem priority_late {m : Mark} (h : ¬ Early m) : m.priority = 10 := by
  cases m <;> first | rfl | exact absurd trivial h

/-- Few markers, or markers of one priority, are sorted stably. -/
theorem sliceSort_steady {set : List (String × List (Option Mark))} (σ : Sched) (t : Nat) {l : List Named} (hl : l.length ≤ count set) (hm : ∀ a ∈ l, ∃ n, Has set n a.mark) (h : Steady set) :
    sliceSort σ t l = sortBy prioLe l := by
  unfold sliceSort
  refine if_pos (h.imp (Nat.le_trans hl) fun h => ?_)
  refine List.Pairwise.imp_of_mem (R := fun _ _ => True) (fun {a b} ha hb _ => ?_) (List.pairwise_of_forall fun _ _ => trivial)
  obtain ⟨n, ha⟩ := hm a ha
  obtain ⟨n', hb⟩ := hm b hb
  simp only [prioLe, priority_late (h _ _ ha), priority_late (h _ _ hb), Nat.le_refl, decide_true]

theorem sorted_sliceSort {set : List (String × List (Option Mark))} (σ : Sched) (t : Nat) {l : List Named} (h : l.Pairwise Collected) (hl : l.length ≤ count set) (hm : ∀ a ∈ l, ∃ n, Has set n a.mark) : Sorted set (sliceSort σ t l) := by
  refine ⟨sliceSort_prio .., fun hc => ?_⟩
  rw [sliceSort_steady σ t hl hm hc]
  exact sortBy_before h

/-- Sorted markers are applied with the same effect, whatever their order. -/
theorem fold_sorted {set : List (String × List (Option Mark))} (h : Orderly set) (f : Schema × Nat → Named → Schema × Nat)
    (hf : ∀ (m m' : Named), m.mark.priority = m'.mark.priority → Separate m.mark m'.mark → ∀ x, f (f x m) m' = f (f x m') m)
    {l l' : List Named} (hperm : l.Perm l') (hl : Sorted set l) (hl' : Sorted set l') (hmem : ∀ a ∈ l, Has set a.name a.mark)
    (hp : ∀ a ∈ l, ∀ b ∈ l, isItemsName a.name = isItemsName b.name) (x : Schema × Nat) : l.foldl f x = l'.foldl f x := by
  rcases h.few with hc | hc
  · refine foldl_eq f Before hperm (hl.2 hc) (hl'.2 hc) ?_ x
    intro a ha b hb' hab hba x
    have hpr : a.mark.priority = b.mark.priority := Nat.le_antisymm hab.1 hba.1
    have hne : a.name ≠ b.name := fun e => by have := hab.2 hpr e; have := hba.2 hpr.symm e.symm; omega
    exact hf a b hpr (separate_of_orderly h (hmem a ha) (hmem b hb') hne (hp a ha b hb') hpr) x
  · refine foldl_eq f _ hperm hl.1 hl'.1 ?_ x
    intro a ha b hb' hab hba x
    have hpr : a.mark.priority = b.mark.priority := Nat.le_antisymm hab hba
    refine hf a b hpr ?_ x
    by_cases hne : a.name = b.name
    · exact .inl (hc a.name _ _ (hmem a ha) (by rw [hne]; exact hmem b hb'))
    · exact separate_of_orderly h (hmem a ha) (hmem b hb') hne (hp a ha b hb') hpr

theorem filter_collected {set : List (String × List (Option Mark))} (h : GoMap.WF set) (σ : Sched) (t : Nat) (p : Named → Bool) :
    ((collectMarks σ t set).filter p).Pairwise Collected ∧ ((collectMarks σ t set).filter p).length ≤ count set ∧ ∀ a ∈ (collectMarks σ t set).filter p, Has set a.name a.mark :=
  ⟨(collect_pairwise h).sublist List.filter_sublist, Nat.le_trans (List.length_filter_le ..) (by rw [collect_length]; exact Nat.le_refl _), fun _ ha => has_of_mem (List.mem_filter.1 ha).1⟩

theorem fold_orderly {set : List (String × List (Option Mark))} (h : Orderly set) (f : Schema × Nat → Named → Schema × Nat)
    (hf : ∀ (m m' : Named), m.mark.priority = m'.mark.priority → Separate m.mark m'.mark → ∀ x, f (f x m) m' = f (f x m') m)
    (σ σ' : Sched) (t u t' u' : Nat) (p : Named → Bool) (hp : ∀ a b, p a = true → p b = true → isItemsName a.name = isItemsName b.name) (x : Schema × Nat) :
    (sliceSort σ u ((collectMarks σ t set).filter p)).foldl f x = (sliceSort σ' u' ((collectMarks σ' t' set).filter p)).foldl f x := by
  have hmem : ∀ a ∈ sliceSort σ u ((collectMarks σ t set).filter p), Has set a.name a.mark ∧ p a = true := by
    intro a ha
    have := (sliceSort_perm ..).mem_iff.1 ha
    rw [List.mem_filter] at this
    exact ⟨has_of_mem this.1, this.2⟩
  have hc := filter_collected h.keys
  exact fold_sorted h f hf ((sliceSort_perm ..).trans (((collect_perm σ σ' t t' set).filter p).trans (sliceSort_perm ..).symm))
    (sorted_sliceSort σ u (hc ..).1 (hc ..).2.1 fun a ha => ⟨_, (hc ..).2.2 a ha⟩) (sorted_sliceSort σ' u' (hc ..).1 (hc ..).2.1 fun a ha => ⟨_, (hc ..).2.2 a ha⟩) (fun a ha => (hmem a ha).1)
    (fun a ha b hb => hp a b (hmem a ha).2 (hmem b hb).2) x

/-- C25 (partial).  The schema (and the number of errors) is the same for every order in which the map of markers is iterated.  Missing: sets with the type and the list type or with the map type and the
struct type, where it is false (`C25_violated_listType`, `C25_violated_mapType`), and sets of more than twelve markers of different priority with a repeated one, where `sort.Slice` keeps no order (`C53_violated`). -/
theorem C25_deterministic_partial (marshal : AnyVal → Option Raw) (set : List (String × List (Option Mark))) (h : Orderly set) (σ σ' : Sched) (s : Schema) :
    applyMarkers marshal σ set s = applyMarkers marshal σ' set s := by
  unfold applyMarkers
  simp only
  rw [fold_orderly h (applyOne marshal) (fun m m' hp hs x => apply_comm hp hs x m.name m'.name m.idx m'.idx) σ σ' 0 1 0 1 _ (by simp; intro a b ha hb; rw [ha, hb]),
    fold_orderly h (applyItem marshal) (fun m m' hp hs x => applyItem_comm hp hs x m.name m'.name m.idx m'.idx) σ σ' 0 2 0 2 _ (by intro a b ha hb; rw [ha, hb])]

/-- The markers that are not for items. -/
def plainMarks (σ : Sched) (set : List (String × List (Option Mark))) : List Named := sliceSort σ 1 ((collectMarks σ 0 set).filter fun m => !isItemsName m.name)

theorem mem_plain {σ : Sched} {set : List (String × List (Option Mark))} {a : Named} (h : a ∈ plainMarks σ set) : Has set a.name a.mark ∧ isItemsName a.name = false := by
  have := (sliceSort_perm ..).mem_iff.1 h
  rw [List.mem_filter] at this
  exact ⟨has_of_mem this.1, by simpa using this.2⟩

theorem plain_of_has {σ : Sched} {set : List (String × List (Option Mark))} {n : String} {m : Mark} (h : Has set n m) (hn : isItemsName n = false) :
    ∃ a ∈ plainMarks σ set, a.name = n ∧ a.mark = m := by
  obtain ⟨a, ha, e, e'⟩ := mem_of_has (σ := σ) (t := 0) h
  exact ⟨a, (sliceSort_perm ..).mem_iff.2 (List.mem_filter.2 ⟨ha, by rw [e, hn]; rfl⟩), e, e'⟩

theorem applyItem_base (marshal : AnyVal → Option Raw) (l : List Named) : ∀ x : Schema × Nat, (l.foldl (applyItem marshal) x).1.base = x.1.base := by
  induction l with
  | nil => intro x; rfl
  | cons m l ih =>
    intro x
    rw [List.foldl_cons, ih]
    obtain ⟨s, e⟩ := x
    cases s with
    | mk b it al oo an nt pr ad pa de ai df =>
      rcases it with _ | ⟨_ | c, l⟩
      · rfl
      · rfl
      · simp only [applyItem]
        split <;> rfl

theorem applyMarkers_base (marshal : AnyVal → Option Raw) (σ : Sched) (set : List (String × List (Option Mark))) (s : Schema) :
    (applyMarkers marshal σ set s).1.base = ((plainMarks σ set).foldl (applyOne marshal) (s, 0)).1.base := applyItem_base ..

theorem applyMarkers_plain (marshal : AnyVal → Option Raw) (σ : Sched) (set : List (String × List (Option Mark))) (s : Schema) (h : ∀ n m, Has set n m → isItemsName n = false) :
    applyMarkers marshal σ set s = (plainMarks σ set).foldl (applyOne marshal) (s, 0) := by
  unfold applyMarkers
  simp only
  have : (collectMarks σ 0 set).filter (fun m => isItemsName m.name) = [] := by
    rw [List.filter_eq_nil_iff]
    intro a ha
    rw [h _ _ (has_of_mem ha)]; simp
  rw [this]
  unfold sliceSort
  simp [sortBy, plainMarks, sliceSort]

theorem applyOne_base (marshal : AnyVal → Option Raw) (x : Schema × Nat) (m : Named) (k : Keyword) (hk : k ≠ target m.mark) : k.get (applyOne marshal x m).1.base = k.get x.1.base := by
  by_cases h : Compatible marshal x.1.base m.mark
  · obtain ⟨s', e, -, h2, -⟩ := C24_applied marshal x.1 x.2 m h
    rw [show x = (x.1, x.2) from rfl, e]; exact h2 k hk
  · rw [show x = (x.1, x.2) from rfl, C24_rejected marshal x.1 x.2 m h]

theorem type_fold (marshal : AnyVal → Option Raw) (t : String) : ∀ (l : List Named) (x : Schema × Nat), l.Pairwise (fun a b => a.mark.priority ≤ b.mark.priority) →
    (∀ m ∈ l, m.mark = .type t ∨ ((∀ y, m.mark ≠ .listType y) ∧ (∀ y, m.mark ≠ .type y) ∧ ∀ b : Base, b.type = t → Compatible marshal b m.mark)) →
    (x.1.base.type = t ∨ ∃ m ∈ l, m.mark = .type t) → (l.foldl (applyOne marshal) x).1.base.type = t ∧ (l.foldl (applyOne marshal) x).2 = x.2 := by
  intro l
  induction l with
  | nil =>
    intro x _ _ h
    exact ⟨h.resolve_right nofun, rfl⟩
  | cons m l ih =>
    intro x hp hm hx
    rw [List.pairwise_cons] at hp
    rw [List.foldl_cons]
    have hcomp : Compatible marshal x.1.base m.mark := by
      rcases hm m (List.mem_cons_self ..) with e | ⟨h1, h2⟩
      · rw [e]; trivial
      · rcases hx with hx | ⟨m', hm', e'⟩
        · exact h2.2 _ hx
        · rcases List.mem_cons.1 hm' with rfl | hm'
          · rw [e']; trivial
          · have hpr := hp.1 m' hm'
            rw [e'] at hpr
            have hc := h2.2 { x.1.base with type := t } rfl
            cases hmk : m.mark <;> rw [hmk] at hpr hc <;> simp [Mark.priority] at hpr <;> first | trivial | exact hc | skip
            exact absurd hmk (h1 _)
    obtain ⟨s', e, h1, h2, -⟩ := C24_applied marshal x.1 x.2 m hcomp
    have hx' : applyOne marshal x m = (s', x.2) := e
    rw [hx']
    have := ih (s', x.2) hp.2 (fun m' hm' => hm m' (List.mem_cons_of_mem _ hm')) ?_
    · exact this
    · by_cases htype : target m.mark = .type
      · obtain ⟨y, hy⟩ := type_target htype
        rcases hm m (List.mem_cons_self ..) with e | ⟨-, h2'⟩
        · left
          obtain ⟨nm, ix, mk⟩ := m
          simp only at e; subst e
          exact h1
        · exact absurd hy (h2'.1 y)
      · rcases hx with hx | ⟨m', hm', e'⟩
        · left
          exact (h2 .type (Ne.symm htype)).trans hx
        · rcases List.mem_cons.1 hm' with rfl | hm'
          · rw [e'] at htype; exact absurd rfl htype
          · exact .inr ⟨m', hm', e'⟩

/-- C25.  The type is set before the markers that depend on it, whatever the order: if a set contains the type marker with the type `t` (and no other type), and all other markers fit schemas of
the type `t`, then there is no error, and the schema gets this type.  (List types are excepted: `C25_violated_listType`.) -/
theorem C25_type_first (marshal : AnyVal → Option Raw) (σ : Sched) (set : List (String × List (Option Mark))) (s : Schema) (t : String) (n : String) (ht : Has set n (.type t))
    (hn : ∀ n m, Has set n m → isItemsName n = false)
    (h : ∀ n m, Has set n m → m = .type t ∨ ((∀ y, m ≠ .listType y) ∧ (∀ y, m ≠ .type y) ∧ ∀ b : Base, b.type = t → Compatible marshal b m)) :
    (applyMarkers marshal σ set s).1.base.type = t ∧ (applyMarkers marshal σ set s).2 = 0 := by
  rw [applyMarkers_plain _ _ _ _ hn]
  refine type_fold marshal t _ (s, 0) (sliceSort_prio ..) (fun m hm => h _ _ (mem_plain hm).1) (.inr ?_)
  obtain ⟨a, ha, -, e⟩ := plain_of_has (σ := σ) ht (hn _ _ ht)
  exact ⟨a, ha, e⟩

theorem fold_type (marshal : AnyVal → Option Raw) : ∀ (l : List Named) (x : Schema × Nat), (∀ m ∈ l, target m.mark ≠ .type) →
    (l.foldl (applyOne marshal) x).1.base.type = x.1.base.type := by
  intro l
  induction l with
  | nil => intro x _; rfl
  | cons m l ih =>
    intro x h
    rw [List.foldl_cons, ih _ (fun m' hm' => h m' (List.mem_cons_of_mem _ hm'))]
    exact applyOne_base marshal x m .type (Ne.symm (h m (List.mem_cons_self ..)))

theorem default_fold (marshal : AnyVal → Option Raw) (v : AnyVal) (r : Raw) (hr : marshal v = some r) : ∀ (l : List Named) (x : Schema × Nat),
    l.Pairwise (fun a b => a.mark.priority ≤ b.mark.priority) → (∀ m ∈ l, ∀ v', m.mark = .default v' → v' = v) →
    ((∃ m ∈ l, m.mark = .default v) ∨ (x.1.base.default = some (if x.1.base.type = "array" ∧ r = "{}" then "[]" else r) ∧ ∀ m ∈ l, m.mark.priority = 10)) →
    (l.foldl (applyOne marshal) x).1.base.default = some (if (l.foldl (applyOne marshal) x).1.base.type = "array" ∧ r = "{}" then "[]" else r) := by
  intro l
  induction l with
  | nil =>
    intro x _ _ h
    exact (h.resolve_left nofun).1
  | cons m l ih =>
    intro x hp hu h
    rw [List.pairwise_cons] at hp
    rw [List.foldl_cons]
    apply ih _ hp.2 (fun m' hm' => hu m' (List.mem_cons_of_mem _ hm'))
    by_cases hm : m.mark = .default v
    · right
      have hc : Compatible marshal x.1.base m.mark := by rw [hm]; show (marshal v).isSome = true; rw [hr]; rfl
      obtain ⟨s', e, h1, h2, -⟩ := C24_applied marshal x.1 x.2 m hc
      have e' : applyOne marshal x m = (s', x.2) := e
      rw [e']
      constructor
      · obtain ⟨nm, ix, mk⟩ := m
        simp only at hm; subst hm
        have ht : s'.base.type = x.1.base.type := h2 .type (by simp [target])
        have h1' : s'.base.default = if x.1.base.type = "array" ∧ marshal v = some "{}" then some "[]" else marshal v := h1
        show s'.base.default = _
        rw [h1', ht, hr]
        by_cases hh : x.1.base.type = "array" ∧ r = "{}"
        · rw [if_pos hh, if_pos (by simpa using hh)]
        · rw [if_neg hh, if_neg (by simpa using hh)]
      · intro m' hm'
        have := hp.1 m' hm'
        rw [hm] at this
        rcases prio_of (m := m'.mark) with h9 | h10
        · have hd : (Mark.default v).priority = 10 := rfl
          omega
        · exact h10.1
    · rcases h with ⟨m', hm', e'⟩ | ⟨h1, h2⟩
      · rcases List.mem_cons.1 hm' with rfl | hm'
        · exact absurd e' hm
        · exact .inl ⟨m', hm', e'⟩
      · right
        have h10 := h2 m (List.mem_cons_self ..)
        have htype : (applyOne marshal x m).1.base.type = x.1.base.type := by
          apply applyOne_base marshal x m .type
          rcases prio_of (m := m.mark) with h9 | h
          · omega
          · exact Ne.symm h.2.2.1
        have hdef : (applyOne marshal x m).1.base.default = x.1.base.default := by
          apply applyOne_base marshal x m .default
          intro ht
          cases hmk : m.mark <;> rw [hmk] at ht h10 <;> simp [target, Mark.priority] at ht h10
          exact hm (by rw [hmk, hu m (List.mem_cons_self ..) _ hmk])
        rw [htype, hdef]
        exact ⟨h1, fun m' hm' => h2 m' (List.mem_cons_of_mem _ hm')⟩

/-- C25.  If both kinds of default are given, `+kubebuilder:default` wins over `+default`, whatever the order. -/
theorem C25_default_wins (marshal : AnyVal → Option Raw) (σ : Sched) (set : List (String × List (Option Mark))) (s : Schema) (n : String) (hn : isItemsName n = false) (v : AnyVal) (r : Raw)
    (hv : Has set n (.default v)) (hu : ∀ n' v', Has set n' (.default v') → v' = v) (hr : marshal v = some r) :
    (applyMarkers marshal σ set s).1.base.default = some (if (applyMarkers marshal σ set s).1.base.type = "array" ∧ r = "{}" then "[]" else r) := by
  rw [applyMarkers_base]
  refine default_fold marshal v r hr _ (s, 0) (sliceSort_prio ..) (fun m hm v' e => hu m.name v' (by rw [← e]; exact (mem_plain hm).1)) (.inl ?_)
  obtain ⟨a, ha, -, e⟩ := plain_of_has (σ := σ) hv hn
  exact ⟨a, ha, e⟩

/-! ## C25: markers for items -/

/-- Markers for items change nothing but the plain keywords of the item schema. -/
theorem applyItem_frame (marshal : AnyVal → Option Raw) (l : List Named) : ∀ (b : Base) (it : Option Items) (al oo an : List Schema) (nt : Option Schema) (pr : List (String × Schema))
    (ad : Option OrBool) (pa : List (String × Schema)) (de : List (String × OrArray)) (ai : Option OrBool) (df : List (String × Schema)) (n : Nat),
    l.foldl (applyItem marshal) (.mk b it al oo an nt pr ad pa de ai df, n) =
      match it with
      | some (.mk (some c) cs) =>
        if b.type = "array" then (.mk b (some (.mk (some (l.foldl (applyOne marshal) (c, n)).1) cs)) al oo an nt pr ad pa de ai df, (l.foldl (applyOne marshal) (c, n)).2)
        else (.mk b it al oo an nt pr ad pa de ai df, n + l.length)
      | _ => (.mk b it al oo an nt pr ad pa de ai df, n + l.length) := by
  induction l with
  | nil =>
    intro b it al oo an nt pr ad pa de ai df n
    rcases it with _ | ⟨_ | c, cs⟩
    · rfl
    · rfl
    · simp only [List.foldl_nil, List.length_nil]
      split <;> rfl
  | cons m l ih =>
    intro b it al oo an nt pr ad pa de ai df n
    rw [List.foldl_cons]
    rcases it with _ | ⟨_ | c, cs⟩
    · simp only [applyItem, ih, List.length_cons]; congr 1; omega
    · simp only [applyItem, ih, List.length_cons]; congr 1; omega
    · by_cases h : b.type = "array"
      · simp only [applyItem, h, ne_eq, not_true, if_false, ih, if_true, List.foldl_cons]
      · simp only [applyItem, ne_eq, h, not_false_iff, if_true, ih, if_false, List.length_cons]; congr 1; omega

/-- `kubebuilder:validation:items:X` without the `items:`. -/
def stripItems (n : String) : String := String.ofList ("kubebuilder:validation:".toList ++ n.toList.drop "kubebuilder:validation:items:".toList.length)

/-- The markers of a set that are not for items. -/
def plainSet (set : List (String × List (Option Mark))) : List (String × List (Option Mark)) := set.filter fun e => !isItemsName e.1

/-- The markers of a set that are for items, as markers of the items. -/
def itemsSet (set : List (String × List (Option Mark))) : List (String × List (Option Mark)) := (set.filter fun e => isItemsName e.1).map fun e => (stripItems e.1, e.2)

theorem items_strip {n : String} (h : isItemsName n = true) : n = String.ofList ("kubebuilder:validation:items:".toList ++ n.toList.drop "kubebuilder:validation:items:".toList.length) := by
  unfold isItemsName at h
  rw [List.isPrefixOf_iff_prefix] at h
  obtain ⟨r, hr⟩ := h
  apply String.toList_inj.1
  rw [String.toList_ofList, ← hr, List.drop_left' (by rfl)]
  rfl

theorem strip_inj {n n' : String} (h : isItemsName n = true) (h' : isItemsName n' = true) (e : stripItems n = stripItems n') : n = n' := by
  rw [items_strip h, items_strip h']
  unfold stripItems at e
  have e := congrArg String.toList e
  simp only [String.toList_ofList] at e
  rw [List.append_cancel_left e]

theorem strip_plain {n : String} {m : Mark} (hn : n ∈ names m) (h : isItemsName n = true) : stripItems n ∈ names m ∧ isItemsName (stripItems n) = false ∧ (∀ y, m ≠ .listType y) ∧
    (∀ y, m ≠ .mapType y) := by
  cases m <;> simp only [names, names.both, List.mem_cons, List.mem_append, List.not_mem_nil, or_false, or_assoc] at hn ⊢
  case preserveUnknownFields => rcases hn with rfl | rfl | rfl <;> first | exact absurd h (by decide +kernel) | (refine ⟨by decide +kernel, by decide +kernel, nofun, nofun⟩)
  case embeddedResource => rcases hn with rfl | rfl | rfl <;> first | exact absurd h (by decide +kernel) | (refine ⟨by decide +kernel, by decide +kernel, nofun, nofun⟩)
  all_goals first
    | (subst hn; exact absurd h (by decide +kernel))
    | (rcases hn with rfl | rfl <;> first | exact absurd h (by decide +kernel) | (refine ⟨by decide +kernel, by decide +kernel, nofun, nofun⟩))

attribute [local irreducible] stripItems isItemsName

theorem has_plain {set : List (String × List (Option Mark))} {n : String} {m : Mark} : Has (plainSet set) n m ↔ Has set n m ∧ isItemsName n = false := by
  unfold Has plainSet
  simp only [List.mem_filter]
  constructor
  · rintro ⟨vs, ⟨h1, h2⟩, h3⟩; exact ⟨⟨vs, h1, h3⟩, by simpa using h2⟩
  · rintro ⟨⟨vs, h1, h3⟩, h2⟩; exact ⟨vs, ⟨h1, by simpa using h2⟩, h3⟩

theorem has_items {set : List (String × List (Option Mark))} {n : String} {m : Mark} : Has (itemsSet set) n m ↔ ∃ n', Has set n' m ∧ isItemsName n' = true ∧ n = stripItems n' := by
  unfold Has itemsSet
  simp only [List.mem_map, List.mem_filter]
  constructor
  · rintro ⟨vs, ⟨e, ⟨h1, h2⟩, h4⟩, h3⟩
    simp only [Prod.mk.injEq] at h4
    obtain ⟨rfl, rfl⟩ := h4
    exact ⟨e.1, ⟨e.2, h1, h3⟩, h2, rfl⟩
  · rintro ⟨n', ⟨vs, h1, h3⟩, h2, rfl⟩
    exact ⟨vs, ⟨(n', vs), ⟨h1, h2⟩, rfl⟩, h3⟩

theorem sum_filter_le (p : String × List (Option Mark) → Bool) (set : List (String × List (Option Mark))) : count (set.filter p) ≤ count set := by
  unfold count
  induction set with
  | nil => exact Nat.le_refl _
  | cons e set ih =>
    rw [List.filter_cons]
    by_cases h : p e = true
    · rw [if_pos h, List.map_cons, List.map_cons, List.sum_cons, List.sum_cons]; omega
    · rw [if_neg h, List.map_cons, List.sum_cons]; omega

theorem count_items (set : List (String × List (Option Mark))) : count (itemsSet set) ≤ count set := by
  have : count (itemsSet set) = count (set.filter fun e => isItemsName e.1) := by
    unfold count itemsSet
    rw [List.map_map]; rfl
  rw [this]
  exact sum_filter_le ..

theorem orderly_plain {set : List (String × List (Option Mark))} (h : Orderly set) : Orderly (plainSet set) where
  keys := h.keys.sublist (List.filter_sublist.map _)
  registered n m hm := h.registered n m (has_plain.1 hm).1
  few := h.few.imp (Or.imp (Nat.le_trans (sum_filter_le ..)) fun hf n m hm => hf n m (has_plain.1 hm).1) (fun hf n m m' h1 h2 => hf n m m' (has_plain.1 h1).1 (has_plain.1 h2).1)
  list x y hh := h.list x y ⟨(has_plain.1 hh.1).1, (has_plain.1 hh.2).1⟩
  map x y hh := h.map x y ⟨(has_plain.1 hh.1).1, (has_plain.1 hh.2).1⟩

theorem orderly_items {set : List (String × List (Option Mark))} (h : Orderly set) : Orderly (itemsSet set) where
  keys := by
    unfold itemsSet
    rw [List.map_map]
    refine List.Pairwise.map (R := fun a b => a.1 ≠ b.1 ∧ isItemsName a.1 = true ∧ isItemsName b.1 = true) _ (fun a b hab e => hab.1 (strip_inj (n := a.1) (n' := b.1) hab.2.1 hab.2.2 (by simpa using e))) ?_
    have h1 : (set.filter fun e => isItemsName e.1).Pairwise (fun a b => a.1 ≠ b.1) := by
      have := h.keys
      rw [List.Nodup, List.pairwise_map] at this
      exact this.sublist List.filter_sublist
    exact h1.imp_of_mem (fun ha hb hab => ⟨hab, (List.mem_filter.1 ha).2, (List.mem_filter.1 hb).2⟩)
  registered n m hm := by
    obtain ⟨n', h1, h2, rfl⟩ := has_items.1 hm
    exact (strip_plain (h.registered _ _ h1) h2).1
  few := h.few.imp (Or.imp (Nat.le_trans (count_items set)) fun hf n m hm => (has_items.1 hm).elim fun n' hn => hf n' m hn.1) (fun hf n m m' h1 h2 => by
    obtain ⟨n1, a1, a2, rfl⟩ := has_items.1 h1
    obtain ⟨n2, b1, b2, e⟩ := has_items.1 h2
    obtain rfl := strip_inj a2 b2 e
    exact hf n1 m m' a1 b1)
  list x y hh := by
    obtain ⟨n1, a1, a2, -⟩ := has_items.1 hh.2
    exact (strip_plain (h.registered _ _ a1) a2).2.2.1 y rfl
  map x y hh := by
    obtain ⟨n1, a1, a2, -⟩ := has_items.1 hh.1
    exact (strip_plain (h.registered _ _ a1) a2).2.2.2 x rfl

theorem items_plain {set : List (String × List (Option Mark))} (h : Orderly set) : ∀ n m, Has (itemsSet set) n m → isItemsName n = false := by
  intro n m hm
  obtain ⟨n', h1, h2, rfl⟩ := has_items.1 hm
  exact (strip_plain (h.registered _ _ h1) h2).2.1

theorem collect_filter_perm (σ σ' : Sched) (t t' : Nat) (set : List (String × List (Option Mark))) (p : String → Bool) :
    ((collectMarks σ t set).filter fun m => p m.name).Perm (collectMarks σ' t' (set.filter fun e => p e.1)) := by
  have h1 : ((collectMarks σ t set).filter fun m => p m.name).Perm ((set.flatMap fun e => namedMarks e.1 e.2).filter fun m => p m.name) :=
    ((σ.perm t set).flatMap_right _).filter _
  have h2 : (collectMarks σ' t' (set.filter fun e => p e.1)).Perm ((set.filter fun e => p e.1).flatMap fun e => namedMarks e.1 e.2) := (σ'.perm ..).flatMap_right _
  refine h1.trans (List.Perm.trans (.of_eq ?_) h2.symm)
  clear h1 h2
  induction set with
  | nil => rfl
  | cons e set ih =>
    rw [List.flatMap_cons, List.filter_append, List.filter_cons, ih]
    by_cases hp : p e.1 = true
    · rw [if_pos hp, List.flatMap_cons]
      congr 1
      rw [List.filter_eq_self]
      intro a ha; rw [name_namedMarks ha]; exact hp
    · rw [if_neg hp]
      have : (namedMarks e.1 e.2).filter (fun m => p m.name) = [] := by
        rw [List.filter_eq_nil_iff]
        intro a ha; rw [name_namedMarks ha]; exact hp
      rw [this, List.nil_append]

theorem named_strip (set : List (String × List (Option Mark))) (σ : Sched) (t : Nat) :
    (collectMarks σ t (itemsSet set)).Perm ((collectMarks σ t (set.filter fun e => isItemsName e.1)).map fun m => { m with name := stripItems m.name }) := by
  have h1 : (collectMarks σ t (itemsSet set)).Perm ((itemsSet set).flatMap fun e => namedMarks e.1 e.2) := (σ.perm ..).flatMap_right _
  have h2 : (collectMarks σ t (set.filter fun e => isItemsName e.1)).Perm ((set.filter fun e => isItemsName e.1).flatMap fun e => namedMarks e.1 e.2) := (σ.perm ..).flatMap_right _
  refine h1.trans (List.Perm.trans (.of_eq ?_) (h2.map _).symm)
  unfold itemsSet
  rw [List.flatMap_map, List.map_flatMap]
  refine congrArg (fun f => List.flatMap f _) (funext fun e => ?_)
  unfold namedMarks
  rw [List.map_filterMap]
  refine congrArg (fun f => List.filterMap f _) (funext fun x => ?_)
  rw [Option.map_map]; rfl

theorem foldl_rename (marshal : AnyVal → Option Raw) (g : Named → String) (l : List Named) : ∀ x, (l.map fun m => { m with name := g m }).foldl (applyOne marshal) x = l.foldl (applyOne marshal) x := by
  induction l with
  | nil => intro x; rfl
  | cons m l ih => intro x; rw [List.map_cons, List.foldl_cons, List.foldl_cons, ih]; rfl

/-- C25 (partial).  Markers for items are markers of the items: applying a set is applying its other markers to the schema and then, if that is an array with an item schema, the markers for items, without
the `items:` in their names, to the item schema; on a schema that is no array each of them is an error.  Missing: as for `C25_deterministic_partial`. -/
theorem C25_items_partial (marshal : AnyVal → Option Raw) (set : List (String × List (Option Mark))) (h : Orderly set) (σ σ₁ σ₂ : Sched) (s : Schema) :
    applyMarkers marshal σ set s =
      match applyMarkers marshal σ₁ (plainSet set) s with
      | (.mk b (some (.mk (some c) cs)) al oo an nt pr ad pa de ai df, n) =>
        if b.type = "array" then
          (.mk b (some (.mk (some (applyMarkers marshal σ₂ (itemsSet set) c).1) cs)) al oo an nt pr ad pa de ai df, n + (applyMarkers marshal σ₂ (itemsSet set) c).2)
        else (.mk b (some (.mk (some c) cs)) al oo an nt pr ad pa de ai df, n + count (itemsSet set))
      | (s', n) => (s', n + count (itemsSet set)) := by
  have hplain : applyMarkers marshal σ₁ (plainSet set) s = (plainMarks σ set).foldl (applyOne marshal) (s, 0) := by
    rw [applyMarkers_plain _ _ _ _ (fun n m hm => (has_plain.1 hm).2)]
    have hc := filter_collected (set := set) h.keys
    have hc' := filter_collected (set := plainSet set) (orderly_plain h).keys
    have hle : count (plainSet set) ≤ count set := sum_filter_le ..
    have hperm : (plainMarks σ₁ (plainSet set)).Perm (plainMarks σ set) := by
      unfold plainMarks
      refine (sliceSort_perm ..).trans (List.Perm.trans ?_ (sliceSort_perm ..).symm)
      refine List.Perm.trans (.of_eq ?_) (collect_filter_perm σ σ₁ 0 0 set (fun n => !isItemsName n)).symm
      rw [List.filter_eq_self.2]
      · rfl
      · intro a ha
        have := (has_plain.1 (has_of_mem ha)).2
        rw [this]; rfl
    refine fold_sorted h (applyOne marshal) (fun m m' hp hs x => apply_comm hp hs x m.name m'.name m.idx m'.idx) hperm
      (sorted_sliceSort σ₁ 1 (hc' ..).1 (Nat.le_trans (hc' ..).2.1 hle) fun a ha => ⟨_, (has_plain.1 ((hc' ..).2.2 a ha)).1⟩) (sorted_sliceSort σ 1 (hc ..).1 (hc ..).2.1 fun a ha => ⟨_, (hc ..).2.2 a ha⟩) ?_ ?_ _
    · intro a ha; exact (has_plain.1 (mem_plain ha).1).1
    · intro a ha b hb; rw [(mem_plain ha).2, (mem_plain hb).2]
  have hitems : ∀ c n, (sliceSort σ 2 ((collectMarks σ 0 set).filter fun m => isItemsName m.name)).foldl (applyOne marshal) (c, n) =
      ((applyMarkers marshal σ₂ (itemsSet set) c).1, n + (applyMarkers marshal σ₂ (itemsSet set) c).2) := by
    intro c n
    have shift : ∀ (l : List Named) (c : Schema) (k : Nat), l.foldl (applyOne marshal) (c, n + k) = ((l.foldl (applyOne marshal) (c, k)).1, n + (l.foldl (applyOne marshal) (c, k)).2) := by
      intro l
      induction l with
      | nil => intro c k; rfl
      | cons m l ih =>
        intro c k
        rw [List.foldl_cons, List.foldl_cons]
        unfold applyOne
        cases m.mark.apply marshal c.base with
        | none => simp only; rw [Nat.add_assoc]; exact ih c (k + 1)
        | some b => exact ih _ k
    rw [applyMarkers_plain _ _ _ _ (items_plain h), ← foldl_rename marshal (fun m => stripItems m.name)]
    have h0 := fun l => shift l c 0
    rw [Nat.add_zero] at h0
    rw [h0]
    have hc := filter_collected (set := set) h.keys
    have hc' := filter_collected (set := itemsSet set) (orderly_items h).keys
    have hisort := sorted_sliceSort (set := set) σ 2 (hc σ 0 fun m => isItemsName m.name).1 (hc ..).2.1 fun a ha => ⟨_, (hc ..).2.2 a ha⟩
    have hmem : ∀ a ∈ sliceSort σ 2 ((collectMarks σ 0 set).filter fun m => isItemsName m.name), isItemsName a.name = true ∧ Has set a.name a.mark := by
      intro a ha
      have := (sliceSort_perm ..).mem_iff.1 ha
      rw [List.mem_filter] at this
      exact ⟨this.2, has_of_mem this.1⟩
    have heq : ((collectMarks σ 0 set).filter fun m => isItemsName m.name).length ≤ count (itemsSet set) := by
      rw [(collect_filter_perm σ σ 0 0 set isItemsName).length_eq, ← List.length_map (f := fun m : Named => { m with name := stripItems m.name }), ← (named_strip set σ 0).length_eq, collect_length]
      exact Nat.le_refl _
    have hfold := fold_sorted (orderly_items h) (applyOne marshal) (fun m m' hp hs x => apply_comm hp hs x m.name m'.name m.idx m'.idx)
      (l := (sliceSort σ 2 ((collectMarks σ 0 set).filter fun m => isItemsName m.name)).map fun m => { m with name := stripItems m.name })
      (l' := plainMarks σ₂ (itemsSet set)) ?_ ?_ (sorted_sliceSort σ₂ 1 (hc' ..).1 (hc' ..).2.1 fun a ha => ⟨_, (hc' ..).2.2 a ha⟩) ?_ ?_ (c, 0)
    · rw [hfold]
    · unfold plainMarks
      refine ((sliceSort_perm ..).map _).trans (List.Perm.trans ?_ (sliceSort_perm ..).symm)
      refine ((collect_filter_perm σ σ₂ 0 0 set isItemsName).map _).trans ?_
      rw [(List.filter_eq_self (l := collectMarks σ₂ 0 (itemsSet set))).2]
      · exact (named_strip set σ₂ 0).symm
      · intro a ha
        rw [items_plain h _ _ (has_of_mem ha)]; rfl
    · refine ⟨(List.pairwise_map.2 hisort.1), fun hle => ?_⟩
      rw [List.pairwise_map]
      have hb : (sliceSort σ 2 ((collectMarks σ 0 set).filter fun m => isItemsName m.name)).Pairwise Before := by
        rw [sliceSort_steady (set := itemsSet set) σ 2 heq (fun a ha => ⟨_, has_items.2 ⟨a.name, has_of_mem (List.mem_filter.1 ha).1, (List.mem_filter.1 ha).2, rfl⟩⟩) hle]
        exact sortBy_before (hc ..).1
      exact hb.imp_of_mem (fun ha hb hab => ⟨hab.1, fun h1 h2 => hab.2 h1 (strip_inj (hmem _ ha).1 (hmem _ hb).1 h2)⟩)
    · intro a ha
      obtain ⟨m, hm, rfl⟩ := List.mem_map.1 ha
      exact has_items.2 ⟨m.name, (hmem m hm).2, (hmem m hm).1, rfl⟩
    · intro a ha b hb
      obtain ⟨m, hm, rfl⟩ := List.mem_map.1 ha
      obtain ⟨m', hm', rfl⟩ := List.mem_map.1 hb
      show isItemsName (stripItems m.name) = isItemsName (stripItems m'.name)
      rw [items_plain h _ _ (has_items.2 ⟨m.name, (hmem m hm).2, (hmem m hm).1, rfl⟩), items_plain h _ _ (has_items.2 ⟨m'.name, (hmem m' hm').2, (hmem m' hm').1, rfl⟩)]
  have hlen : (sliceSort σ 2 ((collectMarks σ 0 set).filter fun m => isItemsName m.name)).length = count (itemsSet set) := by
    rw [(sliceSort_perm ..).length_eq, (collect_filter_perm σ σ 0 0 set isItemsName).length_eq, ← collect_length σ 0, (named_strip set σ 0).length_eq, List.length_map]
  rw [hplain]
  show (sliceSort σ 2 ((collectMarks σ 0 set).filter fun m => isItemsName m.name)).foldl (applyItem marshal) ((plainMarks σ set).foldl (applyOne marshal) (s, 0)) = _
  generalize (plainMarks σ set).foldl (applyOne marshal) (s, 0) = x
  obtain ⟨s', n⟩ := x
  cases s' with
  | mk b it al oo an nt pr ad pa de ai df =>
    rw [applyItem_frame, hlen]
    rcases it with _ | ⟨_ | c, cs⟩
    · rfl
    · rfl
    · simp only [hitems]

/-! ## C53: the order of validation rules -/

/-- The rule of a validation marker with a known reason. -/
def validRule (m : Mark) : Option ValidationRule :=
  match m with
  | .validation r ms me re f o => if re = "" ∨ re = "FieldValueRequired" ∨ re = "FieldValueInvalid" ∨ re = "FieldValueForbidden" ∨ re = "FieldValueDuplicate" then some (ruleOf r ms me re f o) else none
  | _ => none

theorem rules_fold (marshal : AnyVal → Option Raw) : ∀ (l : List Named) (x : Schema × Nat),
    (l.foldl (applyOne marshal) x).1.base.xValidations = x.1.base.xValidations ++ l.filterMap (fun m => validRule m.mark) := by
  intro l
  induction l with
  | nil => intro x; simp
  | cons m l ih =>
    intro x
    rw [List.foldl_cons, ih, List.filterMap_cons]
    by_cases ht : target m.mark = .xValidations
    · obtain ⟨nm, ix, mk⟩ := m
      cases mk <;> simp only [target, reduceCtorEq] at ht
      case validation r ms me re f o =>
        by_cases hc : Compatible marshal x.1.base (.validation r ms me re f o)
        · have e : applyOne marshal x ⟨nm, ix, .validation r ms me re f o⟩ = (x.1.withBase { x.1.base with xValidations := x.1.base.xValidations ++ [ruleOf r ms me re f o] }, x.2) := by
            unfold applyOne; rw [apply_some _ _ _ hc]; rfl
          rw [e]
          have : validRule (.validation r ms me re f o) = some (ruleOf r ms me re f o) := if_pos hc
          rw [this]
          simp only [base_withBase]
          rw [List.append_assoc]; rfl
        · have e : applyOne marshal x ⟨nm, ix, .validation r ms me re f o⟩ = _ := C24_rejected marshal x.1 x.2 _ hc
          have : validRule (.validation r ms me re f o) = none := if_neg hc
          rw [e, this]
    · have hv : validRule m.mark = none := by
        cases hm : m.mark <;> first | rfl | (rw [hm] at ht; exact absurd rfl ht)
      rw [hv]
      have : (applyOne marshal x m).1.base.xValidations = x.1.base.xValidations := applyOne_base marshal x m .xValidations (Ne.symm ht)
      rw [this]

/-- C53 (partial).  The validation rules of a schema appear in the order in which the markers were written (after rules that are already there), whatever the order of map iteration.  Missing: more than
twelve markers some of which are applied before others, where it is false (`C53_violated`). -/
theorem C53_rules_in_order_partial (marshal : AnyVal → Option Raw) (σ : Sched) (set : List (String × List (Option Mark))) (hk : (set.map (·.1)).Nodup) (hc : Steady set)
    (n : String) (hn : isItemsName n = false) (vs : List (Option Mark)) (hvs : (n, vs) ∈ set)
    (ho : ∀ n' m, Has set n' m → isItemsName n' = false → n' ≠ n → validRule m = none) (s : Schema) :
    (applyMarkers marshal σ set s).1.base.xValidations = s.base.xValidations ++ vs.filterMap (·.bind validRule) := by
  rw [applyMarkers_base, rules_fold]
  congr 1
  have hfc := filter_collected hk σ 0 fun m => !isItemsName m.name
  unfold plainMarks
  rw [sliceSort_steady σ 1 hfc.2.1 (fun a ha => ⟨_, hfc.2.2 a ha⟩) hc]
  have key : ∀ l : List Named, l.filterMap (fun m => validRule m.mark) = (l.filter fun m => (validRule m.mark).isSome).filterMap (fun m => validRule m.mark) := by
    intro l
    rw [List.filterMap_filter]
    refine congrArg (fun f => List.filterMap f l) (funext fun m => ?_)
    cases validRule m.mark <;> rfl
  have hprio : ∀ m : Mark, (validRule m).isSome = true → m.priority = 10 := by
    intro m hm
    cases m <;> first | rfl | cases hm
  rw [key, sortBy_filter _ (by
    intro a _ b _ ha hb
    simp only [prioLe, hprio _ ha, hprio _ hb, decide_true, Nat.le_refl]), ← key]
  unfold collectMarks
  have hn' : ((σ.order 0 set).map (·.1)).Nodup := ((σ.perm 0 set).map _).nodup_iff.2 hk
  have hm : (n, vs) ∈ σ.order 0 set := (σ.mem_order ..).2 hvs
  have hsub : ∀ e ∈ σ.order 0 set, e ∈ set := fun e he => (σ.mem_order ..).1 he
  have hzero : ∀ e ∈ set, e.1 ≠ n → ((namedMarks e.1 e.2).filter fun m => !isItemsName m.name).filterMap (fun m => validRule m.mark) = [] := by
    intro e he hne
    rw [List.filterMap_eq_nil_iff]
    intro a ha
    rw [List.mem_filter] at ha
    exact ho a.name a.mark ⟨e.2, by rw [name_namedMarks ha.1]; exact he, mark_namedMarks ha.1⟩ (by simpa using ha.2) (by rw [name_namedMarks ha.1]; exact hne)
  have hself : ((namedMarks n vs).filter fun m => !isItemsName m.name).filterMap (fun m => validRule m.mark) = vs.filterMap (·.bind validRule) := by
    rw [List.filter_eq_self.2 (fun a ha => by rw [name_namedMarks ha, hn]; rfl)]
    unfold namedMarks
    rw [List.filterMap_filterMap]
    have : ∀ (l : List (Option Mark)) (k : Nat), ((l.zipIdx k).filterMap fun x => (x.1.map fun m => (⟨n, x.2, m⟩ : Named)).bind fun m => validRule m.mark) = l.filterMap (·.bind validRule) := by
      intro l
      induction l with
      | nil => intro k; rfl
      | cons x l ih =>
        intro k
        rw [List.zipIdx_cons, List.filterMap_cons, List.filterMap_cons, ih]
        cases x <;> rfl
    exact this vs 0
  generalize σ.order 0 set = l at hn' hm hsub
  induction l with
  | nil => cases hm
  | cons e l ih =>
    rw [List.map_cons, List.nodup_cons] at hn'
    rw [List.flatMap_cons, List.filter_append, List.filterMap_append]
    by_cases hen : e.1 = n
    · have hev : e = (n, vs) := by
        rcases List.mem_cons.1 hm with h | h
        · exact h.symm
        · exact absurd (List.mem_map.2 ⟨_, h, hen.symm⟩) hn'.1
      subst hev
      rw [hself]
      have : ((l.flatMap fun e => namedMarks e.1 e.2).filter fun m => !isItemsName m.name).filterMap (fun m => validRule m.mark) = [] := by
        rw [List.filterMap_eq_nil_iff]
        intro a ha
        rw [List.mem_filter, List.mem_flatMap] at ha
        obtain ⟨⟨e', he', ha⟩, hp⟩ := ha
        have hne : e'.1 ≠ n := fun h => hn'.1 (List.mem_map.2 ⟨e', he', h⟩)
        have := hzero e' (hsub e' (List.mem_cons_of_mem _ he')) hne
        rw [List.filterMap_eq_nil_iff] at this
        exact this a (List.mem_filter.2 ⟨ha, hp⟩)
      rw [this, List.append_nil]
    · rw [hzero e (hsub e (List.mem_cons_self ..)) hen, List.nil_append]
      refine ih hn'.2 ?_ (fun e' he' => hsub e' (List.mem_cons_of_mem _ he'))
      rcases List.mem_cons.1 hm with h | h
      · exact absurd (congrArg Prod.fst h).symm hen
      · exact h

/-! ## Violations and examples -/

private def noJson : AnyVal → Option Raw := fun _ => none

/-- C25 is violated: the type and the list type have the same priority, so that it depends on the order of map iteration whether a list type marker is accepted. -/
theorem C25_violated_listType :
    (applyMarkers noJson .fifo [("kubebuilder:validation:Type", [some (.type "array")]), ("listType", [some (.listType "set")])] (.leaf { type := "string" })) =
      (.leaf { type := "array", xListType := some "set" }, 0) ∧
    (applyMarkers noJson .lifo [("kubebuilder:validation:Type", [some (.type "array")]), ("listType", [some (.listType "set")])] (.leaf { type := "string" })) =
      (.leaf { type := "array" }, 1) := by decide +kernel

/-- C25 is violated: of contradictory map and struct types the one that happens to be applied last wins, without an error. -/
theorem C25_violated_mapType :
    (applyMarkers noJson .fifo [("mapType", [some (.mapType "atomic")]), ("structType", [some (.structType "granular")])] (.leaf { type := "object" })) =
      (.leaf { type := "object", xMapType := some "granular" }, 0) ∧
    (applyMarkers noJson .lifo [("mapType", [some (.mapType "atomic")]), ("structType", [some (.structType "granular")])] (.leaf { type := "object" })) =
      (.leaf { type := "object", xMapType := some "atomic" }, 0) := by decide +kernel

/-- C24: bounds on schemas of fitting and unfitting types. -/
example : Compatible noJson { type := "integer" } (.maximum 3) ∧ ¬ Compatible noJson { type := "integer" } (.maximum (1 / 2)) ∧ Compatible noJson { type := "number" } (.maximum (1 / 2)) ∧
    ¬ Compatible noJson { type := "string" } (.maximum 3) := by
  refine ⟨.inr ⟨rfl, 3, rfl⟩, ?_, .inl rfl, ?_⟩
  · rw [Compatible, ← numericOk_iff]; decide +kernel
  · rw [Compatible, ← numericOk_iff]; decide +kernel

private def sample : List (String × List (Option Mark)) :=
  [("kubebuilder:validation:MaxItems", [some (.maxItems 3)]), ("kubebuilder:validation:items:MaxLength", [some (.maxLength 5)]), ("optional", [none]),
   ("kubebuilder:validation:XValidation", [some (.validation "a" "" "" "" "" none), some (.validation "b" "" "" "" "" none)]), ("kubebuilder:validation:Type", [some (.type "array")])]

private theorem has_sample {n : String} {m : Mark} (h : Has sample n m) :
    (n, m) ∈ [("kubebuilder:validation:MaxItems", .maxItems 3), ("kubebuilder:validation:items:MaxLength", .maxLength 5), ("kubebuilder:validation:XValidation", .validation "a" "" "" "" "" none),
      ("kubebuilder:validation:XValidation", .validation "b" "" "" "" "" none), ("kubebuilder:validation:Type", .type "array")] := by
  obtain ⟨vs, h1, h2⟩ := h
  simp only [sample, List.mem_cons, List.not_mem_nil, or_false, Prod.mk.injEq] at h1
  rcases h1 with ⟨rfl, rfl⟩ | ⟨rfl, rfl⟩ | ⟨rfl, rfl⟩ | ⟨rfl, rfl⟩ | ⟨rfl, rfl⟩ <;> simp at h2 <;> simp [h2]

/-- C25, C53, nontrivial case: a set with markers for items and a repeated marker. -/
example : Orderly sample where
  keys := by decide +kernel
  registered n m h := by
    have := has_sample h
    have hall : ∀ x ∈ [("kubebuilder:validation:MaxItems", Mark.maxItems 3), ("kubebuilder:validation:items:MaxLength", .maxLength 5), ("kubebuilder:validation:XValidation", .validation "a" "" "" "" "" none),
      ("kubebuilder:validation:XValidation", .validation "b" "" "" "" "" none), ("kubebuilder:validation:Type", .type "array")], x.1 ∈ names x.2 := by decide +kernel
    exact hall _ this
  few := .inl (.inl (by decide +kernel))
  list x y h := by have := has_sample h.2; simp at this
  map x y h := by have := has_sample h.2; simp at this

example : applyMarkers noJson .lifo sample (.mk {} (some (.mk (some (.leaf { type := "string" })) [])) [] [] [] none [] none [] [] none []) =
    (.mk { type := "array", maxItems := some 3, xValidations := [{ rule := "a" }, { rule := "b" }] } (some (.mk (some (.leaf { type := "string", maxLength := some 5 })) [])) [] [] [] none [] none [] [] none [], 0) := by
  decide +kernel

/-- Errors add up. -/
theorem applyOne_errors (marshal : AnyVal → Option Raw) (x : Schema × Nat) (m : Named) : x.2 ≤ (applyOne marshal x m).2 := by
  unfold applyOne
  split
  · exact Nat.le_succ _
  · exact Nat.le_refl _

theorem applyItem_errors (marshal : AnyVal → Option Raw) (x : Schema × Nat) (m : Named) : x.2 ≤ (applyItem marshal x m).2 := by
  unfold applyItem
  split
  · rename_i c _ _ _ _ _ _ _ _ _ _ _ _
    split
    · exact Nat.le_succ _
    · exact applyOne_errors marshal (c, x.2) m
  · exact Nat.le_succ _

theorem fold_errors {f : Schema × Nat → Named → Schema × Nat} (hf : ∀ x m, x.2 ≤ (f x m).2) : ∀ (l : List Named) (x : Schema × Nat), x.2 ≤ (l.foldl f x).2
  | [], _ => Nat.le_refl _
  | m :: l, x => Nat.le_trans (hf x m) (fold_errors hf l (f x m))

theorem fold_reports {f : Schema × Nat → Named → Schema × Nat} (hf : ∀ x m, x.2 ≤ (f x m).2) {a : Named} (ha : ∀ x, x.2 < (f x a).2) : ∀ (l : List Named) (x : Schema × Nat), a ∈ l → x.2 < (l.foldl f x).2
  | m :: l, x, h => by
    rcases List.mem_cons.1 h with rfl | h
    · exact Nat.lt_of_lt_of_le (ha x) (fold_errors hf l (f x a))
    · exact Nat.lt_of_le_of_lt (hf x m) (fold_reports hf ha l (f x m) h)

/-- C53, C24: a rule with an unknown reason is reported, on a value and on items, whatever the number and the order of the markers. -/
theorem C53_reported (marshal : AnyVal → Option Raw) (σ : Sched) (set : List (String × List (Option Mark))) (n r ms me re f : String) (o : Option Bool)
    (h : Has set n (.validation r ms me re f o)) (hre : re ≠ "") (hk : re ∉ ["FieldValueRequired", "FieldValueInvalid", "FieldValueForbidden", "FieldValueDuplicate"]) (s : Schema) :
    0 < (applyMarkers marshal σ set s).2 := by
  have hnone : ∀ b, (Mark.validation r ms me re f o).apply marshal b = none := fun b => by
    unfold Mark.apply
    exact if_pos ⟨hre, hk⟩
  obtain ⟨a, ha, e, e'⟩ := mem_of_has (σ := σ) (t := 0) h
  have h1 : ∀ x, x.2 < (applyOne marshal x a).2 := fun x => by
    unfold applyOne
    rw [e', hnone]
    exact Nat.lt_succ_self _
  have h2 : ∀ x, x.2 < (applyItem marshal x a).2 := fun x => by
    unfold applyItem
    split
    · rename_i c _ _ _ _ _ _ _ _ _ _ _ _
      split
      · exact Nat.lt_succ_self _
      · exact h1 (c, x.2)
    · exact Nat.lt_succ_self _
  unfold applyMarkers
  simp only
  cases hn : isItemsName a.name
  · refine Nat.lt_of_lt_of_le (fold_reports (applyOne_errors marshal) h1 _ (s, 0) ((sliceSort_perm ..).mem_iff.2 (List.mem_filter.2 ⟨ha, by rw [hn]; rfl⟩))) (fold_errors (applyItem_errors marshal) _ _)
  · exact Nat.lt_of_le_of_lt (Nat.zero_le _) (fold_reports (applyItem_errors marshal) h2 _ _ ((sliceSort_perm ..).mem_iff.2 (List.mem_filter.2 ⟨ha, hn⟩)))

/-! ## C53 beyond twelve markers -/

/-- What the model takes `sort.Slice` to do on few or sorted markers is what its algorithm does. -/
theorem sliceSort_go (σ : Sched) (t : Nat) (l : List Named) (h : l.length ≤ 12 ∨ l.Pairwise (fun a b => prioLe a b = true)) :
    Pdq.slice (fun a b => a.mark.priority < b.mark.priority) l = some (sliceSort σ t l) := by
  have hle : (fun p q : Named => !decide (q.mark.priority < p.mark.priority)) = prioLe := by
    funext p q
    simp only [prioLe, ← Nat.not_lt, decide_not]
  unfold sliceSort
  rw [if_pos h, ← hle]
  rcases h with h | h
  · exact Pdq.slice_small (fun a b h => by simp only [decide_eq_true_eq, decide_eq_false_iff_not] at h ⊢; omega) (fun a b c h => by simp only [decide_eq_true_eq] at h ⊢; omega) l h
  · have hs : l.Pairwise fun x y => decide (y.mark.priority < x.mark.priority) = false := h.imp fun {a b} h => by
      simp only [prioLe, decide_eq_true_eq, decide_eq_false_iff_not] at h ⊢; omega
    rw [Pdq.slice_sorted hs]
    congr 1
    clear h
    induction l with
    | nil => rfl
    | cons a l ih =>
      rw [List.pairwise_cons] at hs
      rw [sortBy, ← ih hs.2]
      cases l with
      | nil => rfl
      | cons b l => rw [insertBy, if_pos (by rw [hs.1 b (List.mem_cons_self ..)]; rfl)]

/-- Thirteen validation rules, and the type. -/
def manyRules : List (String × List (Option Mark)) :=
  [("kubebuilder:validation:XValidation", [some (.validation "1" "" "" "" "" none), some (.validation "2" "" "" "" "" none), some (.validation "3" "" "" "" "" none), some (.validation "4" "" "" "" "" none), some (.validation "5" "" "" "" "" none), some (.validation "6" "" "" "" "" none), some (.validation "7" "" "" "" "" none), some (.validation "8" "" "" "" "" none), some (.validation "9" "" "" "" "" none), some (.validation "10" "" "" "" "" none), some (.validation "11" "" "" "" "" none), some (.validation "12" "" "" "" "" none), some (.validation "13" "" "" "" "" none)]),
   ("kubebuilder:validation:Type", [some (.type "string")])]

/-- A positional permutation of lists of fourteen elements. -/
def shuffled : List Nat := [6, 2, 3, 4, 5, 0, 7, 8, 9, 10, 11, 12, 1, 13]

/-- The schedule that visits maps in the order in which they are stored and applies `shuffled` in the sort at site 1. -/
def shuffling : Sched where
  order n l := if n = 1 ∧ l.length = 14 then shuffled.filterMap fun i => l[i]? else l
  perm n l := by
    split
    · rename_i h
      have : shuffled.Perm (List.range 14) := by decide +kernel
      refine (this.filterMap _).trans (.of_eq ?_)
      match l, h.2 with
      | [_, _, _, _, _, _, _, _, _, _, _, _, _, _], _ => rfl
    · exact .refl _

/-- C53 is violated beyond twelve markers: `sort.Slice` is not stable.  Of thirteen rules on a value whose type is given by a marker as well, the seventh becomes the first and the second the last.  The
order is the one in which Go's algorithm leaves the markers when the map is visited in the order of the text. -/
theorem C53_violated :
    (applyMarkers noJson shuffling manyRules (.leaf { type := "string" })).1.base.xValidations.map (·.rule) = ["7", "3", "4", "5", "6", "1", "8", "9", "10", "11", "12", "13", "2"] ∧
    collectMarks shuffling 0 manyRules = manyRules.flatMap (fun e => namedMarks e.1 e.2) ∧
    Pdq.slice (fun a b : Named => a.mark.priority < b.mark.priority) ((collectMarks shuffling 0 manyRules).filter fun m => !isItemsName m.name) =
      some (sliceSort shuffling 1 ((collectMarks shuffling 0 manyRules).filter fun m => !isItemsName m.name)) := by
  decide +kernel

/-- C53: a rule with an unknown reason beside one with a known reason. -/
example (s : Schema) : 0 < (applyMarkers noJson .lifo [("kubebuilder:validation:XValidation", [some (.validation "a" "" "" "FieldValueInvalid" "" none), some (.validation "b" "" "" "Odd" "" none)])] s).2 :=
  C53_reported noJson .lifo _ "kubebuilder:validation:XValidation" "b" "" "" "Odd" "" none ⟨_, List.mem_singleton.2 rfl, by simp⟩ (by decide) (by decide) s

/-- C53: without the marker for the type the thirteen rules stay in order. -/
example : Steady [("kubebuilder:validation:XValidation", [some (.validation "1" "" "" "" "" none), some (.validation "2" "" "" "" "" none), some (.validation "3" "" "" "" "" none), some (.validation "4" "" "" "" "" none), some (.validation "5" "" "" "" "" none), some (.validation "6" "" "" "" "" none), some (.validation "7" "" "" "" "" none), some (.validation "8" "" "" "" "" none), some (.validation "9" "" "" "" "" none), some (.validation "10" "" "" "" "" none), some (.validation "11" "" "" "" "" none), some (.validation "12" "" "" "" "" none), some (.validation "13" "" "" "" "" none)])] := by
  right
  rintro n m ⟨vs, h1, h2⟩
  obtain ⟨rfl, rfl⟩ := Prod.mk.inj (List.mem_singleton.1 h1)
  simp only [List.mem_cons, Option.some.injEq, List.not_mem_nil, or_false] at h2
  rcases h2 with rfl | rfl | rfl | rfl | rfl | rfl | rfl | rfl | rfl | rfl | rfl | rfl | rfl <;> exact id

end Verif.Crd

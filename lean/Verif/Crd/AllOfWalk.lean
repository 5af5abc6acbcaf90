import Verif.Crd.AllOfSem
/-!
# Lemmas for C28 and C29: walking over the schema
-/
namespace Verif.Crd
open Spec

theorem visitAllOf_eq (s : Schema) : visitAllOf s = flattenAllInto (.mk s.base s.items [] s.oneOf s.anyOf s.not s.properties s.additionalProperties
    s.patternProperties s.dependencies s.additionalItems s.definitions) s.allOf := by cases s; rfl

theorem visit_flat {s : Schema} (h : s.allOf = []) : visitAllOf s = (s, []) := by
  rw [visitAllOf_eq, h, flattenAllInto, ← h, ← Schema.eta]

/-- The schema without its allOf members. -/
theorem child_bare {s c : Schema} (h : Child (.mk s.base s.items [] s.oneOf s.anyOf s.not s.properties s.additionalProperties
    s.patternProperties s.dependencies s.additionalItems s.definitions) c) : Child s c := by
  cases h with
  | items h1 h2 => exact .items h1 h2
  | itemsArr h1 h2 => exact .itemsArr h1 h2
  | allOf h => exact absurd h (by simp [Schema.allOf_mk])
  | oneOf h => exact .oneOf h
  | anyOf h => exact .anyOf h
  | not h => exact .not h
  | property h => exact .property h
  | additionalProperties h1 h2 => exact .additionalProperties h1 h2
  | patternProperty h => exact .patternProperty h
  | dependency h1 h2 => exact .dependency h1 h2
  | additionalItems h1 h2 => exact .additionalItems h1 h2
  | definition h => exact .definition h

theorem pair_bare {R P : Path → Prop} {s : Schema} (h : Inv R P s) : PairAll R P (.mk s.base s.items [] s.oneOf s.anyOf s.not s.properties s.additionalProperties
    s.patternProperties s.dependencies s.additionalItems s.definitions) s.allOf := by
  refine ⟨inv_of (fun hR => ?_) nofun (fun _ he => h.prop he) (fun _ _ he => h.addl he) nofun ?_, fun _ hc => h.member hc, fun c hc p h1 h2 => ?_,
    fun _ _ _ _ e hc' p h1 h2 => h.twice p (.two e hc' h1 h2)⟩
  · obtain ⟨h1, h2, h3⟩ := h.node hR
    exact ⟨⟨h1.1, h1.2, h1.3, h1.4, h1.5, h1.6, h1.7⟩, h2, h3⟩
  · intro l c l' c' e
    cases l <;> cases e
  · refine h.twice p (.own hc h2 ?_)
    cases h1 with
    | here => exact .here
    | allOf hc => cases hc
    | prop hc h => exact .prop hc h
    | addl hb h => exact .addl hb h
    | flag hb => exact .flag hb

theorem visit_sem (M : Meaning) {s : Schema} (h : Guard s) (he : (visitAllOf s).2 = []) (j : Json) : Valid M (visitAllOf s).1 j ↔ Valid M s j := by
  by_cases ha : s.allOf = []
  · rw [visit_flat ha]
  · obtain ⟨R, P, hP⟩ := mergeable_iff.1 ((guard_iff.1 h).1 ha)
    rw [visitAllOf_eq] at he ⊢
    rw [all_sem M R P _ s.allOf (pair_bare hP) he, valid_iff, valid_iff (s := s)]
    simp only [Schema.base_mk, Schema.items_mk, Schema.allOf_mk, Schema.oneOf_mk, Schema.anyOf_mk, Schema.not_mk, Schema.properties_mk,
      Schema.additionalProperties_mk, Schema.patternProperties_mk, Schema.dependencies_mk, Schema.additionalItems_mk, ValidAll, true_and]
    constructor
    · rintro ⟨⟨a1, a2, a3⟩, a4⟩
      exact ⟨a1, a2, a4, a3⟩
    · rintro ⟨a1, a2, a4, a3⟩
      exact ⟨⟨a1, a2, a3⟩, a4⟩

theorem visit_guard {s : Schema} (h : Guard s) : Guard (visitAllOf s).1 := by
  by_cases ha : s.allOf = []
  · rw [visit_flat ha]; exact h
  · obtain ⟨R, P, hP⟩ := mergeable_iff.1 ((guard_iff.1 h).1 ha)
    rw [visitAllOf_eq]
    refine all_guard R P _ s.allOf (pair_bare hP) ?_ fun c hc => guard_children h (.allOf hc)
    rw [guard_iff]
    exact ⟨fun h => absurd rfl h, fun c hc => guard_children h (child_bare hc)⟩

/-! ## Walking over the children -/

section
variable {ε : Type} {M : Meaning} {f : Schema → Schema × List ε}

/-- The function keeps the meaning of the schema, unless there is an error. -/
def Keeps (M : Meaning) (f : Schema → Schema × List ε) (s : Schema) : Prop := (f s).2 = [] → ∀ j, Valid M (f s).1 j ↔ Valid M s j

theorem keeps_all {l : List Schema} (h : ∀ c ∈ l, Keeps M f c) (he : (mapSlice f l).2 = []) :
    ∀ j, (ValidAll M (mapSlice f l).1 j ↔ ValidAll M l j) ∧ (ValidAny M (mapSlice f l).1 j ↔ ValidAny M l j) ∧
      (ValidOne M (mapSlice f l).1 j ↔ ValidOne M l j) := by
  intro j
  induction l with
  | nil => simp [mapSlice]
  | cons s l ih =>
    simp only [mapSlice, List.flatMap_cons, List.append_eq_nil_iff, List.map_cons] at he ih ⊢
    have h1 := h s (by simp) he.1 j
    have h2 := ih (fun c hc => h c (by simp [hc])) he.2
    simp only [ValidAll, ValidAny, ValidOne, h1, h2.1, h2.2.1, h2.2.2, true_and]

theorem keeps_tuple {l : List Schema} (h : ∀ c ∈ l, Keeps M f c) (he : (mapSlice f l).2 = []) :
    ∀ xs, ValidTuple M (mapSlice f l).1 xs ↔ ValidTuple M l xs := by
  induction l with
  | nil => simp [mapSlice]
  | cons s l ih =>
    simp only [mapSlice, List.flatMap_cons, List.append_eq_nil_iff, List.map_cons] at he ih ⊢
    intro xs
    cases xs with
    | nil => simp [ValidTuple]
    | cons x xs => simp only [ValidTuple, h s (by simp) he.1 x, ih (fun c hc => h c (by simp [hc])) he.2 xs]

theorem keeps_opt {o : Option Schema} (h : ∀ c, o = some c → Keeps M f c) (he : (mapOpt f o).2 = []) (j : Json) :
    (ValidPtr M (mapOpt f o).1 j ↔ ValidPtr M o j) ∧ (ValidOpt M (mapOpt f o).1 j ↔ ValidOpt M o j) := by
  cases o with
  | none => simp [mapOpt]
  | some s => simp only [mapOpt, ValidPtr, ValidOpt, h s rfl he j, true_and]

theorem keeps_items {o : Option Items} (h : ∀ i c, o = some i → (i.schema = some c ∨ c ∈ i.arr) → Keeps M f c) (he : (mapItems f o).2 = []) (j : Json) :
    ValidItems M (mapItems f o).1 j ↔ ValidItems M o j := by
  cases o with
  | none => simp [mapItems]
  | some i =>
    obtain ⟨s, l⟩ := i
    simp only [mapItems, List.append_eq_nil_iff] at he ⊢
    simp only [ValidItems]
    have h1 := fun x => (keeps_opt (o := s) (fun c hc => h (.mk s l) c rfl (.inl hc)) he.1 x).1
    have h2 := keeps_tuple (l := l) (fun c hc => h (.mk s l) c rfl (.inr hc)) he.2
    simp only [h1, h2]

theorem keeps_map {l : List (String × Schema)} (h : ∀ e ∈ l, Keeps M f e.2) (he : (mapMap f l).2 = []) (j : Json) :
    (ValidProps M (mapMap f l).1 j ↔ ValidProps M l j) ∧ (ValidPats M (mapMap f l).1 j ↔ ValidPats M l j) := by
  induction l with
  | nil => simp [mapMap]
  | cons s l ih =>
    obtain ⟨k, s⟩ := s
    simp only [mapMap, List.flatMap_cons, List.append_eq_nil_iff, List.map_cons] at he ih ⊢
    have h1 : ∀ j, Valid M (f s).1 j ↔ Valid M s j := h (k, s) (by simp) he.1
    have h2 := ih (fun c hc => h c (by simp [hc])) he.2
    simp only [ValidProps, ValidPats, h1, h2.1, h2.2, true_and]

theorem keeps_orBool {o : Option OrBool} (h : ∀ b c, o = some (.mk b (some c)) → Keeps M f c) (he : (mapOrBool f o).2 = []) (vs : Json → Prop) :
    ValidAddl M (mapOrBool f o).1 vs ↔ ValidAddl M o vs := by
  cases o with
  | none => simp [mapOrBool]
  | some o =>
    obtain ⟨b, s⟩ := o
    cases s with
    | none => simp [mapOrBool, mapOpt]
    | some s =>
      simp only [mapOrBool, mapOpt] at he ⊢
      simp only [ValidAddl, h b s rfl he]

theorem keeps_deps {l : List (String × OrArray)} (h : ∀ k o c, (k, o) ∈ l → o.schema = some c → Keeps M f c) (he : (mapDeps f l).2 = []) (j : Json) :
    ValidDeps M (mapDeps f l).1 j ↔ ValidDeps M l j := by
  induction l with
  | nil => simp [mapDeps]
  | cons e l ih =>
    obtain ⟨k, s, p⟩ := e
    simp only [mapDeps, List.flatMap_cons, List.append_eq_nil_iff, List.map_cons] at he ih ⊢
    have h1 := fun j => (keeps_opt (o := s) (fun c hc => h k (.mk s p) c (by simp) hc) he.1 j).1
    have h2 := ih (fun k o c hc => h k o c (by simp [hc])) he.2
    simp only [ValidDeps, h1, h2]

theorem map_keys (l : List (String × Schema)) : (mapMap f l).1.map (·.1) = l.map (·.1) := by
  simp [mapMap, Function.comp_def]

theorem keeps_children {s : Schema} (h : ∀ c, Child s c → Keeps M f c) (he : (mapChildren f s).2 = []) (j : Json) :
    Valid M (mapChildren f s).1 j ↔ Valid M s j := by
  obtain ⟨b, it, al, oo, an, nt, pr, ad, pa, de, ai, df⟩ := s
  simp only [mapChildren, List.append_eq_nil_iff, and_assoc] at he
  obtain ⟨e1, e2, e3, e4, e5, e6, e7, e8, e9, e10, e11⟩ := he
  have h1 := keeps_items (fun i c hi hc => hc.elim (fun hc => h c (.items hi hc)) fun hc => h c (.itemsArr hi hc)) e1 j
  have h2 := (keeps_all (fun c hc => h c (.allOf hc)) e2 j).1
  have h3 := (keeps_all (fun c hc => h c (.oneOf hc)) e3 j).2.2
  have h4 := (keeps_all (fun c hc => h c (.anyOf hc)) e4 j).2.1
  have h5 := (keeps_opt (fun c hc => h c (.not hc)) e5 j).2
  have h6 := (keeps_map (fun e he => h e.2 (.property (k := e.1) he)) e6 j).1
  have h7 := keeps_orBool (fun b c hc => h c (.additionalProperties hc rfl)) e7
  have h8 := (keeps_map (fun e he => h e.2 (.patternProperty (k := e.1) he)) e8 j).2
  have h9 := keeps_deps (fun k o c ho hc => h c (.dependency ho hc)) e9 j
  have h10 := keeps_orBool (fun b c hc => h c (.additionalItems hc rfl)) e10
  rw [valid_iff, valid_iff]
  simp only [mapChildren, Schema.base_mk, Schema.items_mk, Schema.allOf_mk, Schema.oneOf_mk, Schema.anyOf_mk, Schema.not_mk, Schema.properties_mk,
    Schema.additionalProperties_mk, Schema.patternProperties_mk, Schema.dependencies_mk, Schema.additionalItems_mk]
  simp only [Schema.properties_mk, Schema.additionalProperties_mk, Schema.patternProperties_mk, Schema.dependencies_mk, Schema.additionalItems_mk,
    Schema.items_mk, Schema.oneOf_mk, Schema.anyOf_mk, Schema.not_mk, Schema.allOf_mk] at h1 h2 h3 h4 h5 h6 h7 h8 h9 h10
  have hoo : (mapSlice f oo).1 ≠ [] ↔ oo ≠ [] := by simp [mapSlice]
  have han : (mapSlice f an).1 ≠ [] ↔ an ≠ [] := by simp [mapSlice]
  have hpa : ∀ k, (∀ e ∈ (mapMap f pa).1, ¬ M.matches_ e.1 k) ↔ ∀ e ∈ pa, ¬ M.matches_ e.1 k := by
    intro k; simp only [mapMap, List.forall_mem_map]
  have hit : ∀ i, (∃ its, (mapItems f it).1 = some its ∧ its.schema = none ∧ its.arr.length ≤ i) ↔ ∃ its, it = some its ∧ its.schema = none ∧ its.arr.length ≤ i := by
    intro i
    cases it with
    | none => simp [mapItems]
    | some o =>
      obtain ⟨s, l⟩ := o
      cases s <;> simp [mapItems, mapSlice, mapOpt, Items.schema, Items.arr]
  simp only [h1, h2, h3, h4, h5, h6, h7, h8, h9, h10, hoo, han, hpa, hit, map_keys]

end

/-- Walking to any depth keeps the meaning of the schema. -/
theorem walk_sem (M : Meaning) : ∀ n s, Guard s → Keeps M (walkAllOf n) s := by
  intro n
  induction n with
  | zero => intro s _ _ j; simp [walkAllOf]
  | succ n ih =>
    intro s hs he j
    simp only [walkAllOf, List.append_eq_nil_iff] at he ⊢
    rw [keeps_children (fun c hc => ih c (guard_children (visit_guard hs) hc)) he.2, visit_sem M hs he.1]

/-! ## Depth -/

theorem rank_eq (s : Schema) : s.rank = max (rankList s.allOf) (1 + (max (rankItems s.items) (max (rankList s.oneOf) (max (rankList s.anyOf)
    (max (rankOpt s.not) (max (rankMap s.properties) (max (rankOrBool s.additionalProperties) (max (rankMap s.patternProperties) (max (rankDeps s.dependencies)
      (max (rankOrBool s.additionalItems) (rankMap s.definitions))))))))))) := by cases s; rfl

theorem rank_le {s : Schema} {n : Nat} : s.rank ≤ n + 1 ↔ rankList s.allOf ≤ n + 1 ∧ rankItems s.items ≤ n ∧ rankList s.oneOf ≤ n ∧ rankList s.anyOf ≤ n ∧
    rankOpt s.not ≤ n ∧ rankMap s.properties ≤ n ∧ rankOrBool s.additionalProperties ≤ n ∧ rankMap s.patternProperties ≤ n ∧ rankDeps s.dependencies ≤ n ∧
    rankOrBool s.additionalItems ≤ n ∧ rankMap s.definitions ≤ n := by
  rw [rank_eq, Nat.max_le, Nat.add_comm 1, Nat.add_le_add_iff_right]
  simp only [Nat.max_le]

theorem rank_pos (s : Schema) : 0 < s.rank := by rw [rank_eq]; omega

theorem rankList_le {l : List Schema} {n : Nat} : rankList l ≤ n ↔ ∀ c ∈ l, c.rank ≤ n := by
  induction l with
  | nil => simp [rankList]
  | cons s l ih => simp [rankList, Nat.max_le, ih]

theorem rankMap_le {l : List (String × Schema)} {n : Nat} : rankMap l ≤ n ↔ ∀ e ∈ l, e.2.rank ≤ n := by
  induction l with
  | nil => simp [rankMap]
  | cons s l ih => obtain ⟨k, s⟩ := s; simp [rankMap, Nat.max_le, ih]

theorem rankOpt_le {o : Option Schema} {n : Nat} : rankOpt o ≤ n ↔ ∀ c, o = some c → c.rank ≤ n := by
  cases o <;> simp [rankOpt]

theorem rankDeps_le {l : List (String × OrArray)} {n : Nat} : rankDeps l ≤ n ↔ ∀ e ∈ l, ∀ c, e.2.schema = some c → c.rank ≤ n := by
  induction l with
  | nil => simp [rankDeps]
  | cons s l ih => obtain ⟨k, s, p⟩ := s; simp [rankDeps, Nat.max_le, ih, rankOpt_le, OrArray.schema]

theorem rankOrBool_le {o : Option OrBool} {n : Nat} : rankOrBool o ≤ n ↔ ∀ x, o = some x → ∀ c, x.schema = some c → c.rank ≤ n := by
  cases o with
  | none => simp [rankOrBool]
  | some o => obtain ⟨b, s⟩ := o; simp [rankOrBool, rankOpt_le, OrBool.schema]

theorem rankItems_le {o : Option Items} {n : Nat} : rankItems o ≤ n ↔ ∀ x, o = some x → (∀ c, x.schema = some c → c.rank ≤ n) ∧ ∀ c ∈ x.arr, c.rank ≤ n := by
  cases o with
  | none => simp [rankItems]
  | some o => obtain ⟨s, l⟩ := o; simp [rankItems, Nat.max_le, rankOpt_le, rankList_le, Items.schema, Items.arr]

theorem rank_child {s c : Schema} (h : Child s c) : c.rank + 1 ≤ s.rank ∨ (c.rank ≤ s.rank ∧ c ∈ s.allOf) := by
  obtain ⟨n, hn⟩ : ∃ n, s.rank = n + 1 := ⟨s.rank - 1, by have := rank_pos s; omega⟩
  rw [hn]
  obtain ⟨h1, h2, h3, h4, h5, h6, h7, h8, h9, h10, h11⟩ := rank_le.1 (Nat.le_of_eq hn)
  cases h with
  | items a b => exact .inl (Nat.succ_le_succ ((rankItems_le.1 h2 _ a).1 _ b))
  | itemsArr a b => exact .inl (Nat.succ_le_succ ((rankItems_le.1 h2 _ a).2 _ b))
  | allOf a => exact .inr ⟨rankList_le.1 h1 _ a, a⟩
  | oneOf a => exact .inl (Nat.succ_le_succ (rankList_le.1 h3 _ a))
  | anyOf a => exact .inl (Nat.succ_le_succ (rankList_le.1 h4 _ a))
  | not a => exact .inl (Nat.succ_le_succ (rankOpt_le.1 h5 _ a))
  | property a => exact .inl (Nat.succ_le_succ (rankMap_le.1 h6 _ a))
  | additionalProperties a b => exact .inl (Nat.succ_le_succ (rankOrBool_le.1 h7 _ a _ b))
  | patternProperty a => exact .inl (Nat.succ_le_succ (rankMap_le.1 h8 _ a))
  | dependency a b => exact .inl (Nat.succ_le_succ (rankDeps_le.1 h9 _ a _ b))
  | additionalItems a b => exact .inl (Nat.succ_le_succ (rankOrBool_le.1 h10 _ a _ b))
  | definition a => exact .inl (Nat.succ_le_succ (rankMap_le.1 h11 _ a))

theorem opt_rank {α : Type} {r : Option α → Nat} {n : Nat} {d s : Option α} (h0 : r none = 0) (h1 : r d ≤ n) (h2 : r s ≤ n) :
    r (mergeOpt d s).val ≤ n ∧ r (mergeOpt d s).dstRem ≤ n ∧ r (mergeOpt d s).srcRem ≤ n := by
  cases d <;> cases s <;> simp [mergeOpt, h0, h1, h2]

theorem list_rank {α : Type} {r : List α → Nat} {n : Nat} {d s : List α} (h0 : r [] = 0) (h1 : r d ≤ n) (h2 : r s ≤ n) :
    r (mergeList d s).val ≤ n ∧ r (mergeList d s).dstRem ≤ n ∧ r (mergeList d s).srcRem ≤ n := by
  cases d <;> cases s <;> simp [mergeList, h0, h1, h2]

theorem rank_mergeRest {d s : Schema} {pr : List (String × Schema)} {ad : Option OrBool} {n : Nat} (hd : d.rank ≤ n + 1) (hs : s.rank ≤ n + 1)
    (hp : rankMap pr ≤ n) (ha : rankOrBool ad ≤ n) : (mergeRest d s pr ad).rank ≤ n + 1 := by
  obtain ⟨a1, a2, a3, a4, a5, a6, a7, a8, a9, a10, a11⟩ := rank_le.1 hd
  obtain ⟨b1, b2, b3, b4, b5, b6, b7, b8, b9, b10, b11⟩ := rank_le.1 hs
  have c2 := opt_rank (r := rankItems) rfl a2 b2
  have c3 := list_rank (r := rankList) rfl a3 b3
  have c4 := list_rank (r := rankList) rfl a4 b4
  have c5 := opt_rank (r := rankOpt) rfl a5 b5
  have c8 := list_rank (r := rankMap) rfl a8 b8
  have c9 := list_rank (r := rankDeps) rfl a9 b9
  have c10 := opt_rank (r := rankOrBool) rfl a10 b10
  have c11 := list_rank (r := rankMap) rfl a11 b11
  have z : rankList [] ≤ n + 1 := Nat.zero_le _
  have zm : rankMap [] ≤ n := Nat.zero_le _
  have zo : rankOrBool none ≤ n := Nat.zero_le _
  rw [rank_le]
  refine ⟨?_, c2.1, c3.1, c4.1, c5.1, hp, ha, c8.1, c9.1, c10.1, c11.1⟩
  rw [rankList_le]
  intro c hc
  rcases List.mem_append.1 hc with hc | hc
  · exact rankList_le.1 a1 c hc
  · rcases mem_remainders hc with rfl | rfl
    · exact rank_le.2 ⟨z, c2.2.1, c3.2.1, c4.2.1, c5.2.1, zm, zo, c8.2.1, c9.2.1, c10.2.1, c11.2.1⟩
    · exact rank_le.2 ⟨z, c2.2.2, c3.2.2, c4.2.2, c5.2.2, zm, zo, c8.2.2, c9.2.2, c10.2.2, c11.2.2⟩

mutual
theorem into_rank (n : Nat) (d : Schema) : (s : Schema) → d.rank ≤ n → s.rank ≤ n → (flattenInto d s).1.rank ≤ n
  | .mk b it al oo an nt pr ad pa de ai df, hd, hs => by
    obtain ⟨m, hm⟩ : ∃ m, n = m + 1 := ⟨n - 1, by have := rank_pos d; omega⟩
    have hs1 : _ ≤ m + 1 := hm ▸ hs
    have hs' := rank_le.1 hs1
    have h1 : (flattenAllInto d al).1.rank ≤ m + 1 := hm ▸ all_rank n d al hd (hm ▸ hs'.1)
    have h1' := rank_le.1 h1
    rw [flattenInto_eq, hm]
    exact rank_mergeRest h1 hs1 (props_rank m _ pr h1'.2.2.2.2.2.1 hs'.2.2.2.2.2.1) (addl_rank m _ ad h1'.2.2.2.2.2.2.1 hs'.2.2.2.2.2.2.1)
theorem all_rank (n : Nat) (d : Schema) : (l : List Schema) → d.rank ≤ n → rankList l ≤ n → (flattenAllInto d l).1.rank ≤ n
  | [], hd, _ => by simpa only [flattenAllInto] using hd
  | s :: l, hd, hl => by
    simp only [flattenAllInto]
    simp only [rankList, Nat.max_le] at hl
    exact all_rank n _ l (into_rank n d s hd hl.1) hl.2
theorem props_rank (n : Nat) (d : List (String × Schema)) : (s : List (String × Schema)) → rankMap d ≤ n → rankMap s ≤ n → rankMap (mergeProps d s).1 ≤ n
  | [], hd, _ => by simpa only [mergeProps] using hd
  | (k, v) :: l, hd, hs => by
    simp only [rankMap, Nat.max_le] at hs
    have hput : ∀ x : Schema, x.rank ≤ n → rankMap (GoMap.put d k x) ≤ n := by
      intro x hx
      rw [rankMap_le] at hd ⊢
      intro e he
      rcases GoMap.mem_of_mem_put he with rfl | he
      · exact hx
      · exact hd e he
    rw [mergeProps]
    cases hg : GoMap.get d k with
    | none => exact props_rank n _ l (hput v hs.1) hs.2
    | some x => exact props_rank n _ l (hput _ (into_rank n x v (rankMap_le.1 hd _ (get_mem hg)) hs.1)) hs.2
theorem addl_rank (n : Nat) (d : Option OrBool) : (s : Option OrBool) → rankOrBool d ≤ n → rankOrBool s ≤ n → rankOrBool (mergeAddl d s).1 ≤ n
  | none, hd, _ => by simpa only [mergeAddl] using hd
  | some (.mk a none), hd, hs => by
    simp only [mergeAddl]
    cases d with
    | none => exact hs
    | some o => exact hd
  | some (.mk a (some s)), hd, hs => by
    cases d with
    | none => simp only [mergeAddl]; exact hs
    | some o =>
      obtain ⟨b, x⟩ := o
      simp only [mergeAddl]
      have hs' : s.rank ≤ n := hs
      show (flattenInto (x.getD Schema.empty) s).1.rank ≤ n
      refine into_rank n _ s ?_ hs'
      cases x with
      | none => have := rank_pos s; have e : Schema.empty.rank = 1 := rfl; simp only [Option.getD_none]; omega
      | some x => exact hd
end

/-- What is left in allOf of a visited schema. -/
theorem visit_rank (s : Schema) : (visitAllOf s).1.rank ≤ s.rank := by
  obtain ⟨m, hm⟩ : ∃ m, s.rank = m + 1 := ⟨s.rank - 1, by have := rank_pos s; omega⟩
  rw [visitAllOf_eq, hm]
  have h := rank_le.1 (Nat.le_of_eq hm)
  exact all_rank _ _ _ (rank_le.2 ⟨Nat.zero_le _, h.2⟩) h.1

/-- The keywords that are never moved to an allOf member, apart from type and required. -/
structure Still (b : Base) : Prop where
  description : b.description = []
  title : b.title = ""
  nullable : b.nullable = false
  xPreserveUnknownFields : b.xPreserveUnknownFields = none
  xEmbeddedResource : b.xEmbeddedResource = false
  xIntOrString : b.xIntOrString = false
  xMapType : b.xMapType = none
  xValidations : b.xValidations = []

/-- Every member of allOf of a visited schema is a remainder. -/
structure Rem (c : Schema) : Prop where
  allOf : c.allOf = []
  type : c.base.type = ""
  required : c.base.required = []
  properties : c.properties = []
  additionalProperties : c.additionalProperties = none
  still : Still c.base

/-- Two flags that are set are the same. -/
theorem flag_rem (d s : Bool) : (mergeField true false d s).dstRem = false ∧ (mergeField true false d s).srcRem = false := by
  cases d <;> cases s <;> exact ⟨rfl, rfl⟩

theorem rem_remainders {d s c : Schema} (hc : c ∈ remainders d s) : Rem c := by
  rcases mem_remainders hc with rfl | rfl
  · exact ⟨rfl, rfl, rfl, rfl, rfl, ⟨rfl, rfl, (flag_rem ..).1, rfl, (flag_rem ..).1, (flag_rem ..).1, rfl, rfl⟩⟩
  · exact ⟨rfl, rfl, rfl, rfl, rfl, ⟨rfl, rfl, (flag_rem ..).2, rfl, (flag_rem ..).2, (flag_rem ..).2, rfl, rfl⟩⟩

mutual
theorem into_rem (d : Schema) : (s : Schema) → (∀ c ∈ d.allOf, Rem c) → ∀ c ∈ (flattenInto d s).1.allOf, Rem c
  | .mk b it al oo an nt pr ad pa de ai df, hd => by
    have h1 := all_rem d al hd
    rw [flattenInto_eq]
    intro c hc
    rcases List.mem_append.1 hc with hc | hc
    · exact h1 c hc
    · exact rem_remainders hc
theorem all_rem (d : Schema) : (l : List Schema) → (∀ c ∈ d.allOf, Rem c) → ∀ c ∈ (flattenAllInto d l).1.allOf, Rem c
  | [], hd => by simpa only [flattenAllInto] using hd
  | s :: l, hd => by
    simp only [flattenAllInto]
    exact all_rem _ l (into_rem d s hd)
end

theorem visit_rem (s : Schema) : ∀ c ∈ (visitAllOf s).1.allOf, Rem c := by
  rw [visitAllOf_eq]
  exact all_rem _ _ (by simp [Schema.allOf_mk])

section
variable {ε : Type} {f g : Schema → Schema × List ε}

theorem mapSlice_congr {l : List Schema} (h : ∀ c ∈ l, f c = g c) : mapSlice f l = mapSlice g l := by
  induction l with
  | nil => rfl
  | cons s l ih =>
    have := ih fun c hc => h c (by simp [hc])
    simp only [mapSlice, Prod.mk.injEq] at this ⊢
    simp only [List.map_cons, List.flatMap_cons, h s (by simp), this, and_self]

theorem mapOpt_congr {o : Option Schema} (h : ∀ c, o = some c → f c = g c) : mapOpt f o = mapOpt g o := by
  cases o with
  | none => rfl
  | some s => simp only [mapOpt, h s rfl]

theorem mapMap_congr {l : List (String × Schema)} (h : ∀ e ∈ l, f e.2 = g e.2) : mapMap f l = mapMap g l := by
  induction l with
  | nil => rfl
  | cons s l ih =>
    have := ih fun c hc => h c (by simp [hc])
    simp only [mapMap, Prod.mk.injEq] at this ⊢
    simp only [List.map_cons, List.flatMap_cons, h s (by simp), this, and_self]

theorem mapOrBool_congr {o : Option OrBool} (h : ∀ x, o = some x → ∀ c, x.schema = some c → f c = g c) : mapOrBool f o = mapOrBool g o := by
  cases o with
  | none => rfl
  | some o =>
    obtain ⟨b, s⟩ := o
    have e := mapOpt_congr (h _ rfl)
    simp only [OrBool.schema] at e
    simp only [mapOrBool, e]

theorem mapItems_congr {o : Option Items} (h : ∀ x, o = some x → (∀ c, x.schema = some c → f c = g c) ∧ ∀ c ∈ x.arr, f c = g c) : mapItems f o = mapItems g o := by
  cases o with
  | none => rfl
  | some o =>
    obtain ⟨s, l⟩ := o
    have e := mapOpt_congr (h _ rfl).1
    have e' := mapSlice_congr (h _ rfl).2
    simp only [Items.schema, Items.arr] at e e'
    simp only [mapItems, e, e']

theorem mapDeps_congr {l : List (String × OrArray)} (h : ∀ e ∈ l, ∀ c, e.2.schema = some c → f c = g c) : mapDeps f l = mapDeps g l := by
  induction l with
  | nil => rfl
  | cons e l ih =>
    obtain ⟨k, s, p⟩ := e
    have h1 := ih fun c hc => h c (by simp [hc])
    have h2 := mapOpt_congr (h (k, .mk s p) (by simp))
    simp only [OrArray.schema] at h2
    simp only [mapDeps, Prod.mk.injEq] at h1 ⊢
    simp only [List.map_cons, List.flatMap_cons, h1, h2, and_self]

theorem mapChildren_congr {s : Schema} (h : ∀ c, Child s c → f c = g c) : mapChildren f s = mapChildren g s := by
  obtain ⟨b, it, al, oo, an, nt, pr, ad, pa, de, ai, df⟩ := s
  have h1 : mapItems f it = mapItems g it := mapItems_congr fun x hx => ⟨fun c hc => h c (.items hx hc), fun c hc => h c (.itemsArr hx hc)⟩
  have h2 : mapSlice f al = mapSlice g al := mapSlice_congr fun c hc => h c (.allOf hc)
  have h3 : mapSlice f oo = mapSlice g oo := mapSlice_congr fun c hc => h c (.oneOf hc)
  have h4 : mapSlice f an = mapSlice g an := mapSlice_congr fun c hc => h c (.anyOf hc)
  have h5 : mapOpt f nt = mapOpt g nt := mapOpt_congr fun c hc => h c (.not hc)
  have h6 : mapMap f pr = mapMap g pr := mapMap_congr fun c hc => h _ (.property (k := c.1) hc)
  have h7 : mapOrBool f ad = mapOrBool g ad := mapOrBool_congr fun x hx c hc => h c (.additionalProperties hx hc)
  have h8 : mapMap f pa = mapMap g pa := mapMap_congr fun c hc => h _ (.patternProperty (k := c.1) hc)
  have h9 : mapDeps f de = mapDeps g de := mapDeps_congr fun e he c hc => h c (.dependency (k := e.1) he hc)
  have h10 : mapOrBool f ai = mapOrBool g ai := mapOrBool_congr fun x hx c hc => h c (.additionalItems hx hc)
  have h11 : mapMap f df = mapMap g df := mapMap_congr fun c hc => h _ (.definition (k := c.1) hc)
  simp only [mapChildren, h1, h2, h3, h4, h5, h6, h7, h8, h9, h10, h11]
end

/-- Walking deeper than the depth of the schema makes no difference. -/
theorem walk_stable (n : Nat) : ∀ s : Schema, (2 * s.rank ≤ n ∨ (s.allOf = [] ∧ 2 * s.rank ≤ n + 1)) → walkAllOf n s = walkAllOf (n + 1) s := by
  induction n with
  | zero => intro s h; have := rank_pos s; omega
  | succ n ih =>
    intro s h
    have hr := visit_rank s
    have hc : mapChildren (walkAllOf n) (visitAllOf s).1 = mapChildren (walkAllOf (n + 1)) (visitAllOf s).1 := by
      refine mapChildren_congr fun c hc => ih c ?_
      rcases rank_child hc with h1 | ⟨h1, h2⟩
      · left; omega
      · have h3 := (visit_rem s c h2).allOf
        rcases h with h | ⟨h0, h⟩
        · right; exact ⟨h3, by omega⟩
        · rw [visit_flat h0] at h2
          simp [h0] at h2
    rw [walkAllOf, walkAllOf, hc]

theorem walk_enough (s : Schema) (n : Nat) (h : 2 * s.rank ≤ n) : walkAllOf n s = flattenEmbedded s := by
  unfold flattenEmbedded
  induction h with
  | refl => rfl
  | step h ih => rw [← ih]; exact (walk_stable _ s (.inl h)).symm

end Verif.Crd

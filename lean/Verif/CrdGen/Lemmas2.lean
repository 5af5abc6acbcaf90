import Verif.CrdGen.Lemmas

/-! # Lemmas on CRD markers: all packages of a kind -/
namespace Verif.CrdGen
open Spec

theorem events_eq (σ : Sched) (t : Nat) (e : Entry) (es : List Entry) :
    events σ t (e :: es) = (own σ t e).map (fun m => (e.version, m)) ++ events σ (t + 1) es := by
  rw [events, own, List.map_flatMap]

theorem mem_events {σ : Sched} {t : Nat} {es : List Entry} {v : String} {m : Marker} :
    (v, m) ∈ events σ t es ↔ ∃ e ∈ es, e.version = v ∧ On e m := by
  induction es generalizing t with
  | nil => simp [events]
  | cons e es ih =>
    rw [events_eq, List.mem_append, ih]
    simp only [List.mem_map, mem_own, Prod.mk.injEq, List.mem_cons, exists_eq_or_imp]
    constructor
    · rintro (⟨m', h, rfl, rfl⟩ | h)
      · exact .inl ⟨rfl, h⟩
      · exact .inr h
    · rintro (⟨h1, h2⟩ | h)
      · exact .inl ⟨m, h2, h1, rfl⟩
      · exact .inr h

theorem ofVersion_nil {v : String} {σ : Sched} {t : Nat} {es : List Entry} (h : ∀ e ∈ es, e.version ≠ v) : ofVersion v (events σ t es) = [] := by
  refine List.filterMap_eq_nil_iff.2 fun ev hev => ?_
  obtain ⟨v', m⟩ := ev
  obtain ⟨e, he, hv, _⟩ := mem_events.1 hev
  have := h e he
  rw [hv] at this
  simp only [if_neg (Ne.symm this)]

theorem ofVersion_own_same (v : String) (l : List Marker) : ofVersion v (l.map fun m => (v, m)) = l := by
  induction l with
  | nil => rfl
  | cons m l ih =>
    simp only [ofVersion, List.map_cons, List.filterMap_cons, if_true] at ih ⊢
    rw [ih]

theorem ofVersion_own_other {v v' : String} (h : v ≠ v') (l : List Marker) : ofVersion v (l.map fun m => (v', m)) = [] := by
  induction l with
  | nil => rfl
  | cons m l ih =>
    simp only [ofVersion, List.map_cons, List.filterMap_cons, h, if_false] at ih ⊢
    exact ih

theorem ofVersion_append (v : String) (a b : List (String × Marker)) : ofVersion v (a ++ b) = ofVersion v a ++ ofVersion v b :=
  List.filterMap_append ..

/-- The markers applied with the version of a package are those of its type. -/
theorem ofVersion_events {σ : Sched} {t : Nat} {es : List Entry} (hd : DistinctVersions es) {e : Entry} (he : e ∈ es) :
    ∃ t', ofVersion e.version (events σ t es) = own σ t' e := by
  induction es generalizing t with
  | nil => cases he
  | cons e' es ih =>
    have hd' := List.nodup_cons.1 (show (e'.version :: es.map (·.version)).Nodup from hd)
    rw [events_eq, ofVersion_append]
    rcases List.mem_cons.1 he with rfl | he
    · refine ⟨t, ?_⟩
      rw [ofVersion_own_same, ofVersion_nil, List.append_nil]
      intro e' he' hv
      exact hd'.1 (hv ▸ List.mem_map_of_mem he')
    · obtain ⟨t', ht'⟩ := ih (t := t + 1) hd'.2 he
      refine ⟨t', ?_⟩
      rw [ofVersion_own_other, List.nil_append, ht']
      intro hv
      exact hd'.1 (hv ▸ List.mem_map_of_mem he)

theorem version_inj {es : List Entry} (hd : DistinctVersions es) {a b : Entry} (ha : a ∈ es) (hb : b ∈ es) (h : a.version = b.version) : a = b := by
  induction es with
  | nil => cases ha
  | cons x es ih =>
    have hd' := List.nodup_cons.1 (show (x.version :: es.map (·.version)).Nodup from hd)
    rcases List.mem_cons.1 ha with ha | ha
    · rcases List.mem_cons.1 hb with hb | hb
      · exact ha.trans hb.symm
      · exact (hd'.1 (by rw [← ha, h]; exact List.mem_map_of_mem hb)).elim
    · rcases List.mem_cons.1 hb with hb | hb
      · exact (hd'.1 (by rw [← hb, ← h]; exact List.mem_map_of_mem ha)).elim
      · exact ih hd'.2 ha hb

theorem drops_any {σ : Sched} {t : Nat} {es : List Entry} (hd : DistinctVersions es) {e : Entry} (he : e ∈ es) :
    (events σ t es).any (drops e.version) = true ↔ Skipped e := by
  rw [List.any_eq_true]
  constructor
  · rintro ⟨⟨v, m⟩, hev, hdr⟩
    simp only [drops, decide_eq_true_eq] at hdr
    obtain ⟨rfl, rfl, hne⟩ := hdr
    obtain ⟨e', he', hv, hon⟩ := mem_events.1 hev
    have : e' = e := version_inj hd he' he hv
    exact ⟨hne, this ▸ hon⟩
  · intro h
    exact ⟨(e.version, .skipVersion), mem_events.2 ⟨e, he, rfl, h.2⟩, by simp [drops, h.1]⟩
/-! ## Names -/

theorem apply_frame {m : Marker} {v : String} {crd : Crd} {a : Applied} (h : apply m v crd = some a) (hr : ∀ r, m ≠ .resource r) :
    a.crd.names = crd.names ∧ a.crd.scope = crd.scope ∧ a.crd.group = crd.group := by
  have hE : ∀ {what v f}, (orError what v f crd).crd.names = crd.names ∧ (orError what v f crd).crd.scope = crd.scope ∧ (orError what v f crd).crd.group = crd.group := by
    intro what v f; unfold orError; split <;> exact ⟨rfl, rfl, rfl⟩
  have hN : ∀ {v f}, (orNothing v f crd).crd.names = crd.names ∧ (orNothing v f crd).crd.scope = crd.scope ∧ (orNothing v f crd).crd.group = crd.group := by
    intro v f; unfold orNothing; split <;> exact ⟨rfl, rfl, rfl⟩
  cases m with
  | resource r => exact (hr r rfl).elim
  | metadata an la =>
    simp only [apply, setMetadata] at h
    split at h
    · cases h; exact ⟨rfl, rfl, rfl⟩
    · split at h
      · cases h
      · cases h; exact ⟨rfl, rfl, rfl⟩
  | status => cases h; exact hE
  | scale s => cases h; exact hE
  | printColumn c => cases h; exact hE
  | selectableField p => cases h; exact hE
  | unservedVersion => cases h; exact hN
  | storageVersion => cases h; split <;> first | exact ⟨rfl, rfl, rfl⟩ | exact hN
  | deprecatedVersion x => cases h; split <;> first | exact ⟨rfl, rfl, rfl⟩ | exact hN
  | skipVersion => cases h; split <;> exact ⟨rfl, rfl, rfl⟩
  | other => cases h; exact ⟨rfl, rfl, rfl⟩

/-- The names and the scope of the two are the same. -/
def SameNames (c c' : Crd) : Prop := c.names = c'.names ∧ c.scope = c'.scope ∧ c.group = c'.group

theorem setResource_names {r : Resource} {c c' : Crd} (h : SameNames c c') : SameNames (setResource r c) (setResource r c') := by
  obtain ⟨h1, h2, h3⟩ := h
  unfold SameNames setResource
  rw [h1, h3]
  exact ⟨rfl, rfl, rfl⟩

theorem setResource_twice (r : Resource) (c : Crd) : SameNames (setResource r (setResource r c)) (setResource r c) := by
  refine ⟨?_, rfl, rfl⟩
  unfold setResource
  simp only
  split <;> split <;> rfl

theorem applyAll_names {es : List (String × Marker)} {crd crd' : Crd} {errs errs' : List Err} (h : applyAll es crd errs = some (crd', errs'))
    (hr : ∀ v r, (v, .resource r) ∉ es) : SameNames crd' crd := by
  induction es generalizing crd errs with
  | nil => cases h; exact ⟨rfl, rfl, rfl⟩
  | cons e es ih =>
    obtain ⟨v, m⟩ := e
    rw [applyAll] at h
    split at h
    · cases h
    · rename_i a ha
      have h1 := apply_frame ha (fun r e => hr v r (by rw [← e]; exact List.mem_cons_self ..))
      have h2 := ih h (fun v r h => hr v r (List.mem_cons_of_mem _ h))
      exact ⟨h2.1.trans h1.1, h2.2.1.trans h1.2.1, h2.2.2.trans h1.2.2⟩

/-- No marker changes the group or the kinds. -/
theorem applyAll_kinds {es : List (String × Marker)} {crd crd' : Crd} {errs errs' : List Err} (h : applyAll es crd errs = some (crd', errs')) :
    crd'.group = crd.group ∧ crd'.names.kind = crd.names.kind ∧ crd'.names.listKind = crd.names.listKind := by
  induction es generalizing crd errs with
  | nil => cases h; exact ⟨rfl, rfl, rfl⟩
  | cons e es ih =>
    obtain ⟨v, m⟩ := e
    rw [applyAll] at h
    split at h
    · cases h
    · rename_i a ha
      have h2 := ih h
      by_cases hm : ∃ r, m = .resource r
      · obtain ⟨r, rfl⟩ := hm
        cases ha
        exact h2
      · have h1 := apply_frame ha (fun r e => hm ⟨r, e⟩)
        rw [h1.1, h1.2.2] at h2
        exact h2

theorem applyAll_resource {es : List (String × Marker)} {crd crd' : Crd} {errs errs' : List Err} {r : Resource} (h : applyAll es crd errs = some (crd', errs'))
    (hr : ∀ v r', (v, .resource r') ∈ es → r' = r) (hex : ∃ v, (v, .resource r) ∈ es) : SameNames crd' (setResource r crd) := by
  induction es generalizing crd errs with
  | nil => obtain ⟨v, hv⟩ := hex; cases hv
  | cons e es ih =>
    obtain ⟨v, m⟩ := e
    rw [applyAll] at h
    split at h
    · cases h
    · rename_i a ha
      by_cases hm : ∃ r', m = .resource r'
      · obtain ⟨r', rfl⟩ := hm
        have : r' = r := hr v r' (List.mem_cons_self ..)
        subst this
        cases ha
        by_cases hex' : ∃ v, (v, .resource r') ∈ es
        · have h1 := ih h (fun v r h => hr v r (List.mem_cons_of_mem _ h)) hex'
          have h2 := setResource_twice r' crd
          exact ⟨h1.1.trans h2.1, h1.2.1.trans h2.2.1, h1.2.2.trans h2.2.2⟩
        · refine applyAll_names h fun v r'' hin => hex' ⟨v, ?_⟩
          have : r'' = r' := hr v r'' (List.mem_cons_of_mem _ hin)
          exact this ▸ hin
      · have h1 := apply_frame ha (fun r e => hm ⟨r, e⟩)
        have hex' : ∃ v, (v, .resource r) ∈ es := by
          obtain ⟨v', hv'⟩ := hex
          rcases List.mem_cons.1 hv' with e | hin
          · cases e; exact (hm ⟨_, rfl⟩).elim
          · exact ⟨v', hin⟩
        have h2 := ih h (fun v r h => hr v r (List.mem_cons_of_mem _ h)) hex'
        have h3 := setResource_names (r := r) h1
        exact ⟨h2.1.trans h3.1, h2.2.1.trans h3.2.1, h2.2.2.trans h3.2.2⟩

/-! ## Metadata -/

theorem keyValue_none {s : String} : keyValue s = none ↔ Malformed s := by
  rw [keyValue, Option.map_eq_none_iff, Text.cut_none]; rfl

theorem keyValue_some {s k v : String} : keyValue s = some (k, v) ↔ Pair s k v := by
  rw [keyValue, Option.map_eq_some_iff]
  constructor
  · rintro ⟨⟨a, b⟩, hc, he⟩
    obtain ⟨h1, h2⟩ := Text.cut_some.1 hc
    simp only [Prod.mk.injEq] at he
    obtain ⟨rfl, rfl⟩ := he
    exact ⟨by simpa using h1, by simpa using h2⟩
  · rintro ⟨h1, h2⟩
    exact ⟨(k.toList, v.toList), Text.cut_some.2 ⟨h1, h2⟩, by simp⟩

instance (s : String) : Decidable (Malformed s) := inferInstanceAs (Decidable ('=' ∉ s.toList))

/-- The texts before the first malformed one. -/
def good (l : List String) : List String := l.takeWhile fun s => decide (¬ Malformed s)

theorem addAnnotations_spec (l : List String) (m : List (String × String)) :
    (addAnnotations l m).2 = l.find? (fun s => decide (Malformed s)) ∧
    (∀ k v, GoMap.get (addAnnotations l m).1 k = some v → GoMap.get m k = some v ∨ ∃ s ∈ good l, Pair s k v) ∧
    (∀ s ∈ good l, ∀ k v, Pair s k v → ∃ v', GoMap.get (addAnnotations l m).1 k = some v') ∧
    (∀ k v, GoMap.get m k = some v → ∃ v', GoMap.get (addAnnotations l m).1 k = some v') := by
  induction l generalizing m with
  | nil =>
    refine ⟨rfl, fun k v h => .inl h, fun s hs => ?_, fun k v h => ⟨v, h⟩⟩
    cases hs
  | cons s ss ih =>
    cases hk : keyValue s with
    | none =>
      have hm := keyValue_none.1 hk
      simp only [addAnnotations, hk, good, List.takeWhile_cons, List.find?_cons, hm, not_true_eq_false, decide_false, decide_true]
      refine ⟨trivial, fun k v h => .inl h, fun s hs => ?_, fun k v h => ⟨v, h⟩⟩
      cases hs
    | some p =>
      obtain ⟨k, v⟩ := p
      have hp := keyValue_some.1 hk
      have hm : ¬ Malformed s := fun h => by rw [keyValue_none.2 h] at hk; cases hk
      have hg : good (s :: ss) = s :: good ss := by simp [good, List.takeWhile_cons, hm]
      simp only [addAnnotations, hk, hg, List.find?_cons, hm, decide_false]
      obtain ⟨i1, i2, i3, i4⟩ := ih (GoMap.put m k v)
      have hput : GoMap.get (GoMap.put m k v) k = some v := by rw [GoMap.get_put]; simp
      refine ⟨i1, ?_, ?_, ?_⟩
      · intro k' v' h
        rcases i2 k' v' h with h | ⟨s', hs', hp'⟩
        · rw [GoMap.get_put] at h
          split at h
          · rename_i e; cases h; subst e; exact .inr ⟨s, List.mem_cons_self .., hp⟩
          · exact .inl h
        · exact .inr ⟨s', List.mem_cons_of_mem _ hs', hp'⟩
      · intro s' hs' k' v' hp'
        rcases List.mem_cons.1 hs' with rfl | hs'
        · have : (k', v') = (k, v) := Option.some.inj ((keyValue_some.2 hp').symm.trans hk)
          cases this
          exact i4 _ _ hput
        · exact i3 s' hs' k' v' hp'
      · intro k' v' h
        by_cases e : k = k'
        · subst e; exact i4 _ _ hput
        · refine i4 k' v' ?_
          rw [GoMap.get_put]
          split
          · rename_i e'; exact (e (by rw [e'])).elim
          · exact h

theorem addLabels_none {l : List String} {m : List (String × String)} : addLabels l m = none ↔ ∃ s ∈ l, Malformed s := by
  induction l generalizing m with
  | nil => simp [addLabels]
  | cons s ss ih =>
    cases hk : keyValue s with
    | none => simp [addLabels, hk, keyValue_none.1 hk]
    | some p =>
      have hm : ¬ Malformed s := fun h => by rw [keyValue_none.2 h] at hk; cases hk
      simp [addLabels, hk, ih, hm]

/-- Labels are added as annotations are. -/
theorem addLabels_some {l : List String} {m m' : List (String × String)} (h : addLabels l m = some m') : addAnnotations l m = (m', none) ∧ good l = l := by
  induction l generalizing m with
  | nil => cases h; exact ⟨rfl, rfl⟩
  | cons s ss ih =>
    cases hk : keyValue s with
    | none => simp [addLabels, hk] at h
    | some p =>
      have hm : ¬ Malformed s := fun h => by rw [keyValue_none.2 h] at hk; cases hk
      simp only [addLabels, hk] at h
      simp only [addAnnotations, hk]
      have := ih h
      refine ⟨this.1, ?_⟩
      rw [good, List.takeWhile_cons]
      simp only [hm, not_false_eq_true, decide_true, if_true]
      rw [show List.takeWhile (fun s => decide (¬ Malformed s)) ss = ss from this.2]

/-- A marker that crashes. -/
def Crashes (m : Marker) : Prop := ∃ a l, m = .metadata a l ∧ (∀ s ∈ a, ¬ Malformed s) ∧ ∃ s ∈ l, Malformed s

theorem apply_eq_none {m : Marker} {v : String} {crd : Crd} : apply m v crd = none ↔ Crashes m := by
  cases m with
  | metadata a l =>
    simp only [apply, setMetadata]
    have hs := (addAnnotations_spec a crd.annotations).1
    constructor
    · intro h
      split at h
      · cases h
      · rename_i an heq
        split at h
        · rename_i hl
          refine ⟨a, l, rfl, ?_, addLabels_none.1 hl⟩
          rw [heq] at hs
          simpa using hs.symm
        · cases h
    · rintro ⟨a', l', he, ha, hl⟩
      cases he
      have hnone : (addAnnotations a crd.annotations).2 = none := by
        rw [hs]; simpa using ha
      split
      · rename_i heq; rw [heq] at hnone; cases hnone
      · rw [addLabels_none.2 hl]
  | _ => constructor <;> intro h <;> first | (cases h; done) | (obtain ⟨a, l, he, _⟩ := h; cases he)

theorem applyAll_none {es : List (String × Marker)} {crd : Crd} {errs : List Err} : applyAll es crd errs = none ↔ ∃ ev ∈ es, Crashes ev.2 := by
  induction es generalizing crd errs with
  | nil => simp [applyAll]
  | cons e es ih =>
    obtain ⟨v, m⟩ := e
    rw [applyAll]
    cases ha : apply m v crd with
    | none => simp [apply_eq_none.1 ha]
    | some a =>
      have : ¬ Crashes m := fun h => by rw [apply_eq_none.2 h] at ha; cases ha
      simp only [ih, List.mem_cons, exists_eq_or_imp, this, false_or]

/-- The annotations a marker adds. -/
def anns : Marker → List String
  | .metadata a _ => good a
  | _ => []

/-- The labels a marker adds. -/
def labs : Marker → List String
  | .metadata a l => if a.any (fun s => decide (Malformed s)) then [] else l
  | _ => []

theorem apply_meta {m : Marker} {v : String} {crd : Crd} {a : Applied} (h : apply m v crd = some a) :
    ((∀ k v, GoMap.get a.crd.annotations k = some v → GoMap.get crd.annotations k = some v ∨ ∃ s ∈ anns m, Pair s k v) ∧
    (∀ s ∈ anns m, ∀ k v, Pair s k v → ∃ v', GoMap.get a.crd.annotations k = some v') ∧
    (∀ k v, GoMap.get crd.annotations k = some v → ∃ v', GoMap.get a.crd.annotations k = some v')) ∧
    ((∀ k v, GoMap.get a.crd.labels k = some v → GoMap.get crd.labels k = some v ∨ ∃ s ∈ labs m, Pair s k v) ∧
    (∀ s ∈ labs m, ∀ k v, Pair s k v → ∃ v', GoMap.get a.crd.labels k = some v') ∧
    (∀ k v, GoMap.get crd.labels k = some v → ∃ v', GoMap.get a.crd.labels k = some v')) := by
  have htriv : ∀ c : Crd, c.annotations = crd.annotations → c.labels = crd.labels → anns m = [] → labs m = [] → c = a.crd →
      ((∀ k v, GoMap.get a.crd.annotations k = some v → GoMap.get crd.annotations k = some v ∨ ∃ s ∈ anns m, Pair s k v) ∧
      (∀ s ∈ anns m, ∀ k v, Pair s k v → ∃ v', GoMap.get a.crd.annotations k = some v') ∧
      (∀ k v, GoMap.get crd.annotations k = some v → ∃ v', GoMap.get a.crd.annotations k = some v')) ∧
      ((∀ k v, GoMap.get a.crd.labels k = some v → GoMap.get crd.labels k = some v ∨ ∃ s ∈ labs m, Pair s k v) ∧
      (∀ s ∈ labs m, ∀ k v, Pair s k v → ∃ v', GoMap.get a.crd.labels k = some v') ∧
      (∀ k v, GoMap.get crd.labels k = some v → ∃ v', GoMap.get a.crd.labels k = some v')) := by
    intro c h1 h2 h3 h4 h5
    rw [← h5, h1, h2, h3, h4]
    exact ⟨⟨fun k v h => .inl h, fun s hs => (by cases hs), fun k v h => ⟨v, h⟩⟩, ⟨fun k v h => .inl h, fun s hs => (by cases hs), fun k v h => ⟨v, h⟩⟩⟩
  have hE : ∀ {what v f}, (orError what v f crd).crd.annotations = crd.annotations ∧ (orError what v f crd).crd.labels = crd.labels := by
    intro what v f; unfold orError; split <;> exact ⟨rfl, rfl⟩
  have hN : ∀ {v f}, (orNothing v f crd).crd.annotations = crd.annotations ∧ (orNothing v f crd).crd.labels = crd.labels := by
    intro v f; unfold orNothing; split <;> exact ⟨rfl, rfl⟩
  cases m with
  | status => cases h; exact htriv _ hE.1 hE.2 rfl rfl rfl
  | scale s => cases h; exact htriv _ hE.1 hE.2 rfl rfl rfl
  | printColumn c => cases h; exact htriv _ hE.1 hE.2 rfl rfl rfl
  | selectableField p => cases h; exact htriv _ hE.1 hE.2 rfl rfl rfl
  | unservedVersion => cases h; exact htriv _ hN.1 hN.2 rfl rfl rfl
  | storageVersion => cases h; refine htriv _ ?_ ?_ rfl rfl rfl <;> split <;> first | rfl | exact hN.1 | exact hN.2
  | deprecatedVersion x => cases h; refine htriv _ ?_ ?_ rfl rfl rfl <;> split <;> first | rfl | exact hN.1 | exact hN.2
  | skipVersion => cases h; refine htriv _ ?_ ?_ rfl rfl rfl <;> split <;> rfl
  | resource r => cases h; exact htriv (setResource r crd) rfl rfl rfl rfl rfl
  | other => cases h; exact htriv _ rfl rfl rfl rfl rfl
  | metadata an la =>
    obtain ⟨s1, s2, s3, s4⟩ := addAnnotations_spec an crd.annotations
    simp only [apply, setMetadata] at h
    split at h
    · rename_i m' bad heq
      cases h
      rw [heq] at s1 s2 s3 s4
      have hbad : an.any (fun s => decide (Malformed s)) = true := by
        obtain ⟨h1, h2⟩ := List.find?_eq_some_iff_append.1 s1.symm
        obtain ⟨as, bs, rfl, _⟩ := h2
        simp at h1; simp [h1]
      have hlabs : labs (.metadata an la) = [] := by simp only [labs, hbad, if_true]
      rw [hlabs]
      exact ⟨⟨s2, s3, s4⟩, ⟨fun k v h => .inl h, fun s hs => (by cases hs), fun k v h => ⟨v, h⟩⟩⟩
    · rename_i m' heq
      rw [heq] at s1 s2 s3 s4
      have hbad : an.any (fun s => decide (Malformed s)) = false := by
        have := List.find?_eq_none.1 s1.symm
        rw [List.any_eq_false]; exact this
      have hlabs : labs (.metadata an la) = la := by simp [labs, hbad]
      split at h
      · cases h
      · rename_i m'' hl
        cases h
        obtain ⟨l1, l2⟩ := addLabels_some hl
        obtain ⟨t1, t2, t3, t4⟩ := addAnnotations_spec la crd.labels
        rw [l1, l2] at t2 t3
        rw [l1] at t4
        rw [hlabs]
        exact ⟨⟨s2, s3, s4⟩, ⟨t2, t3, t4⟩⟩

theorem applyAll_meta {es : List (String × Marker)} {crd crd' : Crd} {errs errs' : List Err} (h : applyAll es crd errs = some (crd', errs')) :
    ((∀ k v, GoMap.get crd'.annotations k = some v → GoMap.get crd.annotations k = some v ∨ ∃ ev ∈ es, ∃ s ∈ anns ev.2, Pair s k v) ∧
    (∀ ev ∈ es, ∀ s ∈ anns ev.2, ∀ k v, Pair s k v → ∃ v', GoMap.get crd'.annotations k = some v') ∧
    (∀ k v, GoMap.get crd.annotations k = some v → ∃ v', GoMap.get crd'.annotations k = some v')) ∧
    ((∀ k v, GoMap.get crd'.labels k = some v → GoMap.get crd.labels k = some v ∨ ∃ ev ∈ es, ∃ s ∈ labs ev.2, Pair s k v) ∧
    (∀ ev ∈ es, ∀ s ∈ labs ev.2, ∀ k v, Pair s k v → ∃ v', GoMap.get crd'.labels k = some v') ∧
    (∀ k v, GoMap.get crd.labels k = some v → ∃ v', GoMap.get crd'.labels k = some v')) := by
  induction es generalizing crd errs with
  | nil =>
    cases h
    exact ⟨⟨fun k v h => .inl h, fun s hs => (by cases hs), fun k v h => ⟨v, h⟩⟩, ⟨fun k v h => .inl h, fun s hs => (by cases hs), fun k v h => ⟨v, h⟩⟩⟩
  | cons e es ih =>
    obtain ⟨v, m⟩ := e
    rw [applyAll] at h
    split at h
    · cases h
    · rename_i a ha
      obtain ⟨⟨a1, a2, a3⟩, ⟨b1, b2, b3⟩⟩ := apply_meta ha
      obtain ⟨⟨i1, i2, i3⟩, ⟨j1, j2, j3⟩⟩ := ih h
      refine ⟨⟨?_, ?_, ?_⟩, ⟨?_, ?_, ?_⟩⟩
      · intro k v' h
        rcases i1 k v' h with h | ⟨ev, hev, hs⟩
        · rcases a1 k v' h with h | hs
          · exact .inl h
          · exact .inr ⟨_, List.mem_cons_self .., hs⟩
        · exact .inr ⟨ev, List.mem_cons_of_mem _ hev, hs⟩
      · intro ev hev s hs k v' hp
        rcases List.mem_cons.1 hev with rfl | hev
        · obtain ⟨v'', h⟩ := a2 s hs k v' hp; exact i3 _ _ h
        · exact i2 ev hev s hs k v' hp
      · intro k v' h; obtain ⟨v'', h⟩ := a3 k v' h; exact i3 _ _ h
      · intro k v' h
        rcases j1 k v' h with h | ⟨ev, hev, hs⟩
        · rcases b1 k v' h with h | hs
          · exact .inl h
          · exact .inr ⟨_, List.mem_cons_self .., hs⟩
        · exact .inr ⟨ev, List.mem_cons_of_mem _ hev, hs⟩
      · intro ev hev s hs k v' hp
        rcases List.mem_cons.1 hev with rfl | hev
        · obtain ⟨v'', h⟩ := b2 s hs k v' hp; exact j3 _ _ h
        · exact j2 ev hev s hs k v' hp
      · intro k v' h; obtain ⟨v'', h⟩ := b3 k v' h; exact j3 _ _ h

/-! ## Errors -/

/-- The error of a marker whose version is there. -/
def staticErr (ev : String × Marker) : Option Err :=
  match ev.2 with
  | .skipVersion => if ev.1 = "" then some .skipSingle else none
  | .metadata a _ => (a.find? fun s => decide (Malformed s)).map .badAnnotation
  | _ => none

instance (m : Marker) : Decidable (NeedsVersion m) := by
  cases m <;> simp only [NeedsVersion] <;> infer_instance

theorem apply_err {m : Marker} {v : String} {crd : Crd} {a : Applied} (hn : (crd.versions.map (·.name)).Nodup) (h : apply m v crd = some a)
    (hv : NeedsVersion m → v ∈ crd.versions.map (·.name)) : a.err = staticErr (v, m) := by
  cases m with
  | status => cases h; rw [(orError_versions hn).2, if_pos (hv trivial)]; rfl
  | scale s => cases h; rw [(orError_versions hn).2, if_pos (hv trivial)]; rfl
  | printColumn c => cases h; rw [(orError_versions hn).2, if_pos (hv trivial)]; rfl
  | selectableField p => cases h; rw [(orError_versions hn).2, if_pos (hv trivial)]; rfl
  | unservedVersion => cases h; exact (orNothing_versions hn).2
  | storageVersion => cases h; split <;> first | rfl | exact (orNothing_versions hn).2
  | deprecatedVersion x => cases h; split <;> first | rfl | exact (orNothing_versions hn).2
  | skipVersion => cases h; simp only [staticErr]; split <;> rfl
  | resource r => cases h; rfl
  | other => cases h; rfl
  | metadata an la =>
    have s1 := (addAnnotations_spec an crd.annotations).1
    simp only [apply, setMetadata] at h
    split at h
    · rename_i heq
      cases h
      rw [heq] at s1
      simp only [staticErr, ← s1, Option.map_some]
    · rename_i heq
      rw [heq] at s1
      split at h
      · cases h
      · cases h
        simp only [staticErr, ← s1, Option.map_none]

theorem apply_names_nodup {m : Marker} {v : String} {crd : Crd} {a : Applied} (hn : (crd.versions.map (·.name)).Nodup) (h : apply m v crd = some a) :
    (a.crd.versions.map (·.name)) = (crd.versions.filter fun w => !drops w.name (v, m)).map (·.name) ∧ (a.crd.versions.map (·.name)).Nodup := by
  have hnames : (a.crd.versions.map (·.name)) = (crd.versions.filter fun w => !drops w.name (v, m)).map (·.name) := by
    rw [apply_versions hn h, List.map_map]
    refine List.map_congr_left fun w _ => ?_
    simp only [Function.comp]
    split
    · exact eff_name _ _
    · rfl
  exact ⟨hnames, by rw [hnames]; exact hn.sublist ((List.filter_sublist (l := crd.versions)).map _)⟩

theorem applyAll_errs {es : List (String × Marker)} {crd crd' : Crd} {errs errs' : List Err} (hn : (crd.versions.map (·.name)).Nodup)
    (h : applyAll es crd errs = some (crd', errs'))
    (hv : ∀ v m, (v, m) ∈ es → NeedsVersion m → v ∈ crd.versions.map (·.name) ∧ (v ≠ "" → (v, .skipVersion) ∉ es)) :
    errs' = errs ++ es.filterMap staticErr := by
  induction es generalizing crd errs with
  | nil => cases h; simp
  | cons e es ih =>
    obtain ⟨v, m⟩ := e
    rw [applyAll] at h
    split at h
    · cases h
    · rename_i a ha
      have he := apply_err hn ha (fun hm => (hv v m (List.mem_cons_self ..) hm).1)
      obtain ⟨hnames, hn'⟩ := apply_names_nodup hn ha
      have := ih hn' h (by
        intro v' m' hin hm'
        obtain ⟨h1, h2⟩ := hv v' m' (List.mem_cons_of_mem _ hin) hm'
        refine ⟨?_, fun hne hs => h2 hne (List.mem_cons_of_mem _ hs)⟩
        rw [hnames]
        obtain ⟨w, hw, hwv⟩ := List.mem_map.1 h1
        refine List.mem_map.2 ⟨w, List.mem_filter.2 ⟨hw, ?_⟩, hwv⟩
        simp only [drops, Bool.not_eq_true', decide_eq_false_iff_not, not_and]
        intro e1 e2 hne
        exact h2 (hwv ▸ hne) (by rw [← hwv, ← e1, ← e2]; exact List.mem_cons_self ..))
      rw [this, he, List.filterMap_cons]
      cases staticErr (v, m) <;> simp

end Verif.CrdGen

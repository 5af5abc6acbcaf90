import Verif.Crd.AllOfTheorems
import Verif.Crd.StructSpec

/-!
# Lemmas for C79: merging does not put more into allOf than it has to
-/
namespace Verif.Crd
open Spec

/-- What a schema has by itself. -/
def ownCount (F : Schema → Bool) (s : Schema) (p : List (Option String)) : Nat := if p = [] ∧ F s = true then 1 else 0

theorem tally_eq (F : Schema → Bool) (s : Schema) (p : List (Option String)) :
    tally F s p = ownCount F s p + tallyAll F s.allOf p + tallyProps F s.properties p + tallyAddl F s.additionalProperties p := by
  cases s; rw [tally]; rfl

/-- How a feature behaves when schemas are merged. -/
structure Feature (F : Schema → Bool) : Prop where
  merge : ∀ {d s pr ad}, F (mergeRest d s pr ad) = true → (F d = true ∨ F s = true) ∧ (F d = true → F s = true → False)
  rems : ∀ {d s}, F (dstRemainder d s) = F (srcRemainder d s)
  rem : ∀ {d s}, F (dstRemainder d s) = true → F d = true ∧ F s = true ∧ ∀ pr ad, F (mergeRest d s pr ad) = false
  bare : ∀ {s}, F (.mk s.base s.items [] s.oneOf s.anyOf s.not s.properties s.additionalProperties s.patternProperties s.dependencies s.additionalItems s.definitions) = F s
  map : ∀ {f : Schema → Schema × List (String × String)} {s}, F (mapChildren f s).1 = F s
  empty : F .empty = false

theorem countAll_append (F : Schema → Bool) (l l' : List Schema) (p : List (Option String)) : tallyAll F (l ++ l') p = tallyAll F l p + tallyAll F l' p := by
  induction l with
  | nil => simp [tallyAll]
  | cons s l ih => simp only [List.cons_append, tallyAll, ih]; omega

theorem countProps_put {F : Schema → Bool} {l : List (String × Schema)} {k : String} {x m : Schema} {p : List (Option String)} (hg : GoMap.get l k = some x) :
    tallyProps F (GoMap.put l k m) p + tallyProps F [(k, x)] p = tallyProps F l p + tallyProps F [(k, m)] p := by
  induction l with
  | nil => simp [GoMap.get] at hg
  | cons e l ih =>
    obtain ⟨k', v⟩ := e
    simp only [GoMap.get, GoMap.put] at hg ⊢
    split at hg
    · rename_i hk
      cases hg
      subst hk
      simp only [if_true, tallyProps]; omega
    · rename_i hk
      rw [if_neg hk]
      have := ih hg
      simp only [tallyProps] at this ⊢; omega

theorem countProps_put' {F : Schema → Bool} {l : List (String × Schema)} {k : String} {m : Schema} {p : List (Option String)} (hg : GoMap.get l k = none) :
    tallyProps F (GoMap.put l k m) p = tallyProps F l p + tallyProps F [(k, m)] p := by
  induction l with
  | nil => simp [GoMap.put, tallyProps]
  | cons e l ih =>
    obtain ⟨k', v⟩ := e
    simp only [GoMap.get, GoMap.put] at hg ⊢
    split at hg
    · simp at hg
    · rename_i hk
      rw [if_neg hk]
      have := ih hg
      simp only [tallyProps] at this ⊢; omega

theorem countProps_one {F : Schema → Bool} {k : String} {x : Schema} {p : List (Option String)} : tallyProps F [(k, x)] p = match p with | some k' :: q => if k' = k then tally F x q else 0 | _ => 0 := by
  cases p with
  | nil => simp [tallyProps]
  | cons a q => cases a <;> simp [tallyProps]

theorem tally_empty {F : Schema → Bool} (hF : Feature F) (p : List (Option String)) : tally F .empty p = 0 := by
  rw [tally_eq, ownCount, hF.empty]
  simp [Schema.empty, Schema.leaf, Schema.allOf, Schema.properties, Schema.additionalProperties, tallyAll, tallyProps, tallyAddl]

section
variable {F : Schema → Bool} (hF : Feature F)
include hF

omit hF in
theorem tally_rem {c : Schema} (h : Rem c) (p : List (Option String)) : tally F c p = ownCount F c p := by
  rw [tally_eq, h.allOf, h.properties, h.additionalProperties]
  simp [tallyAll, tallyProps, tallyAddl]

theorem tally_remainders (d s : Schema) (p : List (Option String)) :
    tallyAll F (remainders d s) p = 0 ∨ (p = [] ∧ tallyAll F (remainders d s) p = 2 ∧ F d = true ∧ F s = true ∧ ∀ pr ad, F (mergeRest d s pr ad) = false) := by
  unfold remainders
  split
  · rename_i hh
    have h1 : Rem (dstRemainder d s) := rem_remainders (d := d) (s := s) (by unfold remainders; rw [if_pos hh]; simp)
    have h2 : Rem (srcRemainder d s) := rem_remainders (d := d) (s := s) (by unfold remainders; rw [if_pos hh]; simp)
    simp only [tallyAll]
    rw [tally_rem h1, tally_rem h2, ownCount, ownCount, hF.rems]
    by_cases h : p = [] ∧ F (srcRemainder d s) = true
    · right
      obtain ⟨e1, e2, e3⟩ := hF.rem (d := d) (s := s) (by rw [hF.rems]; exact h.2)
      rw [if_pos h]
      exact ⟨h.1, rfl, e1, e2, e3⟩
    · left; rw [if_neg h]
  · exact .inl rfl

theorem tally_merge (d s : Schema) (pr : List (String × Schema)) (ad : Option OrBool) (p : List (Option String)) :
    ownCount F (mergeRest d s pr ad) p + tallyAll F (remainders d s) p ≤ ownCount F d p + ownCount F s p := by
  unfold ownCount
  rcases tally_remainders hF d s p with h | ⟨h0, h, h1, h2, h3⟩
  · rw [h]
    by_cases hp : p = []
    · simp only [hp, true_and]
      by_cases hm : F (mergeRest d s pr ad) = true
      · rw [if_pos hm]
        rcases (hF.merge hm).1 with h | h <;> rw [if_pos h] <;> omega
      · rw [if_neg hm]; omega
    · simp [hp]
  · rw [h, h1, h2, h3]; simp [h0]

mutual
theorem into_count (d : Schema) : (s : Schema) → ∀ p, tally F (flattenInto d s).1 p ≤ tally F d p + tally F s p
  | .mk b it al oo an nt pr ad pa de ai df, p => by
    have h1 := all_count d al p
    have h2 := props_count (flattenAllInto d al).1.properties pr p
    have h3 := addl_count (flattenAllInto d al).1.additionalProperties ad p
    rw [flattenInto_eq, tally_eq]
    rw [tally_eq F (flattenAllInto d al).1] at h1
    rw [tally_eq F (Schema.mk b it al oo an nt pr ad pa de ai df)]
    have h4 := tally_merge hF (flattenAllInto d al).1 (Schema.mk b it al oo an nt pr ad pa de ai df) (mergeProps (flattenAllInto d al).1.properties pr).1
      (mergeAddl (flattenAllInto d al).1.additionalProperties ad).1 p
    simp only [Schema.allOf_mk, Schema.properties_mk, Schema.additionalProperties_mk]
    have h5 : (mergeRest (flattenAllInto d al).1 (Schema.mk b it al oo an nt pr ad pa de ai df) (mergeProps (flattenAllInto d al).1.properties pr).1
      (mergeAddl (flattenAllInto d al).1.additionalProperties ad).1).allOf = (flattenAllInto d al).1.allOf ++ remainders (flattenAllInto d al).1 (Schema.mk b it al oo an nt pr ad pa de ai df) := rfl
    have h6 : (mergeRest (flattenAllInto d al).1 (Schema.mk b it al oo an nt pr ad pa de ai df) (mergeProps (flattenAllInto d al).1.properties pr).1
      (mergeAddl (flattenAllInto d al).1.additionalProperties ad).1).properties = (mergeProps (flattenAllInto d al).1.properties pr).1 := rfl
    have h7 : (mergeRest (flattenAllInto d al).1 (Schema.mk b it al oo an nt pr ad pa de ai df) (mergeProps (flattenAllInto d al).1.properties pr).1
      (mergeAddl (flattenAllInto d al).1.additionalProperties ad).1).additionalProperties = (mergeAddl (flattenAllInto d al).1.additionalProperties ad).1 := rfl
    rw [h5, h6, h7, countAll_append]
    omega
theorem all_count (d : Schema) : (l : List Schema) → ∀ p, tally F (flattenAllInto d l).1 p ≤ tally F d p + tallyAll F l p
  | [], p => by simp [flattenAllInto, tallyAll]
  | s :: l, p => by
    have h1 := into_count d s p
    have h2 := all_count (flattenInto d s).1 l p
    simp only [flattenAllInto, tallyAll]
    omega
theorem props_count (d : List (String × Schema)) : (s : List (String × Schema)) → ∀ p, tallyProps F (mergeProps d s).1 p ≤ tallyProps F d p + tallyProps F s p
  | [], p => by simp [mergeProps, tallyProps]
  | (k, v) :: l, p => by
    rw [mergeProps]
    have e : tallyProps F ((k, v) :: l) p = tallyProps F [(k, v)] p + tallyProps F l p := by simp only [tallyProps]; omega
    rw [e]
    cases hg : GoMap.get d k with
    | none =>
      have h1 := props_count (GoMap.put d k v) l p
      rw [countProps_put' hg] at h1
      simp only; omega
    | some x =>
      have h1 := props_count (GoMap.put d k (flattenInto x v).1) l p
      have h2 := countProps_put (F := F) (m := (flattenInto x v).1) (p := p) hg
      have h3 : tallyProps F [(k, (flattenInto x v).1)] p ≤ tallyProps F [(k, x)] p + tallyProps F [(k, v)] p := by
        simp only [countProps_one]
        split
        · split
          · exact into_count x v _
          · omega
        · omega
      simp only; omega
theorem addl_count (d : Option OrBool) : (s : Option OrBool) → ∀ p, tallyAddl F (mergeAddl d s).1 p ≤ tallyAddl F d p + tallyAddl F s p
  | none, p => by simp [mergeAddl, tallyAddl]
  | some (.mk a none), p => by
    cases d with
    | none => simp only [mergeAddl, Option.getD_none]; omega
    | some o => simp only [mergeAddl, Option.getD_some]; omega
  | some (.mk a (some s)), p => by
    cases d with
    | none => simp [mergeAddl]
    | some o =>
      obtain ⟨b, x⟩ := o
      cases x with
      | none =>
        simp only [mergeAddl, Option.getD_none, tallyAddl]
        split
        · rename_i q
          have := into_count .empty s q
          rw [tally_empty hF] at this
          omega
        · omega
      | some x =>
        simp only [mergeAddl, Option.getD_some, tallyAddl]
        split
        · exact into_count x s _
        · omega
end

end

/-! ## What is kept when no two schemas with the feature meet -/

/-- A property of schemas that is kept by merging when not both schemas have the feature. -/
structure KeptBy (F : Schema → Bool) (K : Schema → Prop) : Prop where
  merge : ∀ {d s}, K d → K s → ¬ (F d = true ∧ F s = true) →
    K (mergeRest d s (mergeProps d.properties s.properties).1 (mergeAddl d.additionalProperties s.additionalProperties).1)
  rem : ∀ {d s c}, K d → K s → ¬ (F d = true ∧ F s = true) → c ∈ remainders d s → K c
  bare : ∀ {s}, K s → K (.mk s.base s.items [] s.oneOf s.anyOf s.not s.properties s.additionalProperties s.patternProperties s.dependencies s.additionalItems s.definitions)
  empty : K .empty

/-- At most one schema with the feature for each path, and the property. -/
def One (F : Schema → Bool) (K : Schema → Prop) (s : Schema) : Prop := (∀ p, tally F s p ≤ 1) ∧ K s

theorem own_le_count {F : Schema → Bool} {s : Schema} (h : F s = true) : 1 ≤ tally F s [] := by
  rw [tally_eq, ownCount, if_pos ⟨rfl, h⟩]; omega

theorem countAll_mem {F : Schema → Bool} {l : List Schema} {c : Schema} (h : c ∈ l) (p : List (Option String)) : tally F c p ≤ tallyAll F l p := by
  induction l with
  | nil => simp at h
  | cons s l ih =>
    simp only [tallyAll]
    rcases List.mem_cons.1 h with rfl | h
    · omega
    · have := ih h; omega

theorem countProps_mem {F : Schema → Bool} {l : List (String × Schema)} {k : String} {c : Schema} (h : (k, c) ∈ l) (q : List (Option String)) :
    tally F c q ≤ tallyProps F l (some k :: q) := by
  induction l with
  | nil => simp at h
  | cons s l ih =>
    rcases List.mem_cons.1 h with h | h
    · subst h; simp only [tallyProps, if_true]; omega
    · have := ih h
      rw [tallyProps]; omega

section
variable {F : Schema → Bool} {K : Schema → Prop} (hF : Feature F) (hK : KeptBy F K)
include hF hK

omit hK in
theorem one_rem {c : Schema} (h : Rem c) (p : List (Option String)) : tally F c p ≤ 1 := by
  rw [tally_rem h, ownCount]; split <;> omega

omit hF hK in
theorem no_child_empty {c : Schema} (hc : Child Schema.empty c) : False := by
  cases hc with
  | items h1 h2 => simp [Schema.empty, Schema.leaf, Schema.items] at h1
  | itemsArr h1 h2 => simp [Schema.empty, Schema.leaf, Schema.items] at h1
  | allOf h => simp [Schema.empty, Schema.leaf, Schema.allOf] at h
  | oneOf h => simp [Schema.empty, Schema.leaf, Schema.oneOf] at h
  | anyOf h => simp [Schema.empty, Schema.leaf, Schema.anyOf] at h
  | not h => simp [Schema.empty, Schema.leaf, Schema.not] at h
  | property h => simp [Schema.empty, Schema.leaf, Schema.properties] at h
  | additionalProperties h1 h2 => simp [Schema.empty, Schema.leaf, Schema.additionalProperties] at h1
  | patternProperty h => simp [Schema.empty, Schema.leaf, Schema.patternProperties] at h
  | dependency h1 h2 => simp [Schema.empty, Schema.leaf, Schema.dependencies] at h1
  | additionalItems h1 h2 => simp [Schema.empty, Schema.leaf, Schema.additionalItems] at h1
  | definition h => simp [Schema.empty, Schema.leaf, Schema.definitions] at h

mutual
theorem into_one (d : Schema) : (s : Schema) → K d → (∀ c, Child d c → AllSub (One F K) c) → AllSub (One F K) s → (∀ p, tally F d p + tally F s p ≤ 1) →
    AllSub (One F K) (flattenInto d s).1
  | .mk b it al oo an nt pr ad pa de ai df, hd0, hd, hs, hp => by
    have hs' := (allSub_iff.1 hs).2
    have hp' : ∀ p, tally F d p + (ownCount F (Schema.mk b it al oo an nt pr ad pa de ai df) p + tallyAll F al p + tallyProps F pr p + tallyAddl F ad p) ≤ 1 := by
      intro p; have := hp p; rw [tally_eq F (Schema.mk b it al oo an nt pr ad pa de ai df)] at this; exact this
    obtain ⟨h0, h1⟩ := all_one d al hd0 hd (fun c hc => hs' c (.allOf hc)) fun p => by have := hp' p; omega
    have hc : ∀ p, tally F (flattenAllInto d al).1 p + (ownCount F (Schema.mk b it al oo an nt pr ad pa de ai df) p + tallyProps F pr p + tallyAddl F ad p) ≤ 1 := by
      intro p; have := hp' p; have := all_count hF d al p; omega
    have hc' : ∀ p, ownCount F (flattenAllInto d al).1 p + tallyProps F (flattenAllInto d al).1.properties p + tallyAddl F (flattenAllInto d al).1.additionalProperties p
        + (ownCount F (Schema.mk b it al oo an nt pr ad pa de ai df) p + tallyProps F pr p + tallyAddl F ad p) ≤ 1 := by
      intro p; have := hc p; rw [tally_eq F (flattenAllInto d al).1] at this; omega
    have h2 := props_one (flattenAllInto d al).1.properties pr (fun e he => h1 _ (.property (k := e.1) he)) (fun e he => hs' _ (.property (k := e.1) he))
      fun p => by have := hc' p; omega
    have h3 := addl_one (flattenAllInto d al).1.additionalProperties ad (fun b c hc => h1 _ (.additionalProperties hc rfl)) (fun b c hc => hs' _ (.additionalProperties hc rfl))
      fun p => by have := hc' p; omega
    have hb : ¬ (F (flattenAllInto d al).1 = true ∧ F (Schema.mk b it al oo an nt pr ad pa de ai df) = true) := by
      rintro ⟨e1, e2⟩
      have := hc' []
      simp only [ownCount, e1, e2] at this
      simp at this
      omega
    have hk := hK.merge h0 (allSub_iff.1 hs).1.2 hb
    have hr : ∀ c, c ∈ remainders (flattenAllInto d al).1 (Schema.mk b it al oo an nt pr ad pa de ai df) → K c := fun c => hK.rem h0 (allSub_iff.1 hs).1.2 hb
    have hcount := into_count hF d (Schema.mk b it al oo an nt pr ad pa de ai df)
    rw [flattenInto_eq] at hcount ⊢
    rw [allSub_iff]
    refine ⟨⟨fun p => Nat.le_trans (hcount p) (hp p), hk⟩, fun c hc => ?_⟩
    rcases child_mergeRest hc with hc | hc | hc | ⟨k, hc⟩ | ⟨b', hc⟩
    · exact h1 c hc
    · exact hs' c hc
    · rw [allSub_iff]
      refine ⟨⟨one_rem hF (rem_remainders hc), hr c hc⟩, ?_⟩
      rcases mem_remainders hc with rfl | rfl
      · exact fun c hc => h1 c (child_dstRem hc)
      · exact fun c hc => hs' c (child_srcRem hc)
    · exact h2 _ hc
    · exact h3 _ _ hc
theorem all_one (d : Schema) : (l : List Schema) → K d → (∀ c, Child d c → AllSub (One F K) c) → (∀ c ∈ l, AllSub (One F K) c) →
    (∀ p, tally F d p + tallyAll F l p ≤ 1) → K (flattenAllInto d l).1 ∧ ∀ c, Child (flattenAllInto d l).1 c → AllSub (One F K) c
  | [], h0, hd, _, _ => by simp only [flattenAllInto]; exact ⟨h0, hd⟩
  | s :: l, h0, hd, hl, hp => by
    simp only [flattenAllInto]
    have hp' : ∀ p, tally F d p + (tally F s p + tallyAll F l p) ≤ 1 := fun p => by have := hp p; rw [tallyAll] at this; exact this
    have h := into_one d s h0 hd (hl s (by simp)) fun p => by have := hp' p; omega
    refine all_one _ l (allSub_iff.1 h).1.2 (allSub_iff.1 h).2 (fun c hc => hl c (by simp [hc])) fun p => ?_
    have := hp' p
    have := into_count hF d s p
    omega
theorem props_one (d : List (String × Schema)) : (s : List (String × Schema)) → (∀ e ∈ d, AllSub (One F K) e.2) → (∀ e ∈ s, AllSub (One F K) e.2) →
    (∀ p, tallyProps F d p + tallyProps F s p ≤ 1) → ∀ e ∈ (mergeProps d s).1, AllSub (One F K) e.2
  | [], hd, _, _ => by simp only [mergeProps]; exact hd
  | (k, v) :: l, hd, hs, hp => by
    have hput : ∀ x, AllSub (One F K) x → ∀ e ∈ GoMap.put d k x, AllSub (One F K) e.2 := by
      intro x hx e he
      rcases GoMap.mem_of_mem_put he with rfl | he
      · exact hx
      · exact hd e he
    have e : ∀ p, tallyProps F ((k, v) :: l) p = tallyProps F [(k, v)] p + tallyProps F l p := by intro p; simp only [tallyProps]; omega
    simp only [e] at hp
    rw [mergeProps]
    cases hg : GoMap.get d k with
    | none =>
      refine props_one _ l (hput v (hs (k, v) (by simp))) (fun e he => hs e (List.mem_cons_of_mem _ he)) fun p => ?_
      rw [countProps_put' hg]
      have := hp p
      omega
    | some x =>
      have hx := allSub_iff.1 (hd _ (get_mem hg))
      refine props_one _ l (hput _ (into_one x v hx.1.2 hx.2 (hs (k, v) (by simp)) fun q => ?_)) (fun e he => hs e (List.mem_cons_of_mem _ he)) fun p => ?_
      · have h1 := countProps_mem (F := F) (get_mem hg) q
        have h2 := hp (some k :: q)
        simp only [countProps_one, if_true] at h2
        omega
      · have h2 := countProps_put (F := F) (m := (flattenInto x v).1) (p := p) hg
        have h3 : tallyProps F [(k, (flattenInto x v).1)] p ≤ tallyProps F [(k, x)] p + tallyProps F [(k, v)] p := by
          simp only [countProps_one]
          split
          · split
            · exact into_count hF x v _
            · omega
          · omega
        have := hp p
        omega
theorem addl_one (d : Option OrBool) : (s : Option OrBool) → (∀ b c, d = some (.mk b (some c)) → AllSub (One F K) c) →
    (∀ b c, s = some (.mk b (some c)) → AllSub (One F K) c) → (∀ p, tallyAddl F d p + tallyAddl F s p ≤ 1) →
    ∀ b c, (mergeAddl d s).1 = some (.mk b (some c)) → AllSub (One F K) c
  | none, hd, _, _ => by simp only [mergeAddl]; exact hd
  | some (.mk a none), hd, hs, _ => by
    simp only [mergeAddl]
    cases d with
    | none => exact hs
    | some o => exact hd
  | some (.mk a (some s)), hd, hs, hp => by
    cases d with
    | none => simp only [mergeAddl]; exact hs
    | some o =>
      obtain ⟨b, x⟩ := o
      simp only [mergeAddl]
      intro b' c hc
      simp only [Option.some.injEq, OrBool.mk.injEq] at hc
      rw [← hc.2]
      cases x with
      | none =>
        refine into_one _ s hK.empty (fun c hc => (no_child_empty hc).elim) (hs a s rfl) fun p => ?_
        rw [Option.getD_none, tally_empty hF]
        have := (allSub_iff.1 (hs a s rfl)).1.1 p
        omega
      | some x =>
        have hx := allSub_iff.1 (hd b x rfl)
        refine into_one _ s hx.1.2 hx.2 (hs a s rfl) fun p => ?_
        have := hp (none :: p)
        simp only [tallyAddl] at this
        exact this
end

omit hK in
mutual
/-- The members that merging adds do not have the feature. -/
theorem into_clear (d : Schema) : (s : Schema) → (tally F d [] + tally F s [] ≤ 1) → (∀ c ∈ d.allOf, F c = false) → ∀ c ∈ (flattenInto d s).1.allOf, F c = false
  | .mk b it al oo an nt pr ad pa de ai df, hp, hd => by
    rw [tally_eq F (Schema.mk b it al oo an nt pr ad pa de ai df)] at hp
    simp only [Schema.allOf_mk, Schema.properties_mk, Schema.additionalProperties_mk] at hp
    have h1 := all_clear d al (by omega) hd
    have h2 := all_count hF d al []
    intro c hc
    rw [flattenInto_eq] at hc
    rcases List.mem_append.1 hc with hc | hc
    · exact h1 c hc
    · rcases tally_remainders hF (flattenAllInto d al).1 (Schema.mk b it al oo an nt pr ad pa de ai df) [] with h | ⟨-, -, h3, h4, -⟩
      · cases hf : F c with
        | false => rfl
        | true =>
          have := countAll_mem (F := F) (l := remainders (flattenAllInto d al).1 (Schema.mk b it al oo an nt pr ad pa de ai df)) hc []
          have := own_le_count hf
          omega
      · have := own_le_count h3
        have h5 : ownCount F (Schema.mk b it al oo an nt pr ad pa de ai df) [] = 1 := by simp [ownCount, h4]
        omega
theorem all_clear (d : Schema) : (l : List Schema) → (tally F d [] + tallyAll F l [] ≤ 1) → (∀ c ∈ d.allOf, F c = false) → ∀ c ∈ (flattenAllInto d l).1.allOf, F c = false
  | [], _, hd => by simpa only [flattenAllInto] using hd
  | s :: l, hp, hd => by
    rw [tallyAll] at hp
    simp only [flattenAllInto]
    have h1 := into_count hF d s []
    exact all_clear _ l (by omega) (into_clear d s (by omega) hd)
end

omit hK in
theorem tally_bare (s : Schema) (p : List (Option String)) :
    tally F (.mk s.base s.items [] s.oneOf s.anyOf s.not s.properties s.additionalProperties s.patternProperties s.dependencies s.additionalItems s.definitions) p
      + tallyAll F s.allOf p = tally F s p := by
  rw [tally_eq, tally_eq F s]
  simp only [ownCount, hF.bare, Schema.allOf_mk, Schema.properties_mk, Schema.additionalProperties_mk, tallyAll]
  omega

theorem visit_one {s : Schema} (h : AllSub (One F K) s) : K (visitAllOf s).1 ∧ (∀ c, Child (visitAllOf s).1 c → AllSub (One F K) c) ∧
    ∀ c ∈ (visitAllOf s).1.allOf, F c = false := by
  have h' := allSub_iff.1 h
  rw [visitAllOf_eq]
  have hp := fun p => (tally_bare hF s p).symm ▸ h'.1.1 p
  obtain ⟨h1, h2⟩ := all_one hF hK _ s.allOf (hK.bare h'.1.2) (fun c hc => h'.2 c (child_bare hc)) (fun c hc => h'.2 c (.allOf hc)) hp
  exact ⟨h1, h2, all_clear hF _ _ (hp []) (fun c hc => absurd hc List.not_mem_nil)⟩

/-- After all merging: the members do not have the feature. -/
theorem walk_one (hmap : ∀ {f : Schema → Schema × List (String × String)} {s}, F (mapChildren f s).1 = F s) (n : Nat) : ∀ s : Schema,
    AllSub (One F K) s → (2 * s.rank ≤ n ∨ (s.allOf = [] ∧ 2 * s.rank ≤ n + 1)) → ∀ u, Sub (walkAllOf n s).1 u → (∃ m v, (u = (mapChildren (walkAllOf m) v).1) ∧ K v) ∧ ∀ c ∈ u.allOf, F c = false := by
  induction n with
  | zero => intro s hs h; have := rank_pos s; omega
  | succ n ih =>
    intro s hs h u hu
    have hr := visit_rank s
    obtain ⟨h0, h1, h2⟩ := visit_one hF hK hs
    simp only [walkAllOf] at hu
    cases hu with
    | refl =>
      refine ⟨⟨n, _, rfl, h0⟩, ?_⟩
      intro c hc
      have : c ∈ (mapSlice (walkAllOf n) (visitAllOf s).1.allOf).1 := by
        revert hc
        cases (visitAllOf s).1
        exact id
      simp only [mapSlice, List.mem_map] at this
      obtain ⟨c₀, h3, rfl⟩ := this
      have h4 := h2 c₀ h3
      have h5 := (visit_rem s c₀ h3).allOf
      cases n with
      | zero => exact h4
      | succ n =>
        simp only [walkAllOf, visit_flat h5, hmap]
        exact h4
    | step hc hu =>
      obtain ⟨c₀, hc₀, rfl⟩ := child_map hc
      refine ih c₀ (h1 c₀ hc₀) ?_ u hu
      rcases rank_child hc₀ with h1 | ⟨h1, h2⟩
      · left; omega
      · have h3 := (visit_rem s c₀ h2).allOf
        rcases h with h | ⟨h0, h⟩
        · right; exact ⟨h3, by omega⟩
        · rw [visit_flat h0] at h2
          simp [h0] at h2

theorem flatten_one {s : Schema} (h : AllSub (One F K) s) (u : Schema) (hu : Sub (flattenEmbedded s).1 u) :
    (∃ m v, (u = (mapChildren (walkAllOf m) v).1) ∧ K v) ∧ ∀ c ∈ u.allOf, F c = false := by
  have := walk_one hF hK hF.map (2 * s.rank) s h (.inl (Nat.le_refl _)) u
  rw [walk_enough s _ (Nat.le_refl _)] at this
  exact this hu
end

/-! ## The features -/

theorem field_feature {α : Type} [DecidableEq α] (cmp : Bool) (zero d s : α) (hz : cmp = false) :
    ((mergeField cmp zero d s).val ≠ zero → (d ≠ zero ∨ s ≠ zero) ∧ ¬ (d ≠ zero ∧ s ≠ zero)) ∧
    ((mergeField cmp zero d s).dstRem ≠ zero ↔ (mergeField cmp zero d s).srcRem ≠ zero) ∧
    ((mergeField cmp zero d s).dstRem ≠ zero → d ≠ zero ∧ s ≠ zero ∧ (mergeField cmp zero d s).val = zero) := by
  subst hz
  unfold mergeField
  split
  · simp_all
  · split
    · simp_all
    · simp_all

theorem feature_of {α : Type} [DecidableEq α] {zero : α} {g : Base → α} {F : Schema → Bool} (hF : ∀ s, F s = true ↔ g s.base ≠ zero)
    (h1 : ∀ d s, g (mergeBase d s) = (mergeField false zero (g d) (g s)).val) (h2 : ∀ d s, g (dstRemBase d s) = (mergeField false zero (g d) (g s)).dstRem)
    (h3 : ∀ d s, g (srcRemBase d s) = (mergeField false zero (g d) (g s)).srcRem) (h4 : g {} = zero) : Feature F where
  merge := by
    intro d s pr ad h
    rw [hF] at h
    have h := (field_feature false zero (g d.base) (g s.base) rfl).1 (by rw [← h1]; exact h)
    simp only [hF]
    exact ⟨h.1, fun a b => h.2 ⟨a, b⟩⟩
  rems := by
    intro d s
    rw [Bool.eq_iff_iff, hF, hF]
    show g (dstRemBase d.base s.base) ≠ _ ↔ g (srcRemBase d.base s.base) ≠ _
    rw [h2, h3]
    exact (field_feature false zero (g d.base) (g s.base) rfl).2.1
  rem := by
    intro d s h
    rw [hF] at h
    obtain ⟨a, b, c⟩ := (field_feature false zero (g d.base) (g s.base) rfl).2.2 (by rw [← h2]; exact h)
    refine ⟨(hF d).2 a, (hF s).2 b, fun pr ad => ?_⟩
    rw [← Bool.not_eq_true, hF]
    intro h
    exact h (by rw [← c, ← h1]; rfl)
  bare := by intro s; rw [Bool.eq_iff_iff, hF, hF]; rfl
  map := by intro f s; cases s; rw [Bool.eq_iff_iff, hF, hF]; rfl
  empty := by rw [← Bool.not_eq_true, hF]; exact fun h => h h4

theorem feature_default : Feature hasDefault :=
  feature_of (zero := none) (g := (·.default)) (fun s => by unfold hasDefault; cases s.base.default <;> simp) (fun _ _ => rfl) (fun _ _ => rfl) (fun _ _ => rfl) rfl
theorem feature_listType : Feature hasListType :=
  feature_of (zero := none) (g := (·.xListType)) (fun s => by unfold hasListType; cases s.base.xListType <;> simp) (fun _ _ => rfl) (fun _ _ => rfl) (fun _ _ => rfl) rfl
theorem feature_listMapKeys : Feature hasListMapKeys :=
  feature_of (zero := []) (g := (·.xListMapKeys)) (fun s => by unfold hasListMapKeys; cases s.base.xListMapKeys <;> simp) (fun _ _ => rfl) (fun _ _ => rfl) (fun _ _ => rfl) rfl

theorem feature_items : Feature hasItems where
  merge := by
    intro d s pr ad h
    have : (mergeOpt d.items s.items).val.isSome = true := h
    revert this
    unfold hasItems mergeOpt
    cases d.items <;> cases s.items <;> simp
  rems := by
    intro d s
    show (mergeOpt d.items s.items).dstRem.isSome = (mergeOpt d.items s.items).srcRem.isSome
    unfold mergeOpt
    cases d.items <;> cases s.items <;> simp
  rem := by
    intro d s h
    have : (mergeOpt d.items s.items).dstRem.isSome = true := h
    have h2 : ∀ pr ad, hasItems (mergeRest d s pr ad) = (mergeOpt d.items s.items).val.isSome := fun _ _ => rfl
    simp only [h2]
    revert this
    unfold hasItems mergeOpt
    cases d.items <;> cases s.items <;> simp
  bare := rfl
  map := by
    intro f s
    obtain ⟨b, it, al, oo, an, nt, pr, ad, pa, de, ai, df⟩ := s
    show (mapItems f it).1.isSome = it.isSome
    cases it with
    | none => rfl
    | some i => cases i; rfl
  empty := rfl

theorem feature_anyOf : Feature hasAnyOf where
  merge := by
    intro d s pr ad h
    have : (!(mergeList d.anyOf s.anyOf).val.isEmpty) = true := h
    revert this
    unfold hasAnyOf mergeList
    cases d.anyOf <;> cases s.anyOf <;> simp
  rems := by
    intro d s
    show (!(mergeList d.anyOf s.anyOf).dstRem.isEmpty) = (!(mergeList d.anyOf s.anyOf).srcRem.isEmpty)
    unfold mergeList
    cases d.anyOf <;> cases s.anyOf <;> simp
  rem := by
    intro d s h
    have : (!(mergeList d.anyOf s.anyOf).dstRem.isEmpty) = true := h
    have h2 : ∀ pr ad, hasAnyOf (mergeRest d s pr ad) = !(mergeList d.anyOf s.anyOf).val.isEmpty := fun _ _ => rfl
    simp only [h2]
    revert this
    unfold hasAnyOf mergeList
    cases d.anyOf <;> cases s.anyOf <;> simp
  bare := rfl
  map := by
    intro f s
    obtain ⟨b, it, al, oo, an, nt, pr, ad, pa, de, ai, df⟩ := s
    show (!(mapSlice f an).1.isEmpty) = !an.isEmpty
    cases an <;> rfl
  empty := rfl
end Verif.Crd

import Verif.Crd.AllOfBase
/-!
# Lemmas for C28: merging schemas
-/
namespace Verif.Crd
open Spec

theorem Schema.eta (s : Schema) : s = .mk s.base s.items s.allOf s.oneOf s.anyOf s.not s.properties s.additionalProperties s.patternProperties
    s.dependencies s.additionalItems s.definitions := by cases s; rfl

section
variable {b : Base} {i : Option Items} {a o n : List Schema} {t : Option Schema} {p q g : List (String × Schema)} {d f : Option OrBool}
  {e : List (String × OrArray)}
theorem Schema.base_mk : (Schema.mk b i a o n t p d q e f g).base = b := rfl
theorem Schema.items_mk : (Schema.mk b i a o n t p d q e f g).items = i := rfl
theorem Schema.allOf_mk : (Schema.mk b i a o n t p d q e f g).allOf = a := rfl
theorem Schema.oneOf_mk : (Schema.mk b i a o n t p d q e f g).oneOf = o := rfl
theorem Schema.anyOf_mk : (Schema.mk b i a o n t p d q e f g).anyOf = n := rfl
theorem Schema.not_mk : (Schema.mk b i a o n t p d q e f g).not = t := rfl
theorem Schema.properties_mk : (Schema.mk b i a o n t p d q e f g).properties = p := rfl
theorem Schema.additionalProperties_mk : (Schema.mk b i a o n t p d q e f g).additionalProperties = d := rfl
theorem Schema.patternProperties_mk : (Schema.mk b i a o n t p d q e f g).patternProperties = q := rfl
theorem Schema.dependencies_mk : (Schema.mk b i a o n t p d q e f g).dependencies = e := rfl
theorem Schema.additionalItems_mk : (Schema.mk b i a o n t p d q e f g).additionalItems = f := rfl
theorem Schema.definitions_mk : (Schema.mk b i a o n t p d q e f g).definitions = g := rfl
end

theorem valid_iff {M : Meaning} {s : Schema} {j : Json} : Valid M s j ↔
    BaseOk M s.base j ∧ ValidItems M s.items j ∧ ValidAll M s.allOf j ∧ (s.oneOf ≠ [] → ValidOne M s.oneOf j) ∧ (s.anyOf ≠ [] → ValidAny M s.anyOf j) ∧
    ¬ ValidOpt M s.not j ∧ ValidProps M s.properties j ∧
    ValidAddl M s.additionalProperties (fun v => ∃ k m, j = .obj m ∧ (k, v) ∈ m ∧ k ∉ s.properties.map (·.1) ∧ ∀ e ∈ s.patternProperties, ¬ M.matches_ e.1 k) ∧
    ValidPats M s.patternProperties j ∧ ValidDeps M s.dependencies j ∧
    ValidAddl M s.additionalItems (fun v => ∃ l i, j = .arr l ∧ l[i]? = some v ∧ ∃ its, s.items = some its ∧ its.schema = none ∧ its.arr.length ≤ i) := by
  cases s; rw [Valid]; rfl

theorem validAll_iff {M : Meaning} {l : List Schema} {j : Json} : ValidAll M l j ↔ ∀ s ∈ l, Valid M s j := by
  induction l with
  | nil => simp [ValidAll]
  | cons s l ih => simp [ValidAll, ih]

theorem validAny_iff {M : Meaning} {l : List Schema} {j : Json} : ValidAny M l j ↔ ∃ s ∈ l, Valid M s j := by
  induction l with
  | nil => simp [ValidAny]
  | cons s l ih => simp [ValidAny, ih]

theorem validProps_iff {M : Meaning} {l : List (String × Schema)} {j : Json} :
    ValidProps M l j ↔ ∀ e ∈ l, ∀ v, j.get e.1 = some v → Valid M e.2 v := by
  induction l with
  | nil => simp [ValidProps]
  | cons s l ih => simp [ValidProps, ih]

theorem validAll_append {M : Meaning} {l l' : List Schema} {j : Json} : ValidAll M (l ++ l') j ↔ ValidAll M l j ∧ ValidAll M l' j := by
  simp only [validAll_iff, List.mem_append]
  exact ⟨fun h => ⟨fun s hs => h s (.inl hs), fun s hs => h s (.inr hs)⟩, fun h s hs => hs.elim (h.1 s) (h.2 s)⟩

/-! ## Without schemas below, everything is accepted -/

theorem baseOk_empty (M : Meaning) (j : Json) : BaseOk M {} j := by
  constructor <;> simp [TypeOk, hasType_nil, MaxOk, MinOk]

theorem valid_empty (M : Meaning) (j : Json) : Valid M Schema.empty j := by
  rw [valid_iff]
  simp [Schema.empty, Schema.leaf, Schema.base, Schema.items, Schema.allOf, Schema.oneOf, Schema.anyOf, Schema.not, Schema.properties,
    Schema.additionalProperties, Schema.patternProperties, Schema.dependencies, Schema.additionalItems, baseOk_empty, ValidItems, ValidAll, ValidOpt,
    ValidProps, ValidAddl, ValidPats, ValidDeps]

/-! ## Paths -/

/-- Everything at every path satisfies the property. -/
def AllAt (Q : List (Option String) → Schema → Prop) (s : Schema) : Prop := ∀ p t, At s p t → Q p t

theorem allAt_iff {Q : List (Option String) → Schema → Prop} {s : Schema} : AllAt Q s ↔ Q [] s ∧ (∀ c ∈ s.allOf, AllAt Q c) ∧
    (∀ e ∈ s.properties, AllAt (fun p => Q (some e.1 :: p)) e.2) ∧
    (∀ b c, s.additionalProperties = some (.mk b (some c)) → AllAt (fun p => Q (none :: p)) c) := by
  constructor
  · intro h
    exact ⟨h _ _ .here, fun c hc p t ht => h p t (.allOf hc ht), fun e he p t ht => h _ t (.prop he ht), fun b c hb p t ht => h _ t (.addl hb ht)⟩
  · rintro ⟨h1, h2, h3, h4⟩ p t ht
    cases ht with
    | here => exact h1
    | allOf hc ht => exact h2 _ hc _ _ ht
    | prop hc ht => exact h3 _ hc _ _ ht
    | addl hb ht => exact h4 _ _ hb _ _ ht

abbrev Path := List (Option String)

theorem occ_iff {s : Schema} {p : Path} : Occ s p ↔ Own s p ∨ ∃ c ∈ s.allOf, Occ c p := by
  constructor
  · intro h
    cases h with
    | here => exact .inl .here
    | allOf hc h => exact .inr ⟨_, hc, h⟩
    | prop hc h => exact .inl (.prop hc h)
    | addl hb h => exact .inl (.addl hb h)
    | flag hb => exact .inl (.flag hb)
  · rintro (h | ⟨c, hc, h⟩)
    · cases h with
      | here => exact .here
      | prop hc h => exact .prop hc h
      | addl hb h => exact .addl hb h
      | flag hb => exact .flag hb
    · exact .allOf hc h

theorem _root_.Verif.Crd.Spec.Own.occ {s : Schema} {p : Path} (h : Own s p) : Occ s p := occ_iff.2 (.inl h)

/-- The schemas meet at paths of `R` only. -/
def Sep (R : Path → Prop) (d s : Schema) : Prop := ∀ p, Occ d p → Occ s p → R p

/-- Everything at the paths of `R` satisfies the restrictions for merging, `P` being the set of the paths with `properties`, and `R` contains the paths where schemas are merged. -/
structure Inv (R P : Path → Prop) (s : Schema) : Prop where
  all : AllAt (fun p u => R p → NodeOk u ∧ (u.properties ≠ [] → P p) ∧ (P p → u.additionalProperties = none)) s
  twice : ∀ p, Twice s p → R p

theorem Inv.node {R P : Path → Prop} {s : Schema} (h : Inv R P s) (hR : R []) : NodeOk s ∧ (s.properties ≠ [] → P []) ∧ (P [] → s.additionalProperties = none) :=
  (allAt_iff.1 h.all).1 hR

theorem Inv.member {R P : Path → Prop} {s c : Schema} (h : Inv R P s) (hc : c ∈ s.allOf) : Inv R P c :=
  ⟨(allAt_iff.1 h.all).2.1 c hc, fun p hp => h.twice p (.member hc hp)⟩

theorem Inv.prop {R P : Path → Prop} {s : Schema} (h : Inv R P s) {e : String × Schema} (he : e ∈ s.properties) : Inv (fun p => R (some e.1 :: p)) (fun p => P (some e.1 :: p)) e.2 :=
  ⟨(allAt_iff.1 h.all).2.2.1 e he, fun p hp => h.twice _ (.prop (k := e.1) he hp)⟩

theorem Inv.addl {R P : Path → Prop} {s c : Schema} {b : Bool} (h : Inv R P s) (hc : s.additionalProperties = some (.mk b (some c))) :
    Inv (fun p => R (none :: p)) (fun p => P (none :: p)) c :=
  ⟨(allAt_iff.1 h.all).2.2.2 b c hc, fun p hp => h.twice _ (.addl hc hp)⟩

theorem inv_of {R P : Path → Prop} {s : Schema} (h1 : R [] → NodeOk s ∧ (s.properties ≠ [] → P []) ∧ (P [] → s.additionalProperties = none)) (h2 : ∀ c ∈ s.allOf, Inv R P c)
    (h3 : ∀ e ∈ s.properties, Inv (fun p => R (some e.1 :: p)) (fun p => P (some e.1 :: p)) e.2)
    (h4 : ∀ b c, s.additionalProperties = some (.mk b (some c)) → Inv (fun p => R (none :: p)) (fun p => P (none :: p)) c)
    (h5 : ∀ c ∈ s.allOf, ∀ p, Occ c p → Own s p → R p) (h6 : ∀ l c l' c', s.allOf = l ++ c :: l' → c' ∈ l' → Sep R c c') : Inv R P s := by
  refine ⟨allAt_iff.2 ⟨h1, fun c hc => (h2 c hc).all, fun e he => (h3 e he).all, fun b c hc => (h4 b c hc).all⟩, fun p hp => ?_⟩
  cases hp with
  | own hc ho hw => exact h5 _ hc p ho hw
  | two e hc' h h' => exact h6 _ _ _ _ e hc' p h h'
  | member hc h => exact (h2 _ hc).twice p h
  | prop hc h => exact (h3 _ hc).twice _ h
  | addl hb h => exact (h4 _ _ hb).twice _ h

theorem mergeable_iff {s : Schema} : Mergeable s ↔ ∃ R P, Inv R P s := by
  constructor
  · rintro ⟨h1, h2⟩
    exact ⟨Twice s, fun p => ∃ t, At s p t ∧ t.properties ≠ [], fun p u hu hR =>
      ⟨h1 p u hR hu, fun hp => ⟨u, hu, hp⟩, fun ⟨t, ht, hp⟩ => h2 p t u hR ht hu hp⟩, fun _ h => h⟩
  · rintro ⟨R, P, h⟩
    exact ⟨fun p t hR ht => (h.all p t ht (h.twice p hR)).1, fun p t u hR ht hu hp => (h.all p u hu (h.twice p hR)).2.2 ((h.all p t ht (h.twice p hR)).2.1 hp)⟩

theorem guard_iff {s : Schema} : Guard s ↔ (s.allOf ≠ [] → Mergeable s) ∧ ∀ c, Child s c → Guard c := by
  constructor
  · intro h
    exact ⟨h s .refl, fun c hc u hu => h u (.step hc hu)⟩
  · rintro ⟨h1, h2⟩ u hu
    cases hu with
    | refl => exact h1
    | step hc hu => exact h2 _ hc u hu

theorem nodeOk_empty : NodeOk Schema.empty := by
  constructor <;> simp [Schema.empty, Schema.leaf, Schema.base, Schema.patternProperties, Schema.additionalItems, Schema.additionalProperties, Schema.properties]

theorem _root_.Verif.Crd.Spec.NodeOk.plain {s : Schema} (h : NodeOk s) : Plain s.base := ⟨h.nullable, h.exclusiveMaximum, h.exclusiveMinimum⟩

/-! ## Unfolding -/

theorem flattenInto_eq (d s : Schema) : flattenInto d s =
    (mergeRest (flattenAllInto d s.allOf).1 s (mergeProps (flattenAllInto d s.allOf).1.properties s.properties).1
        (mergeAddl (flattenAllInto d s.allOf).1.additionalProperties s.additionalProperties).1,
     (flattenAllInto d s.allOf).2 ++ (mergeType (flattenAllInto d s.allOf).1.base.type s.base.type).2 ++
      (mergeProps (flattenAllInto d s.allOf).1.properties s.properties).2 ++
      (mergeAddl (flattenAllInto d s.allOf).1.additionalProperties s.additionalProperties).2) := by
  cases s; rw [flattenInto]; rfl

theorem mergeOpt_mem {α : Type} {d s : Option α} {x : α} : ((mergeOpt d s).val = some x → d = some x ∨ s = some x) ∧
    ((mergeOpt d s).dstRem = some x → d = some x) ∧ ((mergeOpt d s).srcRem = some x → s = some x) := by
  cases d <;> cases s <;> simp [mergeOpt]

theorem mergeList_mem {α : Type} {d s : List α} {x : α} : (x ∈ (mergeList d s).val → x ∈ d ∨ x ∈ s) ∧
    (x ∈ (mergeList d s).dstRem → x ∈ d) ∧ (x ∈ (mergeList d s).srcRem → x ∈ s) := by
  cases d <;> cases s <;> simp [mergeList]

theorem child_dstRem {d s c : Schema} (h : Child (dstRemainder d s) c) : Child d c := by
  cases h with
  | items h1 h2 => exact .items (mergeOpt_mem.2.1 h1) h2
  | itemsArr h1 h2 => exact .itemsArr (mergeOpt_mem.2.1 h1) h2
  | allOf h => exact absurd h (by simp [dstRemainder, Schema.allOf])
  | oneOf h => exact .oneOf (mergeList_mem.2.1 h)
  | anyOf h => exact .anyOf (mergeList_mem.2.1 h)
  | not h => exact .not (mergeOpt_mem.2.1 h)
  | property h => exact absurd h (by simp [dstRemainder, Schema.properties])
  | additionalProperties h1 h2 => simp [dstRemainder, Schema.additionalProperties] at h1
  | patternProperty h => exact .patternProperty (mergeList_mem.2.1 h)
  | dependency h1 h2 => exact .dependency (mergeList_mem.2.1 h1) h2
  | additionalItems h1 h2 => exact .additionalItems (mergeOpt_mem.2.1 h1) h2
  | definition h => exact .definition (mergeList_mem.2.1 h)

theorem child_srcRem {d s c : Schema} (h : Child (srcRemainder d s) c) : Child s c := by
  cases h with
  | items h1 h2 => exact .items (mergeOpt_mem.2.2 h1) h2
  | itemsArr h1 h2 => exact .itemsArr (mergeOpt_mem.2.2 h1) h2
  | allOf h => exact absurd h (by simp [srcRemainder, Schema.allOf])
  | oneOf h => exact .oneOf (mergeList_mem.2.2 h)
  | anyOf h => exact .anyOf (mergeList_mem.2.2 h)
  | not h => exact .not (mergeOpt_mem.2.2 h)
  | property h => exact absurd h (by simp [srcRemainder, Schema.properties])
  | additionalProperties h1 h2 => simp [srcRemainder, Schema.additionalProperties] at h1
  | patternProperty h => exact .patternProperty (mergeList_mem.2.2 h)
  | dependency h1 h2 => exact .dependency (mergeList_mem.2.2 h1) h2
  | additionalItems h1 h2 => exact .additionalItems (mergeOpt_mem.2.2 h1) h2
  | definition h => exact .definition (mergeList_mem.2.2 h)

theorem mem_remainders {d s c : Schema} (h : c ∈ remainders d s) : c = dstRemainder d s ∨ c = srcRemainder d s := by
  unfold remainders at h
  split at h
  · simpa using h
  · simp at h

theorem child_mergeRest {d s c : Schema} {pr : List (String × Schema)} {ad : Option OrBool} (h : Child (mergeRest d s pr ad) c) :
    Child d c ∨ Child s c ∨ c ∈ remainders d s ∨ (∃ k, (k, c) ∈ pr) ∨ ∃ b, ad = some (.mk b (some c)) := by
  cases h with
  | items h1 h2 => exact (mergeOpt_mem.1 h1).elim (fun h => .inl (.items h h2)) fun h => .inr (.inl (.items h h2))
  | itemsArr h1 h2 => exact (mergeOpt_mem.1 h1).elim (fun h => .inl (.itemsArr h h2)) fun h => .inr (.inl (.itemsArr h h2))
  | allOf h => exact (List.mem_append.1 h).elim (fun h => .inl (.allOf h)) fun h => .inr (.inr (.inl h))
  | oneOf h => exact (mergeList_mem.1 h).elim (fun h => .inl (.oneOf h)) fun h => .inr (.inl (.oneOf h))
  | anyOf h => exact (mergeList_mem.1 h).elim (fun h => .inl (.anyOf h)) fun h => .inr (.inl (.anyOf h))
  | not h => exact (mergeOpt_mem.1 h).elim (fun h => .inl (.not h)) fun h => .inr (.inl (.not h))
  | property h => exact .inr (.inr (.inr (.inl ⟨_, h⟩)))
  | @additionalProperties o _ h1 h2 =>
    obtain ⟨b, sc⟩ := o
    have h2' : sc = some c := h2
    subst h2'
    exact .inr (.inr (.inr (.inr ⟨b, h1⟩)))
  | patternProperty h => exact (mergeList_mem.1 h).elim (fun h => .inl (.patternProperty h)) fun h => .inr (.inl (.patternProperty h))
  | dependency h1 h2 => exact (mergeList_mem.1 h1).elim (fun h => .inl (.dependency h h2)) fun h => .inr (.inl (.dependency h h2))
  | additionalItems h1 h2 => exact (mergeOpt_mem.1 h1).elim (fun h => .inl (.additionalItems h h2)) fun h => .inr (.inl (.additionalItems h h2))
  | definition h => exact (mergeList_mem.1 h).elim (fun h => .inl (.definition h)) fun h => .inr (.inl (.definition h))

/-! ## The restrictions survive merging -/

theorem nodeOk_dstRem {d s : Schema} (hd : NodeOk d) (hs : NodeOk s) : NodeOk (dstRemainder d s) := by
  have := hs.plain.dstRem (d := d.base)
  refine ⟨this.1, this.2, this.3, ?_, ?_, nofun, List.nodup_nil⟩
  · show (mergeList d.patternProperties s.patternProperties).dstRem = []
    rw [hd.patterns, hs.patterns]; rfl
  · show (mergeOpt d.additionalItems s.additionalItems).dstRem = none
    rw [hd.additionalItems, hs.additionalItems]; rfl

theorem nodeOk_srcRem {d s : Schema} (hd : NodeOk d) (hs : NodeOk s) : NodeOk (srcRemainder d s) := by
  have := hs.plain.srcRem (d := d.base)
  refine ⟨this.1, this.2, this.3, ?_, ?_, nofun, List.nodup_nil⟩
  · show (mergeList d.patternProperties s.patternProperties).srcRem = []
    rw [hd.patterns, hs.patterns]; rfl
  · show (mergeOpt d.additionalItems s.additionalItems).srcRem = none
    rw [hd.additionalItems, hs.additionalItems]; rfl

theorem inv_flat {R P : Path → Prop} {s : Schema} (h : NodeOk s) (h1 : s.allOf = []) (h2 : s.properties = [])
    (h3 : s.additionalProperties = none) : Inv R P s := by
  refine inv_of (fun _ => ⟨h, fun h => absurd h2 h, fun _ => h3⟩) ?_ ?_ ?_ ?_ ?_
  · rw [h1]; nofun
  · rw [h2]; nofun
  · rw [h3]; nofun
  · rw [h1]; nofun
  · intro l c l' c' e; rw [h1] at e; cases l <;> cases e

theorem inv_empty (R P : Path → Prop) : Inv R P Schema.empty := inv_flat nodeOk_empty rfl rfl rfl

theorem occ_flat {s : Schema} (h1 : s.allOf = []) (h2 : s.properties = []) (h3 : s.additionalProperties = none) {p : Path} (h : Occ s p) : p = [] := by
  cases h with
  | here => rfl
  | allOf hc => rw [h1] at hc; cases hc
  | prop hc => rw [h2] at hc; cases hc
  | addl hb => rw [h3] at hb; cases hb
  | flag hb => rw [h3] at hb; cases hb

theorem inv_remainders {R P : Path → Prop} {d s c : Schema} (hd : NodeOk d) (hs : NodeOk s) (hc : c ∈ remainders d s) : Inv R P c := by
  rcases mem_remainders hc with rfl | rfl
  · exact inv_flat (nodeOk_dstRem hd hs) rfl rfl rfl
  · exact inv_flat (nodeOk_srcRem hd hs) rfl rfl rfl

theorem occ_remainders {d s c : Schema} (hc : c ∈ remainders d s) {p : Path} (h : Occ c p) : p = [] := by
  rcases mem_remainders hc with rfl | rfl <;> exact occ_flat rfl rfl rfl h

/-- What the restrictions say about a map of properties. -/
def InvProps (R P : Path → Prop) (l : List (String × Schema)) : Prop :=
  (l.map (·.1)).Nodup ∧ ∀ e ∈ l, Inv (fun p => R (some e.1 :: p)) (fun p => P (some e.1 :: p)) e.2

/-- What the restrictions say about additionalProperties. -/
def InvAddl (R P : Path → Prop) (o : Option OrBool) : Prop :=
  o ≠ some (.mk false none) ∧ ∀ b c, o = some (.mk b (some c)) → Inv (fun p => R (none :: p)) (fun p => P (none :: p)) c

/-- Two schemas that can be merged. -/
structure Pair (R P : Path → Prop) (d s : Schema) : Prop where
  dst : Inv R P d
  src : Inv R P s
  sep : Sep R d s

/-- A list of schemas that can be merged into a schema. -/
structure PairAll (R P : Path → Prop) (d : Schema) (l : List Schema) : Prop where
  dst : Inv R P d
  src : ∀ c ∈ l, Inv R P c
  sep : ∀ c ∈ l, Sep R d c
  each : ∀ l₁ c l₂ c', l = l₁ ++ c :: l₂ → c' ∈ l₂ → Sep R c c'

structure PairProps (R P : Path → Prop) (d s : List (String × Schema)) : Prop where
  dst : InvProps R P d
  src : InvProps R P s
  sep : ∀ k x y, (k, x) ∈ d → (k, y) ∈ s → Sep (fun p => R (some k :: p)) x y

/-- Additional properties are about the path below them. -/
inductive OccAddl : Option OrBool → Path → Prop
  | addl {b c p} : Occ c p → OccAddl (some (.mk b (some c))) p
  | flag {b} : OccAddl (some (.mk b none)) []

theorem OccAddl.own {s : Schema} {p : Path} (h : OccAddl s.additionalProperties p) : Own s (none :: p) := by
  generalize ho : s.additionalProperties = o at h
  cases h with
  | addl h => exact .addl ho h
  | flag => exact .flag ho

structure PairAddl (R P : Path → Prop) (d s : Option OrBool) : Prop where
  dst : InvAddl R P d
  src : InvAddl R P s
  sep : ∀ p, OccAddl d p → OccAddl s p → R (none :: p)

theorem get_mem {ν : Type} {m : List (String × ν)} {k : String} {v : ν} (h : GoMap.get m k = some v) : (k, v) ∈ m := by
  induction m with
  | nil => simp [GoMap.get] at h
  | cons e m ih =>
    obtain ⟨k', v'⟩ := e
    simp only [GoMap.get] at h
    split at h
    · rename_i hk; subst hk; simp at h; simp [h]
    · exact List.mem_cons_of_mem _ (ih h)

theorem get_none {ν : Type} {m : List (String × ν)} {k : String} (h : GoMap.get m k = none) : ∀ e ∈ m, e.1 ≠ k := by
  induction m with
  | nil => simp
  | cons e m ih =>
    obtain ⟨k', v'⟩ := e
    simp only [GoMap.get] at h
    split at h
    · simp at h
    · rename_i hk
      intro e he
      rcases List.mem_cons.1 he with rfl | he
      · exact hk
      · exact ih h e he

theorem InvProps.put {R P : Path → Prop} {l : List (String × Schema)} (h : InvProps R P l) {k : String} {v : Schema}
    (hv : Inv (fun p => R (some k :: p)) (fun p => P (some k :: p)) v) : InvProps R P (GoMap.put l k v) := by
  refine ⟨GoMap.put_wf h.1 k v, fun e he => ?_⟩
  rcases GoMap.mem_of_mem_put he with rfl | he
  · exact hv
  · exact h.2 e he

theorem Pair.all {R P : Path → Prop} {d s : Schema} (h : Pair R P d s) : PairAll R P d s.allOf :=
  ⟨h.dst, fun _ hc => h.src.member hc, fun _ hc p hd ho => h.sep p hd (occ_iff.2 (.inr ⟨_, hc, ho⟩)), fun _ _ _ _ e hc' p h1 h2 => h.src.twice p (.two e hc' h1 h2)⟩

theorem Pair.root {R P : Path → Prop} {d s : Schema} (h : Pair R P d s) : R [] := h.sep [] .here .here

/-- After the allOf members of the source. -/
theorem Pair.after {R P : Path → Prop} {d d1 s : Schema} (h : Pair R P d s) (ho : ∀ p, Occ d1 p → Occ d p ∨ ∃ c ∈ s.allOf, Occ c p) : ∀ p, Occ d1 p → Own s p → R p := by
  intro p h1 h2
  rcases ho p h1 with h1 | ⟨c, hc, h1⟩
  · exact h.sep p h1 h2.occ
  · exact h.src.twice p (.own hc h1 h2)

theorem Pair.props {R P : Path → Prop} {d d1 s : Schema} (h : Pair R P d s) (hd : Inv R P d1) (ho : ∀ p, Occ d1 p → Own s p → R p) : PairProps R P d1.properties s.properties :=
  ⟨⟨(hd.node h.root).1.keys, fun _ he => hd.prop he⟩, ⟨(h.src.node h.root).1.keys, fun _ he => h.src.prop he⟩, fun _ _ _ hx hy _ h1 h2 => ho _ (Own.prop hx h1).occ (.prop hy h2)⟩

theorem Pair.addl {R P : Path → Prop} {d d1 s : Schema} (h : Pair R P d s) (hd : Inv R P d1) (ho : ∀ p, Occ d1 p → Own s p → R p) : PairAddl R P d1.additionalProperties s.additionalProperties :=
  ⟨⟨(hd.node h.root).1.open_, fun _ _ he => hd.addl he⟩, ⟨(h.src.node h.root).1.open_, fun _ _ he => h.src.addl he⟩, fun _ h1 h2 => ho _ h1.own.occ h2.own⟩

theorem PairAll.head {R P : Path → Prop} {d s : Schema} {l : List Schema} (h : PairAll R P d (s :: l)) : Pair R P d s :=
  ⟨h.dst, h.src s (by simp), h.sep s (by simp)⟩

theorem PairAll.tail {R P : Path → Prop} {d d1 s : Schema} {l : List Schema} (h : PairAll R P d (s :: l)) (hd : Inv R P d1) (ho : ∀ p, Occ d1 p → Occ d p ∨ Occ s p) : PairAll R P d1 l := by
  refine ⟨hd, fun c hc => h.src c (by simp [hc]), fun c hc p h1 h2 => ?_, fun l₁ c l₂ c' e hc' => h.each (s :: l₁) c l₂ c' (by rw [e]; rfl) hc'⟩
  rcases ho p h1 with h1 | h1
  · exact h.sep c (by simp [hc]) p h1 h2
  · exact h.each [] s l c rfl hc p h1 h2

theorem PairProps.next {R P : Path → Prop} {d : List (String × Schema)} {k : String} {v w : Schema} {l : List (String × Schema)} (h : PairProps R P d ((k, v) :: l))
    (hw : Inv (fun p => R (some k :: p)) (fun p => P (some k :: p)) w) : PairProps R P (GoMap.put d k w) l := by
  have hn := List.nodup_cons.1 h.src.1
  refine ⟨h.dst.put hw, ⟨hn.2, fun e he => h.src.2 e (by simp [he])⟩, fun k' x y hx hy => ?_⟩
  rcases GoMap.mem_of_mem_put hx with e | hx
  · cases e
    exact absurd (List.mem_map_of_mem hy) hn.1
  · exact h.sep k' x y hx (by simp [hy])

theorem PairProps.both {R P : Path → Prop} {d : List (String × Schema)} {k : String} {v x : Schema} {l : List (String × Schema)} (h : PairProps R P d ((k, v) :: l))
    (hg : GoMap.get d k = some x) : Pair (fun p => R (some k :: p)) (fun p => P (some k :: p)) x v :=
  ⟨h.dst.2 _ (get_mem hg), h.src.2 (k, v) (by simp), h.sep k x v (get_mem hg) (by simp)⟩

theorem PairAddl.both {R P : Path → Prop} {a b : Bool} {x : Option Schema} {s : Schema} (h : PairAddl R P (some (.mk b x)) (some (.mk a (some s)))) :
    Pair (fun p => R (none :: p)) (fun p => P (none :: p)) (x.getD Schema.empty) s := by
  cases x with
  | none => exact ⟨inv_empty _ _, h.src.2 a s rfl, fun p h1 h2 => by cases occ_flat rfl rfl rfl h1; exact h.sep _ .flag (.addl h2)⟩
  | some y => exact ⟨h.dst.2 b y rfl, h.src.2 a s rfl, fun p h1 h2 => h.sep p (.addl h1) (.addl h2)⟩

theorem put_ne_nil {ν : Type} {m : List (String × ν)} {k : String} {v : ν} : GoMap.put m k v ≠ [] := by
  cases m with
  | nil => simp [GoMap.put]
  | cons e m => simp only [GoMap.put]; split <;> simp

/-- The part of `into_inv` that is about the schema itself. -/
theorem inv_merged {R P : Path → Prop} {d1 s : Schema} {pr : List (String × Schema)} {ad : Option OrBool} (hR : R []) (hd : Inv R P d1) (hs : Inv R P s)
    (ho : ∀ p, Occ d1 p → Own s p → R p) (hp : InvProps R P pr) (hpn : pr ≠ [] → d1.properties ≠ [] ∨ s.properties ≠ [])
    (hpo : ∀ k x p, (k, x) ∈ pr → Occ x p → ∃ y, ((k, y) ∈ d1.properties ∨ (k, y) ∈ s.properties) ∧ Occ y p) (ha : InvAddl R P ad)
    (han : d1.additionalProperties = none → s.additionalProperties = none → ad = none) (hao : ∀ p, OccAddl ad p → OccAddl d1.additionalProperties p ∨ OccAddl s.additionalProperties p) :
    Inv R P (mergeRest d1 s pr ad) ∧ ∀ p, Occ (mergeRest d1 s pr ad) p → Occ d1 p ∨ Own s p := by
  obtain ⟨hd1, hd2, hd3⟩ := hd.node hR
  obtain ⟨hs1, hs2, hs3⟩ := hs.node hR
  have hown : ∀ p, Own (mergeRest d1 s pr ad) p → Own d1 p ∨ Own s p := by
    intro p h
    cases h with
    | here => exact .inl .here
    | prop hc h =>
      obtain ⟨y, hy | hy, hoy⟩ := hpo _ _ _ hc h
      · exact .inl (.prop hy hoy)
      · exact .inr (.prop hy hoy)
    | addl hb h =>
      have hb : ad = _ := hb
      rcases hao _ (by rw [hb]; exact .addl h) with h | h
      · exact .inl h.own
      · exact .inr h.own
    | flag hb =>
      have hb : ad = _ := hb
      rcases hao _ (by rw [hb]; exact .flag) with h | h
      · exact .inl h.own
      · exact .inr h.own
  refine ⟨inv_of (fun _ => ⟨?_, ?_, ?_⟩) ?_ hp.2 ha.2 ?_ ?_, ?_⟩
  · have := hd1.plain.merge hs1.plain
    refine ⟨this.1, this.2, this.3, ?_, ?_, ha.1, hp.1⟩
    · show (mergeList d1.patternProperties s.patternProperties).val = []
      rw [hd1.patterns, hs1.patterns]; rfl
    · show (mergeOpt d1.additionalItems s.additionalItems).val = none
      rw [hd1.additionalItems, hs1.additionalItems]; rfl
  · intro h
    rcases hpn h with h | h
    · exact hd2 h
    · exact hs2 h
  · intro h
    exact han (hd3 h) (hs3 h)
  · intro c hc
    rcases List.mem_append.1 hc with hc | hc
    · exact hd.member hc
    · exact inv_remainders hd1 hs1 hc
  · intro c hc p hocc hw
    rcases List.mem_append.1 hc with hc | hc
    · rcases hown p hw with h | h
      · exact hd.twice p (.own hc hocc h)
      · exact ho p (.allOf hc hocc) h
    · rw [occ_remainders hc hocc]; exact hR
  · intro l c l' c' e hc' p h1 h2
    have e : d1.allOf ++ remainders d1 s = l ++ c :: l' := e
    rcases List.append_eq_append_iff.1 e with ⟨as, h3, h4⟩ | ⟨bs, h3, h4⟩
    · have : c ∈ remainders d1 s := by rw [h4]; simp
      rw [occ_remainders this h1]; exact hR
    · cases bs with
      | nil =>
        have : c ∈ remainders d1 s := by rw [← show c :: l' = remainders d1 s from h4]; simp
        rw [occ_remainders this h1]; exact hR
      | cons b bs =>
        cases h4
        rcases List.mem_append.1 hc' with hc' | hc'
        · exact hd.twice p (.two h3 hc' h1 h2)
        · rw [occ_remainders hc' h2]; exact hR
  · intro p h
    rcases occ_iff.1 h with h | ⟨c, hc, h⟩
    · exact (hown p h).imp Own.occ id
    · rcases List.mem_append.1 hc with hc | hc
      · exact .inl (.allOf hc h)
      · rw [occ_remainders hc h]; exact .inl .here

mutual
theorem into_inv (R P : Path → Prop) (d : Schema) : (s : Schema) → Pair R P d s → Inv R P (flattenInto d s).1 ∧ ∀ p, Occ (flattenInto d s).1 p → Occ d p ∨ Occ s p
  | .mk b it al oo an nt pr ad pa de ai df, h => by
    obtain ⟨hd1, ho1⟩ : Inv R P (flattenAllInto d al).1 ∧ _ := all_inv R P d al h.all
    have ho := h.after ho1
    obtain ⟨hp1, hp2, hp3⟩ := props_inv R P (flattenAllInto d al).1.properties pr (h.props hd1 ho)
    obtain ⟨ha1, ha2, ha3⟩ := addl_inv R P (flattenAllInto d al).1.additionalProperties ad (h.addl hd1 ho)
    have hm := inv_merged h.root hd1 h.src ho hp1 hp2 hp3 ha1 ha2 ha3
    rw [flattenInto_eq]
    refine ⟨hm.1, fun p hp => ?_⟩
    rcases hm.2 p hp with h' | h'
    · rcases ho1 p h' with h' | ⟨c, hc, h'⟩
      · exact .inl h'
      · exact .inr (.allOf hc h')
    · exact .inr h'.occ
theorem all_inv (R P : Path → Prop) (d : Schema) : (l : List Schema) → PairAll R P d l → Inv R P (flattenAllInto d l).1 ∧ ∀ p, Occ (flattenAllInto d l).1 p → Occ d p ∨ ∃ c ∈ l, Occ c p
  | [], h => by simp only [flattenAllInto]; exact ⟨h.dst, fun p hp => .inl hp⟩
  | s :: l, h => by
    simp only [flattenAllInto]
    obtain ⟨h1, h2⟩ := into_inv R P d s h.head
    obtain ⟨h3, h4⟩ := all_inv R P _ l (h.tail h1 h2)
    refine ⟨h3, fun p hp => ?_⟩
    rcases h4 p hp with hp | ⟨c, hc, hp⟩
    · rcases h2 p hp with hp | hp
      · exact .inl hp
      · exact .inr ⟨s, by simp, hp⟩
    · exact .inr ⟨c, by simp [hc], hp⟩
theorem props_inv (R P : Path → Prop) (d : List (String × Schema)) : (s : List (String × Schema)) → PairProps R P d s →
    InvProps R P (mergeProps d s).1 ∧ ((mergeProps d s).1 ≠ [] → d ≠ [] ∨ s ≠ []) ∧
    ∀ k x p, (k, x) ∈ (mergeProps d s).1 → Occ x p → ∃ y, ((k, y) ∈ d ∨ (k, y) ∈ s) ∧ Occ y p
  | [], h => by simp only [mergeProps]; exact ⟨h.dst, .inl, fun k x p hx ho => ⟨x, .inl hx, ho⟩⟩
  | (k, v) :: l, h => by
    rw [mergeProps]
    cases hg : GoMap.get d k with
    | none =>
      obtain ⟨h1, -, h3⟩ := props_inv R P _ l (h.next (h.src.2 (k, v) (by simp)))
      refine ⟨h1, fun _ => .inr (by simp), fun k' x p hx ho => ?_⟩
      obtain ⟨y, hy | hy, ho⟩ := h3 k' x p hx ho
      · rcases GoMap.mem_of_mem_put hy with e | hy
        · cases e; exact ⟨v, .inr (by simp), ho⟩
        · exact ⟨y, .inl hy, ho⟩
      · exact ⟨y, .inr (by simp [hy]), ho⟩
    | some z =>
      obtain ⟨i1, i2⟩ := into_inv _ _ z v (h.both hg)
      obtain ⟨h1, -, h3⟩ := props_inv R P _ l (h.next i1)
      refine ⟨h1, fun _ => .inr (by simp), fun k' x p hx ho => ?_⟩
      obtain ⟨y, hy | hy, ho⟩ := h3 k' x p hx ho
      · rcases GoMap.mem_of_mem_put hy with e | hy
        · cases e
          rcases i2 p ho with ho | ho
          · exact ⟨z, .inl (get_mem hg), ho⟩
          · exact ⟨v, .inr (by simp), ho⟩
        · exact ⟨y, .inl hy, ho⟩
      · exact ⟨y, .inr (by simp [hy]), ho⟩
theorem addl_inv (R P : Path → Prop) (d : Option OrBool) : (s : Option OrBool) → PairAddl R P d s →
    InvAddl R P (mergeAddl d s).1 ∧ (d = none → s = none → (mergeAddl d s).1 = none) ∧ ∀ p, OccAddl (mergeAddl d s).1 p → OccAddl d p ∨ OccAddl s p
  | none, h => by simp only [mergeAddl]; exact ⟨h.dst, fun h _ => h, fun p => .inl⟩
  | some (.mk a none), h => by
    simp only [mergeAddl]
    cases d with
    | none => exact ⟨h.src, nofun, fun p => .inr⟩
    | some o => exact ⟨h.dst, nofun, fun p => .inl⟩
  | some (.mk a (some s)), h => by
    cases d with
    | none => simp only [mergeAddl]; exact ⟨h.src, nofun, fun p => .inr⟩
    | some o =>
      obtain ⟨b, x⟩ := o
      simp only [mergeAddl]
      obtain ⟨i1, i2⟩ := into_inv _ _ _ s h.both
      refine ⟨⟨by simp, fun b' c hc => ?_⟩, nofun, fun p hp => ?_⟩
      · simp only [Option.some.injEq, OrBool.mk.injEq] at hc
        rw [← hc.2]
        exact i1
      · cases hp with
        | addl hp =>
          rcases i2 p hp with hp | hp
          · cases x with
            | none => cases occ_flat rfl rfl rfl hp; exact .inl .flag
            | some x => exact .inl (.addl hp)
          · exact .inr (.addl hp)
end

/-! ## Schemas with allOf members in the result can be merged -/

theorem guard_children {s : Schema} (h : Guard s) {c : Schema} (hc : Child s c) : Guard c := (guard_iff.1 h).2 c hc

theorem guard_empty : Guard Schema.empty := by
  rw [guard_iff]
  refine ⟨fun h => absurd rfl h, fun c hc => ?_⟩
  cases hc with
  | items h1 h2 => simp [Schema.empty, Schema.leaf, Schema.items] at h1
  | itemsArr h1 h2 => simp [Schema.empty, Schema.leaf, Schema.items] at h1
  | allOf h => simp [Schema.empty, Schema.leaf, Schema.allOf] at h
  | oneOf h => simp [Schema.empty, Schema.leaf, Schema.oneOf] at h
  | anyOf h => simp [Schema.empty, Schema.leaf, Schema.anyOf] at h
  | not h => simp [Schema.empty, Schema.leaf, Schema.not] at h
  | property h => simp [Schema.empty, Schema.leaf, Schema.properties] at h
  | additionalProperties h1 h2 => simp [Schema.empty, Schema.leaf, Schema.additionalProperties] at h1
  | patternProperty h => simp [Schema.empty, Schema.leaf, Schema.patternProperties] at h
  | dependency h1 h2 => simp [Schema.empty, Schema.leaf, Schema.dependencies] at h1
  | additionalItems h1 h2 => simp [Schema.empty, Schema.leaf, Schema.additionalItems] at h1
  | definition h => simp [Schema.empty, Schema.leaf, Schema.definitions] at h

theorem guard_remainders {d s c : Schema} (hd : Guard d) (hs : Guard s) (hc : c ∈ remainders d s) : Guard c := by
  rw [guard_iff]
  rcases mem_remainders hc with rfl | rfl
  · exact ⟨fun h => absurd rfl h, fun c hc => guard_children hd (child_dstRem hc)⟩
  · exact ⟨fun h => absurd rfl h, fun c hc => guard_children hs (child_srcRem hc)⟩

mutual
theorem into_guard (R P : Path → Prop) (d : Schema) : (s : Schema) → Pair R P d s → Guard d → Guard s → Guard (flattenInto d s).1
  | .mk b it al oo an nt pr ad pa de ai df, h, gd, gs => by
    have hres := (into_inv R P d _ h).1
    obtain ⟨hd1, ho1⟩ : Inv R P (flattenAllInto d al).1 ∧ _ := all_inv R P d al h.all
    have ho := h.after ho1
    have gd1 : Guard (flattenAllInto d al).1 := all_guard R P d al h.all gd fun c hc => guard_children gs (.allOf hc)
    have gp := props_guard R P (flattenAllInto d al).1.properties pr (h.props hd1 ho)
      (fun e he => guard_children gd1 (.property (k := e.1) he)) (fun e he => guard_children gs (.property (k := e.1) he))
    have ga := addl_guard R P (flattenAllInto d al).1.additionalProperties ad (h.addl hd1 ho)
      (fun b c hc => guard_children gd1 (.additionalProperties hc rfl)) (fun b c hc => guard_children gs (.additionalProperties hc rfl))
    rw [guard_iff]
    refine ⟨fun _ => mergeable_iff.2 ⟨R, P, hres⟩, fun c hc => ?_⟩
    rw [flattenInto_eq] at hc
    rcases child_mergeRest hc with hc | hc | hc | ⟨k, hc⟩ | ⟨b', hc⟩
    · exact guard_children gd1 hc
    · exact guard_children gs hc
    · exact guard_remainders gd1 gs hc
    · exact gp _ hc
    · exact ga _ _ hc
theorem all_guard (R P : Path → Prop) (d : Schema) : (l : List Schema) → PairAll R P d l → Guard d → (∀ c ∈ l, Guard c) →
    Guard (flattenAllInto d l).1
  | [], _, gd, _ => by simpa only [flattenAllInto] using gd
  | s :: l, h, gd, gl => by
    simp only [flattenAllInto]
    obtain ⟨h1, h2⟩ := into_inv R P d s h.head
    exact all_guard R P _ l (h.tail h1 h2) (into_guard R P d s h.head gd (gl s (by simp))) fun c hc => gl c (by simp [hc])
theorem props_guard (R P : Path → Prop) (d : List (String × Schema)) : (s : List (String × Schema)) → PairProps R P d s →
    (∀ e ∈ d, Guard e.2) → (∀ e ∈ s, Guard e.2) → ∀ e ∈ (mergeProps d s).1, Guard e.2
  | [], _, gd, _ => by simp only [mergeProps]; exact gd
  | (k, v) :: l, h, gd, gs => by
    have gl : ∀ e ∈ l, Guard e.2 := fun e he => gs e (List.mem_cons_of_mem _ he)
    have gv := gs (k, v) (by simp)
    rw [mergeProps]
    cases hg : GoMap.get d k with
    | none =>
      refine props_guard R P _ l (h.next (h.src.2 (k, v) (by simp))) (fun e he => ?_) gl
      rcases GoMap.mem_of_mem_put he with rfl | he
      · exact gv
      · exact gd e he
    | some x =>
      refine props_guard R P _ l (h.next (into_inv _ _ x v (h.both hg)).1) (fun e he => ?_) gl
      rcases GoMap.mem_of_mem_put he with rfl | he
      · exact into_guard _ _ x v (h.both hg) (gd _ (get_mem hg)) gv
      · exact gd e he
theorem addl_guard (R P : Path → Prop) (d : Option OrBool) : (s : Option OrBool) → PairAddl R P d s →
    (∀ b c, d = some (.mk b (some c)) → Guard c) → (∀ b c, s = some (.mk b (some c)) → Guard c) → ∀ b c, (mergeAddl d s).1 = some (.mk b (some c)) → Guard c
  | none, _, gd, _ => by simp only [mergeAddl]; exact gd
  | some (.mk a none), _, gd, gs => by
    simp only [mergeAddl]
    cases d with
    | none => exact gs
    | some o => exact gd
  | some (.mk a (some s)), h, gd, gs => by
    have gs' := gs a s rfl
    cases d with
    | none => simp only [mergeAddl]; exact gs
    | some o =>
      obtain ⟨b, x⟩ := o
      simp only [mergeAddl]
      intro b' c hc
      simp only [Option.some.injEq, OrBool.mk.injEq] at hc
      rw [← hc.2]
      refine into_guard _ _ _ s h.both ?_ gs'
      cases x with
      | none => exact guard_empty
      | some x => exact gd b x rfl
end

/-! ## Merging is conjunction -/

theorem field_rem {α : Type} [DecidableEq α] {cmp : Bool} {z d s : α} (h : (mergeField cmp z d s).hoisted = false) :
    (mergeField cmp z d s).dstRem = z ∧ (mergeField cmp z d s).srcRem = z := by
  revert h; simp only [mergeField]
  split
  · simp
  · split
    · simp
    · split <;> simp

theorem opt_rem {α : Type} {d s : Option α} (h : (mergeOpt d s).hoisted = false) : (mergeOpt d s).dstRem = none ∧ (mergeOpt d s).srcRem = none := by
  revert h; cases d <;> cases s <;> simp [mergeOpt]

theorem list_rem {α : Type} {d s : List α} (h : (mergeList d s).hoisted = false) : (mergeList d s).dstRem = [] ∧ (mergeList d s).srcRem = [] := by
  revert h; cases d <;> cases s <;> simp [mergeList]

theorem base_rem {d s : Base} (h : hoistedBase d s = false) : dstRemBase d s = {} ∧ srcRemBase d s = {} := by
  simp only [hoistedBase, Bool.or_eq_false_iff, and_assoc] at h
  obtain ⟨h1, h2, h3, h4, h5, h6, h7, h8, h9, h10, h11, h12, h13, h14, h15, h16, h17, h18, h19, h20, h21, h22, h23, h24⟩ := h
  constructor
  · simp only [dstRemBase, (field_rem h1).1, (field_rem h2).1, (field_rem h3).1, (field_rem h4).1, (field_rem h5).1, (field_rem h6).1, (field_rem h7).1,
      (field_rem h8).1, (field_rem h9).1, (field_rem h10).1, (field_rem h11).1, (field_rem h12).1, (field_rem h13).1, (field_rem h14).1, (field_rem h15).1,
      (field_rem h16).1, (field_rem h17).1, (field_rem h18).1, (field_rem h19).1, (field_rem h20).1, (field_rem h21).1, (field_rem h22).1, (field_rem h23).1, (field_rem h24).1]
  · simp only [srcRemBase, (field_rem h1).2, (field_rem h2).2, (field_rem h3).2, (field_rem h4).2, (field_rem h5).2, (field_rem h6).2, (field_rem h7).2,
      (field_rem h8).2, (field_rem h9).2, (field_rem h10).2, (field_rem h11).2, (field_rem h12).2, (field_rem h13).2, (field_rem h14).2, (field_rem h15).2,
      (field_rem h16).2, (field_rem h17).2, (field_rem h18).2, (field_rem h19).2, (field_rem h20).2, (field_rem h21).2, (field_rem h22).2, (field_rem h23).2, (field_rem h24).2]

theorem remainders_nil {d s : Schema} (h : (hoistedBase d.base s.base || hoistedSub d s) = false) :
    dstRemainder d s = Schema.empty ∧ srcRemainder d s = Schema.empty := by
  simp only [hoistedSub, Bool.or_eq_false_iff, and_assoc] at h
  obtain ⟨h1, h2, h3, h4, h5, h6, h7, h8, h9⟩ := h
  constructor
  · simp only [dstRemainder, (base_rem h1).1, (opt_rem h2).1, (list_rem h3).1, (list_rem h4).1, (opt_rem h5).1, (list_rem h6).1, (list_rem h7).1, (opt_rem h8).1, (list_rem h9).1]
    rfl
  · simp only [srcRemainder, (base_rem h1).2, (opt_rem h2).2, (list_rem h3).2, (list_rem h4).2, (opt_rem h5).2, (list_rem h6).2, (list_rem h7).2, (opt_rem h8).2, (list_rem h9).2]
    rfl

theorem validAll_remainders {M : Meaning} {d s : Schema} {j : Json} :
    ValidAll M (remainders d s) j ↔ Valid M (dstRemainder d s) j ∧ Valid M (srcRemainder d s) j := by
  unfold remainders
  split
  · simp [ValidAll]
  · rename_i h
    have := remainders_nil (d := d) (s := s) (by simpa using h)
    rw [this.1, this.2]
    simp [ValidAll, valid_empty]

theorem valid_dstRem {M : Meaning} {d s : Schema} {j : Json} (hd : NodeOk d) (hs : NodeOk s) : Valid M (dstRemainder d s) j ↔
    BaseOk M (dstRemBase d.base s.base) j ∧ ValidItems M (mergeOpt d.items s.items).dstRem j ∧
    ((mergeList d.oneOf s.oneOf).dstRem ≠ [] → ValidOne M (mergeList d.oneOf s.oneOf).dstRem j) ∧
    ((mergeList d.anyOf s.anyOf).dstRem ≠ [] → ValidAny M (mergeList d.anyOf s.anyOf).dstRem j) ∧
    ¬ ValidOpt M (mergeOpt d.not s.not).dstRem j ∧ ValidDeps M (mergeList d.dependencies s.dependencies).dstRem j := by
  rw [valid_iff]
  simp only [dstRemainder, Schema.base_mk, Schema.items_mk, Schema.allOf_mk, Schema.oneOf_mk, Schema.anyOf_mk, Schema.not_mk, Schema.properties_mk, Schema.additionalProperties_mk,
    Schema.patternProperties_mk, Schema.dependencies_mk, Schema.additionalItems_mk]
  rw [show (mergeList d.patternProperties s.patternProperties).dstRem = [] by rw [hd.patterns, hs.patterns]; rfl,
    show (mergeOpt d.additionalItems s.additionalItems).dstRem = none by rw [hd.additionalItems, hs.additionalItems]; rfl]
  simp only [ValidAll, ValidProps, ValidAddl, ValidPats, and_true, true_and]

theorem valid_srcRem {M : Meaning} {d s : Schema} {j : Json} (hd : NodeOk d) (hs : NodeOk s) : Valid M (srcRemainder d s) j ↔
    BaseOk M (srcRemBase d.base s.base) j ∧ ValidItems M (mergeOpt d.items s.items).srcRem j ∧
    ((mergeList d.oneOf s.oneOf).srcRem ≠ [] → ValidOne M (mergeList d.oneOf s.oneOf).srcRem j) ∧
    ((mergeList d.anyOf s.anyOf).srcRem ≠ [] → ValidAny M (mergeList d.anyOf s.anyOf).srcRem j) ∧
    ¬ ValidOpt M (mergeOpt d.not s.not).srcRem j ∧ ValidDeps M (mergeList d.dependencies s.dependencies).srcRem j := by
  rw [valid_iff]
  simp only [srcRemainder, Schema.base_mk, Schema.items_mk, Schema.allOf_mk, Schema.oneOf_mk, Schema.anyOf_mk, Schema.not_mk, Schema.properties_mk, Schema.additionalProperties_mk,
    Schema.patternProperties_mk, Schema.dependencies_mk, Schema.additionalItems_mk]
  rw [show (mergeList d.patternProperties s.patternProperties).srcRem = [] by rw [hd.patterns, hs.patterns]; rfl,
    show (mergeOpt d.additionalItems s.additionalItems).srcRem = none by rw [hd.additionalItems, hs.additionalItems]; rfl]
  simp only [ValidAll, ValidProps, ValidAddl, ValidPats, and_true, true_and]

/-- One level of merging, given that properties and additionalProperties together are merged to the conjunction. -/
theorem valid_mergeRest {M : Meaning} {d s : Schema} {pr : List (String × Schema)} {ad : Option OrBool} {j : Json} (hd : NodeOk d) (hs : NodeOk s)
    (ht : (mergeType d.base.type s.base.type).2 = [])
    (hp : ValidProps M pr j ↔ ValidProps M d.properties j ∧ ValidProps M s.properties j)
    (ha : ValidAddl M ad (fun v => ∃ k m, j = .obj m ∧ (k, v) ∈ m ∧ k ∉ pr.map (·.1) ∧ ∀ e ∈ ([] : List (String × Schema)), ¬ M.matches_ e.1 k) ↔
      ValidAddl M d.additionalProperties (fun v => ∃ k m, j = .obj m ∧ (k, v) ∈ m ∧ k ∉ d.properties.map (·.1) ∧ ∀ e ∈ ([] : List (String × Schema)), ¬ M.matches_ e.1 k) ∧
      ValidAddl M s.additionalProperties (fun v => ∃ k m, j = .obj m ∧ (k, v) ∈ m ∧ k ∉ s.properties.map (·.1) ∧ ∀ e ∈ ([] : List (String × Schema)), ¬ M.matches_ e.1 k)) :
    Valid M (mergeRest d s pr ad) j ↔ Valid M d j ∧ (BaseOk M s.base j ∧ ValidItems M s.items j ∧ (s.oneOf ≠ [] → ValidOne M s.oneOf j) ∧
      (s.anyOf ≠ [] → ValidAny M s.anyOf j) ∧ ¬ ValidOpt M s.not j ∧ ValidProps M s.properties j ∧
      ValidAddl M s.additionalProperties (fun v => ∃ k m, j = .obj m ∧ (k, v) ∈ m ∧ k ∉ s.properties.map (·.1) ∧ ∀ e ∈ ([] : List (String × Schema)), ¬ M.matches_ e.1 k) ∧
      ValidDeps M s.dependencies j) := by
  have hB := baseOk_merge M hd.plain hs.plain ht j
  have hI := opt_sem (fun o => ValidItems M o j) (d := d.items) (s := s.items) (by simp [ValidItems])
  have hO := list_sem (fun o => o ≠ [] → ValidOne M o j) (d := d.oneOf) (s := s.oneOf) (by simp)
  have hA := list_sem (fun o => o ≠ [] → ValidAny M o j) (d := d.anyOf) (s := s.anyOf) (by simp)
  have hN := opt_sem (fun o => ¬ ValidOpt M o j) (d := d.not) (s := s.not) (by simp [ValidOpt])
  have hD := list_sem (fun o => ValidDeps M o j) (d := d.dependencies) (s := s.dependencies) (by simp [ValidDeps])
  have eP : (mergeList d.patternProperties s.patternProperties).val = [] ∧ (mergeList d.patternProperties s.patternProperties).dstRem = [] ∧
      (mergeList d.patternProperties s.patternProperties).srcRem = [] := by rw [hd.patterns, hs.patterns]; exact ⟨rfl, rfl, rfl⟩
  have eI : (mergeOpt d.additionalItems s.additionalItems).val = none ∧ (mergeOpt d.additionalItems s.additionalItems).dstRem = none ∧
      (mergeOpt d.additionalItems s.additionalItems).srcRem = none := by rw [hd.additionalItems, hs.additionalItems]; exact ⟨rfl, rfl, rfl⟩
  rw [valid_iff (s := mergeRest d s pr ad), valid_iff (s := d)]
  simp only [mergeRest, Schema.base_mk, Schema.items_mk, Schema.allOf_mk, Schema.oneOf_mk, Schema.anyOf_mk, Schema.not_mk, Schema.properties_mk, Schema.additionalProperties_mk,
    Schema.patternProperties_mk, Schema.dependencies_mk, Schema.additionalItems_mk]
  rw [eP.1, eI.1]
  simp only [validAll_append, validAll_remainders, valid_dstRem hd hs, valid_srcRem hd hs, hd.patterns, hd.additionalItems, hp, ha, ValidPats, ValidAddl]
  constructor
  · rintro ⟨a1, a2, ⟨a3, ⟨b1, b2, b3, b4, b5, b6⟩, c1, c2, c3, c4, c5, c6⟩, a4, a5, a6, ⟨a7, a7'⟩, ⟨a8, a8'⟩, -, a9, -⟩
    have h1 := hB.1 ⟨a1, b1, c1⟩
    have h2 := hI.1 ⟨a2, b2, c2⟩
    have h3 := hO.1 ⟨a4, b3, c3⟩
    have h4 := hA.1 ⟨a5, b4, c4⟩
    have h5 := hN.1 ⟨a6, b5, c5⟩
    have h6 := hD.1 ⟨a9, b6, c6⟩
    exact ⟨⟨h1.1, h2.1, a3, h3.1, h4.1, h5.1, a7, a8, trivial, h6.1, trivial⟩, h1.2, h2.2, h3.2, h4.2, h5.2, a7', a8', h6.2⟩
  · rintro ⟨⟨a1, a2, a3, a4, a5, a6, a7, a8, -, a9, -⟩, b1, b2, b3, b4, b5, b6, b7, b8⟩
    have h1 := hB.2 ⟨a1, b1⟩
    have h2 := hI.2 ⟨a2, b2⟩
    have h3 := hO.2 ⟨a4, b3⟩
    have h4 := hA.2 ⟨a5, b4⟩
    have h5 := hN.2 ⟨a6, b5⟩
    have h6 := hD.2 ⟨a9, b8⟩
    exact ⟨h1.1, h2.1, ⟨a3, ⟨h1.2.1, h2.2.1, h3.2.1, h4.2.1, h5.2.1, h6.2.1⟩, h1.2.2, h2.2.2, h3.2.2, h4.2.2, h5.2.2, h6.2.2⟩, h3.1, h4.1, h5.1, ⟨a7, b6⟩, ⟨a8, b7⟩, trivial, h6.1, trivial⟩

theorem validProps_put {M : Meaning} {l : List (String × Schema)} (hl : (l.map (·.1)).Nodup) {k : String} {v : Schema} {j : Json} :
    ValidProps M (GoMap.put l k v) j ↔ (∀ e ∈ l, e.1 ≠ k → ∀ w, j.get e.1 = some w → Valid M e.2 w) ∧ ∀ w, j.get k = some w → Valid M v w := by
  rw [validProps_iff]
  simp only [GoMap.mem_put hl]
  constructor
  · intro h
    exact ⟨fun e he hk => h e (.inr ⟨he, hk⟩), h (k, v) (.inl rfl)⟩
  · rintro ⟨h1, h2⟩ e (rfl | ⟨he, hk⟩)
    · exact h2
    · exact h1 e he hk

mutual
theorem into_sem (M : Meaning) (R P : Path → Prop) (d : Schema) : (s : Schema) → Pair R P d s → (flattenInto d s).2 = [] →
    ∀ j, Valid M (flattenInto d s).1 j ↔ Valid M d j ∧ Valid M s j
  | .mk b it al oo an nt pr ad pa de ai df, h, he, j => by
    obtain ⟨hs1, hs2, hs3⟩ := h.src.node h.root
    obtain ⟨hd1, ho1⟩ : Inv R P (flattenAllInto d al).1 ∧ _ := all_inv R P d al h.all
    have ho := h.after ho1
    obtain ⟨hd1', hd2, hd3⟩ := hd1.node h.root
    rw [flattenInto_eq] at he ⊢
    simp only [Schema.allOf_mk, Schema.properties_mk, Schema.additionalProperties_mk, List.append_eq_nil_iff, and_assoc] at he hs3 hs2 ⊢
    obtain ⟨he1, he2, he3, he4⟩ := he
    have h1 := all_sem M R P d al h.all he1 j
    have hpp := props_sem M R P (flattenAllInto d al).1.properties pr (h.props hd1 ho) he3 j
    have hpat : pa = [] := hs1.patterns
    have hai : ai = none := hs1.additionalItems
    rw [valid_mergeRest hd1' hs1 he2 hpp, h1, valid_iff (s := Schema.mk b it al oo an nt pr ad pa de ai df)]
    · simp only [Schema.base_mk, Schema.items_mk, Schema.allOf_mk, Schema.oneOf_mk, Schema.anyOf_mk, Schema.not_mk, Schema.properties_mk, Schema.additionalProperties_mk,
        Schema.patternProperties_mk, Schema.dependencies_mk, Schema.additionalItems_mk, hpat, hai, ValidPats, ValidAddl]
      constructor
      · rintro ⟨⟨a1, a2⟩, b1, b2, b3, b4, b5, b6, b7, b8⟩
        exact ⟨a1, b1, b2, a2, b3, b4, b5, b6, b7, trivial, b8, trivial⟩
      · rintro ⟨a1, b1, b2, a2, b3, b4, b5, b6, b7, -, b8, -⟩
        exact ⟨⟨a1, a2⟩, b1, b2, b3, b4, b5, b6, b7, b8⟩
    · simp only [Schema.properties_mk, Schema.additionalProperties_mk]
      by_cases hP : P []
      · have e1 := hd3 hP
        have e2 := hs3 hP
        rw [e2, e1]
        simp [mergeAddl, ValidAddl]
      · have e1 : (flattenAllInto d al).1.properties = [] := Classical.byContradiction fun h => hP (hd2 h)
        have e2 : pr = [] := Classical.byContradiction fun h => hP (hs2 h)
        have e3 : (mergeProps (flattenAllInto d al).1.properties pr).1 = [] := by rw [e1, e2]; simp [mergeProps]
        rw [e3, e1, e2]
        exact addl_sem M R P _ ad (h.addl hd1 ho) he4 _
theorem all_sem (M : Meaning) (R P : Path → Prop) (d : Schema) : (l : List Schema) → PairAll R P d l →
    (flattenAllInto d l).2 = [] → ∀ j, Valid M (flattenAllInto d l).1 j ↔ Valid M d j ∧ ValidAll M l j
  | [], _, _, j => by simp [flattenAllInto, ValidAll]
  | s :: l, h, he, j => by
    simp only [flattenAllInto, List.append_eq_nil_iff] at he ⊢
    obtain ⟨h1, h2⟩ := into_inv R P d s h.head
    rw [all_sem M R P _ l (h.tail h1 h2) he.2, into_sem M R P d s h.head he.1, ValidAll, and_assoc]
theorem props_sem (M : Meaning) (R P : Path → Prop) (d : List (String × Schema)) : (s : List (String × Schema)) → PairProps R P d s →
    (mergeProps d s).2 = [] → ∀ j, ValidProps M (mergeProps d s).1 j ↔ ValidProps M d j ∧ ValidProps M s j
  | [], _, _, j => by simp [mergeProps, ValidProps]
  | (k, v) :: l, h, he, j => by
    rw [mergeProps] at he ⊢
    rw [ValidProps]
    cases hg : GoMap.get d k with
    | none =>
      rw [hg] at he
      simp only at he ⊢
      rw [props_sem M R P _ l (h.next (h.src.2 (k, v) (by simp))) he j, validProps_put h.dst.1, validProps_iff (l := d)]
      constructor
      · rintro ⟨⟨h1, h2⟩, h3⟩
        exact ⟨fun e he => h1 e he (get_none hg e he), h2, h3⟩
      · rintro ⟨h1, h2, h3⟩
        exact ⟨⟨fun e he _ => h1 e he, h2⟩, h3⟩
    | some x =>
      rw [hg] at he
      simp only [List.append_eq_nil_iff] at he ⊢
      rw [props_sem M R P _ l (h.next (into_inv _ _ x v (h.both hg)).1) he.2 j, validProps_put h.dst.1, validProps_iff (l := d)]
      have hm := into_sem M _ _ x v (h.both hg) he.1
      constructor
      · rintro ⟨⟨h1, h2⟩, h3⟩
        refine ⟨fun e hem w hw => ?_, fun w hw => ((hm w).1 (h2 w hw)).2, h3⟩
        by_cases hk : e.1 = k
        · have : e.2 = x := by
            have h4 := get_mem hg
            obtain ⟨k', y⟩ := e
            cases hk
            exact GoMap.wf_unique h.dst.1 hem h4
          rw [this]
          exact ((hm w).1 (h2 w (hk ▸ hw))).1
        · exact h1 e hem hk w hw
      · rintro ⟨h1, h2, h3⟩
        exact ⟨⟨fun e he _ => h1 e he, fun w hw => (hm w).2 ⟨h1 _ (get_mem hg) w hw, h2 w hw⟩⟩, h3⟩
theorem addl_sem (M : Meaning) (R P : Path → Prop) (d : Option OrBool) : (s : Option OrBool) → PairAddl R P d s →
    (mergeAddl d s).2 = [] → ∀ vs : Json → Prop, ValidAddl M (mergeAddl d s).1 vs ↔ ValidAddl M d vs ∧ ValidAddl M s vs
  | none, _, _, vs => by simp [mergeAddl, ValidAddl]
  | some (.mk a none), h, _, vs => by
    have : a = true := by
      cases a with
      | true => rfl
      | false => exact absurd rfl h.src.1
    subst this
    cases d with
    | none => simp [mergeAddl, ValidAddl]
    | some o =>
      have e : (mergeAddl (some o) (some (.mk true none))).1 = some o := by simp only [mergeAddl, Option.getD_some]
      have e' : ValidAddl M (some (.mk true none)) vs ↔ True := by simp [ValidAddl]
      rw [e, e', and_true]
  | some (.mk a (some s)), h, he, vs => by
    cases d with
    | none => simp [mergeAddl, ValidAddl]
    | some o =>
      obtain ⟨b, x⟩ := o
      cases x with
      | none =>
        simp only [mergeAddl, ValidAddl] at he ⊢
        have : b = true := by
          cases b with
          | true => rfl
          | false => exact absurd rfl h.dst.1
        subst this
        have hm := into_sem M _ _ Schema.empty s h.both he
        simp only [Option.getD_none, ValidAddl, true_or, true_and]
        exact ⟨fun h v hv => ((hm v).1 (h v hv)).2, fun h v hv => (hm v).2 ⟨valid_empty M v, h v hv⟩⟩
      | some x =>
        simp only [mergeAddl, ValidAddl] at he ⊢
        have hm := into_sem M _ _ x s h.both he
        simp only [Option.getD_some, ValidAddl]
        exact ⟨fun h => ⟨fun v hv => ((hm v).1 (h v hv)).1, fun v hv => ((hm v).1 (h v hv)).2⟩, fun h v hv => (hm v).2 ⟨h.1 v hv, h.2 v hv⟩⟩
end

end Verif.Crd

import Verif.Crd.StructMerge

/-!
# Lemmas for C79: the merged schema is structural
-/
namespace Verif.Crd
open Spec

/-- Something like a type is given. -/
def Kinded (u : Schema) (_ : String) : Prop := u.base.type ≠ "" ∨ u.base.xIntOrString = true ∨ u.base.xPreserveUnknownFields ≠ none

theorem type_merge (d s : String) : (mergeType d s).1 ≠ "" ↔ d ≠ "" ∨ s ≠ "" := by
  unfold mergeType
  split
  · simp_all
  · split
    · simp_all
    · split <;> simp_all

theorem flag_merge (d s : Bool) : (mergeField true false d s).val = true ↔ d = true ∨ s = true := by cases d <;> cases s <;> decide

theorem collect_kinded : Collect Kinded where
  merge := by
    intro d s _
    show ((mergeType d.base.type s.base.type).1 ≠ "" ∨ (mergeField true false d.base.xIntOrString s.base.xIntOrString).val = true ∨
      s.base.xPreserveUnknownFields.or d.base.xPreserveUnknownFields ≠ none) ↔ _
    rw [type_merge, flag_merge]
    unfold Kinded
    cases s.base.xPreserveUnknownFields <;> cases d.base.xPreserveUnknownFields <;> simp <;> grind
  rem := by
    intro c _ hc h
    rcases h with h | h | h
    · exact h hc.type
    · rw [hc.still.xIntOrString] at h; cases h
    · exact h hc.still.xPreserveUnknownFields
  bare := Iff.rfl
  map := by intro f s _; cases s; exact Iff.rfl

/-- `Prepared` with `Kinded`. -/
structure Prepared' (u : Schema) : Prop where
  oneOf : u.oneOf = []
  not : u.not = none
  anyOf : u.anyOf = [] ∨ (u.anyOf = [.leaf { type := "integer" }, .leaf { type := "string" }] ∧ u.base.xIntOrString = true)
  preserve : u.base.xPreserveUnknownFields ≠ some false
  typed : ∀ c, Place u c → AtF Kinded c [] ""

theorem plain_plain' {u : Schema} (h : Prepared u) : Prepared' u := by
  refine ⟨h.oneOf, h.not, h.anyOf, h.preserve, fun c hc => ?_⟩
  obtain ⟨v, h1, h2⟩ := h.typed c hc
  refine ⟨v, h1, ?_⟩
  rcases h2 with h2 | h2 | h2
  · exact .inl h2
  · exact .inr (.inl h2)
  · exact .inr (.inr (by rw [h2]; simp))

theorem props_kinded (s : List (String × Schema)) : ∀ d : List (String × Schema), (∀ e ∈ d, AtF Kinded e.2 [] "") → (∀ e ∈ s, AtF Kinded e.2 [] "") →
    ∀ e ∈ (mergeProps d s).1, AtF Kinded e.2 [] "" := by
  induction s with
  | nil => intro d hd _; simp only [mergeProps]; exact hd
  | cons e l ih =>
    obtain ⟨k, v⟩ := e
    intro d hd hs
    have hput : ∀ x, AtF Kinded x [] "" → ∀ e ∈ GoMap.put d k x, AtF Kinded e.2 [] "" := by
      intro x hx e he
      rcases GoMap.mem_of_mem_put he with rfl | he
      · exact hx
      · exact hd e he
    have hl : ∀ e ∈ l, AtF Kinded e.2 [] "" := fun e he => hs e (List.mem_cons_of_mem _ he)
    rw [mergeProps]
    cases hg : GoMap.get d k with
    | none => exact ih _ (hput v (hs (k, v) (by simp))) hl
    | some x => exact ih _ (hput _ ((into_atF collect_kinded x v [] "").2 (.inr (hs (k, v) (by simp))))) hl

theorem addl_kinded (d s : Option OrBool) (hd : ∀ b c, d = some (.mk b (some c)) → AtF Kinded c [] "") (hs : ∀ b c, s = some (.mk b (some c)) → AtF Kinded c [] "") :
    ∀ b c, (mergeAddl d s).1 = some (.mk b (some c)) → AtF Kinded c [] "" := by
  cases s with
  | none => simp only [mergeAddl]; exact hd
  | some o =>
    obtain ⟨a, o⟩ := o
    cases o with
    | none =>
      simp only [mergeAddl]
      cases d with
      | none => exact hs
      | some o => exact hd
    | some s =>
      cases d with
      | none => simp only [mergeAddl]; exact hs
      | some o =>
        obtain ⟨b, x⟩ := o
        simp only [mergeAddl]
        intro b' c hc
        simp only [Option.some.injEq, OrBool.mk.injEq] at hc
        rw [← hc.2]
        exact (into_atF collect_kinded _ s [] "").2 (.inr (hs a s rfl))

theorem plain_kept : KeptBy hasAnyOf Prepared' where
  merge := by
    intro d s hd hs hb
    refine ⟨?_, ?_, ?_, ?_, ?_⟩
    · show (mergeList d.oneOf s.oneOf).val = []
      rw [hd.oneOf, hs.oneOf]; rfl
    · show (mergeOpt d.not s.not).val = none
      rw [hd.not, hs.not]; rfl
    · show (mergeList d.anyOf s.anyOf).val = [] ∨ ((mergeList d.anyOf s.anyOf).val = _ ∧ (mergeField true false d.base.xIntOrString s.base.xIntOrString).val = true)
      rw [flag_merge]
      rcases hs.anyOf with e | ⟨e, e'⟩
      · rw [e]
        rcases hd.anyOf with e | ⟨e, e'⟩
        · rw [e]; exact .inl rfl
        · rw [e]; exact .inr ⟨rfl, .inl e'⟩
      · rw [e]
        rcases hd.anyOf with e2 | ⟨e2, e2'⟩
        · rw [e2]; exact .inr ⟨rfl, .inr e'⟩
        · exact absurd ⟨by simp [hasAnyOf, e2], by simp [hasAnyOf, e]⟩ hb
    · show s.base.xPreserveUnknownFields.or d.base.xPreserveUnknownFields ≠ some false
      have h1 := hs.preserve
      have h2 := hd.preserve
      cases h : s.base.xPreserveUnknownFields with
      | none => exact h2
      | some b => rw [h] at h1; exact h1
    · intro c hc
      cases hc with
      | field h => exact props_kinded _ _ (fun e he => hd.typed _ (.field (k := e.1) he)) (fun e he => hs.typed _ (.field (k := e.1) he)) _ h
      | item h h' =>
        have h : (mergeOpt d.items s.items).val = some _ := h
        cases ed : d.items with
        | none =>
          cases es : s.items with
          | none => rw [ed, es] at h; simp [mergeOpt] at h
          | some i => rw [ed, es] at h; simp only [mergeOpt, Option.some.injEq] at h; subst h; exact hs.typed _ (.item es h')
        | some i =>
          cases es : s.items with
          | none => rw [ed, es] at h; simp only [mergeOpt, Option.some.injEq] at h; subst h; exact hd.typed _ (.item ed h')
          | some i => rw [ed, es] at h; simp [mergeOpt] at h
      | extra h => exact addl_kinded _ _ (fun b c e => hd.typed _ (.extra e)) (fun b c e => hs.typed _ (.extra e)) _ _ h
  rem := by
    intro d s c hd hs hb hc
    have hr := rem_remainders hc
    have hno : (mergeList d.anyOf s.anyOf).dstRem = [] ∧ (mergeList d.anyOf s.anyOf).srcRem = [] := by
      rcases hs.anyOf with e | ⟨e, e'⟩
      · rw [e]; exact ⟨rfl, rfl⟩
      · rcases hd.anyOf with e2 | ⟨e2, e2'⟩
        · rw [e2, e]; exact ⟨rfl, rfl⟩
        · exact absurd ⟨by simp [hasAnyOf, e2], by simp [hasAnyOf, e]⟩ hb
    have hitem : ∀ {i}, ((mergeOpt d.items s.items).dstRem = some i → d.items = some i) ∧ ((mergeOpt d.items s.items).srcRem = some i → s.items = some i) := by
      intro i; unfold mergeOpt; cases d.items <;> cases s.items <;> simp
    refine ⟨?_, ?_, ?_, ?_, ?_⟩
    · rcases mem_remainders hc with rfl | rfl
      · show (mergeList d.oneOf s.oneOf).dstRem = []; rw [hd.oneOf, hs.oneOf]; rfl
      · show (mergeList d.oneOf s.oneOf).srcRem = []; rw [hd.oneOf, hs.oneOf]; rfl
    · rcases mem_remainders hc with rfl | rfl
      · show (mergeOpt d.not s.not).dstRem = none; rw [hd.not, hs.not]; rfl
      · show (mergeOpt d.not s.not).srcRem = none; rw [hd.not, hs.not]; rfl
    · left
      rcases mem_remainders hc with rfl | rfl
      · exact hno.1
      · exact hno.2
    · rw [hr.still.xPreserveUnknownFields]; simp
    · intro c' hp
      cases hp with
      | field h => rw [hr.properties] at h; simp at h
      | extra h => rw [hr.additionalProperties] at h; simp at h
      | item h h' =>
        rcases mem_remainders hc with rfl | rfl
        · exact hd.typed _ (.item (hitem.1 h) h')
        · exact hs.typed _ (.item (hitem.2 h) h')
  bare := by
    intro s h
    refine ⟨h.oneOf, h.not, h.anyOf, h.preserve, fun c hc => h.typed c ?_⟩
    cases hc with
    | field h => exact .field h
    | item h h' => exact .item h h'
    | extra h => exact .extra h
  empty := by
    refine ⟨rfl, rfl, .inl rfl, by simp [Schema.empty, Schema.leaf, Schema.base], fun c hc => ?_⟩
    cases hc with
    | field h => simp [Schema.empty, Schema.leaf, Schema.properties] at h
    | item h h' => simp [Schema.empty, Schema.leaf, Schema.items] at h
    | extra h => simp [Schema.empty, Schema.leaf, Schema.additionalProperties] at h

theorem kept_true (F : Schema → Bool) : KeptBy F fun _ => True := ⟨fun _ _ _ => trivial, fun _ _ _ _ => trivial, fun _ => trivial, trivial⟩

theorem clear_of_lone {F : Schema → Bool} (hF : Feature F) {t : Schema} (h : Lone F t) {u : Schema} (hu : Sub (flattenEmbedded t).1 u) : ∀ c ∈ u.allOf, F c = false :=
  (flatten_one hF (kept_true F) (fun u hu => ⟨h u hu, trivial⟩) u hu).2

theorem walk_leaf (n : Nat) (b : Base) : (walkAllOf n (.leaf b)).1 = .leaf b := by
  cases n with
  | zero => rfl
  | succ n => simp only [walkAllOf, visit_flat (s := .leaf b) rfl]; rfl

theorem place_map {f : Schema → Schema × List (String × String)} {s c : Schema} (h : Place (mapChildren f s).1 c) : ∃ c₀, Place s c₀ ∧ c = (f c₀).1 := by
  obtain ⟨b, it, al, oo, an, nt, pr, ad, pa, de, ai, df⟩ := s
  cases h with
  | field h =>
    have h : (_, c) ∈ pr.map fun e => (e.1, (f e.2).1) := h
    obtain ⟨e, he, h⟩ := List.mem_map.1 h
    simp only [Prod.mk.injEq] at h
    exact ⟨e.2, .field (k := e.1) he, h.2.symm⟩
  | item h h' =>
    have h : (mapItems f it).1 = some _ := h
    cases it with
    | none => simp [mapItems] at h
    | some i =>
      obtain ⟨o, l⟩ := i
      simp only [mapItems, Option.some.injEq] at h
      subst h
      rcases h' with h' | h'
      · cases o with
        | none => simp [mapOpt, Items.schema] at h'
        | some o =>
          have : (f o).1 = c := by simpa [mapOpt, Items.schema] using h'
          exact ⟨o, .item (i := .mk (some o) l) rfl (.inl rfl), this.symm⟩
      · have h' : c ∈ l.map fun s => (f s).1 := h'
        obtain ⟨c₀, h1, h2⟩ := List.mem_map.1 h'
        exact ⟨c₀, .item (i := .mk o l) rfl (.inr h1), h2.symm⟩
  | extra h =>
    have h : (mapOrBool f ad).1 = some _ := h
    cases ad with
    | none => simp [mapOrBool] at h
    | some o =>
      obtain ⟨a, o⟩ := o
      cases o with
      | none => simp [mapOrBool, mapOpt] at h
      | some o =>
        simp only [mapOrBool, mapOpt, Option.some.injEq, OrBool.mk.injEq] at h
        exact ⟨o, .extra (b := a) rfl, h.2.symm⟩

theorem child_place {u c : Schema} (h : Place u c) : Child u c := by
  cases h with
  | field h => exact .property h
  | item h h' =>
    rcases h' with h' | h'
    · exact .items h h'
    · exact .itemsArr h h'
  | extra h => exact .additionalProperties h rfl

/-- What is known about the schemas in the merged one. -/
structure Shaped (u : Schema) : Prop where
  oneOf : u.oneOf = []
  not : u.not = none
  anyOf : u.anyOf = [] ∨ (u.anyOf = [.leaf { type := "integer" }, .leaf { type := "string" }] ∧ u.base.xIntOrString = true)
  preserve : u.base.xPreserveUnknownFields ≠ some false
  kinded : ∀ c, Place u c → AtF Kinded c [] ""

theorem shaped_of {t u : Schema} (h : ∀ v, Sub t v → Prepared v) (ha : Lone hasAnyOf t) (hu : Sub (flattenEmbedded t).1 u) : Shaped u := by
  obtain ⟨m, v, rfl, hv⟩ := (flatten_one feature_anyOf plain_kept (fun u hu => ⟨ha u hu, plain_plain' (h u hu)⟩) u hu).1
  refine ⟨?_, ?_, ?_, ?_, fun c hc => ?_⟩
  · have := hv.oneOf; revert this; cases v; exact fun h => by cases h; rfl
  · have := hv.not; revert this; cases v; exact fun h => by cases h; rfl
  · have := hv.anyOf
    revert this
    obtain ⟨b, it, al, oo, an, nt, pr, ad, pa, de, ai, df⟩ := v
    rintro (h | ⟨h, h'⟩)
    · left; cases h; rfl
    · right
      have h : an = _ := h
      refine ⟨?_, h'⟩
      show (mapSlice (walkAllOf m) an).1 = _
      rw [h]
      simp [mapSlice, walk_leaf]
  · have := hv.preserve; revert this; cases v; exact id
  · obtain ⟨c₀, h1, rfl⟩ := place_map hc
    exact (walk_atF collect_kinded m c₀ [] "").2 (hv.typed c₀ h1)

theorem outside_sub {s u : Schema} {p : List Where} (h : Outside s p u) : Sub s u := by
  induction h with
  | here => exact .refl
  | field h _ ih => exact .step (.property h) ih
  | item h h' _ ih => exact .step (child_place (.item h h')) ih
  | extra h _ ih => exact .step (child_place (.extra h)) ih

theorem kinded_self {t u : Schema} (hu : Sub (flattenEmbedded t).1 u) (h : AtF Kinded u [] "") : Kinded u "" := by
  rw [atF_iff] at h
  rcases h with ⟨-, h⟩ | ⟨c, hc, h⟩ | ⟨e, -, q, h, -⟩ | ⟨b, c, q, -, h, -⟩
  · exact h
  · have hr : Rem c := by
      have := walk_flat (2 * t.rank) t (.inl (Nat.le_refl _)) u
      rw [walk_enough t _ (Nat.le_refl _)] at this
      exact this hu c hc
    exact absurd h (atF_rem collect_kinded hr [] "")
  · cases h
  · cases h

theorem sub_trans {a b c : Schema} (h : Sub a b) (h' : Sub b c) : Sub a c := by
  induction h with
  | refl => exact h'
  | step h1 _ ih => exact .step h1 (ih h')

/-- All places are typed. -/
theorem outside_kinded {s u : Schema} {p : List Where} (h : Outside s p u) : ∀ {t}, (∀ v, Sub t v → Prepared v) → Lone hasAnyOf t → Sub (flattenEmbedded t).1 s → Kinded s "" → Kinded u "" := by
  induction h with
  | here => intro t _ _ _ h; exact h
  | field h _ ih => intro t hp ha hs _; exact ih hp ha (sub_trans hs (.step (child_place (.field h)) .refl)) (kinded_self (sub_trans hs (.step (child_place (.field h)) .refl)) ((shaped_of hp ha hs).kinded _ (.field h)))
  | item h h' _ ih => intro t hp ha hs _; exact ih hp ha (sub_trans hs (.step (child_place (.item h h')) .refl)) (kinded_self (sub_trans hs (.step (child_place (.item h h')) .refl)) ((shaped_of hp ha hs).kinded _ (.item h h')))
  | extra h _ ih => intro t hp ha hs _; exact ih hp ha (sub_trans hs (.step (child_place (.extra h)) .refl)) (kinded_self (sub_trans hs (.step (child_place (.extra h)) .refl)) ((shaped_of hp ha hs).kinded _ (.extra h)))

theorem typed_of_kinded {u : Schema} (h : Kinded u "") (h' : u.base.xPreserveUnknownFields ≠ some false) : Typed u.base := by
  rcases h with h | h | h
  · exact .inl h
  · exact .inr (.inl h)
  · refine .inr (.inr ?_)
    cases e : u.base.xPreserveUnknownFields with
    | none => exact absurd e h
    | some b => cases b with
      | false => exact absurd e h'
      | true => rfl

/-- Nothing is found within a schema without any parts. -/
structure Barren (c : Schema) : Prop where
  items : c.items = none
  allOf : c.allOf = []
  anyOf : c.anyOf = []
  oneOf : c.oneOf = []
  not : c.not = none
  properties : c.properties = []
  additionalProperties : c.additionalProperties = none

theorem barren_leaf (b : Base) : Barren (.leaf b) := ⟨rfl, rfl, rfl, rfl, rfl, rfl, rfl⟩

theorem anywhere_barren {c t : Schema} {p : List Where} (hc : Barren c) (h : Anywhere c p t) : p = [] ∧ t = c := by
  cases h with
  | here => exact ⟨rfl, rfl⟩
  | field h => rw [hc.properties] at h; simp at h
  | item h => rw [hc.items] at h; simp at h
  | extra h => rw [hc.additionalProperties] at h; simp at h
  | within h =>
    cases h with
    | allOf h => rw [hc.allOf] at h; simp at h
    | anyOf h => rw [hc.anyOf] at h; simp at h
    | oneOf h => rw [hc.oneOf] at h; simp at h
    | not h => rw [hc.not] at h; simp at h

/-- Members of the merged schema's allOf. -/
theorem member_facts {t u c : Schema} (hp : ∀ v, Sub t v → Prepared v) (h1 : Lone hasDefault t) (h2 : Lone hasListType t) (h3 : Lone hasListMapKeys t) (h4 : Lone hasItems t)
    (h5 : Lone hasAnyOf t) (hu : Sub (flattenEmbedded t).1 u) (hc : c ∈ u.allOf) : Barren c ∧ Quiet c := by
  have hr : Rem c := by
    have := walk_flat (2 * t.rank) t (.inl (Nat.le_refl _)) u
    rw [walk_enough t _ (Nat.le_refl _)] at this
    exact this hu c hc
  have hs := shaped_of hp h5 (sub_trans hu (.step (.allOf hc) .refl))
  have e1 := clear_of_lone feature_default h1 hu c hc
  have e2 := clear_of_lone feature_listType h2 hu c hc
  have e3 := clear_of_lone feature_listMapKeys h3 hu c hc
  have e4 := clear_of_lone feature_items h4 hu c hc
  have e5 := clear_of_lone feature_anyOf h5 hu c hc
  refine ⟨⟨?_, hr.allOf, ?_, hs.oneOf, hs.not, hr.properties, hr.additionalProperties⟩, ⟨hr.still.description, hr.still.title, hr.type, ?_, hr.additionalProperties, hr.still.nullable,
    hr.still.xPreserveUnknownFields, hr.still.xEmbeddedResource, hr.still.xIntOrString, ?_, ?_, hr.still.xMapType⟩⟩
  · simpa [hasItems] using e4
  · simpa [hasAnyOf] using e5
  · simpa [hasDefault] using e1
  · simpa [hasListMapKeys] using e3
  · simpa [hasListType] using e2

theorem anywhere_outside {s t : Schema} {p : List Where} (h : Anywhere s p t) : (∀ u c, Sub s u → Within u c → Barren c) → ∃ u, Outside s p u := by
  induction h with
  | here => intro _; exact ⟨_, .here⟩
  | field h _ ih =>
    intro hb
    obtain ⟨u, hu⟩ := ih fun u c hu => hb u c (.step (.property h) hu)
    exact ⟨u, .field h hu⟩
  | item h h' _ ih =>
    intro hb
    obtain ⟨u, hu⟩ := ih fun u c hu => hb u c (.step (child_place (.item h h')) hu)
    exact ⟨u, .item h h' hu⟩
  | extra h _ ih =>
    intro hb
    obtain ⟨u, hu⟩ := ih fun u c hu => hb u c (.step (child_place (.extra h)) hu)
    exact ⟨u, .extra h hu⟩
  | within h h' _ =>
    intro hb
    obtain ⟨rfl, -⟩ := anywhere_barren (hb _ _ .refl h) h'
    exact ⟨_, .here⟩

/-- A merged schema is structural. -/
theorem structural_of {t : Schema} (hp : ∀ v, Sub t v → Prepared v) (ht : TypedTogether t) (h1 : Lone hasDefault t) (h2 : Lone hasListType t) (h3 : Lone hasListMapKeys t)
    (h4 : Lone hasItems t) (h5 : Lone hasAnyOf t) : Structural (flattenEmbedded t).1 := by
  have hroot : Kinded (flattenEmbedded t).1 "" := by
    refine kinded_self (t := t) .refl ?_
    have := (walk_atF collect_kinded (2 * t.rank) t [] "").2 (by
      obtain ⟨v, h1, h2⟩ := ht
      refine ⟨v, h1, ?_⟩
      rcases h2 with h2 | h2 | h2
      · exact .inl h2
      · exact .inr (.inl h2)
      · exact .inr (.inr (by rw [h2]; simp)))
    rwa [walk_enough t _ (Nat.le_refl _)] at this
  have hbar : ∀ u c, Sub (flattenEmbedded t).1 u → Within u c → Barren c := by
    intro u c hu hc
    have hs := shaped_of hp h5 hu
    cases hc with
    | allOf h => exact (member_facts hp h1 h2 h3 h4 h5 hu h).1
    | anyOf h =>
      rcases hs.anyOf with e | ⟨e, -⟩
      · rw [e] at h; simp at h
      · rw [e] at h
        simp only [List.mem_cons, List.not_mem_nil, or_false] at h
        rcases h with rfl | rfl <;> exact barren_leaf _
    | oneOf h => rw [hs.oneOf] at h; simp at h
    | not h => rw [hs.not] at h; simp at h
  refine ⟨fun p u hu => ?_, fun p x hx => anywhere_outside hx hbar, fun p u c hu hc => ?_⟩
  · exact typed_of_kinded (outside_kinded hu hp h5 .refl hroot) (shaped_of hp h5 (outside_sub hu)).preserve
  · have hs := shaped_of hp h5 (outside_sub hu)
    cases hc with
    | allOf h =>
      left
      obtain ⟨hb, hq⟩ := member_facts hp h1 h2 h3 h4 h5 (outside_sub hu) h
      intro q d hd
      rw [(anywhere_barren hb hd).2]
      exact hq
    | anyOf h =>
      right
      rcases hs.anyOf with e | ⟨e, e'⟩
      · rw [e] at h; simp at h
      · exact ⟨e', e, h⟩
    | oneOf h => rw [hs.oneOf] at h; simp at h
    | not h => rw [hs.not] at h; simp at h
end Verif.Crd

import Verif.Crd.StructRaw
import Verif.Crd.FlatExpand

/-!
# Lemmas for C79: built-in schemas, the schemas of the parser and flattened schemas
-/
namespace Verif.Crd
open Spec

/-! ## Built-in schemas -/

theorem firm_typed {t : String} : AllSub Firm (typed t) := firm_leaf (by simp)

theorem firm_fixed {b : Base} {it : Option Items} {an : List Schema} {pr : List (String × Schema)} {ad : Option OrBool} (hb : b.xPreserveUnknownFields ≠ some false)
    (h1 : ∀ i c, it = some i → i.schema = some c ∨ c ∈ i.arr → AllSub Firm c ∧ Told c.base) (h2 : an = [] ∨ (an = [typed "integer", typed "string"] ∧ b.xIntOrString = true))
    (h3 : ∀ e ∈ pr, AllSub Firm e.2 ∧ Told e.2.base) (h4 : ∀ o c, ad = some o → o.schema = some c → AllSub Firm c ∧ Told c.base) :
    AllSub Firm (.mk b it [] [] an none pr ad [] [] none []) := by
  rw [allSub_iff]
  refine ⟨⟨h2, hb, fun c hc => ?_⟩, fun c hc => ?_⟩
  · cases hc with
    | field e => exact (h3 _ e).2
    | item e e' => exact (h1 _ _ e e').2
    | extra e => exact (h4 _ _ e rfl).2
  · cases hc with
    | items e e' => exact (h1 _ _ e (.inl e')).1
    | itemsArr e e' => exact (h1 _ _ e (.inr e')).1
    | allOf e => cases e
    | oneOf e => cases e
    | anyOf e =>
      rcases h2 with h2 | ⟨h2, -⟩
      · rw [show (Schema.mk b it [] [] an none pr ad [] [] none []).anyOf = an from rfl, h2] at e; cases e
      · rw [show (Schema.mk b it [] [] an none pr ad [] [] none []).anyOf = an from rfl, h2] at e
        simp only [List.mem_cons, List.not_mem_nil, or_false] at e
        rcases e with rfl | rfl <;> exact firm_typed
    | not e => cases e
    | property e => exact (h3 _ e).1
    | additionalProperties e e' => exact (h4 _ _ e e').1
    | patternProperty e => cases e
    | dependency e => cases e
    | additionalItems e => cases e
    | definition e => cases e

/-- A built-in schema. -/
def Solid (s : Schema) : Prop := AllSub Firm s ∧ Told s.base

theorem solid_typed {t : String} (h : t ≠ "") : Solid (typed t) := ⟨firm_typed, .inl h⟩

theorem solid_intOrString {p : String} : Solid (intOrString p) :=
  ⟨firm_fixed (by simp) nofun (.inr ⟨rfl, rfl⟩) nofun nofun, .inr (.inl rfl)⟩

theorem solid_stringMap : Solid stringMap :=
  ⟨firm_fixed (by simp) nofun (.inl rfl) nofun (by intro o c h1 h2; cases h1; cases h2; exact solid_typed (by decide)), .inl (by decide)⟩

theorem solid_embedded : Solid embeddedObjectMeta := by
  refine ⟨firm_fixed (by simp) nofun (.inl rfl) ?_ nofun, .inl (by decide)⟩
  intro e he
  simp only [List.mem_cons, List.not_mem_nil, or_false] at he
  rcases he with rfl | rfl | rfl | rfl | rfl
  · exact solid_typed (by decide)
  · exact solid_typed (by decide)
  · exact solid_stringMap
  · exact solid_stringMap
  · refine ⟨firm_fixed (by simp) ?_ (.inl rfl) nofun nofun, .inl (by decide)⟩
    intro i c h1 h2
    cases h1
    rcases h2 with h2 | h2
    · cases h2; exact solid_typed (by decide)
    · cases h2

theorem solid_meta {s : Schema} (h : Solid s) : ∀ e ∈ (metaOverride s).schemata, Solid e.2 := by
  intro e he
  simp only [metaOverride, List.mem_cons, List.not_mem_nil, or_false] at he
  rcases he with rfl | rfl | rfl | rfl | rfl
  · exact h
  · exact ⟨firm_leaf (by simp), .inl (by decide)⟩
  · exact ⟨firm_leaf (by simp), .inl (by decide)⟩
  · exact solid_typed (by decide)
  · exact ⟨firm_fixed (by simp) nofun (.inl rfl) nofun (by intro o c h1 h2; cases h1; cases h2), .inl (by decide)⟩

theorem solid_known : ∀ o ∈ knownPackages, ∀ e ∈ o.2.schemata, Solid e.2 := by
  intro o ho
  simp only [knownPackages, List.mem_cons, List.not_mem_nil, or_false] at ho
  rcases ho with rfl | rfl | rfl | rfl | rfl | rfl | rfl
  · exact solid_meta (solid_typed (by decide))
  all_goals
    intro e he
    obtain rfl := List.mem_singleton.1 he
  · exact solid_intOrString
  · exact ⟨firm_leaf (by simp), .inl (by decide)⟩
  · exact solid_typed (by decide)
  · exact solid_intOrString
  · exact ⟨firm_leaf (by simp), .inr (.inr (.inl (by decide)))⟩
  · exact ⟨firm_leaf (by simp), .inr (.inr (.inl (by decide)))⟩

variable {S : Src} {marshal : AnyVal → Option Raw} {σ : Nat → Sched}

theorem fixed_solid {b : Bool} (ho : S.overrides = addKnownTypes b) {id : TypeIdent} {s : Schema} (h : Fixed S id s) : Solid s := by
  obtain ⟨o, a, l, h1, h2, -⟩ := h
  unfold OverrideOf at h1
  rw [ho] at h1
  have hs : (id.name, s) ∈ o.schemata := by rw [h2]; simp
  unfold addKnownTypes at h1
  split at h1
  · rw [GoMap.get_put] at h1
    split at h1
    · cases h1; exact solid_meta solid_embedded _ hs
    · exact solid_known _ (get_mem h1) _ hs
  · exact solid_known _ (get_mem h1) _ hs

/-- The schemas of the parser. -/
theorem raw_solid {b : Bool} (ho : S.overrides = addKnownTypes b) (hm : ∀ p, ∀ d ∈ S.decls p, TypedMarks d) {st : PState} (h : Reachable S marshal σ st) (he : st.errs = 0) {id : TypeIdent}
    {s : Schema} (hs : (envOf S st).raw id = some s) : Solid s := by
  rcases right_schema h he hs with hf | ⟨-, d, ⟨-, -, x, y, hd, -⟩, τ, g, g', hg, hge⟩
  · exact fixed_solid ho hf
  · exact info_firm hg hge (hm id.pkg d (by rw [hd]; simp))

/-! ## Flattened schemas -/

theorem place_step {s c : Schema} (hk : Keys s) (h : Place s c) : ∃ p, s.child p = some c ∧ ∀ {t d : Schema}, t.child p = some d → Place t d := by
  cases h with
  | @field k _ h =>
    exact ⟨.property k, mem_lookup hk.1 h, fun h => .field (lookup_some_mem h)⟩
  | item h1 h2 =>
    rcases h2 with h2 | h2
    · refine ⟨.items, by rw [Schema.child, h1]; exact h2, fun h => ?_⟩
      obtain ⟨i, hi, hc⟩ := Option.bind_eq_some_iff.1 h
      exact .item hi (.inl hc)
    · obtain ⟨n, hn⟩ := List.mem_iff_getElem?.1 h2
      refine ⟨.itemsAt n, by rw [Schema.child, h1]; exact hn, fun h => ?_⟩
      obtain ⟨i, hi, hc⟩ := Option.bind_eq_some_iff.1 h
      obtain ⟨x, hx, rfl⟩ := Option.map_eq_some_iff.1 hi
      exact .item hx (.inr (List.mem_of_getElem? hc))
  | extra h =>
    refine ⟨.additionalProperties, by rw [Schema.child, h]; rfl, fun h => ?_⟩
    obtain ⟨⟨b, i⟩, hi, hc⟩ := Option.bind_eq_some_iff.1 h
    cases hc
    exact .extra hi

theorem expand_leaf {env : Env} {q : String} {b : Base} {t : Schema} (hb : b.ref = none) (h : Expand env q (.leaf b) t) : t = .leaf b := by
  cases h with
  | plain g _ hf hc _ =>
    refine schema_ext (s := .leaf b) ⟨List.nodup_nil, List.nodup_nil, List.nodup_nil, List.nodup_nil⟩ hf (Frame.refl _) fun p => ?_
    rw [hc]
    have : (Schema.leaf b).child p = none := by cases p <;> rfl
    rw [this]; rfl
  | ref hr => rw [show (Schema.leaf b).base.ref = b.ref from rfl, hb] at hr; cases hr

/-- Schemas at hand: as they are generated, with references to schemas that say what the values are like, and nothing below the references. -/
structure Ready (env : Env) (q : String) (s : Schema) : Prop where
  firm : Firm s
  tame : Tame s
  ref : ∀ r id u, s.base.ref = some r → Leads env q r id u → (∀ c, ¬ Child s c) ∧ Told u.base

theorem list_ext {l m : List Schema} (h : ∀ i : Nat, l[i]? = m[i]?) : l = m := List.ext_getElem? h

theorem expand_orderly {env : Env} {q : String} {s t : Schema} (h : Expand env q s t) :
    (∀ q' s', Reach env q s q' s' → Ready env q' s') → (∀ v, Sub t v → Prepared v) ∧ (Told s.base → TypedTogether t) := by
  induction h with
  | @plain q s t g hr hf hc he ih =>
    intro hR
    have h0 := hR _ _ .refl
    have kids := fun p c hp => ih p c hp fun q' s' h' => hR q' s' (Reach.trans (.child .refl (child_of_step hp)) h')
    have hkt : Keys t := h0.tame.toKeys.frame hf
    have back : ∀ p d, t.child p = some d → ∃ c, s.child p = some c ∧ d = g p := by
      intro p d hd
      rw [hc] at hd
      obtain ⟨c, hc', rfl⟩ := Option.map_eq_some_iff.1 hd
      exact ⟨c, hc', rfl⟩
    have hnone : ∀ p, s.child p = none → t.child p = none := fun p hp => by rw [hc, hp]; rfl
    have oneOf : t.oneOf = [] := by
      apply list_ext; intro i
      have h1 := hnone (.oneOf i) (by rw [Schema.child, h0.tame.oneOf]; rfl)
      exact h1.trans rfl
    have hnot : t.not = none := hnone .not h0.tame.not
    have anyOf : t.anyOf = [] ∨ (t.anyOf = [.leaf { type := "integer" }, .leaf { type := "string" }] ∧ t.base.xIntOrString = true) := by
      rcases h0.firm.anyOf with e | ⟨e, e'⟩
      · refine .inl (list_ext fun i => ?_)
        have h1 := hnone (.anyOf i) (by rw [Schema.child, e]; rfl)
        exact h1.trans rfl
      · refine .inr ⟨list_ext fun i => ?_, by rw [hf.base]; exact e'⟩
        have hi : s.child (.anyOf i) = s.anyOf[i]? := rfl
        have ht : t.anyOf[i]? = (s.child (.anyOf i)).map fun _ => g (.anyOf i) := hc (.anyOf i)
        rw [ht, hi, e]
        rcases i with - | - | i
        · have := he (.anyOf 0) (.leaf { type := "integer" }) (by rw [hi, e]; rfl)
          simp [expand_leaf rfl this]
        · have := he (.anyOf 1) (.leaf { type := "string" }) (by rw [hi, e]; rfl)
          simp [expand_leaf rfl this]
        · rfl
    refine ⟨fun v hv => ?_, fun ht => ⟨t, .here, ?_⟩⟩
    · cases hv with
      | refl =>
        refine ⟨oneOf, hnot, anyOf, by rw [hf.base]; exact h0.firm.preserve, fun d hd => ?_⟩
        obtain ⟨p, hp, hp'⟩ := place_step hkt hd
        obtain ⟨c, hcs, rfl⟩ := back p d hp
        exact (kids p c hcs).2 (h0.firm.told c (hp' hcs))
      | step hd hv =>
        obtain ⟨p, hp⟩ := step_of_child hkt hd
        obtain ⟨c, hcs, rfl⟩ := back p _ hp
        exact (kids p c hcs).1 v hv
    · rw [hf.base]
      rcases ht with h | h | h | h
      · exact .inl h
      · exact .inr (.inl h)
      · refine .inr (.inr ?_)
        have := h0.firm.preserve
        cases hx : s.base.xPreserveUnknownFields with
        | none => exact absurd hx h
        | some b => cases b with
          | true => rfl
          | false => exact absurd hx this
      · exact absurd hr h
  | @ref q s r id u t hr hl hb _ ih =>
    intro hR
    have h0 := hR _ _ .refl
    obtain ⟨hno, hu⟩ := h0.ref r id u hr hl
    obtain ⟨h1, h2⟩ := ih fun q' s' h' => hR q' s' (Reach.trans (.ref .refl hr hl) h')
    have hstrip : SameParts s (stripField s) := by cases s; exact ⟨rfl, rfl, rfl, rfl, rfl, rfl, rfl, rfl, rfl, rfl, rfl⟩
    have hno' : ∀ c, ¬ Child (stripField s) c := fun c hc => hno c (child_congr hstrip hc)
    refine ⟨fun v hv => ?_, fun _ => ?_⟩
    · cases hv with
      | refl =>
        refine ⟨rfl, rfl, .inl rfl, by simp [preserveFields, Schema.base], fun c hc => ?_⟩
        cases hc with
        | field h => cases h
        | item h => cases h
        | extra h => cases h
      | step hd hv =>
        obtain ⟨p, hp⟩ := step_of_child (s := preserveFields t s) ⟨List.nodup_nil, List.nodup_nil, List.nodup_nil, List.nodup_nil⟩ hd
        rcases child_preserve t s p _ hp with rfl | rfl
        · exact h1 v hv
        · cases hv with
          | refl =>
            refine ⟨?_, ?_, ?_, ?_, fun c hc => absurd (child_place hc) (hno' c)⟩
            · cases s; exact h0.tame.oneOf
            · cases s; exact h0.tame.not
            · cases ha : (stripField s).anyOf with
              | nil => exact .inl rfl
              | cons a l => exact absurd (.anyOf (by rw [ha]; simp)) (hno' a)
            · have := h0.firm.preserve
              cases s; exact this
          | step hd => exact absurd hd (hno' _)
    · obtain ⟨v, hv, hv'⟩ := h2 hu
      exact ⟨v, .allOf (by simp [preserveFields, Schema.allOf]) hv, hv'⟩

end Verif.Crd

import Verif.Crd.StructFlat
import Verif.Crd.BreakTheorems
import Verif.Crd.NeedTheorems

/-!
# Lemmas for C79: generated schemas say what their values are like
-/
namespace Verif.Crd
open Spec

/-- A type, something like it, or a reference. -/
def Told (b : Base) : Prop := b.type ≠ "" ∨ b.xIntOrString = true ∨ b.xPreserveUnknownFields ≠ none ∨ b.ref ≠ none

/-- What generated schemas look like. -/
structure Firm (u : Schema) : Prop where
  anyOf : u.anyOf = [] ∨ (u.anyOf = [.leaf { type := "integer" }, .leaf { type := "string" }] ∧ u.base.xIntOrString = true)
  preserve : u.base.xPreserveUnknownFields ≠ some false
  told : ∀ c, Place u c → Told c.base

theorem firm_leaf {b : Base} (h : b.xPreserveUnknownFields ≠ some false) : AllSub Firm (.leaf b) := by
  rw [allSub_iff]
  refine ⟨⟨.inl rfl, h, fun c hc => ?_⟩, fun c hc => absurd hc child_leaf⟩
  exact absurd (child_place hc) child_leaf

theorem place_congr {s s' c : Schema} (h : SameParts s s') (hc : Place s' c) : Place s c := by
  obtain ⟨h1, h2, h3, h4, h5, h6, h7, h8, h9, h10, h11⟩ := h
  cases hc with
  | field a => exact .field (h6 ▸ a)
  | item a b => exact .item (h1.trans a) b
  | extra a => exact .extra (h7.trans a)

theorem firm_withBase {s : Schema} {b : Base} (h : AllSub Firm s) (h1 : s.base.xIntOrString = true → b.xIntOrString = true) (h2 : b.xPreserveUnknownFields ≠ some false) :
    AllSub Firm (s.withBase b) := by
  obtain ⟨h0, hc⟩ := allSub_iff.1 h
  rw [allSub_iff]
  refine ⟨⟨?_, by rw [base_withBase]; exact h2, fun c hp => h0.told c (place_congr (same_withBase ..) hp)⟩, fun c hp => hc c (child_congr (same_withBase ..) hp)⟩
  rw [base_withBase]
  have : (s.withBase b).anyOf = s.anyOf := by cases s; rfl
  rw [this]
  exact h0.anyOf.imp_right fun h => ⟨h.1, h1 h.2⟩

theorem applied_int {marshal : AnyVal → Option Raw} {own : Mark → Prop} {b b' : Base} (h : Applied marshal own b b') (hi : b.xIntOrString = true) : b'.xIntOrString = true := by
  rcases h.intOrString with ⟨-, e⟩ | ⟨-, e⟩
  · exact e
  · exact e.trans hi

theorem applied_preserve {marshal : AnyVal → Option Raw} {own : Mark → Prop} {b b' : Base} (h : Applied marshal own b b') (hi : b.xPreserveUnknownFields ≠ some false) :
    b'.xPreserveUnknownFields ≠ some false := by
  rcases h.preserve with ⟨-, e⟩ | ⟨-, e⟩
  · rw [e]; simp
  · rw [e]; exact hi

theorem applied_told {marshal : AnyVal → Option Raw} {own : Mark → Prop} {b b' : Base} (h : Applied marshal own b b') (h0 : ¬ own (.type "")) (ht : Told b ∨ Gives own) : Told b' := by
  rcases ht with (ht | ht | ht | ht) | ⟨t, ht⟩ | ht | ht
  · rcases h.type with ⟨v, hv, e⟩ | ⟨-, e⟩
    · exact .inl (by rw [e]; rintro rfl; exact h0 hv)
    · exact .inl (by rw [e]; exact ht)
  · exact .inr (.inl (applied_int h ht))
  · refine .inr (.inr (.inl ?_))
    rcases h.preserve with ⟨-, e⟩ | ⟨-, e⟩
    · rw [e]; simp
    · rw [e]; exact ht
  · exact .inr (.inr (.inr (by rw [h.ref]; exact ht)))
  · rcases h.type with ⟨v, hv, e⟩ | ⟨e, -⟩
    · exact .inl (by rw [e]; rintro rfl; exact h0 hv)
    · exact absurd ht (e t)
  · rcases h.intOrString with ⟨-, e⟩ | ⟨e, -⟩
    · exact .inr (.inl e)
    · exact absurd ht e
  · rcases h.preserve with ⟨-, e⟩ | ⟨e, -⟩
    · exact .inr (.inr (.inl (by rw [e]; simp)))
    · exact absurd ht e

theorem step_firm {marshal : AnyVal → Option Raw} {σ : Sched} {set : MarkerSet} {s s' : Schema} {doc : Bytes} (h : applyMarkers marshal σ set (s.describe doc) = (s', 0))
    (h0 : ¬ OnValue set (.type "") ∧ ¬ OnItems set (.type "")) (hf : AllSub Firm s) : AllSub Firm s' ∧ (Told s.base ∨ Gives (OnValue set) → Told s'.base) := by
  obtain ⟨ha, ho, hi⟩ := applyMarkers_ok h
  have hk := kept_applyMarkers marshal σ set (s.describe doc)
  rw [h] at hk
  have hb : (s.describe doc).base = { s.base with description := doc } := base_withBase ..
  have hd : AllSub Firm (s.describe doc) := firm_withBase hf (fun h => h) (allSub_iff.1 hf).1.preserve
  generalize hs1 : s.describe doc = s1 at *
  obtain ⟨hd0, hdc⟩ := allSub_iff.1 hd
  refine ⟨?_, fun ht => applied_told ha h0.1 (ht.imp_left fun ht => by rw [hb]; exact ht)⟩
  have hitems : ∀ i c, s'.items = some i → (i.schema = some c ∨ c ∈ i.arr) → Told c.base ∧ AllSub Firm c := by
    intro i c e hc
    rcases hi with ⟨-, e'⟩ | ⟨x, cs, cb, e1, e2, e3⟩
    · rw [e'] at e
      exact ⟨hd0.told c (.item e hc), hdc c (child_place (.item e hc))⟩
    · rw [e2] at e
      cases e
      rcases hc with hc | hc
      · cases hc
        rw [base_withBase]
        refine ⟨applied_told e3 h0.2 (.inl (hd0.told x (.item e1 (.inl rfl)))), ?_⟩
        exact firm_withBase (hdc x (child_place (.item e1 (.inl rfl)))) (applied_int e3) (applied_preserve e3 (allSub_iff.1 (hdc x (child_place (.item e1 (.inl rfl))))).1.preserve)
      · exact ⟨hd0.told c (.item e1 (.inr hc)), hdc c (child_place (.item e1 (.inr hc)))⟩
  rw [allSub_iff]
  refine ⟨⟨?_, applied_preserve ha hd0.preserve, fun c hc => ?_⟩, fun c hc => ?_⟩
  · rw [ho.anyOf]
    exact hd0.anyOf.imp_right fun h => ⟨h.1, applied_int ha h.2⟩
  · cases hc with
    | field e => exact hd0.told c (.field (ho.properties ▸ e))
    | item e e' => exact (hitems _ _ e e').1
    | extra e => exact hd0.told c (.extra (ho.additional ▸ e))
  · cases hc with
    | items a b => exact (hitems _ _ a (.inl b)).2
    | itemsArr a b => exact (hitems _ _ a (.inr b)).2
    | allOf a => exact hdc c (.allOf (ho.allOf ▸ a))
    | oneOf a => exact hdc c (.oneOf (ho.oneOf ▸ a))
    | anyOf a => exact hdc c (.anyOf (ho.anyOf ▸ a))
    | not a => exact hdc c (.not (ho.not ▸ a))
    | property a => exact hdc c (.property (ho.properties ▸ a))
    | additionalProperties a b => exact hdc c (.additionalProperties (ho.additional ▸ a) b)
    | patternProperty a => exact hdc c (.patternProperty (ho.patterns ▸ a))
    | dependency a b => exact hdc c (.dependency (ho.dependencies ▸ a) b)
    | additionalItems a b => exact hdc c (.additionalItems (ho.additionalItems ▸ a) b)
    | definition a => exact hdc c (.definition (hk.definitions ▸ a))

theorem over_firm {marshal : AnyVal → Option Raw} {set : MarkerSet} {s s' : Schema} (h : Over marshal set s s') (h0 : ¬ OnValue set (.type "") ∧ ¬ OnItems set (.type "")) (hf : AllSub Firm s) :
    AllSub Firm s' ∧ (Told s.base ∨ Gives (OnValue set) → Told s'.base) := by
  induction h with
  | one h => exact step_firm h h0 hf
  | more _ h ih =>
    obtain ⟨h1, h2⟩ := ih
    obtain ⟨h3, h4⟩ := step_firm h h0 h1
    exact ⟨h3, fun ht => h4 (.inl (h2 ht))⟩

theorem jsonType_ne {k : Kind} {t : String} (h : jsonType k = some t) : t ≠ "" := by
  cases k <;> simp [jsonType] at h <;> (subst h; decide)

theorem typeSchema_firm {P : PkgCtx} {e : TExpr} {s : Schema} (h : TypeSchema P e s) : AllSub Firm s ∧ Told s.base := by
  have leaf : ∀ {b : Base}, b.xPreserveUnknownFields = none → Told b → AllSub Firm (.leaf b) ∧ Told (Schema.leaf b).base :=
    fun h h' => ⟨firm_leaf (by rw [h]; simp), h'⟩
  induction h with
  | builtin _ _ h => exact leaf rfl (.inl (jsonType_ne h.1))
  | named => exact leaf rfl (.inr (.inr (.inr (by simp))))
  | aliasNamed => exact leaf rfl (.inr (.inr (.inr (by simp))))
  | aliasAlias => exact leaf rfl (.inr (.inr (.inr (by simp))))
  | aliasBuiltin _ _ h => exact leaf rfl (.inl (jsonType_ne h.1))
  | aliasSame _ _ h => exact leaf rfl (.inl (jsonType_ne h.1))
  | selector => exact leaf rfl (.inr (.inr (.inr (by simp))))
  | bytes => exact leaf rfl (.inl (by decide))
  | pointer _ ih => exact ih
  | @array len e s _ _ ih =>
    refine ⟨allSub_iff.2 ⟨⟨.inl rfl, by simp [Schema.base], fun c hc => ?_⟩, fun c hc => ?_⟩, .inl (by simp [Schema.base])⟩
    · cases hc with
      | field h => cases h
      | item h h' =>
        cases h
        rcases h' with h' | h'
        · cases h'; exact ih.2
        · cases h'
      | extra h => cases h
    · cases hc with
      | items a b => cases a; cases b; exact ih.1
      | itemsArr a b => cases a; cases b
      | allOf h => cases h
      | oneOf h => cases h
      | anyOf h => cases h
      | not h => cases h
      | property h => cases h
      | additionalProperties h => cases h
      | patternProperty h => cases h
      | dependency h => cases h
      | additionalItems h => cases h
      | definition h => cases h
  | @map k v s _ _ ih =>
    refine ⟨allSub_iff.2 ⟨⟨.inl rfl, by simp [Schema.base], fun c hc => ?_⟩, fun c hc => ?_⟩, .inl (by simp [Schema.base])⟩
    · cases hc with
      | field h => cases h
      | item h h' => cases h
      | extra h => cases h; exact ih.2
    · cases hc with
      | items a => cases a
      | itemsArr a => cases a
      | allOf h => cases h
      | oneOf h => cases h
      | anyOf h => cases h
      | not h => cases h
      | property h => cases h
      | additionalProperties a b => cases a; cases b; exact ih.1
      | patternProperty h => cases h
      | dependency h => cases h
      | additionalItems h => cases h
      | definition h => cases h

theorem empty_firm : AllSub Firm Schema.empty := firm_leaf (by simp)

theorem field_firm {marshal : AnyVal → Option Raw} {σ : Nat → Sched} {P : PkgCtx} {st st' : GState} {f : Field} {c : Schema} (h : FieldRun marshal σ P st st' f c) (he : st'.errs = st.errs)
    (h0 : ¬ OnValue f.markers (.type "") ∧ ¬ OnItems f.markers (.type "")) (h1 : Marked f.markers "kubebuilder:validation:Schemaless" → Gives (OnValue f.markers)) : AllSub Firm c ∧ Told c.base := by
  rcases field_over h he with ⟨hm, ho⟩ | ⟨-, raw, hr, ho⟩
  · obtain ⟨a, b⟩ := over_firm ho h0 empty_firm
    exact ⟨a, b (.inr (h1 hm))⟩
  · obtain ⟨a, b⟩ := over_firm ho h0 (typeSchema_firm hr).1
    exact ⟨a, b (.inl (typeSchema_firm hr).2)⟩

theorem declType_firm {marshal : AnyVal → Option Raw} {σ : Nat → Sched} {P : PkgCtx} {d : Decl} {st st' : GState} {s : Schema} (h : declType marshal σ P d true d.type st = .ok (s, st'))
    (he : st'.errs = st.errs) (hd : TypedMarks d) : AllSub Firm s ∧ Told s.base := by
  by_cases hs : d.type = .struct
  · rw [hs, declType] at h
    unfold structToSchema GRes.finish at h
    cases hf : structFields marshal σ P d.fields [] [] [] st with
    | error p => rw [hf] at h; cases h
    | ok x =>
      obtain ⟨⟨req, props, all⟩, st1⟩ := x
      rw [hf] at h
      simp only [Except.ok.injEq] at h
      obtain ⟨-, ⟨l, h2, h2'⟩, h3, h4, -, h6, -⟩ := structFields_spec marshal σ P _ _ _ _ _ _ _ _ _ (by simp [GoMap.WF, GoMap.keys]) hf
      have hle := (apply_le (marshal := marshal) (σ := σ) (set := d.markers)
        (s := (Schema.mk { type := "object", required := req } none all [] [] none props none [] [] none []).describe d.doc) (st := st1)).1
      rw [h] at hle
      simp only at hle
      have hst : st1.errs = st.errs := by omega
      have hprops : ∀ k c, (k, c) ∈ props → AllSub Firm c ∧ Told c.base := by
        intro k c hc
        rcases h4 k c ((GoMap.get_eq_some h3).2 hc) with ⟨pre, f, post, e1, e2, e3, e4⟩ | ⟨e, -⟩
        · have hmem : f ∈ d.fields := by rw [e1]; simp
          exact field_firm e4 hst (hd.fields f hmem) (hd.schemaless f hmem)
        · simp [GoMap.get] at e
      have hall : ∀ c ∈ all, AllSub Firm c := by
        intro c hc
        rw [h2, List.nil_append] at hc
        obtain ⟨f, hf1, hf2⟩ := h2'.exists_left hc
        have hmem := (List.mem_filter.1 hf1).1
        exact (field_firm hf2 hst (hd.fields f hmem) (hd.schemaless f hmem)).1
      have hraw : AllSub Firm (.mk { type := "object", required := req } none all [] [] none props none [] [] none []) := by
        rw [allSub_iff]
        refine ⟨⟨.inl rfl, by simp [Schema.base], fun c hc => ?_⟩, fun c hc => ?_⟩
        · cases hc with
          | field h => exact (hprops _ _ h).2
          | item h => cases h
          | extra h => cases h
        · cases hc with
          | items a => cases a
          | itemsArr a => cases a
          | allOf h => exact hall _ h
          | oneOf h => cases h
          | anyOf h => cases h
          | not h => cases h
          | property h => exact (hprops _ _ h).1
          | additionalProperties h => cases h
          | patternProperty h => cases h
          | dependency h => cases h
          | additionalItems h => cases h
          | definition h => cases h
      obtain ⟨a, b⟩ := over_firm (.one (apply_clean h (by omega))) hd.own hraw
      exact ⟨a, b (.inl (.inl (by simp [Schema.base])))⟩
  · obtain ⟨raw, h1, h2⟩ := decl_over hs h he
    obtain ⟨a, b⟩ := over_firm h2 hd.own (typeSchema_firm h1).1
    exact ⟨a, b (.inl (typeSchema_firm h1).2)⟩

theorem info_firm {marshal : AnyVal → Option Raw} {σ : Nat → Sched} {P : PkgCtx} {d : Decl} {st st' : GState} {s : Schema} (h : infoToSchema marshal σ P d st = .ok (s, st'))
    (he : st'.errs = st.errs) (hd : TypedMarks d) : AllSub Firm s ∧ Told s.base := by
  unfold infoToSchema at h
  split at h
  · cases hx : st.apply marshal σ d.markers .empty with
    | mk s1 st1 =>
      rw [hx] at h
      simp only at h
      have hle := (apply_le (marshal := marshal) (σ := σ) (set := d.markers) (s := .empty) (st := st)).1
      rw [hx] at hle
      simp only at hle
      split at h
      · rename_i ht
        simp only [Except.ok.injEq, Prod.mk.injEq] at h
        obtain ⟨rfl, rfl⟩ := h
        exact ⟨(over_firm (.one (doc := []) (apply_clean hx he)) hd.own empty_firm).1, .inl ht⟩
      · have := declType_le h
        exact declType_firm h (by omega) hd
  · split at h
    · cases hx : st.apply marshal σ d.markers (.leaf { type := "string" }) with
      | mk s1 st1 =>
        rw [hx] at h
        simp only [Except.ok.injEq, Prod.mk.injEq] at h
        have hle := (apply_le (marshal := marshal) (σ := σ) (set := d.markers) (s := .leaf { type := "string" }) (st := st)).1
        rw [hx] at hle
        simp only at hle
        obtain ⟨rfl, rfl⟩ := h
        have he' : st1.errs = st.errs := by
          split at he
          · simp only [GState.err] at he; omega
          · exact he
        obtain ⟨a, b⟩ := over_firm (.one (doc := []) (apply_clean hx he')) hd.own (firm_leaf (b := { type := "string" }) (by simp))
        exact ⟨a, b (.inl (.inl (by decide)))⟩
    · exact declType_firm h he hd
end Verif.Crd

import Verif.Crd.GenSpec
import Verif.Crd.MarksTheorems

namespace Verif.Crd
open Spec

theorem intercalate_eq_join (l : List (List Char)) : [','].intercalate l = Text.join ',' l := rfl

theorem jsonOpts_iff {t n : List Char} {i o : Bool} : jsonOpts t = some ⟨String.ofList n, i, o⟩ ↔ TagMeans t n i o := by
  have hname : ∀ a b : List Char, String.ofList a = String.ofList b ↔ a = b := fun a b => ⟨fun h => by simpa using congrArg String.toList h, fun h => by rw [h]⟩
  constructor
  · intro h
    unfold jsonOpts at h
    have hj := Text.join_split (c := ',') (s := t)
    have hm := Text.mem_split (c := ',') (s := t)
    split at h
    · cases h
    · rename_i m hs
      split at h
      · cases h
      · rename_i hne
        simp only [Option.some.injEq, JsonOpts.mk.injEq, hname] at h
        obtain ⟨rfl, rfl, rfl⟩ := h
        rw [hs] at hj hm
        refine ⟨[], hj.symm, hm _ (by simp), by simp, by simpa using hne, by simp, by simp⟩
    · rename_i m opts hne hs
      simp only [Option.some.injEq, JsonOpts.mk.injEq, hname] at h
      obtain ⟨rfl, rfl, rfl⟩ := h
      rw [hs] at hj hm
      refine ⟨opts, hj.symm, hm _ (by simp), fun x hx => hm _ (List.mem_cons_of_mem _ hx), fun hh => hne hh.2, by simp, by simp⟩
  · rintro ⟨opts, rfl, h1, h2, h3, h4, h5⟩
    unfold jsonOpts
    rw [intercalate_eq_join, Text.split_join (by simp) (by simpa using ⟨h1, h2⟩)]
    cases opts with
    | nil =>
      simp only
      rw [if_neg (fun e => h3 ⟨e, rfl⟩)]
      simp only [List.not_mem_nil, false_or] at h4
      have h5 : o = false := by simpa using h5
      rw [h5]
      congr 2
      rw [Bool.eq_iff_iff, h4]; simp
    | cons x opts =>
      simp only
      congr 2
      · rw [Bool.eq_iff_iff, h4]; simp
      · rw [Bool.eq_iff_iff, h5]; simp

theorem jsonOpts_some {t : List Char} {o : JsonOpts} : jsonOpts t = some o ↔ TagMeans t o.name.toList o.inline o.omitEmpty := by
  rw [← jsonOpts_iff, String.ofList_toList]

theorem has_iff {set : MarkerSet} {n : String} : set.has n = true ↔ Marked set n := by
  unfold MarkerSet.has Marked
  cases GoMap.get set n with
  | none => simp
  | some vs => cases vs <;> simp

theorem has_false {set : MarkerSet} {n : String} : set.has n = false ↔ ¬ Marked set n := by rw [← has_iff]; simp

theorem isRequired_iff {P : PkgCtx} {f : Field} {o : JsonOpts} : isRequired P f o = true ↔ MustHave P f o.inline o.omitEmpty := by
  unfold isRequired MustHave
  simp only [← has_iff]
  cases f.markers.has "kubebuilder:validation:Optional" <;> cases f.markers.has "kubebuilder:validation:Required" <;> cases f.markers.has "optional" <;> cases f.markers.has "required" <;>
    cases P.markers.has "kubebuilder:validation:Optional" <;> cases o.inline <;> cases o.omitEmpty <;> decide

/-- What a field contributes, if it does. -/
def included (P : PkgCtx) (f : Field) : Option JsonOpts :=
  if f.name ≠ "" ∧ P.ignoreUnexportedFields ∧ P.exported f.name = false then none else f.tag.bind jsonOpts

theorem included_iff {P : PkgCtx} {f : Field} {o : JsonOpts} : included P f = some o ↔ FieldIn P f o.name o.inline o.omitEmpty := by
  unfold included FieldIn Visible
  have : (¬ (f.name ≠ "" ∧ P.ignoreUnexportedFields = true ∧ P.exported f.name = false)) ↔ (f.name = "" ∨ P.ignoreUnexportedFields = false ∨ P.exported f.name = true) := by
    by_cases h : f.name = "" <;> cases P.ignoreUnexportedFields <;> cases P.exported f.name <;> simp [h]
  by_cases h : f.name ≠ "" ∧ P.ignoreUnexportedFields = true ∧ P.exported f.name = false
  · rw [if_pos h]
    constructor
    · nofun
    · rintro ⟨h1, -⟩; exact absurd h (this.2 h1)
  · rw [if_neg h]
    constructor
    · intro hb
      cases ht : f.tag with
      | none => rw [ht] at hb; cases hb
      | some t => rw [ht] at hb; exact ⟨this.1 h, t, rfl, jsonOpts_some.1 hb⟩
    · rintro ⟨-, t, ht, hm⟩
      rw [ht]; exact jsonOpts_some.2 hm

/-- Errors and requests are only added. -/
def GState.Le (st st' : GState) : Prop := st.errs ≤ st'.errs ∧ st.reqs <+: st'.reqs

theorem GState.Le.refl {st : GState} : GState.Le st st := ⟨Nat.le_refl _, List.prefix_refl _⟩
theorem GState.Le.trans {a b c : GState} (h : GState.Le a b) (h' : GState.Le b c) : GState.Le a c := ⟨Nat.le_trans h.1 h'.1, h.2.trans h'.2⟩
theorem le_err {st : GState} : GState.Le st st.err := ⟨Nat.le_succ _, List.prefix_refl _⟩
theorem le_request {st : GState} {p n : String} : GState.Le st (st.request p n) := ⟨Nat.le_refl _, List.prefix_append ..⟩

theorem objToSchema_le {P : PkgCtx} {pkg : Option String} {name : String} {st st' : GState} {s : Schema} (h : objToSchema P pkg name st = .ok (s, st')) : GState.Le st st' := by
  unfold objToSchema at h
  split at h
  · cases h
  · simp only [Except.ok.injEq, Prod.mk.injEq] at h; rw [← h.2]; exact le_request

/-- The schema of a basic type (schema.go:275-295). -/
def basicSchema (P : PkgCtx) (id : String) (st : GState) (b : Basic) : GRes :=
  let tf := builtinToType b P.allowDangerousTypes
  let st := if tf.isNone then st.err else st
  if b.name ≠ id then
    .ok (.leaf { type := (tf.getD ("", "")).1, format := (tf.getD ("", "")).2, ref := some (refLink "" id) }, st.request "" id)
  else .ok (.leaf { type := (tf.getD ("", "")).1, format := (tf.getD ("", "")).2 }, st)

theorem localNamed_eq (P : PkgCtx) (id : String) (st : GState) : localNamedToSchema P id st =
    match P.ident id with
    | .invalid => .ok (.empty, st.err)
    | .basic b => basicSchema P id st b
    | .named pkg name _ => objToSchema P pkg name st
    | .other => .error .noObj
    | .alias _ _ (.basic b) => basicSchema P id st b
    | .alias _ _ (.named pkg name _) => objToSchema P pkg name st
    | .alias _ _ (.alias pkg name _) => objToSchema P pkg name st
    | .alias _ _ .invalid => .ok (.leaf { ref := some (refLink "" id) }, st.err.request "" id)
    | .alias _ _ .other => .error .noObj := by
  unfold localNamedToSchema
  cases P.ident id <;> try rfl
  rename_i r
  cases r <;> rfl

theorem basicSchema_le {P : PkgCtx} {id : String} {b : Basic} {st st' : GState} {s : Schema} (h : basicSchema P id st b = .ok (s, st')) : GState.Le st st' := by
  unfold basicSchema at h
  simp only at h
  have h1 : GState.Le st (if (builtinToType b P.allowDangerousTypes).isNone = true then st.err else st) := by
    split
    · exact le_err
    · exact .refl
  split at h
  · simp only [Except.ok.injEq, Prod.mk.injEq] at h; rw [← h.2]; exact h1.trans le_request
  · simp only [Except.ok.injEq, Prod.mk.injEq] at h; rw [← h.2]; exact h1

theorem localNamed_le {P : PkgCtx} {id : String} {st st' : GState} {s : Schema} (h : localNamedToSchema P id st = .ok (s, st')) : GState.Le st st' := by
  rw [localNamed_eq] at h
  split at h
  · simp only [Except.ok.injEq, Prod.mk.injEq] at h; rw [← h.2]; exact le_err
  · exact basicSchema_le h
  · exact objToSchema_le h
  · cases h
  · exact basicSchema_le h
  · exact objToSchema_le h
  · exact objToSchema_le h
  · simp only [Except.ok.injEq, Prod.mk.injEq] at h; rw [← h.2]; exact le_err.trans le_request
  · cases h

theorem named_le {P : PkgCtx} {x sel : String} {st st' : GState} {s : Schema} (h : namedToSchema P x sel st = .ok (s, st')) : GState.Le st st' := by
  unfold namedToSchema at h
  simp only at h
  split at h
  · simp only [Except.ok.injEq, Prod.mk.injEq] at h; rw [← h.2]; exact le_err
  · split at h
    · cases h
    · simp only [Except.ok.injEq, Prod.mk.injEq] at h; rw [← h.2]; exact le_request
  · split at h
    · cases h
    · simp only [Except.ok.injEq, Prod.mk.injEq] at h; rw [← h.2]; exact le_request
  · cases h
  · cases h

theorem inner_le {P : PkgCtx} : ∀ {e : TExpr} {st st' : GState} {s : Schema}, innerType P e st = .ok (s, st') → GState.Le st st' := by
  intro e
  induction e with
  | ident n => intro st st' s h; exact localNamed_le h
  | selector x y => intro st st' s h; exact named_le h
  | array len e ih =>
    intro st st' s h
    rw [innerType] at h
    split at h
    · simp only [Except.ok.injEq, Prod.mk.injEq] at h; rw [← h.2]; exact .refl
    · split at h
      · cases h
      · rename_i heq
        simp only [Except.ok.injEq, Prod.mk.injEq] at h
        rw [← h.2]; exact ih heq
  | map k v _ ih =>
    intro st st' s h
    rw [innerType] at h
    split at h
    · simp only [Except.ok.injEq, Prod.mk.injEq] at h; rw [← h.2]; exact le_err
    · split at h
      · simp only [Except.ok.injEq, Prod.mk.injEq] at h; rw [← h.2]; exact le_err
      · split at h
        · cases h
        · rename_i heq
          simp only [Except.ok.injEq, Prod.mk.injEq] at h
          rw [← h.2]; exact ih heq
  | star e ih => intro st st' s h; exact ih h
  | struct => intro st st' s h; cases h
  | other => intro st st' s h; simp only [innerType, Except.ok.injEq, Prod.mk.injEq] at h; rw [← h.2]; exact le_err

theorem apply_le {marshal : AnyVal → Option Raw} {σ : Nat → Sched} {set : MarkerSet} {s : Schema} {st : GState} : GState.Le st (st.apply marshal σ set s).2 :=
  ⟨Nat.le_add_right .., List.prefix_refl _⟩

theorem fieldSchema_spec {marshal : AnyVal → Option Raw} {σ : Nat → Sched} {P : PkgCtx} {f : Field} {st st' : GState} {c : Schema} (h : fieldSchema marshal σ P f st = .ok (c, st')) :
    FieldSchema marshal σ P f c ∧ GState.Le st st' := by
  unfold fieldSchema at h
  simp only at h
  by_cases hm : f.markers.has "kubebuilder:validation:Schemaless" = true
  · rw [if_pos hm] at h
    simp only [Except.ok.injEq] at h
    have hc : c = (st.apply marshal σ f.markers (Schema.empty.describe f.doc)).1 := by rw [h]
    have hs : st' = (st.apply marshal σ f.markers (Schema.empty.describe f.doc)).2 := by rw [h]
    refine ⟨⟨st.tick, .empty, fun _ => rfl, fun hn => absurd (has_iff.1 hm) hn, hc⟩, ?_⟩
    rw [hs]; exact apply_le
  · rw [if_neg hm] at h
    split at h
    · cases h
    · rename_i raw st1 heq
      simp only [Except.ok.injEq] at h
      have hc : c = (st1.apply marshal σ f.markers (raw.describe f.doc)).1 := by rw [h]
      have hs : st' = (st1.apply marshal σ f.markers (raw.describe f.doc)).2 := by rw [h]
      refine ⟨⟨st1.tick, raw, fun hn => absurd (has_iff.2 hn) hm, fun _ => ⟨st, st1, heq⟩, hc⟩, ?_⟩
      rw [hs]; exact (inner_le heq).trans apply_le

/-- The name a field adds to the required ones. -/
def reqName (P : PkgCtx) (f : Field) : Option String :=
  match included P f with
  | none => none
  | some o => if isRequired P f o then some o.name else none

/-- The field is an inline one. -/
def isInline (P : PkgCtx) (f : Field) : Bool :=
  match included P f with
  | none => false
  | some o => o.inline

/-- The property a field stands for. -/
def propName (P : PkgCtx) (f : Field) : Option String :=
  match included P f with
  | none => none
  | some o => if o.inline then none else some o.name

/-- The field lacks a tag. -/
def untagged (P : PkgCtx) (f : Field) : Bool := !(f.name ≠ "" ∧ P.ignoreUnexportedFields ∧ P.exported f.name = false) && f.tag.isNone

theorem structFields_cons (marshal : AnyVal → Option Raw) (σ : Nat → Sched) (P : PkgCtx) (f : Field) (fs : List Field) (req : List String) (props : List (String × Schema)) (all : List Schema) (st : GState) :
    structFields marshal σ P (f :: fs) req props all st =
      match included P f with
      | none => structFields marshal σ P fs req props all (if untagged P f then st.err else st)
      | some o =>
        match fieldSchema marshal σ P f st with
        | .error p => .error p
        | .ok (s, st) => structFields marshal σ P fs (req ++ (reqName P f).toList) (if o.inline then props else GoMap.put props o.name s) (if o.inline then all ++ [s] else all) st := by
  rw [structFields]
  unfold untagged reqName
  by_cases h : f.name ≠ "" ∧ P.ignoreUnexportedFields = true ∧ P.exported f.name = false
  · have hi : included P f = none := by unfold included; rw [if_pos h]
    rw [if_pos h, hi]
    simp [h]
  · have hi : included P f = f.tag.bind jsonOpts := by unfold included; rw [if_neg h]
    rw [if_neg h, hi]
    cases f.tag with
    | none => simp [h]
    | some t =>
      simp only [Option.bind_some]
      cases jsonOpts t with
      | none => simp
      | some o =>
        simp only
        cases fieldSchema marshal σ P f st with
        | error p => rfl
        | ok x =>
          obtain ⟨s, st1⟩ := x
          simp only
          by_cases hr : isRequired P f o = true <;> by_cases hl : o.inline = true <;> simp [hr, hl]

/-- The schema comes from a run for the field between two states. -/
def FieldRun (marshal : AnyVal → Option Raw) (σ : Nat → Sched) (P : PkgCtx) (st st' : GState) (f : Field) (c : Schema) : Prop :=
  ∃ sta stb, fieldSchema marshal σ P f sta = .ok (c, stb) ∧ st.errs ≤ sta.errs ∧ stb.errs ≤ st'.errs

theorem FieldRun.spec {marshal : AnyVal → Option Raw} {σ : Nat → Sched} {P : PkgCtx} {st st' : GState} {f : Field} {c : Schema} (h : FieldRun marshal σ P st st' f c) : FieldSchema marshal σ P f c := by
  obtain ⟨_, _, h, -⟩ := h
  exact (fieldSchema_spec h).1

theorem FieldRun.weaken {marshal : AnyVal → Option Raw} {σ : Nat → Sched} {P : PkgCtx} {st st0 st' : GState} {f : Field} {c : Schema} (h : FieldRun marshal σ P st st' f c) (hle : st0.errs ≤ st.errs) :
    FieldRun marshal σ P st0 st' f c := by
  obtain ⟨sta, stb, h, h1, h2⟩ := h
  exact ⟨sta, stb, h, Nat.le_trans hle h1, h2⟩

theorem FieldRun.later {marshal : AnyVal → Option Raw} {σ : Nat → Sched} {P : PkgCtx} {st st' st2 : GState} {f : Field} {c : Schema} (h : FieldRun marshal σ P st st' f c) (hle : st'.errs ≤ st2.errs) :
    FieldRun marshal σ P st st2 f c := by
  obtain ⟨sta, stb, h, h1, h2⟩ := h
  exact ⟨sta, stb, h, h1, Nat.le_trans h2 hle⟩

theorem structFields_spec (marshal : AnyVal → Option Raw) (σ : Nat → Sched) (P : PkgCtx) : ∀ (fs : List Field) (req : List String) (props : List (String × Schema)) (all : List Schema) (st : GState)
    (req' : List String) (props' : List (String × Schema)) (all' : List Schema) (st' : GState), GoMap.WF props →
    structFields marshal σ P fs req props all st = .ok ((req', props', all'), st') →
    req' = req ++ fs.filterMap (reqName P) ∧
    (∃ l, all' = all ++ l ∧ All2 (FieldRun marshal σ P st st') (fs.filter (isInline P)) l) ∧
    GoMap.WF props' ∧
    (∀ k c, GoMap.get props' k = some c → (∃ pre f post, fs = pre ++ f :: post ∧ propName P f = some k ∧ (∀ g ∈ post, propName P g ≠ some k) ∧ FieldRun marshal σ P st st' f c) ∨
      (GoMap.get props k = some c ∧ ∀ f ∈ fs, propName P f ≠ some k)) ∧
    (∀ k, (k ∈ GoMap.keys props ∨ ∃ f ∈ fs, propName P f = some k) → k ∈ GoMap.keys props') ∧
    st.errs + fs.countP (untagged P) ≤ st'.errs ∧ st.reqs <+: st'.reqs := by
  intro fs
  induction fs with
  | nil =>
    intro req props all st req' props' all' st' hw h
    simp only [structFields, Except.ok.injEq, Prod.mk.injEq] at h
    obtain ⟨⟨rfl, rfl, rfl⟩, rfl⟩ := h
    refine ⟨by simp, ⟨[], by simp, .nil⟩, hw, fun k c hk => .inr ⟨hk, by simp⟩, ?_, by simp, List.prefix_refl _⟩
    rintro k (hk | ⟨f, hf, -⟩)
    · exact hk
    · cases hf
  | cons f fs ih =>
    intro req props all st req' props' all' st' hw h
    rw [structFields_cons] at h
    cases hi : included P f with
    | none =>
      rw [hi] at h
      simp only at h
      have h1 : reqName P f = none := by unfold reqName; rw [hi]
      have h2 : isInline P f = false := by unfold isInline; rw [hi]
      have h3 : propName P f = none := by unfold propName; rw [hi]
      obtain ⟨i1, i2, i3, i4, i5, i6, i7⟩ := ih _ _ _ _ _ _ _ _ hw h
      have hw0 : st.errs ≤ (if untagged P f = true then st.err else st).errs := by
        split
        · exact Nat.le_succ _
        · exact Nat.le_refl _
      refine ⟨by rw [i1, List.filterMap_cons, h1], ?_, i3, ?_, ?_, ?_, ?_⟩
      · rw [List.filter_cons, h2]
        obtain ⟨l, hl, ha⟩ := i2
        exact ⟨l, hl, ha.imp fun _ _ _ _ h => h.weaken hw0⟩
      · intro k c hk
        rcases i4 k c hk with ⟨pre, g, post, rfl, hr1, hr2, hr3⟩ | ⟨hr, hn⟩
        · exact .inl ⟨f :: pre, g, post, rfl, hr1, hr2, hr3.weaken hw0⟩
        · refine .inr ⟨hr, ?_⟩
          intro g hg
          rcases List.mem_cons.1 hg with rfl | hg
          · rw [h3]; nofun
          · exact hn g hg
      · rintro k (hk | ⟨g, hg, hk⟩)
        · exact i5 k (.inl hk)
        · rcases List.mem_cons.1 hg with rfl | hg
          · rw [h3] at hk; cases hk
          · exact i5 k (.inr ⟨g, hg, hk⟩)
      · rw [List.countP_cons]
        by_cases hu : untagged P f = true
        · rw [if_pos hu] at i6 ⊢
          simp only [GState.err] at i6; omega
        · rw [if_neg hu] at i6 ⊢; omega
      · by_cases hu : untagged P f = true
        · rw [if_pos hu] at i7; exact i7
        · rw [if_neg hu] at i7; exact i7
    | some o =>
      rw [hi] at h
      simp only at h
      have hu : untagged P f = false := by
        unfold untagged
        unfold included at hi
        split at hi
        · cases hi
        · cases ht : f.tag with
          | none => rw [ht] at hi; cases hi
          | some t => simp
      cases hf : fieldSchema marshal σ P f st with
      | error p => rw [hf] at h; cases h
      | ok x =>
        obtain ⟨s, st1⟩ := x
        rw [hf] at h
        simp only at h
        obtain ⟨hs, hle⟩ := fieldSchema_spec hf
        have hw' : GoMap.WF (if o.inline = true then props else GoMap.put props o.name s) := by
          split
          · exact hw
          · exact GoMap.put_wf hw ..
        obtain ⟨i1, i2, i3, i4, i5, i6, i7⟩ := ih _ _ _ _ _ _ _ _ hw' h
        have hst1 : st1.errs ≤ st'.errs := by omega
        have hrun : FieldRun marshal σ P st st' f s := ⟨st, st1, hf, Nat.le_refl _, hst1⟩
        have h2 : isInline P f = o.inline := by unfold isInline; rw [hi]
        have h3 : propName P f = if o.inline then none else some o.name := by unfold propName; rw [hi]
        refine ⟨?_, ?_, i3, ?_, ?_, ?_, hle.2.trans i7⟩
        · rw [i1, List.filterMap_cons]
          cases reqName P f <;> simp
        · rw [List.filter_cons, h2]
          obtain ⟨l, hl, ha⟩ := i2
          by_cases ho : o.inline = true
          · rw [if_pos ho] at hl ⊢
            exact ⟨s :: l, by rw [hl]; simp, .cons hrun (ha.imp fun _ _ _ _ h => h.weaken hle.1)⟩
          · rw [if_neg ho] at hl ⊢
            exact ⟨l, hl, ha.imp fun _ _ _ _ h => h.weaken hle.1⟩
        · intro k c hk
          rcases i4 k c hk with ⟨pre, g, post, rfl, hr1, hr2, hr3⟩ | ⟨hr, hn⟩
          · exact .inl ⟨f :: pre, g, post, rfl, hr1, hr2, hr3.weaken hle.1⟩
          · by_cases ho : o.inline = true
            · rw [if_pos ho] at hr h3
              refine .inr ⟨hr, ?_⟩
              intro g hg
              rcases List.mem_cons.1 hg with rfl | hg
              · rw [h3]; nofun
              · exact hn g hg
            · rw [if_neg ho] at hr h3
              rw [GoMap.get_put] at hr
              by_cases hko : k = o.name
              · rw [if_pos hko, Option.some.injEq] at hr
                exact .inl ⟨[], f, fs, rfl, by rw [h3, hko], hn, hr ▸ hrun⟩
              · rw [if_neg hko] at hr
                refine .inr ⟨hr, ?_⟩
                intro g hg
                rcases List.mem_cons.1 hg with rfl | hg
                · rw [h3]; exact fun e => hko (Option.some.inj e).symm
                · exact hn g hg
        · rintro k (hk | ⟨g, hg, hk⟩)
          · refine i5 k (.inl ?_)
            split
            · exact hk
            · exact GoMap.mem_keys_put.2 (.inr hk)
          · rcases List.mem_cons.1 hg with rfl | hg
            · rw [h3] at hk
              by_cases ho : o.inline = true
              · rw [if_pos ho] at hk; cases hk
              · rw [if_neg ho] at hk
                refine i5 k (.inl ?_)
                rw [if_neg ho]
                exact GoMap.mem_keys_put.2 (.inl (Option.some.inj hk).symm)
            · exact i5 k (.inr ⟨g, hg, hk⟩)
        · rw [List.countP_cons, hu]
          have := hle.1
          simp only [Bool.false_eq_true, if_false]; omega

/-- The parts of a schema that no marker changes. -/
structure Kept (s s' : Schema) : Prop where
  allOf : s'.allOf = s.allOf
  oneOf : s'.oneOf = s.oneOf
  anyOf : s'.anyOf = s.anyOf
  not : s'.not = s.not
  properties : s'.properties = s.properties
  additional : s'.additionalProperties = s.additionalProperties
  patterns : s'.patternProperties = s.patternProperties
  dependencies : s'.dependencies = s.dependencies
  additionalItems : s'.additionalItems = s.additionalItems
  definitions : s'.definitions = s.definitions
  required : s'.base.required = s.base.required
  ref : s'.base.ref = s.base.ref
  description : s'.base.description = s.base.description

theorem Kept.refl (s : Schema) : Kept s s := ⟨rfl, rfl, rfl, rfl, rfl, rfl, rfl, rfl, rfl, rfl, rfl, rfl, rfl⟩

theorem Kept.trans {a b c : Schema} (h : Kept a b) (h' : Kept b c) : Kept a c :=
  ⟨h'.1.trans h.1, h'.2.trans h.2, h'.3.trans h.3, h'.4.trans h.4, h'.5.trans h.5, h'.6.trans h.6, h'.7.trans h.7, h'.8.trans h.8, h'.9.trans h.9, h'.10.trans h.10, h'.11.trans h.11, h'.12.trans h.12,
    h'.13.trans h.13⟩

theorem kept_applyOne (marshal : AnyVal → Option Raw) (x : Schema × Nat) (m : Named) : Kept x.1 (applyOne marshal x m).1 := by
  have hk : ∀ k : Keyword, k ≠ target m.mark → k.get (applyOne marshal x m).1.base = k.get x.1.base := applyOne_base marshal x m
  have hreq : Keyword.required ≠ target m.mark := by cases m.mark <;> nofun
  have href : Keyword.ref ≠ target m.mark := by cases m.mark <;> nofun
  have hdesc : Keyword.description ≠ target m.mark := by cases m.mark <;> nofun
  have hsame : SameParts x.1 (applyOne marshal x m).1 := by
    unfold applyOne
    split
    · exact ⟨rfl, rfl, rfl, rfl, rfl, rfl, rfl, rfl, rfl, rfl, rfl⟩
    · exact same_withBase ..
  obtain ⟨-, h2, h3, h4, h5, h6, h7, h8, h9, h10, h11⟩ := hsame
  exact ⟨h2.symm, h3.symm, h4.symm, h5.symm, h6.symm, h7.symm, h8.symm, h9.symm, h10.symm, h11.symm, hk _ hreq, hk _ href, hk _ hdesc⟩

theorem kept_applyItem (marshal : AnyVal → Option Raw) (x : Schema × Nat) (m : Named) : Kept x.1 (applyItem marshal x m).1 := by
  obtain ⟨s, n⟩ := x
  unfold applyItem
  split
  · rename_i heq
    simp only at heq
    subst heq
    split
    · exact .refl _
    · exact ⟨rfl, rfl, rfl, rfl, rfl, rfl, rfl, rfl, rfl, rfl, rfl, rfl, rfl⟩
  · exact .refl _

theorem kept_foldl (f : Schema × Nat → Named → Schema × Nat) (hf : ∀ x m, Kept x.1 (f x m).1) : ∀ (l : List Named) (x : Schema × Nat), Kept x.1 (l.foldl f x).1 := by
  intro l
  induction l with
  | nil => intro x; exact .refl _
  | cons m l ih => intro x; exact (hf x m).trans (ih _)

theorem kept_applyMarkers (marshal : AnyVal → Option Raw) (σ : Sched) (set : MarkerSet) (s : Schema) : Kept s (applyMarkers marshal σ set s).1 :=
  (kept_foldl _ (kept_applyOne marshal) _ (s, 0)).trans (kept_foldl _ (kept_applyItem marshal) _ _)

end Verif.Crd

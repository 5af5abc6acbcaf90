import Verif.Crd.BreakMarks

/-!
# C78: the markers in the schemas of declarations and fields
-/
namespace Verif.Crd
open Spec

theorem items_prefix {n : String} : isItemsName n = true ↔ "kubebuilder:validation:items:".toList <+: n.toList := by
  unfold isItemsName itemsPrefix
  exact List.isPrefixOf_iff_prefix

theorem plain_own {σ : Sched} {t : Nat} {set : MarkerSet} {m : Mark} :
    m ∈ (sliceSort σ t ((collectMarks σ 0 set).filter fun m => !isItemsName m.name)).map (·.mark) ↔ OnValue set m := by
  simp only [List.mem_map, (sliceSort_perm σ t _).mem_iff, List.mem_filter, Bool.not_eq_true']
  constructor
  · rintro ⟨a, ⟨ha, hn⟩, rfl⟩
    exact ⟨a.name, has_of_mem ha, by rw [← items_prefix, hn]; simp⟩
  · rintro ⟨n, hn, hp⟩
    obtain ⟨a, ha, rfl, rfl⟩ := mem_of_has (σ := σ) (t := 0) hn
    exact ⟨a, ⟨ha, by rw [← items_prefix] at hp; simpa using hp⟩, rfl⟩

theorem items_own {σ : Sched} {t : Nat} {set : MarkerSet} {m : Mark} :
    m ∈ (sliceSort σ t ((collectMarks σ 0 set).filter fun m => isItemsName m.name)).map (·.mark) ↔ OnItems set m := by
  simp only [List.mem_map, (sliceSort_perm σ t _).mem_iff, List.mem_filter]
  constructor
  · rintro ⟨a, ⟨ha, hn⟩, rfl⟩
    exact ⟨a.name, has_of_mem ha, items_prefix.1 hn⟩
  · rintro ⟨n, hn, hp⟩
    obtain ⟨a, ha, rfl, rfl⟩ := mem_of_has (σ := σ) (t := 0) hn
    exact ⟨a, ⟨ha, items_prefix.2 hp⟩, rfl⟩

/-- The parts of a schema that no marker for it and no documentation changes, apart from the items. -/
structure Outline (s s' : Schema) : Prop where
  allOf : s'.allOf = s.allOf
  oneOf : s'.oneOf = s.oneOf
  anyOf : s'.anyOf = s.anyOf
  not : s'.not = s.not
  properties : s'.properties = s.properties
  additional : s'.additionalProperties = s.additionalProperties
  patterns : s'.patternProperties = s.patternProperties
  dependencies : s'.dependencies = s.dependencies
  additionalItems : s'.additionalItems = s.additionalItems
  required : s'.base.required = s.base.required
  ref : s'.base.ref = s.base.ref

theorem Outline.refl (s : Schema) : Outline s s := ⟨rfl, rfl, rfl, rfl, rfl, rfl, rfl, rfl, rfl, rfl, rfl⟩

theorem Outline.trans {a b c : Schema} (h : Outline a b) (h' : Outline b c) : Outline a c :=
  ⟨h'.1.trans h.1, h'.2.trans h.2, h'.3.trans h.3, h'.4.trans h.4, h'.5.trans h.5, h'.6.trans h.6, h'.7.trans h.7, h'.8.trans h.8, h'.9.trans h.9, h'.10.trans h.10, h'.11.trans h.11⟩

theorem Kept.outline {s s' : Schema} (h : Kept s s') : Outline s s' := ⟨h.1, h.2, h.3, h.4, h.5, h.6, h.7, h.8, h.9, h.11, h.12⟩

theorem frame_describe (s : Schema) (doc : Bytes) : Outline s (s.describe doc) := by cases s; exact ⟨rfl, rfl, rfl, rfl, rfl, rfl, rfl, rfl, rfl, rfl, rfl⟩

theorem frame_withBase {s : Schema} {b : Base} (h1 : b.required = s.base.required) (h2 : b.ref = s.base.ref) : Outline s (s.withBase b) := by
  cases s; exact ⟨rfl, rfl, rfl, rfl, rfl, rfl, rfl, rfl, rfl, h1, h2⟩

theorem items_withBase (s : Schema) (b : Base) : (s.withBase b).items = s.items := by cases s; rfl

/-- The outcome of an application of markers without an error. -/
theorem applyMarkers_ok {marshal : AnyVal → Option Raw} {σ : Sched} {set : MarkerSet} {s s' : Schema} (h : applyMarkers marshal σ set s = (s', 0)) :
    Applied marshal (OnValue set) s.base s'.base ∧ Outline s s' ∧
      (((∀ m, ¬ OnItems set m) ∧ s'.items = s.items) ∨
        ∃ c cs cb, s.items = some (.mk (some c) cs) ∧ s'.items = some (.mk (some (c.withBase cb)) cs) ∧ Applied marshal (OnItems set) c.base cb) := by
  have hk := (kept_applyMarkers marshal σ set s).outline
  rw [h] at hk
  unfold applyMarkers at h
  simp only at h
  cases hx : (sliceSort σ 1 ((collectMarks σ 0 set).filter fun m => !isItemsName m.name)).foldl (applyOne marshal) (s, 0) with
  | mk s1 n1 =>
    rw [hx] at h
    obtain ⟨-, hrun⟩ := fold_run hx
    have fin : n1 = 0 → s'.base = s1.base → Applied marshal (OnValue set) s.base s'.base ∧ s1.items = s.items := by
      intro hn hb
      obtain ⟨b', h1, h2⟩ := hrun hn
      rw [hb, h2, base_withBase, items_withBase]
      exact ⟨applied_of_run (fun m => plain_own) h1, rfl⟩
    have none_left : ∀ k : Nat, k + (sliceSort σ 2 ((collectMarks σ 0 set).filter fun m => isItemsName m.name)).length = 0 → k = 0 ∧ ∀ m, ¬ OnItems set m := by
      intro k hk
      have hnil : sliceSort σ 2 ((collectMarks σ 0 set).filter fun m => isItemsName m.name) = [] := List.length_eq_zero_iff.1 (by omega)
      refine ⟨by omega, fun m hm => ?_⟩
      have := items_own (σ := σ) (t := 2).2 hm
      rw [hnil] at this
      cases this
    obtain ⟨b, it, al, oo, an, nt, pr, ad, pa, de, ai, df⟩ := s1
    rw [applyItem_frame] at h
    have plainCase : ((Schema.mk b it al oo an nt pr ad pa de ai df, n1 + (sliceSort σ 2 ((collectMarks σ 0 set).filter fun m => isItemsName m.name)).length) = (s', 0)) →
        Applied marshal (OnValue set) s.base s'.base ∧ Outline s s' ∧ (((∀ m, ¬ OnItems set m) ∧ s'.items = s.items) ∨
          ∃ c cs cb, s.items = some (.mk (some c) cs) ∧ s'.items = some (.mk (some (c.withBase cb)) cs) ∧ Applied marshal (OnItems set) c.base cb) := by
      intro h
      simp only [Prod.mk.injEq] at h
      obtain ⟨h1, h2⟩ := none_left _ h.2
      obtain ⟨h3, h4⟩ := fin h1 (by rw [← h.1])
      exact ⟨h3, hk, .inl ⟨h2, by rw [← h.1]; exact h4⟩⟩
    rcases it with _ | ⟨_ | c, cs⟩
    · exact plainCase h
    · exact plainCase h
    · simp only at h
      split at h
      · cases hy : (sliceSort σ 2 ((collectMarks σ 0 set).filter fun m => isItemsName m.name)).foldl (applyOne marshal) (c, n1) with
        | mk c1 n2 =>
          rw [hy] at h
          simp only [Prod.mk.injEq] at h
          obtain ⟨g1, g2⟩ := fold_run hy
          obtain ⟨h3, h4⟩ := fin (by omega) (by rw [← h.1]; rfl)
          obtain ⟨cb, g3, g4⟩ := g2 (by omega)
          refine ⟨h3, hk, .inr ⟨c, cs, cb, h4.symm, ?_, applied_of_run (fun m => items_own) g3⟩⟩
          rw [← h.1, g4]; rfl
      · exact plainCase h

/-- Documentation and markers, once or several times, without an error. -/
inductive Over (marshal : AnyVal → Option Raw) (set : MarkerSet) : Schema → Schema → Prop
  | one {s s' doc σ} : applyMarkers marshal σ set (s.describe doc) = (s', 0) → Over marshal set s s'
  | more {s t s' doc σ} : Over marshal set s t → applyMarkers marshal σ set (t.describe doc) = (s', 0) → Over marshal set s s'

/-- What markers make of the plain keywords. -/
structure Refines (M : Meaning) (marshal : AnyVal → Option Raw) (own : Mark → Prop) (b b' : Base) : Prop where
  inh : Inh own b'
  strict : Once own → ∀ j, BaseOk M b' j → ¬ Forbids M marshal own j
  accepts : ∀ j, BaseOk M b j → ¬ Forbids M marshal own j → BaseOk M b' j

theorem Refines.trans {M : Meaning} {marshal : AnyVal → Option Raw} {own : Mark → Prop} {a b c : Base} (h : Refines M marshal own a b) (h' : Refines M marshal own b c) : Refines M marshal own a c :=
  ⟨h'.inh, h'.strict, fun j h1 h2 => h'.accepts j (h.accepts j h1 h2) h2⟩

theorem refines_of {M : Meaning} {marshal : AnyVal → Option Raw} {own : Mark → Prop} {b b' : Base} (ha : Applied marshal own b b') (hi : Inh own b) : Refines M marshal own b b' :=
  ⟨hi.applied ha, fun ho _ hj => applied_strict ha hi ho hj, fun _ hj hf => applied_accepts ha hi hj hf⟩

/-- What markers make of a schema. -/
structure OverFacts (M : Meaning) (marshal : AnyVal → Option Raw) (set : MarkerSet) (s s' : Schema) : Prop where
  frame : Outline s s'
  base : Refines M marshal (OnValue set) s.base s'.base
  items : ((∀ m, ¬ OnItems set m) ∧ s'.items = s.items) ∨ ∃ c c' cs, s.items = some (.mk (some c) cs) ∧ s'.items = some (.mk (some c') cs) ∧ Outline c c' ∧ c'.items = c.items ∧
    Refines M marshal (OnItems set) c.base c'.base

theorem OverFacts.trans {M : Meaning} {marshal : AnyVal → Option Raw} {set : MarkerSet} {a b c : Schema} (h : OverFacts M marshal set a b) (h' : OverFacts M marshal set b c) :
    OverFacts M marshal set a c := by
  refine ⟨h.frame.trans h'.frame, h.base.trans h'.base, ?_⟩
  rcases h.items with ⟨h1, h2⟩ | ⟨x, x', xs, h1, h2, h3, h4, h5⟩
  · rcases h'.items with ⟨g1, g2⟩ | ⟨y, y', ys, g1, g2, g3⟩
    · exact .inl ⟨h1, g2.trans h2⟩
    · exact .inr ⟨y, y', ys, h2 ▸ g1, g2, g3⟩
  · rcases h'.items with ⟨g1, g2⟩ | ⟨y, y', ys, g1, g2, g3, g4, g5⟩
    · exact .inr ⟨x, x', xs, h1, g2.trans h2, h3, h4, h5⟩
    · rw [h2] at g1
      cases g1
      exact .inr ⟨x, y', xs, h1, g2, h3.trans g3, g4.trans h4, h5.trans g5⟩

/-- The schema has nothing yet that is changed by the markers one cannot tell apart otherwise. -/
structure Fresh (s : Schema) : Prop where
  base : ∀ own, Inh own s.base
  items : ∀ c cs, s.items = some (.mk (some c) cs) → ∀ own, Inh own c.base

theorem over_step {M : Meaning} {marshal : AnyVal → Option Raw} {set : MarkerSet} {t s' : Schema} {doc : Bytes} {σ : Sched} (hi : Inh (OnValue set) t.base)
    (hc : ∀ c cs, t.items = some (.mk (some c) cs) → Inh (OnItems set) c.base) (h : applyMarkers marshal σ set (t.describe doc) = (s', 0)) : OverFacts M marshal set t s' := by
  obtain ⟨h1, h2, h3⟩ := applyMarkers_ok h
  have hb : (t.describe doc).base = { t.base with description := doc } := by cases t; rfl
  have hit : (t.describe doc).items = t.items := by cases t; rfl
  rw [hb] at h1
  rw [hit] at h3
  have hinh : Inh (OnValue set) { t.base with description := doc } := ⟨hi.1, hi.2, hi.3, hi.4, hi.5⟩
  have hr := refines_of (M := M) h1 hinh
  refine ⟨(frame_describe t doc).trans h2, ⟨hr.inh, hr.strict, fun j hj => hr.accepts j ⟨hj.1, hj.2, hj.3, hj.4, hj.5, hj.6, hj.7, hj.8, hj.9, hj.10, hj.11, hj.12, hj.13, hj.14, hj.15,
    hj.16, hj.17⟩⟩, ?_⟩
  rcases h3 with h3 | ⟨c, cs, cb, e1, e2, e3⟩
  · exact .inl h3
  · refine .inr ⟨c, c.withBase cb, cs, e1, e2, frame_withBase e3.required e3.ref, items_withBase .., ?_⟩
    rw [base_withBase]
    exact refines_of e3 (hc c cs e1)

theorem over_facts {M : Meaning} {marshal : AnyVal → Option Raw} {set : MarkerSet} {s s' : Schema} (hf : Fresh s) (h : Over marshal set s s') : OverFacts M marshal set s s' := by
  induction h with
  | one h => exact over_step (hf.base _) (fun c cs hc => hf.items c cs hc _) h
  | @more t s' doc σ h1 h2 ih =>
    refine ih.trans (over_step ih.base.inh (fun c cs hc => ?_) h2)
    rcases ih.items with ⟨-, e⟩ | ⟨x, x', xs, e1, e2, -, -, e5⟩
    · exact hf.items c cs (e ▸ hc) _
    · rw [e2] at hc
      cases hc
      exact e5.inh

theorem forbids_own {M : Meaning} {marshal : AnyVal → Option Raw} {own : Mark → Prop} {j : Json} (h : Forbids M marshal own j) : ∃ m, own m := by
  cases h with
  | mark m h => exact ⟨m, h⟩
  | type t h => exact ⟨_, h⟩
  | exclusiveMaximum v h => exact ⟨_, h⟩
  | exclusiveMinimum v h => exact ⟨_, h⟩

theorem set_strict {M : Meaning} {marshal : AnyVal → Option Raw} {set : MarkerSet} {s s' : Schema} (h : OverFacts M marshal set s s') (h1 : Once (OnValue set)) (h2 : Once (OnItems set)) {j : Json}
    {W : Schema → Json → Prop} (hW : ∀ c x, W c x → BaseOk M c.base x) (hv : ValidBy M W s' j) : ¬ SetForbids M marshal set j := by
  rintro (hf | ⟨l, x, rfl, hx, hf⟩)
  · exact h.base.strict h1 j hv.plain hf
  · rcases h.items with ⟨e, -⟩ | ⟨c, c', cs, e1, e2, -, -, e5⟩
    · obtain ⟨m, hm⟩ := forbids_own hf
      exact e m hm
    · exact e5.strict h2 x (hW _ _ (hv.items _ l c' x e2 rfl rfl hx)) hf

/-! ## Runs of the generator -/

theorem typeSchema_inh {P : PkgCtx} {e : TExpr} {s : Schema} (h : TypeSchema P e s) (own : Mark → Prop) : Inh own s.base := by
  induction h with
  | pointer _ ih => exact ih
  | _ => exact ⟨nofun, nofun, nofun, nofun, nofun⟩

theorem typeSchema_fresh {P : PkgCtx} {e : TExpr} {s : Schema} (h : TypeSchema P e s) : Fresh s := by
  refine ⟨typeSchema_inh h, ?_⟩
  induction h with
  | pointer _ ih => exact ih
  | array _ h _ => intro c cs hc; cases hc; exact typeSchema_inh h
  | _ => nofun

theorem apply_clean {marshal : AnyVal → Option Raw} {σ : Nat → Sched} {set : MarkerSet} {s s' : Schema} {st st' : GState} (h : st.apply marshal σ set s = (s', st')) (he : st'.errs = st.errs) :
    applyMarkers marshal (σ st.tick) set s = (s', 0) := by
  unfold GState.apply at h
  cases hx : applyMarkers marshal (σ st.tick) set s with
  | mk t n =>
    rw [hx] at h
    simp only [Prod.mk.injEq] at h
    rw [← h.2] at he
    simp only at he
    rw [h.1, show n = 0 by omega]

theorem field_over {marshal : AnyVal → Option Raw} {σ : Nat → Sched} {P : PkgCtx} {st st' : GState} {f : Field} {c : Schema} (h : FieldRun marshal σ P st st' f c) (he : st'.errs = st.errs) :
    (Marked f.markers "kubebuilder:validation:Schemaless" ∧ Over marshal f.markers .empty c) ∨
      (¬ Marked f.markers "kubebuilder:validation:Schemaless" ∧ ∃ raw, TypeSchema P f.type raw ∧ Over marshal f.markers raw c) := by
  obtain ⟨sta, stb, h, h1, h2⟩ := h
  unfold fieldSchema at h
  simp only at h
  by_cases hs : f.markers.has "kubebuilder:validation:Schemaless" = true
  · rw [if_pos hs] at h
    simp only [Except.ok.injEq] at h
    have hle := (apply_le (marshal := marshal) (σ := σ) (set := f.markers) (s := Schema.empty.describe f.doc) (st := sta)).1
    rw [h] at hle
    simp only at hle
    exact .inl ⟨has_iff.1 hs, .one (apply_clean h (by omega))⟩
  · rw [if_neg hs] at h
    split at h
    · cases h
    · rename_i raw st1 heq
      simp only [Except.ok.injEq] at h
      have hle := (apply_le (marshal := marshal) (σ := σ) (set := f.markers) (s := raw.describe f.doc) (st := st1)).1
      rw [h] at hle
      simp only at hle
      have hle' := (inner_le heq).1
      exact .inr ⟨fun hm => hs (has_iff.2 hm), raw, (C31_types P f.type sta raw).1 ⟨st1, heq, by omega⟩, .one (apply_clean h (by omega))⟩

theorem decl_over {marshal : AnyVal → Option Raw} {σ : Nat → Sched} {P : PkgCtx} {d : Decl} : ∀ {e : TExpr} {top : Bool} {st st' : GState} {s : Schema}, e ≠ .struct →
    declType marshal σ P d top e st = .ok (s, st') → st'.errs = st.errs → ∃ raw, TypeSchema P e raw ∧ Over marshal d.markers raw s := by
  have fin : ∀ {r : GRes} {st' : GState} {s : Schema}, GRes.finish marshal σ d r = .ok (s, st') → ∃ raw st1, r = .ok (raw, st1) ∧ st1.apply marshal σ d.markers (raw.describe d.doc) = (s, st') ∧
      st1.errs ≤ st'.errs := by
    intro r st' s hr
    cases r with
    | error p => cases hr
    | ok x =>
      obtain ⟨raw, st1⟩ := x
      simp only [GRes.finish, Except.ok.injEq] at hr
      have hle := (apply_le (marshal := marshal) (σ := σ) (set := d.markers) (s := raw.describe d.doc) (st := st1)).1
      rw [hr] at hle
      simp only at hle
      exact ⟨raw, st1, rfl, hr, hle⟩
  have plain : ∀ {e : TExpr} {st st' : GState} {s : Schema}, GRes.finish marshal σ d (innerType P e st) = .ok (s, st') → st'.errs = st.errs →
      ∃ raw, TypeSchema P e raw ∧ Over marshal d.markers raw s := by
    intro e st st' s h he
    obtain ⟨raw, st1, h1, h2, h3⟩ := fin h
    have := (inner_le h1).1
    exact ⟨raw, (C31_types P e st raw).1 ⟨st1, h1, by omega⟩, .one (apply_clean h2 (by omega))⟩
  intro e
  induction e with
  | other => intro top st st' s _ h he; cases top <;> (simp only [declType, Except.ok.injEq, Prod.mk.injEq] at h; rw [← h.2] at he; simp [GState.err] at he)
  | star e ih =>
    intro top st st' s _ h he
    have hd : declType marshal σ P d top (.star e) st = GRes.finish marshal σ d (declType marshal σ P d false e st) := by cases top <;> rfl
    rw [hd] at h
    obtain ⟨raw, st1, h1, h2, h3⟩ := fin h
    by_cases hs : e = .struct
    · subst hs
      simp only [declType] at h1
      obtain ⟨raw', st2, g1, g2, g3⟩ := fin h1
      cases g1
      simp only [GState.err] at g3
      omega
    · have := decl_le hs h1
      obtain ⟨r, hr1, hr2⟩ := ih hs h1 (by omega)
      exact ⟨r, .pointer hr1, .more hr2 (apply_clean h2 (by omega))⟩
  | struct => intro top st st' s h; exact absurd rfl h
  | ident n => intro top st st' s _ h he; cases top <;> (rw [declType] at h; exact plain h he)
  | selector x n => intro top st st' s _ h he; cases top <;> (rw [declType] at h; exact plain h he)
  | array l x _ => intro top st st' s _ h he; cases top <;> (rw [declType] at h; exact plain h he)
  | map k v _ _ => intro top st st' s _ h he; cases top <;> (rw [declType] at h; exact plain h he)

theorem struct_over {marshal : AnyVal → Option Raw} {σ : Nat → Sched} {P : PkgCtx} {d : Decl} {st st' : GState} {s : Schema} (h : declType marshal σ P d true .struct st = .ok (s, st'))
    (he : st'.errs = st.errs) : ∃ req props all, Over marshal d.markers (.mk { type := "object", required := req } none all [] [] none props none [] [] none []) s := by
  rw [declType] at h
  unfold structToSchema GRes.finish at h
  cases hf : structFields marshal σ P d.fields [] [] [] st with
  | error p => rw [hf] at h; cases h
  | ok x =>
    obtain ⟨⟨req, props, all⟩, st1⟩ := x
    rw [hf] at h
    simp only [Except.ok.injEq] at h
    obtain ⟨-, -, -, -, -, h6, -⟩ := structFields_spec marshal σ P _ _ _ _ _ _ _ _ _ (by simp [GoMap.WF, GoMap.keys]) hf
    have hle := (apply_le (marshal := marshal) (σ := σ) (set := d.markers)
      (s := (Schema.mk { type := "object", required := req } none all [] [] none props none [] [] none []).describe d.doc) (st := st1)).1
    rw [h] at hle
    simp only at hle
    exact ⟨req, props, all, .one (apply_clean h (by omega))⟩

theorem struct_fresh {req : List String} {props : List (String × Schema)} {all : List Schema} : Fresh (.mk { type := "object", required := req } none all [] [] none props none [] [] none []) :=
  ⟨fun _ => ⟨nofun, nofun, nofun, nofun, nofun⟩, nofun⟩

theorem leaf_fresh (t : String) : Fresh (.leaf { type := t }) := ⟨fun _ => ⟨nofun, nofun, nofun, nofun, nofun⟩, nofun⟩

theorem declType_over {marshal : AnyVal → Option Raw} {σ : Nat → Sched} {P : PkgCtx} {d : Decl} {st st' : GState} {s : Schema} (h : declType marshal σ P d true d.type st = .ok (s, st'))
    (he : st'.errs = st.errs) : ∃ raw, Fresh raw ∧ Over marshal d.markers raw s := by
  by_cases hs : d.type = .struct
  · rw [hs] at h
    obtain ⟨req, props, all, h⟩ := struct_over h he
    exact ⟨_, struct_fresh, h⟩
  · obtain ⟨raw, h1, h2⟩ := decl_over hs h he
    exact ⟨raw, typeSchema_fresh h1, h2⟩

theorem declType_le {marshal : AnyVal → Option Raw} {σ : Nat → Sched} {P : PkgCtx} {d : Decl} {st st' : GState} {s : Schema} (h : declType marshal σ P d true d.type st = .ok (s, st')) :
    st.errs ≤ st'.errs := by
  by_cases hs : d.type = .struct
  · rw [hs, declType] at h
    unfold structToSchema GRes.finish at h
    cases hf : structFields marshal σ P d.fields [] [] [] st with
    | error p => rw [hf] at h; cases h
    | ok x =>
      obtain ⟨⟨req, props, all⟩, st1⟩ := x
      rw [hf] at h
      simp only [Except.ok.injEq] at h
      obtain ⟨-, -, -, -, -, h6, -⟩ := structFields_spec marshal σ P _ _ _ _ _ _ _ _ _ (by simp [GoMap.WF, GoMap.keys]) hf
      have hle := (apply_le (marshal := marshal) (σ := σ) (set := d.markers)
        (s := (Schema.mk { type := "object", required := req } none all [] [] none props none [] [] none []).describe d.doc) (st := st1)).1
      rw [h] at hle
      simp only at hle
      omega
  · exact decl_le hs h

/-- The markers of a declaration are always applied last. -/
theorem info_over {marshal : AnyVal → Option Raw} {σ : Nat → Sched} {P : PkgCtx} {d : Decl} {st st' : GState} {s : Schema} (h : infoToSchema marshal σ P d st = .ok (s, st'))
    (he : st'.errs = st.errs) : ∃ raw, Fresh raw ∧ Over marshal d.markers raw s := by
  unfold infoToSchema at h
  split at h
  · cases hx : st.apply marshal σ d.markers .empty with
    | mk s1 st1 =>
      rw [hx] at h
      simp only at h
      have hle := (apply_le (marshal := marshal) (σ := σ) (set := d.markers) (s := .empty) (st := st)).1
      rw [hx] at hle
      simp only at hle
      split at h
      · simp only [Except.ok.injEq, Prod.mk.injEq] at h
        obtain ⟨rfl, rfl⟩ := h
        exact ⟨.empty, ⟨fun _ => ⟨nofun, nofun, nofun, nofun, nofun⟩, nofun⟩, .one (doc := []) (apply_clean hx he)⟩
      · have := declType_le h
        exact declType_over h (by omega)
  · split at h
    · cases hx : st.apply marshal σ d.markers (.leaf { type := "string" }) with
      | mk s1 st1 =>
        rw [hx] at h
        simp only [Except.ok.injEq, Prod.mk.injEq] at h
        have hle := (apply_le (marshal := marshal) (σ := σ) (set := d.markers) (s := .leaf { type := "string" }) (st := st)).1
        rw [hx] at hle
        simp only at hle
        obtain ⟨rfl, rfl⟩ := h
        refine ⟨_, leaf_fresh "string", .one (doc := []) (apply_clean hx ?_)⟩
        split at he
        · simp only [GState.err] at he; omega
        · exact he
    · exact declType_over h he

end Verif.Crd

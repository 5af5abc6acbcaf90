import Verif.Crd.GenLemmas

/-!
# C30, C31: fields become properties, types become JSON types
-/
namespace Verif.Crd
open Spec

theorem propName_iff {P : PkgCtx} {f : Field} {k : String} : propName P f = some k ↔ ∃ om, FieldIn P f k false om := by
  unfold propName
  constructor
  · intro h
    split at h
    · cases h
    · rename_i o heq
      split at h
      · cases h
      · rename_i hi
        have := included_iff.1 heq
        cases h
        exact ⟨o.omitEmpty, by rw [Bool.not_eq_true] at hi; rw [hi] at this; exact this⟩
  · rintro ⟨om, h⟩
    have : included P f = some ⟨k, false, om⟩ := included_iff.2 h
    rw [this]; rfl

theorem isInline_iff {P : PkgCtx} {f : Field} : isInline P f = true ↔ ∃ k om, FieldIn P f k true om := by
  unfold isInline
  constructor
  · intro h
    split at h
    · cases h
    · rename_i o heq
      have := included_iff.1 heq
      rw [h] at this
      exact ⟨_, _, this⟩
  · rintro ⟨k, om, h⟩
    have : included P f = some ⟨k, true, om⟩ := included_iff.2 h
    rw [this]

theorem reqName_iff {P : PkgCtx} {f : Field} {k : String} : reqName P f = some k ↔ ∃ inl om, FieldIn P f k inl om ∧ MustHave P f inl om := by
  unfold reqName
  constructor
  · intro h
    split at h
    · cases h
    · rename_i o heq
      split at h
      · rename_i hr
        cases h
        exact ⟨_, _, included_iff.1 heq, isRequired_iff.1 hr⟩
      · cases h
  · rintro ⟨inl, om, h, hm⟩
    have : included P f = some ⟨k, inl, om⟩ := included_iff.2 h
    rw [this]
    simp only
    rw [if_pos (isRequired_iff.2 hm)]

theorem untagged_iff {P : PkgCtx} {f : Field} : untagged P f = true ↔ Visible P f ∧ f.tag = none := by
  unfold untagged Visible
  by_cases h : f.name = "" <;> cases P.ignoreUnexportedFields <;> cases P.exported f.name <;> cases f.tag <;> simp [h]

/-- The schema of a declared struct, before the markers. -/
theorem struct_result {marshal : AnyVal → Option Raw} {σ : Nat → Sched} {P : PkgCtx} {d : Decl} {st st' : GState} {s : Schema} (hd : d.type = .struct) (hj : d.jsonMarshaler = false)
    (ht : d.textMarshaler = false) (h : infoToSchema marshal σ P d st = .ok (s, st')) :
    ∃ req props all st1, structFields marshal σ P d.fields [] [] [] st = .ok ((req, props, all), st1) ∧
      (s, st') = st1.apply marshal σ d.markers (.mk { type := "object", required := req, description := d.doc } none all [] [] none props none [] [] none []) := by
  unfold infoToSchema at h
  rw [hj, ht, hd] at h
  simp only [Bool.false_eq_true, if_false] at h
  rw [declType] at h
  unfold structToSchema GRes.finish at h
  cases hf : structFields marshal σ P d.fields [] [] [] st with
  | error p => rw [hf] at h; cases h
  | ok x =>
    obtain ⟨⟨req, props, all⟩, st1⟩ := x
    rw [hf] at h
    simp only [Except.ok.injEq] at h
    exact ⟨req, props, all, st1, rfl, h.symm⟩

theorem struct_spec {marshal : AnyVal → Option Raw} {σ : Nat → Sched} {P : PkgCtx} {d : Decl} {st st' : GState} {s : Schema} (hd : d.type = .struct) (hj : d.jsonMarshaler = false)
    (ht : d.textMarshaler = false) (h : infoToSchema marshal σ P d st = .ok (s, st')) :
    s.base.required = d.fields.filterMap (reqName P) ∧ All2 (FieldRun marshal σ P st st') (d.fields.filter (isInline P)) s.allOf ∧ GoMap.WF s.properties ∧
    (∀ k c, GoMap.get s.properties k = some c → ∃ pre f post, d.fields = pre ++ f :: post ∧ propName P f = some k ∧ (∀ g ∈ post, propName P g ≠ some k) ∧ FieldRun marshal σ P st st' f c) ∧
    (∀ f ∈ d.fields, ∀ k, propName P f = some k → k ∈ GoMap.keys s.properties) ∧ st.errs + d.fields.countP (untagged P) ≤ st'.errs ∧ st.reqs <+: st'.reqs ∧ s.base.description = d.doc := by
  obtain ⟨req, props, all, st1, hf, he⟩ := struct_result hd hj ht h
  obtain ⟨h1, ⟨l, h2, h2'⟩, h3, h4, h5, h6, h7⟩ := structFields_spec marshal σ P _ _ _ _ _ _ _ _ _ (by simp [GoMap.WF, GoMap.keys]) hf
  have hk := kept_applyMarkers marshal (σ st1.tick) d.markers (.mk { type := "object", required := req, description := d.doc } none all [] [] none props none [] [] none [])
  have hs : s = (applyMarkers marshal (σ st1.tick) d.markers (.mk { type := "object", required := req, description := d.doc } none all [] [] none props none [] [] none [])).1 :=
    congrArg Prod.fst he
  have hst : GState.Le st1 st' := by
    have := congrArg Prod.snd he
    simp only at this
    rw [this]; exact apply_le
  rw [← hs] at hk
  have hp : s.properties = props := hk.properties
  have ha : s.allOf = all := hk.allOf
  have hr : s.base.required = req := hk.required
  have hdoc : s.base.description = d.doc := hk.description
  rw [hp, ha, hr]
  refine ⟨by simpa using h1, by rw [h2]; simpa using h2'.imp (fun _ _ _ _ h => h.later hst.1), h3, ?_, fun f hf k hk => h5 k (.inr ⟨f, hf, hk⟩), Nat.le_trans h6 hst.1, h7.trans hst.2, hdoc⟩
  intro k c hkc
  rcases h4 k c hkc with ⟨pre, f, post, e1, e2, e3, e4⟩ | ⟨h, -⟩
  · exact ⟨pre, f, post, e1, e2, e3, e4.later hst.1⟩
  · simp [GoMap.get] at h

/-- C30.  Every property is a field: one that is tagged with this name and is not inline, the last such field; its schema is that of the field. -/
theorem C30_property {marshal : AnyVal → Option Raw} {σ : Nat → Sched} {P : PkgCtx} {d : Decl} {st st' : GState} {s : Schema} (hd : d.type = .struct) (hj : d.jsonMarshaler = false)
    (ht : d.textMarshaler = false) (h : infoToSchema marshal σ P d st = .ok (s, st')) {k : String} {c : Schema} (hk : GoMap.get s.properties k = some c) :
    ∃ pre f post om, d.fields = pre ++ f :: post ∧ FieldIn P f k false om ∧ (∀ g ∈ post, ∀ om', ¬ FieldIn P g k false om') ∧ FieldSchema marshal σ P f c := by
  obtain ⟨-, -, -, h4, -⟩ := struct_spec hd hj ht h
  obtain ⟨pre, f, post, h1, h2, h3, h5⟩ := h4 k c hk
  obtain ⟨om, h2⟩ := propName_iff.1 h2
  exact ⟨pre, f, post, om, h1, h2, fun g hg om' hi => h3 g hg (propName_iff.2 ⟨om', hi⟩), h5.spec⟩

/-- C30.  Every field that is tagged with a name and is not inline is a property. -/
theorem C30_properties_complete {marshal : AnyVal → Option Raw} {σ : Nat → Sched} {P : PkgCtx} {d : Decl} {st st' : GState} {s : Schema} (hd : d.type = .struct) (hj : d.jsonMarshaler = false)
    (ht : d.textMarshaler = false) (h : infoToSchema marshal σ P d st = .ok (s, st')) {f : Field} (hf : f ∈ d.fields) {k : String} {om : Bool} (hi : FieldIn P f k false om) :
    ∃ c, GoMap.get s.properties k = some c := by
  obtain ⟨-, -, -, -, h5, -⟩ := struct_spec hd hj ht h
  have := h5 f hf k (propName_iff.2 ⟨om, hi⟩)
  cases hg : GoMap.get s.properties k with
  | none => exact absurd this (GoMap.get_eq_none.1 hg)
  | some c => exact ⟨c, rfl⟩

/-- C30.  Exactly the names of the fields that must be there are required. -/
theorem C30_required {marshal : AnyVal → Option Raw} {σ : Nat → Sched} {P : PkgCtx} {d : Decl} {st st' : GState} {s : Schema} (hd : d.type = .struct) (hj : d.jsonMarshaler = false)
    (ht : d.textMarshaler = false) (h : infoToSchema marshal σ P d st = .ok (s, st')) (k : String) :
    k ∈ s.base.required ↔ ∃ f ∈ d.fields, ∃ inl om, FieldIn P f k inl om ∧ MustHave P f inl om := by
  rw [(struct_spec hd hj ht h).1, List.mem_filterMap]
  exact ⟨fun ⟨f, hf, hr⟩ => ⟨f, hf, reqName_iff.1 hr⟩, fun ⟨f, hf, hr⟩ => ⟨f, hf, reqName_iff.2 hr⟩⟩

/-- C30.  The inline fields, in their order, are what the object must satisfy besides. -/
theorem C30_embedded {marshal : AnyVal → Option Raw} {σ : Nat → Sched} {P : PkgCtx} {d : Decl} {st st' : GState} {s : Schema} (hd : d.type = .struct) (hj : d.jsonMarshaler = false)
    (ht : d.textMarshaler = false) (h : infoToSchema marshal σ P d st = .ok (s, st')) (p : Field → Bool) (hp : ∀ f ∈ d.fields, p f = true ↔ ∃ k om, FieldIn P f k true om) :
    All2 (FieldSchema marshal σ P) (d.fields.filter p) s.allOf := by
  have : d.fields.filter p = d.fields.filter (isInline P) := by
    apply List.filter_congr
    intro f hf
    rw [Bool.eq_iff_iff, hp f hf, isInline_iff]
  rw [this]
  exact (struct_spec hd hj ht h).2.1.imp fun _ _ _ _ h => h.spec

/-- C30.  A field without a tag is reported. -/
theorem C30_untagged_reported {marshal : AnyVal → Option Raw} {σ : Nat → Sched} {P : PkgCtx} {d : Decl} {st st' : GState} {s : Schema} (hd : d.type = .struct) (hj : d.jsonMarshaler = false)
    (ht : d.textMarshaler = false) (h : infoToSchema marshal σ P d st = .ok (s, st')) {f : Field} (hf : f ∈ d.fields) (hv : Visible P f) (hn : f.tag = none) : st.errs < st'.errs := by
  obtain ⟨-, -, -, -, -, h6, -⟩ := struct_spec hd hj ht h
  have : 0 < d.fields.countP (untagged P) := List.countP_pos_iff.2 ⟨f, hf, untagged_iff.2 ⟨hv, hn⟩⟩
  omega

/-- C30.  The documentation of the declaration and of the fields is kept. -/
theorem C30_documented {marshal : AnyVal → Option Raw} {σ : Nat → Sched} {P : PkgCtx} {d : Decl} {st st' : GState} {s : Schema} (hd : d.type = .struct) (hj : d.jsonMarshaler = false)
    (ht : d.textMarshaler = false) (h : infoToSchema marshal σ P d st = .ok (s, st')) :
    s.base.description = d.doc ∧ ∀ k c, GoMap.get s.properties k = some c → ∃ f ∈ d.fields, (∃ om, FieldIn P f k false om) ∧ c.base.description = f.doc := by
  refine ⟨(struct_spec hd hj ht h).2.2.2.2.2.2.2, ?_⟩
  intro k c hk
  obtain ⟨pre, f, post, om, h1, h2, -, n, raw, -, -, h4⟩ := C30_property hd hj ht h hk
  refine ⟨f, by rw [h1]; simp, ⟨om, h2⟩, ?_⟩
  rw [h4, (kept_applyMarkers ..).description]
  cases raw; rfl

/-- C30.  If no inline field must be there, then all required names are properties.  Missing: inline fields with an explicit marker, see `C30_violated_inline`. -/
theorem C30_required_are_properties_partial {marshal : AnyVal → Option Raw} {σ : Nat → Sched} {P : PkgCtx} {d : Decl} {st st' : GState} {s : Schema} (hd : d.type = .struct)
    (hj : d.jsonMarshaler = false) (ht : d.textMarshaler = false) (h : infoToSchema marshal σ P d st = .ok (s, st'))
    (hi : ∀ f ∈ d.fields, ∀ k om, FieldIn P f k true om → ¬ MustHave P f true om) {k : String} (hk : k ∈ s.base.required) : ∃ c, GoMap.get s.properties k = some c := by
  obtain ⟨f, hf, inl, om, hin, hm⟩ := (C30_required hd hj ht h k).1 hk
  cases inl with
  | true => exact absurd hm (hi f hf k om hin)
  | false => exact C30_properties_complete hd hj ht h hf hin

/-- C30.  If the JSON names of the fields are distinct, no name is required twice. -/
theorem C30_required_once {marshal : AnyVal → Option Raw} {σ : Nat → Sched} {P : PkgCtx} {d : Decl} {st st' : GState} {s : Schema} (hd : d.type = .struct)
    (hj : d.jsonMarshaler = false) (ht : d.textMarshaler = false) (h : infoToSchema marshal σ P d st = .ok (s, st'))
    (hu : d.fields.Pairwise fun f g => ∀ k i o i' o', FieldIn P f k i o → FieldIn P g k i' o' → False) : s.base.required.Nodup := by
  rw [(struct_spec hd hj ht h).1]
  apply List.Pairwise.filterMap _ _ hu
  rintro f g hfg a ha b hb rfl
  obtain ⟨i, o, h1, -⟩ := reqName_iff.1 ha
  obtain ⟨i', o', h2, -⟩ := reqName_iff.1 hb
  exact hfg a i o i' o' h1 h2

theorem keyOk_iff {t : GoType} : keyOk t = true ↔ StringLike t := by
  induction t with
  | basic b =>
    obtain ⟨k, n⟩ := b
    rw [keyOk]
    constructor
    · intro h; simp only [decide_eq_true_eq] at h; subst h; exact .string n
    · intro h; cases h; rfl
  | named p n u ih => rw [keyOk, ih]; exact ⟨.named, fun h => by cases h; assumption⟩
  | invalid => exact ⟨nofun, nofun⟩
  | alias => exact ⟨nofun, nofun⟩
  | other => exact ⟨nofun, nofun⟩

theorem builtin_iff {P : PkgCtx} {b : Basic} {t f : String} : builtinToType b P.allowDangerousTypes = some (t, f) ↔ BuiltinSchema P b.kind t f := by
  obtain ⟨k, n⟩ := b
  unfold builtinToType BuiltinSchema
  cases P.allowDangerousTypes <;> cases k <;> simp [Kind.isInteger, Kind.isFloat, jsonType, widthFormat] <;> (try exact fun _ => eq_comm) <;>
    (try (constructor; · rintro ⟨rfl, rfl⟩; simp
          · rintro ⟨rfl, rfl⟩; simp)) <;> (try (constructor; · rintro ⟨rfl, rfl⟩; simp
                                                · rintro ⟨rfl, rfl, h⟩; simp_all)) <;> (try (rintro rfl; simp)) <;> (try exact eq_comm)

theorem builtin_none {P : PkgCtx} {b : Basic} : builtinToType b P.allowDangerousTypes = none ↔ ∀ t f, ¬ BuiltinSchema P b.kind t f := by
  constructor
  · intro h t f hb
    rw [builtin_iff.2 hb] at h; cases h
  · intro h
    cases hb : builtinToType b P.allowDangerousTypes with
    | none => rfl
    | some x => exact absurd (builtin_iff.1 hb) (h _ _)

theorem basicSchema_iff {P : PkgCtx} {id : String} {b : Basic} {st : GState} {s : Schema} :
    (∃ st', basicSchema P id st b = .ok (s, st') ∧ st'.errs = st.errs) ↔
      ∃ t f, BuiltinSchema P b.kind t f ∧ s = if b.name ≠ id then .leaf { type := t, format := f, ref := some (refLink "" id) } else .leaf { type := t, format := f } := by
  unfold basicSchema
  cases hb : builtinToType b P.allowDangerousTypes with
  | none =>
    have hn := builtin_none.1 hb
    simp only [Option.isNone_none, if_true]
    constructor
    · rintro ⟨st', h, he⟩
      by_cases hi : b.name = id
      · rw [if_neg (by simpa using hi)] at h
        simp only [Except.ok.injEq, Prod.mk.injEq] at h
        rw [← h.2] at he; simp [GState.err] at he
      · rw [if_pos hi] at h
        simp only [Except.ok.injEq, Prod.mk.injEq] at h
        rw [← h.2] at he; simp [GState.err, GState.request] at he
    · rintro ⟨t, f, h, -⟩; exact absurd h (hn t f)
  | some x =>
    obtain ⟨t, f⟩ := x
    have hs := builtin_iff.1 hb
    simp only [Option.isNone_some, Bool.false_eq_true, if_false, Option.getD_some]
    have huniq : ∀ t' f', BuiltinSchema P b.kind t' f' → t' = t ∧ f' = f := by
      intro t' f' h
      have := builtin_iff.2 h
      rw [hb] at this
      cases this; exact ⟨rfl, rfl⟩
    constructor
    · rintro ⟨st', h, he⟩
      refine ⟨t, f, hs, ?_⟩
      by_cases hi : b.name = id
      · rw [if_neg (by simpa using hi)] at h ⊢
        simp only [Except.ok.injEq, Prod.mk.injEq] at h
        exact h.1.symm
      · rw [if_pos hi] at h ⊢
        simp only [Except.ok.injEq, Prod.mk.injEq] at h
        exact h.1.symm
    · rintro ⟨t', f', h, rfl⟩
      obtain ⟨rfl, rfl⟩ := huniq t' f' h
      by_cases hi : b.name = id
      · rw [if_neg (by simpa using hi), if_neg (by simpa using hi)]; exact ⟨st, rfl, rfl⟩
      · rw [if_pos hi, if_pos hi]; exact ⟨_, rfl, rfl⟩

theorem objToSchema_iff {P : PkgCtx} {pkg : Option String} {name : String} {st : GState} {s : Schema} :
    (∃ st', objToSchema P pkg name st = .ok (s, st') ∧ st'.errs = st.errs) ↔ ∃ p l, pkg = some p ∧ LinkTo P p name l ∧ s = .leaf { ref := some l } := by
  unfold objToSchema LinkTo
  cases pkg with
  | none => simp
  | some p =>
    simp only
    constructor
    · rintro ⟨st', h, -⟩
      simp only [Except.ok.injEq, Prod.mk.injEq] at h
      refine ⟨p, _, rfl, ⟨?_, ?_⟩, h.1.symm⟩
      · intro hp; rw [if_pos hp]
      · intro hp; rw [if_neg hp]
    · rintro ⟨p', l, hp, ⟨h1, h2⟩, rfl⟩
      cases hp
      by_cases hp : p = P.self
      · rw [if_pos hp, h1 hp]; exact ⟨_, rfl, rfl⟩
      · rw [if_neg hp, h2 hp]; exact ⟨_, rfl, rfl⟩

theorem obj_case {P : PkgCtx} {n : String} {s : Schema} {pkg : Option String} {name : String} (H : ∀ p l, pkg = some p → LinkTo P p name l → s = .leaf { ref := some l } → TypeSchema P (.ident n) s)
    (H' : TypeSchema P (.ident n) s → ∃ p l, pkg = some p ∧ LinkTo P p name l ∧ s = .leaf { ref := some l }) :
    (∃ p l, pkg = some p ∧ LinkTo P p name l ∧ s = .leaf { ref := some l }) ↔ TypeSchema P (.ident n) s :=
  ⟨fun ⟨p, l, h1, h2, h3⟩ => H p l h1 h2 h3, H'⟩

theorem localNamed_iff {P : PkgCtx} {n : String} {st : GState} {s : Schema} :
    (∃ st', localNamedToSchema P n st = .ok (s, st') ∧ st'.errs = st.errs) ↔ TypeSchema P (.ident n) s := by
  rw [localNamed_eq]
  cases hn : P.ident n with
  | invalid =>
    constructor
    · rintro ⟨st', h, he⟩
      simp only [Except.ok.injEq, Prod.mk.injEq] at h
      rw [← h.2] at he; simp [GState.err] at he
    · intro h; cases h <;> simp_all
  | other =>
    constructor
    · rintro ⟨st', h, he⟩; cases h
    · intro h; cases h <;> simp_all
  | basic b =>
    simp only
    rw [basicSchema_iff]
    constructor
    · rintro ⟨t, f, hb, rfl⟩
      by_cases hi : b.name = n
      · rw [if_neg (by simpa using hi)]; exact .builtin hn hi hb
      · rw [if_pos hi]; exact .aliasBuiltin (p := none) (a := "") (.inr hn) hi hb
    · intro h
      cases h with
      | builtin h1 h2 h3 =>
        rw [hn] at h1; cases h1
        exact ⟨_, _, h3, by rw [if_neg (by simpa using h2)]⟩
      | aliasBuiltin h1 h2 h3 =>
        rw [hn] at h1
        rcases h1 with h1 | h1
        · cases h1
        · cases h1; exact ⟨_, _, h3, by rw [if_pos h2]⟩
      | _ => simp_all
  | named pkg name u =>
    simp only
    rw [objToSchema_iff]
    refine obj_case (fun p l h1 h2 h3 => by subst h1 h3; exact .named hn h2) ?_
    intro h
    cases h with
    | named h1 h2 => rw [hn] at h1; cases h1; exact ⟨_, _, rfl, h2, rfl⟩
    | _ => simp_all
  | alias p a r =>
    cases r with
    | basic b =>
      simp only
      rw [basicSchema_iff]
      constructor
      · rintro ⟨t, f, hb, rfl⟩
        by_cases hi : b.name = n
        · rw [if_neg (by simpa using hi)]; exact .aliasSame hn hi hb
        · rw [if_pos hi]; exact .aliasBuiltin (.inl hn) hi hb
      · intro h
        cases h with
        | aliasSame h1 h2 h3 =>
          rw [hn] at h1; cases h1
          exact ⟨_, _, h3, by rw [if_neg (by simpa using h2)]⟩
        | aliasBuiltin h1 h2 h3 =>
          rw [hn] at h1
          rcases h1 with h1 | h1
          · cases h1; exact ⟨_, _, h3, by rw [if_pos h2]⟩
          · cases h1
        | _ => simp_all
    | named pkg name u =>
      simp only
      rw [objToSchema_iff]
      refine obj_case (fun p l h1 h2 h3 => by subst h1 h3; exact .aliasNamed hn h2) ?_
      intro h
      cases h with
      | aliasNamed h1 h2 => rw [hn] at h1; cases h1; exact ⟨_, _, rfl, h2, rfl⟩
      | _ => simp_all
    | alias pkg name u =>
      simp only
      rw [objToSchema_iff]
      refine obj_case (fun p l h1 h2 h3 => by subst h1 h3; exact .aliasAlias hn h2) ?_
      intro h
      cases h with
      | aliasAlias h1 h2 => rw [hn] at h1; cases h1; exact ⟨_, _, rfl, h2, rfl⟩
      | _ => simp_all
    | invalid =>
      constructor
      · rintro ⟨st', h, he⟩
        simp only [Except.ok.injEq, Prod.mk.injEq] at h
        rw [← h.2] at he; simp [GState.err, GState.request] at he
      · intro h; cases h <;> simp_all
    | other =>
      constructor
      · rintro ⟨st', h, he⟩; cases h
      · intro h; cases h <;> simp_all

theorem namedTo_iff {P : PkgCtx} {x n : String} {st : GState} {s : Schema} :
    (∃ st', namedToSchema P x n st = .ok (s, st') ∧ st'.errs = st.errs) ↔ TypeSchema P (.selector x n) s := by
  unfold namedToSchema
  simp only
  cases hn : P.sel x n with
  | invalid =>
    constructor
    · rintro ⟨st', h, he⟩
      simp only [Except.ok.injEq, Prod.mk.injEq] at h
      rw [← h.2] at he; simp [GState.err] at he
    · intro h; cases h; simp_all
  | other => exact ⟨fun ⟨_, h, _⟩ => (by cases h), fun h => (by cases h; simp_all)⟩
  | basic b => exact ⟨fun ⟨_, h, _⟩ => (by cases h), fun h => (by cases h; simp_all)⟩
  | named pkg name u =>
    cases pkg with
    | none => exact ⟨fun ⟨_, h, _⟩ => (by cases h), fun h => (by cases h; simp_all)⟩
    | some p =>
      constructor
      · rintro ⟨st', h, -⟩
        simp only [Except.ok.injEq, Prod.mk.injEq] at h
        rw [← h.1]; exact .selector (.inl hn)
      · intro h
        cases h with
        | selector h =>
          rw [hn] at h
          rcases h with h | h
          · cases h; exact ⟨_, rfl, rfl⟩
          · cases h
  | alias pkg name u =>
    cases pkg with
    | none => exact ⟨fun ⟨_, h, _⟩ => (by cases h), fun h => (by cases h; simp_all)⟩
    | some p =>
      constructor
      · rintro ⟨st', h, -⟩
        simp only [Except.ok.injEq, Prod.mk.injEq] at h
        rw [← h.1]; exact .selector (.inr hn)
      · intro h
        cases h with
        | selector h =>
          rw [hn] at h
          rcases h with h | h
          · cases h
          · cases h; exact ⟨_, rfl, rfl⟩

theorem typeSchema_value {P : PkgCtx} {v : TExpr} {s : Schema} (h : TypeSchema P v s) : mapValueOk v = true := by cases h <;> rfl

/-- C31.  Types are translated as specified, at any depth of nesting: what is generated without an error is the schema of the type, and every type that has a schema gets it. -/
theorem C31_types (P : PkgCtx) (e : TExpr) (st : GState) (s : Schema) : (∃ st', innerType P e st = .ok (s, st') ∧ st'.errs = st.errs) ↔ TypeSchema P e s := by
  induction e generalizing st s with
  | ident n => exact localNamed_iff
  | selector x n => exact namedTo_iff
  | array len e ih =>
    rw [innerType]
    by_cases hb : typeOf P e = .basic byteType ∧ len = false
    · rw [if_pos hb]
      constructor
      · rintro ⟨st', h, -⟩
        simp only [Except.ok.injEq, Prod.mk.injEq] at h
        rw [← h.1, hb.2]; exact .bytes hb.1
      · intro h
        cases h with
        | bytes h => exact ⟨st, rfl, rfl⟩
        | array h1 h2 => exact absurd hb.1 (h1 hb.2)
    · rw [if_neg hb]
      constructor
      · rintro ⟨st', h, he⟩
        split at h
        · cases h
        · rename_i c st1 heq
          simp only [Except.ok.injEq, Prod.mk.injEq] at h
          obtain ⟨rfl, rfl⟩ := h
          exact .array (fun hl ht => hb ⟨ht, hl⟩) ((ih st c).1 ⟨st1, heq, he⟩)
      · intro h
        cases h with
        | bytes h => exact absurd ⟨h, rfl⟩ hb
        | array h1 h2 =>
          obtain ⟨st', h, he⟩ := (ih st _).2 h2
          rw [h]; exact ⟨st', rfl, he⟩
  | map k v _ ih =>
    rw [innerType]
    by_cases hk : keyOk (typeOf P k) = false
    · rw [if_pos hk]
      constructor
      · rintro ⟨st', h, he⟩
        simp only [Except.ok.injEq, Prod.mk.injEq] at h
        rw [← h.2] at he; simp [GState.err] at he
      · intro h
        cases h with
        | map h1 h2 => rw [keyOk_iff.2 h1] at hk; cases hk
    · rw [if_neg hk]
      rw [Bool.not_eq_false] at hk
      by_cases hv : mapValueOk v = false
      · rw [if_pos hv]
        constructor
        · rintro ⟨st', h, he⟩
          simp only [Except.ok.injEq, Prod.mk.injEq] at h
          rw [← h.2] at he; simp [GState.err] at he
        · intro h
          cases h with
          | map h1 h2 => rw [typeSchema_value h2] at hv; cases hv
      · rw [if_neg hv]
        constructor
        · rintro ⟨st', h, he⟩
          split at h
          · cases h
          · rename_i c st1 heq
            simp only [Except.ok.injEq, Prod.mk.injEq] at h
            obtain ⟨rfl, rfl⟩ := h
            exact .map (keyOk_iff.1 hk) ((ih st c).1 ⟨st1, heq, he⟩)
        · intro h
          cases h with
          | map h1 h2 =>
            obtain ⟨st', h, he⟩ := (ih st _).2 h2
            rw [h]; exact ⟨st', rfl, he⟩
  | star e ih =>
    rw [innerType, ih]
    exact ⟨.pointer, fun h => by cases h; assumption⟩
  | struct => exact ⟨fun ⟨_, h, _⟩ => (by cases h), nofun⟩
  | other =>
    constructor
    · rintro ⟨st', h, he⟩
      simp only [innerType, Except.ok.injEq, Prod.mk.injEq] at h
      rw [← h.2] at he; simp [GState.err] at he
    · nofun

/-- C31.  Floating-point numbers are reported unless dangerous types are allowed. -/
theorem C31_floats_rejected (P : PkgCtx) (n : String) (b : Basic) (hn : P.ident n = .basic b) (hk : jsonType b.kind = some "number") (ha : P.allowDangerousTypes = false) (st : GState) :
    ∃ s st', innerType P (.ident n) st = .ok (s, st') ∧ st'.errs = st.errs + 1 := by
  have hb : builtinToType b P.allowDangerousTypes = none := builtin_none.2 fun t f h => by
    have h1 := h.1
    rw [hk] at h1
    cases h1
    rw [h.2.2 rfl] at ha; cases ha
  rw [innerType, localNamed_eq, hn]
  simp only [basicSchema, hb, Option.isNone_none, if_true]
  split
  · exact ⟨_, _, rfl, rfl⟩
  · exact ⟨_, _, rfl, rfl⟩

/-- C31.  Types that cannot be encoded in JSON are reported. -/
theorem C31_unencodable_rejected (P : PkgCtx) (n : String) (b : Basic) (hn : P.ident n = .basic b) (hk : jsonType b.kind = none) (st : GState) :
    ∃ s st', innerType P (.ident n) st = .ok (s, st') ∧ st'.errs = st.errs + 1 := by
  have hb : builtinToType b P.allowDangerousTypes = none := builtin_none.2 fun t f h => by
    have h1 := h.1
    rw [hk] at h1; cases h1
  rw [innerType, localNamed_eq, hn]
  simp only [basicSchema, hb, Option.isNone_none, if_true]
  split
  · exact ⟨_, _, rfl, rfl⟩
  · exact ⟨_, _, rfl, rfl⟩

/-- C31.  Maps whose keys are not strings are reported, and get no schema. -/
theorem C31_map_keys (P : PkgCtx) (k v : TExpr) (hk : ¬ StringLike (typeOf P k)) (st : GState) :
    ∃ st', innerType P (.map k v) st = .ok (.empty, st') ∧ st'.errs = st.errs + 1 := by
  have : keyOk (typeOf P k) = false := by
    cases h : keyOk (typeOf P k) with
    | false => rfl
    | true => exact absurd (keyOk_iff.1 h) hk
  rw [innerType, if_pos this]
  exact ⟨_, rfl, rfl⟩

end Verif.Crd

import Verif.Crd.AllOfTheorems
import Verif.Crd.EncSpec
import Verif.Crd.FlatCutTheorems
import Verif.Crd.GenMore
import Verif.Crd.MarksOrder

/-!
# C56: every JSON value of a Go type is accepted by its schema
-/
namespace Verif.Crd
open Spec

theorem applyMarkers_none {marshal : AnyVal → Option Raw} {σ : Sched} {set : MarkerSet} (h : NoMarks set) (s : Schema) : applyMarkers marshal σ set s = (s, 0) := by
  have hc : collectMarks σ 0 set = [] := by
    rw [List.eq_nil_iff_forall_not_mem]
    intro a ha
    obtain ⟨e, he, ha⟩ := mem_collect.1 ha
    unfold namedMarks at ha
    obtain ⟨x, hx, hm⟩ := List.mem_filterMap.1 ha
    have := h e.1 e.2 he x.1 (List.fst_mem_of_mem_zipIdx hx)
    rw [this] at hm; cases hm
  unfold applyMarkers
  rw [hc]
  rfl

theorem noMarks_apply {marshal : AnyVal → Option Raw} {σ : Nat → Sched} {set : MarkerSet} (h : NoMarks set) (s : Schema) (st : GState) :
    (st.apply marshal σ set s).1 = s ∧ (st.apply marshal σ set s).2.errs = st.errs := by
  unfold GState.apply
  rw [applyMarkers_none h]
  exact ⟨rfl, rfl⟩

theorem describe_describe (s : Schema) (a b : Bytes) : (s.describe a).describe b = s.describe b := by cases s; rfl

theorem typeSchema_describe {P : PkgCtx} {e : TExpr} {s : Schema} (h : TypeSchema P e s) : s.describe [] = s := by
  induction h with
  | pointer _ ih => exact ih
  | _ => rfl

theorem field_clean {marshal : AnyVal → Option Raw} {σ : Nat → Sched} {P : PkgCtx} {st st' : GState} {f : Field} {c : Schema} (h : FieldRun marshal σ P st st' f c) (he : st'.errs = st.errs)
    (hm : NoMarks f.markers) : c = Schema.empty.describe f.doc ∨ ∃ raw, TypeSchema P f.type raw ∧ c = raw.describe f.doc := by
  obtain ⟨sta, stb, h, h1, h2⟩ := h
  unfold fieldSchema at h
  simp only at h
  by_cases hs : f.markers.has "kubebuilder:validation:Schemaless" = true
  · rw [if_pos hs] at h
    simp only [Except.ok.injEq] at h
    have := noMarks_apply (marshal := marshal) (σ := σ) hm (Schema.empty.describe f.doc) sta
    rw [h] at this
    exact .inl this.1
  · rw [if_neg hs] at h
    split at h
    · cases h
    · rename_i raw st1 heq
      simp only [Except.ok.injEq] at h
      have := noMarks_apply (marshal := marshal) (σ := σ) hm (raw.describe f.doc) st1
      rw [h] at this
      have hle := (inner_le heq).1
      exact .inr ⟨raw, (C31_types P f.type sta raw).1 ⟨st1, heq, by have := this.2; simp only at this; omega⟩, this.1⟩

theorem decl_le {marshal : AnyVal → Option Raw} {σ : Nat → Sched} {P : PkgCtx} {d : Decl} : ∀ {e : TExpr} {top : Bool} {st st' : GState} {s : Schema}, e ≠ .struct →
    declType marshal σ P d top e st = .ok (s, st') → st.errs ≤ st'.errs := by
  have fin : ∀ {r : GRes} {st st' : GState} {s : Schema}, (∀ raw st1, r = .ok (raw, st1) → st.errs ≤ st1.errs) → GRes.finish marshal σ d r = .ok (s, st') → st.errs ≤ st'.errs := by
    intro r st st' s h hr
    cases r with
    | error p => cases hr
    | ok x =>
      obtain ⟨raw, st1⟩ := x
      simp only [GRes.finish, Except.ok.injEq] at hr
      have h2 := (apply_le (marshal := marshal) (σ := σ) (set := d.markers) (s := raw.describe d.doc) (st := st1)).1
      rw [hr] at h2
      exact Nat.le_trans (h raw st1 rfl) h2
  intro e
  induction e with
  | other => intro top st st' s _ h; cases top <;> (simp only [declType, Except.ok.injEq, Prod.mk.injEq] at h; rw [← h.2]; exact Nat.le_succ _)
  | star e ih =>
    intro top st st' s _ h
    have hd : declType marshal σ P d top (.star e) st = GRes.finish marshal σ d (declType marshal σ P d false e st) := by cases top <;> rfl
    rw [hd] at h
    refine fin (fun raw st1 h1 => ?_) h
    by_cases he : e = .struct
    · subst he
      simp only [declType] at h1
      have h2 := (apply_le (marshal := marshal) (σ := σ) (set := d.markers) (s := (Schema.leaf { type := "object" }).describe d.doc) (st := st.err)).1
      simp only [GRes.finish, Except.ok.injEq] at h1
      rw [h1] at h2
      simp only [GState.err] at h2 ⊢
      omega
    · exact ih he h1
  | struct => intro top st st' s h; exact absurd rfl h
  | ident n => intro top st st' s _ h; cases top <;> (rw [declType] at h; exact fin (fun raw st1 h1 => (inner_le h1).1) h)
  | selector x n => intro top st st' s _ h; cases top <;> (rw [declType] at h; exact fin (fun raw st1 h1 => (inner_le h1).1) h)
  | array l x _ => intro top st st' s _ h; cases top <;> (rw [declType] at h; exact fin (fun raw st1 h1 => (inner_le h1).1) h)
  | map k v _ _ => intro top st st' s _ h; cases top <;> (rw [declType] at h; exact fin (fun raw st1 h1 => (inner_le h1).1) h)

theorem decl_clean {marshal : AnyVal → Option Raw} {σ : Nat → Sched} {P : PkgCtx} {d : Decl} (hm : NoMarks d.markers) : ∀ {e : TExpr} {top : Bool} {st st' : GState} {s : Schema}, e ≠ .struct →
    declType marshal σ P d top e st = .ok (s, st') → st'.errs = st.errs → ∃ raw, TypeSchema P e raw ∧ s = raw.describe d.doc := by
  have fin : ∀ {r : GRes} {st' : GState} {s : Schema}, GRes.finish marshal σ d r = .ok (s, st') → ∃ raw st1, r = .ok (raw, st1) ∧ s = raw.describe d.doc ∧ st'.errs = st1.errs := by
    intro r st' s hr
    cases r with
    | error p => cases hr
    | ok x =>
      obtain ⟨raw, st1⟩ := x
      simp only [GRes.finish, Except.ok.injEq] at hr
      have := noMarks_apply (marshal := marshal) (σ := σ) hm (raw.describe d.doc) st1
      rw [hr] at this
      exact ⟨raw, st1, rfl, this.1, this.2⟩
  have plain : ∀ {e : TExpr} {st st' : GState} {s : Schema}, GRes.finish marshal σ d (innerType P e st) = .ok (s, st') → st'.errs = st.errs → ∃ raw, TypeSchema P e raw ∧ s = raw.describe d.doc := by
    intro e st st' s h he
    obtain ⟨raw, st1, h1, h2, h3⟩ := fin h
    exact ⟨raw, (C31_types P e st raw).1 ⟨st1, h1, by omega⟩, h2⟩
  intro e
  induction e with
  | other => intro top st st' s _ h he; cases top <;> (simp only [declType, Except.ok.injEq, Prod.mk.injEq] at h; rw [← h.2] at he; simp [GState.err] at he)
  | star e ih =>
    intro top st st' s _ h he
    have hd : declType marshal σ P d top (.star e) st = GRes.finish marshal σ d (declType marshal σ P d false e st) := by cases top <;> rfl
    rw [hd] at h
    obtain ⟨raw, st1, h1, h2, h3⟩ := fin h
    by_cases hs : e = .struct
    · subst hs
      simp only [declType, GRes.finish, Except.ok.injEq] at h1
      have := noMarks_apply (marshal := marshal) (σ := σ) hm ((Schema.leaf { type := "object" }).describe d.doc) st.err
      rw [h1] at this
      have := this.2
      simp only [GState.err] at this
      omega
    · obtain ⟨r, hr1, hr2⟩ := ih hs h1 (by omega)
      exact ⟨r, .pointer hr1, by rw [h2, hr2, describe_describe]⟩
  | struct => intro top st st' s h; exact absurd rfl h
  | ident n => intro top st st' s _ h he; cases top <;> (rw [declType] at h; exact plain h he)
  | selector x n => intro top st st' s _ h he; cases top <;> (rw [declType] at h; exact plain h he)
  | array l x _ => intro top st st' s _ h he; cases top <;> (rw [declType] at h; exact plain h he)
  | map k v _ _ => intro top st st' s _ h he; cases top <;> (rw [declType] at h; exact plain h he)

/-! ## The meaning of the generated schemas -/

theorem plain_ok {M : Meaning} {t f : String} {doc : Bytes} {r : Option String} {req : List String} {j : Json} (ht : HasType t j) (hf : f ≠ "" → M.format f j)
    (hr : ∀ m k, j = .obj m → k ∈ req → k ∈ m.map (·.1)) : BaseOk M { type := t, format := f, description := doc, ref := r, required := req } j := by
  constructor <;> try simp [MaxOk, MinOk]
  · exact .inl ht
  · exact hf
  · intro m k h1 h2
    simpa using hr m k h1 h2

theorem valid_leafBy {M : Meaning} {W : Schema → Json → Prop} {b : Base} {j : Json} (h : BaseOk M b j) : ValidBy M W (.leaf b) j := by
  constructor <;> simp [Schema.leaf, Schema.items, Schema.allOf, Schema.oneOf, Schema.anyOf, Schema.not, Schema.properties, Schema.additionalProperties, Schema.patternProperties,
    Schema.dependencies, Schema.additionalItems]
  exact h

theorem basic_ok {P : PkgCtx} {M : Meaning} (hM : Formats M) {k : Kind} {j : Json} (h : BasicVal k j) {t f : String} (hb : BuiltinSchema P k t f) (h32 : k ≠ .uint32) (h64 : k ≠ .uint64) :
    HasType t j ∧ (f ≠ "" → M.format f j) := by
  obtain ⟨h1, rfl, -⟩ := hb
  cases h with
  | bool b => cases h1; exact ⟨by simp [HasType], by simp [widthFormat]⟩
  | string s => cases h1; exact ⟨by simp [HasType], by simp [widthFormat]⟩
  | int z hk hlo hhi =>
    cases k <;> simp only [bounds] at hk <;> first | exact absurd rfl h32 | exact absurd rfl h64 | (cases hk; done) | skip
    all_goals
      simp only [Option.some.injEq, Prod.mk.injEq] at hk
      obtain ⟨rfl, rfl⟩ := hk
      cases h1
      refine ⟨by simp [HasType], ?_⟩
      simp only [widthFormat]
    all_goals first
      | exact fun h => absurd rfl h
      | exact fun _ => hM.int32 z (by simpa using hlo) (by simpa using hhi)
      | exact fun _ => hM.int64 z (by simpa using hlo) (by simpa using hhi)
  | float q hk => rcases hk with rfl | rfl <;> (cases h1; exact ⟨by simp [HasType], by simp [widthFormat]⟩)

/-- What is shown for the values of a declared type, and for those of the type that it is an alias of. -/
def AcceptsDecl (G : Prog) (env : Env) (V : String → Schema → Json → Prop) (p m : String) (j : Json) : Prop :=
  (∀ u, env.raw ⟨p, m⟩ = some u → V p u j) ∧
    ∀ d, G.decl p m = some d → (∀ j, ¬ G.foreign p m j) → d.textMarshaler = false → (∀ q m', Points (typeOf (G.ctx p) d.type) q m' → ∀ u, env.raw ⟨q, m'⟩ = some u → V q u j) ∧
      ∀ b, typeOf (G.ctx p) d.type = .basic b → BasicVal b.kind j

/-- What is shown for the values of a type. -/
def Accepts (G : Prog) (env : Env) (V : String → Schema → Json → Prop) : Ty → Json → Prop
  | .expr pkg e, j => (PlainType (G.ctx pkg) e → ∀ s, TypeSchema (G.ctx pkg) e s → ∀ doc, V pkg (s.describe doc) j) ∧
      (∀ q m, Points (typeOf (G.ctx pkg) e) q m → ∀ u, env.raw ⟨q, m⟩ = some u → V q u j) ∧ ∀ b, typeOf (G.ctx pkg) e = .basic b → BasicVal b.kind j
  | .go (.basic b), j => BasicVal b.kind j
  | .go (.named (some p) m _), j => AcceptsDecl G env V p m j
  | .go (.alias (some p) m _), j => AcceptsDecl G env V p m j
  | .go _, _ => False
  | .decl p m, j => AcceptsDecl G env V p m j

theorem find_local {env : Env} {pkg m : String} (hm : '~' ∉ m.toList) : env.find (refLink "" m) pkg = .ok ⟨pkg, m⟩ := by
  unfold Env.find refLink
  rw [String.toList_ofList, refParts_link hm (by simp)]
  simp

theorem find_far {env : Env} {pkg m : String} {path : List Char} (hm : '~' ∉ m.toList) (hp : '~' ∉ path) (hne : path ≠ []) {id : TypeIdent}
    (h : env.find (refLink (String.ofList path) m) pkg = .ok id) : id.name = m ∧ env.imports pkg (String.ofList path) = some id.pkg := by
  unfold Env.find refLink at h
  rw [String.toList_ofList, String.toList_ofList, refParts_link hm hp] at h
  cases path with
  | nil => exact absurd rfl hne
  | cons c l =>
    simp only at h
    split at h
    · cases h
    · rename_i q heq
      cases h
      exact ⟨by simp, heq⟩

/-- Programs without aliases. -/
theorem linked_plain {G : Prog} {env : Env} (h0 : ∀ pkg, (G.ctx pkg).self = pkg)
    (h1 : ∀ pkg n p m u, (G.ctx pkg).ident n = .named (some p) m u → '~' ∉ m.toList ∧
      (p ≠ pkg → '~' ∉ Loader.nonVendorPath p.toList ∧ Loader.nonVendorPath p.toList ≠ [] ∧ ∀ q, env.imports pkg (String.ofList (Loader.nonVendorPath p.toList)) = some q → q = p))
    (h2 : ∀ pkg x n p m u, (G.ctx pkg).sel x n = .named (some p) m u → '~' ∉ m.toList ∧
      '~' ∉ Loader.nonVendorPath p.toList ∧ Loader.nonVendorPath p.toList ≠ [] ∧ ∀ q, env.imports pkg (String.ofList (Loader.nonVendorPath p.toList)) = some q → q = p)
    (h3 : ∀ pkg n p a r, (G.ctx pkg).ident n ≠ .alias p a r) (h4 : ∀ pkg x n p a r, (G.ctx pkg).sel x n ≠ .alias p a r) : Linked G env := by
  refine ⟨h0, ?_, ?_, fun pkg n p a r h => absurd h (h3 pkg n _ a r)⟩
  · intro pkg n p m h
    generalize e : (G.ctx pkg).ident n = t at h
    cases t with
    | alias q a r => exact absurd e (h3 pkg n q a r)
    | named q a u =>
      simp only [aim] at h
      cases h; exact h1 pkg n p m u e
    | _ => simp only [aim] at h; cases h
  · intro pkg x n p m h
    generalize e : (G.ctx pkg).sel x n = t at h
    cases h with
    | named => exact h2 pkg x n p m _ e
    | alias => exact absurd e (h4 pkg x n _ _ _)

theorem ident_link {G : Prog} {env : Env} (hL : Linked G env) {pkg n p m l : String} (h1 : Points (aim ((G.ctx pkg).ident n)) p m) (h2 : LinkTo (G.ctx pkg) p m l) (id : TypeIdent)
    (hid : env.find l pkg = .ok id) : id = ⟨p, m⟩ := by
  obtain ⟨hm, hfar⟩ := hL.ident pkg n p m h1
  by_cases hself : p = pkg
  · rw [h2.1 (by rw [hL.self]; exact hself), find_local hm] at hid
    cases hid
    rw [hself]
  · obtain ⟨f1, f2, f3⟩ := hfar hself
    rw [h2.2 (by rw [hL.self]; exact hself)] at hid
    obtain ⟨e1, e2⟩ := find_far hm f1 f2 hid
    have := f3 _ e2
    cases id; simp_all

theorem sel_link {G : Prog} {env : Env} (hL : Linked G env) {pkg x n p m : String} (h1 : Points ((G.ctx pkg).sel x n) p m) (id : TypeIdent)
    (hid : env.find (refLink (String.ofList (Loader.nonVendorPath p.toList)) m) pkg = .ok id) : id = ⟨p, m⟩ := by
  obtain ⟨hm, f1, f2, f3⟩ := hL.sel pkg x n p m h1
  obtain ⟨e1, e2⟩ := find_far hm f1 f2 hid
  have := f3 _ e2
  cases id; simp_all

theorem link_ok {M : Meaning} {env : Env} {V : String → Schema → Json → Prop} (hV : RefMeaning M env V) {pkg l p m : String} {doc : Bytes} {j : Json}
    (hl : ∀ id, env.find l pkg = .ok id → id = ⟨p, m⟩) (h : ∀ u, env.raw ⟨p, m⟩ = some u → V p u j) : V pkg (.leaf { ref := some l, description := doc }) j := by
  rw [hV]
  refine ⟨valid_leafBy (plain_ok (hasType_nil j) (fun h => absurd rfl h) (by simp)), ?_⟩
  intro r id u hr hlead
  cases hr
  obtain rfl := hl id hlead.1
  exact h u hlead.2

theorem accepts {M : Meaning} (hM : Formats M) {marshal : AnyVal → Option Raw} {G : Prog} {env : Env} (hG : Generated marshal G env) (hL : Linked G env)
    (hN : G.nils = false) (hP : ∀ p n d, G.decl p n = some d → PlainDecl (G.ctx p) d) {V : String → Schema → Json → Prop} (hV : RefMeaning M env V)
    (hF : ∀ p n u j, G.foreign p n j → env.raw ⟨p, n⟩ = some u → V p u j) {τ : Ty} {j : Json} (h : Enc G τ j) : Accepts G env V τ j := by
  have hempty : ∀ pkg doc j, V pkg (Schema.empty.describe doc) j := by
    intro pkg doc j
    rw [hV]
    exact ⟨valid_leafBy (plain_ok (hasType_nil j) (fun h => absurd rfl h) (fun _ _ _ h => (by cases h))), nofun⟩
  induction h with
  | @ident pkg n j h ih =>
    refine ⟨?_, ?_, ?_⟩
    · intro hp s hs doc
      cases hs with
      | @builtin _ b t f h1 h2 h3 =>
        rw [h1] at ih
        cases hp with
        | ident hp =>
          obtain ⟨k1, k2⟩ := basic_ok hM ih h3 (hp b h1).2.1 (hp b h1).2.2
          rw [hV]
          exact ⟨valid_leafBy (plain_ok k1 k2 (fun _ _ _ h => (by cases h))), nofun⟩
      | @named _ p m u l h1 h2 =>
        rw [h1] at ih
        exact link_ok hV (ident_link hL (by rw [h1]; exact .named) h2) ih.1
      | @aliasNamed _ p a q m u l h1 h2 =>
        rw [h1] at ih
        cases p with
        | none => exact ih.elim
        | some p =>
          obtain ⟨hf, d, hd, ht, -, he, -⟩ := hL.alias _ _ _ _ _ h1
          exact link_ok hV (ident_link hL (by rw [h1]; exact .named) h2) ((ih.2 d hd hf ht).1 q m (by rw [he]; exact .named))
      | @aliasAlias _ p a q m u l h1 h2 =>
        rw [h1] at ih
        cases p with
        | none => exact ih.elim
        | some p =>
          obtain ⟨hf, d, hd, ht, -, he, -⟩ := hL.alias _ _ _ _ _ h1
          exact link_ok hV (ident_link hL (by rw [h1]; exact .alias) h2) ((ih.2 d hd hf ht).1 q m (by rw [he]; exact .alias))
      | @aliasBuiltin _ p a b t f h1 h2 h3 =>
        rcases h1 with h1 | h1
        · rw [h1] at ih
          cases p with
          | none => exact ih.elim
          | some p =>
            obtain ⟨hf, d, hd, ht, hj, he, rfl, rfl, hm, -, x, hx⟩ := hL.alias _ _ _ _ _ h1
            have hb := (ih.2 d hd hf ht).2 b he
            rw [hx] at he
            have hpt := (hP _ _ d hd).type (by rw [hx]; nofun)
            rw [hx] at hpt
            cases hpt with
            | ident hpt =>
              obtain ⟨k1, k2⟩ := basic_ok hM hb h3 (hpt b he).2.1 (hpt b he).2.2
              rw [hV]
              refine ⟨valid_leafBy (plain_ok k1 k2 (fun _ _ _ h => (by cases h))), ?_⟩
              intro r id u hr hlead
              cases hr
              obtain ⟨l1, l2⟩ := hlead
              rw [find_local hm] at l1
              cases l1
              exact ih.1 u l2
        · cases hp with
          | ident hp => exact absurd (hp b h1).1 h2
      | @aliasSame _ p a b t f h1 h2 =>
        rw [h1] at ih
        cases p with
        | none => exact ih.elim
        | some p =>
          obtain ⟨-, d, -, -, -, -, -, -, -, hne, -⟩ := hL.alias _ _ _ _ _ h1
          exact absurd h2 hne
    · intro q m hq
      simp only [typeOf] at hq
      generalize (G.ctx pkg).ident n = t at ih hq
      cases hq with
      | named => exact ih.1
      | alias => exact ih.1
    · intro b hb
      simp only [typeOf] at hb
      rw [hb] at ih
      exact ih
  | @selector pkg x n j h ih =>
    refine ⟨?_, ?_, ?_⟩
    · intro hp s hs doc
      cases hs with
      | @selector _ _ p m u h1 =>
        rcases h1 with h1 | h1
        · rw [h1] at ih
          exact link_ok hV (sel_link hL (by rw [h1]; exact .named)) ih.1
        · rw [h1] at ih
          exact link_ok hV (sel_link hL (by rw [h1]; exact .alias)) ih.1
    · intro q m hq
      simp only [typeOf] at hq
      generalize (G.ctx pkg).sel x n = t at ih hq
      cases hq with
      | named => exact ih.1
      | alias => exact ih.1
    · intro b hb
      simp only [typeOf] at hb
      rw [hb] at ih
      exact ih
  | basic h => exact h
  | named h ih => exact ih
  | alias h ih => exact ih
  | @bytes pkg e s hb =>
    refine ⟨?_, nofun, nofun⟩
    intro hp sch hs doc
    have hstr : V pkg ((Schema.leaf { type := "string", format := "byte" }).describe doc) (.str s) := by
      rw [hV]
      exact ⟨valid_leafBy (plain_ok (by simp [HasType, Schema.leaf, Schema.base]) (fun _ => hM.byte s) (fun _ _ _ h => (by cases h))), nofun⟩
    cases hs with
    | bytes => exact hstr
    | array h1 h2 =>
      cases hp with
      | array h3 h4 => exact absurd (h3 rfl hb) (h1 rfl)
  | array l hb hl ih =>
    refine ⟨?_, nofun, nofun⟩
    intro hp sch hs doc
    cases hp with
    | array h3 h4 =>
      cases hs with
      | bytes h => exact absurd (by rw [h]; rfl) (hb rfl)
      | array h1 h2 =>
        rw [hV]
        refine ⟨?_, nofun⟩
        constructor <;> try (simp [Schema.describe, Schema.withBase, Schema.items, Schema.allOf, Schema.oneOf, Schema.anyOf, Schema.not, Schema.properties, Schema.additionalProperties,
          Schema.patternProperties, Schema.dependencies, Schema.additionalItems, Schema.base])
        · exact plain_ok (by simp [HasType]) (by simp) (by simp)
        · rintro i xs c x rfl rfl hc hx
          cases hc
          have := (ih x hx).1 h4 _ h2 []
          rwa [typeSchema_describe h2] at this
        · rintro i xs n c x rfl rfl hc
          cases hc
  | map m hm ih =>
    refine ⟨?_, nofun, nofun⟩
    intro hp sch hs doc
    cases hp with
    | map h4 =>
      cases hs with
      | map h1 h2 =>
        rw [hV]
        refine ⟨?_, nofun⟩
        constructor <;> try (simp [Schema.describe, Schema.withBase, Schema.items, Schema.allOf, Schema.oneOf, Schema.anyOf, Schema.not, Schema.properties, Schema.additionalProperties,
          Schema.patternProperties, Schema.dependencies, Schema.additionalItems, Schema.base])
        · exact plain_ok (by simp [HasType]) (by simp) (by simp)
        · rintro m' k v rfl hk
          have := (ih (k, v) hk).1 h4 _ h2 []
          rwa [typeSchema_describe h2] at this
  | pointer h ih =>
    refine ⟨?_, nofun, nofun⟩
    intro hp sch hs doc
    cases hs with
    | pointer hs =>
      cases hp with
      | pointer hp => exact ih.1 hp _ hs doc
  | nilSlice h => rw [hN] at h; cases h
  | nilMap h => rw [hN] at h; cases h
  | nilPointer h => rw [hN] at h; cases h
  | @type p n d j hd ht hj hs h ih =>
    refine ⟨?_, fun d' hd' _ _ => by rw [hd] at hd'; cases hd'; exact ih.2⟩
    intro u hu
    obtain ⟨σ, st, st', h1, h2⟩ := hG ⟨p, n⟩ u d hu hd
    unfold infoToSchema at h1
    rw [hj, ht] at h1
    simp only [Bool.false_eq_true, if_false] at h1
    obtain ⟨raw, r1, rfl⟩ := decl_clean (hP p n d hd).marks hs h1 h2
    exact ih.1 ((hP p n d hd).type hs) raw r1 d.doc
  | @text p n d s hd ht hj =>
    refine ⟨?_, fun d' hd' _ ht' => by rw [hd] at hd'; cases hd'; rw [ht] at ht'; cases ht'⟩
    intro u hu
    obtain ⟨σ, st, st', h1, h2⟩ := hG ⟨p, n⟩ u d hu hd
    unfold infoToSchema at h1
    rw [hj, ht] at h1
    simp only [Bool.false_eq_true, if_false, if_true, Except.ok.injEq, Prod.mk.injEq] at h1
    have := noMarks_apply (marshal := marshal) (σ := σ) (hP p n d hd).marks (Schema.leaf { type := "string" }) st
    rw [← h1.1, this.1, hV]
    exact ⟨valid_leafBy (plain_ok (by simp [HasType]) (by simp) (by simp)), nofun⟩
  | @struct p n d m hd ht hj hs hf hstr hreq hin ihf ihin =>
    refine ⟨?_, fun d' hd' _ _ => by rw [hd] at hd'; cases hd'; rw [hs]; exact ⟨nofun, nofun⟩⟩
    intro u hu
    obtain ⟨σ, st, st', h1, h2⟩ := hG ⟨p, n⟩ u d hu hd
    have hPd := hP p n d hd
    obtain ⟨req, props, all, st1, hsf, he⟩ := struct_result hs hj ht h1
    have hna := noMarks_apply (marshal := marshal) (σ := σ) hPd.marks
      (Schema.mk { type := "object", required := req, description := d.doc } none all [] [] none props none [] [] none []) st1
    rw [← he] at hna
    have hu' : u = Schema.mk { type := "object", required := req, description := d.doc } none all [] [] none props none [] [] none [] := hna.1
    have hspec := struct_spec hs hj ht h1
    have hr := C30_required hs hj ht h1
    rw [hV]
    refine ⟨?_, by rw [hu']; nofun⟩
    constructor
    · have : u.base = { type := "object", required := u.base.required, description := d.doc } := by rw [hu']; rfl
      rw [this]
      refine plain_ok (by simp [HasType]) (by simp) ?_
      intro m' k hm' hk
      cases hm'
      obtain ⟨f, hf', inl, om, hfi, hmust⟩ := (hr k).1 hk
      obtain ⟨rfl, ho1, ho2⟩ := hPd.required f hf' k inl om hfi hmust
      exact hreq f hf' k om hfi ho1 ho2
    · rw [hu']; nofun
    · rw [hu']; nofun
    · intro c hc
      obtain ⟨f, hf', hrun⟩ := hspec.2.1.exists_left hc
      obtain ⟨hf1, hf2⟩ := List.mem_filter.1 hf'
      obtain ⟨k, om, hfi⟩ := isInline_iff.1 hf2
      rcases field_clean hrun h2 (hPd.fieldMarks f hf1) with rfl | ⟨raw, hraw, rfl⟩
      · exact hempty p _ _
      · exact (ihin f hf1 k om hfi).1 (hPd.fieldType f hf1) raw hraw f.doc
    · rw [hu']; intro h; exact absurd rfl h
    · rw [hu']; intro h; exact absurd rfl h
    · rw [hu']; nofun
    · intro k c v hk hv
      have hg : GoMap.get u.properties k = some c := (GoMap.get_eq_some hspec.2.2.1).2 hk
      obtain ⟨pre, f, post, e1, e2, e3, hrun⟩ := hspec.2.2.2.1 k c hg
      have hf1 : f ∈ d.fields := by rw [e1]; simp
      obtain ⟨om, hfi⟩ := propName_iff.1 e2
      rcases field_clean hrun h2 (hPd.fieldMarks f hf1) with rfl | ⟨raw, hraw, rfl⟩
      · exact hempty p _ _
      · exact (ihf f hf1 k om v hfi (hPd.noString f hf1) hv).1 (hPd.fieldType f hf1) raw hraw f.doc
    · rw [hu']; intro m' k v _ _ _ _; exact ⟨nofun, nofun⟩
    · rw [hu']; nofun
    · rw [hu']; nofun
    · rw [hu']; nofun
  | foreign h => exact ⟨fun u hu => hF _ _ u _ h hu, fun _ _ hno => absurd h (hno _)⟩

/-- C56 (partial).  Every JSON value that encoding/json writes for a value of a declared type is accepted by the generated schema of the type, for all programs, recursive ones included.  Missing:
validation markers, and the guards (no nil values, `PlainDecl` and `Linked`), without which it is false (`C56_violated_nil`, `C56_violated_uint8`, `C56_violated_string`,
`C56_violated_omitzero`). -/
theorem C56_sound_partial (M : Meaning) (hM : Formats M) (marshal : AnyVal → Option Raw) (G : Prog) (env : Env) (hG : Generated marshal G env) (hL : Linked G env)
    (hN : G.nils = false) (hP : ∀ p n d, G.decl p n = some d → PlainDecl (G.ctx p) d) (V : String → Schema → Json → Prop) (hV : RefMeaning M env V)
    (hF : ∀ p n u j, G.foreign p n j → env.raw ⟨p, n⟩ = some u → V p u j) (p n : String) (u : Schema) (hu : env.raw ⟨p, n⟩ = some u) (j : Json) (hj : Enc G (.decl p n) j) : V p u j :=
  (accepts hM hG hL hN hP hV hF hj).1 u hu

/-- C56 (partial).  The same for the flattened schema: all references have been resolved.  Types may be recursive. -/
theorem C56_flattened_partial (M : Meaning) (hM : Formats M) (marshal : AnyVal → Option Raw) (G : Prog) (env : Env) (hG : Generated marshal G env) (hL : Linked G env)
    (hN : G.nils = false) (hP : ∀ p n d, G.decl p n = some d → PlainDecl (G.ctx p) d) (hp : ∀ id s, env.raw id = some s → ∀ c, Sub s c → c.oneOf = [] ∧ c.not = none)
    (hF : ∀ V, RefMeaning M env V → ∀ p n u j, G.foreign p n j → env.raw ⟨p, n⟩ = some u → V p u j) (σ : Sched) (p n : String) (u : Schema) (hu : env.raw ⟨p, n⟩ = some u)
    (hg : Good env p u) (hk : AllKeys env p u) :
    ∃ t st, flattenType env σ ⟨p, n⟩ {} = .ok (some t, st) ∧ ∀ j, Enc G (.decl p n) j → Valid M t j := by
  obtain ⟨V, hV⟩ := C51_meaning_exists_recursive M env hp
  obtain ⟨ts, st, t, st', h1, h2, h3⟩ := C51_recursive_partial M env V hV σ [] nofun ⟨p, n⟩ u hu hg hk fun q c hre => by
    obtain ⟨id, s, hs, -, hc⟩ := reach_sub (id := ⟨p, n⟩) hu hre
    exact hp id s hs c hc
  cases h1
  exact ⟨t, st', h2, fun j hj => h3 j (C56_sound_partial M hM marshal G env hG hL hN hP V hV (hF V hV) p n u hu j hj)⟩

/-- C56 (partial).  The same for the schema as it is written into the CRD: references have been resolved and allOf has been merged.  Missing also: the cases in which merging does not preserve the
meaning of schemas (C28). -/
theorem C56_crd_partial (M : Meaning) (hM : Formats M) (marshal : AnyVal → Option Raw) (G : Prog) (env : Env) (hG : Generated marshal G env) (hL : Linked G env)
    (hN : G.nils = false) (hP : ∀ p n d, G.decl p n = some d → PlainDecl (G.ctx p) d) (hp : ∀ id s, env.raw id = some s → ∀ c, Sub s c → c.oneOf = [] ∧ c.not = none)
    (hF : ∀ V, RefMeaning M env V → ∀ p n u j, G.foreign p n j → env.raw ⟨p, n⟩ = some u → V p u j) (σ : Sched) (p n : String) (u : Schema) (hu : env.raw ⟨p, n⟩ = some u)
    (hg : Good env p u) (hk : AllKeys env p u) :
    ∃ t st, flattenType env σ ⟨p, n⟩ {} = .ok (some t, st) ∧ (Guard t → ∀ t', flattenEmbedded t = (t', []) → ∀ j, Enc G (.decl p n) j → Valid M t' j) := by
  obtain ⟨t, st, h1, h2⟩ := C56_flattened_partial M hM marshal G env hG hL hN hP hp hF σ p n u hu hg hk
  exact ⟨t, st, h1, fun hgd t' ht' j hj => (C28_flatten_preserves_partial M t t' hgd ht' j).2 (h2 j hj)⟩

end Verif.Crd

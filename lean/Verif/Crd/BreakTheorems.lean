import Verif.Crd.BreakLemmas

/-!
# C78: validation markers are enforced, and nothing else is
-/
namespace Verif.Crd
open Spec

/-! ## What breaks a marker is rejected -/

/-- A schema that differs from another one in plain keywords only, its own and those of the items. -/
structure Skel (s s' : Schema) : Prop where
  outline : Outline s s'
  items : s'.items = s.items ∨ ∃ c c' cs, s.items = some (.mk (some c) cs) ∧ s'.items = some (.mk (some c') cs) ∧ Outline c c' ∧ c'.items = c.items

theorem Skel.refl (s : Schema) : Skel s s := ⟨.refl s, .inl rfl⟩

theorem OverFacts.skel {M : Meaning} {marshal : AnyVal → Option Raw} {set : MarkerSet} {s s' : Schema} (h : OverFacts M marshal set s s') : Skel s s' := by
  refine ⟨h.frame, ?_⟩
  rcases h.items with ⟨-, e⟩ | ⟨c, c', cs, e1, e2, e3, e4, -⟩
  · exact .inl e
  · exact .inr ⟨c, c', cs, e1, e2, e3, e4⟩

/-- What is shown for values that break a marker of a declared type, or of the type that it is an alias of. -/
def RejectsDecl (G : Prog) (env : Env) (V : String → Schema → Json → Prop) (p m : String) (j : Json) : Prop :=
  (∀ u, env.raw ⟨p, m⟩ = some u → Closed env p u → ¬ V p u j) ∧
    ∀ d, G.decl p m = some d → NoMarks d.markers → ∀ q m', Points (typeOf (G.ctx p) d.type) q m' → ∀ u, env.raw ⟨q, m'⟩ = some u → Closed env q u → ¬ V q u j

/-- What is shown for values that break a marker. -/
def Rejects (G : Prog) (env : Env) (V : String → Schema → Json → Prop) : Ty → Json → Prop
  | .expr pkg e, j => (∀ s, TypeSchema (G.ctx pkg) e s → ∀ s', Skel s s' → Closed env pkg s' → ¬ V pkg s' j) ∧
      ∀ q m, Points (typeOf (G.ctx pkg) e) q m → ∀ u, env.raw ⟨q, m⟩ = some u → Closed env q u → ¬ V q u j
  | .go (.named (some p) m _), j => RejectsDecl G env V p m j
  | .go (.alias (some p) m _), j => RejectsDecl G env V p m j
  | .go _, _ => False
  | .decl p m, j => RejectsDecl G env V p m j

theorem noMarks_forbids {M : Meaning} {marshal : AnyVal → Option Raw} {set : MarkerSet} (h : NoMarks set) {j : Json} : ¬ SetForbids M marshal set j := by
  have hno : ∀ n m, ¬ Has set n m := by
    rintro n m ⟨vs, hv, hm⟩
    cases h n vs hv _ hm
  have hf : ∀ (own : Mark → Prop), (∀ m, ¬ own m) → ∀ x, ¬ Forbids M marshal own x := by
    intro own ho x hx
    cases hx with
    | mark m h => exact ho _ h
    | type t h => exact ho _ h
    | exclusiveMaximum v h => exact ho _ h
    | exclusiveMinimum v h => exact ho _ h
  rintro (h1 | ⟨l, x, -, -, h1⟩)
  · exact hf _ (fun m ⟨n, hn, _⟩ => hno n m hn) _ h1
  · exact hf _ (fun m ⟨n, hn, _⟩ => hno n m hn) _ h1

theorem closedReach {env : Env} {pkg q : String} {s t : Schema} (h : Closed env pkg s) (hr : Reach env pkg s q t) : Closed env q t :=
  fun q' t' r hre hrf => h q' t' r (Verif.Crd.Reach.trans hr hre) hrf

theorem link_rejects {M : Meaning} {env : Env} {V : String → Schema → Json → Prop} (hV : RefMeaning M env V) {pkg l p m : String} {s : Schema} {j : Json} (hs : s.base.ref = some l)
    (hc : Closed env pkg s) (hl : ∀ id, env.find l pkg = .ok id → id = ⟨p, m⟩) (h : ∀ u, env.raw ⟨p, m⟩ = some u → Closed env p u → ¬ V p u j) : ¬ V pkg s j := by
  intro hv
  obtain ⟨-, id, u, hlead⟩ := hc pkg s l .refl hs
  have hu := ((hV pkg s j).1 hv).2 l id u hs hlead
  have hcu := closedReach hc (.ref .refl hs hlead)
  obtain rfl := hl id hlead.1
  exact h u hlead.2 hcu hu

theorem all2_right {α β : Type} {R : α → β → Prop} {l : List α} {l' : List β} (h : All2 R l l') {a : α} (ha : a ∈ l) : ∃ b ∈ l', R a b := by
  induction h with
  | nil => cases ha
  | cons h1 _ ih =>
    rcases List.mem_cons.1 ha with rfl | ha
    · exact ⟨_, List.mem_cons_self .., h1⟩
    · obtain ⟨b, hb, hr⟩ := ih ha
      exact ⟨b, List.mem_cons_of_mem _ hb, hr⟩

theorem last_field {P : PkgCtx} {k : String} {l a b a' b' : List Field} {f f' : Field} {om : Bool} (h1 : l = a ++ f :: b) (h2 : FieldIn P f k false om) (h3 : ∀ g ∈ b, ∀ om', ¬ FieldIn P g k false om')
    (h1' : l = a' ++ f' :: b') (h2' : propName P f' = some k) (h3' : ∀ g ∈ b', propName P g ≠ some k) : f = f' := by
  obtain ⟨om', h2'⟩ := propName_iff.1 h2'
  have h := h1.symm.trans h1'
  rcases List.append_eq_append_iff.1 h with ⟨c, e1, e2⟩ | ⟨c, e1, e2⟩
  · cases c with
    | nil => simp only [List.nil_append, List.cons.injEq] at e2; exact e2.1
    | cons x c =>
      simp only [List.cons_append, List.cons.injEq] at e2
      exact absurd h2' (h3 f' (by rw [e2.2]; simp) om')
  · cases c with
    | nil => simp only [List.nil_append, List.cons.injEq] at e2; exact e2.1.symm
    | cons x c =>
      simp only [List.cons_append, List.cons.injEq] at e2
      exact absurd (propName_iff.2 ⟨om, h2⟩) (h3' f (by rw [e2.2]; simp))

theorem empty_fresh : Fresh Schema.empty := ⟨fun _ => ⟨nofun, nofun, nofun, nofun, nofun⟩, nofun⟩

theorem field_facts {M : Meaning} {marshal : AnyVal → Option Raw} {σ : Nat → Sched} {P : PkgCtx} {st st' : GState} {f : Field} {c : Schema} (h : FieldRun marshal σ P st st' f c)
    (he : st'.errs = st.errs) : ∃ raw, OverFacts M marshal f.markers raw c := by
  rcases field_over h he with ⟨-, h⟩ | ⟨-, raw, hr, h⟩
  · exact ⟨_, over_facts empty_fresh h⟩
  · exact ⟨raw, over_facts (typeSchema_fresh hr) h⟩

theorem rejects {M : Meaning} {marshal : AnyVal → Option Raw} {G : Prog} {env : Env} (hG : Generated marshal G env) (hL : Linked G env) (hO : ∀ p n d, G.decl p n = some d → OnceDecl d)
    {V : String → Schema → Json → Prop} (hV : RefMeaning M env V) {τ : Ty} {j : Json} (h : Breaks M marshal G τ j) : Rejects G env V τ j := by
  have hbase : ∀ pkg c x, V pkg c x → BaseOk M c.base x := fun pkg c x h => ((hV pkg c x).1 h).1.plain
  have prop : ∀ {p n d m a f b k om v u}, G.decl p n = some d → d.textMarshaler = false → d.jsonMarshaler = false → d.type = .struct → d.fields = a ++ f :: b → FieldIn (G.ctx p) f k false om →
      (∀ g ∈ b, ∀ om', ¬ FieldIn (G.ctx p) g k false om') → List.lookup k m = some v → env.raw ⟨p, n⟩ = some u → V p u (.obj m) →
      ∃ (σ : Nat → Sched) (st st' : GState) (c : Schema), st'.errs = st.errs ∧ FieldRun marshal σ (G.ctx p) st st' f c ∧ Child u c ∧ V p c v := by
    intro p n d m a f b k om v u hd ht hj hs hfs hfi hlast hv hu hval
    obtain ⟨σ, st, st', h1, h2⟩ := hG ⟨p, n⟩ u d hu hd
    have hspec := struct_spec hs hj ht h1
    obtain ⟨c, hc⟩ := C30_properties_complete hs hj ht h1 (f := f) (by rw [hfs]; simp) hfi
    obtain ⟨pre, f', post, e1, e2, e3, hrun⟩ := hspec.2.2.2.1 k c hc
    obtain rfl := last_field hfs hfi hlast e1 e2 e3
    have hmem := (GoMap.get_eq_some hspec.2.2.1).1 hc
    exact ⟨σ, st, st', c, h2, hrun, .property hmem, ((hV _ _ _).1 hval).1.properties k c v hmem hv⟩
  have embed : ∀ {p n d f k om j u}, G.decl p n = some d → d.textMarshaler = false → d.jsonMarshaler = false → d.type = .struct → f ∈ d.fields → FieldIn (G.ctx p) f k true om →
      env.raw ⟨p, n⟩ = some u → V p u j → ∃ (σ : Nat → Sched) (st st' : GState) (c : Schema), st'.errs = st.errs ∧ FieldRun marshal σ (G.ctx p) st st' f c ∧ Child u c ∧ V p c j := by
    intro p n d f k om j u hd ht hj hs hf hfi hu hval
    obtain ⟨σ, st, st', h1, h2⟩ := hG ⟨p, n⟩ u d hu hd
    have hspec := struct_spec hs hj ht h1
    obtain ⟨c, hc, hrun⟩ := all2_right hspec.2.1 (List.mem_filter.2 ⟨hf, isInline_iff.2 ⟨k, om, hfi⟩⟩)
    exact ⟨σ, st, st', c, h2, hrun, .allOf hc, ((hV _ _ _).1 hval).1.allOf c hc⟩
  induction h with
  | @ident pkg n j h ih =>
    refine ⟨?_, ?_⟩
    · intro s hs s' hsk hc
      cases hs with
      | builtin h1 => rw [h1] at ih; exact ih.elim
      | named h1 h2 =>
        rw [h1] at ih
        exact link_rejects hV (by rw [hsk.outline.ref]; rfl) hc (ident_link hL (by rw [h1]; exact .named) h2) ih.1
      | @aliasNamed _ p a q m u l h1 h2 =>
        rw [h1] at ih
        cases p with
        | none => exact ih.elim
        | some p =>
          obtain ⟨-, d, hd, -, -, he, hm⟩ := hL.alias _ _ _ _ _ h1
          exact link_rejects hV (by rw [hsk.outline.ref]; rfl) hc (ident_link hL (by rw [h1]; exact .named) h2) (ih.2 d hd hm q m (by rw [he]; exact .named))
      | @aliasAlias _ p a q m u l h1 h2 =>
        rw [h1] at ih
        cases p with
        | none => exact ih.elim
        | some p =>
          obtain ⟨-, d, hd, -, -, he, hm⟩ := hL.alias _ _ _ _ _ h1
          exact link_rejects hV (by rw [hsk.outline.ref]; rfl) hc (ident_link hL (by rw [h1]; exact .alias) h2) (ih.2 d hd hm q m (by rw [he]; exact .alias))
      | @aliasBuiltin _ p a b t f h1 =>
        rcases h1 with h1 | h1
        · rw [h1] at ih
          cases p with
          | none => exact ih.elim
          | some p =>
            obtain ⟨-, d, -, -, -, -, rfl, rfl, hm, -⟩ := hL.alias _ _ _ _ _ h1
            refine link_rejects hV (by rw [hsk.outline.ref]; rfl) hc (fun id hid => ?_) ih.1
            rw [find_local hm] at hid
            cases hid; rfl
        · rw [h1] at ih; exact ih.elim
      | @aliasSame _ p a b t f h1 h2 =>
        rw [h1] at ih
        cases p with
        | none => exact ih.elim
        | some p =>
          obtain ⟨-, d, -, -, -, -, -, -, -, hne, -⟩ := hL.alias _ _ _ _ _ h1
          exact absurd h2 hne
    · intro q m hq
      simp only [typeOf] at hq
      generalize (G.ctx pkg).ident n = t at ih hq
      cases hq with
      | named => exact ih.1
      | alias => exact ih.1
  | @selector pkg x n j h ih =>
    refine ⟨?_, ?_⟩
    · intro s hs s' hsk hc
      cases hs with
      | selector h1 =>
        rcases h1 with h1 | h1
        · rw [h1] at ih
          exact link_rejects hV (by rw [hsk.outline.ref]; rfl) hc (sel_link hL (by rw [h1]; exact .named)) ih.1
        · rw [h1] at ih
          exact link_rejects hV (by rw [hsk.outline.ref]; rfl) hc (sel_link hL (by rw [h1]; exact .alias)) ih.1
    · intro q m hq
      simp only [typeOf] at hq
      generalize (G.ctx pkg).sel x n = t at ih hq
      cases hq with
      | named => exact ih.1
      | alias => exact ih.1
  | named h ih => exact ih
  | alias h ih => exact ih
  | @element pkg len e l x hb hx h ih =>
    refine ⟨?_, nofun⟩
    intro s hs s' hsk hc hv
    cases hs with
    | bytes h1 => exact absurd (by rw [h1]; rfl) (hb rfl)
    | @array _ _ c h1 h2 =>
      have hit : ∃ c', s'.items = some (.mk (some c') []) ∧ Skel c c' := by
        rcases hsk.items with e | ⟨y, y', ys, e1, e2, e3, e4⟩
        · exact ⟨c, e, .refl c⟩
        · cases e1; exact ⟨y', e2, e3, .inl e4⟩
      obtain ⟨c', e1, e2⟩ := hit
      exact ih.1 c h2 c' e2 (closedReach hc (.child .refl (.items e1 rfl))) (((hV _ _ _).1 hv).1.items _ l c' x e1 rfl rfl hx)
  | @mapValue pkg k v m x hx h ih =>
    refine ⟨?_, nofun⟩
    intro s hs s' hsk hc hval
    cases hs with
    | @map _ _ c h1 h2 =>
      have ha : s'.additionalProperties = some (.mk true (some c)) := hsk.outline.additional
      have hp : s'.properties = [] := hsk.outline.properties
      have hpp : s'.patternProperties = [] := hsk.outline.patterns
      exact ih.1 c h2 c (.refl c) (closedReach hc (.child .refl (.additionalProperties ha rfl)))
        ((((hV _ _ _).1 hval).1.additional m x.1 x.2 rfl hx (by rw [hp]; simp) (by rw [hpp]; nofun)).2 true c ha)
  | pointer h ih =>
    refine ⟨?_, nofun⟩
    intro s hs s' hsk hc
    cases hs with
    | pointer hs => exact ih.1 s hs s' hsk hc
  | @type p n d j hd ht hj hs h ih =>
    refine ⟨?_, fun d' hd' _ => by rw [hd] at hd'; cases hd'; exact ih.2⟩
    intro u hu hc
    obtain ⟨σ, st, st', h1, h2⟩ := hG ⟨p, n⟩ u d hu hd
    unfold infoToSchema at h1
    rw [hj, ht] at h1
    simp only [Bool.false_eq_true, if_false] at h1
    obtain ⟨raw, r1, r2⟩ := decl_over hs h1 h2
    exact ih.1 raw r1 u (over_facts (M := M) (typeSchema_fresh r1) r2).skel hc
  | @mark p n d j hd hf =>
    refine ⟨?_, fun d' hd' hno => by rw [hd] at hd'; cases hd'; exact absurd hf (noMarks_forbids hno)⟩
    intro u hu hc hv
    obtain ⟨σ, st, st', h1, h2⟩ := hG ⟨p, n⟩ u d hu hd
    obtain ⟨raw, r1, r2⟩ := info_over h1 h2
    exact set_strict (over_facts r1 r2) (hO p n d hd).value (hO p n d hd).items (hbase p) ((hV _ _ _).1 hv).1 hf
  | @field p n d m a f b k om v hd ht hj hs hfs hfi hlast hns hv h ih =>
    refine ⟨?_, fun d' hd' _ => by rw [hd] at hd'; cases hd'; rw [hs]; nofun⟩
    intro u hu hc hval
    obtain ⟨σ, st, st', c, he, hrun, hch, hcv⟩ := prop hd ht hj hs hfs hfi hlast hv hu hval
    rcases field_over hrun he with ⟨h1, -⟩ | ⟨-, raw, hr, hov⟩
    · exact hns h1
    · exact ih.1 raw hr c (over_facts (M := M) (typeSchema_fresh hr) hov).skel (closedReach hc (.child .refl hch)) hcv
  | @fieldMark p n d m a f b k om v hd ht hj hs hfs hfi hlast hv hf =>
    refine ⟨?_, fun d' hd' _ => by rw [hd] at hd'; cases hd'; rw [hs]; nofun⟩
    intro u hu hc hval
    obtain ⟨σ, st, st', c, he, hrun, hch, hcv⟩ := prop hd ht hj hs hfs hfi hlast hv hu hval
    obtain ⟨raw, hov⟩ := field_facts (M := M) hrun he
    have hfd : f ∈ d.fields := by rw [hfs]; simp
    exact set_strict hov ((hO p n d hd).fieldValue f hfd) ((hO p n d hd).fieldItems f hfd) (hbase p) ((hV _ _ _).1 hcv).1 hf
  | @missing p n d m f k om hd ht hj hs hfd hfi hmust hno =>
    refine ⟨?_, fun d' hd' _ => by rw [hd] at hd'; cases hd'; rw [hs]; nofun⟩
    intro u hu hc hval
    obtain ⟨σ, st, st', h1, h2⟩ := hG ⟨p, n⟩ u d hu hd
    have hk := (C30_required hs hj ht h1 k).2 ⟨f, hfd, false, om, hfi, hmust⟩
    exact hno ((hbase _ _ _ hval).required m k rfl hk)
  | @embedded p n d f k om j hd ht hj hs hfd hfi hns h ih =>
    refine ⟨?_, fun d' hd' _ => by rw [hd] at hd'; cases hd'; rw [hs]; nofun⟩
    intro u hu hc hval
    obtain ⟨σ, st, st', c, he, hrun, hch, hcv⟩ := embed hd ht hj hs hfd hfi hu hval
    rcases field_over hrun he with ⟨h1, -⟩ | ⟨-, raw, hr, hov⟩
    · exact hns h1
    · exact ih.1 raw hr c (over_facts (M := M) (typeSchema_fresh hr) hov).skel (closedReach hc (.child .refl hch)) hcv
  | @embeddedMark p n d f k om j hd ht hj hs hfd hfi hf =>
    refine ⟨?_, fun d' hd' _ => by rw [hd] at hd'; cases hd'; rw [hs]; nofun⟩
    intro u hu hc hval
    obtain ⟨σ, st, st', c, he, hrun, hch, hcv⟩ := embed hd ht hj hs hfd hfi hu hval
    obtain ⟨raw, hov⟩ := field_facts (M := M) hrun he
    exact set_strict hov ((hO p n d hd).fieldValue f hfd) ((hO p n d hd).fieldItems f hfd) (hbase p) ((hV _ _ _).1 hcv).1 hf

/-! ## What breaks no marker is accepted -/

/-- A schema that accepts the value if the other one does, as far as plain keywords are concerned, its own and those of the items. -/
structure Sup (M : Meaning) (s s' : Schema) (j : Json) : Prop where
  outline : Outline s s'
  base : BaseOk M s.base j → BaseOk M s'.base j
  items : s'.items = s.items ∨ ∃ c c' cs, s.items = some (.mk (some c) cs) ∧ s'.items = some (.mk (some c') cs) ∧ Outline c c' ∧ c'.items = c.items ∧
    ∀ l x, j = .arr l → x ∈ l → BaseOk M c.base x → BaseOk M c'.base x

theorem Sup.refl (M : Meaning) (s : Schema) (j : Json) : Sup M s s j := ⟨.refl s, id, .inl rfl⟩

theorem OverFacts.sup {M : Meaning} {marshal : AnyVal → Option Raw} {set : MarkerSet} {s s' : Schema} (h : OverFacts M marshal set s s') {j : Json} (hf : ¬ SetForbids M marshal set j) :
    Sup M s s' j := by
  refine ⟨h.frame, fun hb => h.base.accepts j hb fun hh => hf (.inl hh), ?_⟩
  rcases h.items with ⟨-, e⟩ | ⟨c, c', cs, e1, e2, e3, e4, e5⟩
  · exact .inl e
  · exact .inr ⟨c, c', cs, e1, e2, e3, e4, fun l x hl hx hb => e5.accepts x hb fun hh => hf (.inr ⟨l, x, hl, hx, hh⟩)⟩

/-- What is shown for values that break no marker of a declared type, nor of the type that it is an alias of. -/
def TakesDecl (M : Meaning) (marshal : AnyVal → Option Raw) (G : Prog) (env : Env) (V : String → Schema → Json → Prop) (p m : String) (j : Json) : Prop :=
  (¬ Breaks M marshal G (.decl p m) j → ∀ u, env.raw ⟨p, m⟩ = some u → V p u j) ∧
    ∀ d, G.decl p m = some d → (∀ j, ¬ G.foreign p m j) → d.textMarshaler = false →
      (¬ Breaks M marshal G (.decl p m) j → ∀ q m', Points (typeOf (G.ctx p) d.type) q m' → ∀ u, env.raw ⟨q, m'⟩ = some u → V q u j) ∧
      ∀ b, typeOf (G.ctx p) d.type = .basic b → BasicVal b.kind j

/-- What is shown for values that break no marker. -/
def Takes (M : Meaning) (marshal : AnyVal → Option Raw) (G : Prog) (env : Env) (V : String → Schema → Json → Prop) : Ty → Json → Prop
  | .expr pkg e, j => (¬ Breaks M marshal G (.expr pkg e) j → PlainType (G.ctx pkg) e → ∀ s, TypeSchema (G.ctx pkg) e s → ∀ s', Sup M s s' j → V pkg s' j) ∧
      (¬ Breaks M marshal G (.expr pkg e) j → ∀ q m, Points (typeOf (G.ctx pkg) e) q m → ∀ u, env.raw ⟨q, m⟩ = some u → V q u j) ∧ ∀ b, typeOf (G.ctx pkg) e = .basic b → BasicVal b.kind j
  | .go (.basic b), j => BasicVal b.kind j
  | .go (.named (some p) m _), j => TakesDecl M marshal G env V p m j
  | .go (.alias (some p) m _), j => TakesDecl M marshal G env V p m j
  | .go _, _ => False
  | .decl p m, j => TakesDecl M marshal G env V p m j

theorem leaf_takes {M : Meaning} {W : Schema → Json → Prop} {b : Base} {s' : Schema} {j : Json} (h : Sup M (.leaf b) s' j) (hb : BaseOk M b j) : ValidBy M W s' j := by
  have h1 := h.outline.allOf
  have h2 := h.outline.oneOf
  have h3 := h.outline.anyOf
  have h4 := h.outline.not
  have h5 := h.outline.properties
  have h6 := h.outline.additional
  have h7 := h.outline.patterns
  have h8 := h.outline.dependencies
  have h9 := h.outline.additionalItems
  have h10 : s'.items = none := by
    rcases h.items with e | ⟨c, c', cs, e, -⟩
    · exact e
    · cases e
  constructor
  · exact h.base hb
  · rw [h10]; nofun
  · rw [h10]; nofun
  · rw [h1]; nofun
  · rw [h2]; intro h; exact absurd rfl h
  · rw [h3]; intro h; exact absurd rfl h
  · rw [h4]; nofun
  · rw [h5]; nofun
  · rw [h6]; intro m' k v _ _ _ _; exact ⟨nofun, nofun⟩
  · rw [h7]; nofun
  · rw [h8]; nofun
  · rw [h10]; nofun

theorem link_takes {M : Meaning} {env : Env} {V : String → Schema → Json → Prop} (hV : RefMeaning M env V) {pkg l p m : String} {s' : Schema} {j : Json} (hs : Sup M (.leaf { ref := some l }) s' j)
    (hl : ∀ id, env.find l pkg = .ok id → id = ⟨p, m⟩) (h : ∀ u, env.raw ⟨p, m⟩ = some u → V p u j) : V pkg s' j := by
  rw [hV]
  refine ⟨leaf_takes hs (plain_ok (hasType_nil j) (fun h => absurd rfl h) (by simp)), ?_⟩
  intro r id u hr hlead
  rw [hs.outline.ref] at hr
  cases hr
  obtain rfl := hl id hlead.1
  exact h u hlead.2

theorem takes {M : Meaning} (hM : Formats M) {marshal : AnyVal → Option Raw} {G : Prog} {env : Env} (hG : Generated marshal G env) (hL : Linked G env)
    (hN : G.nils = false) (hP : ∀ p n d, G.decl p n = some d → TypedDecl (G.ctx p) d) {V : String → Schema → Json → Prop} (hV : RefMeaning M env V)
    (hF : ∀ p n u j, G.foreign p n j → env.raw ⟨p, n⟩ = some u → V p u j) {τ : Ty} {j : Json} (h : Enc G τ j) : Takes M marshal G env V τ j := by
  induction h with
  | @ident pkg n j h ih =>
    refine ⟨?_, ?_, ?_⟩
    · intro hbr hp s hs s' hsup
      cases hs with
      | @builtin _ b t f h1 h2 h3 =>
        rw [h1] at ih
        cases hp with
        | ident hp =>
          obtain ⟨k1, k2⟩ := basic_ok hM ih h3 (hp b h1).2.1 (hp b h1).2.2
          rw [hV]
          refine ⟨leaf_takes hsup (plain_ok k1 k2 (fun _ _ _ h => (by cases h))), ?_⟩
          rw [hsup.outline.ref]; nofun
      | @named _ p m u l h1 h2 =>
        rw [h1] at ih
        exact link_takes hV hsup (ident_link hL (by rw [h1]; exact .named) h2) (ih.1 fun hb => hbr (.ident (by rw [h1]; exact .named hb)))
      | @aliasNamed _ p a q m u l h1 h2 =>
        rw [h1] at ih
        cases p with
        | none => exact ih.elim
        | some p =>
          obtain ⟨hf, d, hd, ht, -, he, -⟩ := hL.alias _ _ _ _ _ h1
          exact link_takes hV hsup (ident_link hL (by rw [h1]; exact .named) h2) ((ih.2 d hd hf ht).1 (fun hb => hbr (.ident (by rw [h1]; exact .alias hb))) q m (by rw [he]; exact .named))
      | @aliasAlias _ p a q m u l h1 h2 =>
        rw [h1] at ih
        cases p with
        | none => exact ih.elim
        | some p =>
          obtain ⟨hf, d, hd, ht, -, he, -⟩ := hL.alias _ _ _ _ _ h1
          exact link_takes hV hsup (ident_link hL (by rw [h1]; exact .alias) h2) ((ih.2 d hd hf ht).1 (fun hb => hbr (.ident (by rw [h1]; exact .alias hb))) q m (by rw [he]; exact .alias))
      | @aliasBuiltin _ p a b t f h1 h2 h3 =>
        rcases h1 with h1 | h1
        · rw [h1] at ih
          cases p with
          | none => exact ih.elim
          | some p =>
            obtain ⟨hf, d, hd, ht, hj, he, rfl, rfl, hm, -, x, hx⟩ := hL.alias _ _ _ _ _ h1
            have hb := (ih.2 d hd hf ht).2 b he
            rw [hx] at he
            have hpt := (hP _ _ d hd).type (by rw [hx]; nofun)
            rw [hx] at hpt
            cases hpt with
            | ident hpt =>
              obtain ⟨k1, k2⟩ := basic_ok hM hb h3 (hpt b he).2.1 (hpt b he).2.2
              rw [hV]
              refine ⟨leaf_takes hsup (plain_ok k1 k2 (fun _ _ _ h => (by cases h))), ?_⟩
              intro r id u hr hlead
              rw [hsup.outline.ref] at hr
              cases hr
              obtain ⟨l1, l2⟩ := hlead
              rw [find_local hm] at l1
              cases l1
              exact ih.1 (fun hb => hbr (.ident (by rw [h1]; exact .alias hb))) u l2
        · cases hp with
          | ident hp => exact absurd (hp b h1).1 h2
      | @aliasSame _ p a b t f h1 h2 =>
        rw [h1] at ih
        cases p with
        | none => exact ih.elim
        | some p =>
          obtain ⟨-, d, -, -, -, -, -, -, -, hne, -⟩ := hL.alias _ _ _ _ _ h1
          exact absurd h2 hne
    · intro hbr q m hq
      simp only [typeOf] at hq
      have hbr : ¬ Breaks M marshal G (.go ((G.ctx pkg).ident n)) j := fun h => hbr (.ident h)
      generalize (G.ctx pkg).ident n = t at ih hq hbr
      cases hq with
      | named => exact ih.1 fun h => hbr (.named h)
      | alias => exact ih.1 fun h => hbr (.alias h)
    · intro b hb
      simp only [typeOf] at hb
      rw [hb] at ih
      exact ih
  | @selector pkg x n j h ih =>
    refine ⟨?_, ?_, ?_⟩
    · intro hbr hp s hs s' hsup
      cases hs with
      | selector h1 =>
        rcases h1 with h1 | h1
        · rw [h1] at ih
          exact link_takes hV hsup (sel_link hL (by rw [h1]; exact .named)) (ih.1 fun hb => hbr (.selector (by rw [h1]; exact .named hb)))
        · rw [h1] at ih
          exact link_takes hV hsup (sel_link hL (by rw [h1]; exact .alias)) (ih.1 fun hb => hbr (.selector (by rw [h1]; exact .alias hb)))
    · intro hbr q m hq
      simp only [typeOf] at hq
      have hbr : ¬ Breaks M marshal G (.go ((G.ctx pkg).sel x n)) j := fun h => hbr (.selector h)
      generalize (G.ctx pkg).sel x n = t at ih hq hbr
      cases hq with
      | named => exact ih.1 fun h => hbr (.named h)
      | alias => exact ih.1 fun h => hbr (.alias h)
    · intro b hb
      simp only [typeOf] at hb
      rw [hb] at ih
      exact ih
  | basic h => exact h
  | named h ih => exact ih
  | alias h ih => exact ih
  | @bytes pkg e s hb =>
    refine ⟨?_, fun _ => nofun, nofun⟩
    intro hbr hp sch hs s' hsup
    cases hs with
    | bytes =>
      rw [hV]
      refine ⟨leaf_takes hsup (plain_ok (by simp [HasType]) (fun _ => hM.byte s) (fun _ _ _ h => (by cases h))), ?_⟩
      rw [hsup.outline.ref]; nofun
    | array h1 h2 =>
      cases hp with
      | array h3 h4 => exact absurd (h3 rfl hb) (h1 rfl)
  | @array pkg len e l hb hl ih =>
    refine ⟨?_, fun _ => nofun, nofun⟩
    intro hbr hp sch hs s' hsup
    cases hp with
    | array h3 h4 =>
      cases hs with
      | bytes h => exact absurd (by rw [h]; rfl) (hb rfl)
      | @array _ _ c h1 h2 =>
        rw [hV]
        have hit : ∃ c', s'.items = some (.mk (some c') []) ∧ ∀ x ∈ l, Sup M c c' x := by
          rcases hsup.items with e | ⟨y, y', ys, e1, e2, e3, e4, e5⟩
          · exact ⟨c, e, fun x _ => .refl M c x⟩
          · cases e1; exact ⟨y', e2, fun x hx => ⟨e3, e5 l x rfl hx, .inl e4⟩⟩
        obtain ⟨c', e1, e2⟩ := hit
        refine ⟨?_, by rw [hsup.outline.ref]; nofun⟩
        constructor
        · exact hsup.base (plain_ok (by simp [HasType]) (by simp) (by simp))
        · intro i xs y x hi hj hy hx
          rw [e1] at hi
          cases hi
          cases hj
          cases hy
          exact (ih x hx).1 (fun hbx => hbr (.element hb hx hbx)) h4 c h2 c' (e2 x hx)
        · intro i xs n y x hi hj hy
          rw [e1] at hi
          cases hi
          cases hy
        · rw [hsup.outline.allOf]; nofun
        · rw [hsup.outline.oneOf]; intro h; exact absurd rfl h
        · rw [hsup.outline.anyOf]; intro h; exact absurd rfl h
        · rw [hsup.outline.not]; nofun
        · rw [hsup.outline.properties]; nofun
        · rw [hsup.outline.additional]; intro m' k v _ _ _ _; exact ⟨nofun, nofun⟩
        · rw [hsup.outline.patterns]; nofun
        · rw [hsup.outline.dependencies]; nofun
        · intro its l' n v hi hnone
          rw [e1] at hi
          cases hi
          cases hnone
  | @map pkg k v m hm ih =>
    refine ⟨?_, fun _ => nofun, nofun⟩
    intro hbr hp sch hs s' hsup
    cases hp with
    | map h4 =>
      cases hs with
      | @map _ _ c h1 h2 =>
        rw [hV]
        have hit : s'.items = none := by
          rcases hsup.items with e | ⟨c, c', cs, e, -⟩
          · exact e
          · cases e
        refine ⟨?_, by rw [hsup.outline.ref]; nofun⟩
        constructor
        · exact hsup.base (plain_ok (by simp [HasType]) (by simp) (by simp))
        · rw [hit]; nofun
        · rw [hit]; nofun
        · rw [hsup.outline.allOf]; nofun
        · rw [hsup.outline.oneOf]; intro h; exact absurd rfl h
        · rw [hsup.outline.anyOf]; intro h; exact absurd rfl h
        · rw [hsup.outline.not]; nofun
        · rw [hsup.outline.properties]; nofun
        · intro m' k' x hj hx _ _
          cases hj
          have ha : s'.additionalProperties = some (.mk true (some c)) := hsup.outline.additional
          rw [ha]
          refine ⟨nofun, fun a c' hc' => ?_⟩
          cases hc'
          exact (ih (k', x) hx).1 (fun hbx => hbr (.mapValue hx hbx)) h4 c h2 c (.refl M c x)
        · rw [hsup.outline.patterns]; nofun
        · rw [hsup.outline.dependencies]; nofun
        · rw [hit]; nofun
  | pointer h ih =>
    refine ⟨?_, fun _ => nofun, nofun⟩
    intro hbr hp sch hs s' hsup
    cases hs with
    | pointer hs =>
      cases hp with
      | pointer hp => exact ih.1 (fun hb => hbr (.pointer hb)) hp _ hs s' hsup
  | nilSlice h => rw [hN] at h; cases h
  | nilMap h => rw [hN] at h; cases h
  | nilPointer h => rw [hN] at h; cases h
  | @type p n d j hd ht hj hs h ih =>
    refine ⟨?_, fun d' hd' _ _ => by rw [hd] at hd'; cases hd'; exact ⟨fun hbr => ih.2.1 fun hb => hbr (.type hd ht hj hs hb), ih.2.2⟩⟩
    intro hbr u hu
    obtain ⟨σ, st, st', h1, h2⟩ := hG ⟨p, n⟩ u d hu hd
    unfold infoToSchema at h1
    rw [hj, ht] at h1
    simp only [Bool.false_eq_true, if_false] at h1
    obtain ⟨raw, r1, r2⟩ := decl_over hs h1 h2
    exact ih.1 (fun hb => hbr (.type hd ht hj hs hb)) ((hP p n d hd).type hs) raw r1 u ((over_facts (typeSchema_fresh r1) r2).sup fun hf => hbr (.mark hd hf))
  | @text p n d s hd ht hj =>
    refine ⟨?_, fun d' hd' _ ht' => by rw [hd] at hd'; cases hd'; rw [ht] at ht'; cases ht'⟩
    intro hbr u hu
    obtain ⟨σ, st, st', h1, h2⟩ := hG ⟨p, n⟩ u d hu hd
    unfold infoToSchema at h1
    rw [hj, ht] at h1
    simp only [Bool.false_eq_true, if_false, if_true] at h1
    cases hx : st.apply marshal σ d.markers (.leaf { type := "string" }) with
    | mk s1 st1 =>
      rw [hx] at h1
      simp only [Except.ok.injEq, Prod.mk.injEq] at h1
      have hle := (apply_le (marshal := marshal) (σ := σ) (set := d.markers) (s := .leaf { type := "string" }) (st := st)).1
      rw [hx] at hle
      simp only at hle
      obtain ⟨rfl, rfl⟩ := h1
      have hov : Over marshal d.markers (.leaf { type := "string" }) s1 := by
        refine .one (doc := []) (apply_clean hx ?_)
        split at h2
        · simp only [GState.err] at h2; omega
        · exact h2
      have hsup := (over_facts (M := M) (leaf_fresh "string") hov).sup fun hf => hbr (.mark hd hf)
      rw [hV]
      exact ⟨leaf_takes hsup (plain_ok (by simp [HasType]) (by simp) (by simp)), by rw [hsup.outline.ref]; nofun⟩
  | @struct p n d m hd ht hj hs hf hstr hreq hin ihf ihin =>
    refine ⟨?_, fun d' hd' _ _ => by rw [hd] at hd'; cases hd'; rw [hs]; exact ⟨fun _ => nofun, nofun⟩⟩
    intro hbr u hu
    obtain ⟨σ, st, st', h1, h2⟩ := hG ⟨p, n⟩ u d hu hd
    have hPd := hP p n d hd
    have hspec := struct_spec hs hj ht h1
    have hr := C30_required hs hj ht h1
    have h0 := h1
    unfold infoToSchema at h0
    rw [hj, ht, hs] at h0
    simp only [Bool.false_eq_true, if_false] at h0
    obtain ⟨req, props, all, hov⟩ := struct_over h0 h2
    have hsup := (over_facts (M := M) struct_fresh hov).sup (j := .obj m) fun hf => hbr (.mark hd hf)
    have hit : u.items = none := by
      rcases hsup.items with e | ⟨c, c', cs, e, -⟩
      · exact e
      · cases e
    have hreqs : u.base.required = req := hsup.outline.required
    have child : ∀ (f : Field) (c : Schema) (v : Json), f ∈ d.fields → FieldRun marshal σ (G.ctx p) st st' f c → ¬ SetForbids M marshal f.markers v →
        (∀ raw, TypeSchema (G.ctx p) f.type raw → ¬ Marked f.markers "kubebuilder:validation:Schemaless" → Sup M raw c v → V p c v) → V p c v := by
      intro f c v hfd hrun hnf hV'
      rcases field_over hrun h2 with ⟨-, hov⟩ | ⟨hns, raw, hraw, hov⟩
      · have hs' := (over_facts (M := M) empty_fresh hov).sup hnf
        rw [hV]
        exact ⟨leaf_takes hs' (plain_ok (hasType_nil v) (fun h => absurd rfl h) (fun _ _ _ h => (by cases h))), by rw [hs'.outline.ref]; nofun⟩
      · exact hV' raw hraw hns ((over_facts (M := M) (typeSchema_fresh hraw) hov).sup hnf)
    rw [hV]
    refine ⟨?_, by rw [hsup.outline.ref]; nofun⟩
    constructor
    · refine hsup.base (plain_ok (by simp [HasType]) (by simp) ?_)
      intro m' k hm' hk
      cases hm'
      rw [← hreqs] at hk
      obtain ⟨f, hf', inl, om, hfi, hmust⟩ := (hr k).1 hk
      cases inl with
      | true => exact absurd hmust (hPd.inlineOptional f hf' k om hfi)
      | false => exact Classical.byContradiction fun hno => hbr (.missing hd ht hj hs hf' hfi hmust hno)
    · rw [hit]; nofun
    · rw [hit]; nofun
    · intro c hc
      obtain ⟨f, hf', hrun⟩ := hspec.2.1.exists_left hc
      obtain ⟨hf1, hf2⟩ := List.mem_filter.1 hf'
      obtain ⟨k, om, hfi⟩ := isInline_iff.1 hf2
      exact child f c _ hf1 hrun (fun hf => hbr (.embeddedMark hd ht hj hs hf1 hfi hf)) fun raw hraw hns hs' =>
        (ihin f hf1 k om hfi).1 (fun hb => hbr (.embedded hd ht hj hs hf1 hfi hns hb)) (hPd.fieldType f hf1) raw hraw c hs'
    · rw [hsup.outline.oneOf]; intro h; exact absurd rfl h
    · rw [hsup.outline.anyOf]; intro h; exact absurd rfl h
    · rw [hsup.outline.not]; nofun
    · intro k c v hk hv
      have hg : GoMap.get u.properties k = some c := (GoMap.get_eq_some hspec.2.2.1).2 hk
      obtain ⟨pre, f, post, e1, e2, e3, hrun⟩ := hspec.2.2.2.1 k c hg
      have hf1 : f ∈ d.fields := by rw [e1]; simp
      obtain ⟨om, hfi⟩ := propName_iff.1 e2
      have e3' : ∀ g ∈ post, ∀ om', ¬ FieldIn (G.ctx p) g k false om' := fun g hg om' hh => e3 g hg (propName_iff.2 ⟨om', hh⟩)
      exact child f c v hf1 hrun (fun hf => hbr (.fieldMark hd ht hj hs e1 hfi e3' hv hf)) fun raw hraw hns hs' =>
        (ihf f hf1 k om v hfi (hPd.noString f hf1) hv).1 (fun hb => hbr (.field hd ht hj hs e1 hfi e3' hns hv hb)) (hPd.fieldType f hf1) raw hraw c hs'
    · rw [hsup.outline.additional]; intro m' k v _ _ _ _; exact ⟨nofun, nofun⟩
    · rw [hsup.outline.patterns]; nofun
    · rw [hsup.outline.dependencies]; nofun
    · rw [hit]; nofun
  | foreign h => exact ⟨fun _ u hu => hF _ _ u _ h hu, fun _ _ hno => absurd h (hno _)⟩

/-! ## The property -/

/-- C78 (partial).  A value that breaks a validation marker or lacks a required field, at any depth, is rejected by the schema of the type, for all programs, recursive ones included.  Missing: markers given twice
(`C78_violated_repeated`), markers on aliases of declared types (`C78_violated_alias`). -/
theorem C78_enforced_partial (M : Meaning) (marshal : AnyVal → Option Raw) (G : Prog) (env : Env) (hG : Generated marshal G env) (hL : Linked G env)
    (hO : ∀ p n d, G.decl p n = some d → OnceDecl d) (V : String → Schema → Json → Prop) (hV : RefMeaning M env V) (p n : String) (u : Schema) (hu : env.raw ⟨p, n⟩ = some u) (hc : Closed env p u)
    (j : Json) (hj : Breaks M marshal G (.decl p n) j) : ¬ V p u j :=
  (rejects hG hL hO hV hj).1 u hu hc

/-- C78 (partial).  A value that encoding/json writes for a value of the type is accepted by its schema exactly if it breaks no marker and lacks no required field.  Missing: the guards (no nil values,
`TypedDecl` and `Linked`), see C56. -/
theorem C78_exact_partial (M : Meaning) (hM : Formats M) (marshal : AnyVal → Option Raw) (G : Prog) (env : Env) (hG : Generated marshal G env) (hL : Linked G env)
    (hO : ∀ p n d, G.decl p n = some d → OnceDecl d) (hN : G.nils = false) (hP : ∀ p n d, G.decl p n = some d → TypedDecl (G.ctx p) d) (V : String → Schema → Json → Prop)
    (hV : RefMeaning M env V) (hF : ∀ p n u j, G.foreign p n j → env.raw ⟨p, n⟩ = some u → V p u j) (p n : String) (u : Schema) (hu : env.raw ⟨p, n⟩ = some u) (hc : Closed env p u) (j : Json)
    (hj : Enc G (.decl p n) j) : V p u j ↔ ¬ Breaks M marshal G (.decl p n) j :=
  ⟨fun hv hb => C78_enforced_partial M marshal G env hG hL hO V hV p n u hu hc j hb hv, fun hb => (takes hM hG hL hN hP hV hF hj).1 hb u hu⟩

/-- C78 (partial).  The same for the flattened schema and for the schema as it is written into the CRD, where references have been resolved and allOf has been merged.  Missing: types that refer to
recursive types (`C78_violated_recursive`), the cases in which merging does not preserve the meaning of schemas (C28, `C78_violated_exclusive`). -/
theorem C78_enforced_crd_partial (M : Meaning) (marshal : AnyVal → Option Raw) (G : Prog) (env : Env) (hG : Generated marshal G env) (hL : Linked G env)
    (hO : ∀ p n d, G.decl p n = some d → OnceDecl d) (hp : ∀ id s, env.raw id = some s → ∀ c, Sub s c → c.oneOf = [] ∧ c.not = none) (σ : Sched) (p n : String) (u : Schema)
    (hu : env.raw ⟨p, n⟩ = some u) (hac : AcyclicFrom env p u) (hg : Good env p u) (hk : AllKeys env p u) :
    ∃ t st, flattenType env σ ⟨p, n⟩ {} = .ok (some t, st) ∧ (∀ j, Breaks M marshal G (.decl p n) j → ¬ Valid M t j) ∧
      (Guard t → ∀ t', flattenEmbedded t = (t', []) → ∀ j, Breaks M marshal G (.decl p n) j → ¬ Valid M t' j) := by
  obtain ⟨V, hV⟩ := C51_meaning_exists_recursive M env hp
  obtain ⟨ts, st, t, st', h1, h2, h3⟩ := C51_meaning_partial M env V hV σ [] nofun ⟨p, n⟩ u hu hg hac hk
  cases h1
  have h4 : ∀ j, Breaks M marshal G (.decl p n) j → ¬ Valid M t j := fun j hj hv => C78_enforced_partial M marshal G env hG hL hO V hV p n u hu hg.closed j hj ((h3 j).1 hv)
  exact ⟨t, st', h2, h4, fun hgd t' ht' j hj hv => h4 j hj ((C28_flatten_preserves_partial M t t' hgd ht' j).1 hv)⟩

/-- C78 (partial).  A value that encoding/json writes for a value of the type, that breaks no marker and lacks no required field, is accepted by the flattened schema and by the schema in the CRD.
Types may be recursive.  Missing: as in `C78_exact_partial`, and C28. -/
theorem C78_accepted_crd_partial (M : Meaning) (hM : Formats M) (marshal : AnyVal → Option Raw) (G : Prog) (env : Env) (hG : Generated marshal G env) (hL : Linked G env)
    (hN : G.nils = false) (hP : ∀ p n d, G.decl p n = some d → TypedDecl (G.ctx p) d) (hp : ∀ id s, env.raw id = some s → ∀ c, Sub s c → c.oneOf = [] ∧ c.not = none)
    (hF : ∀ V, RefMeaning M env V → ∀ p n u j, G.foreign p n j → env.raw ⟨p, n⟩ = some u → V p u j) (σ : Sched) (p n : String) (u : Schema) (hu : env.raw ⟨p, n⟩ = some u)
    (hg : Good env p u) (hk : AllKeys env p u) :
    ∃ t st, flattenType env σ ⟨p, n⟩ {} = .ok (some t, st) ∧ (∀ j, Enc G (.decl p n) j → ¬ Breaks M marshal G (.decl p n) j → Valid M t j) ∧
      (Guard t → ∀ t', flattenEmbedded t = (t', []) → ∀ j, Enc G (.decl p n) j → ¬ Breaks M marshal G (.decl p n) j → Valid M t' j) := by
  obtain ⟨V, hV⟩ := C51_meaning_exists_recursive M env hp
  obtain ⟨ts, st, t, st', h1, h2, h3⟩ := C51_recursive_partial M env V hV σ [] nofun ⟨p, n⟩ u hu hg hk fun q c hre => by
    obtain ⟨id, s, hs, -, hc⟩ := reach_sub (id := ⟨p, n⟩) hu hre
    exact hp id s hs c hc
  cases h1
  have h4 : ∀ j, Enc G (.decl p n) j → ¬ Breaks M marshal G (.decl p n) j → Valid M t j := fun j hj hb => h3 j ((takes hM hG hL hN hP hV (hF V hV) hj).1 hb u hu)
  exact ⟨t, st', h2, h4, fun hgd t' ht' j hj hb => (C28_flatten_preserves_partial M t t' hgd ht' j).2 (h4 j hj hb)⟩

end Verif.Crd

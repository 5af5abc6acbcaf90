import Verif.Crd.NeedLemmas
import Verif.Crd.FlatTerm
import Verif.Crd.GenMore

/-! # Asking for schemas ends, and what is asked for -/
namespace Verif.Crd
open Spec

variable {S : Src} {marshal : AnyVal → Option Raw} {σ : Nat → Sched}

/-! ## More depth changes nothing -/

def NeedExt (f g : TypeIdent → PState → Except Stop PState) : Prop := ∀ id st, f id st ≠ .error .deep → g id st = f id st

theorem requests_ext {f g : TypeIdent → PState → Except Stop PState} (h : NeedExt f g) (pkg : String) : ∀ (rs : List (String × String)) (st : PState),
    S.requests f pkg rs st ≠ .error .deep → S.requests g pkg rs st = S.requests f pkg rs st := by
  intro rs
  induction rs with
  | nil => intro st _; rfl
  | cons r rs ih =>
    intro st hd
    rw [Src.requests] at hd ⊢
    rw [Src.requests]
    have hr : S.request g pkg r st = S.request f pkg r st := by
      unfold Src.request at hd ⊢
      cases ht : S.target pkg r.1 with
      | none => rfl
      | some q =>
        rw [ht] at hd
        simp only at hd ⊢
        refine h _ _ fun e => ?_
        rw [e] at hd
        exact hd rfl
    rw [hr]
    split at hd
    · rfl
    · exact ih _ hd

theorem needStep_ext {f g : TypeIdent → PState → Except Stop PState} (h : NeedExt f g) : NeedExt (S.needStep marshal σ f) (S.needStep marshal σ g) := by
  intro id st hd
  unfold Src.needStep at hd ⊢
  simp only at hd ⊢
  split at hd
  · rfl
  · split at hd
    · rfl
    · split at hd
      · rfl
      · rw [requests_ext h]
        intro e
        rw [e] at hd
        exact hd rfl

theorem need_succ : ∀ n, NeedExt (S.need marshal σ n) (S.need marshal σ (n + 1)) := by
  intro n
  induction n with
  | zero => intro id st hd; exact absurd rfl hd
  | succ n ih => intro id st hd; exact needStep_ext ih id st hd

theorem need_mono {n m : Nat} (h : n ≤ m) : NeedExt (S.need marshal σ n) (S.need marshal σ m) := by
  induction h with
  | refl => intro id st _; rfl
  | step _ ih =>
    intro id st hd
    rw [need_succ _ id st (by rw [ih id st hd]; exact hd), ih id st hd]

theorem needAll_mono {n m : Nat} (h : n ≤ m) : ∀ (ids : List TypeIdent) (st : PState), S.needAll marshal σ n ids st ≠ .error .deep →
    S.needAll marshal σ m ids st = S.needAll marshal σ n ids st := by
  intro ids
  induction ids with
  | nil => intro st _; rfl
  | cons id ids ih =>
    intro st hd
    rw [Src.needAll] at hd ⊢
    rw [Src.needAll]
    have h1 : S.need marshal σ m id st = S.need marshal σ n id st := need_mono h id st fun e => by rw [e] at hd; exact hd rfl
    rw [h1]
    split at hd
    · rfl
    · exact ih _ hd

/-! ## A depth that suffices -/

/-- The declared types of the packages. -/
def Src.universe (S : Src) (pkgs : List String) : List TypeIdent := pkgs.flatMap fun p => (S.decls p).map fun d => ⟨p, d.name⟩

/-- The number of types without a schema. -/
def undone (U : List TypeIdent) (st : PState) : Nat := U.countP fun id => (GoMap.get st.schemata id).isNone

theorem undone_le {U : List TypeIdent} {st st' : PState} (h : ∀ id, (GoMap.get st.schemata id).isSome → (GoMap.get st'.schemata id).isSome) : undone U st' ≤ undone U st := by
  refine countP_mono fun id _ hn => ?_
  cases hs : GoMap.get st.schemata id with
  | none => rfl
  | some s =>
    have := h id (by rw [hs]; rfl)
    rw [Option.isNone_iff_eq_none] at hn
    rw [hn] at this; cases this

theorem mem_universe {pkgs : List String} {id : TypeIdent} {d : Decl} (hp : id.pkg ∈ pkgs) (hd : S.declOf id = some d) : id ∈ S.universe pkgs := by
  obtain ⟨-, -, a, b, e, hn, -⟩ := declares_iff.1 hd
  refine List.mem_flatMap.2 ⟨id.pkg, hp, List.mem_map.2 ⟨d, ?_, by rw [hn]⟩⟩
  rw [e]; simp

theorem target_mem {pkgs : List String} (hw : Whole S pkgs) {p path q : String} (hp : p ∈ pkgs) (h : S.target p path = some q) : q ∈ pkgs := by
  unfold Src.target at h
  split at h
  · cases h; exact hp
  · exact hw p hp path q h

theorem requests_enough {pkgs : List String} (hw : Whole S pkgs) {n : Nat} {need : TypeIdent → PState → Except Stop PState} (hf : Fine S marshal σ need)
    (hn : ∀ W id st, PInv S marshal σ W st → id.pkg ∈ pkgs → undone (S.universe pkgs) st + 1 ≤ n → need id st ≠ .error .deep) {pkg : String} (hp : pkg ∈ pkgs) :
    ∀ (rs : List (String × String)) (W : List TypeIdent) (st : PState), PInv S marshal σ W st → undone (S.universe pkgs) st + 1 ≤ n → S.requests need pkg rs st ≠ .error .deep := by
  intro rs
  induction rs with
  | nil => intro W st _ _ h; cases h
  | cons r rs ih =>
    intro W st hi hu h
    rw [Src.requests] at h
    unfold Src.request at h
    cases ht : S.target pkg r.1 with
    | none => rw [ht] at h; cases h
    | some q =>
      rw [ht] at h
      simp only at h
      split at h
      · rename_i e heq
        cases h
        exact hn W _ _ hi (target_mem hw hp ht) hu heq
      · rename_i st1 heq
        obtain ⟨i1, l1, -⟩ := hf W _ _ _ hi heq
        exact ih W st1 i1 (Nat.le_trans (Nat.succ_le_succ (undone_le fun _ => l1.some)) hu) h

theorem need_enough {pkgs : List String} (hw : Whole S pkgs) : ∀ (n : Nat) (W : List TypeIdent) (id : TypeIdent) (st : PState), PInv S marshal σ W st → id.pkg ∈ pkgs →
    undone (S.universe pkgs) st + 1 ≤ n → S.need marshal σ n id st ≠ .error .deep := by
  intro n
  induction n with
  | zero => intro W id st _ _ h; omega
  | succ n ih =>
    intro W id st hi hp hu h
    rw [Src.need] at h
    unfold Src.needStep at h
    simp only at h
    have hi1 := needPackage_inv hi id.pkg
    have hl1 := needPackage_le hi id.pkg
    have hpk : id.pkg ∈ (S.needPackage id.pkg st).packages := ((needPackage_rest (S := S) id.pkg st).2.2.2 _).2 (.inl rfl)
    have hu1 : undone (S.universe pkgs) (S.needPackage id.pkg st) ≤ undone (S.universe pkgs) st := undone_le fun _ => hl1.some
    generalize S.needPackage id.pkg st = st1 at h hi1 hl1 hpk hu1
    split at h
    · cases h
    · rename_i hnone
      split at h
      · cases h
      · rename_i d hd
        have hdecl : S.declOf id = some d := by rw [← hi1.types id hpk]; exact hd
        split at h
        · cases h
        · rename_i s g hg
          split at h
          · rename_i e heq
            cases h
            have hfix : S.fixedOf id = none := by
              cases hf : S.fixedOf id with
              | none => rfl
              | some s0 => rw [hi1.fixed id s0 hpk hf] at hnone; cases hnone
            have hi2 := start_inv (e := g.errs) (t := g.tick) hi1 hnone hpk hfix
            have hlt : undone (S.universe pkgs) { st1 with schemata := GoMap.put st1.schemata id .empty, errs := st1.errs + g.errs, tick := g.tick, made := st1.made ++ [id] } <
                undone (S.universe pkgs) st1 := by
              refine countP_lt ?_ id (mem_universe hp hdecl) ?_ ?_
              · intro i _ hn
                simp only at hn
                rw [GoMap.get_put] at hn
                split at hn
                · cases hn
                · exact hn
              · simp only
                rw [GoMap.get_put, if_pos rfl]; rfl
              · rw [hnone]; rfl
            exact requests_enough hw (need_fine n) (fun W id st a b c => ih W id st a b c) hp g.reqs _ _ hi2 (by omega) heq
          · cases h

theorem needAll_enough {pkgs : List String} (hw : Whole S pkgs) (n : Nat) : ∀ (ids : List TypeIdent) (st : PState), PInv S marshal σ [] st → (∀ id ∈ ids, id.pkg ∈ pkgs) →
    undone (S.universe pkgs) st + 1 ≤ n → S.needAll marshal σ n ids st ≠ .error .deep := by
  intro ids
  induction ids with
  | nil => intro st _ _ _ h; cases h
  | cons id ids ih =>
    intro st hi hp hu h
    rw [Src.needAll] at h
    split at h
    · rename_i e heq
      cases h
      exact need_enough hw n [] id st hi (hp id (List.mem_cons_self ..)) hu heq
    · rename_i st1 heq
      obtain ⟨i1, l1, -⟩ := need_fine n _ _ _ _ hi heq
      exact ih st1 i1 (fun i hi => hp i (List.mem_cons_of_mem _ hi)) (Nat.le_trans (Nat.succ_le_succ (undone_le fun _ => l1.some)) hu) h

/-! ## The requests of a declaration -/

/-- All requests for names satisfy `Q`. -/
def Asks (P : PkgCtx) (Q : String × String → Prop) : Prop :=
  (∀ n st s st', localNamedToSchema P n st = .ok (s, st') → (∀ r ∈ st.reqs, Q r) → ∀ r ∈ st'.reqs, Q r) ∧
  ∀ x n st s st', namedToSchema P x n st = .ok (s, st') → (∀ r ∈ st.reqs, Q r) → ∀ r ∈ st'.reqs, Q r

variable {P : PkgCtx} {Q : String × String → Prop}

theorem inner_asks (h : Asks P Q) : ∀ {e : TExpr} {st st' : GState} {s : Schema}, innerType P e st = .ok (s, st') → (∀ r ∈ st.reqs, Q r) → ∀ r ∈ st'.reqs, Q r := by
  intro e
  induction e with
  | ident n => intro st st' s h1; rw [innerType] at h1; exact h.1 _ _ _ _ h1
  | selector x n => intro st st' s h1; rw [innerType] at h1; exact h.2 _ _ _ _ _ h1
  | array len e ih =>
    intro st st' s h1
    rw [innerType] at h1
    split at h1
    · cases h1; exact fun x => x
    · split at h1
      · cases h1
      · cases h1; exact ih ‹_›
  | map k v _ ih =>
    intro st st' s h1
    rw [innerType] at h1
    split at h1
    · cases h1; exact fun x => x
    · split at h1
      · cases h1; exact fun x => x
      · split at h1
        · cases h1
        · cases h1; exact ih ‹_›
  | star e ih => intro st st' s h1; rw [innerType] at h1; exact ih h1
  | struct => intro st st' s h1; rw [innerType] at h1; cases h1
  | other => intro st st' s h1; rw [innerType] at h1; cases h1; exact fun x => x

theorem field_asks (h : Asks P Q) {f : Field} {st st' : GState} {s : Schema} (h1 : fieldSchema marshal σ P f st = .ok (s, st')) (hq : ∀ r ∈ st.reqs, Q r) : ∀ r ∈ st'.reqs, Q r := by
  unfold fieldSchema at h1
  simp only at h1
  split at h1
  · cases h1
  · rename_i c st1 heq
    have hst : ∀ r ∈ st1.reqs, Q r := by
      split at heq
      · cases heq; exact hq
      · exact inner_asks h heq hq
    have hp := Except.ok.inj h1
    have : st'.reqs = st1.reqs := by rw [← show (st1.apply marshal σ f.markers (c.describe f.doc)).2 = st' by rw [hp]]; rfl
    rw [this]; exact hst

theorem structFields_asks (h : Asks P Q) : ∀ (fs : List Field) {req : List String} {props : List (String × Schema)} {all : List Schema} {st st' : GState}
    {x : List String × List (String × Schema) × List Schema}, structFields marshal σ P fs req props all st = .ok (x, st') → (∀ r ∈ st.reqs, Q r) → ∀ r ∈ st'.reqs, Q r := by
  intro fs
  induction fs with
  | nil => intro req props all st st' x h1; rw [structFields] at h1; cases h1; exact fun x => x
  | cons f fs ih =>
    intro req props all st st' x h1 hq
    rw [structFields] at h1
    split at h1
    · exact ih h1 hq
    · split at h1
      · exact ih h1 hq
      · split at h1
        · exact ih h1 hq
        · simp only at h1
          split at h1
          · cases h1
          · have := field_asks h ‹_› hq
            split at h1
            · exact ih h1 this
            · exact ih h1 this

theorem finish_asks {d : Decl} {r : GRes} {s : Schema} {st' : GState} (h1 : GRes.finish marshal σ d r = .ok (s, st')) (hr : ∀ c st, r = .ok (c, st) → ∀ r ∈ st.reqs, Q r) : ∀ r ∈ st'.reqs, Q r := by
  match r, hr, h1 with
  | .error _, _, h => cases h
  | .ok (c, st), hr, h =>
    have hp := Except.ok.inj h
    have : st'.reqs = st.reqs := by rw [← show (st.apply marshal σ d.markers (c.describe d.doc)).2 = st' by rw [hp]]; rfl
    rw [this]; exact hr c st rfl

theorem decl_asks (h : Asks P Q) {d : Decl} : ∀ {e : TExpr} {top : Bool} {st st' : GState} {s : Schema},
    declType marshal σ P d top e st = .ok (s, st') → (∀ r ∈ st.reqs, Q r) → ∀ r ∈ st'.reqs, Q r := by
  intro e
  induction e with
  | star e ih => intro top st st' s h1 hq; rw [declType] at h1; exact finish_asks h1 fun c st1 h2 => ih h2 hq
  | struct =>
    intro top st st' s h1 hq
    cases top with
    | false => rw [declType] at h1; exact finish_asks h1 fun c st1 h2 => by cases h2; exact hq
    | true =>
      rw [declType] at h1
      refine finish_asks h1 fun c st1 h2 => ?_
      unfold structToSchema at h2
      split at h2
      · cases h2
      · rename_i heq
        cases h2
        exact structFields_asks h d.fields heq hq
  | ident n => intro top st st' s h1 hq; cases top <;> (rw [declType] at h1; exact finish_asks h1 fun c st1 h2 => inner_asks h h2 hq)
  | selector x n => intro top st st' s h1 hq; cases top <;> (rw [declType] at h1; exact finish_asks h1 fun c st1 h2 => inner_asks h h2 hq)
  | array len e => intro top st st' s h1 hq; cases top <;> (rw [declType] at h1; exact finish_asks h1 fun c st1 h2 => inner_asks h h2 hq)
  | map k v => intro top st st' s h1 hq; cases top <;> (rw [declType] at h1; exact finish_asks h1 fun c st1 h2 => inner_asks h h2 hq)
  | other => intro top st st' s h1 hq; cases top <;> (rw [declType] at h1; cases h1; exact hq)

theorem info_asks (h : Asks P Q) {d : Decl} {st st' : GState} {s : Schema} (h1 : infoToSchema marshal σ P d st = .ok (s, st')) (hq : ∀ r ∈ st.reqs, Q r) : ∀ r ∈ st'.reqs, Q r := by
  unfold infoToSchema at h1
  split at h1
  · split at h1
    rename_i s1 st1 heq
    have : st1.reqs = st.reqs := by rw [← show (st.apply marshal σ d.markers .empty).2 = st1 by rw [heq]]; rfl
    split at h1
    · cases h1; rw [this]; exact hq
    · exact decl_asks h h1 (by rw [this]; exact hq)
  · split at h1
    · split at h1
      rename_i s1 st1 heq
      have : st1.reqs = st.reqs := by rw [← show (st.apply marshal σ d.markers (.leaf { type := "string" })).2 = st1 by rw [heq]]; rfl
      cases h1
      split
      · show ∀ r ∈ st1.reqs, Q r
        rw [this]; exact hq
      · rw [this]; exact hq
    · exact decl_asks h h1 hq

theorem request_mem {st : GState} {p n : String} (hq : ∀ r ∈ st.reqs, Q r) (h : Q (p, n)) : ∀ r ∈ (st.request p n).reqs, Q r := by
  intro r hr
  rcases List.mem_append.1 hr with hr | hr
  · exact hq r hr
  · rw [List.mem_singleton.1 hr]; exact h

/-- The requests in terms of what the type checker says. -/
theorem asks_of (h1 : ∀ n p m u, P.ident n = .named (some p) m u → Q (if p = P.self then "" else String.ofList (Loader.nonVendorPath p.toList), m))
    (h2 : ∀ n q a p m u, P.ident n = .alias q a (.named (some p) m u) ∨ P.ident n = .alias q a (.alias (some p) m u) → Q (if p = P.self then "" else String.ofList (Loader.nonVendorPath p.toList), m))
    (h3 : ∀ x n p m u, P.sel x n = .named (some p) m u ∨ P.sel x n = .alias (some p) m u → Q (String.ofList (Loader.nonVendorPath p.toList), m))
    (h4 : ∀ n, P.ident n ≠ .invalid → Q ("", n)) : Asks P Q := by
  have hobj : ∀ {pkg : Option String} {name : String} {st st' : GState} {s : Schema}, objToSchema P pkg name st = .ok (s, st') →
      (∀ p, pkg = some p → Q (if p = P.self then "" else String.ofList (Loader.nonVendorPath p.toList), name)) → (∀ r ∈ st.reqs, Q r) → ∀ r ∈ st'.reqs, Q r := by
    intro pkg name st st' s h hp hq
    unfold objToSchema at h
    split at h
    · cases h
    · rename_i p
      cases h
      exact request_mem hq (hp p rfl)
  have hbas : ∀ {id : String} {b : Basic} {st st' : GState} {s : Schema}, basicSchema P id st b = .ok (s, st') → P.ident id ≠ .invalid → (∀ r ∈ st.reqs, Q r) → ∀ r ∈ st'.reqs, Q r := by
    intro id b st st' s h hn hq
    unfold basicSchema at h
    simp only at h
    have hq' : ∀ r ∈ (if (builtinToType b P.allowDangerousTypes).isNone then st.err else st).reqs, Q r := by
      split
      · exact hq
      · exact hq
    split at h
    · cases h
      exact request_mem hq' (h4 id hn)
    · cases h; exact hq'
  refine ⟨?_, ?_⟩
  · intro n st s st' h hq
    rw [localNamed_eq] at h
    split at h
    · cases h; exact hq
    · exact hbas h (by rw [‹P.ident n = _›]; nofun) hq
    · exact hobj h (fun p hp => h1 n p _ _ (by rw [‹P.ident n = _›, hp])) hq
    · cases h
    · exact hbas h (by rw [‹P.ident n = _›]; nofun) hq
    · exact hobj h (fun p hp => h2 n _ _ p _ _ (.inl (by rw [‹P.ident n = _›, hp]))) hq
    · exact hobj h (fun p hp => h2 n _ _ p _ _ (.inr (by rw [‹P.ident n = _›, hp]))) hq
    · cases h
      exact request_mem (st := st.err) hq (h4 n (by rw [‹P.ident n = _›]; nofun))
    · cases h
  · intro x n st s st' h hq
    unfold namedToSchema at h
    simp only at h
    split at h
    · cases h; exact hq
    · split at h
      · cases h
      · cases h
        exact request_mem hq (h3 x n _ _ _ (.inl ‹_›))
    · split at h
      · cases h
      · cases h
        exact request_mem hq (h3 x n _ _ _ (.inr ‹_›))
    · cases h
    · cases h

end Verif.Crd

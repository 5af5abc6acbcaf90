import Verif.Crd.MarksTheorems
import Verif.Crd.NeedLemmas
import Verif.Crd.FlatGrow
import Verif.Crd.FlatExpand

/-! # The schema of a declaration does not depend on map order, if its markers do not (for C95) -/
namespace Verif.Crd
open Spec

/-- The same schema and the same requests, or a crash in both cases; what else has been done does not matter. -/
def Alike : GRes → GRes → Prop
  | .ok (s, g), .ok (s', g') => s = s' ∧ g.reqs = g'.reqs
  | .error _, .error _ => True
  | _, _ => False

/-- All of the markers of a declaration and its fields are orderly. -/
structure OrderlyDecl (d : Decl) : Prop where
  type : Orderly d.markers
  fields : ∀ f ∈ d.fields, Orderly f.markers

variable {marshal : AnyVal → Option Raw} {σ σ' : Nat → Sched} {P : PkgCtx}

theorem objToSchema_alike (pkg : Option String) (name : String) {st st' : GState} (hr : st.reqs = st'.reqs) : Alike (objToSchema P pkg name st) (objToSchema P pkg name st') := by
  cases pkg <;> simp [objToSchema, Alike, GState.request, hr]

theorem local_alike (id : String) {st st' : GState} (hr : st.reqs = st'.reqs) : Alike (localNamedToSchema P id st) (localNamedToSchema P id st') := by
  have hb : ∀ b : Basic, ∀ (tf : Option (String × String)), Alike (if b.name ≠ id then
      (.ok (.leaf { type := (tf.getD ("", "")).1, format := (tf.getD ("", "")).2, ref := some (refLink "" id) }, (if tf.isNone then st.err else st).request "" id) : GRes)
    else .ok (.leaf { type := (tf.getD ("", "")).1, format := (tf.getD ("", "")).2 }, if tf.isNone then st.err else st))
    (if b.name ≠ id then
      (.ok (.leaf { type := (tf.getD ("", "")).1, format := (tf.getD ("", "")).2, ref := some (refLink "" id) }, (if tf.isNone then st'.err else st').request "" id) : GRes)
    else .ok (.leaf { type := (tf.getD ("", "")).1, format := (tf.getD ("", "")).2 }, if tf.isNone then st'.err else st')) := by
    intro b tf
    have he : (if tf.isNone then st.err else st).reqs = (if tf.isNone then st'.err else st').reqs := by
      split
      · exact hr
      · exact hr
    by_cases h : b.name ≠ id
    · rw [if_pos h, if_pos h]; exact ⟨rfl, by simp only [GState.request]; rw [he]⟩
    · rw [if_neg h, if_neg h]; exact ⟨rfl, he⟩
  unfold localNamedToSchema
  simp only
  cases P.ident id with
  | invalid => exact ⟨rfl, hr⟩
  | basic b => exact hb b _
  | named pkg name u => exact objToSchema_alike _ _ hr
  | other => trivial
  | alias p n rhs =>
    cases rhs with
    | basic b => exact hb b _
    | named pkg name u => exact objToSchema_alike _ _ hr
    | alias pkg name u => exact objToSchema_alike _ _ hr
    | invalid => exact ⟨rfl, by simp [GState.request, GState.err, hr]⟩
    | other => trivial

theorem named_alike (x n : String) {st st' : GState} (hr : st.reqs = st'.reqs) : Alike (namedToSchema P x n st) (namedToSchema P x n st') := by
  unfold namedToSchema
  simp only
  cases P.sel x n with
  | invalid => exact ⟨rfl, hr⟩
  | basic b => trivial
  | named pkg name u => cases pkg <;> simp [Alike, GState.request, hr]
  | alias pkg name u => cases pkg <;> simp [Alike, GState.request, hr]
  | other => trivial

theorem inner_alike : ∀ (e : TExpr) {st st' : GState}, st.reqs = st'.reqs → Alike (innerType P e st) (innerType P e st')
  | .ident n, st, st', hr => local_alike n hr
  | .selector x s, st, st', hr => named_alike x s hr
  | .array len e, st, st', hr => by
    rw [innerType, innerType]
    split
    · exact ⟨rfl, hr⟩
    · have h := inner_alike e hr
      revert h
      cases innerType P e st <;> cases innerType P e st' <;> intro h <;> simp_all [Alike]
  | .map k v, st, st', hr => by
    rw [innerType, innerType]
    split
    · exact ⟨rfl, hr⟩
    · split
      · exact ⟨rfl, hr⟩
      · have h := inner_alike v hr
        revert h
        cases innerType P v st <;> cases innerType P v st' <;> intro h <;> simp_all [Alike]
  | .star e, st, st', hr => inner_alike e hr
  | .struct, _, _, _ => trivial
  | .other, _, _, hr => ⟨rfl, hr⟩

theorem apply_alike {set : MarkerSet} (h : Orderly set) (s : Schema) (st st' : GState) : (st.apply marshal σ set s).1 = (st'.apply marshal σ' set s).1 := by
  unfold GState.apply
  rw [C25_deterministic_partial marshal set h (σ st.tick) (σ' st'.tick) s]

theorem apply_reqs (set : MarkerSet) (s : Schema) (st : GState) : (st.apply marshal σ set s).2.reqs = st.reqs := rfl

theorem field_alike {f : Field} (h : Orderly f.markers) {st st' : GState} (hq : st.reqs = st'.reqs) : Alike (fieldSchema marshal σ P f st) (fieldSchema marshal σ' P f st') := by
  unfold fieldSchema
  have hr : Alike (if f.markers.has "kubebuilder:validation:Schemaless" then .ok (.empty, st) else innerType P f.type st) (if f.markers.has "kubebuilder:validation:Schemaless" then .ok (.empty, st') else innerType P f.type st') := by
    split
    · exact ⟨rfl, hq⟩
    · exact inner_alike _ hq
  simp only
  revert hr
  generalize (if f.markers.has "kubebuilder:validation:Schemaless" then (.ok (.empty, st) : GRes) else innerType P f.type st) = r
  generalize (if f.markers.has "kubebuilder:validation:Schemaless" then (.ok (.empty, st') : GRes) else innerType P f.type st') = r'
  intro hr
  match r, r', hr with
  | .error _, .error _, _ => trivial
  | .ok (s, g), .ok (s', g'), hr =>
    obtain ⟨rfl, hr1⟩ := (show s = s' ∧ g.reqs = g'.reqs from hr)
    exact ⟨apply_alike h _ _ _, hr1⟩

/-- The same for structs. -/
def AlikeFields : Except Panic ((List String × List (String × Schema) × List Schema) × GState) → Except Panic ((List String × List (String × Schema) × List Schema) × GState) → Prop
  | .ok (x, g), .ok (x', g') => x = x' ∧ g.reqs = g'.reqs
  | .error _, .error _ => True
  | _, _ => False

theorem fields_alike : ∀ {fs : List Field}, (∀ f ∈ fs, Orderly f.markers) → ∀ (req : List String) (props : List (String × Schema)) (all : List Schema) {st st' : GState}, st.reqs = st'.reqs →
    AlikeFields (structFields marshal σ P fs req props all st) (structFields marshal σ' P fs req props all st')
  | [], _, _, _, _, _, _, hq => ⟨rfl, hq⟩
  | f :: fs, h, req, props, all, st, st', hq => by
    have ih := fields_alike (fs := fs) fun g hg => h g (List.mem_cons_of_mem _ hg)
    rw [structFields, structFields]
    by_cases hx : f.name ≠ "" ∧ P.ignoreUnexportedFields ∧ P.exported f.name = false
    · rw [if_pos hx, if_pos hx]; exact ih _ _ _ hq
    · rw [if_neg hx, if_neg hx]
      cases f.tag with
      | none => exact ih _ _ _ hq
      | some tag =>
        simp only
        cases jsonOpts tag with
        | none => exact ih _ _ _ hq
        | some o =>
          simp only
          have hf := field_alike (marshal := marshal) (σ := σ) (σ' := σ') (P := P) (h f List.mem_cons_self) hq
          revert hf
          cases fieldSchema marshal σ P f st with
          | error p => cases fieldSchema marshal σ' P f st' with
            | error p => exact fun _ => trivial
            | ok r => exact False.elim
          | ok r => cases fieldSchema marshal σ' P f st' with
            | error p => exact False.elim
            | ok r' =>
              obtain ⟨s, g⟩ := r
              obtain ⟨s', g'⟩ := r'
              intro hf
              obtain ⟨rfl, hf1⟩ := (show s = s' ∧ g.reqs = g'.reqs from hf)
              simp only
              split <;> exact ih _ _ _ hf1

theorem struct_alike {d : Decl} (h : OrderlyDecl d) {st st' : GState} (hq : st.reqs = st'.reqs) : Alike (structToSchema marshal σ P d st) (structToSchema marshal σ' P d st') := by
  unfold structToSchema
  have hf := fields_alike (marshal := marshal) (σ := σ) (σ' := σ') (P := P) h.fields [] [] [] hq
  revert hf
  cases structFields marshal σ P d.fields [] [] [] st with
  | error p => cases structFields marshal σ' P d.fields [] [] [] st' with
    | error p => exact fun _ => trivial
    | ok r => exact False.elim
  | ok r => cases structFields marshal σ' P d.fields [] [] [] st' with
    | error p => exact False.elim
    | ok r' =>
      obtain ⟨⟨a, b, c⟩, g⟩ := r
      obtain ⟨⟨a', b', c'⟩, g'⟩ := r'
      intro hf
      obtain ⟨e, hf1⟩ := (show (a, b, c) = (a', b', c') ∧ g.reqs = g'.reqs from hf)
      cases e
      exact ⟨rfl, hf1⟩

theorem grfinish_alike {d : Decl} (h : OrderlyDecl d) {r r' : GRes} (ha : Alike r r') : Alike (GRes.finish marshal σ d r) (GRes.finish marshal σ' d r') := by
  match r, r', ha with
  | .error _, .error _, _ => trivial
  | .ok (s, st), .ok (s', st'), ha =>
    obtain ⟨rfl, ha1⟩ := (show s = s' ∧ st.reqs = st'.reqs from ha)
    exact ⟨apply_alike h.type _ _ _, ha1⟩

theorem declType_alike {d : Decl} (h : OrderlyDecl d) : ∀ (e : TExpr) (top : Bool) {st st' : GState}, st.reqs = st'.reqs → Alike (declType marshal σ P d top e st) (declType marshal σ' P d top e st')
  | .other, top, st, st', hq => by cases top <;> exact ⟨rfl, hq⟩
  | .star x, top, st, st', hq => by
    have ih := declType_alike h x false hq
    cases top <;> exact grfinish_alike h ih
  | .struct, true, st, st', hq => grfinish_alike h (struct_alike h hq)
  | .struct, false, st, st', hq => grfinish_alike h (show Alike (.ok _) (.ok _) from ⟨rfl, hq⟩)
  | .ident n, top, st, st', hq => by cases top <;> exact grfinish_alike h (inner_alike _ hq)
  | .selector x n, top, st, st', hq => by cases top <;> exact grfinish_alike h (inner_alike _ hq)
  | .array l x, top, st, st', hq => by cases top <;> exact grfinish_alike h (inner_alike _ hq)
  | .map k v, top, st, st', hq => by cases top <;> exact grfinish_alike h (inner_alike _ hq)

/-- The schema of a declaration with orderly markers, and what it requests, do not depend on the order of maps, nor on what has been generated before. -/
theorem info_alike {d : Decl} (h : OrderlyDecl d) {st st' : GState} (hq : st.reqs = st'.reqs) : Alike (infoToSchema marshal σ P d st) (infoToSchema marshal σ' P d st') := by
  unfold infoToSchema
  split
  · have e := apply_alike (marshal := marshal) (σ := σ) (σ' := σ') h.type .empty st st'
    have er := apply_reqs (marshal := marshal) (σ := σ) d.markers .empty st
    have er' := apply_reqs (marshal := marshal) (σ := σ') d.markers .empty st'
    cases h1 : st.apply marshal σ d.markers .empty with
    | mk s g => cases h2 : st'.apply marshal σ' d.markers .empty with
      | mk s' g' =>
        rw [h1, h2] at e
        rw [h1] at er
        rw [h2] at er'
        have hg : g.reqs = g'.reqs := by rw [er, er', hq]
        cases (show s = s' from e)
        simp only
        split
        · exact ⟨rfl, hg⟩
        · exact declType_alike h _ _ hg
  · split
    · have e := apply_alike (marshal := marshal) (σ := σ) (σ' := σ') h.type (.leaf { type := "string" }) st st'
      refine ⟨e, ?_⟩
      split <;> split <;> exact hq
    · exact declType_alike h _ _ hq

/-! ## Two runs -/

/-- The schemas of the types that both know are the same. -/
structure Agree (env env' : Env) : Prop where
  imports : env'.imports = env.imports
  raw : ∀ id u u', env.raw id = some u → env'.raw id = some u' → u' = u

theorem agree_of {S : Src} {p p' : PState} (h : PInv S marshal σ [] p) (h' : PInv S marshal σ' [] p') (ho : ∀ id d, S.declOf id = some d → OrderlyDecl d) : Agree (envOf S p) (envOf S p') := by
  refine ⟨rfl, fun id u u' hu hu' => ?_⟩
  have hu : GoMap.get p.schemata id = some u := hu
  have hu' : GoMap.get p'.schemata id = some u' := hu'
  rcases h.own id u hu (by simp) with hf | ⟨hm, d, t, g, hd, hg, -⟩
  · rcases h'.own id u' hu' (by simp) with hf' | ⟨hm', -⟩
    · rw [hf] at hf'; cases hf'; rfl
    · rw [(h'.made id hm').2] at hf; cases hf
  · rcases h'.own id u' hu' (by simp) with hf' | ⟨hm', d', t', g', hd', hg', -⟩
    · rw [(h.made id hm).2] at hf'; cases hf'
    · rw [hd] at hd'
      cases hd'
      have := info_alike (marshal := marshal) (σ := σ) (σ' := σ') (P := S.ctx id.pkg) (ho id d hd) (st := { tick := t }) (st' := { tick := t' }) rfl
      rw [hg, hg'] at this
      exact (show u = u' ∧ _ from this).1.symm

theorem find_agree {env env' : Env} (h : Agree env env') (r q : String) : env'.find r q = env.find r q := by
  unfold Env.find
  rw [h.imports]

theorem leads_agree {env env' : Env} (h : Agree env env') {q r : String} {id id' : TypeIdent} {u u' : Schema} (hl : Leads env q r id u) (hl' : Leads env' q r id' u') : id' = id ∧ u' = u := by
  have e : id' = id := by
    have := hl'.1
    rw [find_agree h, hl.1] at this
    cases this; rfl
  subst e
  exact ⟨rfl, h.raw _ _ _ hl.2 hl'.2⟩

/-- Two environments that agree give the same schema without references. -/
theorem expand_agree {env env' : Env} (ha : Agree env env') {q : String} {s t : Schema} (h : Expand env q s t) : ∀ t', AllKeys env q s → Expand env' q s t' → t' = t := by
  induction h with
  | @plain q s t g hr hf hc _ ih =>
    intro t' hk h'
    cases h' with
    | plain g' hr' hf' hc' he' =>
      apply schema_ext (hk _ _ .refl) hf' hf
      intro p
      rw [hc, hc']
      cases hp : s.child p with
      | none => rfl
      | some c =>
        rw [Option.map_some, Option.map_some, ih p c hp (g' p) (keysReach hk (.child .refl (child_of_step hp))) (he' p c hp)]
    | ref hr' _ _ _ => rw [hr] at hr'; cases hr'
  | @ref q s r id u t hr hl hb _ ih =>
    intro t' hk h'
    cases h' with
    | plain g' hr' hf' hc' he' => rw [hr] at hr'; cases hr'
    | @ref _ _ r' id' u' t'' hr' hl' _ he' =>
      rw [hr] at hr'; cases hr'
      obtain ⟨rfl, rfl⟩ := leads_agree ha hl hl'
      rw [ih t'' (keysReach hk (.ref .refl hr hl)) he']

/-! ## What is loaded -/

/-- The packages and the types with a schema are among those of the other state. -/
structure Within (st t : PState) : Prop where
  packages : ∀ p ∈ st.packages, p ∈ t.packages
  keys : ∀ id, (GoMap.get st.schemata id).isSome → (GoMap.get t.schemata id).isSome

theorem Within.trans {a b c : PState} (h : Within a b) (h' : PState.Le b c) : Within a c :=
  ⟨fun p hp => h'.packages p (h.packages p hp), fun id hk => h'.some (h.keys id hk)⟩

theorem within_put {st st1 t : PState} (h : Within st t) {id : TypeIdent} (hk : (GoMap.get t.schemata id).isSome) {s : Schema} (hp : st1.packages = st.packages) (hs : st1.schemata = GoMap.put st.schemata id s) :
    Within st1 t := by
  refine ⟨fun p hpp => h.packages p (hp ▸ hpp), fun i hi => ?_⟩
  rw [hs, GoMap.get_put] at hi
  split at hi
  · rename_i e; subst e; exact hk
  · exact h.keys i hi

section
variable {S : Src} {t : PState} (ht : PInv S marshal σ' [] t) (he : t.errs = 0) (ho : ∀ id d, S.declOf id = some d → OrderlyDecl d)
include ht

theorem key_package {id : TypeIdent} (h : (GoMap.get t.schemata id).isSome) : id.pkg ∈ t.packages := by
  apply Decidable.byContradiction
  intro hn
  rw [(ht.outside id hn).1] at h
  cases h

theorem needPackage_within {W : List TypeIdent} {st : PState} (hi : PInv S marshal σ W st) (hw : Within st t) {pkg : String} (hp : pkg ∈ t.packages) : Within (S.needPackage pkg st) t := by
  obtain ⟨-, -, -, h4⟩ := needPackage_rest (S := S) pkg st
  refine ⟨fun p hpp => ?_, fun id hid => ?_⟩
  · rcases (h4 p).1 hpp with rfl | h
    · exact hp
    · exact hw.packages p h
  · by_cases hn : pkg ∈ st.packages
    · rw [Src.needPackage, if_pos hn] at hid
      exact hw.keys id hid
    · rw [needPackage_schemata hn (fun id hid => (hi.outside id (hid ▸ hn)).1)] at hid
      split at hid
      · rename_i e
        obtain ⟨s, hs⟩ := Option.isSome_iff_exists.1 hid
        rw [ht.fixed id s (e ▸ hp) hs]; rfl
      · exact hw.keys id hid

include he ho

/-- A schema is asked for that is there in a state without errors: then everything that is loaded and generated for it is there, too. -/
theorem need_within : ∀ (n : Nat) {W : List TypeIdent} {id : TypeIdent} {st st' : PState}, PInv S marshal σ W st → Within st t → (GoMap.get t.schemata id).isSome → S.need marshal σ n id st = .ok st' → Within st' t
  | 0, _, _, _, _, _, _, _, h => by cases h
  | n + 1, W, id, st, st', hi, hw, hk, h => by
    rw [Src.need] at h
    unfold Src.needStep at h
    simp only at h
    have hpk := key_package ht hk
    have hi1 := needPackage_inv hi id.pkg
    have hw1 := needPackage_within ht hi hw hpk
    have hin : id.pkg ∈ (S.needPackage id.pkg st).packages := ((needPackage_rest (S := S) id.pkg st).2.2.2 _).2 (.inl rfl)
    generalize S.needPackage id.pkg st = st1 at h hi1 hw1 hin
    split at h
    · cases h; exact hw1
    · rename_i hnone
      split at h
      · cases h; exact ⟨hw1.packages, hw1.keys⟩
      · rename_i d hd
        have hfix : S.fixedOf id = none := by
          cases hf : S.fixedOf id with
          | none => rfl
          | some s => rw [hi1.fixed id s hin hf] at hnone; cases hnone
        rw [hi1.types id hin] at hd
        split at h
        · cases h
        · rename_i s g hg
          split at h
          · cases h
          · rename_i st2 hreq
            cases h
            obtain ⟨u, hu⟩ := Option.isSome_iff_exists.1 hk
            rcases ht.own id u hu (by simp) with hf | ⟨-, d', t', g', hd', hg', -, hr⟩
            · rw [hfix] at hf; cases hf
            · rw [hd] at hd'; cases hd'
              have ha := info_alike (marshal := marshal) (σ := σ) (σ' := σ') (P := S.ctx id.pkg) (ho id d hd) (st := { tick := st1.tick }) (st' := { tick := t' }) rfl
              rw [hg, hg'] at ha
              have hq : g.reqs = g'.reqs := (show s = u ∧ _ from ha).2
              have all : ∀ (rs : List (String × String)) {W : List TypeIdent} {a b : PState}, (∀ r ∈ rs, ∃ q, S.target id.pkg r.1 = some q ∧ (t.errs = 0 → (GoMap.get t.schemata ⟨q, r.2⟩).isSome)) →
                  PInv S marshal σ W a → Within a t → S.requests (S.need marshal σ n) id.pkg rs a = .ok b → Within b t := by
                intro rs
                induction rs with
                | nil => intro W a b _ _ hw h; cases h; exact hw
                | cons r rs ih =>
                  intro W a b hrs ha hw h
                  rw [Src.requests] at h
                  obtain ⟨q, hq, hqk⟩ := hrs r List.mem_cons_self
                  unfold Src.request at h
                  rw [hq] at h
                  simp only at h
                  split at h
                  · cases h
                  · rename_i a1 h1
                    exact ih (fun r hr => hrs r (List.mem_cons_of_mem _ hr)) (need_fine n W _ _ _ ha h1).1 (need_within n ha hw (hqk he) h1) h
              have hw2 := all g.reqs (fun r hr' => hr r (hq ▸ hr')) (start_inv hi1 hnone hin hfix) (within_put hw1 hk rfl rfl) hreq
              exact within_put hw2 hk rfl rfl
end

end Verif.Crd

import Verif.Crd.FlatTerm

/-! # No references are left -/
namespace Verif.Crd
open Spec

theorem noRef_iff {s : Schema} : NoRef s ↔ s.base.ref = none ∧ ∀ p c, s.child p = some c → NoRef c := by
  constructor
  · intro h
    refine ⟨h [] s rfl, fun p c hc q t ht => h (p :: q) t ?_⟩
    rw [Schema.at, hc]; exact ht
  · rintro ⟨h1, h2⟩ p t ht
    cases p with
    | nil => rw [Schema.at] at ht; cases ht; exact h1
    | cons p q =>
      rw [Schema.at] at ht
      obtain ⟨c, hc, ht⟩ := Option.bind_eq_some_iff.1 ht
      exact h2 p c hc q t ht

theorem child_preserve (dst src : Schema) (p : Step) (c : Schema) (h : (preserveFields dst src).child p = some c) : c = dst ∨ c = stripField src := by
  cases p with
  | allOf n =>
    have : c ∈ [dst, stripField src] := List.mem_of_getElem? h
    simpa using this
  | _ => simp [preserveFields, Schema.child, Schema.items, Schema.oneOf, Schema.anyOf, Schema.not, Schema.properties,
        Schema.additionalProperties, Schema.patternProperties, Schema.dependencies, Schema.additionalItems, Schema.definitions] at h

theorem child_strip (s : Schema) (p : Step) : (stripField s).child p = s.child p := by
  cases s; cases p <;> rfl

theorem noRef_preserve {dst src : Schema} (hd : NoRef dst) (hs : ∀ p c, src.child p = some c → NoRef c) : NoRef (preserveFields dst src) := by
  rw [noRef_iff]
  refine ⟨rfl, fun p c hc => ?_⟩
  rcases child_preserve dst src p c hc with rfl | rfl
  · exact hd
  · rw [noRef_iff]
    refine ⟨by cases src; rfl, fun p c hc => hs p c (child_strip src p ▸ hc)⟩

theorem noRef_empty : NoRef Schema.empty := by
  rw [noRef_iff]
  refine ⟨rfl, fun p c hc => ?_⟩
  cases p <;> simp [Schema.empty, Schema.leaf, Schema.child, Schema.items, Schema.allOf, Schema.oneOf, Schema.anyOf, Schema.not, Schema.properties,
        Schema.additionalProperties, Schema.patternProperties, Schema.dependencies, Schema.additionalItems, Schema.definitions] at hc

theorem refOf_some {s : Schema} {r : String} : s.refOf = some r ↔ s.base.ref = some r ∧ r ≠ "" := by
  unfold Schema.refOf
  split
  · rename_i h; simp [h]
  · rename_i r' h
    rw [h]
    by_cases hr : r' = ""
    · rw [if_pos hr]; subst hr; constructor
      · nofun
      · rintro ⟨h1, h2⟩; cases h1; exact absurd rfl h2
    · rw [if_neg hr]; constructor
      · intro h; cases h; exact ⟨rfl, hr⟩
      · rintro ⟨h1, h2⟩; exact h1

theorem refOf_none {s : Schema} (h : s.refOf = none) : s.base.ref = none ∨ s.base.ref = some "" := by
  unfold Schema.refOf at h
  split at h
  · rename_i h'; exact .inl h'
  · rename_i r h'
    split at h
    · rename_i hr; rw [h', hr]; exact .inr rfl
    · cases h

theorem Reach.trans {env : Env} {pkg q q' : String} {s t u : Schema} (h : Reach env pkg s q t) (h' : Reach env q t q' u) : Reach env pkg s q' u := by
  induction h' with
  | refl => exact h
  | child _ hc ih => exact .child ih hc
  | ref _ hr hl ih => exact .ref ih hr hl

theorem _root_.Verif.Crd.Spec.Good.reach {env : Env} {pkg q : String} {s t : Schema} (h : Good env pkg s) (hr : Reach env pkg s q t) : Good env q t :=
  ⟨fun q' t' r h' => h.closed q' t' r (Reach.trans hr h'), fun q' t' r c h' => h.bare q' t' r c (Reach.trans hr h'),
   fun q' t' rs h' => h.distinct q' t' rs (Reach.trans hr h')⟩

theorem _root_.Verif.Crd.Spec.Good.child {env : Env} {pkg : String} {s c : Schema} {p : Step} (h : Good env pkg s) (hc : s.child p = some c) : Good env pkg c :=
  h.reach (.child .refl (child_of_step hc))

theorem _root_.Verif.Crd.Spec.Good.ref {env : Env} {pkg r : String} {s u : Schema} {id : TypeIdent} (h : Good env pkg s) (hr : s.base.ref = some r) (hl : Leads env pkg r id u) : Good env id.pkg u :=
  h.reach (.ref .refl hr hl)

/-- The cached schemas have no references. -/
def CacheOk (cache : List (TypeIdent × Schema)) : Prop := ∀ id c, GoMap.get cache id = some c → NoRef c

theorem CacheOk.put {cache : List (TypeIdent × Schema)} (h : CacheOk cache) {id : TypeIdent} {c : Schema} (hc : NoRef c) : CacheOk (GoMap.put cache id c) := by
  intro id' c' h'
  rw [GoMap.get_put] at h'
  split at h'
  · cases h'; exact hc
  · exact h id' c' h'

theorem walkRefs_noRef (env : Env) (σ : Sched) (e : Nat) : ∀ n pkg seen s st, Good env pkg s → CacheOk st.cache → st.errs = e →
    (∀ r rs, s.base.ref = some r → Chain env pkg s (r :: rs) → ∀ x ∈ rs, x ∉ seen) →
    Res (fun s' st' => NoRef s' ∧ CacheOk st'.cache ∧ st'.errs = e) (· = .deep) (walkRefs env σ n pkg seen s st) := by
  intro n
  induction n with
  | zero => intro pkg seen s st _ _ _ _; exact rfl
  | succ n ih =>
    intro pkg seen s st hg hok herr hseen
    have kids : ∀ q (t : Schema) (st : FState), Good env q t → t.base.ref = none → CacheOk st.cache → st.errs = e →
        Res (fun s' st' => NoRef s' ∧ CacheOk st'.cache ∧ st'.errs = e) (· = .deep) (walkKids σ (fun c => walkRefs env σ n q c.base.ref.toList c) t st) := by
      intro q t st hg ht hok herr
      refine (walkKids_ok (P := fun st => CacheOk st.cache ∧ st.errs = e) (Q := fun _ c' => NoRef c') t st ⟨hok, herr⟩
        (fun p c st' hc hu' => ?_)).imp (fun s' _ h => ⟨?_, h.1⟩) (fun _ h => h)
      · refine (ih q c.base.ref.toList c st' (hg.child hc) hu'.1 hu'.2 ?_).imp (fun _ _ h => h) (fun _ h => h)
        intro r rs hr hch x hx
        have := hg.distinct q c _ (.child .refl (child_of_step hc)) hch
        rw [hr]
        simp only [Option.toList_some, List.mem_singleton]
        rintro rfl
        exact (List.nodup_cons.1 this).1 hx
      · rw [noRef_iff, h.2.1]
        refine ⟨ht, fun p c hc => ?_⟩
        cases hcs : t.child p with
        | none => rw [h.2.2.1 p hcs] at hc; cases hc
        | some d =>
          obtain ⟨c', hc', hn⟩ := h.2.2.2 p d hcs
          rw [hc'] at hc; cases hc; exact hn
    rw [walkRefs]
    cases hr : s.refOf with
    | none =>
      simp only
      rcases refOf_none hr with h | h
      · exact kids pkg s st hg h hok herr
      · exact absurd rfl (hg.closed _ _ _ .refl h).1
    | some r =>
      simp only
      obtain ⟨hr, -⟩ := refOf_some.1 hr
      obtain ⟨-, id, u, hl⟩ := hg.closed _ _ _ .refl hr
      have hch := fun p c hc => hg.bare _ _ _ c .refl hr (child_of_step (p := p) hc)
      rw [hl.1]
      simp only
      cases hca : GoMap.get st.cache id with
      | some c => exact ⟨noRef_preserve (hok _ _ hca) hch, hok, herr⟩
      | none =>
        simp only [hl.2]
        have fin : ∀ res : FRes, Res (fun s' st' => NoRef s' ∧ CacheOk st'.cache ∧ st'.errs = e) (· = .deep) res →
            Res (fun s' st' => NoRef s' ∧ CacheOk st'.cache ∧ st'.errs = e) (· = .deep) (match res with
              | .error e => (.error e : FRes)
              | .ok (t, st2) => .ok (preserveFields t s, { st2 with cache := GoMap.put st2.cache id t })) := by
          intro res h
          cases res with
          | error e => exact h
          | ok x =>
            obtain ⟨t, st2⟩ := x
            exact ⟨noRef_preserve h.1 hch, h.2.1.put h.1, h.2.2⟩
        apply fin
        have hgu := hg.ref hr hl
        cases hrr : u.refOf with
        | none =>
          rcases refOf_none hrr with h | h
          · exact kids id.pkg u _ hgu h (hok.put noRef_empty) herr
          · exact absurd rfl (hgu.closed _ _ _ .refl h).1
        | some r' =>
          obtain ⟨hr', -⟩ := refOf_some.1 hrr
          have hse : r' ∉ seen := hseen r [r'] hr (.cons hr hl (.one hr')) r' (List.mem_singleton.2 rfl)
          simp only
          rw [if_neg hse]
          refine ih id.pkg (r' :: seen) u _ hgu (hok.put noRef_empty) herr ?_
          intro r'' rs hr'' hch' x hx hx'
          rw [hr'] at hr''; cases hr''
          rcases List.mem_cons.1 hx' with rfl | hx'
          · exact (List.nodup_cons.1 (hgu.distinct _ _ _ .refl hch')).1 hx
          · exact hseen r (r' :: rs) hr (.cons hr hl hch') x (List.mem_cons_of_mem _ hx) hx'

/-- From the top. -/
theorem flattenSchema_noRef (env : Env) (σ : Sched) {s : Schema} {pkg : String} {st : FState} (hg : Good env pkg s) (hok : CacheOk st.cache) :
    ∃ s' st', flattenSchema env σ s pkg st = .ok (s', st') ∧ NoRef s' ∧ CacheOk st'.cache ∧ st'.errs = st.errs := by
  have h := walkRefs_noRef env σ st.errs (env.bound s) pkg s.base.ref.toList s st hg hok rfl (by
    intro r rs hr hch x hx
    have := hg.distinct _ _ _ .refl hch
    rw [hr]
    simp only [Option.toList_some, List.mem_singleton]
    rintro rfl
    exact (List.nodup_cons.1 this).1 hx)
  have hb := bound_enough env σ pkg s.base.ref.toList s st
  unfold flattenSchema
  cases hx : walkRefs env σ (env.bound s) pkg s.base.ref.toList s st with
  | error e =>
    rw [hx] at h hb
    obtain rfl : e = .deep := h
    exact absurd rfl hb
  | ok r =>
    obtain ⟨s', st'⟩ := r
    rw [hx] at h
    exact ⟨s', st', rfl, h⟩

theorem flattenType_noRef (env : Env) (σ : Sched) {id : TypeIdent} {s : Schema} {st : FState} (hr : env.raw id = some s) (hg : Good env id.pkg s) (hok : CacheOk st.cache) :
    ∃ s' st', flattenType env σ id st = .ok (some s', st') ∧ NoRef s' ∧ CacheOk st'.cache ∧ st'.errs = st.errs := by
  unfold flattenType
  cases hc : GoMap.get st.cache id with
  | some c => exact ⟨c, st, rfl, hok _ _ hc, hok, rfl⟩
  | none =>
    simp only [hr]
    obtain ⟨s', st', h, h1, h2, h3⟩ := flattenSchema_noRef env σ hg hok
    rw [h]
    exact ⟨s', _, rfl, h1, h2.put h1, h3⟩

theorem flattenTypes_noRef (env : Env) (σ : Sched) : ∀ (ids : List TypeIdent) (st : FState), (∀ id ∈ ids, ∃ s, env.raw id = some s ∧ Good env id.pkg s) → CacheOk st.cache →
    ∃ ts st', flattenTypes env σ ids st = .ok (ts, st') ∧ (∀ o ∈ ts, ∃ t, o = some t ∧ NoRef t) ∧ ts.length = ids.length ∧ CacheOk st'.cache ∧ st'.errs = st.errs := by
  intro ids
  induction ids with
  | nil => intro st _ hok; exact ⟨[], st, rfl, nofun, rfl, hok, rfl⟩
  | cons id ids ih =>
    intro st h hok
    obtain ⟨s, hr, hg⟩ := h id (List.mem_cons_self ..)
    obtain ⟨s', st1, e1, n1, c1, r1⟩ := flattenType_noRef env σ hr hg hok
    obtain ⟨ts, st2, e2, n2, l2, c2, r2⟩ := ih st1 (fun i hi => h i (List.mem_cons_of_mem _ hi)) c1
    refine ⟨some s' :: ts, st2, by rw [flattenTypes, e1]; simp only [e2], ?_, by simp [l2], c2, r2.trans r1⟩
    intro o ho
    rcases List.mem_cons.1 ho with rfl | ho
    · exact ⟨s', rfl, n1⟩
    · exact n2 o ho

end Verif.Crd

import Verif.Crd.FlatCut

/-! # Flattening while the parser goes on adding types -/
namespace Verif.Crd
open Spec

/-- There are more types, and those that were there are still the same. -/
structure Env.Le (env env' : Env) : Prop where
  imports : env'.imports = env.imports
  raw : ∀ id u, env.raw id = some u → env'.raw id = some u

theorem Env.Le.refl (env : Env) : Env.Le env env := ⟨rfl, fun _ _ h => h⟩

theorem Env.Le.trans {a b c : Env} (h : Env.Le a b) (h' : Env.Le b c) : Env.Le a c := ⟨h'.imports.trans h.imports, fun id u hu => h'.raw id u (h.raw id u hu)⟩

variable {env env' : Env}

theorem find_le (h : Env.Le env env') (r pkg : String) : env'.find r pkg = env.find r pkg := by
  unfold Env.find
  rw [h.imports]

theorem leads_le (h : Env.Le env env') {q r : String} {id : TypeIdent} {u : Schema} (hl : Leads env q r id u) : Leads env' q r id u :=
  ⟨(find_le h r q).trans hl.1, h.raw _ _ hl.2⟩

theorem reach_le (h : Env.Le env env') {pkg q : String} {s t : Schema} (hr : Reach env pkg s q t) : Reach env' pkg s q t := by
  induction hr with
  | refl => exact .refl
  | child _ hc ih => exact .child ih hc
  | ref _ hr hl ih => exact .ref ih hr (leads_le h hl)

theorem chain_le (h : Env.Le env env') {q : String} {t : Schema} {rs : List String} (hc : Chain env q t rs) : Chain env' q t rs := by
  induction hc with
  | one hr => exact .one hr
  | cons hr hl _ ih => exact .cons hr (leads_le h hl) ih

theorem distinct_le (h : Env.Le env env') {pkg : String} {s : Schema} (hd : Distinct env' pkg s) : Distinct env pkg s :=
  fun q t rs hr hc => hd q t rs (reach_le h hr) (chain_le h hc)

theorem acyclic_le (h : Env.Le env env') {pkg : String} {s : Schema} (ha : AcyclicFrom env' pkg s) : AcyclicFrom env pkg s :=
  fun q t r id u hr href hl q' t' r' hr' href' e => ha q t r id u (reach_le h hr) href (leads_le h hl) q' t' r' (reach_le h hr') href' ((find_le h r' q').trans e)

theorem expand_le (h : Env.Le env env') {q : String} {s t : Schema} (he : Expand env q s t) : Expand env' q s t := by
  induction he with
  | plain g hr hf hc _ ih => exact .plain g hr hf hc ih
  | ref hr hl hb _ ih => exact .ref hr (leads_le h hl) hb ih

theorem approx_le (h : Env.Le env env') {q : String} {s t : Schema} (he : Approx env q s t) : Approx env' q s t := by
  induction he with
  | plain g hr hf hc _ ih => exact .plain g hr hf hc ih
  | ref hr hl hb _ ih => exact .ref hr (leads_le h hl) hb ih
  | cut hr hl hb => exact .cut hr (leads_le h hl) hb

/-- The types in the cache are known. -/
def CacheK (env : Env) (cache : List (TypeIdent × Schema)) : Prop := ∀ id c, GoMap.get cache id = some c → ∃ u, env.raw id = some u

theorem CacheK.put {cache : List (TypeIdent × Schema)} (h : CacheK env cache) {id : TypeIdent} {u : Schema} (hu : env.raw id = some u) (c : Schema) : CacheK env (GoMap.put cache id c) := by
  intro id' c' h'
  rw [GoMap.get_put] at h'
  split at h'
  · rename_i e; subst e; exact ⟨u, hu⟩
  · exact h id' c' h'

theorem walkRefs_known (env : Env) (σ : Sched) : ∀ n pkg seen s st, CacheK env st.cache → Res (fun _ st' => CacheK env st'.cache) (fun _ => True) (walkRefs env σ n pkg seen s st) := by
  intro n
  induction n with
  | zero => intro pkg seen s st _; trivial
  | succ n ih =>
    intro pkg seen s st hok
    have kids : ∀ q (t : Schema) (st : FState), CacheK env st.cache →
        Res (fun _ st' => CacheK env st'.cache) (fun _ => True) (walkKids σ (fun c => walkRefs env σ n q c.base.ref.toList c) t st) := by
      intro q t st hok
      have h := walkKids_ok (σ := σ) (f := fun c => walkRefs env σ n q c.base.ref.toList c) (P := fun st => CacheK env st.cache) (Q := fun _ _ => True) (bad := fun _ => True) t st hok
        (fun p c st' _ hu' => (ih q c.base.ref.toList c st' hu').imp (fun _ _ h => ⟨trivial, h⟩) (fun _ h => h))
      exact h.imp (fun _ _ h => h.1) (fun _ h => h)
    rw [walkRefs]
    cases hr : s.refOf with
    | none => exact kids pkg s st hok
    | some r =>
      simp only
      cases hf : env.find r pkg with
      | bad => exact hok
      | nilPkg => trivial
      | ok id =>
        simp only
        cases hca : GoMap.get st.cache id with
        | some c => exact hok
        | none =>
          simp only
          cases hu : env.raw id with
          | none => exact hok
          | some u =>
            have fin : ∀ res : FRes, Res (fun _ st' => CacheK env st'.cache) (fun _ => True) res →
                Res (fun _ st' => CacheK env st'.cache) (fun _ => True) (match res with
                  | .error e => (.error e : FRes)
                  | .ok (t, st2) => .ok (preserveFields t s, { st2 with cache := GoMap.put st2.cache id t })) := by
              intro res h
              cases res with
              | error e => trivial
              | ok x => exact CacheK.put h hu x.1
            apply fin
            have hok' := hok.put hu Schema.empty
            cases u.refOf with
            | none => exact kids _ _ _ hok'
            | some r' =>
              simp only
              split
              · exact kids _ _ _ hok'
              · exact ih _ _ _ _ hok'

theorem flattenType_known (env : Env) (σ : Sched) {id : TypeIdent} {st st' : FState} {o : Option Schema} (hok : CacheK env st.cache) (h : flattenType env σ id st = .ok (o, st')) :
    CacheK env st'.cache ∧ (o.isSome = true → ∃ u, env.raw id = some u) := by
  unfold flattenType at h
  cases hc : GoMap.get st.cache id with
  | some c => rw [hc] at h; cases h; exact ⟨hok, fun _ => hok _ _ hc⟩
  | none =>
    simp only [hc] at h
    cases hu : env.raw id with
    | none => simp only [hu] at h; cases h; exact ⟨hok, nofun⟩
    | some u =>
      simp only [hu] at h
      have := walkRefs_known env σ (env.bound u) id.pkg u.base.ref.toList u st hok
      unfold flattenSchema at h
      split at h
      · cases h
      · rename_i t st1 hw
        rw [hw] at this
        cases h
        exact ⟨CacheK.put this hu t, fun _ => ⟨u, rfl⟩⟩

/-- What is kept of the cache while the parser goes on. -/
structure CacheFine (env : Env) (cache : List (TypeIdent × Schema)) : Prop where
  known : CacheK env cache
  ok : CacheOk cache
  expand : CacheX env [] cache
  approx : CacheA env [] cache

theorem cacheFine_nil (env : Env) : CacheFine env [] := ⟨nofun, nofun, nofun, nofun⟩

theorem CacheFine.le {cache : List (TypeIdent × Schema)} (hc : CacheFine env cache) (h : Env.Le env env') : CacheFine env' cache := by
  have key : ∀ id c u, GoMap.get cache id = some c → env'.raw id = some u → env.raw id = some u := by
    intro id c u hg hu
    obtain ⟨u0, h0⟩ := hc.known id c hg
    rw [h.raw _ _ h0] at hu
    cases hu
    exact h0
  refine ⟨fun id c hg => ?_, hc.ok, fun id c u hg hu ha => ?_, fun id c u hg hu => ?_⟩
  · obtain ⟨u, hu⟩ := hc.known id c hg
    exact ⟨u, h.raw _ _ hu⟩
  · exact .inr (expand_le h ((hc.expand id c u hg (key id c u hg hu) (acyclic_le h ha)).resolve_left List.not_mem_nil))
  · rcases hc.approx id c u hg (key id c u hg hu) with ⟨h1, -⟩ | h1
    · cases h1
    · exact .inr (approx_le h h1)

/-- Flattening a type, with a cache that is fine. -/
theorem flattenType_fine (env : Env) (σ : Sched) {id : TypeIdent} {t : Schema} {st st' : FState} (hg : ∀ u, env.raw id = some u → Good env id.pkg u) (hc : CacheFine env st.cache)
    (h : flattenType env σ id st = .ok (some t, st')) :
    CacheFine env st'.cache ∧ st'.errs = st.errs ∧ ∃ u, env.raw id = some u ∧ NoRef t ∧ Approx env id.pkg u t ∧ (AcyclicFrom env id.pkg u → Expand env id.pkg u t) := by
  obtain ⟨k1, k2⟩ := flattenType_known env σ hc.known h
  obtain ⟨u, hu⟩ := k2 rfl
  obtain ⟨x1, x2⟩ := flattenType_expand env σ hu (hg u hu) hc.expand h
  obtain ⟨a1, a2⟩ := flattenType_approx env σ hu (hg u hu) hc.approx h
  obtain ⟨t0, st0, e, n1, o1, r1⟩ := flattenType_noRef env σ hu (hg u hu) hc.ok
  rw [h] at e
  cases e
  exact ⟨⟨k1, o1, x1, a1⟩, r1, u, hu, n1, a2, x2⟩

end Verif.Crd

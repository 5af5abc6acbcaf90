import Verif.Crd.FlatRefs

/-! # What flattening computes -/
namespace Verif.Crd
open Spec

/-- The two schemas have the same fields, apart from the schemas directly below them. -/
structure Frame (s t : Schema) : Prop where
  base : t.base = s.base
  items : t.items.isSome = s.items.isSome
  properties : t.properties.map (·.1) = s.properties.map (·.1)
  patternProperties : t.patternProperties.map (·.1) = s.patternProperties.map (·.1)
  definitions : t.definitions.map (·.1) = s.definitions.map (·.1)
  dependencies : t.dependencies.map (fun e => (e.1, e.2.property)) = s.dependencies.map (fun e => (e.1, e.2.property))
  additionalProperties : t.additionalProperties.map OrBool.allows = s.additionalProperties.map OrBool.allows
  additionalItems : t.additionalItems.map OrBool.allows = s.additionalItems.map OrBool.allows

theorem Frame.refl (s : Schema) : Frame s s := ⟨rfl, rfl, rfl, rfl, rfl, rfl, rfl, rfl⟩

theorem Frame.trans {s t u : Schema} (h : Frame s t) (h' : Frame t u) : Frame s u :=
  ⟨h'.1.trans h.1, h'.2.trans h.2, h'.3.trans h.3, h'.4.trans h.4, h'.5.trans h.5, h'.6.trans h.6, h'.7.trans h.7, h'.8.trans h.8⟩

theorem Frame.symm {s t : Schema} (h : Frame s t) : Frame t s :=
  ⟨h.1.symm, h.2.symm, h.3.symm, h.4.symm, h.5.symm, h.6.symm, h.7.symm, h.8.symm⟩

theorem keys_put {α : Type} {m : List (String × α)} {k : String} {v : α} (h : (m.lookup k).isSome) : (GoMap.put m k v).map (·.1) = m.map (·.1) := by
  induction m with
  | nil => simp at h
  | cons e m ih =>
    obtain ⟨k', v'⟩ := e
    rw [GoMap.put]
    by_cases hk : k' = k
    · simp [hk]
    · rw [if_neg hk, List.map_cons, List.map_cons, ih]
      rw [List.lookup_cons] at h
      have : (k == k') = false := by simpa using fun e => hk e.symm
      rw [this] at h; exact h

theorem keys_setDep {m : List (String × OrArray)} {k : String} {c : Schema} :
    (setDep m k c).map (fun e => (e.1, e.2.property)) = m.map (fun e => (e.1, e.2.property)) := by
  unfold setDep
  cases hg : GoMap.get m k with
  | none => rfl
  | some o =>
    obtain ⟨s, ps⟩ := o
    simp only
    induction m with
    | nil => simp [GoMap.get] at hg
    | cons e m ih =>
      obtain ⟨k', v'⟩ := e
      rw [GoMap.get] at hg
      rw [GoMap.put]
      by_cases hk : k' = k
      · rw [if_pos hk] at hg ⊢; cases hg; simp [hk, OrArray.property]
      · rw [if_neg hk] at hg ⊢; rw [List.map_cons, List.map_cons, ih hg]

theorem frame_set {s : Schema} {p : Step} {c : Schema} (h : (s.child p).isSome) : Frame s (s.set p c) := by
  obtain ⟨b, it, al, oo, an, nt, pr, ad, pa, de, ai, df⟩ := s
  cases p with
  | property k => exact ⟨rfl, rfl, keys_put h, rfl, rfl, rfl, rfl, rfl⟩
  | patternProperty k => exact ⟨rfl, rfl, rfl, keys_put h, rfl, rfl, rfl, rfl⟩
  | definition k => exact ⟨rfl, rfl, rfl, rfl, keys_put h, rfl, rfl, rfl⟩
  | dependency k => exact ⟨rfl, rfl, rfl, rfl, rfl, keys_setDep, rfl, rfl⟩
  | items =>
    refine ⟨rfl, ?_, rfl, rfl, rfl, rfl, rfl, rfl⟩
    cases it with
    | none => rfl
    | some i => cases i; rfl
  | itemsAt n =>
    refine ⟨rfl, ?_, rfl, rfl, rfl, rfl, rfl, rfl⟩
    cases it with
    | none => rfl
    | some i => cases i; rfl
  | additionalProperties =>
    refine ⟨rfl, rfl, rfl, rfl, rfl, rfl, ?_, rfl⟩
    cases ad with
    | none => rfl
    | some i => cases i; rfl
  | additionalItems =>
    refine ⟨rfl, rfl, rfl, rfl, rfl, rfl, rfl, ?_⟩
    cases ai with
    | none => rfl
    | some i => cases i; rfl
  | _ => exact ⟨rfl, rfl, rfl, rfl, rfl, rfl, rfl, rfl⟩

theorem walkSteps_frame {f : Schema → FState → FRes} : ∀ ps s st s' st', walkSteps f ps s st = .ok (s', st') → Frame s s' := by
  intro ps
  induction ps with
  | nil => intro s st s' st' h; rw [walkSteps] at h; cases h; exact .refl s
  | cons p ps ih =>
    intro s st s' st' h
    rw [walkSteps] at h
    cases hc : s.child p with
    | none => rw [hc] at h; exact ih _ _ _ _ h
    | some c =>
      rw [hc] at h
      simp only at h
      cases he : f c st with
      | error e => rw [he] at h; cases h
      | ok r =>
        obtain ⟨c', st''⟩ := r
        rw [he] at h
        exact (frame_set (by rw [hc]; rfl)).trans (ih _ _ _ _ h)

theorem map_ext {α β : Type} (g : α → β) {m m' : List (String × α)} (hk : m.map (·.1) = m'.map (·.1)) (hn : (m.map (·.1)).Nodup)
    (h : ∀ k, (m.lookup k).map g = (m'.lookup k).map g) : m.map (fun e => (e.1, g e.2)) = m'.map (fun e => (e.1, g e.2)) := by
  induction m generalizing m' with
  | nil =>
    cases m' with
    | nil => rfl
    | cons e m' => simp at hk
  | cons e m ih =>
    cases m' with
    | nil => simp at hk
    | cons e' m' =>
      obtain ⟨k, v⟩ := e
      obtain ⟨k', v'⟩ := e'
      simp only [List.map_cons, List.cons.injEq, List.nodup_cons] at hk hn
      obtain ⟨rfl, hk⟩ := hk
      have hv : g v = g v' := by simpa using h k
      rw [List.map_cons, List.map_cons, hv, ih hk hn.2]
      intro x
      by_cases hx : x = k
      · subst hx
        have h1 : m.lookup x = none := by
          cases hl : m.lookup x with
          | none => rfl
          | some y => exact absurd (List.mem_map.2 ⟨_, lookup_some_mem hl, rfl⟩) hn.1
        have h2 : m'.lookup x = none := by
          cases hl : m'.lookup x with
          | none => rfl
          | some y => exact absurd (hk ▸ List.mem_map.2 ⟨_, lookup_some_mem hl, rfl⟩) hn.1
        rw [h1, h2]
      · have := h x
        have hb : (x == k) = false := by simpa using hx
        simpa [List.lookup_cons, hb] using this

theorem deps_ext {m m' : List (String × OrArray)} (hk : m.map (fun e => (e.1, e.2.property)) = m'.map (fun e => (e.1, e.2.property))) (hn : (m.map (·.1)).Nodup)
    (h : ∀ k, (m.lookup k).bind OrArray.schema = (m'.lookup k).bind OrArray.schema) : m = m' := by
  induction m generalizing m' with
  | nil =>
    cases m' with
    | nil => rfl
    | cons e m' => simp at hk
  | cons e m ih =>
    cases m' with
    | nil => simp at hk
    | cons e' m' =>
      obtain ⟨k, s, p⟩ := e
      obtain ⟨k', s', p'⟩ := e'
      simp only [List.map_cons, List.cons.injEq, List.nodup_cons, Prod.mk.injEq, OrArray.property] at hk hn
      obtain ⟨⟨rfl, rfl⟩, hk⟩ := hk
      have hv : s = s' := by simpa [OrArray.schema] using h k
      have hk' : m.map (·.1) = m'.map (·.1) := by
        have := congrArg (List.map (·.1)) hk
        simp only [List.map_map] at this
        exact this
      subst hv
      rw [ih hk hn.2]
      intro x
      by_cases hx : x = k
      · subst hx
        have h1 : m.lookup x = none := by
          cases hl : m.lookup x with
          | none => rfl
          | some y => exact absurd (List.mem_map.2 ⟨_, lookup_some_mem hl, rfl⟩) hn.1
        have h2 : m'.lookup x = none := by
          cases hl : m'.lookup x with
          | none => rfl
          | some y => exact absurd (hk' ▸ List.mem_map.2 ⟨_, lookup_some_mem hl, rfl⟩) hn.1
        rw [h1, h2]
      · have := h x
        have hb : (x == k) = false := by simpa using hx
        simpa [List.lookup_cons, hb] using this

theorem map_ext' {m m' : List (String × Schema)} (hk : m.map (·.1) = m'.map (·.1)) (hn : (m.map (·.1)).Nodup) (h : ∀ k, m.lookup k = m'.lookup k) : m = m' := by
  have := map_ext id hk hn (fun k => by rw [h])
  simpa using this

/-- A schema is determined by its fields and the schemas directly below it. -/
theorem schema_ext {s t t' : Schema} (hk : Keys s) (h : Frame s t) (h' : Frame s t') (hc : ∀ p, t.child p = t'.child p) : t = t' := by
  have hf := h.symm.trans h'
  have e : Keys t := by
    refine ⟨h.properties ▸ hk.1, h.patternProperties ▸ hk.2, ?_, h.definitions ▸ hk.4⟩
    have := congrArg (List.map (·.1)) h.dependencies
    simp only [List.map_map] at this
    have h2 : t.dependencies.map (·.1) = s.dependencies.map (·.1) := this
    rw [h2]; exact hk.3
  obtain ⟨b, it, al, oo, an, nt, pr, ad, pa, de, ai, df⟩ := t
  obtain ⟨b', it', al', oo', an', nt', pr', ad', pa', de', ai', df'⟩ := t'
  have e1 : b = b' := hf.base.symm
  have e2 : it = it' := by
    have h1 := hf.items
    simp only [Schema.items_mk] at h1
    cases it with
    | none => cases it' with
      | none => rfl
      | some _ => cases h1
    | some i =>
      cases it' with
      | none => cases h1
      | some i' =>
        obtain ⟨s, l⟩ := i
        obtain ⟨s', l'⟩ := i'
        have h3 : s = s' := hc .items
        have h4 : l = l' := List.ext_getElem? fun n => hc (.itemsAt n)
        rw [h3, h4]
  have e3 : al = al' := List.ext_getElem? fun n => hc (.allOf n)
  have e4 : oo = oo' := List.ext_getElem? fun n => hc (.oneOf n)
  have e5 : an = an' := List.ext_getElem? fun n => hc (.anyOf n)
  have e6 : nt = nt' := hc .not
  have e7 : pr = pr' := map_ext' hf.properties.symm e.1 fun k => hc (.property k)
  have ob : ∀ {o o' : Option OrBool}, o.map OrBool.allows = o'.map OrBool.allows → o.bind OrBool.schema = o'.bind OrBool.schema → o = o' := by
    intro o o' h1 h2
    cases o with
    | none => cases o' with
      | none => rfl
      | some _ => cases h1
    | some i =>
      cases o' with
      | none => cases h1
      | some i' =>
        obtain ⟨a, s⟩ := i
        obtain ⟨a', s'⟩ := i'
        have h3 : a = a' := by simpa [OrBool.allows] using h1
        have h4 : s = s' := h2
        rw [h3, h4]
  have e8 : ad = ad' := ob hf.additionalProperties.symm (hc .additionalProperties)
  have e9 : pa = pa' := map_ext' hf.patternProperties.symm e.2 fun k => hc (.patternProperty k)
  have e10 : de = de' := deps_ext hf.dependencies.symm e.3 fun k => hc (.dependency k)
  have e11 : ai = ai' := ob hf.additionalItems.symm (hc .additionalItems)
  have e12 : df = df' := map_ext' hf.definitions.symm e.4 fun k => hc (.definition k)
  rw [e1, e2, e3, e4, e5, e6, e7, e8, e9, e10, e11, e12]

/-- The schema with its references replaced: a field with a reference becomes the allOf of the type and of the rest of the field. -/
inductive Expand (env : Env) : String → Schema → Schema → Prop
  | plain {q s t} (g : Step → Schema) : s.base.ref = none → Frame s t → (∀ p, t.child p = (s.child p).map fun _ => g p) →
      (∀ p c, s.child p = some c → Expand env q c (g p)) → Expand env q s t
  | ref {q s r id u t} : s.base.ref = some r → Leads env q r id u → (∀ c, Child s c → NoRef c) → Expand env id.pkg u t → Expand env q s (preserveFields t s)

theorem keysReach {env : Env} {pkg q : String} {s t : Schema} (h : AllKeys env pkg s) (hr : Reach env pkg s q t) : AllKeys env q t :=
  fun q' t' h' => h q' t' (Reach.trans hr h')

theorem acyclicReach {env : Env} {pkg q : String} {s t : Schema} (h : AcyclicFrom env pkg s) (hr : Reach env pkg s q t) : AcyclicFrom env q t :=
  fun q' t' r id u h' => h q' t' r id u (Reach.trans hr h')

theorem expand_unique {env : Env} {q : String} {s t : Schema} (h : Expand env q s t) : ∀ t', AllKeys env q s → Expand env q s t' → t' = t := by
  induction h with
  | @plain q s t g hr hf hc _ ih =>
    intro t' hk h'
    cases h' with
    | plain g' hr' hf' hc' he' =>
      apply schema_ext (hk _ _ .refl) hf' hf
      intro p
      rw [hc, hc']
      cases hp : s.child p with
      | none => rfl
      | some c =>
        rw [Option.map_some, Option.map_some, ih p c hp (g' p) (keysReach hk (.child .refl (child_of_step hp))) (he' p c hp)]
    | ref hr' _ _ _ => rw [hr] at hr'; cases hr'
  | @ref q s r id u t hr hl hb _ ih =>
    intro t' hk h'
    cases h' with
    | plain g' hr' hf' hc' he' => rw [hr] at hr'; cases hr'
    | @ref _ _ r' id' u' t'' hr' hl' _ he' =>
      rw [hr] at hr'; cases hr'
      have h1 := hl.1.symm.trans hl'.1
      simp only [Found.ok.injEq] at h1; subst h1
      have h2 := hl.2.symm.trans hl'.2
      simp only [Option.some.injEq] at h2; subst h2
      rw [ih t'' (keysReach hk (.ref .refl hr hl)) he']

/-- The cache holds the expansions of types that are not recursive, except for those being worked on. -/
def CacheX (env : Env) (stack : List TypeIdent) (cache : List (TypeIdent × Schema)) : Prop :=
  ∀ id c u, GoMap.get cache id = some c → env.raw id = some u → AcyclicFrom env id.pkg u → id ∈ stack ∨ Expand env id.pkg u c

theorem walkRefs_expand (env : Env) (σ : Sched) : ∀ n pkg seen s st stack, Good env pkg s → CacheX env stack st.cache →
    (∀ id ∈ stack, ∃ u, env.raw id = some u ∧ Reach env id.pkg u pkg s) →
    (∀ r rs, s.base.ref = some r → Chain env pkg s (r :: rs) → ∀ x ∈ rs, x ∉ seen) →
    Res (fun s' st' => CacheX env stack st'.cache ∧ (AcyclicFrom env pkg s → Expand env pkg s s')) (· = .deep) (walkRefs env σ n pkg seen s st) := by
  intro n
  induction n with
  | zero => intro pkg seen s st _ _ _ _ _; exact rfl
  | succ n ih =>
    intro pkg seen s st stack hg hok hst hseen
    have kids : ∀ q (t : Schema) (st : FState) stack, Good env q t → t.base.ref = none → CacheX env stack st.cache →
        (∀ id ∈ stack, ∃ u, env.raw id = some u ∧ Reach env id.pkg u q t) →
        Res (fun s' st' => CacheX env stack st'.cache ∧ (AcyclicFrom env q t → Expand env q t s')) (· = .deep)
          (walkKids σ (fun c => walkRefs env σ n q c.base.ref.toList c) t st) := by
      intro q t st stack hg ht hok hst
      have h := walkKids_ok (σ := σ) (f := fun c => walkRefs env σ n q c.base.ref.toList c) (P := fun st => CacheX env stack st.cache)
        (Q := fun c c' => AcyclicFrom env q c → Expand env q c c') (bad := (· = .deep)) t st hok (fun p c st' hc hu' => by
          refine (ih q c.base.ref.toList c st' stack (hg.child hc) hu' ?_ ?_).imp (fun _ _ h => ⟨h.2, h.1⟩) (fun _ h => h)
          · intro id hid
            obtain ⟨u, hu, hre⟩ := hst id hid
            exact ⟨u, hu, .child hre (child_of_step hc)⟩
          · intro r rs hr hch x hx
            have := hg.distinct q c _ (.child .refl (child_of_step hc)) hch
            rw [hr]
            simp only [Option.toList_some, List.mem_singleton]
            rintro rfl
            exact (List.nodup_cons.1 this).1 hx)
      cases hw : walkKids σ (fun c => walkRefs env σ n q c.base.ref.toList c) t st with
      | error e => rw [hw] at h; exact h
      | ok r =>
        obtain ⟨t', st'⟩ := r
        rw [hw] at h
        refine ⟨h.1, fun hac => ?_⟩
        have hfr : Frame t t' := walkSteps_frame _ _ _ _ _ hw
        refine .plain (fun p => (t'.child p).getD Schema.empty) ht hfr ?_ ?_
        · intro p
          cases hp : t.child p with
          | none => rw [h.2.2.1 p hp]; rfl
          | some c =>
            obtain ⟨c', hc', -⟩ := h.2.2.2 p c hp
            rw [hc']; rfl
        · intro p c hp
          obtain ⟨c', hc', hq⟩ := h.2.2.2 p c hp
          rw [hc']
          exact hq (acyclicReach hac (.child .refl (child_of_step hp)))
    rw [walkRefs]
    cases hr : s.refOf with
    | none =>
      simp only
      rcases refOf_none hr with h | h
      · exact kids pkg s st stack hg h hok hst
      · exact absurd rfl (hg.closed _ _ _ .refl h).1
    | some r =>
      simp only
      obtain ⟨hr, -⟩ := refOf_some.1 hr
      obtain ⟨-, id, u, hl⟩ := hg.closed _ _ _ .refl hr
      have hch := fun c => hg.bare _ _ _ c .refl hr
      rw [hl.1]
      simp only
      cases hca : GoMap.get st.cache id with
      | some c =>
        refine ⟨hok, fun hac => ?_⟩
        rcases hok id c u hca hl.2 (acyclicReach hac (.ref .refl hr hl)) with hin | hex
        · obtain ⟨u', hu', hre⟩ := hst id hin
          rw [hl.2] at hu'; cases hu'
          exact absurd hl.1 (hac _ _ _ _ _ .refl hr hl _ _ _ hre hr)
        · exact .ref hr hl hch hex
      | none =>
        simp only [hl.2]
        have fin : ∀ res : FRes, Res (fun s' st' => CacheX env (id :: stack) st'.cache ∧ (AcyclicFrom env id.pkg u → Expand env id.pkg u s')) (· = .deep) res →
            Res (fun s' st' => CacheX env stack st'.cache ∧ (AcyclicFrom env pkg s → Expand env pkg s s')) (· = .deep) (match res with
              | .error e => (.error e : FRes)
              | .ok (t, st2) => .ok (preserveFields t s, { st2 with cache := GoMap.put st2.cache id t })) := by
          intro res h
          cases res with
          | error e => exact h
          | ok x =>
            obtain ⟨t, st2⟩ := x
            refine ⟨?_, fun hac => .ref hr hl hch (h.2 (acyclicReach hac (.ref .refl hr hl)))⟩
            intro id' c' u' hg' hu' hac'
            simp only [GoMap.get_put] at hg'
            by_cases hid : id' = id
            · subst hid
              rw [if_pos rfl] at hg'; cases hg'
              rw [hl.2] at hu'; cases hu'
              exact .inr (h.2 hac')
            · rw [if_neg hid] at hg'
              rcases h.1 id' c' u' hg' hu' hac' with h1 | h1
              · exact .inl ((List.mem_cons.1 h1).resolve_left hid)
              · exact .inr h1
        apply fin
        have hgu := hg.ref hr hl
        have hok' : CacheX env (id :: stack) (GoMap.put st.cache id Schema.empty) := by
          intro id' c' u' hg' hu' hac'
          rw [GoMap.get_put] at hg'
          by_cases hid : id' = id
          · exact .inl (hid ▸ List.mem_cons_self ..)
          · rw [if_neg hid] at hg'
            rcases hok id' c' u' hg' hu' hac' with h1 | h1
            · exact .inl (List.mem_cons_of_mem _ h1)
            · exact .inr h1
        have hst' : ∀ id' ∈ id :: stack, ∃ u', env.raw id' = some u' ∧ Reach env id'.pkg u' id.pkg u := by
          intro id' hid'
          rcases List.mem_cons.1 hid' with rfl | hid'
          · exact ⟨u, hl.2, .refl⟩
          · obtain ⟨u', hu', hre⟩ := hst id' hid'
            exact ⟨u', hu', .ref hre hr hl⟩
        cases hrr : u.refOf with
        | none =>
          rcases refOf_none hrr with h | h
          · exact kids id.pkg u _ _ hgu h hok' hst'
          · exact absurd rfl (hgu.closed _ _ _ .refl h).1
        | some r' =>
          obtain ⟨hr', -⟩ := refOf_some.1 hrr
          have hse : r' ∉ seen := hseen r [r'] hr (.cons hr hl (.one hr')) r' (List.mem_singleton.2 rfl)
          simp only
          rw [if_neg hse]
          refine ih id.pkg (r' :: seen) u _ _ hgu hok' hst' ?_
          intro r'' rs hr'' hch' x hx hx'
          rw [hr'] at hr''; cases hr''
          rcases List.mem_cons.1 hx' with rfl | hx'
          · exact (List.nodup_cons.1 (hgu.distinct _ _ _ .refl hch')).1 hx
          · exact hseen r (r' :: rs) hr (.cons hr hl hch') x (List.mem_cons_of_mem _ hx) hx'

theorem flattenSchema_expand (env : Env) (σ : Sched) {s s' : Schema} {pkg : String} {st st' : FState} (hg : Good env pkg s) (hok : CacheX env [] st.cache)
    (h : flattenSchema env σ s pkg st = .ok (s', st')) : CacheX env [] st'.cache ∧ (AcyclicFrom env pkg s → Expand env pkg s s') := by
  have := walkRefs_expand env σ (env.bound s) pkg s.base.ref.toList s st [] hg hok nofun (by
    intro r rs hr hch x hx
    have := hg.distinct _ _ _ .refl hch
    rw [hr]
    simp only [Option.toList_some, List.mem_singleton]
    rintro rfl
    exact (List.nodup_cons.1 this).1 hx)
  unfold flattenSchema at h
  rw [h] at this
  exact this

theorem flattenType_expand (env : Env) (σ : Sched) {id : TypeIdent} {s s' : Schema} {st st' : FState} (hr : env.raw id = some s) (hg : Good env id.pkg s)
    (hok : CacheX env [] st.cache) (h : flattenType env σ id st = .ok (some s', st')) : CacheX env [] st'.cache ∧ (AcyclicFrom env id.pkg s → Expand env id.pkg s s') := by
  unfold flattenType at h
  cases hc : GoMap.get st.cache id with
  | some c =>
    rw [hc] at h
    cases h
    exact ⟨hok, fun hac => (hok id _ s hc hr hac).resolve_left (List.not_mem_nil)⟩
  | none =>
    rw [hc, hr] at h
    simp only at h
    cases hx : flattenSchema env σ s id.pkg st with
    | error e => rw [hx] at h; cases h
    | ok r =>
      obtain ⟨t, st2⟩ := r
      rw [hx] at h
      cases h
      obtain ⟨h1, h2⟩ := flattenSchema_expand env σ hg hok hx
      refine ⟨?_, h2⟩
      intro id' c' u' hg' hu' hac'
      simp only [GoMap.get_put] at hg'
      by_cases hid : id' = id
      · subst hid
        rw [if_pos rfl] at hg'; cases hg'
        rw [hr] at hu'; cases hu'
        exact .inr (h2 hac')
      · rw [if_neg hid] at hg'
        exact h1 id' c' u' hg' hu' hac'

theorem flattenTypes_expand (env : Env) (σ : Sched) : ∀ (ids : List TypeIdent) (st st' : FState) ts, (∀ id ∈ ids, ∃ s, env.raw id = some s ∧ Good env id.pkg s) →
    CacheOk st.cache → CacheX env [] st.cache → flattenTypes env σ ids st = .ok (ts, st') → CacheX env [] st'.cache ∧ CacheOk st'.cache := by
  intro ids
  induction ids with
  | nil => intro st st' ts _ hok hx h; rw [flattenTypes] at h; cases h; exact ⟨hx, hok⟩
  | cons id ids ih =>
    intro st st' ts h hok hx he
    obtain ⟨s, hr, hg⟩ := h id (List.mem_cons_self ..)
    obtain ⟨s', st1, e1, n1, c1, r1⟩ := flattenType_noRef env σ hr hg hok
    rw [flattenTypes, e1] at he
    simp only at he
    cases h2 : flattenTypes env σ ids st1 with
    | error e => rw [h2] at he; cases he
    | ok r =>
      obtain ⟨ts', st2⟩ := r
      rw [h2] at he
      cases he
      exact ih st1 st' ts' (fun i hi => h i (List.mem_cons_of_mem _ hi)) c1 (flattenType_expand env σ hr hg hx e1).1 h2

end Verif.Crd

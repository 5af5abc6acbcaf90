import Verif.Crd.FlatSem

/-! # Flattening types that may be recursive -/
namespace Verif.Crd
open Spec

/-- The schema with its references replaced, where some of them have been replaced by a schema without any condition. -/
inductive Approx (env : Env) : String → Schema → Schema → Prop
  | plain {q s t} (g : Step → Schema) : s.base.ref = none → Frame s t → (∀ p, t.child p = (s.child p).map fun _ => g p) →
      (∀ p c, s.child p = some c → Approx env q c (g p)) → Approx env q s t
  | ref {q s r id u t} : s.base.ref = some r → Leads env q r id u → (∀ c, Child s c → NoRef c) → Approx env id.pkg u t → Approx env q s (preserveFields t s)
  | cut {q s r id u} : s.base.ref = some r → Leads env q r id u → (∀ c, Child s c → NoRef c) → Approx env q s (preserveFields Schema.empty s)

/-- The cache holds approximations of the types, and nothing yet for those being worked on. -/
def CacheA (env : Env) (stack : List TypeIdent) (cache : List (TypeIdent × Schema)) : Prop :=
  ∀ id c u, GoMap.get cache id = some c → env.raw id = some u → (id ∈ stack ∧ c = Schema.empty) ∨ Approx env id.pkg u c

theorem walkRefs_approx (env : Env) (σ : Sched) : ∀ n pkg seen s st stack, Good env pkg s → CacheA env stack st.cache →
    (∀ r rs, s.base.ref = some r → Chain env pkg s (r :: rs) → ∀ x ∈ rs, x ∉ seen) →
    Res (fun s' st' => CacheA env stack st'.cache ∧ Approx env pkg s s') (· = .deep) (walkRefs env σ n pkg seen s st) := by
  intro n
  induction n with
  | zero => intro pkg seen s st _ _ _ _; exact rfl
  | succ n ih =>
    intro pkg seen s st stack hg hok hseen
    have kids : ∀ q (t : Schema) (st : FState) stack, Good env q t → t.base.ref = none → CacheA env stack st.cache →
        Res (fun s' st' => CacheA env stack st'.cache ∧ Approx env q t s') (· = .deep) (walkKids σ (fun c => walkRefs env σ n q c.base.ref.toList c) t st) := by
      intro q t st stack hg ht hok
      have h := walkKids_ok (σ := σ) (f := fun c => walkRefs env σ n q c.base.ref.toList c) (P := fun st => CacheA env stack st.cache)
        (Q := fun c c' => Approx env q c c') (bad := (· = .deep)) t st hok (fun p c st' hc hu' => by
          refine (ih q c.base.ref.toList c st' stack (hg.child hc) hu' ?_).imp (fun _ _ h => ⟨h.2, h.1⟩) (fun _ h => h)
          intro r rs hr hch x hx
          have := hg.distinct q c _ (.child .refl (child_of_step hc)) hch
          rw [hr]
          simp only [Option.toList_some, List.mem_singleton]
          rintro rfl
          exact (List.nodup_cons.1 this).1 hx)
      cases hw : walkKids σ (fun c => walkRefs env σ n q c.base.ref.toList c) t st with
      | error e => rw [hw] at h; exact h
      | ok r =>
        obtain ⟨t', st'⟩ := r
        rw [hw] at h
        refine ⟨h.1, ?_⟩
        have hfr : Frame t t' := walkSteps_frame _ _ _ _ _ hw
        refine .plain (fun p => (t'.child p).getD Schema.empty) ht hfr ?_ ?_
        · intro p
          cases hp : t.child p with
          | none => rw [h.2.2.1 p hp]; rfl
          | some c =>
            obtain ⟨c', hc', -⟩ := h.2.2.2 p c hp
            rw [hc']; rfl
        · intro p c hp
          obtain ⟨c', hc', hq⟩ := h.2.2.2 p c hp
          rw [hc']
          exact hq
    rw [walkRefs]
    cases hr : s.refOf with
    | none =>
      simp only
      rcases refOf_none hr with h | h
      · exact kids pkg s st stack hg h hok
      · exact absurd rfl (hg.closed _ _ _ .refl h).1
    | some r =>
      simp only
      obtain ⟨hr, -⟩ := refOf_some.1 hr
      obtain ⟨-, id, u, hl⟩ := hg.closed _ _ _ .refl hr
      have hch := fun c => hg.bare _ _ _ c .refl hr
      rw [hl.1]
      simp only
      cases hca : GoMap.get st.cache id with
      | some c =>
        refine ⟨hok, ?_⟩
        rcases hok id c u hca hl.2 with ⟨-, rfl⟩ | hex
        · exact .cut hr hl hch
        · exact .ref hr hl hch hex
      | none =>
        simp only [hl.2]
        have fin : ∀ res : FRes, Res (fun s' st' => CacheA env (id :: stack) st'.cache ∧ Approx env id.pkg u s') (· = .deep) res →
            Res (fun s' st' => CacheA env stack st'.cache ∧ Approx env pkg s s') (· = .deep) (match res with
              | .error e => (.error e : FRes)
              | .ok (t, st2) => .ok (preserveFields t s, { st2 with cache := GoMap.put st2.cache id t })) := by
          intro res h
          cases res with
          | error e => exact h
          | ok x =>
            obtain ⟨t, st2⟩ := x
            refine ⟨?_, .ref hr hl hch h.2⟩
            intro id' c' u' hg' hu'
            simp only [GoMap.get_put] at hg'
            by_cases hid : id' = id
            · subst hid
              rw [if_pos rfl] at hg'; cases hg'
              rw [hl.2] at hu'; cases hu'
              exact .inr h.2
            · rw [if_neg hid] at hg'
              rcases h.1 id' c' u' hg' hu' with ⟨h1, h2⟩ | h1
              · exact .inl ⟨(List.mem_cons.1 h1).resolve_left hid, h2⟩
              · exact .inr h1
        apply fin
        have hgu := hg.ref hr hl
        have hok' : CacheA env (id :: stack) (GoMap.put st.cache id Schema.empty) := by
          intro id' c' u' hg' hu'
          rw [GoMap.get_put] at hg'
          by_cases hid : id' = id
          · rw [if_pos hid] at hg'; cases hg'
            exact .inl ⟨hid ▸ List.mem_cons_self .., rfl⟩
          · rw [if_neg hid] at hg'
            rcases hok id' c' u' hg' hu' with ⟨h1, h2⟩ | h1
            · exact .inl ⟨List.mem_cons_of_mem _ h1, h2⟩
            · exact .inr h1
        cases hrr : u.refOf with
        | none =>
          rcases refOf_none hrr with h | h
          · exact kids id.pkg u _ _ hgu h hok'
          · exact absurd rfl (hgu.closed _ _ _ .refl h).1
        | some r' =>
          obtain ⟨hr', -⟩ := refOf_some.1 hrr
          have hse : r' ∉ seen := hseen r [r'] hr (.cons hr hl (.one hr')) r' (List.mem_singleton.2 rfl)
          simp only
          rw [if_neg hse]
          refine ih id.pkg (r' :: seen) u _ _ hgu hok' ?_
          intro r'' rs hr'' hch' x hx hx'
          rw [hr'] at hr''; cases hr''
          rcases List.mem_cons.1 hx' with rfl | hx'
          · exact (List.nodup_cons.1 (hgu.distinct _ _ _ .refl hch')).1 hx
          · exact hseen r (r' :: rs) hr (.cons hr hl hch') x (List.mem_cons_of_mem _ hx) hx'

theorem flattenSchema_approx (env : Env) (σ : Sched) {s s' : Schema} {pkg : String} {st st' : FState} (hg : Good env pkg s) (hok : CacheA env [] st.cache)
    (h : flattenSchema env σ s pkg st = .ok (s', st')) : CacheA env [] st'.cache ∧ Approx env pkg s s' := by
  have := walkRefs_approx env σ (env.bound s) pkg s.base.ref.toList s st [] hg hok (by
    intro r rs hr hch x hx
    have := hg.distinct _ _ _ .refl hch
    rw [hr]
    simp only [Option.toList_some, List.mem_singleton]
    rintro rfl
    exact (List.nodup_cons.1 this).1 hx)
  unfold flattenSchema at h
  rw [h] at this
  exact this

theorem flattenType_approx (env : Env) (σ : Sched) {id : TypeIdent} {s s' : Schema} {st st' : FState} (hr : env.raw id = some s) (hg : Good env id.pkg s)
    (hok : CacheA env [] st.cache) (h : flattenType env σ id st = .ok (some s', st')) : CacheA env [] st'.cache ∧ Approx env id.pkg s s' := by
  unfold flattenType at h
  cases hc : GoMap.get st.cache id with
  | some c =>
    rw [hc] at h
    cases h
    exact ⟨hok, (hok id _ s hc hr).resolve_left (fun h => List.not_mem_nil h.1)⟩
  | none =>
    rw [hc, hr] at h
    simp only at h
    cases hx : flattenSchema env σ s id.pkg st with
    | error e => rw [hx] at h; cases h
    | ok r =>
      obtain ⟨t, st2⟩ := r
      rw [hx] at h
      cases h
      obtain ⟨h1, h2⟩ := flattenSchema_approx env σ hg hok hx
      refine ⟨?_, h2⟩
      intro id' c' u' hg' hu'
      simp only [GoMap.get_put] at hg'
      by_cases hid : id' = id
      · subst hid
        rw [if_pos rfl] at hg'; cases hg'
        rw [hr] at hu'; cases hu'
        exact .inr h2
      · rw [if_neg hid] at hg'
        exact h1 id' c' u' hg' hu'

theorem flattenTypes_approx (env : Env) (σ : Sched) : ∀ (ids : List TypeIdent) (st st' : FState) ts, (∀ id ∈ ids, ∃ s, env.raw id = some s ∧ Good env id.pkg s) →
    CacheOk st.cache → CacheA env [] st.cache → flattenTypes env σ ids st = .ok (ts, st') → CacheA env [] st'.cache := by
  intro ids
  induction ids with
  | nil => intro st st' ts _ hok hx h; rw [flattenTypes] at h; cases h; exact hx
  | cons id ids ih =>
    intro st st' ts h hok hx he
    obtain ⟨s, hr, hg⟩ := h id (List.mem_cons_self ..)
    obtain ⟨s', st1, e1, n1, c1, r1⟩ := flattenType_noRef env σ hr hg hok
    rw [flattenTypes, e1] at he
    simp only at he
    cases h2 : flattenTypes env σ ids st1 with
    | error e => rw [h2] at he; cases he
    | ok r =>
      obtain ⟨ts', st2⟩ := r
      rw [h2] at he
      cases he
      exact ih st1 st' ts' (fun i hi => h i (List.mem_cons_of_mem _ hi)) c1 (flattenType_approx env σ hr hg hx e1).1 h2

/-! ## What is accepted -/

/-- The schemas at the same places of `t` accept what those of `s` accept. -/
def Wider (W W' : Schema → Json → Prop) (s t : Schema) : Prop :=
  (∀ p, s.child p = none → t.child p = none) ∧ ∀ p c, s.child p = some c → ∃ c', t.child p = some c' ∧ ∀ j, W c j → W' c' j

theorem Wider.back {W W' : Schema → Json → Prop} {s t : Schema} (h : Wider W W' s t) {p : Step} {c' : Schema} (hp : t.child p = some c') :
    ∃ c, s.child p = some c ∧ ∀ j, W c j → W' c' j := by
  cases hs : s.child p with
  | none => rw [h.1 p hs] at hp; cases hp
  | some c =>
    obtain ⟨d, hd, hw⟩ := h.2 p c hs
    rw [hp] at hd; cases hd
    exact ⟨c, rfl, hw⟩

theorem validBy_wider {M : Meaning} {W W' : Schema → Json → Prop} {s t : Schema} (hk : Keys s) (hf : Frame s t) (ho : s.oneOf = []) (hn : s.not = none) (h : Wider W W' s t) {j : Json}
    (hv : ValidBy M W s j) : ValidBy M W' t j := by
  have hkt := hk.frame hf
  have orc : ∀ {o : Option OrBool} {c : Schema}, o.bind OrBool.schema = some c → ∃ a, o = some (.mk a (some c)) := by
    intro o c h
    obtain ⟨x, hx, hc⟩ := Option.bind_eq_some_iff.1 h
    obtain ⟨a, y⟩ := x
    obtain rfl : y = some c := hc
    exact ⟨a, hx⟩
  have orb : ∀ {o o' : Option OrBool}, o'.map OrBool.allows = o.map OrBool.allows → (∀ c, o.bind OrBool.schema = some c → o'.bind OrBool.schema ≠ none) →
      o' = some (.mk false none) → o = some (.mk false none) := by
    intro o o' h1 h2 h3
    subst h3
    cases o with
    | none => cases h1
    | some x =>
      obtain ⟨a, y⟩ := x
      have ha : a = false := by simpa [OrBool.allows] using h1.symm
      cases y with
      | none => rw [ha]
      | some c => exact absurd rfl (h2 c rfl)
  refine ⟨hf.base ▸ hv.plain, ?_, ?_, ?_, ?_, ?_, ?_, ?_, ?_, ?_, ?_, ?_⟩
  · intro i xs c x hi hj hc hx
    obtain ⟨c', hc', hw⟩ := h.back (p := .items) (c' := c) (by rw [Schema.child, hi]; exact hc)
    obtain ⟨i', hi', hs'⟩ := Option.bind_eq_some_iff.1 hc'
    exact hw x (hv.items i' xs c' x hi' hj hs' hx)
  · intro i xs n c x hi hj hc hx
    obtain ⟨c', hc', hw⟩ := h.back (p := .itemsAt n) (c' := c) (by rw [Schema.child, hi]; exact hc)
    obtain ⟨l, hl, hs'⟩ := Option.bind_eq_some_iff.1 hc'
    obtain ⟨i', hi', rfl⟩ := Option.map_eq_some_iff.1 hl
    exact hw x (hv.tuple i' xs n c' x hi' hj hs' hx)
  · intro c hc
    obtain ⟨n, hn⟩ := List.mem_iff_getElem?.1 hc
    obtain ⟨c', hc', hw⟩ := h.back (p := .allOf n) (c' := c) hn
    exact hw j (hv.allOf c' (List.mem_of_getElem? hc'))
  · intro hne
    obtain ⟨c, hc⟩ := List.exists_mem_of_ne_nil _ hne
    obtain ⟨n, hn⟩ := List.mem_iff_getElem?.1 hc
    obtain ⟨c', hc', -⟩ := h.back (p := .oneOf n) (c' := c) hn
    rw [Schema.child, ho] at hc'; simp at hc'
  · intro hne
    obtain ⟨c, hc⟩ := List.exists_mem_of_ne_nil _ hne
    obtain ⟨n, hn⟩ := List.mem_iff_getElem?.1 hc
    obtain ⟨c', hc', -⟩ := h.back (p := .anyOf n) (c' := c) hn
    obtain ⟨d, hd, hw⟩ := hv.anyOf (List.ne_nil_of_mem (List.mem_of_getElem? hc'))
    obtain ⟨n, hn⟩ := List.mem_iff_getElem?.1 hd
    obtain ⟨d', hd', hw'⟩ := h.2 (.anyOf n) d hn
    exact ⟨d', List.mem_of_getElem? hd', hw' j hw⟩
  · intro c hc
    obtain ⟨c', hc', -⟩ := h.back (p := .not) (c' := c) hc
    rw [Schema.child, hn] at hc'; cases hc'
  · intro k c v hm hg
    obtain ⟨c', hc', hw'⟩ := h.back (p := .property k) (c' := c) (mem_lookup hkt.1 hm)
    exact hw' v (hv.properties k c' v (lookup_some_mem hc') hg)
  · intro m k v hj hm hnk hp
    have := hv.additional m k v hj hm (hf.properties ▸ hnk) (by
      intro e he hM
      have : e.1 ∈ t.patternProperties.map (·.1) := hf.patternProperties.symm ▸ List.mem_map.2 ⟨e, he, rfl⟩
      obtain ⟨x, hx⟩ := mem_keys_of this
      exact hp _ hx hM)
    refine ⟨fun e => this.1 (orb hf.additionalProperties (fun c hc hno => ?_) e), fun a c ha => ?_⟩
    · obtain ⟨c', hc', -⟩ := h.2 .additionalProperties c hc
      rw [Schema.child, hno] at hc'; cases hc'
    · obtain ⟨c', hc', hw'⟩ := h.back (p := .additionalProperties) (c' := c) (by rw [Schema.child, ha]; rfl)
      obtain ⟨a', ha'⟩ := orc hc'
      exact hw' v (this.2 a' c' ha')
  · intro p c m k v hp hj hm hM
    obtain ⟨c', hc', hw'⟩ := h.back (p := .patternProperty p) (c' := c) (mem_lookup hkt.2 hp)
    exact hw' v (hv.patterns p c' m k v (lookup_some_mem hc') hj hm hM)
  · intro k o m ho hj hkm
    have : (k, o.property) ∈ s.dependencies.map (fun e => (e.1, e.2.property)) := by
      rw [← hf.dependencies]; exact List.mem_map.2 ⟨(k, o), ho, rfl⟩
    obtain ⟨⟨k', o'⟩, ho', he⟩ := List.mem_map.1 this
    simp only [Prod.mk.injEq] at he
    obtain ⟨rfl, he⟩ := he
    have hd := hv.dependencies k' o' m ho' hj hkm
    refine ⟨fun c hc => ?_, he ▸ hd.2⟩
    obtain ⟨c', hc', hw'⟩ := h.back (p := .dependency k') (c' := c) (by rw [Schema.child, mem_lookup hkt.3 ho]; exact hc)
    rw [Schema.child, mem_lookup hk.3 ho'] at hc'
    exact hw' j (hd.1 c' hc')
  · intro its l n v hi hs hn hj hl
    have hi0 := hf.items
    rw [hi] at hi0
    obtain ⟨i', hi'⟩ := Option.isSome_iff_exists.1 hi0.symm
    have hs' : i'.schema = none := by
      cases hx : i'.schema with
      | none => rfl
      | some c =>
        obtain ⟨c', hc', -⟩ := h.2 .items c (by rw [Schema.child, hi']; exact hx)
        rw [Schema.child, hi] at hc'
        have : its.schema = some c' := hc'
        rw [hs] at this; cases this
    have hlen : i'.arr.length ≤ n := by
      rcases Nat.lt_or_ge n i'.arr.length with hlt | hge
      · exfalso
        obtain ⟨c', hc', -⟩ := h.2 (.itemsAt n) (i'.arr[n]) (by rw [Schema.child, hi']; exact List.getElem?_eq_getElem hlt)
        rw [Schema.child, hi] at hc'
        have : its.arr[n]? = some c' := hc'
        rw [List.getElem?_eq_none hn] at this; cases this
      · exact hge
    have := hv.additionalItems i' l n v hi' hs' hlen hj hl
    refine ⟨fun e => this.1 (orb hf.additionalItems (fun c hc hno => ?_) e), fun a c ha => ?_⟩
    · obtain ⟨c', hc', -⟩ := h.2 .additionalItems c hc
      rw [Schema.child, hno] at hc'; cases hc'
    · obtain ⟨c', hc', hw'⟩ := h.back (p := .additionalItems) (c' := c) (by rw [Schema.child, ha]; rfl)
      obtain ⟨a', ha'⟩ := orc hc'
      exact hw' v (this.2 a' c' ha')

theorem approx_accepts {M : Meaning} {env : Env} {V : String → Schema → Json → Prop} (hV : RefMeaning M env V) {q : String} {s t : Schema} (h : Approx env q s t) :
    AllKeys env q s → (∀ q' c, Reach env q s q' c → c.oneOf = [] ∧ c.not = none) → ∀ j, V q s j → Valid M t j := by
  induction h with
  | @plain q s t g hr hf hc _ ih =>
    intro hk hp j hj
    rw [valid_by]
    have h0 := hp _ _ .refl
    refine validBy_wider (W := V q) (hk _ _ .refl) hf h0.1 h0.2 ?_ ((hV q s j).1 hj).1
    refine ⟨fun p hp => by rw [hc, hp]; rfl, fun p c hp' => ⟨g p, by rw [hc, hp']; rfl, ?_⟩⟩
    exact ih p c hp' (keysReach hk (.child .refl (child_of_step hp'))) (fun q' c' hre => hp q' c' (Reach.trans (.child .refl (child_of_step hp')) hre))
  | @ref q s r id u t hr hl hb _ ih =>
    intro hk hp j hj
    have h1 := (hV q s j).1 hj
    rw [valid_preserve, valid_by (s := stripField s), validBy_strip, validBy_congr (W' := V q)]
    · exact ⟨ih (keysReach hk (.ref .refl hr hl)) (fun q' c' hre => hp q' c' (Reach.trans (.ref .refl hr hl) hre)) j (h1.2 r id u hr hl), h1.1⟩
    · intro c hc j
      exact noRef_meaning hV q c.height c (Nat.le_refl _) (hb c hc) (keysReach hk (.child .refl hc)) j
  | @cut q s r id u hr hl hb =>
    intro hk hp j hj
    have h1 := (hV q s j).1 hj
    rw [valid_preserve, valid_by (s := stripField s), validBy_strip, validBy_congr (W' := V q)]
    · exact ⟨valid_empty M j, h1.1⟩
    · intro c hc j
      exact noRef_meaning hV q c.height c (Nat.le_refl _) (hb c hc) (keysReach hk (.child .refl hc)) j

/-! ## Meanings of recursive types -/

theorem validBy_mono {M : Meaning} {W W' : Schema → Json → Prop} {s : Schema} (ho : s.oneOf = []) (hn : s.not = none) (h : ∀ c, Child s c → ∀ j, W c j → W' c j) {j : Json}
    (hv : ValidBy M W s j) : ValidBy M W' s j where
  plain := hv.plain
  items i xs c x hi hj hc hx := h c (.items hi hc) x (hv.items i xs c x hi hj hc hx)
  tuple i xs n c x hi hj hc hx := h c (.itemsArr hi (List.mem_of_getElem? hc)) x (hv.tuple i xs n c x hi hj hc hx)
  allOf c hc := h c (.allOf hc) j (hv.allOf c hc)
  oneOf hne := absurd ho hne
  anyOf hne := by
    obtain ⟨c, hc, hw⟩ := hv.anyOf hne
    exact ⟨c, hc, h c (.anyOf hc) j hw⟩
  not c hc := by rw [hn] at hc; cases hc
  properties k c v hk hg := h c (.property hk) v (hv.properties k c v hk hg)
  additional m k v hj hm hk hp :=
    ⟨(hv.additional m k v hj hm hk hp).1, fun a c ha => h c (.additionalProperties ha rfl) v ((hv.additional m k v hj hm hk hp).2 a c ha)⟩
  patterns p c m k v hp hj hm hM := h c (.patternProperty hp) v (hv.patterns p c m k v hp hj hm hM)
  dependencies k o m hk hj hm := ⟨fun c hc => h c (.dependency hk hc) j ((hv.dependencies k o m hk hj hm).1 c hc), (hv.dependencies k o m hk hj hm).2⟩
  additionalItems its l n v hi hs hn hj hl :=
    ⟨(hv.additionalItems its l n v hi hs hn hj hl).1, fun a c ha => h c (.additionalItems ha rfl) v ((hv.additionalItems its l n v hi hs hn hj hl).2 a c ha)⟩

theorem child_wf : WellFounded fun a b : Schema => Child b a :=
  Subrelation.wf (r := InvImage (· < ·) Schema.height) (fun h => height_child h) (InvImage.wf _ Nat.lt_wfRel.wf)

/-- The meaning of a schema where `X` says what types accept. -/
def byTypes (M : Meaning) (env : Env) (X : TypeIdent → Json → Prop) (pkg : String) : Schema → Json → Prop :=
  child_wf.fix (C := fun _ => Json → Prop) fun s rec j => ValidBy M (fun c j => ∃ h : Child s c, rec c h j) s j ∧ ∀ r id u, s.base.ref = some r → Leads env pkg r id u → X id j

theorem byTypes_iff {M : Meaning} {env : Env} {X : TypeIdent → Json → Prop} {pkg : String} {s : Schema} {j : Json} :
    byTypes M env X pkg s j ↔ ValidBy M (byTypes M env X pkg) s j ∧ ∀ r id u, s.base.ref = some r → Leads env pkg r id u → X id j := by
  unfold byTypes
  rw [WellFounded.fix_eq]
  apply and_congr_left'
  apply validBy_congr
  intro c hc j
  exact ⟨fun ⟨_, h⟩ => h, fun h => ⟨hc, h⟩⟩

theorem byTypes_mono {M : Meaning} {env : Env} {X Y : TypeIdent → Json → Prop} (hXY : ∀ id j, X id j → Y id j) {pkg : String} : ∀ s : Schema,
    (∀ c, Sub s c → c.oneOf = [] ∧ c.not = none) → ∀ j, byTypes M env X pkg s j → byTypes M env Y pkg s j := by
  intro s
  induction s using child_wf.induction with
  | _ s ih =>
    intro hp j h
    rw [byTypes_iff] at h ⊢
    have h0 := hp s .refl
    exact ⟨validBy_mono h0.1 h0.2 (fun c hc j => ih c hc (fun d hd => hp d (.step hc hd)) j) h.1, fun r id u hr hl => hXY _ _ (h.2 r id u hr hl)⟩

/-- When no schema uses oneOf and not, schemas with references have a meaning, whether types are recursive or not. -/
theorem refMeaning_positive (M : Meaning) {env : Env} (hp : ∀ id u, env.raw id = some u → ∀ c, Sub u c → c.oneOf = [] ∧ c.not = none) : ∃ V, RefMeaning M env V := by
  let F : (TypeIdent → Json → Prop) → TypeIdent → Json → Prop := fun X id j => ∀ u, env.raw id = some u → byTypes M env X id.pkg u j
  have mono : ∀ {X Y : TypeIdent → Json → Prop}, (∀ id j, X id j → Y id j) → ∀ id j, F X id j → F Y id j := fun h id j hx u hu => byTypes_mono h u (hp id u hu) j (hx u hu)
  let G : TypeIdent → Json → Prop := fun id j => ∃ X, (∀ id j, X id j → F X id j) ∧ X id j
  have h1 : ∀ id j, G id j → F G id j := fun id j ⟨X, hX, hx⟩ => mono (fun id' j' h => ⟨X, hX, h⟩) id j (hX id j hx)
  have h2 : ∀ id j, F G id j → G id j := fun id j h => ⟨F G, mono h1, h⟩
  refine ⟨byTypes M env G, fun pkg s j => byTypes_iff.trans (and_congr_right fun _ => ?_)⟩
  constructor
  · intro h r id u hr hl
    exact h1 id j (h r id u hr hl) u hl.2
  · intro h r id u hr hl
    refine h2 id j fun u' hu' => ?_
    rw [hl.2] at hu'; cases hu'
    exact h r id u hr hl

/-! ## Parts of types -/

theorem reach_sub {env : Env} {id : TypeIdent} {s : Schema} (hs : env.raw id = some s) {q : String} {t : Schema} (h : Reach env id.pkg s q t) :
    ∃ id' s', env.raw id' = some s' ∧ id'.pkg = q ∧ Sub s' t := by
  have snoc : ∀ {a b c : Schema}, Sub a b → Child b c → Sub a c := by
    intro a b c h hc
    induction h with
    | refl => exact .step hc .refl
    | step h1 _ ih => exact .step h1 (ih hc)
  induction h with
  | refl => exact ⟨id, s, hs, rfl, .refl⟩
  | child _ hc ih =>
    obtain ⟨i, s', h1, h2, h3⟩ := ih
    exact ⟨i, s', h1, h2, snoc h3 hc⟩
  | ref _ _ hl _ => exact ⟨_, _, hl.2, rfl, .refl⟩

/-! ## Documentation -/

theorem approx_own {env : Env} {α : Type} [DecidableEq α] (f : Base → α) (zero : α) (hf : ∀ a b : Schema, f (preserveFields a b).base = orDoc zero (f b.base) (f a.base))
    {q : String} {s t : Schema} (h : Approx env q s t) (h0 : f s.base ≠ zero) : f t.base = f s.base := by
  cases h with
  | plain g hr hfr _ _ => rw [hfr.base]
  | ref hr hl _ _ => rw [hf, orDoc, if_pos h0]
  | cut hr hl _ => rw [hf, orDoc, if_pos h0]

theorem approx_at {env : Env} : ∀ (p : List Step) {q : String} {s t c : Schema}, Approx env q s t → s.at p = some c → (∀ p' x, p' <+: p → p' ≠ p → s.at p' = some x → x.base.ref = none) →
    ∃ c', t.at p = some c' ∧ Approx env q c c' := by
  intro p
  induction p with
  | nil => intro q s t c h hc _; cases hc; exact ⟨t, rfl, h⟩
  | cons x p ih =>
    intro q s t c h hc hp
    have hr : s.base.ref = none := hp [] s (by simp) (by simp) rfl
    cases h with
    | ref hr' => rw [hr] at hr'; cases hr'
    | cut hr' => rw [hr] at hr'; cases hr'
    | plain g _ hfr hch he =>
      rw [Schema.at] at hc
      cases hx : s.child x with
      | none => rw [hx] at hc; cases hc
      | some d =>
        rw [hx] at hc
        obtain ⟨c', h1, h2⟩ := ih (he x d hx) hc (fun p' y h1 h2 h3 => hp (x :: p') y (by simpa using h1) (by simpa using h2) (by rw [Schema.at, hx]; exact h3))
        refine ⟨c', ?_, h2⟩
        rw [Schema.at, hch, hx]; exact h1

end Verif.Crd

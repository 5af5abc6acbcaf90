import Verif.Rbac.Lemmas
/-! # The merge passes of `NormalizeRules` -/
namespace Verif.Rbac
open Spec

/-! ## Permission semantics -/

/-- The part of a request other than the verb, as matched by a rule. -/
def restMatch (r : PolicyRule) : Request → Prop
  | .resource _ group res sub name =>
      (∃ g ∈ r.apiGroups, starMatch g group = true) ∧ (∃ x ∈ r.resources, resourceMatch x res sub = true) ∧
      (r.resourceNames = [] ∨ name ∈ r.resourceNames)
  | .url _ path => ∃ u ∈ r.nonResourceURLs, urlMatch u path = true

/-- The verb of a request. -/
def verbOf : Request → String
  | .resource v _ _ _ _ => v
  | .url v _ => v

theorem allows_iff (r : PolicyRule) (q : Request) :
    allows r q = true ↔ (∃ v ∈ r.verbs, starMatch v (verbOf q) = true) ∧ restMatch r q := by
  cases q <;> simp [allows, restMatch, verbOf, List.any_eq_true, and_assoc]

/-- The permissions of an internal rule. -/
def Sem (r : Rule) (q : Request) : Prop := allows r.toRule q = true

theorem sem_starVerbs (r : Rule) (q : Request) : Sem (starVerbs r) q ↔ Sem r q := by
  unfold starVerbs
  split
  · rename_i h
    rw [Sem, Sem, allows_iff, allows_iff]
    refine and_congr ⟨fun _ => ⟨"*", h, by simp [starMatch]⟩, fun _ => ⟨"*", ?_, by simp [starMatch]⟩⟩ ?_
    · simp [Rule.toRule]
    · cases q <;> simp [restMatch, Rule.toRule]
  · rfl

theorem names_nil_congr {a b : List String} (h : ∀ s, s ∈ a ↔ s ∈ b) : a = [] ↔ b = [] := by
  simp only [List.eq_nil_iff_forall_not_mem, h]

theorem restMatch_congr {r s : PolicyRule} (hg : ∀ x, x ∈ r.apiGroups ↔ x ∈ s.apiGroups)
    (hr : ∀ x, x ∈ r.resources ↔ x ∈ s.resources) (hn : ∀ x, x ∈ r.resourceNames ↔ x ∈ s.resourceNames)
    (hu : ∀ x, x ∈ r.nonResourceURLs ↔ x ∈ s.nonResourceURLs) (q : Request) :
    restMatch r q ↔ restMatch s q := by
  cases q <;> simp only [restMatch, hg, hr, hn, hu, names_nil_congr hn]

theorem allows_congr {r s : PolicyRule} (hv : ∀ x, x ∈ r.verbs ↔ x ∈ s.verbs)
    (hg : ∀ x, x ∈ r.apiGroups ↔ x ∈ s.apiGroups)
    (hr : ∀ x, x ∈ r.resources ↔ x ∈ s.resources) (hn : ∀ x, x ∈ r.resourceNames ↔ x ∈ s.resourceNames)
    (hu : ∀ x, x ∈ r.nonResourceURLs ↔ x ∈ s.nonResourceURLs) (q : Request) :
    allows r q = true ↔ allows s q = true := by
  rw [allows_iff, allows_iff, restMatch_congr hg hr hn hu]
  simp only [hv]

/-- The first loop's view of a rule: `core` replaced, lists normalised. -/
def prep (r : Rule) : Rule := (fixCore r).normalize

theorem sem_prep (r : Rule) (q : Request) : Sem (prep r) q ↔ allows (markerRule r) q = true := by
  apply allows_congr <;> intro x <;> simp [prep, Rule.toRule, Rule.normalize, fixCore, markerRule]

/-! ## Writing the collapsed rules back into a map -/

theorem foldl_put {β : Type} (g : β → Option Rule) (l : List β) :
    let m := l.foldl (fun acc b => match g b with
      | none => acc
      | some r => GoMap.put acc r.key r) ([] : RMap)
    GoMap.WF m ∧ (∀ e ∈ m, ∃ b ∈ l, g b = some e.2 ∧ e.1 = e.2.key) ∧
    (∀ b ∈ l, ∀ r, g b = some r → r.key ∈ GoMap.keys m) := by
  induction l using GoMap.revInduction with
  | nil => simp [GoMap.WF, GoMap.keys]
  | concat l b ih =>
    obtain ⟨h1, h2, h3⟩ := ih
    simp only [List.foldl_append, List.foldl_cons, List.foldl_nil]
    cases hg : g b with
    | none =>
      refine ⟨h1, fun e he => ?_, fun b' hb' r hr => ?_⟩
      · obtain ⟨b', hb', h⟩ := h2 e he
        exact ⟨b', by simp [hb'], h⟩
      · rw [List.mem_append, List.mem_singleton] at hb'
        rcases hb' with hb' | rfl
        · exact h3 b' hb' r hr
        · rw [hg] at hr; cases hr
    | some r =>
      refine ⟨GoMap.put_wf h1 _ _, fun e he => ?_, fun b' hb' r' hr => ?_⟩
      · rcases GoMap.mem_of_mem_put he with rfl | he
        · exact ⟨b, by simp, hg, rfl⟩
        · obtain ⟨b', hb', h⟩ := h2 e he
          exact ⟨b', by simp [hb'], h⟩
      · rw [GoMap.mem_keys_put]
        rw [List.mem_append, List.mem_singleton] at hb'
        rcases hb' with hb' | rfl
        · exact .inr (h3 b' hb' r' hr)
        · rw [hg] at hr; cases hr; exact .inl rfl

/-! ## The invariant on intermediate maps -/

/-- Invariant of the intermediate maps for namespace `ns`. -/
structure MapOK (ns : String) (m : RMap) : Prop where
  wf : GoMap.WF m
  good : ∀ e ∈ m, Good e.2
  key : ∀ e ∈ m, e.1 = e.2.key
  ns : ∀ e ∈ m, e.2.ns = ns

/-- The rules stored in a map. -/
def vals (m : RMap) : List Rule := m.map (·.2)

theorem mem_vals {m : RMap} {r : Rule} : r ∈ vals m ↔ ∃ k, (k, r) ∈ m := by simp [vals]

theorem MapOK.goodv {ns m} (h : MapOK ns m) {r} (hr : r ∈ vals m) : Good r := by
  obtain ⟨k, hk⟩ := mem_vals.1 hr; exact h.good _ hk

theorem MapOK.nsv {ns m} (h : MapOK ns m) {r} (hr : r ∈ vals m) : r.ns = ns := by
  obtain ⟨k, hk⟩ := mem_vals.1 hr; exact h.ns _ hk

theorem MapOK.keyv {ns m} (h : MapOK ns m) {r} (hr : r ∈ vals m) : (r.key, r) ∈ m := by
  obtain ⟨k, hk⟩ := mem_vals.1 hr
  have := h.key _ hk
  simp only at this
  rw [← this]; exact hk

theorem MapOK.eq_of_key {ns m} (h : MapOK ns m) {r s} (hr : r ∈ vals m) (hs : s ∈ vals m)
    (hk : r.key = s.key) : r = s :=
  GoMap.wf_unique h.wf (h.keyv hr) (by rw [hk]; exact h.keyv hs)

/-- The members of `m` that agree with `x` on all but field `f`. -/
def cls (f : Fld) (m : RMap) (x : Rule) : List Rule :=
  (vals m).filter (fun y => y.keyWithout f = x.keyWithout f)

theorem mem_cls {ns f m x y} (h : MapOK ns m) (hx : Good x) :
    y ∈ cls f m x ↔ y ∈ vals m ∧ Agree f y x := by
  simp only [cls, List.mem_filter, decide_eq_true_eq]
  constructor
  · rintro ⟨h1, h2⟩; exact ⟨h1, keyWithout_inj (h.goodv h1) hx h2⟩
  · rintro ⟨h1, h2⟩; exact ⟨h1, keyWithout_congr h2⟩

/-- What the class of `x` collapses to. -/
def mergedOf (f : Fld) (m : RMap) (x : Rule) : Rule :=
  f.set (removeDupAndSort ((cls f m x).flatMap f.get)) x

theorem foldl_append_eq (f : Fld) (r : Rule) (rest : List Rule) :
    rest.foldl (Rule.append f) r = f.set (f.get r ++ rest.flatMap f.get) r := by
  induction rest generalizing r with
  | nil => cases f <;> simp [Fld.get, Fld.set]
  | cons s rest ih =>
    rw [List.foldl_cons, ih]
    cases f <;> simp [Fld.get, Fld.set, Rule.append]

theorem normalize_set {f : Fld} {l : List String} {r : Rule} (h : Norm r) :
    (f.set l r).normalize = f.set (removeDupAndSort l) r := by
  obtain ⟨h1, h2, h3, h4, h5⟩ := norm_fields h
  cases f <;> simp [Fld.set, Rule.normalize, *]

theorem set_congr {f : Fld} {l : List String} {r s : Rule} (h : Agree f r s) (hns : r.ns = s.ns) :
    f.set l r = f.set l s := by
  apply Agree.eq (f := f)
  · exact (agree_set f l r).trans (h.trans (agree_set f l s).symm)
  · simp
  · cases f <;> exact hns

theorem collapse_eq {f : Fld} {rs : List Rule} {x : Rule} (hne : rs ≠ [])
    (hrs : ∀ y ∈ rs, Good y ∧ Agree f y x ∧ y.ns = x.ns) :
    collapse f rs = some (f.set (removeDupAndSort (rs.flatMap f.get)) x) := by
  cases rs with
  | nil => exact absurd rfl hne
  | cons r rest =>
    obtain ⟨hg, ha, hn⟩ := hrs r (by simp)
    simp only [collapse, foldl_append_eq, normalize_set hg.norm, List.flatMap_cons]
    rw [set_congr ha hn]

/-- Shapes within a class. -/
theorem nil_iff {f : Fld} {x y : Rule} (hx : Good x) (hy : Good y) (h : AgreeKey f x y) :
    f.get x = [] ↔ f.get y = [] := by
  obtain ⟨h1, h2, h3, h4⟩ := h
  have sx := hx.shape
  have sy := hy.shape
  unfold ValidShape at sx sy
  cases f <;> simp_all [Fld.get] <;> grind

theorem mem_merged {ns f m x s} (h : MapOK ns m) (hx : Good x) :
    s ∈ f.get (mergedOf f m x) ↔ ∃ y ∈ vals m, Agree f y x ∧ s ∈ f.get y := by
  simp only [mergedOf, get_set, mem_rds, List.mem_flatMap]
  constructor
  · rintro ⟨y, hy, hs⟩
    have := (mem_cls h hx).1 hy
    exact ⟨y, this.1, this.2, hs⟩
  · rintro ⟨y, hy, ha, hs⟩
    exact ⟨y, (mem_cls h hx).2 ⟨hy, ha⟩, hs⟩

theorem agree_merged (f m x) : Agree f (mergedOf f m x) x := agree_set ..

theorem ns_merged (f m x) : (mergedOf f m x).ns = x.ns := by cases f <;> rfl

theorem good_merged {ns f m x} (h : MapOK ns m) (hxm : x ∈ vals m) : Good (mergedOf f m x) := by
  have hx := h.goodv hxm
  have hmem : ∀ s ∈ f.get (mergedOf f m x), ∃ y, Good y ∧ s ∈ f.get y := fun s hs => by
    obtain ⟨y, hy, _, hs⟩ := (mem_merged h hx).1 hs
    exact ⟨y, h.goodv hy, hs⟩
  have hnil : f.get (mergedOf f m x) = [] ↔ f.get x = [] := by
    constructor
    · intro he
      rw [List.eq_nil_iff_forall_not_mem]
      intro s hs
      have : s ∈ f.get (mergedOf f m x) := (mem_merged h hx).2 ⟨x, hxm, Agree.refl _ _, hs⟩
      rw [he] at this; cases this
    · intro he
      rw [List.eq_nil_iff_forall_not_mem]
      intro s hs
      obtain ⟨y, hy, ha, hs⟩ := (mem_merged h hx).1 hs
      rw [(nil_iff (h.goodv hy) hx ha.1).2 he] at hs; cases hs
  refine ⟨?_, ?_, ?_⟩
  · have := normalize_set (f := f) (l := removeDupAndSort ((cls f m x).flatMap f.get)) hx.norm
    rw [rds_rds] at this
    exact this
  · obtain ⟨c1, c2, c3, c4, c5⟩ := hx.clean
    cases f
    · refine ⟨c1, fun s hs => ?_, c3, c4, c5⟩
      obtain ⟨y, hy, hs⟩ := hmem s hs
      exact hy.clean.resources s hs
    · refine ⟨fun s hs => ?_, c2, c3, c4, c5⟩
      obtain ⟨y, hy, hs⟩ := hmem s hs
      exact hy.clean.groups s hs
    · refine ⟨c1, c2, c3, c4, fun s hs => ?_⟩
      obtain ⟨y, hy, hs⟩ := hmem s hs
      exact hy.clean.urls s hs
  · have hs := hx.shape
    unfold ValidShape at hs ⊢
    cases f <;> simp only [Fld.get] at hnil <;> simp only [mergedOf, Fld.set] at hnil ⊢ <;>
      simp only [ne_eq, hnil] <;> exact hs

/-- The permissions of a merged rule are the union of the permissions of its class. -/
theorem sem_merged {ns f m x} (h : MapOK ns m) (hxm : x ∈ vals m) (q : Request) :
    Sem (mergedOf f m x) q ↔ ∃ y ∈ vals m, Agree f y x ∧ Sem y q := by
  have hx := h.goodv hxm
  have hm := fun s => mem_merged (s := s) (f := f) h hx
  have hself : Agree f x x := Agree.refl _ _
  constructor
  · intro hs
    rw [Sem, allows_iff] at hs
    obtain ⟨hv, hr⟩ := hs
    cases f
    · cases q with
      | url v p => exact ⟨x, hxm, hself, by rw [Sem, allows_iff]; exact ⟨hv, hr⟩⟩
      | resource v g r s n =>
        obtain ⟨hg, ⟨t, ht, htm⟩, hn⟩ := hr
        obtain ⟨y, hy, ha, hty⟩ := (hm t).1 ht
        refine ⟨y, hy, ha, ?_⟩
        rw [Sem, allows_iff]
        obtain ⟨⟨a1, a2, a3, a4⟩, a5⟩ := ha
        refine ⟨?_, ?_, ⟨t, hty, htm⟩, ?_⟩
        · simp only [Rule.toRule]; rw [a5]; exact hv
        · simp only [Rule.toRule]; rw [a1 (by decide)]; exact hg
        · simp only [Rule.toRule]; rw [a3]; exact hn
    · cases q with
      | url v p => exact ⟨x, hxm, hself, by rw [Sem, allows_iff]; exact ⟨hv, hr⟩⟩
      | resource v g r s n =>
        obtain ⟨⟨t, ht, htm⟩, hg, hn⟩ := hr
        obtain ⟨y, hy, ha, hty⟩ := (hm t).1 ht
        refine ⟨y, hy, ha, ?_⟩
        rw [Sem, allows_iff]
        obtain ⟨⟨a1, a2, a3, a4⟩, a5⟩ := ha
        refine ⟨?_, ⟨t, hty, htm⟩, ?_, ?_⟩
        · simp only [Rule.toRule]; rw [a5]; exact hv
        · simp only [Rule.toRule]; rw [a2 (by decide)]; exact hg
        · simp only [Rule.toRule]; rw [a3]; exact hn
    · cases q with
      | resource v g r s n => exact ⟨x, hxm, hself, by rw [Sem, allows_iff]; exact ⟨hv, hr⟩⟩
      | url v p =>
        obtain ⟨t, ht, htm⟩ := hr
        obtain ⟨y, hy, ha, hty⟩ := (hm t).1 ht
        refine ⟨y, hy, ha, ?_⟩
        rw [Sem, allows_iff]
        refine ⟨?_, ⟨t, hty, htm⟩⟩
        simp only [Rule.toRule]; rw [ha.2]; exact hv
  · rintro ⟨y, hy, ha, hs⟩
    rw [Sem, allows_iff] at hs ⊢
    have hsub : ∀ t ∈ f.get y, t ∈ f.get (mergedOf f m x) := fun t ht => (hm t).2 ⟨y, hy, ha, ht⟩
    obtain ⟨⟨a1, a2, a3, a4⟩, a5⟩ := ha
    obtain ⟨⟨v, hv, hvm⟩, hr⟩ := hs
    refine ⟨⟨v, ?_, hvm⟩, ?_⟩
    · simp only [Rule.toRule] at hv ⊢
      rw [(agree_merged f m x).2, ← a5]; exact hv
    · obtain ⟨⟨b1, b2, b3, b4⟩, _⟩ := agree_merged f m x
      have hg : ∀ t ∈ y.groups, t ∈ (mergedOf f m x).groups := by
        by_cases hf : f = .groups
        · subst hf; exact hsub
        · rw [b1 hf, ← a1 hf]; exact fun _ h => h
      have hr' : ∀ t ∈ y.resources, t ∈ (mergedOf f m x).resources := by
        by_cases hf : f = .resources
        · subst hf; exact hsub
        · rw [b2 hf, ← a2 hf]; exact fun _ h => h
      have hu : ∀ t ∈ y.urls, t ∈ (mergedOf f m x).urls := by
        by_cases hf : f = .urls
        · subst hf; exact hsub
        · rw [b4 hf, ← a4 hf]; exact fun _ h => h
      cases q with
      | resource v g r s n =>
        obtain ⟨⟨g', h1, h2⟩, ⟨r', h3, h4⟩, hn⟩ := hr
        refine ⟨⟨g', hg _ h1, h2⟩, ⟨r', hr' _ h3, h4⟩, ?_⟩
        simp only [Rule.toRule] at hn ⊢
        rw [b3, ← a3]; exact hn
      | url v p =>
        obtain ⟨u, h1, h2⟩ := hr
        exact ⟨u, hu _ h1, h2⟩

/-! ## One pass -/

theorem pass_buckets {ns f m} (h : MapOK ns m) (σ : Sched) (n : Nat) {k : String} {rs : List Rule}
    (hb : (k, rs) ∈ buckets f ((σ.order n m).map (·.2))) :
    ∃ x ∈ vals m, collapse f rs = some (mergedOf f m x) := by
  obtain ⟨h1, h2⟩ := (GoMap.mem_groupOn _ _).1 hb
  have hnorm : ((σ.order n m).map (·.2)).map Rule.normalize = (σ.order n m).map (·.2) := by
    conv => rhs; rw [← List.map_id ((σ.order n m).map (·.2))]
    apply List.map_congr_left
    intro r hr
    obtain ⟨e, he, rfl⟩ := List.mem_map.1 hr
    exact (h.good e ((σ.mem_order n m e).1 he)).norm
  rw [hnorm] at h1
  have hmem : ∀ y, y ∈ rs ↔ y ∈ vals m ∧ y.keyWithout f = k := by
    intro y
    rw [h1, List.mem_filter, decide_eq_true_eq]
    have : y ∈ (σ.order n m).map (·.2) ↔ y ∈ vals m :=
      ((σ.perm n m).map (·.2)).mem_iff
    rw [this]
  obtain ⟨x, hx⟩ := List.exists_mem_of_ne_nil _ h2
  have hxm := (hmem x).1 hx
  refine ⟨x, hxm.1, ?_⟩
  have hgx := h.goodv hxm.1
  rw [collapse_eq (x := x) h2]
  · congr 1
    unfold mergedOf
    congr 1
    apply rds_congr
    intro s
    simp only [List.mem_flatMap, hmem, cls, List.mem_filter, decide_eq_true_eq, hxm.2]
  · intro y hy
    have hy := (hmem y).1 hy
    exact ⟨h.goodv hy.1, keyWithout_inj (h.goodv hy.1) hgx (hy.2.trans hxm.2.symm),
      (h.nsv hy.1).trans (h.nsv hxm.1).symm⟩

theorem pass_bucket_of {ns f m x} (h : MapOK ns m) (σ : Sched) (n : Nat) (hx : x ∈ vals m) :
    ∃ b ∈ buckets f ((σ.order n m).map (·.2)), collapse f b.2 = some (mergedOf f m x) := by
  have hx' : x ∈ ((σ.order n m).map (·.2)).map Rule.normalize := by
    rw [List.mem_map]
    exact ⟨x, ((σ.perm n m).map (·.2)).mem_iff.2 hx, (h.goodv hx).norm⟩
  refine ⟨(x.keyWithout f, _), (GoMap.mem_groupOn _ _).2 ⟨rfl, ?_⟩, ?_⟩
  · exact List.ne_nil_of_mem (List.mem_filter.2 ⟨hx', by simp⟩)
  · have hnorm : ((σ.order n m).map (·.2)).map Rule.normalize = (σ.order n m).map (·.2) := by
      conv => rhs; rw [← List.map_id ((σ.order n m).map (·.2))]
      apply List.map_congr_left
      intro r hr
      obtain ⟨e, he, rfl⟩ := List.mem_map.1 hr
      exact (h.good e ((σ.mem_order n m e).1 he)).norm
    rw [hnorm]
    have hmem : ∀ y, y ∈ ((σ.order n m).map (·.2)).filter (fun a => a.keyWithout f = x.keyWithout f) ↔
        y ∈ vals m ∧ y.keyWithout f = x.keyWithout f := by
      intro y
      rw [List.mem_filter, decide_eq_true_eq]
      have : y ∈ (σ.order n m).map (·.2) ↔ y ∈ vals m := ((σ.perm n m).map (·.2)).mem_iff
      rw [this]
    rw [collapse_eq (x := x) (List.ne_nil_of_mem ((hmem x).2 ⟨hx, rfl⟩))]
    · congr 1
      unfold mergedOf
      congr 1
      apply rds_congr
      intro s
      simp only [List.mem_flatMap, hmem, cls, List.mem_filter, decide_eq_true_eq]
    · intro y hy
      have hy := (hmem y).1 hy
      exact ⟨h.goodv hy.1, keyWithout_inj (h.goodv hy.1) (h.goodv hx) hy.2,
        (h.nsv hy.1).trans (h.nsv hx).symm⟩

/-- After a pass, every rule is the merge of some class of the rules before it. -/
theorem pass_sound {ns f m} (h : MapOK ns m) (σ : Sched) (n : Nat) :
    MapOK ns (pass σ n f m) ∧ ∀ e ∈ pass σ n f m, ∃ x ∈ vals m, e.2 = mergedOf f m x := by
  obtain ⟨h1, h2, h3⟩ := foldl_put (fun b : String × List Rule => collapse f b.2)
    (σ.order (n+1) (buckets f ((σ.order n m).map (·.2))))
  have key : ∀ e ∈ pass σ n f m, ∃ x ∈ vals m, e.2 = mergedOf f m x := by
    intro e he
    obtain ⟨⟨k, rs⟩, hb, hc, -⟩ := h2 e he
    obtain ⟨x, hx, hc'⟩ := pass_buckets h σ n ((σ.mem_order _ _ _).1 hb)
    rw [hc] at hc'
    exact ⟨x, hx, Option.some.inj hc'⟩
  refine ⟨⟨h1, ?_, ?_, ?_⟩, key⟩
  · intro e he
    obtain ⟨x, hx, hxe⟩ := key e he
    rw [hxe]; exact good_merged h hx
  · intro e he
    obtain ⟨_, _, _, hk⟩ := h2 e he
    exact hk
  · intro e he
    obtain ⟨x, hx, hxe⟩ := key e he
    rw [hxe, ns_merged]; exact h.nsv hx

/-- Rules that differ only in field `f` and verbs and overlap in field `f` have the same field `f`. -/
def NoClash (f : Fld) (m : RMap) : Prop :=
  ∀ x ∈ vals m, ∀ y ∈ vals m, AgreeKey f x y → (∃ s, s ∈ f.get x ∧ s ∈ f.get y) → f.get x = f.get y

theorem key_of_agreeKey {f x y} (h : AgreeKey f x y) (hf : f.get x = f.get y) : x.key = y.key := by
  obtain ⟨h1, h2, h3, h4⟩ := h
  cases f <;> simp_all [Rule.key, Fld.get]

/-- Without clashes a pass loses no class. -/
theorem pass_complete {ns f m} (h : MapOK ns m) (hc : NoClash f m) (σ : Sched) (n : Nat) :
    ∀ x ∈ vals m, mergedOf f m x ∈ vals (pass σ n f m) := by
  intro x hx
  obtain ⟨hok, hs⟩ := pass_sound (f := f) h σ n
  obtain ⟨-, -, h3⟩ := foldl_put (fun b : String × List Rule => collapse f b.2)
    (σ.order (n+1) (buckets f ((σ.order n m).map (·.2))))
  obtain ⟨b, hb, hbc⟩ := pass_bucket_of (f := f) h σ n hx
  have hk := h3 b ((σ.mem_order _ _ _).2 hb) _ hbc
  obtain ⟨r, hr⟩ := GoMap.mem_keys.1 hk
  have hrv : r ∈ vals (pass σ n f m) := mem_vals.2 ⟨_, hr⟩
  have hrk := hok.key _ hr
  obtain ⟨y, hy, hry⟩ := hs _ hr
  simp only at hrk hry
  suffices mergedOf f m x = mergedOf f m y by rw [this, ← hry]; exact hrv
  subst hry
  have hxg := h.goodv hx
  have hyg := h.goodv hy
  obtain ⟨k1, k2, k3, k4⟩ := key_inj (good_merged h hx) (good_merged h hy) hrk
  obtain ⟨⟨a1, a2, a3, a4⟩, a5⟩ := agree_merged f m x
  obtain ⟨⟨b1, b2, b3, b4⟩, b5⟩ := agree_merged f m y
  have hxy : AgreeKey f x y :=
    ⟨fun hf => by rw [← a1 hf, ← b1 hf, k1], fun hf => by rw [← a2 hf, ← b2 hf, k2],
      by rw [← a3, ← b3, k3], fun hf => by rw [← a4 hf, ← b4 hf, k4]⟩
  have hf : f.get (mergedOf f m x) = f.get (mergedOf f m y) := by
    cases f
    · exact k2
    · exact k1
    · exact k4
  have done : Agree f x y → mergedOf f m x = mergedOf f m y := by
    intro ha
    apply Agree.eq (f := f) _ hf (by rw [ns_merged, ns_merged, h.nsv hx, h.nsv hy])
    exact (agree_merged f m x).trans (ha.trans (agree_merged f m y).symm)
  by_cases hnil : f.get x = []
  · have hnil' := (nil_iff hxg hyg hxy).1 hnil
    have := h.eq_of_key hx hy (key_of_agreeKey hxy (by rw [hnil, hnil']))
    rw [this]
  · obtain ⟨s, hs⟩ := List.exists_mem_of_ne_nil _ hnil
    have : s ∈ f.get (mergedOf f m y) := by
      rw [← hf]; exact (mem_merged h hxg).2 ⟨x, hx, Agree.refl _ _, hs⟩
    obtain ⟨z, hz, hzy, hsz⟩ := (mem_merged h hyg).1 this
    have hxz : AgreeKey f x z := hxy.trans hzy.1.symm
    have hfz := hc x hx z hz hxz ⟨s, hs, hsz⟩
    have := h.eq_of_key hx hz (key_of_agreeKey hxz hfz)
    subst this
    exact done hzy

theorem pass_mem {ns f m} (h : MapOK ns m) (hc : NoClash f m) (σ : Sched) (n : Nat) (r : Rule) :
    r ∈ vals (pass σ n f m) ↔ ∃ x ∈ vals m, r = mergedOf f m x := by
  constructor
  · intro hr
    obtain ⟨k, hk⟩ := mem_vals.1 hr
    exact (pass_sound h σ n).2 _ hk
  · rintro ⟨x, hx, rfl⟩
    exact pass_complete h hc σ n x hx

end Verif.Rbac

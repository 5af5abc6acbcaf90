import Verif.Rbac.Passes
/-! # `NormalizeRules` as a whole -/
namespace Verif.Rbac
open Spec

/-- The rules handed to `NormalizeRules` for namespace `ns`. -/
def RulesOK (ns : String) (rules : List Rule) : Prop :=
  ∀ ρ ∈ rules, CleanMarker ρ ∧ ValidShape ρ ∧ ρ.ns = ns

theorem good_prep {ρ : Rule} (hc : CleanMarker ρ) (hs : ValidShape ρ) : Good (prep ρ) := by
  refine ⟨normalize_norm _, ?_, ?_⟩
  · obtain ⟨c1, c2, c3, c4, c5⟩ := hc
    constructor <;> intro s hs <;>
      simp only [prep, Rule.normalize, fixCore, mem_rds, List.mem_map] at hs
    · obtain ⟨g, hg, rfl⟩ := hs
      split
      · intro c hc; simp at hc
      · exact c1 g hg
    · exact c2 s hs
    · exact c3 s hs
    · exact c4 s hs
    · exact c5 s hs
  · unfold ValidShape at hs ⊢
    simp only [prep, Rule.normalize, fixCore, ne_eq, rds_eq_nil, List.map_eq_nil_iff]
    exact hs

/-- The rule stored for `ρ` by the first loop: `ρ` with the verbs of all rules with its key. -/
def canonOf (rules : List Rule) (ρ : Rule) : Rule :=
  let vs := (rules.filter (fun τ => (prep τ).key = (prep ρ).key)).flatMap (fun τ => (prep τ).verbs)
  { prep ρ with verbs := removeDupAndSort vs }

theorem firstPass_spec {ns : String} {rules : List Rule} (h : RulesOK ns rules) :
    MapOK ns (firstPass rules) ∧
    (∀ e ∈ firstPass rules, ∃ ρ ∈ rules, (∃ vs, e.2 = { prep ρ with verbs := vs })) ∧
    (∀ e ∈ firstPass rules, ∀ v, v ∈ e.2.verbs ↔
      ∃ ρ ∈ rules, (prep ρ).key = e.1 ∧ v ∈ (prep ρ).verbs) ∧
    (∀ ρ ∈ rules, (prep ρ).key ∈ GoMap.keys (firstPass rules)) := by
  induction rules using GoMap.revInduction with
  | nil =>
    refine ⟨⟨?_, ?_, ?_, ?_⟩, ?_, ?_, ?_⟩ <;> simp [firstPass, GoMap.WF, GoMap.keys]
  | concat l a ih =>
    obtain ⟨⟨w, g, k, hns⟩, h1, h2, h3⟩ := ih (fun ρ hρ => h ρ (by simp [hρ]))
    obtain ⟨hac, has, han⟩ := h a (by simp)
    have hga := good_prep hac has
    have hstep : firstPass (l ++ [a]) = firstStep (firstPass l) a := by
      simp [firstPass, List.foldl_append]
    rw [hstep]
    unfold firstStep
    have hp : (fixCore a).normalize = prep a := rfl
    simp only [hp]
    cases hget : GoMap.get (firstPass l) (prep a).key with
    | none =>
      rw [GoMap.get_eq_none] at hget
      have hnok : ∀ e ∈ firstPass l, e.1 ≠ (prep a).key := fun e he hk =>
        hget (GoMap.mem_keys.2 ⟨e.2, by rw [← hk]; exact he⟩)
      refine ⟨⟨GoMap.put_wf w _ _, ?_, ?_, ?_⟩, ?_, ?_, ?_⟩
      · intro e he
        rcases GoMap.mem_of_mem_put he with rfl | he
        · exact hga
        · exact g e he
      · intro e he
        rcases GoMap.mem_of_mem_put he with rfl | he
        · rfl
        · exact k e he
      · intro e he
        rcases GoMap.mem_of_mem_put he with rfl | he
        · exact han
        · exact hns e he
      · intro e he
        rcases GoMap.mem_of_mem_put he with rfl | he
        · exact ⟨a, by simp, _, rfl⟩
        · obtain ⟨ρ, hρ, hv⟩ := h1 e he
          exact ⟨ρ, by simp [hρ], hv⟩
      · intro e he v
        rcases GoMap.mem_of_mem_put he with rfl | hel
        · constructor
          · intro hv; exact ⟨a, by simp, rfl, hv⟩
          · rintro ⟨ρ, hρ, hk, hv⟩
            rw [List.mem_append, List.mem_singleton] at hρ
            rcases hρ with hρ | rfl
            · have := h3 ρ hρ
              rw [hk] at this
              exact absurd this hget
            · exact hv
        · rw [h2 e hel]
          constructor
          · rintro ⟨ρ, hρ, hv⟩; exact ⟨ρ, by simp [hρ], hv⟩
          · rintro ⟨ρ, hρ, hk, hv⟩
            rw [List.mem_append, List.mem_singleton] at hρ
            rcases hρ with hρ | rfl
            · exact ⟨ρ, hρ, hk, hv⟩
            · exact absurd hk.symm (hnok e hel)
      · intro ρ hρ
        rw [GoMap.mem_keys_put]
        rw [List.mem_append, List.mem_singleton] at hρ
        rcases hρ with hρ | rfl
        · exact .inr (h3 ρ hρ)
        · exact .inl rfl
    | some r₀ =>
      rw [GoMap.get_eq_some w] at hget
      have hg0 := g _ hget
      have hk0 : (prep a).key = r₀.key := k _ hget
      have hns0 := hns _ hget
      simp only at hg0 hns0
      obtain ⟨k1, k2, k3, k4⟩ := key_inj hga hg0 hk0
      have hverbs : ∀ v, v ∈ (r₀.addVerbs (prep a).verbs).verbs ↔ v ∈ r₀.verbs ∨ v ∈ (prep a).verbs := by
        intro v; simp [Rule.addVerbs]
      refine ⟨⟨GoMap.put_wf w _ _, ?_, ?_, ?_⟩, ?_, ?_, ?_⟩
      · intro e he
        rcases GoMap.mem_of_mem_put he with rfl | he
        · refine ⟨?_, ?_, hg0.shape⟩
          · obtain ⟨n1, n2, n3, n4, n5⟩ := norm_fields hg0.norm
            simp [Norm, Rule.normalize, Rule.addVerbs, n1, n2, n3, n5]
          · obtain ⟨c1, c2, c3, c4, c5⟩ := hg0.clean
            refine ⟨c1, c2, c3, fun s hs => ?_, c5⟩
            rcases (hverbs s).1 hs with hs | hs
            · exact c4 s hs
            · exact hga.clean.verbs s hs
        · exact g e he
      · intro e he
        rcases GoMap.mem_of_mem_put he with rfl | he
        · exact hk0
        · exact k e he
      · intro e he
        rcases GoMap.mem_of_mem_put he with rfl | he
        · exact hns0
        · exact hns e he
      · intro e he
        rcases GoMap.mem_of_mem_put he with rfl | he
        · obtain ⟨ρ, hρ, vs, hv⟩ := h1 _ hget
          refine ⟨ρ, by simp [hρ], (r₀.addVerbs (prep a).verbs).verbs, ?_⟩
          simp only at hv ⊢
          subst hv
          rfl
        · obtain ⟨ρ, hρ, hv⟩ := h1 e he
          exact ⟨ρ, by simp [hρ], hv⟩
      · intro e he v
        rcases (GoMap.mem_put w).1 he with rfl | ⟨he, hne⟩
        · rw [hverbs, h2 _ hget]
          constructor
          · rintro (⟨ρ, hρ, hv⟩ | hv)
            · exact ⟨ρ, by simp [hρ], hv⟩
            · exact ⟨a, by simp, rfl, hv⟩
          · rintro ⟨ρ, hρ, hk, hv⟩
            rw [List.mem_append, List.mem_singleton] at hρ
            rcases hρ with hρ | rfl
            · exact .inl ⟨ρ, hρ, hk, hv⟩
            · exact .inr hv
        · rw [h2 e he]
          constructor
          · rintro ⟨ρ, hρ, hv⟩; exact ⟨ρ, by simp [hρ], hv⟩
          · rintro ⟨ρ, hρ, hk, hv⟩
            rw [List.mem_append, List.mem_singleton] at hρ
            rcases hρ with hρ | rfl
            · exact ⟨ρ, hρ, hk, hv⟩
            · exact absurd hk.symm hne
      · intro ρ hρ
        rw [GoMap.mem_keys_put]
        rw [List.mem_append, List.mem_singleton] at hρ
        rcases hρ with hρ | rfl
        · exact .inr (h3 ρ hρ)
        · exact .inl rfl

theorem key_canonOf (rules ρ) : (canonOf rules ρ).key = (prep ρ).key := rfl

theorem firstPass_mem {ns : String} {rules : List Rule} (h : RulesOK ns rules) (r : Rule) :
    r ∈ vals (firstPass rules) ↔ ∃ ρ ∈ rules, r = canonOf rules ρ := by
  obtain ⟨hok, h1, h2, h3⟩ := firstPass_spec h
  have fwd : ∀ r ∈ vals (firstPass rules), ∃ ρ ∈ rules, r = canonOf rules ρ := by
    intro r hr
    have hr' := hok.keyv hr
    obtain ⟨ρ, hρ, vs, hv⟩ := h1 _ hr'
    refine ⟨ρ, hρ, ?_⟩
    have hvs := h2 _ hr'
    simp only at hv hvs
    have hk : r.key = (prep ρ).key := by rw [hv]; rfl
    have : r.verbs = (canonOf rules ρ).verbs := by
      apply norm_eq_of_mem (norm_fields (hok.goodv hr).norm).2.2.2.1
      · simp [canonOf]
      · intro s
        rw [hvs]
        simp only [canonOf, mem_rds, List.mem_flatMap, List.mem_filter, decide_eq_true_eq, hk, and_assoc]
    rw [hv] at this
    simp only at this
    rw [hv, this]
    rfl
  constructor
  · exact fwd r
  · rintro ⟨ρ, hρ, rfl⟩
    obtain ⟨r, hr⟩ := GoMap.mem_keys.1 (h3 ρ hρ)
    have hrv : r ∈ vals (firstPass rules) := mem_vals.2 ⟨_, hr⟩
    obtain ⟨ρ', hρ', hr'⟩ := fwd r hrv
    have hk : (prep ρ).key = r.key := hok.key _ hr
    have hk' : (prep ρ).key = (prep ρ').key := by rw [hk, hr']; rfl
    have hg := good_prep (h ρ hρ).1 (h ρ hρ).2.1
    have hg' := good_prep (h ρ' hρ').1 (h ρ' hρ').2.1
    obtain ⟨k1, k2, k3, k4⟩ := key_inj hg hg' hk'
    have hn : (prep ρ).ns = (prep ρ').ns := (h ρ hρ).2.2.trans (h ρ' hρ').2.2.symm
    have : canonOf rules ρ = canonOf rules ρ' := by
      have e : (canonOf rules ρ).verbs = (canonOf rules ρ').verbs := by simp only [canonOf, hk']
      simp only [canonOf] at e ⊢
      rw [e, k1, k2, k3, k4, hn]
    rw [this, ← hr']
    exact hrv

/-- The first loop preserves permissions exactly. -/
theorem firstPass_sem {ns : String} {rules : List Rule} (h : RulesOK ns rules) (q : Request) :
    (∃ r ∈ vals (firstPass rules), Sem r q) ↔ ∃ ρ ∈ rules, allows (markerRule ρ) q = true := by
  constructor
  · rintro ⟨r, hr, hs⟩
    obtain ⟨ρ, hρ, rfl⟩ := (firstPass_mem h r).1 hr
    rw [Sem, allows_iff] at hs
    obtain ⟨⟨v, hv, hvm⟩, hrest⟩ := hs
    simp only [canonOf, Rule.toRule, mem_rds, List.mem_flatMap, List.mem_filter, decide_eq_true_eq] at hv
    obtain ⟨τ, ⟨hτ, hk⟩, hv⟩ := hv
    refine ⟨τ, hτ, ?_⟩
    rw [← sem_prep, Sem, allows_iff]
    refine ⟨⟨v, hv, hvm⟩, ?_⟩
    obtain ⟨k1, k2, k3, k4⟩ := key_inj (good_prep (h τ hτ).1 (h τ hτ).2.1)
      (good_prep (h ρ hρ).1 (h ρ hρ).2.1) hk
    refine (restMatch_congr ?_ ?_ ?_ ?_ q).1 hrest <;> intro x <;>
      simp only [Rule.toRule, canonOf, k1, k2, k3, k4]
  · rintro ⟨ρ, hρ, hs⟩
    refine ⟨canonOf rules ρ, (firstPass_mem h _).2 ⟨ρ, hρ, rfl⟩, ?_⟩
    rw [← sem_prep, Sem, allows_iff] at hs
    rw [Sem, allows_iff]
    obtain ⟨⟨v, hv, hvm⟩, hrest⟩ := hs
    refine ⟨⟨v, ?_, hvm⟩, ?_⟩
    · simp only [canonOf, Rule.toRule, mem_rds, List.mem_flatMap, List.mem_filter, decide_eq_true_eq]
      exact ⟨ρ, ⟨hρ, rfl⟩, hv⟩
    · exact (restMatch_congr (by simp [Rule.toRule, canonOf]) (by simp [Rule.toRule, canonOf])
        (by simp [Rule.toRule, canonOf]) (by simp [Rule.toRule, canonOf]) q).2 hrest

/-! ## No clashes -/

/-- `NoOverlap` for the split rules of one namespace: as `Spec.NoOverlap`, and at most one resource per rule. -/
structure RulesSep (rules : List Rule) : Prop where
  single : ∀ ρ ∈ rules, ρ.resources = [] ∨ ∃ x, ρ.resources = [x]
  groups : ∀ ρ ∈ rules, ∀ τ ∈ rules, (∃ r, r ∈ ρ.resources ∧ r ∈ τ.resources) →
    SameSet ρ.resourceNames τ.resourceNames →
    SameSet (markerRule ρ).apiGroups (markerRule τ).apiGroups ∨
      Disjoint (markerRule ρ).apiGroups (markerRule τ).apiGroups
  urls : ∀ ρ ∈ rules, ∀ τ ∈ rules, SameSet ρ.urls τ.urls ∨ Disjoint ρ.urls τ.urls

theorem mem_prep_groups {ρ s} : s ∈ (prep ρ).groups ↔ s ∈ (markerRule ρ).apiGroups := by
  simp [prep, Rule.normalize, fixCore, markerRule]

/-- No clash when merging resources: a rule has one resource. -/
theorem noClash_resources {ns rules} (h : RulesOK ns rules) (hs : RulesSep rules) :
    NoClash .resources (firstPass rules) := by
  intro x hx y hy _ ⟨s, h1, h2⟩
  obtain ⟨ρ, hρ, rfl⟩ := (firstPass_mem h x).1 hx
  obtain ⟨τ, hτ, rfl⟩ := (firstPass_mem h y).1 hy
  have e : ∀ l : List String, (l = [] ∨ ∃ x, l = [x]) → s ∈ l → l = [s] := by
    intro l hl hm
    rcases hl with rfl | ⟨x, rfl⟩
    · cases hm
    · rw [List.mem_singleton] at hm; rw [hm]
  simp only [Fld.get, canonOf, prep, Rule.normalize, fixCore, mem_rds] at h1 h2 ⊢
  rw [e _ (hs.single ρ hρ) h1, e _ (hs.single τ hτ) h2]

/-- If the groups of two rules with the same names and a common resource are equal or disjoint. -/
theorem noClash_groups {ns rules} (h : RulesOK ns rules) (hs : RulesSep rules) (σ : Sched) (n : Nat) :
    NoClash .groups (pass σ n .resources (firstPass rules)) := by
  obtain ⟨hok, -⟩ := firstPass_spec h
  have hok1 := (pass_sound (f := .resources) hok σ n).1
  intro x hx y hy ⟨_, hr, hn, hu⟩ ⟨s, h1, h2⟩
  obtain ⟨_, hx'⟩ := mem_vals.1 hx
  obtain ⟨_, hy'⟩ := mem_vals.1 hy
  obtain ⟨x₀, hx₀, e1⟩ := (pass_sound (f := .resources) hok σ n).2 _ hx'
  obtain ⟨y₀, hy₀, e2⟩ := (pass_sound (f := .resources) hok σ n).2 _ hy'
  simp only at e1 e2
  have hr := hr (by decide)
  simp only [Fld.get] at h1 h2 ⊢
  -- x and y have a group, hence a resource
  have hxs := (hok1.goodv hx).shape
  have hxr : x.resources ≠ [] := by
    rcases hxs with ⟨_, h, _⟩ | ⟨h, _⟩
    · exact h
    · rw [h] at h1; cases h1
  obtain ⟨t, ht⟩ := List.exists_mem_of_ne_nil _ hxr
  have ht1 : t ∈ Fld.get .resources (mergedOf .resources (firstPass rules) x₀) := by
    rw [← e1]; exact ht
  have ht2 : t ∈ Fld.get .resources (mergedOf .resources (firstPass rules) y₀) := by
    rw [← e2]; simp only [Fld.get]; rw [← hr]; exact ht
  obtain ⟨x₁, hx₁, ax, ht1⟩ := (mem_merged hok (hok.goodv hx₀)).1 ht1
  obtain ⟨y₁, hy₁, ay, ht2⟩ := (mem_merged hok (hok.goodv hy₀)).1 ht2
  have bx := agree_merged .resources (firstPass rules) x₀
  have by' := agree_merged .resources (firstPass rules) y₀
  rw [← e1] at bx
  rw [← e2] at by'
  have gx := (bx.trans ax.symm)
  have gy := (by'.trans ay.symm)
  have hx₁g : x.groups = x₁.groups := gx.1.1 (by decide)
  have hy₁g : y.groups = y₁.groups := gy.1.1 (by decide)
  have hxn : x.resourceNames = x₁.resourceNames := gx.1.2.2.1
  have hyn : y.resourceNames = y₁.resourceNames := gy.1.2.2.1
  obtain ⟨ρ, hρ, rfl⟩ := (firstPass_mem h x₁).1 hx₁
  obtain ⟨τ, hτ, rfl⟩ := (firstPass_mem h y₁).1 hy₁
  have hnames : SameSet ρ.resourceNames τ.resourceNames := by
    intro z
    have : (canonOf rules ρ).resourceNames = (canonOf rules τ).resourceNames := by
      rw [← hxn, ← hyn, hn]
    have h3 := congrArg (z ∈ ·) this
    simpa [canonOf, prep, Rule.normalize, fixCore] using h3
  have hres : ∃ r, r ∈ ρ.resources ∧ r ∈ τ.resources :=
    ⟨t, by simpa [Fld.get, canonOf, prep, Rule.normalize, fixCore] using ht1,
      by simpa [Fld.get, canonOf, prep, Rule.normalize, fixCore] using ht2⟩
  rw [hx₁g] at h1 ⊢
  rw [hy₁g] at h2 ⊢
  rcases hs.groups ρ hρ τ hτ hres hnames with hsame | hdis
  · refine norm_eq_of_mem (norm_fields (hok.goodv hx₁).norm).1 (norm_fields (hok.goodv hy₁).norm).1 ?_
    intro z
    exact mem_prep_groups.trans ((hsame z).trans mem_prep_groups.symm)
  · exact absurd (mem_prep_groups.1 h2) (hdis s (mem_prep_groups.1 h1))

/-- URL lists are equal or disjoint throughout. -/
theorem noClash_urls {ns rules} (h : RulesOK ns rules) (hs : RulesSep rules) (σ : Sched) (n n' : Nat) :
    NoClash .urls (pass σ n' .groups (pass σ n .resources (firstPass rules))) := by
  obtain ⟨hok, -⟩ := firstPass_spec h
  have hok1 := (pass_sound (f := .resources) hok σ n).1
  have key : ∀ x ∈ vals (pass σ n' .groups (pass σ n .resources (firstPass rules))),
      ∃ ρ ∈ rules, x.urls = (prep ρ).urls := by
    intro x hx
    obtain ⟨_, hx'⟩ := mem_vals.1 hx
    obtain ⟨x₀, hx₀, e1⟩ := (pass_sound (f := .groups) hok1 σ n').2 _ hx'
    obtain ⟨_, hx₀'⟩ := mem_vals.1 hx₀
    obtain ⟨x₁, hx₁, e2⟩ := (pass_sound (f := .resources) hok σ n).2 _ hx₀'
    obtain ⟨ρ, hρ, e3⟩ := (firstPass_mem h x₁).1 hx₁
    refine ⟨ρ, hρ, ?_⟩
    simp only at e1 e2
    rw [e1, (agree_merged .groups _ x₀).1.2.2.2 (by decide), e2,
      (agree_merged .resources _ x₁).1.2.2.2 (by decide), e3]
    rfl
  intro x hx y hy _ ⟨s, h1, h2⟩
  obtain ⟨ρ, hρ, e1⟩ := key x hx
  obtain ⟨τ, hτ, e2⟩ := key y hy
  simp only [Fld.get] at h1 h2 ⊢
  rw [e1] at h1 ⊢
  rw [e2] at h2 ⊢
  simp only [prep, Rule.normalize, fixCore, mem_rds] at h1 h2 ⊢
  rcases hs.urls ρ hρ τ hτ with hsame | hdis
  · exact rds_congr hsame
  · exact absurd h2 (hdis s h1)

/-! ## The merged map -/

theorem mergedMap_ok {ns rules} (h : RulesOK ns rules) (σ : Sched) : MapOK ns (mergedMap σ rules) :=
  (pass_sound (pass_sound (pass_sound (firstPass_spec h).1 σ 0).1 σ 2).1 σ 4).1

theorem pass_sem_sound {ns f m} (h : MapOK ns m) (σ : Sched) (n : Nat) (q : Request) :
    (∃ r ∈ vals (pass σ n f m), Sem r q) → ∃ r ∈ vals m, Sem r q := by
  rintro ⟨r, hr, hs⟩
  obtain ⟨_, hr'⟩ := mem_vals.1 hr
  obtain ⟨x, hx, e⟩ := (pass_sound h σ n).2 _ hr'
  simp only at e
  rw [e] at hs
  obtain ⟨y, hy, _, hs⟩ := (sem_merged h hx q).1 hs
  exact ⟨y, hy, hs⟩

theorem pass_sem_complete {ns f m} (h : MapOK ns m) (hc : NoClash f m) (σ : Sched) (n : Nat) (q : Request) :
    (∃ r ∈ vals m, Sem r q) → ∃ r ∈ vals (pass σ n f m), Sem r q := by
  rintro ⟨r, hr, hs⟩
  exact ⟨_, pass_complete h hc σ n r hr, (sem_merged h hr q).2 ⟨r, hr, Agree.refl _ _, hs⟩⟩

theorem mergedMap_sound {ns rules} (h : RulesOK ns rules) (σ : Sched) (q : Request) :
    (∃ r ∈ vals (mergedMap σ rules), Sem r q) → ∃ ρ ∈ rules, allows (markerRule ρ) q = true := by
  intro hs
  have h0 := (firstPass_spec h).1
  have h1 := (pass_sound (f := .resources) h0 σ 0).1
  have h2 := (pass_sound (f := .groups) h1 σ 2).1
  exact (firstPass_sem h q).1 (pass_sem_sound h0 σ 0 q (pass_sem_sound h1 σ 2 q (pass_sem_sound h2 σ 4 q hs)))

theorem mergedMap_complete {ns rules} (h : RulesOK ns rules) (hsep : RulesSep rules) (σ : Sched) (q : Request) :
    (∃ ρ ∈ rules, allows (markerRule ρ) q = true) → ∃ r ∈ vals (mergedMap σ rules), Sem r q := by
  intro hs
  have h0 := (firstPass_spec h).1
  have h1 := (pass_sound (f := .resources) h0 σ 0).1
  have h2 := (pass_sound (f := .groups) h1 σ 2).1
  exact pass_sem_complete h2 (noClash_urls h hsep σ 0 2) σ 4 q
    (pass_sem_complete h1 (noClash_groups h hsep σ 0) σ 2 q
      (pass_sem_complete h0 (noClash_resources h hsep) σ 0 q ((firstPass_sem h q).2 hs)))

/-! ## Determinism -/

theorem mergedOf_congr {ns ns' f m m' x} (h : MapOK ns m) (h' : MapOK ns' m')
    (he : ∀ r, r ∈ vals m ↔ r ∈ vals m') (hx : Good x) : mergedOf f m x = mergedOf f m' x := by
  unfold mergedOf
  congr 1
  apply rds_congr
  intro s
  simp only [List.mem_flatMap, mem_cls h hx, mem_cls h' hx, he]

theorem pass_congr {ns f m m'} (h : MapOK ns m) (h' : MapOK ns m') (hc : NoClash f m) (hc' : NoClash f m')
    (he : ∀ r, r ∈ vals m ↔ r ∈ vals m') (σ σ' : Sched) (n : Nat) (r : Rule) :
    r ∈ vals (pass σ n f m) ↔ r ∈ vals (pass σ' n f m') := by
  rw [pass_mem h hc, pass_mem h' hc']
  constructor
  · rintro ⟨x, hx, rfl⟩; exact ⟨x, (he x).1 hx, mergedOf_congr h h' he (h.goodv hx)⟩
  · rintro ⟨x, hx, rfl⟩
    exact ⟨x, (he x).2 hx, (mergedOf_congr h h' he (h'.goodv hx)).symm⟩

theorem firstPass_congr {ns rules rules'} (h : RulesOK ns rules) (h' : RulesOK ns rules')
    (he : ∀ r, r ∈ rules ↔ r ∈ rules') (r : Rule) :
    r ∈ vals (firstPass rules) ↔ r ∈ vals (firstPass rules') := by
  have hcan : ∀ ρ, canonOf rules ρ = canonOf rules' ρ := by
    intro ρ
    have : removeDupAndSort ((rules.filter (fun τ => (prep τ).key = (prep ρ).key)).flatMap
          (fun τ => (prep τ).verbs)) =
        removeDupAndSort ((rules'.filter (fun τ => (prep τ).key = (prep ρ).key)).flatMap
          (fun τ => (prep τ).verbs)) := by
      apply rds_congr
      intro s
      simp only [List.mem_flatMap, List.mem_filter, he]
    simp only [canonOf, this]
  rw [firstPass_mem h, firstPass_mem h']
  simp only [he, hcan]

theorem RulesSep.congr {rules rules' : List Rule} (hs : RulesSep rules)
    (he : ∀ r, r ∈ rules ↔ r ∈ rules') : RulesSep rules' :=
  ⟨fun ρ hρ => hs.single ρ ((he ρ).2 hρ), fun ρ hρ τ hτ => hs.groups ρ ((he ρ).2 hρ) τ ((he τ).2 hτ),
    fun ρ hρ τ hτ => hs.urls ρ ((he ρ).2 hρ) τ ((he τ).2 hτ)⟩

theorem entries_congr {ns m m'} (h : MapOK ns m) (h' : MapOK ns m')
    (he : ∀ r, r ∈ vals m ↔ r ∈ vals m') : m.Perm m' := by
  rw [List.perm_ext_iff_of_nodup h.wf.nodup h'.wf.nodup]
  rintro ⟨k, r⟩
  constructor
  · intro hm
    have := h'.keyv ((he r).1 (mem_vals.2 ⟨k, hm⟩))
    rw [← show k = r.key from h.key _ hm] at this
    exact this
  · intro hm
    have := h.keyv ((he r).2 (mem_vals.2 ⟨k, hm⟩))
    rw [← show k = r.key from h'.key _ hm] at this
    exact this

theorem normalizeRules_det {ns rules rules'} (h : RulesOK ns rules) (h' : RulesOK ns rules')
    (hs : RulesSep rules) (he : ∀ r, r ∈ rules ↔ r ∈ rules') (σ σ' : Sched) :
    normalizeRules σ rules = normalizeRules σ' rules' := by
  have hs' := hs.congr he
  have a0 := (firstPass_spec h).1
  have b0 := (firstPass_spec h').1
  have a1 := (pass_sound (f := .resources) a0 σ 0).1
  have b1 := (pass_sound (f := .resources) b0 σ' 0).1
  have a2 := (pass_sound (f := .groups) a1 σ 2).1
  have b2 := (pass_sound (f := .groups) b1 σ' 2).1
  have e0 := firstPass_congr h h' he
  have e1 := pass_congr a0 b0 (noClash_resources h hs) (noClash_resources h' hs') e0 σ σ' 0
  have e2 := pass_congr a1 b1 (noClash_groups h hs σ 0) (noClash_groups h' hs' σ' 0) e1 σ σ' 2
  have e3 := pass_congr a2 b2 (noClash_urls h hs σ 0 2) (noClash_urls h' hs' σ' 0 2) e2 σ σ' 4
  have a3 := mergedMap_ok h σ
  have b3 := mergedMap_ok h' σ'
  have p : (σ.order 6 (mergedMap σ rules)).Perm (σ'.order 6 (mergedMap σ' rules')) :=
    (σ.perm _ _).trans ((entries_congr a3 b3 e3).trans (σ'.perm _ _).symm)
  unfold normalizeRules
  congr 1
  apply sortBy_eq_of_perm _ _ _ p
  · intro x y z; exact strLe_trans _ _ _
  · intro x y; exact strLe_total _ _
  · rintro ⟨k, r⟩ ⟨k', r'⟩ hx hy h1 h2
    have hx := (σ.mem_order _ _ _).1 hx
    have hy := (σ.mem_order _ _ _).1 hy
    have hp : k.print = k'.print := strLe_antisymm h1 h2
    have hk : k = r.key := a3.key _ hx
    have hk' : k' = r'.key := a3.key _ hy
    rw [hk, hk'] at hp
    have := print_inj (a3.good _ hx) (a3.good _ hy) hp
    have hkk : k = k' := by rw [hk, hk', this]
    subst hkk
    rw [GoMap.wf_unique a3.wf hx hy]

end Verif.Rbac

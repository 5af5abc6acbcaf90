import Verif.Rbac.Normalize
/-!
# Properties C01–C05: RBAC generation

`generateRoles σ τ roleName markers` is the model of `GenerateRoles`; `σ`/`τ` resolve Go's map iteration orders.
-/
namespace Verif.Rbac
open Spec

/-! ## From markers to the rules of one namespace -/

theorem mem_splitRule {m ρ : Rule} :
    ρ ∈ splitRule m ↔ (m.resources = [] ∧ ρ = m) ∨ ∃ x ∈ m.resources, ρ = { m with resources := [x] } := by
  unfold splitRule
  split
  · rename_i h
    simp only [List.mem_singleton, h, true_and]
    constructor
    · intro he; left; rw [he]; cases m; simp_all
    · rintro (rfl | ⟨x, hx, _⟩)
      · cases ρ; simp_all
      · cases hx
  · rename_i h
    simp only [List.mem_map, h, false_and, false_or]
    constructor
    · rintro ⟨x, hx, rfl⟩; exact ⟨x, hx, rfl⟩
    · rintro ⟨x, hx, rfl⟩; exact ⟨x, hx, rfl⟩

theorem splitRule_ns {m ρ : Rule} (h : ρ ∈ splitRule m) : ρ.ns = m.ns := by
  rcases mem_splitRule.1 h with ⟨_, rfl⟩ | ⟨x, _, rfl⟩ <;> rfl

theorem mem_rulesOf {markers ns ρ} :
    ρ ∈ rulesOf markers ns ↔ ∃ m ∈ markers, m.ns = ns ∧ ρ ∈ splitRule m := by
  simp only [rulesOf, List.mem_filter, List.mem_flatMap, decide_eq_true_eq]
  constructor
  · rintro ⟨⟨m, hm, hs⟩, hn⟩; exact ⟨m, hm, (splitRule_ns hs).symm.trans hn, hs⟩
  · rintro ⟨m, hm, hn, hs⟩; exact ⟨⟨m, hm, hs⟩, (splitRule_ns hs).trans hn⟩

theorem rulesOK_of {markers : List Rule} (ns : String)
    (hc : ∀ m ∈ markers, CleanMarker m) (hv : ∀ m ∈ markers, ValidShape m) :
    RulesOK ns (rulesOf markers ns) := by
  intro ρ hρ
  obtain ⟨m, hm, hn, hs⟩ := mem_rulesOf.1 hρ
  refine ⟨?_, ?_, (splitRule_ns hs).trans hn⟩
  · rcases mem_splitRule.1 hs with ⟨_, rfl⟩ | ⟨x, hx, rfl⟩
    · exact hc _ hm
    · obtain ⟨c1, c2, c3, c4, c5⟩ := hc m hm
      exact ⟨c1, fun s hs => c2 s (by rw [List.mem_singleton] at hs; rw [hs]; exact hx), c3, c4, c5⟩
  · rcases mem_splitRule.1 hs with ⟨_, rfl⟩ | ⟨x, hx, rfl⟩
    · exact hv _ hm
    · rcases hv m hm with ⟨h1, h2, h3⟩ | ⟨h1, h2, h3, h4⟩
      · exact .inl ⟨h1, by simp, h3⟩
      · rw [h2] at hx; cases hx

theorem rulesSep_of {markers : List Rule} (ns : String) (h : NoOverlap markers) :
    RulesSep (rulesOf markers ns) := by
  have sub : ∀ m ρ, ρ ∈ splitRule m → (∀ x ∈ ρ.resources, x ∈ m.resources) ∧
      ρ.groups = m.groups ∧ ρ.resourceNames = m.resourceNames ∧ ρ.urls = m.urls := by
    intro m ρ hs
    rcases mem_splitRule.1 hs with ⟨_, rfl⟩ | ⟨x, hx, rfl⟩
    · exact ⟨fun _ h => h, rfl, rfl, rfl⟩
    · refine ⟨fun y hy => ?_, rfl, rfl, rfl⟩
      rw [List.mem_singleton] at hy; rw [hy]; exact hx
  constructor
  · intro ρ hρ
    obtain ⟨m, hm, hn, hs⟩ := mem_rulesOf.1 hρ
    rcases mem_splitRule.1 hs with ⟨he, rfl⟩ | ⟨x, hx, rfl⟩
    · exact .inl he
    · exact .inr ⟨x, rfl⟩
  · rintro ρ hρ τ hτ ⟨r, hr1, hr2⟩ hnames
    obtain ⟨m, hm, hn, hs⟩ := mem_rulesOf.1 hρ
    obtain ⟨m', hm', hn', hs'⟩ := mem_rulesOf.1 hτ
    obtain ⟨a1, a2, a3, a4⟩ := sub m ρ hs
    obtain ⟨b1, b2, b3, b4⟩ := sub m' τ hs'
    have := (h m hm m' hm' (hn.trans hn'.symm)).1 ⟨r, a1 r hr1, b1 r hr2⟩ (by rw [← a3, ← b3]; exact hnames)
    simpa only [markerRule, a2, b2] using this
  · rintro ρ hρ τ hτ
    obtain ⟨m, hm, hn, hs⟩ := mem_rulesOf.1 hρ
    obtain ⟨m', hm', hn', hs'⟩ := mem_rulesOf.1 hτ
    obtain ⟨a1, a2, a3, a4⟩ := sub m ρ hs
    obtain ⟨b1, b2, b3, b4⟩ := sub m' τ hs'
    rw [a4, b4]
    exact (h m hm m' hm' (hn.trans hn'.symm)).2

theorem requested_iff (markers : List Rule) (ns : String) (q : Request) :
    Requested markers ns q ↔ ∃ ρ ∈ rulesOf markers ns, allows (markerRule ρ) q = true := by
  constructor
  · rintro ⟨m, hm, hn, hq⟩
    by_cases he : m.resources = []
    · exact ⟨m, mem_rulesOf.2 ⟨m, hm, hn, mem_splitRule.2 (.inl ⟨he, rfl⟩)⟩, hq⟩
    · rw [allows_iff] at hq
      obtain ⟨hv, hr⟩ := hq
      cases q with
      | url v p =>
        obtain ⟨x, hx⟩ := List.exists_mem_of_ne_nil _ he
        refine ⟨{ m with resources := [x] }, mem_rulesOf.2 ⟨m, hm, hn, mem_splitRule.2 (.inr ⟨x, hx, rfl⟩)⟩, ?_⟩
        rw [allows_iff]
        exact ⟨hv, hr⟩
      | resource v g r s n =>
        obtain ⟨hg, ⟨x, hx, hxm⟩, hnm⟩ := hr
        refine ⟨{ m with resources := [x] }, mem_rulesOf.2 ⟨m, hm, hn, mem_splitRule.2 (.inr ⟨x, hx, rfl⟩)⟩, ?_⟩
        rw [allows_iff]
        exact ⟨hv, hg, ⟨x, by simp [markerRule], hxm⟩, hnm⟩
  · rintro ⟨ρ, hρ, hq⟩
    obtain ⟨m, hm, hn, hs⟩ := mem_rulesOf.1 hρ
    refine ⟨m, hm, hn, ?_⟩
    rcases mem_splitRule.1 hs with ⟨_, rfl⟩ | ⟨x, hx, rfl⟩
    · exact hq
    · rw [allows_iff] at hq ⊢
      obtain ⟨hv, hr⟩ := hq
      refine ⟨hv, ?_⟩
      cases q with
      | url v p => exact hr
      | resource v g r s n =>
        obtain ⟨hg, ⟨y, hy, hym⟩, hnm⟩ := hr
        refine ⟨hg, ⟨y, ?_, hym⟩, hnm⟩
        simp only [markerRule, List.mem_singleton] at hy ⊢
        rw [hy]; exact hx

/-! ## From the rules of one namespace to the objects -/

theorem mem_namespacesOf {markers ns} : ns ∈ namespacesOf markers ↔ ∃ m ∈ markers, m.ns = ns := by
  simp only [namespacesOf, List.mem_eraseDups, List.mem_map, List.mem_flatMap]
  constructor
  · rintro ⟨ρ, ⟨m, hm, hs⟩, rfl⟩; exact ⟨m, hm, (splitRule_ns hs).symm⟩
  · rintro ⟨m, hm, rfl⟩
    by_cases he : m.resources = []
    · exact ⟨m, ⟨m, hm, mem_splitRule.2 (.inl ⟨he, rfl⟩)⟩, rfl⟩
    · obtain ⟨x, hx⟩ := List.exists_mem_of_ne_nil _ he
      exact ⟨_, ⟨m, hm, mem_splitRule.2 (.inr ⟨x, hx, rfl⟩)⟩, rfl⟩

theorem rulesOf_eq_nil {markers ns} (h : ¬ ∃ m ∈ markers, m.ns = ns) : rulesOf markers ns = [] := by
  rw [List.eq_nil_iff_forall_not_mem]
  intro ρ hρ
  obtain ⟨m, hm, hn, _⟩ := mem_rulesOf.1 hρ
  exact h ⟨m, hm, hn⟩

theorem normalizeRules_nil (σ : Sched) : normalizeRules σ [] = [] := by
  simp [normalizeRules, mergedMap, firstPass, pass, buckets, GoMap.groupOn, sortBy]

theorem mem_generateRoles {σ τ roleName markers o} :
    o ∈ generateRoles σ τ roleName markers ↔
      ∃ ns ∈ namespacesOf markers, roleFor roleName ns (normalizeRules (σ ns) (rulesOf markers ns)) = some o := by
  simp only [generateRoles, List.mem_filterMap, sortStrings, mem_sortBy, τ.mem_order]

/-- The rules granted for a namespace are exactly those computed from that namespace's markers. -/
theorem mem_grantedRules {σ τ roleName markers ns r} :
    r ∈ grantedRules (generateRoles σ τ roleName markers) ns ↔
      r ∈ normalizeRules (σ ns) (rulesOf markers ns) := by
  simp only [grantedRules, List.mem_flatMap, mem_generateRoles]
  constructor
  · rintro ⟨o, ⟨ns', hns', ho⟩, hr⟩
    unfold roleFor at ho
    split at ho
    · cases ho
    · split at ho
      · rename_i hz
        cases ho
        simp only at hr
        split at hr
        · rename_i hz'
          rw [hz', ← hz]; exact hr
        · cases hr
      · cases ho
        simp only at hr
        split at hr
        · rename_i hz'; rw [← hz'.1]; exact hr
        · cases hr
  · intro hr
    have hne : normalizeRules (σ ns) (rulesOf markers ns) ≠ [] := List.ne_nil_of_mem hr
    have hex : ∃ m ∈ markers, m.ns = ns := by
      apply Classical.byContradiction
      intro h
      rw [rulesOf_eq_nil h, normalizeRules_nil] at hne
      exact hne rfl
    by_cases hz : ns = ""
    · subst hz
      exact ⟨.clusterRole roleName _, ⟨"", mem_namespacesOf.2 hex, by simp [roleFor, hne]; rfl⟩, by simpa using hr⟩
    · exact ⟨.role roleName ns _, ⟨ns, mem_namespacesOf.2 hex, by simp [roleFor, hne, hz]; rfl⟩,
        by simpa [hz] using hr⟩

theorem mem_normalizeRules {σ rules p} :
    p ∈ normalizeRules σ rules ↔ ∃ r ∈ vals (mergedMap σ rules), p = (starVerbs r).toRule := by
  simp only [normalizeRules, List.mem_map, mem_sortBy, σ.mem_order, vals]
  constructor
  · rintro ⟨e, he, rfl⟩; exact ⟨e.2, ⟨e, he, rfl⟩, rfl⟩
  · rintro ⟨_, ⟨e, he, rfl⟩, rfl⟩; exact ⟨e, he, rfl⟩

theorem granted_iff {σ τ roleName markers ns q} :
    Granted (generateRoles σ τ roleName markers) ns q ↔
      ∃ r ∈ vals (mergedMap (σ ns) (rulesOf markers ns)), Sem r q := by
  unfold Granted
  constructor
  · rintro ⟨p, hp, hq⟩
    obtain ⟨r, hr, rfl⟩ := mem_normalizeRules.1 (mem_grantedRules.1 hp)
    exact ⟨r, hr, (sem_starVerbs r q).1 hq⟩
  · rintro ⟨r, hr, hq⟩
    exact ⟨_, mem_grantedRules.2 (mem_normalizeRules.2 ⟨r, hr, rfl⟩), (sem_starVerbs r q).2 hq⟩

/-! ## C01: nothing is granted that was not asked for -/

/-- **C01** (guarded).  If every marker is free of spelling accidents (no `&`, spaces or empty strings) and is a rule the
Kubernetes API accepts, then every request granted by the generated objects in a namespace is asked for by a marker
of that namespace, whatever the map iteration order.
Missing from the full property: markers violating the guard; `C01_violated` shows the guard cannot simply be dropped. -/
theorem C01_sound_partial (markers : List Rule) (hclean : ∀ m ∈ markers, CleanMarker m)
    (hshape : ∀ m ∈ markers, ValidShape m) (σ : String → Sched) (τ : Sched) (roleName ns : String)
    (q : Request) :
    Granted (generateRoles σ τ roleName markers) ns q → Requested markers ns q := by
  intro h
  rw [requested_iff]
  exact mergedMap_sound (rulesOK_of ns hclean hshape) (σ ns) q (granted_iff.1 h)

/-! ## C02: nothing asked for is lost -/

/-- **C02** (guarded).  If moreover the markers do not overlap partially (`NoOverlap`), every request asked for is granted.
Missing: markers violating the guard; `C02_violated` shows permissions really get lost there. -/
theorem C02_complete_partial (markers : List Rule) (hclean : ∀ m ∈ markers, CleanMarker m)
    (hshape : ∀ m ∈ markers, ValidShape m) (hsep : NoOverlap markers)
    (σ : String → Sched) (τ : Sched) (roleName ns : String) (q : Request) :
    Requested markers ns q → Granted (generateRoles σ τ roleName markers) ns q := by
  intro h
  rw [requested_iff] at h
  exact granted_iff.2 (mergedMap_complete (rulesOK_of ns hclean hshape) (rulesSep_of ns hsep) (σ ns) q h)

/-! ## C03: the output does not depend on map iteration order -/

theorem namespaces_sorted_eq {markers markers' : List Rule} (h : ∀ m, m ∈ markers ↔ m ∈ markers')
    (τ τ' : Sched) : sortStrings (τ.order 0 (namespacesOf markers)) =
      sortStrings (τ'.order 0 (namespacesOf markers')) := by
  apply sortStrings_perm_eq
  refine (τ.perm _ _).trans (List.Perm.trans ?_ (τ'.perm _ _).symm)
  refine (List.perm_ext_iff_of_nodup (nodup_eraseDups _) (nodup_eraseDups _)).2 ?_
  intro ns
  exact mem_namespacesOf.trans (Iff.trans (by simp only [h]) mem_namespacesOf.symm)

/-- **C03** (guarded).  Under the guard of C02 the generated objects are the same for all map iteration orders; they do not
even depend on the order or multiplicity of the markers.
Missing: markers violating the guard; `C03_violated` shows nondeterministic output there. -/
theorem C03_deterministic_partial (markers markers' : List Rule) (hclean : ∀ m ∈ markers, CleanMarker m)
    (hshape : ∀ m ∈ markers, ValidShape m) (hsep : NoOverlap markers)
    (hsame : ∀ m, m ∈ markers ↔ m ∈ markers')
    (σ σ' : String → Sched) (τ τ' : Sched) (roleName : String) :
    generateRoles σ τ roleName markers = generateRoles σ' τ' roleName markers' := by
  unfold generateRoles
  rw [namespaces_sorted_eq hsame τ τ']
  congr 1
  funext ns
  have he : ∀ r, r ∈ rulesOf markers ns ↔ r ∈ rulesOf markers' ns := by
    intro r; simp only [mem_rulesOf, hsame]
  rw [normalizeRules_det (ns := ns) (rulesOK_of ns hclean hshape)
    (rulesOK_of ns (fun m hm => hclean m ((hsame m).2 hm)) (fun m hm => hshape m ((hsame m).2 hm)))
    (rulesSep_of ns hsep) he (σ ns) (σ' ns)]

/-! ## The guards are met by ordinary markers -/

/-- A realistic set of markers: pods and deployments, two spellings of the core group, a second namespace, URLs. -/
def sample : List Rule :=
  [ ⟨["core"], ["pods", "services"], [], ["get", "list"], [], ""⟩,
    ⟨[""], ["pods"], [], ["watch"], [], ""⟩,
    ⟨["apps", "extensions"], ["deployments", "deployments/status"], [], ["get"], [], ""⟩,
    ⟨["apps"], ["deployments"], ["web"], ["*", "delete"], [], "prod"⟩,
    ⟨[], [], [], ["get"], ["/healthz", "/metrics"], ""⟩ ]

instance (s : String) : Decidable (CleanStr s) := by unfold CleanStr; infer_instance
instance (s : String) : Decidable (CleanGroup s) := by unfold CleanGroup; infer_instance
instance (m : Rule) : Decidable (ValidShape m) := by unfold ValidShape; infer_instance
theorem cleanMarker_iff (m : Rule) : CleanMarker m ↔ (∀ s ∈ m.groups, CleanGroup s) ∧
    (∀ s ∈ m.resources, CleanStr s) ∧ (∀ s ∈ m.resourceNames, CleanStr s) ∧
    (∀ s ∈ m.verbs, CleanStr s) ∧ (∀ s ∈ m.urls, CleanStr s) :=
  ⟨fun ⟨a, b, c, d, e⟩ => ⟨a, b, c, d, e⟩, fun ⟨a, b, c, d, e⟩ => ⟨a, b, c, d, e⟩⟩
instance (m : Rule) : Decidable (CleanMarker m) := decidable_of_iff _ (cleanMarker_iff m).symm
theorem sameSet_iff (a b : List String) : SameSet a b ↔ (∀ s ∈ a, s ∈ b) ∧ ∀ s ∈ b, s ∈ a :=
  ⟨fun h => ⟨fun s => (h s).1, fun s => (h s).2⟩, fun h s => ⟨h.1 s, h.2 s⟩⟩
instance (a b : List String) : Decidable (SameSet a b) := decidable_of_iff _ (sameSet_iff a b).symm
instance (a b : List String) : Decidable (Disjoint a b) :=
  decidable_of_iff (∀ s ∈ a, s ∉ b) (by unfold Disjoint; rfl)
instance (a b : List String) : Decidable (∃ r, r ∈ a ∧ r ∈ b) :=
  decidable_of_iff (∃ r ∈ a, r ∈ b) (by rfl)
instance (ms : List Rule) : Decidable (NoOverlap ms) := by unfold NoOverlap; infer_instance

example : (∀ m ∈ sample, CleanMarker m) ∧ (∀ m ∈ sample, ValidShape m) ∧ NoOverlap sample := by
  decide +kernel

/-- and on them the generator really produces something: a `ClusterRole` with four rules and a `Role`. -/
example : generateRoles (fun _ => Sched.lifo) Sched.fifo "manager" sample =
    [ .clusterRole "manager"
        [ ⟨[], ["get"], [], [], ["/healthz", "/metrics"]⟩,
          ⟨[""], ["get", "list", "watch"], ["pods"], [], []⟩,
          ⟨[""], ["get", "list"], ["services"], [], []⟩,
          ⟨["apps", "extensions"], ["get"], ["deployments", "deployments/status"], [], []⟩ ],
      .role "manager" "prod" [⟨["apps"], ["*"], ["deployments"], ["web"], []⟩] ] := by
  decide +kernel

/-- A request that is asked for by the sample markers. -/
example : Requested sample "" (.resource "watch" "" "pods" "" "web-0") :=
  ⟨sample[1], by decide, rfl, by decide⟩

/-! ## Why the guards are there -/

/-- Markers with an empty resource name: `resourceNames=""` next to no resource names. -/
def emptyNameMarkers : List Rule :=
  [ ⟨["apps"], ["deployments"], [], ["get"], [], ""⟩,
    ⟨["apps"], ["deployments"], [""], ["delete"], [], ""⟩ ]

/-- **C01 is violated** without the guard: `[]` and `[""]` have the same key, so the verbs of a rule restricted to the
(nonexistent) resource named "" are granted for all names. -/
theorem C01_violated : ∃ markers σ τ ns q,
    Granted (generateRoles σ τ "manager" markers) ns q ∧ ¬ Requested markers ns q := by
  refine ⟨emptyNameMarkers, fun _ => Sched.fifo, Sched.fifo, "", .resource "delete" "apps" "deployments" "" "web", ?_, ?_⟩
  · refine ⟨⟨["apps"], ["delete", "get"], ["deployments"], [], []⟩, ?_, by decide⟩
    decide +kernel
  · rintro ⟨m, hm, -, h⟩
    simp only [emptyNameMarkers, List.mem_cons, List.not_mem_nil, or_false] at hm
    rcases hm with rfl | rfl
    · exact absurd h (by decide)
    · exact absurd h (by decide)

/-- Three clean, valid markers whose API groups overlap partially. -/
def overlapMarkers : List Rule :=
  [ ⟨["a"], ["pods"], [], ["get"], [], ""⟩,
    ⟨["b"], ["pods"], [], ["get"], [], ""⟩,
    ⟨["a", "b"], ["pods"], [], ["list"], [], ""⟩ ]

/-- **C02 is violated** without `NoOverlap`: when groups `a` and `b` (verb get) merge to `a&b`, the rule for `a&b` (verb
list) is overwritten or overwrites, so a permission is lost. -/
theorem C02_violated : ∃ markers σ τ ns q, (∀ m ∈ markers, CleanMarker m) ∧ (∀ m ∈ markers, ValidShape m) ∧
    Requested markers ns q ∧ ¬ Granted (generateRoles σ τ "manager" markers) ns q := by
  refine ⟨overlapMarkers, fun _ => Sched.fifo, Sched.fifo, "", .resource "get" "a" "pods" "" "x", by decide +kernel,
    by decide +kernel, ⟨overlapMarkers[0], by decide, rfl, by decide⟩, ?_⟩
  rintro ⟨r, hr, h⟩
  have e : grantedRules (generateRoles (fun _ => Sched.fifo) Sched.fifo "manager" overlapMarkers) "" =
    [⟨["a", "b"], ["list"], ["pods"], [], []⟩] := by decide +kernel
  rw [e, List.mem_singleton] at hr
  subst hr
  exact absurd h (by decide)

/-- The same permission loss for URLs. -/
theorem C02_violated_urls : ∃ markers σ τ ns q, (∀ m ∈ markers, CleanMarker m) ∧ (∀ m ∈ markers, ValidShape m) ∧
    Requested markers ns q ∧ ¬ Granted (generateRoles σ τ "manager" markers) ns q := by
  let ms : List Rule := [ ⟨[], [], [], ["get"], ["/a"], ""⟩, ⟨[], [], [], ["get"], ["/b"], ""⟩,
    ⟨[], [], [], ["post"], ["/a", "/b"], ""⟩ ]
  refine ⟨ms, fun _ => Sched.fifo, Sched.fifo, "", .url "get" "/a", by decide +kernel,
    by decide +kernel, ⟨ms[0], by decide, rfl, by decide⟩, ?_⟩
  rintro ⟨r, hr, h⟩
  have e : grantedRules (generateRoles (fun _ => Sched.fifo) Sched.fifo "manager" ms) "" =
    [⟨[], ["post"], [], [], ["/a", "/b"]⟩] := by decide +kernel
  rw [e, List.mem_singleton] at hr
  subst hr
  exact absurd h (by decide)

/-- **C03 is violated** without `NoOverlap`: which rule survives depends on the map iteration order. -/
theorem C03_violated : ∃ markers σ σ' τ, (∀ m ∈ markers, CleanMarker m) ∧ (∀ m ∈ markers, ValidShape m) ∧
    generateRoles σ τ "manager" markers ≠ generateRoles σ' τ "manager" markers :=
  ⟨overlapMarkers, fun _ => Sched.fifo, fun _ => Sched.revAt 3, Sched.fifo, by decide +kernel,
    by decide +kernel, by decide +kernel⟩

/-! ## C04: partition by namespace -/

theorem vals_foldl_ne {m : RMap} {k} (h : k ∈ GoMap.keys m) : m ≠ [] := by
  rintro rfl; simp [GoMap.keys] at h

theorem pass_ne_nil (σ : Sched) (n : Nat) (f : Fld) {m : RMap} (h : m ≠ []) : pass σ n f m ≠ [] := by
  obtain ⟨e, he⟩ := List.exists_mem_of_ne_nil _ h
  obtain ⟨-, -, h3⟩ := foldl_put (fun b : String × List Rule => collapse f b.2)
    (σ.order (n+1) (buckets f ((σ.order n m).map (·.2))))
  have hx : e.2.normalize ∈ ((σ.order n m).map (·.2)).map Rule.normalize :=
    List.mem_map.2 ⟨e.2, List.mem_map.2 ⟨e, (σ.mem_order _ _ _).2 he, rfl⟩, rfl⟩
  let k := e.2.normalize.keyWithout f
  have hne : (((σ.order n m).map (·.2)).map Rule.normalize).filter (fun a => a.keyWithout f = k) ≠ [] :=
    List.ne_nil_of_mem (List.mem_filter.2 ⟨hx, by simp [k]⟩)
  have hb : (k, _) ∈ buckets f ((σ.order n m).map (·.2)) := (GoMap.mem_groupOn _ _).2 ⟨rfl, hne⟩
  match hrs : (((σ.order n m).map (·.2)).map Rule.normalize).filter (fun a => a.keyWithout f = k) with
  | [] => exact absurd hrs hne
  | r :: rest =>
    have hc : collapse f (((σ.order n m).map (·.2)).map Rule.normalize |>.filter
      (fun a => a.keyWithout f = k)) = some (rest.foldl (Rule.append f) r).normalize := by
      rw [hrs]; rfl
    exact vals_foldl_ne (h3 (k, _) ((σ.mem_order _ _ _).2 hb) _ hc)

theorem firstStep_ne_nil (m : RMap) (r : Rule) : firstStep m r ≠ [] := by
  unfold firstStep
  simp only
  cases GoMap.get m (fixCore r).normalize.key with
  | none => exact vals_foldl_ne (GoMap.mem_keys_put.2 (.inl rfl))
  | some r₀ => exact vals_foldl_ne (GoMap.mem_keys_put.2 (.inl rfl))

theorem firstPass_ne_nil {rules : List Rule} (h : rules ≠ []) : firstPass rules ≠ [] := by
  rw [← List.dropLast_concat_getLast h]
  simp only [firstPass, List.foldl_append, List.foldl_cons, List.foldl_nil]
  exact firstStep_ne_nil _ _

theorem normalizeRules_ne_nil (σ : Sched) {rules : List Rule} (h : rules ≠ []) :
    normalizeRules σ rules ≠ [] := by
  have h1 : mergedMap σ rules ≠ [] :=
    pass_ne_nil _ _ _ (pass_ne_nil _ _ _ (pass_ne_nil _ _ _ (firstPass_ne_nil h)))
  obtain ⟨e, he⟩ := List.exists_mem_of_ne_nil _ h1
  exact List.ne_nil_of_mem (mem_normalizeRules.2 ⟨e.2, mem_vals.2 ⟨e.1, he⟩, rfl⟩)

theorem rulesOf_ne_nil {markers ns} (h : ∃ m ∈ markers, m.ns = ns) : rulesOf markers ns ≠ [] := by
  obtain ⟨m, hm, hn⟩ := h
  by_cases he : m.resources = []
  · exact List.ne_nil_of_mem (mem_rulesOf.2 ⟨m, hm, hn, mem_splitRule.2 (.inl ⟨he, rfl⟩)⟩)
  · obtain ⟨x, hx⟩ := List.exists_mem_of_ne_nil _ he
    exact List.ne_nil_of_mem (mem_rulesOf.2 ⟨m, hm, hn, mem_splitRule.2 (.inr ⟨x, hx, rfl⟩)⟩)

theorem roleFor_nsOf {roleName ns rs o} (h : roleFor roleName ns rs = some o) :
    nsOf o = ns ∧ nameOf o = roleName ∧ rulesIn o = rs ∧
      (ns = "" → o = .clusterRole roleName rs) ∧ (ns ≠ "" → o = .role roleName ns rs) := by
  unfold roleFor at h
  split at h
  · cases h
  · split at h
    · rename_i hz; cases h; exact ⟨hz.symm, rfl, rfl, fun _ => rfl, fun h => absurd hz h⟩
    · rename_i hz; cases h; exact ⟨rfl, rfl, rfl, fun h => absurd h hz, fun _ => rfl⟩

theorem sortStrings_strict {l : List String} (h : l.Nodup) : (sortStrings l).Pairwise (· < ·) := by
  have h := List.pairwise_and_iff.2 ⟨sortBy_pairwise strLe_trans strLe_total l, (nodup_sortBy (le := strLe)).2 h⟩
  exact h.imp (fun h => strLt_iff.2 h)

theorem filterMap_sorted {l : List String} {g : String → Option RoleObj} (h : l.Pairwise (· < ·))
    (hg : ∀ ns o, g ns = some o → nsOf o = ns) :
    ((l.filterMap g).map nsOf).Pairwise (· < ·) := by
  induction l with
  | nil => simp
  | cons a l ih =>
    rw [List.pairwise_cons] at h
    rw [List.filterMap_cons]
    cases hga : g a with
    | none => simpa using ih h.2
    | some o =>
      simp only [List.map_cons, List.pairwise_cons]
      refine ⟨?_, ih h.2⟩
      intro ns hns
      obtain ⟨o', ho', rfl⟩ := List.mem_map.1 hns
      obtain ⟨ns', hns', hg'⟩ := List.mem_filterMap.1 ho'
      rw [hg _ _ hga, hg _ _ hg']
      exact h.1 ns' hns'

/-- **C04**, first half: the objects are in strictly increasing namespace order (so at most one per namespace); there is one
for exactly the namespaces named by markers; each is a `ClusterRole` for the empty namespace and a `Role` in its
namespace otherwise, with the requested name and at least one rule. -/
theorem C04_partition (σ : String → Sched) (τ : Sched) (roleName : String) (markers : List Rule) :
    StrictlySorted ((generateRoles σ τ roleName markers).map nsOf) ∧
    (∀ ns, (∃ o ∈ generateRoles σ τ roleName markers, nsOf o = ns) ↔ ∃ m ∈ markers, m.ns = ns) ∧
    (∀ o ∈ generateRoles σ τ roleName markers, rulesIn o ≠ [] ∧
      ((nsOf o = "" ∧ o = .clusterRole roleName (rulesIn o)) ∨
       (nsOf o ≠ "" ∧ o = .role roleName (nsOf o) (rulesIn o)))) := by
  refine ⟨?_, ?_, ?_⟩
  · apply filterMap_sorted
    · exact sortStrings_strict ((τ.nodup_order 0 _).2 (nodup_eraseDups _))
    · intro ns o h; exact (roleFor_nsOf h).1
  · intro ns
    constructor
    · rintro ⟨o, ho, rfl⟩
      obtain ⟨ns, hns, h⟩ := mem_generateRoles.1 ho
      rw [(roleFor_nsOf h).1]
      exact mem_namespacesOf.1 hns
    · intro h
      have hne := normalizeRules_ne_nil (σ ns) (rulesOf_ne_nil h)
      have : ∃ o, roleFor roleName ns (normalizeRules (σ ns) (rulesOf markers ns)) = some o := by
        unfold roleFor
        rw [if_neg hne]
        by_cases hz : ns = "" <;> simp [hz]
      obtain ⟨o, ho⟩ := this
      exact ⟨o, mem_generateRoles.2 ⟨ns, mem_namespacesOf.2 h, ho⟩, (roleFor_nsOf ho).1⟩
  · intro o ho
    obtain ⟨ns, hns, h⟩ := mem_generateRoles.1 ho
    have hne := normalizeRules_ne_nil (σ ns) (rulesOf_ne_nil (mem_namespacesOf.1 hns))
    obtain ⟨h1, h2, h3, h4, h5⟩ := roleFor_nsOf h
    rw [h3, h1]
    refine ⟨hne, ?_⟩
    by_cases hz : ns = ""
    · exact .inl ⟨hz, h4 hz⟩
    · exact .inr ⟨hz, h5 hz⟩

/-- **C04**, second half: the object generated for a namespace depends on that namespace's markers only. -/
theorem C04_independent (σ : String → Sched) (τ τ' : Sched) (roleName : String) (markers markers' : List Rule)
    (ns : String) (hsame : markers.filter (fun m => m.ns = ns) = markers'.filter (fun m => m.ns = ns)) :
    (generateRoles σ τ roleName markers).filter (fun o => nsOf o = ns) =
      (generateRoles σ τ' roleName markers').filter (fun o => nsOf o = ns) := by
  have hrules : ∀ ms : List Rule, rulesOf ms ns = (ms.filter (fun m => m.ns = ns)).flatMap splitRule := by
    intro ms
    unfold rulesOf
    induction ms with
    | nil => rfl
    | cons m ms ih =>
      rw [List.flatMap_cons, List.filter_append, ih, List.filter_cons]
      by_cases h : m.ns = ns
      · simp only [h, decide_true, if_true, List.flatMap_cons]
        congr 1
        rw [List.filter_eq_self]
        intro r hr
        rw [splitRule_ns hr]; simp [h]
      · simp only [h, decide_false, Bool.false_eq_true, if_false]
        rw [List.filter_eq_nil_iff.2, List.nil_append]
        intro r hr
        rw [splitRule_ns hr]; simp [h]
  -- one namespace at a time
  have hone : ∀ (τ : Sched) (ms : List Rule),
      (generateRoles σ τ roleName ms).filter (fun o => nsOf o = ns) =
        (roleFor roleName ns (normalizeRules (σ ns) (rulesOf ms ns))).toList := by
    intro τ ms
    unfold generateRoles
    rw [List.filter_filterMap]
    have hnd : (sortStrings (τ.order 0 (namespacesOf ms))).Nodup :=
      nodup_sortBy.2 ((τ.nodup_order 0 _).2 (nodup_eraseDups _))
    have hmem : ns ∈ sortStrings (τ.order 0 (namespacesOf ms)) ↔ ∃ m ∈ ms, m.ns = ns := by
      rw [sortStrings, mem_sortBy, τ.mem_order, mem_namespacesOf]
    generalize sortStrings (τ.order 0 (namespacesOf ms)) = l at hnd hmem
    have hstep : ∀ ns', ns' ≠ ns → Option.filter (fun o => decide (nsOf o = ns))
        (roleFor roleName ns' (normalizeRules (σ ns') (rulesOf ms ns'))) = none := by
      intro ns' hne
      cases h : roleFor roleName ns' (normalizeRules (σ ns') (rulesOf ms ns')) with
      | none => rfl
      | some o => simp [Option.filter, (roleFor_nsOf h).1, hne]
    have hself : Option.filter (fun o => decide (nsOf o = ns))
        (roleFor roleName ns (normalizeRules (σ ns) (rulesOf ms ns))) =
        roleFor roleName ns (normalizeRules (σ ns) (rulesOf ms ns)) := by
      cases h : roleFor roleName ns (normalizeRules (σ ns) (rulesOf ms ns)) with
      | none => rfl
      | some o => simp [Option.filter, (roleFor_nsOf h).1]
    have hnil : ∀ l : List String, ns ∉ l → l.filterMap (fun x =>
        Option.filter (fun o => decide (nsOf o = ns))
          (roleFor roleName x (normalizeRules (σ x) (rulesOf ms x)))) = [] := by
      intro l hl
      rw [List.filterMap_eq_nil_iff]
      intro x hx
      exact hstep x (fun h => hl (h ▸ hx))
    by_cases hin : ns ∈ l
    · obtain ⟨l₁, l₂, rfl⟩ := List.append_of_mem hin
      rw [List.filterMap_append, List.filterMap_cons, hself]
      rw [List.nodup_append] at hnd
      have n1 : ns ∉ l₁ := fun h => hnd.2.2 _ h _ (List.mem_cons_self ..) rfl
      have n2 : ns ∉ l₂ := (List.nodup_cons.1 hnd.2.1).1
      rw [hnil _ n1, hnil _ n2]
      cases roleFor roleName ns (normalizeRules (σ ns) (rulesOf ms ns)) <;> rfl
    · rw [hnil _ hin, rulesOf_eq_nil (fun h => hin (hmem.2 h)), normalizeRules_nil]
      rfl
  rw [hone τ markers, hone τ' markers', hrules markers, hrules markers', hsame]

/-! ## C05: normal form -/

/-- What holds of every entry of every intermediate map, without any assumption on the markers. -/
structure EntryNF (e : RuleKey × Rule) : Prop where
  norm : Norm e.2
  key : e.1 = e.2.key
  noCore : "core" ∉ e.2.groups

theorem firstPass_nf (rules : List Rule) :
    GoMap.WF (firstPass rules) ∧ ∀ e ∈ firstPass rules, EntryNF e := by
  induction rules using GoMap.revInduction with
  | nil => simp [firstPass, GoMap.WF, GoMap.keys]
  | concat l a ih =>
    obtain ⟨w, ih⟩ := ih
    have hstep : firstPass (l ++ [a]) = firstStep (firstPass l) a := by
      simp [firstPass, List.foldl_append]
    have hcore : "core" ∉ (prep a).groups := by
      simp only [prep, Rule.normalize, fixCore, mem_rds, List.mem_map, not_exists, not_and]
      intro g _ h
      split at h
      · exact absurd h (by decide)
      · rename_i hne; exact hne h
    rw [hstep]
    unfold firstStep
    have hp : (fixCore a).normalize = prep a := rfl
    simp only [hp]
    cases hget : GoMap.get (firstPass l) (prep a).key with
    | none =>
      refine ⟨GoMap.put_wf w _ _, fun e he => ?_⟩
      rcases GoMap.mem_of_mem_put he with rfl | he
      · exact ⟨normalize_norm _, rfl, hcore⟩
      · exact ih e he
    | some r₀ =>
      refine ⟨GoMap.put_wf w _ _, fun e he => ?_⟩
      rw [GoMap.get_eq_some w] at hget
      obtain ⟨i1, i2, i3⟩ := ih _ hget
      rcases GoMap.mem_of_mem_put he with rfl | he
      · refine ⟨?_, i2, i3⟩
        obtain ⟨n1, n2, n3, n4, n5⟩ := norm_fields i1
        simp only at n1 n2 n3 n5
        simp [Norm, Rule.normalize, Rule.addVerbs, n1, n2, n3, n5]
      · exact ih e he

theorem collapse_nf {f : Fld} {rs : List Rule} {r : Rule} (h : collapse f rs = some r)
    (hc : ∀ y ∈ rs, "core" ∉ y.groups) : Norm r ∧ "core" ∉ r.groups := by
  cases rs with
  | nil => cases h
  | cons x rest =>
    simp only [collapse, Option.some.injEq] at h
    subst h
    refine ⟨normalize_norm _, ?_⟩
    rw [foldl_append_eq]
    simp only [Rule.normalize, mem_rds]
    cases f
    · exact hc x (by simp)
    · simp only [Fld.set, Fld.get, List.mem_append, List.mem_flatMap, not_or, not_exists, not_and]
      exact ⟨hc x (by simp), fun y hy => hc y (by simp [hy])⟩
    · exact hc x (by simp)

theorem pass_nf (σ : Sched) (n : Nat) (f : Fld) {m : RMap} (h : ∀ e ∈ m, EntryNF e) :
    GoMap.WF (pass σ n f m) ∧ ∀ e ∈ pass σ n f m, EntryNF e := by
  obtain ⟨h1, h2, -⟩ := foldl_put (fun b : String × List Rule => collapse f b.2)
    (σ.order (n+1) (buckets f ((σ.order n m).map (·.2))))
  refine ⟨h1, fun e he => ?_⟩
  obtain ⟨⟨k, rs⟩, hb, hc, hk⟩ := h2 e he
  obtain ⟨hrs, -⟩ := (GoMap.mem_groupOn _ _).1 ((σ.mem_order _ _ _).1 hb)
  have := collapse_nf hc (by
    intro y hy
    simp only [hrs, List.mem_filter, List.mem_map] at hy
    obtain ⟨⟨x, ⟨e', he', rfl⟩, rfl⟩, -⟩ := hy
    simp only [Rule.normalize, mem_rds]
    exact (h e' ((σ.mem_order _ _ _).1 he')).noCore)
  exact ⟨this.1, hk, this.2⟩

theorem mergedMap_nf (σ : Sched) (rules : List Rule) :
    GoMap.WF (mergedMap σ rules) ∧ ∀ e ∈ mergedMap σ rules, EntryNF e :=
  pass_nf _ _ _ (pass_nf _ _ _ (pass_nf _ _ _ (firstPass_nf rules).2).2).2

theorem ident_eq {r : Rule} : ident (starVerbs r).toRule =
    (r.key.groups, r.key.resources, r.key.resourceNames, r.key.urls) := by
  unfold starVerbs
  split <;> rfl

/-- **C05**, in full: in every generated rule all lists are strictly sorted, `core` does not occur, `*` swallows the
other verbs; and the rules of each object are sorted by their printed identity, no two having the same identity. -/
theorem C05_normal_form (σ : String → Sched) (τ : Sched) (roleName : String) (markers : List Rule) :
    ∀ o ∈ generateRoles σ τ roleName markers,
      (∀ r ∈ rulesIn o, NormalForm r) ∧
      (rulesIn o).Pairwise (fun a b => printed a ≤ printed b ∧ ident a ≠ ident b) := by
  intro o ho
  obtain ⟨ns, hns, h⟩ := mem_generateRoles.1 ho
  rw [(roleFor_nsOf h).2.2.1]
  obtain ⟨wf, nf⟩ := mergedMap_nf (σ ns) (rulesOf markers ns)
  constructor
  · intro p hp
    obtain ⟨r, hr, rfl⟩ := mem_normalizeRules.1 hp
    obtain ⟨k, hk⟩ := mem_vals.1 hr
    obtain ⟨hn, -, hc⟩ := nf _ hk
    simp only at hn hc
    obtain ⟨n1, n2, n3, n4, n5⟩ := norm_fields hn
    have s : ∀ l : List String, removeDupAndSort l = l → StrictlySorted l := fun l hl => by
      rw [← hl]; exact rds_strict l
    unfold starVerbs
    split
    · exact ⟨s _ n1, s _ n2, s _ n3, by simp [Rule.toRule, StrictlySorted], s _ n5, hc, fun _ => rfl⟩
    · rename_i hst
      exact ⟨s _ n1, s _ n2, s _ n3, s _ n4, s _ n5, hc, fun h => absurd h hst⟩
  · unfold normalizeRules
    rw [List.pairwise_map]
    have hs := sortBy_pairwise (le := entryLe) (fun x y z => strLe_trans _ _ _) (fun x y => strLe_total _ _)
      ((σ ns).order 6 (mergedMap (σ ns) (rulesOf markers ns)))
    have hnd : ((sortBy entryLe ((σ ns).order 6 (mergedMap (σ ns) (rulesOf markers ns)))).map (·.1)).Nodup := by
      have p := (sortBy_perm entryLe ((σ ns).order 6 (mergedMap (σ ns) (rulesOf markers ns)))).trans
        ((σ ns).perm 6 _)
      exact (List.Perm.map Prod.fst p).nodup_iff.2 wf
    rw [List.Nodup, List.pairwise_map] at hnd
    refine (List.pairwise_and_iff.2 ⟨hs, hnd⟩).imp_of_mem ?_
    intro a b ha hb ⟨hle, hne⟩
    rw [mem_sortBy, (σ ns).mem_order] at ha hb
    have ka := (nf a ha).key
    have kb := (nf b hb).key
    refine ⟨?_, ?_⟩
    · simp only [printed, ident_eq]
      have := hle
      simp only [entryLe, strLe, decide_eq_true_eq, ka, kb] at this
      exact this
    · rw [ident_eq, ident_eq]
      intro heq
      apply hne
      rw [ka, kb]
      simp only [Prod.mk.injEq] at heq
      obtain ⟨h1, h2, h3, h4⟩ := heq
      cases hka : a.2.key; cases hkb : b.2.key
      simp_all

end Verif.Rbac

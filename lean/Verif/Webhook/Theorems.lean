import Verif.Webhook.Lemmas
/-!
# Properties C06–C10: webhook configuration generation
-/
namespace Verif.Webhook
open GoStr Spec

theorem sortedByName (l : List Config) : SortedByName l (sortBy cfgLe l) := by
  refine ⟨sortBy_perm _ _, ?_, ?_⟩
  · have := sortBy_pairwise (le := cfgLe) (fun a b c => strLe_trans a.name b.name c.name)
      (fun a b => strLe_total a.name b.name) l
    exact this.imp (fun h => by simpa [cfgLe, strLe] using h)
  · intro n
    apply sortBy_filter
    intro a _ b _ ha hb
    simp only [decide_eq_true_eq] at ha hb
    simp only [cfgLe, ha, hb]
    rcases strLe_total n n with h | h <;> exact h

theorem objectName_eq (roots : List Root) (b : Bool) (dflt : String) :
    orDefault (lastName (wcfgs b roots) "") dflt = objectName roots b dflt := by
  unfold objectName lastName wcfgs
  split
  · rename_i w hw; rw [hw]
  · rename_i hw; rw [hw]; rfl

/-- Characterisation of the whole generator. -/
theorem generate_ok {σ : Sched} {roots : List Root} {fs : List (String × List Obj)} :
    generate σ roots = .ok fs ↔
      (∀ r ∈ roots, NoDuplicateConfig r) ∧
      ∃ mws vws, All2 Conv (roots.flatMap (kindOf true)) mws ∧ All2 Conv (roots.flatMap (kindOf false)) vws ∧
        (∀ w ∈ mws, checkWebhook w = .ok ()) ∧ (∀ w ∈ vws, checkWebhook w = .ok ()) ∧
        fs = files
          (objects "MutatingWebhookConfiguration" (objectName roots true "mutating-webhook-configuration") mws ++
           objects "ValidatingWebhookConfiguration" (objectName roots false "validating-webhook-configuration") vws) := by
  have hfinal : ∀ (objs : List Obj), (σ.order 1 (if objs = [] then [] else [("v1", objs)])).map
      (fun kv => (fileName kv.1, kv.2)) = files objs := by
    intro objs
    unfold files
    by_cases h : objs = []
    · simp [h]
    · simp only [h, if_false]
      have : σ.order 1 [("v1", objs)] = [("v1", objs)] := List.perm_singleton.1 (σ.perm 1 _)
      rw [this]
      simp [fileName]
  have hV : V [] = [] := rfl
  unfold generate
  constructor
  · intro h
    cases hr : rootLoop σ roots ⟨[], [], "", ""⟩ with
    | error e => rw [hr] at h; cases h
    | ok st =>
      rw [hr] at h
      obtain ⟨hnd, mws, vws, h1, h2, rfl⟩ := (rootLoop_ok (ml := []) (vl := [])).1 hr
      simp only [List.nil_append] at h
      refine ⟨hnd, mws, vws, h1, h2, ?_⟩
      simp only [supportedWebhookVersions, versionLoop] at h
      cases hm : objFor "MutatingWebhookConfiguration" (lastName (wcfgs true roots) "") "mutating-webhook-configuration" "v1" (V mws) with
      | error e => rw [hm] at h; cases h
      | ok ms =>
        rw [hm] at h
        simp only at h
        cases hv : objFor "ValidatingWebhookConfiguration" (lastName (wcfgs false roots) "") "validating-webhook-configuration" "v1" (V vws) with
        | error e => rw [hv] at h; cases h
        | ok vs =>
          rw [hv] at h
          simp only [Except.ok.injEq] at h
          obtain ⟨c1, rfl⟩ := objFor_ok.1 hm
          obtain ⟨c2, rfl⟩ := objFor_ok.1 hv
          refine ⟨c1, c2, ?_⟩
          rw [← h, hfinal, objectName_eq, objectName_eq]
  · rintro ⟨hnd, mws, vws, h1, h2, c1, c2, rfl⟩
    have hr : rootLoop σ roots ⟨[], [], "", ""⟩ = _ :=
      (rootLoop_ok (σ := σ) (ml := []) (vl := []) (mn := "") (vn := "")).2 ⟨hnd, mws, vws, h1, h2, rfl⟩
    rw [hr]
    simp only [supportedWebhookVersions, versionLoop, List.nil_append]
    rw [objFor_ok.2 ⟨c1, rfl⟩]
    simp only
    rw [objFor_ok.2 ⟨c2, rfl⟩]
    simp only [hfinal, objectName_eq]

/-- **C08**, in full.  On success the output is at most one file, `manifests.yaml`, holding the mutating object (if it has any
webhooks) followed by the validating object (if it has any); each lists, root by root and sorted by name within a root,
exactly one webhook per marker of its kind, the webhook being what the marker asks for; and (C10) the objects carry the name
given by the last configuration marker of the kind, or the default. -/
theorem C08_every_marker_once (σ : Sched) (roots : List Root) (out : List (String × List Obj))
    (h : generate σ roots = .ok out) :
    ∃ mws vws, ListsAll roots true mws ∧ ListsAll roots false vws ∧
      out = files
        (objects "MutatingWebhookConfiguration" (objectName roots true "mutating-webhook-configuration") mws ++
         objects "ValidatingWebhookConfiguration" (objectName roots false "validating-webhook-configuration") vws) := by
  obtain ⟨-, mws, vws, h1, h2, c1, c2, rfl⟩ := generate_ok.1 h
  refine ⟨mws, vws, ⟨kindOf true, fun r _ => sortedByName _, ?_⟩, ⟨kindOf false, fun r _ => sortedByName _, ?_⟩, rfl⟩
  · exact h1.imp (fun c _ w hw hc => emitted_of_ok hc.2 (c1 w hw))
  · exact h2.imp (fun c _ w hw hc => emitted_of_ok hc.2 (c2 w hw))

/-- All webhooks of all objects of all files. -/
def webhooksOf (out : List (String × List Obj)) : List Webhook := out.flatMap (fun f => f.2.flatMap (·.webhooks))

theorem mem_webhooksOf {a b : List Webhook} {n n' : String} {w : Webhook} :
    w ∈ webhooksOf (files (objects "MutatingWebhookConfiguration" n a ++ objects "ValidatingWebhookConfiguration" n' b)) ↔
      w ∈ a ∨ w ∈ b := by
  unfold webhooksOf files objects
  by_cases ha : a = [] <;> by_cases hb : b = [] <;> simp [ha, hb]

theorem mem_of_sorted {l l' : List Config} (h : SortedByName l l') {c : Config} : c ∈ l' ↔ c ∈ l := h.1.mem_iff

/-- Every emitted webhook comes from a marker, and every marker is emitted. -/
theorem emitted_both {σ : Sched} {roots : List Root} {out : List (String × List Obj)}
    (h : generate σ roots = .ok out) :
    (∀ w ∈ webhooksOf out, ∃ r ∈ roots, ∃ c ∈ r.cfgs, Emitted c w) ∧
    (∀ r ∈ roots, ∀ c ∈ r.cfgs, ∃ w ∈ webhooksOf out, Emitted c w) := by
  obtain ⟨mws, vws, ⟨s1, a1, b1⟩, ⟨s2, a2, b2⟩, rfl⟩ := C08_every_marker_once σ roots out h
  constructor
  · intro w hw
    rcases mem_webhooksOf.1 hw with hw | hw
    · obtain ⟨c, hc, he⟩ := b1.exists_left hw
      obtain ⟨r, hr, hc⟩ := List.mem_flatMap.1 hc
      exact ⟨r, hr, c, (List.mem_filter.1 ((mem_of_sorted (a1 r hr)).1 hc)).1, he⟩
    · obtain ⟨c, hc, he⟩ := b2.exists_left hw
      obtain ⟨r, hr, hc⟩ := List.mem_flatMap.1 hc
      exact ⟨r, hr, c, (List.mem_filter.1 ((mem_of_sorted (a2 r hr)).1 hc)).1, he⟩
  · intro r hr c hc
    by_cases hm : c.mutating = true
    · obtain ⟨w, hw, he⟩ := b1.exists_right (List.mem_flatMap.2 ⟨r, hr,
        (mem_of_sorted (a1 r hr)).2 (List.mem_filter.2 ⟨hc, by simp [hm]⟩)⟩)
      exact ⟨w, mem_webhooksOf.2 (.inl hw), he⟩
    · obtain ⟨w, hw, he⟩ := b2.exists_right (List.mem_flatMap.2 ⟨r, hr,
        (mem_of_sorted (a2 r hr)).2 (List.mem_filter.2 ⟨hc, by simp [hm]⟩)⟩)
      exact ⟨w, mem_webhooksOf.2 (.inr hw), he⟩

/-- **C06**, in full: if the generator accepts the markers, each of them gives exactly one of `path` and `url`, and each emitted
webhook's client configuration is exactly the URL or exactly the service reference its marker asks for. -/
theorem C06_client_config (σ : Sched) (roots : List Root) (out : List (String × List Obj))
    (h : generate σ roots = .ok out) :
    (∀ r ∈ roots, ∀ c ∈ r.cfgs, PathXorURL c ∧ ∃ w ∈ webhooksOf out, w.name = c.name ∧ ClientOK c w.clientConfig) ∧
    (∀ w ∈ webhooksOf out, ∃ r ∈ roots, ∃ c ∈ r.cfgs, w.name = c.name ∧ ClientOK c w.clientConfig) := by
  obtain ⟨h1, h2⟩ := emitted_both h
  constructor
  · intro r hr c hc
    obtain ⟨w, hw, he⟩ := h2 r hr c hc
    refine ⟨?_, w, hw, he.name, he.client⟩
    rcases he.client with ⟨a, b, _⟩ | ⟨a, b, _⟩
    · exact .inr ⟨a, b⟩
    · exact .inl ⟨a, b⟩
  · intro w hw
    obtain ⟨r, hr, c, hc, he⟩ := h1 w hw
    exact ⟨r, hr, c, hc, he.name, he.client⟩

/-- **C06**, rejection: a marker with both or neither of `path` and `url` makes the generator fail. -/
theorem C06_rejects (σ : Sched) (roots : List Root) (r : Root) (hr : r ∈ roots) (c : Config) (hc : c ∈ r.cfgs)
    (h : (c.path = "" ∧ c.url = "") ∨ (c.path ≠ "" ∧ c.url ≠ "")) : ∃ e, generate σ roots = .error e := by
  cases hg : generate σ roots with
  | error e => exact ⟨e, rfl⟩
  | ok out =>
    have := ((C06_client_config σ roots out hg).1 r hr c hc).1
    unfold PathXorURL at this
    rcases h with ⟨h1, h2⟩ | ⟨h1, h2⟩ <;> simp_all

/-- **C07** (guarded).  Accepted markers have side effects None or NoneOnDryRun and a timeout that is absent or between 1 and 30; if
the number written fits in 32 bits it is the number emitted (0 meaning absent).
Missing from the full property: equality for numbers outside 32 bits, where it is false (`C07_violated`). -/
theorem C07_limits_partial (σ : Sched) (roots : List Root) (out : List (String × List Obj))
    (h : generate σ roots = .ok out) :
    (∀ w ∈ webhooksOf out, (w.sideEffects = some "None" ∨ w.sideEffects = some "NoneOnDryRun") ∧
      (∀ t, w.timeoutSeconds = some t → 1 ≤ t ∧ t ≤ 30) ∧ w.admissionReviewVersions ≠ []) ∧
    (∀ r ∈ roots, ∀ c ∈ r.cfgs, ∃ w ∈ webhooksOf out, w.name = c.name ∧ LimitsOK c w ∧
      (FitsInt32 c.timeoutSeconds → TimeoutExact c w)) := by
  obtain ⟨h1, h2⟩ := emitted_both h
  constructor
  · intro w hw
    obtain ⟨r, hr, c, hc, he⟩ := h1 w hw
    obtain ⟨⟨k, hk, -, hks⟩, ht, hrv⟩ := he.limits
    refine ⟨?_, ?_, by rw [hrv.1]; exact hrv.2⟩
    · rcases hk with rfl | rfl
      · exact .inl hks
      · exact .inr hks
    · intro t htt
      rcases ht with ⟨_, hn⟩ | ⟨t', ht', h3, h4, _⟩
      · rw [hn] at htt; cases htt
      · rw [ht'] at htt; cases htt; exact ⟨h3, h4⟩
  · intro r hr c hc
    obtain ⟨w, hw, he⟩ := h2 r hr c hc
    refine ⟨w, hw, he.name, he.limits, ?_⟩
    intro hf
    unfold TimeoutExact
    unfold FitsInt32 at hf
    rcases he.limits.timeout with ⟨h0, hn⟩ | ⟨t, ht, h3, h4, h5⟩
    · rw [if_pos h0, hn]
    · have : c.timeoutSeconds = t := by omega
      rw [if_neg (by omega), this, ht]

/-- **C09**, in full: every marker's webhook has the marker's versions and resources, its groups with `core` replaced, its verbs
and policies translated case-insensitively. -/
theorem C09_rules_and_policies (σ : Sched) (roots : List Root) (out : List (String × List Obj))
    (h : generate σ roots = .ok out) :
    (∀ w ∈ webhooksOf out, ∃ r ∈ roots, ∃ c ∈ r.cfgs, w.name = c.name ∧ RulesOK c w) ∧
    (∀ r ∈ roots, ∀ c ∈ r.cfgs, ∃ w ∈ webhooksOf out, w.name = c.name ∧ RulesOK c w) := by
  obtain ⟨h1, h2⟩ := emitted_both h
  constructor
  · intro w hw
    obtain ⟨r, hr, c, hc, he⟩ := h1 w hw
    exact ⟨r, hr, c, hc, he.name, he.rules⟩
  · intro r hr c hc
    obtain ⟨w, hw, he⟩ := h2 r hr c hc
    exact ⟨w, hw, he.name, he.rules⟩

/-- **C09**, rejection: a match policy that is neither empty nor one of the known ones is an error. -/
theorem C09_rejects_matchPolicy (σ : Sched) (roots : List Root) (r : Root) (hr : r ∈ roots) (c : Config) (hc : c ∈ r.cfgs)
    (h0 : c.matchPolicy ≠ "") (h1 : ¬ EqFold c.matchPolicy "Exact") (h2 : ¬ EqFold c.matchPolicy "Equivalent") :
    ∃ e, generate σ roots = .error e := by
  cases hg : generate σ roots with
  | error e => exact ⟨e, rfl⟩
  | ok out =>
    obtain ⟨w, -, -, hw⟩ := (C09_rules_and_policies σ roots out hg).2 r hr c hc
    rcases hw.matchPolicy with ⟨h, _⟩ | ⟨k, rfl | rfl, h, _⟩
    · exact absurd h h0
    · exact absurd h h1
    · exact absurd h h2

/-- Exactly which inputs are accepted (all of C06, C07, C09, C10 rejections at once): no package repeats a configuration marker, and
every webhook marker is acceptable. -/
theorem C08_accepts_iff (σ : Sched) (roots : List Root) :
    (∃ out, generate σ roots = .ok out) ↔
      ∀ r ∈ roots, NoDuplicateConfig r ∧ ∀ c ∈ r.cfgs, Acceptable c := by
  constructor
  · rintro ⟨out, h⟩ r hr
    obtain ⟨hnd, mws, vws, h1, h2, c1, c2, rfl⟩ := generate_ok.1 h
    refine ⟨hnd r hr, fun c hc => ?_⟩
    rw [acceptable_iff]
    by_cases hm : c.mutating = true
    · obtain ⟨w, hw, he⟩ := h1.exists_right (List.mem_flatMap.2 ⟨r, hr,
        mem_sortBy.2 (List.mem_filter.2 ⟨hc, by simp [hm]⟩)⟩)
      exact ⟨he.1, w, he.2, c1 w hw⟩
    · obtain ⟨w, hw, he⟩ := h2.exists_right (List.mem_flatMap.2 ⟨r, hr,
        mem_sortBy.2 (List.mem_filter.2 ⟨hc, by simp [hm]⟩)⟩)
      exact ⟨he.1, w, he.2, c2 w hw⟩
  · intro h
    have key : ∀ l : List Config, (∀ c ∈ l, Acceptable c) →
        ∃ ws, All2 Conv l ws ∧ ∀ w ∈ ws, checkWebhook w = .ok () := by
      intro l hl
      induction l with
      | nil => exact ⟨[], .nil, by simp⟩
      | cons c l ih =>
        obtain ⟨ws, h1, h2⟩ := ih (fun c hc => hl c (List.mem_cons_of_mem _ hc))
        obtain ⟨hv, w, hw, hc⟩ := acceptable_iff.1 (hl c (List.mem_cons_self ..))
        refine ⟨w :: ws, .cons ⟨hv, hw⟩ h1, ?_⟩
        intro w' hw'
        rcases List.mem_cons.1 hw' with rfl | hw'
        · exact hc
        · exact h2 w' hw'
    have hall : ∀ b, ∀ c ∈ roots.flatMap (kindOf b), Acceptable c := by
      intro b c hc
      obtain ⟨r, hr, hc⟩ := List.mem_flatMap.1 hc
      exact (h r hr).2 c (List.mem_filter.1 (mem_sortBy.1 hc)).1
    obtain ⟨mws, a1, a2⟩ := key _ (hall true)
    obtain ⟨vws, b1, b2⟩ := key _ (hall false)
    exact ⟨_, generate_ok.2 ⟨fun r hr => (h r hr).1, mws, vws, a1, b1, a2, b2, rfl⟩⟩

/-- **C10**, duplicates: two configuration markers of one kind in one package make the generator fail. -/
theorem C10_duplicates_rejected (σ : Sched) (roots : List Root) (r : Root) (hr : r ∈ roots) (k : Bool)
    (h : 2 ≤ (r.webhookCfgs.filter (fun w => w.mutating = k)).length) : ∃ e, generate σ roots = .error e := by
  cases hg : generate σ roots with
  | error e => exact ⟨e, rfl⟩
  | ok out =>
    have := ((C08_accepts_iff σ roots).1 ⟨out, hg⟩ r hr).1 k
    omega

/-- **C10**, names: every generated object is one of the two kinds and is named by the last configuration marker of its kind, or by
the default name if there is none (or its name is empty). -/
theorem C10_names (σ : Sched) (roots : List Root) (out : List (String × List Obj))
    (h : generate σ roots = .ok out) :
    ∀ f ∈ out, ∀ o ∈ f.2,
      (o.kind = "MutatingWebhookConfiguration" ∧ o.name = objectName roots true "mutating-webhook-configuration") ∨
      (o.kind = "ValidatingWebhookConfiguration" ∧ o.name = objectName roots false "validating-webhook-configuration") := by
  obtain ⟨mws, vws, -, -, rfl⟩ := C08_every_marker_once σ roots out h
  intro f hf o ho
  unfold files objects at hf
  by_cases ha : mws = [] <;> by_cases hb : vws = [] <;> simp [ha, hb] at hf <;> subst hf <;> simp at ho
  · right; rw [ho]; exact ⟨rfl, rfl⟩
  · left; rw [ho]; exact ⟨rfl, rfl⟩
  · rcases ho with rfl | rfl
    · left; exact ⟨rfl, rfl⟩
    · right; exact ⟨rfl, rfl⟩

/-- The output does not depend on map iteration order. -/
theorem C08_deterministic (σ σ' : Sched) (roots : List Root) (out : List (String × List Obj))
    (h : generate σ roots = .ok out) : generate σ' roots = .ok out :=
  generate_ok.2 (generate_ok.1 h)

/-! ## Concrete cases -/

/-- A typical marker. -/
def sampleCfg : Config :=
  { mutating := true, failurePolicy := "fail", matchPolicy := "", sideEffects := "None", timeoutSeconds := 10
    groups := ["core", "apps"], resources := ["pods"], verbs := ["create", "UPDATE", "weird"], versions := ["v1"]
    name := "m.example.com", serviceName := "", serviceNamespace := "", path := "/mutate", servicePort := none
    webhookVersions := [], admissionReviewVersions := ["v1"], reinvocationPolicy := "ifneeded", url := "" }

def sampleCfg' : Config :=
  { sampleCfg with mutating := false, name := "a.example.com", path := "", url := "https://x", sideEffects := "noneondryrun" }

/-- Two packages, three markers, a configuration marker. -/
def sampleRoots : List Root :=
  [ ⟨[⟨true, "my-config"⟩], [sampleCfg, { sampleCfg with name := "b.example.com" }]⟩, ⟨[], [sampleCfg']⟩ ]

/-- The hypothesis `generate σ roots = .ok out` of the theorems above is met, with both objects present. -/
example : (match generate Sched.fifo sampleRoots with
    | .ok out => out.map (fun f => (f.1, f.2.map (fun o => (o.kind, o.name, o.webhooks.map (·.name)))))
    | .error _ => []) =
    [("manifests.yaml", [("MutatingWebhookConfiguration", "my-config", ["b.example.com", "m.example.com"]),
      ("ValidatingWebhookConfiguration", "validating-webhook-configuration", ["a.example.com"])])] := by
  decide +kernel

example : Acceptable sampleCfg ∧ Acceptable sampleCfg' := by
  constructor <;> refine ⟨?_, ?_, ?_, ?_, ?_, ?_⟩ <;> first
    | decide +kernel
    | (unfold PathXorURL; decide +kernel)
    | exact .inr ⟨10, by decide, by decide, by decide⟩

/-- The rejection theorems' hypotheses are met, too. -/
example : ¬ EqFold "sometimes" "Exact" ∧ ¬ EqFold "sometimes" "Equivalent" ∧ EqFold "eXACT" "Exact" := by decide +kernel

/-- **C07 is violated** for numbers outside 32 bits: `timeoutSeconds=4294967306` is accepted and emitted as 10. -/
theorem C07_violated : ∃ roots out c, generate Sched.fifo roots = .ok out ∧ roots = [⟨[], [c]⟩] ∧
    c.timeoutSeconds = 4294967306 ∧ (webhooksOf out).map (·.timeoutSeconds) = [some 10] := by
  let c := { sampleCfg with timeoutSeconds := 4294967306 }
  have key : (match generate Sched.fifo [⟨[], [c]⟩] with
      | .ok out => (webhooksOf out).map (·.timeoutSeconds)
      | .error _ => []) = [some 10] := by decide +kernel
  cases hg : generate Sched.fifo [⟨[], [c]⟩] with
  | error e => rw [hg] at key; cases key
  | ok out =>
    rw [hg] at key
    exact ⟨_, out, c, hg, rfl, rfl, key⟩

end Verif.Webhook

import Verif.Webhook.Source
import Verif.Webhook.SourceSpec
import Verif.Webhook.Theorems
import Verif.Markers.SourceList
import Verif.Markers.ArgLemmas
/-!
# C84: webhooks from the comments in the source to the configuration objects
-/
namespace Verif.Webhook
open Verif.Markers Verif.Markers.Source Verif.Markers.Spec Verif.Markers.Collect Verif.Markers.Args Spec

/-! ## The markers -/

def hookMarker : Marker := ⟨"kubebuilder:webhook".toList, .package, .struct [sf "Mutating" .bool, sf "FailurePolicy" .string, sf "MatchPolicy" .string Shipped.opt, sf "SideEffects" .string Shipped.opt, sf "TimeoutSeconds" .int Shipped.opt,
    sf "Groups" (.slice .string), sf "Resources" (.slice .string), sf "Verbs" (.slice .string), sf "Versions" (.slice .string), sf "Name" .string,
    sf "ServiceName" .string (some "serviceName,optional"), sf "ServiceNamespace" .string (some "serviceNamespace,optional"), sf "Path" .string (some "path,optional"),
    sf "ServicePort" (.ptr .int32) (some "servicePort,optional"), sf "WebhookVersions" (.slice .string) (some "webhookVersions,optional"),
    sf "AdmissionReviewVersions" (.slice .string) (some "admissionReviewVersions"), sf "ReinvocationPolicy" .string (some "reinvocationPolicy,optional"), sf "URL" .string (some "url,optional")], false, false⟩

def confMarker : Marker := ⟨"kubebuilder:webhookconfiguration".toList, .package, .struct [sf "Mutating" .bool, sf "Name" .string (some "name,optional")], false, false⟩

theorem hook_mem : hookMarker ∈ Shipped.webhookMarkers := by unfold Shipped.webhookMarkers; exact List.mem_cons_self
theorem conf_mem : confMarker ∈ Shipped.webhookMarkers := by unfold Shipped.webhookMarkers; exact List.mem_cons_of_mem _ List.mem_cons_self
theorem hook_reg : ("webhook", Shipped.webhookMarkers) ∈ Shipped.registers := by simp [Shipped.registers]

theorem hook_parser : ∃ d, hookMarker.define = some d ∧ hookMarker.parser d = arguments := by
  have : hookMarker.define.map hookMarker.parser = some arguments := by decide +kernel
  obtain ⟨d, h1, h2⟩ := Option.map_eq_some_iff.1 this
  exact ⟨d, h1, h2⟩

theorem conf_parser : ∃ d, confMarker.define = some d ∧ confMarker.parser d = configArguments := by
  have : confMarker.define.map confMarker.parser = some configArguments := by decide +kernel
  obtain ⟨d, h1, h2⟩ := Option.map_eq_some_iff.1 this
  exact ⟨d, h1, h2⟩

set_option maxRecDepth 100000 in
theorem apart_of {m : Marker} (h : (Shipped.table.all fun x => x.target != .type || (!x.name.isPrefixOf m.name && !m.name.isPrefixOf x.name)) = true) : Apart m.name := by
  intro x hx ht
  have := List.all_eq_true.1 h x hx
  simpa [ht, List.isPrefixOf_iff_prefix, ← Bool.not_eq_true] using this

theorem hook_apart : Apart hookMarker.name := apart_of (by decide +kernel)
theorem conf_apart : Apart confMarker.name := apart_of (by decide +kernel)

theorem hook_plus : "+kubebuilder:webhook".toList = '+' :: hookMarker.name := by decide +kernel
theorem conf_plus : ('+' :: confMarker.name) = "+kubebuilder:webhook".toList ++ "configuration".toList := by decide +kernel
theorem hook_ne_conf : hookMarker.name ≠ confMarker.name := by decide +kernel

/-! ## Their values -/

theorem configOf_asks {E : Env} {c : Comment} {w : Config} (h : Asks E c w) : ∃ vals, Reads E hookMarker.name arguments c vals ∧ configOf vals = w := by
  obtain ⟨vals, hr, hm, ⟨t1, t2, t3, t4, t5, t6, t7, t8, t9⟩, ⟨l1, l2, l3, l4, l5, l6⟩, ⟨t, n1, n1'⟩, n2⟩ := h
  obtain ⟨y, _, _, hn, _⟩ := id hr
  refine ⟨vals, hr, ?_⟩
  unfold configOf
  rw [boolArg_eq hn hm, stringArg_eq hn t1, stringArg_eq hn t2, stringArg_eq hn t3, stringArg_eq hn t4, stringArg_eq hn t5, stringArg_eq hn t6, stringArg_eq hn t7, stringArg_eq hn t8, stringArg_eq hn t9,
    stringsArg_eq hn l1, stringsArg_eq hn l2, stringsArg_eq hn l3, stringsArg_eq hn l4, stringsArg_eq hn l5, stringsArg_eq hn l6, intArg_eq hn n1, intArg_eq hn n2, ← n1']

theorem webhookConfigOf_asks {E : Env} {c : Comment} {w : WebhookConfig} (h : AsksName E c w) : ∃ vals, Reads E confMarker.name configArguments c vals ∧ webhookConfigOf vals = w := by
  obtain ⟨vals, hr, hm, ht⟩ := h
  obtain ⟨y, _, _, hn, _⟩ := id hr
  refine ⟨vals, hr, ?_⟩
  unfold webhookConfigOf
  rw [boolArg_eq hn hm, stringArg_eq hn ht]

variable {gs : List String} {h : List (Def Loaded)} {E : Env}

/-- A comment reads only one way. -/
theorem reads_unique (hh : Shipped.history gs = some h) (hg : "webhook" ∈ gs) {m : Marker} (hm : m ∈ Shipped.webhookMarkers) (ht : m.target = .package) {d : Def Loaded} (hd : m.define = some d) {c : Comment}
    {vals vals' : List (Str × Value)} (h1 : Reads E m.name (m.parser d) c vals) (h2 : Reads E m.name (m.parser d) c vals') : vals = vals' := by
  have h3 := (reads_parsed hh hg hook_reg hm hd ht h1).2
  rw [(reads_parsed hh hg hook_reg hm hd ht h2).2] at h3
  cases h3
  rfl

/-- From what comments read to what they ask for. -/
theorem collects_of {α : Type} {asks : Comment → α → Prop} {name : List Char} {d : Definition} {of : List (Str × Value) → α} {files : List File} {L : List (List (Comment × List (Str × Value)))}
    (ha : ∀ f ∈ files, ∀ c, f.Marks c → ∀ vals, Reads E name d c vals → asks c (of vals)) (hr : ∀ c a, asks c a → ∃ vals, Reads E name d c vals ∧ of vals = a) (h : All2 (Lists E name d) files L) :
    Collects asks files ((L.flatten.map (·.2)).map of) := by
  refine ⟨L.map fun l => l.map fun e => (e.1, of e.2), ?_, ?_⟩
  · simp [List.map_flatten, Function.comp_def]
  · induction h with
    | nil => exact .nil
    | @cons f l fs L h1 h2 ih =>
      refine .cons ⟨?_, ?_, ?_⟩ (ih fun g hg => ha g (List.mem_cons_of_mem _ hg))
      · simpa [Function.comp_def] using h1.once
      · intro e he
        obtain ⟨x, hx, rfl⟩ := List.mem_map.1 he
        obtain ⟨h3, h4⟩ := h1.sound x hx
        exact ⟨h3, ha f List.mem_cons_self _ h3 _ h4⟩
      · intro c hc hp a hca
        obtain ⟨vals, hv, rfl⟩ := hr c a hca
        exact List.mem_map.2 ⟨(c, vals), h1.complete c hc hp vals hv, rfl⟩

/-- A comment is not read both ways. -/
theorem reads_apart (hh : Shipped.history gs = some h) (hg : "webhook" ∈ gs) {c : Comment} {vals vals' : List (Str × Value)} (h1 : Reads E hookMarker.name arguments c vals)
    (h2 : Reads E confMarker.name configArguments c vals') : False := by
  obtain ⟨d, hd, hp⟩ := hook_parser
  obtain ⟨d', hd', hp'⟩ := conf_parser
  rw [← hp] at h1
  rw [← hp'] at h2
  have h3 := (reads_parsed hh hg hook_reg hook_mem hd rfl h1).1
  rw [(reads_parsed hh hg hook_reg conf_mem hd' rfl h2).1] at h3
  cases h3
  exact hook_ne_conf ((define_name hd).1.symm.trans (define_name hd').1)

/-- The markers of a package. -/
theorem rootOf_spec (hh : Shipped.history gs = some h) (hg : "webhook" ∈ gs) {files : List File} (hf : ∀ f ∈ files, f.WF)
    (hw : ∀ f ∈ files, ∀ c, f.Marks c → "+kubebuilder:webhook".toList <+: textOf c → (∃ w, Asks E c w) ∨ ∃ w, AsksName E c w) {σ : Nat → Sched} {τ : Sched} {r : Root} {e : Bool}
    (hr : rootOf h E σ τ files = some (r, e)) : Package E files e r := by
  unfold rootOf at hr
  split at hr
  · cases hr
  · cases hr; simp [Package]
  · rename_i res hres
    cases hr
    obtain ⟨d, hd, hp⟩ := hook_parser
    obtain ⟨d', hd', hp'⟩ := conf_parser
    have key : ∀ c vals, Reads E hookMarker.name (hookMarker.parser d) c vals → ∀ w, AsksName E c w → False := fun c vals h1 w h2 => by
      obtain ⟨vals', h3, _⟩ := webhookConfigOf_asks h2
      exact reads_apart hh hg (hp ▸ h1) h3
    have key' : ∀ c vals, Reads E confMarker.name (confMarker.parser d') c vals → ∀ w, Asks E c w → False := fun c vals h1 w h2 => by
      obtain ⟨vals', h3, _⟩ := configOf_asks h2
      exact reads_apart hh hg h3 (hp' ▸ h1)
    have hcp : ∀ {t : Str}, ('+' :: confMarker.name) <+: t → "+kubebuilder:webhook".toList <+: t := fun ht => by
      rw [conf_plus] at ht
      exact (List.prefix_append _ _).trans ht
    have pre : ∀ c vals, Reads E hookMarker.name (hookMarker.parser d) c vals → "+kubebuilder:webhook".toList <+: textOf c := fun c vals ⟨y, hy, _⟩ => by
      rw [hy, hook_plus]; exact ⟨':' :: y, by simp⟩
    have pre' : ∀ c vals, Reads E confMarker.name (confMarker.parser d') c vals → "+kubebuilder:webhook".toList <+: textOf c := fun c vals ⟨y, hy, _⟩ => by
      apply hcp; rw [hy]; exact ⟨':' :: y, by simp⟩
    simp only [Package, Bool.false_eq_true, if_false]
    constructor
    · obtain ⟨L, h1, h2⟩ := values_list hh hg hook_reg hook_mem hd rfl hook_apart hf (E := E) (fun f hff c hc hpre hlk => by
        rcases hw f hff c hc (hook_plus ▸ hpre) with ⟨w, ha⟩ | ⟨w, ha⟩
        · obtain ⟨vals, hr, _⟩ := configOf_asks ha
          exact ⟨vals, hp ▸ hr⟩
        · obtain ⟨vals, hr, _⟩ := webhookConfigOf_asks ha
          rw [← hp'] at hr
          rw [(reads_parsed hh hg hook_reg conf_mem hd' rfl hr).1] at hlk
          cases hlk
          exact absurd ((define_name hd).1.symm.trans (define_name hd').1) hook_ne_conf) hres
      show Collects (Asks E) files (((GoMap.get res hookMarker.name).getD []).map configOf)
      rw [h1]
      refine collects_of (fun f hff c hc vals hr => ?_) (fun c w ha => by rw [hp]; exact configOf_asks ha) h2
      rcases hw f hff c hc (pre c vals hr) with ⟨w, ha⟩ | ⟨w, ha⟩
      · obtain ⟨vals', hr', rfl⟩ := configOf_asks ha
        rw [reads_unique hh hg hook_mem rfl hd hr (hp ▸ hr')]
        exact ha
      · exact (key c vals hr w ha).elim
    · obtain ⟨L, h1, h2⟩ := values_list hh hg hook_reg conf_mem hd' rfl conf_apart hf (E := E) (fun f hff c hc hpre hlk => by
        rcases hw f hff c hc (hcp hpre) with ⟨w, ha⟩ | ⟨w, ha⟩
        · obtain ⟨vals, hr, _⟩ := configOf_asks ha
          rw [← hp] at hr
          rw [(reads_parsed hh hg hook_reg hook_mem hd rfl hr).1] at hlk
          cases hlk
          exact absurd ((define_name hd).1.symm.trans (define_name hd').1) hook_ne_conf
        · obtain ⟨vals, hr, _⟩ := webhookConfigOf_asks ha
          exact ⟨vals, hp' ▸ hr⟩) hres
      show Collects (AsksName E) files (((GoMap.get res confMarker.name).getD []).map webhookConfigOf)
      rw [h1]
      refine collects_of (fun f hff c hc vals hr => ?_) (fun c w ha => by rw [hp']; exact webhookConfigOf_asks ha) h2
      rcases hw f hff c hc (pre' c vals hr) with ⟨w, ha⟩ | ⟨w, ha⟩
      · exact (key' c vals hr w ha).elim
      · obtain ⟨vals', hr', rfl⟩ := webhookConfigOf_asks ha
        rw [reads_unique hh hg conf_mem rfl hd' hr (hp' ▸ hr')]
        exact ha

theorem allRoots_zip {σ : Nat → Nat → Sched} {τ : Nat → Sched} : ∀ {i : Nat} {roots : List (List File)} {rs : List (Root × Bool)}, allRoots h E σ τ i roots = some rs →
    All2 (fun p r => ∃ j, rootOf h E (σ j) (τ j) p = some r) roots rs
  | _, [], rs, hr => by cases hr; exact .nil
  | i, p :: ps, rs, hr => by
    rw [allRoots] at hr
    split at hr
    · rename_i r rs' e1 e2
      cases hr
      exact .cons ⟨i, e1⟩ (allRoots_zip e2)
    · cases hr

theorem packages_of (hh : Shipped.history gs = some h) (hg : "webhook" ∈ gs) {roots : List (List File)} (hf : ∀ files ∈ roots, ∀ f ∈ files, f.WF) (hw : WellWritten E roots) {σ : Nat → Nat → Sched} {τ : Nat → Sched}
    {rs : List (Root × Bool)} (hr : allRoots h E σ τ 0 roots = some rs) : All2 (fun files r => Package E files r.2 r.1) roots rs :=
  (allRoots_zip hr).imp fun files hm r _ ⟨_, hj⟩ => rootOf_spec hh hg (hf files hm) (fun f hff => hw files hm f hff) hj

/-! ## The property -/

/-- **C84** (start-up): whatever is written in the files, generating webhook configurations does not panic. -/
theorem C84_total {roots : List (List File)} (hf : ∀ files ∈ roots, ∀ f ∈ files, f.WF) (σ : Nat → Nat → Sched) (τ : Nat → Sched) (ρ : Sched) : ∃ res, generateFrom h E σ τ ρ roots = some res := by
  have : ∀ (i : Nat) (roots : List (List File)), (∀ files ∈ roots, ∀ f ∈ files, f.WF) → ∃ rs, allRoots h E σ τ i roots = some rs := by
    intro i roots
    induction roots generalizing i with
    | nil => intro _; exact ⟨[], rfl⟩
    | cons p ps ih =>
      intro hf
      obtain ⟨rs, hrs⟩ := ih (i + 1) fun q hq => hf q (List.mem_cons_of_mem _ hq)
      obtain ⟨res, hres, _⟩ := packageValues_fails (lookup := lookupIn h) (name := fun d => String.ofList d.name) (parse := parseWith E) (σ := σ i) (τ := τ i) (hf p List.mem_cons_self)
      have : ∃ r, rootOf h E (σ i) (τ i) p = some r := by
        unfold rootOf markersOf
        rw [hres]
        cases res <;> exact ⟨_, rfl⟩
      obtain ⟨r, hr⟩ := this
      exact ⟨r :: rs, by rw [allRoots, hr, hrs]⟩
  obtain ⟨rs, hrs⟩ := this 0 roots hf
  exact ⟨_, by rw [generateFrom, hrs]; rfl⟩

theorem generateFrom_ok {roots : List (List File)} {σ : Nat → Nat → Sched} {τ : Nat → Sched} {ρ : Sched} {out : List (String × List Obj)} {errs : List Bool} (hr : generateFrom h E σ τ ρ roots = some (.ok (out, errs))) :
    ∃ rs, allRoots h E σ τ 0 roots = some rs ∧ generate ρ (rs.map (·.1)) = .ok out ∧ errs = rs.map (·.2) := by
  obtain ⟨rs, hrs, he⟩ := Option.map_eq_some_iff.1 hr
  split at he
  · cases he
  · rename_i o ho
    cases he
    exact ⟨rs, hrs, ho, rfl⟩

/-- **C84** (exactly; guarded).  With the markers of `webhook` registered, and those of any other generators before or after: if the generator succeeds then its output is one file with the two configuration objects,
for the markers that the comments of the packages ask for, each comment counting once.  The webhooks of a kind are listed package by package, sorted by name within a package; the object is named by the last comment that
names one.  The guard is that all comments that begin with `+kubebuilder:webhook` are written as they should be. -/
theorem C84_exact_partial (hh : Shipped.history gs = some h) (hg : "webhook" ∈ gs) {roots : List (List File)} (hf : ∀ files ∈ roots, ∀ f ∈ files, f.WF) (hw : WellWritten E roots)
    {σ : Nat → Nat → Sched} {τ : Nat → Sched} {ρ : Sched} {out : List (String × List Obj)} {errs : List Bool} (hr : generateFrom h E σ τ ρ roots = some (.ok (out, errs))) :
    ∃ rs : List (Root × Bool), errs = rs.map (·.2) ∧ All2 (fun files r => Package E files r.2 r.1) roots rs ∧
      ∃ mws vws, ListsAll (rs.map (·.1)) true mws ∧ ListsAll (rs.map (·.1)) false vws ∧
        out = Spec.files (objects "MutatingWebhookConfiguration" (objectName (rs.map (·.1)) true "mutating-webhook-configuration") mws ++
          objects "ValidatingWebhookConfiguration" (objectName (rs.map (·.1)) false "validating-webhook-configuration") vws) := by
  obtain ⟨rs, hrs, ho, he⟩ := generateFrom_ok hr
  exact ⟨rs, he, packages_of hh hg hf hw hrs, C08_every_marker_once ρ _ out ho⟩

theorem collects_sound {α : Type} {asks : Comment → α → Prop} {files : List File} {l : List α} (hc : Collects asks files l) {a : α} (ha : a ∈ l) : ∃ f ∈ files, ∃ c, f.Marks c ∧ asks c a := by
  obtain ⟨L, rfl, h⟩ := hc
  obtain ⟨e, he, rfl⟩ := List.mem_map.1 ha
  obtain ⟨m, hm, he⟩ := List.mem_flatten.1 he
  obtain ⟨f, hf, _, h2, _⟩ := h.exists_left hm
  exact ⟨f, hf, e.1, h2 e he⟩

theorem collects_complete {α : Type} {asks : Comment → α → Prop} {files : List File} {l : List α} (hc : Collects asks files l) {f : File} (hf : f ∈ files) {c : Comment} (hm : f.Marks c) (hp : Placed f c) {a : α}
    (ha : asks c a) : a ∈ l := by
  obtain ⟨L, rfl, h⟩ := hc
  obtain ⟨m, hmL, _, _, h3⟩ := h.exists_right hf
  exact List.mem_map.2 ⟨(c, a), List.mem_flatten.2 ⟨m, hmL, h3 c hm hp a ha⟩, rfl⟩

/-- **C84** (nothing more; guarded): every webhook in the output is asked for by a comment of the packages. -/
theorem C84_sound_partial (hh : Shipped.history gs = some h) (hg : "webhook" ∈ gs) {roots : List (List File)} (hf : ∀ files ∈ roots, ∀ f ∈ files, f.WF) (hw : WellWritten E roots)
    {σ : Nat → Nat → Sched} {τ : Nat → Sched} {ρ : Sched} {out : List (String × List Obj)} {errs : List Bool} (hr : generateFrom h E σ τ ρ roots = some (.ok (out, errs)))
    {w : Webhook} (hm : w ∈ webhooksOf out) : ∃ files ∈ roots, ∃ f ∈ files, ∃ c, f.Marks c ∧ ∃ m, Asks E c m ∧ Emitted m w := by
  obtain ⟨rs, hrs, ho, he⟩ := generateFrom_ok hr
  obtain ⟨r, hrm, m, hmm, hem⟩ := (emitted_both ho).1 w hm
  obtain ⟨⟨r, e⟩, hre, rfl⟩ := List.mem_map.1 hrm
  obtain ⟨files, hfm, hpk⟩ := (packages_of hh hg hf hw hrs).exists_left hre
  cases e with
  | true => simp only [Package, if_true] at hpk; subst hpk; cases hmm
  | false =>
    obtain ⟨f, hff, c, hc, ha⟩ := collects_sound (by simpa [Package] using hpk.1 : Collects (Asks E) files r.cfgs) hmm
    exact ⟨files, hfm, f, hff, c, hc, m, ha, hem⟩

theorem all2_zip_mem {α β : Type} {R : α → β → Prop} {l : List α} {m : List β} (h : All2 R l m) {a : α} {b : β} (hm : (a, b) ∈ l.zip m) : R a b := by
  induction h with
  | nil => cases hm
  | cons h1 h2 ih =>
    rw [List.zip_cons_cons, List.mem_cons] at hm
    rcases hm with hm | hm
    · cases hm; exact h1
    · exact ih hm

theorem mem_zip_snd {α β : Type} {l : List α} {rs : List (β × Bool)} {a : α} {e : Bool} (h : (a, e) ∈ l.zip (rs.map (·.2))) : ∃ b, (a, (b, e)) ∈ l.zip rs := by
  rw [List.zip_map_right] at h
  obtain ⟨⟨a', b, e'⟩, hz, heq⟩ := List.mem_map.1 h
  simp only [Prod.map, id, Prod.mk.injEq] at heq
  obtain ⟨rfl, rfl⟩ := heq
  exact ⟨b, hz⟩

/-- **C84** (nothing less; guarded): if the generator succeeds, then what a placed comment asks for, in a package whose markers could be read, is acceptable, and is in the output. -/
theorem C84_complete_partial (hh : Shipped.history gs = some h) (hg : "webhook" ∈ gs) {roots : List (List File)} (hf : ∀ files ∈ roots, ∀ f ∈ files, f.WF) (hw : WellWritten E roots)
    {σ : Nat → Nat → Sched} {τ : Nat → Sched} {ρ : Sched} {out : List (String × List Obj)} {errs : List Bool} (hr : generateFrom h E σ τ ρ roots = some (.ok (out, errs)))
    {files : List File} (hfiles : (files, false) ∈ roots.zip errs) {f : File} (hff : f ∈ files) {c : Comment} (hc : f.Marks c) (hp : Placed f c) {m : Config} (ha : Asks E c m) :
    Acceptable m ∧ ∃ w ∈ webhooksOf out, Emitted m w := by
  obtain ⟨rs, hrs, ho, rfl⟩ := generateFrom_ok hr
  obtain ⟨r, hz⟩ := mem_zip_snd hfiles
  have hpk := all2_zip_mem (packages_of hh hg hf hw hrs) hz
  simp only [Package, Bool.false_eq_true, if_false] at hpk
  have hm := collects_complete hpk.1 hff hc hp ha
  have hr' : r ∈ rs.map (·.1) := List.mem_map.2 ⟨_, (List.of_mem_zip hz).2, rfl⟩
  exact ⟨((C08_accepts_iff ρ _).1 ⟨out, ho⟩ r hr').2 m hm, (emitted_both ho).2 r hr' m hm⟩

theorem one_of_apart {α : Type} (p : Comment × α → Bool) : ∀ (L : List (List (Comment × α))), (∀ m ∈ L, (m.map (·.1)).Nodup) →
    (∀ (i j : Nat) m m', L[i]? = some m → L[j]? = some m' → ∀ e ∈ m, ∀ e' ∈ m', p e = true → p e' = true → i = j ∧ e.1 = e'.1) → (L.flatten.filter p).length ≤ 1
  | [], _, _ => by simp
  | m :: L, hn, hu => by
    have ih := one_of_apart p L (fun m hm => hn m (List.mem_cons_of_mem _ hm)) fun i j a b ha hb e he e' he' h1 h2 => by
      have := hu (i + 1) (j + 1) a b (by simpa using ha) (by simpa using hb) e he e' he' h1 h2
      exact ⟨by omega, this.2⟩
    rw [List.flatten_cons, List.filter_append, List.length_append]
    cases hm : m.filter p with
    | nil => simpa using ih
    | cons e rest =>
      have he : e ∈ m.filter p := by rw [hm]; exact List.mem_cons_self
      have hrest : rest = [] := by
        cases rest with
        | nil => rfl
        | cons e' rest =>
          have he' : e' ∈ m.filter p := by rw [hm]; simp
          have h1 := (hu 0 0 m m rfl rfl e (List.mem_filter.1 he).1 e' (List.mem_filter.1 he').1 (List.mem_filter.1 he).2 (List.mem_filter.1 he').2).2
          have h2 : ((m.filter p).map (·.1)).Nodup := List.Nodup.sublist (List.Sublist.map _ List.filter_sublist) (hn m List.mem_cons_self)
          rw [hm] at h2
          simp [h1] at h2
      have htail : L.flatten.filter p = [] := by
        rw [List.filter_eq_nil_iff]
        intro e' he' hp
        obtain ⟨m', hm', he'⟩ := List.mem_flatten.1 he'
        obtain ⟨j, hj⟩ := List.mem_iff_getElem?.1 hm'
        have := (hu 0 (j + 1) m m' rfl (by simpa using hj) e (List.mem_filter.1 he).1 e' he' (List.mem_filter.1 he).2 hp).1
        omega
      simp [hrest, htail]

theorem all2_getElem? {α β : Type} {R : α → β → Prop} {l : List α} {m : List β} (h : All2 R l m) : ∀ {i : Nat} {b : β}, m[i]? = some b → ∃ a, l[i]? = some a ∧ R a b := by
  induction h with
  | nil => intro i b hb; simp at hb
  | cons h1 h2 ih =>
    intro i b hb
    cases i with
    | zero => simp only [List.getElem?_cons_zero, Option.some.injEq] at hb ⊢; subst hb; exact ⟨_, rfl, h1⟩
    | succ i => simp only [List.getElem?_cons_succ] at hb ⊢; exact ih hb

/-- **C84** (acceptance; guarded): if all the webhooks that comments ask for are acceptable and in each package at most one comment names the object of a kind, then the generator succeeds. -/
theorem C84_accepts_partial (hh : Shipped.history gs = some h) (hg : "webhook" ∈ gs) {roots : List (List File)} (hf : ∀ files ∈ roots, ∀ f ∈ files, f.WF) (hw : WellWritten E roots)
    (hacc : ∀ files ∈ roots, ∀ f ∈ files, ∀ c, f.Marks c → ∀ m, Asks E c m → Acceptable m)
    (hone : ∀ files ∈ roots, ∀ (i j : Nat) f g, files[i]? = some f → files[j]? = some g → ∀ c c', f.Marks c → g.Marks c' → ∀ w w', AsksName E c w → AsksName E c' w' → w.mutating = w'.mutating → i = j ∧ c = c')
    (σ : Nat → Nat → Sched) (τ : Nat → Sched) (ρ : Sched) : ∃ out errs, generateFrom h E σ τ ρ roots = some (.ok (out, errs)) := by
  obtain ⟨res, hres⟩ := C84_total (h := h) (E := E) hf σ τ ρ
  obtain ⟨rs, hrs, he⟩ := Option.map_eq_some_iff.1 hres
  have hpk := packages_of hh hg hf hw hrs
  have : ∃ out, generate ρ (rs.map (·.1)) = .ok out := by
    rw [C08_accepts_iff]
    intro r hr
    obtain ⟨⟨r, e⟩, hre, rfl⟩ := List.mem_map.1 hr
    obtain ⟨files, hfm, hp⟩ := hpk.exists_left hre
    cases e with
    | true =>
      simp only [Package, if_true] at hp
      subst hp
      exact ⟨fun k => by simp, fun c hc => by cases hc⟩
    | false =>
      simp only [Package, Bool.false_eq_true, if_false] at hp
      constructor
      · intro k
        obtain ⟨L, hL, hall⟩ := hp.2
        show (r.webhookCfgs.filter _).length ≤ 1
        rw [hL, List.filter_map, List.length_map]
        refine one_of_apart _ L (fun m hm => ?_) fun i j m m' hi hj e he e' he' h1 h2 => ?_
        · obtain ⟨f, _, hn, _⟩ := hall.exists_left hm
          exact hn
        · obtain ⟨f, hfi, _, hs, _⟩ := all2_getElem? hall hi
          obtain ⟨g, hgj, _, hs', _⟩ := all2_getElem? hall hj
          simp only [Function.comp_apply, decide_eq_true_eq] at h1 h2
          exact hone files hfm i j f g hfi hgj _ _ (hs e he).1 (hs' e' he').1 _ _ (hs e he).2 (hs' e' he').2 (h1.trans h2.symm)
      · intro m hm
        obtain ⟨f, hff, c, hc, ha⟩ := collects_sound hp.1 hm
        exact hacc files hfm f hff c hc m ha
  obtain ⟨out, ho⟩ := this
  exact ⟨out, rs.map (·.2), by rw [generateFrom, hrs]; simp [ho]⟩

/-- **C84** (errors): an error is recorded for a package exactly if some marker in it, of whichever generator, does not parse where it is attached. -/
theorem C84_errors {roots : List (List File)} (hf : ∀ files ∈ roots, ∀ f ∈ files, f.WF) {σ : Nat → Nat → Sched} {τ : Nat → Sched} {ρ : Sched}
    {out : List (String × List Obj)} {errs : List Bool} (hr : generateFrom h E σ τ ρ roots = some (.ok (out, errs))) {files : List File} {e : Bool} (hm : (files, e) ∈ roots.zip errs) :
    e = true ↔ ∃ f ∈ files, ∃ ρ r n c b d err, associateFile (lookupIn h) ρ f.groups f.node f.children = some r ∧ Attached r n c b ∧ lookupIn h (textOf c) n.target = some d ∧ parseWith E d (textOf c) = .error err := by
  obtain ⟨rs, hrs, ho, rfl⟩ := generateFrom_ok hr
  have hfm := (List.of_mem_zip hm).1
  obtain ⟨r, hz⟩ := mem_zip_snd hm
  obtain ⟨j, hj⟩ := all2_zip_mem (allRoots_zip hrs) hz
  obtain ⟨res, hres, hiff⟩ := packageValues_fails (lookup := lookupIn h) (name := fun d => String.ofList d.name) (parse := parseWith E) (σ := σ j) (τ := τ j) (hf files hfm)
  unfold rootOf markersOf at hj
  rw [hres] at hj
  rw [← hiff]
  cases res with
  | none => cases hj; simp
  | some res => cases hj; simp

end Verif.Webhook

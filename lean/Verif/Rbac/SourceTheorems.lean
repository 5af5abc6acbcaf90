import Verif.Rbac.Source
import Verif.Rbac.SourceSpec
import Verif.Rbac.Theorems
import Verif.Markers.SourceShippedTheorems
/-!
# C81: RBAC from the comments in the source to the permissions that are granted
-/
namespace Verif.Rbac
open Verif.Markers Verif.Markers.Source Verif.Markers.Spec Verif.Markers.Collect Spec

/-! ## The marker -/

def rbacMarker : Marker := ⟨"kubebuilder:rbac".toList, .package, .struct [sf "Groups" (.slice .string) Shipped.opt, sf "Resources" (.slice .string) Shipped.opt, sf "ResourceNames" (.slice .string) Shipped.opt,
  sf "Verbs" (.slice .string), sf "URLs" (.slice .string) (some "urls,optional"), sf "Namespace" .string Shipped.opt], false, false⟩

theorem rbac_mem : rbacMarker ∈ Shipped.rbacMarkers := List.mem_singleton.2 rfl

theorem rbac_reg : ("rbac", Shipped.rbacMarkers) ∈ Shipped.registers := by simp [Shipped.registers]

theorem rbac_parser : ∃ d, rbacMarker.define = some d ∧ rbacMarker.parser d = arguments := by
  have : rbacMarker.define.map rbacMarker.parser = some arguments := by decide +kernel
  obtain ⟨d, h1, h2⟩ := Option.map_eq_some_iff.1 this
  exact ⟨d, h1, h2⟩

set_option maxRecDepth 100000 in
theorem rbac_apart : Apart rbacMarker.name := by
  have : (Shipped.table.all fun m => m.target != .type || (!m.name.isPrefixOf rbacMarker.name && !rbacMarker.name.isPrefixOf m.name)) = true := by decide +kernel
  intro m hm ht
  have := List.all_eq_true.1 this m hm
  simpa [ht, List.isPrefixOf_iff_prefix, ← Bool.not_eq_true] using this

theorem plus_name : "+kubebuilder:rbac".toList = '+' :: rbacMarker.name := by decide +kernel

theorem key_name : "kubebuilder:rbac".toList = rbacMarker.name := rfl

/-! ## Rules -/

theorem get_of_mem {vals : List (Str × Value)} (hn : (vals.map (·.1)).Nodup) {n : Str} {v : Value} (h : (n, v) ∈ vals) : GoMap.get vals n = some v := (GoMap.get_eq_some hn).2 h

theorem stringsOf_isList {vals : List (Str × Value)} (hn : (vals.map (·.1)).Nodup) {n : String} {l : List String} (h : IsList vals n l) : stringsOf vals n = l := by
  unfold stringsOf
  rcases h with h | ⟨h, rfl⟩
  · rw [get_of_mem hn h]
    simp only [List.filterMap_map, Function.comp_def, String.ofList_toList]
    induction l with
    | nil => rfl
    | cons a l ih => simp
  · rw [GoMap.get_eq_none.2 h]

theorem ruleOf_asks {E : Env} {c : Comment} {m : Rule} (h : Asks E c m) : ∃ vals, Reads E rbacMarker.name arguments c vals ∧ ruleOf vals = m := by
  obtain ⟨vals, hr, h1, h2, h3, h4, h5, h6⟩ := h
  obtain ⟨y, _, _, hn, _⟩ := id hr
  refine ⟨vals, hr, ?_⟩
  have hns : stringOf vals "namespace" = m.ns := by
    unfold stringOf
    rcases h6 with h6 | ⟨h6, h7⟩
    · rw [get_of_mem hn h6]; simp
    · rw [GoMap.get_eq_none.2 h6, h7]
  unfold ruleOf
  rw [stringsOf_isList hn h1, stringsOf_isList hn h2, stringsOf_isList hn h3, stringsOf_isList hn h4, stringsOf_isList hn h5, hns]

variable {gs : List String} {h : List (Def Loaded)} {E : Env}

theorem asks_unique (hh : Shipped.history gs = some h) (hg : "rbac" ∈ gs) {c : Comment} {vals : List (Str × Value)} (hr : Reads E rbacMarker.name arguments c vals) {m : Rule} (ha : Asks E c m) : ruleOf vals = m := by
  obtain ⟨d, hd, hp⟩ := rbac_parser
  obtain ⟨vals', hr', he⟩ := ruleOf_asks ha
  rw [← hp] at hr hr'
  have h1 := (reads_parsed hh hg rbac_reg rbac_mem hd rfl hr).2
  rw [(reads_parsed hh hg rbac_reg rbac_mem hd rfl hr').2] at h1
  cases h1
  exact he

/-- The rules of a package without errors: what its comments ask for. -/
theorem rootRules_spec (hh : Shipped.history gs = some h) (hg : "rbac" ∈ gs) {files : List File} (hf : ∀ f ∈ files, f.WF)
    (hw : ∀ f ∈ files, ∀ c, f.Marks c → "+kubebuilder:rbac".toList <+: textOf c → ∃ m, Asks E c m) {σ : Nat → Sched} {τ : Sched} {rules : List Rule} {e : Bool} (hr : rootRules h E σ τ files = some (rules, e)) :
    (∀ m ∈ rules, ∃ f ∈ files, ∃ c, f.Marks c ∧ Asks E c m) ∧ (e = true → rules = []) ∧ (e = false → ∀ f ∈ files, ∀ c, f.Marks c → Placed f c → ∀ m, Asks E c m → m ∈ rules) := by
  obtain ⟨d, hd, hp⟩ := rbac_parser
  unfold rootRules at hr
  split at hr
  · cases hr
  · cases hr; simp
  · rename_i res hres
    cases hr
    have hw' : ∀ f ∈ files, ∀ c, f.Marks c → ('+' :: rbacMarker.name) <+: textOf c → ∃ vals, Reads E rbacMarker.name (rbacMarker.parser d) c vals := by
      intro f hff c hc hpre
      obtain ⟨m, ha⟩ := hw f hff c hc (plus_name ▸ hpre)
      obtain ⟨vals, hr, _⟩ := ruleOf_asks ha
      exact ⟨vals, hp ▸ hr⟩
    obtain ⟨h1, h2⟩ := values_of hh hg rbac_reg rbac_mem hd rfl rbac_apart hf hw' hres
    rw [hp] at h1 h2
    rw [← key_name] at h1 h2
    generalize (GoMap.get res "kubebuilder:rbac".toList).getD [] = l at h1 h2
    rw [key_name] at h1 h2
    refine ⟨?_, by simp, fun _ f hff c hc hpl m ha => ?_⟩
    · intro m hm
      obtain ⟨vals, hv, rfl⟩ := List.mem_map.1 hm
      obtain ⟨f, hff, c, hc, hr⟩ := h1 vals hv
      obtain ⟨y, hy, _⟩ := id hr
      obtain ⟨m', ha⟩ := hw f hff c hc (by rw [hy, plus_name]; exact ⟨':' :: y, by simp⟩)
      refine ⟨f, hff, c, hc, ?_⟩
      rw [asks_unique hh hg hr ha]
      exact ha
    · obtain ⟨vals, hr, rfl⟩ := ruleOf_asks ha
      exact List.mem_map.2 ⟨vals, h2 f hff c hc hpl vals hr, rfl⟩

theorem allRules_zip {σ : Nat → Nat → Sched} {τ : Nat → Sched} : ∀ {i : Nat} {roots : List (List File)} {rs : List (List Rule × Bool)}, allRules h E σ τ i roots = some rs →
    roots.length = rs.length ∧ ∀ p r, (p, r) ∈ roots.zip rs → ∃ j, rootRules h E (σ j) (τ j) p = some r
  | _, [], rs, hr => by cases hr; simp
  | i, p :: ps, rs, hr => by
    rw [allRules] at hr
    split at hr
    · rename_i r rs' e1 e2
      cases hr
      obtain ⟨h1, h2⟩ := allRules_zip e2
      refine ⟨by simp [h1], fun p' r' hm => ?_⟩
      rw [List.zip_cons_cons, List.mem_cons] at hm
      rcases hm with hm | hm
      · cases hm; exact ⟨i, e1⟩
      · exact h2 p' r' hm
    · cases hr

theorem mem_zip_right {α β : Type} : ∀ {l : List α} {m : List β}, l.length = m.length → ∀ {b : β}, b ∈ m → ∃ a, (a, b) ∈ l.zip m
  | [], m, h, b, hb => by cases m with | nil => cases hb | cons => simp at h
  | a :: l, [], h, b, hb => by cases hb
  | a :: l, b' :: m, h, b, hb => by
    rcases List.mem_cons.1 hb with rfl | hb
    · exact ⟨a, by simp⟩
    · obtain ⟨a', h'⟩ := mem_zip_right (by simpa using h) hb
      exact ⟨a', by simp [h']⟩

theorem noOverlap_of {rules : List Rule} (h : ∀ m₁ ∈ rules, ∀ m₂ ∈ rules, NoOverlap [m₁, m₂]) : NoOverlap rules := fun m₁ h₁ m₂ h₂ => h m₁ h₁ m₂ h₂ m₁ (by simp) m₂ (by simp)

/-! ## The property -/

/-- **C81** (start-up): whatever is written in the files, generating roles does not panic. -/
theorem C81_total {roots : List (List File)} (hf : ∀ files ∈ roots, ∀ f ∈ files, f.WF) (σ : Nat → Nat → Sched) (τ : Nat → Sched) (σ' : String → Sched) (τ' : Sched) (roleName : String) :
    ∃ objs errs, rolesFrom h E σ τ σ' τ' roleName roots = some (objs, errs) ∧ errs.length = roots.length := by
  have : ∀ (i : Nat) (roots : List (List File)), (∀ files ∈ roots, ∀ f ∈ files, f.WF) → ∃ rs, allRules h E σ τ i roots = some rs := by
    intro i roots
    induction roots generalizing i with
    | nil => intro _; exact ⟨[], rfl⟩
    | cons p ps ih =>
      intro hf
      obtain ⟨rs, hrs⟩ := ih (i + 1) fun q hq => hf q (List.mem_cons_of_mem _ hq)
      obtain ⟨res, hres, _⟩ := packageValues_fails (lookup := lookupIn h) (name := fun d => String.ofList d.name) (parse := parseWith E) (σ := σ i) (τ := τ i) (hf p List.mem_cons_self)
      have : ∃ r, rootRules h E (σ i) (τ i) p = some r := by
        unfold rootRules markersOf
        rw [hres]
        cases res <;> exact ⟨_, rfl⟩
      obtain ⟨r, hr⟩ := this
      exact ⟨r :: rs, by rw [allRules, hr, hrs]⟩
  obtain ⟨rs, hrs⟩ := this 0 roots hf
  exact ⟨_, _, by rw [rolesFrom, hrs]; rfl, by simp [(allRules_zip hrs).1]⟩

/-- **C81** (nothing more; guarded).  With the markers of `rbac` registered, and those of any other generators before or after: every request that the generated objects grant in a
namespace is asked for by a comment of the packages, for this namespace; whichever order maps have, and even if the markers of some package cannot be read.
The guards are those of C01, and that all comments that begin with `+kubebuilder:rbac` are written as they should be. -/
theorem C81_sound_partial (hh : Shipped.history gs = some h) (hg : "rbac" ∈ gs) {roots : List (List File)} (hf : ∀ files ∈ roots, ∀ f ∈ files, f.WF) (hw : WellWritten E roots)
    (hclean : ∀ m, AskedFor E roots m → CleanMarker m) (hshape : ∀ m, AskedFor E roots m → ValidShape m) {σ : Nat → Nat → Sched} {τ : Nat → Sched} {σ' : String → Sched} {τ' : Sched} {roleName : String}
    {objs : List RoleObj} {errs : List Bool} (hr : rolesFrom h E σ τ σ' τ' roleName roots = some (objs, errs)) {ns : String} {q : Request} (hq : Granted objs ns q) :
    ∃ files ∈ roots, ∃ f ∈ files, ∃ c, f.Marks c ∧ ∃ m, Asks E c m ∧ m.ns = ns ∧ allows (markerRule m) q = true := by
  obtain ⟨rs, hrs, he⟩ := Option.map_eq_some_iff.1 hr
  cases he
  obtain ⟨hlen, hz⟩ := allRules_zip hrs
  have hasked : ∀ m ∈ rs.flatMap (·.1), AskedFor E roots m := by
    intro m hm
    obtain ⟨⟨rules, e⟩, hre, hm⟩ := List.mem_flatMap.1 hm
    obtain ⟨files, hfz⟩ := mem_zip_right hlen hre
    obtain ⟨j, hj⟩ := hz _ _ hfz
    have hfm := (List.of_mem_zip hfz).1
    obtain ⟨f, hff, c, hc, ha⟩ := (rootRules_spec hh hg (hf files hfm) (fun f hff => hw files hfm f hff) hj).1 m hm
    exact ⟨files, hfm, f, hff, c, hc, ha⟩
  obtain ⟨m, hm, hns, hal⟩ := C01_sound_partial _ (fun m hm => hclean m (hasked m hm)) (fun m hm => hshape m (hasked m hm)) σ' τ' roleName ns q hq
  obtain ⟨files, hfm, f, hff, c, hc, ha⟩ := hasked m hm
  exact ⟨files, hfm, f, hff, c, hc, m, ha, hns, hal⟩

/-- **C81** (nothing less; guarded).  Moreover every request that a placed comment asks for, in a package whose markers could be read, is granted.
The guards are those of C02. -/
theorem C81_complete_partial (hh : Shipped.history gs = some h) (hg : "rbac" ∈ gs) {roots : List (List File)} (hf : ∀ files ∈ roots, ∀ f ∈ files, f.WF) (hw : WellWritten E roots)
    (hclean : ∀ m, AskedFor E roots m → CleanMarker m) (hshape : ∀ m, AskedFor E roots m → ValidShape m) (hsep : ∀ m₁ m₂, AskedFor E roots m₁ → AskedFor E roots m₂ → NoOverlap [m₁, m₂])
    {σ : Nat → Nat → Sched} {τ : Nat → Sched} {σ' : String → Sched} {τ' : Sched} {roleName : String} {objs : List RoleObj} {errs : List Bool} (hr : rolesFrom h E σ τ σ' τ' roleName roots = some (objs, errs))
    {files : List File} (hfiles : (files, false) ∈ roots.zip errs) {f : File} (hff : f ∈ files) {c : Comment} (hc : f.Marks c) (hp : Placed f c) {m : Rule} (ha : Asks E c m)
    {q : Request} (hq : allows (markerRule m) q = true) : Granted objs m.ns q := by
  obtain ⟨rs, hrs, he⟩ := Option.map_eq_some_iff.1 hr
  cases he
  obtain ⟨hlen, hz⟩ := allRules_zip hrs
  have hasked : ∀ m ∈ rs.flatMap (·.1), AskedFor E roots m := by
    intro m hm
    obtain ⟨⟨rules, e⟩, hre, hm⟩ := List.mem_flatMap.1 hm
    obtain ⟨files, hfz⟩ := mem_zip_right hlen hre
    obtain ⟨j, hj⟩ := hz _ _ hfz
    have hfm := (List.of_mem_zip hfz).1
    obtain ⟨f, hff, c, hc, ha⟩ := (rootRules_spec hh hg (hf files hfm) (fun f hff => hw files hfm f hff) hj).1 m hm
    exact ⟨files, hfm, f, hff, c, hc, ha⟩
  have hfm := (List.of_mem_zip hfiles).1
  rw [List.zip_map_right] at hfiles
  obtain ⟨⟨files', rules, e⟩, hfz, heq⟩ := List.mem_map.1 hfiles
  simp only [Prod.map, id, Prod.mk.injEq] at heq
  obtain ⟨rfl, rfl⟩ := heq
  obtain ⟨j, hj⟩ := hz _ _ hfz
  have hmem := (rootRules_spec hh hg (hf files' hfm) (fun f hff => hw files' hfm f hff) hj).2.2 rfl f hff c hc hp m ha
  exact C02_complete_partial _ (fun m hm => hclean m (hasked m hm)) (fun m hm => hshape m (hasked m hm)) (noOverlap_of fun m₁ h₁ m₂ h₂ => hsep m₁ m₂ (hasked m₁ h₁) (hasked m₂ h₂)) σ' τ' roleName m.ns q
    ⟨m, List.mem_flatMap.2 ⟨_, (List.of_mem_zip hfz).2, hmem⟩, rfl, hq⟩

/-- **C81** (errors): an error is recorded for a package exactly if some marker in it, of whichever generator, does not parse where it is attached; its RBAC markers then count for nothing: the objects are those
for the other packages. -/
theorem C81_errors {roots : List (List File)} (hf : ∀ files ∈ roots, ∀ f ∈ files, f.WF) {σ : Nat → Nat → Sched} {τ : Nat → Sched} {σ' : String → Sched} {τ' : Sched} {roleName : String}
    {objs : List RoleObj} {errs : List Bool} (hr : rolesFrom h E σ τ σ' τ' roleName roots = some (objs, errs)) :
    (∀ files e, (files, e) ∈ roots.zip errs → (e = true ↔ ∃ f ∈ files, ∃ ρ r n c b d err, associateFile (lookupIn h) ρ f.groups f.node f.children = some r ∧ Attached r n c b ∧
      lookupIn h (textOf c) n.target = some d ∧ parseWith E d (textOf c) = .error err)) ∧
    ∃ rules : List (List Rule), rules.length = roots.length ∧ objs = generateRoles σ' τ' roleName rules.flatten ∧ ∀ l, (l, true) ∈ rules.zip errs → l = [] := by
  obtain ⟨rs, hrs, he⟩ := Option.map_eq_some_iff.1 hr
  cases he
  obtain ⟨hlen, hz⟩ := allRules_zip hrs
  constructor
  · intro files e hm
    have hfm := (List.of_mem_zip hm).1
    rw [List.zip_map_right] at hm
    obtain ⟨⟨files', rules, e'⟩, hfz, heq⟩ := List.mem_map.1 hm
    simp only [Prod.map, id, Prod.mk.injEq] at heq
    obtain ⟨rfl, rfl⟩ := heq
    obtain ⟨j, hj⟩ := hz _ _ hfz
    obtain ⟨res, hres, hiff⟩ := packageValues_fails (lookup := lookupIn h) (name := fun d => String.ofList d.name) (parse := parseWith E) (σ := σ j) (τ := τ j) (hf files' hfm)
    unfold rootRules markersOf at hj
    rw [hres] at hj
    rw [← hiff]
    cases res with
    | none => cases hj; simp
    | some res => cases hj; simp
  · refine ⟨rs.map (·.1), by simp [hlen], by rw [List.flatMap_def], fun l hl => ?_⟩
    rw [List.zip_map'] at hl
    obtain ⟨⟨rules, e⟩, hre, heq⟩ := List.mem_map.1 hl
    simp only [Prod.mk.injEq] at heq
    obtain ⟨rfl, rfl⟩ := heq
    obtain ⟨files, hfz⟩ := mem_zip_right hlen hre
    obtain ⟨j, hj⟩ := hz _ _ hfz
    unfold rootRules at hj
    split at hj
    · cases hj
    · cases hj; rfl
    · cases hj

end Verif.Rbac

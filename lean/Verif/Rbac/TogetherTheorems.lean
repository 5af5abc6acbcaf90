import Verif.Rbac.SourceTheorems
import Verif.Markers.SourceList
/-!
# C98: the permissions of packages that are named together
-/
namespace Verif.Rbac
open Verif.Markers Verif.Markers.Source Verif.Markers.Spec Verif.Markers.Collect Spec

variable {gs : List String} {h : List (Def Loaded)} {E : Env}

/-! ## What is read of a package does not depend on the run -/

theorem all2_flatten {α β : Type} {P : α → β → Prop} {l : List α} {L : List (List β)} (h : All2 (fun a b => ∀ v, v ∈ b ↔ P a v) l L) (v : β) : v ∈ L.flatten ↔ ∃ a ∈ l, P a v := by
  induction h with
  | nil => simp
  | cons hab _ ih => simp [hab, ih]

/-- The values of a marker of a package, in any run. -/
def Yields (h : List (Def Loaded)) (E : Env) (k : String) (files : List File) (v : List (Str × Value)) : Prop :=
  ∃ f ∈ files, ∃ c ρ r b d, associateFile (lookupIn h) ρ f.groups f.node f.children = some r ∧ Attached r f.node c b ∧ lookupIn h (textOf c) .package = some d ∧ String.ofList d.name = k ∧ parseWith E d (textOf c) = .ok v

theorem values_yield {σ : Nat → Sched} {τ : Sched} {files : List File} (hf : ∀ f ∈ files, f.WF) {res : Values (List (Str × Value))} (hr : markersOf h E σ τ files = some (some res)) (k : String) (v : List (Str × Value)) :
    v ∈ (GoMap.get res k.toList).getD [] ↔ Yields h E k files v := by
  obtain ⟨L, hL, hall⟩ := packageValues_list hf hr k
  have h2 : All2 (fun f l => ∀ x, x ∈ l ↔ ∃ ρ r b d, associateFile (lookupIn h) ρ f.groups f.node f.children = some r ∧ Attached r f.node x.1 b ∧ lookupIn h (textOf x.1) .package = some d ∧
      String.ofList d.name = k ∧ parseWith E d (textOf x.1) = .ok x.2) files L := hall.imp fun _ _ _ _ hx x => hx.2 x.1 x.2
  rw [hL, List.mem_map]
  constructor
  · rintro ⟨x, hx, rfl⟩
    obtain ⟨f, hff, hx⟩ := (all2_flatten h2 x).1 hx
    exact ⟨f, hff, x.1, hx⟩
  · rintro ⟨f, hff, c, hx⟩
    exact ⟨(c, v), (all2_flatten h2 (c, v)).2 ⟨f, hff, hx⟩, rfl⟩

theorem rootRules_same {σ σ' : Nat → Sched} {τ τ' : Sched} {files : List File} (hf : ∀ f ∈ files, f.WF) {r r' : List Rule × Bool} (hr : rootRules h E σ τ files = some r) (hr' : rootRules h E σ' τ' files = some r') :
    r.2 = r'.2 ∧ ∀ m, m ∈ r.1 ↔ m ∈ r'.1 := by
  obtain ⟨res, hres, hiff⟩ := packageValues_fails (lookup := lookupIn h) (name := fun d => String.ofList d.name) (parse := parseWith E) (σ := σ) (τ := τ) hf
  obtain ⟨res', hres', hiff'⟩ := packageValues_fails (lookup := lookupIn h) (name := fun d => String.ofList d.name) (parse := parseWith E) (σ := σ') (τ := τ') hf
  unfold rootRules at hr hr'
  have e1 : markersOf h E σ τ files = some res := hres
  have e2 : markersOf h E σ' τ' files = some res' := hres'
  rw [e1] at hr
  rw [e2] at hr'
  cases hx : res with
  | none =>
    have := hiff'.2 (hiff.1 hx)
    subst hx this
    cases hr; cases hr'
    simp
  | some v =>
    cases hx' : res' with
    | none =>
      have := hiff.2 (hiff'.1 hx')
      rw [hx] at this; cases this
    | some v' =>
      subst hx hx'
      cases hr; cases hr'
      refine ⟨rfl, fun m => ?_⟩
      simp only [List.mem_map, values_yield hf e1, values_yield hf e2]

theorem zip_left {α β : Type} : ∀ {l : List α} {m : List β}, l.length = m.length → ∀ {a : α}, a ∈ l → ∃ b, (a, b) ∈ l.zip m
  | [], _, _, _, ha => by cases ha
  | _ :: _, [], h, _, _ => by simp at h
  | a :: l, b :: m, h, a', ha => by
    rcases List.mem_cons.1 ha with rfl | ha
    · exact ⟨b, by simp⟩
    · obtain ⟨b', h'⟩ := zip_left (m := m) (by simpa using h) ha
      exact ⟨b', by simp [h']⟩

/-- The rules of a run are those of its packages, each alone. -/
theorem rules_sub {σ σ₂ : Nat → Nat → Sched} {τ τ₂ : Nat → Sched} {i i₂ : Nat} {roots roots₂ : List (List File)} (hf : ∀ files ∈ roots₂, ∀ f ∈ files, f.WF) {rs rs₂ : List (List Rule × Bool)} (hr : allRules h E σ τ i roots = some rs)
    (hr₂ : allRules h E σ₂ τ₂ i₂ roots₂ = some rs₂) (hsub : ∀ files ∈ roots, files ∈ roots₂) (m : Rule) (hm : m ∈ rs.flatMap (·.1)) : m ∈ rs₂.flatMap (·.1) := by
  obtain ⟨hlen, hz⟩ := allRules_zip hr
  obtain ⟨hlen₂, hz₂⟩ := allRules_zip hr₂
  obtain ⟨r, hr, hm⟩ := List.mem_flatMap.1 hm
  obtain ⟨files, hfz⟩ := mem_zip_right hlen hr
  have h2 := hsub files (List.of_mem_zip hfz).1
  obtain ⟨r₂, hfz₂⟩ := zip_left hlen₂ h2
  obtain ⟨j, hj⟩ := hz _ _ hfz
  obtain ⟨j₂, hj₂⟩ := hz₂ _ _ hfz₂
  exact List.mem_flatMap.2 ⟨r₂, (List.of_mem_zip hfz₂).2, ((rootRules_same (hf files h2) hj hj₂).2 m).1 hm⟩

theorem rules_asked (hh : Shipped.history gs = some h) (hg : "rbac" ∈ gs) {roots : List (List File)} (hf : ∀ files ∈ roots, ∀ f ∈ files, f.WF) (hw : WellWritten E roots) {σ : Nat → Nat → Sched} {τ : Nat → Sched} {i : Nat}
    {rs : List (List Rule × Bool)} (hrs : allRules h E σ τ i roots = some rs) : ∀ m ∈ rs.flatMap (·.1), AskedFor E roots m := by
  obtain ⟨hlen, hz⟩ := allRules_zip hrs
  intro m hm
  obtain ⟨⟨rules, e⟩, hre, hm⟩ := List.mem_flatMap.1 hm
  obtain ⟨files, hfz⟩ := mem_zip_right hlen hre
  obtain ⟨j, hj⟩ := hz _ _ hfz
  have hfm := (List.of_mem_zip hfz).1
  obtain ⟨f, hff, c, hc, ha⟩ := (rootRules_spec hh hg (hf files hfm) (fun f hff => hw files hfm f hff) hj).1 m hm
  exact ⟨files, hfm, f, hff, c, hc, ha⟩

/-! ## The property -/

section
variable {roots roots' : List (List File)} {σ σ₂ : Nat → Nat → Sched} {τ τ₂ : Nat → Sched} {σ' σ₂' : String → Sched} {τ' τ₂' : Sched} {roleName roleName₂ : String} {objs objs₂ : List RoleObj} {errs errs₂ : List Bool}

/-- **C98** (guarded).  What some packages are granted, they are also granted when further packages are named, in any order; whatever the orders of maps.  The guards are those of C02, for all the packages. -/
theorem C98_monotone_partial (hh : Shipped.history gs = some h) (hg : "rbac" ∈ gs) (hf : ∀ files ∈ roots', ∀ f ∈ files, f.WF) (hw : WellWritten E roots')
    (hclean : ∀ m, AskedFor E roots' m → CleanMarker m) (hshape : ∀ m, AskedFor E roots' m → ValidShape m) (hsep : ∀ m₁ m₂, AskedFor E roots' m₁ → AskedFor E roots' m₂ → NoOverlap [m₁, m₂])
    (hr : rolesFrom h E σ τ σ' τ' roleName roots = some (objs, errs)) (hr' : rolesFrom h E σ₂ τ₂ σ₂' τ₂' roleName₂ roots' = some (objs₂, errs₂)) (hsub : ∀ files ∈ roots, files ∈ roots')
    {ns : String} {q : Request} (hq : Granted objs ns q) : Granted objs₂ ns q := by
  obtain ⟨rs, hrs, he⟩ := Option.map_eq_some_iff.1 hr
  obtain ⟨rs₂, hrs₂, he₂⟩ := Option.map_eq_some_iff.1 hr'
  cases he; cases he₂
  have ha := rules_asked hh hg hf hw hrs₂
  have hs := rules_sub hf hrs hrs₂ hsub
  obtain ⟨m, hm, hn, hal⟩ := C01_sound_partial _ (fun m hm => hclean m (ha m (hs m hm))) (fun m hm => hshape m (ha m (hs m hm))) σ' τ' roleName ns q hq
  exact C02_complete_partial _ (fun m hm => hclean m (ha m hm)) (fun m hm => hshape m (ha m hm)) (noOverlap_of fun m₁ h₁ m₂ h₂ => hsep m₁ m₂ (ha m₁ h₁) (ha m₂ h₂)) σ₂' τ₂' roleName₂ ns q ⟨m, hs m hm, hn, hal⟩

/-- **C98** (nothing else; guarded).  What packages are granted together is granted to one of them alone. -/
theorem C98_split_partial (hh : Shipped.history gs = some h) (hg : "rbac" ∈ gs) (hf : ∀ files ∈ roots, ∀ f ∈ files, f.WF) (hw : WellWritten E roots)
    (hclean : ∀ m, AskedFor E roots m → CleanMarker m) (hshape : ∀ m, AskedFor E roots m → ValidShape m) (hsep : ∀ m₁ m₂, AskedFor E roots m₁ → AskedFor E roots m₂ → NoOverlap [m₁, m₂])
    (hr : rolesFrom h E σ τ σ' τ' roleName roots = some (objs, errs)) {ns : String} {q : Request} (hq : Granted objs ns q) :
    ∃ files ∈ roots, ∀ {σ₂ : Nat → Nat → Sched} {τ₂ : Nat → Sched} {σ₂' : String → Sched} {τ₂' : Sched} {roleName₂ : String} {objs₂ : List RoleObj} {errs₂ : List Bool},
      rolesFrom h E σ₂ τ₂ σ₂' τ₂' roleName₂ [files] = some (objs₂, errs₂) → Granted objs₂ ns q := by
  obtain ⟨rs, hrs, he⟩ := Option.map_eq_some_iff.1 hr
  cases he
  have ha := rules_asked hh hg hf hw hrs
  obtain ⟨m, hm, hn, hal⟩ := C01_sound_partial _ (fun m hm => hclean m (ha m hm)) (fun m hm => hshape m (ha m hm)) σ' τ' roleName ns q hq
  obtain ⟨hlen, hz⟩ := allRules_zip hrs
  obtain ⟨r, hr, hm'⟩ := List.mem_flatMap.1 hm
  obtain ⟨files, hfz⟩ := mem_zip_right hlen hr
  obtain ⟨j, hj⟩ := hz _ _ hfz
  have hfm := (List.of_mem_zip hfz).1
  refine ⟨files, hfm, fun {σ₂ τ₂ σ₂' τ₂' roleName₂ objs₂ errs₂} hr₂ => ?_⟩
  obtain ⟨rs₂, hrs₂, he₂⟩ := Option.map_eq_some_iff.1 hr₂
  cases he₂
  have hs := rules_sub hf hrs₂ hrs (fun x hx => by rw [List.mem_singleton.1 hx]; exact hfm)
  obtain ⟨hlen₂, hz₂⟩ := allRules_zip hrs₂
  obtain ⟨r₂, hfz₂⟩ := zip_left hlen₂ (List.mem_singleton.2 (rfl : files = files))
  obtain ⟨j₂, hj₂⟩ := hz₂ _ _ hfz₂
  refine C02_complete_partial _ (fun m hm => hclean m (ha m (hs m hm))) (fun m hm => hshape m (ha m (hs m hm))) (noOverlap_of fun m₁ h₁ m₂ h₂ => hsep m₁ m₂ (ha m₁ (hs m₁ h₁)) (ha m₂ (hs m₂ h₂))) σ₂' τ₂' roleName₂ ns q
    ⟨m, List.mem_flatMap.2 ⟨r₂, (List.of_mem_zip hfz₂).2, ((rootRules_same (hf files hfm) hj hj₂).2 m).1 hm'⟩, hn, hal⟩

/-- **C98** (order; guarded).  The same packages give the same objects, in whichever order they are named, and however often. -/
theorem C98_order_partial (hh : Shipped.history gs = some h) (hg : "rbac" ∈ gs) (hf : ∀ files ∈ roots, ∀ f ∈ files, f.WF) (hw : WellWritten E roots)
    (hclean : ∀ m, AskedFor E roots m → CleanMarker m) (hshape : ∀ m, AskedFor E roots m → ValidShape m) (hsep : ∀ m₁ m₂, AskedFor E roots m₁ → AskedFor E roots m₂ → NoOverlap [m₁, m₂])
    (hr : rolesFrom h E σ τ σ' τ' roleName roots = some (objs, errs)) (hr' : rolesFrom h E σ₂ τ₂ σ₂' τ₂' roleName roots' = some (objs₂, errs₂)) (hsame : ∀ files, files ∈ roots ↔ files ∈ roots') : objs = objs₂ := by
  obtain ⟨rs, hrs, he⟩ := Option.map_eq_some_iff.1 hr
  obtain ⟨rs₂, hrs₂, he₂⟩ := Option.map_eq_some_iff.1 hr'
  cases he; cases he₂
  have ha := rules_asked hh hg hf hw hrs
  exact C03_deterministic_partial _ _ (fun m hm => hclean m (ha m hm)) (fun m hm => hshape m (ha m hm)) (noOverlap_of fun m₁ h₁ m₂ h₂ => hsep m₁ m₂ (ha m₁ h₁) (ha m₂ h₂))
    (fun m => ⟨rules_sub (fun files hx => hf files ((hsame files).2 hx)) hrs hrs₂ (fun x hx => (hsame x).1 hx) m, rules_sub hf hrs₂ hrs (fun x hx => (hsame x).2 hx) m⟩) σ' σ₂' τ' τ₂' roleName

/-- **C98** (errors).  Whether an error is recorded for a package does not depend on the other packages, nor on the orders of maps. -/
theorem C98_errors (hf : ∀ files ∈ roots, ∀ f ∈ files, f.WF) (hr : rolesFrom h E σ τ σ' τ' roleName roots = some (objs, errs)) (hr' : rolesFrom h E σ₂ τ₂ σ₂' τ₂' roleName₂ roots' = some (objs₂, errs₂))
    {files : List File} {e e₂ : Bool} (he : (files, e) ∈ roots.zip errs) (he₂ : (files, e₂) ∈ roots'.zip errs₂) : e = e₂ := by
  obtain ⟨rs, hrs, hx⟩ := Option.map_eq_some_iff.1 hr
  obtain ⟨rs₂, hrs₂, hx₂⟩ := Option.map_eq_some_iff.1 hr'
  cases hx; cases hx₂
  have hfm := (List.of_mem_zip he).1
  rw [List.zip_map_right] at he he₂
  obtain ⟨⟨_, r⟩, hz, heq⟩ := List.mem_map.1 he
  obtain ⟨⟨_, r₂⟩, hz₂, heq₂⟩ := List.mem_map.1 he₂
  simp only [Prod.map, id, Prod.mk.injEq] at heq heq₂
  obtain ⟨rfl, rfl⟩ := heq
  obtain ⟨e3, rfl⟩ := heq₂
  obtain ⟨j, hj⟩ := (allRules_zip hrs).2 _ _ hz
  obtain ⟨j₂, hj₂⟩ := (allRules_zip hrs₂).2 _ _ hz₂
  rw [e3] at hj₂
  exact (rootRules_same (hf _ hfm) hj hj₂).1
end

end Verif.Rbac

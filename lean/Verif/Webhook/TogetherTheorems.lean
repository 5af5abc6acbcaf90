import Verif.Webhook.TogetherSpec
import Verif.Webhook.SourceTheorems
import Verif.Markers.SourcePerm
/-!
# C99: the webhooks of packages that are named together
-/
namespace Verif.Webhook
open Verif.Markers Verif.Markers.Source Verif.Markers.Spec Verif.Markers.Collect Spec

variable {gs : List String} {h : List (Def Loaded)} {E : Env}

/-! ## What is read of a package does not depend on the run, up to its order -/

theorem rootOf_perm {σ σ' : Nat → Sched} {τ τ' : Sched} {files : List File} (hf : ∀ f ∈ files, f.WF) {r r' : Root × Bool} (hr : rootOf h E σ τ files = some r) (hr' : rootOf h E σ' τ' files = some r') :
    r.2 = r'.2 ∧ r.1.cfgs.Perm r'.1.cfgs ∧ r.1.webhookCfgs.Perm r'.1.webhookCfgs := by
  obtain ⟨res, hres, hiff⟩ := packageValues_fails (lookup := lookupIn h) (name := fun d => String.ofList d.name) (parse := parseWith E) (σ := σ) (τ := τ) hf
  obtain ⟨res', hres', hiff'⟩ := packageValues_fails (lookup := lookupIn h) (name := fun d => String.ofList d.name) (parse := parseWith E) (σ := σ') (τ := τ') hf
  unfold rootOf at hr hr'
  have e1 : markersOf h E σ τ files = some res := hres
  have e2 : markersOf h E σ' τ' files = some res' := hres'
  rw [e1] at hr
  rw [e2] at hr'
  cases hx : res with
  | none =>
    have := hiff'.2 (hiff.1 hx)
    subst hx this
    cases hr; cases hr'
    simp
  | some v =>
    cases hx' : res' with
    | none =>
      have := hiff.2 (hiff'.1 hx')
      rw [hx] at this; cases this
    | some v' =>
      subst hx hx'
      cases hr; cases hr'
      exact ⟨rfl, (values_perm hf e1 e2 "kubebuilder:webhook").map _, (values_perm hf e1 e2 "kubebuilder:webhookconfiguration").map _⟩

theorem kindOf_perm {r r' : Root} (hp : r.cfgs.Perm r'.cfgs) (b : Bool) : (kindOf b r).Perm (kindOf b r') := (sortBy_perm _ _).trans ((hp.filter _).trans (sortBy_perm _ _).symm)

theorem all2_perm {α β : Type} {R : α → β → Prop} {l l' : List α} (hp : l.Perm l') : ∀ {m : List β}, All2 R l m → ∃ m', All2 R l' m' ∧ m.Perm m' := by
  induction hp with
  | nil => intro m hm; exact ⟨m, hm, .refl _⟩
  | cons a _ ih =>
    intro m hm
    cases hm with
    | cons h1 h2 =>
      obtain ⟨m', h3, h4⟩ := ih h2
      exact ⟨_, .cons h1 h3, h4.cons _⟩
  | swap a b l =>
    intro m hm
    cases hm with
    | cons h1 h2 =>
      cases h2 with
      | cons h3 h4 => exact ⟨_, .cons h3 (.cons h1 h4), .swap ..⟩
  | trans _ _ ih1 ih2 =>
    intro m hm
    obtain ⟨m', h1, h2⟩ := ih1 hm
    obtain ⟨m'', h3, h4⟩ := ih2 h1
    exact ⟨m'', h3, h2.trans h4⟩

theorem all2_nil {α β : Type} {R : α → β → Prop} {m : List β} (h : All2 R [] m) : m = [] := by
  cases h; rfl

theorem conv_unique {l : List Config} {m m' : List Webhook} (hm : All2 Conv l m) (hm' : All2 Conv l m') : m = m' := by
  induction hm generalizing m' with
  | nil => cases hm'; rfl
  | cons h1 _ ih =>
    cases hm' with
    | cons h1' h2' =>
      have := h1.2.symm.trans h1'.2
      cases this
      rw [ih h2']

theorem conv_perm {l l' : List Config} {m m' : List Webhook} (hp : l.Perm l') (hm : All2 Conv l m) (hm' : All2 Conv l' m') : m.Perm m' := by
  obtain ⟨m'', h1, h2⟩ := all2_perm hp hm
  rw [conv_unique hm' h1]
  exact h2

theorem all2_append {α β : Type} {R : α → β → Prop} : ∀ {a b : List α} {m : List β}, All2 R (a ++ b) m → ∃ m₁ m₂, m = m₁ ++ m₂ ∧ All2 R a m₁ ∧ All2 R b m₂
  | [], b, m, h => ⟨[], m, rfl, .nil, h⟩
  | x :: a, b, m, h => by
    cases h with
    | cons h1 h2 =>
      obtain ⟨m₁, m₂, rfl, h3, h4⟩ := all2_append h2
      exact ⟨_ :: m₁, m₂, rfl, .cons h1 h3, h4⟩

/-! ## The output of a run -/

theorem hooks_files {n n' : String} {a b : List Webhook} (kind : String) : hooksOf kind (files (objects "MutatingWebhookConfiguration" n a ++ objects "ValidatingWebhookConfiguration" n' b)) =
    if kind = "MutatingWebhookConfiguration" then a else if kind = "ValidatingWebhookConfiguration" then b else [] := by
  unfold hooksOf objectsOf files objects
  by_cases h1 : kind = "MutatingWebhookConfiguration"
  · subst h1
    by_cases ha : a = [] <;> by_cases hb : b = [] <;> simp [ha, hb]
  · by_cases h2 : kind = "ValidatingWebhookConfiguration"
    · subst h2
      by_cases ha : a = [] <;> by_cases hb : b = [] <;> simp [ha, hb]
    · by_cases ha : a = [] <;> by_cases hb : b = [] <;> simp [ha, hb, h1, h2, Ne.symm h1, Ne.symm h2]

/-- The webhooks of a run, of each kind, are made of the markers of its packages. -/
theorem hooks_conv {ρ : Sched} {rs : List Root} {out : List (String × List Obj)} (ho : generate ρ rs = .ok out) (kind : String) :
    ∃ b, All2 Conv (if b = 2 then [] else rs.flatMap (kindOf (b = 1))) (hooksOf kind out) ∧ b = (if kind = "MutatingWebhookConfiguration" then 1 else if kind = "ValidatingWebhookConfiguration" then 0 else 2) := by
  obtain ⟨-, mws, vws, h1, h2, -, -, rfl⟩ := generate_ok.1 ho
  refine ⟨_, ?_, rfl⟩
  rw [hooks_files]
  by_cases e1 : kind = "MutatingWebhookConfiguration"
  · simp only [if_pos e1]; exact h1
  · simp only [if_neg e1]
    by_cases e2 : kind = "ValidatingWebhookConfiguration"
    · simp only [if_pos e2]; exact h2
    · simp only [if_neg e2]; exact .nil

section
variable {roots : List (List File)} {σ : Nat → Nat → Sched} {τ : Nat → Sched} {ρ : Sched} {out : List (String × List Obj)} {errs : List Bool}

/-- A run over one package. -/
def Alone (h : List (Def Loaded)) (E : Env) (files : List File) (part : List (String × List Obj)) : Prop := ∃ σ τ ρ errs, generateFrom h E σ τ ρ [files] = some (.ok (part, errs))

theorem alone_root {files : List File} {part : List (String × List Obj)} (ha : Alone h E files part) : ∃ σ τ ρ r, rootOf h E σ τ files = some r ∧ generate ρ [r.1] = .ok part := by
  obtain ⟨σ, τ, ρ, errs, ha⟩ := ha
  obtain ⟨rs, h1, h2, -⟩ := generateFrom_ok ha
  cases allRoots_zip h1 with
  | cons hj ht =>
    cases ht
    obtain ⟨j, hj⟩ := hj
    exact ⟨_, _, ρ, _, hj, h2⟩

theorem conv_parts {ρs : List (Root × Bool)} {parts : List (List (String × List Obj))} (kind : String) (b : Bool) (hk : b = true ∧ kind = "MutatingWebhookConfiguration" ∨ b = false ∧ kind = "ValidatingWebhookConfiguration")
    (hf : ∀ files ∈ roots, ∀ f ∈ files, f.WF) (hz : All2 (fun p r => ∃ j, rootOf h E (σ j) (τ j) p = some r) roots ρs) (hparts : All2 (Alone h E) roots parts) :
    ∀ {ws : List Webhook}, All2 Conv ((ρs.map (·.1)).flatMap (kindOf b)) ws → ws.Perm (parts.flatMap (hooksOf kind)) := by
  induction hparts generalizing ρs with
  | nil => cases hz; intro ws hw; cases hw; exact .nil
  | cons ha _ ih =>
    cases hz with
    | cons hj ht =>
      intro ws hw
      rw [List.map_cons, List.flatMap_cons] at hw
      obtain ⟨w1, w2, rfl, h1, h2⟩ := all2_append hw
      rw [List.flatMap_cons]
      refine .append ?_ (ih (fun files hm => hf files (List.mem_cons_of_mem _ hm)) ht h2)
      obtain ⟨j, hj⟩ := hj
      obtain ⟨_, _, ρ', r', hr', hg⟩ := alone_root ha
      obtain ⟨b', h3, h4⟩ := hooks_conv hg kind
      refine conv_perm (kindOf_perm (rootOf_perm (hf _ List.mem_cons_self) hj hr').2.1 b) h1 ?_
      rcases hk with ⟨rfl, rfl⟩ | ⟨rfl, rfl⟩
      · simp only [if_true] at h4; subst h4; simpa using h3
      · have : b' = 0 := by rw [h4]; decide
        subst this; simpa using h3

/-- **C99.**  The webhooks of a kind that are listed for packages named together are those that are listed for each of them alone: none is lost, none is listed twice and none is changed, whatever the orders of maps. -/
theorem C99_together (hf : ∀ files ∈ roots, ∀ f ∈ files, f.WF) (hr : generateFrom h E σ τ ρ roots = some (.ok (out, errs))) {parts : List (List (String × List Obj))} (hparts : All2 (Alone h E) roots parts) (kind : String) :
    (hooksOf kind out).Perm (parts.flatMap (hooksOf kind)) := by
  obtain ⟨rs, hrs, ho, -⟩ := generateFrom_ok hr
  obtain ⟨b, h1, h2⟩ := hooks_conv ho kind
  by_cases e1 : kind = "MutatingWebhookConfiguration"
  · rw [if_pos e1] at h2; subst h2
    exact conv_parts kind true (.inl ⟨rfl, e1⟩) hf (allRoots_zip hrs) hparts (by simpa using h1)
  · rw [if_neg e1] at h2
    by_cases e2 : kind = "ValidatingWebhookConfiguration"
    · rw [if_pos e2] at h2; subst h2
      exact conv_parts kind false (.inr ⟨rfl, e2⟩) hf (allRoots_zip hrs) hparts (by simpa using h1)
    · rw [if_neg e2] at h2; subst h2
      have h0 : hooksOf kind out = [] := all2_nil (by simpa using h1)
      have hp : parts.flatMap (hooksOf kind) = [] := by
        rw [List.flatMap_eq_nil_iff]
        intro part hm
        obtain ⟨files, -, ha⟩ := hparts.exists_left hm
        obtain ⟨_, _, ρ', r', hr', hg⟩ := alone_root ha
        obtain ⟨b', h3, h4⟩ := hooks_conv hg kind
        rw [if_neg e1, if_neg e2] at h4; subst h4
        exact all2_nil (by simpa using h3)
      rw [h0, hp]

theorem allRoots_some (hf : ∀ files ∈ roots, ∀ f ∈ files, f.WF) : ∃ rs, allRoots h E σ τ 0 roots = some rs := by
  obtain ⟨res, hres⟩ := C84_total (h := h) (E := E) hf σ τ .fifo
  obtain ⟨rs, hrs, -⟩ := Option.map_eq_some_iff.1 hres
  exact ⟨rs, hrs⟩

theorem good_perm {r r' : Root} (h1 : r.cfgs.Perm r'.cfgs) (h2 : r.webhookCfgs.Perm r'.webhookCfgs) (hg : NoDuplicateConfig r ∧ ∀ c ∈ r.cfgs, Acceptable c) : NoDuplicateConfig r' ∧ ∀ c ∈ r'.cfgs, Acceptable c :=
  ⟨fun k => by rw [← (h2.filter _).length_eq]; exact hg.1 k, fun c hc => hg.2 c (h1.mem_iff.2 hc)⟩

theorem run_iff (hf : ∀ files ∈ roots, ∀ f ∈ files, f.WF) : (∃ out errs, generateFrom h E σ τ ρ roots = some (.ok (out, errs))) ↔
    ∀ files ∈ roots, ∃ σ τ r, rootOf h E σ τ files = some r ∧ NoDuplicateConfig r.1 ∧ ∀ c ∈ r.1.cfgs, Acceptable c := by
  obtain ⟨rs, hrs⟩ := allRoots_some (h := h) (E := E) (σ := σ) (τ := τ) hf
  constructor
  · rintro ⟨out, errs, hr⟩ files hm
    obtain ⟨rs', hrs', ho, -⟩ := generateFrom_ok hr
    obtain ⟨r, hrm, j, hj⟩ := (allRoots_zip hrs').exists_right hm
    exact ⟨_, _, r, hj, (C08_accepts_iff ρ _).1 ⟨out, ho⟩ r.1 (List.mem_map_of_mem hrm)⟩
  · intro hall
    have : ∃ out, generate ρ (rs.map (·.1)) = .ok out := by
      rw [C08_accepts_iff]
      intro r hr
      obtain ⟨r, hrm, rfl⟩ := List.mem_map.1 hr
      obtain ⟨files, hm, j, hj⟩ := (allRoots_zip hrs).exists_left hrm
      obtain ⟨_, _, r', hr', hg⟩ := hall files hm
      obtain ⟨-, h1, h2⟩ := rootOf_perm (hf files hm) hr' hj
      exact good_perm h1 h2 hg
    obtain ⟨out, ho⟩ := this
    exact ⟨out, rs.map (·.2), by rw [generateFrom, hrs]; simp [ho]⟩

/-- **C99** (success).  The generator succeeds for packages named together exactly if it does for each of them alone. -/
theorem C99_succeeds (hf : ∀ files ∈ roots, ∀ f ∈ files, f.WF) : (∃ out errs, generateFrom h E σ τ ρ roots = some (.ok (out, errs))) ↔ ∀ files ∈ roots, ∃ part, Alone h E files part := by
  rw [run_iff hf]
  refine forall_congr' fun files => forall_congr' fun hm => ?_
  have hone : ∀ g ∈ [files], ∀ f ∈ g, f.WF := fun g hg => by rw [List.mem_singleton.1 hg]; exact hf files hm
  constructor
  · intro hx
    obtain ⟨part, errs, hp⟩ := (run_iff (σ := σ) (τ := τ) (ρ := ρ) hone).2 fun g hg => by rw [List.mem_singleton.1 hg]; exact hx
    exact ⟨part, _, _, _, errs, hp⟩
  · rintro ⟨part, σ', τ', ρ', errs, hp⟩
    exact (run_iff hone).1 ⟨part, errs, hp⟩ files (List.mem_singleton.2 rfl)

/-! ## The names of the objects -/

theorem object_named {ρ : Sched} {rs : List Root} {out : List (String × List Obj)} (ho : generate ρ rs = .ok out) {b : Bool} {o : Obj} (hm : o ∈ objectsOf (kindName b) out) :
    o.name = objectName rs b (if b then "mutating-webhook-configuration" else "validating-webhook-configuration") := by
  obtain ⟨-, mws, vws, -, -, -, -, rfl⟩ := generate_ok.1 ho
  unfold objectsOf files objects kindName at hm
  cases b
  · by_cases ha : mws = [] <;> by_cases hb : vws = [] <;> simp [ha, hb] at hm <;> rw [hm] <;> rfl
  · by_cases ha : mws = [] <;> by_cases hb : vws = [] <;> simp [ha, hb] at hm <;> rw [hm] <;> rfl

theorem objectName_of {rs : List Root} {b : Bool} {dflt : String} {l : List WebhookConfig} (hl : l.length ≤ 1) (hin : ∀ w, w ∈ (rs.flatMap (·.webhookCfgs)).filter (fun w => w.mutating = b) ↔ w ∈ l) :
    objectName rs b dflt = match l with | [] => dflt | w :: _ => orDefault w.name dflt := by
  unfold objectName
  cases hg : ((rs.flatMap (·.webhookCfgs)).filter (fun w => w.mutating = b)).getLast? with
  | none =>
    rw [List.getLast?_eq_none_iff] at hg
    cases l with
    | nil => rfl
    | cons w _ =>
      have := (hin w).2 (by simp)
      rw [hg] at this; cases this
  | some w =>
    have := (hin w).1 (List.mem_of_getLast? hg)
    cases l with
    | nil => cases this
    | cons w' l' =>
      cases l' with
      | nil => rw [List.mem_singleton.1 this]
      | cons => simp at hl

/-- **C99** (names; guarded).  If no other package has a comment that names the object of a kind, then the object has the name that it has for the package alone. -/
theorem C99_name_partial (hh : Shipped.history gs = some h) (hg : "webhook" ∈ gs) (hf : ∀ files ∈ roots, ∀ f ∈ files, f.WF) (hw : WellWritten E roots)
    (hr : generateFrom h E σ τ ρ roots = some (.ok (out, errs))) {files : List File} (hm : files ∈ roots) {part : List (String × List Obj)} (ha : Alone h E files part) (b : Bool)
    (hother : ∀ files' ∈ roots, files' ≠ files → ¬ Names E b files') {o o' : Obj} (ho : o ∈ objectsOf (kindName b) out) (ho' : o' ∈ objectsOf (kindName b) part) : o.name = o'.name := by
  obtain ⟨rs, hrs, hgen, -⟩ := generateFrom_ok hr
  obtain ⟨_, _, ρ', r', hr', hgen'⟩ := alone_root ha
  rw [object_named hgen ho, object_named hgen' ho']
  have hnd := ((C08_accepts_iff ρ' _).1 ⟨part, hgen'⟩ r'.1 (List.mem_singleton.2 rfl)).1 b
  rw [objectName_of (l := r'.1.webhookCfgs.filter fun w => w.mutating = b) hnd (rs := [r'.1]) (fun w => by simp), objectName_of (l := r'.1.webhookCfgs.filter fun w => w.mutating = b) hnd (rs := rs.map (·.1)) fun w => ?_]
  simp only [List.mem_filter, List.mem_flatMap, List.mem_map]
  constructor
  · rintro ⟨⟨_, ⟨r, hrm, rfl⟩, hwm⟩, hb⟩
    obtain ⟨files', hm', j, hj⟩ := (allRoots_zip hrs).exists_left hrm
    by_cases e : files' = files
    · subst e
      exact ⟨(rootOf_perm (hf _ hm') hj hr').2.2.mem_iff.1 hwm, hb⟩
    · refine absurd ?_ (hother files' hm' e)
      obtain ⟨r, err⟩ := r
      have hpk := rootOf_spec hh hg (hf files' hm') (fun f hff => hw files' hm' f hff) hj
      cases err with
      | true => simp only [Package, if_true] at hpk; subst hpk; cases hwm
      | false =>
        simp only [Package, Bool.false_eq_true, if_false] at hpk
        obtain ⟨f, hff, c, hc, hask⟩ := collects_sound hpk.2 hwm
        exact ⟨f, hff, c, hc, w, hask, by simpa using hb⟩
  · rintro ⟨hwm, hb⟩
    obtain ⟨r, hrm, j, hj⟩ := (allRoots_zip hrs).exists_right hm
    exact ⟨⟨_, ⟨r, hrm, rfl⟩, (rootOf_perm (hf _ hm) hj hr').2.2.mem_iff.2 hwm⟩, hb⟩
end

end Verif.Webhook

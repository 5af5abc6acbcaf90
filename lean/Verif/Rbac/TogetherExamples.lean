import Verif.Rbac.TogetherTheorems
import Verif.Rbac.SourceExamples
/-!
# C98: concrete cases, and what does not hold
-/
namespace Verif.Rbac.TogetherCase
open Verif Verif.Markers Verif.Markers.Source Verif.Markers.Spec Verif.Markers.Collect Verif.Markers.Doc Spec SourceExamples
open Verif.Markers.Collect.Examples (c other fileWF)

/-! ## Two packages, each with one of the markers of C81 -/

def fileP : File where
  groups := [⟨20, [pods]⟩]
  node := { id := 0, kind := .file, pos := 0, «end» := 250 }
  children := [.node (other 1 8 11) []]

def fileH : File where
  groups := [⟨140, [health]⟩]
  node := { id := 0, kind := .file, pos := 0, «end» := 250 }
  children := [.node (other 1 8 11) []]

theorem wfP : fileP.WF := fileWF (by decide +kernel) (by decide +kernel) (by decide +kernel) (by decide +kernel) (by decide +kernel) (by decide +kernel) rfl (by decide +kernel)
theorem wfH : fileH.WF := fileWF (by decide +kernel) (by decide +kernel) (by decide +kernel) (by decide +kernel) (by decide +kernel) (by decide +kernel) rfl (by decide +kernel)

theorem marks_one {g : Group} {x y : Comment} {f : File} (hg : f.groups = [g]) (hc : g.comments = [y]) (h : f.Marks x) : x = y := by
  obtain ⟨g', hg', hx, -⟩ := h
  rw [hg, List.mem_singleton] at hg'
  subst hg'
  rw [hc] at hx
  exact List.mem_singleton.1 hx

abbrev both : List (List File) := [[fileH], [fileP]]

theorem all_files {P : File → Prop} (h : P fileH) (h' : P fileP) : ∀ files ∈ both, ∀ f ∈ files, P f := by
  intro files hf f hff
  simp only [List.mem_cons, List.not_mem_nil, or_false] at hf
  rcases hf with rfl | rfl <;> rw [List.mem_singleton] at hff <;> subst hff <;> assumption

theorem asked_both {E : Env} {m : Rule} (h : AskedFor E both m) : m = podsRule ∨ m = healthRule := by
  obtain ⟨files, hf, f, hff, x, hx, ha⟩ := h
  refine all_files (P := fun f => f.Marks x → m = podsRule ∨ m = healthRule) (fun hx => ?_) (fun hx => ?_) files hf f hff hx
  · obtain rfl := marks_one rfl rfl hx; exact .inr (asked_unique ha (asks_health E))
  · obtain rfl := marks_one rfl rfl hx; exact .inl (asked_unique ha (asks_pods E))

theorem written_both (E : Env) : WellWritten E both := fun files hf f hff x hx _ =>
  all_files (P := fun f => f.Marks x → ∃ m, Asks E x m) (fun hx => by obtain rfl := marks_one rfl rfl hx; exact ⟨_, asks_health E⟩) (fun hx => by obtain rfl := marks_one rfl rfl hx; exact ⟨_, asks_pods E⟩) files hf f hff hx

theorem ran_one : ((Shipped.history ["rbac"]).bind fun h => rolesFrom h exEnv (fun _ _ => Sched.fifo) (fun _ => Sched.fifo) (fun _ => Sched.fifo) Sched.fifo "one" [[fileP]]) =
    some ([.clusterRole "one" [⟨["", "apps"], ["get", "list"], ["pods"], [], []⟩]], [false]) := by decide +kernel
theorem ran_both : ((Shipped.history ["rbac"]).bind fun h => rolesFrom h exEnv (fun _ _ => Sched.lifo) (fun _ => Sched.lifo) (fun _ => Sched.lifo) Sched.lifo "all" both) =
    some ([.clusterRole "all" [⟨["", "apps"], ["get", "list"], ["pods"], [], []⟩], .role "all" "prod" [⟨[], ["get"], [], [], ["/healthz"]⟩]], [false, false]) := by decide +kernel
theorem ran_other : ((Shipped.history ["rbac"]).bind fun h => rolesFrom h exEnv (fun _ _ => Sched.fifo) (fun _ => Sched.fifo) (fun _ => Sched.fifo) Sched.fifo "all" [[fileP], [fileH], [fileP]]) =
    some ([.clusterRole "all" [⟨["", "apps"], ["get", "list"], ["pods"], [], []⟩], .role "all" "prod" [⟨[], ["get"], [], [], ["/healthz"]⟩]], [false, false, false]) := by decide +kernel

/-- The hypotheses of `C98_monotone_partial` are met by the run over one of the packages and the run over both of them: a request that the first one grants. -/
example : ∃ h σ₂ τ₂ σ₂' τ₂' objs₂ errs₂, Shipped.history ["rbac"] = some h ∧ rolesFrom h exEnv σ₂ τ₂ σ₂' τ₂' "all" both = some (objs₂, errs₂) ∧ Granted objs₂ "" (.resource "list" "apps" "pods" "" "x") := by
  obtain ⟨h, hh, h1⟩ := Option.bind_eq_some_iff.1 ran_one
  obtain ⟨h', hh', h2⟩ := Option.bind_eq_some_iff.1 ran_both
  rw [hh] at hh'
  cases hh'
  refine ⟨h, _, _, _, _, _, _, hh, h2, ?_⟩
  refine C98_monotone_partial hh (by simp) (all_files wfH wfP) (written_both _) ?_ ?_ ?_ h1 h2 (by simp) ⟨⟨["", "apps"], ["get", "list"], ["pods"], [], []⟩, by simp [grantedRules], by decide⟩
  · intro m hm; rcases asked_both hm with rfl | rfl <;> decide +kernel
  · intro m hm; rcases asked_both hm with rfl | rfl <;> decide +kernel
  · intro m₁ m₂ hm hm'; rcases asked_both hm with rfl | rfl <;> rcases asked_both hm' with rfl | rfl <;> decide +kernel

/-- Those of `C98_order_partial` and `C98_split_partial`, too. -/
example : ∃ h objs errs objs₂ errs₂, Shipped.history ["rbac"] = some h ∧ rolesFrom h exEnv (fun _ _ => Sched.lifo) (fun _ => Sched.lifo) (fun _ => Sched.lifo) Sched.lifo "all" both = some (objs, errs) ∧
    rolesFrom h exEnv (fun _ _ => Sched.fifo) (fun _ => Sched.fifo) (fun _ => Sched.fifo) Sched.fifo "all" [[fileP], [fileH], [fileP]] = some (objs₂, errs₂) ∧ objs = objs₂ ∧ objs.length = 2 ∧
    ∃ files ∈ both, ∀ objs errs, rolesFrom h exEnv (fun _ _ => Sched.fifo) (fun _ => Sched.fifo) (fun _ => Sched.fifo) Sched.fifo "part" [files] = some (objs, errs) → Granted objs "prod" (.url "get" "/healthz") := by
  obtain ⟨h, hh, h1⟩ := Option.bind_eq_some_iff.1 ran_both
  obtain ⟨h', hh', h2⟩ := Option.bind_eq_some_iff.1 ran_other
  rw [hh] at hh'
  cases hh'
  have g1 : ∀ m, AskedFor exEnv both m → CleanMarker m := by intro m hm; rcases asked_both hm with rfl | rfl <;> decide +kernel
  have g2 : ∀ m, AskedFor exEnv both m → ValidShape m := by intro m hm; rcases asked_both hm with rfl | rfl <;> decide +kernel
  have g3 : ∀ m₁ m₂, AskedFor exEnv both m₁ → AskedFor exEnv both m₂ → NoOverlap [m₁, m₂] := by
    intro m₁ m₂ hm hm'; rcases asked_both hm with rfl | rfl <;> rcases asked_both hm' with rfl | rfl <;> decide +kernel
  refine ⟨h, _, _, _, _, hh, h1, h2, C98_order_partial hh (by simp) (all_files wfH wfP) (written_both _) g1 g2 g3 h1 h2 (fun x => ?_), rfl, ?_⟩
  · simp only [both, List.mem_cons, List.not_mem_nil, or_false]
    constructor
    · rintro (h | h) <;> simp [h]
    · rintro (h | h | h) <;> simp [h]
  · obtain ⟨files, hf, hall⟩ := C98_split_partial (ns := "prod") (q := .url "get" "/healthz") hh (by simp) (all_files wfH wfP) (written_both _) g1 g2 g3 h1 ⟨⟨[], ["get"], [], [], ["/healthz"]⟩, by simp [grantedRules], by decide⟩
    exact ⟨files, hf, fun objs errs h => hall h⟩

/-! ## What does not hold

    package one                                              package two

    // +kubebuilder:rbac:groups=a,resources=pods,verbs=get   // +kubebuilder:rbac:groups=a;b,resources=pods,verbs=list
    // +kubebuilder:rbac:groups=b,resources=pods,verbs=get
-/

def one : File where
  groups := [⟨20, [c 20 "// +kubebuilder:rbac:groups=a,resources=pods,verbs=get", c 80 "// +kubebuilder:rbac:groups=b,resources=pods,verbs=get"]⟩]
  node := { id := 0, kind := .file, pos := 0, «end» := 250 }
  children := [.node (other 1 8 11) []]

def two : File where
  groups := [⟨20, [c 20 "// +kubebuilder:rbac:groups=a;b,resources=pods,verbs=list"]⟩]
  node := { id := 0, kind := .file, pos := 0, «end» := 250 }
  children := [.node (other 1 8 11) []]

/-- **C98 does not hold** for packages whose markers overlap: the role for package `one` lets the program get pods of group `a`; the role for the packages `one` and `two` does not, although `two` only asks for more.
No error is recorded. -/
theorem C98_violated_overlap : one.WF ∧ two.WF ∧ ∃ h objs objs', Shipped.history ["rbac"] = some h ∧
    rolesFrom h exEnv (fun _ _ => Sched.fifo) (fun _ => Sched.fifo) (fun _ => Sched.fifo) Sched.fifo "manager" [[one]] = some (objs, [false]) ∧
    rolesFrom h exEnv (fun _ _ => Sched.fifo) (fun _ => Sched.fifo) (fun _ => Sched.fifo) Sched.fifo "manager" [[one], [two]] = some (objs', [false, false]) ∧
    Granted objs "" (.resource "get" "a" "pods" "" "x") ∧ ¬ Granted objs' "" (.resource "get" "a" "pods" "" "x") := by
  have r1 : ((Shipped.history ["rbac"]).bind fun h => rolesFrom h exEnv (fun _ _ => Sched.fifo) (fun _ => Sched.fifo) (fun _ => Sched.fifo) Sched.fifo "manager" [[one]]) =
    some ([.clusterRole "manager" [⟨["a", "b"], ["get"], ["pods"], [], []⟩]], [false]) := by decide +kernel
  have r2 : ((Shipped.history ["rbac"]).bind fun h => rolesFrom h exEnv (fun _ _ => Sched.fifo) (fun _ => Sched.fifo) (fun _ => Sched.fifo) Sched.fifo "manager" [[one], [two]]) =
    some ([.clusterRole "manager" [⟨["a", "b"], ["list"], ["pods"], [], []⟩]], [false, false]) := by decide +kernel
  obtain ⟨h, hh, h1⟩ := Option.bind_eq_some_iff.1 r1
  obtain ⟨h', hh', h2⟩ := Option.bind_eq_some_iff.1 r2
  rw [hh] at hh'
  cases hh'
  refine ⟨fileWF (by decide +kernel) (by decide +kernel) (by decide +kernel) (by decide +kernel) (by decide +kernel) (by decide +kernel) rfl (by decide +kernel),
    fileWF (by decide +kernel) (by decide +kernel) (by decide +kernel) (by decide +kernel) (by decide +kernel) (by decide +kernel) rfl (by decide +kernel), h, _, _, hh, h1, h2,
    ⟨⟨["a", "b"], ["get"], ["pods"], [], []⟩, by simp [grantedRules], by decide⟩, ?_⟩
  rintro ⟨r, hr, hal⟩
  simp only [grantedRules, List.flatMap_cons, List.flatMap_nil, if_true, List.append_nil, List.mem_singleton] at hr
  subst hr
  exact absurd hal (by decide)

end Verif.Rbac.TogetherCase

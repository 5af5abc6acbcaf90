import Verif.Rbac.SourceTheorems
import Verif.Markers.CollectExamples
import Verif.Markers.ParseExamples
/-!
# C81: examples, and where the property does not hold
-/
namespace Verif.Rbac.SourceExamples
open Verif Verif.Markers Verif.Markers.Source Verif.Markers.Spec Verif.Markers.Collect Verif.Markers.Doc Spec
open Verif.Markers.Collect.Examples (c other fileWF)

/-! ## A file

    package foo

    // +kubebuilder:rbac:groups=core;apps,resources=pods,verbs=get;list

    // F reconciles
    func F() {}

    // +kubebuilder:rbac:urls={"/healthz"},verbs=get,namespace=prod

    type Foo int
-/

def pods : Comment := c 20 "// +kubebuilder:rbac:groups=core;apps,resources=pods,verbs=get;list"
def health : Comment := c 140 "//+kubebuilder:rbac:urls={\"/healthz\"},verbs=get,namespace=prod"

def file : File where
  groups := [⟨20, [pods]⟩, ⟨100, [c 100 "// F reconciles"]⟩, ⟨140, [health]⟩]
  node := { id := 0, kind := .file, pos := 0, «end» := 250 }
  children := [.node (other 1 8 11) [], .node { id := 2, kind := .other, pos := 120, «end» := 131, doc := some 100 } [.node (other 3 100 115) []],
    .node { id := 4, kind := .genDecl true false, pos := 220, «end» := 240 } [.node { id := 5, kind := .typeSpec, pos := 225, «end» := 240 } []]]

theorem file_wf : file.WF :=
  fileWF (by decide +kernel) (by decide +kernel) (by decide +kernel) (by decide +kernel) (by decide +kernel) (by decide +kernel) rfl (by decide +kernel)

theorem ident_of {t : List Char} (h : (match t with | [] => false | c :: _ => c.isAlpha || c = '_') = true) (h' : t.all (fun c => c.isAlphanum || c = '_') = true) : Ident t := by
  refine ⟨?_, fun c hc => ?_⟩
  · cases t with
    | nil => cases h
    | cons c r => exact ⟨c, r, rfl, by simpa using h⟩
  · simpa using List.all_eq_true.1 h' c hc

theorem word {E : Env} {s : String} (h : Ident s.toList) (h1 : s.toList ≠ "true".toList) (h2 : s.toList ≠ "false".toList) : ShowsScalar E .str (.str s.toList) s.toList :=
  .typed (by simp [Scalar]) (.str (.word h h1 h2))

def podsRule : Rule := ⟨["core", "apps"], ["pods"], [], ["get", "list"], [], ""⟩
def healthRule : Rule := ⟨[], [], [], ["get"], ["/healthz"], "prod"⟩

theorem asks_pods (E : Env) : Asks E pods podsRule := by
  refine ⟨[("groups".toList, .slice [.str "core".toList, .str "apps".toList]), ("resources".toList, .slice [.str "pods".toList]), ("verbs".toList, .slice [.str "get".toList, .str "list".toList])],
    ⟨"groups=core;apps,resources=pods,verbs=get;list".toList, by decide +kernel, ?_, by decide, by decide⟩, ?_⟩
  · have h3 : ShowsArgs E arguments [("verbs".toList, .slice [.str "get".toList, .str "list".toList])] ("verbs".toList ++ '=' :: ("get".toList ++ ';' :: "list".toList)) :=
      .one (f := ⟨"verbs".toList, .slice .str, false⟩) (by simp [arguments]) (ident_of (by decide) (by decide))
        (.list (.cons (word (ident_of (by decide) (by decide)) (by decide) (by decide)) (.one (word (ident_of (by decide) (by decide)) (by decide) (by decide)))) (by decide))
    have h2 := ShowsArgs.cons (E := E) (d := arguments) (f := ⟨"resources".toList, .slice .str, true⟩) (w := []) (by simp [arguments]) (ident_of (by decide) (by decide))
        (.list (.one (word (s := "pods") (ident_of (by decide) (by decide)) (by decide) (by decide))) (by decide)) (by decide) h3
    have h1 := ShowsArgs.cons (E := E) (d := arguments) (f := ⟨"groups".toList, .slice .str, true⟩) (w := []) (by simp [arguments]) (ident_of (by decide) (by decide))
        (.list (.cons (word (s := "core") (ident_of (by decide) (by decide)) (by decide) (by decide)) (.one (word (s := "apps") (ident_of (by decide) (by decide)) (by decide) (by decide)))) (by decide)) (by decide) h2
    have e : "groups=core;apps,resources=pods,verbs=get;list".toList = "groups".toList ++ '=' :: ("core".toList ++ ';' :: "apps".toList) ++ ',' :: ([] ++ ("resources".toList ++ '=' :: "pods".toList ++ ',' :: ([] ++
      ("verbs".toList ++ '=' :: ("get".toList ++ ';' :: "list".toList))))) := by decide +kernel
    rw [e]; exact h1
  · refine ⟨.inl ?_, .inl ?_, .inr ?_, .inl ?_, .inr ?_, .inr ?_⟩ <;> decide +kernel

theorem asks_health (E : Env) : Asks E health healthRule := by
  refine ⟨[("urls".toList, .slice [.str "/healthz".toList]), ("verbs".toList, .slice [.str "get".toList]), ("namespace".toList, .str "prod".toList)],
    ⟨"urls={\"/healthz\"},verbs=get,namespace=prod".toList, by decide +kernel, ?_, by decide, by decide⟩, ?_⟩
  · have h3 : ShowsArgs E arguments [("namespace".toList, .str "prod".toList)] ("namespace".toList ++ '=' :: "prod".toList) :=
      .one (f := ⟨"namespace".toList, .str, true⟩) (by simp [arguments]) (ident_of (by decide) (by decide)) (.value (.str (.word (ident_of (by decide) (by decide)) (by decide) (by decide))))
    have h2 := ShowsArgs.cons (E := E) (d := arguments) (f := ⟨"verbs".toList, .slice .str, false⟩) (w := []) (by simp [arguments]) (ident_of (by decide) (by decide))
        (.list (.one (word (s := "get") (ident_of (by decide) (by decide)) (by decide) (by decide))) (by decide)) (by decide) h3
    have h1 := ShowsArgs.cons (E := E) (d := arguments) (f := ⟨"urls".toList, .slice .str, true⟩) (w := []) (by simp [arguments]) (ident_of (by decide) (by decide))
        (.value (.slice (self := false) (vs := [.str "/healthz".toList]) (by simp) (.one (w := []) (by decide) (.str .quoted)))) (by decide) h2
    have e : "urls={\"/healthz\"},verbs=get,namespace=prod".toList = "urls".toList ++ '=' :: ('{' :: ([] ++ quoted "/healthz".toList ++ ['}'])) ++ ',' :: ([] ++ ("verbs".toList ++ '=' :: "get".toList ++ ',' :: ([] ++
      ("namespace".toList ++ '=' :: "prod".toList)))) := by decide +kernel
    rw [e]; exact h1
  · refine ⟨.inr ?_, .inr ?_, .inr ?_, .inl ?_, .inl ?_, .inl ?_⟩ <;> decide +kernel

/-! ## Its comments are placed -/

theorem carries_mem {evs a : List Event} {n k : Node} (h : Carries evs a n k) : (∃ q, .enter k q ∈ evs) ∧ ∃ q, .enter n q ∈ evs := by
  obtain ⟨q, b, rfl, ⟨rfl, _⟩ | ⟨_, _, b1, q', b2, rfl, _⟩⟩ := h
  · exact ⟨⟨q, by simp⟩, ⟨q, by simp⟩⟩
  · exact ⟨⟨q, by simp⟩, ⟨q', by simp⟩⟩

/-- A check that a comment is placed, in a file without fields. -/
def placedB (f : File) (x : Comment) : Bool :=
  f.groups.all fun g => !g.comments.contains x || f.events.all fun e => match e with
    | .enter n _ => decide (n.line ≠ some g.pos) && decide (n.doc ≠ some g.pos) && (n.kind = .file || decide (¬ (n.pos ≤ g.pos ∧ g.pos < n.end))) && decide (n.kind ≠ .field)
    | .leave _ => true

theorem placedB_spec {f : File} {x : Comment} (h : placedB f x = true) : Placed f x := by
  intro g hg hx
  have h := List.all_eq_true.1 h g hg
  simp only [List.contains_eq_mem, hx, decide_true, Bool.not_true, Bool.false_or] at h
  have h' : ∀ n q, Event.enter n q ∈ f.events → n.line ≠ some g.pos ∧ n.doc ≠ some g.pos ∧ (n.kind = .file ∨ ¬ (n.pos ≤ g.pos ∧ g.pos < n.end)) ∧ n.kind ≠ .field := by
    intro n q hm
    have := List.all_eq_true.1 h _ hm
    simp only [Bool.and_eq_true, decide_eq_true_eq, Bool.or_eq_true, and_assoc] at this
    exact this
  refine ⟨?_, fun a n k hc => ?_⟩
  · rintro ⟨e, he, n, hn, hor⟩
    cases e with
    | leave m => cases hn
    | enter m q =>
      cases hn
      obtain ⟨h1, h2, h3, _⟩ := h' n q he
      rcases hor with h4 | ⟨h4, _⟩ | ⟨h4, h5⟩
      · exact h1 h4
      · exact h2 h4
      · rcases h3 with h3 | h3
        · exact h4 h3
        · exact h3 h5
  · obtain ⟨⟨q, h1⟩, ⟨q', h2⟩⟩ := carries_mem hc
    exact ⟨(h' k q h1).2.1, fun h3 => absurd h3 (h' n q' h2).2.2.2⟩

theorem placed_pods : Placed file pods := placedB_spec (by decide +kernel)
theorem placed_health : Placed file health := placedB_spec (by decide +kernel)

theorem marks_file {x : Comment} (h : file.Marks x) : x = pods ∨ x = health := by
  obtain ⟨g, hg, hx, hm⟩ := h
  simp only [file, List.mem_cons, List.not_mem_nil, or_false] at hg
  rcases hg with rfl | rfl | rfl
  · exact .inl (by simpa using hx)
  · simp only [List.mem_singleton] at hx
    subst hx
    revert hm; decide +kernel
  · exact .inr (by simpa using hx)

theorem asked_unique {E : Env} {x : Comment} {m m' : Rule} (h : Asks E x m) (h' : Asks E x m') : m = m' := by
  obtain ⟨hist, hh⟩ := C68_defined ["rbac"] (by decide)
  obtain ⟨vals, hr, rfl⟩ := ruleOf_asks h
  exact asks_unique hh (by simp) hr h'

theorem asked_file {E : Env} {m : Rule} (h : AskedFor E [[file]] m) : m = podsRule ∨ m = healthRule := by
  obtain ⟨files, hf, f, hff, x, hx, ha⟩ := h
  simp only [List.mem_singleton] at hf; subst hf
  simp only [List.mem_singleton] at hff; subst hff
  rcases marks_file hx with rfl | rfl
  · exact .inl (asked_unique ha (asks_pods E))
  · exact .inr (asked_unique ha (asks_health E))

theorem mark_pods : file.Marks pods := ⟨⟨20, [pods]⟩, by simp [file], by simp, by decide +kernel⟩
theorem mark_health : file.Marks health := ⟨⟨140, [health]⟩, by simp [file], by simp, by decide +kernel⟩

/-- The hypotheses of `C81_sound_partial` and `C81_complete_partial` hold of the file. -/
theorem file_ok (E : Env) : (∀ f ∈ [file], f.WF) ∧ WellWritten E [[file]] ∧ (∀ m, AskedFor E [[file]] m → CleanMarker m) ∧ (∀ m, AskedFor E [[file]] m → ValidShape m) ∧
    ∀ m₁ m₂, AskedFor E [[file]] m₁ → AskedFor E [[file]] m₂ → NoOverlap [m₁, m₂] := by
  refine ⟨fun f hf => by rw [List.mem_singleton.1 hf]; exact file_wf, ?_, ?_, ?_, ?_⟩
  · intro files hf f hff x hx _
    rw [List.mem_singleton] at hf; subst hf
    rw [List.mem_singleton] at hff; subst hff
    rcases marks_file hx with rfl | rfl
    · exact ⟨_, asks_pods E⟩
    · exact ⟨_, asks_health E⟩
  · intro m h; rcases asked_file h with rfl | rfl <;> decide +kernel
  · intro m h; rcases asked_file h with rfl | rfl <;> decide +kernel
  · intro m₁ m₂ h h'; rcases asked_file h with rfl | rfl <;> rcases asked_file h' with rfl | rfl <;> decide +kernel

/-- What is generated for it. -/
theorem file_roles : ((Shipped.history ["rbac"]).bind fun h => rolesFrom h exEnv (fun _ _ => Sched.fifo) (fun _ => Sched.lifo) (fun _ => Sched.lifo) Sched.fifo "manager" [[file]]) =
    some ([.clusterRole "manager" [⟨["", "apps"], ["get", "list"], ["pods"], [], []⟩], .role "manager" "prod" [⟨[], ["get"], [], [], ["/healthz"]⟩]], [false]) := by decide +kernel

/-! ## A marker in the documentation of a function

    package foo

    // F reconciles
    // +kubebuilder:rbac:groups=core;apps,resources=pods,verbs=get;list
    func F() {}
-/

def file2 : File where
  groups := [⟨20, [c 20 "// F reconciles", { pods with pos := 36 }]⟩]
  node := { id := 0, kind := .file, pos := 0, «end» := 250 }
  children := [.node (other 1 8 11) [], .node { id := 2, kind := .other, pos := 120, «end» := 131, doc := some 20 } [.node (other 3 20 115) []]]

theorem file2_wf : file2.WF :=
  fileWF (by decide +kernel) (by decide +kernel) (by decide +kernel) (by decide +kernel) (by decide +kernel) (by decide +kernel) rfl (by decide +kernel)

theorem asks2 (E : Env) : Asks E { pods with pos := 36 } podsRule := asks_pods E

/-- **C81 fails** of the code for a marker in the documentation of a function: it is written as it should be, no error is recorded, and nothing is generated. -/
theorem C81_violated : file2.WF ∧ (∃ x, file2.Marks x ∧ Asks exEnv x podsRule ∧ CleanMarker podsRule ∧ ValidShape podsRule) ∧
    ((Shipped.history ["rbac"]).bind fun h => rolesFrom h exEnv (fun _ _ => Sched.fifo) (fun _ => Sched.fifo) (fun _ => Sched.fifo) Sched.fifo "manager" [[file2]]) = some ([], [false]) :=
  ⟨file2_wf, ⟨{ pods with pos := 36 }, ⟨_, List.mem_singleton.2 rfl, List.mem_cons_of_mem _ (List.mem_singleton.2 rfl), by decide +kernel⟩, asks2 _, by decide +kernel, by decide +kernel⟩, by decide +kernel⟩

/-! ## A wrong marker of another generator

    package foo

    // +kubebuilder:rbac:groups=core;apps,resources=pods,verbs=get;list

    // +kubebuilder:webhook:mutating=maybe

    func F() {}
-/

def file3 : File where
  groups := [⟨20, [pods]⟩, ⟨100, [c 100 "// +kubebuilder:webhook:mutating=maybe"]⟩]
  node := { id := 0, kind := .file, pos := 0, «end» := 250 }
  children := [.node (other 1 8 11) [], .node { id := 2, kind := .other, pos := 150, «end» := 161 } []]

theorem file3_wf : file3.WF :=
  fileWF (by decide +kernel) (by decide +kernel) (by decide +kernel) (by decide +kernel) (by decide +kernel) (by decide +kernel) rfl (by decide +kernel)

/-- **C81** fails of the code for a package with a wrong marker of another generator: the permissions of the package are not granted, although those of another package are, so a role is written that lacks them.  (The
run fails: an error is recorded.) -/
theorem C81_violated_error : file3.WF ∧ Placed file3 pods ∧ Asks exEnv pods podsRule ∧
    ((Shipped.history ["rbac", "webhook"]).bind fun h => rolesFrom h exEnv (fun _ _ => Sched.fifo) (fun _ => Sched.fifo) (fun _ => Sched.fifo) Sched.fifo "manager"
      [[file3], [{ file with groups := [⟨140, [health]⟩], children := [] }]]) = some ([.role "manager" "prod" [⟨[], ["get"], [], [], ["/healthz"]⟩]], [true, false]) :=
  ⟨file3_wf, placedB_spec (by decide +kernel), asks_pods _, by decide +kernel⟩

end Verif.Rbac.SourceExamples

import Verif.Webhook.SourceTheorems
import Verif.Rbac.SourceExamples
/-!
# C84: examples, and where the property does not hold
-/
namespace Verif.Webhook.SourceExamples
open Verif Verif.Markers Verif.Markers.Source Verif.Markers.Spec Verif.Markers.Collect Verif.Markers.Doc Spec
open Verif.Markers.Collect.Examples (c other fileWF)
open Verif.Rbac.SourceExamples (ident_of word placedB placedB_spec)

/-! ## A file

    package foo

    // +kubebuilder:webhookconfiguration:mutating=true,name="conf"

    // F is called
    func F() {}

    // +kubebuilder:webhook:mutating=true,failurePolicy=fail,sideEffects=None,groups=core;apps,resources=pods,verbs=create,versions=v1,name="m.example.com",path="/mutate",admissionReviewVersions=v1

    type Foo int
-/

def hookText : String := "mutating=true,failurePolicy=fail,sideEffects=None,groups=core;apps,resources=pods,verbs=create,versions=v1,name=\"m.example.com\",path=\"/mutate\",admissionReviewVersions=v1"

def conf : Comment := c 20 "// +kubebuilder:webhookconfiguration:mutating=true,name=\"conf\""
def hook : Comment := c 140 ("// +kubebuilder:webhook:" ++ hookText)

def file : File where
  groups := [⟨20, [conf]⟩, ⟨100, [c 100 "// F is called"]⟩, ⟨140, [hook]⟩]
  node := { id := 0, kind := .file, pos := 0, «end» := 450 }
  children := [.node (other 1 8 11) [], .node { id := 2, kind := .other, pos := 120, «end» := 131, doc := some 100 } [.node (other 3 100 115) []],
    .node { id := 4, kind := .genDecl true false, pos := 420, «end» := 440 } [.node { id := 5, kind := .typeSpec, pos := 425, «end» := 440 } []]]

theorem file_wf : file.WF :=
  fileWF (by decide +kernel) (by decide +kernel) (by decide +kernel) (by decide +kernel) (by decide +kernel) (by decide +kernel) rfl (by decide +kernel)

def hookConfig : Config where
  mutating := true
  failurePolicy := "fail"
  matchPolicy := ""
  sideEffects := "None"
  timeoutSeconds := 0
  groups := ["core", "apps"]
  resources := ["pods"]
  verbs := ["create"]
  versions := ["v1"]
  name := "m.example.com"
  serviceName := ""
  serviceNamespace := ""
  path := "/mutate"
  servicePort := none
  webhookVersions := []
  admissionReviewVersions := ["v1"]
  reinvocationPolicy := ""
  url := ""

theorem acceptable : Acceptable hookConfig := ⟨.inl (by decide +kernel), by decide +kernel, by decide +kernel, by decide +kernel, .inl rfl, by decide +kernel⟩

theorem str_word {E : Env} {s : String} (h : Ident s.toList) (h1 : s.toList ≠ "true".toList) (h2 : s.toList ≠ "false".toList) : ShowsArg E .str (.str s.toList) s.toList := .value (.str (.word h h1 h2))
theorem str_quoted {E : Env} {s : String} : ShowsArg E .str (.str s.toList) (quoted s.toList) := .value (.str .quoted)
theorem arg_cons {E : Env} {d : Definition} (f : Field) {v : Value} {x y : Markers.Str} {vals : List (Markers.Str × Value)} (hf : f ∈ d.fields) (hi : Ident f.name) (hx : ShowsArg E f.arg v x) (hy : ShowsArgs E d vals y) :
    ShowsArgs E d ((f.name, v) :: vals) (f.name ++ '=' :: x ++ ',' :: y) := .cons (w := []) hf hi hx (by decide) hy

theorem one_word {E : Env} {s : String} (h : Ident s.toList) (h1 : s.toList ≠ "true".toList) (h2 : s.toList ≠ "false".toList) (h3 : s.toList.head? ≠ some '{') : ShowsArg E (.slice .str) (.slice [.str s.toList]) s.toList := .list (.one (word h h1 h2)) h3

theorem asks_hook (E : Env) : Asks E hook hookConfig := by
  refine ⟨[("mutating".toList, .bool true), ("failurePolicy".toList, .str "fail".toList), ("sideEffects".toList, .str "None".toList), ("groups".toList, .slice [.str "core".toList, .str "apps".toList]),
    ("resources".toList, .slice [.str "pods".toList]), ("verbs".toList, .slice [.str "create".toList]), ("versions".toList, .slice [.str "v1".toList]), ("name".toList, .str "m.example.com".toList),
    ("path".toList, .str "/mutate".toList), ("admissionReviewVersions".toList, .slice [.str "v1".toList])],
    ⟨hookText.toList, by decide +kernel, ?_, by decide, by decide⟩, ?_⟩
  · have h9 : ShowsArgs E arguments [("admissionReviewVersions".toList, .slice [.str "v1".toList])] ("admissionReviewVersions".toList ++ '=' :: "v1".toList) :=
      .one (f := ⟨"admissionReviewVersions".toList, .slice .str, false⟩) (by simp [arguments]) (ident_of (by decide) (by decide)) (one_word (ident_of (by decide) (by decide)) (by decide) (by decide) (by decide))
    have h8 := arg_cons ⟨"path".toList, .str, true⟩ (by simp [arguments]) (ident_of (by decide) (by decide)) (str_quoted (s := "/mutate")) h9
    have h7 := arg_cons ⟨"name".toList, .str, false⟩ (by simp [arguments]) (ident_of (by decide) (by decide)) (str_quoted (s := "m.example.com")) h8
    have h6 := arg_cons ⟨"versions".toList, .slice .str, false⟩ (by simp [arguments]) (ident_of (by decide) (by decide)) (one_word (s := "v1") (ident_of (by decide) (by decide)) (by decide) (by decide) (by decide)) h7
    have h5 := arg_cons ⟨"verbs".toList, .slice .str, false⟩ (by simp [arguments]) (ident_of (by decide) (by decide)) (one_word (s := "create") (ident_of (by decide) (by decide)) (by decide) (by decide) (by decide)) h6
    have h4 := arg_cons ⟨"resources".toList, .slice .str, false⟩ (by simp [arguments]) (ident_of (by decide) (by decide)) (one_word (s := "pods") (ident_of (by decide) (by decide)) (by decide) (by decide) (by decide)) h5
    have h3 := arg_cons ⟨"groups".toList, .slice .str, false⟩ (by simp [arguments]) (ident_of (by decide) (by decide))
      (.list (.cons (word (s := "core") (ident_of (by decide) (by decide)) (by decide) (by decide)) (.one (word (s := "apps") (ident_of (by decide) (by decide)) (by decide) (by decide)))) (by decide)) h4
    have h2 := arg_cons ⟨"sideEffects".toList, .str, true⟩ (by simp [arguments]) (ident_of (by decide) (by decide)) (str_word (s := "None") (ident_of (by decide) (by decide)) (by decide) (by decide)) h3
    have h1 := arg_cons ⟨"failurePolicy".toList, .str, false⟩ (by simp [arguments]) (ident_of (by decide) (by decide)) (str_word (s := "fail") (ident_of (by decide) (by decide)) (by decide) (by decide)) h2
    have h0 := arg_cons ⟨"mutating".toList, .bool, false⟩ (by simp [arguments]) (ident_of (by decide) (by decide)) (.value (.bool (b := true))) h1
    have e : hookText.toList = _ := (by decide +kernel : hookText.toList = "mutating".toList ++ '=' :: showBool true ++ ',' :: ("failurePolicy".toList ++ '=' :: "fail".toList ++ ',' :: ("sideEffects".toList ++ '=' :: "None".toList ++ ',' ::
      ("groups".toList ++ '=' :: ("core".toList ++ ';' :: "apps".toList) ++ ',' :: ("resources".toList ++ '=' :: "pods".toList ++ ',' :: ("verbs".toList ++ '=' :: "create".toList ++ ',' :: ("versions".toList ++ '=' :: "v1".toList ++ ',' ::
      ("name".toList ++ '=' :: quoted "m.example.com".toList ++ ',' :: ("path".toList ++ '=' :: quoted "/mutate".toList ++ ',' :: ("admissionReviewVersions".toList ++ '=' :: "v1".toList))))))))))
    rw [e]; exact h0
  · refine ⟨by decide +kernel, ⟨.inl ?_, .inr ?_, .inl ?_, .inl ?_, .inr ?_, .inr ?_, .inl ?_, .inr ?_, .inr ?_⟩, ⟨.inl ?_, .inl ?_, .inl ?_, .inl ?_, .inr ?_, .inl ?_⟩, ⟨none, ?_, rfl⟩, ?_⟩ <;>
      first | decide +kernel | (show _ ∉ _; decide +kernel)


def confConfig : WebhookConfig := ⟨true, "conf"⟩

theorem asks_conf (E : Env) : AsksName E conf confConfig := by
  refine ⟨[("mutating".toList, .bool true), ("name".toList, .str "conf".toList)], ⟨"mutating=true,name=\"conf\"".toList, by decide +kernel, ?_, by decide, by decide⟩, by decide +kernel, .inl (by decide +kernel)⟩
  have h1 : ShowsArgs E configArguments [("name".toList, .str "conf".toList)] ("name".toList ++ '=' :: quoted "conf".toList) :=
    .one (f := ⟨"name".toList, .str, true⟩) (by simp [configArguments]) (ident_of (by decide) (by decide)) str_quoted
  have h0 := arg_cons ⟨"mutating".toList, .bool, false⟩ (by simp [configArguments]) (ident_of (by decide) (by decide)) (.value (.bool (b := true))) h1
  have e : "mutating=true,name=\"conf\"".toList = "mutating".toList ++ '=' :: showBool true ++ ',' :: ("name".toList ++ '=' :: quoted "conf".toList) := by decide +kernel
  rw [e]; exact h0

theorem marks_file {x : Comment} (h : file.Marks x) : x = conf ∨ x = hook := by
  obtain ⟨g, hg, hx, hm⟩ := h
  simp only [file, List.mem_cons, List.not_mem_nil, or_false] at hg
  rcases hg with rfl | rfl | rfl
  · exact .inl (by simpa using hx)
  · simp only [List.mem_singleton] at hx
    subst hx
    revert hm; decide +kernel
  · exact .inr (by simpa using hx)

theorem mark_hook : file.Marks hook := ⟨⟨140, [hook]⟩, by simp [file], by simp, by decide +kernel⟩
theorem placed_hook : Placed file hook := placedB_spec (by decide +kernel)

theorem well_written (E : Env) : WellWritten E [[file]] := by
  intro files hf f hff x hx _
  rw [List.mem_singleton] at hf; subst hf
  rw [List.mem_singleton] at hff; subst hff
  rcases marks_file hx with rfl | rfl
  · exact .inr ⟨_, asks_conf E⟩
  · exact .inl ⟨_, asks_hook E⟩

theorem apart {E : Env} {x : Comment} {w : Config} {w' : WebhookConfig} (h : Asks E x w) (h' : AsksName E x w') : False := by
  obtain ⟨hist, hh⟩ := C68_defined ["webhook"] (by decide)
  obtain ⟨_, hr, _⟩ := configOf_asks h
  obtain ⟨_, hr', _⟩ := webhookConfigOf_asks h'
  exact reads_apart hh (by simp) hr hr'

theorem asks_unique {E : Env} {x : Comment} {w w' : Config} (h : Asks E x w) (h' : Asks E x w') : w = w' := by
  obtain ⟨hist, hh⟩ := C68_defined ["webhook"] (by decide)
  obtain ⟨d, hd, hp⟩ := hook_parser
  obtain ⟨_, hr, rfl⟩ := configOf_asks h
  obtain ⟨_, hr', rfl⟩ := configOf_asks h'
  rw [← hp] at hr hr'
  rw [reads_unique hh (by simp) hook_mem rfl hd hr hr']

/-- The hypotheses of the theorems hold of the file. -/
theorem file_ok (E : Env) : (∀ files ∈ [[file]], ∀ f ∈ files, f.WF) ∧ WellWritten E [[file]] ∧ (∀ files ∈ [[file]], ∀ f ∈ files, ∀ c, f.Marks c → ∀ m, Asks E c m → Acceptable m) ∧
    (∀ files ∈ [[file]], ∀ (i j : Nat) f g, files[i]? = some f → files[j]? = some g → ∀ c c', f.Marks c → g.Marks c' → ∀ w w', AsksName E c w → AsksName E c' w' → w.mutating = w'.mutating → i = j ∧ c = c') := by
  refine ⟨?_, well_written E, ?_, ?_⟩
  · intro files hf f hff
    rw [List.mem_singleton] at hf; subst hf
    rw [List.mem_singleton] at hff; subst hff
    exact file_wf
  · intro files hf f hff x hx m ha
    rw [List.mem_singleton] at hf; subst hf
    rw [List.mem_singleton] at hff; subst hff
    rcases marks_file hx with rfl | rfl
    · exact (apart ha (asks_conf E)).elim
    · rw [asks_unique ha (asks_hook E)]
      exact acceptable
  · intro files hf i j f g hi hj x x' hx hx' w w' ha ha' _
    rw [List.mem_singleton] at hf; subst hf
    have h1 : ∀ {k : Nat} {f : File}, [file][k]? = some f → k = 0 ∧ f = file := by
      intro k f hk
      cases k with
      | zero => exact ⟨rfl, by simpa using hk.symm⟩
      | succ k => simp at hk
    obtain ⟨rfl, rfl⟩ := h1 hi
    obtain ⟨rfl, rfl⟩ := h1 hj
    refine ⟨rfl, ?_⟩
    rcases marks_file hx with rfl | rfl
    · rcases marks_file hx' with rfl | rfl
      · rfl
      · exact (apart (asks_hook E) ha').elim
    · exact (apart (asks_hook E) ha).elim

/-- What is generated for it. -/
def file_output : List String × List String × List String × List Bool :=
  match (Shipped.history ["webhook"]).bind fun h => generateFrom h exEnv (fun _ _ => Sched.fifo) (fun _ => Sched.lifo) Sched.lifo [[file]] with
    | some (.ok (out, errs)) => (out.map (·.1), out.flatMap fun f => f.2.flatMap fun o => [o.kind, o.name], (webhooksOf out).map (·.name), errs)
    | _ => ([], [], [], [])

theorem file_generated : file_output = (["manifests.yaml"], ["MutatingWebhookConfiguration", "conf"], ["m.example.com"], [false]) := by decide +kernel

/-! ## A marker in the documentation of a function

    package foo

    // F is called
    // +kubebuilder:webhook:mutating=true,…
    func F() {}
-/

def file2 : File where
  groups := [⟨20, [c 20 "// F is called", { hook with pos := 36 }]⟩]
  node := { id := 0, kind := .file, pos := 0, «end» := 450 }
  children := [.node (other 1 8 11) [], .node { id := 2, kind := .other, pos := 320, «end» := 331, doc := some 20 } [.node (other 3 20 315) []]]

theorem file2_wf : file2.WF :=
  fileWF (by decide +kernel) (by decide +kernel) (by decide +kernel) (by decide +kernel) (by decide +kernel) (by decide +kernel) rfl (by decide +kernel)

theorem asks_pos {E : Env} {x : Comment} (p : Nat) {w : Config} (h : Asks E x w) : Asks E { x with pos := p } w := h

/-- The marker in the documentation. -/
def hook2 : Comment := { hook with pos := 36 }

theorem mark_hook2 : file2.Marks hook2 := ⟨⟨20, [c 20 "// F is called", hook2]⟩, List.mem_singleton.2 rfl, List.mem_cons_of_mem _ List.mem_cons_self, by decide +kernel⟩

/-- **C84 fails** of the code for a marker in the documentation of a function: it is written as it should be, no error is recorded or returned, and nothing is generated. -/
theorem C84_violated : file2.WF ∧ (∃ x, file2.Marks x ∧ Asks exEnv x hookConfig ∧ Acceptable hookConfig) ∧
    (match (Shipped.history ["webhook"]).bind fun h => generateFrom h exEnv (fun _ _ => Sched.fifo) (fun _ => Sched.fifo) Sched.fifo [[file2]] with
      | some (.ok (out, errs)) => decide (out = [] ∧ errs = [false])
      | _ => false) = true :=
  ⟨file2_wf, ⟨hook2, mark_hook2, asks_pos 36 (asks_hook exEnv), acceptable⟩, by decide +kernel⟩

end Verif.Webhook.SourceExamples

import Verif.Genall.ArtifactsTheorems
import Verif.Genall.OptionTableTheorems
import Verif.CrdGen.EnforcedExamples
import Verif.DeepCopy.SourceExamples
/-!
# Runs that keep all their files, and runs that do not (C91)
-/
namespace Verif.Genall.ArtifactsCase
open Markers (Str)
open Loader (PkgErr)
open Spec ToolExample

/-! ## What four generators write -/

theorem crds_eq : CrdGen.SourceSample.st.crds.map (fun e => (e.1, e.2.group, e.2.names.plural)) = [(⟨"g.io", "Box"⟩, "g.io", "boxen")] := by decide +kernel

theorem mem_of_get {κ ν : Type} [DecidableEq κ] {k : κ} {v : ν} : ∀ {m : List (κ × ν)}, GoMap.get m k = some v → (k, v) ∈ m
  | [], h => by cases h
  | e :: m, h => by
    rw [GoMap.get] at h
    split at h
    · rename_i he; cases h; subst he; exact List.mem_cons_self
    · exact List.mem_cons_of_mem _ (mem_of_get h)

theorem crd_cases {gk : CrdGen.GroupKind} {crd : CrdGen.Crd} (h : GoMap.get CrdGen.SourceSample.st.crds gk = some crd) : gk = ⟨"g.io", "Box"⟩ ∧ crd.group = "g.io" ∧ crd.names.plural = "boxen" := by
  have h1 : (gk, crd.group, crd.names.plural) ∈ CrdGen.SourceSample.st.crds.map (fun e => (e.1, e.2.group, e.2.names.plural)) := List.mem_map.2 ⟨_, mem_of_get h, rfl⟩
  rw [crds_eq, List.mem_singleton] at h1
  simpa using h1

theorem made_crd (text : CrdGen.Crd → Str) : Made .crd (crdArtifacts text CrdGen.SourceSample.out) := by
  refine .crd text CrdGen.SourceSample.run_ok CrdGen.SourceSample.not_failed (fun gk hk hn => ?_) rfl (fun gk crd h => ?_) (fun gk gk' crd crd' h h' _ _ => ?_)
  · have h1 := ((CrdGen.C32_kinds CrdGen.SourceSample.S' .fifo ["v1"] _ CrdGen.SourceSample.meta_of).1 gk).2 hk
    rw [CrdGen.SourceSample.kinds_found, List.mem_singleton] at h1
    subst h1
    exact absurd hn (by
      have : (GoMap.get CrdGen.SourceSample.st.crds ⟨"g.io", "Box"⟩).isSome = true := by decide +kernel
      intro e; rw [e] at this; cases this)
  · obtain ⟨-, h2, h3⟩ := crd_cases h
    rw [h2, h3]
    decide +kernel
  · rw [(crd_cases h).1, (crd_cases h').1]

theorem crd_files : CrdGen.SourceSample.out.files.map (·.1) = ["g.io_boxen.yaml"] := by decide +kernel

/-- One marker of `rbac`. -/
def rule : Rbac.Rule := { groups := ["apps"], resources := ["deployments"], resourceNames := [], verbs := ["get"], urls := [], ns := "" }

def role (name : String) : List Rbac.RoleObj := Rbac.generateRoles (fun _ => .fifo) .fifo name [rule]

theorem roles (name : String) : Rbac.generate (fun _ => .fifo) .fifo name "" [rule] = some ("role.yaml", role name) := by
  unfold Rbac.generate
  have h : role name ≠ [] := by
    unfold role Rbac.generateRoles
    rw [show sortStrings (Sched.fifo.order 0 (Rbac.namespacesOf [rule])) = [""] by decide +kernel, List.filterMap_cons]
    have h1 : Rbac.normalizeRules .fifo (Rbac.rulesOf [rule] "") ≠ [] := by decide +kernel
    unfold Rbac.roleFor
    rw [if_neg h1, if_pos rfl]
    simp
  rw [show Rbac.generateRoles (fun _ => Sched.fifo) .fifo name [rule] = role name from rfl]
  simp only [if_neg h, if_pos]

def webhooks : List (String × List Webhook.Obj) := match Webhook.generate .fifo Webhook.sampleRoots with | .ok out => out | .error _ => []

theorem webhooks_ok : Webhook.generate .fifo Webhook.sampleRoots = .ok webhooks := by
  have h : (match Webhook.generate .fifo Webhook.sampleRoots with | .ok _ => true | .error _ => false) = true := by decide +kernel
  unfold webhooks
  split
  · rename_i e; exact e
  · rename_i e; rw [e] at h; cases h

theorem made_webhook (text : List Webhook.Obj → Str) : Made .webhook (webhookArtifacts text webhooks) := Made.webhook text webhooks_ok

/-- Two packages with types that need code. -/
def packages : List DeepCopy.Root := [DeepCopy.SourceExamples.root, { DeepCopy.SourceExamples.root with path := "example.com/v2" }]

def methods : List (String × List DeepCopy.Method) := [("Baz", [.deepCopyInto]), ("Foo", [.deepCopyInto, .deepCopy, .deepCopyObject])]

theorem packages_ok : ∃ hist, Markers.Shipped.history ["object"] = some hist ∧
    DeepCopy.generateAll hist Markers.exEnv DeepCopy.capital packages = some [("example.com/v1", methods), ("example.com/v2", methods)] := by
  obtain ⟨res, h1, h2⟩ := Option.map_eq_some_iff.1 DeepCopy.SourceExamples.generated
  obtain ⟨hist, h3, h4⟩ := Option.bind_eq_some_iff.1 h1
  obtain ⟨e, file⟩ := res
  obtain ⟨rfl, h5⟩ := Prod.mk.inj h2
  have h6 : DeepCopy.Root.generate hist Markers.exEnv DeepCopy.capital { DeepCopy.SourceExamples.root with path := "example.com/v2" } = some ⟨false, file⟩ := h4
  simp only at h5
  subst h5
  refine ⟨hist, h3, ?_⟩
  simp only [packages, DeepCopy.generateAll, h4, h6]
  rfl

/-- Their Go files. -/
def files (path : String) : List Str := if path = "example.com/v1" then ["/p/v1/types.go".toList, "/p/v1/more.go".toList] else ["/p/v2/types.go".toList]

theorem files_go (p : String) : ∀ f ∈ files p, ".go".toList <:+ f := by
  unfold files
  split <;> decide +kernel

variable (crdText : CrdGen.Crd → Str) (roleText : List Rbac.RoleObj → Str) (hookText : List Webhook.Obj → Str) (codeText : String → List (String × List DeepCopy.Method) → Str)

def rbacStep (name : String) : Step := ⟨.rbac, rbacArtifacts roleText (Rbac.generate (fun _ => .fifo) .fifo name "" [rule]), none⟩
def objectStep : Step := ⟨.object, objectArtifacts files codeText [("example.com/v1", methods), ("example.com/v2", methods)], none⟩

theorem made_rbac (name : String) : Made (rbacStep roleText name).tool (rbacStep roleText name).artifacts := .rbac _ _ _ _ _ _ (.inl rfl)
theorem made_object : Made (objectStep codeText).tool (objectStep codeText).artifacts := by
  obtain ⟨hist, -, h⟩ := packages_ok
  exact .object files codeText h files_go

/-- The rules of a command line. -/
def rulesOf (l : List String) : OutputRules :=
  match understood l with
  | some (.ok rt) => runtimeRules joinPath .fifo rt
  | _ => { default := some .nothing, byGenerator := [] }

/-! ## A run that keeps all -/

attribute [local irreducible] CrdGen.SourceSample.out webhooks

/-- All four, with one directory for configuration. -/
def steps : List Step :=
  [⟨.crd, crdArtifacts crdText CrdGen.SourceSample.out, none⟩, rbacStep roleText "manager", ⟨.webhook, webhookArtifacts hookText webhooks, none⟩, objectStep codeText]

def line : List String := ["crd", "rbac:roleName=manager", "webhook", "object", "output:artifacts:config=out", "paths=./..."]

theorem line_ok : understood line = some (.ok
    { paths := ["./...".toList], generators := [("crd".toList, []), ("rbac".toList, [("roleName".toList, .str "manager".toList)]), ("webhook".toList, []), ("object".toList, [])],
      rules := { default := some (.artifacts "out".toList []), byGenerator := [] }, generatorsByName := [("crd".toList, 0), ("rbac".toList, 1), ("webhook".toList, 2), ("object".toList, 3)] }) := by decide +kernel

theorem line_rules : rulesOf line = { default := some (.artifacts "out".toList []), byGenerator := [] } := by
  rw [rulesOf, line_ok]
  rfl

/-- The hypotheses of `C91_once_partial` hold of this run. -/
theorem keeps (errors : World → Nat → List PkgErr) (visited : World → List Nat) (w : World) {place : List Str} {text : Str}
    (h : Written ["p".toList] (rulesOf line) (steps crdText roleText hookText codeText) place text) :
    GoMap.get (run (rulesOf line) errors visited ((steps crdText roleText hookText codeText).map (Step.gen ["p".toList])) w).1.disk place = some text := by
  refine C91_once_partial _ _ (fun i => ?_) _ ?_ (by simp [steps, rbacStep, objectStep]) (fun i s hs ht => ?_) errors visited w h
  · rw [line_rules]; simp [OutputRules.forGenerator, GoMap.get]
  · intro s hs
    simp only [steps, List.mem_cons, List.not_mem_nil, or_false] at hs
    rcases hs with rfl | rfl | rfl | rfl
    · dsimp only; exact made_crd crdText
    · exact made_rbac roleText _
    · dsimp only; exact made_webhook hookText
    · exact made_object codeText
  · have h1 : (rulesOf line).forGenerator i = some (.artifacts "out".toList []) := by rw [line_rules]; simp [OutputRules.forGenerator, GoMap.get]
    refine ⟨fun d e => ?_, fun config code e => ?_, ?_⟩
    · rw [h1] at e; cases e
    · rw [h1] at e; cases e; rfl
    · have hs := List.mem_of_getElem? hs
      simp only [steps, List.mem_cons, List.not_mem_nil, or_false] at hs
      rcases hs with rfl | rfl | rfl | rfl
      · cases ht
      · cases ht
      · cases ht
      · simp only [objectStep, objectArtifacts, List.map_cons, List.map_nil, List.pairwise_cons, List.mem_singleton, List.not_mem_nil, false_implies, implies_true, List.Pairwise.nil, and_true]
        rintro b rfl fs f fs' f' h1 h2 h3 h4
        simp only [Option.some.injEq] at h1 h3
        subst h1; subst h3
        rw [show (files "example.com/v1").head? = some "/p/v1/types.go".toList by decide +kernel] at h2
        rw [show (files "example.com/v2").head? = some "/p/v2/types.go".toList by decide +kernel] at h4
        cases h2; cases h4
        decide +kernel

/-- The files that it is to write: five. -/
theorem kept_five (errors : World → Nat → List PkgErr) (visited : World → List Nat) (w : World) :
    let disk := (run (rulesOf line) errors visited ((steps crdText roleText hookText codeText).map (Step.gen ["p".toList])) w).1.disk
    (∃ crd, GoMap.get disk ["p".toList, "out".toList, "g.io_boxen.yaml".toList] = some (crdText crd)) ∧
    GoMap.get disk ["p".toList, "out".toList, "role.yaml".toList] = some (roleText (role "manager")) ∧
    (∃ objs, GoMap.get disk ["p".toList, "out".toList, "manifests.yaml".toList] = some (hookText objs)) ∧
    GoMap.get disk ["p".toList, "v1".toList, "zz_generated.deepcopy.go".toList] = some (codeText "example.com/v1" methods) ∧
    GoMap.get disk ["p".toList, "v2".toList, "zz_generated.deepcopy.go".toList] = some (codeText "example.com/v2" methods) := by
  have hr : ∀ i, (rulesOf line).forGenerator i = some (.artifacts "out".toList []) := fun i => by rw [line_rules]; simp [OutputRules.forGenerator, GoMap.get]
  have hout : locate ["p".toList] "out".toList = ["p".toList, "out".toList] := by decide +kernel
  obtain ⟨f, hf, hfn⟩ : ∃ f ∈ CrdGen.SourceSample.out.files, f.1 = "g.io_boxen.yaml" := by
    have : "g.io_boxen.yaml" ∈ CrdGen.SourceSample.out.files.map (·.1) := by rw [crd_files]; simp
    exact List.mem_map.1 this
  obtain ⟨g, hg, hgn⟩ : ∃ g ∈ webhooks, g.1 = "manifests.yaml" := by
    have : "manifests.yaml" ∈ webhooks.map (·.1) := by decide +kernel
    exact List.mem_map.1 this
  refine ⟨⟨f.2, keeps crdText roleText hookText codeText errors visited w ⟨0, _, _, ⟨none, f.1.toList, crdText f.2⟩, _, rfl, hr 0, List.mem_map.2 ⟨f, hf, rfl⟩, rfl, ?_, rfl⟩⟩,
    keeps crdText roleText hookText codeText errors visited w ⟨1, _, _, ⟨none, "role.yaml".toList, roleText (role "manager")⟩, _, rfl, hr 1, ?_, rfl, ?_, rfl⟩,
    ⟨g.2, keeps crdText roleText hookText codeText errors visited w ⟨2, _, _, ⟨none, g.1.toList, hookText g.2⟩, _, rfl, hr 2, List.mem_map.2 ⟨g, hg, rfl⟩, rfl, ?_, rfl⟩⟩,
    keeps crdText roleText hookText codeText errors visited w ⟨3, _, _, ⟨some (files "example.com/v1"), _, codeText "example.com/v1" methods⟩, _, rfl, hr 3, List.mem_cons_self, rfl, ?_, rfl⟩,
    keeps crdText roleText hookText codeText errors visited w ⟨3, _, _, ⟨some (files "example.com/v2"), _, codeText "example.com/v2" methods⟩, _, rfl, hr 3, List.mem_cons_of_mem _ List.mem_cons_self, rfl, ?_, rfl⟩⟩
  · simp only [hout, hfn]; rfl
  · simp [rbacStep, roles, rbacArtifacts]
  · simp only [hout]; rfl
  · simp only [hout, hgn]; rfl
  · dsimp only; decide +kernel
  · dsimp only; decide +kernel

/-! ## A command -/

theorem lookup_in {π : Type} {h : List (Markers.Def π)} {text : Str} {d : Markers.Def π} (hl : (Markers.Registry.after h).lookup text .package = some d) : d ∈ h := by
  have key : ∀ n, GoMap.get (Markers.tableOf (Markers.Registry.after h) .package) n = some d → d ∈ h := by
    intro n hg
    rcases Markers.after_get h n .package (.inl rfl) with ⟨d1, h1, -, -, -, b, a, rfl, -⟩ | ⟨h1, -⟩
    · rw [hg] at h1; cases h1; simp
    · rw [hg] at h1; cases h1
  rw [Markers.lookup_eq _ _ _ (.inl rfl)] at hl
  unfold Markers.tryAnonLookup at hl
  simp only at hl
  split at hl
  · rename_i d1 h1; cases hl; exact key _ h1
  · exact key _ hl

/-- A parser of options for which the generators are steps. -/
def parser (steps : Nat → Step) (n : Str) : Parser Step := fun raw =>
  match Example.parser n raw with
  | some (.generator g) => if n = "rbac".toList then some (.generator (steps 0)) else if n = "webhook".toList then some (.generator (steps 1)) else none
  | some (.rule r) => some (.rule r)
  | some (.paths ps) => some (.paths ps)
  | some .other => some .other
  | none => none

def two (n : Nat) : Step := if n = 0 then rbacStep (fun _ => "roles".toList) "a" else ⟨.webhook, webhookArtifacts (fun _ => "webhooks".toList) webhooks, none⟩

def command : List Str := ["webhook", "rbac:roleName=a", "output:dir=out"].map String.toList

theorem command_ok : ∃ rt, protoFromOptions (optionsRegistry (parser two)) .fifo command = .ok rt ∧ rt.generators = [two 1, two 0] ∧ rt.rules = ⟨some (.dir "out".toList), []⟩ := by
  have h : (match protoFromOptions (optionsRegistry (parser two)) .fifo command with
    | .ok rt => decide (rt.generators = [two 1, two 0] ∧ rt.rules = ⟨some (.dir "out".toList), []⟩)
    | _ => false) = true := by decide +kernel
  split at h
  · rename_i rt e
    exact ⟨rt, e, of_decide_eq_true h⟩
  · cases h

/-- The hypotheses of `C91_command_partial` hold of this command: both files are there. -/
example (errors : World → Nat → List PkgErr) (visited : World → List Nat) (w : World) : ∃ rt, protoFromOptions (optionsRegistry (parser two)) .fifo command = .ok rt ∧
    let disk := (run (runtimeRules joinPath .fifo rt) errors visited (rt.generators.map (Step.gen ["p".toList])) w).1.disk
    GoMap.get disk ["p".toList, "out".toList, "role.yaml".toList] = some "roles".toList ∧ GoMap.get disk ["p".toList, "out".toList, "manifests.yaml".toList] = some "webhooks".toList := by
  obtain ⟨rt, h1, h2, h3⟩ := command_ok
  have hr : ∀ i, (runtimeRules joinPath .fifo rt).forGenerator i = some (.dir "out".toList) := by
    intro i
    rw [runtimeRules, if_pos (by rw [h3]; simp), h3]
    rfl
  have hout : locate ["p".toList] "out".toList = ["p".toList, "out".toList] := by decide +kernel
  have key := fun place text hw => C91_command_partial (τ := .fifo) h1 (fun opt _ n s hm => ?_) ["p".toList] (fun s hs => ?_) (fun i s hs ht => ?_) errors visited w (place := place) (text := text) hw
  · refine ⟨rt, h1, key _ _ ⟨1, two 0, _, ⟨none, "role.yaml".toList, "roles".toList⟩, _, by rw [h2]; rfl, hr 1, ?_, rfl, by rw [hout]; rfl, rfl⟩,
      key _ _ ⟨0, two 1, _, ⟨none, "manifests.yaml".toList, "webhooks".toList⟩, _, by rw [h2]; rfl, hr 0, ?_, rfl, by rw [hout]; rfl, rfl⟩⟩
    · simp only [two, if_pos, rbacStep, roles, rbacArtifacts, Option.toList_some, List.map_cons, List.map_nil, List.mem_singleton]
    · obtain ⟨g, hg, hgn⟩ : ∃ g ∈ webhooks, g.1 = "manifests.yaml" := by
        have : "manifests.yaml" ∈ webhooks.map (·.1) := by decide +kernel
        exact List.mem_map.1 this
      exact List.mem_map.2 ⟨g, hg, by rw [hgn]⟩
  · obtain ⟨raw, d, -, hl, rfl, hp⟩ := hm
    obtain ⟨n, -, rfl⟩ := List.mem_map.1 (lookup_in hl)
    simp only [parser] at hp
    split at hp
    · split at hp
      · rename_i hn; cases hp; exact hn
      · split at hp
        · rename_i hn; cases hp; exact hn
        · cases hp
    all_goals cases hp
  · rw [h2] at hs
    simp only [List.mem_cons, List.not_mem_nil, or_false] at hs
    rcases hs with rfl | rfl
    · rw [show two 1 = ⟨.webhook, webhookArtifacts (fun _ => "webhooks".toList) webhooks, none⟩ from if_neg (by decide)]; dsimp only; exact made_webhook _
    · exact made_rbac _ _
  · rw [h2] at hs
    have hs := List.mem_of_getElem? hs
    simp only [List.mem_cons, List.not_mem_nil, or_false] at hs
    rcases hs with rfl | rfl <;> cases ht

/-! ## Runs that do not -/

def sameName : List String := ["rbac:roleName=a,fileName=manifests.yaml", "webhook", "output:dir=out", "paths=./..."]

theorem sameName_ok : understood sameName = some (.ok
    { paths := ["./...".toList], generators := [("rbac".toList, [("roleName".toList, .str "a".toList), ("fileName".toList, .str "manifests.yaml".toList)]), ("webhook".toList, [])],
      rules := { default := some (.dir "out".toList), byGenerator := [] }, generatorsByName := [("rbac".toList, 0), ("webhook".toList, 1)] }) := by decide +kernel

/-- The roles in a file with the name of that of the webhooks. -/
def renamedStep : Step := ⟨.rbac, rbacArtifacts roleText (Rbac.generate (fun _ => .fifo) .fifo "a" "manifests.yaml" [rule]), none⟩
def webhookStep (objs : List Webhook.Obj) : Step := ⟨.webhook, webhookArtifacts hookText [("manifests.yaml", objs)], none⟩

theorem renamed : Rbac.generate (fun _ => .fifo) .fifo "a" "manifests.yaml" [rule] = some ("manifests.yaml", role "a") := by
  have h := roles "a"
  unfold Rbac.generate at h ⊢
  simp only at h ⊢
  split at h
  · cases h
  · rename_i hne
    rw [if_neg hne]
    rfl

/-- **C91**, violated: with the option `fileName` the roles can get the file of the webhooks, which then replace them; no error is reported. -/
theorem C91_violated_name (objs : List Webhook.Obj) (w : World) (visited : World → List Nat) :
    let steps := [renamedStep roleText, webhookStep hookText objs]
    let res := run (rulesOf sameName) (fun _ _ => []) visited (steps.map (Step.gen ["p".toList])) w
    let place := ["p".toList, "out".toList, "manifests.yaml".toList]
    Written ["p".toList] (rulesOf sameName) steps place (roleText (role "a")) ∧
    res.1.disk = GoMap.put (GoMap.put w.disk place (roleText (role "a"))) place (hookText objs) ∧ GoMap.get res.1.disk place = some (hookText objs) ∧ res.2.1 = [] := by
  have hrules : rulesOf sameName = { default := some (.dir "out".toList), byGenerator := [] } := by rw [rulesOf, sameName_ok]; rfl
  have hr : ∀ i, (rulesOf sameName).forGenerator i = some (.dir "out".toList) := fun i => by rw [hrules]; simp [OutputRules.forGenerator, GoMap.get]
  have hout : locate ["p".toList] "out".toList = ["p".toList, "out".toList] := by decide +kernel
  have hp : locate ["p".toList] (joinPath "out".toList "manifests.yaml".toList) = ["p".toList, "out".toList, "manifests.yaml".toList] := by decide +kernel
  have hrun : run (rulesOf sameName) (fun _ _ => []) visited ([renamedStep roleText, webhookStep hookText objs].map (Step.gen ["p".toList])) w =
      (⟨GoMap.put (GoMap.put w.disk ["p".toList, "out".toList, "manifests.yaml".toList] (roleText (role "a"))) ["p".toList, "out".toList, "manifests.yaml".toList] (hookText objs), w.stdout⟩, [],
        (Loader.printErrors (fun _ => []) (visited ⟨GoMap.put (GoMap.put w.disk ["p".toList, "out".toList, "manifests.yaml".toList] (roleText (role "a"))) ["p".toList, "out".toList, "manifests.yaml".toList] (hookText objs), w.stdout⟩) [.type]).2 || false) := by
    have g1 : ((renamedStep roleText).gen ["p".toList]).generate (ctxFor (rulesOf sameName) 0 ((renamedStep roleText).gen ["p".toList])) w =
        (⟨GoMap.put w.disk ["p".toList, "out".toList, "manifests.yaml".toList] (roleText (role "a")), w.stdout⟩, none) := by
      simp only [Step.gen, ctxFor, hr, renamedStep, renamed, rbacArtifacts, Option.toList_some, List.map_cons, List.map_nil, writeAll, Artifact.write, openRule, hp]
    have g2 : ∀ w', ((webhookStep hookText objs).gen ["p".toList]).generate (ctxFor (rulesOf sameName) 1 ((webhookStep hookText objs).gen ["p".toList])) w' =
        (⟨GoMap.put w'.disk ["p".toList, "out".toList, "manifests.yaml".toList] (hookText objs), w'.stdout⟩, none) := by
      intro w'
      simp only [Step.gen, ctxFor, hr, webhookStep, webhookArtifacts, List.map_cons, List.map_nil, writeAll, Artifact.write, openRule, hp]
    rw [run, if_neg (by simp)]
    simp only [List.map_cons, List.map_nil, runLoop, g1, g2]
  refine ⟨⟨0, _, _, ⟨none, "manifests.yaml".toList, roleText (role "a")⟩, _, rfl, hr 0, ?_, rfl, ?_, rfl⟩, ?_, ?_, ?_⟩
  · simp only [renamedStep, renamed, rbacArtifacts, Option.toList_some, List.map_cons, List.map_nil, List.mem_singleton]
  · rw [hout]; rfl
  · rw [hrun]
  · rw [hrun]; simp only [GoMap.get_put, if_pos]
  · rw [hrun]

def inOne : List String := ["object", "output:dir=out", "paths=./..."]

theorem inOne_ok : understood inOne = some (.ok
    { paths := ["./...".toList], generators := [("object".toList, [])], rules := { default := some (.dir "out".toList), byGenerator := [] }, generatorsByName := [("object".toList, 0)] }) := by decide +kernel

/-- **C91**, violated: code for two packages, with one directory.  Only the code for the last package is there, and no error is reported. -/
theorem C91_violated_code (w : World) (visited : World → List Nat) :
    let res := run (rulesOf inOne) (fun _ _ => []) visited ([objectStep codeText].map (Step.gen ["p".toList])) w
    let place := ["p".toList, "out".toList, "zz_generated.deepcopy.go".toList]
    Written ["p".toList] (rulesOf inOne) [objectStep codeText] place (codeText "example.com/v1" methods) ∧
    GoMap.get res.1.disk place = some (codeText "example.com/v2" methods) ∧ (∀ other, other ≠ place → GoMap.get res.1.disk other = GoMap.get w.disk other) ∧ res.2.1 = [] := by
  have hrules : rulesOf inOne = { default := some (.dir "out".toList), byGenerator := [] } := by rw [rulesOf, inOne_ok]; rfl
  have hr : ∀ i, (rulesOf inOne).forGenerator i = some (.dir "out".toList) := fun i => by rw [hrules]; simp [OutputRules.forGenerator, GoMap.get]
  have hout : locate ["p".toList] "out".toList = ["p".toList, "out".toList] := by decide +kernel
  have heff : effects ["p".toList] (rulesOf inOne) 0 [objectStep codeText] =
      [(["p".toList, "out".toList, "zz_generated.deepcopy.go".toList], codeText "example.com/v1" methods), (["p".toList, "out".toList, "zz_generated.deepcopy.go".toList], codeText "example.com/v2" methods)] := by
    simp only [effects, hr, objectStep, objectArtifacts, List.map_cons, List.map_nil, List.flatMap_cons, List.flatMap_nil, List.append_nil, effect, folder, hout]
    rfl
  have hm : ∀ s ∈ [objectStep codeText], Made s.tool s.artifacts := by
    intro s hs
    rw [List.mem_singleton.1 hs]
    exact made_object codeText
  have hdisk := run_effects (cwd := ["p".toList]) (fun i => by rw [hr i]; nofun) hm (fun _ _ => []) visited w
  rw [heff] at hdisk
  refine ⟨?_, ?_, ?_, ?_⟩
  · exact written_iff.2 (by rw [heff]; simp)
  · rw [hdisk]
    simp only [puts, List.foldl_cons, List.foldl_nil, GoMap.get_put, if_pos]
  · intro other ho
    rw [hdisk]
    exact puts_other (by intro e he; simp only [List.mem_cons, List.not_mem_nil, or_false] at he; rcases he with rfl | rfl <;> exact ho.symm)
  · have g1 : ∃ w', ((objectStep codeText).gen ["p".toList]).generate (ctxFor (rulesOf inOne) 0 ((objectStep codeText).gen ["p".toList])) w = (w', none) := by
      obtain ⟨w', h1, -⟩ := writeAll_effect (cwd := ["p".toList]) (rule := .dir "out".toList) (goOn := (objectStep codeText).tool == .object) (l := (objectStep codeText).artifacts) (w := w)
        (facts (made_object codeText)).fine (fun e => nomatch e)
      refine ⟨w', ?_⟩
      simp only [Step.gen, ctxFor, hr, h1]
      rfl
    obtain ⟨w', g1⟩ := g1
    rw [run, if_neg (by simp)]
    simp only [List.map_cons, List.map_nil, runLoop, g1]

end Verif.Genall.ArtifactsCase

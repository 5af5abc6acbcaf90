import Verif.Genall.Artifacts
import Verif.CrdGen.GenerateSpec
/-!
# Specification for C91: the directory an artifact goes to, and what the generators write
-/
namespace Verif.Genall.Spec
open Markers (Str)

/-- The directory an artifact of a package (with these Go files; `none` is no package) goes to with an output rule; `none` if it goes to no file. -/
def folder (cwd : List Str) : Rule → Option (List Str) → Option (List Str)
  | .nothing, _ => none
  | .stdout, _ => none
  | .dir d, _ => some (locate cwd d)
  | .artifacts config _, none => some (locate cwd config)
  | .artifacts _ code, some files => if code = [] then files.head?.map fun f => (locate cwd f).dropLast else some (locate cwd code)

/-- A name for the file of roles that cannot be taken for another path or for the name of a file of the other generators. -/
structure PlainName (n : Str) : Prop where
  nonempty : n ≠ []
  slash : '/' ∉ n
  underscore : '_' ∉ n
  dot : n ≠ ['.']
  dots : n ≠ ['.', '.']
  webhooks : n ≠ "manifests.yaml".toList

/-- What a generator writes, under the conditions of C91: no two CRDs of a group have the same plural, the names of groups and plurals are as in Kubernetes (more exactly, without `_` and `/`), the file of the roles has a
name of its own, and the files of packages are Go files. -/
inductive Made : Tool → List Artifact → Prop
  | crd {S : CrdGen.GSrc} {O : CrdGen.Opts} {σ : CrdGen.Scheds} {roots : List String} {st : CrdGen.State} {out : CrdGen.Out} (text : CrdGen.Crd → Str) :
      CrdGen.generate S O σ roots = .ok (st, out) → out.failed = false → (∀ gk, CrdGen.Spec.KindIn S roots gk → GoMap.get st.crds gk ≠ none) → O.crdVersions = [] →
      (∀ gk crd, GoMap.get st.crds gk = some crd → '_' ∉ crd.group.toList ∧ '/' ∉ crd.group.toList ∧ '/' ∉ crd.names.plural.toList) →
      (∀ gk gk' crd crd', GoMap.get st.crds gk = some crd → GoMap.get st.crds gk' = some crd' → crd.group = crd'.group → crd.names.plural = crd'.names.plural → gk = gk') →
      Made .crd (crdArtifacts text out)
  | rbac (σ : String → Sched) (τ : Sched) (roleName fileName : String) (markers : List Rbac.Rule) (text : List Rbac.RoleObj → Str) : fileName = "" ∨ PlainName fileName.toList →
      Made .rbac (rbacArtifacts text (Rbac.generate σ τ roleName fileName markers))
  | webhook {σ : Sched} {roots : List Webhook.Root} {out : List (String × List Webhook.Obj)} (text : List Webhook.Obj → Str) : Webhook.generate σ roots = .ok out →
      Made .webhook (webhookArtifacts text out)
  | object {hist : List (Markers.Def Markers.Loaded)} {E : Markers.Env} {exported : String → Bool} {roots : List DeepCopy.Root} {out : List (String × List (String × List DeepCopy.Method))}
      (files : String → List Str) (text : String → List (String × List DeepCopy.Method) → Str) : DeepCopy.generateAll hist E exported roots = some out → (∀ p, ∀ f ∈ files p, ".go".toList <:+ f) →
      Made .object (objectArtifacts files text out)

/-- The names of the generators on the command line (main.go:53-60). -/
def toolName : Tool → Str
  | .crd => "crd".toList
  | .rbac => "rbac".toList
  | .webhook => "webhook".toList
  | .object => "object".toList

/-- Two generators of the same kind write to different directories, and the code for two packages goes to different directories. -/
structure Apart (cwd : List Str) (rules : OutputRules) (steps : List Step) : Prop where
  generators : ∀ i j s t r r', steps[i]? = some s → steps[j]? = some t → i ≠ j → s.tool = t.tool → rules.forGenerator i = some r → rules.forGenerator j = some r' →
    ∀ a ∈ s.artifacts, ∀ b ∈ t.artifacts, ∀ dir, folder cwd r a.pkg = some dir → folder cwd r' b.pkg ≠ some dir
  packages : ∀ i s r, steps[i]? = some s → s.tool = .object → rules.forGenerator i = some r →
    s.artifacts.Pairwise fun a b => ∀ dir, folder cwd r a.pkg = some dir → folder cwd r b.pkg ≠ some dir

/-- A run is to write this text to this place. -/
def Written (cwd : List Str) (rules : OutputRules) (steps : List Step) (place : List Str) (text : Str) : Prop :=
  ∃ i s r a dir, steps[i]? = some s ∧ rules.forGenerator i = some r ∧ a ∈ s.artifacts ∧ folder cwd r a.pkg = some dir ∧ place = dir ++ [a.item] ∧ text = a.text

end Verif.Genall.Spec

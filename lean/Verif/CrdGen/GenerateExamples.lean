import Verif.CrdGen.GenerateTheorems

/-! # The CRD generator: concrete cases, and what does not hold -/
namespace Verif.CrdGen
open Spec
open Verif.Crd

private def field (name tag : String) (type : TExpr) : Field := { name, tag := some tag.toList, type }

private def object (name : String) (rest : List Field) : Decl :=
  { name, type := .struct, fields := [field "" ",inline" (.selector "metav1" "TypeMeta"), field "" "metadata,omitempty" (.selector "metav1" "ObjectMeta")] ++ rest }

private def ctx (self : String) : PkgCtx where
  self := self
  ident := fun n => if n = "string" then .basic ⟨.string, "string"⟩ else .invalid
  sel := fun x n => if x = "metav1" ∧ (n = "TypeMeta" ∨ n = "ObjectMeta") then .named (some metaPath) n .other else .invalid
  exported := fun _ => true

/-- Three packages with kinds, one with a struct that is no kind as well. -/
private def prog : Src where
  ctx := ctx
  imports := fun p path => if (p = "v1" ∨ p = "v2" ∨ p = "v3") ∧ path = metaPath then some metaPath else none
  decls := fun p =>
    if p = "v1" then [object "Box" [field "Size" "size" (.ident "string")], { name := "BoxSpec", type := .struct, fields := [field "A" "a" (.ident "string")] }]
    else if p = "v2" then [object "Box" []]
    else if p = "v3" then [object "Box" [], object "Crate" []]
    else if p = metaPath then [{ name := "TypeMeta", type := .struct, fields := [field "Kind" "kind,omitempty" (.ident "string")] }]
    else []
  path := id
  overrides := addKnownTypes false

private def src (markers : TypeIdent → List (String × List Marker)) (group : Option String) : GSrc where
  src := prog
  pkgName := id
  groupName := fun p => if p = "v1" ∨ p = "v2" ∨ p = "v3" then group else none
  versionName := fun _ => none
  crdMarkers := markers

private def opts : Opts where
  lib := { pluralize := (· ++ "s"), lower := fun s => if s = "Boxs" then "boxs" else if s = "Box" then "box" else if s = "Crates" then "crates" else "crate" }
  tables := ⟨fun _ => false, fun _ => false⟩
  marshal := fun _ => none
  toolVersion := "v0"
  fuel := 5

private def sched : Scheds where
  gen := fun _ => .fifo
  flat := .fifo
  groups := fun _ => .lifo
  crd := fun _ => .lifo
  kinds := .lifo

/-- What can be compared. -/
private structure Written where
  files : List (String × String × List String)
  crds : List GroupKind
  failed : Bool
  errs : Nat × Nat × Nat × List Err
deriving DecidableEq

private def shown (r : Except Stop (State × Out)) : Option Written :=
  match r with
  | .error _ => none
  | .ok (st, out) => some ⟨out.files.map fun f => (f.1, f.2.name, f.2.versions.map (·.name)), GoMap.keys st.crds, out.failed, (st.parser.errs, st.flattener.errs, st.embedErrs, st.errs)⟩

private def plain : TypeIdent → List (String × List Marker) := fun id => if id = ⟨"v1", "Box"⟩ then [("kubebuilder:storageversion", [.storageVersion])] else []

private theorem run_shown : shown (generate (src plain (some "g.io")) opts sched ["v2", "v1"]) =
    some ⟨[("g.io_boxs.yaml", "boxs.g.io", ["v1", "v2"])], [⟨"g.io", "Box"⟩], false, (0, 0, 0, [])⟩ := by decide +kernel

private theorem kinds_found : findKinds (src plain (some "g.io")) .fifo metaPath (rooted (src plain (some "g.io")) ["v2", "v1"]) = [⟨"g.io", "Box"⟩] := by decide +kernel

private theorem meta_of : MetaOf (src plain (some "g.io")) ["v2", "v1"] metaPath := findMetav1_some.1 (by decide +kernel)

/-- A case that meets the hypotheses of C32: two packages, one kind in both, a struct that is no kind. -/
example : MetaOf (src plain (some "g.io")) ["v2", "v1"] metaPath ∧ GoNames (src plain (some "g.io")) ∧ (∀ gk, KindIn (src plain (some "g.io")) ["v2", "v1"] gk ↔ gk = ⟨"g.io", "Box"⟩) := by
  refine ⟨meta_of, ?_, fun gk => ?_⟩
  · intro pkg d hd
    simp only [src, prog] at hd
    split at hd
    · simp only [List.mem_cons, List.not_mem_nil, or_false] at hd
      rcases hd with rfl | rfl <;> decide +kernel
    · split at hd
      · obtain rfl := List.mem_singleton.1 hd; decide +kernel
      · split at hd
        · simp only [List.mem_cons, List.not_mem_nil, or_false] at hd
          rcases hd with rfl | rfl <;> decide +kernel
        · split at hd
          · obtain rfl := List.mem_singleton.1 hd; decide +kernel
          · cases hd
  · rw [← (C32_kinds _ .fifo _ _ meta_of).1, kinds_found, List.mem_singleton]

/-- The same case meets the hypotheses of C33, with two versions and one file. -/
example : ∃ st out, generate (src plain (some "g.io")) opts sched ["v2", "v1"] = .ok (st, out) ∧ out.failed = false ∧
    (∀ gk, KindIn (src plain (some "g.io")) ["v2", "v1"] gk → GoMap.get st.crds gk ≠ none) ∧ opts.crdVersions = [] ∧
    (∀ gk gk' crd crd', GoMap.get st.crds gk = some crd → GoMap.get st.crds gk' = some crd' → crd.group = crd'.group → crd.names.plural = crd'.names.plural → gk = gk') ∧
    out.files.map (fun f => (f.1, f.2.versions.map (·.name))) = [("g.io_boxs.yaml", ["v1", "v2"])] := by
  have h := run_shown
  unfold shown at h
  split at h
  · cases h
  · rename_i st out hr
    simp only [Option.some.injEq, Written.mk.injEq] at h
    obtain ⟨h1, h2, h3, -⟩ := h
    refine ⟨st, out, hr, h3, ?_, rfl, ?_, ?_⟩
    · intro gk hgk hnone
      rw [← (C32_kinds _ .fifo _ _ meta_of).1, kinds_found, List.mem_singleton] at hgk
      rw [GoMap.get_eq_none, h2, hgk] at hnone
      exact hnone (List.mem_singleton_self _)
    · intro gk gk' crd crd' hc hc' _ _
      have hk : ∀ {gk crd}, GoMap.get st.crds gk = some crd → gk = ⟨"g.io", "Box"⟩ := by
        intro gk crd h
        have : gk ∈ GoMap.keys st.crds := Decidable.byContradiction fun hn => by rw [(GoMap.get_eq_none).2 hn] at h; cases h
        rw [h2] at this
        exact List.mem_singleton.1 this
      rw [hk hc, hk hc']
    · have := congrArg (List.map fun x : String × String × List String => (x.1, x.2.2)) h1
      simpa [List.map_map, Function.comp_def] using this

/-- The cases of `C33_versions`: a kind is there; an unknown version is an error with no file; `__internal` is no outcome at all. -/
example : KindIn (src plain (some "g.io")) ["v2", "v1"] ⟨"g.io", "Box"⟩ ∧
    (shown (generate (src plain (some "g.io")) { opts with crdVersions := ["v1", "v1beta1"] } sched ["v2", "v1"])).map (fun w => (w.files.length, w.failed)) = some (0, true) ∧
    shown (generate (src plain (some "g.io")) { opts with crdVersions := ["v1", "__internal"] } sched ["v2", "v1"]) = none := by
  refine ⟨?_, by decide +kernel, by decide +kernel⟩
  rw [← (C32_kinds _ .fifo _ _ meta_of).1, kinds_found, List.mem_singleton]

/-- **C33 does not hold**: if the only version of a kind is to be skipped, then a file `_.yaml` with an empty CRD is written (gen.go:182 reads the CRD that was not stored). -/
theorem C33_violated_skip : shown (generate (src (fun _ => [("kubebuilder:skipversion", [.skipVersion])]) (some "g.io")) opts sched ["v2"]) =
    some ⟨[("_.yaml", "", [])], [], false, (0, 0, 0, [])⟩ := by decide +kernel

/-- **C33 does not hold**: a package without a `groupName` marker gives such a file as well. -/
theorem C33_violated_group : shown (generate (src (fun _ => []) none) opts sched ["v2"]) = some ⟨[("_.yaml", "", [])], [], false, (0, 0, 0, [])⟩ := by decide +kernel

/-- **C33 does not hold**: two kinds with the same plural are written to the same file, so that one of them is lost, with no error. -/
theorem C33_violated_plural : shown (generate (src (fun _ => [("kubebuilder:resource", [.resource { path := "things" }])]) (some "g.io")) opts sched ["v3"]) =
    some ⟨[("g.io_things.yaml", "things.g.io", ["v3"]), ("g.io_things.yaml", "things.g.io", ["v3"])], [⟨"g.io", "Box"⟩, ⟨"g.io", "Crate"⟩], false, (0, 0, 0, [])⟩ := by decide +kernel

end Verif.CrdGen

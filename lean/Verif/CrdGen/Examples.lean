import Verif.CrdGen.Theorems

/-! # CRDs: concrete cases, and what does not hold -/
namespace Verif.CrdGen
open Spec
open Verif.Crd (Schema)

private def lib : Lib where
  pluralize := (· ++ "s")
  lower := fun s => s.map Char.toLower

private def v1 : Entry where
  version := "v1"
  markers := [("kubebuilder:storageversion", [.storageVersion]), ("kubebuilder:printcolumn", [.printColumn ⟨"A", "string", ".a", "", "", 0⟩, .printColumn ⟨"B", "string", ".b", "", "", 0⟩]),
    ("kubebuilder:resource", [.resource { path := "boxen", shortName := ["bx"], scope := "Cluster" }]), ("kubebuilder:metadata", [.metadata ["a=1", "b=2=3"] ["l=x"]])]
  schema := .leaf { type := "object" }

private def v2 : Entry where
  version := "v2"
  markers := [("kubebuilder:subresource:status", [.status]), ("kubebuilder:unservedversion", [.unservedVersion]), ("kubebuilder:deprecatedversion", [.deprecatedVersion (some "old")]),
    ("kubebuilder:metadata", [.metadata ["a=1"] []])]
  schema := .leaf {}

private def v3 : Entry where
  version := "v3"
  markers := [("kubebuilder:skipversion", [.skipVersion]), ("kubebuilder:storageversion", [.storageVersion])]
  schema := .leaf {}

instance (es : List Entry) : Decidable (DistinctVersions es) := inferInstanceAs (Decidable (List.Nodup _))

/-- What can be compared of a version. -/
private structure Shown where
  name : String
  served : Bool
  storage : Bool
  deprecated : Bool
  warning : Option String
  sub : Option Subresources
  columns : List Column
deriving DecidableEq

private def show' (w : Version) : Shown := ⟨w.name, w.served, w.storage, w.deprecated, w.warning, w.sub, w.columns⟩

private theorem collected_of {e : Entry} (h : (GoMap.keys e.markers).Nodup ∧ ∀ x ∈ e.markers, ∀ m ∈ x.2, nameOf m = some x.1) : Collected e :=
  ⟨h.1, fun n vs hx m hm => .inl (h.2 (n, vs) hx m hm)⟩

private theorem on_iff {e : Entry} {m : Marker} : On e m ↔ m ∈ e.markers.flatMap (·.2) := by
  rw [List.mem_flatMap]
  exact ⟨fun ⟨n, vs, h1, h2⟩ => ⟨(n, vs), h1, h2⟩, fun ⟨x, h1, h2⟩ => ⟨x.1, x.2, h1, h2⟩⟩

/-- A case that meets the hypotheses of C19 to C23: three packages, one left out. -/
example : DistinctVersions [v2, v1, v3] ∧ (∀ e ∈ [v2, v1, v3], Collected e) ∧ Resources [v2, v1, v3] (some { path := "boxen", shortName := ["bx"], scope := "Cluster" }) ∧
    NoConflicts [v2, v1, v3] ∧ NoClash [v2, v1, v3] ∧ ¬ Skipped v1 ∧ Skipped v3 ∧
    (build .fifo lib "g.io" "Box" [v2, v1, v3]).map (fun r => (r.1.map (fun c => (c.name, c.names, c.scope)), r.2)) =
      some (some ("boxen.g.io", ⟨"Box", "BoxList", "boxen", "box", ["bx"], []⟩, "Cluster"), []) ∧
    (build .fifo lib "g.io" "Box" [v2, v1, v3]).map (fun r => r.1.map (fun c => (c.versions.map show', c.annotations, c.labels))) =
      some (some ([⟨"v1", true, true, false, none, some {}, [⟨"A", "string", ".a", "", "", 0⟩, ⟨"B", "string", ".b", "", "", 0⟩]⟩, ⟨"v2", false, false, true, some "old", some { status := true }, []⟩],
        [("a", "1"), ("b", "2=3")], [("l", "x")])) := by
  have hm1 : ∀ m, On v1 m ↔ m ∈ [Marker.storageVersion, .printColumn ⟨"A", "string", ".a", "", "", 0⟩, .printColumn ⟨"B", "string", ".b", "", "", 0⟩,
      .resource { path := "boxen", shortName := ["bx"], scope := "Cluster" }, .metadata ["a=1", "b=2=3"] ["l=x"]] := fun m => on_iff
  have hm2 : ∀ m, On v2 m ↔ m ∈ [Marker.status, .unservedVersion, .deprecatedVersion (some "old"), .metadata ["a=1"] []] := fun m => on_iff
  have hm3 : ∀ m, On v3 m ↔ m ∈ [Marker.skipVersion, .storageVersion] := fun m => on_iff
  refine ⟨by decide +kernel, ?_, ⟨?_, ?_⟩, ?_, ?_, ?_, ?_, by decide +kernel, by decide +kernel⟩
  · intro e he
    simp only [List.mem_cons, List.not_mem_nil, or_false] at he
    rcases he with rfl | rfl | rfl <;> exact collected_of (by decide +kernel)
  · intro e he r' hon
    simp only [List.mem_cons, List.not_mem_nil, or_false] at he
    rcases he with rfl | rfl | rfl
    · rw [hm2] at hon; simp at hon
    · rw [hm1] at hon; simp at hon; rw [hon]
    · rw [hm3] at hon; simp at hon
  · intro r' h
    cases h
    exact ⟨v1, by simp, by rw [hm1]; simp⟩
  · have hkv : ∀ s k v, Pair s k v → keyValue s = some (k, v) := fun _ _ _ h => keyValue_some.2 h
    have k1 : keyValue "a=1" = some ("a", "1") := by decide +kernel
    have k2 : keyValue "b=2=3" = some ("b", "2=3") := by decide +kernel
    have k3 : keyValue "l=x" = some ("l", "x") := by decide +kernel
    have hall : ∀ e ∈ [v2, v1, v3], ∀ a l, On e (.metadata a l) → (∀ s ∈ a, s = "a=1" ∨ s = "b=2=3") ∧ ∀ s ∈ l, s = "l=x" := by
      intro e he a l hon
      simp only [List.mem_cons, List.not_mem_nil, or_false] at he
      rcases he with rfl | rfl | rfl
      · rw [hm2] at hon; simp at hon; obtain ⟨rfl, rfl⟩ := hon; simp
      · rw [hm1] at hon; simp at hon; obtain ⟨rfl, rfl⟩ := hon; simp
      · rw [hm3] at hon; simp at hon
    intro e₁ h₁ e₂ h₂ a₁ l₁ a₂ l₂ o₁ o₂
    obtain ⟨p1, p2⟩ := hall e₁ h₁ a₁ l₁ o₁
    obtain ⟨q1, q2⟩ := hall e₂ h₂ a₂ l₂ o₂
    constructor
    · intro s₁ hs₁ s₂ hs₂ k x y hx hy
      have hx := hkv _ _ _ hx
      have hy := hkv _ _ _ hy
      rcases p1 s₁ hs₁ with rfl | rfl <;> rcases q1 s₂ hs₂ with rfl | rfl <;> simp_all
    · intro s₁ hs₁ s₂ hs₂ k x y hx hy
      have hx := hkv _ _ _ hx
      have hy := hkv _ _ _ hy
      have e1 := p2 s₁ hs₁
      have e2 := q2 s₂ hs₂
      subst e1; subst e2
      simp_all
  · intro e he hs m hon hn
    simp only [List.mem_cons, List.not_mem_nil, or_false] at he
    rcases he with rfl | rfl | rfl
    · exact absurd hs.2 (by rw [hm2]; simp)
    · exact absurd hs.2 (by rw [hm1]; simp)
    · rw [hm3] at hon; simp at hon; rcases hon with rfl | rfl <;> exact hn
  · intro hs; exact absurd hs.2 (by rw [hm1]; simp)
  · exact ⟨by decide +kernel, by rw [hm3]; simp⟩

private def both (v : String) : Entry := { version := v, markers := [("kubebuilder:storageversion", [.storageVersion])], schema := .leaf {} }

/-- **C19 does not hold**: two storage versions are not reported (the API server rejects such a CRD). -/
theorem C19_violated : ∃ entries crd, DistinctVersions entries ∧ build .fifo lib "g.io" "Box" entries = some (some crd, []) ∧
    ∃ w₁ w₂, crd.versions = [w₁, w₂] ∧ w₁.name ≠ w₂.name ∧ w₁.storage = true ∧ w₂.storage = true :=
  ⟨[both "v1", both "v2"], _, by decide +kernel, rfl, _, _, rfl, by decide +kernel, rfl, rfl⟩

private def withResource (v path : String) : Entry :=
  { version := v, markers := [("kubebuilder:resource", [.resource { path := path }]), ("kubebuilder:storageversion", if v = "v1" then [.storageVersion] else [])], schema := .leaf {} }

/-- **C21 does not hold**: with different resource markers in two packages, the name of the CRD depends on the order in which Go iterates over the packages. -/
theorem C21_violated_resource : ∃ entries entries', List.Perm entries entries' ∧ ∃ crd crd', build .fifo lib "g.io" "Box" entries = some (some crd, []) ∧
    build .fifo lib "g.io" "Box" entries' = some (some crd', []) ∧ crd.name ≠ crd'.name :=
  ⟨[withResource "v1" "boxes", withResource "v2" "boxen"], [withResource "v2" "boxen", withResource "v1" "boxes"], List.Perm.swap .., _, _, rfl, rfl, by decide +kernel⟩

private def clash : Entry :=
  { version := "v2", markers := [("kubebuilder:skipversion", [.skipVersion]), ("kubebuilder:printcolumn", [.printColumn ⟨"A", "string", ".a", "", "", 0⟩])], schema := .leaf {} }

/-- **C21 does not hold**: a type with a column whose version is skipped is an error or not, depending on the order in which Go iterates over the markers of the type. -/
theorem C21_violated_skip : ∃ entries crd crd' e, build .fifo lib "g.io" "Box" entries = some (some crd, [e]) ∧ build .lifo lib "g.io" "Box" entries = some (some crd', []) :=
  ⟨[both "v1", clash], _, _, .notInCrd "printer columns" "v2", rfl, rfl⟩

private def column (v path : String) (n : String) : Entry :=
  { version := v, markers := [("kubebuilder:printcolumn", [.printColumn ⟨path, "string", path, "", "", 0⟩])], schema := .leaf { type := n } }

/-- **C22 does not hold** when two packages of the group have the same version: the column of the second one is added to the entry of the first one. -/
theorem C22_violated_duplicate : ∃ e₁ e₂ crd errs, On e₂ (.printColumn ⟨".b", "string", ".b", "", "", 0⟩) ∧ ¬ On e₁ (.printColumn ⟨".b", "string", ".b", "", "", 0⟩) ∧
    build .fifo lib "g.io" "Box" [e₁, e₂] = some (some crd, errs) ∧
    ∃ w₁ w₂, crd.versions = [w₁, w₂] ∧ w₁.schema = e₁.schema ∧ w₁.columns.map (·.name) = [".a", ".b"] ∧ w₂.columns = [] :=
  ⟨column "v1" ".a" "object", column "v1" ".b" "string", _, _, on_iff.2 (by decide +kernel), fun h => absurd (on_iff.1 h) (by decide +kernel), rfl, _, _, rfl, rfl, by decide +kernel, rfl⟩

private def plainEntry (v : String) : Entry := { version := v, markers := [], schema := .leaf {} }

private def skippedEntry (v : String) : Entry := { version := v, markers := [("kubebuilder:skipversion", [.skipVersion])], schema := .leaf {} }

/-- **C20 does not hold** when two packages of the group have the same version: a marker that skips the version of one leaves out the other as well. -/
theorem C20_violated_duplicate : ∃ e₁ e₂ e₃ crd, ¬ Skipped e₁ ∧ Skipped e₂ ∧ build .fifo lib "g.io" "Box" [e₁, e₂, e₃] = some (some crd, []) ∧ ∀ w ∈ crd.versions, w.name ≠ e₁.version :=
  ⟨plainEntry "v1", skippedEntry "v1", plainEntry "v2", _, fun h => absurd (on_iff.1 h.2) (by decide +kernel), ⟨by decide, on_iff.2 (by decide +kernel)⟩, rfl, by decide +kernel⟩

private def scopedEntry (v path scope : String) : Entry :=
  { version := v, markers := [("kubebuilder:resource", [.resource { path := path, scope := scope }]), ("kubebuilder:storageversion", if v = "v1" then [.storageVersion] else [])], schema := .leaf {} }

/-- **C20 does not hold** when two packages have different resource markers: the CRD has the plural of one and the scope of the other. -/
theorem C20_violated_mixed : ∃ entries crd, build .fifo lib "g.io" "Box" entries = some (some crd, []) ∧ crd.names.plural = "boxen" ∧ crd.scope = "Cluster" ∧
    ∀ e ∈ entries, ∀ r, On e (.resource r) → ¬ (r.path = "boxen" ∧ r.scope = "Cluster") := by
  refine ⟨[scopedEntry "v2" "boxen" "", scopedEntry "v1" "" "Cluster"], _, rfl, by decide +kernel, by decide +kernel, ?_⟩
  intro e he r hr
  have := on_iff.1 hr
  rcases List.mem_cons.1 he with rfl | he
  · simp [scopedEntry] at this; subst this; decide
  · obtain rfl := List.mem_singleton.1 he
    simp [scopedEntry] at this; subst this; decide

/-- **C22 does not hold**: some markers on a type whose version is missing are ignored without an error. -/
theorem C22_violated_silent : ∃ entries crd e, e ∈ entries ∧ On e .storageVersion ∧ build .fifo lib "g.io" "Box" entries = some (some crd, []) ∧ ∀ w ∈ crd.versions, w.name ≠ e.version :=
  ⟨[both "v1", v3], _, v3, by simp, on_iff.2 (by decide +kernel), rfl, by
    intro w hw
    have : w = _ := List.mem_singleton.1 hw
    subst this
    decide +kernel⟩

private def label (l : List String) : Entry := { version := "v1", markers := [("kubebuilder:metadata", [.metadata [] l])], schema := .leaf {} }

/-- **C23 does not hold**: a label without `=` crashes the generator. -/
theorem C23_violated : ∃ entries, build .fifo lib "g.io" "Box" entries = none :=
  ⟨[label ["team"]], by decide +kernel⟩

/-- … while an annotation is reported. -/
example : ∃ a l s, On { version := "v1", markers := [("kubebuilder:metadata", [.metadata (["a=b"] ++ s :: a) l])], schema := .leaf {} } (.metadata (["a=b"] ++ s :: a) l) ∧ Malformed s ∧
    (build .fifo lib "g.io" "Box" [{ version := "v1", markers := [("kubebuilder:metadata", [.metadata (["a=b"] ++ s :: a) l])], schema := .leaf {} }]).map (·.2) = some [.badAnnotation s] :=
  ⟨["c=d"], ["x"], "bad", on_iff.2 (by decide +kernel), by decide +kernel, by decide +kernel⟩

/-- A version that needs to be there. -/
example : VersionScoped .status ∧ NeedsVersion .status := ⟨trivial, trivial⟩

end Verif.CrdGen

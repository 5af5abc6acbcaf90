import Verif.CrdGen.SameTheorems
import Verif.Crd.NeedExamples
import Verif.Crd.BreakEnd

/-! # C95: concrete cases, and what does not hold -/
namespace Verif.CrdGen.SameSample
open Spec
open Verif.Crd
open Verif.Crd.Spec (envOf Distinct AcyclicFrom Tidy Declares Has OverrideOf)
open Verif.Crd.BreakSample (acyclicFrom_of depth)

/-! ## The program

    package v1 // +groupName=g.io                     package v2 // +groupName=g.io
    // +kubebuilder:storageversion                    type Box struct {
    // +kubebuilder:resource:path=boxen                   metav1.TypeMeta, metav1.ObjectMeta
    type Box struct {                                     Lid common.Lid
        metav1.TypeMeta, metav1.ObjectMeta            }
        // +kubebuilder:validation:MaxLength=3
        // +kubebuilder:validation:Pattern=a          package o1 // +groupName=o.io
        Size string                                   type Crate struct { metav1.TypeMeta, metav1.ObjectMeta, Lid common.Lid }
        Lid common.Lid
    }                                                 package common
                                                      type Lid struct { Name string }
-/

def field (name tag : String) (type : TExpr) (markers : List (String × List (Option Mark)) := []) : Field := { name, tag := some tag.toList, type, markers }

def object (name : String) (rest : List Field) : Decl :=
  { name, type := .struct, fields := [field "" ",inline" (.selector "metav1" "TypeMeta"), field "" "metadata,omitempty" (.selector "metav1" "ObjectMeta")] ++ rest }

def lid : Field := field "Lid" "lid" (.selector "common" "Lid")
def size : Field := field "Size" "size" (.ident "string") [("kubebuilder:validation:MaxLength", [some (.maxLength 3)]), ("kubebuilder:validation:Pattern", [some (.pattern "a")])]

def box1 : Decl := object "Box" [size, lid]
def box2 : Decl := object "Box" [lid]
def crate : Decl := object "Crate" [lid]
def lidD : Decl := { name := "Lid", type := .struct, fields := [field "Name" "name" (.ident "string")] }
def metaD : Decl := { name := "TypeMeta", type := .struct, fields := [] }

def ctx (self : String) : PkgCtx where
  self := self
  ident := fun n => if n = "string" then .basic ⟨.string, "string"⟩ else .invalid
  sel := fun x n => if x = "metav1" ∧ (n = "TypeMeta" ∨ n = "ObjectMeta") then .named (some metaPath) n .other else if x = "common" ∧ n = "Lid" then .named (some "common") n .other else .invalid
  exported := fun _ => true

def prog : Src where
  ctx := ctx
  imports := fun p path => if (p = "v1" ∨ p = "v2" ∨ p = "o1") ∧ (path = metaPath ∨ path = "common") then some path else none
  decls := fun p => if p = "v1" then [box1] else if p = "v2" then [box2] else if p = "o1" then [crate] else if p = "common" then [lidD] else if p = metaPath then [metaD] else []
  path := id
  overrides := addKnownTypes false

def S : GSrc where
  src := prog
  pkgName := id
  groupName := fun p => if p = "v1" ∨ p = "v2" then some "g.io" else if p = "o1" then some "o.io" else none
  versionName := fun _ => none
  crdMarkers := fun id => if id = ⟨"v1", "Box"⟩ then [("kubebuilder:storageversion", [.storageVersion]), ("kubebuilder:resource", [.resource { path := "boxen" }])] else []

def opts : Opts where
  lib := { pluralize := (· ++ "s"), lower := fun s => if s = "Boxs" then "boxs" else if s = "Box" then "box" else if s = "Crates" then "crates" else "crate" }
  tables := ⟨fun _ => false, fun _ => false⟩
  marshal := fun _ => none
  toolVersion := "v0"
  fuel := 8

/-- Two orders of the maps. -/
def fifo : Scheds := { gen := fun _ => .fifo, flat := .fifo, groups := fun _ => .fifo, crd := fun _ => .fifo, kinds := .fifo }
def lifo : Scheds := { gen := fun _ => .lifo, flat := .lifo, groups := fun _ => .lifo, crd := fun _ => .lifo, kinds := .lifo }

def ok (σ : Scheds) (roots : List String) : Bool := match generate S opts σ roots with | .ok _ => true | .error _ => false
def st (σ : Scheds) (roots : List String) : State := match generate S opts σ roots with | .ok (st, _) => st | .error _ => {}
def out (σ : Scheds) (roots : List String) : Out := match generate S opts σ roots with | .ok (_, out) => out | .error _ => {}

theorem run_ok {σ : Scheds} {roots : List String} (h : ok σ roots = true) : generate S opts σ roots = .ok (st σ roots, out σ roots) := by
  unfold ok at h
  unfold st out
  split
  · rename_i e; simp [e]
  · rename_i e; rw [e] at h; cases h

def few : List String := ["v1", "v2"]
def all : List String := ["o1", "v2", "v1"]
def all' : List String := ["v1", "o1", "v2", "v1"]

theorem ran_few : ok fifo few = true ∧ (out fifo few).failed = false ∧ (st fifo few).parser.errs = 0 := by decide +kernel
theorem ran_all : ok lifo all = true ∧ (out lifo all).failed = false ∧ (st lifo all).parser.errs = 0 := by decide +kernel
theorem ran_all' : ok fifo all' = true ∧ (out fifo all').failed = false ∧ (st fifo all').parser.errs = 0 := by decide +kernel

/-! ## The markers -/

theorem decl_cases {id : TypeIdent} {d : Decl} (h : Declares S.src id d) :
    (id = ⟨"v1", "Box"⟩ ∧ d = box1) ∨ (id = ⟨"v2", "Box"⟩ ∧ d = box2) ∨ (id = ⟨"o1", "Crate"⟩ ∧ d = crate) ∨ (id = ⟨"common", "Lid"⟩ ∧ d = lidD) ∨ (id = ⟨metaPath, "TypeMeta"⟩ ∧ d = metaD) := by
  obtain ⟨pkg, name⟩ := id
  obtain ⟨-, -, a, b, h, hn, -⟩ := h
  have hd : d ∈ S.src.decls pkg := by rw [h]; simp
  simp only [S, prog] at hd
  simp only at hn
  split at hd
  · obtain rfl := List.mem_singleton.1 hd; subst hn; subst pkg; exact .inl ⟨rfl, rfl⟩
  · split at hd
    · obtain rfl := List.mem_singleton.1 hd; subst hn; subst pkg; exact .inr (.inl ⟨rfl, rfl⟩)
    · split at hd
      · obtain rfl := List.mem_singleton.1 hd; subst hn; subst pkg; exact .inr (.inr (.inl ⟨rfl, rfl⟩))
      · split at hd
        · obtain rfl := List.mem_singleton.1 hd; subst hn; subst pkg; exact .inr (.inr (.inr (.inl ⟨rfl, rfl⟩)))
        · split at hd
          · obtain rfl := List.mem_singleton.1 hd; subst hn; subst pkg; exact .inr (.inr (.inr (.inr ⟨rfl, rfl⟩)))
          · cases hd

theorem orderly_nil : Orderly [] :=
  ⟨List.nodup_nil, fun n m ⟨_, h, _⟩ => (by cases h), .inr fun n m m' ⟨_, h, _⟩ => (by cases h), fun x y ⟨⟨_, h, _⟩, _⟩ => (by cases h), fun x y ⟨⟨_, h, _⟩, _⟩ => (by cases h)⟩

theorem has_size {n : String} {m : Mark} (h : Has size.markers n m) : (n = "kubebuilder:validation:MaxLength" ∧ m = .maxLength 3) ∨ (n = "kubebuilder:validation:Pattern" ∧ m = .pattern "a") := by
  obtain ⟨vs, h, hv⟩ := h
  simp only [size, field, List.mem_cons, List.not_mem_nil, or_false, Prod.mk.injEq] at h
  rcases h with ⟨rfl, rfl⟩ | ⟨rfl, rfl⟩
  · simp only [List.mem_singleton, Option.some.injEq] at hv; exact .inl ⟨rfl, hv⟩
  · simp only [List.mem_singleton, Option.some.injEq] at hv; exact .inr ⟨rfl, hv⟩

theorem orderly_size : Orderly size.markers where
  keys := by decide +kernel
  registered := by intro n m h; rcases has_size h with ⟨rfl, rfl⟩ | ⟨rfl, rfl⟩ <;> decide +kernel
  few := .inr fun n m m' h h' => by
    rcases has_size h with ⟨rfl, rfl⟩ | ⟨rfl, rfl⟩ <;> rcases has_size h' with ⟨e, rfl⟩ | ⟨e, rfl⟩ <;> first | rfl | exact absurd e (by decide +kernel)
  list := fun x y ⟨h, _⟩ => by rcases has_size h with ⟨-, e⟩ | ⟨-, e⟩ <;> cases e
  map := fun x y ⟨h, _⟩ => by rcases has_size h with ⟨-, e⟩ | ⟨-, e⟩ <;> cases e

theorem orderlyTypes : OrderlyTypes S := by
  intro id d h
  have hf : ∀ f : Field, f.markers = [] ∨ f = size → Orderly f.markers := by
    rintro f (e | rfl)
    · rw [e]; exact orderly_nil
    · exact orderly_size
  rcases decl_cases h with ⟨-, rfl⟩ | ⟨-, rfl⟩ | ⟨-, rfl⟩ | ⟨-, rfl⟩ | ⟨-, rfl⟩ <;> refine ⟨orderly_nil, fun f h => hf f ?_⟩ <;>
    simp only [box1, box2, crate, lidD, metaD, object, List.cons_append, List.nil_append, List.mem_cons, List.not_mem_nil, or_false] at h
  · rcases h with rfl | rfl | rfl | rfl
    · exact .inl rfl
    · exact .inl rfl
    · exact .inr rfl
    · exact .inl rfl
  · rcases h with rfl | rfl | rfl <;> exact .inl rfl
  · rcases h with rfl | rfl | rfl <;> exact .inl rfl
  · subst h; exact .inl rfl

theorem tidy (p : String) : Tidy (S.src.ctx p) := by
  have hi : ∀ {n t}, (S.src.ctx p).ident n = t → (n = "string" ∧ t = .basic ⟨.string, "string"⟩) ∨ t = .invalid := by
    intro n t h
    have h : (if n = "string" then GoType.basic ⟨.string, "string"⟩ else .invalid) = t := h
    split at h
    · exact .inl ⟨‹_›, h.symm⟩
    · exact .inr h.symm
  refine ⟨?_, ?_, ?_, ?_, ?_⟩
  · intro n pkg m u e; rcases hi e with ⟨-, e⟩ | e <;> cases e
  · intro n q a pkg m u e; rcases hi e with ⟨-, e⟩ | e <;> cases e
  · intro n q a pkg m u e; rcases hi e with ⟨-, e⟩ | e <;> cases e
  · intro x n pkg m u e
    have hs : ∀ {t}, (S.src.ctx p).sel x n = t → (t = .named (some metaPath) n .other ∧ (n = "TypeMeta" ∨ n = "ObjectMeta")) ∨ (t = .named (some "common") n .other ∧ n = "Lid") ∨ t = .invalid := by
      intro t h
      have h : (if x = "metav1" ∧ (n = "TypeMeta" ∨ n = "ObjectMeta") then GoType.named (some metaPath) n .other else if x = "common" ∧ n = "Lid" then .named (some "common") n .other else .invalid) = t := h
      split at h
      · rename_i e; exact .inl ⟨h.symm, e.2⟩
      · split at h
        · rename_i e; exact .inr (.inl ⟨h.symm, e.2⟩)
        · exact .inr (.inr h.symm)
    rcases e with e | e
    · rcases hs e with ⟨e, hn⟩ | ⟨e, hn⟩ | e <;> cases e
      · rcases hn with rfl | rfl <;> decide +kernel
      · subst hn; decide +kernel
    · rcases hs e with ⟨e, -⟩ | ⟨e, -⟩ | e <;> cases e
  · intro n hn
    rcases hi (n := n) rfl with ⟨rfl, -⟩ | e
    · decide +kernel
    · exact absurd e hn

/-! ## The runs -/

/-- What is checked about the schemas of the parser. -/
def nodesOf (env : Env) (e : TypeIdent × Schema) : List (String × Schema) := env.reachList 5 [(e.1.pkg, e.2)]

def fine (env : Env) : Prop := ∀ e ∈ env.schemata, (e.1.pkg, e.2) ∈ nodesOf env e ∧ (∀ n ∈ nodesOf env e, ∀ n' ∈ env.next n, n' ∈ nodesOf env e ∧ depth env 10 n' < depth env 10 n) ∧
  ∀ x ∈ nodesOf env e, (env.links 4 x).length ≤ 3 ∧ (env.links 4 x).Nodup

instance (env : Env) : Decidable (fine env) := by unfold fine; infer_instance

theorem fine_few : fine (envOf S.src (st fifo few).parser) := by decide +kernel
theorem fine_all : fine (envOf S.src (st lifo all).parser) := by decide +kernel
theorem fine_all' : fine (envOf S.src (st fifo all').parser) := by decide +kernel

theorem plain_of {st : State} (h : st.parser.errs = 0) (hf : fine (envOf S.src st.parser)) : Plain S st where
  errs := h
  distinct := fun id u hu => by
    obtain ⟨a, b, c⟩ := hf (id, u) (get_mem hu)
    exact distinct_of 3 a (fun n hn n' hn' => (b n hn n' hn').1) c
  acyclic := fun id u hu => by
    obtain ⟨a, b, -⟩ := hf (id, u) (get_mem hu)
    exact acyclicFrom_of (depth _ 10) a b

/-! ## The kinds -/

theorem kind_few (gk : GroupKind) : KindIn S few gk ↔ gk = ⟨"g.io", "Box"⟩ := by
  have h : findKinds S .fifo metaPath (rooted S few) = [⟨"g.io", "Box"⟩] := by decide +kernel
  rw [← (C32_kinds S .fifo _ metaPath (findMetav1_some.1 (by decide +kernel))).1, h, List.mem_singleton]

theorem kind_all (gk : GroupKind) : KindIn S all gk ↔ gk = ⟨"g.io", "Box"⟩ ∨ gk = ⟨"o.io", "Crate"⟩ := by
  have h : findKinds S .fifo metaPath (rooted S all) = [⟨"g.io", "Box"⟩, ⟨"o.io", "Crate"⟩] := by decide +kernel
  rw [← (C32_kinds S .fifo _ metaPath (findMetav1_some.1 (by decide +kernel))).1, h, List.mem_cons, List.mem_singleton]

theorem goNames : GoNames S := by
  intro pkg d hd
  simp only [S, prog] at hd
  split at hd
  · obtain rfl := List.mem_singleton.1 hd; decide +kernel
  · split at hd
    · obtain rfl := List.mem_singleton.1 hd; decide +kernel
    · split at hd
      · obtain rfl := List.mem_singleton.1 hd; decide +kernel
      · split at hd
        · obtain rfl := List.mem_singleton.1 hd; decide +kernel
        · split at hd
          · obtain rfl := List.mem_singleton.1 hd; decide +kernel
          · cases hd

theorem named_few : Named S few ⟨"g.io", "Box"⟩ := by
  intro pkg d hg h
  rcases decl_cases h with ⟨e, -⟩ | ⟨e, -⟩ | ⟨e, -⟩ | ⟨e, -⟩ | ⟨e, -⟩ <;> simp only [TypeIdent.mk.injEq] at e <;> obtain ⟨rfl, e⟩ := e
  · decide +kernel
  · decide +kernel
  all_goals exact absurd e (by decide +kernel)

theorem named_all {gk : GroupKind} : Named S all gk := by
  intro pkg d hg h
  rcases decl_cases h with ⟨e, -⟩ | ⟨e, -⟩ | ⟨e, -⟩ | ⟨e, -⟩ | ⟨e, -⟩ <;> simp only [TypeIdent.mk.injEq] at e <;> obtain ⟨rfl, e⟩ := e
  · decide +kernel
  · decide +kernel
  · decide +kernel
  · have : S.groupName "common" = none := by decide +kernel
    rw [this] at hg; cases hg
  · have : S.groupName metaPath = none := by decide +kernel
    rw [this] at hg; cases hg

theorem marker_cases {id : TypeIdent} {e : Entry} {m : Marker} (he : e.markers = S.crdMarkers id) (h : On e m) : m = .storageVersion ∨ m = .resource { path := "boxen" } := by
  obtain ⟨n, vs, h, hm⟩ := h
  rw [he] at h
  simp only [S] at h
  split at h
  · simp only [List.mem_cons, List.not_mem_nil, or_false, Prod.mk.injEq] at h
    rcases h with ⟨-, rfl⟩ | ⟨-, rfl⟩
    · exact .inl (List.mem_singleton.1 hm)
    · exact .inr (List.mem_singleton.1 hm)
  · cases h

theorem consistent (roots : List String) (gk : GroupKind) : Consistent S roots gk := by
  rintro entries ⟨pkgs, hn, -, ha⟩
  have he : ∀ e ∈ entries, ∃ pkg, e.markers = S.crdMarkers ⟨pkg, gk.kind⟩ := by
    clear hn
    induction ha with
    | nil => intro e h; cases h
    | cons h _ ih =>
      intro e he
      rcases List.mem_cons.1 he with rfl | he
      · exact ⟨_, h.2.1⟩
      · exact ih e he
  have hm : ∀ e ∈ entries, ∀ m, On e m → m = .storageVersion ∨ m = .resource { path := "boxen" } := fun e h m hm => by
    obtain ⟨pkg, h⟩ := he e h
    exact marker_cases h hm
  refine ⟨?_, ?_, ?_, ?_, ?_⟩
  · have : entries.map (·.version) = pkgs := by
      clear hn he hm
      induction ha with
      | nil => rfl
      | cons h _ ih =>
        rw [List.map_cons, ih]
        rcases h.1 with h | ⟨-, h⟩
        · cases h
        · rw [h]; rfl
    unfold DistinctVersions
    rw [this]; exact hn
  · intro e h
    obtain ⟨pkg, h⟩ := he e h
    have hc : ∀ id, GoMap.WF (S.crdMarkers id) ∧ ∀ name vals, (name, vals) ∈ S.crdMarkers id → ∀ m ∈ vals, nameOf m = some name ∨ (m = .other ∧ name ∉ Spec.crdMarkers) := by
      intro id
      simp only [S]
      split
      · refine ⟨(by decide +kernel : (GoMap.keys [("kubebuilder:storageversion", [Marker.storageVersion]), ("kubebuilder:resource", [.resource { path := "boxen" }])]).Nodup), fun n vs h m hm => ?_⟩
        simp only [List.mem_cons, List.not_mem_nil, or_false, Prod.mk.injEq] at h
        rcases h with ⟨rfl, rfl⟩ | ⟨rfl, rfl⟩ <;> obtain rfl := List.mem_singleton.1 hm <;> exact .inl rfl
      · exact ⟨List.nodup_nil, fun n vs h => by cases h⟩
    unfold Spec.Collected
    rw [h]; exact hc _
  · by_cases h : ∃ e ∈ entries, On e (.resource { path := "boxen" })
    · refine ⟨some { path := "boxen" }, fun e he r hr => ?_, fun r hr => ?_⟩
      · rcases hm e he _ hr with h | h <;> cases h; rfl
      · cases hr; exact h
    · refine ⟨none, fun e he r hr => ?_, fun r hr => by cases hr⟩
      exfalso
      rcases hm e he _ hr with e' | e' <;> cases e'
      exact h ⟨e, he, hr⟩
  · intro e₁ h₁ e₂ h₂ a₁ l₁ a₂ l₂ ho
    rcases hm e₁ h₁ _ ho with h | h <;> cases h
  · intro e h hs m ho
    rcases hm e h m ho with rfl | rfl <;> exact id

/-! ## The cases -/

/-- The hypotheses of `C95_kind_partial` are met by two runs with other packages, in another order, and with another order of the maps; `Box` has two versions in both. -/
example : S.src.overrides = addKnownTypes false ∧ (∀ p, Tidy (S.src.ctx p)) ∧ OrderlyTypes S ∧
    generate S opts fifo few = .ok (st fifo few, out fifo few) ∧ (out fifo few).failed = false ∧ generate S opts lifo all = .ok (st lifo all, out lifo all) ∧ (out lifo all).failed = false ∧
    Plain S (st fifo few) ∧ Plain S (st lifo all) ∧ KindIn S few ⟨"g.io", "Box"⟩ ∧ KindIn S all ⟨"g.io", "Box"⟩ ∧ Named S few ⟨"g.io", "Box"⟩ ∧ Named S all ⟨"g.io", "Box"⟩ ∧ Consistent S few ⟨"g.io", "Box"⟩ ∧
    (GoMap.get (st fifo few).crds ⟨"g.io", "Box"⟩).map (fun c => (c.name, c.versions.map (·.name))) = some ("boxen.g.io", ["v1", "v2"]) :=
  ⟨rfl, tidy, orderlyTypes, run_ok ran_few.1, ran_few.2.1, run_ok ran_all.1, ran_all.2.1, plain_of ran_few.2.2 fine_few, plain_of ran_all.2.2 fine_all, (kind_few _).2 rfl, (kind_all _).2 (.inl rfl),
    named_few, named_all, consistent _ _, by decide +kernel⟩

theorem oneMeta : OneMeta S := by
  have : ∀ p m, S.src.imports p metaPath = some m → m = metaPath := by
    intro p m h
    have h : (if (p = "v1" ∨ p = "v2" ∨ p = "o1") ∧ (metaPath = metaPath ∨ metaPath = "common") then some metaPath else none) = some m := h
    split at h
    · exact (Option.some.inj h).symm
    · cases h
  intro p p' m m' h h'
  rw [this p m h, this p' m' h']

/-- The hypotheses of `C95_files_partial` are met by two runs with another order of the maps and of the packages, with two files. -/
example : S.src.overrides = addKnownTypes false ∧ (∀ p, Tidy (S.src.ctx p)) ∧ OrderlyTypes S ∧ GoNames S ∧ OneMeta S ∧ (∀ q, q ∈ all ↔ q ∈ all') ∧
    generate S opts lifo all = .ok (st lifo all, out lifo all) ∧ (out lifo all).failed = false ∧ generate S opts fifo all' = .ok (st fifo all', out fifo all') ∧ (out fifo all').failed = false ∧
    Plain S (st lifo all) ∧ Plain S (st fifo all') ∧ (∀ gk, KindIn S all gk → ∀ loaded, Consistent S loaded gk) ∧ (out fifo all').files.map (·.1) = ["g.io_boxen.yaml", "o.io_crates.yaml"] :=
  ⟨rfl, tidy, orderlyTypes, goNames, oneMeta, by simp [all, all', or_left_comm, or_comm], run_ok ran_all.1, ran_all.2.1, run_ok ran_all'.1, ran_all'.2.1, plain_of ran_all.2.2 fine_all,
    plain_of ran_all'.2.2 fine_all', fun _ _ _ => consistent _ _, by decide +kernel⟩

/-! ## What does not hold -/

/-- `Box` in the packages `v1` and `v2` of the same group; in `o1`, another kind, with a field of the type `v2.Size`. -/
def other (kind : String) : GSrc where
  src :=
    { ctx := fun self => { ctx self with sel := fun x n => if x = "v2" ∧ n = "Size" then .named (some "v2") n .other else (ctx self).sel x n }
      imports := fun p path => if p = "o1" ∧ path = "v2" then some path else prog.imports p path
      decls := fun p => if p = "v1" then [object "Box" []] else if p = "v2" then [object "Box" [], { name := "Size", type := .struct, fields := [] }]
        else if p = "o1" then [object kind [field "Size" "size" (.selector "v2" "Size")]] else if p = metaPath then [metaD] else []
      path := id
      overrides := addKnownTypes false }
  pkgName := id
  groupName := S.groupName
  versionName := fun _ => none
  crdMarkers := fun id => if id = ⟨"v1", "Box"⟩ then [("kubebuilder:storageversion", [.storageVersion])] else []

/-- The versions of `Box`. -/
def versions (r : Except Stop (State × Out)) : Option (List String) :=
  match r with
  | .ok (st, _) => (GoMap.get st.crds ⟨"g.io", "Box"⟩).map fun c => c.versions.map (·.name)
  | .error _ => none

/-- **C95 does not hold** if not all packages of the kind are named: with `paths=./v1`, the CRD of `Box` has the version `v1`; with `paths=./v1;./o1` it has the version `v2` as well, since the kind `Apple` of another group has a
field with a type of the package `v2`, which is loaded for it (spec.go:57-63 goes through all packages loaded so far); but not if the other kind is `Crate`, which comes after `Box`. -/
theorem C95_violated_other : versions (generate (other "Apple") opts fifo ["v1"]) = some ["v1"] ∧ versions (generate (other "Apple") opts fifo ["v1", "o1"]) = some ["v1", "v2"] ∧
    versions (generate (other "Crate") opts fifo ["v1", "o1"]) = some ["v1"] := by decide +kernel

end Verif.CrdGen.SameSample

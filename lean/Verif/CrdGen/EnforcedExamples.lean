import Verif.CrdGen.EnforcedSource
import Verif.CrdGen.SourceExamples
import Verif.Crd.KnownTheorems
import Verif.Crd.StructTheorems

/-! # C86: a CRD from the comments of a file, and the objects it accepts -/
namespace Verif.CrdGen.SourceSample
open Spec
open Verif.Markers (Value)
open Verif.Crd (PkgCtx TypeIdent metaPath AnyVal Schema Env FState flattenType Field Decl included)
open Verif.Crd.Spec (envOf Valid Meaning Json Tidy Prog Formats TypedDecl AcyclicFrom Distinct Guard Declares Fixed OverrideOf ProgOf Linked OnceDecl NodeOk At Sub Twice FieldIn Enc Breaks Offends)
open Verif.Crd.BreakSample (onceDecl_of typedDecl_of acyclicFrom_of depth fieldIn_iff)

/-! ## The program -/

def boxD : Decl := Verif.Crd.declOf code (world.pk "v1").shape boxT
def metaD : Decl := Verif.Crd.declOf code (world.pk metaPath).shape metaT

def prog : Prog where
  ctx := S'.src.ctx
  decl := fun p n => if p = "v1" ∧ n = "Box" then some boxD else if p = metaPath ∧ n = "TypeMeta" then some metaD else none
  foreign := fun p n j => p = metaPath ∧ n = "ObjectMeta" ∧ ∃ m, j = .obj m

theorem decl_cases {p n : String} {d : Decl} (h : prog.decl p n = some d) : (p = "v1" ∧ n = "Box" ∧ d = boxD) ∨ (p = metaPath ∧ n = "TypeMeta" ∧ d = metaD) := by
  simp only [prog] at h
  split at h
  · rename_i e; cases h; exact .inl ⟨e.1, e.2, rfl⟩
  · split at h
    · rename_i e; cases h; exact .inr ⟨e.1, e.2, rfl⟩
    · cases h

theorem ident_cases {p n : String} {t : Crd.GoType} (h : (S'.src.ctx p).ident n = t) : (n = "string" ∧ t = .basic ⟨.string, "string"⟩) ∨ t = .invalid := by
  have h : (if n = "string" then Crd.GoType.basic ⟨.string, "string"⟩ else .invalid) = t := h
  split at h
  · exact .inl ⟨‹_›, h.symm⟩
  · exact .inr h.symm

theorem sel_cases {p x n : String} {t : Crd.GoType} (h : (S'.src.ctx p).sel x n = t) : (t = .named (some metaPath) n .other ∧ (n = "TypeMeta" ∨ n = "ObjectMeta")) ∨ t = .invalid := by
  have h : (if x = "metav1" ∧ (n = "TypeMeta" ∨ n = "ObjectMeta") then Crd.GoType.named (some metaPath) n .other else .invalid) = t := h
  split at h
  · rename_i e; exact .inl ⟨h.symm, e.2⟩
  · exact .inr h.symm

theorem name_ok {n : String} (h : n = "TypeMeta" ∨ n = "ObjectMeta") : '~' ∉ n.toList := by rcases h with rfl | rfl <;> decide +kernel

theorem tidy (p : String) : Tidy (S'.src.ctx p) := by
  refine ⟨?_, ?_, ?_, ?_, ?_⟩
  · intro n pkg m u e; rcases ident_cases e with ⟨-, e⟩ | e <;> cases e
  · intro n q a pkg m u e; rcases ident_cases e with ⟨-, e⟩ | e <;> cases e
  · intro n q a pkg m u e; rcases ident_cases e with ⟨-, e⟩ | e <;> cases e
  · rintro x n pkg m u (e | e)
    · rcases sel_cases e with ⟨e, hn⟩ | e <;> cases e
      exact ⟨by decide +kernel, name_ok hn⟩
    · rcases sel_cases e with ⟨e, hn⟩ | e <;> cases e
  · intro n hn
    rcases ident_cases (p := p) (n := n) rfl with ⟨rfl, -⟩ | e
    · decide +kernel
    · exact absurd e hn

theorem noOverride (o : Crd.Override) : ¬ OverrideOf S'.src "v1" o := by
  intro h
  unfold OverrideOf at h
  have h2 : (GoMap.get (Crd.addKnownTypes false) (String.ofList (Loader.nonVendorPath "v1".toList))).isNone = true := by decide +kernel
  rw [show GoMap.get (Crd.addKnownTypes false) (String.ofList (Loader.nonVendorPath "v1".toList)) = some o from h] at h2
  cases h2

theorem override_meta {o : Crd.Override} (h : OverrideOf S'.src metaPath o) : o = Crd.metaOverride (Crd.typed "object") := by
  unfold OverrideOf at h
  have e : String.ofList (Loader.nonVendorPath (S'.src.path metaPath).toList) = metaPath := by decide +kernel
  rw [e] at h
  have := Crd.Known.get_meta false
  rw [show S'.src.overrides = Crd.addKnownTypes false from rfl, this] at h
  cases h; rfl

theorem progOf (M : Meaning) : ProgOf M S'.src prog := by
  refine ⟨rfl, fun p n d h => ?_, ?_⟩
  · rcases decl_cases h with ⟨rfl, rfl, rfl⟩ | ⟨rfl, rfl, rfl⟩
    · refine ⟨⟨?_, fun o h => absurd h (noOverride o), [], [], rfl, rfl, nofun⟩, fun s ⟨o, _, _, h, _⟩ => noOverride o h⟩
      rintro ⟨v, vs, h⟩
      revert h
      have : (GoMap.get (S'.src.ctx "v1").markers "kubebuilder:skip").isNone = true := by decide +kernel
      intro h; rw [h] at this; cases this
    · refine ⟨⟨?_, fun o h => by rw [override_meta h]; rfl, [], [], rfl, rfl, nofun⟩, fun s ⟨o, a, b, h, h2, _⟩ => ?_⟩
      · rintro ⟨v, vs, h⟩
        have : (GoMap.get (S'.src.ctx metaPath).markers "kubebuilder:skip").isNone = true := by decide +kernel
        rw [h] at this; cases this
      · rw [override_meta h] at h2
        have h3 : "TypeMeta" ∈ (Crd.metaOverride (Crd.typed "object")).schemata.map (·.1) := by rw [h2]; simp
        revert h3; decide +kernel
  · rintro p n j ⟨rfl, rfl, m, rfl⟩
    refine ⟨Crd.typed "object", ⟨Crd.metaOverride (Crd.typed "object"), [], (Crd.metaOverride (Crd.typed "object")).schemata.tail, ?_, rfl, by decide +kernel⟩, ?_⟩
    · have e : String.ofList (Loader.nonVendorPath (S'.src.path metaPath).toList) = metaPath := by decide +kernel
      unfold OverrideOf
      rw [e]; exact Crd.Known.get_meta false
    · exact Crd.Known.typed_iff.2 (Crd.Known.isObject.2 ⟨m, rfl⟩)

theorem once (p n : String) (d : Decl) (h : prog.decl p n = some d) : OnceDecl d := by
  rcases decl_cases h with ⟨-, -, rfl⟩ | ⟨-, -, rfl⟩ <;> exact onceDecl_of (by decide +kernel)

theorem linked (st : Crd.PState) : Linked prog (envOf S'.src st) := by
  refine Crd.linked_plain (fun _ => rfl) ?_ ?_ (fun pkg n p a r e => by rcases ident_cases e with ⟨-, e⟩ | e <;> cases e) (fun pkg x n p a r e => by rcases sel_cases e with ⟨e, -⟩ | e <;> cases e)
  · intro pkg n p m u e; rcases ident_cases e with ⟨-, e⟩ | e <;> cases e
  · intro pkg x n p m u e
    rcases sel_cases e with ⟨e, hn⟩ | e <;> cases e
    refine ⟨name_ok hn, by decide +kernel, by decide +kernel, fun q hq => ?_⟩
    have e2 : String.ofList (Loader.nonVendorPath metaPath.toList) = metaPath := by decide +kernel
    rw [e2] at hq
    have hq : (if pkg = "v1" ∧ metaPath = metaPath then some metaPath else none) = some q := hq
    split at hq
    · cases hq; rfl
    · cases hq

/-! ## The run -/

def st : State := match generate S' opts sched ["v1"] with | .ok (st, _) => st | .error _ => {}
def out : Out := match generate S' opts sched ["v1"] with | .ok (_, out) => out | .error _ => {}

theorem run_ok : generate S' opts sched ["v1"] = .ok (st, out) := by
  have h : (match generate S' opts sched ["v1"] with | .ok _ => true | .error _ => false) = true := by decide +kernel
  unfold st out
  split
  · rename_i e; simp [e]
  · rename_i e; rw [e] at h; cases h

theorem not_failed : out.failed = false := by decide +kernel
theorem no_errors : NoErrors st := ⟨by decide +kernel, by decide +kernel⟩


/-- The schemas of the parser. -/
def schemata : List (TypeIdent × Schema) :=
  [(⟨"v1", "Box"⟩, .mk { type := "object" } none [.leaf { ref := some "#/definitions/k8s.io~1apimachinery~1pkg~1apis~1meta~1v1~0TypeMeta" }] [] [] none
      [("metadata", .leaf { ref := some "#/definitions/k8s.io~1apimachinery~1pkg~1apis~1meta~1v1~0ObjectMeta" }), ("color", .leaf { type := "string", maxLength := some 3 })] none [] [] none []),
   (⟨metaPath, "ObjectMeta"⟩, .leaf { type := "object" }), (⟨metaPath, "Time"⟩, .leaf { type := "string", format := "date-time" }), (⟨metaPath, "MicroTime"⟩, .leaf { type := "string", format := "date-time" }),
   (⟨metaPath, "Duration"⟩, .leaf { type := "string" }), (⟨metaPath, "Fields"⟩, .mk { type := "object" } none [] [] [] none [] (some (.mk true none)) [] [] none []), (⟨metaPath, "TypeMeta"⟩, .leaf { type := "object" })]

def env : Env := ⟨world.imports, schemata⟩

theorem env_eq : envOf S'.src st.parser = env := by
  have h : st.parser.schemata = schemata := by decide +kernel
  unfold envOf env
  rw [h]; rfl

/-- The schema in the file. -/
def boxCrd : Schema := .mk { type := "object" } none [] [] [] none [("metadata", .leaf { type := "object" }), ("color", .leaf { type := "string", maxLength := some 3 })] none [] [] none []

theorem files_eq : out.files.map (fun f => f.2.versions.map (·.schema)) = [[boxCrd]] := by decide +kernel

def nodesOf (e : TypeIdent × Schema) : List (String × Schema) := env.reachList 4 [(e.1.pkg, e.2)]

theorem env_distinct (id : TypeIdent) (u : Schema) (h : env.raw id = some u) : Distinct env id.pkg u := by
  have h : GoMap.get schemata id = some u := h
  have h1 : ∀ e ∈ schemata, (e.1.pkg, e.2) ∈ nodesOf e ∧ (∀ n ∈ nodesOf e, ∀ n' ∈ env.next n, n' ∈ nodesOf e) ∧ ∀ x ∈ nodesOf e, (env.links 4 x).length ≤ 3 ∧ (env.links 4 x).Nodup := by decide +kernel
  obtain ⟨a, b, c⟩ := h1 (id, u) (get_mem h)
  exact Crd.distinct_of 3 a b c

theorem sound (M : Meaning) : Sound M S' prog st := ⟨⟨false, rfl⟩, tidy, progOf M, linked _, once, by rw [env_eq]; exact env_distinct⟩

def boxRaw : Schema := (env.raw ⟨"v1", "Box"⟩).getD .empty
theorem box_raw : env.raw ⟨"v1", "Box"⟩ = some boxRaw := by decide +kernel
theorem box_acyclic : AcyclicFrom env "v1" boxRaw := acyclicFrom_of (depth env 10) (L := nodesOf (⟨"v1", "Box"⟩, boxRaw)) (by decide +kernel) (by decide +kernel)

/-- What flattening from scratch gives. -/
def boxFlat : Schema := .mk { type := "object" } none [.mk {} none [.leaf { type := "object" }, .empty] [] [] none [] none [] [] none []] [] [] none
  [("metadata", .mk {} none [.leaf { type := "object" }, .empty] [] [] none [] none [] [] none []), ("color", .leaf { type := "string", maxLength := some 3 })] none [] [] none []

def flatOf : Option Schema := match flattenType env .fifo ⟨"v1", "Box"⟩ {} with | .ok (some t, _) => some t | _ => none
theorem flat_eq : ∃ f, flattenType env .fifo ⟨"v1", "Box"⟩ {} = .ok (some boxFlat, f) := by
  have h : flatOf = some boxFlat := by decide +kernel
  unfold flatOf at h
  split at h
  · rename_i e; cases h; exact ⟨_, e⟩
  · cases h

/-- Schemas without additional properties in which no part is a problem for merging can be merged. -/
theorem guard_of {s : Schema} (h : ∀ u, Sub s u → NodeOk u ∧ u.additionalProperties = none) : Guard s := by
  intro v hv _hne
  clear _hne
  have hsub : ∀ v p t, At v p t → Sub v t := by
    intro v p t ht
    induction ht with
    | here => exact .refl
    | allOf hc _ ih => exact .step (.allOf hc) ih
    | prop hc _ ih => exact .step (.property hc) ih
    | addl hc _ ih => exact .step (.additionalProperties hc rfl) ih
  have htrans : ∀ t, Sub v t → Sub s t := by
    intro t ht
    induction hv with
    | refl => exact ht
    | step hc _ ih => exact .step hc (ih (fun u hu => h u (.step hc hu)) ht)
  exact ⟨fun p t _ ht => (h t (htrans t (hsub v p t ht))).1, fun p t u _ _ hu _ => (h u (htrans u (hsub v p u hu))).2⟩

def kidsOf : Nat → List Schema → List Schema
  | 0, l => l
  | n + 1, l => kidsOf n (l ++ (l.flatMap (·.kids)).filter fun x => x ∉ l)

theorem box_guard : Guard boxFlat := by
  refine guard_of (Crd.allSub_of (kidsOf 3 [boxFlat]) (by decide +kernel) (by decide +kernel) ?_)
  have h : ∀ u ∈ kidsOf 3 [boxFlat], u.base.nullable = false ∧ u.base.exclusiveMaximum = false ∧ u.base.exclusiveMinimum = false ∧ u.patternProperties = [] ∧ u.additionalItems = none ∧
    u.additionalProperties = none ∧ (u.properties.map (·.1)).Nodup := by decide +kernel
  intro u hu
  obtain ⟨h1, h2, h3, h4, h5, h6, h7⟩ := h u hu
  exact ⟨⟨h1, h2, h3, h4, h5, by rw [h6]; simp, h7⟩, h6⟩

theorem steps : Steps S' opts sched st.parser st.flattener := by
  obtain ⟨-, -, -, -, -, -, h, -⟩ := generate_spec run_ok not_failed
  exact h

theorem box_merge : CanMerge S' opts sched st ⟨"v1", "Box"⟩ := by
  intro t ht
  obtain ⟨f, hf⟩ := flat_eq
  rw [flattened_scratch (b := false) rfl tidy steps no_errors.1 (by rw [env_eq]; exact env_distinct) (id := ⟨"v1", "Box"⟩) (u := boxRaw) (by rw [env_eq]; exact box_raw) (by rw [env_eq]; exact box_acyclic) .fifo
    (by rw [env_eq]; exact hf) ht]
  exact box_guard

/-! ## The comment, and an object that violates it -/

open Verif.Markers.Source
open Verif.Markers.Collect (Comment)
open Verif.Markers.Collect.Examples (c other)
open Verif.Crd.Spec (On)

theorem on_color : On file color maxLength :=
  ⟨⟨⟨392, [maxLength]⟩, by simp [file], by simp, by decide +kernel⟩, .inl ⟨file.events.take 14, color,
    ⟨some (other 5 290 470), file.events.drop 15, by decide +kernel, .inl ⟨rfl, .inl rfl⟩⟩, ⟨392, [maxLength]⟩, by simp [file], by simp, rfl⟩⟩

theorem says_maxLength (E : Markers.Env) : Crd.Spec.Says E code maxLength false (.maxLength 3) :=
  .value (x := Markers.Spec.showInt 3) (.maxLength 3) (.value (.int (by decide) (by decide))) (by decide +kernel)

theorem i_color : included (prog.ctx "v1") (Crd.fieldOf code (world.pk "v1").shape colorX) = some ⟨"color", false, true⟩ := by decide +kernel

theorem long_color (M : Meaning) : Offends M opts.marshal Markers.exEnv code hist world.pk prog (.decl "v1" "Box") (.obj [("color", .str "green")]) :=
  .field (t := boxT) (f := file) (a := [typeMetaX, objectMetaX]) (x := colorX) (b := []) (k := "color") (om := true) (v := .str "green") (by rw [infos_eq]; decide +kernel) rfl (List.mem_singleton.2 rfl)
    (by decide +kernel) rfl rfl (by decide +kernel) rfl (fieldIn_iff.2 i_color) (fun _ h => nomatch h) rfl
    (.inl (.mark maxLength (.maxLength 3) on_color (says_maxLength _) (by simp) (fun h => absurd (h _ rfl) (by decide +kernel))))

/-! ## An object that violates nothing -/

theorem typed (p n : String) (d : Decl) (h : prog.decl p n = some d) : TypedDecl (prog.ctx p) d := by
  rcases decl_cases h with ⟨rfl, -, rfl⟩ | ⟨rfl, -, rfl⟩ <;> exact typedDecl_of (by decide +kernel)

def red : List (String × Json) := [("color", .str "red")]

theorem i_type : included (prog.ctx "v1") (Crd.fieldOf code (world.pk "v1").shape typeMetaX) = some ⟨"", true, false⟩ := by decide +kernel
theorem i_object : included (prog.ctx "v1") (Crd.fieldOf code (world.pk "v1").shape objectMetaX) = some ⟨"metadata", false, true⟩ := by decide +kernel

theorem enc_meta : Enc prog (.decl metaPath "TypeMeta") (.obj red) :=
  .struct (d := metaD) red (by decide +kernel) rfl rfl (by decide +kernel) (fun _ h => nomatch h) (fun _ h => nomatch h) (fun _ h => nomatch h) (fun _ h => nomatch h)

theorem enc_red : Enc prog (.decl "v1" "Box") (.obj red) := by
  have hd : prog.decl "v1" "Box" = some boxD := by decide +kernel
  have hfs : boxD.fields = [Crd.fieldOf code (world.pk "v1").shape typeMetaX, Crd.fieldOf code (world.pk "v1").shape objectMetaX, Crd.fieldOf code (world.pk "v1").shape colorX] := by decide +kernel
  refine .struct (d := boxD) red hd rfl rfl (by decide +kernel) ?_ ?_ ?_ ?_
  · intro f hf k om v hfi _ hv
    have h := fieldIn_iff.1 hfi
    rw [hfs] at hf
    simp only [List.mem_cons, List.not_mem_nil, or_false] at hf
    rcases hf with rfl | rfl | rfl
    · rw [i_type] at h; cases h
    · rw [i_object] at h; cases h; cases hv
    · rw [i_color] at h; cases h; cases hv
      show Enc prog (.expr "v1" (.ident "string")) _
      refine .ident ?_
      rw [show (prog.ctx "v1").ident "string" = .basic ⟨.string, "string"⟩ by decide +kernel]
      exact .basic (.string "red")
  · intro f hf k om v _ ho
    exact absurd ho ((typed "v1" "Box" boxD hd).noString f hf)
  · intro f hf k om hfi h1 _
    have h := fieldIn_iff.1 hfi
    rw [hfs] at hf
    simp only [List.mem_cons, List.not_mem_nil, or_false] at hf
    rcases hf with rfl | rfl | rfl
    · rw [i_type] at h; cases h
    · exact absurd ((Crd.hasOption_iff (t := "metadata,omitempty".toList) (by decide +kernel) "omitempty").2 (by decide +kernel)) h1
    · rw [i_color] at h; cases h; decide +kernel
  · intro f hf k om hfi
    have h := fieldIn_iff.1 hfi
    rw [hfs] at hf
    simp only [List.mem_cons, List.not_mem_nil, or_false] at hf
    rcases hf with rfl | rfl | rfl
    · show Enc prog (.expr "v1" (.selector "metav1" "TypeMeta")) _
      refine .selector ?_
      rw [show (prog.ctx "v1").sel "metav1" "TypeMeta" = .named (some metaPath) "TypeMeta" .other by decide +kernel]
      exact .named enc_meta
    · rw [i_object] at h; cases h
    · rw [i_color] at h; cases h

theorem valid_red (M : Meaning) : Valid M boxCrd (.obj red) := by
  refine Crd.BreakSample.valid_object (by constructor <;> simp [Crd.Spec.TypeOk, Crd.Spec.HasType, Crd.Spec.MaxOk, Crd.Spec.MinOk]) fun e he v hv => ?_
  simp only [List.mem_cons, List.not_mem_nil, or_false] at he
  rcases he with rfl | rfl
  · cases hv
  · cases hv
    refine Crd.BreakSample.valid_leaf ?_
    constructor <;> simp [Crd.Spec.TypeOk, Crd.Spec.HasType, Crd.Spec.MaxOk, Crd.Spec.MinOk]
    decide +kernel

end Verif.CrdGen.SourceSample

namespace Verif.CrdGen
open Spec SourceSample
open Verif.Crd.Spec (Valid Meaning Formats Json Breaks)

theorem box_version : ∃ f w, f ∈ SourceSample.out.files ∧ w ∈ f.2.versions ∧ w.schema = boxCrd := by
  have h : [boxCrd] ∈ SourceSample.out.files.map (fun f => f.2.versions.map (·.schema)) := by rw [files_eq]; simp
  obtain ⟨f, hf, h⟩ := List.mem_map.1 h
  have h2 : boxCrd ∈ f.2.versions.map (·.schema) := by rw [h]; simp
  obtain ⟨w, hw, h2⟩ := List.mem_map.1 h2
  exact ⟨f, w, hf, hw, h2⟩

theorem box_only {crd : Crd} {w : Version} {gk : GroupKind} {pkg : String} (hv : VersionFor S' ["v1"] crd w gk pkg) : pkg = "v1" ∧ gk.kind = "Box" := by
  have := hv.kind
  rw [← (C32_kinds _ .fifo _ _ meta_of).1, kinds_found, List.mem_singleton] at this
  subst this
  refine ⟨?_, rfl⟩
  by_cases hp : pkg = "v1"
  · exact hp
  · have := hv.inGroup
    rw [show S'.groupName pkg = none by simp only [S', valuesOf, if_neg hp]; rfl] at this
    cases this

theorem red_keeps (M : Meaning) (hM : Formats M) : ¬ Breaks M opts.marshal prog (.decl "v1" "Box") (.obj red) := by
  obtain ⟨f, w, hf, hw, hs⟩ := box_version
  obtain ⟨gk, pkg, u, s, h1, h2, -, h4⟩ := C86_enforced_partial M hM S' opts sched ["v1"] SourceSample.st SourceSample.out run_ok not_failed no_errors prog (sound M) f hf w hw
  obtain ⟨rfl, hk⟩ := box_only h1
  rw [hk, env_eq, box_raw] at h2
  cases h2
  rw [hk, env_eq] at h4
  exact fun hb => (h4 box_merge).1 box_acyclic _ hb (fun c x _ hx => by cases hx) (hs ▸ valid_red M)

/-- C86: the hypotheses of `C86_comments_partial` and of `C86_enforced_partial` hold for the file above: there is one CRD with one version, which rejects an object that violates a comment, and accepts one that does not. -/
example (M : Meaning) (hM : Formats M) : ∃ st out f w, generate S opts sched ["v1"] = .ok (st, out) ∧ f ∈ out.files ∧ w ∈ f.2.versions ∧ ¬ Valid M w.schema (.obj [("color", .str "green")]) ∧
    Valid M w.schema (.obj [("color", .str "red")]) := by
  obtain ⟨f, w, hf, hw, hs⟩ := box_version
  obtain ⟨gk, pkg, u, s, h1, h2, -, h4⟩ := C86_comments_partial (gs := ["webhook", "crd"]) (.inl (by simp)) hist_eq readable M hM opts sched ["v1"] SourceSample.st SourceSample.out
    (show generate S opts sched ["v1"] = _ by rw [S_eq]; exact run_ok) not_failed no_errors prog (show Sound M S prog _ by rw [S_eq]; exact sound M) f hf w hw
  rw [show world.gsrc hist Markers.exEnv code = S' from S_eq] at h1 h2 h4
  obtain ⟨rfl, hk⟩ := box_only h1
  rw [hk, env_eq, box_raw] at h2
  cases h2
  rw [hk, env_eq] at h4
  refine ⟨SourceSample.st, SourceSample.out, f, w, by rw [S_eq]; exact run_ok, hf, hw, h4 box_merge box_acyclic _ (long_color M) (fun c x _ hx => by cases hx), ?_⟩
  obtain ⟨gk, pkg, u, s, h1, h2, -, h4⟩ := C86_enforced_partial M hM S' opts sched ["v1"] SourceSample.st SourceSample.out run_ok not_failed no_errors prog (sound M) f hf w hw
  obtain ⟨rfl, hk⟩ := box_only h1
  rw [hk, env_eq, box_raw] at h2
  cases h2
  rw [hk, env_eq] at h4
  exact (h4 box_merge).2 rfl typed _ enc_red (red_keeps M hM) (fun x hx => by cases hx)

end Verif.CrdGen

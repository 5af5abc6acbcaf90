import Verif.CrdGen.SourceTheorems
import Verif.Webhook.SourceExamples
import Verif.Crd.FromSourceExamples
/-!
# C85: a CRD from the comments of a file
-/
namespace Verif.CrdGen.SourceSample
open Spec
open Verif.Markers (Value)
open Verif.Markers.Collect (Comment Node)
open Verif.Markers.Collect.Examples (c other fileWF)
open Verif.Markers.Source
open Verif.Crd (Package PkgCtx TypeIdent metaPath AnyVal)

/-! ## A file

    // +groupName=g.io
    package v1

    // Box is a kind
    // +kubebuilder:subresource:status
    // +kubebuilder:printcolumn:name=A,type=string,JSONPath=x
    // +kubebuilder:printcolumn:name=B,type=date,JSONPath=y,priority=1
    // +kubebuilder:resource:path=boxen,scope=Cluster
    type Box struct {
        metav1.TypeMeta `json:",inline"`
        metav1.ObjectMeta `json:"metadata,omitempty"`
        // +kubebuilder:validation:MaxLength=3
        Color string `json:"color,omitempty"`
    }
-/

def group : Comment := c 0 "// +groupName=g.io"
def status : Comment := c 50 "// +kubebuilder:subresource:status"
def colA : Comment := c 90 "// +kubebuilder:printcolumn:name=A,type=string,JSONPath=x"
def colB : Comment := c 150 "// +kubebuilder:printcolumn:name=B,type=date,JSONPath=y,priority=1"
def resource : Comment := c 220 "// +kubebuilder:resource:path=boxen,scope=Cluster"

def maxLength : Comment := c 392 "// +kubebuilder:validation:MaxLength=3"

def decl : Node := { id := 2, kind := .genDecl true false, pos := 280, «end» := 470, doc := some 32 }
def box : Node := { id := 4, kind := .typeSpec, pos := 285, «end» := 470 }
def typeMeta : Node := { id := 6, kind := .field, pos := 300, «end» := 335 }
def objectMeta : Node := { id := 7, kind := .field, pos := 340, «end» := 390 }
def color : Node := { id := 9, kind := .field, pos := 432, «end» := 460, doc := some 392 }

def docGroup : Markers.Collect.Group := ⟨32, [c 32 "// Box is a kind", status, colA, colB, resource]⟩

def file : File where
  groups := [⟨0, [group]⟩, docGroup, ⟨392, [maxLength]⟩]
  node := { id := 0, kind := .file, pos := 20, «end» := 471, doc := some 0 }
  children := [.node (other 8 0 18) [], .node (other 1 28 30) [], .node decl [.node (other 3 32 279) [], .node box [.node (other 5 290 470) [.node typeMeta [], .node objectMeta [], .node color [.node (other 10 392 430) []]]]]]

/-- The package of `TypeMeta`: a struct without fields. -/
def metaDecl : Node := { id := 102, kind := .genDecl true false, pos := 20, «end» := 50 }
def metaSpec : Node := { id := 103, kind := .typeSpec, pos := 25, «end» := 50 }

def metaFile : File where
  groups := []
  node := { id := 100, kind := .file, pos := 0, «end» := 51 }
  children := [.node (other 101 8 10) [], .node metaDecl [.node metaSpec []]]

def syn : Syntax where
  typeName n := if n.id = 4 then "Box" else "TypeMeta"
  structFields n := if n.id = 4 then some [typeMeta, objectMeta, color] else none
  names n := if n.id = 9 then ["Color"] else []

def pkg (files : List File) : Package where
  files := files
  syn := syn
  shape := {
    doc := fun _ => []
    tag := fun n => if n.id = 6 then some ",inline".toList else if n.id = 9 then some "color,omitempty".toList else some "metadata,omitempty".toList
    type := fun n => if n.id = 6 then .selector "metav1" "TypeMeta" else if n.id = 7 then .selector "metav1" "ObjectMeta" else if n.id = 9 then .ident "string" else .struct
    jsonMarshaler := fun _ => false
    textMarshaler := fun _ => false }
  σ := fun _ => .lifo

def ctx (self : String) : PkgCtx where
  self := self
  ident := fun n => if n = "string" then .basic ⟨.string, "string"⟩ else .invalid
  sel := fun x n => if x = "metav1" ∧ (n = "TypeMeta" ∨ n = "ObjectMeta") then .named (some metaPath) n .other else .invalid
  exported := fun _ => true

def world : World where
  pk := fun p => if p = "v1" then pkg [file] else if p = metaPath then pkg [metaFile] else pkg []
  τ := fun _ => .lifo
  ctx := ctx
  imports := fun p path => if p = "v1" ∧ path = metaPath then some metaPath else none
  path := id
  overrides := Crd.addKnownTypes false
  pkgName := id

theorem file_wf : file.WF :=
  fileWF (by decide +kernel) (by decide +kernel) (by decide +kernel) (by decide +kernel) (by decide +kernel) (by decide +kernel) rfl (by decide +kernel)

theorem metaFile_wf : metaFile.WF :=
  fileWF (by decide +kernel) (by decide +kernel) (by decide +kernel) (by decide +kernel) (by decide +kernel) (by decide +kernel) rfl (by decide +kernel)

theorem file_parsed : Parsed [file] := by
  refine ⟨fun f hf => by rw [List.mem_singleton.1 hf]; exact file_wf, fun f hf => ?_, by decide +kernel⟩
  rw [List.mem_singleton.1 hf]
  refine ⟨rfl, ?_, ?_⟩
  · intro d hd
    simp only [file, Markers.Each.sub, List.mem_cons, List.not_mem_nil, or_false] at hd
    obtain rfl | rfl | rfl := hd
    · exact .inr rfl
    · exact .inr rfl
    · exact .inl ⟨_, _, rfl⟩
  · intro d hd hk s hs
    simp only [file, Markers.Each.sub, List.mem_cons, List.not_mem_nil, or_false] at hd
    obtain rfl | rfl | rfl := hd
    · cases hs
    · cases hs
    · simp only [Markers.Each.sub, List.mem_cons, List.not_mem_nil, or_false] at hs
      obtain rfl | rfl := hs
      · exact .inr rfl
      · exact .inl rfl

theorem metaFile_parsed : Parsed [metaFile] := by
  refine ⟨fun f hf => by rw [List.mem_singleton.1 hf]; exact metaFile_wf, fun f hf => ?_, by decide +kernel⟩
  rw [List.mem_singleton.1 hf]
  refine ⟨rfl, ?_, ?_⟩
  · intro d hd
    simp only [metaFile, Markers.Each.sub, List.mem_cons, List.not_mem_nil, or_false] at hd
    obtain rfl | rfl := hd
    · exact .inr rfl
    · exact .inl ⟨_, _, rfl⟩
  · intro d hd hk s hs
    simp only [metaFile, Markers.Each.sub, List.mem_cons, List.not_mem_nil, or_false] at hd
    obtain rfl | rfl := hd
    · cases hs
    · simp only [Markers.Each.sub, List.mem_cons, List.not_mem_nil, or_false] at hs
      subst hs
      exact .inl rfl

theorem syn_ok (files : List File) (h : ∀ f ∈ files, ∀ n ∈ f.nodes, n.id = 4 → typeMeta ∈ f.nodes ∧ objectMeta ∈ f.nodes ∧ color ∈ f.nodes) : syn.OK files := by
  intro f hf n hn l hl x hx
  simp only [syn] at hl
  split at hl
  · rename_i h4
    cases hl
    obtain ⟨h1, h2, h3⟩ := h f hf n hn h4
    simp only [List.mem_cons, List.not_mem_nil, or_false] at hx
    obtain rfl | rfl | rfl := hx
    · exact ⟨h1, rfl⟩
    · exact ⟨h2, rfl⟩
    · exact ⟨h3, rfl⟩
  · cases hl

def code : Value → AnyVal := fun _ => .nil
def hist : List (Markers.Def Markers.Loaded) := (Markers.Shipped.history ["webhook", "crd"]).getD []

theorem hist_eq : Markers.Shipped.history ["webhook", "crd"] = some hist := by
  obtain ⟨h, e⟩ := Markers.C68_defined ["webhook", "crd"] (by decide)
  rw [hist, e]; rfl

def S : GSrc := world.gsrc hist Markers.exEnv code

theorem reads_of {files : List File} (h : (match typesOf hist Markers.exEnv syn (fun _ => .lifo) files with | some none => false | _ => true) = true) : typesOf hist Markers.exEnv (pkg files).syn (pkg files).σ (pkg files).files ≠ some none := by
  intro e
  have e' : typesOf hist Markers.exEnv syn (fun _ => .lifo) files = some none := e
  rw [e'] at h
  cases h

theorem pk_cases (p : String) : world.pk p = pkg [file] ∨ world.pk p = pkg [metaFile] ∨ world.pk p = pkg [] := by
  by_cases h1 : p = "v1"
  · exact .inl (if_pos h1)
  · by_cases h2 : p = metaPath
    · exact .inr (.inl ((if_neg h1).trans (if_pos h2)))
    · exact .inr (.inr ((if_neg h1).trans (if_neg h2)))

theorem readable : Readable hist Markers.exEnv world := by
  intro p
  rcases pk_cases p with h | h | h <;> rw [h]
  · refine ⟨file_parsed, syn_ok _ fun f hf n hn h4 => ?_, reads_of (by decide +kernel)⟩
    rw [List.mem_singleton.1 hf]
    exact ⟨by decide +kernel, by decide +kernel, by decide +kernel⟩
  · refine ⟨metaFile_parsed, syn_ok _ fun f hf n hn h4 => ?_, reads_of (by decide +kernel)⟩
    rw [List.mem_singleton.1 hf] at hn
    exfalso; revert n; decide +kernel
  · exact ⟨⟨(fun _ h => nomatch h), (fun _ h => nomatch h), .nil⟩, syn_ok _ (fun _ h => nomatch h), reads_of (by decide +kernel)⟩

/-! ## What is read -/

def typeMetaX : FieldInfo (List (List Char × Value)) := ⟨"", [], typeMeta⟩
def objectMetaX : FieldInfo (List (List Char × Value)) := ⟨"", [], objectMeta⟩
def colorX : FieldInfo (List (List Char × Value)) := ⟨"Color", [("kubebuilder:validation:MaxLength", [[([], .int 3)]])], color⟩
def boxT : TypeInfo (List (List Char × Value)) :=
  ⟨"Box", [("kubebuilder:subresource:status", [[]]),
    ("kubebuilder:printcolumn", [[("name".toList, .str "A".toList), ("type".toList, .str "string".toList), ("JSONPath".toList, .str "x".toList)],
      [("name".toList, .str "B".toList), ("type".toList, .str "date".toList), ("JSONPath".toList, .str "y".toList), ("priority".toList, .int 1)]]),
    ("kubebuilder:resource", [[("path".toList, .str "boxen".toList), ("scope".toList, .str "Cluster".toList)]])], [typeMetaX, objectMetaX, colorX], some decl, box⟩
def metaT : TypeInfo (List (List Char × Value)) := ⟨"TypeMeta", [], [], some metaDecl, metaSpec⟩

theorem infos_box : (pkg [file]).infos hist Markers.exEnv = [boxT] := by decide +kernel
theorem infos_meta : (pkg [metaFile]).infos hist Markers.exEnv = [metaT] := by decide +kernel
theorem infos_nil : (pkg []).infos hist Markers.exEnv = [] := by decide +kernel

def groupVals : Markers.Values (List (List Char × Value)) := [("groupName".toList, [[([], .str "g.io".toList)]])]

theorem values_box : world.values hist Markers.exEnv "v1" = groupVals := by decide +kernel
theorem values_meta : world.values hist Markers.exEnv metaPath = [] := by decide +kernel
theorem values_none : world.values hist Markers.exEnv "none" = [] := by decide +kernel
theorem values_nil {p : String} (h1 : p ≠ "v1") (h2 : p ≠ metaPath) : world.values hist Markers.exEnv p = [] := by
  have h3 : world.pk p = world.pk "none" := (if_neg h1).trans (if_neg h2)
  have h4 := values_none
  unfold World.values at h4 ⊢
  rw [h3]
  exact h4

def infosOf (p : String) : List (TypeInfo (List (List Char × Value))) := if p = "v1" then [boxT] else if p = metaPath then [metaT] else []
def valuesOf (p : String) : Markers.Values (List (List Char × Value)) := if p = "v1" then groupVals else []

theorem infos_eq (p : String) : (world.pk p).infos hist Markers.exEnv = infosOf p := by
  show (if p = "v1" then pkg [file] else if p = metaPath then pkg [metaFile] else pkg []).infos hist Markers.exEnv = _
  unfold infosOf
  split
  · exact infos_box
  · split
    · exact infos_meta
    · exact infos_nil

theorem values_eq (p : String) : world.values hist Markers.exEnv p = valuesOf p := by
  by_cases h1 : p = "v1"
  · rw [h1]; exact values_box
  · rw [show valuesOf p = [] from if_neg h1]
    by_cases h2 : p = metaPath
    · rw [h2]; exact values_meta
    · exact values_nil h1 h2

/-- What the generator sees, without the parser. -/
def S' : GSrc where
  src :=
    { ctx := fun p => { ctx p with markers := Crd.setOf code ((valuesOf p).map fun e => (String.ofList e.1, e.2)) }
      imports := world.imports
      decls := fun p => (infosOf p).map (Crd.declOf code (world.pk p).shape)
      path := id
      overrides := world.overrides }
  pkgName := id
  groupName := fun p => ((valuesOf p).first "groupName".toList).map fun vals => Markers.Args.stringArg vals ""
  versionName := fun p => ((valuesOf p).first "versionName".toList).map fun vals => Markers.Args.stringArg vals ""
  crdMarkers := fun id => ((((infosOf id.pkg).filter fun t => t.name = id.name).getLast?).map fun t => crdSetOf t.markers).getD []

theorem S_eq : S = S' := by
  have h1 : ∀ p, (world.pk p).decls hist Markers.exEnv code = (infosOf p).map (Crd.declOf code (world.pk p).shape) := fun p => by unfold Package.decls; rw [infos_eq]
  have h2 : ∀ id : TypeIdent, world.info hist Markers.exEnv id = ((infosOf id.pkg).filter fun t => t.name = id.name).getLast? := fun id => by unfold World.info; rw [infos_eq]
  have h3 : ∀ name p, world.label hist Markers.exEnv name p = ((valuesOf p).first name.toList).map fun vals => Markers.Args.stringArg vals "" := fun name p => by unfold World.label; rw [values_eq]
  unfold S World.gsrc S'
  simp only [h1, h2, values_eq, GSrc.mk.injEq]
  exact ⟨rfl, rfl, funext (h3 _), funext (h3 _), trivial⟩

def opts : Opts where
  lib := { pluralize := (· ++ "s"), lower := fun s => if s = "Boxs" then "boxs" else if s = "Box" then "box" else s }
  tables := ⟨fun _ => false, fun _ => false⟩
  marshal := fun _ => none
  toolVersion := "v0"
  fuel := 5

def sched : Scheds where
  gen := fun _ => .fifo
  flat := .fifo
  groups := fun _ => .lifo
  crd := fun _ => .lifo
  kinds := .lifo

/-- What can be compared. -/
structure Seen where
  names : List (String × Names × String)
  versions : List (String × Bool)
  status : List Bool
  columns : List (List Column)
  failed : Bool
  crds : List GroupKind
deriving DecidableEq

def seen (r : Except Stop (State × Out)) : Option Seen :=
  match r with
  | .error _ => none
  | .ok (st, out) => some
    { names := st.crds.map fun e => (e.2.name, e.2.names, e.2.scope)
      versions := st.crds.flatMap fun e => e.2.versions.map fun v => (v.name, v.storage)
      status := st.crds.flatMap fun e => e.2.versions.map fun v => (v.sub.getD {}).status
      columns := st.crds.flatMap fun e => e.2.versions.map (·.columns)
      failed := out.failed
      crds := GoMap.keys st.crds }

def expected : Seen where
  names := [("boxen.g.io", { kind := "Box", listKind := "BoxList", plural := "boxen", singular := "box" }, "Cluster")]
  versions := [("v1", true)]
  status := [true]
  columns := [[{ name := "A", type := "string", jsonPath := "x" }, { name := "B", type := "date", jsonPath := "y", priority := 1 }]]
  failed := false
  crds := [⟨"g.io", "Box"⟩]

theorem run_seen : seen (generate S opts sched ["v1"]) = some expected := by rw [S_eq]; decide +kernel

theorem meta_of : MetaOf S' ["v1"] metaPath := findMetav1_some.1 (by decide +kernel)
theorem kinds_found : findKinds S' .fifo metaPath (rooted S' ["v1"]) = [⟨"g.io", "Box"⟩] := by decide +kernel

/-- The hypotheses of `C85_crd_partial` hold, and there is a CRD. -/
theorem case_ok : ∃ st out, generate S opts sched ["v1"] = .ok (st, out) ∧ out.failed = false ∧ KindIn S ["v1"] ⟨"g.io", "Box"⟩ ∧ ∃ crd, GoMap.get st.crds ⟨"g.io", "Box"⟩ = some crd := by
  have h := run_seen
  unfold seen at h
  split at h
  · cases h
  · rename_i st out hr
    simp only [Option.some.injEq, expected, Seen.mk.injEq] at h
    obtain ⟨h1, h2, h3, h4, h5, h6⟩ := h
    refine ⟨st, out, hr, h5, ?_, ?_⟩
    · rw [S_eq, ← (C32_kinds _ .fifo _ _ meta_of).1, kinds_found, List.mem_singleton]
    · cases hc : GoMap.get st.crds ⟨"g.io", "Box"⟩ with
      | none =>
        rw [GoMap.get_eq_none, h6] at hc
        exact absurd (List.mem_singleton_self _) hc
      | some crd => exact ⟨crd, rfl⟩

/-! ## What is written -/

open Verif.Markers.Spec (ShowsArgs ShowsArg Ident)
open Verif.Rbac.SourceExamples Verif.Webhook.SourceExamples

def column : Column := { name := "A", type := "string", jsonPath := "x" }

/-- The arguments of a column. -/
def columnArgs : Markers.Definition := ⟨[⟨"name".toList, .str, false⟩, ⟨"type".toList, .str, false⟩, ⟨"JSONPath".toList, .str, false⟩, ⟨"description".toList, .str, true⟩, ⟨"format".toList, .str, true⟩, ⟨"priority".toList, .int true, true⟩], true⟩

theorem says_colA (E : Markers.Env) : Says E colA (.printColumn column) := by
  refine ⟨"kubebuilder:printcolumn", columnArgs, [("name".toList, .str "A".toList), ("type".toList, .str "string".toList), ("JSONPath".toList, .str "x".toList)], rfl,
    (by simp [arguments, columnArgs]), .arguments (by decide) ⟨"name=A,type=string,JSONPath=x".toList, by decide +kernel, ?_, by decide, by decide⟩, ?_⟩
  · have h2 : ShowsArgs E columnArgs [("JSONPath".toList, .str "x".toList)] ("JSONPath".toList ++ '=' :: "x".toList) :=
      .one (f := ⟨"JSONPath".toList, .str, false⟩) (by simp [columnArgs]) (ident_of (by decide) (by decide)) (str_word (ident_of (by decide) (by decide)) (by decide) (by decide))
    have h1 := arg_cons ⟨"type".toList, .str, false⟩ (by simp [columnArgs]) (ident_of (by decide) (by decide)) (str_word (s := "string") (ident_of (by decide) (by decide)) (by decide) (by decide)) h2
    have h0 := arg_cons ⟨"name".toList, .str, false⟩ (by simp [columnArgs]) (ident_of (by decide) (by decide)) (str_word (s := "A") (ident_of (by decide) (by decide)) (by decide) (by decide)) h1
    have e : "name=A,type=string,JSONPath=x".toList = "name".toList ++ '=' :: "A".toList ++ ',' :: ("type".toList ++ '=' :: "string".toList ++ ',' :: ("JSONPath".toList ++ '=' :: "x".toList)) := by decide +kernel
    rw [e]; exact h0
  · refine ⟨.inl ?_, .inl ?_, .inl ?_, .inr ?_, .inr ?_, none, ?_, rfl⟩ <;> first | decide +kernel | (show _ ∉ _; decide +kernel) | skip

theorem marks_colA : file.Marks colA := ⟨docGroup, by simp [file], by simp [docGroup], by decide +kernel⟩

theorem inDoc_colA : InDoc file box colA :=
  ⟨[.enter file.node none, .enter (other 8 0 18) (some file.node), .leave (other 8 0 18), .enter (other 1 28 30) (some file.node), .leave (other 1 28 30)], decl,
    ⟨some file.node, file.events.drop 6, by decide +kernel, .inr ⟨rfl, rfl, [.enter (other 3 32 279) (some decl), .leave (other 3 32 279)], some decl, file.events.drop 9, by decide +kernel, by decide +kernel⟩⟩,
    docGroup, by simp [file], by simp [docGroup], rfl⟩

theorem named_box {n : Node} {p : String} (h : TypeNamed (world.pk p) "Box" n) : p = "v1" ∧ n = box := by
  obtain ⟨a, b, h1, h2, h3⟩ := h
  by_cases hp : p = "v1"
  · rw [show world.pk p = pkg [file] from if_pos hp] at h1
    have e : ((pkg [file]).files.flatMap fun f => Markers.Each.declared (.node f.node f.children)).map (·.2) = [box] := by decide +kernel
    rw [e] at h1
    have : n ∈ [box] := h1 ▸ (by simp)
    exact ⟨hp, List.mem_singleton.1 this⟩
  · exfalso
    by_cases hm : p = metaPath
    · rw [show world.pk p = pkg [metaFile] from (if_neg hp).trans (if_pos hm)] at h1 h2
      have e : ((pkg [metaFile]).files.flatMap fun f => Markers.Each.declared (.node f.node f.children)).map (·.2) = [metaSpec] := by decide +kernel
      rw [e] at h1
      have : n ∈ [metaSpec] := h1 ▸ (by simp)
      rw [List.mem_singleton.1 this] at h2
      revert h2; decide +kernel
    · rw [show world.pk p = pkg [] from (if_neg hp).trans (if_neg hm)] at h1
      have : n ∈ ([] : List Node) := (show [] = a ++ n :: b from h1) ▸ (by simp)
      cases this

theorem no_version : ∀ g ∈ file.groups, ∀ x ∈ g.comments, ¬ ('+' :: "versionName".toList) <+: textOf x := by decide +kernel

/-- The column is in the CRD, by the theorems alone. -/
theorem column_shown : ∃ st out crd, generate S opts sched ["v1"] = .ok (st, out) ∧ GoMap.get st.crds ⟨"g.io", "Box"⟩ = some crd ∧ (∀ w ∈ crd.versions, column ∈ w.columns) ∧ crd.versions ≠ [] := by
  obtain ⟨st, out, h1, h2, h3, crd, h4⟩ := case_ok
  obtain ⟨labels, hlab, h5⟩ := C85_crd_partial (by simp) hist_eq readable opts sched ["v1"] st out h1 h2 ⟨"g.io", "Box"⟩
  obtain ⟨loaded, entries, -, ⟨pkgs, h6, h7, h8⟩, h9, h10⟩ := h5 h3
  have hone : ∀ e ∈ entries, FromComments Markers.exEnv file box e ∧ e.version ≠ "" := by
    intro e he
    obtain ⟨pkg, hp, hv, ⟨f, n, hf, hn, ht, hc⟩, -⟩ := h8.exists_left he
    obtain ⟨rfl, rfl⟩ := named_box ht
    rw [List.mem_singleton.1 (show f ∈ [file] from hf)] at hc
    refine ⟨hc, ?_⟩
    rcases hv with hv | ⟨-, hv⟩
    · have hl := (hlab "v1").version
      rw [hv] at hl
      obtain ⟨f', hf', x, ⟨g, hg, hx, -⟩, hpre, -⟩ := hl
      rw [List.mem_singleton.1 (show f' ∈ [file] from hf')] at hg
      exact absurd hpre (no_version g hg x hx)
    · rw [hv]; decide
  have hd : DistinctVersions entries := by
    have hlen : pkgs.length ≤ 1 := by
      match pkgs, h6, h7 with
      | [], _, _ => simp
      | [_], _, _ => simp
      | a :: b :: l, h6, h7 =>
        obtain ⟨-, -, -, -, n, hn⟩ := (h7 a).1 (by simp)
        obtain ⟨-, -, -, -, n', hn'⟩ := (h7 b).1 (by simp)
        rw [(named_box hn).1, (named_box hn').1] at h6
        simp at h6
    have hlen' : entries.length ≤ 1 := h8.length_eq ▸ hlen
    unfold DistinctVersions
    match entries, hlen' with
    | [], _ => simp
    | [_], _ => simp
  have hm := h10 crd h4
  refine ⟨st, out, crd, h1, h4, fun w hw => ?_, ?_⟩
  · obtain ⟨e, he, -, hv, hst⟩ := hm.only hd w hw
    obtain ⟨h11, h12⟩ := hone e he
    exact (C85_shown h11 hv hst h12 marks_colA (.inl inDoc_colA) (says_colA _)).1
  · obtain ⟨e, he, hs⟩ := (h9 hd).1 (by rw [h4]; simp)
    obtain ⟨w, hw, -⟩ := hm.versions hd e he hs
    exact List.ne_nil_of_mem hw
end Verif.CrdGen.SourceSample

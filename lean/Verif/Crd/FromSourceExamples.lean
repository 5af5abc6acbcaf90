import Verif.Crd.FromSourceTheorems
import Verif.Markers.InfoExamples
/-!
# C83: a package whose comments are enforced
-/
namespace Verif.Crd.SourceSample
open Spec BreakSample
open Verif.Markers (Value)
open Verif.Markers.Collect (Comment)
open Verif.Markers.Collect.Examples (c other fileWF)
open Verif.Markers.Source

deriving instance DecidableEq for Verif.Crd.Field
deriving instance DecidableEq for Verif.Crd.Decl
deriving instance DecidableEq for Verif.Markers.Source.FieldInfo
deriving instance DecidableEq for Verif.Markers.Source.TypeInfo

/-! ## A file

    package v1

    // +kubebuilder:validation:MaxLength=3
    type Name string

    type Root struct {
        // +required
        // +kubebuilder:validation:MinItems=1
        Names []Name `json:"names,omitempty"`
        // +kubebuilder:validation:items:MinLength=2
        Tags []string `json:"tags"`
    }
-/

def maxLength : Comment := c 12 "// +kubebuilder:validation:MaxLength=3"
def required : Comment := c 90 "// +required"
def minItems : Comment := c 105 "// +kubebuilder:validation:MinItems=1"
def minLength : Comment := c 185 "// +kubebuilder:validation:items:MinLength=2"

def nameDecl : Markers.Collect.Node := { id := 2, kind := .genDecl true false, pos := 51, «end» := 67, doc := some 12 }
def nameSpec : Markers.Collect.Node := { id := 4, kind := .typeSpec, pos := 56, «end» := 67 }
def rootDecl : Markers.Collect.Node := { id := 5, kind := .genDecl true false, pos := 69, «end» := 300 }
def rootSpec : Markers.Collect.Node := { id := 6, kind := .typeSpec, pos := 74, «end» := 300 }
def names : Markers.Collect.Node := { id := 8, kind := .field, pos := 145, «end» := 180, doc := some 90 }
def tags : Markers.Collect.Node := { id := 10, kind := .field, pos := 232, «end» := 260, doc := some 185 }

def file : File where
  groups := [⟨12, [maxLength]⟩, ⟨90, [required, minItems]⟩, ⟨185, [minLength]⟩]
  node := { id := 0, kind := .file, pos := 0, «end» := 302 }
  children := [.node (other 1 8 10) [], .node nameDecl [.node (other 3 12 50) [], .node nameSpec []],
    .node rootDecl [.node rootSpec [.node (other 7 86 300) [.node names [.node (other 9 90 142) []], .node tags [.node (other 11 185 229) []]]]]]

def pkg : Package where
  files := [file]
  syn := { typeName := fun n => if n.id = 4 then "Name" else "Root", structFields := fun n => if n.id = 6 then some [names, tags] else none, names := fun n => if n.id = 8 then ["Names"] else ["Tags"] }
  shape := {
    doc := fun _ => []
    tag := fun n => if n.id = 8 then some "names,omitempty".toList else some "tags".toList
    type := fun n => if n.id = 4 then .ident "string" else if n.id = 6 then .struct else if n.id = 8 then .array false (.ident "Name") else .array false (.ident "string")
    jsonMarshaler := fun _ => false
    textMarshaler := fun _ => false }
  σ := fun _ => .lifo

/-- A package without files. -/
def noPkg : Package := { pkg with files := [] }

def pk (p : String) : Package := if p = "v1" then pkg else noPkg

theorem file_wf : file.WF :=
  fileWF (by decide +kernel) (by decide +kernel) (by decide +kernel) (by decide +kernel) (by decide +kernel) (by decide +kernel) rfl (by decide +kernel)

theorem file_parsed : Parsed [file] := by
  refine ⟨fun f hf => by rw [List.mem_singleton.1 hf]; exact file_wf, fun f hf => ?_, by decide +kernel⟩
  rw [List.mem_singleton.1 hf]
  refine ⟨rfl, ?_, ?_⟩
  · intro d hd
    simp only [file, Markers.Each.sub, List.mem_cons, List.not_mem_nil, or_false] at hd
    obtain rfl | rfl | rfl := hd
    · exact .inr rfl
    · exact .inl ⟨_, _, rfl⟩
    · exact .inl ⟨_, _, rfl⟩
  · intro d hd hk s hs
    simp only [file, Markers.Each.sub, List.mem_cons, List.not_mem_nil, or_false] at hd
    obtain rfl | rfl | rfl := hd
    · cases hs
    · simp only [Markers.Each.sub, List.mem_cons, List.not_mem_nil, or_false] at hs
      obtain rfl | rfl := hs
      · exact .inr rfl
      · exact .inl rfl
    · simp only [Markers.Each.sub, List.mem_cons, List.not_mem_nil, or_false] at hs
      subst hs
      exact .inl rfl

theorem pk_ok (p : String) : Parsed (pk p).files ∧ (pk p).syn.OK (pk p).files := by
  unfold pk
  split
  · refine ⟨file_parsed, fun f hf n hn l hl x hx => ?_⟩
    rw [List.mem_singleton.1 hf] at hn ⊢
    simp only [pkg] at hl
    split at hl
    · cases hl
      simp only [List.mem_cons, List.not_mem_nil, or_false] at hx
      obtain rfl | rfl := hx <;> exact ⟨by decide +kernel, rfl⟩
    · cases hl
  · exact ⟨⟨(fun _ h => nomatch h), (fun _ h => nomatch h), .nil⟩, (fun _ h => nomatch h)⟩

def code : Value → AnyVal := fun _ => .nil
def hist : List (Markers.Def Markers.Loaded) := (Markers.Shipped.history ["crd", "rbac"]).getD []

theorem hist_eq : Markers.Shipped.history ["crd", "rbac"] = some hist := by
  obtain ⟨h, e⟩ := Markers.C68_defined ["crd", "rbac"] (by decide)
  rw [hist, e]; rfl

def nameD : Decl := { name := "Name", type := .ident "string", markers := [mk "MaxLength" (.maxLength 3)] }
def namesF : Field := field "Names" "names,omitempty" (.array false (.ident "Name")) [("required", [none]), mk "MinItems" (.minItems 1)]
def tagsF : Field := field "Tags" "tags" (.array false (.ident "string")) [mk "items:MinLength" (.minLength 2)]
def rootD : Decl := { name := "Root", type := .struct, fields := [namesF, tagsF] }
def ds : List Decl := [nameD, rootD]

def nameT : TypeInfo (List (List Char × Value)) := ⟨"Name", [("kubebuilder:validation:MaxLength", [[([], .int 3)]])], [], some nameDecl, nameSpec⟩
def namesX : FieldInfo (List (List Char × Value)) := ⟨"Names", [("required", [[]]), ("kubebuilder:validation:MinItems", [[([], .int 1)]])], names⟩
def tagsX : FieldInfo (List (List Char × Value)) := ⟨"Tags", [("kubebuilder:validation:items:MinLength", [[([], .int 2)]])], tags⟩
def rootT : TypeInfo (List (List Char × Value)) := ⟨"Root", [], [namesX, tagsX], some rootDecl, rootSpec⟩

/-- What is collected from the file. -/
theorem infos_eq : pkg.infos hist Markers.exEnv = [nameT, rootT] := by decide +kernel

/-- What the parser makes of it. -/
theorem decls_eq : pkg.decls hist Markers.exEnv code = ds := by
  unfold Package.decls
  rw [infos_eq]
  decide +kernel

theorem decls_all (p : String) : (src ds).decls p = (pk p).decls hist Markers.exEnv code := by
  by_cases h : p = "v1"
  · rw [h]; exact decls_eq.symm
  · rw [show (src ds).decls p = [] from if_neg h, show pk p = noPkg from if_neg h]; decide +kernel

/-! ## The program meets the conditions -/

theorem ds_names : Names ds := by decide +kernel
theorem ds_ok : run ds "Root" = .ok (final ds "Root") := run_ok (by decide +kernel)

theorem ds_once (p n : String) (d : Decl) (h : (prog ds).decl p n = some d) : OnceDecl d := by
  have := (decl_of h).2.1
  simp only [ds, List.mem_cons, List.not_mem_nil, or_false] at this
  rcases this with rfl | rfl <;> exact onceDecl_of (by decide +kernel)

def senv : Env := envOf (src ds) (final ds "Root")
def sraw : Schema := (senv.raw ⟨"v1", "Root"⟩).getD .empty
def snodes : List (String × Schema) := senv.reachList 8 [("v1", sraw)]

theorem s_acyclic : AcyclicFrom senv "v1" sraw := acyclicFrom_of (depth senv 10) (L := snodes) (by decide +kernel) (by decide +kernel)
theorem s_distinct : Distinct senv "v1" sraw := distinct_of 3 (L := snodes) (by decide +kernel) (by decide +kernel) (by decide +kernel)

/-! ## The comments -/

theorem on_name : On file nameSpec maxLength :=
  ⟨⟨⟨12, [maxLength]⟩, by simp [file], by simp, by decide +kernel⟩, .inl ⟨[.enter file.node none, .enter (other 1 8 10) (some file.node), .leave (other 1 8 10)], nameDecl,
    ⟨some file.node, file.events.drop 4, by decide +kernel, .inr ⟨rfl, rfl, [.enter (other 3 12 50) (some nameDecl), .leave (other 3 12 50)], some nameDecl, file.events.drop 7, by decide +kernel, by decide +kernel⟩⟩,
    ⟨12, [maxLength]⟩, by simp [file], by simp, rfl⟩⟩

theorem in_names (x : Comment) (h : x = required ∨ x = minItems) : On file names x :=
  ⟨⟨⟨90, [required, minItems]⟩, by simp [file], by simpa using h, by rcases h with rfl | rfl <;> decide +kernel⟩, .inl ⟨file.events.take 12, names,
    ⟨some (other 7 86 300), file.events.drop 13, by decide +kernel, .inl ⟨rfl, .inl rfl⟩⟩, ⟨90, [required, minItems]⟩, by simp [file], by simpa using h, rfl⟩⟩

theorem on_tags : On file tags minLength :=
  ⟨⟨⟨185, [minLength]⟩, by simp [file], by simp, by decide +kernel⟩, .inl ⟨file.events.take 16, tags,
    ⟨some (other 7 86 300), file.events.drop 17, by decide +kernel, .inl ⟨rfl, .inl rfl⟩⟩, ⟨185, [minLength]⟩, by simp [file], by simp, rfl⟩⟩

theorem none_of (n : Markers.Collect.Node) (name : String) (h : ∀ x ∈ [maxLength, required, minItems, minLength], ¬ ('+' :: name.toList) <+: textOf x) : NoneOf file n name := by
  rintro x ⟨g, hg, hx, -⟩ -
  apply h
  simp only [file, List.mem_cons, List.not_mem_nil, or_false] at hg
  rcases hg with rfl | rfl | rfl <;> simp only [List.mem_cons, List.not_mem_nil, or_false] at hx
  · subst hx; simp
  · rcases hx with rfl | rfl <;> simp
  · subst hx; simp

theorem says_maxLength (E : Markers.Env) : Says E code maxLength false (.maxLength 3) := .value (x := Markers.Spec.showInt 3) (.maxLength 3) (.value (.int (by decide) (by decide))) (by decide +kernel)
theorem says_minItems (E : Markers.Env) : Says E code minItems false (.minItems 1) := .value (x := Markers.Spec.showInt 1) (.minItems 1) (.value (.int (by decide) (by decide))) (by decide +kernel)
theorem says_minLength (E : Markers.Env) : Says E code minLength true (.minLength 2) := .value (x := Markers.Spec.showInt 2) (.minLength 2) (.value (.int (by decide) (by decide))) (by decide +kernel)

/-! ## Values that violate them -/

abbrev Off (M : Meaning) (τ : Ty) (j : Json) : Prop := Offends M mute Markers.exEnv code hist pk (prog ds) τ j

theorem i_names : included ((prog ds).ctx "v1") namesF = some ⟨"names", false, true⟩ := by decide +kernel
theorem i_tags : included ((prog ds).ctx "v1") tagsF = some ⟨"tags", false, false⟩ := by decide +kernel
theorem names_eq : fieldOf code pkg.shape namesX = namesF := by decide +kernel
theorem tags_eq : fieldOf code pkg.shape tagsX = tagsF := by decide +kernel
theorem root_eq : (prog ds).decl "v1" "Root" = some (declOf code pkg.shape rootT) := by decide +kernel
theorem name_eq : (prog ds).decl "v1" "Name" = some (declOf code pkg.shape nameT) := by decide +kernel
theorem root_mem : rootT ∈ (pk "v1").infos hist Markers.exEnv := by
  show rootT ∈ pkg.infos hist Markers.exEnv
  rw [infos_eq]; simp
theorem name_mem : nameT ∈ (pk "v1").infos hist Markers.exEnv := by
  show nameT ∈ pkg.infos hist Markers.exEnv
  rw [infos_eq]; simp

/-- `names` is required. -/
theorem no_names (M : Meaning) : Off M (.decl "v1" "Root") (.obj []) :=
  .required (x := namesX) (k := "names") (om := true) (c := required) root_mem root_eq (List.mem_singleton.2 rfl) (by decide +kernel) rfl rfl (by decide +kernel) (by simp [rootT])
    (show FieldIn _ (fieldOf code pkg.shape namesX) _ _ _ by rw [names_eq]; exact fieldIn_iff.2 i_names)
    (in_names _ (.inl rfl)) (.inr ⟨(show textOf required = '+' :: "required".toList by decide +kernel), none_of _ _ (by decide +kernel), none_of _ _ (by decide +kernel)⟩) (by simp)

/-- An empty list of names. -/
theorem empty_names (M : Meaning) : Off M (.decl "v1" "Root") (.obj [("names", .arr [])]) :=
  .field (a := []) (x := namesX) (b := [tagsX]) (k := "names") (om := true) (v := .arr []) root_mem root_eq (List.mem_singleton.2 rfl) (by decide +kernel) rfl rfl (by decide +kernel) rfl
    (show FieldIn _ (fieldOf code pkg.shape namesX) _ _ _ by rw [names_eq]; exact fieldIn_iff.2 i_names)
    (fun y hy om' h => by
      rw [List.mem_singleton.1 hy] at h
      have h : FieldIn ((prog ds).ctx "v1") (fieldOf code pkg.shape tagsX) "names" false om' := h
      rw [tags_eq, fieldIn_iff, i_tags] at h
      revert h; simp)
    rfl (.inl (.mark minItems (.minItems 1) (in_names _ (.inr rfl)) (says_minItems _) (by simp) (by simp [Constraint])))

/-- A tag that is too short. -/
theorem short_tag (M : Meaning) : Off M (.decl "v1" "Root") (.obj [("names", .arr [.str "a"]), ("tags", .arr [.str "ab", .str "x"])]) :=
  .field (a := [namesX]) (x := tagsX) (b := []) (k := "tags") (om := false) (v := .arr [.str "ab", .str "x"]) root_mem root_eq (List.mem_singleton.2 rfl) (by decide +kernel) rfl rfl (by decide +kernel) rfl
    (show FieldIn _ (fieldOf code pkg.shape tagsX) _ _ _ by rw [tags_eq]; exact fieldIn_iff.2 i_tags)
    (fun _ h => nomatch h) rfl (.inr ⟨_, .str "x", rfl, by simp, .mark minLength (.minLength 2) on_tags (says_minLength _) (by simp) (fun h => absurd (h _ rfl) (by decide +kernel))⟩)

/-- `tags` is required, since no comment makes it optional. -/
theorem no_tags (M : Meaning) : Off M (.decl "v1" "Root") (.obj [("names", .arr [.str "a"])]) :=
  .byDefault (x := tagsX) (k := "tags") root_mem root_eq (List.mem_singleton.2 rfl) (by decide +kernel) rfl rfl (by decide +kernel) (by simp [rootT])
    (show FieldIn _ (fieldOf code pkg.shape tagsX) _ _ _ by rw [tags_eq]; exact fieldIn_iff.2 i_tags) (none_of _ _ (by decide +kernel)) (none_of _ _ (by decide +kernel))
    (fun _ ⟨_, _, h⟩ => nomatch h)
    (fun f hf x hx hb => by
      rw [show f = file from List.mem_singleton.1 hf] at hx
      obtain ⟨g, hg, hx, -⟩ := hx
      refine absurd hb ?_
      have : x ∈ [maxLength, required, minItems, minLength] := by
        simp only [file, List.mem_cons, List.not_mem_nil, or_false] at hg
        rcases hg with rfl | rfl | rfl <;> simp only [List.mem_cons, List.not_mem_nil, or_false] at hx
        · subst hx; simp
        · rcases hx with rfl | rfl <;> simp
        · subst hx; simp
      clear hx hb hg
      revert x
      unfold Begins
      decide +kernel) (by simp)

/-- A name that is too long. -/
theorem long_name (M : Meaning) : Off M (.decl "v1" "Root") (.obj [("names", .arr [.str "long"])]) := by
  refine .inside (τ' := .decl "v1" "Name") (j' := .str "long") (.field (d := rootD) (a := []) (f := namesF) (b := [tagsF]) (k := "names") (om := true) (v := .arr [.str "long"]) (by decide +kernel) rfl rfl rfl rfl
    (fieldIn_iff.2 i_names) (fun g hg om' h => ?_) (fun ⟨v, vs, h⟩ => ?_) rfl (.element (x := .str "long") (fun _ h => ?_) (List.mem_singleton.2 rfl) (.ident ?_)))
    (.type name_mem name_eq (List.mem_singleton.2 rfl) (by decide +kernel) (.inl (.mark maxLength (.maxLength 3) on_name (says_maxLength _) (by simp) (fun h => absurd (h _ rfl) (by decide +kernel)))))
  · rw [List.mem_singleton.1 hg, fieldIn_iff, i_tags] at h
    revert h; simp
  · rw [show GoMap.get namesF.markers "kubebuilder:validation:Schemaless" = none by decide +kernel] at h
    cases h
  · revert h; rw [← byteLike_iff]; decide +kernel
  · rw [show ((prog ds).ctx "v1").ident "Name" = .named (some "v1") "Name" (.basic ⟨.string, "string"⟩) by decide +kernel]
    exact .named .refl

end Verif.Crd.SourceSample

namespace Verif.Crd
open Spec SourceSample BreakSample
open Verif.Markers.Source (Parsed typesOf)

/-- C83: all hypotheses of `C83_enforced_partial` are met by one file, whichever other generator is chosen; the flattened schema rejects five values that violate comments in the file. -/
example (M : Meaning) (hM : Formats M) : ∃ t fst, flattenType senv .fifo ⟨"v1", "Root"⟩ {} = .ok (some t, fst) ∧
    ¬ Valid M t (.obj []) ∧ ¬ Valid M t (.obj [("names", .arr [])]) ∧ ¬ Valid M t (.obj [("names", .arr [.str "a"]), ("tags", .arr [.str "ab", .str "x"])]) ∧ ¬ Valid M t (.obj [("names", .arr [.str "long"])]) ∧
    ¬ Valid M t (.obj [("names", .arr [.str "a"])]) := by
  have hd : ∀ u, senv.raw ⟨"v1", "Root"⟩ = some u → u = sraw := fun u hu => by unfold sraw; rw [hu]; rfl
  obtain ⟨u, t, fst, hu, h1, h2⟩ := C83_enforced_partial (M := M) (marshal := mute) (E := Markers.exEnv) (code := code) (gs := ["crd", "rbac"]) (.inl (by simp)) hist_eq pk pk_ok hM (src ds) false rfl decls_all
    (tidy ds_names) (prog ds) (progOf ds_names M) ds_once (fun _ => .fifo) 5 "v1" "Root" {} (final ds "Root") .start ds_ok (by decide +kernel) (linked ds_names _)
    (fun u hu => by rw [hd u hu]; exact s_distinct) .fifo
  have e := hd u hu
  subst e
  obtain ⟨h2, -⟩ := h2 s_acyclic
  exact ⟨t, fst, h1, h2 _ (no_names M), h2 _ (empty_names M), h2 _ (short_tag M), h2 _ (long_name M), h2 _ (no_tags M)⟩

/-- The hypotheses of `C83_program` hold of the file as well. -/
example : Parsed pkg.files ∧ pkg.syn.OK pkg.files ∧ typesOf hist Markers.exEnv pkg.syn pkg.σ pkg.files ≠ some none := by
  refine ⟨(pk_ok "v1").1, (pk_ok "v1").2, fun h => ?_⟩
  have h2 := infos_eq
  unfold Package.infos at h2
  rw [h] at h2
  cases h2

end Verif.Crd

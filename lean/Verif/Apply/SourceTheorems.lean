import Verif.Apply.SourceSpec
import Verif.Apply.Theorems
import Verif.Markers.CommentLemmas
/-!
# C88: apply configurations are generated for the types for which comments in the source ask for them
-/
namespace Verif.Apply
open Verif Verif.Apply.Spec
open Verif.Markers (Str Value Def Loaded Env Values Definition Marker valuesIn)
open Verif.Markers.Args
open Verif.Markers.Source (File Syntax Parsed Declared SetsTo IsString Begins Written Chosen Faithful TypeValues PkgValues PkgOnlyValues TypeSet PkgSet PkgSilent Silent OnType markersOf typesOf associate faulty fileValues
  lookupIn parseWith toTarget textOf)
open Verif.Markers.Collect (Comment Node Attached associateFile)

variable {gs : List String} {hist : List (Def Loaded)} {E : Env} {r : SourceRoot}

/-! ## Definitions -/

set_option maxRecDepth 100000 in
theorem apply_rows : ([("kubebuilder:ac:generate", Markers.Target.package, (⟨[⟨[], .bool, false⟩], true⟩ : Definition)), ("kubebuilder:ac:output:package", .package, ⟨[⟨[], .str, false⟩], true⟩),
    ("kubebuilder:ac:generate", .type, ⟨[⟨[], .bool, false⟩], true⟩), ("kubebuilder:resource", .type, resourceArgs)].all fun x =>
      (Markers.Shipped.applyMarkers.any fun m => decide (m.name = x.1.toList) && decide (m.target = x.2.1) && decide (m.define.map m.parser = some x.2.2)) && decide (x.1.toList ≠ "default".toList)) = true := by decide +kernel

theorem apply_chosen (hg : "applyconfiguration" ∈ gs) {k : String} {t : Markers.Target} {d : Definition}
    (h : (k, t, d) ∈ [("kubebuilder:ac:generate", Markers.Target.package, (⟨[⟨[], .bool, false⟩], true⟩ : Definition)), ("kubebuilder:ac:output:package", .package, ⟨[⟨[], .str, false⟩], true⟩),
      ("kubebuilder:ac:generate", .type, ⟨[⟨[], .bool, false⟩], true⟩), ("kubebuilder:resource", .type, resourceArgs)]) :
    (∃ m, Chosen gs t m d ∧ m.name = k.toList) ∧ k.toList ≠ "default".toList := by
  have h1 := List.all_eq_true.1 apply_rows _ h
  simp only [Bool.and_eq_true, decide_eq_true_eq, List.any_eq_true] at h1
  obtain ⟨⟨m, hm, ⟨h2, h3⟩, h4⟩, h5⟩ := h1
  obtain ⟨df, hd, e⟩ := Option.map_eq_some_iff.1 h4
  exact ⟨⟨m, ⟨"applyconfiguration", hg, _, by simp [Markers.Shipped.registers], hm, h3, df, hd, e⟩, h2⟩, h5⟩

set_option maxRecDepth 100000 in
theorem output_rows : (Markers.Shipped.table.all fun m => decide (m.target = .type → ¬ m.name <+: "kubebuilder:ac:output:package".toList ∧ ¬ "kubebuilder:ac:output:package".toList <+: m.name)) = true := by decide +kernel

theorem output_only (raw : List Char) (h : "kubebuilder:ac:output:package".toList <+: raw) : ∀ m ∈ Markers.Shipped.table, m.target = .type → ¬ m.name <+: raw := by
  intro m hm ht hp
  have h1 := List.all_eq_true.1 output_rows m hm
  simp only [decide_eq_true_eq] at h1
  rcases List.prefix_or_prefix_of_prefix h hp with h2 | h2
  · exact (h1 ht).2 h2
  · exact (h1 ht).1 h2

/-! ## Values -/

theorem valsOf_keys (v : Values (List (Str × Value))) : GoMap.keys (valsOf v) = GoMap.keys v := by
  simp [valsOf, GoMap.keys, Function.comp_def]

theorem valsOf_ok {v : Values (List (Str × Value))} (h : GoMap.WF v) : Values.OK (valsOf v) := by
  refine ⟨by rw [GoMap.WF, valsOf_keys]; exact h, ?_, ?_⟩
  · rintro x ⟨vs, hv⟩
    obtain ⟨e, -, he⟩ := List.mem_map.1 hv
    obtain ⟨h1, h2⟩ := Prod.mk.inj he
    rw [h1] at h2
    cases h3 : e.2 with
    | nil => rw [h3] at h2; cases h2
    | cons a as =>
      rw [h3, List.map_cons, List.cons.injEq] at h2
      exact ⟨boolArg a "", by rw [← h2.1]; rfl⟩
  · rintro x ⟨vs, hv⟩
    obtain ⟨e, -, he⟩ := List.mem_map.1 hv
    obtain ⟨h1, h2⟩ := Prod.mk.inj he
    rw [h1] at h2
    cases h3 : e.2 with
    | nil => rw [h3] at h2; cases h2
    | cons a as =>
      rw [h3, List.map_cons, List.cons.injEq] at h2
      refine ⟨(stringArg a "").toList, ?_⟩
      rw [← h2.1, valOf, if_neg (by decide +kernel)]
      exact if_pos rfl

theorem get_valsOf (k : Str) : ∀ v : Values (List (Str × Value)), GoMap.get (valsOf v) k = (GoMap.get v k).map (List.map (valOf k))
  | [] => rfl
  | (k', x) :: v => by
    have ih := get_valsOf k v
    unfold valsOf at ih ⊢
    by_cases h : k' = k
    · subst h; simp [GoMap.get]
    · simp only [List.map_cons, GoMap.get, if_neg h, ih]

theorem get_toList {α : Type} (k : String) : ∀ v : List (String × α), GoMap.get (v.map fun e => (e.1.toList, e.2)) k.toList = GoMap.get v k
  | [] => rfl
  | (k', x) :: v => by
    have ih := get_toList k v
    by_cases h : k' = k
    · subst h; simp [GoMap.get]
    · simp only [List.map_cons, GoMap.get, if_neg h, if_neg (fun e => h (String.toList_injective e)), ih]

theorem wf_toList {α : Type} {v : List (String × α)} (h : GoMap.WF v) : GoMap.WF (v.map fun e => (e.1.toList, e.2)) := by
  simp only [GoMap.WF, GoMap.keys, List.map_map, Function.comp_def] at h ⊢
  rw [show (fun e : String × α => e.1.toList) = String.toList ∘ Prod.fst from rfl, ← List.map_map]
  exact List.pairwise_map.2 (List.Pairwise.imp (fun h1 h2 => h1 (String.toList_injective h2)) h)

theorem first_valsOf (v : Values (List (Str × Value))) (k : Str) : (valsOf v).first k = (((GoMap.get v k).getD []).map (valOf k)).head? := by
  unfold Markers.Values.first
  rw [get_valsOf]
  cases GoMap.get v k <;> rfl

theorem valuesIn_valsOf (v : Values (List (Str × Value))) (k : Str) : valuesIn k (valsOf v) = (valuesIn k v).map (valOf k) := by
  induction v with
  | nil => rfl
  | cons e v ih =>
    simp only [valsOf, valuesIn, List.map_cons, List.flatMap_cons, List.map_append] at ih ⊢
    rw [ih]
    congr 1
    split
    · rename_i h; rw [h]
    · rfl

theorem fileValues_wf (f : File) (x : List (Node × List Markers.Collect.MarkerComment)) : GoMap.WF (fileValues (lookupIn hist) (fun d => String.ofList d.name) (parseWith E) f x) :=
  wf_toList (Markers.Source.parseNode_wf _ _ _ _ (by simp [GoMap.WF, GoMap.keys]))

/-! ## Packages -/

theorem markers_some {m : List (Values Val) × List TypeInfo} (hm : r.markers hist E = some (some m)) : ∃ rs infos, associate (lookupIn hist) r.σ 0 r.files = some rs ∧
    typesOf hist E r.syn r.σ r.files = some (some infos) ∧ m.1 = (List.zipWith (fileValues (lookupIn hist) (fun d => String.ofList d.name) (parseWith E)) r.files rs).map valsOf ∧ m.2 = infos.map infoOf := by
  unfold SourceRoot.markers at hm
  split at hm
  · cases hm
  · rename_i rs infos h1 h2
    cases hm
    exact ⟨rs, infos, h1, h2, rfl, rfl⟩
  · cases hm

theorem infos_wf {infos : List (Markers.Source.TypeInfo (List (Str × Value)))} (h : typesOf hist E r.syn r.σ r.files = some (some infos)) {t : Markers.Source.TypeInfo (List (Str × Value))} (ht : t ∈ infos) :
    GoMap.WF t.markers := by
  unfold typesOf Markers.Source.eachInfo at h
  split at h
  · cases h
  split at h
  · cases h
  cases h
  obtain ⟨e, -, rfl⟩ := List.mem_map.1 ht
  exact Markers.Source.parseNode_wf _ _ _ _ (by simp [GoMap.WF, GoMap.keys])

theorem source_ok {m : Option (List (Values Val) × List TypeInfo)} (hm : r.markers hist E = some m) : Root.OK ⟨r.dir, r.pkgPath, r.goFiles, m⟩ := by
  constructor
  · rintro fs ts rfl f hf
    obtain ⟨rs, infos, -, -, h3, -⟩ := markers_some hm
    simp only at h3
    subst h3
    obtain ⟨w, hw, rfl⟩ := List.mem_map.1 hf
    refine valsOf_ok ?_
    rw [Markers.Source.mem_zipWith] at hw
    obtain ⟨p, -, rfl⟩ := hw
    exact fileValues_wf _ _
  · rintro fs ts rfl t ht
    obtain ⟨rs, infos, -, h2, -, h4⟩ := markers_some hm
    simp only at h4
    subst h4
    obtain ⟨i, hi, rfl⟩ := List.mem_map.1 ht
    exact valsOf_ok (wf_toList (infos_wf h2 hi))

theorem head_conv {α β γ : Type} {f : α → γ} {g : α → β} {c : β → γ} (hc : ∀ a, f a = c (g a)) (l : List α) (v : γ) : (l.map f).head? = some v ↔ ∃ b rest, v = c b ∧ l.map g = b :: rest := by
  cases l with
  | nil => simp
  | cons a as =>
    simp only [List.map_cons, List.head?_cons, Option.some.injEq, hc, List.cons.injEq]
    constructor
    · rintro rfl; exact ⟨g a, _, rfl, rfl, rfl⟩
    · rintro ⟨b, rest, rfl, rfl, -⟩; rfl

theorem valOf_generate (a : List (Str × Value)) : valOf "kubebuilder:ac:generate".toList a = .bool (boolArg a "") := if_pos rfl

theorem valOf_output (a : List (Str × Value)) : valOf "kubebuilder:ac:output:package".toList a = .str (stringArg a "").toList := by
  rw [valOf, if_neg (by decide +kernel)]
  exact if_pos rfl

/-- The values of the markers of the package. -/
def pkgGenerate (res : Values (List (Str × Value))) : List Bool := ((GoMap.get res "kubebuilder:ac:generate".toList).getD []).map fun v => boolArg v ""
def pkgOutput (res : Values (List (Str × Value))) : List String := ((GoMap.get res "kubebuilder:ac:output:package".toList).getD []).map fun v => stringArg v ""

theorem package_values {m : List (Values Val) × List TypeInfo} (hm : r.markers hist E = some (some m)) : ∃ res, markersOf hist E r.σ r.τ r.files = some (some res) ∧
    (∀ v, PkgSays m.1 "kubebuilder:ac:generate" v ↔ ∃ b rest, v = .bool b ∧ pkgGenerate res = b :: rest) ∧
    (∀ v, PkgSays m.1 "kubebuilder:ac:output:package" v ↔ ∃ s rest, v = .str s.toList ∧ pkgOutput res = s :: rest) := by
  obtain ⟨rs, infos, h1, h2, h3, -⟩ := markers_some hm
  obtain ⟨res, hres⟩ := Markers.Source.markersOf_some h2 r.τ
  refine ⟨res, hres, ?_⟩
  have hwf0 : ∀ w ∈ List.zipWith (fileValues (lookupIn hist) (fun d => String.ofList d.name) (parseWith E)) r.files rs, GoMap.WF w := by
    intro w hw
    rw [Markers.Source.mem_zipWith] at hw
    obtain ⟨p, -, rfl⟩ := hw
    exact fileValues_wf _ _
  have hwf : ∀ w ∈ m.1, GoMap.WF w := fun w hw => ((source_ok hm).files m.1 m.2 rfl w hw).wf
  have key : ∀ (k : String) v, PkgSays m.1 k v ↔ (((GoMap.get res k.toList).getD []).map (valOf k.toList)).head? = some v := by
    intro k v
    obtain ⟨res', h4, h5⟩ := pkgFirst r.τ hwf k
    rw [← h5]
    obtain ⟨res2, h6, h7, -⟩ := Markers.C69_values r.τ hwf k.toList
    obtain ⟨res3, h8, h9, -⟩ := Markers.C69_values r.τ hwf0 k.toList
    rw [show Markers.packageMarkers r.τ (some m.1) = some res' from h4] at h6
    cases h6
    have : res3 = res := by
      unfold markersOf Markers.Source.packageValues at hres
      rw [h1] at hres
      simp only at hres
      split at hres
      · cases hres
      · rw [h8] at hres; cases hres; rfl
    subst this
    rw [h9, List.map_flatMap]
    have e : res'.first k.toList = ((GoMap.get res' k.toList).getD []).head? := by
      unfold Markers.Values.first
      cases GoMap.get res' k.toList <;> rfl
    rw [e, h7, h3, List.flatMap_map]
    simp only [valuesIn_valsOf]
  exact ⟨fun v => (key _ v).trans (head_conv (c := Val.bool) valOf_generate _ v), fun v => (key _ v).trans (head_conv (c := fun s : String => Val.str s.toList) valOf_output _ v)⟩

theorem sourceSays (hg : "applyconfiguration" ∈ gs) (hh : Markers.Shipped.history gs = some hist) {files : List File} (hf : ∀ f ∈ files, f.WF) {σ : Nat → Sched} {τ : Sched} {res : Values (List (Str × Value))}
    (hres : markersOf hist E σ τ files = some (some res)) : SourceSays E files (pkgGenerate res) (pkgOutput res) := by
  obtain ⟨h1, k1⟩ := apply_chosen (t := .package) (k := "kubebuilder:ac:generate") (d := ⟨[⟨[], .bool, false⟩], true⟩) hg (by simp)
  obtain ⟨h2, k2⟩ := apply_chosen (t := .package) (k := "kubebuilder:ac:output:package") (d := ⟨[⟨[], .str, false⟩], true⟩) hg (by simp)
  obtain ⟨h3, -⟩ := apply_chosen (t := .type) (k := "kubebuilder:ac:generate") (d := ⟨[⟨[], .bool, false⟩], true⟩) hg (by simp)
  refine ⟨Markers.Source.pkgValues_of hh hf hres h1 h3 fun c v h => Markers.Source.setsTo_written k1 h, Markers.Source.pkgOnly_of hh hf hres h2 output_only ?_ fun c v h => Markers.Source.isString_written k2 h⟩
  rintro c v ⟨x, h, -⟩
  exact ⟨'=' :: x, by rw [h]; rfl⟩

/-! ## Types -/

def typeGenerate (t : List (String × List (List (Str × Value)))) : List Bool := ((GoMap.get t "kubebuilder:ac:generate").getD []).map fun v => boolArg v ""
def typeResource (t : List (String × List (List (Str × Value)))) : List Unit := ((GoMap.get t "kubebuilder:resource").getD []).map fun _ => ()

theorem enabled_iff {t : Markers.Source.TypeInfo (List (Str × Value))} (hw : GoMap.WF t.markers) : TypeEnabled (infoOf t) ↔ Enabled (typeGenerate t.markers) (typeResource t.markers) := by
  have hok : GoMap.WF (infoOf t).markers := (valsOf_ok (wf_toList hw)).wf
  have key : ∀ (k : String) v, Says (infoOf t).markers k v ↔ (((GoMap.get t.markers k).getD []).map (valOf k.toList)).head? = some v := by
    intro k v
    rw [← first_iff hok, infoOf, first_valsOf, get_toList]
  have hg : ∀ v, Says (infoOf t).markers "kubebuilder:ac:generate" v ↔ ∃ b rest, v = .bool b ∧ typeGenerate t.markers = b :: rest := by
    intro v
    exact (key _ v).trans (head_conv (c := Val.bool) valOf_generate _ v)
  have hr : (∃ v, Says (infoOf t).markers "kubebuilder:resource" v) ↔ typeResource t.markers ≠ [] := by
    simp only [key, typeResource]
    cases (GoMap.get t.markers "kubebuilder:resource").getD [] with
    | nil => simp
    | cons a as => simp
  unfold TypeEnabled Enabled
  rw [hr]
  simp only [hg]
  constructor
  · rintro (⟨b, rest, e, h⟩ | ⟨h1, h2⟩)
    · cases e; exact .inl ⟨rest, h⟩
    · refine .inr ⟨?_, h2⟩
      cases h3 : typeGenerate t.markers with
      | nil => rfl
      | cons b rest => exact absurd ⟨b, rest, rfl, h3⟩ (h1 _)
  · rintro (⟨rest, h⟩ | ⟨h1, h2⟩)
    · exact .inl ⟨_, rest, rfl, h⟩
    · refine .inr ⟨?_, h2⟩
      rintro v ⟨b, rest, -, h3⟩
      rw [h1] at h3; cases h3

theorem typeSays (hg : "applyconfiguration" ∈ gs) {f : File} {n : Node} {markers : List (String × List (List (List Char × Value)))} (hF : Faithful gs E f n markers) (ht : toTarget n.target = .type) :
    TypeSays E f n (typeGenerate markers) (typeResource markers) := by
  obtain ⟨h1, k1⟩ := apply_chosen (t := .type) (k := "kubebuilder:ac:generate") (d := ⟨[⟨[], .bool, false⟩], true⟩) hg (by simp)
  obtain ⟨h2, k2⟩ := apply_chosen (t := .type) (k := "kubebuilder:resource") (d := resourceArgs) hg (by simp)
  exact ⟨Markers.Source.typeValues_of hF ht h1 fun c v h => Markers.Source.setsTo_written k1 h, Markers.Source.typeValues_of hF ht h2 fun c v ⟨vals, h⟩ => ⟨vals, h, rfl⟩⟩

/-! ## The property -/

/-- **C88** (never panics): whatever the comments are, generating for a package ends.  If some marker that is attached to a node does not parse, nothing is generated for the package; the error is not reported
(`C70_violated_error`). -/
theorem C88_total (h : Parsed r.files) (lib : Library) (header : Str) (hu : ∀ u, lib.load r.pkgPath = some (some u) → GoMap.WF u) : (∃ q e, r.generate hist E lib header = .done q e) ∧
    ((∃ f ∈ r.files, ∃ ρ a n c b d e, associateFile (lookupIn hist) ρ f.groups f.node f.children = some a ∧ Attached a n c b ∧ lookupIn hist (textOf c) n.target = some d ∧ parseWith E d (textOf c) = .error e) →
      r.generate hist E lib header = .done none false) := by
  obtain ⟨res, h1, h2⟩ := Markers.Source.C82_fails (hist := hist) (E := E) r.syn r.σ h
  obtain ⟨rs, hrs⟩ := Markers.Source.associate_some (lookup := lookupIn hist) (σ := r.σ) h.wf 0
  cases res with
  | none =>
    have hm : r.markers hist E = some none := by unfold SourceRoot.markers; rw [hrs, h1]
    have : r.generate hist E lib header = .done none false := by
      unfold SourceRoot.generate
      rw [hm]
      exact Example.C70_violated_error _ _ _ rfl
    exact ⟨⟨_, _, this⟩, fun _ => this⟩
  | some infos =>
    constructor
    · have hm : ∃ m, r.markers hist E = some (some m) := by unfold SourceRoot.markers; rw [hrs, h1]; exact ⟨_, rfl⟩
      obtain ⟨m, hm⟩ := hm
      unfold SourceRoot.generate
      rw [hm]
      exact C70_no_panic r.τ lib header (source_ok hm) hu
    · intro hx; cases h2.2 hx

theorem generate_done {lib : Library} {header : Str} {q : Option Request} {e : Bool} (hr : r.generate hist E lib header = .done q e) :
    ∃ m, r.markers hist E = some m ∧ generateForPackage r.τ lib header ⟨r.dir, r.pkgPath, r.goFiles, m⟩ = .done q e := by
  unfold SourceRoot.generate at hr
  cases hm : r.markers hist E with
  | none => rw [hm] at hr; cases hr
  | some m => rw [hm] at hr; exact ⟨m, rfl, hr⟩

/-- **C88** (packages that are not enabled): nothing is generated, without an error, if the comments of the package do not begin with `+kubebuilder:ac:generate`, or only set it to `false`. -/
theorem C88_disabled_package (hg : "applyconfiguration" ∈ gs) (hh : Markers.Shipped.history gs = some hist) (h : Parsed r.files) (lib : Library) (header : Str)
    (hc : PkgSet E r.files "kubebuilder:ac:generate" false ∨ PkgSilent r.files "kubebuilder:ac:generate") : r.generate hist E lib header = .done none false := by
  obtain ⟨rs, hrs⟩ := Markers.Source.associate_some (lookup := lookupIn hist) (σ := r.σ) h.wf 0
  obtain ⟨res, h1, -⟩ := Markers.Source.C82_fails (hist := hist) (E := E) r.syn r.σ h
  unfold SourceRoot.generate
  cases res with
  | none =>
    have hm : r.markers hist E = some none := by unfold SourceRoot.markers; rw [hrs, h1]
    rw [hm]
    exact Example.C70_violated_error _ _ _ rfl
  | some infos =>
    have hm : ∃ m, r.markers hist E = some (some m) := by unfold SourceRoot.markers; rw [hrs, h1]; exact ⟨_, rfl⟩
    obtain ⟨m, hm⟩ := hm
    rw [hm]
    obtain ⟨res, hres, h2, -⟩ := package_values hm
    refine C70_disabled r.τ lib header (source_ok hm) (files := m.1) (types := m.2) rfl (.inl fun h3 => ?_)
    obtain ⟨b, rest, h4, h5⟩ := (h2 _).1 h3
    cases h4
    have hs := (sourceSays hg hh h.wf hres).generate
    rcases hc with hc | hc
    · obtain ⟨rest', h6⟩ := Markers.Source.pkg_set hs hc
      rw [h6] at h5; cases h5
    · rw [Markers.Source.pkg_none hs hc] at h5; cases h5

/-- **C88** (enabled packages): if all markers parse, the comments of the package set `+kubebuilder:ac:generate` to `true` and the library can load the package, it is asked to generate. -/
theorem C88_asked (hg : "applyconfiguration" ∈ gs) (hh : Markers.Shipped.history gs = some hist) (h : Parsed r.files) (lib : Library) (header : Str) {infos : List (Markers.Source.TypeInfo (List (Str × Value)))}
    (hi : typesOf hist E r.syn r.σ r.files = some (some infos)) (hc : PkgSet E r.files "kubebuilder:ac:generate" true) (hgo : r.goFiles ≠ []) {u : List (Str × Comments)} (hu : GoMap.WF u)
    (hl : lib.load r.pkgPath = some (some u)) : ∃ q, r.generate hist E lib header = .done (some q) (!lib.execute q) := by
  obtain ⟨rs, hrs⟩ := Markers.Source.associate_some (lookup := lookupIn hist) (σ := r.σ) h.wf 0
  have hm : ∃ m, r.markers hist E = some (some m) := by unfold SourceRoot.markers; rw [hrs, hi]; exact ⟨_, rfl⟩
  obtain ⟨m, hm⟩ := hm
  obtain ⟨res, hres, h2, -⟩ := package_values hm
  obtain ⟨rest, h3⟩ := Markers.Source.pkg_set (sourceSays hg hh h.wf hres).generate hc
  obtain ⟨q, h4, -⟩ := C70_types_partial r.τ lib header (source_ok hm) (files := m.1) (types := m.2) rfl ((h2 _).2 ⟨true, rest, rfl, h3⟩) hgo hu hl
  refine ⟨q, ?_⟩
  unfold SourceRoot.generate
  rw [hm]
  exact h4

/-- The markers of a type that is reported. -/
def marksAt (infos : List (Markers.Source.TypeInfo (List (Str × Value)))) (n : Node) : List (String × List (List (Str × Value))) :=
  match infos.find? fun t => t.spec = n with
  | some t => t.markers
  | none => []

theorem marksAt_eq {infos : List (Markers.Source.TypeInfo (List (Str × Value)))} (h : ∀ t ∈ infos, ∀ t' ∈ infos, t.spec = t'.spec → t.markers = t'.markers) {t : Markers.Source.TypeInfo (List (Str × Value))} (ht : t ∈ infos) :
    marksAt infos t.spec = t.markers := by
  unfold marksAt
  cases hf : infos.find? fun t' => t'.spec = t.spec with
  | none => exact absurd (List.find?_eq_none.1 hf t ht) (by simp)
  | some t' =>
    have h6 := List.find?_some hf
    simp only [decide_eq_true_eq] at h6
    simp only [h t' (List.mem_of_find?_eq_some hf) t ht h6]

/-- **C88**: whichever generators are chosen along with this one: if the library is asked to generate for a package, then the comments of the package enable it; it is asked to write below the directory that they name, or
`applyconfiguration`; and to generate for the types that are tagged `+genclient` or that are enabled by the comments on them, and for no others.  Guard: no comment of the type has the line `// +genclient`
(`C70_violated_commented`). -/
theorem C88_types_partial (hg : "applyconfiguration" ∈ gs) (hh : Markers.Shipped.history gs = some hist) (h : Parsed r.files) (hs : r.syn.OK r.files) (lib : Library) (header : Str)
    {u : List (Str × Comments)} (hu : GoMap.WF u) (hl : lib.load r.pkgPath = some (some u)) {q : Request} {e : Bool} (hr : r.generate hist E lib header = .done (some q) e) :
    e = !lib.execute q ∧ q.header = header ∧
    (∃ generate output, SourceSays E r.files generate output ∧ (∃ rest, generate = true :: rest) ∧
      q.dir = Genall.joinPath r.dir (output.headD "applyconfiguration").toList ∧ q.pkg = Genall.joinPath r.pkgPath (output.headD "applyconfiguration").toList) ∧
    ∃ (generate : Node → List Bool) (resource : Node → List Unit), (∀ f ∈ r.files, ∀ n, Declared f n → TypeSays E f n (generate n) (resource n)) ∧
      ∀ name c, (name, c) ∈ u → "// +genclient".toList ∉ c.lines ++ c.second →
        (Requested q name ↔ Tagged c ∨ ∃ f ∈ r.files, ∃ n, Declared f n ∧ (r.syn.typeName n).toList = name ∧ Enabled (generate n) (resource n)) := by
  obtain ⟨m, hm, hr⟩ := generate_done hr
  cases m with
  | none => rw [Example.C70_violated_error _ _ _ rfl] at hr; cases hr
  | some m =>
    obtain ⟨res, hres, h2, h2'⟩ := package_values hm
    have hpkg := sourceSays hg hh h.wf hres
    -- the package is enabled and has files
    have hen : PkgSays m.1 "kubebuilder:ac:generate" (.bool true) ∧ r.goFiles ≠ [] := by
      refine Classical.byContradiction fun hx => ?_
      have : ¬ PkgSays m.1 "kubebuilder:ac:generate" (.bool true) ∨ r.goFiles = [] :=
        Classical.byCases (fun h1 : PkgSays m.1 "kubebuilder:ac:generate" (.bool true) => .inr (Classical.byContradiction fun h2 => hx ⟨h1, h2⟩)) .inl
      rw [C70_disabled r.τ lib header (source_ok hm) (files := m.1) (types := m.2) rfl this] at hr
      cases hr
    obtain ⟨q', h4, h5, ⟨out, h6, h7, h8⟩, h9⟩ := C70_types_partial r.τ lib header (source_ok hm) (files := m.1) (types := m.2) rfl hen.1 hen.2 hu hl
    rw [h4] at hr
    cases hr
    obtain ⟨b, rest, e1, e2⟩ := (h2 _).1 hen.1
    cases e1
    have hout : out = ((pkgOutput res).headD "applyconfiguration").toList := by
      rcases h6 with h6 | ⟨h6, rfl⟩
      · obtain ⟨s, rest', e3, e4⟩ := (h2' _).1 h6
        cases e3
        rw [e4]; rfl
      · cases h10 : pkgOutput res with
        | nil => rfl
        | cons s rest' => exact absurd ((h2' _).2 ⟨s, rest', rfl, h10⟩) (h6 _)
    subst hout
    refine ⟨rfl, h5, ⟨_, _, hpkg, ⟨rest, e2⟩, h7, h8⟩, ?_⟩
    -- types
    obtain ⟨rs, infos, -, hi, -, hm2⟩ := markers_some hm
    have hdecl := Markers.Source.declared_infos h hi
    have hto : ∀ t ∈ infos, ∃ f ∈ r.files, Declared f t.spec ∧ r.syn.typeName t.spec = t.name := by
      intro t ht
      have hm : (t.spec, t.name) ∈ infos.map fun t => (t.spec, t.name) := List.mem_map_of_mem ht
      rw [hdecl] at hm
      obtain ⟨e, he, h1⟩ := List.mem_map.1 hm
      obtain ⟨f, hf, he⟩ := List.mem_flatMap.1 he
      obtain ⟨h2, h3⟩ := Prod.mk.inj h1
      exact ⟨f, hf, ⟨e.1, by rw [← h2]; exact he⟩, by rw [← h2]; exact h3⟩
    have hfrom : ∀ f ∈ r.files, ∀ n, Declared f n → ∃ t ∈ infos, t.spec = n ∧ t.name = r.syn.typeName n := by
      rintro f hf n ⟨d, hd⟩
      have hm : (n, r.syn.typeName n) ∈ (r.files.flatMap fun f => Markers.Each.declared (.node f.node f.children)).map fun e => (e.2, r.syn.typeName e.2) :=
        List.mem_map.2 ⟨(d, n), List.mem_flatMap.2 ⟨f, hf, hd⟩, rfl⟩
      rw [← hdecl] at hm
      obtain ⟨t, ht, h1⟩ := List.mem_map.1 hm
      obtain ⟨h2, h3⟩ := Prod.mk.inj h1
      exact ⟨t, ht, h2, h3⟩
    have hmark : ∀ t ∈ infos, ∀ t' ∈ infos, t.spec = t'.spec → t.markers = t'.markers := by
      have hi' := hi
      unfold typesOf Markers.Source.eachInfo at hi'
      split at hi'
      · cases hi'
      split at hi'
      · cases hi'
      cases hi'
      intro t ht t' ht' he
      obtain ⟨e, _, rfl⟩ := List.mem_map.1 ht
      obtain ⟨e', _, rfl⟩ := List.mem_map.1 ht'
      simp only [Markers.Source.typeInfo] at he ⊢
      rw [he]
    refine ⟨fun n => typeGenerate (marksAt infos n), fun n => typeResource (marksAt infos n), ?_, ?_⟩
    · intro f hf n hn
      obtain ⟨t, ht, h1, -⟩ := hfrom f hf n hn
      obtain ⟨d, hd'⟩ := hn
      obtain ⟨f', hf', h3, h4, h5, -⟩ := Markers.Source.C82_values hh h hs hi ht
      rw [h1] at h3 h4 h5
      have : f' = f := Markers.Source.file_unique h.nodup hf' hf h3 (Markers.Source.declared_mem hd').2.1
      subst this
      rw [← h1]
      simp only [marksAt_eq hmark ht]
      exact typeSays hg (h1 ▸ h5) (by rw [h1, h4]; rfl)
    · intro name c hc hno
      rw [h9 name c hc hno, hm2]
      constructor
      · rintro (h1 | ⟨t, ht, rfl, he⟩)
        · exact .inl h1
        · obtain ⟨i, hi', rfl⟩ := List.mem_map.1 ht
          obtain ⟨f, hf, h4, h5⟩ := hto i hi'
          refine .inr ⟨f, hf, i.spec, h4, by rw [h5]; rfl, ?_⟩
          simp only [marksAt_eq hmark hi']
          exact (enabled_iff (infos_wf hi hi')).1 he
      · rintro (h1 | ⟨f, hf, n, hn, rfl, he⟩)
        · exact .inl h1
        · obtain ⟨t, ht, rfl, h5⟩ := hfrom f hf n hn
          simp only [marksAt_eq hmark ht] at he
          exact .inr ⟨infoOf t, List.mem_map_of_mem ht, by rw [← h5]; rfl, (enabled_iff (infos_wf hi ht)).2 he⟩

/-! ## What single comments do -/

section
variable (hg : "applyconfiguration" ∈ gs) (hh : Markers.Shipped.history gs = some hist) (h : Parsed r.files) (hs : r.syn.OK r.files) {lib : Library} {header : Str}
  {u : List (Str × Comments)} (hu : GoMap.WF u) (hl : lib.load r.pkgPath = some (some u)) {q : Request} {e : Bool} (hr : r.generate hist E lib header = .done (some q) e)
  {f : File} (hf : f ∈ r.files) {n : Node} (hn : Declared f n) (hone : ∀ f' ∈ r.files, ∀ n', Declared f' n' → r.syn.typeName n' = r.syn.typeName n → n' = n)
  {c : Comments} (hc : ((r.syn.typeName n).toList, c) ∈ u) (hno : "// +genclient".toList ∉ c.lines ++ c.second)
include hg hh h hs hu hl hr hf hn hone hc hno

theorem requested_iff : ∃ generate resource, TypeSays E f n generate resource ∧ (Requested q (r.syn.typeName n).toList ↔ Tagged c ∨ Enabled generate resource) := by
  obtain ⟨-, -, -, gen, rsc, h1, h2⟩ := C88_types_partial hg hh h hs lib header hu hl hr
  refine ⟨gen n, rsc n, h1 f hf n hn, ?_⟩
  rw [h2 _ _ hc hno]
  constructor
  · rintro (h3 | ⟨f', hf', n', hn', h4, h5⟩)
    · exact .inl h3
    · rw [hone f' hf' n' hn' (String.toList_injective h4)] at h5
      exact .inr h5
  · rintro (h3 | h3)
    · exact .inl h3
    · exact .inr ⟨f, hf, n, hn, rfl, h3⟩

/-- **C88** (`+kubebuilder:ac:generate=true` on a type): the library is asked to generate for it. -/
theorem C88_enabled (hs' : TypeSet E f n "kubebuilder:ac:generate" true) : Requested q (r.syn.typeName n).toList := by
  obtain ⟨gen, rsc, h1, h2⟩ := requested_iff hg hh h hs hu hl hr hf hn hone hc hno
  exact h2.2 (.inr (.inl (Markers.Source.values_set h1.generate hs')))

/-- **C88** (`+kubebuilder:ac:generate=false` on a type): the library is not asked to generate for it, unless it is tagged `+genclient`. -/
theorem C88_disabled (hs' : TypeSet E f n "kubebuilder:ac:generate" false) : Requested q (r.syn.typeName n).toList ↔ Tagged c := by
  obtain ⟨gen, rsc, h1, h2⟩ := requested_iff hg hh h hs hu hl hr hf hn hone hc hno
  obtain ⟨rest, h3⟩ := Markers.Source.values_set h1.generate hs'
  rw [h2]
  refine ⟨?_, .inl⟩
  rintro (h4 | ⟨rest', h4⟩ | ⟨h4, -⟩)
  · exact h4
  · rw [h3] at h4; cases h4
  · rw [h3] at h4; cases h4

/-- **C88** (`+kubebuilder:resource` on a type): the library is asked to generate for it, if no comment on it begins with `+kubebuilder:ac:generate`. -/
theorem C88_resource (hs' : Silent f n "kubebuilder:ac:generate") {x : Comment} (hx : OnType f n x) (hx' : IsResource E x) : Requested q (r.syn.typeName n).toList := by
  obtain ⟨gen, rsc, h1, h2⟩ := requested_iff hg hh h hs hu hl hr hf hn hone hc hno
  refine h2.2 (.inr (.inr ⟨Markers.Source.values_none h1.generate hs', fun h3 => ?_⟩))
  obtain ⟨cs, h4, -, -, h5⟩ := h1.resource
  have h6 := List.mem_map_of_mem (f := fun e : Comment × Unit => e.2) (h5 x () hx hx')
  rw [← h4, h3] at h6
  cases h6

/-- **C88** (nothing without a comment): the library is not asked to generate for a type without `+kubebuilder:ac:generate` or `+kubebuilder:resource` on it, unless it is tagged `+genclient`. -/
theorem C88_nothing (hs' : Silent f n "kubebuilder:ac:generate") (hs'' : Silent f n "kubebuilder:resource") : Requested q (r.syn.typeName n).toList ↔ Tagged c := by
  obtain ⟨gen, rsc, h1, h2⟩ := requested_iff hg hh h hs hu hl hr hf hn hone hc hno
  rw [h2]
  refine ⟨?_, .inl⟩
  rintro (h4 | ⟨rest', h4⟩ | ⟨-, h4⟩)
  · exact h4
  · rw [Markers.Source.values_none h1.generate hs'] at h4; cases h4
  · exact absurd (Markers.Source.values_none h1.resource hs'') h4

end

/-- **C88** (where): the library is asked to write to the directory that `+kubebuilder:ac:output:package` names, seen from that of the package, and without such a comment to `applyconfiguration` in it; the import path
corresponds. -/
theorem C88_where (hg : "applyconfiguration" ∈ gs) (hh : Markers.Shipped.history gs = some hist) (h : Parsed r.files) (hs : r.syn.OK r.files) {lib : Library} {header : Str}
    {u : List (Str × Comments)} (hu : GoMap.WF u) (hl : lib.load r.pkgPath = some (some u)) {q : Request} {e : Bool} (hr : r.generate hist E lib header = .done (some q) e) (hdir : r.dir ≠ []) {s : String}
    (hs' : OutputSet E r.files s ∨ NoOutput r.files ∧ s = "applyconfiguration") (cwd : List Str) :
    Genall.Spec.locate cwd q.dir = Genall.Spec.locateIn (Genall.Spec.locate cwd r.dir) s.toList ∧ q.pkg = Genall.joinPath r.pkgPath s.toList := by
  obtain ⟨-, -, ⟨gen, out, h1, -, h2, h3⟩, -⟩ := C88_types_partial hg hh h hs lib header hu hl hr
  have : out.headD "applyconfiguration" = s := by
    rcases hs' with ⟨⟨f, hf, x, h4, h5, h6⟩, h7⟩ | ⟨h4, rfl⟩
    · have h8 := h1.output.2 f hf x s h4 h5 h6
      cases out with
      | nil => cases h8
      | cons o os =>
        obtain ⟨f', hf', x', h9, h10, h11, -⟩ := h1.output.1 o List.mem_cons_self
        exact (h11 s (h7 f' hf' x' h9 h10)).symm
    · cases out with
      | nil => rfl
      | cons o os =>
        obtain ⟨f', hf', x', h9, h10, -⟩ := h1.output.1 o List.mem_cons_self
        exact absurd h10 (h4 f' hf' x' h9)
  rw [this] at h2 h3
  refine ⟨?_, h3⟩
  rw [h2]
  exact Genall.locate_join cwd hdir s.toList

/-- **C88** (all packages): every package is treated, whether or not others fail, and the generator fails exactly if one of them does. -/
theorem C88_all (lib : Library) (header : Str) {roots : List SourceRoot} (h : ∀ r ∈ roots, Parsed r.files) (hu : ∀ r ∈ roots, ∀ u, lib.load r.pkgPath = some (some u) → GoMap.WF u) :
    ∃ qs e, generateSources hist E lib header roots = some (qs, e) ∧ (∀ q, q ∈ qs ↔ ∃ r ∈ roots, ∃ e, r.generate hist E lib header = .done (some q) e) ∧
      (e = true ↔ ∃ r ∈ roots, ∃ q, r.generate hist E lib header = .done q true) := by
  induction roots with
  | nil => exact ⟨[], false, rfl, by simp, by simp⟩
  | cons r roots ih =>
    obtain ⟨⟨q, e, hr⟩, -⟩ := C88_total (hist := hist) (E := E) (h r List.mem_cons_self) lib header (hu r List.mem_cons_self)
    obtain ⟨qs, es, h1, h2, h3⟩ := ih (fun r hr => h r (List.mem_cons_of_mem _ hr)) fun r hr => hu r (List.mem_cons_of_mem _ hr)
    refine ⟨q.toList ++ qs, e || es, by simp only [generateSources, hr, h1], fun q' => ?_, ?_⟩
    · simp only [List.mem_append, h2, List.mem_cons, exists_eq_or_imp, hr, Option.mem_toList, Option.mem_def, Result.done.injEq]
      constructor
      · rintro (rfl | h)
        · exact .inl ⟨e, rfl, rfl⟩
        · exact .inr h
      · rintro (⟨_, rfl, _⟩ | h)
        · exact .inl rfl
        · exact .inr h
    · simp only [Bool.or_eq_true, h3, List.mem_cons, exists_eq_or_imp, hr, Result.done.injEq]
      constructor
      · rintro (rfl | h)
        · exact .inl ⟨q, rfl, rfl⟩
        · exact .inr h
      · rintro (⟨_, _, rfl⟩ | h)
        · exact .inl rfl
        · exact .inr h

end Verif.Apply

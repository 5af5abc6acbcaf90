import Verif.DeepCopy.SourceSpec
import Verif.DeepCopy.EnableTheorems
import Verif.Markers.CommentLemmas
/-!
# C87: methods are generated for the types for which comments in the source ask for them
-/
namespace Verif.DeepCopy
open Verif Verif.DeepCopy.Spec
open Verif.Markers (Value Def Loaded Env Values Definition Marker)
open Verif.Markers.Args
open Verif.Markers.Spec (ShowsArg RawText)
open Verif.Markers.Source
open Verif.Markers.Collect (Comment Node Attached associateFile)

variable {gs : List String} {hist : List (Def Loaded)} {E : Env} {exported : String → Bool} {r : Root}

/-! ## Values -/

set_option maxRecDepth 100000 in
theorem object_rows : ([("kubebuilder:object:generate", Markers.Target.package, Markers.Arg.bool), ("k8s:deepcopy-gen", .package, .raw), ("kubebuilder:object:generate", .type, .bool), ("k8s:deepcopy-gen", .type, .raw),
    ("kubebuilder:object:root", .type, .bool), ("k8s:deepcopy-gen:interfaces", .type, .str)].all fun x => (Markers.Shipped.objectMarkers.any fun m => decide (m.name = x.1.toList) && decide (m.target = x.2.1) &&
      decide (m.define.map m.parser = some ⟨[⟨[], x.2.2, false⟩], true⟩)) && decide (x.1.toList ≠ "default".toList)) = true := by decide +kernel

theorem object_chosen (hg : "object" ∈ gs) {k : String} {t : Markers.Target} {a : Markers.Arg}
    (h : (k, t, a) ∈ [("kubebuilder:object:generate", Markers.Target.package, Markers.Arg.bool), ("k8s:deepcopy-gen", .package, .raw), ("kubebuilder:object:generate", .type, .bool), ("k8s:deepcopy-gen", .type, .raw),
      ("kubebuilder:object:root", .type, .bool), ("k8s:deepcopy-gen:interfaces", .type, .str)]) :
    (∃ m, Chosen gs t m ⟨[⟨[], a, false⟩], true⟩ ∧ m.name = k.toList) ∧ k.toList ≠ "default".toList := by
  have h1 := List.all_eq_true.1 object_rows _ h
  simp only [Bool.and_eq_true, decide_eq_true_eq, List.any_eq_true] at h1
  obtain ⟨⟨m, hm, ⟨h2, h3⟩, h4⟩, h5⟩ := h1
  obtain ⟨df, hd, e⟩ := Option.map_eq_some_iff.1 h4
  exact ⟨⟨m, ⟨"object", hg, _, by simp [Markers.Shipped.registers], hm, h3, df, hd, e⟩, h2⟩, h5⟩

theorem isRaw_written {k : String} (hk : k.toList ≠ "default".toList) {c : Comment} {s : String} (h : IsRaw k c s) :
    ∃ vals, Written E k.toList ⟨[⟨[], .raw, false⟩], true⟩ c vals ∧ rawArg vals = s := by
  obtain ⟨h1, h2⟩ := h
  refine ⟨[([], .raw s.toList)], .raw hk h1 rfl rfl rfl h2, ?_⟩
  show String.ofList s.toList = s
  simp

theorem typeSays (hg : "object" ∈ gs) {f : File} {n : Node} {markers : List (String × List (List (List Char × Value)))} (hF : Faithful gs E f n markers) (ht : toTarget n.target = .type) :
    TypeSays E f n (typeMarkersOf markers) := by
  obtain ⟨h1, k1⟩ := object_chosen (t := .type) (k := "kubebuilder:object:generate") (a := .bool) hg (by simp)
  obtain ⟨h2, k2⟩ := object_chosen (t := .type) (k := "k8s:deepcopy-gen") (a := .raw) hg (by simp)
  obtain ⟨h3, k3⟩ := object_chosen (t := .type) (k := "kubebuilder:object:root") (a := .bool) hg (by simp)
  obtain ⟨h4, k4⟩ := object_chosen (t := .type) (k := "k8s:deepcopy-gen:interfaces") (a := .str) hg (by simp)
  exact ⟨typeValues_of hF ht h1 fun c v h => setsTo_written k1 h, typeValues_of hF ht h2 fun c v h => isRaw_written k2 h,
    typeValues_of hF ht h3 fun c v h => setsTo_written k3 h, typeValues_of hF ht h4 fun c v h => isString_written k4 h⟩

theorem pkgSays (hg : "object" ∈ gs) (hh : Markers.Shipped.history gs = some hist) {files : List File} (hf : ∀ f ∈ files, f.WF) {σ : Nat → Sched} {τ : Sched} {res : Values (List (List Char × Value))}
    (hres : markersOf hist E σ τ files = some (some res)) : PkgSays E files (pkgMarkersOf res) := by
  obtain ⟨h1, k1⟩ := object_chosen (t := .package) (k := "kubebuilder:object:generate") (a := .bool) hg (by simp)
  obtain ⟨h2, k2⟩ := object_chosen (t := .package) (k := "k8s:deepcopy-gen") (a := .raw) hg (by simp)
  obtain ⟨h3, -⟩ := object_chosen (t := .type) (k := "kubebuilder:object:generate") (a := .bool) hg (by simp)
  obtain ⟨h4, -⟩ := object_chosen (t := .type) (k := "k8s:deepcopy-gen") (a := .raw) hg (by simp)
  exact ⟨pkgValues_of hh hf hres h1 h3 fun c v h => setsTo_written k1 h, pkgValues_of hh hf hres h2 h4 fun c v h => isRaw_written k2 h⟩

/-! ## Declarations -/

/-- What is not exported does not matter. -/
theorem byType_exported {P : Prog} {all : Bool} : ∀ {ds : List Decl} {m : List (String × List Method)}, P.byType exported all ds m = P.byType exported all (ds.filter fun d => exported d.name) m
  | [], _ => rfl
  | d :: ds, m => by
    by_cases h : exported d.name = true
    · rw [List.filter_cons_of_pos (by simpa using h)]
      unfold Prog.byType
      split
      · exact byType_exported
      · exact byType_exported
    · rw [List.filter_cons_of_neg (by simpa using h), Prog.byType, if_neg (by simp [Prog.shouldBeCopied, h])]
      exact byType_exported

theorem generateFor_exported {P : Prog} {σ : Sched} {pkg : PkgMarkers} {ds : List Decl} : P.generateFor σ exported pkg ds = P.generateFor σ exported pkg (ds.filter fun d => exported d.name) := by
  unfold Prog.generateFor
  rw [byType_exported]

/-- The markers of a type that is reported. -/
def marksAt (infos : List (TypeInfo (List (List Char × Value)))) (n : Node) : TypeMarkers :=
  match infos.find? fun t => t.spec = n with
  | some t => typeMarkersOf t.markers
  | none => {}

theorem marksAt_eq {infos : List (TypeInfo (List (List Char × Value)))} (h : ∀ t ∈ infos, ∀ t' ∈ infos, t.spec = t'.spec → t.markers = t'.markers) {t : TypeInfo (List (List Char × Value))} (ht : t ∈ infos) :
    marksAt infos t.spec = typeMarkersOf t.markers := by
  unfold marksAt
  cases hf : infos.find? fun t' => t'.spec = t.spec with
  | none => exact absurd (List.find?_eq_none.1 hf t ht) (by simp)
  | some t' =>
    have h6 := List.find?_some hf
    simp only [decide_eq_true_eq] at h6
    simp only [h t' (List.mem_of_find?_eq_some hf) t ht h6]

/-! ## The property -/

/-- **C87** (start-up): generating for a package never panics.  There is an error exactly if some marker that is attached to a node does not parse, and then there is no file. -/
theorem C87_total (h : Parsed r.files) : ∃ res, r.generate hist E exported = some res ∧ (res.error = true → res.file = none) ∧
    (res.error = true ↔ ∃ f ∈ r.files, ∃ ρ a n c b d e, associateFile (lookupIn hist) ρ f.groups f.node f.children = some a ∧ Attached a n c b ∧ lookupIn hist (textOf c) n.target = some d ∧
      parseWith E d (textOf c) = .error e) := by
  obtain ⟨res, h1, h2⟩ := C82_fails (hist := hist) (E := E) r.syn r.σ h
  unfold Root.generate
  cases res with
  | none =>
    have : ∃ o, markersOf hist E r.σ r.τ r.files = some o := by
      unfold markersOf packageValues
      unfold typesOf eachInfo at h1
      split at h1
      · cases h1
      · rename_i rs hrs
        rw [hrs]
        simp only
        split <;> exact ⟨_, rfl⟩
    obtain ⟨o, ho⟩ := this
    rw [ho, h1]
    cases o <;> exact ⟨_, rfl, fun _ => rfl, by simpa using h2.1 rfl⟩
  | some infos =>
    obtain ⟨v, hv⟩ := markersOf_some h1 r.τ
    rw [hv, h1]
    refine ⟨_, rfl, (fun h => nomatch h), ?_⟩
    constructor
    · intro h; cases h
    · intro h; cases h2.2 h

/-- **C87** (which files): a file is written for exactly the roots for which there are methods, in the order of the roots. -/
theorem C87_files {roots : List Root} (h : ∀ r ∈ roots, Parsed r.files) : ∃ out, generateAll hist E exported roots = some out ∧
    out = roots.filterMap fun r => (r.generate hist E exported).bind fun res => res.file.map fun l => (r.path, l) := by
  induction roots with
  | nil => exact ⟨[], rfl, rfl⟩
  | cons r rs ih =>
    obtain ⟨out, h1, h2⟩ := ih fun r hr => h r (List.mem_cons_of_mem _ hr)
    obtain ⟨res, h3, -⟩ := C87_total (hist := hist) (E := E) (exported := exported) (h r List.mem_cons_self)
    obtain ⟨e, file⟩ := res
    cases file with
    | none => exact ⟨out, by simp only [generateAll, h3, h1], by rw [List.filterMap_cons, h3]; exact h2⟩
    | some l => exact ⟨(r.path, l) :: out, by simp only [generateAll, h3, h1], by rw [List.filterMap_cons, h3]; exact congrArg _ h2⟩

/-- **C87**: whichever generators are chosen along with this one, the methods in the file of a package are those that are missing of the exported, copyable types that are enabled, by the comments on them and those of the
package.  What is missing: pointer types with methods (`C45_violated_pointer`). -/
theorem C87_methods_partial (hg : "object" ∈ gs) (hh : Markers.Shipped.history gs = some hist) (h : Parsed r.files) (hs : r.syn.OK r.files) (hd : Distinct exported r) (hp : NoPointerMethods exported r)
    {file : Option (List (String × List Method))} (hr : r.generate hist E exported = some ⟨false, file⟩) :
    ∃ (pkg : PkgMarkers) (ms : Node → TypeMarkers), PkgSays E r.files pkg ∧ (∀ f ∈ r.files, ∀ n, Declared f n → TypeSays E f n (ms n)) ∧
      ∀ name m, InFile file name m ↔ exported name = true ∧ ∃ f ∈ r.files, ∃ n, Declared f n ∧ r.syn.typeName n = name ∧ Copyable r.prog ⟨name, r.kind n, ms n⟩ ∧ TypeEnabled pkg (ms n) ∧
        Missing r.prog ⟨name, r.kind n, ms n⟩ m := by
  unfold Root.generate at hr
  split at hr
  · cases hr
  · cases hr
  rename_i values hv
  split at hr
  · cases hr
  · cases hr
  rename_i infos hi
  cases hr
  have hdecl := declared_infos h hi
  -- declarations and what is reported
  have hto : ∀ t ∈ infos, ∃ f ∈ r.files, Declared f t.spec ∧ r.syn.typeName t.spec = t.name := by
    intro t ht
    have hm : (t.spec, t.name) ∈ infos.map fun t => (t.spec, t.name) := List.mem_map_of_mem ht
    rw [hdecl] at hm
    obtain ⟨e, he, h1⟩ := List.mem_map.1 hm
    obtain ⟨f, hf, he⟩ := List.mem_flatMap.1 he
    obtain ⟨h2, h3⟩ := Prod.mk.inj h1
    exact ⟨f, hf, ⟨e.1, by rw [← h2]; exact he⟩, by rw [← h2]; exact h3⟩
  have hfrom : ∀ f ∈ r.files, ∀ n, Declared f n → ∃ t ∈ infos, t.spec = n ∧ t.name = r.syn.typeName n := by
    rintro f hf n ⟨d, hd⟩
    have hm : (n, r.syn.typeName n) ∈ (r.files.flatMap fun f => Markers.Each.declared (.node f.node f.children)).map fun e => (e.2, r.syn.typeName e.2) :=
      List.mem_map.2 ⟨(d, n), List.mem_flatMap.2 ⟨f, hf, hd⟩, rfl⟩
    rw [← hdecl] at hm
    obtain ⟨t, ht, h1⟩ := List.mem_map.1 hm
    obtain ⟨h2, h3⟩ := Prod.mk.inj h1
    exact ⟨t, ht, h2, h3⟩
  -- the markers of a node depend on the node only
  have hmark : ∀ t ∈ infos, ∀ t' ∈ infos, t.spec = t'.spec → t.markers = t'.markers := by
    unfold typesOf eachInfo at hi
    split at hi
    · cases hi
    split at hi
    · cases hi
    cases hi
    intro t ht t' ht' he
    obtain ⟨e, _, rfl⟩ := List.mem_map.1 ht
    obtain ⟨e', _, rfl⟩ := List.mem_map.1 ht'
    simp only [typeInfo] at he ⊢
    rw [he]
  refine ⟨pkgMarkersOf values, marksAt infos, pkgSays hg hh h.wf hv, ?_, ?_⟩
  · intro f hf n hn
    obtain ⟨t, ht, h1, h2⟩ := hfrom f hf n hn
    obtain ⟨d, hd'⟩ := hn
    obtain ⟨f', hf', h3, h4, h5, -⟩ := C82_values hh h hs hi ht
    rw [h1] at h3 h4 h5
    have : f' = f := file_unique h.nodup hf' hf h3 (declared_mem hd').2.1
    subst this
    rw [← h1, marksAt_eq hmark ht]
    exact typeSays hg (h1 ▸ h5) (by rw [h1, h4]; rfl)
  · intro name m
    rw [generateFor_exported, C45_methods_partial]
    · constructor
      · rintro ⟨d, hd1, rfl, hx, h1, h2, h3⟩
        obtain ⟨hd1, -⟩ := List.mem_filter.1 hd1
        obtain ⟨t, ht, rfl⟩ := List.mem_map.1 hd1
        obtain ⟨f, hf, h4, h5⟩ := hto t ht
        refine ⟨hx, f, hf, t.spec, h4, h5, ?_⟩
        rw [marksAt_eq hmark ht]
        exact ⟨h1, h2, h3⟩
      · rintro ⟨hx, f, hf, n, hn, rfl, h1, h2, h3⟩
        obtain ⟨t, ht, rfl, h5⟩ := hfrom f hf n hn
        rw [marksAt_eq hmark ht, ← h5] at h1 h3
        rw [marksAt_eq hmark ht] at h2
        refine ⟨r.decl t, List.mem_filter.2 ⟨List.mem_map_of_mem ht, ?_⟩, h5, hx, h1, h2, h3⟩
        show exported t.name = true
        rw [h5]; exact hx
    · have e : ((infos.map r.decl).filter fun d => exported d.name).map (·.name) = (infos.map (·.name)).filter exported := by
        rw [List.filter_map, List.map_map, List.filter_map]
        rfl
      have e2 : infos.map (·.name) = (r.files.flatMap fun f => Markers.Each.declared (.node f.node f.children)).map fun e => r.syn.typeName e.2 := by
        have := congrArg (List.map fun x : Node × String => x.2) hdecl
        simpa [Function.comp_def] using this
      rw [e, e2]
      exact hd
    · intro d hd1 t ht
      obtain ⟨hd1, hx⟩ := List.mem_filter.1 hd1
      obtain ⟨i, hi', rfl⟩ := List.mem_map.1 hd1
      obtain ⟨f, hf, h4, h5⟩ := hto i hi'
      have hx : exported i.name = true := hx
      have ht : r.prog.under i.name = .ptr t := ht
      have := hp f hf i.spec h4 (by rw [h5]; exact hx) t (by rw [h5]; exact ht)
      rw [h5] at this
      exact this

/-! ## What single comments do -/

theorem nodup_filter_map {α : Type} {g : α → String} : ∀ {l : List α}, ((l.map g).filter exported).Nodup → ∀ {a b : α}, a ∈ l → b ∈ l → exported (g a) = true → g a = g b → a = b
  | x :: l, h, a, b, ha, hb, he, hg => by
    have hin : ∀ y ∈ l, exported (g y) = true → g y ∈ (l.map g).filter exported := fun y hy hx => List.mem_filter.2 ⟨List.mem_map_of_mem hy, hx⟩
    rw [List.map_cons, List.filter_cons] at h
    rcases List.mem_cons.1 ha with ha' | ha' <;> rcases List.mem_cons.1 hb with hb' | hb'
    · rw [ha', hb']
    · rw [← ha', if_pos he] at h
      exact absurd (hg ▸ hin b hb' (hg ▸ he)) (List.nodup_cons.1 h).1
    · rw [← hb', if_pos (hg ▸ he)] at h
      exact absurd (hg ▸ hin a ha' he) (List.nodup_cons.1 h).1
    · refine nodup_filter_map ?_ ha' hb' he hg
      split at h
      · exact (List.nodup_cons.1 h).2
      · exact h

theorem declared_unique (hd : Distinct exported r) {f f' : File} (hf : f ∈ r.files) (hf' : f' ∈ r.files) {n n' : Node} (h : Declared f n) (h' : Declared f' n') (hx : exported (r.syn.typeName n) = true)
    (he : r.syn.typeName n = r.syn.typeName n') : n = n' := by
  obtain ⟨d, h⟩ := h
  obtain ⟨d', h'⟩ := h'
  have := nodup_filter_map (g := fun e : Node × Node => r.syn.typeName e.2) hd (a := (d, n)) (b := (d', n')) (List.mem_flatMap.2 ⟨f, hf, h⟩) (List.mem_flatMap.2 ⟨f', hf', h'⟩) hx he
  exact (Prod.mk.inj this).2

/-- The methods of one type. -/
theorem methods_of (hg : "object" ∈ gs) (hh : Markers.Shipped.history gs = some hist) (h : Parsed r.files) (hs : r.syn.OK r.files) (hd : Distinct exported r) (hp : NoPointerMethods exported r)
    {file : Option (List (String × List Method))} (hr : r.generate hist E exported = some ⟨false, file⟩) {f : File} (hf : f ∈ r.files) {n : Node} (hn : Declared f n) :
    ∃ pkg m, PkgSays E r.files pkg ∧ TypeSays E f n m ∧ ∀ x, InFile file (r.syn.typeName n) x ↔ exported (r.syn.typeName n) = true ∧ Copyable r.prog ⟨r.syn.typeName n, r.kind n, {}⟩ ∧ TypeEnabled pkg m ∧
      Missing r.prog ⟨r.syn.typeName n, r.kind n, m⟩ x := by
  obtain ⟨pkg, ms, h1, h2, h3⟩ := C87_methods_partial hg hh h hs hd hp hr
  have hc : ∀ m, Copyable r.prog ⟨r.syn.typeName n, r.kind n, m⟩ → ∀ m', Copyable r.prog ⟨r.syn.typeName n, r.kind n, m'⟩ := by
    intro m hm m'
    rcases hm with ⟨h1, h2⟩ | ⟨h1, h2, h3⟩
    · exact .own h1 h2
    · exact .type h1 h2 h3
  refine ⟨pkg, ms n, h1, h2 f hf n hn, fun x => ?_⟩
  rw [h3]
  constructor
  · rintro ⟨hx, f', hf', n', hn', he, h4, h5, h6⟩
    have := declared_unique hd hf hf' hn hn' hx he.symm
    subst this
    exact ⟨hx, hc _ h4 _, h5, h6⟩
  · rintro ⟨hx, h4, h5, h6⟩
    exact ⟨hx, f, hf, n, hn, rfl, hc _ h4 _, h5, h6⟩

variable (hg : "object" ∈ gs) (hh : Markers.Shipped.history gs = some hist) (h : Parsed r.files) (hs : r.syn.OK r.files) (hd : Distinct exported r) (hp : NoPointerMethods exported r)
  {file : Option (List (String × List Method))} (hr : r.generate hist E exported = some ⟨false, file⟩) {f : File} (hf : f ∈ r.files) {n : Node} (hn : Declared f n)
include hg hh h hs hd hp hr hf hn

/-- **C87** (`+kubebuilder:object:generate=false`): the type gets no methods, whatever else is written. -/
theorem C87_disabled (hc : TypeSet E f n "kubebuilder:object:generate" false) (m : Method) : ¬ InFile file (r.syn.typeName n) m := by
  obtain ⟨pkg, ms, -, h2, h3⟩ := methods_of hg hh h hs hd hp hr hf hn
  obtain ⟨rest, h4⟩ := values_set h2.generate hc
  rw [h3]
  rintro ⟨-, -, h5, -⟩
  cases h5 with
  | generate _ h5 => rw [h4] at h5; cases h5
  | legacy _ h5 => rw [h4] at h5; cases h5
  | package h5 => rw [h4] at h5; cases h5
  | object h5 => rw [h4] at h5; cases h5

/-- **C87** (`+kubebuilder:object:generate=true`): an exported type that can be copied gets those of `DeepCopyInto` and `DeepCopy` that are not in the source. -/
theorem C87_enabled (hx : exported (r.syn.typeName n) = true) (hcopy : Copyable r.prog ⟨r.syn.typeName n, r.kind n, {}⟩) (hc : TypeSet E f n "kubebuilder:object:generate" true) :
    (InFile file (r.syn.typeName n) .deepCopyInto ↔ (r.prog.manual (r.syn.typeName n)).into = false) ∧ (InFile file (r.syn.typeName n) .deepCopy ↔ (r.prog.manual (r.syn.typeName n)).copy = none) := by
  obtain ⟨pkg, ms, -, h2, h3⟩ := methods_of hg hh h hs hd hp hr hf hn
  obtain ⟨rest, h4⟩ := values_set h2.generate hc
  rw [h3, h3]
  exact ⟨⟨fun ⟨_, _, _, h5⟩ => by cases h5; assumption, fun h5 => ⟨hx, hcopy, .generate _ h4, .deepCopyInto h5⟩⟩, ⟨fun ⟨_, _, _, h5⟩ => by cases h5; assumption, fun h5 => ⟨hx, hcopy, .generate _ h4, .deepCopy h5⟩⟩⟩

/-- **C87** (`+kubebuilder:object:root=true`): without comments about generation on it, an exported type that can be copied gets `DeepCopyInto`, `DeepCopy` and `DeepCopyObject`, unless it has `DeepCopyInto` or `DeepCopy` in the
source. -/
theorem C87_root (hx : exported (r.syn.typeName n) = true) (hcopy : Copyable r.prog ⟨r.syn.typeName n, r.kind n, {}⟩) (hc : TypeSet E f n "kubebuilder:object:root" true)
    (h1 : Silent f n "kubebuilder:object:generate") (h1' : Silent f n "k8s:deepcopy-gen") :
    (InFile file (r.syn.typeName n) .deepCopyInto ↔ (r.prog.manual (r.syn.typeName n)).into = false) ∧ (InFile file (r.syn.typeName n) .deepCopy ↔ (r.prog.manual (r.syn.typeName n)).copy = none) ∧
      (InFile file (r.syn.typeName n) .deepCopyObject ↔ (r.prog.manual (r.syn.typeName n)).copy = none) := by
  obtain ⟨pkg, ms, -, h2, h3⟩ := methods_of hg hh h hs hd hp hr hf hn
  obtain ⟨rest, h4⟩ := values_set h2.root hc
  have he : TypeEnabled pkg ms := .object (values_none h2.generate h1) (values_none h2.legacy h1') (.root _ h4)
  rw [h3, h3, h3]
  exact ⟨⟨fun ⟨_, _, _, h5⟩ => by cases h5; assumption, fun h5 => ⟨hx, hcopy, he, .deepCopyInto h5⟩⟩, ⟨fun ⟨_, _, _, h5⟩ => by cases h5; assumption, fun h5 => ⟨hx, hcopy, he, .deepCopy h5⟩⟩,
    ⟨fun ⟨_, _, _, h5⟩ => by cases h5; assumption, fun h5 => ⟨hx, hcopy, he, .deepCopyObject h5 (.root _ h4)⟩⟩⟩

/-- **C87** (`+kubebuilder:object:generate=true` for the package): each exported type that can be copied and has no comments about generation on it gets those of `DeepCopyInto` and `DeepCopy` that are not in the source. -/
theorem C87_package (hx : exported (r.syn.typeName n) = true) (hcopy : Copyable r.prog ⟨r.syn.typeName n, r.kind n, {}⟩) (hc : PkgSet E r.files "kubebuilder:object:generate" true)
    (h1 : Silent f n "kubebuilder:object:generate") (h1' : Silent f n "k8s:deepcopy-gen") :
    (InFile file (r.syn.typeName n) .deepCopyInto ↔ (r.prog.manual (r.syn.typeName n)).into = false) ∧ (InFile file (r.syn.typeName n) .deepCopy ↔ (r.prog.manual (r.syn.typeName n)).copy = none) := by
  obtain ⟨pkg, ms, h0, h2, h3⟩ := methods_of hg hh h hs hd hp hr hf hn
  obtain ⟨rest, h4⟩ := pkg_set h0.generate hc
  have he : TypeEnabled pkg ms := .package (values_none h2.generate h1) (values_none h2.legacy h1') (.generate _ h4)
  rw [h3, h3]
  exact ⟨⟨fun ⟨_, _, _, h5⟩ => by cases h5; assumption, fun h5 => ⟨hx, hcopy, he, .deepCopyInto h5⟩⟩, ⟨fun ⟨_, _, _, h5⟩ => by cases h5; assumption, fun h5 => ⟨hx, hcopy, he, .deepCopy h5⟩⟩⟩

/-- **C87** (nothing without a comment): a type without comments about it gets no methods in a package without comments about generation, or with `+kubebuilder:object:generate=false`. -/
theorem C87_nothing (hc : PkgSet E r.files "kubebuilder:object:generate" false ∨ PkgSilent r.files "kubebuilder:object:generate" ∧ PkgSilent r.files "k8s:deepcopy-gen")
    (h1 : Silent f n "kubebuilder:object:generate") (h1' : Silent f n "k8s:deepcopy-gen") (h1'' : Silent f n "kubebuilder:object:root") (m : Method) : ¬ InFile file (r.syn.typeName n) m := by
  obtain ⟨pkg, ms, h0, h2, h3⟩ := methods_of hg hh h hs hd hp hr hf hn
  have hi : Silent f n "k8s:deepcopy-gen:interfaces" := fun c hc hb => h1' c hc <| by
    refine List.IsPrefix.trans ?_ hb
    decide +kernel
  rw [h3]
  rintro ⟨-, -, h5, -⟩
  cases h5 with
  | generate _ h5 => rw [values_none h2.generate h1] at h5; cases h5
  | legacy _ _ h5 => rw [values_none h2.legacy h1'] at h5; cases h5
  | package _ _ h5 =>
    rcases hc with hc | ⟨hc, hc'⟩
    · obtain ⟨rest, h6⟩ := pkg_set h0.generate hc
      cases h5 with
      | generate _ h5 => rw [h6] at h5; cases h5
      | legacy _ h5 => rw [h6] at h5; cases h5
      | legacyArgs _ _ h5 => rw [h6] at h5; cases h5
    · cases h5 with
      | generate _ h5 => rw [pkg_none h0.generate hc] at h5; cases h5
      | legacy _ _ h5 => rw [pkg_none h0.legacy hc'] at h5; cases h5
      | legacyArgs _ _ _ h5 => rw [pkg_none h0.legacy hc'] at h5; cases h5
  | object _ _ h5 =>
    cases h5 with
    | root _ h5 => rw [values_none h2.root h1''] at h5; cases h5
    | legacy _ h5 => rw [values_none h2.interfaces hi] at h5; cases h5

end Verif.DeepCopy

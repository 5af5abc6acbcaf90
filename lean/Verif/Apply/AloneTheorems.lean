import Verif.Apply.AloneSpec
import Verif.Apply.SourceTheorems
import Verif.Markers.SourcePerm
/-!
# C101: the apply configurations of a package in two runs
-/
namespace Verif.Apply
open Verif Verif.Apply.Spec
open Verif.Markers (Str Value Def Loaded Env Values history_mem define_name packageMarkers)
open Verif.Markers.Source (File Parsed markersOf typesOf lookupIn Chosen)

variable {gs : List String} {hist : List (Def Loaded)} {E : Env} {r r' : SourceRoot}

/-- A comment that may be `+kubebuilder:ac:generate` for a package may be a marker of a type. -/
theorem also_type (hg : "applyconfiguration" ∈ gs) (hh : Markers.Shipped.history gs = some hist) (s : List Char) (d : Def Loaded) (hl : lookupIn hist s .package = some d)
    (hn : String.ofList d.name = "kubebuilder:ac:generate") : lookupIn hist s .type ≠ none := by
  obtain ⟨⟨m1, ⟨g1, hg1, ms1, hms1, hm1, ht1, df1, hdf1, -⟩, hn1⟩, -⟩ := apply_chosen (t := .type) (k := "kubebuilder:ac:generate") (d := ⟨[⟨[], .bool, false⟩], true⟩) hg (by simp)
  obtain ⟨ms2, hms2, hall⟩ := (history_mem hh).2 g1 hg1
  have : ms2 = ms1 := Markers.Source.registers_unique hms2 hms1
  subst this
  obtain ⟨e, he, hed⟩ := hall m1 hm1
  obtain ⟨k1, k2⟩ := define_name hed
  have hn' : d.name = "kubebuilder:ac:generate".toList := by simpa using congrArg String.toList hn
  obtain ⟨d2, h5⟩ := Markers.Source.lookup_type hl he (k1.trans (hn1.trans hn'.symm)) (k2.trans ht1)
  intro h6
  have h7 : lookupIn hist s .type = some d2 := h5
  rw [h6] at h7
  cases h7

/-- What is looked at of the markers of a package. -/
theorem pkg_firsts {m : List (Values Val) × List TypeInfo} (hm : r.markers hist E = some (some m)) : ∃ v res, packageMarkers r.τ (some m.1) = some v ∧ markersOf hist E r.σ r.τ r.files = some (some res) ∧
    v.first generateName = (pkgGenerate res).head?.map .bool ∧ v.first outputName = (pkgOutput res).head?.map fun s => .str s.toList := by
  have hwf : ∀ w ∈ m.1, GoMap.WF w := fun w hw => ((source_ok hm).files m.1 m.2 rfl w hw).wf
  obtain ⟨res, h1, h2, h3⟩ := package_values hm
  obtain ⟨v, h4, h5⟩ := pkgFirst r.τ hwf "kubebuilder:ac:generate"
  obtain ⟨v', h4', h6⟩ := pkgFirst r.τ hwf "kubebuilder:ac:output:package"
  rw [h4] at h4'
  cases h4'
  refine ⟨v, res, h4, h1, ?_, ?_⟩
  · refine Option.ext fun x => ?_
    show v.first "kubebuilder:ac:generate".toList = some x ↔ _
    rw [h5, h2]
    cases pkgGenerate res with
    | nil => simp
    | cons b bs => simp [eq_comm]
  · refine Option.ext fun x => ?_
    show v.first "kubebuilder:ac:output:package".toList = some x ↔ _
    rw [h6, h3]
    cases pkgOutput res with
    | nil => simp
    | cons b bs => simp [eq_comm]

theorem output_same {files : List File} {g g' : List Bool} {o o' : List String} (hc : OneOutput E files) (h : SourceSays E files g o) (h' : SourceSays E files g' o') : o.head? = o'.head? := by
  have key : ∀ {g : List Bool} {o : List String}, SourceSays E files g o → (∀ s, OutputSet E files s → o.head? = some s) ∧ (NoOutput files → o = []) := by
    intro g o h
    constructor
    · rintro s ⟨⟨f, hf, x, h4, h5, h6⟩, h7⟩
      have h8 := h.output.2 f hf x s h4 h5 h6
      cases o with
      | nil => cases h8
      | cons v o =>
        obtain ⟨f', hf', c, h9, h10, h11, -⟩ := h.output.1 v List.mem_cons_self
        rw [List.head?_cons, h11 s (h7 f' hf' c h9 h10)]
    · intro h4
      cases o with
      | nil => rfl
      | cons v o =>
        obtain ⟨f', hf', c, h9, h10, -⟩ := h.output.1 v List.mem_cons_self
        exact absurd h10 (h4 f' hf' c h9)
  rcases hc with hc | ⟨s, hc⟩
  · rw [(key h).2 hc, (key h').2 hc]
  · rw [(key h).1 s hc, (key h').1 s hc]

theorem generateForPackage_same {τ τ' : Sched} {lib : Library} {header dir path : Str} {go : List Str} {fs fs' : List (Values Val)} {ts : List TypeInfo} {v v' : Values Val} (h : packageMarkers τ (some fs) = some v)
    (h' : packageMarkers τ' (some fs') = some v') (hg : v.first generateName = v'.first generateName) (ho : v.first outputName = v'.first outputName) :
    generateForPackage τ lib header ⟨dir, path, go, some (fs, ts)⟩ = generateForPackage τ' lib header ⟨dir, path, go, some (fs', ts)⟩ := by
  have e1 : enabledOnPackage (some v) = enabledOnPackage (some v') := by simp only [enabledOnPackage, hg]
  have e2 : outputPkg (some v) = outputPkg (some v') := by simp only [outputPkg, ho]
  unfold generateForPackage
  simp only [Option.map_some, h, h', e1, e2]

/-- The markers of a package in two runs: an error in both, or the same types, and packages that agree on whether they are enabled. -/
theorem markers_two (hg : "applyconfiguration" ∈ gs) (hh : Markers.Shipped.history gs = some hist) (hp : Parsed r.files) (hs : r.syn.OK r.files) (h : SamePackage r r') :
    (r.markers hist E = some none ∧ r'.markers hist E = some none) ∨ ∃ fs fs' ts v v' g g' o o', r.markers hist E = some (some (fs, ts)) ∧ r'.markers hist E = some (some (fs', ts)) ∧
      packageMarkers r.τ (some fs) = some v ∧ packageMarkers r'.τ (some fs') = some v' ∧ v.first generateName = v'.first generateName ∧
      (v.first outputName = o.head?.map fun s => .str s.toList) ∧ (v'.first outputName = o'.head?.map fun s => .str s.toList) ∧ SourceSays E r.files g o ∧ SourceSays E r.files g' o' := by
  obtain ⟨d', p', go', f', s', σ', τ'⟩ := r'
  obtain ⟨h1, h2, h3, h4, h5⟩ := h
  obtain ⟨d, p, go, f, s, σ, τ⟩ := r
  simp only at h1 h2 h3 h4 h5
  subst h1; subst h2; subst h3; subst h4; subst h5
  obtain ⟨rs, hrs⟩ := Markers.Source.associate_some (lookup := lookupIn hist) (σ := σ) hp.wf 0
  obtain ⟨rs', hrs'⟩ := Markers.Source.associate_some (lookup := lookupIn hist) (σ := σ') hp.wf 0
  have ht := Markers.Source.types_same (h := hist) (E := E) (σ := σ) (σ' := σ') hp hs
  obtain ⟨o, ho, -⟩ := Markers.Source.C82_fails (hist := hist) (E := E) s σ hp
  have ho' := ht.symm.trans ho
  cases o with
  | none => exact .inl ⟨by unfold SourceRoot.markers; simp only [hrs, ho], by unfold SourceRoot.markers; simp only [hrs', ho']⟩
  | some infos =>
    obtain ⟨m, hm⟩ : ∃ m, (⟨d, p, go, f, s, σ, τ⟩ : SourceRoot).markers hist E = some (some m) := by unfold SourceRoot.markers; simp only [hrs, ho]; exact ⟨_, rfl⟩
    obtain ⟨m', hm'⟩ : ∃ m', (⟨d, p, go, f, s, σ', τ'⟩ : SourceRoot).markers hist E = some (some m') := by unfold SourceRoot.markers; simp only [hrs', ho']; exact ⟨_, rfl⟩
    obtain ⟨_, i, -, hi, -, e1⟩ := markers_some hm
    obtain ⟨_, i', -, hi', -, e2⟩ := markers_some hm'
    simp only [ho] at hi
    simp only [ho'] at hi'
    cases hi; cases hi'
    obtain ⟨v, res, k1, k2, k3, k4⟩ := pkg_firsts hm
    obtain ⟨v', res', k1', k2', k3', k4'⟩ := pkg_firsts hm'
    obtain ⟨fs, ts⟩ := m
    obtain ⟨fs', ts'⟩ := m'
    simp only at e1 e2
    subst e1; subst e2
    refine .inr ⟨_, _, _, v, v', _, _, _, _, hm, hm', k1, k1', ?_, k4, k4', sourceSays hg hh hp.wf k2, sourceSays hg hh hp.wf k2'⟩
    rw [k3, k3', pkgGenerate, pkgGenerate, Markers.Source.values_fixed (also_type hg hh) hp.wf k2 k2']

theorem generateForPackage_none (τ τ' : Sched) (lib : Library) (header dir path : Str) (go : List Str) : generateForPackage τ lib header ⟨dir, path, go, none⟩ = generateForPackage τ' lib header ⟨dir, path, go, none⟩ := by
  simp [generateForPackage, packageMarkers, enabledOnPackage]

/-- **C101** (guarded).  What the library is asked for, for a package whose comments name one output package at most, is the same in all runs; so is the error.  What is missing: packages whose comments name more than one
output package (`C101_violated_output`; what is left is `C101_types`). -/
theorem C101_package_partial (hg : "applyconfiguration" ∈ gs) (hh : Markers.Shipped.history gs = some hist) (hp : Parsed r.files) (hs : r.syn.OK r.files) (hc : OneOutput E r.files) (h : SamePackage r r') (lib : Library)
    (header : Str) : r.generate hist E lib header = r'.generate hist E lib header := by
  unfold SourceRoot.generate
  rw [← h.dir, ← h.pkgPath, ← h.goFiles]
  rcases markers_two (E := E) hg hh hp hs h with ⟨h1, h2⟩ | ⟨fs, fs', ts, v, v', g, g', o, o', h1, h2, k1, k1', k2, k3, k3', k4, k4'⟩
  · rw [h1, h2]
    exact generateForPackage_none _ _ _ _ _ _ _
  · rw [h1, h2]
    exact generateForPackage_same k1 k1' k2 (by rw [k3, k3', output_same hc k4 k4'])

/-- **C101** (types; no guard).  For which types of a package the library is asked, and with which comments, is the same in all runs, also if the comments of the package contradict each other. -/
theorem C101_types (hg : "applyconfiguration" ∈ gs) (hh : Markers.Shipped.history gs = some hist) (hp : Parsed r.files) (hs : r.syn.OK r.files) (h : SamePackage r r') {lib : Library} {header : Str} {q q' : Option Request}
    {e e' : Bool} (ho : r.generate hist E lib header = .done q e) (ho' : r'.generate hist E lib header = .done q' e') : q.map (·.types) = q'.map (·.types) := by
  unfold SourceRoot.generate at ho ho'
  rw [← h.dir, ← h.pkgPath, ← h.goFiles] at ho'
  rcases markers_two (E := E) hg hh hp hs h with ⟨h1, h2⟩ | ⟨fs, fs', ts, v, v', g, g', o, o', h1, h2, k1, k1', k2, k3, k3', -, -⟩
  · rw [h1] at ho
    rw [h2] at ho'
    have := ho.symm.trans ((generateForPackage_none r.τ r'.τ _ _ _ _ _).trans ho')
    cases this
    rfl
  · rw [h1] at ho
    rw [h2] at ho'
    have e1 : enabledOnPackage (some v) = enabledOnPackage (some v') := by simp only [enabledOnPackage, k2]
    simp only [generateForPackage, Option.map_some, k1, k1', ← e1] at ho ho'
    rcases he : enabledOnPackage (some v) with _ | ⟨_ | _, _⟩ <;> simp only [he] at ho ho'
    · cases ho
    · cases ho; cases ho'; rfl
    · by_cases hgo : r.goFiles = []
      · simp only [hgo, if_true] at ho ho'
        cases ho; cases ho'; rfl
      · simp only [hgo, if_false] at ho ho'
        cases h3 : outputPkg (some v) with
        | none => rw [h3] at ho; cases ho
        | some d =>
          cases h4 : outputPkg (some v') with
          | none => rw [h4] at ho'; cases ho'
          | some d' =>
            rw [h3] at ho
            rw [h4] at ho'
            cases hl : lib.load r.pkgPath with
            | none => rw [hl] at ho ho'; cases ho; cases ho'; rfl
            | some u =>
              rw [hl] at ho ho'
              cases u with
              | none => cases ho; cases ho'; rfl
              | some u =>
                simp only at ho ho'
                cases hm : markTypes ts u with
                | none => rw [hm] at ho; cases ho
                | some ty => rw [hm] at ho ho'; cases ho; cases ho'; rfl

/-- **C101** (more packages; guarded).  What the library is asked for in a run, it is asked for in every run that names these packages and perhaps others; and a run that fails still fails. -/
theorem C101_more_partial (hg : "applyconfiguration" ∈ gs) (hh : Markers.Shipped.history gs = some hist) {roots roots' : List SourceRoot} (hp : ∀ r ∈ roots, Parsed r.files) (hp' : ∀ r ∈ roots', Parsed r.files)
    (hs : ∀ r ∈ roots, r.syn.OK r.files) (hc : ∀ r ∈ roots, OneOutput E r.files) (hsub : ∀ r ∈ roots, ∃ r' ∈ roots', SamePackage r r') (lib : Library) (header : Str)
    (hu : ∀ r ∈ roots ++ roots', ∀ u, lib.load r.pkgPath = some (some u) → GoMap.WF u) {qs qs' : List Request} {e e' : Bool} (ho : generateSources hist E lib header roots = some (qs, e))
    (ho' : generateSources hist E lib header roots' = some (qs', e')) : (∀ q ∈ qs, q ∈ qs') ∧ (e = true → e' = true) := by
  obtain ⟨_, _, h1, h2, h3⟩ := C88_all (hist := hist) (E := E) lib header hp fun r hr => hu r (List.mem_append_left _ hr)
  obtain ⟨_, _, h1', h2', h3'⟩ := C88_all (hist := hist) (E := E) lib header hp' fun r hr => hu r (List.mem_append_right _ hr)
  rw [ho] at h1
  rw [ho'] at h1'
  cases h1; cases h1'
  constructor
  · intro q hq
    obtain ⟨r, hr, e, h4⟩ := (h2 q).1 hq
    obtain ⟨r', hr', hsame⟩ := hsub r hr
    exact (h2' q).2 ⟨r', hr', e, by rw [← C101_package_partial hg hh (hp r hr) (hs r hr) (hc r hr) hsame]; exact h4⟩
  · intro he
    obtain ⟨r, hr, q, h4⟩ := h3.1 he
    obtain ⟨r', hr', hsame⟩ := hsub r hr
    exact h3'.2 ⟨r', hr', q, by rw [← C101_package_partial hg hh (hp r hr) (hs r hr) (hc r hr) hsame]; exact h4⟩

end Verif.Apply

import Verif.Apply.Spec
import Verif.Markers.PackageTheorems
import Verif.Genall.OutputTheorems
/-!
# C70: apply configurations are generated for exactly the enabled types
-/
namespace Verif.Apply
open Markers (Str Values packageMarkers)
open GoMap Spec Genall Genall.Spec

theorem first_iff {m : Values Val} (h : WF m) {name : String} {v : Val} : m.first name.toList = some v ↔ Says m name v := by
  unfold Values.first Says
  constructor
  · intro h1
    split at h1
    · cases h1
    · rename_i vals hg
      cases vals with
      | nil => cases h1
      | cons w vs => cases h1; exact ⟨vs, (get_eq_some h).1 hg⟩
  · rintro ⟨vs, hm⟩
    rw [(get_eq_some h).2 hm]
    rfl

theorem first_none {m : Values Val} (h : WF m) {name : String} : m.first name.toList = none ↔ ∀ v, ¬ Says m name v := by
  constructor
  · intro h1 v hv
    rw [(first_iff h).2 hv] at h1; cases h1
  · intro h1
    cases hf : m.first name.toList with
    | none => rfl
    | some v => exact absurd ((first_iff h).1 hf) (h1 v)

theorem pkgFirst (σ : Sched) {files : List (Values Val)} (hwf : ∀ f ∈ files, WF f) (name : String) : ∃ res, packageMarkers σ (some files) = some res ∧
    (∀ v, res.first name.toList = some v ↔ PkgSays files name v) := by
  obtain ⟨res, hres, _⟩ := Markers.C69_values σ hwf name.toList
  refine ⟨res, hres, fun v => ?_⟩
  obtain ⟨res', hres', h⟩ := Markers.C69_first σ hwf name.toList v
  rw [hres] at hres'; cases hres'
  rw [h]
  constructor
  · rintro ⟨b, f, a, vs, e, hm, hb⟩
    exact ⟨b, f, a, e, ⟨vs, hm⟩, fun f' hf' v' ⟨vs', h'⟩ => hb f' hf' v' vs' h'⟩
  · rintro ⟨b, f, a, e, ⟨vs, hm⟩, hb⟩
    exact ⟨b, f, a, vs, e, hm, fun f' hf' v' vs' h' => hb f' hf' v' ⟨vs', h'⟩⟩

theorem pkgSays_ok {files : List (Values Val)} (h : ∀ f ∈ files, Values.OK f) :
    (∀ v, PkgSays files "kubebuilder:ac:generate" v → ∃ b, v = .bool b) ∧ ∀ v, PkgSays files "kubebuilder:ac:output:package" v → ∃ s, v = .str s := by
  constructor
  · rintro v ⟨b, f, a, rfl, hs, _⟩
    exact (h f (by simp)).generate v hs
  · rintro v ⟨b, f, a, rfl, hs, _⟩
    exact (h f (by simp)).output v hs

theorem enabledOnType_eq {t : TypeInfo} (h : Values.OK t.markers) : ∃ b, enabledOnType t = some b ∧ (b = true ↔ TypeEnabled t) := by
  unfold enabledOnType isCRD TypeEnabled
  cases hg : t.markers.first generateName with
  | none =>
    have hn := (first_none h.wf).1 hg
    refine ⟨_, rfl, ?_⟩
    rw [Option.isSome_iff_exists]
    constructor
    · rintro ⟨v, hv⟩
      exact .inr ⟨hn, v, (first_iff h.wf).1 hv⟩
    · rintro (h1 | ⟨_, v, hv⟩)
      · exact absurd h1 (hn _)
      · exact ⟨v, (first_iff h.wf).2 hv⟩
  | some v =>
    have hs := (first_iff h.wf).1 hg
    obtain ⟨b, rfl⟩ := h.generate v hs
    refine ⟨b, rfl, ?_⟩
    constructor
    · rintro rfl; exact .inl hs
    · rintro (h1 | ⟨h1, _⟩)
      · have := (first_iff h.wf).2 h1
        rw [show t.markers.first "kubebuilder:ac:generate".toList = some (.bool b) from hg] at this
        cases this; rfl
      · exact absurd hs (h1 _)

/-- The comments of a type after the loop. -/
theorem markTypes_eq {ts : List TypeInfo} : ∀ {types : List (Str × Comments)}, WF types → (∀ t ∈ ts, Values.OK t.markers) →
    ∃ types', markTypes ts types = some types' ∧ WF types' ∧ (∀ n, n ∈ keys types' ↔ n ∈ keys types) ∧ ∀ n c, (n, c) ∈ types →
      ∃ c', (n, c') ∈ types' ∧ c'.second = c.second ∧
        (c' = c ∨ (∃ t ∈ ts, t.name = n ∧ TypeEnabled t) ∧ ∃ k, c'.lines = c.lines ++ List.replicate k "+genclient".toList) ∧
        ((∃ t ∈ ts, t.name = n ∧ TypeEnabled t) → "// +genclient".toList ∉ c.lines ++ c.second → Tagged c') := by
  induction ts with
  | nil =>
    intro types hwf _
    exact ⟨types, rfl, hwf, fun _ => .rfl, fun n c h => ⟨c, h, rfl, .inl rfl, by simp⟩⟩
  | cons t ts ih =>
    intro types hwf hok
    obtain ⟨b, hb, hbe⟩ := enabledOnType_eq (hok t List.mem_cons_self)
    have hts := fun t ht => hok t (List.mem_cons_of_mem _ ht)
    -- nothing changes
    have same : markType types t = some types → (∀ c, (t.name, c) ∈ types → b = true → "// +genclient".toList ∈ c.lines ++ c.second) →
        ∃ types', markTypes (t :: ts) types = some types' ∧ WF types' ∧ (∀ n, n ∈ keys types' ↔ n ∈ keys types) ∧ ∀ n c, (n, c) ∈ types →
          ∃ c', (n, c') ∈ types' ∧ c'.second = c.second ∧
            (c' = c ∨ (∃ t' ∈ t :: ts, t'.name = n ∧ TypeEnabled t') ∧ ∃ k, c'.lines = c.lines ++ List.replicate k "+genclient".toList) ∧
            ((∃ t' ∈ t :: ts, t'.name = n ∧ TypeEnabled t') → "// +genclient".toList ∉ c.lines ++ c.second → Tagged c') := by
      intro hm hc
      obtain ⟨types', h1, h2, h3, h4⟩ := ih hwf hts
      refine ⟨types', by simp only [markTypes, hm, h1], h2, h3, fun n c hnc => ?_⟩
      obtain ⟨c', k1, k2, k3, k4⟩ := h4 n c hnc
      refine ⟨c', k1, k2, ?_, ?_⟩
      · rcases k3 with k3 | ⟨⟨t', ht', hn⟩, k⟩
        · exact .inl k3
        · exact .inr ⟨⟨t', List.mem_cons_of_mem _ ht', hn⟩, k⟩
      · rintro ⟨t', ht', hn, he⟩ hno
        rcases List.mem_cons.1 ht' with rfl | ht'
        · subst hn
          exact absurd (hc c hnc (hbe.2 he)) hno
        · exact k4 ⟨t', ht', hn, he⟩ hno
    cases b with
    | false => exact same (by simp only [markType, hb]) (by simp)
    | true =>
      cases hg : GoMap.get types t.name with
      | none => exact same (by simp only [markType, hb, hg]) fun c hc => by rw [(get_eq_some hwf).2 hc] at hg; cases hg
      | some c₀ =>
        by_cases hc : "// +genclient".toList ∈ c₀.lines ++ c₀.second
        · refine same (by simp only [markType, hb, hg, if_pos hc]) fun c hc' _ => ?_
          rw [(get_eq_some hwf).2 hc'] at hg; cases hg; exact hc
        · have hm : markType types t = some (put types t.name { c₀ with lines := c₀.lines ++ ["+genclient".toList] }) := by
            simp only [markType, hb, hg, if_neg hc]
          obtain ⟨types', h1, h2, h3, h4⟩ := ih (types := put types t.name { c₀ with lines := c₀.lines ++ ["+genclient".toList] }) (put_wf hwf _ _) hts
          have hmem : t.name ∈ keys types := mem_keys.2 ⟨c₀, (get_eq_some hwf).1 hg⟩
          refine ⟨types', by simp only [markTypes, hm, h1], h2, (fun n => by rw [h3, mem_keys_put]; exact ⟨fun h => h.elim (fun e => e ▸ hmem) id, .inr⟩), fun n c hnc => ?_⟩
          by_cases hn : n = t.name
          · subst hn
            have : c = c₀ := wf_unique hwf hnc ((get_eq_some hwf).1 hg)
            subst this
            obtain ⟨c', k1, k2, k3, k4⟩ := h4 t.name { c with lines := c.lines ++ ["+genclient".toList] } ((get_eq_some (put_wf hwf _ _)).1 (by rw [get_put, if_pos rfl]))
            have hlines : ∃ k, c'.lines = c.lines ++ List.replicate (k + 1) "+genclient".toList := by
              rcases k3 with rfl | ⟨_, k, hk⟩
              · exact ⟨0, rfl⟩
              · exact ⟨k, by rw [hk]; simp [List.replicate_succ]⟩
            refine ⟨c', k1, k2, .inr ⟨⟨t, List.mem_cons_self, rfl, hbe.1 rfl⟩, ?_⟩, fun _ _ => ?_⟩
            · obtain ⟨k, hk⟩ := hlines; exact ⟨k + 1, hk⟩
            · obtain ⟨k, hk⟩ := hlines
              simp only [Tagged, hk, List.mem_append, List.mem_replicate]
              exact .inl (.inr (by simp))
          · obtain ⟨c', k1, k2, k3, k4⟩ := h4 n c ((get_eq_some (put_wf hwf _ _)).1 (by rw [get_put, if_neg hn]; exact (get_eq_some hwf).2 hnc))
            refine ⟨c', k1, k2, ?_, ?_⟩
            · rcases k3 with k3 | ⟨⟨t', ht', h'⟩, k⟩
              · exact .inl k3
              · exact .inr ⟨⟨t', List.mem_cons_of_mem _ ht', h'⟩, k⟩
            · rintro ⟨t', ht', h', he⟩ hno
              rcases List.mem_cons.1 ht' with rfl | ht'
              · exact absurd h'.symm hn
              · exact k4 ⟨t', ht', h', he⟩ hno

/-- Where apply configurations of a package go, without the part that is the package's own. -/
def OutputPackage (files : List (Values Val)) (out : Str) : Prop :=
  PkgSays files "kubebuilder:ac:output:package" (.str out) ∨ (∀ v, ¬ PkgSays files "kubebuilder:ac:output:package" v) ∧ out = "applyconfiguration".toList

theorem packageMarkers_eq (σ : Sched) {files : List (Values Val)} (h : ∀ f ∈ files, Values.OK f) :
    ∃ res, packageMarkers σ (some files) = some res ∧
      (∃ b, enabledOnPackage (some res) = some (b, false) ∧ (b = true ↔ PkgSays files "kubebuilder:ac:generate" (.bool true))) ∧
      ∃ out, outputPkg (some res) = some out ∧ OutputPackage files out := by
  have hwf := fun f hf => (h f hf).wf
  obtain ⟨res, hres, h1⟩ := pkgFirst σ hwf "kubebuilder:ac:generate"
  obtain ⟨res', hres', h2⟩ := pkgFirst σ hwf "kubebuilder:ac:output:package"
  rw [hres] at hres'; cases hres'
  obtain ⟨o1, o2⟩ := pkgSays_ok h
  refine ⟨res, hres, ?_, ?_⟩
  · cases hg : res.first generateName with
    | none =>
      refine ⟨false, by simp only [enabledOnPackage, hg], by simp, fun hp => ?_⟩
      have := (h1 _).2 hp
      rw [show res.first "kubebuilder:ac:generate".toList = none from hg] at this; cases this
    | some v =>
      obtain ⟨b, rfl⟩ := o1 v ((h1 v).1 hg)
      refine ⟨b, by simp only [enabledOnPackage, hg], ?_, fun hp => ?_⟩
      · rintro rfl; exact (h1 _).1 hg
      · have := (h1 _).2 hp
        rw [show res.first "kubebuilder:ac:generate".toList = _ from hg] at this; cases this; rfl
  · cases hg : res.first outputName with
    | none =>
      refine ⟨_, by simp only [outputPkg, hg], .inr ⟨fun v hv => ?_, rfl⟩⟩
      have := (h2 _).2 hv
      rw [show res.first "kubebuilder:ac:output:package".toList = none from hg] at this; cases this
    | some v =>
      obtain ⟨s, rfl⟩ := o2 v ((h2 v).1 hg)
      exact ⟨s, by simp only [outputPkg, hg], .inl ((h2 _).1 hg)⟩

/-- **C70** (disabled packages): nothing is written for a package whose first `+kubebuilder:ac:generate` is not true, or without files, and this is no error. -/
theorem C70_disabled (σ : Sched) (lib : Library) (header : Str) {root : Root} (hok : Root.OK root) {files : List (Values Val)} {types : List TypeInfo}
    (hm : root.markers = some (files, types)) (h : ¬ PkgSays files "kubebuilder:ac:generate" (.bool true) ∨ root.goFiles = []) :
    generateForPackage σ lib header root = .done none false := by
  obtain ⟨res, hres, ⟨b, hb, hbe⟩, -⟩ := packageMarkers_eq σ (hok.files _ _ hm)
  simp only [generateForPackage, hm, Option.map_some, hres, hb]
  cases b with
  | false => rfl
  | true =>
    rcases h with h | h
    · exact absurd (hbe.1 rfl) h
    · simp [h]

/-- **C70** (enabled packages): for an enabled package that the library can load, the library is asked once, with the header file, to write below the directory of the package, under an import path that
corresponds.  It is asked to generate for the types that are tagged `+genclient` in the source or enabled by markers, and for no others.  Guard: no comment of an enabled type has the line `// +genclient`.
The full claim is violated: `C70_violated_single`, `C70_violated_disable`, `C70_violated_commented`. -/
theorem C70_types_partial (σ : Sched) (lib : Library) (header : Str) {root : Root} (hok : Root.OK root) {files : List (Values Val)} {types : List TypeInfo}
    (hm : root.markers = some (files, types)) (hen : PkgSays files "kubebuilder:ac:generate" (.bool true)) (hgo : root.goFiles ≠ [])
    {u : List (Str × Comments)} (hu : WF u) (hload : lib.load root.pkgPath = some (some u)) :
    ∃ r, generateForPackage σ lib header root = .done (some r) (!lib.execute r) ∧ r.header = header ∧
      (∃ out, OutputPackage files out ∧ r.dir = joinPath root.dir out ∧ r.pkg = joinPath root.pkgPath out) ∧
      ∀ n c, (n, c) ∈ u → ("// +genclient".toList ∉ c.lines ++ c.second) → (Requested r n ↔ Tagged c ∨ ∃ t ∈ types, t.name = n ∧ TypeEnabled t) := by
  obtain ⟨res, hres, ⟨b, hb, hbe⟩, out, hout, hop⟩ := packageMarkers_eq σ (hok.files _ _ hm)
  obtain ⟨types', h1, h2, h3, h4⟩ := markTypes_eq hu (hok.types _ _ hm)
  have hb' := hbe.2 hen
  subst hb'
  refine ⟨{ dir := joinPath root.dir out, pkg := joinPath root.pkgPath out, header := header, types := types' }, ?_, rfl, ⟨out, hop, rfl, rfl⟩, ?_⟩
  · simp only [generateForPackage, hm, Option.map_some, hres, hb, if_neg hgo, hout, hload, h1]
  · intro n c hnc hno
    obtain ⟨c', k1, k2, k3, k4⟩ := h4 n c hnc
    constructor
    · rintro ⟨c'', hc'', ht⟩
      have : c'' = c' := wf_unique h2 hc'' k1
      subst this
      rcases k3 with rfl | ⟨h, _⟩
      · exact .inl ht
      · exact .inr h
    · rintro (ht | he)
      · refine ⟨c', k1, ?_⟩
        rcases k3 with rfl | ⟨_, k, hk⟩
        · exact ht
        · simp only [Tagged, hk, k2, List.mem_append] at ht ⊢
          rcases ht with ht | ht
          · exact .inl (.inl ht)
          · exact .inr ht
      · exact ⟨c', k1, k4 he hno⟩

/-- **C70** (where): the directory is what the output package names, seen from the directory of the package. -/
theorem C70_where (σ : Sched) (lib : Library) (header : Str) {root : Root} (hdir : root.dir ≠ []) {r : Request} {e : Bool}
    (h : generateForPackage σ lib header root = .done (some r) e) (cwd : List Str) :
    ∃ out, outputPkg (packageMarkers σ (root.markers.map (·.1))) = some out ∧ locate cwd r.dir = locateIn (locate cwd root.dir) out := by
  unfold generateForPackage at h
  simp only at h
  cases h1 : enabledOnPackage (packageMarkers σ (root.markers.map (·.1))) with
  | none => rw [h1] at h; cases h
  | some p =>
    obtain ⟨b, e'⟩ := p
    rw [h1] at h
    cases b with
    | false => cases h
    | true =>
      simp only at h
      split at h
      · cases h
      · cases h2 : outputPkg (packageMarkers σ (root.markers.map (·.1))) with
        | none => rw [h2] at h; cases h
        | some out =>
          rw [h2] at h
          simp only at h
          split at h
          · cases h
          · cases h
          · split at h
            · cases h
            · split at h
              · cases h
              · cases h
                exact ⟨out, rfl, locate_join cwd hdir out⟩

/-- **C70** (no panic): markers that were parsed never make the generator panic. -/
theorem C70_no_panic (σ : Sched) (lib : Library) (header : Str) {root : Root} (hok : Root.OK root) (hu : ∀ u, lib.load root.pkgPath = some (some u) → WF u) :
    ∃ r e, generateForPackage σ lib header root = .done r e := by
  cases hm : root.markers with
  | none => exact ⟨none, false, by simp [generateForPackage, hm, packageMarkers, enabledOnPackage]⟩
  | some p =>
    obtain ⟨files, types⟩ := p
    by_cases hen : ¬ PkgSays files "kubebuilder:ac:generate" (.bool true) ∨ root.goFiles = []
    · exact ⟨_, _, C70_disabled σ lib header hok hm hen⟩
    · have h1 : PkgSays files "kubebuilder:ac:generate" (.bool true) := Classical.not_not.1 fun h => hen (.inl h)
      have h2 : root.goFiles ≠ [] := fun h => hen (.inr h)
      cases hl : lib.load root.pkgPath with
      | none =>
        obtain ⟨res, hres, ⟨b, hb, hbe⟩, out, hout, _⟩ := packageMarkers_eq σ (hok.files _ _ hm)
        have hb' := hbe.2 h1; subst hb'
        exact ⟨none, true, by simp only [generateForPackage, hm, Option.map_some, hres, hb, if_neg h2, hout, hl]⟩
      | some o =>
        cases o with
        | none =>
          obtain ⟨res, hres, ⟨b, hb, hbe⟩, out, hout, _⟩ := packageMarkers_eq σ (hok.files _ _ hm)
          have hb' := hbe.2 h1; subst hb'
          exact ⟨none, true, by simp only [generateForPackage, hm, Option.map_some, hres, hb, if_neg h2, hout, hl]⟩
        | some u =>
          obtain ⟨r, hr, _⟩ := C70_types_partial σ lib header hok hm h1 h2 (hu u hl) hl
          exact ⟨_, _, hr⟩

/-- The library cannot load the package, or fails to write. -/
def Fails (lib : Library) (σ : Sched) (header : Str) (root : Root) : Prop := ∃ r, generateForPackage σ lib header root = .done r true

theorem generateLoop_eq (σ : Sched) (lib : Library) (header : Str) : ∀ {roots : List Root},
    (∀ root ∈ roots, ∃ r e, generateForPackage σ lib header root = .done r e) → ∃ rs e, generateLoop σ lib header roots = some (rs, e) ∧
      (∀ r, r ∈ rs ↔ ∃ root ∈ roots, ∃ e, generateForPackage σ lib header root = .done (some r) e) ∧ (e = true ↔ ∃ root ∈ roots, Fails lib σ header root) := by
  intro roots
  induction roots with
  | nil => intro _; exact ⟨[], false, rfl, by simp, by simp⟩
  | cons root roots ih =>
    intro h
    obtain ⟨r, e, hr⟩ := h root List.mem_cons_self
    obtain ⟨rs, es, h1, h2, h3⟩ := ih fun root hroot => h root (List.mem_cons_of_mem _ hroot)
    refine ⟨r.toList ++ rs, e || es, by simp only [generateLoop, hr, h1], fun r' => ?_, ?_⟩
    · simp only [List.mem_append, h2, List.mem_cons, exists_eq_or_imp, hr, Option.mem_toList, Option.mem_def, Result.done.injEq]
      constructor
      · rintro (rfl | h)
        · exact .inl ⟨e, rfl, rfl⟩
        · exact .inr h
      · rintro (⟨_, rfl, _⟩ | h)
        · exact .inl rfl
        · exact .inr h
    · simp only [Bool.or_eq_true, h3, List.mem_cons, exists_eq_or_imp, Fails, hr, Result.done.injEq]
      constructor
      · rintro (rfl | h)
        · exact .inl ⟨r, rfl, rfl⟩
        · exact .inr h
      · rintro (⟨_, _, rfl⟩ | h)
        · exact .inl rfl
        · exact .inr h

/-- **C70** (all packages): every root is treated, whether or not others fail, and the generator fails exactly if one of them does. -/
theorem C70_all (σ : Sched) (lib : Library) (headerFile temp : Str) {roots : List Root} (hok : ∀ root ∈ roots, Root.OK root)
    (hu : ∀ root ∈ roots, ∀ u, lib.load root.pkgPath = some (some u) → WF u) :
    ∃ header rs e, (headerFile ≠ [] → header = headerFile) ∧ (headerFile = [] → header = temp) ∧ generate σ lib headerFile temp roots = some (rs, e) ∧
      (∀ r, r ∈ rs ↔ ∃ root ∈ roots, ∃ e, generateForPackage σ lib header root = .done (some r) e) ∧ (e = true ↔ ∃ root ∈ roots, Fails lib σ header root) := by
  obtain ⟨rs, e, h1, h2, h3⟩ := generateLoop_eq σ lib (if headerFile = [] then temp else headerFile) (roots := roots)
    fun root hroot => C70_no_panic σ lib _ (hok root hroot) (hu root hroot)
  exact ⟨_, rs, e, fun h => if_neg h, fun h => if_pos h, h1, h2, h3⟩

/-! ## Examples and violations -/

namespace Example

def crd : TypeInfo := ⟨"Foo".toList, [("kubebuilder:resource".toList, [.other])]⟩
def single : TypeInfo := ⟨"Bar".toList, [("kubebuilder:ac:generate".toList, [.bool true])]⟩
def disabled : TypeInfo := ⟨"Baz".toList, [("kubebuilder:ac:generate".toList, [.bool false]), ("kubebuilder:resource".toList, [.other])]⟩

def enabledFile : Values Val := [("kubebuilder:ac:generate".toList, [.bool true]), ("kubebuilder:ac:output:package".toList, [.str "../ac".toList])]

def root (files : List (Values Val)) (types : List TypeInfo) : Root := ⟨"api/v1".toList, "example.com/api/v1".toList, ["types.go".toList], some (files, types)⟩

def lib (u : List (Str × Comments)) : Library := ⟨fun _ => some (some u), fun _ => true⟩

/-- The types, without tags of their own. -/
def types : List (Str × Comments) := [("Foo".toList, ⟨["Foo is a foo.".toList], []⟩), ("Bar".toList, ⟨[], []⟩), ("Baz".toList, ⟨[], []⟩)]

/-- The types for which the library is asked to generate. -/
def requested : Result → Option (Str × Str × List Str)
  | .done (some r) _ => some (r.dir, r.pkg, (r.types.filter fun e => decide ("+genclient".toList ∈ e.2.lines ++ e.2.second)).map (·.1))
  | _ => none

example : requested (generateForPackage .fifo (lib types) "h".toList (root [[], enabledFile] [crd, single, disabled])) =
    some ("api/ac".toList, "example.com/api/ac".toList, ["Foo".toList, "Bar".toList]) := by decide +kernel

theorem says_cons {n : Str} {vs : List Val} {m : Values Val} {name : String} {v : Val} : Says ((n, vs) :: m) name v ↔ (n = name.toList ∧ vs.head? = some v) ∨ Says m name v := by
  unfold Says
  constructor
  · rintro ⟨vs', h⟩
    rcases List.mem_cons.1 h with h | h
    · cases h; exact .inl ⟨rfl, rfl⟩
    · exact .inr ⟨vs', h⟩
  · rintro (⟨rfl, h⟩ | ⟨vs', h⟩)
    · cases vs with
      | nil => cases h
      | cons w ws => cases h; exact ⟨ws, List.mem_cons_self⟩
    · exact ⟨vs', List.mem_cons_of_mem _ h⟩

theorem says_nil {name : String} {v : Val} : ¬ Says [] name v := by rintro ⟨_, h⟩; cases h

/-- The hypotheses of the theorems hold of this package. -/
theorem root_ok : Root.OK (root [[], enabledFile] [crd, single, disabled]) := by
  have nil : Values.OK [] := ⟨by simp [WF, keys], fun v h => absurd h says_nil, fun v h => absurd h says_nil⟩
  have file : Values.OK enabledFile := by
    refine ⟨by simp only [WF]; decide +kernel, fun v h => ?_, fun v h => ?_⟩ <;> simp only [enabledFile, says_cons, says_nil, or_false] at h
    · rcases h with ⟨_, h⟩ | ⟨h, _⟩
      · cases h; exact ⟨true, rfl⟩
      · exact absurd h (by decide +kernel)
    · rcases h with ⟨h, _⟩ | ⟨_, h⟩
      · exact absurd h (by decide +kernel)
      · cases h; exact ⟨_, rfl⟩
  have one : Values.OK crd.markers := by
    refine ⟨by simp only [WF]; decide +kernel, fun v h => ?_, fun v h => ?_⟩ <;> simp only [crd, says_cons, says_nil, or_false] at h
    · exact absurd h.1 (by decide +kernel)
    · exact absurd h.1 (by decide +kernel)
  have two : Values.OK single.markers := by
    refine ⟨by simp only [WF]; decide +kernel, fun v h => ?_, fun v h => ?_⟩ <;> simp only [single, says_cons, says_nil, or_false] at h
    · cases h.2; exact ⟨true, rfl⟩
    · exact absurd h.1 (by decide +kernel)
  have three : Values.OK disabled.markers := by
    refine ⟨by simp only [WF]; decide +kernel, fun v h => ?_, fun v h => ?_⟩ <;> simp only [disabled, says_cons, says_nil, or_false] at h
    · rcases h with ⟨_, h⟩ | ⟨h, _⟩
      · cases h; exact ⟨_, rfl⟩
      · exact absurd h (by decide +kernel)
    · rcases h with ⟨h, _⟩ | ⟨h, _⟩ <;> exact absurd h (by decide +kernel)
  constructor
  · intro fs ts h f hf
    cases h
    simp only [List.mem_cons, List.not_mem_nil, or_false] at hf
    rcases hf with rfl | rfl
    · exact nil
    · exact file
  · intro fs ts h t ht
    cases h
    simp only [List.mem_cons, List.not_mem_nil, or_false] at ht
    rcases ht with rfl | rfl | rfl
    · exact one
    · exact two
    · exact three

example : PkgSays [[], enabledFile] "kubebuilder:ac:generate" (.bool true) :=
  ⟨[[]], enabledFile, [], rfl, ⟨[], List.mem_cons_self⟩, fun f hf v h => by simp at hf; subst hf; exact says_nil h⟩

/-- **C70** is violated: the marker of a type "can be used to generate applyconfiguration for a single type when the package generation is disabled" (gen.go:76), but nothing is generated. -/
theorem C70_violated_single : TypeEnabled single ∧ ∀ (σ : Sched) (lib : Library) (header : Str), generateForPackage σ lib header (root [] [single]) = .done none false := by
  refine ⟨.inl ⟨[], List.mem_cons_self⟩, fun σ lib header => ?_⟩
  rfl

/-- **C70** is violated: `+kubebuilder:ac:generate=false` is to "disable generation for a single type when the package generation is enabled" (gen.go:76), but a type that has `+genclient` in its
comments, for the generator of clients, stays tagged. -/
theorem C70_violated_disable : ¬ TypeEnabled disabled ∧
    requested (generateForPackage .fifo (lib [("Baz".toList, ⟨["+genclient".toList], []⟩)]) [] (root [enabledFile] [disabled])) =
      some ("api/ac".toList, "example.com/api/ac".toList, ["Baz".toList]) := by
  refine ⟨?_, by decide +kernel⟩
  rintro (h | ⟨h, _⟩)
  · simp only [disabled, says_cons, says_nil, or_false] at h
    rcases h with ⟨_, h⟩ | ⟨h, _⟩
    · cases h
    · exact absurd h (by decide +kernel)
  · exact h (.bool false) ⟨[], List.mem_cons_self⟩

/-- **C70** is violated: the code looks for the line `// +genclient`, but the library has taken the comment markers off.  So this line stands for a tag that is commented out, `// // +genclient`,
and then nothing is generated for the enabled type. -/
theorem C70_violated_commented : TypeEnabled crd ∧
    requested (generateForPackage .fifo (lib [("Foo".toList, ⟨["// +genclient".toList], []⟩)]) [] (root [enabledFile] [crd])) =
      some ("api/ac".toList, "example.com/api/ac".toList, []) := by
  refine ⟨.inr ⟨?_, .other, [], List.mem_cons_self⟩, by decide +kernel⟩
  intro v h
  simp only [crd, says_cons, says_nil, or_false] at h
  exact absurd h.1 (by decide +kernel)

/-- **C70** is violated: if a marker of the package cannot be parsed, nothing is generated, and no error is returned (gen.go:169). -/
theorem C70_violated_error (σ : Sched) (lib : Library) (header : Str) {root : Root} (h : root.markers = none) :
    generateForPackage σ lib header root = .done none false := by
  simp [generateForPackage, h, packageMarkers, Markers.packageMarkers, enabledOnPackage]

end Example
end Verif.Apply

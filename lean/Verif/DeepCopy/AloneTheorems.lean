import Verif.DeepCopy.AloneSpec
import Verif.DeepCopy.SourceTheorems
import Verif.Markers.SourcePerm
/-!
# C100: the deepcopy code of a package is the same in every run
-/
namespace Verif.DeepCopy
open Verif Verif.DeepCopy.Spec
open Verif.Markers (Value Def Loaded Env Values history_mem define_name)
open Verif.Markers.Source

variable {gs : List String} {hist : List (Def Loaded)} {E : Env} {exported : String → Bool} {r r' : Root}

/-- A comment that may be a marker of the generator for a package may be one for a type. -/
theorem also_type (hg : "object" ∈ gs) (hh : Markers.Shipped.history gs = some hist) {k : String} (hk : k = "kubebuilder:object:generate" ∨ k = "k8s:deepcopy-gen") (s : List Char) (d : Def Loaded)
    (hl : lookupIn hist s .package = some d) (hn : String.ofList d.name = k) : lookupIn hist s .type ≠ none := by
  have hch : ∃ m df, Chosen gs .type m df ∧ m.name = k.toList := by
    rcases hk with rfl | rfl
    · obtain ⟨⟨m, h1, h2⟩, -⟩ := object_chosen (t := .type) (k := "kubebuilder:object:generate") (a := .bool) hg (by simp)
      exact ⟨m, _, h1, h2⟩
    · obtain ⟨⟨m, h1, h2⟩, -⟩ := object_chosen (t := .type) (k := "k8s:deepcopy-gen") (a := .raw) hg (by simp)
      exact ⟨m, _, h1, h2⟩
  obtain ⟨m1, d1, ⟨g1, hg1, ms1, hms1, hm1, ht1, df1, hdf1, -⟩, hn1⟩ := hch
  obtain ⟨ms2, hms2, hall⟩ := (history_mem hh).2 g1 hg1
  have : ms2 = ms1 := registers_unique hms2 hms1
  subst this
  obtain ⟨e, he, hed⟩ := hall m1 hm1
  obtain ⟨k1, k2⟩ := define_name hed
  have hn' : d.name = k.toList := by simpa using congrArg String.toList hn
  obtain ⟨d2, h5⟩ := lookup_type hl he (k1.trans (hn1.trans hn'.symm)) (k2.trans ht1)
  intro h6
  have h7 : lookupIn hist s .type = some d2 := h5
  rw [h6] at h7
  cases h7

theorem pkgMarkers_same (hg : "object" ∈ gs) (hh : Markers.Shipped.history gs = some hist) {files : List File} (hf : ∀ f ∈ files, f.WF) {σ σ' : Nat → Sched} {τ τ' : Sched}
    {res res' : Values (List (List Char × Value))} (hr : markersOf hist E σ τ files = some (some res)) (hr' : markersOf hist E σ' τ' files = some (some res')) : pkgMarkersOf res = pkgMarkersOf res' := by
  unfold pkgMarkersOf
  rw [values_fixed (also_type hg hh (.inl rfl)) hf hr hr', values_fixed (also_type hg hh (.inr rfl)) hf hr hr']

theorem generateFor_same {P : Prog} {σ σ' : Sched} {m : PkgMarkers} {ds : List Decl} : P.generateFor σ exported m ds = P.generateFor σ' exported m ds := by
  unfold Prog.generateFor
  simp only
  rw [sortStrings_perm_eq ((σ.perm 0 _).trans (σ'.perm 0 _).symm)]

/-- Two runs of a package: both fail, or both read the same types. -/
theorem generate_cases (hp : Parsed r.files) (hs : r.syn.OK r.files) (h : SamePackage r r') : r.generate hist E exported = some ⟨true, none⟩ ∧ r'.generate hist E exported = some ⟨true, none⟩ ∨
    ∃ values values' infos, markersOf hist E r.σ r.τ r.files = some (some values) ∧ markersOf hist E r'.σ r'.τ r.files = some (some values') ∧
      r.generate hist E exported = some ⟨false, r.prog.generateFor r.ρ exported (pkgMarkersOf values) (List.map r.decl infos)⟩ ∧
      r'.generate hist E exported = some ⟨false, r.prog.generateFor r'.ρ exported (pkgMarkersOf values') (List.map r.decl infos)⟩ := by
  obtain ⟨p', f', s', σ', τ', ρ', g', k'⟩ := r'
  obtain ⟨h1, h2, h3, h4, h5⟩ := h
  subst h1; subst h2; subst h3; subst h4; subst h5
  obtain ⟨res, hres, hiff⟩ := packageValues_fails (lookup := lookupIn hist) (name := fun d => String.ofList d.name) (parse := parseWith E) (σ := r.σ) (τ := r.τ) hp.wf
  obtain ⟨res', hres', hiff'⟩ := packageValues_fails (lookup := lookupIn hist) (name := fun d => String.ofList d.name) (parse := parseWith E) (σ := σ') (τ := τ') hp.wf
  have e1 : markersOf hist E r.σ r.τ r.files = some res := hres
  have e2 : markersOf hist E σ' τ' r.files = some res' := hres'
  have ht := types_same (h := hist) (E := E) (σ := r.σ) (σ' := σ') hp hs
  obtain ⟨o, ho, -⟩ := C82_fails (hist := hist) (E := E) r.syn r.σ hp
  unfold Root.generate
  simp only [e1, e2, ← ht, ho]
  cases res with
  | none => rw [hiff'.2 (hiff.1 rfl)]; exact .inl ⟨rfl, rfl⟩
  | some v =>
    cases res' with
    | none => exact absurd (hiff.2 (hiff'.1 rfl)) (by simp)
    | some v' =>
      cases o with
      | none => exact .inl ⟨rfl, rfl⟩
      | some infos => exact .inr ⟨v, v', infos, rfl, rfl, rfl, rfl⟩

/-- **C100**.  What is generated for a package, and whether an error is reported for it, is the same in all runs. -/
theorem C100_package (hg : "object" ∈ gs) (hh : Markers.Shipped.history gs = some hist) (hp : Parsed r.files) (hs : r.syn.OK r.files) (h : SamePackage r r') :
    r.generate hist E exported = r'.generate hist E exported := by
  rcases generate_cases (hist := hist) (E := E) (exported := exported) hp hs h with ⟨h1, h2⟩ | ⟨v, v', infos, m, m', h1, h2⟩
  · rw [h1, h2]
  · rw [h1, h2, pkgMarkers_same hg hh hp.wf m m', generateFor_same]

/-- **C100** (files).  The file of a package is the same in two runs, whichever other packages are named in them, and in whatever order. -/
theorem C100_files (hg : "object" ∈ gs) (hh : Markers.Shipped.history gs = some hist) {roots roots' : List Root} (hp : ∀ r ∈ roots, Parsed r.files) (hp' : ∀ r ∈ roots', Parsed r.files)
    (hu : (roots.map (·.path)).Nodup) (hu' : (roots'.map (·.path)).Nodup) (hr : r ∈ roots) (hr' : r' ∈ roots') (hs : r.syn.OK r.files) (h : SamePackage r r')
    {out out' : List (String × List (String × List Method))} (ho : generateAll hist E exported roots = some out) (ho' : generateAll hist E exported roots' = some out') (l : List (String × List Method)) :
    (r.path, l) ∈ out ↔ (r.path, l) ∈ out' := by
  have key : ∀ {rs : List Root} {q : Root} {o : List (String × List (String × List Method))}, (∀ r ∈ rs, Parsed r.files) → (rs.map (·.path)).Nodup → q ∈ rs → generateAll hist E exported rs = some o →
      ((q.path, l) ∈ o ↔ ∃ res, q.generate hist E exported = some res ∧ res.file = some l) := by
    intro rs q o hp hu hq ho
    obtain ⟨o', h1, h2⟩ := C87_files (hist := hist) (E := E) (exported := exported) hp
    rw [ho] at h1
    cases h1
    rw [h2, List.mem_filterMap]
    constructor
    · rintro ⟨q', hq', h3⟩
      obtain ⟨res, h4, h5⟩ := Option.bind_eq_some_iff.1 h3
      obtain ⟨l', h6, h7⟩ := Option.map_eq_some_iff.1 h5
      obtain ⟨h8, rfl⟩ := Prod.mk.inj h7
      rw [← nodup_map hu hq' hq h8]
      exact ⟨res, h4, h6⟩
    · rintro ⟨res, h3, h4⟩
      exact ⟨q, hq, by rw [h3]; simp [h4]⟩
  rw [key hp hu hr ho, h.path, key hp' hu' hr' ho', C100_package hg hh (hp r hr) hs h]
where
  nodup_map {rs : List Root} (hu : (rs.map (·.path)).Nodup) {a b : Root} (ha : a ∈ rs) (hb : b ∈ rs) (e : a.path = b.path) : a = b := by
    induction rs with
    | nil => cases ha
    | cons x rs ih =>
      rw [List.map_cons, List.nodup_cons] at hu
      rcases List.mem_cons.1 ha with rfl | ha' <;> rcases List.mem_cons.1 hb with rfl | hb'
      · rfl
      · exact absurd (e ▸ List.mem_map_of_mem hb') hu.1
      · exact absurd (e ▸ List.mem_map_of_mem ha') hu.1
      · exact ih hu.2 ha' hb'

end Verif.DeepCopy

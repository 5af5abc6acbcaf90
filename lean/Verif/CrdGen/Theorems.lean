import Verif.CrdGen.Lemmas2

/-! # CRDs: properties C19 to C23 -/
namespace Verif.CrdGen
open Spec

/-- What `build` has done before the end. -/
theorem build_some {σ : Sched} {L : Lib} {g k : String} {entries : List Entry} {r : Option Crd × List Err} (h : build σ L g k entries = some r) :
    ∃ crd errs, applyAll (events σ 1 entries) { start L g k with versions := entries.map Entry.toVersion } [] = some (crd, errs) ∧ r = finish σ 0 g crd errs := by
  unfold build at h
  split at h
  · cases h
  · rename_i crd errs heq
    exact ⟨crd, errs, heq, (Option.some.inj h).symm⟩

theorem toVersion_names (entries : List Entry) : (entries.map Entry.toVersion).map (·.name) = entries.map (·.version) := by
  rw [List.map_map]; rfl

theorem defaultStorage_names (l : List Version) : (defaultStorage l).map (·.name) = l.map (·.name) := by
  unfold defaultStorage; split <;> rfl

/-- The versions before `finish`. -/
theorem versions_mem {σ : Sched} {t : Nat} {entries : List Entry} {crd crd' : Crd} {errs errs' : List Err} (hd : DistinctVersions entries)
    (hv : crd.versions = entries.map Entry.toVersion) (h : applyAll (events σ t entries) crd errs = some (crd', errs')) :
    (crd'.versions.map (·.name)).Nodup ∧
    (∀ e ∈ entries, ¬ Skipped e → ∃ w ∈ crd'.versions, ∃ t', w = run (own σ t' e) e.toVersion) ∧
    (∀ w ∈ crd'.versions, ∃ e ∈ entries, ¬ Skipped e ∧ ∃ t', w = run (own σ t' e) e.toVersion) := by
  have hn : (crd.versions.map (·.name)).Nodup := by rw [hv, toVersion_names]; exact hd
  have hvs := applyAll_versions hn h
  refine ⟨?_, ?_, ?_⟩
  · rw [hvs, List.map_map]
    have : (fun w : Version => w.name) ∘ (fun w => effs w.name (events σ t entries) w) = fun w => w.name := by
      funext w; exact effs_name _ _ _
    rw [this]
    exact hn.sublist (List.filter_sublist.map _)
  · intro e he hs
    obtain ⟨t', ht'⟩ := ofVersion_events (σ := σ) (t := t) hd he
    refine ⟨effs e.version (events σ t entries) e.toVersion, ?_, t', ?_⟩
    · rw [hvs]
      refine List.mem_map.2 ⟨e.toVersion, List.mem_filter.2 ⟨by rw [hv]; exact List.mem_map_of_mem he, ?_⟩, rfl⟩
      have := mt (drops_any (σ := σ) (t := t) hd he).1 hs
      simp only [Bool.not_eq_true] at this
      show (!(events σ t entries).any (drops e.version)) = true
      rw [this]; rfl
    · rw [effs_run, ht']
  · intro w hw
    rw [hvs] at hw
    obtain ⟨w', hw', rfl⟩ := List.mem_map.1 hw
    obtain ⟨hw', hdr⟩ := List.mem_filter.1 hw'
    rw [hv] at hw'
    obtain ⟨e, he, rfl⟩ := List.mem_map.1 hw'
    obtain ⟨t', ht'⟩ := ofVersion_events (σ := σ) (t := t) hd he
    refine ⟨e, he, ?_, t', ?_⟩
    · intro hs
      have := (drops_any (σ := σ) (t := t) hd he).2 hs
      simp only [Bool.not_eq_true'] at hdr
      rw [show (events σ t entries).any (drops e.toVersion.name) = true from this] at hdr
      cases hdr
    · show effs e.version (events σ t entries) e.toVersion = _
      rw [effs_run, ht']

/-- What `finish` does to the versions. -/
theorem finish_some {σ : Sched} {t : Nat} {g : String} {crd crd' : Crd} {errs errs' : List Err} (h : finish σ t g crd errs = (some crd', errs')) :
    crd.versions ≠ [] ∧ crd' = { crd with name := crd.names.plural ++ "." ++ g, versions := defaultStorage (sortBy (fun a b => strLe a.name b.name) (σ.order t crd.versions)) } ∧
    errs' = errs ++ (if crd'.versions.any (·.storage) then [] else [.noStorage]) ++ (if crd'.versions.any (·.served) then [] else [.noneServed]) := by
  unfold finish at h
  simp only at h
  split at h
  · cases h
  · rename_i hne
    simp only [Prod.mk.injEq, Option.some.injEq] at h
    obtain ⟨h1, h2⟩ := h
    refine ⟨hne, h1.symm, ?_⟩
    rw [← h2, ← h1]
    simp only
    split <;> split <;> simp

theorem finish_none {σ : Sched} {t : Nat} {g : String} {crd : Crd} {errs errs' : List Err} (h : finish σ t g crd errs = (none, errs')) :
    crd.versions = [] ∧ errs' = errs := by
  unfold finish at h
  simp only at h
  split at h
  · rename_i hne; cases h; exact ⟨hne, rfl⟩
  · cases h

theorem sorted_perm (σ : Sched) (t : Nat) (l : List Version) : (sortBy (fun a b => strLe a.name b.name) (σ.order t l)).Perm l :=
  (sortBy_perm _ _).trans (σ.perm t l)

/-- The members after the default for the storage version. -/
theorem mem_defaultStorage {l : List Version} {w : Version} :
    w ∈ defaultStorage l ↔ (∃ w', l = [w'] ∧ w = { w' with storage := true }) ∨ (l.length ≠ 1 ∧ w ∈ l) := by
  unfold defaultStorage
  split
  · rename_i w'
    simp
  · rename_i hne
    constructor
    · intro h
      refine .inr ⟨?_, h⟩
      intro hl
      obtain ⟨a, rfl⟩ := List.length_eq_one_iff.1 hl
      exact hne a rfl
    · rintro (⟨w', rfl, _⟩ | ⟨_, h⟩)
      · exact (hne w' rfl).elim
      · exact h

theorem versionOf_storage {e : Entry} {w : Version} (h : VersionOf e w) : VersionOf e { w with storage := true } := by
  obtain ⟨h1, h2, h3, h4, h5, h6, h7, h8, h9, h10⟩ := h
  exact ⟨h1, h2, h3, h4, h5, h6, h7, h8, h9, h10⟩

/-- **C22, the result.** With distinct versions of the packages, and markers as the collector yields them: the versions of the CRD are those of the packages that are not left out; each one has what the markers on
its own type say and nothing of the markers on other types. -/
theorem C22_versions_partial {σ : Sched} {L : Lib} {g k : String} {entries : List Entry} {crd : Crd} {errs : List Err}
    (hd : DistinctVersions entries) (hc : ∀ e ∈ entries, Collected e) (h : build σ L g k entries = some (some crd, errs)) :
    (∀ e ∈ entries, ¬ Skipped e → ∃ w ∈ crd.versions, VersionOf e w ∧ (w.storage = true ↔ Storage entries e)) ∧
    (∀ w ∈ crd.versions, ∃ e ∈ entries, ¬ Skipped e ∧ VersionOf e w ∧ (w.storage = true ↔ Storage entries e)) := by
  obtain ⟨c, es, ha, hf⟩ := build_some h
  obtain ⟨hne, hcrd, -⟩ := finish_some hf.symm
  obtain ⟨hn, hm1, hm2⟩ := versions_mem hd rfl ha
  have hperm := sorted_perm σ 0 c.versions
  have hvs : crd.versions = defaultStorage (sortBy (fun a b => strLe a.name b.name) (σ.order 0 c.versions)) := by rw [hcrd]
  have hstor : ∀ (t' : Nat) (e : Entry), (run (own σ t' e) e.toVersion).storage = true ↔ (e.version ≠ "" ∧ On e .storageVersion) := by
    intro t' e; rw [run_storage, mem_own]; simp [Entry.toVersion]
  -- the packages left are one iff the versions are one
  have hone : ∀ w', sortBy (fun a b => strLe a.name b.name) (σ.order 0 c.versions) = [w'] → c.versions = [w'] := by
    intro w' hw'; rw [hw'] at hperm; exact List.perm_singleton.1 hperm.symm
  have hmany : (sortBy (fun a b => strLe a.name b.name) (σ.order 0 c.versions)).length ≠ 1 → ∀ e ∈ entries, ¬ Skipped e → ¬ ∀ e' ∈ entries, ¬ Skipped e' → e' = e := by
    intro hl e he hs hall
    rw [hperm.length_eq] at hl
    match hcv : c.versions, hne, hl with
    | [w], _, hl => exact hl rfl
    | w₁ :: w₂ :: l, _, _ =>
      rw [hcv] at hn hm2
      obtain ⟨e₁, he₁, hs₁, t₁, h₁⟩ := hm2 w₁ (by simp)
      obtain ⟨e₂, he₂, hs₂, t₂, h₂⟩ := hm2 w₂ (by simp)
      have e1 := hall e₁ he₁ hs₁
      have e2 := hall e₂ he₂ hs₂
      have : w₁.name = w₂.name := by rw [h₁, h₂, run_name, run_name, e1, e2]
      simp [this] at hn
  constructor
  · intro e he hs
    obtain ⟨w, hw, t', rfl⟩ := hm1 e he hs
    have hw' := hperm.mem_iff.2 hw
    by_cases hl : (sortBy (fun a b => strLe a.name b.name) (σ.order 0 c.versions)).length = 1
    · obtain ⟨w', hw''⟩ := List.length_eq_one_iff.1 hl
      have hc1 := hone w' hw''
      have : run (own σ t' e) e.toVersion = w' := by rw [hc1] at hw; simpa using hw
      refine ⟨{ w' with storage := true }, by rw [hvs, hw'']; simp [defaultStorage], ?_, ?_⟩
      · rw [← this]; exact versionOf_storage (run_versionOf (hc e he))
      · refine ⟨fun _ => .inr ?_, fun _ => rfl⟩
        intro e' he' hs'
        obtain ⟨w₂, hw₂, t₂, rfl⟩ := hm1 e' he' hs'
        rw [hc1] at hw₂
        refine version_inj hd he' he ?_
        have h1 := run_name (own σ t₂ e') e'.toVersion
        have h2 := run_name (own σ t' e) e.toVersion
        rw [this] at h2
        rw [List.mem_singleton.1 hw₂] at h1
        exact h1.symm.trans h2
    · refine ⟨_, by rw [hvs]; exact mem_defaultStorage.2 (.inr ⟨hl, hw'⟩), run_versionOf (hc e he), ?_⟩
      rw [hstor]
      exact ⟨fun h => .inl h, fun h => h.resolve_right (hmany hl e he hs)⟩
  · intro w hw
    rw [hvs] at hw
    rcases mem_defaultStorage.1 hw with ⟨w', hw', rfl⟩ | ⟨hl, hw'⟩
    · have hc1 := hone w' hw'
      obtain ⟨e, he, hs, t', hr⟩ := hm2 w' (by rw [hc1]; simp)
      refine ⟨e, he, hs, ?_, ⟨fun _ => .inr ?_, fun _ => rfl⟩⟩
      · rw [hr]; exact versionOf_storage (run_versionOf (hc e he))
      · intro e' he' hs'
        obtain ⟨w₂, hw₂, t₂, rfl⟩ := hm1 e' he' hs'
        rw [hc1] at hw₂
        refine version_inj hd he' he ?_
        have h1 := run_name (own σ t₂ e') e'.toVersion
        have h2 := run_name (own σ t' e) e.toVersion
        rw [← hr] at h2
        rw [List.mem_singleton.1 hw₂] at h1
        exact h1.symm.trans h2
    · obtain ⟨e, he, hs, t', rfl⟩ := hm2 w (hperm.mem_iff.1 hw')
      refine ⟨e, he, hs, run_versionOf (hc e he), ?_⟩
      rw [hstor]
      exact ⟨fun h => .inl h, fun h => h.resolve_right (hmany hl e he hs)⟩

theorem onFirst_filter {v : String} {f : Version → Version} (hf : ∀ w, (f w).name = w.name) {l l' : List Version} (h : onFirst v f l = some l') :
    l'.filter (fun w => decide (w.name ≠ v)) = l.filter (fun w => decide (w.name ≠ v)) := by
  induction l generalizing l' with
  | nil => cases h
  | cons w l ih =>
    rw [onFirst] at h
    by_cases hw : w.name = v
    · rw [if_pos hw] at h
      cases h
      simp [hf, hw]
    · rw [if_neg hw] at h
      obtain ⟨l'', h'', rfl⟩ := Option.map_eq_some_iff.1 h
      rw [List.filter_cons, List.filter_cons, ih h'']

/-- **C22, one marker.** For every CRD (also one with several versions of one name), a marker that is about a version leaves everything but the versions alone, and all versions with another name; the markers
that need the version report an error, and change nothing, iff it is missing. -/
theorem C22_frame {m : Marker} (hm : VersionScoped m) (v : String) (crd : Crd) :
    ∃ a, apply m v crd = some a ∧ a.crd = { crd with versions := a.crd.versions } ∧
      a.crd.versions.filter (fun w => decide (w.name ≠ v)) = crd.versions.filter (fun w => decide (w.name ≠ v)) ∧
      (NeedsVersion m → (∀ w ∈ crd.versions, w.name ≠ v) → a.crd = crd ∧ ∃ what, a.err = some (.notInCrd what v)) ∧
      (NeedsVersion m → (∃ w ∈ crd.versions, w.name = v) → a.err = none) := by
  have hE : ∀ what f, (∀ w, (f w).name = w.name) → (orError what v f crd).crd = { crd with versions := (orError what v f crd).crd.versions } ∧
      (orError what v f crd).crd.versions.filter (fun w => decide (w.name ≠ v)) = crd.versions.filter (fun w => decide (w.name ≠ v)) ∧
      ((∀ w ∈ crd.versions, w.name ≠ v) → (orError what v f crd).crd = crd ∧ ∃ what', (orError what v f crd).err = some (.notInCrd what' v)) ∧
      ((∃ w ∈ crd.versions, w.name = v) → (orError what v f crd).err = none) := by
    intro what f hf
    unfold orError
    cases ho : onFirst v f crd.versions with
    | none =>
      have := onFirst_none.1 ho
      refine ⟨rfl, rfl, fun _ => ⟨rfl, _, rfl⟩, fun ⟨w, hw, he⟩ => (this ?_).elim⟩
      exact List.mem_map.2 ⟨w, hw, he⟩
    | some l =>
      refine ⟨rfl, onFirst_filter hf ho, fun hall => ?_, fun _ => rfl⟩
      have : onFirst v f crd.versions = none := onFirst_none.2 fun hv => by
        obtain ⟨w, hw, he⟩ := List.mem_map.1 hv
        exact hall w hw he
      rw [this] at ho; cases ho
  have hN : ∀ f, (∀ w, (f w).name = w.name) → (orNothing v f crd).crd = { crd with versions := (orNothing v f crd).crd.versions } ∧
      (orNothing v f crd).crd.versions.filter (fun w => decide (w.name ≠ v)) = crd.versions.filter (fun w => decide (w.name ≠ v)) := by
    intro f hf
    unfold orNothing
    cases ho : onFirst v f crd.versions with
    | none => exact ⟨rfl, rfl⟩
    | some l => exact ⟨rfl, onFirst_filter hf ho⟩
  cases m with
  | resource r => exact hm.elim
  | metadata a l => exact hm.elim
  | other => exact hm.elim
  | status => obtain ⟨h1, h2, h3, h4⟩ := hE "status subresource" setStatus (fun _ => rfl); exact ⟨_, rfl, h1, h2, fun _ => h3, fun _ => h4⟩
  | scale s => obtain ⟨h1, h2, h3, h4⟩ := hE "scale subresource" (setScale s) (fun _ => rfl); exact ⟨_, rfl, h1, h2, fun _ => h3, fun _ => h4⟩
  | printColumn c => obtain ⟨h1, h2, h3, h4⟩ := hE "printer columns" (addColumn c) (fun _ => rfl); exact ⟨_, rfl, h1, h2, fun _ => h3, fun _ => h4⟩
  | selectableField p => obtain ⟨h1, h2, h3, h4⟩ := hE "selectable field" (fun w => { w with selectable := w.selectable ++ [p] }) (fun _ => rfl); exact ⟨_, rfl, h1, h2, fun _ => h3, fun _ => h4⟩
  | unservedVersion =>
    obtain ⟨h1, h2⟩ := hN (fun w => { w with served := false }) (fun _ => rfl)
    exact ⟨_, rfl, h1, h2, fun h => h.elim, fun h => h.elim⟩
  | storageVersion =>
    refine ⟨_, rfl, ?_⟩
    split
    · exact ⟨rfl, rfl, fun h => h.elim, fun h => h.elim⟩
    · obtain ⟨h1, h2⟩ := hN (fun w => { w with storage := true }) (fun _ => rfl)
      exact ⟨h1, h2, fun h => h.elim, fun h => h.elim⟩
  | deprecatedVersion x =>
    refine ⟨_, rfl, ?_⟩
    split
    · exact ⟨rfl, rfl, fun h => h.elim, fun h => h.elim⟩
    · obtain ⟨h1, h2⟩ := hN (fun w => { w with deprecated := true, warning := x }) (fun _ => rfl)
      exact ⟨h1, h2, fun h => h.elim, fun h => h.elim⟩
  | skipVersion =>
    refine ⟨_, rfl, ?_⟩
    split
    · exact ⟨rfl, rfl, fun h => h.elim, fun h => h.elim⟩
    · refine ⟨rfl, ?_, fun h => h.elim, fun h => h.elim⟩
      simp only [List.filter_filter, Bool.and_self]

/-! ## C20: order -/

theorem strictly_sorted {l : List Version} (hn : (l.map (·.name)).Nodup) (hs : l.Pairwise fun a b => strLe a.name b.name = true) : l.Pairwise fun a b => a.name < b.name := by
  rw [List.Nodup, List.pairwise_map] at hn
  exact (hs.and hn).imp fun ⟨h1, h2⟩ => strLt_iff.2 ⟨h1, h2⟩

/-- The versions of the CRD are sorted: by the order of strings, and strictly if the packages have distinct versions. -/
theorem C20_sorted {σ : Sched} {L : Lib} {g k : String} {entries : List Entry} {crd : Crd} {errs : List Err} (h : build σ L g k entries = some (some crd, errs)) :
    crd.versions.Pairwise (fun a b => a.name ≤ b.name) ∧ (DistinctVersions entries → crd.versions.Pairwise fun a b => a.name < b.name) := by
  obtain ⟨c, es, ha, hf⟩ := build_some h
  obtain ⟨hne, hcrd, -⟩ := finish_some hf.symm
  have hvs : crd.versions = defaultStorage (sortBy (fun a b => strLe a.name b.name) (σ.order 0 c.versions)) := by rw [hcrd]
  have hp : (crd.versions.map (·.name)).Pairwise (fun a b => strLe a b = true) := by
    rw [hvs, defaultStorage_names, List.pairwise_map]
    exact sortBy_pairwise (le := fun a b : Version => strLe a.name b.name) (fun a b c => strLe_trans a.name b.name c.name) (fun a b => strLe_total a.name b.name) _
  rw [List.pairwise_map] at hp
  refine ⟨hp.imp fun h => by simpa [strLe] using h, fun hd => ?_⟩
  refine strictly_sorted ?_ hp
  rw [hvs, defaultStorage_names]
  exact ((sorted_perm σ 0 c.versions).map _).nodup_iff.2 (versions_mem hd rfl ha).1

theorem name_inj {l : List Version} (h : l.Pairwise fun a b => a.name < b.name) {a b : Version} (ha : a ∈ l) (hb : b ∈ l) (hab : a.name = b.name) : a = b := by
  induction l with
  | nil => cases ha
  | cons x l ih =>
    obtain ⟨h1, h2⟩ := List.pairwise_cons.1 h
    rcases List.mem_cons.1 ha with ha | ha
    · rcases List.mem_cons.1 hb with hb | hb
      · exact ha.trans hb.symm
      · have := h1 b hb; rw [← ha, hab] at this; exact (String.lt_irrefl _ this).elim
    · rcases List.mem_cons.1 hb with hb | hb
      · have := h1 a ha; rw [← hb, hab] at this; exact (String.lt_irrefl _ this).elim
      · exact ih h2 ha hb

/-! ## C19 -/

/-- **C19.** A CRD that is generated without an error has a version, a served one and a storage version; a single version is the storage version. -/
theorem C19_storage_served {σ : Sched} {L : Lib} {g k : String} {entries : List Entry} {crd : Crd} (h : build σ L g k entries = some (some crd, [])) :
    crd.versions ≠ [] ∧ (∃ w ∈ crd.versions, w.served = true) ∧ (∃ w ∈ crd.versions, w.storage = true) := by
  obtain ⟨c, es, ha, hf⟩ := build_some h
  obtain ⟨hne, hcrd, he⟩ := finish_some hf.symm
  have h1 : crd.versions.any (·.storage) = true := by
    cases hx : crd.versions.any (·.storage) with
    | true => rfl
    | false => rw [hx] at he; simp at he
  have h2 : crd.versions.any (·.served) = true := by
    cases hx : crd.versions.any (·.served) with
    | true => rfl
    | false => rw [hx] at he; simp at he
  obtain ⟨w, hw, hs⟩ := List.any_eq_true.1 h1
  exact ⟨fun e => (by rw [e] at hw; cases hw), List.any_eq_true.1 h2, ⟨w, hw, hs⟩⟩

theorem C19_single {σ : Sched} {L : Lib} {g k : String} {entries : List Entry} {crd : Crd} {errs : List Err} {w : Version}
    (h : build σ L g k entries = some (some crd, errs)) (h1 : crd.versions = [w]) : w.storage = true := by
  obtain ⟨c, es, ha, hf⟩ := build_some h
  obtain ⟨hne, hcrd, he⟩ := finish_some hf.symm
  rw [hcrd] at h1
  rcases mem_defaultStorage.1 (by rw [show defaultStorage _ = _ from h1]; exact List.mem_singleton_self w) with ⟨w', _, rfl⟩ | ⟨hl, _⟩
  · rfl
  · exfalso
    apply hl
    have := congrArg List.length (defaultStorage_names (sortBy (fun a b => strLe a.name b.name) (σ.order 0 c.versions)))
    rw [show defaultStorage _ = _ from h1] at this
    simpa using this.symm

/-- **C19, exactly one**, provided that at most one of the versions that are not left out is marked as the storage version (and that no two packages have the same version). -/
theorem C19_exactly_one_partial {σ : Sched} {L : Lib} {g k : String} {entries : List Entry} {crd : Crd}
    (hd : DistinctVersions entries) (hc : ∀ e ∈ entries, Collected e)
    (h1 : ∀ e₁ ∈ entries, ∀ e₂ ∈ entries, MarkedStorage e₁ → MarkedStorage e₂ → e₁ = e₂)
    (h : build σ L g k entries = some (some crd, [])) :
    ∃ w ∈ crd.versions, w.storage = true ∧ ∀ w' ∈ crd.versions, w'.storage = true → w' = w := by
  obtain ⟨-, -, w, hw, hs⟩ := C19_storage_served h
  refine ⟨w, hw, hs, fun w' hw' hs' => ?_⟩
  obtain ⟨-, hv⟩ := C22_versions_partial hd hc h
  obtain ⟨e, he, hsk, hvo, hst⟩ := hv w hw
  obtain ⟨e', he', hsk', hvo', hst'⟩ := hv w' hw'
  refine name_inj ((C20_sorted h).2 hd) hw' hw ?_
  rw [hvo.name, hvo'.name]
  rcases hst.1 hs with ⟨h2, h3⟩ | h2
  · rcases hst'.1 hs' with ⟨h4, h5⟩ | h4
    · rw [h1 e he e' he' ⟨hsk, h2, h3⟩ ⟨hsk', h4, h5⟩]
    · rw [h4 e he hsk]
  · rw [h2 e' he' hsk']

/-! ## C20 -/

/-- There is a CRD iff some version is not left out (and there is no crash). -/
theorem C20_exists_partial {σ : Sched} {L : Lib} {g k : String} {entries : List Entry} {r : Option Crd} {errs : List Err}
    (hd : DistinctVersions entries) (h : build σ L g k entries = some (r, errs)) : r.isSome = true ↔ ∃ e ∈ entries, ¬ Skipped e := by
  obtain ⟨c, es, ha, hf⟩ := build_some h
  obtain ⟨-, hm1, hm2⟩ := versions_mem hd rfl ha
  cases r with
  | none =>
    have hc := (finish_none hf.symm).1
    refine ⟨fun h => (by cases h), fun ⟨e, he, hs⟩ => ?_⟩
    obtain ⟨w, hw, _⟩ := hm1 e he hs
    rw [hc] at hw; cases hw
  | some crd =>
    have hc := (finish_some hf.symm).1
    refine ⟨fun _ => ?_, fun _ => rfl⟩
    obtain ⟨w, hw⟩ := List.exists_mem_of_ne_nil _ hc
    obtain ⟨e, he, hs, _⟩ := hm2 w hw
    exact ⟨e, he, hs⟩

/-- **C20.** The name of every CRD is its plural and its group, and the kinds are those of the Go type, whatever the markers are. -/
theorem C20_name {σ : Sched} {L : Lib} {g k : String} {entries : List Entry} {crd : Crd} {errs : List Err} (h : build σ L g k entries = some (some crd, errs)) :
    crd.name = crd.names.plural ++ "." ++ g ∧ crd.group = g ∧ crd.names.kind = k ∧ crd.names.listKind = k ++ "List" := by
  obtain ⟨c, es, ha, hf⟩ := build_some h
  obtain ⟨hne, hcrd, -⟩ := finish_some hf.symm
  subst hcrd
  exact ⟨rfl, applyAll_kinds ha⟩

/-- **C20.** The name, the names and the scope of a CRD, provided that all resource markers of the kind are the same. -/
theorem C20_names_partial {σ : Sched} {L : Lib} {g k : String} {entries : List Entry} {crd : Crd} {errs : List Err} {r : Option Resource}
    (hr : Resources entries r) (h : build σ L g k entries = some (some crd, errs)) : NamesOf L g k r crd := by
  obtain ⟨c, es, ha, hf⟩ := build_some h
  obtain ⟨hne, hcrd, -⟩ := finish_some hf.symm
  subst hcrd
  cases r with
  | none =>
    obtain ⟨h1, h2, h3⟩ := applyAll_names ha (fun v r hin => by
      obtain ⟨e, he, -, hon⟩ := mem_events.1 hin
      have := hr.1 e he r hon
      cases this)
    constructor <;> first | rfl | exact h3 | skip
    · show c.names.kind = _; rw [h1]; rfl
    · show c.names.listKind = _; rw [h1]; rfl
    · show c.names.plural = _; rw [h1]; rfl
    · show c.names.singular = _; rw [h1]; rfl
    · show c.scope = _; rw [h2]; rfl
    · show c.names.shortNames = _; rw [h1]; rfl
    · show c.names.categories = _; rw [h1]; rfl
  | some r =>
    obtain ⟨e, he, hon⟩ := hr.2 r rfl
    obtain ⟨h1, h2, h3⟩ := applyAll_resource (r := r) ha (fun v r' hin => by
      obtain ⟨e, he, -, hon⟩ := mem_events.1 hin
      exact (Option.some.inj (hr.1 e he r' hon)).symm) ⟨e.version, mem_events.2 ⟨e, he, rfl, hon⟩⟩
    constructor <;> first | rfl | exact h3 | skip
    · show c.names.kind = _; rw [h1]; rfl
    · show c.names.listKind = _; rw [h1]; rfl
    · show c.names.plural = _; rw [h1]; simp only [setResource, start, or', Option.elim]; by_cases hp : r.path = "" <;> simp [hp]
    · show c.names.singular = _; rw [h1]; simp only [setResource, start, or', Option.elim]; by_cases hp : r.singular = "" <;> simp [hp]
    · show c.scope = _; rw [h2]; rfl
    · show c.names.shortNames = _; rw [h1]; rfl
    · show c.names.categories = _; rw [h1]; rfl

/-! ## C23 -/

/-- **C23, the crashes**: the generation crashes iff there is a metadata marker with a label without `=` (and with annotations that are all well-formed). -/
theorem C23_crash_iff {σ : Sched} {L : Lib} {g k : String} {entries : List Entry} :
    build σ L g k entries = none ↔
      ∃ e ∈ entries, ∃ a l, On e (.metadata a l) ∧ (∀ s ∈ a, ¬ Malformed s) ∧ ∃ s ∈ l, Malformed s := by
  have : build σ L g k entries = none ↔ applyAll (events σ 1 entries) { start L g k with versions := entries.map Entry.toVersion } [] = none := by
    unfold build
    split <;> simp_all
  rw [this, applyAll_none]
  constructor
  · rintro ⟨⟨v, m⟩, hin, a, l, rfl, h1, h2⟩
    obtain ⟨e, he, -, hon⟩ := mem_events.1 hin
    exact ⟨e, he, a, l, hon, h1, h2⟩
  · rintro ⟨e, he, a, l, hon, h1, h2⟩
    exact ⟨(e.version, .metadata a l), mem_events.2 ⟨e, he, rfl, hon⟩, a, l, rfl, h1, h2⟩

theorem applyAll_errs_mono {es : List (String × Marker)} {crd crd' : Crd} {errs errs' : List Err} (h : applyAll es crd errs = some (crd', errs')) :
    ∀ x ∈ errs, x ∈ errs' := by
  induction es generalizing crd errs with
  | nil => cases h; exact fun x h => h
  | cons e es ih =>
    obtain ⟨v, m⟩ := e
    rw [applyAll] at h
    split at h
    · cases h
    · exact fun x hx => ih h x (List.mem_append_left _ hx)

theorem applyAll_bad {es : List (String × Marker)} {crd crd' : Crd} {errs errs' : List Err} (h : applyAll es crd errs = some (crd', errs')) {v : String} {a l : List String} {s : String}
    (hin : (v, .metadata a l) ∈ es) (hs : a.find? (fun s => decide (Malformed s)) = some s) : .badAnnotation s ∈ errs' := by
  induction es generalizing crd errs with
  | nil => cases hin
  | cons e es ih =>
    obtain ⟨v', m⟩ := e
    rw [applyAll] at h
    split at h
    · cases h
    · rename_i ap hap
      rcases List.mem_cons.1 hin with heq | hin
      · cases heq
        refine applyAll_errs_mono h _ ?_
        have s1 := (addAnnotations_spec a crd.annotations).1
        simp only [apply, setMetadata] at hap
        split at hap
        · rename_i heq
          cases hap
          rw [heq, hs] at s1
          cases s1
          simp
        · rename_i heq; rw [heq, hs] at s1; cases s1
      · exact ih h hin

/-- **C23, errors**: an annotation without `=` is reported (the first one of each marker). -/
theorem C23_reported {σ : Sched} {L : Lib} {g k : String} {entries : List Entry} {r : Option Crd} {errs : List Err} (h : build σ L g k entries = some (r, errs))
    {e : Entry} (he : e ∈ entries) {a₁ a₂ l : List String} {s : String} (hon : On e (.metadata (a₁ ++ s :: a₂) l)) (h1 : ∀ s' ∈ a₁, ¬ Malformed s') (hs : Malformed s) :
    .badAnnotation s ∈ errs := by
  obtain ⟨c, es, ha, hf⟩ := build_some h
  have hb := applyAll_bad ha (mem_events.2 ⟨e, he, rfl, hon⟩) (s := s) (List.find?_eq_some_iff_append.2 ⟨by simpa using hs, a₁, a₂, rfl, by simpa using h1⟩)
  cases r with
  | none => rw [(finish_none hf.symm).2]; exact hb
  | some crd => rw [(finish_some hf.symm).2.2]; exact List.mem_append_left _ (List.mem_append_left _ hb)

theorem good_of_wf {a : List String} (h : ∀ s ∈ a, ¬ Malformed s) : good a = a := by
  unfold good
  have : ∀ s ∈ a, decide (¬ Malformed s) = true := fun s hs => by simpa using h s hs
  induction a with
  | nil => rfl
  | cons s a ih =>
    rw [List.takeWhile_cons, this s (List.mem_cons_self ..)]
    simp only [if_true]
    rw [ih (fun s hs => h s (List.mem_cons_of_mem _ hs)) (fun s hs => this s (List.mem_cons_of_mem _ hs))]

theorem good_subset {a : List String} {s : String} (h : s ∈ good a) : s ∈ a := (List.takeWhile_sublist _).mem h

/-- **C23, what is there**: every key of a well-formed metadata marker is among the annotations or labels of the CRD, with the value given unless markers disagree; and there is nothing else. -/
theorem C23_present {σ : Sched} {L : Lib} {g k : String} {entries : List Entry} {crd : Crd} {errs : List Err} (h : build σ L g k entries = some (some crd, errs)) :
    (∀ e ∈ entries, ∀ a l, On e (.metadata a l) → WellFormed a l →
      (∀ s ∈ a, ∀ key v, Pair s key v → ∃ v', GoMap.get crd.annotations key = some v' ∧ (NoConflicts entries → v' = v)) ∧
      (∀ s ∈ l, ∀ key v, Pair s key v → ∃ v', GoMap.get crd.labels key = some v' ∧ (NoConflicts entries → v' = v))) ∧
    (∀ key v, GoMap.get crd.annotations key = some v → ∃ e ∈ entries, ∃ a l, On e (.metadata a l) ∧ ∃ s ∈ a, Pair s key v) ∧
    (∀ key v, GoMap.get crd.labels key = some v → ∃ e ∈ entries, ∃ a l, On e (.metadata a l) ∧ ∃ s ∈ l, Pair s key v) := by
  obtain ⟨c, es, ha, hf⟩ := build_some h
  obtain ⟨hne, hcrd, -⟩ := finish_some hf.symm
  obtain ⟨⟨a1, a2, -⟩, ⟨b1, b2, -⟩⟩ := applyAll_meta ha
  have hann : crd.annotations = c.annotations := by rw [hcrd]
  have hlab : crd.labels = c.labels := by rw [hcrd]
  have hA : ∀ key v, GoMap.get crd.annotations key = some v → ∃ e ∈ entries, ∃ a l, On e (.metadata a l) ∧ ∃ s ∈ a, Pair s key v := by
    intro key v hg
    rw [hann] at hg
    rcases a1 key v hg with h0 | ⟨⟨v', m⟩, hev, s, hs, hp⟩
    · cases h0
    · obtain ⟨e, he, -, hon⟩ := mem_events.1 hev
      cases m with
      | metadata a l => exact ⟨e, he, a, l, hon, s, good_subset hs, hp⟩
      | _ => cases hs
  have hL : ∀ key v, GoMap.get crd.labels key = some v → ∃ e ∈ entries, ∃ a l, On e (.metadata a l) ∧ ∃ s ∈ l, Pair s key v := by
    intro key v hg
    rw [hlab] at hg
    rcases b1 key v hg with h0 | ⟨⟨v', m⟩, hev, s, hs, hp⟩
    · cases h0
    · obtain ⟨e, he, -, hon⟩ := mem_events.1 hev
      cases m with
      | metadata a l =>
        refine ⟨e, he, a, l, hon, s, ?_, hp⟩
        simp only [labs] at hs
        split at hs
        · cases hs
        · exact hs
      | _ => cases hs
  refine ⟨fun e he a l hon hwf => ⟨?_, ?_⟩, hA, hL⟩
  · intro s hs key v hp
    obtain ⟨v', hv'⟩ := a2 _ (mem_events.2 ⟨e, he, rfl, hon⟩) s (by show s ∈ good a; rw [good_of_wf hwf.1]; exact hs) key v hp
    refine ⟨v', by rw [hann]; exact hv', fun hnc => ?_⟩
    obtain ⟨e', he', a', l', hon', s', hs', hp'⟩ := hA key v' (by rw [hann]; exact hv')
    exact (hnc e' he' e he a' l' a l hon' hon).1 s' hs' s hs key v' v hp' hp
  · intro s hs key v hp
    obtain ⟨v', hv'⟩ := b2 _ (mem_events.2 ⟨e, he, rfl, hon⟩) s (by
      show s ∈ labs (.metadata a l)
      have : a.any (fun s => decide (Malformed s)) = false := by rw [List.any_eq_false]; intro x hx; simpa using hwf.1 x hx
      simp only [labs, this, Bool.false_eq_true, if_false]; exact hs) key v hp
    refine ⟨v', by rw [hlab]; exact hv', fun hnc => ?_⟩
    obtain ⟨e', he', a', l', hon', s', hs', hp'⟩ := hL key v' (by rw [hlab]; exact hv')
    exact (hnc e' he' e he a' l' a l hon' hon).2 s' hs' s hs key v' v hp' hp

/-! ## C21 -/

theorem events_perm {σ σ' : Sched} {t t' : Nat} {es es' : List Entry} (h : es.Perm es') : (events σ t es).Perm (events σ' t' es') := by
  have h1 : ∀ (σ : Sched) (t : Nat) (es : List Entry), (events σ t es).Perm (es.flatMap fun e => (e.markers.flatMap (·.2)).map fun m => (e.version, m)) := by
    intro σ t es
    induction es generalizing t with
    | nil => exact .refl _
    | cons e es ih =>
      rw [events_eq, List.flatMap_cons]
      exact List.Perm.append (((σ.perm t e.markers).flatMap_right _).map _) (ih _)
  exact (h1 σ t es).trans ((h.flatMap_right _).trans (h1 σ' t' es').symm)

/-- A version is determined by its package. -/
theorem versionOf_unique {e : Entry} {w w' : Version} (h : VersionOf e w) (h' : VersionOf e w') (hs : w.storage = w'.storage) : w = w' := by
  have hsub : w.sub = w'.sub := by
    have h1 := h.subresources.trans h'.subresources.symm
    have h2 := h.status.trans h'.status.symm
    have h3 := h.scale.trans h'.scale.symm
    match hw : w.sub, hw' : w'.sub with
    | none, none => rfl
    | none, some y => rw [hw, hw'] at h1; simp at h1
    | some x, none => rw [hw, hw'] at h1; simp at h1
    | some x, some y =>
      rw [hw, hw'] at h2 h3
      simp only [Option.getD_some] at h2 h3
      have h2' : x.status = y.status := Bool.eq_iff_iff.2 h2
      cases x; cases y; simp_all
  have h1 := h.name.trans h'.name.symm
  have h2 := h.schema.trans h'.schema.symm
  have h3 := Bool.eq_iff_iff.2 (h.served.trans h'.served.symm)
  have h4 := Bool.eq_iff_iff.2 (h.deprecated.trans h'.deprecated.symm)
  have h5 := h.warning.trans h'.warning.symm
  have h6 := h.columns.trans h'.columns.symm
  have h7 := h.selectable.trans h'.selectable.symm
  cases w; cases w'
  simp_all

theorem sorted_ext {l l' : List Version} (h : l.Pairwise fun a b => a.name < b.name) (h' : l'.Pairwise fun a b => a.name < b.name) (hm : ∀ w, w ∈ l ↔ w ∈ l') : l = l' := by
  have hnd : ∀ {l : List Version}, l.Pairwise (fun a b => a.name < b.name) → l.Nodup := by
    intro l h
    refine List.Pairwise.imp ?_ h
    intro a b hab e
    subst e
    exact String.lt_irrefl _ hab
  refine List.Perm.eq_of_pairwise (le := fun x y => x.name < y.name) ?_ h h' ((List.perm_ext_iff_of_nodup (hnd h) (hnd h')).2 hm)
  intro a b _ _ h1 h2
  exact (String.lt_irrefl _ (String.lt_trans h1 h2)).elim

theorem storage_perm {es es' : List Entry} (h : es.Perm es') (e : Entry) : Storage es e ↔ Storage es' e := by
  unfold Storage
  have : (∀ e' ∈ es, ¬ Skipped e' → e' = e) ↔ ∀ e' ∈ es', ¬ Skipped e' → e' = e :=
    ⟨fun h' e' he => h' e' (h.mem_iff.2 he), fun h' e' he => h' e' (h.mem_iff.1 he)⟩
  rw [this]

theorem resources_perm {es es' : List Entry} (h : es.Perm es') {r : Option Resource} (hr : Resources es r) : Resources es' r :=
  ⟨fun e he => hr.1 e (h.mem_iff.2 he), fun r' e => by obtain ⟨x, hx, hon⟩ := hr.2 r' e; exact ⟨x, h.mem_iff.1 hx, hon⟩⟩

/-- The errors of the markers, when no marker clashes. -/
theorem build_errs {σ : Sched} {t : Nat} {entries : List Entry} {crd c : Crd} {es : List Err} (hd : DistinctVersions entries) (hcl : NoClash entries)
    (hv : crd.versions = entries.map Entry.toVersion) (ha : applyAll (events σ t entries) crd [] = some (c, es)) : es = (events σ t entries).filterMap staticErr := by
  have hn : (crd.versions.map (·.name)).Nodup := by rw [hv, toVersion_names]; exact hd
  rw [applyAll_errs hn ha, List.nil_append]
  intro v m hin hm
  obtain ⟨e, he, rfl, hon⟩ := mem_events.1 hin
  refine ⟨by rw [hv, toVersion_names]; exact List.mem_map_of_mem he, fun hne hsk => ?_⟩
  obtain ⟨e', he', hv', hon'⟩ := mem_events.1 hsk
  have : e' = e := version_inj hd he' he hv'
  subst this
  exact hcl e' he ⟨hne, hon'⟩ m hon hm

/-- The metadata, when no markers disagree. -/
theorem build_meta {σ : Sched} {t : Nat} {entries : List Entry} {crd c : Crd} {es es' : List Err} (hnc : NoConflicts entries)
    (h1 : crd.annotations = []) (h2 : crd.labels = []) (ha : applyAll (events σ t entries) crd es = some (c, es')) (key v : String) :
    (GoMap.get c.annotations key = some v ↔ ∃ e ∈ entries, ∃ m, On e m ∧ ∃ s ∈ anns m, Pair s key v) ∧
    (GoMap.get c.labels key = some v ↔ ∃ e ∈ entries, ∃ m, On e m ∧ ∃ s ∈ labs m, Pair s key v) := by
  obtain ⟨⟨a1, a2, -⟩, ⟨b1, b2, -⟩⟩ := applyAll_meta ha
  have hann : ∀ {m s}, s ∈ anns m → ∃ a l, m = .metadata a l ∧ s ∈ a := by
    intro m s hs
    cases m with
    | metadata a l => exact ⟨a, l, rfl, good_subset hs⟩
    | _ => cases hs
  have hlab : ∀ {m s}, s ∈ labs m → ∃ a l, m = .metadata a l ∧ s ∈ l := by
    intro m s hs
    cases m with
    | metadata a l =>
      refine ⟨a, l, rfl, ?_⟩
      simp only [labs] at hs
      split at hs
      · cases hs
      · exact hs
    | _ => cases hs
  have hA : ∀ v, GoMap.get c.annotations key = some v → ∃ e ∈ entries, ∃ m, On e m ∧ ∃ s ∈ anns m, Pair s key v := by
    intro v h
    rcases a1 key v h with h | ⟨⟨v', m⟩, hev, s, hs, hp⟩
    · rw [h1] at h; cases h
    · obtain ⟨e, he, -, hon⟩ := mem_events.1 hev
      exact ⟨e, he, m, hon, s, hs, hp⟩
  have hL : ∀ v, GoMap.get c.labels key = some v → ∃ e ∈ entries, ∃ m, On e m ∧ ∃ s ∈ labs m, Pair s key v := by
    intro v h
    rcases b1 key v h with h | ⟨⟨v', m⟩, hev, s, hs, hp⟩
    · rw [h2] at h; cases h
    · obtain ⟨e, he, -, hon⟩ := mem_events.1 hev
      exact ⟨e, he, m, hon, s, hs, hp⟩
  constructor
  · refine ⟨hA v, ?_⟩
    rintro ⟨e, he, m, hon, s, hs, hp⟩
    obtain ⟨v', hv'⟩ := a2 _ (mem_events.2 ⟨e, he, rfl, hon⟩) s hs key v hp
    obtain ⟨e', he', m', hon', s', hs', hp'⟩ := hA v' hv'
    obtain ⟨a, l, rfl, hsa⟩ := hann hs
    obtain ⟨a', l', rfl, hsa'⟩ := hann hs'
    rw [hv', (hnc e' he' e he a' l' a l hon' hon).1 s' hsa' s hsa key v' v hp' hp]
  · refine ⟨hL v, ?_⟩
    rintro ⟨e, he, m, hon, s, hs, hp⟩
    obtain ⟨v', hv'⟩ := b2 _ (mem_events.2 ⟨e, he, rfl, hon⟩) s hs key v hp
    obtain ⟨e', he', m', hon', s', hs', hp'⟩ := hL v' hv'
    obtain ⟨a, l, rfl, hsa⟩ := hlab hs
    obtain ⟨a', l', rfl, hsa'⟩ := hlab hs'
    rw [hv', (hnc e' he' e he a' l' a l hon' hon).2 s' hsa' s hsa key v' v hp' hp]

theorem noConflicts_perm {es es' : List Entry} (h : es.Perm es') (hn : NoConflicts es) : NoConflicts es' :=
  fun e₁ h₁ e₂ h₂ => hn e₁ (h.mem_iff.2 h₁) e₂ (h.mem_iff.2 h₂)

/-- **C21.** The CRD and the errors are the same for all orders in which the packages of the group and the markers of the types are visited, provided that the packages have distinct versions, that the resource
markers of the kind agree, that the metadata markers of the kind agree, and that no type with a marker to skip its version has markers that need the version. -/
theorem C21_order_partial {σ σ' : Sched} {L : Lib} {g k : String} {entries entries' : List Entry} (hp : entries.Perm entries')
    (hd : DistinctVersions entries) (hc : ∀ e ∈ entries, Collected e) {r : Option Resource} (hr : Resources entries r) (hnc : NoConflicts entries) (hcl : NoClash entries) :
    SameOutcome (build σ L g k entries) (build σ' L g k entries') := by
  have hd' : DistinctVersions entries' := (hp.map _).nodup_iff.1 hd
  have hc' : ∀ e ∈ entries', Collected e := fun e he => hc e (hp.mem_iff.2 he)
  have hcl' : NoClash entries' := fun e he => hcl e (hp.mem_iff.2 he)
  have hcrash : build σ L g k entries = none ↔ build σ' L g k entries' = none := by
    rw [C23_crash_iff, C23_crash_iff]
    exact ⟨fun ⟨e, he, h⟩ => ⟨e, hp.mem_iff.1 he, h⟩, fun ⟨e, he, h⟩ => ⟨e, hp.mem_iff.2 he, h⟩⟩
  match hb : build σ L g k entries, hb' : build σ' L g k entries' with
  | none, none => exact .crash
  | none, some _ => rw [hcrash.1 hb] at hb'; cases hb'
  | some _, none => rw [hcrash.2 hb'] at hb; cases hb
  | some (o, errs), some (o', errs') =>
    obtain ⟨c, es, ha, hf⟩ := build_some hb
    obtain ⟨c', es', ha', hf'⟩ := build_some hb'
    have hes : es.Perm es' := by
      rw [build_errs hd hcl rfl ha, build_errs hd' hcl' rfl ha']
      exact (events_perm hp).filterMap _
    have hex : o.isSome = true ↔ o'.isSome = true := by
      rw [C20_exists_partial hd hb, C20_exists_partial hd' hb']
      exact ⟨fun ⟨e, he, h⟩ => ⟨e, hp.mem_iff.1 he, h⟩, fun ⟨e, he, h⟩ => ⟨e, hp.mem_iff.2 he, h⟩⟩
    match o, o', hex, hf, hf', hb, hb' with
    | none, none, _, hf, hf', _, _ =>
      rw [(finish_none hf.symm).2, (finish_none hf'.symm).2]
      exact .nothing _ _ hes
    | none, some _, hex, _, _, _, _ => simp at hex
    | some _, none, hex, _, _, _, _ => simp at hex
    | some crd, some crd', _, hf, hf', hb, hb' =>
      obtain ⟨-, hcrd, he⟩ := finish_some hf.symm
      obtain ⟨-, hcrd', he'⟩ := finish_some hf'.symm
      have hn := C20_names_partial hr hb
      have hn' := C20_names_partial (resources_perm hp hr) hb'
      have hvs : crd.versions = crd'.versions := by
        refine sorted_ext ((C20_sorted hb).2 hd) ((C20_sorted hb').2 hd') fun w => ?_
        obtain ⟨v1, v2⟩ := C22_versions_partial hd hc hb
        obtain ⟨v1', v2'⟩ := C22_versions_partial hd' hc' hb'
        constructor
        · intro hw
          obtain ⟨e, hee, hs, hvo, hst⟩ := v2 w hw
          obtain ⟨w', hw', hvo', hst'⟩ := v1' e (hp.mem_iff.1 hee) hs
          rw [versionOf_unique hvo hvo' (Bool.eq_iff_iff.2 (hst.trans ((storage_perm hp e).trans hst'.symm)))]
          exact hw'
        · intro hw
          obtain ⟨e, hee, hs, hvo, hst⟩ := v2' w hw
          obtain ⟨w', hw', hvo', hst'⟩ := v1 e (hp.mem_iff.2 hee) hs
          rw [versionOf_unique hvo hvo' (Bool.eq_iff_iff.2 (hst.trans ((storage_perm hp e).symm.trans hst'.symm)))]
          exact hw'
      have hnames : crd.names = crd'.names := by
        have h1 := hn.kind.trans hn'.kind.symm
        have h2 := hn.listKind.trans hn'.listKind.symm
        have h3 := hn.plural.trans hn'.plural.symm
        have h4 := hn.singular.trans hn'.singular.symm
        have h5 := hn.shortNames.trans hn'.shortNames.symm
        have h6 := hn.categories.trans hn'.categories.symm
        revert h1 h2 h3 h4 h5 h6
        generalize crd.names = x; generalize crd'.names = y
        intro h1 h2 h3 h4 h5 h6
        cases x; cases y; simp_all
      have hmeta : ∀ key, GoMap.get crd.annotations key = GoMap.get crd'.annotations key ∧ GoMap.get crd.labels key = GoMap.get crd'.labels key := by
        intro key
        have hmem : ∀ (P : Entry → Prop), (∃ e ∈ entries, P e) ↔ ∃ e ∈ entries', P e := fun P =>
          ⟨fun ⟨e, he, h⟩ => ⟨e, hp.mem_iff.1 he, h⟩, fun ⟨e, he, h⟩ => ⟨e, hp.mem_iff.2 he, h⟩⟩
        have h1 : ∀ v, GoMap.get crd.annotations key = some v ↔ GoMap.get crd'.annotations key = some v := by
          intro v
          rw [hcrd, hcrd']
          exact (build_meta hnc rfl rfl ha key v).1.trans ((hmem _).trans (build_meta (noConflicts_perm hp hnc) rfl rfl ha' key v).1.symm)
        have h2 : ∀ v, GoMap.get crd.labels key = some v ↔ GoMap.get crd'.labels key = some v := by
          intro v
          rw [hcrd, hcrd']
          exact (build_meta hnc rfl rfl ha key v).2.trans ((hmem _).trans (build_meta (noConflicts_perm hp hnc) rfl rfl ha' key v).2.symm)
        exact ⟨Option.ext h1, Option.ext h2⟩
      refine .crd _ _ _ _ ⟨?_, hn.group.trans hn'.group.symm, hnames, hn.scope.trans hn'.scope.symm, hvs, fun key => (hmeta key).1, fun key => (hmeta key).2⟩ ?_
      · rw [hn.name, hn'.name, hnames]
      · rw [he, he', hvs]
        exact (hes.append_right _).append_right _

end Verif.CrdGen

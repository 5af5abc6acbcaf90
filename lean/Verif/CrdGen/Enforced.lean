import Verif.CrdGen.EnforcedSpec
import Verif.CrdGen.Printed
import Verif.Crd.NeedTheorems
import Verif.Crd.FlatCutTheorems

/-! # C86: the CRDs in the files reject what breaks a marker, and accept the rest -/
namespace Verif.CrdGen
open Spec
open Verif.Crd (Schema PState FState TypeIdent Env flattenType flattenEmbedded AnyVal Raw addKnownTypes CacheFine Approx Expand need_fine needPackage_le reachable_inv flattenType_fine C55_closed)
open Verif.Crd.Spec (envOf Valid Meaning Json Reachable Tidy Prog Breaks Enc Formats TypedDecl AcyclicFrom Distinct Good Guard Declares RefMeaning Sub)

variable {S : GSrc} {O : Opts} {σ : Scheds}

theorem steps_reachable {p : PState} {f : FState} (h : Steps S O σ p f) : Reachable S.src O.marshal σ.gen p := by
  induction h with
  | start => exact .start
  | package pkg _ ih => exact .package pkg ih
  | flat id _ hn _ ih => exact .schema _ id ih hn

theorem env_le {p p' : PState} (h : PState.Le p p') : Env.Le (envOf S.src p) (envOf S.src p') := ⟨rfl, fun id u hu => h.schemata id u hu⟩

theorem errs_le {p p' : PState} (h : PState.Le p p') (he : p'.errs = 0) : p.errs = 0 := Nat.le_zero.1 (he ▸ h.errs)

section
variable {b : Bool} (ho : S.src.overrides = addKnownTypes b) (ht : ∀ p, Tidy (S.src.ctx p))
include ho ht

theorem steps_fine {p : PState} {f : FState} (h : Steps S O σ p f) : p.errs = 0 → (∀ id u, (envOf S.src p).raw id = some u → Distinct (envOf S.src p) id.pkg u) →
    CacheFine (envOf S.src p) f.cache := by
  induction h with
  | start => exact fun _ _ => Verif.Crd.cacheFine_nil _
  | @package p f pkg hs ih =>
    intro he hd
    have hl := needPackage_le (reachable_inv (steps_reachable hs)) pkg
    exact (ih (errs_le hl he) fun id u hu => Verif.Crd.distinct_le (env_le hl) (hd id u (hl.schemata id u hu))).le (env_le hl)
  | @flat p p' f f' t id hs hn hf ih =>
    intro he hd
    have hl := (need_fine O.fuel [] id p p' (reachable_inv (steps_reachable hs)) hn).2.1
    have hc := (ih (errs_le hl he) fun id u hu => Verif.Crd.distinct_le (env_le hl) (hd id u (hl.schemata id u hu))).le (env_le (S := S) hl)
    have hr : Reachable S.src O.marshal σ.gen p' := .schema _ id (steps_reachable hs) hn
    exact (flattenType_fine _ _ (fun u hu => by
      obtain ⟨h1, h2, -⟩ := C55_closed S.src b ho ht O.marshal σ.gen p' hr he id u hu
      exact ⟨h1, h2, hd id u hu⟩) hc hf).1

/-- The flattened schema is what it would be if the parser had been done before. -/
theorem flattened_fine {st : State} (he : st.parser.errs = 0) (hd : ∀ id u, (envOf S.src st.parser).raw id = some u → Distinct (envOf S.src st.parser) id.pkg u) {id : TypeIdent} {t : Schema}
    (h : Flattened S O σ st id t) : ∃ u, (envOf S.src st.parser).raw id = some u ∧ Approx (envOf S.src st.parser) id.pkg u t ∧
      (AcyclicFrom (envOf S.src st.parser) id.pkg u → Expand (envOf S.src st.parser) id.pkg u t) := by
  obtain ⟨p, p', f, f', hs, hn, hf, hl'⟩ := h
  have hl := (need_fine O.fuel [] id p p' (reachable_inv (steps_reachable hs)) hn).2.1
  have hd' : ∀ id u, (envOf S.src p').raw id = some u → Distinct (envOf S.src p') id.pkg u := fun id u hu => Verif.Crd.distinct_le (env_le hl') (hd id u (hl'.schemata id u hu))
  have he' := errs_le hl' he
  have hc := (steps_fine ho ht hs (errs_le hl he') fun id u hu => Verif.Crd.distinct_le (env_le hl) (hd' id u (hl.schemata id u hu))).le (env_le (S := S) hl)
  have hr : Reachable S.src O.marshal σ.gen p' := .schema _ id (steps_reachable hs) hn
  obtain ⟨-, -, u, hu, -, ha, hx⟩ := flattenType_fine _ _ (fun u hu => by
    obtain ⟨h1, h2, -⟩ := C55_closed S.src b ho ht O.marshal σ.gen p' hr he' id u hu
    exact ⟨h1, h2, hd' id u hu⟩) hc hf
  exact ⟨u, hl'.schemata id u hu, Verif.Crd.approx_le (env_le hl') ha, fun hac => Verif.Crd.expand_le (env_le hl') (hx (Verif.Crd.acyclic_le (env_le hl') hac))⟩

/-- For types that refer to no recursive type, it is what flattening from scratch gives in the end. -/
theorem flattened_scratch {st : State} {f : FState} (hst : Steps S O σ st.parser f) (he : st.parser.errs = 0)
    (hd : ∀ id u, (envOf S.src st.parser).raw id = some u → Distinct (envOf S.src st.parser) id.pkg u) {id : TypeIdent} {u t t0 : Schema} {f0 : FState} (hu : (envOf S.src st.parser).raw id = some u)
    (hac : AcyclicFrom (envOf S.src st.parser) id.pkg u) (τ : Sched) (h0 : flattenType (envOf S.src st.parser) τ id {} = .ok (some t0, f0)) (h : Flattened S O σ st id t) : t = t0 := by
  obtain ⟨u', hu', -, hx⟩ := flattened_fine ho ht he hd h
  rw [hu] at hu'
  cases hu'
  obtain ⟨c1, c2, c3⟩ := C55_closed S.src b ho ht O.marshal σ.gen st.parser (steps_reachable hst) he id u hu
  obtain ⟨-, -, u2, hu2, -, -, hx0⟩ := flattenType_fine _ _ (fun u' hu' => by
    rw [hu] at hu'
    cases hu'
    exact ⟨c1, c2, hd id u hu⟩) (Verif.Crd.cacheFine_nil _) h0
  rw [hu] at hu2
  cases hu2
  exact Verif.Crd.expand_unique (hx0 hac) t c3 (hx hac)
end

/-! ## The schemas in CRDs are those of the types -/

theorem onFirst_schema {P : String → Schema → Prop} {v : String} {f : Version → Version} (hf : ∀ w, (f w).name = w.name ∧ (f w).schema = w.schema) : ∀ {ws ws' : List Version}, onFirst v f ws = some ws' →
    (∀ w ∈ ws, P w.name w.schema) → ∀ w ∈ ws', P w.name w.schema
  | [], _, h, _ => by cases h
  | w :: ws, ws', h, hp => by
    rw [onFirst] at h
    split at h
    · cases h
      intro w' hw'
      rcases List.mem_cons.1 hw' with rfl | hw'
      · rw [(hf w).1, (hf w).2]; exact hp w (List.mem_cons_self ..)
      · exact hp w' (List.mem_cons_of_mem _ hw')
    · obtain ⟨l, hl, rfl⟩ := Option.map_eq_some_iff.1 h
      intro w' hw'
      rcases List.mem_cons.1 hw' with rfl | hw'
      · exact hp _ (List.mem_cons_self ..)
      · exact onFirst_schema hf hl (fun w hw => hp w (List.mem_cons_of_mem _ hw)) w' hw'

/-- What markers leave alone. -/
def Kept (P : String → Schema → Prop) (g k : String) (crd : Crd) : Prop := crd.group = g ∧ crd.names.kind = k ∧ ∀ w ∈ crd.versions, P w.name w.schema

theorem orError_kept {P : String → Schema → Prop} {g k : String} {crd : Crd} (h : Kept P g k crd) (what v : String) {f : Version → Version} (hf : ∀ w, (f w).name = w.name ∧ (f w).schema = w.schema) :
    Kept P g k (orError what v f crd).crd := by
  unfold orError
  split
  · exact ⟨h.1, h.2.1, onFirst_schema hf ‹_› h.2.2⟩
  · exact h

theorem orNothing_kept {P : String → Schema → Prop} {g k : String} {crd : Crd} (h : Kept P g k crd) (v : String) {f : Version → Version} (hf : ∀ w, (f w).name = w.name ∧ (f w).schema = w.schema) :
    Kept P g k (orNothing v f crd).crd := by
  unfold orNothing
  split
  · exact ⟨h.1, h.2.1, onFirst_schema hf ‹_› h.2.2⟩
  · exact h

theorem apply_kept {P : String → Schema → Prop} {g k : String} {crd : Crd} (h : Kept P g k crd) {m : Marker} {v : String} {a : Applied} (ha : apply m v crd = some a) : Kept P g k a.crd := by
  cases m with
  | status => cases ha; exact orError_kept h _ _ fun _ => ⟨rfl, rfl⟩
  | scale s => cases ha; exact orError_kept h _ _ fun _ => ⟨rfl, rfl⟩
  | printColumn c => cases ha; exact orError_kept h _ _ fun _ => ⟨rfl, rfl⟩
  | selectableField p => cases ha; exact orError_kept h _ _ fun _ => ⟨rfl, rfl⟩
  | storageVersion =>
    simp only [apply, Option.some.injEq] at ha
    subst ha
    split
    · exact h
    · exact orNothing_kept h _ fun _ => ⟨rfl, rfl⟩
  | unservedVersion => cases ha; exact orNothing_kept h _ fun _ => ⟨rfl, rfl⟩
  | deprecatedVersion x =>
    simp only [apply, Option.some.injEq] at ha
    subst ha
    split
    · exact h
    · exact orNothing_kept h _ fun _ => ⟨rfl, rfl⟩
  | skipVersion =>
    simp only [apply, Option.some.injEq] at ha
    subst ha
    split
    · exact h
    · exact ⟨h.1, h.2.1, fun w hw => h.2.2 w (List.mem_filter.1 hw).1⟩
  | resource r => cases ha; exact ⟨h.1, h.2.1, h.2.2⟩
  | metadata x l =>
    simp only [apply, setMetadata] at ha
    split at ha
    · cases ha; exact ⟨h.1, h.2.1, h.2.2⟩
    · split at ha
      · cases ha
      · cases ha; exact ⟨h.1, h.2.1, h.2.2⟩
  | other => cases ha; exact h

theorem applyAll_kept {P : String → Schema → Prop} {g k : String} : ∀ {es : List (String × Marker)} {crd crd' : Crd} {errs errs' : List Err}, Kept P g k crd → applyAll es crd errs = some (crd', errs') → Kept P g k crd'
  | [], crd, crd', errs, errs', h, ha => by cases ha; exact h
  | (v, m) :: es, crd, crd', errs, errs', h, ha => by
    rw [applyAll] at ha
    split at ha
    · cases ha
    · exact applyAll_kept (apply_kept h ‹_›) ha

/-- The versions of a CRD have the names and the schemas of the entries, whatever the markers. -/
theorem build_kept {τ : Sched} {L : Lib} {g k : String} {entries : List Entry} {crd : Crd} {errs : List Err} (h : build τ L g k entries = some (some crd, errs)) :
    crd.group = g ∧ crd.names.kind = k ∧ ∀ w ∈ crd.versions, ∃ e ∈ entries, w.name = e.version ∧ w.schema = e.schema := by
  obtain ⟨c, es, ha, hf⟩ := build_some h
  obtain ⟨-, hcrd, -⟩ := finish_some hf.symm
  obtain ⟨h1, h2, h3⟩ := applyAll_kept (P := fun n s => ∃ e ∈ entries, n = e.version ∧ s = e.schema) (g := g) (k := k) ⟨rfl, rfl, fun w hw => by
    obtain ⟨e, he, rfl⟩ := List.mem_map.1 hw
    exact ⟨e, he, rfl, rfl⟩⟩ ha
  rw [hcrd]
  refine ⟨h1, h2, fun w hw => ?_⟩
  have key : ∀ l : List Version, (∀ w ∈ l, ∃ e ∈ entries, w.name = e.version ∧ w.schema = e.schema) → ∀ w ∈ defaultStorage l, ∃ e ∈ entries, w.name = e.version ∧ w.schema = e.schema := by
    intro l hl w hw
    unfold defaultStorage at hw
    split at hw
    · rename_i w0
      obtain rfl := List.mem_singleton.1 hw
      exact hl w0 (List.mem_singleton_self _)
    · exact hl w hw
  exact key _ (fun w hw => h3 w ((sorted_perm τ 0 c.versions).mem_iff.1 hw)) w hw

/-- Each version of each file is one of a package, and its schema the printed one of the type there. -/
theorem file_versions {roots : List String} {st : State} {out : Out} (h : generate S O σ roots = .ok (st, out)) (hf : out.failed = false) {f : String × Crd} (hff : f ∈ out.files) {w : Version}
    (hw : w ∈ f.2.versions) : ∃ gk pkg s, VersionFor S roots f.2 w gk pkg ∧ SchemaFor S O σ st ⟨pkg, gk.kind⟩ s ∧ w.schema = printed s := by
  obtain ⟨kinds, h1, h2, h3, h4, h5, h6, h7, -⟩ := generate_spec h hf
  obtain ⟨gk, hgk, hfe⟩ := h7 f hff
  cases hc : GoMap.get st.crds gk with
  | none =>
    rw [hfe, hc] at hw
    simp [mapSchemas, addAttribution] at hw
  | some crd =>
    rw [hc] at hfe
    obtain ⟨loaded, entries, errs, e1, ⟨pkgs, e2, e3, e4⟩, e5⟩ := h4 gk hgk
    rw [hc] at e5
    obtain ⟨k1, k2, k3⟩ := build_kept e5
    rw [hfe] at hw
    simp only [mapSchemas, addAttribution, Option.getD_some, List.map_map] at hw
    obtain ⟨w0, hw0, rfl⟩ := List.mem_map.1 hw
    obtain ⟨e, he, n1, n2⟩ := k3 w0 hw0
    obtain ⟨pkg, hpkg, v1, -, v3⟩ := e4.exists_left he
    obtain ⟨-, g1, g2⟩ := (e3 pkg).1 hpkg
    refine ⟨gk, pkg, e.schema, ⟨(h2 gk).1 hgk, by rw [hfe]; exact k1, by rw [hfe]; exact k2, g1, ?_, g2⟩, v3, ?_⟩
    · show VersionOfPkg S pkg w0.name
      rw [n1]; exact v1
    · show printed w0.schema = _
      rw [n2]

/-! ## The schema of a type -/

/-- The schema of a type in a run without errors, as it is printed, rejects what breaks a marker and accepts the rest. -/
theorem schema_enforced {M : Meaning} (hM : Formats M) {st : State} {fl : FState} (hst : Steps S O σ st.parser fl) (hn : NoErrors st) {G : Prog} (hs : Sound M S G st) {id : TypeIdent} {s : Schema}
    (hsf : SchemaFor S O σ st id s) : ∃ u, (envOf S.src st.parser).raw id = some u ∧ (CanMerge S O σ st id →
      (AcyclicFrom (envOf S.src st.parser) id.pkg u → ∀ j, Breaks M O.marshal G (.decl id.pkg id.name) j → MetadataFits M s j → ¬ Valid M (printed s) j) ∧
      (G.nils = false → (∀ p n d, G.decl p n = some d → TypedDecl (G.ctx p) d) →
        ∀ j, Enc G (.decl id.pkg id.name) j → ¬ Breaks M O.marshal G (.decl id.pkg id.name) j → MetadataObject j → Valid M (printed s) j)) := by
  obtain ⟨s', ⟨p, p', x, x', t, q1, q2, q3, q4, q5, q6⟩, h2, h3⟩ := hsf
  obtain ⟨b, ho⟩ := hs.overrides
  obtain ⟨he, hee⟩ := hn
  have hfl : Flattened S O σ st id t := ⟨p, p', x, x', q1, q2, q3, q5⟩
  obtain ⟨u, hu, ha, hx⟩ := flattened_fine ho hs.tidy he hs.distinct hfl
  have hsteps : Reachable S.src O.marshal σ.gen st.parser := steps_reachable hst
  obtain ⟨c1, c2, c3⟩ := C55_closed S.src b ho hs.tidy O.marshal σ.gen st.parser hsteps he id u hu
  have hp : ∀ id s, (envOf S.src st.parser).raw id = some s → ∀ c, Sub s c → c.oneOf = [] ∧ c.not = none :=
    fun id' s hs' c hc => have h0 := (Verif.Crd.schema_links ho hs.tidy hsteps he hs' hc).1; ⟨h0.oneOf, h0.not⟩
  have hvalid : CanMerge S O σ st id → ∀ j, Valid M s j ↔ Valid M t j := by
    intro hcm j
    have e1 : Valid M s j ↔ Valid M s' j := by
      cases hm : O.maxDescLen with
      | none => rw [h2 hm]
      | some n => rw [h3 n hm]; exact valid_truncate ..
    have hz : (flattenEmbedded t).2 = [] := List.length_eq_zero_iff.1 (Nat.le_zero.1 (hee ▸ q6))
    rw [e1, q4]
    exact Verif.Crd.C28_flatten_preserves_partial M t _ (hcm _ hfl) (by rw [← hz]) j
  obtain ⟨V, hV⟩ := Verif.Crd.C51_meaning_exists_recursive M (envOf S.src st.parser) hp
  refine ⟨u, hu, fun hcm => ⟨fun hac j hj hm hv => ?_, fun hN hP j hj hb hm => ?_⟩⟩
  · have h7 := (hvalid hcm j).1 (printed_rejects hv hm)
    exact Verif.Crd.C78_enforced_partial M O.marshal G _ (Verif.Crd.generated_of hsteps he hs.prog) hs.linked hs.once V hV id.pkg id.name u hu c1 j hj ((Verif.Crd.expand_meaning hV (hx hac) c3 j).1 h7)
  · refine printed_accepts ((hvalid hcm j).2 ?_) hm
    refine Verif.Crd.approx_accepts hV ha c3 (fun q c hre => ?_) j ((Verif.Crd.takes hM (Verif.Crd.generated_of hsteps he hs.prog) hs.linked hN hP hV (Verif.Crd.foreign_of ho hs.tidy hsteps he hs.prog V hV) hj).1 hb u hu)
    obtain ⟨id, s, hs', -, hc⟩ := Verif.Crd.reach_sub (id := id) hu hre
    exact hp id s hs' c hc

/-! ## C86 -/

/-- **C86** (partial).  Each version of each CRD that is written is one of a kind in a package; if no error has been reported, then it rejects every object that breaks a validation marker of the program or lacks a
required field, at any depth; and it accepts every object that encoding/json writes for a value of the type, that breaks no marker and lacks no required field.  Whatever was generated before by the same
parser and flattener, in whichever order maps are iterated over, however descriptions are shortened.  Missing: what the type says of `metadata`, for which any object is accepted in place of it; and as in C78,
markers given twice, recursive types (first half only), merging (C28), the guards of C56 (second half only). -/
theorem C86_enforced_partial (M : Meaning) (hM : Formats M) (S : GSrc) (O : Opts) (σ : Scheds) (roots : List String) (st : State) (out : Out) (h : generate S O σ roots = .ok (st, out)) (hf : out.failed = false)
    (hn : NoErrors st) (G : Prog) (hs : Sound M S G st) (f : String × Crd) (hff : f ∈ out.files) (w : Version) (hw : w ∈ f.2.versions) :
    ∃ gk pkg u s, VersionFor S roots f.2 w gk pkg ∧ (envOf S.src st.parser).raw ⟨pkg, gk.kind⟩ = some u ∧ SchemaFor S O σ st ⟨pkg, gk.kind⟩ s ∧ (CanMerge S O σ st ⟨pkg, gk.kind⟩ →
      (AcyclicFrom (envOf S.src st.parser) pkg u → ∀ j, Breaks M O.marshal G (.decl pkg gk.kind) j → MetadataFits M s j → ¬ Valid M w.schema j) ∧
      (G.nils = false → (∀ p n d, G.decl p n = some d → TypedDecl (G.ctx p) d) →
        ∀ j, Enc G (.decl pkg gk.kind) j → ¬ Breaks M O.marshal G (.decl pkg gk.kind) j → MetadataObject j → Valid M w.schema j)) := by
  obtain ⟨gk, pkg, s, h1, h3, h4⟩ := file_versions h hf hff hw
  obtain ⟨-, -, -, -, -, -, h6, -⟩ := generate_spec h hf
  obtain ⟨u, hu, hc⟩ := schema_enforced hM h6 hn hs h3
  refine ⟨gk, pkg, u, s, h1, hu, h3, ?_⟩
  rw [h4]
  exact hc

end Verif.CrdGen

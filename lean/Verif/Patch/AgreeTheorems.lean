import Verif.Patch.AgreeSpec
import Verif.Patch.SourceTheorems
import Verif.CrdGen.SameTheorems
/-!
# C96: schemapatch writes the schemas that the CRD generator writes
-/
namespace Verif.Patch
open Spec
open Verif.Crd (Schema addKnownTypes declares_iff)
open Verif.Crd.Spec (Tidy)
open Verif.CrdGen (GSrc Opts State Scheds Out generate_spec file_versions schema_same fixMetadata)
open Verif.CrdGen.Spec (OrderlyTypes Plain)

variable {S : GSrc} {O : Opts} {σ σ' : Scheds} {χ : Type} {τ : Sched} {toYaml : Schema → Node} {L : Library χ}

/-- **C96** (partial).  A run of the CRD generator and a run of schemapatch on the same program, with the same options, whatever the root packages and the orders of maps: into the manifest of a kind, schemapatch writes
for each version the schema that the CRD generator writes for it, and nothing else. -/
theorem C96_agree_partial {b : Bool} (ho : S.src.overrides = addKnownTypes b) (ht : ∀ p, Tidy (S.src.ctx p)) (hd : OrderlyTypes S) {roots roots' : List String} {st st' : State} {out : Out} {run : Run} {entries : List Entry}
    (h : CrdGen.generate S O σ roots = .ok (st, out)) (hf : out.failed = false) (h' : Runs S O σ' τ toYaml L (some entries) roots' (.ok (st', run))) (hok : run.status = .ok ()) (hp : Plain S st) (hp' : Plain S st')
    (hpa : ∀ e ∈ entries, ∀ c doc, Manifest L e c doc → Parsed doc) (w : CrdFile) (hw : w ∈ run.writes) :
    ∃ e ∈ entries, ∃ c doc, e.name = w.file ∧ Manifest L e c doc ∧ ∃ s : String → Option Schema,
      ((∀ ver, s ver = none) ∧ w.doc = doc ∨ PatchedDocument (fun ver => (s ver).map toYaml) doc w.doc) ∧
      (PackagePerVersion S c.group → ∀ f ∈ out.files, f.2.group = c.group → f.2.names.kind = c.kind → Agree S roots' c.group c.kind c.versions s f.2) := by
  obtain ⟨hi, hs⟩ := runs_spec h' hok
  obtain ⟨c, fl, hm, hfl, new, hnew, hdoc⟩ := hs w hw
  obtain ⟨e, he, hn, hman⟩ := mem_manifests.1 hm
  refine ⟨e, he, c, fl.doc, hn.trans hfl.symm, hman, fun ver => GoMap.get new ver, ?_, ?_⟩
  · rcases hdoc with ⟨h1, h2⟩ | ⟨-, h2⟩
    · exact .inl ⟨fun ver => by rw [h1]; rfl, h2⟩
    · exact .inr (C39_frame _ _ _ (hpa e he c _ hman) h2)
  · intro h1 f hff hg hk
    have same : ∀ v ∈ f.2.versions, ∀ p, GoMap.get new v.name = some p → p = v.schema := by
      intro v hv p hs
      obtain ⟨-, pkg, s', hgv, -, hsf, rfl⟩ := hnew.sound v.name p hs
      obtain ⟨v1, v2⟩ := version_of hgv
      obtain ⟨gk, pkg', s, vf, hsf', hv'⟩ := file_versions h hf hff hv
      obtain ⟨-, g1, g2, g3, g4, -⟩ := vf
      have e1 : gk = ⟨c.group, c.kind⟩ := by
        obtain ⟨g, k⟩ := gk
        simp only at g1 g2
        rw [← g1, ← g2, hg, hk]
      subst e1
      have e2 : pkg = pkg' := h1 pkg pkg' v.name v1 g3 v2 g4
      subst e2
      obtain ⟨-, -, -, -, -, -, hsteps, -⟩ := generate_spec h hf
      have e3 : s' = s := schema_same ho ht hd hsteps hi.steps hp hp' hsf' hsf
      rw [hv', e3, fixMetadata_printed]
    refine ⟨same, ?_⟩
    rintro v hv hver ⟨pkg, hpk, hki, hgr, hve⟩
    obtain ⟨gk, pkg', s, vf, -, -⟩ := file_versions h hf hff hv
    obtain ⟨-, g1, g2, g3, g4, d, g5⟩ := vf
    have e1 : gk = ⟨c.group, c.kind⟩ := by
      obtain ⟨g, k⟩ := gk
      simp only at g1 g2
      rw [← g1, ← g2, hg, hk]
    subst e1
    have e2 : pkg = pkg' := h1 pkg pkg' v.name hgr g3 hve g4
    subst e2
    have hsome := (hnew.complete hki pkg hpk v.name (groupVersion_of (CrdGen.indexed_of (id := ⟨pkg, c.kind⟩) (declares_iff.2 g5)) hgr hve) (mem_setVersions hm hver)).1
    obtain ⟨p, hp⟩ := Option.isSome_iff_exists.1 hsome
    rw [hp, same v hv p hp]

end Verif.Patch

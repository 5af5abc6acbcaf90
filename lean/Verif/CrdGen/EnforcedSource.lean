import Verif.CrdGen.Enforced
import Verif.CrdGen.SourceTheorems
import Verif.Crd.FromSourceTheorems

/-! # C86: the CRDs in the files reject what violates a comment in the source -/
namespace Verif.CrdGen
open Spec
open Verif.Markers (Value)
open Verif.Crd (AnyVal)
open Verif.Crd.Spec (envOf Valid Meaning Json Prog Offends Formats AcyclicFrom)

/-- **C86** (partial), from comments to files.  Each version of each CRD that is written rejects every object that violates a validation comment, or one that says that a field is required, on the kind or on anything
the object has in it.  Missing: as in `C86_enforced_partial` and C83. -/
theorem C86_comments_partial {gs : List String} {hist : List (Markers.Def Markers.Loaded)} {E : Markers.Env} {code : Value → AnyVal} {W : World} (hg : "crd" ∈ gs ∨ "schemapatch" ∈ gs)
    (hh : Markers.Shipped.history gs = some hist) (hr : Readable hist E W) (M : Meaning) (hM : Formats M) (O : Opts) (σ : Scheds) (roots : List String) (st : State) (out : Out)
    (h : generate (W.gsrc hist E code) O σ roots = .ok (st, out)) (hf : out.failed = false) (hn : NoErrors st) (G : Prog) (hs : Sound M (W.gsrc hist E code) G st) (f : String × Crd)
    (hff : f ∈ out.files) (w : Version) (hw : w ∈ f.2.versions) :
    ∃ gk pkg u s, VersionFor (W.gsrc hist E code) roots f.2 w gk pkg ∧ (envOf (W.gsrc hist E code).src st.parser).raw ⟨pkg, gk.kind⟩ = some u ∧ SchemaFor (W.gsrc hist E code) O σ st ⟨pkg, gk.kind⟩ s ∧
      (CanMerge (W.gsrc hist E code) O σ st ⟨pkg, gk.kind⟩ → AcyclicFrom (envOf (W.gsrc hist E code).src st.parser) pkg u →
        ∀ j, Offends M O.marshal E code hist W.pk G (.decl pkg gk.kind) j → MetadataFits M s j → ¬ Valid M w.schema j) := by
  obtain ⟨gk, pkg, u, s, h1, h2, h3, h4⟩ := C86_enforced_partial M hM _ O σ roots st out h hf hn G hs f hff w hw
  exact ⟨gk, pkg, u, s, h1, h2, h3, fun hc ha j hj => (h4 hc).1 ha j (Verif.Crd.offends_breaks hg hh (fun p => ⟨(hr p).1, (hr p).2.1⟩) hj)⟩

end Verif.CrdGen

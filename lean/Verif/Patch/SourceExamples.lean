import Verif.Patch.SourceTheorems
import Verif.CrdGen.EnforcedExamples
/-!
# C89: a manifest patched from the comments of a file, and what does not hold
-/
namespace Verif.Patch
open Spec
open Verif.Crd (Schema Stop)
open Verif.CrdGen (GSrc Opts State Scheds GroupKind findMetav1 findKinds)

/-! ## Runs with given choices -/

def execLoop (S : GSrc) (O : Opts) (σ : Scheds) (set : CrdSet) (first : List (String × String × String)) : List String → List String → State → New → Option (Except Stop (State × New))
  | [], seen, st, new => if ∀ e ∈ first, e.1 ∈ seen then some (.ok (st, new)) else none
  | p :: ps, seen, st, new =>
    if p ∈ seen then none
    else match (S.groupVersions st.parser).find? fun e => e.1 = p with
      | none => none
      | some e =>
        match round S O σ set e st new with
        | .error x => some (.error x)
        | .ok (st', new') => execLoop S O σ set first ps (p :: seen) st' new'

theorem execLoop_loop {S : GSrc} {O : Opts} {σ : Scheds} {set : CrdSet} {first : List (String × String × String)} : ∀ {ps seen st new r}, execLoop S O σ set first ps seen st new = some r → Loop S O σ set first seen st new r
  | [], seen, st, new, r, h => by
    rw [execLoop] at h
    split at h
    · cases h; exact .done ‹_›
    · cases h
  | p :: ps, seen, st, new, r, h => by
    rw [execLoop] at h
    split at h
    · cases h
    · rename_i hp
      split at h
      · cases h
      · rename_i e he
        have hm := List.mem_of_find?_eq_some he
        have hn : e.1 = p := by simpa using List.find?_some he
        subst hn
        split at h
        · rename_i x hr; cases h; exact .stop hm hp hr
        · rename_i st' new' hr; exact .next hm hp hr (execLoop_loop h)

/-! ## A directory with one manifest -/

namespace SourceCase
open DirExample (textAt metaOf crdOf)

/-- A CRD with versions that have old schemas. -/
def crdWith (versions : List String) : Node := .mk .document {} [map [
  ("apiVersion", str "apiextensions.k8s.io/v1"), ("kind", str "CustomResourceDefinition"),
  ("spec", map [("group", str "g.io"), ("names", map [("kind", str "Box")]),
    ("versions", seq (versions.map fun v => map [("name", str v), ("schema", map [("openAPIV3Schema", map [("type", str "old")])])]))])]]

def files (versions : List String) : String → Option (List Node) := fun n => if n = "box.yaml" then some [crdWith versions] else none

def lib (versions : List String) : Library (List Node) := firstDocument (files versions) metaOf crdOf

def dir : List Entry := [⟨"box.yaml", false⟩]

/-- A tree for a schema: its type, and its properties. -/
def tree (s : Schema) : Node := map [("type", str s.base.type), ("properties", map (s.properties.map fun p => (p.1, str p.2.base.type)))]

/-- Name, type in the schema and properties, for each version of the first file. -/
def shown (run : Run) : Option (List (String × Option (String × List String))) :=
  (run.writes.head?).bind fun f => (getNode f.doc ["spec", "versions"]).bind fun v => v.map fun v => v.content.map fun x =>
    ((textAt ["name"] x).getD "", (textAt ["schema", "openAPIV3Schema", "type"] x).map fun t => (t,
      match getNode x ["schema", "openAPIV3Schema", "properties"] with | some (some n) => keys n.content | _ => []))

def set (vs : List String) : CrdSet := { group := "g.io", kind := "Box", versions := vs, crds := [⟨"box.yaml", crdWith vs⟩] }

theorem sets_one : crdsFromDirectory (lib ["v1"]) (some dir) = some [(("g.io", "Box"), set ["v1"])] := rfl
theorem sets_two : crdsFromDirectory (lib ["v1", "v2"]) (some dir) = some [(("g.io", "Box"), set ["v1", "v2"])] := rfl

theorem manifest_eq {vs : List String} {e : Entry} {c : CrdIsh} {doc : Node} (h : Manifest (lib vs) e c doc) : doc = crdWith vs ∧ crdOf (crdWith vs) = some c := by
  obtain ⟨-, raw, h1, -, h3, h4⟩ := h
  have h1 : (if e.name = "box.yaml" then some [crdWith vs] else none) = some raw := h1
  split at h1
  · cases h1; cases h4; exact ⟨rfl, h3⟩
  · cases h1

theorem parsed_one : Parsed (crdWith ["v1"]) := ⟨{}, _, rfl, nodocs_of_check (by decide +kernel), pairs_of_check (by decide +kernel)⟩

/-- The schemas and the number of errors. -/
def newOf (r : Option (Except Stop (State × New))) : Option (New × Nat × Nat) :=
  match r with
  | some (.ok (st, n)) => some (n, st.parser.errs, st.embedErrs)
  | _ => none

/-- A run with one manifest, for a kind that is there. -/
theorem runs_of {S : GSrc} {O : Opts} {σ : Scheds} {vs roots ps : List String} {m : String} {st : State} {new : New} (toYaml : Schema → Node) (h1 : findMetav1 S roots = some m)
    (h2 : findKinds S σ.kinds m (start S roots).parser = [⟨"g.io", "Box"⟩]) (h3 : crdsFromDirectory (lib vs) (some dir) = some [(("g.io", "Box"), set vs)])
    (h : execLoop S O σ (set vs) (S.groupVersions (start S roots).parser) ps [] (start S roots) [] = some (.ok (st, new))) :
    Runs S O σ .fifo toYaml (lib vs) (some dir) roots (.ok (st, patchAndWrite .fifo toYaml [(("g.io", "Box"), set vs)] [(("g.io", "Box"), new)])) := by
  refine .patched h1 h3 ?_
  rw [h2]
  exact .wanted (set := set vs) rfl (execLoop_loop h) .nil

theorem runs_exist {S : GSrc} {O : Opts} {σ : Scheds} {vs roots ps : List String} {m : String} {new : New} (toYaml : Schema → Node) (h1 : findMetav1 S roots = some m)
    (h2 : findKinds S σ.kinds m (start S roots).parser = [⟨"g.io", "Box"⟩]) (h3 : crdsFromDirectory (lib vs) (some dir) = some [(("g.io", "Box"), set vs)])
    (h : newOf (execLoop S O σ (set vs) (S.groupVersions (start S roots).parser) ps [] (start S roots) []) = some (new, 0, 0)) :
    ∃ st, CrdGen.Spec.NoErrors st ∧ execLoop S O σ (set vs) (S.groupVersions (start S roots).parser) ps [] (start S roots) [] = some (.ok (st, new)) ∧
      Runs S O σ .fifo toYaml (lib vs) (some dir) roots (.ok (st, patchAndWrite .fifo toYaml [(("g.io", "Box"), set vs)] [(("g.io", "Box"), new)])) := by
  cases hx : execLoop S O σ (set vs) (S.groupVersions (start S roots).parser) ps [] (start S roots) [] with
  | none => rw [hx] at h; cases h
  | some r =>
    cases r with
    | error x => rw [hx] at h; cases h
    | ok x =>
      obtain ⟨st, n⟩ := x
      rw [hx] at h
      simp only [newOf, Option.some.injEq, Prod.mk.injEq] at h
      obtain ⟨rfl, h4, h5⟩ := h
      exact ⟨st, ⟨h4, h5⟩, rfl, runs_of toYaml h1 h2 h3 hx⟩

end SourceCase

/-! ## Packages that are found on the way -/

namespace LateCase
open Verif.Crd (Field TExpr Decl PkgCtx Src metaPath addKnownTypes TypeIdent)
open SourceCase

def field (name tag : String) (type : TExpr) : Field := { name, tag := some tag.toList, type }

def object (name : String) (rest : List Field) : Decl :=
  { name, type := .struct, fields := [field "" ",inline" (.selector "metav1" "TypeMeta"), field "" "metadata,omitempty" (.selector "metav1" "ObjectMeta")] ++ rest }

/-- Version v1 of a kind has a field of a type of package v2, in which there is version v2 of the kind. -/
def prog (v2 : List Decl) : Src where
  ctx := fun self =>
    { self := self
      ident := fun n => if n = "string" then .basic ⟨.string, "string"⟩ else .invalid
      sel := fun x n =>
        if x = "metav1" ∧ (n = "TypeMeta" ∨ n = "ObjectMeta") then .named (some metaPath) n .other
        else if x = "v2" ∧ n = "Part" then .named (some "v2") n .other
        else .invalid
      exported := fun _ => true }
  imports := fun p path => if (p = "v1" ∨ p = "v2") ∧ path = metaPath then some metaPath else if p = "v1" ∧ path = "v2" then some "v2" else none
  decls := fun p =>
    if p = "v1" then [object "Box" [field "Part" "part,omitempty" (.selector "v2" "Part")]]
    else if p = "v2" then v2
    else if p = metaPath then [{ name := "TypeMeta", type := .struct, fields := [field "Kind" "kind,omitempty" (.ident "string")] }]
    else []
  path := id
  overrides := addKnownTypes false

def src (v2 : List Decl) : GSrc where
  src := prog v2
  pkgName := id
  groupName := fun p => if p = "v1" ∨ p = "v2" then some "g.io" else none
  versionName := fun _ => none
  crdMarkers := fun _ => []

def opts : Opts where
  lib := { pluralize := (· ++ "s"), lower := id }
  tables := ⟨fun _ => false, fun _ => false⟩
  marshal := fun _ => none
  fuel := 5

def sched : Scheds where
  gen := fun _ => .fifo
  flat := .fifo
  groups := fun _ => .lifo
  crd := fun _ => .lifo
  kinds := .lifo

def part : Decl := { name := "Part", type := .struct, fields := [field "A" "a,omitempty" (.ident "string")] }

def both : List Decl := [part, object "Box" [field "New" "new,omitempty" (.ident "string")]]

def v1Schema : Schema := .mk { type := "object" } none [] [] [] none
  [("metadata", .leaf { type := "object" }), ("part", .mk { type := "object" } none [] [] [] none [("a", .leaf { type := "string" })] none [] [] none []), ("kind", .leaf { type := "string" })] none [] [] none []

def v2Schema : Schema := .mk { type := "object" } none [] [] [] none [("metadata", .leaf { type := "object" }), ("new", .leaf { type := "string" }), ("kind", .leaf { type := "string" })] none [] [] none []

theorem meta_found (v2 : List Decl) (roots : List String) : findMetav1 (src v2) ("v1" :: roots) = some metaPath := by
  have : (src v2).src.imports "v1" metaPath = some metaPath := by simp [src, prog]
  unfold findMetav1
  rw [this]

theorem kinds_found : findKinds (src both) sched.kinds metaPath (start (src both) ["v1"]).parser = [⟨"g.io", "Box"⟩] := by decide +kernel

/-- The loop that visits package v2, which is added to the map meanwhile, and the one that does not. -/
theorem visited : newOf (execLoop (src both) opts sched (set ["v1", "v2"]) ((src both).groupVersions (start (src both) ["v1"]).parser) ["v1", "v2"] [] (start (src both) ["v1"]) []) =
    some ([("v1", v1Schema), ("v2", v2Schema)], 0, 0) := by decide +kernel
theorem missed : newOf (execLoop (src both) opts sched (set ["v1", "v2"]) ((src both).groupVersions (start (src both) ["v1"]).parser) ["v1"] [] (start (src both) ["v1"]) []) =
    some ([("v1", v1Schema)], 0, 0) := by decide +kernel

end LateCase

open SourceCase LateCase in
/-- **C89 does not hold** for versions in packages that are no roots: if one of them is imported by a root, then it depends on the iteration over a map to which it is added meanwhile whether its version of the manifest
gets a schema, or loses the one it had.  Neither run reports an error. -/
theorem C89_violated_late : ∃ st st' run run', CrdGen.Spec.NoErrors st ∧ CrdGen.Spec.NoErrors st' ∧
    Runs (src both) opts sched .fifo tree (lib ["v1", "v2"]) (some dir) ["v1"] (.ok (st, run)) ∧ Runs (src both) opts sched .fifo tree (lib ["v1", "v2"]) (some dir) ["v1"] (.ok (st', run')) ∧
    run.status = .ok () ∧ run'.status = .ok () ∧
    shown run = some [("v1", some ("object", ["metadata", "part", "kind"])), ("v2", some ("object", ["metadata", "new", "kind"]))] ∧
    shown run' = some [("v1", some ("object", ["metadata", "part", "kind"])), ("v2", none)] := by
  obtain ⟨st, h1, -, h2⟩ := runs_exist tree (meta_found both []) kinds_found sets_two visited
  obtain ⟨st', h1', -, h2'⟩ := runs_exist tree (meta_found both []) kinds_found sets_two missed
  exact ⟨st, st', _, _, h1, h1', h2, h2', by decide +kernel, by decide +kernel, by decide +kernel, by decide +kernel⟩


/-! ## A version without the kind -/

namespace CrashCase
open Verif.Crd (metaPath)
open SourceCase LateCase

theorem kinds_found : findKinds (src [part]) sched.kinds metaPath (start (src [part]) ["v1", "v2"]).parser = [⟨"g.io", "Box"⟩] := by decide +kernel

def stopOf (r : Option (Except Stop (State × New))) : Option Stop :=
  match r with
  | some (.error x) => some x
  | _ => none

theorem no_override (o : Crd.Override) : ¬ Crd.Spec.OverrideOf (src [part]).src "v2" o := by
  intro h
  have h2 : (GoMap.get (Crd.addKnownTypes false) (String.ofList (Loader.nonVendorPath "v2".toList))).isNone = true := by decide +kernel
  rw [show GoMap.get (Crd.addKnownTypes false) (String.ofList (Loader.nonVendorPath "v2".toList)) = some o from h] at h2
  cases h2

theorem stopped : stopOf (execLoop (src [part]) opts sched (set ["v1", "v2"]) ((src [part]).groupVersions (start (src [part]) ["v1", "v2"]).parser) ["v1", "v2"] [] (start (src [part]) ["v1", "v2"]) []) = some .panic := by
  decide +kernel

end CrashCase

open SourceCase LateCase CrashCase in
/-- **C89 does not hold**: a root package that is another version of the group, and in which there are other types but not the kind, makes every run with a manifest that lists the version end in a crash. -/
theorem C89_violated_crash : Runs (src [part]) opts sched .fifo tree (lib ["v1", "v2"]) (some dir) ["v1", "v2"] (.error .panic) ∧
    ∀ r, Runs (src [part]) opts sched .fifo tree (lib ["v1", "v2"]) (some dir) ["v1", "v2"] r → ∃ x, r = .error x := by
  constructor
  · refine .stop (meta_found [part] ["v2"]) sets_two ?_
    rw [CrashCase.kinds_found]
    refine .stop (set := set ["v1", "v2"]) rfl (execLoop_loop (ps := ["v1", "v2"]) ?_)
    have h := stopped
    unfold stopOf at h
    split at h
    · cases h; assumption
    · cases h
  · intro r hr
    have hm : Manifest (lib ["v1", "v2"]) ⟨"box.yaml", false⟩ ⟨"g.io", "Box", ["v1", "v2"]⟩ (crdWith ["v1", "v2"]) := ⟨⟨rfl, "box".toList, by decide⟩, [crdWith ["v1", "v2"]], rfl, by decide +kernel, by decide +kernel, rfl⟩
    refine C89_crashes (src [part]) opts sched .fifo tree (lib ["v1", "v2"]) dir ["v1", "v2"] ⟨"box.yaml", false⟩ _ _ (by simp [dir]) hm ?_ "v2" "v2" (by simp) (by simp) ⟨?_, by decide +kernel, .inr ⟨rfl, rfl⟩⟩ ?_ ?_ ?_ r hr
    · intro e he
      rw [List.mem_singleton.1 he]
      refine ⟨?_, fun h => by have := h.2; cases this⟩
      rintro ⟨-, raw, v, h1, h2, -, h3⟩
      cases h1
      have h4 : (lib ["v1", "v2"]).typeMeta [crdWith ["v1", "v2"]] = some ("apiextensions.k8s.io/v1", "CustomResourceDefinition") := by decide +kernel
      rw [h4] at h2
      cases h2
      exact h3 rfl
    · have h := (CrdGen.C32_kinds (src [part]) sched.kinds ["v1", "v2"] Crd.metaPath (CrdGen.findMetav1_some.1 (meta_found [part] ["v2"]))).1 ⟨"g.io", "Box"⟩
      exact h.1 (by rw [show CrdGen.rooted (src [part]) ["v1", "v2"] = (start (src [part]) ["v1", "v2"]).parser from rfl, CrashCase.kinds_found]; simp)
    · exact ⟨"Part", part, (by rintro ⟨v, vs, h⟩; cases h), fun o ho => absurd ho (no_override o), [], [], rfl, rfl, nofun⟩
    · rintro d ⟨-, -, a, b, h, hn, -⟩
      have : d ∈ [part] := (show (src [part]).src.decls "v2" = [part] by decide +kernel) ▸ h ▸ (by simp)
      rw [List.mem_singleton.1 this] at hn
      revert hn
      decide +kernel
    · rintro s ⟨o, a, b, h, -⟩
      exact no_override o h

/-! ## A manifest patched from comments -/

namespace CommentsCase
open Verif.Crd (metaPath)
open Verif.CrdGen.SourceSample
open SourceCase

theorem meta_here : findMetav1 S' ["v1"] = some metaPath := by decide +kernel
theorem kinds_here : findKinds S' sched.kinds metaPath (start S' ["v1"]).parser = [⟨"g.io", "Box"⟩] := by decide +kernel

abbrev exec := execLoop S' opts sched (set ["v1"]) (S'.groupVersions (start S' ["v1"]).parser) ["v1"] [] (start S' ["v1"]) []

theorem exec_new : newOf exec = some ([("v1", boxCrd)], 0, 0) := by decide +kernel
theorem exec_schemata : (match exec with | some (.ok (st, _)) => st.parser.schemata | _ => []) = schemata := by decide +kernel

theorem pkg_only {group kind ver pkg : String} (hv : SchemaOf S' ["v1"] group kind ver pkg) : pkg = "v1" := by
  by_cases hp : pkg = "v1"
  · exact hp
  · have := hv.inGroup
    rw [show S'.groupName pkg = none by simp only [S', valuesOf, if_neg hp]; rfl] at this
    cases this

abbrev written : Run := patchAndWrite .fifo tree [(("g.io", "Box"), set ["v1"])] [(("g.io", "Box"), [("v1", boxCrd)])]

theorem written_ok : written.status = .ok () := by decide +kernel
theorem written_one : ∃ w, written.writes = [w] := List.length_eq_one_iff.1 (by decide +kernel)

/-- The run, and the conditions on it. -/
theorem run_here : ∃ st, Runs S' opts sched .fifo tree (lib ["v1"]) (some dir) ["v1"] (.ok (st, written)) ∧ CrdGen.Spec.NoErrors st ∧ Crd.Spec.envOf S'.src st.parser = env ∧
    (∀ M, CrdGen.Spec.Sound M S' prog st) ∧ CrdGen.Spec.CanMerge S' opts sched st ⟨"v1", "Box"⟩ := by
  obtain ⟨st, hne, hx, hr⟩ := runs_exist tree meta_here kinds_here sets_one exec_new
  have henv : Crd.Spec.envOf S'.src st.parser = env := by
    have h := exec_schemata
    unfold exec at h
    rw [hx] at h
    unfold Crd.Spec.envOf env
    rw [show st.parser.schemata = schemata from h]; rfl
  refine ⟨st, hr, hne, henv, fun M => ⟨⟨false, rfl⟩, tidy, progOf M, linked _, once, by rw [henv]; exact env_distinct⟩, fun t ht => ?_⟩
  obtain ⟨f, hf⟩ := flat_eq
  rw [CrdGen.flattened_scratch (b := false) rfl tidy (runs_spec hr written_ok).1.steps hne.1 (by rw [henv]; exact env_distinct) (id := ⟨"v1", "Box"⟩) (u := boxRaw) (by rw [henv]; exact box_raw)
    (by rw [henv]; exact box_acyclic) .fifo (by rw [henv]; exact hf) ht]
  exact box_guard

theorem all_parsed : ∀ e ∈ dir, ∀ c doc, Manifest (lib ["v1"]) e c doc → Parsed doc := fun e _ c doc h => by rw [(manifest_eq h).1]; exact parsed_one
theorem crd_here : DirExample.crdOf (crdWith ["v1"]) = some ⟨"g.io", "Box", ["v1"]⟩ := by decide +kernel

end CommentsCase

open SourceCase CommentsCase Verif.CrdGen.SourceSample in
open Verif.Crd.Spec (Valid Meaning Formats) in
/-- C89: the hypotheses of `C89_enforced_partial` hold for the file of C85 and C86 and a manifest of its kind: the schema that is written into it rejects an object that violates a comment, and accepts one that
does not. -/
example (M : Meaning) (hM : Formats M) : ∃ (st : State) (run : Run) (w : CrdFile) (s : String → Option Schema) (p : Schema), Runs S' opts sched .fifo tree (lib ["v1"]) (some dir) ["v1"] (.ok (st, run)) ∧ run.status = .ok () ∧
    w ∈ run.writes ∧ PatchedDocument (fun ver => (s ver).map tree) (crdWith ["v1"]) w.doc ∧ s "v1" = some p ∧ ¬ Valid M p (.obj [("color", .str "green")]) ∧ Valid M p (.obj [("color", .str "red")]) := by
  obtain ⟨st, hr, hne, henv, hs, hmerge⟩ := run_here
  obtain ⟨w, hw⟩ := written_one
  have hw : w ∈ written.writes := by rw [hw]; simp
  obtain ⟨e, -, c, doc, -, hm, s, h1, h2, h3⟩ := C89_enforced_partial M hM S' opts sched .fifo tree (lib ["v1"]) dir ["v1"] st _ hr written_ok all_parsed w hw
  obtain ⟨rfl, hc⟩ := manifest_eq hm
  rw [crd_here] at hc
  cases hc
  have hkind : CrdGen.Spec.KindIn S' ["v1"] ⟨"g.io", "Box"⟩ := by rw [← (CrdGen.C32_kinds _ .fifo _ _ meta_of).1, kinds_found]; simp
  have hdecl : Crd.Spec.Declares S'.src ⟨"v1", "Box"⟩ boxD := ((progOf M).decl "v1" "Box" boxD (by decide +kernel)).1
  have hsome := h3 "v1" (by simp) "v1" (by simp) ⟨hkind, by decide +kernel, .inr ⟨by decide +kernel, rfl⟩⟩ ⟨boxD, hdecl⟩
  obtain ⟨p, hp⟩ := Option.ne_none_iff_exists'.1 hsome
  obtain ⟨pkg, full, k1, k2, k3, k4⟩ := h2 "v1" p hp
  obtain rfl := pkg_only k1
  obtain ⟨u, hu, k5⟩ := k4 hne prog (hs M)
  obtain ⟨k6, k7⟩ := k5 hmerge
  rw [henv, box_raw] at hu
  cases hu
  rw [henv] at k6
  refine ⟨st, _, w, s, p, hr, written_ok, hw, ?_, hp, k6 box_acyclic _ (Crd.offends_breaks (gs := ["webhook", "crd"]) (.inl (by simp)) hist_eq (fun p => ⟨(readable p).1, (readable p).2.1⟩) (long_color M)) (fun c x _ hx => by cases hx),
    k7 rfl typed _ enc_red (CrdGen.red_keeps M hM) (fun x hx => by cases hx)⟩
  rcases h1 with ⟨h1, -⟩ | h1
  · exact absurd (h1 "v1") hsome
  · exact h1

open SourceCase CommentsCase Verif.CrdGen.SourceSample in
open Verif.Crd.Spec (Valid Meaning Formats) in
/-- C89: the hypotheses of `C89_comments_partial` hold for it, too. -/
example (M : Meaning) (hM : Formats M) : ∃ (st : State) (w : CrdFile) (s : String → Option Schema), Runs S opts sched .fifo tree (lib ["v1"]) (some dir) ["v1"] (.ok (st, written)) ∧ w ∈ written.writes ∧
    ((∀ ver, s ver = none) ∧ w.doc = crdWith ["v1"] ∨ PatchedDocument (fun ver => (s ver).map tree) (crdWith ["v1"]) w.doc) ∧ ∀ ver p, s ver = some p → ¬ Valid M p (.obj [("color", .str "green")]) := by
  obtain ⟨st, hr, hne, henv, hs, hmerge⟩ := run_here
  obtain ⟨w, hw⟩ := written_one
  have hw : w ∈ written.writes := by rw [hw]; simp
  rw [← S_eq] at hr
  obtain ⟨e, -, c, doc, -, hm, s, h1, h2⟩ := C89_comments_partial (gs := ["webhook", "crd"]) (.inl (by simp)) hist_eq readable M hM opts sched .fifo tree (lib ["v1"]) dir ["v1"] st _ hr written_ok all_parsed hne prog
    (show CrdGen.Spec.Sound M S prog st by rw [S_eq]; exact hs M) w hw
  obtain ⟨rfl, hc⟩ := manifest_eq hm
  rw [crd_here] at hc
  cases hc
  refine ⟨st, w, s, hr, hw, h1, fun ver p hp => ?_⟩
  obtain ⟨pkg, u, full, k1, k2, -, k3⟩ := h2 ver p hp
  rw [show world.gsrc hist Markers.exEnv code = S' from S_eq] at k1 k2 k3
  obtain rfl := pkg_only k1
  rw [henv, box_raw] at k2
  cases k2
  rw [henv] at k3
  exact k3 hmerge box_acyclic _ (long_color M) (fun c x _ hx => by cases hx)

end Verif.Patch

import Verif.Patch.AgainTheorems
import Verif.Patch.AgreeExamples
/-!
# C97: concrete cases, and what does not hold
-/
namespace Verif.Patch.AgainCase
open Spec
open DirExample (textAt metaOf crdOf)

/-! ## The library of the cases does not look at schemas -/

/-- The value of the first pair of a key. -/
def look (k : String) : List Node → Option Node
  | key :: v :: rest => if key.value = k then some v else look k rest
  | _ => none

theorem child_look (k : String) (n : Node) : (child n k).map (·.2) = look k n.content := by
  unfold child
  generalize n.content = l
  fun_induction look k l with
  | case1 key v rest h => simp [findKey, h]
  | case2 key v rest h ih =>
    rw [← ih, findKey, if_neg h]
    cases hf : findKey k rest with
    | none => rfl
    | some i => simp [Function.comp_def]
  | case3 l h =>
    have : findKey k l = none := by
      unfold findKey
      split
      · exact absurd rfl (h _ _ _)
      · rfl
    rw [this]; rfl

theorem look_append (k : String) : ∀ (pre rest : List Node), pre.length % 2 = 0 → look k (pre ++ rest) = (look k pre).or (look k rest)
  | [], rest, _ => by simp [look]
  | [_], _, h => by simp at h
  | key :: v :: pre, rest, h => by
    simp only [List.cons_append, look]
    split
    · rfl
    · exact look_append k pre rest (by simp only [List.length_cons] at h; omega)

theorem look_none (k : String) : ∀ l, k ∉ keys l → look k l = none
  | [], _ => rfl
  | [_], _ => rfl
  | key :: v :: l, h => by
    simp only [keys, List.mem_cons, not_or] at h
    rw [look, if_neg (fun e => h.1 e.symm), look_none k l h.2]

theorem replaced_look {R : Node → Node → Prop} {k : String} {n n' : Node} (h : ReplacedBy R k n n') :
    n.kind = .mapping ∧ n'.kind = .mapping ∧ (∀ k', k' ≠ k → look k' n'.content = look k' n.content) ∧ ∃ old new, look k n.content = some old ∧ look k n'.content = some new ∧ R old new := by
  obtain ⟨h1, h2, -, pre, key, old, new, post, h3, h4, h5, h6, h7, h8⟩ := h
  refine ⟨h1, h2.trans h1, fun k' hk => ?_, old, new, ?_, ?_, h8⟩
  · rw [h6, h7, look_append _ _ _ h3, look_append _ _ _ h3, look, look, if_neg (fun e => hk (e.symm.trans h5)), if_neg (fun e => hk (e.symm.trans h5))]
  · rw [h6, look_append _ _ _ h3, look_none _ _ h4, look, if_pos h5]; rfl
  · rw [h7, look_append _ _ _ h3, look_none _ _ h4, look, if_pos h5]; rfl

theorem without_look {k : String} {n n' : Node} (h : Without k n n') : n'.kind = .mapping ∧ ∀ k', k' ≠ k → look k' n'.content = look k' n.content := by
  obtain ⟨h1, ⟨h2, -, pre, key, old, post, h3, h4, h5, h6, h7⟩ | ⟨rfl, -⟩⟩ := h
  · refine ⟨h2.trans h1, fun k' hk => ?_⟩
    rw [h6, h7, look_append _ _ _ h3, look_append _ _ _ h3, look, if_neg (fun e => hk (e.symm.trans h5))]
  · exact ⟨h1, fun _ _ => rfl⟩

theorem added_look {P : Node → Prop} {k : String} {n n' : Node} (he : n.content.length % 2 = 0) (h : AddedWith P k n n') : n'.kind = .mapping ∧ ∀ k', k' ≠ k → look k' n'.content = look k' n.content := by
  obtain ⟨h1, h2, -, -, key, new, h3, h4, -⟩ := h
  refine ⟨h2.trans h1, fun k' hk => ?_⟩
  rw [h4, look_append _ _ _ he, look, if_neg (fun e => hk (e.symm.trans h3.2.1)), show look k' [] = none from rfl]
  simp

theorem get_look {n : Node} (h : n.kind = .mapping) (k : String) (path : List String) :
    getFrom n (k :: path) = match look k n.content with | none => some none | some v => getFrom v path := by
  rw [getFrom_cons, child_look, if_neg (fun e => e h)]
  rfl

theorem get_same {n n' : Node} (h : n.kind = .mapping) (h' : n'.kind = .mapping) {k : String} (e : look k n'.content = look k n.content) (path : List String) : getFrom n' (k :: path) = getFrom n (k :: path) := by
  rw [get_look h, get_look h', e]

theorem version_name {s : String → Option Node} {v v' : Node} (hp : v.content.length % 2 = 0) (h : PatchedVersion s v v') : textAt ["name"] v' = textAt ["name"] v := by
  obtain ⟨name, h1, -, -, -, h2⟩ := h
  have hk := h1.1
  have hs : v'.kind = .mapping ∧ ∀ k', k' ≠ "schema" → look k' v'.content = look k' v.content := by
    rcases h2 with ⟨sch, -, h2 | h2⟩ | ⟨-, h2⟩
    · exact ⟨(replaced_look h2).2.1, (replaced_look h2).2.2.1⟩
    · exact added_look hp h2
    · exact without_look h2
  unfold textAt
  rw [getNode_eq, getNode_eq]
  have ht : ∀ n : Node, n.kind = .mapping → top n = n := by
    intro n hn
    unfold top
    split
    · cases hn
    · rfl
  rw [ht _ hk, ht _ hs.1, get_same hk hs.1 (hs.2 _ (by decide))]

theorem names_same {s : String → Option Node} {l l' : List Node} (hp : ∀ v ∈ l, v.kind = .mapping → v.content.length % 2 = 0) (h : Pairwise2 (PatchedVersion s) l l') :
    l'.filterMap (fun x => textAt ["name"] x) = l.filterMap (fun x => textAt ["name"] x) := by
  induction h with
  | nil => rfl
  | cons h t ih =>
    have hk := (show _ ∧ _ from h.choose_spec.1).1
    rw [List.filterMap_cons, List.filterMap_cons, version_name (hp _ (by simp) hk) h, ih fun v hv => hp v (List.mem_cons_of_mem _ hv)]

theorem look_mem {k : String} {v : Node} : ∀ {l : List Node}, look k l = some v → v ∈ l
  | [], h => by cases h
  | [_], h => by cases h
  | key :: w :: l, h => by
    rw [look] at h
    split at h
    · cases h; simp
    · have := look_mem h
      simp [this]

/-- Reading API version, kind, group and the names of the versions does not depend on schemas. -/
theorem blind : SchemaBlind metaOf crdOf := by
  rintro s d d' ⟨a0, m0, h0, -, hpairs⟩ ⟨a, m, m', rfl, rfl, h⟩
  injection h0 with _ h0 h0'
  subst h0
  obtain ⟨rfl, -⟩ := List.cons.inj h0'
  obtain ⟨k1, k2, k3, sp, sp', k4, k5, spm, k6, k7⟩ := replaced_look h
  obtain ⟨j1, j2⟩ := without_look k6
  obtain ⟨-, i2, i3, vs, vs', i4, i5, i6, i7, -, i8⟩ := replaced_look k7
  have get : ∀ path, getNode (.mk .document a [m]) path = getFrom m path := fun path => by rw [getNode_eq]; rfl
  have get' : ∀ path, getNode (.mk .document a [m']) path = getFrom m' path := fun path => by rw [getNode_eq]; rfl
  have inSpec : ∀ k path, k ≠ "versions" → k ≠ "validation" → getFrom m' ("spec" :: k :: path) = getFrom m ("spec" :: k :: path) := by
    intro k path h1 h2
    rw [get_look k1, get_look k2, k4, k5]
    exact get_same k6.1 i2 ((i3 k h1).trans (j2 k h2)) path
  have hv : look "versions" sp.content = some vs := by rw [← j2 _ (by decide)]; exact i4
  have g1 : getFrom m ["spec", "versions"] = some (some vs) := by rw [get_look k1, k4]; show getFrom sp ["versions"] = _; rw [get_look k6.1, hv]; rfl
  have g2 : getFrom m' ["spec", "versions"] = some (some vs') := by rw [get_look k2, k5]; show getFrom sp' ["versions"] = _; rw [get_look i2, i5]; rfl
  have hin : ∀ v ∈ vs.content, v.kind = .mapping → v.content.length % 2 = 0 := fun v hv' hk =>
    hpairs v (.inside (n := .mk .document a [m]) (c := m) (by simp [Node.content]) (.inside (look_mem k4) (.inside (look_mem hv) (.inside hv' (.root v))))) hk
  constructor
  · simp only [metaOf, textAt, get, get', get_same k1 k2 (k3 "apiVersion" (by decide)), get_same k1 k2 (k3 "kind" (by decide))]
  · have hn := names_same hin i8
    simp only [crdOf, Option.some.injEq, CrdIsh.mk.injEq]
    refine ⟨?_, ?_, ?_⟩
    · simp only [textAt, get, get', inSpec "group" [] (by decide) (by decide)]
    · simp only [textAt, get, get', inSpec "names" ["kind"] (by decide) (by decide)]
    · rw [get, get', g1, g2]; exact hn

/-! ## A second run over the directory of a first one -/

open SourceCase
open Verif.Crd (Schema Stop metaPath addKnownTypes)
open Verif.CrdGen (GSrc Opts State Scheds GroupKind findMetav1 findKinds)
open Verif.CrdGen.Spec (Plain NoErrors)

/-- The loop does not depend on the trees of the manifests. -/
theorem loop_trees {S : GSrc} {O : Opts} {σ : Scheds} {set : CrdSet} {first : List (String × String × String)} {seen : List String} {st : State} {new : New} {r : Except Stop (State × New)} (crds : List CrdFile)
    (h : Loop S O σ set first seen st new r) : Loop S O σ { set with crds := crds } first seen st new r := by
  induction h with
  | done h => exact .done h
  | stop h1 h2 h3 => exact .stop h1 h2 h3
  | next h1 h2 h3 _ ih => exact .next h1 h2 h3 ih

/-- The document that a run writes. -/
def docOf (run : Run) : Node := ((run.writes.head?).map (·.doc)).getD (str "")

/-- The set with the document of a run. -/
abbrev setOf (vs : List String) (run : Run) : CrdSet := { group := "g.io", kind := "Box", versions := vs, crds := [⟨"box.yaml", docOf run⟩] }

/-- The run over a directory in which there is the document of a run. -/
def again (run : Run) (vs : List String) (τ : Sched) (toYaml : Schema → Node) (new : New) : Run := patchAndWrite τ toYaml [(("g.io", "Box"), setOf vs run)] [(("g.io", "Box"), new)]

theorem runs_again {S : GSrc} {O : Opts} {σ : Scheds} {τ : Sched} {vs roots ps : List String} {m : String} {st : State} {new : New} {files : String → Option (List Node)} {run : Run} (toYaml : Schema → Node)
    (h1 : findMetav1 S roots = some m) (h2 : findKinds S σ.kinds m (start S roots).parser = [⟨"g.io", "Box"⟩])
    (h3 : crdsFromDirectory (firstDocument files metaOf crdOf) (some dir) = some [(("g.io", "Box"), setOf vs run)])
    (h : execLoop S O σ (set vs) (S.groupVersions (start S roots).parser) ps [] (start S roots) [] = some (.ok (st, new))) :
    Runs S O σ τ toYaml (firstDocument files metaOf crdOf) (some dir) roots (.ok (st, again run vs τ toYaml new)) := by
  refine .patched h1 h3 ?_
  rw [h2]
  exact .wanted (set := setOf vs run) rfl (loop_trees _ (execLoop_loop h)) .nil

/-! ### The packages `v1` and `v2` are both named -/

section
open AgreeCase
open CrdGen.SameSample (S opts fifo few tidy orderlyTypes plain_of)

theorem sets_again : crdsFromDirectory (firstDocument (afterWrites (files ["v1", "v2"]) written.writes) metaOf crdOf) (some dir) =
    some [(("g.io", "Box"), setOf ["v1", "v2"] written)] := by rfl

abbrev written2 : Run := again written ["v1", "v2"] .lifo tree execNew

theorem written2_ok : written2.status = .ok () := by decide +kernel
theorem written2_one : written2.writes.length = 1 := by decide +kernel
theorem unique_two : Unique (crdWith ["v1", "v2"]) := unique_of_check (by decide +kernel)

theorem group_named : GroupNamed S few "g.io" := by
  intro pkg h
  by_cases h1 : pkg = "v1" ∨ pkg = "v2"
  · rcases h1 with rfl | rfl <;> decide +kernel
  · exfalso
    revert h
    simp only [S, if_neg h1]
    split
    · decide
    · nofun

/-- The hypotheses of `C97_again_partial` are met by two runs that each write the manifest of `Box`: its versions have new schemas after the first one, and the second one changes nothing. -/
example : ∃ st st' run run', Runs S opts fifo .fifo tree (lib ["v1", "v2"]) (some dir) few (.ok (st, run)) ∧
    Runs S opts fifo .lifo tree (firstDocument (afterWrites (files ["v1", "v2"]) run.writes) metaOf crdOf) (some dir) few (.ok (st', run')) ∧
    run'.writes.length = 1 ∧ shown run = some [("v1", some ("object", ["metadata", "size", "lid"])), ("v2", some ("object", ["metadata", "lid"]))] ∧
    ∀ n, afterWrites (afterWrites (files ["v1", "v2"]) run.writes) run'.writes n = afterWrites (files ["v1", "v2"]) run.writes n := by
  obtain ⟨st, hne, hx, hr⟩ := runs_exist tree found_meta found_kinds sets_two exec_new
  have hst : execSt = st := by unfold execSt exec; rw [hx]
  have hp : Plain S st := plain_of hne.1 (hst ▸ fine_exec)
  have hr2 : Runs S opts fifo .lifo tree _ (some dir) few (.ok (st, written2)) := runs_again tree found_meta found_kinds sets_again hx
  refine ⟨st, st, written, written2, hr, hr2, written2_one, by decide +kernel, fun n => ?_⟩
  refine C97_again_partial (b := false) rfl tidy orderlyTypes (fun s => by simp [tree, map, Node.kind]) blind hr written_ok hr2 written2_ok hp hp (fun e _ c doc h => ?_) n
  obtain ⟨rfl, hc⟩ := manifest_eq h
  rw [crd_here] at hc
  cases hc
  exact ⟨parsed_two, unique_two, perVersion _, group_named⟩
end

/-! ## What does not hold -/

section
open LateCase

abbrev lateFirst : Run := patchAndWrite .fifo tree [(("g.io", "Box"), set ["v1", "v2"])] [(("g.io", "Box"), [("v1", v1Schema), ("v2", v2Schema)])]

theorem sets_late : crdsFromDirectory (firstDocument (afterWrites (files ["v1", "v2"]) lateFirst.writes) metaOf crdOf) (some dir) =
    some [(("g.io", "Box"), setOf ["v1", "v2"] lateFirst)] := by rfl

/-- **C97 does not hold** for versions in packages that are not named on the command line: package `v1` is named, and imports package `v2`.  The first run gives both versions of the manifest their schemas; the second
one, over the directory that the first one wrote, removes the schema of `v2`.  Nothing but the iteration over a map is different, and no error is reported. -/
theorem C97_violated_late : ∃ st st' run run', NoErrors st ∧ NoErrors st' ∧
    Runs (src both) opts sched .fifo tree (lib ["v1", "v2"]) (some dir) ["v1"] (.ok (st, run)) ∧
    Runs (src both) opts sched .fifo tree (firstDocument (afterWrites (files ["v1", "v2"]) run.writes) metaOf crdOf) (some dir) ["v1"] (.ok (st', run')) ∧
    run.status = .ok () ∧ run'.status = .ok () ∧
    shown run = some [("v1", some ("object", ["metadata", "part", "kind"])), ("v2", some ("object", ["metadata", "new", "kind"]))] ∧
    shown run' = some [("v1", some ("object", ["metadata", "part", "kind"])), ("v2", none)] ∧
    afterWrites (afterWrites (files ["v1", "v2"]) run.writes) run'.writes "box.yaml" ≠ afterWrites (files ["v1", "v2"]) run.writes "box.yaml" := by
  obtain ⟨st, h1, -, h2⟩ := runs_exist tree (meta_found both []) kinds_found sets_two visited
  obtain ⟨st', h1', hx, -⟩ := runs_exist tree (meta_found both []) kinds_found sets_two missed
  refine ⟨st, st', lateFirst, again lateFirst ["v1", "v2"] .fifo tree _, h1, h1', h2, runs_again tree (meta_found both []) kinds_found sets_late hx, by decide +kernel, by decide +kernel, by decide +kernel, by decide +kernel, fun h => ?_⟩
  exact absurd (congrArg (fun o => o.bind fun l => shown { writes := l.map (CrdFile.mk ""), status := .ok () }) h) (by decide +kernel)
end

end Verif.Patch.AgainCase

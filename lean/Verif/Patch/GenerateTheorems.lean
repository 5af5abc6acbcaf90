import Verif.Patch.Generate
import Verif.Patch.CrdTheorems
/-!
# C62: schema patching writes every manifest once, or none
-/
namespace Verif.Patch

namespace Spec

/-- A package has a schema for a version of the kind of a set of manifests. -/
def Offers (inp : Input) (set : CrdSet) (ver : String) (schema : Node) : Prop :=
  (set.group, set.kind) ∈ inp.kinds ∧ ver ∈ set.versions ∧
  ∃ gv ∈ inp.gvs, gv.group = set.group ∧ gv.version = ver ∧ schema = inp.schema gv.pkg set.kind

/-- What is written for a set of manifests: each of them, under its own name; as it was if there is no schema for the kind, and else patched with schemas, one for each version for which there is one. -/
def Written (inp : Input) (set : CrdSet) (out : List CrdFile) : Prop :=
  ((∀ ver schema, ¬ Offers inp set ver schema) → out = set.crds) ∧
  ((∃ ver schema, Offers inp set ver schema) → ∃ s : String → Option Node,
    (∀ ver schema, s ver = some schema → Offers inp set ver schema) ∧
    (∀ ver schema, Offers inp set ver schema → s ver ≠ none) ∧
    out.map (·.file) = set.crds.map (·.file) ∧
    set.crds.map (fun f => patch s f.doc) = out.map (fun f => .ok f.doc))

/-- No two packages are the same version of a group. -/
def OnePackage (inp : Input) : Prop :=
  ∀ gv ∈ inp.gvs, ∀ gv' ∈ inp.gvs, gv.group = gv'.group → gv.version = gv'.version → gv.pkg = gv'.pkg

end Spec
open Spec

/-! ## The schemas of a set -/

/-- The loop over packages. -/
def collectSchemas (inp : Input) (set : CrdSet) (m : List (String × Node)) (l : List GvEntry) : List (String × Node) :=
  l.foldl (fun m gv =>
    if gv.group ≠ set.group then m
    else if gv.version ∉ set.versions then m
    else GoMap.put m gv.version (inp.schema gv.pkg set.kind)) m

theorem collect_get (inp : Input) (set : CrdSet) : ∀ (l : List GvEntry) (m : List (String × Node)) (ver : String),
    (∀ n, GoMap.get (collectSchemas inp set m l) ver = some n → GoMap.get m ver = some n ∨ (ver ∈ set.versions ∧ ∃ gv ∈ l, gv.group = set.group ∧ gv.version = ver ∧ n = inp.schema gv.pkg set.kind)) ∧
    (GoMap.get (collectSchemas inp set m l) ver = none → GoMap.get m ver = none ∧ ¬ (ver ∈ set.versions ∧ ∃ gv ∈ l, gv.group = set.group ∧ gv.version = ver))
  | [], m, ver => by
    constructor
    · intro n h; exact Or.inl h
    · intro h; exact ⟨h, by rintro ⟨_, gv, h, _⟩; cases h⟩
  | gv :: l, m, ver => by
    unfold collectSchemas
    rw [List.foldl_cons]
    have ih := fun m => collect_get inp set l m ver
    unfold collectSchemas at ih
    by_cases hg : gv.group = set.group
    · by_cases hv : gv.version ∈ set.versions
      · rw [if_neg (by simp [hg]), if_neg (by simp [hv])]
        obtain ⟨h1, h2⟩ := ih (GoMap.put m gv.version (inp.schema gv.pkg set.kind))
        constructor
        · intro n h
          rcases h1 n h with h | ⟨hv', g, hg', h⟩
          · rw [GoMap.get_put] at h
            split at h
            · rename_i e
              cases h
              exact Or.inr ⟨e ▸ hv, gv, List.mem_cons_self .., hg, e.symm, rfl⟩
            · exact Or.inl h
          · exact Or.inr ⟨hv', g, List.mem_cons_of_mem _ hg', h⟩
        · intro h
          obtain ⟨h3, h4⟩ := h2 h
          rw [GoMap.get_put] at h3
          split at h3
          · cases h3
          · rename_i e
            refine ⟨h3, ?_⟩
            rintro ⟨hv', g, hg', h5, h6⟩
            rcases List.mem_cons.1 hg' with e' | e'
            · subst e'; exact e h6.symm
            · exact h4 ⟨hv', g, e', h5, h6⟩
      · rw [if_neg (by simp [hg]), if_pos (by simp [hv])]
        obtain ⟨h1, h2⟩ := ih m
        constructor
        · intro n h
          rcases h1 n h with h | ⟨hv', g, hg', h⟩
          · exact Or.inl h
          · exact Or.inr ⟨hv', g, List.mem_cons_of_mem _ hg', h⟩
        · intro h
          obtain ⟨h3, h4⟩ := h2 h
          refine ⟨h3, ?_⟩
          rintro ⟨hv', g, hg', h5, h6⟩
          rcases List.mem_cons.1 hg' with e' | e'
          · subst e'; exact hv (h6 ▸ hv')
          · exact h4 ⟨hv', g, e', h5, h6⟩
    · rw [if_pos (by simp [hg])]
      obtain ⟨h1, h2⟩ := ih m
      constructor
      · intro n h
        rcases h1 n h with h | ⟨hv', g, hg', h⟩
        · exact Or.inl h
        · exact Or.inr ⟨hv', g, List.mem_cons_of_mem _ hg', h⟩
      · intro h
        obtain ⟨h3, h4⟩ := h2 h
        refine ⟨h3, ?_⟩
        rintro ⟨hv', g, hg', h5, h6⟩
        rcases List.mem_cons.1 hg' with e' | e'
        · subst e'; exact hg h5
        · exact h4 ⟨hv', g, e', h5, h6⟩

theorem new_sound {σ : Sched} {inp : Input} {set : CrdSet} {ver : String} {n : Node} (h : GoMap.get (newSchemata σ inp set) ver = some n) : Offers inp set ver n := by
  unfold newSchemata at h
  split at h
  · cases h
  · rename_i hk
    have hk : (set.group, set.kind) ∈ inp.kinds := by simpa using hk
    rcases (collect_get inp set _ _ ver).1 n h with h | ⟨hv, gv, hg, h1, h2, h3⟩
    · cases h
    · exact ⟨hk, hv, gv, (σ.mem_order _ _ _).1 hg, h1, h2, h3⟩

theorem new_complete {σ : Sched} {inp : Input} {set : CrdSet} {ver : String} {n : Node} (h : Offers inp set ver n) : GoMap.get (newSchemata σ inp set) ver ≠ none := by
  obtain ⟨hk, hv, gv, hg, h1, h2, _⟩ := h
  unfold newSchemata
  rw [if_neg (by simp [hk])]
  intro h
  exact ((collect_get inp set _ _ ver).2 h).2 ⟨hv, gv, (σ.mem_order _ _ _).2 hg, h1, h2⟩

theorem get_nil_all {m : List (String × Node)} (h : ∀ k, GoMap.get m k = none) : m = [] := by
  cases m with
  | nil => rfl
  | cons e m =>
    have := h e.1
    rw [GoMap.get_eq_none] at this
    exact absurd (GoMap.mem_keys.2 ⟨e.2, List.mem_cons_self ..⟩) this

theorem new_empty {σ : Sched} {inp : Input} {set : CrdSet} : newSchemata σ inp set = [] ↔ ∀ ver n, ¬ Offers inp set ver n := by
  constructor
  · intro h ver n ho
    have := new_complete (σ := σ) ho
    rw [h] at this
    exact this rfl
  · intro h
    refine get_nil_all fun k => ?_
    cases hg : GoMap.get (newSchemata σ inp set) k with
    | none => rfl
    | some n => exact absurd (new_sound hg) (h k n)

/-! ## Lists of outcomes -/

def Outcome.val {α : Type} : Outcome α → Option α
  | .ok a => some a
  | _ => none

theorem patchFiles_ok {s : Schemas} : ∀ {l out : List CrdFile}, patchFiles s l = .ok out → out.map (·.file) = l.map (·.file) ∧ l.map (fun f => patch s f.doc) = out.map (fun f => .ok f.doc)
  | [], out, h => by cases h; exact ⟨rfl, rfl⟩
  | f :: l, out, h => by
    rw [patchFiles] at h
    split at h
    · rename_i doc hd
      split at h
      · rename_i rest hr
        cases h
        obtain ⟨h1, h2⟩ := patchFiles_ok hr
        simp [h1, h2, hd]
      · cases h
      · cases h
    · cases h
    · cases h

theorem patchEach_ok {f : CrdSet → Outcome (List CrdFile)} : ∀ {l : List CrdSet} {out : List (List CrdFile)}, patchEach f l = .ok out ↔
    (∀ set ∈ l, ((f set).val).isSome) ∧ out = l.filterMap (fun set => (f set).val)
  | [], out => by
    constructor
    · intro h; cases h; exact ⟨by simp, rfl⟩
    · rintro ⟨_, rfl⟩; rfl
  | set :: l, out => by
    rw [patchEach]
    cases hs : f set with
    | err => simp [hs, Outcome.val]
    | panic => simp [hs, Outcome.val]
    | ok files =>
      simp only
      have ih := fun out => patchEach_ok (f := f) (l := l) (out := out)
      cases hr : patchEach f l with
      | ok rest =>
        obtain ⟨h1, h2⟩ := (ih rest).1 hr
        subst h2
        simp only [Outcome.ok.injEq, List.mem_cons, forall_eq_or_imp, hs, Outcome.val, Option.isSome_some, true_and, List.filterMap_cons]
        constructor
        · rintro rfl; exact ⟨h1, rfl⟩
        · rintro ⟨_, rfl⟩; rfl
      | err =>
        constructor
        · intro h; cases h
        · rintro ⟨h, _⟩
          have := (ih _).2 ⟨fun x hx => h x (List.mem_cons_of_mem _ hx), rfl⟩
          rw [hr] at this
          cases this
      | panic =>
        constructor
        · intro h; cases h
        · rintro ⟨h, _⟩
          have := (ih _).2 ⟨fun x hx => h x (List.mem_cons_of_mem _ hx), rfl⟩
          rw [hr] at this
          cases this

theorem patchSets_ok {σ : Sched} {inp : Input} {l : List CrdSet} {out : List (List CrdFile)} : patchSets σ inp l = .ok out ↔
    (∀ set ∈ l, ((patchSet σ inp set).val).isSome) ∧ out = l.filterMap (fun set => (patchSet σ inp set).val) := patchEach_ok

theorem filterMap_getD {α β : Type} (f : α → Option (List β)) : ∀ (l : List α), (∀ x ∈ l, (f x).isSome) → l.filterMap f = l.map (fun x => (f x).getD [])
  | [], _ => rfl
  | a :: l, h => by
    rw [List.filterMap_cons, List.map_cons, ← filterMap_getD f l fun x hx => h x (List.mem_cons_of_mem _ hx)]
    have := h a (List.mem_cons_self ..)
    cases hf : f a with
    | none => rw [hf] at this; cases this
    | some b => rfl

theorem patchSet_written {σ : Sched} {inp : Input} {set : CrdSet} {out : List CrdFile} (h : patchSet σ inp set = .ok out) : Written inp set out := by
  unfold patchSet at h
  simp only at h
  constructor
  · intro hn
    rw [if_pos (new_empty.2 hn)] at h
    cases h
    rfl
  · rintro ⟨ver, n, ho⟩
    rw [if_neg (fun e => new_empty.1 e ver n ho)] at h
    obtain ⟨h1, h2⟩ := patchFiles_ok h
    exact ⟨_, fun _ _ => new_sound, fun _ _ => new_complete, h1, h2⟩

/-- C62: a run that succeeds writes for each set of manifests what it should, and nothing else. -/
theorem C62_written (σ : Sched) (inp : Input) (h : (generate σ inp).status = .ok ()) :
    ∃ out : CrdSet → List CrdFile, (∀ set ∈ inp.sets, Written inp set (out set)) ∧ (generate σ inp).writes.Perm (inp.sets.flatMap out) := by
  unfold generate at h ⊢
  cases hp : patchSets σ inp (σ.order 1 inp.sets) with
  | ok files =>
    obtain ⟨h1, rfl⟩ := patchSets_ok.1 hp
    refine ⟨fun set => ((patchSet σ inp set).val).getD [], ?_, ?_⟩
    · intro set hs
      have := h1 set ((σ.mem_order _ _ _).2 hs)
      cases hset : patchSet σ inp set with
      | ok out =>
        have := patchSet_written hset
        simp only [hset, Outcome.val, Option.getD_some]
        exact this
      | err => rw [hset] at this; cases this
      | panic => rw [hset] at this; cases this
    · refine ((σ.perm 2 _).flatten).trans ?_
      rw [filterMap_getD _ _ h1]
      rw [List.flatMap_def]
      exact ((σ.perm 1 inp.sets).map _).flatten
  | err => rw [hp] at h; cases h
  | panic => rw [hp] at h; cases h

/-- C62: each manifest is written exactly once, under the name it was read from. -/
theorem C62_names (σ : Sched) (inp : Input) (h : (generate σ inp).status = .ok ()) :
    ((generate σ inp).writes.map (·.file)).Perm (inp.sets.flatMap fun set => set.crds.map (·.file)) := by
  obtain ⟨out, h1, h2⟩ := C62_written σ inp h
  refine (h2.map _).trans ?_
  rw [List.map_flatMap]
  refine List.Perm.of_eq ?_
  have : ∀ l : List CrdSet, (∀ set ∈ l, Written inp set (out set)) → l.flatMap (fun set => (out set).map (·.file)) = l.flatMap fun set => set.crds.map (·.file) := by
    intro l
    induction l with
    | nil => intro _; rfl
    | cons set l ih =>
      intro hl
      rw [List.flatMap_cons, List.flatMap_cons, ih fun x hx => hl x (List.mem_cons_of_mem _ hx)]
      congr 1
      obtain ⟨hn, hs⟩ := hl set (List.mem_cons_self ..)
      by_cases ho : ∃ ver schema, Offers inp set ver schema
      · obtain ⟨s, _, _, h3, _⟩ := hs ho
        exact h3
      · rw [hn fun ver schema h => ho ⟨ver, schema, h⟩]
  exact this inp.sets h1

/-- C62: a run that fails writes nothing. -/
theorem C62_nothing (σ : Sched) (inp : Input) (h : (generate σ inp).status ≠ .ok ()) : (generate σ inp).writes = [] := by
  unfold generate at h ⊢
  split
  · rename_i files hp
    rw [hp] at h
    exact absurd rfl h
  · rfl
  · rfl

theorem new_one {σ τ : Sched} {inp : Input} (h1 : OnePackage inp) (set : CrdSet) (ver : String) :
    GoMap.get (newSchemata σ inp set) ver = GoMap.get (newSchemata τ inp set) ver := by
  cases hs : GoMap.get (newSchemata σ inp set) ver with
  | none =>
    cases ht : GoMap.get (newSchemata τ inp set) ver with
    | none => rfl
    | some n => exact absurd hs (new_complete (new_sound ht))
  | some n =>
    have ho := new_sound hs
    cases ht : GoMap.get (newSchemata τ inp set) ver with
    | none => exact absurd ht (new_complete ho)
    | some n' =>
      obtain ⟨_, _, gv, hg, e1, e2, rfl⟩ := ho
      obtain ⟨_, _, gv', hg', e1', e2', rfl⟩ := new_sound ht
      rw [h1 gv hg gv' hg' (e1.trans e1'.symm) (e2.trans e2'.symm)]

theorem patchSet_one {σ τ : Sched} {inp : Input} (h1 : OnePackage inp) (set : CrdSet) : patchSet σ inp set = patchSet τ inp set := by
  unfold patchSet
  simp only
  have he : (newSchemata σ inp set = []) = (newSchemata τ inp set = []) := propext (new_empty.trans new_empty.symm)
  by_cases h : newSchemata σ inp set = []
  · rw [if_pos h, if_pos (he ▸ h)]
  · rw [if_neg h, if_neg (he ▸ h)]
    congr 1
    funext ver
    exact new_one h1 set ver

/-- C62, when no two packages are the same version of a group: whether a run succeeds, and what it writes up to the order of the writes, does not depend on the order in which Go walks through maps.
Missing: two packages for one group-version (`C62_violated`). -/
theorem C62_order_partial (σ τ : Sched) (inp : Input) (h1 : OnePackage inp) (h : (generate σ inp).status = .ok ()) :
    (generate τ inp).status = .ok () ∧ (generate τ inp).writes.Perm (generate σ inp).writes := by
  unfold generate at h ⊢
  have he : patchSet τ inp = patchSet σ inp := funext fun set => patchSet_one h1 set
  cases hp : patchSets σ inp (σ.order 1 inp.sets) with
  | ok files =>
    obtain ⟨h2, rfl⟩ := patchSets_ok.1 hp
    have ht : patchSets τ inp (τ.order 1 inp.sets) = .ok ((τ.order 1 inp.sets).filterMap fun set => (patchSet τ inp set).val) := by
      refine patchSets_ok.2 ⟨fun set hs => ?_, rfl⟩
      rw [he]
      exact h2 set ((σ.mem_order _ _ _).2 ((τ.mem_order _ _ _).1 hs))
    rw [ht]
    refine ⟨rfl, ?_⟩
    simp only
    refine ((τ.perm 2 _).flatten).trans (List.Perm.trans ?_ ((σ.perm 2 _).flatten).symm)
    rw [he]
    exact (((τ.perm 1 inp.sets).trans (σ.perm 1 inp.sets).symm).filterMap _).flatten
  | err => rw [hp] at h; cases h
  | panic => rw [hp] at h; cases h

/-! ## Cases -/

/-- Two packages, both version v1 of the group, and a manifest. -/
def twoPackages : Input where
  gvs := [⟨"a", "example.com", "v1"⟩, ⟨"b", "example.com", "v1"⟩]
  kinds := [("example.com", "Foo")]
  schema := fun pkg _ => map [("type", str pkg)]
  sets := [⟨"example.com", "Foo", ["v1", "v2"], [⟨"foo.yaml", manifest⟩]⟩, ⟨"example.com", "Bar", ["v1"], [⟨"bar.yaml", str "not patched"⟩]⟩]

/-- The same with one of them. -/
def onePackage : Input := { twoPackages with gvs := [⟨"a", "example.com", "v1"⟩] }

example : OnePackage onePackage := by
  intro gv hg gv' hg' _ _
  simp only [onePackage, List.mem_singleton] at hg hg'
  rw [hg, hg']

example : (generate .fifo onePackage).status = .ok () ∧ (generate .fifo onePackage).writes.map (·.file) = ["foo.yaml", "bar.yaml"] := by decide +kernel

/-- The description of the schema of version v1 in the first file. -/
def typeOfV1 (r : Run) : Option String :=
  (r.writes.head?).bind fun f => (getNode f.doc ["spec", "versions"]).bind fun v => v.bind fun v => v.content.head?.bind fun v =>
    (getNode v ["schema", "openAPIV3Schema", "type"]).bind fun t => t.map (·.value)

/-- C62 is violated by two packages for one group-version: which schema is written depends on the order of a map. -/
theorem C62_violated : typeOfV1 (generate .fifo twoPackages) = some "b" ∧ typeOfV1 (generate (.revAt 0) twoPackages) = some "a" := by decide +kernel

end Verif.Patch

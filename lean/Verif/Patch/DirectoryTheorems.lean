import Verif.Patch.Directory
import Verif.Patch.GenerateTheorems
/-!
# C75: schema patching from the directory to the files
-/
namespace Verif.Patch

namespace Spec

variable {τ : Type}

/-- A file that schema patching has to look at: not a directory, and called `*.yaml`. -/
def Candidate (e : Entry) : Prop := e.isDir = false ∧ ∃ stem, e.name.toList = stem ++ ".yaml".toList

/-- A manifest of a CRD: a candidate whose content says that it is a CRD of version v1, and that the libraries understand. -/
def Manifest (L : Library τ) (e : Entry) (c : CrdIsh) (doc : Node) : Prop :=
  Candidate e ∧ ∃ raw, L.read e.name = some raw ∧ L.typeMeta raw = some ("apiextensions.k8s.io/v1", "CustomResourceDefinition") ∧
    L.crdIsh raw = some c ∧ L.tree raw = some doc

/-- A CRD of a version that is not supported. -/
def Unsupported (L : Library τ) (e : Entry) : Prop :=
  Candidate e ∧ ∃ raw v, L.read e.name = some raw ∧ L.typeMeta raw = some (v, "CustomResourceDefinition") ∧ v ≠ "" ∧ v ≠ "apiextensions.k8s.io/v1"

/-- A candidate that cannot be read. -/
def Unreadable (L : Library τ) (e : Entry) : Prop := Candidate e ∧ L.read e.name = none

/-- Types and manifests together offer a schema for a version of a kind: the types have the kind, one package is that version of the group, and some manifest of the kind has the version. -/
def Provides (L : Library τ) (t : Types) (entries : List Entry) (group kind ver : String) (schema : Node) : Prop :=
  (group, kind) ∈ t.kinds ∧ (∃ e ∈ entries, ∃ c doc, Manifest L e c doc ∧ c.group = group ∧ c.kind = kind ∧ ver ∈ c.versions) ∧
  ∃ gv ∈ t.gvs, gv.group = group ∧ gv.version = ver ∧ schema = t.schema gv.pkg kind

end Spec
open Spec

variable {τ : Type}

theorem ext_yaml (name : List Char) : ext name = ".yaml".toList ↔ ∃ stem, name = stem ++ ".yaml".toList := by
  have hy : ".yaml".toList = '.' :: "yaml".toList := by decide +kernel
  have hd : '.' ∉ "yaml".toList := by decide +kernel
  rw [hy]
  constructor
  · intro h
    unfold ext at h
    split at h
    · rename_i hm
      have h := List.cons.inj h |>.2
      have hr : name.reverse.takeWhile (· ≠ '.') = "yaml".toList.reverse := by rw [← h, List.reverse_reverse]
      have hsplit := List.takeWhile_append_dropWhile (p := (· ≠ '.')) (l := name.reverse)
      rw [hr] at hsplit
      cases hdw : name.reverse.dropWhile (· ≠ '.') with
      | nil =>
        rw [hdw, List.append_nil] at hsplit
        have : '.' ∈ name.reverse := List.mem_reverse.2 hm
        rw [← hsplit] at this
        exact absurd (List.mem_reverse.1 this) hd
      | cons x xs =>
        rw [hdw] at hsplit
        have hx : x = '.' := by
          have := List.head?_dropWhile_not (p := (· ≠ '.')) name.reverse
          rw [hdw] at this
          simpa using this
        refine ⟨xs.reverse, ?_⟩
        have := congrArg List.reverse hsplit
        rw [List.reverse_reverse] at this
        rw [← this, hx]
        simp
    · cases h
  · rintro ⟨stem, rfl⟩
    unfold ext
    rw [if_pos (by simp)]
    congr 1
    rw [List.reverse_append, List.reverse_cons, List.append_assoc, List.takeWhile_append_of_pos, List.singleton_append, List.takeWhile_cons_of_neg (by simp), List.append_nil, List.reverse_reverse]
    intro a ha
    have := List.mem_reverse.1 ha
    simp only [ne_eq, decide_not, Bool.not_eq_eq_eq_not, Bool.not_true, decide_eq_false_iff_not]
    rintro rfl
    exact hd this

/-! ## What is found -/

/-- What the loop does with an entry. -/
inductive Look
  | ignored
  | failed
  | found (c : CrdIsh) (doc : Node)

def look (L : Library τ) (e : Entry) : Look :=
  if e.isDir ∨ ext e.name.toList ≠ ".yaml".toList then .ignored
  else match L.read e.name with
    | none => .failed
    | some raw =>
      match L.typeMeta raw with
      | none => .ignored
      | some (apiVersion, kind) =>
        if apiVersion = "" ∨ kind ≠ "CustomResourceDefinition" then .ignored
        else if !isSupported apiVersion then .failed
        else match L.crdIsh raw with
          | none => .ignored
          | some c =>
            match L.tree raw with
            | none => .ignored
            | some t => .found c t

theorem readLoop_cons (L : Library τ) (e : Entry) (rest : List Entry) (res : Sets) : readLoop L (e :: rest) res =
    match look L e with
    | .ignored => readLoop L rest res
    | .failed => none
    | .found c t => readLoop L rest (store res c { file := e.name, doc := t }) := by
  rw [readLoop]
  unfold look
  by_cases h1 : e.isDir ∨ ext e.name.toList ≠ ".yaml".toList
  · rw [if_pos h1, if_pos h1]
  · rw [if_neg h1, if_neg h1]
    cases L.read e.name with
    | none => rfl
    | some raw =>
      dsimp only
      cases L.typeMeta raw with
      | none => rfl
      | some x =>
        obtain ⟨v, k⟩ := x
        dsimp only
        by_cases h2 : v = "" ∨ k ≠ "CustomResourceDefinition"
        · rw [if_pos h2, if_pos h2]
        · rw [if_neg h2, if_neg h2]
          cases isSupported v with
          | false => rfl
          | true =>
            simp only [Bool.not_true, Bool.false_eq_true, if_false]
            cases L.crdIsh raw with
            | none => rfl
            | some c =>
              dsimp only
              cases L.tree raw with
              | none => rfl
              | some t => rfl

theorem candidate_iff (e : Entry) : Candidate e ↔ ¬ (e.isDir ∨ ext e.name.toList ≠ ".yaml".toList) := by
  unfold Candidate
  rw [← ext_yaml]
  simp

theorem isSupported_iff (v : String) : isSupported v = true ↔ v = "apiextensions.k8s.io/v1" := by simp [isSupported]

theorem look_found {L : Library τ} {e : Entry} {c : CrdIsh} {t : Node} : look L e = .found c t ↔ Manifest L e c t := by
  unfold look Manifest
  rw [candidate_iff]
  by_cases h1 : e.isDir ∨ ext e.name.toList ≠ ".yaml".toList
  · rw [if_pos h1]
    simp only [h1, not_true_eq_false, false_and, reduceCtorEq, or_false]
  · rw [if_neg h1]
    cases hr : L.read e.name with
    | none => simp
    | some raw =>
      simp only [h1, not_false_eq_true, true_and, Option.some.injEq]
      cases ht : L.typeMeta raw with
      | none => simp [ht]
      | some x =>
        obtain ⟨v, k⟩ := x
        dsimp only
        by_cases h2 : v = "" ∨ k ≠ "CustomResourceDefinition"
        · rw [if_pos h2]
          simp only [reduceCtorEq, false_iff]
          rintro ⟨raw', rfl, h, -⟩
          rw [ht] at h
          cases h
          simp at h2
        · rw [if_neg h2]
          cases hs : isSupported v with
          | false =>
            simp only [Bool.not_false, if_true, reduceCtorEq, false_iff]
            rintro ⟨raw', rfl, h, -⟩
            rw [ht] at h
            cases h
            rw [(isSupported_iff _).2 rfl] at hs
            cases hs
          | true =>
            have hv := (isSupported_iff _).1 hs
            have hk : k = "CustomResourceDefinition" := Decidable.byContradiction fun h => h2 (Or.inr h)
            subst hv hk
            simp only [Bool.not_true, Bool.false_eq_true, if_false]
            cases hc : L.crdIsh raw with
            | none =>
              simp only [reduceCtorEq, false_iff]
              rintro ⟨raw', rfl, -, h, -⟩
              rw [hc] at h; cases h
            | some c' =>
              dsimp only
              cases hn : L.tree raw with
              | none =>
                simp only [reduceCtorEq, false_iff]
                rintro ⟨raw', rfl, -, -, h⟩
                rw [hn] at h; cases h
              | some t' =>
                simp only [Look.found.injEq]
                constructor
                · rintro ⟨rfl, rfl⟩
                  exact ⟨raw, rfl, ht, hc, hn⟩
                · rintro ⟨raw', rfl, -, h3, h4⟩
                  rw [hc] at h3; rw [hn] at h4
                  cases h3; cases h4
                  exact ⟨rfl, rfl⟩

theorem look_failed {L : Library τ} {e : Entry} : look L e = .failed ↔ Unsupported L e ∨ Unreadable L e := by
  unfold look Unsupported Unreadable
  rw [candidate_iff]
  by_cases h1 : e.isDir ∨ ext e.name.toList ≠ ".yaml".toList
  · rw [if_pos h1]
    simp only [h1, not_true_eq_false, false_and, reduceCtorEq, or_false]
  · rw [if_neg h1]
    cases hr : L.read e.name with
    | none => simp only [h1, not_false_eq_true, and_self, or_true]
    | some raw =>
      simp only [h1, not_false_eq_true, true_and, Option.some.injEq, reduceCtorEq, or_false]
      cases ht : L.typeMeta raw with
      | none =>
        simp only [reduceCtorEq, false_iff]
        rintro ⟨raw', v, rfl, h, -⟩
        rw [ht] at h; cases h
      | some x =>
        obtain ⟨v, k⟩ := x
        dsimp only
        by_cases h2 : v = "" ∨ k ≠ "CustomResourceDefinition"
        · rw [if_pos h2]
          simp only [reduceCtorEq, false_iff]
          rintro ⟨raw', v', rfl, h, h3, -⟩
          rw [ht] at h
          cases h
          rcases h2 with h2 | h2
          · exact h3 h2
          · exact h2 rfl
        · rw [if_neg h2]
          have hv : v ≠ "" := fun h => h2 (Or.inl h)
          have hk : k = "CustomResourceDefinition" := Decidable.byContradiction fun h => h2 (Or.inr h)
          subst hk
          cases hs : isSupported v with
          | false =>
            simp only [Bool.not_false, if_true, true_iff]
            refine ⟨raw, v, rfl, ht, hv, fun h => ?_⟩
            rw [(isSupported_iff _).2 h] at hs
            cases hs
          | true =>
            have hv := (isSupported_iff _).1 hs
            simp only [Bool.not_true, Bool.false_eq_true, if_false]
            have : ¬ ∃ raw', ∃ v', raw = raw' ∧ L.typeMeta raw' = some (v', "CustomResourceDefinition") ∧ v' ≠ "" ∧ v' ≠ "apiextensions.k8s.io/v1" := by
              rintro ⟨raw', v', rfl, h, -, h3⟩
              rw [ht] at h
              cases h
              exact h3 hv
            simp only [this, iff_false]
            cases L.crdIsh raw with
            | none => simp
            | some c =>
              dsimp only
              cases L.tree raw <;> simp

/-- The manifests of the directory, in its order. -/
def manifests (L : Library τ) (entries : List Entry) : List (CrdIsh × CrdFile) :=
  entries.filterMap fun e => match look L e with
    | .found c t => some (c, { file := e.name, doc := t })
    | _ => none

theorem mem_manifests {L : Library τ} {entries : List Entry} {c : CrdIsh} {f : CrdFile} :
    (c, f) ∈ manifests L entries ↔ ∃ e ∈ entries, e.name = f.file ∧ Manifest L e c f.doc := by
  unfold manifests
  rw [List.mem_filterMap]
  constructor
  · rintro ⟨e, he, h⟩
    cases hl : look L e with
    | ignored => rw [hl] at h; cases h
    | failed => rw [hl] at h; cases h
    | found c' t =>
      rw [hl] at h
      cases h
      exact ⟨e, he, rfl, look_found.1 hl⟩
  · rintro ⟨e, he, hn, hm⟩
    refine ⟨e, he, ?_⟩
    rw [look_found.2 hm, hn]

/-- The sets of manifests. -/
def collectSets (l : List (CrdIsh × CrdFile)) (res : Sets) : Sets := l.foldl (fun r x => store r x.1 x.2) res

theorem readLoop_eq (L : Library τ) : ∀ (entries : List Entry) (res : Sets),
    ((∃ e ∈ entries, look L e = .failed) → readLoop L entries res = none) ∧
    ((∀ e ∈ entries, look L e ≠ .failed) → readLoop L entries res = some (collectSets (manifests L entries) res))
  | [], res => by simp [readLoop, manifests, collectSets]
  | e :: rest, res => by
    rw [readLoop_cons]
    have ih := readLoop_eq L rest
    constructor
    · rintro ⟨e', he, hf⟩
      cases hl : look L e with
      | failed => rfl
      | ignored =>
        rcases List.mem_cons.1 he with rfl | he
        · rw [hf] at hl; cases hl
        · exact (ih res).1 ⟨e', he, hf⟩
      | found c t =>
        rcases List.mem_cons.1 he with rfl | he
        · rw [hf] at hl; cases hl
        · exact (ih _).1 ⟨e', he, hf⟩
    · intro h
      have h' : ∀ e ∈ rest, look L e ≠ .failed := fun x hx => h x (List.mem_cons_of_mem _ hx)
      cases hl : look L e with
      | failed => exact absurd hl (h e (List.mem_cons_self ..))
      | ignored =>
        simp only [manifests, List.filterMap_cons, hl]
        exact (ih res).2 h'
      | found c t =>
        simp only [manifests, List.filterMap_cons, hl, collectSets, List.foldl_cons]
        exact (ih _).2 h'

/-- The manifests of a group and kind. -/
def ofKind (l : List (CrdIsh × CrdFile)) (k : String × String) : List (CrdIsh × CrdFile) := l.filter fun x => (x.1.group, x.1.kind) = k

/-- The set for a group and kind. -/
def setFor (l : List (CrdIsh × CrdFile)) (k : String × String) : CrdSet :=
  { group := k.1, kind := k.2, versions := (ofKind l k).flatMap (·.1.versions), crds := (ofKind l k).map (·.2) }

theorem collectSets_spec (l : List (CrdIsh × CrdFile)) : GoMap.WF (collectSets l []) ∧
    ∀ k, GoMap.get (collectSets l []) k = if ofKind l k = [] then none else some (setFor l k) := by
  induction l using GoMap.revInduction with
  | nil => exact ⟨by simp [GoMap.WF, collectSets, GoMap.keys], fun k => by simp [collectSets, ofKind, GoMap.get]⟩
  | concat l x ih =>
    obtain ⟨hw, hg⟩ := ih
    have hc : collectSets (l ++ [x]) [] = store (collectSets l []) x.1 x.2 := by simp [collectSets]
    rw [hc]
    unfold store
    refine ⟨GoMap.put_wf hw _ _, fun k => ?_⟩
    rw [GoMap.get_put, hg (x.1.group, x.1.kind)]
    by_cases hk : k = (x.1.group, x.1.kind)
    · subst hk
      have ho : ofKind (l ++ [x]) (x.1.group, x.1.kind) = ofKind l (x.1.group, x.1.kind) ++ [x] := by simp [ofKind]
      have hne : ofKind (l ++ [x]) (x.1.group, x.1.kind) ≠ [] := by rw [ho]; simp
      rw [if_neg hne]
      simp only [if_true]
      congr 1
      unfold setFor
      rw [ho]
      by_cases he : ofKind l (x.1.group, x.1.kind) = []
      · simp [he]
      · simp [he]
    · have ho : ofKind (l ++ [x]) k = ofKind l k := by
        unfold ofKind
        rw [List.filter_append]
        simp [Ne.symm hk]
      rw [ho, hg k]
      have : setFor (l ++ [x]) k = setFor l k := by unfold setFor; rw [ho]
      rw [this]
      first
        | rw [if_neg hk]
        | rw [if_neg (Ne.symm hk)]

/-- **C75 (what is reported).** Reading the manifests fails exactly if the directory cannot be read, or one of its YAML files cannot be read, or one is a CRD of another version than v1. -/
theorem C75_reported (L : Library τ) (dir : Option (List Entry)) :
    crdsFromDirectory L dir = none ↔ dir = none ∨ ∃ entries, dir = some entries ∧ ∃ e ∈ entries, Unsupported L e ∨ Unreadable L e := by
  cases dir with
  | none => simp [crdsFromDirectory]
  | some entries =>
    simp only [crdsFromDirectory, reduceCtorEq, Option.some.injEq, false_or, exists_eq_left']
    by_cases h : ∃ e ∈ entries, look L e = .failed
    · rw [(readLoop_eq L entries []).1 h]
      obtain ⟨e, he, hf⟩ := h
      simpa using ⟨e, he, look_failed.1 hf⟩
    · rw [(readLoop_eq L entries []).2 fun e he hf => h ⟨e, he, hf⟩]
      simp only [reduceCtorEq, false_iff]
      rintro ⟨e, he, hf⟩
      exact h ⟨e, he, look_failed.2 hf⟩

/-- **C75 (nothing on errors).** If the manifests cannot be read, or one of them cannot be patched, then nothing is written. -/
theorem C75_nothing (L : Library τ) (σ : Sched) (t : Types) (dir : Option (List Entry)) (h : (schemapatch L σ t dir).status ≠ .ok ()) :
    (schemapatch L σ t dir).writes = [] := by
  unfold schemapatch at h ⊢
  split
  · rfl
  · rename_i sets hs
    rw [hs] at h
    exact C62_nothing σ _ h

theorem mem_ofKind {l : List (CrdIsh × CrdFile)} {k : String × String} {x : CrdIsh × CrdFile} : x ∈ ofKind l k ↔ x ∈ l ∧ (x.1.group, x.1.kind) = k := by
  simp [ofKind]

theorem mem_sets {l : List (CrdIsh × CrdFile)} {set : CrdSet} (h : set ∈ (collectSets l []).map (·.2)) : ∃ k, set = setFor l k ∧ ofKind l k ≠ [] := by
  obtain ⟨⟨k, set'⟩, hm, rfl⟩ := List.mem_map.1 h
  obtain ⟨hw, hg⟩ := collectSets_spec l
  have := (GoMap.get_eq_some hw).2 hm
  rw [hg] at this
  split at this
  · cases this
  · rename_i hne
    exact ⟨k, (Option.some.inj this).symm, hne⟩

theorem offers_iff {L : Library τ} {t : Types} {entries : List Entry} {sets : List CrdSet} {k : String × String} {ver : String} {sch : Node} :
    Offers { gvs := t.gvs, kinds := t.kinds, schema := t.schema, sets := sets } (setFor (manifests L entries) k) ver sch ↔
      Provides L t entries k.1 k.2 ver sch := by
  unfold Offers Provides setFor
  simp only [List.mem_flatMap]
  constructor
  · rintro ⟨h1, ⟨⟨c, f⟩, hx, hv⟩, h3⟩
    obtain ⟨hx, hk⟩ := mem_ofKind.1 hx
    obtain ⟨e, he, -, hm⟩ := mem_manifests.1 hx
    cases hk
    exact ⟨h1, ⟨e, he, c, _, hm, rfl, rfl, hv⟩, h3⟩
  · rintro ⟨h1, ⟨e, he, c, doc, hm, hg, hk, hv⟩, h3⟩
    refine ⟨h1, ⟨(c, { file := e.name, doc := doc }), mem_ofKind.2 ⟨mem_manifests.2 ⟨e, he, rfl, hm⟩, ?_⟩, hv⟩, h3⟩
    simp [hg, hk]

/-- **C75 (what is written).** Every file that is written is a manifest of the directory, under its own name: as it was if types and manifests provide no schema for its kind; and otherwise patched with schemas that they provide, one for each version for which there is one, and nothing else of it changed. -/
theorem C75_written (L : Library τ) (σ : Sched) (t : Types) (entries : List Entry) (h : (schemapatch L σ t (some entries)).status = .ok ())
    (hp : ∀ e ∈ entries, ∀ c doc, Manifest L e c doc → Parsed doc) :
    ∀ w ∈ (schemapatch L σ t (some entries)).writes, ∃ e ∈ entries, ∃ c doc, e.name = w.file ∧ Manifest L e c doc ∧
      ((∀ ver sch, ¬ Provides L t entries c.group c.kind ver sch) → w.doc = doc) ∧
      ((∃ ver sch, Provides L t entries c.group c.kind ver sch) → ∃ s : String → Option Node,
        (∀ ver sch, s ver = some sch → Provides L t entries c.group c.kind ver sch) ∧
        (∀ ver sch, Provides L t entries c.group c.kind ver sch → s ver ≠ none) ∧
        PatchedDocument s doc w.doc) := by
  have hno : ∀ e ∈ entries, look L e ≠ .failed := by
    intro e he hf
    have : crdsFromDirectory L (some entries) = none := (C75_reported L _).2 (Or.inr ⟨entries, rfl, e, he, look_failed.1 hf⟩)
    unfold schemapatch at h
    rw [this] at h
    cases h
  have hs : crdsFromDirectory L (some entries) = some (collectSets (manifests L entries) []) := (readLoop_eq L entries []).2 hno
  unfold schemapatch at h ⊢
  rw [hs] at h ⊢
  dsimp only at h ⊢
  obtain ⟨out, h1, h2⟩ := C62_written σ _ h
  intro w hw
  obtain ⟨set, hset, hw⟩ := List.mem_flatMap.1 (h2.mem_iff.1 hw)
  obtain ⟨hno, hyes⟩ := h1 set hset
  obtain ⟨k, rfl, hne⟩ := mem_sets hset
  by_cases ho : ∃ ver sch, Provides L t entries k.1 k.2 ver sch
  · obtain ⟨ver, sch, hpr⟩ := ho
    obtain ⟨s, s1, s2, s3, s4⟩ := hyes ⟨ver, sch, offers_iff.2 hpr⟩
    obtain ⟨i, hi⟩ := List.getElem?_of_mem hw
    have hf : ((setFor (manifests L entries) k).crds.map (·.file))[i]? = some w.file := by rw [← s3, List.getElem?_map, hi]; rfl
    have hd : ((setFor (manifests L entries) k).crds.map (fun f => patch s f.doc))[i]? = some (.ok w.doc) := by rw [s4, List.getElem?_map, hi]; rfl
    rw [List.getElem?_map] at hf hd
    cases hc : (setFor (manifests L entries) k).crds[i]? with
    | none => rw [hc] at hf; cases hf
    | some f =>
      rw [hc] at hf hd
      simp only [Option.map_some, Option.some.injEq] at hf hd
      obtain ⟨⟨c, f'⟩, hx, rfl⟩ := List.mem_map.1 (List.mem_of_getElem? hc)
      obtain ⟨hx, hk⟩ := mem_ofKind.1 hx
      obtain ⟨e, he, hn, hm⟩ := mem_manifests.1 hx
      subst hk
      refine ⟨e, he, c, f'.doc, hn.trans hf, hm, fun hn => absurd hpr (hn ver sch), fun _ => ⟨s, fun v x hv => offers_iff.1 (s1 v x hv), fun v x hv => s2 v x (offers_iff.2 hv), ?_⟩⟩
      exact C39_frame s _ _ (hp e he c _ hm) hd
  · have := hno fun ver sch hof => ho ⟨ver, sch, offers_iff.1 hof⟩
    rw [this] at hw
    obtain ⟨⟨c, f'⟩, hx, rfl⟩ := List.mem_map.1 hw
    obtain ⟨hx, hk⟩ := mem_ofKind.1 hx
    obtain ⟨e, he, hn, hm⟩ := mem_manifests.1 hx
    subst hk
    exact ⟨e, he, c, f'.doc, hn, hm, fun _ => rfl, fun h => absurd h ho⟩

theorem flatMap_ofKind_perm : ∀ (ks : List (String × String)) (l : List (CrdIsh × CrdFile)), ks.Nodup → (∀ x ∈ l, (x.1.group, x.1.kind) ∈ ks) →
    (ks.flatMap fun k => ofKind l k).Perm l
  | [], l, _, h => by
    cases l with
    | nil => exact .refl _
    | cons x l => exact absurd (h x (List.mem_cons_self ..)) (by simp)
  | k :: ks, l, hn, h => by
    rw [List.flatMap_cons]
    have hn' := List.nodup_cons.1 hn
    have key : (ks.flatMap fun k => ofKind l k) = ks.flatMap fun k' => ofKind (l.filter fun x => ¬ (x.1.group, x.1.kind) = k) k' := by
      have : ∀ ks' : List (String × String), k ∉ ks' → (ks'.flatMap fun k => ofKind l k) = ks'.flatMap fun k' => ofKind (l.filter fun x => ¬ (x.1.group, x.1.kind) = k) k' := by
        intro ks' hk
        induction ks' with
        | nil => rfl
        | cons k' ks' ih =>
          rw [List.flatMap_cons, List.flatMap_cons, ih fun hx => hk (List.mem_cons_of_mem _ hx)]
          congr 1
          unfold ofKind
          rw [List.filter_filter]
          apply List.filter_congr
          intro x _
          have : k' ≠ k := fun e => hk (e ▸ List.mem_cons_self ..)
          by_cases hx : (x.1.group, x.1.kind) = k'
          · rw [hx]; simp [this]
          · simp [hx]
      exact this ks hn'.1
    rw [key]
    have ih := flatMap_ofKind_perm ks (l.filter fun x => ¬ (x.1.group, x.1.kind) = k) hn'.2 (by
      intro x hx
      obtain ⟨h1, h2⟩ := List.mem_filter.1 hx
      rcases List.mem_cons.1 (h x h1) with h3 | h3
      · simp [h3] at h2
      · exact h3)
    refine (List.Perm.append_left _ ih).trans ?_
    have := List.filter_append_perm (fun x : CrdIsh × CrdFile => decide ((x.1.group, x.1.kind) = k)) l
    unfold ofKind
    simpa using this

theorem sets_files (l : List (CrdIsh × CrdFile)) : (((collectSets l []).map (·.2)).flatMap (·.crds)).Perm (l.map (·.2)) := by
  obtain ⟨hw, hg⟩ := collectSets_spec l
  have h1 : ∀ p ∈ collectSets l [], p.2.crds = (ofKind l p.1).map (·.2) := by
    rintro ⟨k, set⟩ hm
    have := (GoMap.get_eq_some hw).2 hm
    rw [hg] at this
    split at this
    · cases this
    · cases this; rfl
  have h2 : ((collectSets l []).map (·.2)).flatMap (·.crds) = ((GoMap.keys (collectSets l [])).flatMap fun k => ofKind l k).map (·.2) := by
    rw [List.map_flatMap, GoMap.keys, List.flatMap_map, List.flatMap_map]
    have : ∀ m : Sets, (∀ p ∈ m, p.2.crds = (ofKind l p.1).map (·.2)) → m.flatMap (fun p => p.2.crds) = m.flatMap fun p => (ofKind l p.1).map (·.2) := by
      intro m
      induction m with
      | nil => intro _; rfl
      | cons p m ih =>
        intro h
        rw [List.flatMap_cons, List.flatMap_cons, ih fun x hx => h x (List.mem_cons_of_mem _ hx), h p (List.mem_cons_self ..)]
    exact this _ h1
  rw [h2]
  refine (flatMap_ofKind_perm _ l hw ?_).map _
  intro x hx
  have := hg (x.1.group, x.1.kind)
  rw [if_neg (by intro e; have : x ∈ ofKind l (x.1.group, x.1.kind) := mem_ofKind.2 ⟨hx, rfl⟩; rw [e] at this; cases this)] at this
  exact GoMap.mem_keys.2 ⟨_, (GoMap.get_eq_some hw).1 this⟩

theorem manifest_names (L : Library τ) (entries : List Entry) : List.Sublist ((manifests L entries).map (·.2.file)) (entries.map (·.name)) := by
  induction entries with
  | nil => exact .slnil
  | cons e rest ih =>
    unfold manifests at ih ⊢
    rw [List.filterMap_cons]
    cases look L e with
    | ignored => exact ih.cons _
    | failed => exact ih.cons _
    | found c t => exact ih.cons_cons _

/-- **C75 (each manifest once).** A run that succeeds writes each manifest of the directory, once, and no other file. -/
theorem C75_once (L : Library τ) (σ : Sched) (t : Types) (entries : List Entry) (h : (schemapatch L σ t (some entries)).status = .ok ())
    (hn : (entries.map (·.name)).Nodup) :
    ((schemapatch L σ t (some entries)).writes.map (·.file)).Nodup ∧
    ∀ n, n ∈ (schemapatch L σ t (some entries)).writes.map (·.file) ↔ ∃ e ∈ entries, e.name = n ∧ ∃ c doc, Manifest L e c doc := by
  have hno : ∀ e ∈ entries, look L e ≠ .failed := by
    intro e he hf
    have : crdsFromDirectory L (some entries) = none := (C75_reported L _).2 (Or.inr ⟨entries, rfl, e, he, look_failed.1 hf⟩)
    unfold schemapatch at h
    rw [this] at h
    cases h
  have hs : crdsFromDirectory L (some entries) = some (collectSets (manifests L entries) []) := (readLoop_eq L entries []).2 hno
  unfold schemapatch at h ⊢
  rw [hs] at h ⊢
  dsimp only at h ⊢
  have hperm := C62_names σ _ h
  have h2 : (((collectSets (manifests L entries) []).map (·.2)).flatMap fun set => set.crds.map (·.file)).Perm ((manifests L entries).map (·.2.file)) := by
    have := (sets_files (manifests L entries)).map (·.file)
    rw [List.map_flatMap, List.map_map] at this
    exact this
  have h3 := hperm.trans h2
  refine ⟨h3.nodup_iff.2 (List.Nodup.sublist (manifest_names L entries) hn), fun n => ?_⟩
  rw [h3.mem_iff, List.mem_map]
  constructor
  · rintro ⟨⟨c, f⟩, hx, rfl⟩
    obtain ⟨e, he, hn, hm⟩ := mem_manifests.1 hx
    exact ⟨e, he, hn, c, _, hm⟩
  · rintro ⟨e, he, rfl, c, doc, hm⟩
    exact ⟨(c, { file := e.name, doc := doc }), mem_manifests.2 ⟨e, he, rfl, hm⟩, rfl⟩

/-! ## The files of the directory -/

theorem afterWrites_other : ∀ (ws : List CrdFile) (files : String → Option (List Node)) (n : String), n ∉ ws.map (·.file) → afterWrites files ws n = files n
  | [], _, _, _ => rfl
  | w :: ws, files, n, h => by
    simp only [List.map_cons, List.mem_cons, not_or] at h
    rw [afterWrites, afterWrites_other ws _ n h.2, if_neg h.1]

theorem afterWrites_mem : ∀ (ws : List CrdFile) (files : String → Option (List Node)), (ws.map (·.file)).Nodup → ∀ w ∈ ws, afterWrites files ws w.file = some [w.doc]
  | [], _, _, _, h => by cases h
  | w :: ws, files, hn, w', hw => by
    rw [List.map_cons, List.nodup_cons] at hn
    rw [afterWrites]
    rcases List.mem_cons.1 hw with rfl | hw
    · rw [afterWrites_other ws _ _ hn.1, if_pos rfl]
    · exact afterWrites_mem ws _ hn.2 w' hw

/-- The library on files that are lists of documents: `yaml.Unmarshal` and `kyaml.Unmarshal` read the first document of a text.  `typeMeta` and `crdIsh` are any functions of that document. -/
def firstDocument (files : String → Option (List Node)) (typeMeta : Node → Option (String × String)) (crdIsh : Node → Option CrdIsh) : Library (List Node) where
  read := files
  typeMeta := fun docs => docs.head?.bind typeMeta
  crdIsh := fun docs => docs.head?.bind crdIsh
  tree := fun docs => docs.head?

/-- **C75 (in place).** When the output goes to the directory of the manifests, a file that is no manifest stays as it is, whatever the order of the maps. -/
theorem C75_untouched (files : String → Option (List Node)) (tm : Node → Option (String × String)) (ci : Node → Option CrdIsh) (σ : Sched) (t : Types)
    (entries : List Entry) (hn : (entries.map (·.name)).Nodup) (n : String)
    (hm : ∀ e ∈ entries, e.name = n → ∀ c doc, ¬ Manifest (firstDocument files tm ci) e c doc) :
    afterWrites files (schemapatch (firstDocument files tm ci) σ t (some entries)).writes n = files n := by
  apply afterWrites_other
  by_cases h : (schemapatch (firstDocument files tm ci) σ t (some entries)).status = .ok ()
  · rw [(C75_once _ σ t entries h hn).2]
    rintro ⟨e, he, hne, c, doc, hd⟩
    exact hm e he hne c doc hd
  · rw [C75_nothing _ σ t _ h]
    simp

/-- **C75 (in place, manifests).** A manifest that is the only document of its file is, after the run, the only document of its file: as it was or patched. -/
theorem C75_in_place_partial (files : String → Option (List Node)) (tm : Node → Option (String × String)) (ci : Node → Option CrdIsh) (σ : Sched) (t : Types)
    (entries : List Entry) (hn : (entries.map (·.name)).Nodup) (hp : ∀ n docs, files n = some docs → ∀ d ∈ docs, Parsed d)
    {e : Entry} (he : e ∈ entries) {c : CrdIsh} {doc : Node} (hm : Manifest (firstDocument files tm ci) e c doc) (hone : files e.name = some [doc]) :
    ∃ doc', afterWrites files (schemapatch (firstDocument files tm ci) σ t (some entries)).writes e.name = some [doc'] ∧
      (doc' = doc ∨ ∃ s, PatchedDocument s doc doc') := by
  have hpd : ∀ e ∈ entries, ∀ c doc, Manifest (firstDocument files tm ci) e c doc → Parsed doc := by
    rintro e - c doc ⟨-, raw, h1, -, -, h4⟩
    exact hp _ raw h1 doc (List.mem_of_mem_head? (by simpa [firstDocument] using h4))
  by_cases h : (schemapatch (firstDocument files tm ci) σ t (some entries)).status = .ok ()
  · have ho := C75_once _ σ t entries h hn
    have hmem := (ho.2 e.name).2 ⟨e, he, rfl, c, doc, hm⟩
    obtain ⟨w, hw, hwn⟩ := List.mem_map.1 hmem
    refine ⟨w.doc, ?_, ?_⟩
    · rw [← hwn]
      exact afterWrites_mem _ files ho.1 w hw
    · obtain ⟨e', he', c', doc', hen, hm', hsame, hdiff⟩ := C75_written _ σ t entries h hpd w hw
      have : doc' = doc := by
        obtain ⟨-, raw, h1, -, -, h4⟩ := hm
        obtain ⟨-, raw', h1', -, -, h4'⟩ := hm'
        rw [hen.trans hwn] at h1'
        have h1 : files e.name = some raw := h1
        have h1' : files e.name = some raw' := h1'
        rw [h1] at h1'
        cases h1'
        rw [h4] at h4'
        exact (Option.some.inj h4').symm
      subst this
      by_cases hpr : ∃ ver sch, Provides (firstDocument files tm ci) t entries c'.group c'.kind ver sch
      · obtain ⟨s, -, -, hs⟩ := hdiff hpr
        exact Or.inr ⟨s, hs⟩
      · exact Or.inl (hsame fun ver sch hx => hpr ⟨ver, sch, hx⟩)
  · rw [C75_nothing _ σ t _ h]
    exact ⟨doc, hone, Or.inl rfl⟩

/-! ## Cases -/

namespace DirExample

/-- The text at a path of a document. -/
def textAt (path : List String) (d : Node) : Option String := (getNode d path).bind fun v => v.map (·.value)

/-- API version and kind of a document. -/
def metaOf (d : Node) : Option (String × String) :=
  match d with
  | .mk .document _ [_] => some ((textAt ["apiVersion"] d).getD "", (textAt ["kind"] d).getD "")
  | _ => none

/-- Group, kind and versions of a CRD. -/
def crdOf (d : Node) : Option CrdIsh :=
  some { group := (textAt ["spec", "group"] d).getD "", kind := (textAt ["spec", "names", "kind"] d).getD "",
         versions := match getNode d ["spec", "versions"] with
           | some (some v) => v.content.filterMap fun x => textAt ["name"] x
           | _ => [] }

/-- A CRD with one version. -/
def crdDoc (kind : String) : Node := .mk .document {} [map [
  ("apiVersion", str "apiextensions.k8s.io/v1"), ("kind", str "CustomResourceDefinition"),
  ("spec", map [("group", str "example.com"), ("names", map [("kind", str kind)]), ("versions", seq [map [("name", str "v1")]])])]]

/-- A file with two CRDs, a file that is no CRD, and the directory of both. -/
def files : String → Option (List Node)
  | "crds.yaml" => some [crdDoc "Foo", crdDoc "Bar"]
  | "foo.yaml" => some [crdDoc "Foo"]
  | "role.yaml" => some [.mk .document {} [map [("apiVersion", str "v1"), ("kind", str "Role")]]]
  | _ => none

def lib : Library (List Node) := firstDocument files metaOf crdOf

def types : Types where
  gvs := [⟨"p", "example.com", "v1"⟩]
  kinds := [("example.com", "Foo"), ("example.com", "Bar")]
  schema := fun _ k => map [("type", str k)]

/-- **C75 violated (documents).** A file with two manifests has only the first after the run, which reports success: the other CRD is lost. -/
theorem C75_violated_documents :
    (schemapatch lib .fifo types (some [⟨"crds.yaml", false⟩])).status = .ok () ∧
    (files "crds.yaml").map (·.map fun d => textAt ["spec", "names", "kind"] d) = some [some "Foo", some "Bar"] ∧
    (afterWrites files (schemapatch lib .fifo types (some [⟨"crds.yaml", false⟩])).writes "crds.yaml").map (·.map fun d => textAt ["spec", "names", "kind"] d) = some [some "Foo"] := by
  decide +kernel

/-- **C75 violated (silence).** A CRD that is not understood is left out, and the run reports success. -/
theorem C75_violated_silent (L : Library τ) (σ : Sched) (t : Types) (e : Entry) (raw : τ) (h1 : L.read e.name = some raw) (h2 : L.typeMeta raw ≠ none)
    (h2' : ∀ x, L.typeMeta raw = some x → x = ("apiextensions.k8s.io/v1", "CustomResourceDefinition")) (h3 : L.crdIsh raw = none) :
    (schemapatch L σ t (some [e])).status = .ok () ∧ (schemapatch L σ t (some [e])).writes = [] := by
  have hl : look L e ≠ .failed := by
    intro h
    rcases look_failed.1 h with ⟨-, raw', v, hr, hm, -, hv⟩ | ⟨-, hr⟩
    · rw [h1] at hr
      cases hr
      have := h2' _ hm
      cases this
      exact hv rfl
    · rw [h1] at hr; cases hr
  have hm : manifests L [e] = [] := by
    cases hx : manifests L [e] with
    | nil => rfl
    | cons x xs =>
      obtain ⟨c, f⟩ := x
      have : (c, f) ∈ manifests L [e] := by rw [hx]; exact List.mem_cons_self ..
      obtain ⟨e', he, -, -, raw', hr, -, hc, -⟩ := mem_manifests.1 this
      rw [List.mem_singleton.1 he, h1] at hr
      cases hr
      rw [h3] at hc
      cases hc
  have hs : crdsFromDirectory L (some [e]) = some [] := by
    have := (readLoop_eq L [e] []).2 (by simpa using hl)
    rw [hm] at this
    exact this
  unfold schemapatch
  rw [hs]
  have hnil : ∀ i : Nat, σ.order i ([] : List CrdSet) = [] := fun i => List.Perm.eq_nil (σ.perm i [])
  have hnil' : ∀ i : Nat, σ.order i ([] : List (List CrdFile)) = [] := fun i => List.Perm.eq_nil (σ.perm i [])
  simp [generate, hnil, hnil', patchEach]

/-- A directory with a manifest, a file that is none, a file of another kind and a directory: the manifest is patched. -/
def dir : List Entry := [⟨"README.md", false⟩, ⟨"foo.yaml", false⟩, ⟨"old.yaml", true⟩, ⟨"role.yaml", false⟩]

example : (dir.map (·.name)).Nodup ∧ (schemapatch lib .fifo types (some dir)).status = .ok () ∧
    (schemapatch lib .fifo types (some dir)).writes.map (fun w => (w.file, (getNode w.doc ["spec", "versions"]).bind fun v => v.bind fun v => v.content.head?.bind (textAt ["schema", "openAPIV3Schema", "type"]))) =
      [("foo.yaml", some "Foo")] := by decide +kernel

example : Manifest lib ⟨"foo.yaml", false⟩ ⟨"example.com", "Foo", ["v1"]⟩ (crdDoc "Foo") :=
  look_found.1 rfl

example : Provides lib types dir "example.com" "Foo" "v1" (map [("type", str "Foo")]) :=
  ⟨by decide +kernel, ⟨⟨"foo.yaml", false⟩, by decide +kernel, ⟨"example.com", "Foo", ["v1"]⟩, crdDoc "Foo", look_found.1 rfl, rfl, rfl, by decide +kernel⟩, ⟨"p", "example.com", "v1"⟩, by decide +kernel, rfl, rfl, rfl⟩

/-- A CRD of version v1beta1 is reported. -/
example : Unsupported (firstDocument (fun _ => some [.mk .document {} [map [("apiVersion", str "apiextensions.k8s.io/v1beta1"), ("kind", str "CustomResourceDefinition")]]]) metaOf crdOf) ⟨"old.yaml", false⟩ :=
  ⟨⟨rfl, "old".toList, by decide +kernel⟩, _, _, rfl, rfl, by decide +kernel, by decide +kernel⟩

end DirExample

end Verif.Patch

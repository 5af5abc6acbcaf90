import Verif.CrdGen.GenerateSpec
import Verif.CrdGen.Theorems

/-! # Lemmas on the CRD generator -/
namespace Verif.CrdGen
open Spec
open Verif.Crd (Schema Src PState FState TypeIdent Decl Stop AnyVal Raw GoType flattenType flattenEmbedded typeOf PInv declares_iff needPackage_inv needPackage_rest inv_init)
open Verif.Crd.Spec (envOf Declares)

theorem nodup_eraseDups' {α : Type} [DecidableEq α] (l : List α) : l.eraseDups.Nodup := by
  match l with
  | [] => simp
  | a :: l =>
    rw [List.eraseDups_cons]
    refine List.nodup_cons.2 ⟨?_, nodup_eraseDups' _⟩
    simp [List.mem_eraseDups]
termination_by l.length
decreasing_by
  simp only [List.length_cons]
  exact Nat.lt_succ_of_le (List.length_filter_le _ _)

/-! ## Maps stay maps -/

theorem foldl_put_wf {α κ ν : Type} [DecidableEq κ] (key : α → κ) (val : α → ν) : ∀ (l : List α) (m : List (κ × ν)), GoMap.WF m → GoMap.WF (l.foldl (fun m a => GoMap.put m (key a) (val a)) m)
  | [], _, h => h
  | a :: l, m, h => foldl_put_wf key val l _ (GoMap.put_wf h (key a) (val a))

theorem needPackage_wf {S : Src} {pkg : String} {p : PState} (h : GoMap.WF p.types) : GoMap.WF (S.needPackage pkg p).types := by
  have ha : ∀ q : PState, GoMap.WF q.types → GoMap.WF (S.addPackage pkg q).types := by
    intro q hq
    unfold Src.addPackage
    split
    · exact hq
    · simp only
      split
      · exact hq
      · exact foldl_put_wf (fun d : Decl => (⟨pkg, d.name⟩ : TypeIdent)) (fun d => d) _ _ hq
  unfold Src.needPackage
  split
  · exact h
  · split
    · simp only
      split
      · exact ha _ h
      · exact h
    · exact ha _ h

/-- The state after the root packages have been added (gen.go:138-140). -/
theorem roots_state (S : Src) (marshal : AnyVal → Option Raw) (σ : Nat → Sched) (roots : List String) (p : PState) (hi : PInv S marshal σ [] p) (hw : GoMap.WF p.types) :
    PInv S marshal σ [] (roots.foldl (fun p r => S.needPackage r p) p) ∧ GoMap.WF (roots.foldl (fun p r => S.needPackage r p) p).types ∧
    ∀ q, q ∈ (roots.foldl (fun p r => S.needPackage r p) p).packages ↔ q ∈ roots ∨ q ∈ p.packages := by
  induction roots generalizing p with
  | nil => exact ⟨hi, hw, fun q => by simp⟩
  | cons r roots ih =>
    obtain ⟨h1, h2, h3⟩ := ih (S.needPackage r p) (needPackage_inv hi r) (needPackage_wf hw)
    refine ⟨h1, h2, fun q => ?_⟩
    rw [List.foldl_cons, h3, (needPackage_rest r p).2.2.2]
    simp only [List.mem_cons]
    constructor
    · rintro (h | h | h)
      · exact .inl (.inr h)
      · exact .inl (.inl h)
      · exact .inr h
    · rintro ((h | h) | h)
      · exact .inr (.inl h)
      · exact .inl h
      · exact .inr (.inr h)

/-! ## Groups -/

theorem mem_groupVersions {S : GSrc} {p : PState} {pkg g v : String} : (pkg, g, v) ∈ S.groupVersions p ↔ pkg ∈ p.packages ∧ S.groupVersion pkg = some (g, v) := by
  unfold GSrc.groupVersions
  simp only [List.mem_filterMap, List.mem_eraseDups, Option.map_eq_some_iff, Prod.mk.injEq]
  constructor
  · rintro ⟨q, hq, gv, hgv, rfl, rfl, rfl⟩
    exact ⟨hq, hgv⟩
  · rintro ⟨hq, hgv⟩
    exact ⟨pkg, hq, (g, v), hgv, rfl, rfl, rfl⟩

theorem groupVersions_wf (S : GSrc) (p : PState) : GoMap.WF (S.groupVersions p) := by
  have key : ∀ l : List String, l.Nodup → GoMap.WF (l.filterMap fun pkg => (S.groupVersion pkg).map fun gv => (pkg, gv.1, gv.2)) := by
    intro l hl
    induction l with
    | nil => exact List.nodup_nil
    | cons a l ih =>
      obtain ⟨h1, h2⟩ := List.nodup_cons.1 hl
      rw [List.filterMap_cons]
      cases hg : S.groupVersion a with
      | none => exact ih h2
      | some gv =>
        refine List.nodup_cons.2 ⟨?_, ih h2⟩
        intro hin
        obtain ⟨x, hx, hxe⟩ := List.mem_map.1 hin
        obtain ⟨q, hq, hqe⟩ := List.mem_filterMap.1 hx
        obtain ⟨gv', -, rfl⟩ := Option.map_eq_some_iff.1 hqe
        simp only at hxe
        exact h1 (hxe ▸ hq)
  exact key _ (nodup_eraseDups _)

theorem get_groupVersions {S : GSrc} {p : PState} {pkg : String} (h : pkg ∈ p.packages) : GoMap.get (S.groupVersions p) pkg = S.groupVersion pkg := by
  cases hg : S.groupVersion pkg with
  | none =>
    rw [GoMap.get_eq_none]
    intro hk
    obtain ⟨⟨g, v⟩, hv⟩ := GoMap.mem_keys.1 hk
    rw [(mem_groupVersions.1 hv).2] at hg
    cases hg
  | some gv => exact (GoMap.get_eq_some (groupVersions_wf S p)).2 (mem_groupVersions.2 ⟨h, hg⟩)

theorem indexed_of {S : Src} {id : TypeIdent} {d : Decl} (h : S.declOf id = some d) : S.indexed id.pkg = true := by
  unfold Src.declOf at h
  split at h
  · assumption
  · cases h

/-! ## Kinds -/

theorem findMetav1_some {S : GSrc} {roots : List String} {m : String} : findMetav1 S roots = some m ↔ MetaOf S roots m := by
  induction roots with
  | nil => simp [findMetav1, MetaOf]
  | cons r roots ih =>
    rw [findMetav1]
    cases hi : S.src.imports r Verif.Crd.metaPath with
    | some m' =>
      constructor
      · rintro h; cases h; exact ⟨[], r, roots, rfl, hi, by simp⟩
      · rintro ⟨a, r', b, he, h1, h2⟩
        cases a with
        | nil => cases he; rw [hi] at h1; exact h1
        | cons x a => cases he; rw [h2 r (List.mem_cons_self ..)] at hi; cases hi
    | none =>
      simp only
      rw [ih]
      constructor
      · rintro ⟨a, r', b, rfl, h1, h2⟩
        refine ⟨r :: a, r', b, rfl, h1, fun x hx => ?_⟩
        rcases List.mem_cons.1 hx with rfl | hx
        · exact hi
        · exact h2 x hx
      · rintro ⟨a, r', b, he, h1, h2⟩
        cases a with
        | nil => cases he; rw [hi] at h1; cases h1
        | cons x a => cases he; exact ⟨a, r', b, rfl, h1, fun y hy => h2 y (List.mem_cons_of_mem _ hy)⟩

theorem embeds_iff {S : GSrc} {m pkg name : String} {d : Decl} : d.fields.any (embeds S m pkg name) = true ↔ Embeds S m pkg name d := by
  rw [List.any_eq_true]
  unfold Embeds
  have : ∀ f : Verif.Crd.Field, embeds S m pkg name f = true ↔
      f.name = "" ∧ ∃ q u, typeOf (S.src.ctx pkg) f.type = .named (some q) name u ∧ S.src.imports pkg (String.ofList (Loader.nonVendorPath q.toList)) = some m := by
    intro f
    unfold embeds
    by_cases hn : f.name = ""
    · simp only [hn, ne_eq, not_true_eq_false, if_false, true_and]
      split
      · rename_i q n u heq
        rw [decide_eq_true_eq]
        constructor
        · rintro ⟨h1, rfl⟩; exact ⟨q, u, heq, h1⟩
        · rintro ⟨q', u', he, h1⟩
          rw [heq] at he
          cases he
          exact ⟨h1, rfl⟩
      · rename_i hne
        constructor
        · intro h; cases h
        · rintro ⟨q, u, he, -⟩; exact (hne q name u he).elim
    · simp [hn]
  simp only [this]

/-- Which kinds are found. -/
theorem mem_findKinds {S : GSrc} {σ : Sched} {m : String} {p : PState} {gk : GroupKind} :
    gk ∈ findKinds S σ m p ↔ ∃ x ∈ p.types, IsObject S m x.1.pkg x.2 ∧ gk = GroupKind.mk (((GoMap.get (S.groupVersions p) x.1.pkg).map (·.1)).getD "") x.1.name := by
  unfold findKinds
  simp only [mem_sortBy, σ.mem_order, List.mem_eraseDups, List.mem_map, List.mem_filter, Bool.and_eq_true, embeds_iff, IsObject]
  constructor
  · rintro ⟨x, ⟨h1, h2, h3⟩, h4⟩; exact ⟨x, h1, ⟨h3, h2⟩, h4.symm⟩
  · rintro ⟨x, h1, ⟨h3, h2⟩, h4⟩; exact ⟨x, ⟨h1, h2, h3⟩, h4.symm⟩

theorem nodup_findKinds {S : GSrc} {σ : Sched} {m : String} {p : PState} : (findKinds S σ m p).Nodup := by
  unfold findKinds
  simp only [nodup_sortBy, σ.nodup_order]
  exact nodup_eraseDups' _

theorem sorted_findKinds {S : GSrc} {σ : Sched} {m : String} {p : PState} : (findKinds S σ m p).Pairwise fun a b => strLe a.string b.string = true :=
  sortBy_pairwise (le := fun a b : GroupKind => strLe a.string b.string) (fun a b c => strLe_trans a.string b.string c.string) (fun a b => strLe_total a.string b.string) _

theorem string_inj {a b : GroupKind} (ha : '.' ∉ a.kind.toList) (hb : '.' ∉ b.kind.toList) (h : a.string = b.string) : a = b := by
  have key : ∀ g : GroupKind, '.' ∉ g.kind.toList → g.string.toList = g.kind.toList ++ (if g.group = "" then [] else '.' :: g.group.toList) := by
    intro g _
    unfold GroupKind.string
    split
    · simp
    · simp [String.toList_append]
  have hl : a.string.toList = b.string.toList := by rw [h]
  rw [key a ha, key b hb] at hl
  have hcut : ∀ (k s : List Char), '.' ∉ k → Text.cut '.' (k ++ '.' :: s) = some (k, s) := fun k s hk => Text.cut_append hk
  obtain ⟨ga, ka⟩ := a
  obtain ⟨gb, kb⟩ := b
  simp only at ha hb hl
  by_cases h1 : ga = "" <;> by_cases h2 : gb = ""
  · simp only [h1, h2, if_true, List.append_nil] at hl ⊢
    rw [String.toList_inj.1 hl]
  · simp only [h1, h2, if_true, if_false, List.append_nil] at hl
    exact (ha (by rw [hl]; simp)).elim
  · simp only [h1, h2, if_true, if_false, List.append_nil] at hl
    exact (hb (by rw [← hl]; simp)).elim
  · simp only [h1, h2, if_false] at hl
    have := hcut _ ga.toList ha
    rw [hl, hcut _ _ hb] at this
    simp only [Option.some.injEq, Prod.mk.injEq] at this
    rw [String.toList_inj.1 this.1, String.toList_inj.1 this.2]

end Verif.CrdGen

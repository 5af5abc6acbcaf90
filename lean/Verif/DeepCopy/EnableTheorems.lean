import Verif.DeepCopy.EnableSpec
/-!
# C45, C58: which types get methods, and which ones
-/
namespace Verif.DeepCopy

open GoMap

theorem enabledOnPackage_iff (m : PkgMarkers) : enabledOnPackage m = true ↔ PkgEnabled m := by
  unfold enabledOnPackage
  constructor
  · intro h
    split at h
    · rename_i hg; subst h; exact .generate _ hg
    · rename_i hg
      split at h
      · rename_i s rest hl
        simp only [decide_eq_true_eq] at h
        have hs := List.takeWhile_append_dropWhile (p := fun c => decide (c ≠ ',')) (l := s.toList)
        rw [h] at hs
        cases hd : s.toList.dropWhile (fun c => decide (c ≠ ',')) with
        | nil =>
          rw [hd, List.append_nil] at hs
          have : s = "package" := by rw [← String.ofList_toList (s := s), ← hs]; rfl
          subst this
          exact .legacy _ hg hl
        | cons c cs =>
          have hc : c = ',' := by
            have := List.head?_dropWhile_not (fun c => decide (c ≠ ',')) s.toList
            rw [hd] at this
            simpa using this
          subst hc
          rw [hd] at hs
          have : s = "package," ++ String.ofList cs := by
            rw [← String.ofList_toList (s := s), ← hs, ← String.toList_inj]
            simp
          subst this
          exact .legacyArgs _ _ hg hl
      · cases h
  · intro h
    cases h with
    | generate rest h => simp [h]
    | legacy rest hg hl => simp only [hg, hl]; decide
    | legacyArgs args rest hg hl =>
      simp only [hg, hl, decide_eq_true_eq, String.toList_append]
      rfl

theorem genObjectInterface_iff (m : TypeMarkers) : genObjectInterface m = true ↔ IsObject m := by
  unfold genObjectInterface
  constructor
  · intro h
    split at h
    · rename_i hg; subst h; exact .root _ hg
    · rename_i hg
      simp only [List.any_eq_true, decide_eq_true_eq] at h
      obtain ⟨s, hs, rfl⟩ := h
      exact .legacy hg hs
  · intro h
    cases h with
    | root rest h => simp [h]
    | legacy hg hl =>
      simp only [hg, List.any_eq_true, decide_eq_true_eq]
      exact ⟨_, hl, rfl⟩

theorem enabledOnType_iff (pkg : PkgMarkers) (m : TypeMarkers) : enabledOnType (enabledOnPackage pkg) m = true ↔ TypeEnabled pkg m := by
  unfold enabledOnType
  constructor
  · intro h
    split at h
    · rename_i hg; subst h; exact .generate _ hg
    · rename_i hg
      split at h
      · rename_i s rest hl
        simp only [decide_eq_true_eq] at h
        subst h
        exact .legacy _ hg hl
      · rename_i hl
        obtain h | h := Bool.or_eq_true_iff.1 h
        · exact .package hg hl ((enabledOnPackage_iff _).1 h)
        · exact .object hg hl ((genObjectInterface_iff _).1 h)
  · intro h
    cases h with
    | generate rest h => simp [h]
    | legacy rest hg hl => simp [hg, hl]
    | package hg hl h => simp [hg, hl, (enabledOnPackage_iff _).2 h]
    | object hg hl h => simp [hg, hl, (genObjectInterface_iff _).2 h]

variable {P : Prog} {exported : String → Bool}

theorem hasAny_named (n : String) : P.hasAny (.named n) = true ↔ OwnMethod P n := by
  have h1 : P.hasCopy (.named n) = (P.manual n).copy := rfl
  have h2 : P.hasInto (.named n) = (P.manual n).into := rfl
  rw [Prog.hasAny, h1, h2, Bool.or_eq_true, Option.isSome_iff_ne_none]
  rfl

/-- No method is written for a pointer: neither the type, which Go does not allow, nor what it refers to has a method in the source (`C45_violated_pointer`). -/
def PointersPlain (P : Prog) (ds : List Decl) : Prop :=
  ∀ d ∈ ds, ∀ t, P.under d.name = .ptr t → ¬ OwnMethod P d.name ∧ ∀ m, t = .named m ∨ (∃ a, t = .alias a ∧ P.target a = .named m) → ¬ OwnMethod P m

theorem shouldBeCopied_iff {d : Decl} {ds : List Decl} (hd : d ∈ ds) (hp : PointersPlain P ds) : P.shouldBeCopied exported d = true ↔ exported d.name = true ∧ Copyable P d := by
  unfold Prog.shouldBeCopied
  rw [Bool.and_eq_true]
  refine and_congr_right fun _ => ?_
  constructor
  · intro h
    split at h
    · rename_i hk
      split at h
      · rename_i t hu
        exfalso
        have hpp := (hp d hd t hu).2
        cases t with
        | named m => exact hpp m (.inl rfl) ((hasAny_named m).1 h)
        | alias a =>
          unfold Prog.hasAny Prog.hasCopy Prog.hasInto Prog.owner Prog.unalias at h
          simp only [Prog.unalias] at h
          cases ht : P.target a with
          | named m =>
            rw [ht] at h
            exact hpp m (.inr ⟨a, rfl, ht⟩) ((hasAny_named m).1 h)
          | _ => rw [ht] at h; simp at h
        | _ => simp [Prog.hasAny, Prog.hasCopy, Prog.hasInto, Prog.owner, Prog.unalias] at h
      · exact .own hk ((hasAny_named _).1 h)
      · rename_i h1 h2
        exact .type hk h2 h1
    · cases h
    · cases h
  · intro h
    cases h with
    | own hk ho =>
      rw [hk]
      simp only
      split
      · rename_i t hu
        exact absurd ho (hp d hd t hu).1
      · exact (hasAny_named _).2 ho
      · rfl
    | type hk h1 h2 =>
      rw [hk]
      simp only

theorem mem_methodsFor {d : Decl} {m : Method} : m ∈ P.methodsFor d ↔ Missing P d m := by
  have h1 : P.hasCopy (.named d.name) = (P.manual d.name).copy := rfl
  have h2 : P.hasInto (.named d.name) = (P.manual d.name).into := rfl
  unfold Prog.methodsFor
  rw [h1, h2]
  constructor
  · intro h
    obtain h | h := List.mem_append.1 h
    · split at h
      · cases h
      · rename_i hi
        rw [List.mem_singleton.1 h]
        exact .deepCopyInto (by simpa using hi)
    · split at h
      · cases h
      · rename_i hc
        have hc : (P.manual d.name).copy = none := by simpa using hc
        obtain rfl | h := List.mem_cons.1 h
        · exact .deepCopy hc
        · split at h
          · rename_i ho
            rw [List.mem_singleton.1 h]
            exact .deepCopyObject hc ((genObjectInterface_iff _).1 ho)
          · cases h
  · intro h
    cases h with
    | deepCopyInto hi => simp [hi]
    | deepCopy hc => simp [hc]
    | deepCopyObject hc ho => simp [hc, (genObjectInterface_iff _).2 ho]

theorem byType_get {all : Bool} : ∀ {ds : List Decl} {m : List (String × List Method)}, (ds.map (·.name)).Nodup → (∀ d ∈ ds, get m d.name = none) → ∀ n, get (P.byType exported all ds m) n =
    match ds.find? fun d => d.name = n with
    | some d => if enabledOnType all d.markers && P.shouldBeCopied exported d && !(P.methodsFor d).isEmpty then some (P.methodsFor d) else none
    | none => get m n
  | [], m, _, _, n => rfl
  | d :: ds, m, hnd, hm, n => by
    simp only [List.map_cons, List.nodup_cons] at hnd
    have hne : ∀ d' ∈ ds, d'.name ≠ d.name := fun d' hd' e => hnd.1 (List.mem_map.2 ⟨d', hd', e⟩)
    unfold Prog.byType
    split
    · rename_i hc
      rw [byType_get hnd.2 (fun d' hd' => by rw [get_put, if_neg (hne d' hd')]; exact hm d' (List.mem_cons_of_mem _ hd')) n]
      by_cases hn : d.name = n
      · subst hn
        have : ds.find? (fun d' => decide (d'.name = d.name)) = none := List.find?_eq_none.2 fun d' hd' => by simpa using hne d' hd'
        simp only [this, List.find?_cons, decide_true, get_put, if_true, hc]
      · simp only [List.find?_cons, hn, decide_false, get_put, if_neg (Ne.symm hn)]
    · rename_i hc
      rw [byType_get hnd.2 (fun d' hd' => hm d' (List.mem_cons_of_mem _ hd')) n]
      by_cases hn : d.name = n
      · subst hn
        have : ds.find? (fun d' => decide (d'.name = d.name)) = none := List.find?_eq_none.2 fun d' hd' => by simpa using hne d' hd'
        simp only [this, List.find?_cons, decide_true, hc]
        exact hm d (List.mem_cons_self ..)
      · simp only [List.find?_cons, hn, decide_false]

/-- The methods of the file, as pairs of a type and a method. -/
def InFile (f : Option (List (String × List Method))) (n : String) (m : Method) : Prop := ∃ l ms, f = some l ∧ (n, ms) ∈ l ∧ m ∈ ms

theorem generateFor_get {σ : Sched} {pkg : PkgMarkers} {ds : List Decl} (n : String) (m : Method) :
    InFile (P.generateFor σ exported pkg ds) n m ↔ ∃ ms, get (P.byType exported (enabledOnPackage pkg) ds []) n = some ms ∧ m ∈ ms := by
  unfold InFile Prog.generateFor
  simp only
  generalize P.byType exported (enabledOnPackage pkg) ds [] = b
  have hkey : ∀ n, n ∈ sortStrings (σ.order 0 (keys b)) ↔ get b n ≠ none := by
    intro n
    unfold sortStrings
    rw [mem_sortBy, Sched.mem_order, ne_eq, get_eq_none, Classical.not_not]
  constructor
  · rintro ⟨l, ms, h1, h2, h3⟩
    split at h1
    · cases h1
    · cases h1
      obtain ⟨n', hn', e⟩ := List.mem_map.1 h2
      cases e
      obtain ⟨ms', hms⟩ := Option.ne_none_iff_exists'.1 ((hkey _).1 hn')
      rw [hms] at h3
      exact ⟨ms', hms, h3⟩
  · rintro ⟨ms, h1, h2⟩
    have hb : b ≠ [] := by rintro rfl; simp [GoMap.get] at h1
    refine ⟨_, ms, if_neg hb, List.mem_map.2 ⟨n, (hkey n).2 (by rw [h1]; simp), ?_⟩, h2⟩
    rw [h1]
    rfl

theorem find?_name {ds : List Decl} (hnd : (ds.map (·.name)).Nodup) {n : String} {d : Decl} : (ds.find? fun d => d.name = n) = some d ↔ d ∈ ds ∧ d.name = n := by
  constructor
  · intro h
    exact ⟨List.mem_of_find?_eq_some h, by simpa using List.find?_some h⟩
  · rintro ⟨hd, rfl⟩
    induction ds with
    | nil => cases hd
    | cons e ds ih =>
      simp only [List.map_cons, List.nodup_cons] at hnd
      obtain rfl | hd := List.mem_cons.1 hd
      · simp
      · have : e.name ≠ d.name := fun he => hnd.1 (List.mem_map.2 ⟨d, hd, he.symm⟩)
        simp [this, ih hnd.2 hd]

/-- **C45**.  A method is written for a type exactly if the type is exported, copyable and enabled, and the method is missing; whatever the order of iteration.

Partial: pointer types are left out (`C45_violated_pointer`). -/
theorem C45_methods_partial (P : Prog) (exported : String → Bool) (σ : Sched) (pkg : PkgMarkers) {ds : List Decl} (hnd : (ds.map (·.name)).Nodup) (hp : PointersPlain P ds) (n : String) (m : Method) :
    InFile (P.generateFor σ exported pkg ds) n m ↔ ∃ d ∈ ds, d.name = n ∧ exported n = true ∧ Copyable P d ∧ TypeEnabled pkg d.markers ∧ Missing P d m := by
  rw [generateFor_get]
  rw [byType_get hnd (by intro d _; rfl)]
  constructor
  · rintro ⟨ms, h, hm⟩
    split at h
    · rename_i d hf
      obtain ⟨hd, rfl⟩ := (find?_name hnd).1 hf
      split at h
      · rename_i hc
        cases h
        simp only [Bool.and_eq_true] at hc
        obtain ⟨h1, h2⟩ := (shouldBeCopied_iff hd hp).1 hc.1.2
        exact ⟨d, hd, rfl, h1, h2, (enabledOnType_iff _ _).1 hc.1.1, mem_methodsFor.1 hm⟩
      · cases h
    · simp [GoMap.get] at h
  · rintro ⟨d, hd, rfl, h1, h2, h3, h4⟩
    refine ⟨P.methodsFor d, ?_, mem_methodsFor.2 h4⟩
    rw [(find?_name hnd).2 ⟨hd, rfl⟩]
    simp only
    have hne : (P.methodsFor d).isEmpty = false := by
      have := mem_methodsFor.2 h4
      cases hl : P.methodsFor d with
      | nil => rw [hl] at this; cases this
      | cons => rfl
    rw [(enabledOnType_iff _ _).2 h3, (shouldBeCopied_iff hd hp).2 ⟨h1, h2⟩, hne]
    rfl

/-- **C45** (overriding).  A type whose own first marker says no gets no methods, whatever other markers it and its package have. -/
theorem C45_disabled (P : Prog) (exported : String → Bool) (σ : Sched) (pkg : PkgMarkers) {ds : List Decl} (hnd : (ds.map (·.name)).Nodup) {d : Decl} (hd : d ∈ ds) {rest : List Bool}
    (h : d.markers.generate = false :: rest) (m : Method) : ¬ InFile (P.generateFor σ exported pkg ds) d.name m := by
  rw [generateFor_get, byType_get hnd (by intro d _; rfl), (find?_name hnd).2 ⟨hd, rfl⟩]
  rintro ⟨ms, h1, -⟩
  simp only [enabledOnType, h, Bool.false_and, Bool.false_eq_true, if_false] at h1
  cases h1

theorem byType_wf {all : Bool} : ∀ {ds : List Decl} {m : List (String × List Method)}, WF m → WF (P.byType exported all ds m)
  | [], _, h => h
  | d :: ds, m, h => by
    unfold Prog.byType
    split
    · exact byType_wf (put_wf h _ _)
    · exact byType_wf h

/-- **C45** (the file).  The file does not depend on the order of iteration, its types are sorted and occur once, and there is one exactly if there is a method to write. -/
theorem C45_file (P : Prog) (exported : String → Bool) (pkg : PkgMarkers) {ds : List Decl} (hnd : (ds.map (·.name)).Nodup) :
    (∀ σ σ', P.generateFor σ exported pkg ds = P.generateFor σ' exported pkg ds) ∧
    (∀ σ l, P.generateFor σ exported pkg ds = some l → (l.map (·.1)).Pairwise (· < ·)) ∧
    ∀ σ, P.generateFor σ exported pkg ds = none ↔ ∀ n m, ¬ InFile (P.generateFor σ exported pkg ds) n m := by
  have hwf : WF (P.byType exported (enabledOnPackage pkg) ds []) := byType_wf (by simp [WF, keys])
  refine ⟨fun σ σ' => ?_, fun σ l h => ?_, fun σ => ⟨fun h n m => ?_, fun h => ?_⟩⟩
  · unfold Prog.generateFor
    simp only
    rw [sortStrings_perm_eq ((σ.perm 0 _).trans (σ'.perm 0 _).symm)]
  · unfold Prog.generateFor at h
    simp only at h
    split at h
    · cases h
    · cases h
      rw [List.map_map]
      have he : ((fun x : String × List Method => x.1) ∘ fun n => (n, (GoMap.get (P.byType exported (enabledOnPackage pkg) ds []) n).getD [])) = id := rfl
      rw [he, List.map_id]
      have h1 : (sortStrings (σ.order 0 (keys (P.byType exported (enabledOnPackage pkg) ds [])))).Pairwise (fun a b => strLe a b = true) := sortBy_pairwise strLe_trans strLe_total _
      have h2 : (sortStrings (σ.order 0 (keys (P.byType exported (enabledOnPackage pkg) ds [])))).Nodup := nodup_sortBy.2 ((σ.nodup_order 0 _).2 hwf)
      exact (h1.and h2).imp fun h => strLt_iff.2 h
  · rw [h]
    rintro ⟨l, ms, h, -⟩
    cases h
  · cases hf : P.generateFor σ exported pkg ds with
    | none => rfl
    | some l =>
      exfalso
      simp only [generateFor_get, byType_get hnd (m := []) (by intro d _; rfl)] at h
      unfold Prog.generateFor at hf
      simp only at hf
      split at hf
      · cases hf
      · rename_i hb
        obtain ⟨⟨n, ms⟩, hm⟩ := List.exists_mem_of_ne_nil _ hb
        have hg := (get_eq_some hwf).2 hm
        rw [byType_get hnd (by intro d _; rfl)] at hg
        split at hg
        · rename_i d hfd
          split at hg
          · rename_i hc
            cases hg
            simp only [Bool.and_eq_true, Bool.not_eq_true'] at hc
            cases hl : P.methodsFor d with
            | nil => rw [hl] at hc; simp at hc
            | cons m ms =>
              refine h n m ⟨P.methodsFor d, ?_, by rw [hl]; exact List.mem_cons_self ..⟩
              simp [hfd, hc]
          · cases hg
        · simp [GoMap.get] at hg

/-- **C58**.  `DeepCopyObject` is written for the types that get a `DeepCopy` and are root objects, and for no others.

Partial: a root object with a `DeepCopy` in the source gets none (`C58_violated`). -/
theorem C58_object_partial (P : Prog) (exported : String → Bool) (σ : Sched) (pkg : PkgMarkers) {ds : List Decl} (hnd : (ds.map (·.name)).Nodup) {d : Decl} (hd : d ∈ ds) :
    InFile (P.generateFor σ exported pkg ds) d.name .deepCopyObject ↔ InFile (P.generateFor σ exported pkg ds) d.name .deepCopy ∧ IsObject d.markers := by
  simp only [generateFor_get, byType_get hnd (m := []) (by intro d _; rfl), (find?_name hnd).2 ⟨hd, rfl⟩]
  constructor
  · rintro ⟨ms, h, hm⟩
    split at h
    · rename_i hc
      cases h
      cases mem_methodsFor.1 hm with
      | deepCopyObject h1 h2 => exact ⟨⟨_, by simp only [hc, if_true], mem_methodsFor.2 (.deepCopy h1)⟩, h2⟩
    · cases h
  · rintro ⟨⟨ms, h, hm⟩, ho⟩
    split at h
    · rename_i hc
      cases h
      cases mem_methodsFor.1 hm with
      | deepCopy h1 => exact ⟨_, by simp only [hc, if_true], mem_methodsFor.2 (.deepCopyObject h1 ho)⟩
    · cases h

end Verif.DeepCopy

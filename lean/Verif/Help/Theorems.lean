import Verif.Help.Lemmas
/-!
# Theorems about marker help (C46, C64)
-/
namespace Verif.Help
open Spec Markers GoMap

/-! ## One definition -/

theorem keys_fieldsHelp (h : DefHelp) (l : Loaded) : (fieldsHelp h l).map (·.1) = l.fieldNames.map (·.1) := by
  simp [fieldsHelp, List.map_map]

/-- The order of arguments. -/
theorem fieldDocs_sorted (σ : Sched) (n : Nat) {l : List FieldDoc} (h : (l.map (·.name)).Nodup) :
    (sliceSort σ n (fun a b => textLt a.name b.name) l).Pairwise fun f g => Before f.name g.name := by
  have hs := sliceSort_pairwise (less := fun a b : FieldDoc => textLt a.name b.name) (fun a b c h h' => textLt_cotrans h h')
    (fun a b h => textLt_asymm h) σ n l
  have hn : (sliceSort σ n (fun a b => textLt a.name b.name) l).Pairwise fun f g => f.name ≠ g.name := by
    have := ((sliceSort_perm σ n (fun a b : FieldDoc => textLt a.name b.name) l).map FieldDoc.name).nodup_iff.2 h
    rwa [List.Nodup, List.pairwise_map] at this
  refine List.Pairwise.imp₂ ?_ hs hn
  intro a b h1 h2
  exact before_of_le_ne (by simpa [textLe] using h1) h2

theorem forDefinition_fields (σ : Sched) (d : Def Info) (h : Option DefHelp) :
    (forDefinition σ d h).fields = sliceSort σ (6 + 3 * d.payload.ptr) (fun a b => textLt a.name b.name)
      ((σ.order (5 + 3 * d.payload.ptr) (fieldsHelp (h.getD {}) d.payload.loaded)).map (fieldDoc d.payload.loaded)) := rfl

theorem forDefinition_sorted (σ : Sched) {d : Def Info} (hd : WellMade d) (h : Option DefHelp) :
    (forDefinition σ d h).fields.Pairwise fun f g => Before f.name g.name := by
  rw [forDefinition_fields]
  refine fieldDocs_sorted σ _ ?_
  rw [List.map_map, show FieldDoc.name ∘ fieldDoc d.payload.loaded = Prod.fst from rfl]
  exact ((σ.perm _ _).map Prod.fst).nodup_iff.2 (by have e := keys_fieldsHelp (h.getD {}) d.payload.loaded; exact e ▸ hd.2.1)

theorem forDefinition_perm (σ : Sched) (d : Def Info) (h : Option DefHelp) :
    (forDefinition σ d h).fields.Perm ((fieldsHelp (h.getD {}) d.payload.loaded).map (fieldDoc d.payload.loaded)) := by
  rw [forDefinition_fields]
  exact (sliceSort_perm _ _ _ _).trans ((σ.perm _ _).map _)

theorem forDefinition_documents (σ : Sched) {d : Def Info} (hv : Markers.Spec.Valid d.target) (hd : WellMade d) (h : Option DefHelp)
    (hh : ∀ h', h = some h' → (h'.fieldHelp.map (·.1)).Nodup) : Documents (forDefinition σ d h) d h := by
  obtain ⟨w1, w2, hsub⟩ := hd
  have mem : ∀ f, f ∈ (forDefinition σ d h).fields ↔ ∃ e ∈ fieldsHelp (h.getD {}) d.payload.loaded,
      f = fieldDoc d.payload.loaded e := by
    intro f
    rw [(forDefinition_perm σ d h).mem_iff, List.mem_map]
    simp only [eq_comm]
  refine ⟨rfl, ?_, ?_, ?_, ?_, ?_, ?_⟩
  · have ht : (forDefinition σ d h).target = targetName d.target := rfl
    rcases hv with hv | hv | hv
    · exact .inl ⟨hv, by rw [ht, hv]; rfl⟩
    · exact .inr (.inl ⟨hv, by rw [ht, hv]; rfl⟩)
    · exact .inr (.inr ⟨hv, by rw [ht, hv]; rfl⟩)
  · rintro h' rfl; exact ⟨rfl, rfl, rfl⟩
  · rintro rfl; exact ⟨rfl, rfl, rfl⟩
  · exact forDefinition_sorted σ ⟨w1, w2, hsub⟩ h
  · intro n
    constructor
    · rintro ⟨f, hf, rfl⟩
      obtain ⟨e, he, rfl⟩ := (mem f).1 hf
      obtain ⟨x, hx, rfl⟩ := List.mem_map.1 he
      exact ⟨x.2, hx⟩
    · rintro ⟨g, hg⟩
      exact ⟨_, (mem _).2 ⟨_, List.mem_map.2 ⟨(n, g), hg, rfl⟩, rfl⟩, rfl⟩
  · intro f hf g hg
    obtain ⟨e, he, rfl⟩ := (mem f).1 hf
    obtain ⟨⟨n, g'⟩, hx, rfl⟩ := List.mem_map.1 he
    simp only [fieldDoc] at hg ⊢
    have hgg : g' = g := wf_unique w2 hx hg
    subst hgg
    constructor
    · cases h with
      | none => exact .inr ⟨by simp [GoMap.get], by simp⟩
      | some h' =>
        cases hget : GoMap.get h'.fieldHelp g' with
        | none =>
          refine .inr ⟨by simp [hget], ?_⟩
          rintro h'' he t' ht
          cases he
          exact (get_eq_none.1 hget) (mem_keys.2 ⟨t', ht⟩)
        | some t => exact .inl ⟨h', rfl, by simpa [hget] using (get_eq_some (hh h' rfl)).1 hget⟩
    · have hn : n ∈ d.payload.loaded.fields.map (·.1) := hsub n (List.mem_map.2 ⟨_, hx, rfl⟩)
      obtain ⟨⟨n', a⟩, ha, rfl⟩ := List.mem_map.1 hn
      refine ⟨a, ha, ?_⟩
      rw [(get_eq_some w1).2 ha]
      cases a <;> rfl

theorem markerDoc_ext {a b : MarkerDoc} (h1 : a.name = b.name) (h2 : a.target = b.target) (h3 : a.text = b.text) (h4 : a.category = b.category)
    (h5 : a.deprecated = b.deprecated) (h6 : a.fields = b.fields) : a = b := by
  cases a; cases b; simp_all

theorem fieldDocs_eq {l l' : List FieldDoc} (h : l.Pairwise fun f g => Before f.name g.name) (h' : l'.Pairwise fun f g => Before f.name g.name)
    (p : l.Perm l') : l = l' := by
  refine List.Perm.eq_of_pairwise (le := fun f g : FieldDoc => Before f.name g.name) ?_ h h' p
  intro a b _ _ h1 h2
  exact (before_asymm h1 h2).elim

/-- **C46, one marker, whatever the order of iteration.** -/
theorem forDefinition_sched (σ σ' : Sched) {d : Def Info} (hd : WellMade d) (h : Option DefHelp) : forDefinition σ d h = forDefinition σ' d h := by
  have hf := fieldDocs_eq (forDefinition_sorted σ hd h) (forDefinition_sorted σ' hd h) ((forDefinition_perm σ d h).trans (forDefinition_perm σ' d h).symm)
  exact markerDoc_ext rfl rfl rfl rfl rfl hf

/-! ## All definitions -/

/-- The definitions of a group, in the order in which they are shown. -/
def shownIn (σ : Sched) (r : HelpRegistry) (s : Sorter) (e : Str × Nat) : List (Def Info) :=
  sliceSort σ (4 + 3 * e.2) s.less ((r.allDefinitions σ).filter fun d => s.group d (r.help d) = e.1)

/-- The groups, in the order in which they are shown. -/
def groupsOf (σ : Sched) (r : HelpRegistry) (s : Sorter) : List Str :=
  sortBy textLe ((σ.order 3 (groupOn (fun d => s.group d (r.help d)) (r.allDefinitions σ))).map (·.1))

theorem byCategory_eq (σ : Sched) (r : HelpRegistry) (s : Sorter) :
    byCategory σ r s = (groupsOf σ r s).zipIdx.map fun e =>
      { category := e.1, markers := (shownIn σ r s e).map fun d => forDefinition σ d (r.help d) } := by
  unfold byCategory groupsOf shownIn
  simp only
  apply List.map_congr_left
  intro e _
  have : (GoMap.get (groupOn (fun d => s.group d (r.help d)) (r.allDefinitions σ)) e.1).getD [] =
      (r.allDefinitions σ).filter fun d => s.group d (r.help d) = e.1 := by
    rw [get_groupOn]
    split
    · rename_i h; simp [h]
    · rfl
  rw [this]

theorem mem_groupsOf {σ : Sched} {r : HelpRegistry} {s : Sorter} {g : Str} :
    g ∈ groupsOf σ r s ↔ ∃ d ∈ r.allDefinitions σ, s.group d (r.help d) = g := by
  unfold groupsOf
  rw [mem_sortBy, List.mem_map]
  constructor
  · rintro ⟨⟨g', l⟩, hm, rfl⟩
    rw [Sched.mem_order, mem_groupOn] at hm
    obtain ⟨rfl, hne⟩ := hm
    obtain ⟨d, hd⟩ := List.exists_mem_of_ne_nil _ hne
    rw [List.mem_filter] at hd
    exact ⟨d, hd.1, by simpa using hd.2⟩
  · rintro ⟨d, hd, rfl⟩
    refine ⟨(s.group d (r.help d), (r.allDefinitions σ).filter fun d' => s.group d' (r.help d') = s.group d (r.help d)), ?_, rfl⟩
    rw [Sched.mem_order, mem_groupOn]
    exact ⟨rfl, List.ne_nil_of_mem (List.mem_filter.2 ⟨hd, by simp⟩)⟩

theorem groupsOf_nodup (σ : Sched) (r : HelpRegistry) (s : Sorter) : (groupsOf σ r s).Nodup := by
  unfold groupsOf
  rw [nodup_sortBy]
  exact ((σ.perm 3 _).map Prod.fst).nodup_iff.2 (groupOn_wf _ _)

theorem groupsOf_sorted (σ : Sched) (r : HelpRegistry) (s : Sorter) : (groupsOf σ r s).Pairwise Before := by
  refine List.Pairwise.imp₂ ?_ (sortBy_pairwise textLe_trans textLe_total _) (groupsOf_nodup σ r s)
  intro a b h1 h2
  exact before_of_le_ne h1 h2

/-- The groups do not depend on the order of iteration. -/
theorem groupsOf_sched (σ σ' : Sched) (ops : List Op) (s : Sorter) :
    groupsOf σ (HelpRegistry.after ops) s = groupsOf σ' (HelpRegistry.after ops) s := by
  refine List.Perm.eq_of_pairwise (le := Before) ?_ (groupsOf_sorted ..) (groupsOf_sorted ..)
    ((List.perm_ext_iff_of_nodup (groupsOf_nodup ..) (groupsOf_nodup ..)).2 ?_)
  · intro a b _ _ h1 h2
    exact (before_asymm h1 h2).elim
  · intro g
    simp only [mem_groupsOf, mem_allDefinitions]

theorem flatMap_zipIdx_perm {α β : Type} (f : α × Nat → List β) (g : α → List β) (h : ∀ e, (f e).Perm (g e.1)) (l : List α) :
    ∀ k, ((l.zipIdx k).flatMap f).Perm (l.flatMap g) := by
  induction l with
  | nil => intro k; simp
  | cons a l ih =>
    intro k
    rw [List.zipIdx_cons, List.flatMap_cons, List.flatMap_cons]
    exact (h _).append (ih _)

theorem all2_flatMap {α β γ : Type} {R : β → γ → Prop} (f : α → List β) (g : α → List γ) (l : List α) (h : ∀ a ∈ l, All2 R (f a) (g a)) :
    All2 R (l.flatMap f) (l.flatMap g) := by
  induction l with
  | nil => exact .nil
  | cons a l ih =>
    rw [List.flatMap_cons, List.flatMap_cons]
    exact (h a (List.mem_cons_self ..)).append (ih fun b hb => h b (List.mem_cons_of_mem _ hb))

theorem pairwise_zipIdx {α : Type} {R : α → α → Prop} {l : List α} (h : l.Pairwise R) : ∀ k, (l.zipIdx k).Pairwise (fun a b => R a.1 b.1) := by
  induction l with
  | nil => intro k; simp
  | cons a l ih =>
    intro k
    have h' := List.pairwise_cons.1 h
    rw [List.zipIdx_cons, List.pairwise_cons]
    refine ⟨?_, ih h'.2 _⟩
    intro b hb
    have := List.mem_map_of_mem (f := Prod.fst) hb
    rw [List.zipIdx_map_fst] at this
    exact h'.1 _ this

/-- **C46, completeness and order.**  After any history of calls that register well made definitions and their help, and in whatever order maps are iterated,
the help lists every registered definition exactly once, in its group, with its documentation. -/
theorem C46_lists (σ : Sched) (ops : List Op) (s : Sorter) (hd : ∀ d, Registered ops d → WellMade d) (hh : HelpWF ops) :
    Lists ops s (byCategory σ (HelpRegistry.after ops) s) := by
  have hhelp : ∀ d h', (HelpRegistry.after ops).help d = some h' → (h'.fieldHelp.map (·.1)).Nodup := by
    intro d h' he
    have := helpFor_after ops d
    rw [he] at this
    obtain ⟨b, a, e, _⟩ := this
    exact hh d.payload.ptr h' (by rw [e]; simp)
  have inShown : ∀ e d, d ∈ shownIn σ (HelpRegistry.after ops) s e ↔ Registered ops d ∧ s.group d ((HelpRegistry.after ops).help d) = e.1 := by
    intro e d
    unfold shownIn
    rw [(sliceSort_perm _ _ _ _).mem_iff, List.mem_filter, mem_allDefinitions]
    simp
  rw [byCategory_eq]
  refine ⟨?_, ?_, ?_, ?_⟩
  · rw [List.pairwise_map]
    exact pairwise_zipIdx (groupsOf_sorted σ (HelpRegistry.after ops) s) 0
  · intro c hc
    obtain ⟨e, he, rfl⟩ := List.mem_map.1 hc
    have hg : e.1 ∈ groupsOf σ (HelpRegistry.after ops) s := by
      have := List.mem_map_of_mem (f := Prod.fst) he
      rwa [List.zipIdx_map_fst] at this
    obtain ⟨d, hd, hgd⟩ := mem_groupsOf.1 hg
    simp only
    exact List.ne_nil_of_mem (List.mem_map_of_mem ((inShown e d).2 ⟨(mem_allDefinitions σ ops d).1 hd, hgd⟩))
  · refine ⟨(groupsOf σ (HelpRegistry.after ops) s).zipIdx.flatMap (shownIn σ (HelpRegistry.after ops) s), ?_, ?_, ?_⟩
    · refine (List.Perm.nodup_iff (flatMap_zipIdx_perm _
        (fun g => ((HelpRegistry.after ops).allDefinitions σ).filter fun d => s.group d ((HelpRegistry.after ops).help d) = g)
        (fun e => sliceSort_perm _ _ _ _) _ 0)).2 ?_
      refine (List.Perm.nodup_iff (perm_groups (fun d => s.group d ((HelpRegistry.after ops).help d)) _ (groupsOf_nodup ..) _)).2 ?_
      exact (nodup_allDefinitions σ ops).filter _
    · intro d
      rw [List.mem_flatMap]
      constructor
      · rintro ⟨e, _, hd⟩; exact ((inShown e d).1 hd).1
      · intro hr
        have hg : s.group d ((HelpRegistry.after ops).help d) ∈ groupsOf σ (HelpRegistry.after ops) s :=
          mem_groupsOf.2 ⟨d, (mem_allDefinitions σ ops d).2 hr, rfl⟩
        rw [← List.zipIdx_map_fst 0 (groupsOf σ (HelpRegistry.after ops) s)] at hg
        obtain ⟨e, he, hge⟩ := List.mem_map.1 hg
        exact ⟨e, he, (inShown e d).2 ⟨hr, hge.symm⟩⟩
    · rw [List.flatMap_map]
      refine all2_flatMap _ _ _ ?_
      intro e _
      simp only [List.map_map]
      have : ∀ l : List (Def Info), (∀ d ∈ l, d ∈ shownIn σ (HelpRegistry.after ops) s e) →
          All2 (fun (x : Str × MarkerDoc) d => ∃ h, HelpOf ops d h ∧ InGroup s d h x.1 ∧ Documents x.2 d h)
          (l.map ((fun m => (e.1, m)) ∘ fun d => forDefinition σ d ((HelpRegistry.after ops).help d))) l := by
        intro l
        induction l with
        | nil => intro _; exact .nil
        | cons d l ih =>
          intro hl
          obtain ⟨hr, hg⟩ := (inShown e d).1 (hl d (List.mem_cons_self ..))
          refine .cons ⟨_, helpFor_after ops d, group_iff.2 hg, ?_⟩ (ih fun x hx => hl x (List.mem_cons_of_mem _ hx))
          exact forDefinition_documents σ hr.1 (hd d hr) _ (fun h' he => hhelp d h' he)
      exact this _ (fun d hd => hd)
  · intro c hc
    obtain ⟨e, he, rfl⟩ := List.mem_map.1 hc
    simp only
    rw [List.pairwise_map]
    refine List.Pairwise.imp ?_ (sliceSort_pairwise (less_trans s) (less_asymm s) σ _ _)
    intro a b h hp
    have := less_iff.2 hp
    rw [h] at this; cases this

/-- **C46, whatever the order of iteration.**  Two runs show the same help, unless a group has two definitions with the same place, and more than twelve
definitions (for markers: two markers with the same name, for different targets).  Without that exception the claim is false: `C46_violated`. -/
theorem C46_deterministic_partial (σ σ' : Sched) (ops : List Op) (s : Sorter) (hd : ∀ d, Registered ops d → WellMade d) (ht : NoTies ops s) :
    byCategory σ (HelpRegistry.after ops) s = byCategory σ' (HelpRegistry.after ops) s := by
  rw [byCategory_eq, byCategory_eq, groupsOf_sched σ σ']
  apply List.map_congr_left
  intro e _
  have hp : ((HelpRegistry.after ops).allDefinitions σ).Perm ((HelpRegistry.after ops).allDefinitions σ') :=
    (List.perm_ext_iff_of_nodup (nodup_allDefinitions σ ops) (nodup_allDefinitions σ' ops)).2 (fun d => by simp only [mem_allDefinitions])
  have hpf := hp.filter (fun d => decide (s.group d ((HelpRegistry.after ops).help d) = e.1))
  have htrans : ∀ a b c : Def Info, (!s.less b a) = true → (!s.less c b) = true → (!s.less c a) = true := by
    intro a b c; simpa using less_trans s a b c
  have htotal : ∀ a b : Def Info, (!s.less b a) = true ∨ (!s.less a b) = true := by
    intro a b
    cases h : s.less b a with
    | false => simp
    | true => simp [less_asymm s _ _ h]
  have inj : ∀ (l : List (Def Info)), (∀ d ∈ l, Registered ops d) → ∀ a ∈ l, ∀ b ∈ l, a.name = b.name → targetRank a.target = targetRank b.target → a = b := by
    intro l hl a ha b hb hn hr
    have h1 := hl a ha
    have h2 := hl b hb
    have htt : a.target = b.target := by
      rcases h1.1 with e1 | e1 | e1 <;> rcases h2.1 with e2 | e2 | e2 <;> rw [e1, e2] at hr ⊢ <;> simp [targetRank] at hr
    exact lastRegistered_unique h1.2 (by rw [hn, htt]; exact h2.2)
  have hreg : ∀ σ, ∀ d ∈ ((HelpRegistry.after ops).allDefinitions σ).filter (fun d => s.group d ((HelpRegistry.after ops).help d) = e.1), Registered ops d := by
    intro σ d hd
    exact (mem_allDefinitions σ ops d).1 (List.mem_filter.1 hd).1
  have ties : ∀ σ, ∀ a ∈ ((HelpRegistry.after ops).allDefinitions σ).filter (fun d => s.group d ((HelpRegistry.after ops).help d) = e.1),
      ∀ b ∈ ((HelpRegistry.after ops).allDefinitions σ).filter (fun d => s.group d ((HelpRegistry.after ops).help d) = e.1),
      a = b ∨ Precedes s a.name b.name ∨ Precedes s b.name a.name ∨ (a.name = b.name ∧ FewIn ops s e.1) := by
    intro σ a ha b hb
    exact ht e.1 a b _ _ (hreg σ a ha) (hreg σ b hb) (helpFor_after ops a) (helpFor_after ops b) (group_iff.2 (by simpa using (List.mem_filter.1 ha).2))
      (group_iff.2 (by simpa using (List.mem_filter.1 hb).2))
  have hshown : shownIn σ (HelpRegistry.after ops) s e = shownIn σ' (HelpRegistry.after ops) s e := by
    unfold shownIn sliceSort
    rw [hpf.length_eq]
    split
    · -- a stable sort
      rename_i hlen
      refine sortBy_canonical htrans htotal (fun d => targetRank d.target) hpf
        ((allDefinitions_ranked σ ops).filter _) ((allDefinitions_ranked σ' ops).filter _) ?_
      intro a ha b hb h1 h2 h3
      rcases ties σ a ha b hb with h | h | h | h
      · exact h
      · rw [less_iff.2 h] at h2; simp at h2
      · rw [less_iff.2 h] at h1; simp at h1
      · exact inj _ (hreg σ) a ha b hb h.1 h3
    · rename_i hlen
      refine sortBy_eq_of_perm htrans htotal ?_ (((σ.perm _ _).trans hpf).trans (σ'.perm _ _).symm)
      intro a b ha hb h1 h2
      rw [Sched.mem_order] at ha hb
      rcases ties σ a ha b hb with h | h | h | ⟨_, few, hfew, hall⟩
      · exact h
      · rw [less_iff.2 h] at h2; simp at h2
      · rw [less_iff.2 h] at h1; simp at h1
      · exfalso
        apply hlen
        refine Nat.le_trans ?_ hfew
        refine List.Nodup.length_le_of_subset ((nodup_allDefinitions σ' ops).filter _) ?_
        intro d hd
        exact hall d _ (hreg σ' d hd) (helpFor_after ops d) (group_iff.2 (by simpa using (List.mem_filter.1 hd).2))
  rw [hshown]
  congr 1
  apply List.map_congr_left
  intro d hdm
  refine forDefinition_sched σ σ' (hd d ?_) _
  unfold shownIn at hdm
  exact hreg σ' d ((sliceSort_perm _ _ _ _).mem_iff.1 hdm)

end Verif.Help

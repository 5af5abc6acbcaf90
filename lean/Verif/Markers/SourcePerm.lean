import Verif.Markers.SourceList
import Verif.Markers.InfoTheorems
/-!
# What is read of a package in two runs
-/
namespace Verif.Markers.Source
open Verif Verif.Markers Verif.Markers.Collect Verif.Markers.Spec

variable {h : List (Def Loaded)} {E : Env}

theorem flatten_perm {α β γ : Type} {P : α → β × γ → Prop} {l : List α} {L L' : List (List (β × γ))} (h : All2 (fun a m => (m.map (·.1)).Nodup ∧ ∀ x, x ∈ m ↔ P a x) l L)
    (h' : All2 (fun a m => (m.map (·.1)).Nodup ∧ ∀ x, x ∈ m ↔ P a x) l L') : L.flatten.Perm L'.flatten := by
  induction h generalizing L' with
  | nil => cases h'; exact .nil
  | cons hab _ ih =>
    cases h' with
    | cons hab' ht' =>
      rw [List.flatten_cons, List.flatten_cons]
      refine .append ((List.perm_ext_iff_of_nodup (List.Pairwise.of_map _ (fun _ _ hne e => hne (by rw [e])) hab.1) (List.Pairwise.of_map _ (fun _ _ hne e => hne (by rw [e])) hab'.1)).2 fun x => ?_) (ih ht')
      rw [hab.2, hab'.2]

/-- The values of a marker of a package are the same in two runs, but for their order. -/
theorem values_perm {σ σ' : Nat → Sched} {τ τ' : Sched} {files : List File} (hf : ∀ f ∈ files, f.WF) {res res' : Values (List (Str × Value))} (hr : markersOf h E σ τ files = some (some res))
    (hr' : markersOf h E σ' τ' files = some (some res')) (k : String) : ((GoMap.get res k.toList).getD []).Perm ((GoMap.get res' k.toList).getD []) := by
  obtain ⟨L, hL, hall⟩ := packageValues_list hf hr k
  obtain ⟨L', hL', hall'⟩ := packageValues_list hf hr' k
  rw [hL, hL']
  exact (flatten_perm (hall.imp fun _ _ _ _ hx => ⟨hx.1, fun x => hx.2 x.1 x.2⟩) (hall'.imp fun _ _ _ _ hx => ⟨hx.1, fun x => hx.2 x.1 x.2⟩)).map _

/-! ## Types -/

theorem get_last {α β : Type} [DecidableEq α] {k n : α} {v : β} (hne : k ≠ n) : ∀ l : List (α × β), GoMap.get (l ++ [(k, v)]) n = GoMap.get l n
  | [] => by simp [GoMap.get, hne]
  | e :: l => by
    rw [List.cons_append]
    unfold GoMap.get
    split
    · rfl
    · exact get_last hne l

theorem comments_same {lookup : Str → Collect.Target → Option (Def Loaded)} {σ σ' : Nat → Sched} {n : Node} (hn : n.kind ≠ .file) : ∀ {files : List File} (i : Nat) {rs rs' : List (List (Node × List MarkerComment))},
    (∀ f ∈ files, f.WF) → associate lookup σ i files = some rs → associate lookup σ' i files = some rs' → nodeComments rs n = nodeComments rs' n
  | [], _, rs, rs', _, h1, h2 => by cases h1; cases h2; rfl
  | f :: fs, i, rs, rs', hf, h1, h2 => by
    have hwf : FileWF f.groups (.node f.node f.children) := hf f List.mem_cons_self
    obtain ⟨nodes, pkg, pkg', ha, ha', -⟩ := C60_partial (lookup := lookup) (σ i) (σ' i) hwf
    unfold associate at h1 h2
    rw [ha] at h1
    rw [ha'] at h2
    split at h1
    · rename_i r q hr hq
      cases hr; cases h1
      split at h2
      · rename_i r' q' hr' hq'
        cases hr'; cases h2
        have hne : f.node ≠ n := fun e => hn (e ▸ hwf.root _ _ rfl)
        have ih := comments_same hn (i + 1) (fun f hm => hf f (List.mem_cons_of_mem _ hm)) hq hq'
        unfold nodeComments at ih ⊢
        rw [List.flatMap_cons, List.flatMap_cons, ih, get_last hne, get_last hne]
      · cases h2
    · cases h1

/-- The types of a package, their fields and the markers of both are the same in two runs. -/
theorem types_same {syn : Syntax} {σ σ' : Nat → Sched} {files : List File} (hp : Parsed files) (hs : syn.OK files) : typesOf h E syn σ files = typesOf h E syn σ' files := by
  obtain ⟨rs, hrs⟩ := associate_some (lookup := lookupIn h) (σ := σ) hp.wf 0
  obtain ⟨rs', hrs'⟩ := associate_some (lookup := lookupIn h) (σ := σ') hp.wf 0
  have hfault : faulty (lookupIn h) (fun d => String.ofList d.name) (parseWith E) rs = faulty (lookupIn h) (fun d => String.ofList d.name) (parseWith E) rs' :=
    Bool.eq_iff_iff.2 ((faulty_iff hp.wf hrs).trans (faulty_iff hp.wf hrs').symm)
  unfold typesOf eachInfo
  rw [hrs, hrs']
  simp only [hfault]
  split
  · rfl
  congr 2
  refine List.map_congr_left fun e he => ?_
  rw [Each.C61_types _ (by
    intro t ht
    obtain ⟨f, hf, rfl⟩ := List.mem_map.1 ht
    exact hp.typed f hf)] at he
  obtain ⟨⟨d, s⟩, he', rfl⟩ := List.mem_map.1 he
  obtain ⟨t, ht, he'⟩ := List.mem_flatMap.1 he'
  obtain ⟨f, hf, rfl⟩ := List.mem_map.1 ht
  obtain ⟨-, hsm, hk⟩ := declared_mem he'
  have key : ∀ n : Node, n.kind ≠ .file → nodeValues (lookupIn h) (fun d => String.ofList d.name) (parseWith E) rs n = nodeValues (lookupIn h) (fun d => String.ofList d.name) (parseWith E) rs' n := by
    intro n hn
    unfold nodeValues
    rw [comments_same hn 0 hp.wf hrs hrs']
  unfold typeInfo
  simp only [key s (by rw [hk]; simp)]
  congr 1
  unfold fieldInfos
  cases hl : syn.structFields s with
  | none => rfl
  | some l =>
    show List.flatMap _ l = List.flatMap _ l
    rw [List.flatMap_def, List.flatMap_def]
    refine congrArg _ (List.map_congr_left fun x hx => ?_)
    have := (hs f hf s hsm l hl x hx).2
    simp only [key x (by rw [this]; simp)]

/-! ## Markers that types have, too -/

theorem pkg_fixed {Val Err : Type} {lookup : Str → Collect.Target → Option (Def Loaded)} {name : Def Loaded → String} {parse : Def Loaded → Str → Except Err Val} {k : String}
    (hk : ∀ s d, lookup s .package = some d → name d = k → lookup s .type ≠ none) {σ σ' : Nat → Sched} : ∀ {files : List File} (i : Nat) {rs rs' : List (List (Node × List MarkerComment))},
    (∀ f ∈ files, f.WF) → associate lookup σ i files = some rs → associate lookup σ' i files = some rs' →
      ((files.zip rs).map fun p => ((GoMap.get p.2 p.1.node).getD []).filterMap (valueFor lookup name parse .package k)) =
        (files.zip rs').map fun p => ((GoMap.get p.2 p.1.node).getD []).filterMap (valueFor lookup name parse .package k)
  | [], _, rs, rs', _, h1, h2 => by cases h1; cases h2; rfl
  | f :: fs, i, rs, rs', hf, h1, h2 => by
    have hwf : FileWF f.groups (.node f.node f.children) := hf f List.mem_cons_self
    unfold associate at h1 h2
    split at h1
    · rename_i r q hr hq
      cases h1
      split at h2
      · rename_i r' q' hr' hq'
        cases h2
        rw [List.zip_cons_cons, List.zip_cons_cons, List.map_cons, List.map_cons, pkg_fixed hk (i + 1) (fun f hm => hf f (List.mem_cons_of_mem _ hm)) hq hq']
        congr 1
        obtain ⟨v, e0, -, e1⟩ := associateFile_eq lookup (σ i) hwf
        obtain ⟨v', e0', -, e1'⟩ := associateFile_eq lookup (σ' i) hwf
        rw [e0] at e0'
        cases e0'
        have hmoved : ∀ τ : Sched, ((τ.order 0 v.nodes).flatMap (moved lookup)).filterMap (valueFor lookup name parse .package k) = [] := by
          intro τ
          rw [List.filterMap_eq_nil_iff]
          intro m hm
          obtain ⟨e, -, hm⟩ := List.mem_flatMap.1 hm
          unfold moved at hm
          split at hm
          · obtain ⟨-, hm⟩ := List.mem_filter.1 hm
            simp only [isPackageLevel, Bool.and_eq_true, Option.isNone_iff_eq_none] at hm
            unfold valueFor
            split
            · rfl
            · rename_i d hd
              split
              · rename_i hn
                exact absurd hm.1.2 (hk _ d hd hn)
              · rfl
          · cases hm
        have hget : ∀ {τ : Sched} {r : List (Node × List MarkerComment)}, associateFile lookup τ f.groups f.node f.children = some r →
            associateFile lookup τ f.groups f.node f.children = some (v.nodes.map (kept lookup) ++ [(f.node, v.pkg ++ (τ.order 0 v.nodes).flatMap (moved lookup))]) →
            ((GoMap.get r f.node).getD []).filterMap (valueFor lookup name parse .package k) = v.pkg.filterMap (valueFor lookup name parse .package k) := by
          intro τ r h3 h4
          rw [(GoMap.get_eq_some (assoc_wf (hf f List.mem_cons_self) h3)).2 (show (f.node, v.pkg ++ (τ.order 0 v.nodes).flatMap (moved lookup)) ∈ r by rw [h3] at h4; cases h4; simp)]
          rw [Option.getD_some, List.filterMap_append, hmoved, List.append_nil]
        rw [hget hr e1, hget hr' e1']
      · cases h2
    · cases h1

/-- The values of a marker of packages that types have, too, are the same in two runs. -/
theorem values_fixed {k : String} (hk : ∀ s d, lookupIn h s .package = some d → String.ofList d.name = k → lookupIn h s .type ≠ none) {σ σ' : Nat → Sched} {τ τ' : Sched} {files : List File} (hf : ∀ f ∈ files, f.WF)
    {res res' : Values (List (Str × Value))} (hr : markersOf h E σ τ files = some (some res)) (hr' : markersOf h E σ' τ' files = some (some res')) :
    (GoMap.get res k.toList).getD [] = (GoMap.get res' k.toList).getD [] := by
  have key : ∀ {σ : Nat → Sched} {τ : Sched} {res : Values (List (Str × Value))}, markersOf h E σ τ files = some (some res) → ∃ rs, associate (lookupIn h) σ 0 files = some rs ∧
      (GoMap.get res k.toList).getD [] = ((files.zip rs).map fun p => ((GoMap.get p.2 p.1.node).getD []).filterMap (valueFor (lookupIn h) (fun d => String.ofList d.name) (parseWith E) .package k)).flatten := by
    intro σ τ res hv
    unfold markersOf packageValues at hv
    split at hv
    · cases hv
    rename_i rs hrs
    split at hv
    · cases hv
    have hwf : ∀ w ∈ List.zipWith (fileValues (lookupIn h) (fun d => String.ofList d.name) (parseWith E)) files rs, GoMap.WF w := by
      intro w hw
      rw [mem_zipWith] at hw
      obtain ⟨⟨f, r⟩, _, rfl⟩ := hw
      have := parseNode_wf (lookup := lookupIn h) (name := fun d => String.ofList d.name) (parse := parseWith E) f.node.target ((GoMap.get r f.node).getD []) [] [] (by simp [GoMap.WF, GoMap.keys])
      simp only [fileValues, GoMap.WF, GoMap.keys, List.map_map, Function.comp_def] at this ⊢
      rw [show (fun e : String × List (List (Str × Value)) => e.1.toList) = String.toList ∘ Prod.fst from rfl, ← List.map_map]
      exact List.pairwise_map.2 (List.Pairwise.imp (fun h1 h2 => h1 (String.toList_injective h2)) this)
    obtain ⟨res', hres, hval, _⟩ := C69_values τ hwf k.toList
    rw [hres] at hv
    cases hv
    refine ⟨rs, hrs, ?_⟩
    rw [hval, flatMap_zipWith]
    congr 1
    refine List.map_congr_left fun p hp => ?_
    have hf := hf p.1 (List.of_mem_zip hp).1
    rw [fileValues, valuesIn_toList (parseNode_wf _ _ _ _ (by simp [GoMap.WF, GoMap.keys])), (C16_values (lookupIn h) _ _ p.1.node _).1 k, target_file hf]
  obtain ⟨rs, h1, h2⟩ := key hr
  obtain ⟨rs', h1', h2'⟩ := key hr'
  rw [h2, h2', pkg_fixed hk 0 hf h1 h1']

end Verif.Markers.Source

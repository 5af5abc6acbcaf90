import Verif.Markers.Source
import Verif.Markers.CollectTheorems
import Verif.Markers.PackageTheorems
/-!
# From the files of a package to the values of its package-level markers
-/
namespace Verif.Markers.Source
open Verif Verif.Markers.Collect Verif.Markers.Doc Verif.GoMap

/-- A file as it was parsed. -/
def File.WF (f : File) : Prop := FileWF f.groups (.node f.node f.children)

/-- The text of a comment without its slashes and the white space around it. -/
def textOf (c : Comment) : Str := trimSpace (c.text.drop 2)

/-- The comments of a file that are markers. -/
def File.Marks (f : File) (c : Comment) : Prop := ∃ g ∈ f.groups, c ∈ g.comments ∧ isMarkerComment c.text = true

variable {Def Val Err : Type} {lookup : Str → Collect.Target → Option Def} {name : Def → String} {parse : Def → Str → Except Err Val}

theorem associate_some {σ : Nat → Sched} {files : List File} (h : ∀ f ∈ files, f.WF) (i : Nat) : ∃ rs, associate lookup σ i files = some rs := by
  induction files generalizing i with
  | nil => exact ⟨[], rfl⟩
  | cons f files ih =>
    obtain ⟨r, hr⟩ := C16_no_panic lookup (σ i) (h f List.mem_cons_self)
    obtain ⟨rs, hrs⟩ := ih (fun f hf => h f (List.mem_cons_of_mem _ hf)) (i + 1)
    exact ⟨r :: rs, by rw [associate, hr, hrs]⟩

theorem associate_zip {σ : Nat → Sched} {files : List File} {i : Nat} {rs : List (List (Node × List MarkerComment))} (h : associate lookup σ i files = some rs) :
    files.length = rs.length ∧ (∀ f r, (f, r) ∈ files.zip rs → ∃ j, associateFile lookup (σ j) f.groups f.node f.children = some r) := by
  induction files generalizing i rs with
  | nil => cases h; exact ⟨rfl, fun _ _ h => by simp at h⟩
  | cons f files ih =>
    rw [associate] at h
    split at h
    · rename_i r rs' e1 e2
      cases h
      obtain ⟨h1, h2⟩ := ih e2
      refine ⟨by simp [h1], fun f' r' hm => ?_⟩
      rw [List.zip_cons_cons, List.mem_cons] at hm
      rcases hm with hm | hm
      · cases hm; exact ⟨i, e1⟩
      · exact h2 f' r' hm
    · cases h

theorem zip_left {files : List File} {β : Type} {rs : List β} (h : files.length = rs.length) {f : File} (hf : f ∈ files) : ∃ r, (f, r) ∈ files.zip rs := by
  induction files generalizing rs with
  | nil => cases hf
  | cons f' files ih =>
    cases rs with
    | nil => simp at h
    | cons r rs =>
      rcases List.mem_cons.1 hf with rfl | hf
      · exact ⟨r, by simp⟩
      · obtain ⟨r', hr⟩ := ih (by simpa using h) hf
        exact ⟨r', by simp [hr]⟩

theorem get_of_file {σ : Sched} {f : File} (h : f.WF) {r : List (Node × List MarkerComment)} (hr : associateFile lookup σ f.groups f.node f.children = some r) :
    ∃ ms, GoMap.get r f.node = some ms ∧ ∀ x b, Attached r f.node x b ↔ ⟨x, b⟩ ∈ ms := by
  obtain ⟨v, h3, h1, h5⟩ := associateFile_eq lookup σ h
  rw [h5] at hr
  cases hr
  have hkf : f.node ∉ keys (v.nodes.map (kept lookup)) := by
    intro hm
    obtain ⟨e', he', e1⟩ := List.mem_map.1 hm
    obtain ⟨e, he, h3⟩ := List.mem_map.1 he'
    have h4 : e.1 = f.node := by
      rw [← e1, ← h3]
      unfold kept
      split <;> rfl
    have := h1.kinds e.1 (List.mem_map_of_mem (f := Prod.fst) he)
    rw [h4, h.root f.node f.children rfl] at this
    simp at this
  refine ⟨v.pkg ++ ((σ.order 0 v.nodes).flatMap (moved lookup)), ?_, fun x b => ?_⟩
  · generalize v.nodes.map (kept lookup) = l at hkf ⊢
    induction l with
    | nil => simp [GoMap.get]
    | cons e l ih =>
      simp only [keys, List.map_cons, List.mem_cons, not_or] at hkf
      rw [List.cons_append, GoMap.get, if_neg (Ne.symm hkf.1)]
      exact ih hkf.2
  · constructor
    · rintro ⟨ms, h6, h7⟩
      rcases List.mem_append.1 h6 with h6 | h6
      · exact absurd (List.mem_map_of_mem (f := Prod.fst) h6) hkf
      · cases List.mem_singleton.1 h6; exact h7
    · intro h6
      exact ⟨_, List.mem_append_right _ (List.mem_singleton.2 rfl), h6⟩

/-- What is attached to the package does not depend on the order of maps. -/
theorem attached_sched {σ σ' : Sched} {f : File} (h : f.WF) {r r' : List (Node × List MarkerComment)} (hr : associateFile lookup σ f.groups f.node f.children = some r)
    (hr' : associateFile lookup σ' f.groups f.node f.children = some r') {n : Node} {x : Comment} {b : Bool} (ha : Attached r n x b) : Attached r' n x b := by
  obtain ⟨nodes, pkg, pkg', h1, h2, hp⟩ := C60_partial lookup σ σ' h
  rw [hr] at h1; cases h1
  rw [hr'] at h2; cases h2
  obtain ⟨ms, h3, h4⟩ := ha
  rcases List.mem_append.1 h3 with h3 | h3
  · exact ⟨ms, List.mem_append_left _ h3, h4⟩
  · cases List.mem_singleton.1 h3
    exact ⟨pkg', List.mem_append_right _ (List.mem_singleton.2 rfl), hp.mem_iff.1 h4⟩

theorem target_file {f : File} (h : f.WF) : f.node.target = .package := by
  have := h.root f.node f.children rfl
  simp [Node.target, this]

theorem parseNode_wf (t : Collect.Target) : ∀ (ms : List MarkerComment) (vals : List (String × List Val)) (errs : List (MarkerComment × Err)), GoMap.WF vals →
    GoMap.WF (parseNode lookup name parse t ms vals errs).1
  | [], vals, errs, h => h
  | m :: ms, vals, errs, h => by
    rw [parseNode]
    split
    · exact parseNode_wf t ms _ _ h
    · exact parseNode_wf t ms _ _ h
    · exact parseNode_wf t ms _ _ (appendAt_wf h _ _)

theorem valuesIn_toList {l : List (String × List Val)} (h : GoMap.WF l) (k : String) : valuesIn k.toList (l.map fun e => (e.1.toList, e.2)) = (GoMap.get l k).getD [] := by
  induction l with
  | nil => rfl
  | cons e l ih =>
    have h' := (List.nodup_cons.1 h).2
    simp only [valuesIn, List.map_cons, List.flatMap_cons] at ih ⊢
    rw [ih h', GoMap.get]
    by_cases hk : e.1 = k
    · subst hk
      have : GoMap.get l e.1 = none := GoMap.get_eq_none.2 (List.nodup_cons.1 h).1
      simp [this]
    · have : ¬ e.1.toList = k.toList := fun e' => hk (String.toList_injective e')
      simp [hk, this]

theorem mem_zipWith {α β γ : Type} {g : α → β → γ} {w : γ} : ∀ {l : List α} {m : List β}, w ∈ List.zipWith g l m ↔ ∃ p ∈ l.zip m, g p.1 p.2 = w
  | [], _ => by simp
  | _ :: _, [] => by simp
  | a :: l, b :: m => by
    simp only [List.zipWith_cons_cons, List.zip_cons_cons, List.mem_cons, mem_zipWith (l := l), exists_eq_or_imp]
    exact or_congr eq_comm Iff.rfl

/-- The values of a package-level marker are those of the comments that are attached to the package and have its definition. -/
theorem mem_packageValues {σ : Nat → Sched} {τ : Sched} {files : List File} (h : ∀ f ∈ files, f.WF) {vals : Values Val} (hv : packageValues lookup name parse σ τ files = some (some vals)) (k : String) (v : Val) :
    v ∈ (GoMap.get vals k.toList).getD [] ↔ ∃ f ∈ files, ∃ ρ r c b d, associateFile lookup ρ f.groups f.node f.children = some r ∧ Attached r f.node c b ∧
      lookup (textOf c) .package = some d ∧ name d = k ∧ parse d (textOf c) = .ok v := by
  unfold packageValues at hv
  split at hv
  · cases hv
  rename_i rs hrs
  split at hv
  · cases hv
  obtain ⟨hlen, hz⟩ := associate_zip hrs
  have hwf : ∀ w ∈ List.zipWith (fileValues lookup name parse) files rs, GoMap.WF w := by
    intro w hw
    rw [mem_zipWith] at hw
    obtain ⟨⟨f, r⟩, _, rfl⟩ := hw
    have := parseNode_wf (lookup := lookup) (name := name) (parse := parse) f.node.target ((GoMap.get r f.node).getD []) [] [] (by simp [GoMap.WF, keys])
    simp only [fileValues, GoMap.WF, keys, List.map_map, Function.comp_def] at this ⊢
    rw [show (fun e : String × List Val => e.1.toList) = String.toList ∘ Prod.fst from rfl, ← List.map_map]
    exact List.pairwise_map.2 (List.Pairwise.imp (fun h1 h2 => h1 (String.toList_injective h2)) this)
  obtain ⟨res, hres, hval, _⟩ := C69_values τ hwf k.toList
  rw [hres] at hv
  cases hv
  rw [hval, List.mem_flatMap]
  have one : ∀ f r, (f, r) ∈ files.zip rs → (v ∈ valuesIn k.toList (fileValues lookup name parse f r) ↔ ∃ c b d, Attached r f.node c b ∧ lookup (textOf c) .package = some d ∧ name d = k ∧ parse d (textOf c) = .ok v) := by
    intro f r hm
    have hf := h f (List.of_mem_zip hm).1
    obtain ⟨j, hj⟩ := hz f r hm
    obtain ⟨ms, h1, h2⟩ := get_of_file hf hj
    rw [fileValues, valuesIn_toList (parseNode_wf _ _ _ _ (by simp [GoMap.WF, keys])), h1, (C16_values lookup name parse f.node _).1 k, target_file hf, Option.getD_some, List.mem_filterMap]
    constructor
    · rintro ⟨⟨c, b⟩, h3, h4⟩
      unfold valueFor at h4
      split at h4
      · cases h4
      · rename_i d hd
        split at h4
        · rename_i hn
          refine ⟨c, b, d, (h2 c b).2 h3, hd, hn, ?_⟩
          cases hp : parse d (trimSpace (c.text.drop 2)) with
          | error e => rw [hp] at h4; cases h4
          | ok w => rw [hp] at h4; cases h4; exact hp
        · cases h4
    · rintro ⟨c, b, d, h3, h4, h5, h6⟩
      refine ⟨⟨c, b⟩, (h2 c b).1 h3, ?_⟩
      unfold valueFor
      rw [show lookup (trimSpace (c.text.drop 2)) .package = some d from h4]
      simp only [if_pos h5, show parse d (trimSpace (c.text.drop 2)) = .ok v from h6]
      rfl
  constructor
  · rintro ⟨w, hw, hvw⟩
    rw [mem_zipWith] at hw
    obtain ⟨⟨f, r⟩, hm, rfl⟩ := hw
    obtain ⟨c, b, d, h3⟩ := (one f r hm).1 hvw
    obtain ⟨j, hj⟩ := hz f r hm
    exact ⟨f, (List.of_mem_zip hm).1, σ j, r, c, b, d, hj, h3⟩
  · rintro ⟨f, hf, ρ, r, c, b, d, hr, ha, h3⟩
    obtain ⟨r', hm⟩ := zip_left hlen hf
    obtain ⟨j, hj⟩ := hz f r' hm
    refine ⟨_, ?_, (one f r' hm).2 ⟨c, b, d, attached_sched (h f hf) hr hj ha, h3⟩⟩
    exact mem_zipWith.2 ⟨(f, r'), hm, rfl⟩

/-- Some marker that is attached to a node does not parse. -/
theorem faulty_iff {σ : Nat → Sched} {files : List File} (h : ∀ f ∈ files, f.WF) {rs : List (List (Node × List MarkerComment))} (hrs : associate lookup σ 0 files = some rs) :
    faulty lookup name parse rs = true ↔ ∃ f ∈ files, ∃ ρ r n c b d e, associateFile lookup ρ f.groups f.node f.children = some r ∧ Attached r n c b ∧ lookup (textOf c) n.target = some d ∧ parse d (textOf c) = .error e := by
  obtain ⟨hlen, hz⟩ := associate_zip hrs
  have node : ∀ (n : Node) (ms : List MarkerComment), (!(parseNode lookup name parse n.target ms [] []).2.isEmpty) = true ↔ ∃ c b d e, (⟨c, b⟩ : MarkerComment) ∈ ms ∧ lookup (textOf c) n.target = some d ∧ parse d (textOf c) = .error e := by
    intro n ms
    rw [(C16_values lookup name parse n ms).2]
    simp only [Bool.not_eq_true', List.isEmpty_eq_false_iff_exists_mem, List.mem_filterMap]
    constructor
    · rintro ⟨x, ⟨c, b⟩, h1, h2⟩
      unfold errorOf at h2
      split at h2
      · cases h2
      · rename_i d hd
        split at h2
        · cases h2
        · rename_i e he
          exact ⟨c, b, d, e, h1, hd, he⟩
    · rintro ⟨c, b, d, e, h1, h2, h3⟩
      refine ⟨(⟨c, b⟩, e), ⟨c, b⟩, h1, ?_⟩
      unfold errorOf
      rw [show lookup (trimSpace (c.text.drop 2)) n.target = some d from h2]
      simp only [show parse d (trimSpace (c.text.drop 2)) = .error e from h3]
  unfold faulty
  simp only [List.any_eq_true]
  constructor
  · rintro ⟨r, hr, ⟨n, ms⟩, hm, hb⟩
    obtain ⟨c, b, d, e, h1, h2, h3⟩ := (node n ms).1 hb
    obtain ⟨i, hi, rfl⟩ := List.mem_iff_getElem.1 hr
    have hmz : (files[i]'(by omega), rs[i]) ∈ files.zip rs := by
      have hl : i < (files.zip rs).length := by simp; omega
      have := List.getElem_mem hl
      rwa [List.getElem_zip] at this
    obtain ⟨j, hj⟩ := hz _ _ hmz
    exact ⟨_, (List.of_mem_zip hmz).1, σ j, rs[i], n, c, b, d, e, hj, ⟨ms, hm, h1⟩, h2, h3⟩
  · rintro ⟨f, hf, ρ, r, n, c, b, d, e, hr, ha, h2, h3⟩
    obtain ⟨r', hm⟩ := zip_left hlen hf
    obtain ⟨j, hj⟩ := hz f r' hm
    obtain ⟨ms, h4, h5⟩ := attached_sched (h f hf) hr hj ha
    exact ⟨r', (List.of_mem_zip hm).2, (n, ms), h4, (node n ms).2 ⟨c, b, d, e, h5, h2, h3⟩⟩

/-- Reading the markers of a package never panics; it fails exactly if some marker that is attached to a node does not parse. -/
theorem packageValues_fails {σ : Nat → Sched} {τ : Sched} {files : List File} (h : ∀ f ∈ files, f.WF) : ∃ res, packageValues lookup name parse σ τ files = some res ∧
    (res = none ↔ ∃ f ∈ files, ∃ ρ r n c b d e, associateFile lookup ρ f.groups f.node f.children = some r ∧ Attached r n c b ∧ lookup (textOf c) n.target = some d ∧ parse d (textOf c) = .error e) := by
  obtain ⟨rs, hrs⟩ := associate_some (lookup := lookup) (σ := σ) h 0
  obtain ⟨hlen, hz⟩ := associate_zip hrs
  have hfault := faulty_iff (name := name) (parse := parse) h hrs
  unfold packageValues
  rw [hrs]
  simp only
  by_cases hb : faulty lookup name parse rs = true
  · rw [if_pos hb]
    exact ⟨none, rfl, fun _ => hfault.1 hb, fun _ => rfl⟩
  · rw [if_neg hb]
    refine ⟨_, rfl, ?_⟩
    simp only [packageMarkers, reduceCtorEq, false_iff]
    exact fun he => hb (hfault.2 he)

end Verif.Markers.Source

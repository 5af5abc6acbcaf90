import Verif.CrdGen.Spec

/-! # Lemmas on CRD markers -/
namespace Verif.CrdGen
open Spec

/-- The effect of a marker on the entry of its version. -/
def eff : Marker → Version → Version
  | .status, w => setStatus w
  | .scale s, w => setScale s w
  | .printColumn c, w => addColumn c w
  | .selectableField p, w => { w with selectable := w.selectable ++ [p] }
  | .storageVersion, w => if w.name = "" then w else { w with storage := true }
  | .unservedVersion, w => { w with served := false }
  | .deprecatedVersion x, w => if w.name = "" then w else { w with deprecated := true, warning := x }
  | _, w => w

theorem eff_name (m : Marker) (w : Version) : (eff m w).name = w.name := by
  cases m <;> simp only [eff, setStatus, setScale, addColumn] <;> split <;> rfl

/-- Whether the marker removes the version. -/
def drops (v : String) (ev : String × Marker) : Bool := decide (ev.1 = v ∧ ev.2 = .skipVersion ∧ v ≠ "")

theorem onFirst_none {v : String} {f : Version → Version} {l : List Version} : onFirst v f l = none ↔ v ∉ l.map (·.name) := by
  induction l with
  | nil => simp [onFirst]
  | cons w l ih =>
    rw [onFirst]
    by_cases h : w.name = v
    · simp [h]
    · rw [if_neg h]
      simp only [Option.map_eq_none_iff, ih, List.map_cons, List.mem_cons, not_or]
      exact ⟨fun h' => ⟨fun e => h e.symm, h'⟩, fun h' => h'.2⟩

theorem onFirst_some {v : String} {f : Version → Version} {l : List Version} (hn : (l.map (·.name)).Nodup) (hv : v ∈ l.map (·.name)) :
    onFirst v f l = some (l.map fun w => if w.name = v then f w else w) := by
  induction l with
  | nil => cases hv
  | cons w l ih =>
    rw [onFirst]
    simp only [List.map_cons, List.nodup_cons] at hn
    by_cases h : w.name = v
    · rw [if_pos h]
      simp only [List.map_cons, if_pos h, Option.some.injEq, List.cons.injEq, true_and]
      have : ∀ x ∈ l, (if x.name = v then f x else x) = x := by
        intro x hx
        by_cases hxv : x.name = v
        · exact (hn.1 (by rw [h, ← hxv]; exact List.mem_map_of_mem hx)).elim
        · rw [if_neg hxv]
      exact (List.map_id l).symm.trans (List.map_congr_left fun x hx => (this x hx).symm)
    · rw [if_neg h]
      have hv' : v ∈ l.map (·.name) := by
        simp only [List.map_cons, List.mem_cons] at hv
        exact hv.resolve_left fun e => h e.symm
      rw [ih hn.2 hv']
      simp [h]

theorem map_if_absent {v : String} {f : Version → Version} {l : List Version} (hv : v ∉ l.map (·.name)) :
    (l.map fun w => if w.name = v then f w else w) = l := by
  refine (List.map_congr_left fun x hx => ?_).trans (List.map_id l)
  rw [if_neg]
  · rfl
  · intro e; exact hv (by rw [← e]; exact List.mem_map_of_mem hx)

theorem orError_versions {what v : String} {f : Version → Version} {crd : Crd} (hn : (crd.versions.map (·.name)).Nodup) :
    (orError what v f crd).crd = { crd with versions := crd.versions.map fun w => if w.name = v then f w else w } ∧
    (orError what v f crd).err = if v ∈ crd.versions.map (·.name) then none else some (.notInCrd what v) := by
  unfold orError
  by_cases hv : v ∈ crd.versions.map (·.name)
  · rw [onFirst_some hn hv, if_pos hv]; exact ⟨rfl, rfl⟩
  · rw [onFirst_none.2 hv, if_neg hv, map_if_absent hv]; exact ⟨rfl, rfl⟩

theorem orNothing_versions {v : String} {f : Version → Version} {crd : Crd} (hn : (crd.versions.map (·.name)).Nodup) :
    (orNothing v f crd).crd = { crd with versions := crd.versions.map fun w => if w.name = v then f w else w } ∧
    (orNothing v f crd).err = none := by
  unfold orNothing
  by_cases hv : v ∈ crd.versions.map (·.name)
  · rw [onFirst_some hn hv]; exact ⟨rfl, rfl⟩
  · rw [onFirst_none.2 hv, map_if_absent hv]; exact ⟨rfl, rfl⟩

/-- The error of a marker, when it is not about a missing version. -/
def firstBad : List String → Option String
  | [] => none
  | s :: ss => if '=' ∈ s.toList then firstBad ss else some s

/-- What a marker does to the versions. -/
theorem apply_versions {m : Marker} {v : String} {crd : Crd} {a : Applied} (hn : (crd.versions.map (·.name)).Nodup) (h : apply m v crd = some a) :
    a.crd.versions = (crd.versions.filter fun w => !drops w.name (v, m)).map fun w => if w.name = v then eff m w else w := by
  have hkeep : ∀ m', m' ≠ .skipVersion → (crd.versions.filter fun w => !drops w.name (v, m')) = crd.versions := by
    intro m' hm
    refine List.filter_eq_self.2 fun w _ => ?_
    simp [drops, hm]
  have hid : (crd.versions.map fun w : Version => if w.name = v then w else w) = crd.versions := by simp
  cases m with
  | status => cases h; rw [hkeep _ (by simp), (orError_versions hn).1]; rfl
  | scale s => cases h; rw [hkeep _ (by simp), (orError_versions hn).1]; rfl
  | printColumn c => cases h; rw [hkeep _ (by simp), (orError_versions hn).1]; rfl
  | selectableField p => cases h; rw [hkeep _ (by simp), (orError_versions hn).1]; rfl
  | unservedVersion => cases h; rw [hkeep _ (by simp), (orNothing_versions hn).1]; rfl
  | storageVersion =>
    cases h
    rw [hkeep _ (by simp)]
    by_cases hv : v = ""
    · rw [if_pos hv]
      refine hid.symm.trans (List.map_congr_left fun w _ => ?_)
      by_cases hw : w.name = v
      · simp only [if_pos hw, eff]; rw [if_pos (hw.trans hv)]
      · simp only [if_neg hw]
    · rw [if_neg hv, (orNothing_versions hn).1]
      refine List.map_congr_left fun w _ => ?_
      by_cases hw : w.name = v
      · simp only [if_pos hw, eff]; rw [if_neg (hw.symm ▸ hv)]
      · simp only [if_neg hw]
  | deprecatedVersion x =>
    cases h
    rw [hkeep _ (by simp)]
    by_cases hv : v = ""
    · rw [if_pos hv]
      refine hid.symm.trans (List.map_congr_left fun w _ => ?_)
      by_cases hw : w.name = v
      · simp only [if_pos hw, eff]; rw [if_pos (hw.trans hv)]
      · simp only [if_neg hw]
    · rw [if_neg hv, (orNothing_versions hn).1]
      refine List.map_congr_left fun w _ => ?_
      by_cases hw : w.name = v
      · simp only [if_pos hw, eff]; rw [if_neg (hw.symm ▸ hv)]
      · simp only [if_neg hw]
  | skipVersion =>
    cases h
    have hmap : ∀ l : List Version, (l.map fun w : Version => if w.name = v then eff .skipVersion w else w) = l := by
      intro l
      refine (List.map_congr_left fun w _ => ?_).trans (List.map_id l)
      simp [eff]
    rw [hmap]
    by_cases hv : v = ""
    · rw [if_pos hv]
      refine (List.filter_eq_self.2 fun w _ => ?_).symm
      simp only [drops, Bool.not_eq_true', decide_eq_false_iff_not, not_and]
      intro hw _ hne
      exact hne (hw ▸ hv)
    · rw [if_neg hv]
      refine List.filter_congr fun w _ => ?_
      by_cases hw : w.name = v
      · simp [drops, hw, hv]
      · have : ¬ v = w.name := fun e => hw e.symm
        simp [drops, hw, this]
  | resource r =>
    cases h
    rw [hkeep _ (by simp)]
    refine hid.symm.trans (List.map_congr_left fun w _ => ?_)
    simp [eff]
  | other =>
    cases h
    rw [hkeep _ (by simp)]
    refine hid.symm.trans (List.map_congr_left fun w _ => ?_)
    simp [eff]
  | metadata an la =>
    rw [hkeep _ (by simp)]
    have : a.crd.versions = crd.versions := by
      simp only [apply, setMetadata] at h
      split at h
      · cases h; rfl
      · split at h
        · cases h
        · cases h; rfl
    rw [this]
    refine hid.symm.trans (List.map_congr_left fun w _ => ?_)
    simp [eff]

/-- The markers of a version, in turn. -/
def effs (v : String) (es : List (String × Marker)) (w : Version) : Version :=
  es.foldl (fun w ev => if v = ev.1 then eff ev.2 w else w) w

theorem effs_name (v : String) (es : List (String × Marker)) (w : Version) : (effs v es w).name = w.name := by
  induction es generalizing w with
  | nil => rfl
  | cons e es ih =>
    unfold effs at ih ⊢
    rw [List.foldl_cons, ih]
    split
    · exact eff_name _ _
    · rfl

theorem applyAll_versions {es : List (String × Marker)} {crd crd' : Crd} {errs errs' : List Err} (hn : (crd.versions.map (·.name)).Nodup)
    (h : applyAll es crd errs = some (crd', errs')) :
    crd'.versions = (crd.versions.filter fun w => !es.any (drops w.name)).map fun w => effs w.name es w := by
  induction es generalizing crd errs with
  | nil =>
    cases h
    simp only [List.any_nil, Bool.not_false, effs, List.foldl_nil, List.map_id']
    exact (List.filter_eq_self.2 (by simp)).symm
  | cons e es ih =>
    obtain ⟨v, m⟩ := e
    rw [applyAll] at h
    split at h
    · cases h
    · rename_i a ha
      have hv := apply_versions hn ha
      have hnames : (a.crd.versions.map (·.name)) = (crd.versions.filter fun w => !drops w.name (v, m)).map (·.name) := by
        rw [hv, List.map_map]
        refine List.map_congr_left fun w _ => ?_
        simp only [Function.comp]
        split
        · exact eff_name _ _
        · rfl
      have hn' : (a.crd.versions.map (·.name)).Nodup := by
        rw [hnames]
        exact hn.sublist ((List.filter_sublist (l := crd.versions)).map _)
      rw [ih hn' h, hv, List.filter_map, List.map_map, List.filter_filter]
      have hfil : (crd.versions.filter fun w => (((fun w : Version => !es.any (drops w.name)) ∘ fun w => if w.name = v then eff m w else w) w && !drops w.name (v, m))) =
          crd.versions.filter fun w => !((v, m) :: es).any (drops w.name) := by
        refine List.filter_congr fun w _ => ?_
        have : (if w.name = v then eff m w else w).name = w.name := by
          split
          · exact eff_name _ _
          · rfl
        simp only [Function.comp, this, List.any_cons, Bool.not_or, Bool.and_comm]
      rw [hfil]
      refine List.map_congr_left fun w _ => ?_
      have : (if w.name = v then eff m w else w).name = w.name := by
        split
        · exact eff_name _ _
        · rfl
      simp only [Function.comp, this]
      rfl

/-- The markers on a type, in turn, as they act on the entry of the version. -/
def run (ms : List Marker) (w : Version) : Version := ms.foldl (fun w m => eff m w) w

/-- The markers applied with a version. -/
def ofVersion (v : String) (es : List (String × Marker)) : List Marker := es.filterMap fun ev => if v = ev.1 then some ev.2 else none

theorem effs_run (v : String) (es : List (String × Marker)) (w : Version) : effs v es w = run (ofVersion v es) w := by
  induction es generalizing w with
  | nil => rfl
  | cons e es ih =>
    unfold effs at ih
    unfold effs
    rw [List.foldl_cons, ih]
    unfold ofVersion
    rw [List.filterMap_cons]
    split <;> rename_i hv
    · simp only [hv, if_true]; rfl
    · simp only [hv, if_false]

/-- The last warning. -/
def lastWarning : List Marker → Option String → Option String
  | [], d => d
  | .deprecatedVersion x :: ms, _ => lastWarning ms x
  | _ :: ms, d => lastWarning ms d

/-- The last scale. -/
def lastScale : List Marker → Option Scale → Option Scale
  | [], d => d
  | .scale x :: ms, _ => lastScale ms (some x)
  | _ :: ms, d => lastScale ms d

theorem run_name (ms : List Marker) (w : Version) : (run ms w).name = w.name := by
  induction ms generalizing w with
  | nil => rfl
  | cons m ms ih => exact (ih _).trans (eff_name m w)

theorem run_schema (ms : List Marker) (w : Version) : (run ms w).schema = w.schema := by
  induction ms generalizing w with
  | nil => rfl
  | cons m ms ih =>
    refine (ih _).trans ?_
    cases m <;> simp only [eff, setStatus, setScale, addColumn] <;> split <;> rfl

theorem run_served (ms : List Marker) (w : Version) : (run ms w).served = true ↔ w.served = true ∧ .unservedVersion ∉ ms := by
  induction ms generalizing w with
  | nil => simp [run]
  | cons m ms ih =>
    refine (ih _).trans ?_
    cases m <;> simp only [eff, setStatus, setScale, addColumn] <;> (try split) <;> simp

theorem run_storage (ms : List Marker) (w : Version) : (run ms w).storage = true ↔ w.storage = true ∨ (w.name ≠ "" ∧ .storageVersion ∈ ms) := by
  induction ms generalizing w with
  | nil => simp [run]
  | cons m ms ih =>
    refine (ih _).trans ?_
    rw [eff_name]
    cases m <;> simp only [eff, setStatus, setScale, addColumn] <;> (try split) <;> simp_all

theorem run_deprecated (ms : List Marker) (w : Version) :
    (run ms w).deprecated = true ↔ w.deprecated = true ∨ (w.name ≠ "" ∧ ∃ x, .deprecatedVersion x ∈ ms) := by
  induction ms generalizing w with
  | nil => simp [run]
  | cons m ms ih =>
    refine (ih _).trans ?_
    rw [eff_name]
    cases m <;> simp only [eff, setStatus, setScale, addColumn] <;> (try split) <;> simp_all

theorem run_warning (ms : List Marker) (w : Version) : (run ms w).warning = if w.name = "" then w.warning else lastWarning ms w.warning := by
  induction ms generalizing w with
  | nil => simp [run, lastWarning]
  | cons m ms ih =>
    refine (ih _).trans ?_
    rw [eff_name]
    cases m <;> simp only [eff, setStatus, setScale, addColumn, lastWarning] <;> (try split) <;> simp_all

theorem run_columns (ms : List Marker) (w : Version) : (run ms w).columns = w.columns ++ columns ms := by
  induction ms generalizing w with
  | nil => simp [run, columns]
  | cons m ms ih =>
    refine (ih _).trans ?_
    cases m <;> simp only [eff, setStatus, setScale, addColumn, columns] <;> (try split) <;> simp

theorem run_selectable (ms : List Marker) (w : Version) : (run ms w).selectable = w.selectable ++ fields ms := by
  induction ms generalizing w with
  | nil => simp [run, fields]
  | cons m ms ih =>
    refine (ih _).trans ?_
    cases m <;> simp only [eff, setStatus, setScale, addColumn, fields] <;> (try split) <;> simp

theorem run_sub (ms : List Marker) (w : Version) :
    (run ms w).sub.isSome = true ↔ w.sub.isSome = true ∨ .status ∈ ms ∨ (∃ s, .scale s ∈ ms) ∨ ∃ c, .printColumn c ∈ ms := by
  induction ms generalizing w with
  | nil => simp [run]
  | cons m ms ih =>
    refine (ih _).trans ?_
    cases m <;> simp only [eff, setStatus, setScale, addColumn] <;> (try split) <;> simp [exists_or, or_assoc, or_left_comm]

theorem run_status (ms : List Marker) (w : Version) : ((run ms w).sub.getD {}).status = true ↔ (w.sub.getD {}).status = true ∨ .status ∈ ms := by
  induction ms generalizing w with
  | nil => simp [run]
  | cons m ms ih =>
    refine (ih _).trans ?_
    cases m <;> simp only [eff, setStatus, setScale, addColumn] <;> (try split) <;> simp

theorem run_scale (ms : List Marker) (w : Version) : ((run ms w).sub.getD {}).scale = lastScale ms (w.sub.getD {}).scale := by
  induction ms generalizing w with
  | nil => simp [run, lastScale]
  | cons m ms ih =>
    refine (ih _).trans ?_
    cases m <;> simp only [eff, setStatus, setScale, addColumn, lastScale] <;> (try split) <;> simp

/-! ## The markers of a type, in any order of the map -/

/-- The markers of a type in the order of iteration. -/
def own (σ : Sched) (t : Nat) (e : Entry) : List Marker := (σ.order t e.markers).flatMap (·.2)

theorem mem_own {σ : Sched} {t : Nat} {e : Entry} {m : Marker} : m ∈ own σ t e ↔ On e m := by
  simp only [own, List.mem_flatMap, σ.mem_order]
  exact ⟨fun ⟨x, hx, hm⟩ => ⟨x.1, x.2, hx, hm⟩, fun ⟨n, vs, hx, hm⟩ => ⟨(n, vs), hx, hm⟩⟩

theorem filter_flatMap_key {l : List (String × List Marker)} (hw : GoMap.WF l) {n : String} {p : Marker → Bool}
    (hp : ∀ x ∈ l, ∀ m ∈ x.2, p m = true → x.1 = n) : (l.flatMap (·.2)).filter p = ((GoMap.get l n).getD []).filter p := by
  induction l with
  | nil => rfl
  | cons x l ih =>
    obtain ⟨k, vs⟩ := x
    have hw' : GoMap.WF l ∧ k ∉ GoMap.keys l := by
      have : (GoMap.keys ((k, vs) :: l)).Nodup := hw
      rw [show GoMap.keys ((k, vs) :: l) = k :: GoMap.keys l from rfl, List.nodup_cons] at this
      exact ⟨this.2, this.1⟩
    rw [List.flatMap_cons, List.filter_append, ih hw'.1 (fun x hx => hp x (List.mem_cons_of_mem _ hx)), GoMap.get]
    by_cases hk : k = n
    · rw [if_pos hk]
      have : GoMap.get l n = none := GoMap.get_eq_none.2 (hk ▸ hw'.2)
      rw [this]
      simp
    · rw [if_neg hk]
      have : vs.filter p = [] := List.filter_eq_nil_iff.2 fun m hm hpm => hk (hp (k, vs) (List.mem_cons_self ..) m hm hpm)
      rw [this, List.nil_append]

theorem get_perm {ν : Type} {l l' : List (String × ν)} (h : l.Perm l') (hw : GoMap.WF l) (n : String) : GoMap.get l n = GoMap.get l' n := by
  have hw' := hw.perm h
  cases hg : GoMap.get l' n with
  | none =>
    rw [GoMap.get_eq_none] at hg ⊢
    intro hk
    obtain ⟨v, hv⟩ := GoMap.mem_keys.1 hk
    exact hg (GoMap.mem_keys.2 ⟨v, h.mem_iff.1 hv⟩)
  | some v =>
    rw [GoMap.get_eq_some hw'] at hg
    rw [GoMap.get_eq_some hw]
    exact h.mem_iff.2 hg

theorem own_filter {σ : Sched} {t : Nat} {e : Entry} (hc : Collected e) {n : String} {p : Marker → Bool} (hp : ∀ m, p m = true → nameOf m = some n) :
    (own σ t e).filter p = (written e n).filter p := by
  have hw : GoMap.WF (σ.order t e.markers) := hc.1.perm (σ.perm t e.markers).symm
  rw [own, filter_flatMap_key hw (n := n), written, get_perm (σ.perm t e.markers) hw]
  intro x hx m hm hpm
  rcases hc.2 x.1 x.2 ((σ.mem_order t e.markers x).1 hx) m hm with h | h
  · rw [hp m hpm] at h; exact (Option.some.inj h).symm
  · rw [h.1] at hpm; have := hp _ hpm; simp [nameOf] at this

def isColumn : Marker → Bool | .printColumn _ => true | _ => false
def isField : Marker → Bool | .selectableField _ => true | _ => false
def isWarning : Marker → Bool | .deprecatedVersion _ => true | _ => false
def isScale : Marker → Bool | .scale _ => true | _ => false

theorem columns_filter (ms : List Marker) : columns (ms.filter isColumn) = columns ms := by
  induction ms with
  | nil => rfl
  | cons m ms ih => cases m <;> simp [isColumn, columns, List.filter_cons] <;> exact ih

theorem fields_filter (ms : List Marker) : fields (ms.filter isField) = fields ms := by
  induction ms with
  | nil => rfl
  | cons m ms ih => cases m <;> simp [isField, fields, List.filter_cons] <;> exact ih

theorem lastWarning_filter (ms : List Marker) (d : Option String) : lastWarning (ms.filter isWarning) d = lastWarning ms d := by
  induction ms generalizing d with
  | nil => rfl
  | cons m ms ih => cases m <;> simp [isWarning, lastWarning, List.filter_cons] <;> exact ih _

theorem lastScale_filter (ms : List Marker) (d : Option Scale) : lastScale (ms.filter isScale) d = lastScale ms d := by
  induction ms generalizing d with
  | nil => rfl
  | cons m ms ih => cases m <;> simp [isScale, lastScale, List.filter_cons] <;> exact ih _

theorem lastWarning_last {ms : List Marker} (h : ∀ m ∈ ms, isWarning m = true) (d : Option String) :
    lastWarning ms d = match ms.getLast? with | some (.deprecatedVersion x) => x | _ => d := by
  induction ms generalizing d with
  | nil => rfl
  | cons m ms ih =>
    have hm := h m (List.mem_cons_self ..)
    cases m <;> simp only [isWarning, Bool.false_eq_true] at hm
    rename_i x
    rw [lastWarning, ih (fun m hm => h m (List.mem_cons_of_mem _ hm))]
    cases ms with
    | nil => rfl
    | cons m' ms' =>
      rw [List.getLast?_cons_cons]
      have hl : ∃ y, (m' :: ms').getLast? = some (.deprecatedVersion y) := by
        have hin : (m' :: ms').getLast (by simp) ∈ m' :: ms' := List.getLast_mem _
        have hq := h _ (List.mem_cons_of_mem _ hin)
        rw [List.getLast?_eq_some_getLast (by simp)]
        cases hz : (m' :: ms').getLast (by simp) <;> rw [hz] at hq <;> simp only [isWarning, Bool.false_eq_true] at hq
        exact ⟨_, rfl⟩
      obtain ⟨y, hy⟩ := hl
      rw [hy]

theorem lastScale_last {ms : List Marker} (h : ∀ m ∈ ms, isScale m = true) (d : Option Scale) :
    lastScale ms d = match ms.getLast? with | some (.scale x) => some x | _ => d := by
  induction ms generalizing d with
  | nil => rfl
  | cons m ms ih =>
    have hm := h m (List.mem_cons_self ..)
    cases m <;> simp only [isScale, Bool.false_eq_true] at hm
    rename_i x
    rw [lastScale, ih (fun m hm => h m (List.mem_cons_of_mem _ hm))]
    cases ms with
    | nil => rfl
    | cons m' ms' =>
      rw [List.getLast?_cons_cons]
      have hl : ∃ y, (m' :: ms').getLast? = some (.scale y) := by
        have hin : (m' :: ms').getLast (by simp) ∈ m' :: ms' := List.getLast_mem _
        have hq := h _ (List.mem_cons_of_mem _ hin)
        rw [List.getLast?_eq_some_getLast (by simp)]
        cases hz : (m' :: ms').getLast (by simp) <;> rw [hz] at hq <;> simp only [isScale, Bool.false_eq_true] at hq
        exact ⟨_, rfl⟩
      obtain ⟨y, hy⟩ := hl
      rw [hy]

theorem written_kind {e : Entry} (hc : Collected e) {n : String} (hn : n ∈ crdMarkers) : ∀ m ∈ written e n, nameOf m = some n := by
  intro m hm
  unfold written at hm
  cases hg : GoMap.get e.markers n with
  | none => rw [hg] at hm; cases hm
  | some vs =>
    rw [hg] at hm
    rcases hc.2 n vs ((GoMap.get_eq_some hc.1).1 hg) m hm with h | h
    · exact h
    · exact (h.2 hn).elim

/-- The entry of a version after the markers of its type. -/
theorem run_versionOf {σ : Sched} {t : Nat} {e : Entry} (hc : Collected e) : VersionOf e (run (own σ t e) e.toVersion) := by
  have hW := written_kind hc (n := "kubebuilder:deprecatedversion") (by simp [crdMarkers])
  have hS := written_kind hc (n := "kubebuilder:subresource:scale") (by simp [crdMarkers])
  constructor
  · exact run_name _ _
  · exact run_schema _ _
  · rw [run_served, mem_own]; simp [Entry.toVersion]
  · rw [run_deprecated]; simp only [mem_own]; simp [Entry.toVersion]
  · rw [run_warning]
    show (if e.version = "" then none else lastWarning (own σ t e) none) = _
    split
    · rfl
    · rw [← lastWarning_filter, own_filter hc (n := "kubebuilder:deprecatedversion"), lastWarning_filter]
      · exact lastWarning_last (fun m hm => by have := hW m hm; cases m <;> simp_all [nameOf, isWarning]) _
      · intro m hm; cases m <;> simp_all [nameOf, isWarning]
  · rw [run_columns, ← columns_filter, own_filter hc (n := "kubebuilder:printcolumn"), columns_filter]
    · rfl
    · intro m hm; cases m <;> simp_all [nameOf, isColumn]
  · rw [run_selectable, ← fields_filter, own_filter hc (n := "kubebuilder:selectablefield"), fields_filter]
    · rfl
    · intro m hm; cases m <;> simp_all [nameOf, isField]
  · rw [run_sub]; simp only [mem_own]; simp [Entry.toVersion]
  · rw [run_status, mem_own]; simp [Entry.toVersion]
  · rw [run_scale]
    show lastScale (own σ t e) none = _
    rw [← lastScale_filter, own_filter hc (n := "kubebuilder:subresource:scale"), lastScale_filter]
    · exact lastScale_last (fun m hm => by have := hS m hm; cases m <;> simp_all [nameOf, isScale]) _
    · intro m hm; cases m <;> simp_all [nameOf, isScale]

end Verif.CrdGen

import Verif.Markers.Package
/-!
# C69: the markers of a package are those of its files, in the order of the files
-/
namespace Verif.Markers
open GoMap

variable {α : Type}

/-- The values of a marker on a file. -/
def valuesIn (name : Str) (file : Values α) : List α := file.flatMap fun e => if e.1 = name then e.2 else []

theorem valuesIn_perm {name : Str} : ∀ {l l' : Values α}, l.Perm l' → WF l → valuesIn name l = valuesIn name l' := by
  intro l l' hp
  induction hp with
  | nil => intro _; rfl
  | cons e _ ih =>
    intro h
    have h' := (List.nodup_cons.1 h).2
    simp only [valuesIn, List.flatMap_cons] at ih ⊢
    rw [ih h']
  | swap a b l =>
    intro h
    have hne : ¬ b.1 = a.1 := by
      have := (List.nodup_cons.1 h).1
      intro e
      exact this (List.mem_map.2 ⟨a, List.mem_cons_self, e.symm⟩)
    simp only [valuesIn, List.flatMap_cons]
    by_cases ha : a.1 = name
    · have hb : ¬ b.1 = name := fun hb => hne (hb.trans ha.symm)
      simp [ha, hb]
    · simp [ha]
  | trans p _ ih1 ih2 =>
    intro h
    exact (ih1 h).trans (ih2 ((p.map Prod.fst).nodup_iff.1 h))

theorem get_addAll (name : Str) : ∀ (l : Values α) (res : Values α),
    (get (l.foldl addValues res) name).getD [] = (get res name).getD [] ++ valuesIn name l ∧
    ((get (l.foldl addValues res) name).isSome ↔ (get res name).isSome ∨ name ∈ keys l) := by
  intro l
  induction l with
  | nil => intro res; simp [valuesIn, keys]
  | cons e l ih =>
    intro res
    obtain ⟨h1, h2⟩ := ih (addValues res e)
    simp only [List.foldl_cons]
    rw [h1, h2]
    simp only [addValues, get_put, valuesIn, List.flatMap_cons, keys, List.map_cons, List.mem_cons]
    by_cases he : name = e.1
    · subst he
      simp
    · have : ¬ e.1 = name := fun h => he h.symm
      simp [he, this]

theorem get_packageLoop (σ : Sched) (name : Str) : ∀ (files : List (Values α)) (i : Nat) (res : Values α), (∀ f ∈ files, WF f) →
    (get (packageLoop σ i files res) name).getD [] = (get res name).getD [] ++ files.flatMap (valuesIn name) ∧
    ((get (packageLoop σ i files res) name).isSome ↔ (get res name).isSome ∨ ∃ f ∈ files, name ∈ keys f) := by
  intro files
  induction files with
  | nil => intro i res _; simp [packageLoop]
  | cons f files ih =>
    intro i res hwf
    obtain ⟨h1, h2⟩ := ih (i + 1) ((σ.order i f).foldl addValues res) fun f hf => hwf f (List.mem_cons_of_mem _ hf)
    obtain ⟨h3, h4⟩ := get_addAll name (σ.order i f) res
    have hf : WF (σ.order i f) := (((σ.perm i f).map Prod.fst).nodup_iff).2 (hwf f List.mem_cons_self)
    have hk : name ∈ keys (σ.order i f) ↔ name ∈ keys f := ((σ.perm i f).map Prod.fst).mem_iff
    simp only [packageLoop]
    rw [h1, h2, h3, h4, valuesIn_perm (σ.perm i f) hf, hk]
    simp [List.flatMap_cons, or_assoc]

/-- **C69**: the values of a package's marker are those of its files, in the order of the files, in whichever order maps are visited; there are none exactly if no file carries the marker. -/
theorem C69_values (σ : Sched) {files : List (Values α)} (hwf : ∀ f ∈ files, WF f) (name : Str) : ∃ res, packageMarkers σ (some files) = some res ∧
    (get res name).getD [] = files.flatMap (valuesIn name) ∧ ((get res name).isSome ↔ ∃ f ∈ files, name ∈ keys f) := by
  obtain ⟨h1, h2⟩ := get_packageLoop σ name files 0 [] hwf
  exact ⟨_, rfl, by simpa [GoMap.get] using h1, by simpa [GoMap.get] using h2⟩

theorem valuesIn_not {name : Str} {f : Values α} (h : ∀ v vs, (name, v :: vs) ∉ f) : valuesIn name f = [] := by
  simp only [valuesIn, List.flatMap_eq_nil_iff]
  intro e he
  obtain ⟨n, vs⟩ := e
  cases vs with
  | nil => simp
  | cons v vs =>
    split
    · rename_i hn; simp only at hn; subst hn; exact absurd he (h v vs)
    · rfl

theorem valuesIn_of_mem {name : Str} {f : Values α} {vs : List α} (hwf : WF f) (h : (name, vs) ∈ f) : valuesIn name f = vs := by
  induction f with
  | nil => cases h
  | cons e f ih =>
    have h' : e.1 ∉ keys f ∧ WF f := by simpa [WF, keys] using hwf
    simp only [valuesIn, List.flatMap_cons]
    rcases List.mem_cons.1 h with rfl | h
    · have : valuesIn name f = [] := valuesIn_not fun v vs' hm => h'.1 (List.mem_map.2 ⟨_, hm, rfl⟩)
      simp only [valuesIn] at this
      simp [this]
    · have hne : ¬ e.1 = name := fun e' => h'.1 (e' ▸ List.mem_map.2 ⟨_, h, rfl⟩)
      have := ih h'.2 h
      simp only [valuesIn] at this
      simp [hne, this]

/-- **C69** (one value): the value that counts is the first one on the first file that carries the marker. -/
theorem C69_first (σ : Sched) {files : List (Values α)} (hwf : ∀ f ∈ files, WF f) (name : Str) (v : α) : ∃ res, packageMarkers σ (some files) = some res ∧
    (res.first name = some v ↔ ∃ before f after vs, files = before ++ f :: after ∧ (name, v :: vs) ∈ f ∧ ∀ f' ∈ before, ∀ v' vs', (name, v' :: vs') ∉ f') := by
  obtain ⟨res, hres, h1, h2⟩ := C69_values σ hwf name
  refine ⟨res, hres, ?_⟩
  have hfirst : res.first name = (files.flatMap (valuesIn name)).head? := by
    rw [← h1]
    simp only [Values.first]
    cases get res name <;> rfl
  rw [hfirst]
  clear h1 h2 hfirst hres
  induction files with
  | nil => simp
  | cons f files ih =>
    have ih := ih (fun f hf => hwf f (List.mem_cons_of_mem _ hf))
    by_cases hf : ∃ v' vs', (name, v' :: vs') ∈ f
    · obtain ⟨v', vs', hv'⟩ := hf
      rw [List.flatMap_cons, valuesIn_of_mem (hwf f List.mem_cons_self) hv']
      simp only [List.cons_append, List.head?_cons, Option.some.injEq]
      constructor
      · rintro rfl
        exact ⟨[], f, files, vs', rfl, hv', by simp⟩
      · rintro ⟨before, f', after, vs, e, hm, hb⟩
        cases before with
        | nil =>
          cases e
          have := wf_unique (hwf f List.mem_cons_self) hm hv'
          exact (List.cons.inj this).1.symm
        | cons b before =>
          cases e
          exact absurd hv' (hb f List.mem_cons_self v' vs')
    · have hn : ∀ v' vs', (name, v' :: vs') ∉ f := fun v' vs' h => hf ⟨v', vs', h⟩
      rw [List.flatMap_cons, valuesIn_not hn, List.nil_append]
      refine Iff.trans ih ?_
      constructor
      · rintro ⟨before, f', after, vs, rfl, hm, hb⟩
        refine ⟨f :: before, f', after, vs, rfl, hm, ?_⟩
        intro f'' hf''
        rcases List.mem_cons.1 hf'' with rfl | hf''
        · exact hn
        · exact hb f'' hf''
      · rintro ⟨before, f', after, vs, e, hm, hb⟩
        cases before with
        | nil => cases e; exact absurd hm (hn _ _)
        | cons b before =>
          cases e
          exact ⟨before, f', after, vs, rfl, hm, fun f'' hf'' => hb f'' (List.mem_cons_of_mem _ hf'')⟩

/-- Two files carry the marker, and the first of them decides, for two orders of the maps. -/
example : ∀ σ ∈ [Sched.fifo, Sched.lifo], packageMarkers σ (some [[("a".toList, [1])], [("b".toList, [2, 3]), ("a".toList, [4])], [("a".toList, [5]), ("b".toList, [6])]]) =
    some (packageLoop σ 0 [[("a".toList, [1])], [("b".toList, [2, 3]), ("a".toList, [4])], [("a".toList, [5]), ("b".toList, [6])]] []) ∧
    (packageLoop σ 0 [[("a".toList, [1])], [("b".toList, [2, 3]), ("a".toList, [4])], [("a".toList, [5]), ("b".toList, [6])]] []).first "b".toList = some 2 ∧
    GoMap.get (packageLoop σ 0 [[("a".toList, [1])], [("b".toList, [2, 3]), ("a".toList, [4])], [("a".toList, [5]), ("b".toList, [6])]] []) "a".toList = some [1, 4, 5] := by
  intro σ h
  simp only [List.mem_cons, List.not_mem_nil, or_false] at h
  rcases h with rfl | rfl <;> exact ⟨rfl, by decide +kernel, by decide +kernel⟩

end Verif.Markers

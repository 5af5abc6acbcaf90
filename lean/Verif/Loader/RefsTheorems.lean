import Verif.Loader.Refs
import Verif.Loader.CheckTheorems
/-!
# Which packages types refer to (C67)

The specification is at the top.
-/
namespace Verif.Loader

namespace Spec

/-- The children of a node. -/
def kids : Ast → List Ast
  | .ident _ => []
  | .selector x => [x]
  | .iface cs => cs
  | .field _ cs => cs
  | .other cs => cs

/-- From `t` the node `u` is reached, and all nodes on the way are of interest, with `t` and `u`. -/
inductive Within (keep : NodeFilter) : Ast → Ast → Prop
  | here {t} : keep t = true → Within keep t t
  | inside {t c u} : keep t = true → c ∈ kids t → Within keep c u → Within keep t u

/-- `n.X` occurs in the tree. -/
def Mentions (keep : NodeFilter) (t : Ast) (n : Name) : Prop := Within keep t (.selector (.ident n))

/-- The packages that a package imports, by paths: a map, and IDs tell packages apart. -/
structure Sane (imported : List (Name × Imported)) : Prop where
  map : GoMap.WF imported
  ids : ∀ e ∈ imported, ∀ f ∈ imported, e.2.id = f.2.id → e.2 = f.2

/-- An import makes the package `p` known under the name `n`. -/
def Provides (imported : List (Name × Imported)) (i : ImportSpec) (n : Name) (p : Imported) : Prop :=
  ∃ path, i.path = some path ∧ (path, p) ∈ imported ∧ (i.name = some n ∧ n ≠ ['.'] ∨ i.name = none ∧ p.name = n)

/-- An import is one of all names of the package `p`. -/
def ProvidesAll (imported : List (Name × Imported)) (i : ImportSpec) (p : Imported) : Prop :=
  ∃ path, i.path = some path ∧ (path, p) ∈ imported ∧ i.name = some ['.']

/-- An import is of a package that exists. -/
def Resolves (imported : List (Name × Imported)) (i : ImportSpec) : Prop := ∃ path p, i.path = some path ∧ (path, p) ∈ imported

/-- No name of a file that its types mention stands for two packages.  (Go forbids this, for all names but `_`, which types cannot mention.) -/
def Unambiguous (imported : List (Name × Imported)) (f : SourceFile) : Prop :=
  ∀ t ∈ f.types, ∀ n, Mentions (fun _ => true) t.type n → ∀ i ∈ f.imports, ∀ j ∈ f.imports, ∀ p q, Provides imported i n p → Provides imported j n q → p = q

/-- A file refers to the package `p`. -/
def RefersTo (imported : List (Name × Imported)) (keep : NodeFilter) (f : SourceFile) (p : Imported) : Prop :=
  (∃ i ∈ f.imports, ProvidesAll imported i p) ∨ ∃ t ∈ f.types, ∃ n, Mentions keep t.type n ∧ ∃ i ∈ f.imports, Provides imported i n p

end Spec
open Spec

/-! ## Walking -/

theorem Spec.Within.kept {keep : NodeFilter} {t u : Ast} (h : Within keep t u) : keep t = true := by cases h <;> assumption

theorem selector_step (keep : NodeFilter) (n : Name) (x : Ast) (hx : ∀ m, x ≠ .ident m) {l : List Name} (ih : n ∈ l ↔ Mentions keep x n) :
    n ∈ (if keep (.selector x) then l else []) ↔ Mentions keep (.selector x) n := by
  by_cases hk : keep (.selector x) = true
  · rw [if_pos hk, ih]
    constructor
    · intro h; exact .inside hk (List.mem_singleton.2 rfl) h
    · intro h
      cases h with
      | here _ => exact absurd rfl (hx n)
      | inside _ hc h => rw [List.mem_singleton.1 hc] at h; exact h
  · rw [if_neg hk]
    constructor
    · intro h; cases h
    · intro h; exact absurd (Spec.Within.kept h) hk

theorem step (keep : NodeFilter) (n : Name) (t : Ast) (cs : List Ast) (hk : kids t = cs) (ht : ∀ m, t ≠ .selector (.ident m)) (ih : n ∈ collectList keep cs ↔ ∃ c ∈ cs, Mentions keep c n) :
    n ∈ (if keep t then collectList keep cs else []) ↔ Mentions keep t n := by
  by_cases h : keep t = true
  · rw [if_pos h, ih]
    constructor
    · rintro ⟨c, hc, hm⟩; exact .inside h (hk ▸ hc) hm
    · intro hm
      generalize hu : Ast.selector (.ident n) = u at *
      unfold Mentions at hm
      rw [hu] at hm
      cases hm with
      | here _ => exact absurd hu.symm (ht n)
      | inside _ hc hm => exact ⟨_, hk ▸ hc, by unfold Mentions; rw [hu]; exact hm⟩
  · rw [if_neg h]
    constructor
    · intro h; cases h
    · intro hm; exact absurd (Spec.Within.kept hm) h

mutual
theorem mem_collect (keep : NodeFilter) (n : Name) : ∀ t : Ast, n ∈ collect keep t ↔ Mentions keep t n
  | .ident m => by
    rw [collect]
    constructor
    · intro h; cases h
    · intro h
      cases h with
      | inside _ hc _ => cases hc
  | .selector (.ident m) => by
    rw [collect]
    by_cases hk : keep (.selector (.ident m)) = true
    · rw [if_pos hk, List.mem_singleton]
      constructor
      · rintro rfl; exact .here hk
      · intro h
        cases h with
        | here _ => rfl
        | inside _ hc h =>
          rw [List.mem_singleton.1 hc] at h
          cases h with
          | inside _ hc _ => cases hc
    · rw [if_neg hk]
      constructor
      · intro h; cases h
      · intro h; exact absurd (Spec.Within.kept h) hk
  | .selector (.selector x) => by
    rw [collect]
    · exact selector_step keep n _ (fun m => by simp) (mem_collect keep n _)
    · simp
  | .selector (.iface x) => by
    rw [collect]
    · exact selector_step keep n _ (fun m => by simp) (mem_collect keep n _)
    · simp
  | .selector (.field j x) => by
    rw [collect]
    · exact selector_step keep n _ (fun m => by simp) (mem_collect keep n _)
    · simp
  | .selector (.other x) => by
    rw [collect]
    · exact selector_step keep n _ (fun m => by simp) (mem_collect keep n _)
    · simp
  | .iface cs => by
    rw [collect]
    exact step keep n _ cs rfl (fun m => by simp) (mem_collectList keep n cs)
  | .field j cs => by
    rw [collect]
    exact step keep n _ cs rfl (fun m => by simp) (mem_collectList keep n cs)
  | .other cs => by
    rw [collect]
    exact step keep n _ cs rfl (fun m => by simp) (mem_collectList keep n cs)

theorem mem_collectList (keep : NodeFilter) (n : Name) : ∀ cs : List Ast, n ∈ collectList keep cs ↔ ∃ c ∈ cs, Mentions keep c n
  | [] => by simp [collectList]
  | c :: cs => by rw [collectList, List.mem_append, mem_collect keep n c, mem_collectList keep n cs]; simp
end

/-! ## Imports -/

/-- What is known about the imports of a file, of which `is` were looked at. -/
structure ImportsMap.Ok (imported : List (Name × Imported)) (m : ImportsMap) (is : List ImportSpec) : Prop where
  resolves : ∀ i ∈ is, Resolves imported i
  wf : GoMap.WF m.byName
  sound : ∀ n p, (n, p) ∈ m.byName → ∃ i ∈ is, Provides imported i n p
  complete : ∀ n p, ∀ i ∈ is, Provides imported i n p → n ∈ GoMap.keys m.byName
  dotWf : GoMap.WF m.dotImports
  dotKey : ∀ e ∈ m.dotImports, e.1 = e.2.id ∧ ∃ path, (path, e.2) ∈ imported
  dots : ∀ p, (∃ k, (k, p) ∈ m.dotImports) ↔ ∃ i ∈ is, ProvidesAll imported i p

theorem mapImportsFrom_spec {imported : List (Name × Imported)} (hs : Sane imported) : ∀ (is done : List ImportSpec) (m : ImportsMap), m.Ok imported done →
    (∀ m', mapImportsFrom imported m is = .ok m' → m'.Ok imported (done ++ is)) ∧
    ∀ e, mapImportsFrom imported m is = .error e → ∃ i ∈ is, ¬ Resolves imported i ∧ (e = .path ∧ i.path = none ∨ ∃ path, e = .missing path ∧ i.path = some path) := by
  intro is
  induction is with
  | nil =>
    intro done m h
    refine ⟨fun m' e => ?_, fun e h => by cases h⟩
    cases e
    rw [List.append_nil]; exact h
  | cons i is ih =>
    intro done m h
    rw [mapImportsFrom]
    cases hp : i.path with
    | none =>
      refine ⟨fun m' e => (by cases e), fun e he => ?_⟩
      cases he
      exact ⟨i, by simp, (by rintro ⟨_, _, h, _⟩; rw [hp] at h; cases h), .inl ⟨rfl, hp⟩⟩
    | some path =>
      simp only
      cases hg : GoMap.get imported path with
      | none =>
        refine ⟨fun m' e => (by cases e), fun e he => ?_⟩
        cases he
        refine ⟨i, by simp, ?_, .inr ⟨path, rfl, hp⟩⟩
        rintro ⟨_, p, h, hm⟩
        rw [hp] at h; cases h
        exact GoMap.get_eq_none.1 hg (GoMap.mem_keys.2 ⟨p, hm⟩)
      | some p =>
        have hmem := (GoMap.get_eq_some hs.map).1 hg
        have hres : ∀ j ∈ done ++ [i], Resolves imported j := by
          intro j hj
          rcases List.mem_append.1 hj with hj | hj
          · exact h.resolves j hj
          · rw [List.mem_singleton.1 hj]; exact ⟨path, p, hp, hmem⟩
        have huniq : ∀ q, (path, q) ∈ imported → q = p := fun q hq => GoMap.wf_unique hs.map hq hmem
        -- a name is added
        have hname : ∀ n, (i.name = some n ∧ n ≠ ['.'] ∨ i.name = none ∧ p.name = n) → ({ m with byName := GoMap.put m.byName n p } : ImportsMap).Ok imported (done ++ [i]) := by
          intro n hn
          have hprov : Provides imported i n p := ⟨path, hp, hmem, hn⟩
          refine ⟨hres, GoMap.put_wf h.wf _ _, ?_, ?_, h.dotWf, h.dotKey, ?_⟩
          · intro k q hq
            rcases GoMap.mem_of_mem_put hq with hq | hq
            · cases hq; exact ⟨i, by simp, hprov⟩
            · obtain ⟨j, hj, hj'⟩ := h.sound k q hq
              exact ⟨j, List.mem_append_left _ hj, hj'⟩
          · intro k q j hj hj'
            rw [GoMap.mem_keys_put]
            rcases List.mem_append.1 hj with hj | hj
            · exact .inr (h.complete k q j hj hj')
            · rw [List.mem_singleton.1 hj] at hj'
              obtain ⟨path', hp', hm', hn'⟩ := hj'
              rw [hp] at hp'; cases hp'
              have := huniq q hm'; subst this
              rcases hn with ⟨a, b⟩ | ⟨a, b⟩ <;> rcases hn' with ⟨c, d⟩ | ⟨c, d⟩ <;> rw [a] at c
              · cases c; exact .inl rfl
              · cases c
              · cases c
              · exact .inl (d.symm.trans b)
          · intro q
            rw [h.dots q]
            constructor
            · rintro ⟨j, hj, hj'⟩; exact ⟨j, List.mem_append_left _ hj, hj'⟩
            · rintro ⟨j, hj, hj'⟩
              rcases List.mem_append.1 hj with hj | hj
              · exact ⟨j, hj, hj'⟩
              · rw [List.mem_singleton.1 hj] at hj'
                obtain ⟨_, _, _, hd⟩ := hj'
                rcases hn with ⟨a, b⟩ | ⟨a, b⟩ <;> rw [a] at hd <;> cases hd
                exact absurd rfl b
        have hgo : ∀ m₁, m₁.Ok imported (done ++ [i]) →
            (∀ m', mapImportsFrom imported m₁ is = .ok m' → m'.Ok imported (done ++ i :: is)) ∧
            ∀ e, mapImportsFrom imported m₁ is = .error e → ∃ j ∈ i :: is, ¬ Resolves imported j ∧ (e = .path ∧ j.path = none ∨ ∃ path, e = .missing path ∧ j.path = some path) := by
          intro m₁ h₁
          obtain ⟨a, b⟩ := ih _ m₁ h₁
          refine ⟨fun m' e => ?_, fun e he => ?_⟩
          · have := a m' e
            rwa [List.append_assoc] at this
          · obtain ⟨j, hj, h⟩ := b e he
            exact ⟨j, List.mem_cons_of_mem _ hj, h⟩
        cases hn : i.name with
        | none => exact hgo _ (hname p.name (.inr ⟨hn, rfl⟩))
        | some n =>
          simp only
          by_cases hd : n = ['.']
          · rw [if_pos hd]
            subst hd
            refine hgo _ ⟨hres, h.wf, ?_, ?_, GoMap.put_wf h.dotWf _ _, ?_, ?_⟩
            · intro k q hq
              obtain ⟨j, hj, hj'⟩ := h.sound k q hq
              exact ⟨j, List.mem_append_left _ hj, hj'⟩
            · intro k q j hj hj'
              rcases List.mem_append.1 hj with hj | hj
              · exact h.complete k q j hj hj'
              · rw [List.mem_singleton.1 hj] at hj'
                obtain ⟨_, _, _, ⟨c, d⟩ | ⟨c, d⟩⟩ := hj' <;> rw [hn] at c <;> cases c
                exact absurd rfl d
            · intro e he
              rcases GoMap.mem_of_mem_put he with rfl | he
              · exact ⟨rfl, path, hmem⟩
              · exact h.dotKey e he
            · intro q
              constructor
              · rintro ⟨k, hk⟩
                rcases GoMap.mem_of_mem_put hk with hk | hk
                · cases hk; exact ⟨i, by simp, path, hp, hmem, hn⟩
                · obtain ⟨j, hj, hj'⟩ := (h.dots q).1 ⟨k, hk⟩
                  exact ⟨j, List.mem_append_left _ hj, hj'⟩
              · rintro ⟨j, hj, hj'⟩
                rcases List.mem_append.1 hj with hj | hj
                · obtain ⟨k, hk⟩ := (h.dots q).2 ⟨j, hj, hj'⟩
                  obtain ⟨e1, path', hm'⟩ := h.dotKey _ hk
                  simp only at e1 hm'
                  by_cases hki : k = p.id
                  · have : q = p := hs.ids _ hm' _ hmem (by simp only; rw [← e1, hki])
                    exact ⟨p.id, (GoMap.mem_put h.dotWf).2 (.inl (by rw [this]))⟩
                  · exact ⟨k, (GoMap.mem_put h.dotWf).2 (.inr ⟨hk, hki⟩)⟩
                · rw [List.mem_singleton.1 hj] at hj'
                  obtain ⟨path', hp', hm', _⟩ := hj'
                  rw [hp] at hp'; cases hp'
                  rw [huniq q hm']
                  exact ⟨p.id, (GoMap.mem_put h.dotWf).2 (.inl rfl)⟩
          · rw [if_neg hd]
            exact hgo _ (hname n (.inl ⟨hn, hd⟩))

theorem mapImports_spec {imported : List (Name × Imported)} (hs : Sane imported) (f : SourceFile) :
    (∀ m, mapImports f imported = .ok m → m.Ok imported f.imports) ∧
    ∀ e, mapImports f imported = .error e → ∃ i ∈ f.imports, ¬ Resolves imported i ∧ (e = .path ∧ i.path = none ∨ ∃ path, e = .missing path ∧ i.path = some path) := by
  have := mapImportsFrom_spec hs f.imports [] {} ⟨by simp, by simp [GoMap.WF, GoMap.keys], by simp, by simp, by simp [GoMap.WF, GoMap.keys], by simp, by simp⟩
  simpa [mapImports] using this

/-! ## References -/

theorem mem_addRef {refs : List Imported} {p q : Imported} : q ∈ addRef refs p ↔ q ∈ refs ∨ q = p := by
  unfold addRef
  split
  · rename_i h
    constructor
    · exact .inl
    · rintro (h' | rfl)
      · exact h'
      · exact h
  · simp

theorem addRef_nodup {refs : List Imported} (h : refs.Nodup) (p : Imported) : (addRef refs p).Nodup := by
  unfold addRef
  split
  · exact h
  · rename_i hn
    rw [List.nodup_append]
    exact ⟨h, by simp, by rintro a ha b hb rfl; rw [List.mem_singleton.1 hb] at ha; exact hn ha⟩

theorem mem_foldl_addRef {q : Imported} : ∀ (l refs : List Imported), q ∈ l.foldl addRef refs ↔ q ∈ refs ∨ q ∈ l
  | [], refs => by simp
  | p :: l, refs => by rw [List.foldl_cons, mem_foldl_addRef l, mem_addRef, List.mem_cons, or_assoc]

theorem foldl_addRef_nodup : ∀ (l refs : List Imported), refs.Nodup → (l.foldl addRef refs).Nodup
  | [], _, h => h
  | p :: l, _, h => foldl_addRef_nodup l _ (addRef_nodup h p)

theorem externals_spec (m : ImportsMap) : ∀ (ns : List Name) (s : List Imported × List RefError),
    (∀ q, q ∈ (externals m ns s).1 ↔ q ∈ s.1 ∨ ∃ n ∈ ns, GoMap.get m.byName n = some q) ∧
    (∀ e, e ∈ (externals m ns s).2 ↔ e ∈ s.2 ∨ ∃ n ∈ ns, GoMap.get m.byName n = none ∧ e = .unimported n)
  | [], s => by simp [externals]
  | n :: ns, s => by
    rw [externals]
    cases h : GoMap.get m.byName n with
    | none =>
      obtain ⟨a, b⟩ := externals_spec m ns (s.1, s.2 ++ [.unimported n])
      simp only
      refine ⟨fun q => ?_, fun e => ?_⟩
      · rw [a]
        simp [h]
      · rw [b]
        simp [h, or_assoc]
    | some p =>
      obtain ⟨a, b⟩ := externals_spec m ns (addRef s.1 p, s.2)
      simp only
      refine ⟨fun q => ?_, fun e => ?_⟩
      · rw [a, mem_addRef]
        simp [h, or_assoc, eq_comm]
      · rw [b]
        simp [h]

theorem importsOf_spec {imported : List (Name × Imported)} (hs : Sane imported) : ∀ (fs : List SourceFile),
    (∀ ms, importsOf imported fs = .ok ms → ms.map (·.1) = fs ∧ ∀ e ∈ ms, e.2.Ok imported e.1.imports) ∧
    ∀ e, importsOf imported fs = .error e → ∃ f ∈ fs, ∃ i ∈ f.imports, ¬ Resolves imported i ∧ (e = .path ∧ i.path = none ∨ ∃ path, e = .missing path ∧ i.path = some path)
  | [] => by
    refine ⟨fun ms h => ?_, fun e h => by cases h⟩
    cases h; simp
  | f :: fs => by
    obtain ⟨a, b⟩ := mapImports_spec hs f
    obtain ⟨c, d⟩ := importsOf_spec hs fs
    rw [importsOf]
    cases hm : mapImports f imported with
    | error e =>
      refine ⟨fun ms h => (by cases h), fun e' h => ?_⟩
      cases h
      exact ⟨f, by simp, b e hm⟩
    | ok m =>
      cases hi : importsOf imported fs with
      | error e =>
        refine ⟨fun ms h => (by cases h), fun e' h => ?_⟩
        cases h
        obtain ⟨g, hg, h⟩ := d e hi
        exact ⟨g, List.mem_cons_of_mem _ hg, h⟩
      | ok ms =>
        refine ⟨fun ms' h => ?_, fun e' h => by cases h⟩
        cases h
        obtain ⟨h1, h2⟩ := c ms hi
        refine ⟨by simp [h1], ?_⟩
        intro e he
        rcases List.mem_cons.1 he with rfl | he
        · exact a m hm
        · exact h2 e he

theorem importsOf_ok {imported : List (Name × Imported)} (hs : Sane imported) {fs : List SourceFile} (h : ∀ f ∈ fs, ∀ i ∈ f.imports, Resolves imported i) :
    ∃ ms, importsOf imported fs = .ok ms ∧ ms.map (·.1) = fs ∧ ∀ e ∈ ms, e.2.Ok imported e.1.imports := by
  obtain ⟨a, b⟩ := importsOf_spec hs fs
  cases hi : importsOf imported fs with
  | error e =>
    obtain ⟨f, hf, i, hi', hr, _⟩ := b e hi
    exact absurd (h f hf i hi') hr
  | ok ms => exact ⟨ms, rfl, a ms hi⟩

theorem Spec.Within.all {keep : NodeFilter} {t u : Ast} (h : Within keep t u) : Within (fun _ => true) t u := by
  induction h with
  | here _ => exact .here rfl
  | inside _ hc _ ih => exact .inside rfl hc ih

theorem mem_names {keep : NodeFilter} {f : SourceFile} {n : Name} : n ∈ (f.types.flatMap fun t => collect keep t.type) ↔ ∃ t ∈ f.types, Mentions keep t.type n := by
  simp only [List.mem_flatMap, mem_collect]

/-- The references that are found in a file. -/
theorem fileRefs_spec {imported : List (Name × Imported)} {keep : NodeFilter} {f : SourceFile} {m : ImportsMap} (hm : m.Ok imported f.imports) (hu : Unambiguous imported f) :
    (∀ p, (p ∈ (fileRefs keep f m).1 ∨ ∃ k, (k, p) ∈ m.dotImports) ↔ RefersTo imported keep f p) ∧
    ∀ e, e ∈ (fileRefs keep f m).2 ↔ ∃ t ∈ f.types, ∃ n, Mentions keep t.type n ∧ (¬ ∃ i ∈ f.imports, ∃ p, Provides imported i n p) ∧ e = .unimported n := by
  obtain ⟨a, b⟩ := externals_spec m (f.types.flatMap fun t => collect keep t.type) ([], [])
  refine ⟨fun p => ?_, fun e => ?_⟩
  · unfold fileRefs RefersTo
    rw [a, hm.dots p]
    simp only [List.not_mem_nil, false_or]
    constructor
    · rintro (⟨n, hn, hg⟩ | h)
      · obtain ⟨t, ht, hn⟩ := mem_names.1 hn
        obtain ⟨i, hi, h⟩ := hm.sound n p ((GoMap.get_eq_some hm.wf).1 hg)
        exact .inr ⟨t, ht, n, hn, i, hi, h⟩
      · exact .inl h
    · rintro (h | ⟨t, ht, n, hn, i, hi, h⟩)
      · exact .inr h
      · refine .inl ⟨n, mem_names.2 ⟨t, ht, hn⟩, ?_⟩
        obtain ⟨q, hq⟩ := GoMap.mem_keys.1 (hm.complete n p i hi h)
        obtain ⟨j, hj, hj'⟩ := hm.sound n q hq
        rw [hu t ht n hn.all i hi j hj p q h hj']
        exact (GoMap.get_eq_some hm.wf).2 hq
  · unfold fileRefs
    rw [b]
    simp only [List.not_mem_nil, false_or]
    constructor
    · rintro ⟨n, hn, hg, rfl⟩
      obtain ⟨t, ht, hn⟩ := mem_names.1 hn
      refine ⟨t, ht, n, hn, ?_, rfl⟩
      rintro ⟨i, hi, p, h⟩
      exact GoMap.get_eq_none.1 hg (hm.complete n p i hi h)
    · rintro ⟨t, ht, n, hn, hno, rfl⟩
      refine ⟨n, mem_names.2 ⟨t, ht, hn⟩, GoMap.get_eq_none.2 ?_, rfl⟩
      intro hk
      obtain ⟨q, hq⟩ := GoMap.mem_keys.1 hk
      obtain ⟨j, hj, hj'⟩ := hm.sound n q hq
      exact hno ⟨j, hj, q, hj'⟩

theorem mem_allFold (σ : Sched) (keep : NodeFilter) (q : Imported) : ∀ (ms : List (SourceFile × ImportsMap)) (acc : List Imported),
    q ∈ ms.foldl (init := acc) (fun acc e =>
      let acc := ((σ.order 1 e.2.dotImports).map (·.2)).foldl addRef acc
      (σ.order 2 (fileRefs keep e.1 e.2).1).foldl addRef acc) ↔ q ∈ acc ∨ ∃ e ∈ ms, q ∈ (fileRefs keep e.1 e.2).1 ∨ ∃ k, (k, q) ∈ e.2.dotImports
  | [], acc => by simp
  | e :: ms, acc => by
    rw [List.foldl_cons, mem_allFold σ keep q ms]
    simp only [mem_foldl_addRef, (σ.perm _ _).mem_iff, List.mem_map, Prod.exists, exists_eq_right, List.mem_cons, exists_eq_or_imp]
    constructor
    · rintro (((h | h) | h) | h)
      · exact .inl h
      · exact .inr (.inl (.inr h))
      · exact .inr (.inl (.inl h))
      · exact .inr (.inr h)
    · rintro (h | (h | h) | h)
      · exact .inl (.inl (.inl h))
      · exact .inl (.inr h)
      · exact .inl (.inl (.inr h))
      · exact .inr h

theorem allFold_nodup (σ : Sched) (keep : NodeFilter) : ∀ (ms : List (SourceFile × ImportsMap)) (acc : List Imported), acc.Nodup →
    (ms.foldl (init := acc) (fun acc e =>
      let acc := ((σ.order 1 e.2.dotImports).map (·.2)).foldl addRef acc
      (σ.order 2 (fileRefs keep e.1 e.2).1).foldl addRef acc)).Nodup
  | [], _, h => h
  | _ :: ms, _, h => allFold_nodup σ keep ms _ (foldl_addRef_nodup _ _ (foldl_addRef_nodup _ _ h))

/-- **C67, references.**  If all imports are of packages that exist, the packages that are found are exactly those that some file refers to: imported with a dot, or by a name that a type
of this file mentions in a part of interest; each of them once. -/
theorem C67_refs_partial {imported : List (Name × Imported)} (hs : Sane imported) {files : List SourceFile} (hr : ∀ f ∈ files, ∀ i ∈ f.imports, Resolves imported i)
    (hu : ∀ f ∈ files, Unambiguous imported f) (σ : Sched) (keep : NodeFilter) :
    (∀ p, p ∈ (allReferenced σ imported keep files).1 ↔ ∃ f ∈ files, RefersTo imported keep f p) ∧ (allReferenced σ imported keep files).1.Nodup := by
  obtain ⟨ms, h1, h2, h3⟩ := importsOf_ok hs hr
  unfold allReferenced
  rw [h1]
  simp only
  refine ⟨fun p => ?_, ((σ.perm 3 _).nodup_iff).2 (allFold_nodup σ keep _ [] List.nodup_nil)⟩
  rw [(σ.perm 3 _).mem_iff, mem_allFold]
  simp only [List.not_mem_nil, false_or, (σ.perm _ _).mem_iff]
  constructor
  · rintro ⟨e, he, h⟩
    have hf : e.1 ∈ files := by rw [← h2]; exact List.mem_map_of_mem he
    exact ⟨e.1, hf, ((fileRefs_spec (h3 e he) (hu _ hf)).1 p).1 h⟩
  · rintro ⟨f, hf, h⟩
    rw [← h2] at hf
    obtain ⟨e, he, rfl⟩ := List.mem_map.1 hf
    have hf : e.1 ∈ files := by rw [← h2]; exact List.mem_map_of_mem he
    exact ⟨e, he, ((fileRefs_spec (h3 e he) (hu _ hf)).1 p).2 h⟩

/-- **C67, errors.**  If all imports are of packages that exist, the errors are about exactly the names that a type mentions like a package, and its file does not import. -/
theorem C67_errors_partial {imported : List (Name × Imported)} (hs : Sane imported) {files : List SourceFile} (hr : ∀ f ∈ files, ∀ i ∈ f.imports, Resolves imported i)
    (hu : ∀ f ∈ files, Unambiguous imported f) (σ : Sched) (keep : NodeFilter) (e : RefError) :
    e ∈ (allReferenced σ imported keep files).2 ↔ ∃ f ∈ files, ∃ t ∈ f.types, ∃ n, Mentions keep t.type n ∧ (¬ ∃ i ∈ f.imports, ∃ p, Provides imported i n p) ∧ e = .unimported n := by
  obtain ⟨ms, h1, h2, h3⟩ := importsOf_ok hs hr
  unfold allReferenced
  rw [h1]
  simp only [List.mem_flatMap]
  constructor
  · rintro ⟨x, hx, h⟩
    have hf : x.1 ∈ files := by rw [← h2]; exact List.mem_map_of_mem hx
    exact ⟨x.1, hf, ((fileRefs_spec (h3 x hx) (hu _ hf)).2 e).1 h⟩
  · rintro ⟨f, hf, h⟩
    rw [← h2] at hf
    obtain ⟨x, hx, rfl⟩ := List.mem_map.1 hf
    have hf : x.1 ∈ files := by rw [← h2]; exact List.mem_map_of_mem hx
    exact ⟨x, hx, ((fileRefs_spec (h3 x hx) (hu _ hf)).2 e).2 h⟩

/-- **C67, an import of a package that does not exist**, in any file, is reported, and then nothing else is: no package is found for any of the files. -/
theorem C67_missing {imported : List (Name × Imported)} (hs : Sane imported) {files : List SourceFile} (hr : ∃ f ∈ files, ∃ i ∈ f.imports, ¬ Resolves imported i)
    (σ : Sched) (keep : NodeFilter) : ∃ e, allReferenced σ imported keep files = ([], [e]) ∧
      ∃ f ∈ files, ∃ i ∈ f.imports, ¬ Resolves imported i ∧ (e = .path ∧ i.path = none ∨ ∃ path, e = .missing path ∧ i.path = some path) := by
  obtain ⟨a, b⟩ := importsOf_spec hs files
  unfold allReferenced
  cases hi : importsOf imported files with
  | error e => exact ⟨e, rfl, b e hi⟩
  | ok ms =>
    exfalso
    obtain ⟨h1, h2⟩ := a ms hi
    obtain ⟨f, hf, i, hi, hn⟩ := hr
    rw [← h1] at hf
    obtain ⟨x, hx, rfl⟩ := List.mem_map.1 hf
    exact hn ((h2 x hx).resolves i hi)

/-! ## Filters -/

/-- **C67, filters.**  A node is of interest if there are no filters, or one of them accepts it. -/
theorem C67_filters (filters : List NodeFilter) (n : Ast) : isNodeInteresting filters n = true ↔ filters = [] ∨ ∃ f ∈ filters, f n = true := by
  unfold isNodeInteresting
  cases filters with
  | nil => simp
  | cons f fs => simp

/-- **C67, the filter of CRDs** (also that of schema patches) does not look into interfaces and into fields without a `json` tag. -/
theorem C67_crd (n : Ast) : crdFilter n = true ↔ (∀ cs, n ≠ .iface cs) ∧ ∀ cs, n ≠ .field false cs := by
  cases n <;> simp [crdFilter]

/-- **C67, the filter of DeepCopy methods** and of apply configurations does not look into interfaces. -/
theorem C67_object (n : Ast) : objectFilter n = true ↔ ∀ cs, n ≠ .iface cs := by
  cases n <;> simp [objectFilter]

/-! ## Together with type checking -/

namespace Spec

/-- Packages with their files and imports. -/
structure Project where
  files : Pkg → List SourceFile
  imported : Pkg → List (Name × Imported)

/-- A project without errors of imports. -/
structure Project.Sane (P : Project) : Prop where
  imported : ∀ p, Spec.Sane (P.imported p)
  resolves : ∀ p, ∀ f ∈ P.files p, ∀ i ∈ f.imports, Resolves (P.imported p) i
  unambiguous : ∀ p, ∀ f ∈ P.files p, Unambiguous (P.imported p) f

/-- The package `q` is needed for the types of `p`. -/
inductive Project.Needs (P : Project) (keep : NodeFilter) (p : Pkg) : Pkg → Prop
  | self : P.Needs keep p p
  | ref {q r f} : P.Needs keep p q → f ∈ P.files q → RefersTo (P.imported q) keep f r → P.Needs keep p r.pkg

/-- The graph that `Check` works on; `imports` is the order in which the type checker asks for packages. -/
def Project.graph (P : Project) (σ : Pkg → Sched) (keep : NodeFilter) (imports : Pkg → List Pkg) : Graph where
  imports := imports
  refs p := (allReferenced (σ p) (P.imported p) keep (P.files p)).1.map (·.pkg)

end Spec

/-- **C67, with C41**: when a call of `Check` has ended, exactly the packages that are needed for the types of the root have types, besides those that had them before, whatever the
order of the goroutines and of the iterations over maps. -/
theorem C67_checked_partial {P : Project} (hP : P.Sane) {σ : Pkg → Sched} {filters : List NodeFilter} {imports : Pkg → List Pkg} {rank : Pkg → Nat}
    (hG : (P.graph σ (isNodeInteresting filters) imports).Acyclic rank) {typed checked : List Pkg} (hb : Before (P.graph σ (isNodeInteresting filters) imports) typed checked) (root : Pkg)
    {is : List Nat} {s : St} (h : (St.start root typed checked).run (P.graph σ (isNodeInteresting filters) imports) is = some s) (he : s.Ended) (p : Pkg) :
    p ∈ s.typed ↔ p ∈ typed ∨ P.Needs (isNodeInteresting filters) root p := by
  rw [(C41_complete hG hb root h he).1 p]
  have hrefs : ∀ q r, r ∈ (P.graph σ (isNodeInteresting filters) imports).refs q ↔ ∃ f ∈ P.files q, ∃ x, RefersTo (P.imported q) (isNodeInteresting filters) f x ∧ x.pkg = r := by
    intro q r
    obtain ⟨a, _⟩ := C67_refs_partial (hP.imported q) (hP.resolves q) (hP.unambiguous q) (σ q) (isNodeInteresting filters)
    unfold Project.graph
    simp only [List.mem_map, a]
    constructor
    · rintro ⟨x, ⟨f, hf, h⟩, e⟩; exact ⟨f, hf, x, h, e⟩
    · rintro ⟨f, hf, x, h, e⟩; exact ⟨x, ⟨f, hf, h⟩, e⟩
  have : (P.graph σ (isNodeInteresting filters) imports).Reaches root p ↔ P.Needs (isNodeInteresting filters) root p := by
    constructor
    · intro hr
      induction hr with
      | refl => exact .self
      | step _ hm ih =>
        obtain ⟨f, hf, x, hx, rfl⟩ := (hrefs _ _).1 hm
        exact .ref ih hf hx
    · intro hn
      induction hn with
      | self => exact .refl
      | ref _ hf hx ih => exact .step ih ((hrefs _ _).2 ⟨_, hf, _, hx, rfl⟩)
  rw [this]

/-! ## Examples, and what the code gets wrong -/

namespace RefsExample

def metav1 : Imported := ⟨1, "k8s.io/meta/v1".toList, "v1".toList⟩
def other : Imported := ⟨2, "example/other".toList, "other".toList⟩
def dot : Imported := ⟨3, "example/dot".toList, "dot".toList⟩
def imported : List (Name × Imported) := [(metav1.id, metav1), (other.id, other), (dot.id, dot)]

/-- `import metav1 "k8s.io/meta/v1"`, `import "example/other"`, `import . "example/dot"`;
`type T struct { A []metav1.X `json:"a"`; B other.Y; C interface{ M() other.Z } `json:"c"` }`. -/
def file : SourceFile where
  imports := [⟨some "metav1".toList, some metav1.id⟩, ⟨none, some other.id⟩, ⟨some ['.'], some dot.id⟩]
  types := [{ type := .other [.field true [.other [.selector (.ident "metav1".toList)]], .field false [.selector (.ident "other".toList)],
    .field true [.iface [.field false [.selector (.ident "other".toList)]]]] }]

theorem sane : Sane imported := ⟨by unfold GoMap.WF; decide +kernel, by decide +kernel⟩

end RefsExample

/-- For CRDs, `other` is not needed; for DeepCopy methods it is. -/
example : (allReferenced .fifo RefsExample.imported (isNodeInteresting [crdFilter]) [RefsExample.file]).1 = [RefsExample.dot, RefsExample.metav1] ∧
    (allReferenced .fifo RefsExample.imported (isNodeInteresting [crdFilter, objectFilter]) [RefsExample.file]).1 = [RefsExample.dot, RefsExample.metav1, RefsExample.other] := by decide +kernel

theorem RefsExample.resolves : ∀ f ∈ [RefsExample.file], ∀ i ∈ f.imports, Resolves RefsExample.imported i := by
  intro f hf i hi
  rw [List.mem_singleton.1 hf] at hi
  simp only [RefsExample.file, List.mem_cons, List.not_mem_nil, or_false] at hi
  rcases hi with rfl | rfl | rfl
  · exact ⟨_, RefsExample.metav1, rfl, by decide⟩
  · exact ⟨_, RefsExample.other, rfl, by decide⟩
  · exact ⟨_, RefsExample.dot, rfl, by decide⟩

theorem RefsExample.provides {i : ImportSpec} (hi : i ∈ RefsExample.file.imports) {n : Name} {p : Imported} (h : Provides RefsExample.imported i n p) :
    n = "metav1".toList ∧ p = RefsExample.metav1 ∨ n = "other".toList ∧ p = RefsExample.other := by
  obtain ⟨path, hp, hm, hn⟩ := h
  have hm := (GoMap.get_eq_some RefsExample.sane.map).2 hm
  simp only [RefsExample.file, List.mem_cons, List.not_mem_nil, or_false] at hi
  rcases hi with rfl | rfl | rfl
  · cases hp
    rcases hn with ⟨h, _⟩ | ⟨h, _⟩ <;> cases h
    exact .inl ⟨rfl, (Option.some.inj (hm.symm.trans (by decide +kernel)))⟩
  · cases hp
    have e : p = RefsExample.other := Option.some.inj (hm.symm.trans (by decide +kernel))
    rcases hn with ⟨h, _⟩ | ⟨_, h⟩
    · cases h
    · exact .inr ⟨by rw [← h, e]; rfl, e⟩
  · cases hp
    rcases hn with ⟨h, hd⟩ | ⟨h, _⟩ <;> cases h
    exact absurd rfl hd

theorem RefsExample.unambiguous : ∀ f ∈ [RefsExample.file], Unambiguous RefsExample.imported f := by
  intro f hf
  rw [List.mem_singleton.1 hf]
  intro t _ n _ i hi j hj p q hp hq
  rcases RefsExample.provides hi hp with ⟨a, b⟩ | ⟨a, b⟩ <;> rcases RefsExample.provides hj hq with ⟨c, d⟩ | ⟨c, d⟩
  · rw [b, d]
  · rw [a] at c; exact absurd c (by decide)
  · rw [a] at c; exact absurd c (by decide)
  · rw [b, d]

/-- The hypotheses of `C67_refs_partial` and `C67_errors_partial` hold for the example. -/
example (p : Imported) : p ∈ (allReferenced .lifo RefsExample.imported (isNodeInteresting [crdFilter]) [RefsExample.file]).1 ↔ ∃ f ∈ [RefsExample.file], RefersTo RefsExample.imported (isNodeInteresting [crdFilter]) f p :=
  (C67_refs_partial RefsExample.sane RefsExample.resolves RefsExample.unambiguous .lifo _).1 p

/-- The hypotheses of `C67_checked_partial` hold for a project where package 0 has this file, and the other packages refer to nothing. -/
def RefsExample.project : Project where
  files p := if p = 0 then [RefsExample.file] else []
  imported _ := RefsExample.imported

example : RefsExample.project.Sane ∧ (RefsExample.project.graph (fun _ => .fifo) (isNodeInteresting [crdFilter]) fun p => if p = 0 then [1, 2, 3] else []).Acyclic (fun p => if p = 0 then 1 else 0) := by
  refine ⟨⟨fun _ => RefsExample.sane, fun p f hf => ?_, fun p f hf => ?_⟩, ⟨fun p q hq => ?_, fun p q hq => ?_⟩⟩
  · unfold RefsExample.project at hf
    simp only at hf
    split at hf
    · exact RefsExample.resolves f hf
    · cases hf
  · unfold RefsExample.project at hf
    simp only at hf
    split at hf
    · exact RefsExample.unambiguous f hf
    · cases hf
  · unfold Project.graph at hq
    simp only at hq ⊢
    split at hq
    · simp only [List.mem_cons, List.not_mem_nil, or_false] at hq
      rename_i hp
      rcases hq with rfl | rfl | rfl <;> simp [hp]
    · cases hq
  · unfold Project.graph at hq ⊢
    simp only at hq ⊢
    unfold RefsExample.project at hq
    simp only at hq
    by_cases hp : p = 0
    · rw [if_pos hp] at hq ⊢
      have : (allReferenced .fifo RefsExample.imported (isNodeInteresting [crdFilter]) [RefsExample.file]).1.map (·.pkg) = [3, 1] := by decide +kernel
      rw [this] at hq
      revert hq
      simp only [List.mem_cons, List.not_mem_nil, or_false]
      rintro (rfl | rfl) <;> simp
    · rw [if_neg hp] at hq
      have : (allReferenced .fifo RefsExample.imported (isNodeInteresting [crdFilter]) []).1.map (·.pkg) = [] := by decide +kernel
      rw [this] at hq
      cases hq

/-- **C67 is violated**: an import of one file that is not found, as `import "C"` is not, makes the references of all other files disappear. -/
theorem C67_violated_import : (allReferenced .fifo RefsExample.imported (isNodeInteresting []) [RefsExample.file, ⟨[⟨none, some ['C']⟩], []⟩]) = ([], [.missing ['C']]) ∧
    RefersTo RefsExample.imported (isNodeInteresting []) RefsExample.file RefsExample.metav1 := by
  refine ⟨by decide +kernel, .inr ⟨_, List.mem_singleton.2 rfl, "metav1".toList, (mem_collect _ _ _).1 (by decide +kernel), _, List.mem_cons_self .., RefsExample.metav1.id, rfl, by decide,
    .inl ⟨rfl, by decide⟩⟩⟩

/-- **C67 is violated**: what the constraints of type parameters refer to is not looked at: `type T[P other.C] struct{}`. -/
theorem C67_violated_params : ∃ f : SourceFile, (∃ t ∈ f.types, ∃ c ∈ t.params, Mentions (isNodeInteresting []) c "other".toList) ∧
    (∃ i ∈ f.imports, Provides RefsExample.imported i "other".toList RefsExample.other) ∧
    allReferenced .fifo RefsExample.imported (isNodeInteresting []) [f] = ([], []) := by
  refine ⟨⟨[⟨none, some RefsExample.other.id⟩], [{ params := [.field false [.selector (.ident "other".toList)]], type := .other [] }]⟩, ?_, ?_, by decide +kernel⟩
  · exact ⟨_, List.mem_singleton.2 rfl, _, List.mem_singleton.2 rfl, (mem_collect _ _ _).1 (by decide +kernel)⟩
  · exact ⟨_, List.mem_singleton.2 rfl, RefsExample.other.id, rfl, by decide, .inr ⟨rfl, rfl⟩⟩

/-- **C67 is violated**: every selector of a name is taken for one of a package.  In the type `[unsafe.Sizeof(v.f)]byte`, where `v` is a variable of the package, an error is reported for
`v`, although the file is correct. -/
theorem C67_violated_value : ∃ unsafePkg : Imported, allReferenced .fifo [("unsafe".toList, unsafePkg)] (isNodeInteresting [])
    [⟨[⟨none, some "unsafe".toList⟩], [{ type := .other [.other [.selector (.ident "unsafe".toList), .selector (.ident ['v'])], .ident "byte".toList] }]⟩] =
      ([unsafePkg], [.unimported ['v']]) :=
  ⟨⟨0, "unsafe".toList, "unsafe".toList⟩, by decide +kernel⟩

end Verif.Loader

import Verif.DeepCopy.ImportsSpec
import Verif.Common.Sort
/-!
# C44: aliases of imports
-/
namespace Verif.DeepCopy

open GoMap

variable {U : Unicode}

/-! ## The loop ends -/

/-- No alias in the list is longer. -/
def Imports.longest (l : Imports) : Nat := (l.byAlias.map fun e => e.1.length).foldr max 0

theorem Imports.le_longest {l : Imports} {a p : Str} (h : get l.byAlias a = some p) : a.length ≤ l.longest := by
  unfold Imports.longest
  generalize l.byAlias = m at h
  induction m with
  | nil => simp [GoMap.get] at h
  | cons e m ih =>
    simp only [List.map_cons, List.foldr_cons]
    by_cases he : e.1 = a
    · subst he; omega
    · have : get m a = some p := by
        simp only [GoMap.get, List.find?_cons] at h ⊢
        simpa [he] using h
      have := ih this
      omega

theorem pathSplit_fst_length (p : Str) : (pathSplit p).1.length ≤ p.length := by
  unfold pathSplit
  have := (List.dropWhile_suffix (l := p.reverse) (fun c => decide (c ≠ '/'))).length_le
  simpa using this

/-- What goes down in each round. -/
def Search.left (M : Nat) (s : Search) : Nat := s.rest.length + (M + 1 - s.alias.length)

theorem Search.next_left {M : Nat} {s : Search} (h : (s.next U).alias.length ≤ M) : (s.next U).left M < s.left M := by
  unfold Search.left
  by_cases hr : s.rest = []
  · simp only [Search.next, hr, if_true, List.length_append, List.length_map, List.length_singleton, List.length_nil] at h ⊢
    omega
  · have h1 := pathSplit_fst_length s.rest.dropLast
    have h2 : 0 < s.rest.length := List.length_pos_iff.2 hr
    simp only [Search.next, hr, if_false, List.length_append, List.length_map, List.length_dropLast] at h h1 ⊢
    omega

theorem Imports.search_ends {l : Imports} {path : Str} : ∀ (n : Nat) (s : Search), s.left l.longest < n → ∃ a, l.search U path n s = some a
  | 0, _, h => by omega
  | n + 1, s, h => by
    unfold Imports.search
    cases hg : get l.byAlias (s.next U).alias with
    | none => exact ⟨_, rfl⟩
    | some other =>
      simp only
      split
      · exact ⟨_, rfl⟩
      · exact Imports.search_ends n _ (by have := Search.next_left (U := U) (M := l.longest) (s := s) (l.le_longest hg); omega)

theorem Imports.search_more {l : Imports} {path a : Str} : ∀ (n k : Nat) (s : Search), l.search U path n s = some a → l.search U path (n + k) s = some a
  | 0, _, _, h => by simp [Imports.search] at h
  | n + 1, k, s, h => by
    rw [Nat.add_right_comm]
    unfold Imports.search at h ⊢
    cases hg : get l.byAlias (s.next U).alias with
    | none => rw [hg] at h; exact h
    | some other =>
      rw [hg] at h
      simp only at h ⊢
      split at h
      · rename_i he; rw [if_pos he]; exact h
      · rename_i he; rw [if_neg he]; exact Imports.search_more n k _ h

theorem Imports.search_free {l : Imports} {path a : Str} : ∀ (n : Nat) (s : Search), l.search U path n s = some a → get l.byAlias a = none ∨ get l.byAlias a = some path
  | 0, _, h => by simp [Imports.search] at h
  | n + 1, s, h => by
    unfold Imports.search at h
    cases hg : get l.byAlias (s.next U).alias with
    | none => rw [hg] at h; cases h; exact .inl hg
    | some other =>
      rw [hg] at h
      simp only at h
      split at h
      · rename_i he; cases h; subst he; exact .inr hg
      · exact Imports.search_free n _ h

theorem Imports.need_more {l : Imports} {p : Str} {r : Imports × Str} {n : Nat} (h : l.need U n p = some r) (k : Nat) : l.need U (n + k) p = some r := by
  unfold Imports.need at h ⊢
  simp only at h ⊢
  cases hg : get l.byPath (nonVendor p) with
  | some a => rw [hg] at h; exact h
  | none =>
    rw [hg] at h
    simp only at h ⊢
    split
    · rename_i he; rw [if_pos he] at h; exact h
    · rename_i he
      rw [if_neg he] at h
      obtain ⟨a, h1, h2⟩ := Option.map_eq_some_iff.1 h
      rw [Imports.search_more _ _ _ h1, Option.map_some, h2]

/-- **C44** (termination).  A request ends, whatever the requests before it were, and its result does not depend on the bound. -/
theorem C44_ends (U : Unicode) (l : Imports) (p : Str) : ∃ r rounds, ∀ n, rounds ≤ n → l.need U n p = some r := by
  have : ∃ n r, l.need U n p = some r := by
    unfold Imports.need
    simp only
    cases hg : get l.byPath (nonVendor p) with
    | some a => exact ⟨0, _, rfl⟩
    | none =>
      simp only
      by_cases he : nonVendor p = []
      · exact ⟨0, _, by rw [if_pos he]; rfl⟩
      · obtain ⟨a, ha⟩ := Imports.search_ends (U := U) (l := l) (path := nonVendor p) _ { rest := (pathSplit (nonVendor p)).1, word := (pathSplit (nonVendor p)).2, alias := [] } (Nat.lt_succ_self _)
        exact ⟨_, _, by rw [if_neg he, ha]; rfl⟩
  obtain ⟨n, r, h⟩ := this
  refine ⟨r, n, fun m hm => ?_⟩
  have := Imports.need_more h (m - n)
  rwa [Nat.add_sub_cancel' hm] at this

theorem Imports.need_det {l : Imports} {p : Str} {r r' : Imports × Str} {n m : Nat} (h : l.need U n p = some r) (h' : l.need U m p = some r') : r = r' := by
  have h1 := Imports.need_more h m
  have h2 := Imports.need_more h' n
  rw [Nat.add_comm] at h2
  rw [h1] at h2
  exact Option.some.inj h2

/-- **C44** (termination, for all the requests of a run): the aliases are determined. -/
theorem C44_runs (U : Unicode) : ∀ (ps : List Str) (l : Imports), ∃ rs l', Requests U l rs l' ∧ rs.map (·.1) = ps ∧ ∀ rs' l'', Requests U l rs' l'' → rs'.map (·.1) = ps → rs' = rs ∧ l'' = l'
  | [], l => ⟨[], l, .nil l, rfl, fun rs' l'' h e => by
      cases rs' with
      | nil => cases h; exact ⟨rfl, rfl⟩
      | cons => cases e⟩
  | p :: ps, l => by
    obtain ⟨⟨l1, a⟩, n, h⟩ := C44_ends U l p
    obtain ⟨rs, l', h1, h2, h3⟩ := C44_runs U ps l1
    refine ⟨(p, a) :: rs, l', .cons n (h n (Nat.le_refl _)) h1, by simp [h2], fun rs' l'' hr e => ?_⟩
    cases hr with
    | nil => cases e
    | cons m hm hr =>
      simp only [List.map_cons, List.cons.injEq] at e
      obtain ⟨rfl, e⟩ := e
      have := Imports.need_det (h n (Nat.le_refl _)) hm
      simp only [Prod.mk.injEq] at this
      obtain ⟨rfl, rfl⟩ := this
      obtain ⟨rfl, rfl⟩ := h3 _ _ hr e
      exact ⟨rfl, rfl⟩

/-! ## Aliases are distinct -/

/-- What holds between requests. -/
structure Imports.Inv (name : Str) (l : Imports) : Prop where
  alias : ∀ p a, get l.byPath p = some a → get l.byAlias a = some p ∧ p ≠ []
  name : get l.byAlias name = some []

theorem Imports.Inv.start (name : Str) : Imports.Inv name (Imports.start name) :=
  ⟨fun p a h => by simp [Imports.start, GoMap.get] at h, by simp [Imports.start, GoMap.get]⟩

theorem Imports.Inv.need {name : Str} {l l' : Imports} {p a : Str} {n : Nat} (hl : l.Inv name) (hp : nonVendor p ≠ []) (h : l.need U n p = some (l', a)) :
    l'.Inv name ∧ get l'.byPath (nonVendor p) = some a ∧ (∀ q b, get l.byPath q = some b → get l'.byPath q = some b) ∧ ∀ q b, get l'.byPath q = some b → q = nonVendor p ∨ get l.byPath q = some b := by
  unfold Imports.need at h
  simp only at h
  cases hg : get l.byPath (nonVendor p) with
  | some a' =>
    rw [hg] at h
    cases h
    exact ⟨hl, hg, fun _ _ h => h, fun _ _ h => .inr h⟩
  | none =>
    rw [hg] at h
    simp only [if_neg hp] at h
    obtain ⟨a', h1, h2⟩ := Option.map_eq_some_iff.1 h
    cases h2
    have hfree := Imports.search_free _ _ h1
    refine ⟨⟨fun q b hq => ?_, ?_⟩, ?_, fun q b hq => ?_, fun q b hq => ?_⟩
    · simp only [get_put] at hq ⊢
      by_cases hqp : q = nonVendor p
      · rw [if_pos hqp] at hq
        cases hq
        exact ⟨by simp [hqp], by rwa [hqp]⟩
      · rw [if_neg hqp] at hq
        obtain ⟨k1, k2⟩ := hl.alias q b hq
        refine ⟨?_, k2⟩
        split
        · rename_i hb
          subst hb
          rw [k1] at hfree
          obtain hf | hf := hfree
          · cases hf
          · cases hf; exact absurd rfl hqp
        · exact k1
    · simp only [get_put]
      split
      · rename_i hb
        rw [← hb, hl.name] at hfree
        obtain hf | hf := hfree
        · cases hf
        · exact absurd (Option.some.inj hf).symm hp
      · exact hl.name
    · simp [get_put]
    · simp only [get_put]
      split
      · rename_i hqp; rw [hqp, hg] at hq; cases hq
      · exact hq
    · simp only [get_put] at hq
      split at hq
      · rename_i hqp; exact .inl hqp
      · exact .inr hq

theorem Requests.inv {name : Str} {l l' : Imports} {rs : List (Str × Str)} (h : Requests U l rs l') (hl : l.Inv name) (hp : ∀ r ∈ rs, nonVendor r.1 ≠ []) :
    l'.Inv name ∧ (∀ r ∈ rs, get l'.byPath (nonVendor r.1) = some r.2) ∧ (∀ q b, get l.byPath q = some b → get l'.byPath q = some b) ∧
      ∀ q b, get l'.byPath q = some b → (∃ r ∈ rs, q = nonVendor r.1) ∨ get l.byPath q = some b := by
  induction h with
  | nil l => exact ⟨hl, by simp, fun _ _ h => h, fun _ _ h => .inr h⟩
  | cons n hn _ ih =>
    obtain ⟨h1, h2, h3, h4⟩ := hl.need (hp _ (List.mem_cons_self ..)) hn
    obtain ⟨k1, k2, k3, k4⟩ := ih h1 fun r hr => hp r (List.mem_cons_of_mem _ hr)
    refine ⟨k1, fun r hr => ?_, fun q b hq => k3 _ _ (h3 _ _ hq), fun q b hq => ?_⟩
    · obtain rfl | hr := List.mem_cons.1 hr
      · exact k3 _ _ h2
      · exact k2 r hr
    · obtain ⟨r, hr, e⟩ | hq := k4 q b hq
      · exact .inl ⟨r, List.mem_cons_of_mem _ hr, e⟩
      · obtain e | hq := h4 q b hq
        · exact .inl ⟨_, List.mem_cons_self .., e⟩
        · exact .inr hq

/-! ## Paths below a vendor directory -/

theorem afterVendor_some {p q : Str} (h : afterVendor p = some q) :
    ∃ pre, p = pre ++ "/vendor/".toList ++ q ∧ ∀ pre' p', pre' ++ "/vendor/".toList ++ p' = p → pre'.length ≤ pre.length := by
  induction p generalizing q with
  | nil => cases h
  | cons c s ih =>
    unfold afterVendor at h
    cases hs : afterVendor s with
    | some r =>
      rw [hs] at h
      cases h
      obtain ⟨pre, h1, h2⟩ := ih hs
      refine ⟨c :: pre, by rw [h1]; simp, fun pre' p' e => ?_⟩
      cases pre' with
      | nil => simp
      | cons d pre' =>
        simp only [List.cons_append, List.cons.injEq] at e
        have := h2 pre' p' e.2
        simpa using this
    | none =>
      rw [hs] at h
      simp only at h
      split at h
      · rename_i hpre
        cases h
        obtain ⟨r, hr⟩ := List.isPrefixOf_iff_prefix.1 hpre
        refine ⟨[], ?_, fun pre' p' e => ?_⟩
        · rw [← hr]; rfl
        · cases pre' with
          | nil => simp
          | cons d pre' =>
            simp only [List.cons_append, List.cons.injEq] at e
            exfalso
            have : afterVendor s ≠ none := by
              rw [← e.2]
              clear hs hpre e hr ih
              induction pre' with
              | nil =>
                simp only [List.nil_append]
                unfold afterVendor
                cases hx : afterVendor ('v' :: 'e' :: 'n' :: 'd' :: 'o' :: 'r' :: '/' :: p') with
                | some _ => simp [hx]
                | none => simp [hx]
              | cons d' pre' ih =>
                simp only [List.cons_append]
                unfold afterVendor
                cases hx : afterVendor (pre' ++ "/vendor/".toList ++ p') with
                | some _ => simp
                | none => exact absurd hx ih
            exact this hs
      · cases h

theorem afterVendor_none {p : Str} (h : afterVendor p = none) : ¬ ∃ pre q, p = pre ++ "/vendor/".toList ++ q := by
  induction p with
  | nil =>
    rintro ⟨pre, q, h⟩
    have := congrArg List.length h
    simp at this
  | cons c s ih =>
    unfold afterVendor at h
    cases hs : afterVendor s with
    | some r => rw [hs] at h; cases h
    | none =>
      rw [hs] at h
      simp only at h
      split at h
      · cases h
      · rename_i hpre
        rintro ⟨pre, q, e⟩
        cases pre with
        | nil =>
          apply hpre
          rw [List.isPrefixOf_iff_prefix]
          exact ⟨q, by rw [e]; rfl⟩
        | cons d pre =>
          simp only [List.cons_append, List.cons.injEq] at e
          exact ih hs ⟨pre, q, e.2⟩

/-- `nonVendor` gives the path by which the package is imported. -/
theorem imported_iff {p q : Str} : Imported p q ↔ nonVendor p = q := by
  unfold nonVendor
  constructor
  · intro h
    cases h with
    | vendored pre _ hl =>
      cases ha : afterVendor (pre ++ "/vendor/".toList ++ q) with
      | none => exact absurd ⟨pre, q, rfl⟩ (afterVendor_none ha)
      | some r =>
        obtain ⟨pre', h1, h2⟩ := afterVendor_some ha
        have h3 := h2 pre q rfl
        have h4 := hl pre' r h1.symm
        have hlen : pre.length = pre'.length := by omega
        rw [List.append_assoc, List.append_assoc] at h1
        have := (List.append_inj h1 hlen).2
        have := (List.append_inj this rfl).2
        simp [this]
    | plain _ hn =>
      cases ha : afterVendor p with
      | none => rfl
      | some r =>
        obtain ⟨pre, h1, -⟩ := afterVendor_some ha
        exact absurd ⟨pre, r, h1⟩ hn
  · intro h
    cases ha : afterVendor p with
    | none =>
      rw [ha] at h
      simp only [Option.getD_none] at h
      subst h
      exact .plain p (afterVendor_none ha)
    | some r =>
      rw [ha] at h
      simp only [Option.getD_some] at h
      subst h
      obtain ⟨pre, h1, h2⟩ := afterVendor_some ha
      rw [h1] at h2
      rw [h1]
      exact .vendored pre r h2

/-- **C44**.  Whatever packages are asked for, and however often: two requests get the same alias exactly if they are for the same package, and no alias is the name of the package itself. -/
theorem C44_distinct (U : Unicode) (name : Str) {rs : List (Str × Str)} {l : Imports} (h : Requests U (Imports.start name) rs l) (hp : ∀ r ∈ rs, ¬ Imported r.1 []) :
    (∀ r ∈ rs, ∀ r' ∈ rs, r.2 = r'.2 ↔ ∀ q, Imported r.1 q ↔ Imported r'.1 q) ∧ ∀ r ∈ rs, r.2 ≠ name := by
  simp only [imported_iff] at hp ⊢
  obtain ⟨h1, h2, -, -⟩ := h.inv (Imports.Inv.start name) hp
  refine ⟨fun r hr r' hr' => ⟨fun e => ?_, fun e => ?_⟩, fun r hr e => ?_⟩
  · have k1 := (h1.alias _ _ (h2 r hr)).1
    have k2 := (h1.alias _ _ (h2 r' hr')).1
    rw [e, k2] at k1
    rw [Option.some.inj k1]
    exact fun _ => Iff.rfl
  · have k1 := h2 r hr
    rw [(e _).2 rfl, h2 r' hr'] at k1
    exact (Option.some.inj k1).symm
  · obtain ⟨k1, k2⟩ := h1.alias _ _ (h2 r hr)
    rw [e, h1.name] at k1
    exact k2 (Option.some.inj k1).symm

theorem Imports.need_wf {l l' : Imports} {p a : Str} {n : Nat} (hl : WF l.byPath) (h : l.need U n p = some (l', a)) : WF l'.byPath := by
  unfold Imports.need at h
  simp only at h
  cases hg : get l.byPath (nonVendor p) with
  | some a' => rw [hg] at h; cases h; exact hl
  | none =>
    rw [hg] at h
    obtain ⟨a', -, h2⟩ := Option.map_eq_some_iff.1 h
    cases h2
    exact put_wf hl _ _

theorem Requests.wf {l l' : Imports} {rs : List (Str × Str)} (h : Requests U l rs l') (hl : WF l.byPath) : WF l'.byPath := by
  induction h with
  | nil => exact hl
  | cons n hn _ ih => exact ih (Imports.need_wf hl hn)

/-- **C44** (the list of imports).  Whatever the order of iteration: there is one specification for each package that was asked for and no other, no two declare the same name, and each declares the alias that was given. -/
theorem C44_specs (U : Unicode) (σ : Sched) (pkgName : Str → Option Str) (name : Str) {rs : List (Str × Str)} {l : Imports} (h : Requests U (Imports.start name) rs l) (hp : ∀ r ∈ rs, ¬ Imported r.1 []) :
    ((l.specs σ pkgName).map (·.2)).Nodup ∧
    (∀ q, q ∈ (l.specs σ pkgName).map (·.2) ↔ ∃ r ∈ rs, Imported r.1 q) ∧
    (∀ s ∈ l.specs σ pkgName, ∀ n, Declares pkgName s n ↔ ∃ r ∈ rs, Imported r.1 s.2 ∧ r.2 = n) ∧
    ∀ s ∈ l.specs σ pkgName, ∀ s' ∈ l.specs σ pkgName, ∀ n, Declares pkgName s n → Declares pkgName s' n → s = s' := by
  simp only [imported_iff] at hp ⊢
  have hwf : WF l.byPath := h.wf (by simp [Imports.start, WF, keys])
  obtain ⟨h1, h2, -, h4⟩ := h.inv (Imports.Inv.start name) hp
  have hmem : ∀ s, s ∈ l.specs σ pkgName ↔ ∃ q a, get l.byPath q = some a ∧ s = (if pkgName q = some a then none else some a, q) := by
    intro s
    simp only [Imports.specs, List.mem_map, Sched.mem_order]
    constructor
    · rintro ⟨⟨q, a⟩, hm, rfl⟩
      exact ⟨q, a, (get_eq_some hwf).2 hm, rfl⟩
    · rintro ⟨q, a, hq, rfl⟩
      exact ⟨(q, a), (get_eq_some hwf).1 hq, rfl⟩
  have hreq : ∀ q a, get l.byPath q = some a → ∃ r ∈ rs, nonVendor r.1 = q ∧ r.2 = a := by
    intro q a hq
    obtain ⟨r, hr, rfl⟩ | hq' := h4 q a hq
    · refine ⟨r, hr, rfl, ?_⟩
      rw [h2 r hr] at hq
      exact Option.some.inj hq
    · simp [Imports.start, GoMap.get] at hq'
  have hdecl : ∀ q a n, Declares pkgName (if pkgName q = some a then none else some a, q) n ↔ n = a := by
    intro q a n
    unfold Declares
    by_cases hn : pkgName q = some a
    · simp only [hn, if_true]
      constructor
      · rintro (h | ⟨-, h⟩)
        · cases h
        · exact (Option.some.inj h).symm
      · rintro rfl
        exact .inr ⟨trivial, rfl⟩
    · simp only [hn, if_false]
      constructor
      · rintro (h | ⟨h, -⟩)
        · exact (Option.some.inj h).symm
        · cases h
      · rintro rfl
        exact .inl rfl
  refine ⟨?_, fun q => ?_, fun s hs n => ?_, fun s hs s' hs' n hn hn' => ?_⟩
  · have : (l.specs σ pkgName).map (·.2) = (σ.order 0 l.byPath).map (·.1) := by simp [Imports.specs]
    rw [this]
    exact ((σ.perm 0 l.byPath).map _).nodup_iff.2 hwf
  · constructor
    · intro hq
      obtain ⟨s, hs, rfl⟩ := List.mem_map.1 hq
      obtain ⟨q, a, hqa, rfl⟩ := (hmem s).1 hs
      obtain ⟨r, hr, e, -⟩ := hreq q a hqa
      exact ⟨r, hr, e⟩
    · rintro ⟨r, hr, rfl⟩
      exact List.mem_map.2 ⟨_, (hmem _).2 ⟨_, _, h2 r hr, rfl⟩, rfl⟩
  · obtain ⟨q, a, hq, rfl⟩ := (hmem s).1 hs
    rw [hdecl]
    constructor
    · rintro rfl
      exact hreq q _ hq
    · rintro ⟨r, hr, e, rfl⟩
      have := h2 r hr
      simp only at e
      rw [e, hq] at this
      exact (Option.some.inj this).symm
  · obtain ⟨q, a, hq, rfl⟩ := (hmem s).1 hs
    obtain ⟨q', a', hq', rfl⟩ := (hmem s').1 hs'
    rw [hdecl] at hn hn'
    subst hn
    subst hn'
    have k := (h1.alias _ _ hq).1
    rw [(h1.alias _ _ hq').1] at k
    rw [Option.some.inj k]

/-! ## Aliases are identifiers -/

theorem identChar_ok (c : Char) : U.letter (identChar U c) = true ∨ U.digit (identChar U c) = true ∨ identChar U c = '_' := by
  unfold identChar
  split
  · rename_i h
    simp only [Bool.or_eq_true, decide_eq_true_eq] at h
    obtain (h | h) | h := h
    · exact .inl h
    · exact .inr (.inl h)
    · exact .inr (.inr h)
  · exact .inr (.inr rfl)

/-- Letters, digits and underscores, the first no digit. -/
def Identifier (U : Unicode) (a : Str) : Prop := (∀ c ∈ a, U.letter c = true ∨ U.digit c = true ∨ c = '_') ∧ ∀ c, a.head? = some c → U.digit c = false

theorem Search.next_ident (hx : U.letter 'x' = true ∧ U.digit 'x' = false) (hu : U.digit '_' = false) {s : Search} (h : Identifier U s.alias) : Identifier U (s.next U).alias := by
  have hal : Identifier U (if s.rest = [] then s.alias ++ ['x'] else s.alias) := by
    split
    · refine ⟨fun c hc => ?_, fun c hc => ?_⟩
      · obtain hc | hc := List.mem_append.1 hc
        · exact h.1 c hc
        · rw [List.mem_singleton.1 hc]; exact .inl hx.1
      · cases ha : s.alias with
        | nil => rw [ha] at hc; cases hc; exact hx.2
        | cons d ds => rw [ha] at hc; exact h.2 c (by rw [ha]; exact hc)
    · exact h
  refine ⟨fun c hc => ?_, fun c hc => ?_⟩
  · obtain hc | hc := List.mem_append.1 (show c ∈ (s.word.dropWhile U.digit).map (identChar U) ++ _ from hc)
    · obtain ⟨d, -, rfl⟩ := List.mem_map.1 hc
      exact identChar_ok d
    · exact hal.1 c hc
  · have hc : ((s.word.dropWhile U.digit).map (identChar U) ++ if s.rest = [] then s.alias ++ ['x'] else s.alias).head? = some c := hc
    cases hw : s.word.dropWhile U.digit with
    | nil => rw [hw] at hc; exact hal.2 c hc
    | cons d ds =>
      rw [hw] at hc
      simp only [List.map_cons, List.cons_append, List.head?_cons, Option.some.injEq] at hc
      subst hc
      have : U.digit d = false := by
        have := List.head?_dropWhile_not U.digit s.word
        rw [hw] at this
        simpa using this
      unfold identChar
      split
      · exact this
      · exact hu

/-- **C44** (identifiers).  An alias has letters, digits and underscores only and does not begin with a digit.

Partial: it may be empty or a keyword (`C44_violated_empty`, `C44_violated_keyword`), or the name of a variable of the generated code (`C44_violated_shadow`). -/
theorem C44_identifier_partial (hx : U.letter 'x' = true ∧ U.digit 'x' = false) (hu : U.digit '_' = false) (name : Str) {rs : List (Str × Str)} {l : Imports} (h : Requests U (Imports.start name) rs l) :
    ∀ r ∈ rs, Identifier U r.2 := by
  have hsearch : ∀ (l : Imports) (path a : Str) (n : Nat) (s : Search), Identifier U s.alias → l.search U path n s = some a → Identifier U a := by
    intro l path a n
    induction n with
    | zero => intro s _ h; simp [Imports.search] at h
    | succ n ih =>
      intro s hs h
      unfold Imports.search at h
      have hs' := Search.next_ident hx hu hs
      split at h
      · cases h; exact hs'
      · split at h
        · cases h; exact hs'
        · exact ih _ hs' h
  have hinv : ∀ p a, get (Imports.start name).byPath p = some a → Identifier U a := by simp [Imports.start, GoMap.get]
  generalize Imports.start name = l0 at h hinv
  induction h with
  | nil => simp
  | @cons l l' l'' p a rs n hn _ ih =>
    have hstep : Identifier U a ∧ ∀ p a, get l'.byPath p = some a → Identifier U a := by
      unfold Imports.need at hn
      simp only at hn
      cases hg : get l.byPath (nonVendor p) with
      | some a' => rw [hg] at hn; cases hn; exact ⟨hinv _ _ hg, hinv⟩
      | none =>
        rw [hg] at hn
        obtain ⟨a', h1, h2⟩ := Option.map_eq_some_iff.1 hn
        have ha' : Identifier U a' := by
          split at h1
          · cases h1; exact ⟨by simp, by simp⟩
          · exact hsearch _ _ _ _ _ ⟨by simp, by simp⟩ h1
        cases h2
        refine ⟨ha', fun q b hq => ?_⟩
        simp only [get_put] at hq
        split at hq
        · cases hq; exact ha'
        · exact hinv _ _ hq
    intro r hr
    obtain rfl | hr := List.mem_cons.1 hr
    · exact hstep.1
    · exact ih hstep.2 r hr

end Verif.DeepCopy

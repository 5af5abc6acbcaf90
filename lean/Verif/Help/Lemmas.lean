import Verif.Help.Spec
import Verif.Markers.DefineTheorems
/-!
# Lemmas about marker help: order of texts, sorting, grouping, the registry
-/
namespace Verif.Help
open Spec Markers GoMap

/-! ## Order of texts -/

theorem textLt_iff {a b : Str} : textLt a b = true ↔ Before a b := by simp [textLt, Before]

theorem ofList_inj {a b : Str} (h : String.ofList a = String.ofList b) : a = b := by
  have := congrArg String.toList h; simpa using this

theorem textLe_eq (a b : Str) : textLe a b = strLe (String.ofList a) (String.ofList b) := by
  unfold textLe textLt strLe
  by_cases h : String.ofList a ≤ String.ofList b
  · have := String.not_lt.2 h
    simp [h, this]
  · have : String.ofList b < String.ofList a := Decidable.byContradiction fun h' => h (String.not_lt.1 h')
    simp [h, this]

theorem textLe_trans (a b c : Str) : textLe a b = true → textLe b c = true → textLe a c = true := by
  simp only [textLe_eq]; exact strLe_trans _ _ _

theorem textLe_total (a b : Str) : textLe a b = true ∨ textLe b a = true := by
  simp only [textLe_eq]; exact strLe_total _ _

theorem textLe_antisymm {a b : Str} (h : textLe a b = true) (h' : textLe b a = true) : a = b := by
  rw [textLe_eq] at h h'; exact ofList_inj (strLe_antisymm h h')

theorem before_of_le_ne {a b : Str} (h : textLe a b = true) (hne : a ≠ b) : Before a b := by
  rw [textLe_eq] at h
  exact strLt_iff.2 ⟨h, fun e => hne (ofList_inj e)⟩

theorem not_before_of_le {a b : Str} (h : textLe a b = true) : ¬ Before b a := by
  unfold textLe at h; rw [← textLt_iff]; simpa using h

theorem before_irrefl {a : Str} : ¬ Before a a := String.lt_irrefl _

theorem before_asymm {a b : Str} (h : Before a b) (h' : Before b a) : False := String.lt_irrefl _ (String.lt_trans h h')

theorem textLe_refl (a : Str) : textLe a a = true := by rcases textLe_total a a with h | h <;> exact h

/-! ## Sorting -/

section
variable {α : Type}

theorem sliceSort_perm (σ : Sched) (n : Nat) (less : α → α → Bool) (l : List α) : (sliceSort σ n less l).Perm l := by
  unfold sliceSort
  split
  · exact sortBy_perm _ _
  · exact (sortBy_perm _ _).trans (σ.perm _ _)

theorem sliceSort_pairwise {less : α → α → Bool}
    (trans : ∀ a b c, less b a = false → less c b = false → less c a = false) (asymm : ∀ a b, less a b = true → less b a = false)
    (σ : Sched) (n : Nat) (l : List α) : (sliceSort σ n less l).Pairwise (fun a b => less b a = false) := by
  have key : ∀ l : List α, (sortBy (fun a b => !less b a) l).Pairwise (fun a b => less b a = false) := by
    intro l
    have := sortBy_pairwise (le := fun a b => !less b a) (by simpa using trans) ?_ l
    · simpa using this
    · intro a b
      cases h : less b a with
      | false => simp
      | true => simp [asymm _ _ h]
  unfold sliceSort
  split <;> exact key _

/-- Stability: elements with the same place keep their order. -/
theorem insertBy_keeps {le : α → α → Bool} (trans : ∀ a b c, le a b = true → le b c = true → le a c = true)
    (total : ∀ a b, le a b = true ∨ le b a = true) {R : α → α → Prop} (a : α) (l : List α)
    (ha : ∀ b ∈ l, R a b) (h : l.Pairwise (fun x y => le x y = true ∧ (le y x = true → R x y))) :
    (insertBy le a l).Pairwise (fun x y => le x y = true ∧ (le y x = true → R x y)) := by
  induction l with
  | nil => simp [insertBy]
  | cons b l ih =>
    have hb := List.pairwise_cons.1 h
    simp only [insertBy]
    split
    · rename_i hab
      refine List.pairwise_cons.2 ⟨?_, h⟩
      intro c hc
      refine ⟨?_, fun _ => ha c hc⟩
      rcases List.mem_cons.1 hc with rfl | hc
      · exact hab
      · exact trans _ _ _ hab (hb.1 c hc).1
    · rename_i hab
      refine List.pairwise_cons.2 ⟨?_, ih (fun c hc => ha c (List.mem_cons_of_mem _ hc)) hb.2⟩
      intro c hc
      rcases List.mem_cons.1 ((insertBy_perm le a l).mem_iff.1 hc) with rfl | hc
      · refine ⟨?_, fun h' => absurd h' hab⟩
        rcases total c b with h' | h'
        · exact absurd h' hab
        · exact h'
      · exact hb.1 c hc

theorem sortBy_keeps {le : α → α → Bool} (trans : ∀ a b c, le a b = true → le b c = true → le a c = true)
    (total : ∀ a b, le a b = true ∨ le b a = true) {R : α → α → Prop} (l : List α) (h : l.Pairwise R) :
    (sortBy le l).Pairwise (fun x y => le x y = true ∧ (le y x = true → R x y)) := by
  induction l with
  | nil => simp [sortBy]
  | cons a l ih =>
    have h' := List.pairwise_cons.1 h
    refine insertBy_keeps trans total a _ (fun b hb => h'.1 b (mem_sortBy.1 hb)) (ih h'.2)

/-- Sorting by a number beside the order is canonical: two arrangements of the same list that agree on the order of elements with the same place. -/
theorem sortBy_canonical {le : α → α → Bool} (trans : ∀ a b c, le a b = true → le b c = true → le a c = true)
    (total : ∀ a b, le a b = true ∨ le b a = true) (rank : α → Nat) {l l' : List α} (hp : l.Perm l')
    (hl : l.Pairwise (fun a b => rank a ≤ rank b)) (hl' : l'.Pairwise (fun a b => rank a ≤ rank b))
    (inj : ∀ a ∈ l, ∀ b ∈ l, le a b = true → le b a = true → rank a = rank b → a = b) : sortBy le l = sortBy le l' := by
  refine List.Perm.eq_of_pairwise (le := fun x y => le x y = true ∧ (le y x = true → rank x ≤ rank y)) ?_
    (sortBy_keeps trans total l hl) (sortBy_keeps trans total l' hl') (((sortBy_perm le l).trans hp).trans (sortBy_perm le l').symm)
  intro a b ha hb h1 h2
  exact inj a (mem_sortBy.1 ha) b (hp.mem_iff.2 (mem_sortBy.1 hb)) h1.1 h2.1 (Nat.le_antisymm (h1.2 h2.1) (h2.2 h1.1))

end

/-! ## Groups -/

section
variable {α κ : Type} [DecidableEq κ]

theorem perm_groups (key : α → κ) (gs : List κ) (hn : gs.Nodup) (l : List α) :
    (gs.flatMap fun g => l.filter (fun a => key a = g)).Perm (l.filter (fun a => key a ∈ gs)) := by
  induction gs with
  | nil => simp
  | cons g gs ih =>
    have hn' := List.nodup_cons.1 hn
    rw [List.flatMap_cons]
    refine ((ih hn'.2).append_left _).trans ?_
    have hsplit := List.filter_append_perm (fun a => decide (key a = g)) (l.filter (fun a => key a ∈ g :: gs))
    refine List.Perm.trans (List.Perm.of_eq ?_) hsplit
    congr 1
    · rw [List.filter_filter]
      apply List.filter_congr
      intro a _
      by_cases h : key a = g <;> simp [h]
    · rw [List.filter_filter]
      apply List.filter_congr
      intro a _
      by_cases h : key a = g
      · simp [h, hn'.1]
      · simp [h]

end

/-! ## The order of options -/

theorem split_two {o r : Str} (ho : ':' ∉ o) (hr : ':' ∉ r) : Text.split ':' (o ++ ':' :: r) = [o, r] := by
  rw [Text.split_append ho, Text.split_not_mem hr]

theorem split_three {o g r : Str} (ho : ':' ∉ o) (hg : ':' ∉ g) (hr : ':' ∉ r) : Text.split ':' (o ++ ':' :: (g ++ ':' :: r)) = [o, g, r] := by
  rw [Text.split_append ho, split_two hg hr]

theorem reads_iff {n g r : Str} : Reads n g r ↔ optionKey n = (g, r) := by
  have fwd : ∀ {g r}, Reads n g r → optionKey n = (g, r) := by
    intro g r h
    unfold optionKey
    cases h with
    | one h => simp [Text.split_not_mem h]
    | two ho hr => simp [split_two ho hr]
    | three ho hg hr => simp [split_three ho hg hr]
    | more ho hp hq =>
      rename_i o p q r
      rw [Text.split_append ho, Text.split_append hp, Text.split_append hq]
      cases h : Text.split ':' r with
      | nil => exact (Text.split_ne_nil h).elim
      | cons x xs => rfl
  refine ⟨fwd, ?_⟩
  intro h
  have all : ∃ g r, Reads n g r := by
    cases h1 : Text.cut ':' n with
    | none => exact ⟨_, _, .one (Text.cut_none.1 h1)⟩
    | some x =>
      obtain ⟨o, n1⟩ := x
      obtain ⟨rfl, ho⟩ := Text.cut_some.1 h1
      cases h2 : Text.cut ':' n1 with
      | none => exact ⟨_, _, .two ho (Text.cut_none.1 h2)⟩
      | some x =>
        obtain ⟨p, n2⟩ := x
        obtain ⟨rfl, hp⟩ := Text.cut_some.1 h2
        cases h3 : Text.cut ':' n2 with
        | none => exact ⟨_, _, .three ho hp (Text.cut_none.1 h3)⟩
        | some x =>
          obtain ⟨q, n3⟩ := x
          obtain ⟨rfl, hq⟩ := Text.cut_some.1 h3
          exact ⟨_, _, .more ho hp hq⟩
  obtain ⟨g', r', h'⟩ := all
  have := (fwd h').symm.trans h
  cases this
  exact h'

theorem less_iff {s : Sorter} {d d' : Def Info} : s.less d d' = true ↔ Precedes s d.name d'.name := by
  cases s with
  | byCategory =>
    simp only [Sorter.less, textLt_iff]
    exact ⟨.name, fun h => by cases h with | name h => exact h⟩
  | byOption =>
    simp only [Sorter.less]
    rcases hk : optionKey d.name with ⟨g, r⟩
    rcases hk' : optionKey d'.name with ⟨g', r'⟩
    simp only
    constructor
    · intro h
      split at h
      · exact .generator (reads_iff.2 hk) (reads_iff.2 hk') (textLt_iff.1 h)
      · rename_i he
        have he : g = g' := by simpa using he
        subst he
        exact .rule (reads_iff.2 hk) (reads_iff.2 hk') (textLt_iff.1 h)
    · intro h
      cases h with
      | generator h1 h2 hb =>
        rw [reads_iff, hk] at h1; rw [reads_iff, hk'] at h2
        cases h1; cases h2
        have : g ≠ g' := fun e => before_irrefl (e ▸ hb)
        rw [if_pos this]; exact textLt_iff.2 hb
      | rule h1 h2 hb =>
        rw [reads_iff, hk] at h1; rw [reads_iff, hk'] at h2
        cases h1; cases h2
        simpa using textLt_iff.2 hb

theorem textLt_asymm {a b : Str} (h : textLt a b = true) : textLt b a = false := by
  cases h' : textLt b a with
  | false => rfl
  | true =>
    rw [textLt_iff] at h h'
    exact (String.lt_irrefl _ (String.lt_trans h h')).elim

theorem textLt_cotrans {a b c : Str} (h : textLt b a = false) (h' : textLt c b = false) : textLt c a = false := by
  have := textLe_trans a b c (by simp [textLe, h]) (by simp [textLe, h'])
  simpa [textLe] using this

theorem less_trans (s : Sorter) (a b c : Def Info) (h : s.less b a = false) (h' : s.less c b = false) : s.less c a = false := by
  cases s with
  | byCategory => exact textLt_cotrans h h'
  | byOption =>
    simp only [Sorter.less] at h h' ⊢
    generalize optionKey a.name = ka at *
    generalize optionKey b.name = kb at *
    generalize optionKey c.name = kc at *
    obtain ⟨ga, ra⟩ := ka
    obtain ⟨gb, rb⟩ := kb
    obtain ⟨gc, rc⟩ := kc
    simp only at h h' ⊢
    by_cases hab : gb = ga
    · by_cases hbc : gc = gb
      · simp only [hab, hbc, ne_eq, not_true, if_false] at h h' ⊢
        exact textLt_cotrans h h'
      · subst hab
        simp only [hbc, ne_eq, not_false_eq_true, if_true] at h' ⊢
        exact h'
    · by_cases hbc : gc = gb
      · subst hbc
        simp only [hab, ne_eq, not_false_eq_true, if_true] at h ⊢
        exact h
      · simp only [hab, hbc, ne_eq, not_false_eq_true, if_true] at h h'
        have hac : gc ≠ ga := by
          rintro rfl
          have h1 : textLe gb gc = true := by simp [textLe, h]
          have h2 : textLe gc gb = true := by simp [textLe, h']
          exact hbc (textLe_antisymm h2 h1)
        simp only [hac, ne_eq, not_false_eq_true, if_true]
        exact textLt_cotrans h' h

theorem less_asymm (s : Sorter) (a b : Def Info) (h : s.less a b = true) : s.less b a = false := by
  cases s with
  | byCategory => exact textLt_asymm h
  | byOption =>
    simp only [Sorter.less] at h ⊢
    generalize optionKey a.name = ka at *
    generalize optionKey b.name = kb at *
    obtain ⟨ga, ra⟩ := ka
    obtain ⟨gb, rb⟩ := kb
    simp only at h ⊢
    by_cases hab : ga = gb
    · subst hab; simp only [ne_eq, not_true, if_false] at h ⊢; exact textLt_asymm h
    · simp only [hab, Ne.symm hab, ne_eq, not_false_eq_true, if_true] at h ⊢
      exact textLt_asymm h

theorem group_iff {s : Sorter} {d : Def Info} {h : Option DefHelp} {g : Str} : InGroup s d h g ↔ s.group d h = g := by
  have fwd : ∀ {g}, InGroup s d h g → s.group d h = g := by
    intro g hg
    cases hg with
    | category => rfl
    | noHelp => rfl
    | paths hn =>
      have : ':' ∉ "paths".toList := by decide
      simp only [Sorter.group]
      rw [hn, Text.split_not_mem this]
      simp
    | generator hc hn => simp only [Sorter.group]; rw [Text.split_not_mem hc]; simp only; rw [if_neg hn]
    | rule hn ho hr => simp only [Sorter.group]; rw [hn, split_two ho hr]
    | hidden hn ho hp =>
      rename_i o p r
      simp only [Sorter.group]
      rw [hn, Text.split_append ho, Text.split_append hp]
      cases h : Text.split ':' r with
      | nil => exact (Text.split_ne_nil h).elim
      | cons x xs => rfl
  refine ⟨fwd, ?_⟩
  intro hg
  have all : ∃ g, InGroup s d h g := by
    cases s with
    | byCategory =>
      cases h with
      | none => exact ⟨_, .noHelp⟩
      | some h => exact ⟨_, .category⟩
    | byOption =>
      cases h1 : Text.cut ':' d.name with
      | none =>
        by_cases hp : d.name = "paths".toList
        · exact ⟨_, .paths hp⟩
        · exact ⟨_, .generator (Text.cut_none.1 h1) hp⟩
      | some x =>
        obtain ⟨o, n1⟩ := x
        obtain ⟨hd, ho⟩ := Text.cut_some.1 h1
        cases h2 : Text.cut ':' n1 with
        | none => exact ⟨_, .rule hd ho (Text.cut_none.1 h2)⟩
        | some x =>
          obtain ⟨p, n2⟩ := x
          obtain ⟨rfl, hp⟩ := Text.cut_some.1 h2
          exact ⟨_, .hidden hd ho hp⟩
  obtain ⟨g', h'⟩ := all
  rw [← hg, fwd h']; exact h'

/-! ## The registry after a history -/

theorem after_reg (ops : List Op) : (HelpRegistry.after ops).reg = Registry.after (registrations ops) := by
  have key : ∀ (ops : List Op) (r : HelpRegistry), (ops.foldl HelpRegistry.step r).reg = (registrations ops).foldl (fun r d => (r.register d).1) r.reg := by
    intro ops
    induction ops with
    | nil => intro r; rfl
    | cons o ops ih =>
      intro r
      rw [List.foldl_cons, ih]
      cases o <;> rfl
  exact key ops {}

theorem helpFor_after (ops : List Op) (d : Def Info) : HelpOf ops d ((HelpRegistry.after ops).help d) := by
  induction ops using GoMap.revInduction with
  | nil => simp [HelpRegistry.after, HelpRegistry.help, GoMap.get, HelpOf]
  | concat ops o ih =>
    have hstep : HelpRegistry.after (ops ++ [o]) = (HelpRegistry.after ops).step o := by simp [HelpRegistry.after, List.foldl_append]
    rw [hstep]
    cases o with
    | register d' =>
      have : ((HelpRegistry.after ops).step (.register d')).help d = (HelpRegistry.after ops).help d := rfl
      rw [this]
      cases hh : (HelpRegistry.after ops).help d with
      | none =>
        rw [hh] at ih
        intro h' hm
        rcases List.mem_append.1 hm with hm | hm
        · exact ih h' hm
        · simp at hm
      | some h =>
        rw [hh] at ih
        obtain ⟨b, a, he, hno⟩ := ih
        refine ⟨b, a ++ [.register d'], by rw [he]; simp, ?_⟩
        intro h' hm
        rcases List.mem_append.1 hm with hm | hm
        · exact hno h' hm
        · simp at hm
    | addHelp p h =>
      have hg : ((HelpRegistry.after ops).step (.addHelp p h)).help d = if d.payload.ptr = p then some h else (HelpRegistry.after ops).help d := by
        simp [HelpRegistry.step, HelpRegistry.help, get_put]
      rw [hg]
      by_cases hp : d.payload.ptr = p
      · subst hp
        rw [if_pos rfl]
        exact ⟨ops, [], rfl, by simp⟩
      · rw [if_neg hp]
        cases hh : (HelpRegistry.after ops).help d with
        | none =>
          rw [hh] at ih
          intro h' hm
          rcases List.mem_append.1 hm with hm | hm
          · exact ih h' hm
          · simp at hm; exact hp hm.1
        | some h1 =>
          rw [hh] at ih
          obtain ⟨b, a, he, hno⟩ := ih
          refine ⟨b, a ++ [.addHelp p h], by rw [he]; simp, ?_⟩
          intro h' hm
          rcases List.mem_append.1 hm with hm | hm
          · exact hno h' hm
          · simp at hm; exact hp hm.1

theorem helpOf_unique {ops : List Op} {d : Def Info} {h h' : Option DefHelp} (a : HelpOf ops d h) (b : HelpOf ops d h') : h = h' := by
  have key : ∀ (h1 : DefHelp) {x : Option DefHelp}, HelpOf ops d (some h1) → HelpOf ops d x → x = some h1 := by
    rintro h1 x ⟨b1, a1, e1, n1⟩ hx
    cases x with
    | none => exact (hx h1 (by rw [e1]; simp)).elim
    | some h2 =>
      obtain ⟨b2, a2, e2, n2⟩ := hx
      rw [e1] at e2
      rcases List.append_eq_append_iff.1 e2 with ⟨c, hb, hc⟩ | ⟨c, hb, hc⟩
      · cases c with
        | nil => simp at hc; rw [hc.1]
        | cons x c =>
          simp at hc
          exact (n1 h2 (by rw [hc.2]; simp)).elim
      · cases c with
        | nil => simp at hc; rw [hc.1]
        | cons x c =>
          simp at hc
          exact (n2 h1 (by rw [hc.2]; simp)).elim
  cases h with
  | none =>
    cases h' with
    | none => rfl
    | some h1 => exact key h1 b a
  | some h1 => exact (key h1 a b).symm

/-- The tables of a registry hold definitions under their names. -/
structure TablesOk (r : Registry Info) : Prop where
  wf : ∀ t, WF (tableOf r t)
  own : ∀ t n d, (n, d) ∈ tableOf r t → d.name = n ∧ d.target = t

theorem tables_after (l : List (Def Info)) : TablesOk (Registry.after l) := by
  induction l using GoMap.revInduction with
  | nil => exact ⟨fun t => by cases t <;> simp [tableOf, Registry.after, WF, keys], fun t n d h => by cases t <;> simp [tableOf, Registry.after] at h⟩
  | concat l d ih =>
    have hstep : Registry.after (l ++ [d]) = ((Registry.after l).register d).1 := by simp [Registry.after, List.foldl_append]
    rw [hstep]
    refine ⟨?_, ?_⟩
    · intro t
      have hw := ih.wf t
      unfold Registry.register
      cases hd : d.target <;> cases t <;> first | exact hw | exact put_wf hw _ _
    · intro t n e he
      have ho := ih.own t n e
      unfold Registry.register at he
      cases hd : d.target <;> rw [hd] at he <;> cases t <;> first
        | exact ho he
        | (rcases mem_of_mem_put he with he | he
           · cases he; exact ⟨rfl, hd⟩
           · exact ho he)

theorem lastRegistered_unique {l : List (Def Info)} {n : Str} {t : Target} {d d' : Def Info}
    (h : Markers.Spec.LastRegistered l n t d) (h' : Markers.Spec.LastRegistered l n t d') : d = d' := by
  obtain ⟨h1, h2, b1, a1, e1, n1⟩ := h
  obtain ⟨h1', h2', b2, a2, e2, n2⟩ := h'
  rw [e1] at e2
  rcases List.append_eq_append_iff.1 e2 with ⟨c, hb, hc⟩ | ⟨c, hb, hc⟩
  · cases c with
    | nil => simp at hc; exact hc.1
    | cons x c => simp at hc; exact (n1 d' (by rw [hc.2]; simp) ⟨h1', h2'⟩).elim
  · cases c with
    | nil => simp at hc; exact hc.1.symm
    | cons x c => simp at hc; exact (n2 d (by rw [hc.2]; simp) ⟨h1, h2⟩).elim

theorem mem_table {l : List (Def Info)} {t : Target} (ht : Markers.Spec.Valid t) {d : Def Info} :
    (∃ n, (n, d) ∈ tableOf (Registry.after l) t) ↔ Markers.Spec.LastRegistered l d.name t d := by
  have ok := tables_after l
  constructor
  · rintro ⟨n, hm⟩
    obtain ⟨rfl, _⟩ := ok.own t n d hm
    have hg := (get_eq_some (ok.wf t)).2 hm
    rcases after_get l d.name t ht with ⟨d', h1, _, h3⟩ | ⟨h1, _⟩
    · rw [hg] at h1; cases h1; exact h3
    · rw [hg] at h1; cases h1
  · intro h
    refine ⟨d.name, (get_eq_some (ok.wf t)).1 ?_⟩
    rcases after_get l d.name t ht with ⟨d', h1, _, h3⟩ | ⟨_, h2⟩
    · rw [h1, lastRegistered_unique h h3]
    · obtain ⟨hn, htd, b, a, e, _⟩ := h
      rcases h2 with h2 | h2
      · exact (h2 ht).elim
      · exact (h2 d (by rw [e]; simp) ⟨rfl, htd⟩).elim

/-- `AllDefinitions` gives the registered definitions, each once. -/
theorem mem_allDefinitions (σ : Sched) (ops : List Op) (d : Def Info) :
    d ∈ (HelpRegistry.after ops).allDefinitions σ ↔ Registered ops d := by
  have ok := tables_after (registrations ops)
  have hm := fun t ht => @mem_table (registrations ops) t ht d
  have e1 := hm .package (.inl rfl)
  have e2 := hm .type (.inr (.inl rfl))
  have e3 := hm .field (.inr (.inr rfl))
  unfold HelpRegistry.allDefinitions Registered
  rw [after_reg]
  simp only [List.mem_append, List.mem_map, Prod.exists, exists_eq_right, Sched.mem_order]
  constructor
  · rintro ((⟨n, h⟩ | ⟨n, h⟩) | ⟨n, h⟩)
    · have ht := (ok.own .package n d h).2
      rw [ht]; exact ⟨.inl rfl, e1.1 ⟨n, h⟩⟩
    · have ht := (ok.own .type n d h).2
      rw [ht]; exact ⟨.inr (.inl rfl), e2.1 ⟨n, h⟩⟩
    · have ht := (ok.own .field n d h).2
      rw [ht]; exact ⟨.inr (.inr rfl), e3.1 ⟨n, h⟩⟩
  · rintro ⟨hv, h⟩
    rcases hv with hv | hv | hv <;> rw [hv] at h
    · exact .inl (.inl (e1.2 h))
    · exact .inl (.inr (e2.2 h))
    · exact .inr (e3.2 h)

theorem nodup_values {m : List (Str × Def Info)} (hw : WF m) (ho : ∀ n d, (n, d) ∈ m → d.name = n) : (m.map (·.2)).Nodup := by
  induction m with
  | nil => simp
  | cons e m ih =>
    obtain ⟨n, d⟩ := e
    have hw' : n ∉ keys m ∧ WF m := by simpa [WF, keys] using hw
    rw [List.map_cons, List.nodup_cons]
    refine ⟨?_, ih hw'.2 (fun n d h => ho n d (List.mem_cons_of_mem _ h))⟩
    intro hm
    obtain ⟨⟨n', d'⟩, hm', hd⟩ := List.mem_map.1 hm
    simp only at hd
    subst hd
    have h1 := ho n d' (List.mem_cons_self ..)
    have h2 := ho n' d' (List.mem_cons_of_mem _ hm')
    apply hw'.1
    rw [← h1, h2]
    exact mem_keys.2 ⟨_, hm'⟩

theorem nodup_allDefinitions (σ : Sched) (ops : List Op) : ((HelpRegistry.after ops).allDefinitions σ).Nodup := by
  have ok := tables_after (registrations ops)
  unfold HelpRegistry.allDefinitions
  rw [after_reg]
  have one : ∀ (k : Nat) (t : Target), ((σ.order k (tableOf (Registry.after (registrations ops)) t)).map (·.2)).Nodup := by
    intro k t
    exact nodup_values ((ok.wf t).perm (σ.perm _ _).symm) (fun n d h => (ok.own t n d ((σ.mem_order _ _ _).1 h)).1)
  have target : ∀ (k : Nat) (t : Target) d, d ∈ (σ.order k (tableOf (Registry.after (registrations ops)) t)).map (·.2) → d.target = t := by
    intro k t d hd
    obtain ⟨⟨n, d'⟩, hm, rfl⟩ := List.mem_map.1 hd
    exact (ok.own t n d' ((σ.mem_order _ _ _).1 hm)).2
  rw [List.nodup_append, List.nodup_append]
  refine ⟨⟨one 0 .package, one 1 .type, ?_⟩, one 2 .field, ?_⟩
  · intro a ha b hb e
    have h1 := target 0 .package a ha
    have h2 := target 1 .type b hb
    rw [← e, h1] at h2; cases h2
  · intro a ha b hb e
    have h2 := target 2 .field b hb
    rcases List.mem_append.1 ha with ha | ha
    · have h1 := target 0 .package a ha
      rw [← e, h1] at h2; cases h2
    · have h1 := target 1 .type a ha
      rw [← e, h1] at h2; cases h2

/-- Packages first, then types, then fields. -/
def targetRank : Target → Nat
  | .package => 0
  | .type => 1
  | .field => 2
  | .other _ => 3

theorem allDefinitions_ranked (σ : Sched) (ops : List Op) :
    ((HelpRegistry.after ops).allDefinitions σ).Pairwise (fun a b => targetRank a.target ≤ targetRank b.target) := by
  have ok := tables_after (registrations ops)
  unfold HelpRegistry.allDefinitions
  rw [after_reg]
  have target : ∀ (k : Nat) (t : Target) d, d ∈ (σ.order k (tableOf (Registry.after (registrations ops)) t)).map (·.2) → d.target = t := by
    intro k t d hd
    obtain ⟨⟨n, d'⟩, hm, rfl⟩ := List.mem_map.1 hd
    exact (ok.own t n d' ((σ.mem_order _ _ _).1 hm)).2
  have one : ∀ (k : Nat) (t : Target), ((σ.order k (tableOf (Registry.after (registrations ops)) t)).map (·.2)).Pairwise (fun a b => targetRank a.target ≤ targetRank b.target) := by
    intro k t
    refine List.Pairwise.imp_of_mem ?_ (List.pairwise_of_forall (R := fun _ _ => True) (fun _ _ => trivial))
    intro a b ha hb _
    rw [target k t a ha, target k t b hb]
    exact Nat.le_refl _
  rw [List.pairwise_append, List.pairwise_append]
  refine ⟨⟨one 0 .package, one 1 .type, ?_⟩, one 2 .field, ?_⟩
  · intro a ha b hb
    rw [target 0 .package a ha, target 1 .type b hb]; decide
  · intro a ha b hb
    rw [target 2 .field b hb]
    rcases List.mem_append.1 ha with ha | ha
    · rw [target 0 .package a ha]; decide
    · rw [target 1 .type a ha]; decide

end Verif.Help

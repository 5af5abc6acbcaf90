import Verif.Loader.CheckSpec
/-!
# Invariants of checking in parallel
-/
namespace Verif.Loader

/-- The thread has the mutex of the package. -/
def Thread.holds (t : Thread) (p : Pkg) : Prop :=
  match t.pc with
  | .lock => False
  | .finish => False
  | .done => False
  | .inImport q _ => t.pkg = p ∨ q = p
  | _ => t.pkg = p

/-- Thread `t` has started one for `q`. -/
def HasKid (threads : List Thread) (t : Thread) (q : Pkg) : Prop := ∃ k ∈ t.kids, ∃ u, threads[k]? = some u ∧ u.pkg = q

/-- What a thread knows. -/
def Stage (G : Graph) (s : St) (t : Thread) : Prop :=
  match t.pc with
  | .lock => True
  | .look => True
  | .spawn rest => (∀ q ∈ rest, q ∈ G.refs t.pkg) ∧ ∀ q ∈ G.refs t.pkg, q ∈ rest ∨ HasKid s.threads t q
  | .wait => ∀ q ∈ G.refs t.pkg, HasKid s.threads t q
  | .need => ∀ q ∈ G.refs t.pkg, q ∈ s.checked
  | .importing rest => (∀ q ∈ G.refs t.pkg, q ∈ s.checked) ∧ t.pkg ∉ s.typed ∧ ∀ q ∈ rest, q ∈ G.imports t.pkg
  | .inImport q rest => (∀ q ∈ G.refs t.pkg, q ∈ s.checked) ∧ t.pkg ∉ s.typed ∧ q ∈ G.imports t.pkg ∧ ∀ q ∈ rest, q ∈ G.imports t.pkg
  | .mark => (∀ q ∈ G.refs t.pkg, q ∈ s.checked) ∧ t.pkg ∈ s.typed
  | .unlock => t.pkg ∈ s.checked
  | .finish => t.pkg ∈ s.checked
  | .done => t.pkg ∈ s.checked

/-- What holds in all states. -/
structure Inv (G : Graph) (root : Pkg) (before : List Pkg) (s : St) : Prop where
  own : ∀ p i, s.owner p = some i ↔ ∃ t, s.threads[i]? = some t ∧ t.holds p
  kid : ∀ (i : Nat) (t : Thread), s.threads[i]? = some t → ∀ k ∈ t.kids, ∃ u : Thread, s.threads[k]? = some u ∧ u.pkg ∈ G.refs t.pkg
  stage : ∀ (i : Nat) (t : Thread), s.threads[i]? = some t → Stage G s t
  reach : ∀ (i : Nat) (t : Thread), s.threads[i]? = some t → G.Reaches root t.pkg
  types : ∀ p ∈ s.checked, p ∈ s.typed
  closed : ∀ p ∈ s.checked, ∀ q ∈ G.refs p, q ∈ s.checked
  order : Ordered G before s.typed
  from' : ∀ p ∈ s.typed, p ∈ before ∨ G.Reaches root p
  saw : ∀ p q b, (p, q, b) ∈ s.saw → q ∈ G.refs p → b = true
  first : ∃ t, s.threads[0]? = some t ∧ t.pkg = root

theorem Inv.start {G : Graph} {typed checked : List Pkg} (h : Before G typed checked) (root : Pkg) : Inv G root typed (St.start root typed checked) where
  own p i := by
    simp only [St.start]
    constructor
    · intro h; cases h
    · rintro ⟨t, ht, hh⟩
      cases i with
      | zero => cases ht; exact hh.elim
      | succ i => cases ht
  kid i t ht := by
    cases i with
    | zero => cases ht; intro k hk; cases hk
    | succ i => cases ht
  stage i t ht := by
    cases i with
    | zero => cases ht; exact trivial
    | succ i => cases ht
  reach i t ht := by
    cases i with
    | zero => cases ht; exact .refl
    | succ i => cases ht
  types := h.types
  closed := h.closed
  order := ⟨h.once, [], by simp [St.start], fun a p b e => by cases a <;> cases e⟩
  from' p hp := .inl hp
  saw p q b hm := by cases hm
  first := ⟨_, rfl, rfl⟩

section
variable {G : Graph} {root : Pkg} {before : List Pkg} {s s' : St} {i : Nat} {t t' : Thread} {extra : List Thread}

/-- The threads after a step, by the threads before. -/
theorem threads_after (hi : s.threads[i]? = some t) (hth : s'.threads = s.threads.set i t' ++ extra) (j : Nat) (u : Thread) :
    s'.threads[j]? = some u ↔ (j = i ∧ u = t') ∨ (j ≠ i ∧ s.threads[j]? = some u) ∨ (s.threads.length ≤ j ∧ extra[j - s.threads.length]? = some u) := by
  have hlt : i < s.threads.length := (List.getElem?_eq_some_iff.1 hi).1
  rw [hth]
  by_cases hj : j < s.threads.length
  · rw [List.getElem?_append_left (by simpa using hj), List.getElem?_set]
    by_cases hji : i = j
    · subst hji
      simp only [if_true, hj]
      constructor
      · intro h; cases h; exact .inl ⟨trivial, rfl⟩
      · rintro (⟨-, rfl⟩ | ⟨h, -⟩ | ⟨h, -⟩)
        · rfl
        · exact absurd rfl h
        · omega
    · simp only [if_neg hji]
      constructor
      · intro h; exact .inr (.inl ⟨Ne.symm hji, h⟩)
      · rintro (⟨h, -⟩ | ⟨-, h⟩ | ⟨h, -⟩)
        · exact absurd h.symm hji
        · exact h
        · omega
  · have hj' : s.threads.length ≤ j := Nat.le_of_not_lt hj
    rw [List.getElem?_append_right (by simpa using hj'), List.length_set]
    constructor
    · intro h; exact .inr (.inr ⟨hj', h⟩)
    · rintro (⟨rfl, -⟩ | ⟨-, h⟩ | ⟨-, h⟩)
      · exact absurd hlt hj
      · exact absurd (List.getElem?_eq_some_iff.1 h).1 hj
      · exact h

theorem pkg_after (hi : s.threads[i]? = some t) (hth : s'.threads = s.threads.set i t' ++ extra) (hpkg : t'.pkg = t.pkg) {k : Nat} {u : Thread} (hk : s.threads[k]? = some u) :
    ∃ u', s'.threads[k]? = some u' ∧ u'.pkg = u.pkg := by
  by_cases hki : k = i
  · subst hki
    rw [hi] at hk
    cases hk
    exact ⟨t', (threads_after hi hth _ _).2 (.inl ⟨rfl, rfl⟩), hpkg⟩
  · exact ⟨u, (threads_after hi hth _ _).2 (.inr (.inl ⟨hki, hk⟩)), rfl⟩

theorem HasKid.after (hi : s.threads[i]? = some t) (hth : s'.threads = s.threads.set i t' ++ extra) (hpkg : t'.pkg = t.pkg) {u u' : Thread} {q : Pkg} (hkids : ∀ k ∈ u.kids, k ∈ u'.kids)
    (h : HasKid s.threads u q) : HasKid s'.threads u' q := by
  obtain ⟨k, hk, v, hv, rfl⟩ := h
  obtain ⟨v', h1, h2⟩ := pkg_after hi hth hpkg hv
  exact ⟨k, hkids k hk, v', h1, h2⟩

/-- The type checker is at work. -/
def Thread.working (t : Thread) : Prop :=
  match t.pc with
  | .importing _ => True
  | .inImport _ _ => True
  | _ => False

theorem Stage.after (hi : s.threads[i]? = some t) (hth : s'.threads = s.threads.set i t' ++ extra) (hpkg : t'.pkg = t.pkg) (hchk : ∀ p ∈ s.checked, p ∈ s'.checked) (hty : ∀ p ∈ s.typed, p ∈ s'.typed)
    {u : Thread} (hnew : u.working → u.pkg ∉ s.typed → u.pkg ∉ s'.typed) (h : Stage G s u) : Stage G s' u := by
  have hk : ∀ q, HasKid s.threads u q → HasKid s'.threads u q := fun q => HasKid.after hi hth hpkg (fun _ h => h)
  unfold Stage at h ⊢
  unfold Thread.working at hnew
  split at h
  · exact trivial
  · exact trivial
  · exact ⟨h.1, fun q hq => (h.2 q hq).imp id (hk q)⟩
  · exact fun q hq => hk q (h q hq)
  · exact fun q hq => hchk q (h q hq)
  · rename_i e
    rw [e] at hnew
    exact ⟨fun q hq => hchk q (h.1 q hq), hnew trivial h.2.1, h.2.2⟩
  · rename_i e
    rw [e] at hnew
    exact ⟨fun q hq => hchk q (h.1 q hq), hnew trivial h.2.1, h.2.2⟩
  · exact ⟨fun q hq => hchk q (h.1 q hq), hty _ h.2⟩
  · exact hchk _ h
  · exact hchk _ h
  · exact hchk _ h

theorem Thread.working.holds (h : t.working) : t.holds t.pkg := by
  unfold Thread.working at h
  unfold Thread.holds
  split at h
  · rename_i e; rw [e]
  · rename_i e; rw [e]; exact .inl rfl
  · exact h.elim

/-- One thread takes a step. -/
theorem Inv.next (h : Inv G root before s) (hi : s.threads[i]? = some t) (hth : s'.threads = s.threads.set i t' ++ extra) (hpkg : t'.pkg = t.pkg)
    (hex : ∀ u ∈ extra, u.pc = .lock ∧ u.kids = [] ∧ u.pkg ∈ G.refs t.pkg)
    (howni : ∀ p, s'.owner p = some i ↔ t'.holds p) (hown : ∀ p j, j ≠ i → (s'.owner p = some j ↔ s.owner p = some j))
    (hkid : ∀ k ∈ t'.kids, ∃ u, s'.threads[k]? = some u ∧ u.pkg ∈ G.refs t.pkg) (hst : Stage G s' t')
    (hchk : ∀ p ∈ s.checked, p ∈ s'.checked) (hty : ∀ p ∈ s.typed, p ∈ s'.typed) (hnew : ∀ p ∈ s'.typed, p ∈ s.typed ∨ (p = t.pkg ∧ t.holds p))
    (htypes : ∀ p ∈ s'.checked, p ∈ s'.typed) (hclosed : ∀ p ∈ s'.checked, ∀ q ∈ G.refs p, q ∈ s'.checked) (horder : Ordered G before s'.typed)
    (hsaw : ∀ p q b, (p, q, b) ∈ s'.saw → (p, q, b) ∈ s.saw ∨ (q ∈ G.refs p → b = true)) : Inv G root before s' := by
  have hlt : i < s.threads.length := (List.getElem?_eq_some_iff.1 hi).1
  have after := threads_after hi hth
  refine ⟨fun p j => ?_, fun j u hu k hk => ?_, fun j u hu => ?_, fun j u hu => ?_, htypes, hclosed, horder, fun p hp => ?_, fun p q b hm hq => ?_, ?_⟩
  · by_cases hj : j = i
    · subst hj
      rw [howni]
      constructor
      · intro hh; exact ⟨t', (after _ _).2 (.inl ⟨rfl, rfl⟩), hh⟩
      · rintro ⟨u, hu, hh⟩
        rw [after] at hu
        obtain ⟨-, rfl⟩ | ⟨hne, -⟩ | ⟨hle, -⟩ := hu
        · exact hh
        · exact absurd rfl hne
        · omega
    · rw [hown p j hj, h.own]
      constructor
      · rintro ⟨u, hu, hh⟩; exact ⟨u, (after _ _).2 (.inr (.inl ⟨hj, hu⟩)), hh⟩
      · rintro ⟨u, hu, hh⟩
        rw [after] at hu
        obtain ⟨e, -⟩ | ⟨-, hu⟩ | ⟨-, hu⟩ := hu
        · exact absurd e hj
        · exact ⟨u, hu, hh⟩
        · exfalso
          have := (hex u (List.mem_of_getElem? hu)).1
          simp [Thread.holds, this] at hh
  · rw [after] at hu
    obtain ⟨-, rfl⟩ | ⟨-, hu⟩ | ⟨-, hu⟩ := hu
    · rw [hpkg]; exact hkid k hk
    · obtain ⟨v, hv, hr⟩ := h.kid j u hu k hk
      obtain ⟨v', h1, h2⟩ := pkg_after hi hth hpkg hv
      exact ⟨v', h1, by rw [h2]; exact hr⟩
    · rw [(hex u (List.mem_of_getElem? hu)).2.1] at hk
      cases hk
  · rw [after] at hu
    obtain ⟨-, rfl⟩ | ⟨hne, hu⟩ | ⟨-, hu⟩ := hu
    · exact hst
    · refine Stage.after hi hth hpkg hchk hty (fun hw hn hc => ?_) (h.stage j u hu)
      obtain hc | ⟨e, hh⟩ := hnew _ hc
      · exact hn hc
      · have h1 := (h.own u.pkg j).2 ⟨u, hu, hw.holds⟩
        have h2 := (h.own u.pkg i).2 ⟨t, hi, hh⟩
        rw [h1] at h2
        exact hne (Option.some.inj h2)
    · unfold Stage
      rw [(hex u (List.mem_of_getElem? hu)).1]
      exact trivial
  · rw [after] at hu
    obtain ⟨-, rfl⟩ | ⟨hne, hu⟩ | ⟨-, hu⟩ := hu
    · rw [hpkg]; exact h.reach i t hi
    · exact h.reach j u hu
    · exact .step (h.reach i t hi) (hex u (List.mem_of_getElem? hu)).2.2
  · obtain hp | ⟨rfl, -⟩ := hnew p hp
    · exact h.from' p hp
    · exact .inr (h.reach i t hi)
  · obtain hm | hb := hsaw p q b hm
    · exact h.saw p q b hm hq
    · exact hb hq
  · obtain ⟨u, hu, rfl⟩ := h.first
    exact pkg_after hi hth hpkg hu

end

end Verif.Loader

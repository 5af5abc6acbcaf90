import Verif.Loader.CheckLemmas
/-!
# Steps keep the invariants
-/
namespace Verif.Loader

variable {G : Graph} {root : Pkg} {before : List Pkg} {s s' : St} {i : Nat} {t t' : Thread} {rank : Pkg → Nat}

/-- A step in which the thread keeps what it has. -/
theorem Inv.same (h : Inv G root before s) (hi : s.threads[i]? = some t) (hpkg : t'.pkg = t.pkg) (hkids : t'.kids = t.kids) (hh : ∀ p, t'.holds p ↔ t.holds p) (hst : Stage G (s.put i t') t') :
    Inv G root before (s.put i t') := by
  refine h.next (extra := []) hi (by simp [St.put]) hpkg (by simp) (fun p => ?_) (fun _ _ _ => Iff.rfl) (fun k hk => ?_) hst (fun _ h => h) (fun _ h => h) (fun _ h => .inl h) h.types h.closed h.order
    (fun _ _ _ h => .inl h)
  · rw [hh]
    show s.owner p = some i ↔ _
    rw [h.own]
    constructor
    · rintro ⟨u, hu, hp⟩
      rw [hi] at hu
      cases hu
      exact hp
    · intro hp; exact ⟨t, hi, hp⟩
  · rw [hkids] at hk
    obtain ⟨u, hu, hr⟩ := h.kid i t hi k hk
    obtain ⟨u', h1, h2⟩ := pkg_after (s' := s.put i t') (extra := []) hi (by simp [St.put]) hpkg hu
    exact ⟨u', h1, by rw [h2]; exact hr⟩

theorem owner_of (h : Inv G root before s) (hi : s.threads[i]? = some t) (p : Pkg) : s.owner p = some i ↔ t.holds p := by
  rw [h.own]
  constructor
  · rintro ⟨u, hu, hp⟩
    rw [hi] at hu
    cases hu
    exact hp
  · intro hp; exact ⟨t, hi, hp⟩

theorem kids_put (h : Inv G root before s) (hi : s.threads[i]? = some t) {extra : List Thread} (hth : s'.threads = s.threads.set i t' ++ extra) (hpkg : t'.pkg = t.pkg) {k : Nat} (hk : k ∈ t.kids) :
    ∃ u, s'.threads[k]? = some u ∧ u.pkg ∈ G.refs t.pkg := by
  obtain ⟨u, hu, hr⟩ := h.kid i t hi k hk
  obtain ⟨u', h1, h2⟩ := pkg_after hi hth hpkg hu
  exact ⟨u', h1, by rw [h2]; exact hr⟩

theorem Ordered.snoc {before typed : List Pkg} {p : Pkg} (h : Ordered G before typed) (hp : p ∉ typed) (hr : ∀ q ∈ G.refs p, q ∈ typed) : Ordered G before (typed ++ [p]) := by
  obtain ⟨h1, new, rfl, h2⟩ := h
  refine ⟨?_, new ++ [p], by simp, fun a q b e => ?_⟩
  · rw [List.nodup_append]
    refine ⟨h1, by simp, fun a ha b hb => ?_⟩
    rw [List.mem_singleton.1 hb]
    exact fun e => hp (e ▸ ha)
  · rcases List.eq_nil_or_concat b with rfl | ⟨b', x, rfl⟩
    · have := List.append_inj' e (by simp)
      obtain ⟨rfl, e2⟩ := this
      cases e2
      exact hr
    · rw [List.concat_eq_append] at e
      have : new ++ [p] = (a ++ q :: b') ++ [x] := by simpa using e
      obtain ⟨e1, -⟩ := List.append_inj' this rfl
      exact h2 a q b' e1

theorem Inv.step (hG : G.Acyclic rank) (h : Inv G root before s) (hs : s.step G i = some s') : Inv G root before s' := by
  unfold St.step at hs
  cases hi : s.threads[i]? with
  | none => rw [hi] at hs; cases hs
  | some t =>
    rw [hi] at hs
    obtain ⟨p, pc, kids⟩ := t
    have hst := h.stage i _ hi
    have hown := owner_of h hi
    cases pc with
    | lock =>
      simp only at hs
      split at hs
      · rename_i hfree
        cases hs
        refine h.next (extra := []) hi (t' := ⟨p, .look, kids⟩) (by simp [St.put, St.setOwner]) rfl (by simp) (fun q => ?_) (fun q j hj => ?_) (fun k hk => kids_put h hi (t' := ⟨p, .look, kids⟩) (extra := []) (by simp [St.put, St.setOwner]) rfl hk) trivial
          (fun _ h => h) (fun _ h => h) (fun _ h => .inl h) h.types h.closed h.order (fun _ _ _ h => .inl h)
        · simp only [St.put, St.setOwner, Thread.holds]
          by_cases hq : q = p
          · simp [hq]
          · rw [if_neg hq, hown]
            simp [Thread.holds, Ne.symm hq]
        · simp only [St.put, St.setOwner]
          by_cases hq : q = p
          · rw [if_pos hq, hq, hfree]
            simp [Ne.symm hj]
          · rw [if_neg hq]
      · cases hs
    | look =>
      cases hs
      refine h.same hi rfl rfl (fun q => ?_) ?_
      · simp only [Thread.holds]
        by_cases hc : p ∈ s.checked <;> simp [hc]
      · unfold Stage
        by_cases hc : p ∈ s.checked
        · simp only [hc, if_true]; exact hc
        · simp only [hc, if_false]; exact ⟨fun _ h => h, fun q hq => .inl hq⟩
    | spawn rest =>
      cases rest with
      | nil =>
        cases hs
        refine h.same hi rfl rfl (fun q => Iff.rfl) ?_
        intro q hq
        obtain hq | hq := hst.2 q hq
        · cases hq
        · exact HasKid.after (s' := s.put i ⟨p, .wait, kids⟩) (t' := ⟨p, .wait, kids⟩) (extra := []) hi (by simp [St.put]) rfl (fun _ h => h) hq
      | cons q rest =>
        cases hs
        have hlt : i < s.threads.length := (List.getElem?_eq_some_iff.1 hi).1
        have hnew : ((s.threads.set i ⟨p, .spawn rest, s.threads.length :: kids⟩) ++ [⟨q, .lock, []⟩])[s.threads.length]? = some ⟨q, .lock, []⟩ := by
          rw [List.getElem?_append_right (by simp)]
          simp
        refine h.next (extra := [⟨q, .lock, []⟩]) hi (t' := ⟨p, .spawn rest, s.threads.length :: kids⟩) rfl rfl (fun u hu => ?_) (fun x => ?_) (fun _ _ _ => Iff.rfl) (fun k hk => ?_) ⟨fun x hx => ?_, fun x hx => ?_⟩
          (fun _ h => h) (fun _ h => h) (fun _ h => .inl h) h.types h.closed h.order (fun _ _ _ h => .inl h)
        · rw [List.mem_singleton.1 hu]
          exact ⟨rfl, rfl, hst.1 q (List.mem_cons_self ..)⟩
        · show s.owner x = some i ↔ _
          rw [hown]
          rfl
        · obtain rfl | hk := List.mem_cons.1 hk
          · exact ⟨_, hnew, hst.1 q (List.mem_cons_self ..)⟩
          · exact kids_put h hi (t' := ⟨p, .spawn rest, s.threads.length :: kids⟩) (extra := [⟨q, .lock, []⟩]) rfl rfl hk
        · exact hst.1 x (List.mem_cons_of_mem _ hx)
        · obtain hx | hx := hst.2 x hx
          · obtain rfl | hx := List.mem_cons.1 hx
            · exact .inr ⟨s.threads.length, List.mem_cons_self .., _, hnew, rfl⟩
            · exact .inl hx
          · exact .inr (HasKid.after hi (extra := [⟨q, .lock, []⟩]) (t' := ⟨p, .spawn rest, s.threads.length :: kids⟩) (u' := ⟨p, .spawn rest, s.threads.length :: kids⟩) rfl rfl
              (fun _ h => List.mem_cons_of_mem _ h) hx)
    | wait =>
      simp only at hs
      split at hs
      · rename_i hk
        cases hs
        refine h.same hi rfl rfl (fun q => Iff.rfl) ?_
        intro q hq
        obtain ⟨k, hk', u, hu, rfl⟩ := hst q hq
        have := hk k hk'
        rw [hu] at this
        have hd : u.pc = .done := Option.some.inj this
        have := h.stage k u hu
        unfold Stage at this
        rw [hd] at this
        exact this
      · cases hs
    | need =>
      cases hs
      refine h.same hi rfl rfl (fun q => ?_) ?_
      · simp only [Thread.holds]
        by_cases hc : p ∈ s.typed <;> simp [hc]
      · unfold Stage
        by_cases hc : p ∈ s.typed
        · simp only [hc, if_true]; exact ⟨hst, hc⟩
        · simp only [hc, if_false]; exact ⟨hst, hc, fun _ h => h⟩
    | importing rest =>
      cases rest with
      | nil =>
        cases hs
        have hrt : ∀ q ∈ G.refs p, q ∈ s.typed := fun q hq => h.types q (hst.1 q hq)
        refine h.next (extra := []) hi (t' := ⟨p, .mark, kids⟩) (by simp [St.put]) rfl (by simp) (fun q => ?_) (fun q j hj => Iff.rfl) (fun k hk => kids_put h hi (t' := ⟨p, .mark, kids⟩) (extra := []) (by simp [St.put]) rfl hk) ⟨hst.1, by simp⟩
          (fun _ h => h) (fun _ h => List.mem_append_left _ h) (fun q hq => ?_) (fun q hq => List.mem_append_left _ (h.types q hq)) h.closed (h.order.snoc hst.2.1 hrt) (fun _ _ _ h => .inl h)
        · show s.owner q = some i ↔ _
          rw [hown]
          rfl
        · obtain hq | hq := List.mem_append.1 hq
          · exact .inl hq
          · exact .inr ⟨List.mem_singleton.1 hq, (List.mem_singleton.1 hq).symm⟩
      | cons q rest =>
        simp only at hs
        split at hs
        · rename_i hfree
          cases hs
          refine h.next (extra := []) hi (t' := ⟨p, .inImport q rest, kids⟩) (by simp [St.put, St.setOwner]) rfl (by simp) (fun x => ?_) (fun x j hj => ?_) (fun k hk => kids_put h hi (t' := ⟨p, .inImport q rest, kids⟩) (extra := []) (by simp [St.put, St.setOwner]) rfl hk)
            ⟨hst.1, hst.2.1, hst.2.2 q (List.mem_cons_self ..), fun x hx => hst.2.2 x (List.mem_cons_of_mem _ hx)⟩ (fun _ h => h) (fun _ h => h) (fun _ h => .inl h) h.types h.closed h.order (fun _ _ _ h => .inl h)
          · simp only [St.put, St.setOwner, Thread.holds]
            by_cases hx : x = q
            · simp [hx]
            · rw [if_neg hx, hown]
              simp [Thread.holds, Ne.symm hx]
          · simp only [St.put, St.setOwner]
            by_cases hx : x = q
            · rw [if_pos hx, hx, hfree]
              simp [Ne.symm hj]
            · rw [if_neg hx]
        · cases hs
    | inImport q rest =>
      cases hs
      have hpq : p ≠ q := fun e => by
        have := hG.down p q hst.2.2.1
        rw [e] at this
        omega
      refine h.next (extra := []) hi (t' := ⟨p, .importing rest, kids⟩) (by simp [St.put, St.setOwner]) rfl (by simp) (fun x => ?_) (fun x j hj => ?_) (fun k hk => kids_put h hi (t' := ⟨p, .importing rest, kids⟩) (extra := []) (by simp [St.put, St.setOwner]) rfl hk)
        ⟨hst.1, hst.2.1, hst.2.2.2⟩ (fun _ h => h) (fun _ h => h) (fun _ h => .inl h) h.types h.closed h.order (fun a b c hm => ?_)
      · simp only [St.put, St.setOwner, Thread.holds]
        by_cases hx : x = q
        · simp [hx, hpq]
        · rw [if_neg hx, hown]
          simp [Thread.holds, Ne.symm hx]
      · simp only [St.put, St.setOwner]
        by_cases hx : x = q
        · rw [if_pos hx, hx, (hown q).2 (.inr rfl)]
          simp [Ne.symm hj]
        · rw [if_neg hx]
      · obtain hm | hm := List.mem_append.1 hm
        · exact .inl hm
        · cases List.mem_singleton.1 hm
          exact .inr fun hq => by simpa using h.types q (hst.1 q hq)
    | mark =>
      cases hs
      refine h.next (extra := []) hi (t' := ⟨p, .unlock, kids⟩) (by simp [St.put]) rfl (by simp) (fun q => ?_) (fun q j hj => Iff.rfl) (fun k hk => kids_put h hi (t' := ⟨p, .unlock, kids⟩) (extra := []) (by simp [St.put]) rfl hk)
        (List.mem_cons_self ..) (fun _ h => List.mem_cons_of_mem _ h) (fun _ h => h) (fun _ h => .inl h) (fun q hq => ?_) (fun q hq x hx => ?_) h.order (fun _ _ _ h => .inl h)
      · show s.owner q = some i ↔ _
        rw [hown]
        rfl
      · obtain rfl | hq := List.mem_cons.1 hq
        · exact hst.2
        · exact h.types q hq
      · refine List.mem_cons_of_mem _ ?_
        obtain rfl | hq := List.mem_cons.1 hq
        · exact hst.1 x hx
        · exact h.closed q hq x hx
    | unlock =>
      cases hs
      refine h.next (extra := []) hi (t' := ⟨p, .finish, kids⟩) (by simp [St.put, St.setOwner]) rfl (by simp) (fun q => ?_) (fun q j hj => ?_) (fun k hk => kids_put h hi (t' := ⟨p, .finish, kids⟩) (extra := []) (by simp [St.put, St.setOwner]) rfl hk)
        hst (fun _ h => h) (fun _ h => h) (fun _ h => .inl h) h.types h.closed h.order (fun _ _ _ h => .inl h)
      · simp only [St.put, St.setOwner, Thread.holds]
        by_cases hq : q = p
        · simp [hq]
        · rw [if_neg hq, hown]
          simp [Thread.holds, Ne.symm hq]
      · simp only [St.put, St.setOwner]
        by_cases hq : q = p
        · rw [if_pos hq, hq, (hown p).2 rfl]
          simp [Ne.symm hj]
        · rw [if_neg hq]
    | finish =>
      cases hs
      exact h.same hi rfl rfl (fun q => Iff.rfl) hst
    | done => cases hs

theorem Inv.run (hG : G.Acyclic rank) : ∀ {is : List Nat} {s : St}, Inv G root before s → s.run G is = some s' → Inv G root before s'
  | [], s, h, hr => by cases hr; exact h
  | i :: is, s, h, hr => by
    obtain ⟨s1, h1, h2⟩ := Option.bind_eq_some_iff.1 hr
    exact Inv.run hG (h.step hG h1) h2

/-! ## No deadlock -/

/-- The next thread to look at. -/
def Thread.level (rank : Pkg → Nat) (t : Thread) : Nat := 2 * rank t.pkg + if t.pc = .lock then 1 else 0

theorem holds_level {u : Thread} {p : Pkg} (h : u.holds p) : (∃ q rest, u.pc = .inImport q rest) ∨ (u.pkg = p ∧ u.pc ≠ .lock ∧ u.pc ≠ .done) := by
  unfold Thread.holds at h
  split at h
  · exact h.elim
  · exact h.elim
  · exact h.elim
  · rename_i e; exact .inl ⟨_, _, e⟩
  · rename_i h1 h2 h3 h4
    exact .inr ⟨h, h1, h3⟩

theorem Inv.progress (hG : G.Acyclic rank) (h : Inv G root before s) : ∀ (n : Nat) (i : Nat) (t : Thread), t.level rank < n → s.threads[i]? = some t → t.pc ≠ .done → ∃ j s', s.step G j = some s'
  | 0, _, _, hn, _, _ => absurd hn (Nat.not_lt_zero _)
  | n + 1, i, t, hn, hi, hd => by
    -- whoever has a mutex of a lower package can go on
    have hheld : ∀ q j, 2 * rank q < n → s.owner q = some j → ∃ j s', s.step G j = some s' := by
      intro q j hq ho
      obtain ⟨u, hu, hh⟩ := (h.own q j).1 ho
      obtain ⟨x, rest, e⟩ | ⟨rfl, e1, e2⟩ := holds_level hh
      · exact ⟨j, _, by rw [St.step, hu]; simp only [e]; rfl⟩
      · exact Inv.progress hG h n j u (by simp only [Thread.level, if_neg e1]; omega) hu e2
    obtain ⟨p, pc, kids⟩ := t
    have hst := h.stage i _ hi
    cases pc with
    | lock =>
      simp only [Thread.level, if_true] at hn
      cases ho : s.owner p with
      | none => exact ⟨i, _, by rw [St.step, hi]; simp only [ho, if_true]; rfl⟩
      | some j => exact hheld p j (by omega) ho
    | look => exact ⟨i, _, by rw [St.step, hi]⟩
    | spawn rest =>
      cases rest with
      | nil => exact ⟨i, _, by rw [St.step, hi]⟩
      | cons q rest => exact ⟨i, _, by rw [St.step, hi]⟩
    | wait =>
      by_cases hk : ∀ k ∈ kids, (s.threads[k]?.map (·.pc)) = some .done
      · exact ⟨i, _, by rw [St.step, hi]; simp only [if_pos hk]; rfl⟩
      · simp only [Classical.not_forall] at hk
        obtain ⟨k, hk, hnd⟩ := hk
        obtain ⟨u, hu, hr⟩ := h.kid i _ hi k hk
        refine Inv.progress hG h n k u ?_ hu fun e => hnd (by rw [hu]; simp [e])
        have := hG.down p u.pkg (hG.refs p _ hr)
        simp only [Thread.level] at hn ⊢
        split <;> simp at hn <;> omega
    | need => exact ⟨i, _, by rw [St.step, hi]⟩
    | importing rest =>
      cases rest with
      | nil => exact ⟨i, _, by rw [St.step, hi]⟩
      | cons q rest =>
        cases ho : s.owner q with
        | none => exact ⟨i, _, by rw [St.step, hi]; simp only [ho, if_true]; rfl⟩
        | some j =>
          refine hheld q j ?_ ho
          have := hG.down p q (hst.2.2 q (List.mem_cons_self ..))
          simp only [Thread.level] at hn
          simp at hn
          omega
    | inImport q rest => exact ⟨i, _, by rw [St.step, hi]⟩
    | mark => exact ⟨i, _, by rw [St.step, hi]⟩
    | unlock => exact ⟨i, _, by rw [St.step, hi]⟩
    | finish => exact ⟨i, _, by rw [St.step, hi]⟩
    | done => exact absurd rfl hd

/-! ## Termination -/

/-- A bound on the steps of a thread for the package and of those that it starts. -/
def work (G : Graph) : Nat → Pkg → Nat
  | 0, _ => 0
  | n + 1, p => 10 + ((G.refs p).map fun q => work G n q + 1).sum + 2 * (G.imports p).length

/-- The steps for a package. -/
def workOf (G : Graph) (rank : Pkg → Nat) (p : Pkg) : Nat := work G (rank p + 1) p

theorem sum_le {α : Type} {f g : α → Nat} : ∀ {l : List α}, (∀ a ∈ l, f a ≤ g a) → (l.map f).sum ≤ (l.map g).sum
  | [], _ => Nat.le_refl _
  | a :: l, h => by
    simp only [List.map_cons, List.sum_cons]
    have h1 := h a (List.mem_cons_self ..)
    have h2 := sum_le (l := l) fun b hb => h b (List.mem_cons_of_mem _ hb)
    omega

theorem work_mono (G : Graph) : ∀ {n m : Nat}, n ≤ m → ∀ p, work G n p ≤ work G m p
  | 0, _, _, _ => Nat.zero_le _
  | n + 1, 0, h, _ => absurd h (Nat.not_succ_le_zero _)
  | n + 1, m + 1, h, p => by
    unfold work
    have := sum_le (l := G.refs p) (f := fun q => work G n q + 1) (g := fun q => work G m q + 1) fun q _ => Nat.succ_le_succ (work_mono G (Nat.le_of_succ_le_succ h) q)
    omega

/-- The steps of the threads that are still to be started. -/
def toSpawn (G : Graph) (rank : Pkg → Nat) (rest : List Pkg) : Nat := (rest.map fun q => workOf G rank q + 1).sum

theorem workOf_ge (hG : G.Acyclic rank) (p : Pkg) : 10 + toSpawn G rank (G.refs p) + 2 * (G.imports p).length ≤ workOf G rank p := by
  unfold workOf
  rw [work]
  have := sum_le (l := G.refs p) (f := fun q => workOf G rank q + 1) (g := fun q => work G (rank p) q + 1) fun q hq => Nat.succ_le_succ (work_mono G (hG.down p q (hG.refs p q hq)) q)
  unfold toSpawn
  omega

/-- The steps that a thread still takes, with those of the threads that it starts. -/
def Thread.left (G : Graph) (rank : Pkg → Nat) (t : Thread) : Nat :=
  match t.pc with
  | .lock => workOf G rank t.pkg
  | .look => 9 + toSpawn G rank (G.refs t.pkg) + 2 * (G.imports t.pkg).length
  | .spawn rest => 8 + toSpawn G rank rest + 2 * (G.imports t.pkg).length
  | .wait => 7 + 2 * (G.imports t.pkg).length
  | .need => 6 + 2 * (G.imports t.pkg).length
  | .importing rest => 5 + 2 * rest.length
  | .inImport _ rest => 6 + 2 * rest.length
  | .mark => 4
  | .unlock => 3
  | .finish => 2
  | .done => 1

/-- The steps that are left. -/
def St.left (G : Graph) (rank : Pkg → Nat) (s : St) : Nat := (s.threads.map (·.left G rank)).sum

theorem sum_set {f : Thread → Nat} : ∀ {l : List Thread} {i : Nat} {t t' : Thread}, l[i]? = some t → f t' < f t → ((l.set i t').map f).sum < (l.map f).sum
  | [], _, _, _, h, _ => by cases h
  | a :: l, 0, t, t', h, hl => by
    cases h
    simp only [List.set_cons_zero, List.map_cons, List.sum_cons]
    omega
  | a :: l, i + 1, t, t', h, hl => by
    simp only [List.set_cons_succ, List.map_cons, List.sum_cons]
    have := sum_set (l := l) (i := i) (by simpa using h) hl
    omega

theorem sum_set' {f : Thread → Nat} : ∀ {l : List Thread} {i : Nat} {t t' : Thread}, l[i]? = some t → ((l.set i t').map f).sum + f t = (l.map f).sum + f t'
  | [], _, _, _, h => by cases h
  | a :: l, 0, t, t', h => by
    cases h
    simp only [List.set_cons_zero, List.map_cons, List.sum_cons]
    omega
  | a :: l, i + 1, t, t', h => by
    simp only [List.set_cons_succ, List.map_cons, List.sum_cons]
    have := sum_set' (f := f) (l := l) (i := i) (t' := t') (by simpa using h)
    omega

theorem step_left (hG : G.Acyclic rank) (hs : s.step G i = some s') : s'.left G rank < s.left G rank := by
  unfold St.step at hs
  cases hi : s.threads[i]? with
  | none => rw [hi] at hs; cases hs
  | some t =>
    rw [hi] at hs
    obtain ⟨p, pc, kids⟩ := t
    have hw := workOf_ge hG p
    cases pc with
    | lock =>
      simp only at hs
      split at hs
      · cases hs
        exact sum_set hi (by simp only [Thread.left]; omega)
      · cases hs
    | look =>
      cases hs
      refine sum_set hi ?_
      by_cases hc : p ∈ s.checked
      · simp only [Thread.left, hc, if_true]; omega
      · simp only [Thread.left, hc, if_false]; omega
    | spawn rest =>
      cases rest with
      | nil => cases hs; exact sum_set hi (by simp only [Thread.left, toSpawn, List.map_nil, List.sum_nil]; omega)
      | cons q rest =>
        cases hs
        have := sum_set' (f := (·.left G rank)) hi (t' := ⟨p, .spawn rest, s.threads.length :: kids⟩)
        simp only [St.left, St.put, List.map_append, List.map_cons, List.map_nil, List.sum_append, List.sum_cons, List.sum_nil]
        simp only [Thread.left, toSpawn, List.map_cons, List.sum_cons] at this ⊢
        omega
    | wait =>
      simp only at hs
      split at hs
      · cases hs
        exact sum_set hi (by simp only [Thread.left]; omega)
      · cases hs
    | need =>
      cases hs
      refine sum_set hi ?_
      by_cases hc : p ∈ s.typed
      · simp only [Thread.left, hc, if_true]; omega
      · simp only [Thread.left, hc, if_false]; omega
    | importing rest =>
      cases rest with
      | nil => cases hs; exact sum_set hi (by simp only [Thread.left, List.length_nil]; omega)
      | cons q rest =>
        simp only at hs
        split at hs
        · cases hs
          exact sum_set hi (by simp only [Thread.left, List.length_cons]; omega)
        · cases hs
    | inImport q rest => cases hs; exact sum_set hi (by simp only [Thread.left]; omega)
    | mark => cases hs; exact sum_set hi (by simp only [Thread.left]; omega)
    | unlock => cases hs; exact sum_set hi (by simp only [Thread.left]; omega)
    | finish => cases hs; exact sum_set hi (by simp only [Thread.left]; omega)
    | done => cases hs

theorem run_left (hG : G.Acyclic rank) : ∀ {is : List Nat} {s : St}, s.run G is = some s' → is.length + s'.left G rank ≤ s.left G rank
  | [], s, h => by cases h; simp
  | i :: is, s, h => by
    obtain ⟨s1, h1, h2⟩ := Option.bind_eq_some_iff.1 h
    have := step_left hG h1
    have := run_left hG h2
    simp only [List.length_cons]
    omega

end Verif.Loader

import Verif.DeepCopy.Lemmas
namespace Verif.DeepCopy

mutual
/-- The number of nodes. -/
def Tree.size : Tree → Nat
  | .basic _ => 1
  | .nil => 1
  | .ptr t => t.size + 1
  | .slice ts => Tree.sizes ts + 1
  | .map kts => Tree.sizesE kts + 1
  | .struct fs => Tree.sizesE fs + 1

def Tree.sizes : List Tree → Nat
  | [] => 0
  | t :: ts => t.size + Tree.sizes ts

def Tree.sizesE : List (String × Tree) → Nat
  | [] => 0
  | (_, t) :: ts => t.size + Tree.sizesE ts
end

theorem Tree.size_pos (T : Tree) : 0 < T.size := by cases T <;> simp [Tree.size]

@[simp] theorem ok_bind {α β : Type} (a : α) (f : α → Run β) : ((Except.ok a : Run α) >>= f) = f a := rfl

@[simp] theorem pure_ok {α : Type} (a : α) : (pure a : Run α) = Except.ok a := rfl

section
variable {P : Prog} {W : World} {into : Into}

/-- A function copies values of a type that stand for `T` from one place to another. -/
def CopyOk (P : Prog) (f : Heap → Loc → Loc → Run Heap) (t : Ty) (T : Tree) : Prop :=
  ∀ (H : Heap) (Q : Nat → Prop) (i o : Loc) (v x : Val), Has P H Q t v T → H.read i = some v → H.read o = some x → i.addr ≠ o.addr → (∀ a, Q a → a ≠ o.addr) →
    ∃ H' v', f H i o = .ok H' ∧ Wrote H o v' H' ∧ Has P H' (New H H') t v' T

theorem Has.extends {H H' : Heap} {Q : Nat → Prop} {t : Ty} {v : Val} {T : Tree} (h : Has P H Q t v T) (he : Extends H H') : Has P H' (fun a => Q a ∧ a < H.length) t v T :=
  h.move fun _ ha hq => ⟨⟨hq, ha⟩, he.getElem? ha⟩

theorem Has.new {H0 H H' : Heap} {t : Ty} {v : Val} {T : Tree} (h : Has P H' (New H H') t v T) (he : H0.length ≤ H.length) : Has P H' (New H0 H') t v T :=
  h.move fun _ _ hq => ⟨⟨Nat.le_trans he hq.1, hq.2⟩, rfl⟩

/-- What was made keeps standing for what it stands for. -/
theorem Has.later {H0 H H' : Heap} {t : Ty} {v : Val} {T : Tree} (h : Has P H (New H0 H) t v T) (he : Extends H H') : Has P H' (New H0 H') t v T :=
  h.move fun _ ha hq => ⟨⟨hq.1, Nat.lt_of_lt_of_le hq.2 he.length_le⟩, he.getElem? ha⟩

/-- A write elsewhere does not matter. -/
theorem Has.apart {H0 H H' : Heap} {o : Loc} {w : Val} {t : Ty} {v : Val} {T : Tree} (h : Has P H (New H0 H) t v T) (hw : Wrote H o w H') (ho : o.addr < H0.length) : Has P H' (New H0 H') t v T :=
  h.move fun a ha hq => ⟨⟨hq.1, Nat.lt_of_lt_of_le hq.2 hw.1⟩, hw.2.1 a ha (fun e => by rw [e] at hq; exact absurd hq.1 (by omega))⟩

theorem clone_ok (hW : W.Copies P) {n : String} {T : Tree} (hi : (P.manual n).copy.isSome = true ∨ CopyOk P (into n) (.named n) T) {H : Heap} {Q : Nat → Prop} {i : Loc} {v : Val}
    (hv : Has P H Q (.named n) v T) (hr : H.read i = some v) :
    ∃ H' o v', P.clone W into n H i = .ok (H', o) ∧ Extends H H' ∧ New H H' o.addr ∧ H'.read o = some v' ∧ Has P H' (New H H') (.named n) v' T := by
  by_cases hm : (P.manual n).copy.isSome = true
  · obtain ⟨H1, v', h1, h2, h3⟩ := hW n (.inr (by
      have : P.hasCopy (.named n) = (P.manual n).copy := rfl
      simp [Prog.hasAny, this, hm])) H Q v T hv
    refine ⟨(alloc H1 v').1, (alloc H1 v').2, v', ?_, h2.trans (extends_alloc _ _), ⟨?_, ?_⟩, read_alloc _ _, h3.later (extends_alloc _ _)⟩
    · simp [Prog.clone, hm, load_ok hr, h1]
    · exact h2.length_le
    · simp [alloc]
  · obtain hi | hi := hi
    · exact absurd hi hm
    · have he := extends_alloc H (P.zero (.named n))
      have hlt := read_lt hr
      obtain ⟨H', v', h1, h2, h3⟩ := hi (alloc H (P.zero (.named n))).1 (fun a => Q a ∧ a < H.length) i (alloc H (P.zero (.named n))).2 v _ (hv.extends he) (he.read hr) (read_alloc _ _)
        (by simp [alloc]; omega) (fun a ha => by simp [alloc]; omega)
      refine ⟨H', (alloc H (P.zero (.named n))).2, v', ?_, he.wrote h2 (by simp [alloc]), ⟨by simp [alloc], Nat.lt_of_lt_of_le h2.lt h2.1⟩, h2.read, h3.new he.length_le⟩
      simp [Prog.clone, hm, h1]

theorem owner_named {t : Ty} {n : String} (h : P.unalias t = .named n) : P.owner t = some n := by
  unfold Prog.owner
  rw [h]

theorem owner_ptr {t e : Ty} {n : String} (h : P.unalias t = .ptr e) (he : P.unalias e = .named n) : P.owner t = some n := by
  unfold Prog.owner
  rw [h]
  simp [he]

/-- `x.DeepCopy()` that yields a value. -/
theorem callCopy_value (hW : W.Copies P) {t : Ty} {n : String} {T : Tree} (ht : P.unalias t = .named n) (hm : P.methods n = true) (hp : P.recvPtr n = false)
    (hi : T ≠ .nil → (P.manual n).copy.isSome = true ∨ CopyOk P (into n) (.named n) T) {H : Heap} {Q : Nat → Prop} {i : Loc} {v : Val} (hv : Has P H Q t v T) (hr : H.read i = some v) :
    ∃ H' v', P.callCopy W into t H i = .ok (H', v') ∧ Extends H H' ∧ Has P H' (New H H') t v' T := by
  by_cases hn : T = .nil
  · have := hv.nil_iff.2 hn
    subst this
    refine ⟨H, .nil, ?_, .refl H, ?_⟩
    · simp [Prog.callCopy, owner_named ht, hm, ht, Ty.isPtr, hp, load_ok hr]
    · rw [hn]
      exact hv.nil_any H _ hn
  · obtain ⟨H', o, v', h1, h2, h3, h4, h5⟩ := clone_ok hW (hi hn) ((has_unalias.1 hv |> fun h => by rwa [ht] at h)) hr
    refine ⟨H', v', ?_, h2, has_unalias.2 (by rw [ht]; exact h5)⟩
    have hvn : v ≠ .nil := fun h => hn (hv.nil_iff.1 h)
    simp only [Prog.callCopy, owner_named ht, hm, ht, Ty.isPtr, hp, load_ok hr, ok_bind]
    cases v <;> simp_all [load_ok h4]

/-- `x.DeepCopy()` that yields a pointer, for `x` that is not a pointer. -/
theorem callCopy_addr (hW : W.Copies P) {t : Ty} {n : String} {T : Tree} (ht : P.unalias t = .named n) (hm : P.methods n = true) (hp : P.recvPtr n = true)
    (hi : (P.manual n).copy.isSome = true ∨ CopyOk P (into n) (.named n) T) {H : Heap} {Q : Nat → Prop} {i : Loc} {v : Val} (hv : Has P H Q t v T) (hr : H.read i = some v) :
    ∃ H' o v', P.callCopy W into t H i = .ok (H', .ptr o) ∧ Extends H H' ∧ New H H' o.addr ∧ H'.read o = some v' ∧ Has P H' (New H H') t v' T := by
  obtain ⟨H', o, v', h1, h2, h3, h4, h5⟩ := clone_ok hW hi ((has_unalias.1 hv |> fun h => by rwa [ht] at h)) hr
  refine ⟨H', o, v', ?_, h2, h3, h4, has_unalias.2 (by rw [ht]; exact h5)⟩
  simp [Prog.callCopy, owner_named ht, hm, ht, Ty.isPtr, hp, h1]

/-- `x.DeepCopy()` that yields a pointer, for a pointer. -/
theorem callCopy_ptr (hW : W.Copies P) {t e : Ty} {n : String} {T : Tree} (ht : P.unalias t = .ptr e) (he : P.unalias e = .named n) (hm : P.methods n = true) (hp : P.recvPtr n = true)
    (hi : ∀ T', T = .ptr T' → (P.manual n).copy.isSome = true ∨ CopyOk P (into n) (.named n) T') {H : Heap} {Q : Nat → Prop} {i : Loc} {v : Val} (hv : Has P H Q t v T) (hr : H.read i = some v) :
    ∃ H' v', P.callCopy W into t H i = .ok (H', v') ∧ Extends H H' ∧ Has P H' (New H H') t v' T := by
  have hv' := has_unalias.1 hv
  rw [ht] at hv'
  cases hv' with
  | nilPtr =>
    refine ⟨H, .nil, ?_, .refl H, has_unalias.2 (by rw [ht]; exact .nilPtr _)⟩
    simp [Prog.callCopy, owner_ptr ht he, hm, ht, Ty.isPtr, hp, load_ok hr]
  | ptr h1 h2 h3 =>
    obtain ⟨H', o, v', k1, k2, k3, k4, k5⟩ := clone_ok hW (hi _ rfl) ((has_unalias.1 h3 |> fun h => by rwa [he] at h)) h2
    refine ⟨H', .ptr o, ?_, k2, has_unalias.2 (by rw [ht]; exact .ptr k3 k4 (has_unalias.2 (by rw [he]; exact k5)))⟩
    simp [Prog.callCopy, owner_ptr ht he, hm, ht, Ty.isPtr, hp, load_ok hr, k1]

/-- `x.DeepCopy()` that yields a value, for a pointer that is not nil. -/
theorem callCopy_deref (hW : W.Copies P) {t e : Ty} {n : String} {T : Tree} (ht : P.unalias t = .ptr e) (he : P.unalias e = .named n) (hm : P.methods n = true) (hp : P.recvPtr n = false)
    (hi : (P.manual n).copy.isSome = true ∨ CopyOk P (into n) (.named n) T) {H : Heap} {Q : Nat → Prop} {i : Loc} {v : Val} (hv : Has P H Q t v (.ptr T)) (hr : H.read i = some v) :
    ∃ H' v', P.callCopy W into t H i = .ok (H', v') ∧ Extends H H' ∧ Has P H' (New H H') e v' T := by
  have hv' := has_unalias.1 hv
  rw [ht] at hv'
  cases hv' with
  | ptr h1 h2 h3 =>
    obtain ⟨H', o, v', k1, k2, k3, k4, k5⟩ := clone_ok hW hi ((has_unalias.1 h3 |> fun h => by rwa [he] at h)) h2
    refine ⟨H', v', ?_, k2, has_unalias.2 (by rw [he]; exact k5)⟩
    simp [Prog.callCopy, owner_ptr ht he, hm, ht, Ty.isPtr, hp, load_ok hr, k1, load_ok k4]

end

end Verif.DeepCopy

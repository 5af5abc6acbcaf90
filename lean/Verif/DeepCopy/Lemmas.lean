import Verif.DeepCopy.Spec
namespace Verif.DeepCopy

/-! ## Parts of values -/

theorem fieldGet_set (f : String) (w : Val) : ∀ {fs : List (String × Val)} {x : Val}, fieldGet f fs = some x → fieldGet f (fieldSet f w fs) = some w
  | [], x, h => by cases h
  | (g, v) :: fs, x, h => by
    by_cases hg : g = f
    · simp [fieldSet, fieldGet, hg]
    · simp only [fieldGet, fieldSet, if_neg hg] at h ⊢
      exact fieldGet_set f w h

theorem fieldGet_set_ne {f g : String} (hne : g ≠ f) (w : Val) : ∀ (fs : List (String × Val)), fieldGet g (fieldSet f w fs) = fieldGet g fs
  | [] => rfl
  | (h, v) :: fs => by
    by_cases hg : h = f
    · subst hg
      simp [fieldSet, fieldGet, Ne.symm hne]
    · simp only [fieldSet, if_neg hg, fieldGet, fieldGet_set_ne hne w fs]

theorem fieldSet_set (f : String) (w w' : Val) : ∀ (fs : List (String × Val)), fieldSet f w' (fieldSet f w fs) = fieldSet f w' fs
  | [] => rfl
  | (g, v) :: fs => by
    by_cases hg : g = f
    · simp [fieldSet, hg]
    · simp only [fieldSet, if_neg hg, fieldSet_set f w w' fs]

theorem fieldSet_same (f : String) : ∀ {fs : List (String × Val)} {x : Val}, fieldGet f fs = some x → fieldSet f x fs = fs
  | [], x, h => by cases h
  | (g, v) :: fs, x, h => by
    by_cases hg : g = f
    · simp only [fieldGet, if_pos hg, Option.some.injEq] at h
      simp [fieldSet, hg, h]
    · simp only [fieldGet, fieldSet, if_neg hg] at h ⊢
      rw [fieldSet_same f h]

theorem get_append : ∀ (p : List Step) (v : Val) (q : List Step), v.get (p ++ q) = (v.get p).bind fun x => x.get q
  | [], v, q => by cases v <;> rfl
  | s :: p, v, q => by
    cases v with
    | struct fs =>
      cases s with
      | field f =>
        simp only [List.cons_append, Val.get]
        cases fieldGet f fs with
        | none => rfl
        | some x => exact get_append p x q
      | idx i => rfl
    | arr vs =>
      cases s with
      | field f => rfl
      | idx i =>
        simp only [List.cons_append, Val.get]
        cases vs[i]? with
        | none => rfl
        | some x => exact get_append p x q
    | basic x => cases s <;> rfl
    | nil => cases s <;> rfl
    | ptr l => cases s <;> rfl
    | slice l a b => cases s <;> rfl
    | map a => cases s <;> rfl
    | entries kvs => cases s <;> rfl
    | zero => cases s <;> rfl

theorem get_nil (v : Val) : v.get [] = some v := by cases v <;> rfl

theorem set_nil (v w : Val) : v.set [] w = some w := by cases v <;> rfl

/-- What can be read can be written. -/
theorem set_of_get (w : Val) : ∀ (p : List Step) {v x : Val}, v.get p = some x → ∃ v', v.set p w = some v'
  | [], v, x, _ => ⟨w, set_nil v w⟩
  | s :: p, v, x, h => by
    cases v with
    | struct fs =>
      cases s with
      | field f =>
        simp only [Val.get] at h
        obtain ⟨y, hy, h⟩ := Option.bind_eq_some_iff.1 h
        obtain ⟨v', hv⟩ := set_of_get w p h
        exact ⟨.struct (fieldSet f v' fs), by simp [Val.set, hy, hv]⟩
      | idx i => cases h
    | arr vs =>
      cases s with
      | field f => cases h
      | idx i =>
        simp only [Val.get] at h
        obtain ⟨y, hy, h⟩ := Option.bind_eq_some_iff.1 h
        obtain ⟨v', hv⟩ := set_of_get w p h
        exact ⟨.arr (vs.set i v'), by simp [Val.set, hy, hv]⟩
    | basic x => cases s <;> cases h
    | nil => cases s <;> cases h
    | ptr l => cases s <;> cases h
    | slice l a b => cases s <;> cases h
    | map a => cases s <;> cases h
    | entries kvs => cases s <;> cases h
    | zero => cases s <;> cases h

/-- What has been written is read. -/
theorem get_set {w : Val} : ∀ (p : List Step) {v v' : Val}, v.set p w = some v' → v'.get p = some w
  | [], v, v', h => by
    rw [set_nil] at h
    cases h
    exact get_nil _
  | s :: p, v, v', h => by
    cases v with
    | struct fs =>
      cases s with
      | field f =>
        simp only [Val.set] at h
        obtain ⟨y, hy, h⟩ := Option.bind_eq_some_iff.1 h
        obtain ⟨z, hz, h⟩ := Option.map_eq_some_iff.1 h
        subst h
        simp only [Val.get, fieldGet_set f z hy, Option.bind_some]
        exact get_set p hz
      | idx i => cases h
    | arr vs =>
      cases s with
      | field f => cases h
      | idx i =>
        simp only [Val.set] at h
        obtain ⟨y, hy, h⟩ := Option.bind_eq_some_iff.1 h
        obtain ⟨z, hz, h⟩ := Option.map_eq_some_iff.1 h
        subst h
        have hi : i < vs.length := (List.getElem?_eq_some_iff.1 hy).1
        simp only [Val.get, List.getElem?_set_self hi, Option.bind_some]
        exact get_set p hz
    | basic x => cases s <;> cases h
    | nil => cases s <;> cases h
    | ptr l => cases s <;> cases h
    | slice l a b => cases s <;> cases h
    | map a => cases s <;> cases h
    | entries kvs => cases s <;> cases h
    | zero => cases s <;> cases h

/-- The last write counts. -/
theorem set_set {w w' : Val} : ∀ (p : List Step) {v v' : Val}, v.set p w = some v' → v'.set p w' = v.set p w'
  | [], v, v', h => by rw [set_nil, set_nil]
  | s :: p, v, v', h => by
    cases v with
    | struct fs =>
      cases s with
      | field f =>
        simp only [Val.set] at h
        obtain ⟨y, hy, h⟩ := Option.bind_eq_some_iff.1 h
        obtain ⟨z, hz, h⟩ := Option.map_eq_some_iff.1 h
        subst h
        simp only [Val.set, fieldGet_set f z hy, hy, Option.bind_some, set_set p hz, fieldSet_set]
      | idx i => cases h
    | arr vs =>
      cases s with
      | field f => cases h
      | idx i =>
        simp only [Val.set] at h
        obtain ⟨y, hy, h⟩ := Option.bind_eq_some_iff.1 h
        obtain ⟨z, hz, h⟩ := Option.map_eq_some_iff.1 h
        subst h
        have hi : i < vs.length := (List.getElem?_eq_some_iff.1 hy).1
        simp only [Val.set, List.getElem?_set_self hi, hy, Option.bind_some, set_set p hz, List.set_set]
    | basic x => cases s <;> cases h
    | nil => cases s <;> cases h
    | ptr l => cases s <;> cases h
    | slice l a b => cases s <;> cases h
    | map a => cases s <;> cases h
    | entries kvs => cases s <;> cases h
    | zero => cases s <;> cases h

/-- Writing what is there changes nothing. -/
theorem set_same : ∀ (p : List Step) {v x : Val}, v.get p = some x → v.set p x = some v
  | [], v, x, h => by
    rw [get_nil] at h
    cases h
    exact set_nil v v
  | s :: p, v, x, h => by
    cases v with
    | struct fs =>
      cases s with
      | field f =>
        simp only [Val.get] at h
        obtain ⟨y, hy, h⟩ := Option.bind_eq_some_iff.1 h
        simp only [Val.set, hy, Option.bind_some, set_same p h, Option.map_some, fieldSet_same f hy]
      | idx i => cases h
    | arr vs =>
      cases s with
      | field f => cases h
      | idx i =>
        simp only [Val.get] at h
        obtain ⟨y, hy, h⟩ := Option.bind_eq_some_iff.1 h
        obtain ⟨hi, hv⟩ := List.getElem?_eq_some_iff.1 hy
        simp only [Val.set, hy, Option.bind_some, set_same p h, Option.map_some]
        rw [← hv, List.set_getElem_self]
    | basic x => cases s <;> cases h
    | nil => cases s <;> cases h
    | ptr l => cases s <;> cases h
    | slice l a b => cases s <;> cases h
    | map a => cases s <;> cases h
    | entries kvs => cases s <;> cases h
    | zero => cases s <;> cases h

/-- Writing a part of a part. -/
theorem set_append {w : Val} (q : List Step) : ∀ (p : List Step) {v x : Val}, v.get p = some x → v.set (p ++ q) w = (x.set q w).bind fun x' => v.set p x'
  | [], v, x, h => by
    rw [get_nil] at h
    cases h
    simp only [List.nil_append]
    cases v.set q w with
    | none => rfl
    | some y => exact (set_nil v y).symm
  | s :: p, v, x, h => by
    cases v with
    | struct fs =>
      cases s with
      | field f =>
        simp only [Val.get] at h
        obtain ⟨y, hy, h⟩ := Option.bind_eq_some_iff.1 h
        simp only [List.cons_append, Val.set, hy, Option.bind_some, set_append q p h]
        cases x.set q w <;> rfl
      | idx i => cases h
    | arr vs =>
      cases s with
      | field f => cases h
      | idx i =>
        simp only [Val.get] at h
        obtain ⟨y, hy, h⟩ := Option.bind_eq_some_iff.1 h
        simp only [List.cons_append, Val.set, hy, Option.bind_some, set_append q p h]
        cases x.set q w <;> rfl
    | basic x => cases s <;> cases h
    | nil => cases s <;> cases h
    | ptr l => cases s <;> cases h
    | slice l a b => cases s <;> cases h
    | map a => cases s <;> cases h
    | entries kvs => cases s <;> cases h
    | zero => cases s <;> cases h

/-! ## Memory -/

theorem read_lt {H : Heap} {l : Loc} {v : Val} (h : H.read l = some v) : l.addr < H.length := by
  obtain ⟨c, hc, -⟩ := Option.bind_eq_some_iff.1 h
  exact (List.getElem?_eq_some_iff.1 hc).1

theorem read_congr {H H' : Heap} {l : Loc} (h : H'[l.addr]? = H[l.addr]?) : H'.read l = H.read l := by
  unfold Heap.read
  rw [h]

theorem read_sub {H : Heap} {l : Loc} {v : Val} (h : H.read l = some v) (s : Step) : H.read (l.sub s) = v.get [s] := by
  obtain ⟨c, hc, h⟩ := Option.bind_eq_some_iff.1 h
  unfold Heap.read Loc.sub
  simp only [hc, Option.bind_some, get_append, h]

/-- `H'` is `H` with `v` written at `o`, and possibly more cells. -/
def Wrote (H : Heap) (o : Loc) (v : Val) (H' : Heap) : Prop :=
  H.length ≤ H'.length ∧ (∀ a, a < H.length → a ≠ o.addr → H'[a]? = H[a]?) ∧ ∃ c c', H[o.addr]? = some c ∧ c.set o.path v = some c' ∧ H'[o.addr]? = some c'

theorem load_ok {H : Heap} {l : Loc} {v : Val} (h : H.read l = some v) : load H l = .ok v := by
  unfold load need
  rw [h]

theorem store_ok {H : Heap} {o : Loc} {x : Val} (h : H.read o = some x) (v : Val) : ∃ H', store H o v = .ok H' ∧ Wrote H o v H' ∧ H'.length = H.length := by
  obtain ⟨c, hc, hg⟩ := Option.bind_eq_some_iff.1 h
  obtain ⟨c', hc'⟩ := set_of_get v _ hg
  have hlt : o.addr < H.length := (List.getElem?_eq_some_iff.1 hc).1
  refine ⟨H.set o.addr c', ?_, ⟨Nat.le_of_eq (List.length_set ..).symm, ?_, c, c', hc, hc', List.getElem?_set_self hlt⟩, List.length_set ..⟩
  · unfold store Heap.write need
    simp only [hc, Option.bind_some, hc', Option.map_some]
  · intro a _ hne
    exact List.getElem?_set_ne (Ne.symm hne)

theorem Wrote.lt {H H' : Heap} {o : Loc} {v : Val} (h : Wrote H o v H') : o.addr < H.length := by
  obtain ⟨-, -, c, c', hc, -⟩ := h
  exact (List.getElem?_eq_some_iff.1 hc).1

theorem Wrote.read {H H' : Heap} {o : Loc} {v : Val} (h : Wrote H o v H') : H'.read o = some v := by
  obtain ⟨-, -, c, c', -, h1, h2⟩ := h
  unfold Heap.read
  rw [h2]
  exact get_set _ h1

theorem Wrote.keeps {H H' : Heap} {o l : Loc} {v x : Val} (h : Wrote H o v H') (hne : l.addr ≠ o.addr) (hx : H.read l = some x) : H'.read l = some x := by
  rw [read_congr (h.2.1 _ (read_lt hx) hne), hx]

/-- Nothing was changed. -/
theorem Wrote.refl {H : Heap} {o : Loc} {v : Val} (h : H.read o = some v) : Wrote H o v H := by
  obtain ⟨c, hc, hg⟩ := Option.bind_eq_some_iff.1 h
  exact ⟨Nat.le_refl _, fun _ _ _ => rfl, c, c, hc, set_same _ hg, hc⟩

theorem Wrote.trans {H H1 H2 : Heap} {o : Loc} {v w : Val} (h1 : Wrote H o v H1) (h2 : Wrote H1 o w H2) : Wrote H o w H2 := by
  obtain ⟨a1, b1, c, c', d1, e1, f1⟩ := h1
  obtain ⟨a2, b2, c2, c2', d2, e2, f2⟩ := h2
  rw [f1] at d2
  cases d2
  refine ⟨Nat.le_trans a1 a2, fun a ha hne => ?_, c, c2', d1, ?_, f2⟩
  · rw [b2 a (Nat.lt_of_lt_of_le ha a1) hne, b1 a ha hne]
  · rw [← e2, set_set _ e1]

/-- A part of what was written was written again. -/
theorem Wrote.sub {H H1 H2 : Heap} {o : Loc} {s : Step} {v v' w : Val} (h1 : Wrote H o v H1) (h2 : Wrote H1 (o.sub s) w H2) (hs : v.set [s] w = some v') : Wrote H o v' H2 := by
  have hr := h1.read
  obtain ⟨a1, b1, c, c', d1, e1, f1⟩ := h1
  obtain ⟨a2, b2, c2, c2', d2, e2, f2⟩ := h2
  have ha : (o.sub s).addr = o.addr := rfl
  rw [ha] at b2 d2 f2
  rw [f1] at d2
  cases d2
  refine ⟨Nat.le_trans a1 a2, fun a ha hne => ?_, c, c2', d1, ?_, f2⟩
  · rw [b2 a (Nat.lt_of_lt_of_le ha a1) hne, b1 a ha hne]
  · have hg : c'.get o.path = some v := get_set _ e1
    have : (o.sub s).path = o.path ++ [s] := rfl
    rw [this, set_append [s] _ hg, hs] at e2
    simp only [Option.bind_some] at e2
    rw [← e2, set_set _ e1]

theorem Extends.getElem? {H H' : Heap} (h : Extends H H') {a : Nat} (ha : a < H.length) : H'[a]? = H[a]? := by
  obtain ⟨n, rfl⟩ := h
  exact List.getElem?_append_left ha

theorem Extends.length_le {H H' : Heap} (h : Extends H H') : H.length ≤ H'.length := by
  obtain ⟨n, rfl⟩ := h
  simp

theorem Extends.of {H H' : Heap} (hl : H.length ≤ H'.length) (h : ∀ a, a < H.length → H'[a]? = H[a]?) : Extends H H' := by
  refine ⟨H'.drop H.length, ?_⟩
  have : H = H'.take H.length := by
    apply List.ext_getElem?
    intro a
    by_cases ha : a < H.length
    · rw [List.getElem?_take_of_lt ha, h a ha]
    · rw [List.getElem?_eq_none (by omega), List.getElem?_eq_none (by rw [List.length_take]; omega)]
  have h2 := List.take_append_drop H.length H'
  rw [← this] at h2
  exact h2.symm

theorem Extends.refl (H : Heap) : Extends H H := ⟨[], by simp⟩

theorem Extends.trans {H H1 H2 : Heap} (h1 : Extends H H1) (h2 : Extends H1 H2) : Extends H H2 := by
  obtain ⟨n, rfl⟩ := h1
  obtain ⟨m, rfl⟩ := h2
  exact ⟨n ++ m, by simp⟩

theorem Extends.read {H H' : Heap} (h : Extends H H') {l : Loc} {v : Val} (hv : H.read l = some v) : H'.read l = some v := by
  rw [read_congr (h.getElem? (read_lt hv)), hv]

theorem extends_alloc (H : Heap) (v : Val) : Extends H (alloc H v).1 := ⟨[v], rfl⟩

theorem read_alloc (H : Heap) (v : Val) : (alloc H v).1.read (alloc H v).2 = some v := by
  simp [alloc, Heap.read, get_nil]

/-- Writing into memory that is new. -/
theorem Extends.wrote {H H1 H2 : Heap} {o : Loc} {v : Val} (h1 : Extends H H1) (h2 : Wrote H1 o v H2) (ho : H.length ≤ o.addr) : Extends H H2 := by
  refine Extends.of (Nat.le_trans h1.length_le h2.1) fun a ha => ?_
  rw [h2.2.1 a (Nat.lt_of_lt_of_le ha h1.length_le) (by omega), h1.getElem? ha]

/-- Memory that is new does not count. -/
theorem Wrote.after {H H1 H2 : Heap} {o : Loc} {v : Val} (h1 : Extends H H1) (h2 : Wrote H1 o v H2) (ho : o.addr < H.length) : Wrote H o v H2 := by
  obtain ⟨a2, b2, c2, c2', d2, e2, f2⟩ := h2
  refine ⟨Nat.le_trans h1.length_le a2, fun a ha hne => ?_, c2, c2', ?_, e2, f2⟩
  · rw [b2 a (Nat.lt_of_lt_of_le ha h1.length_le) hne, h1.getElem? ha]
  · rw [← h1.getElem? ho, d2]

/-- Writing into memory that is new. -/
theorem Wrote.before {H H1 H2 : Heap} {o l : Loc} {v w : Val} (h1 : Wrote H o v H1) (h2 : Wrote H1 l w H2) (hl : H.length ≤ l.addr) : Wrote H o v H2 := by
  have hlt := h1.lt
  obtain ⟨a1, b1, c, c', d1, e1, f1⟩ := h1
  obtain ⟨a2, b2, -⟩ := h2
  refine ⟨Nat.le_trans a1 a2, fun a ha hne => ?_, c, c', d1, e1, ?_⟩
  · rw [b2 a (Nat.lt_of_lt_of_le ha a1) (by omega), b1 a ha hne]
  · rw [b2 _ (Nat.lt_of_lt_of_le hlt a1) (by omega), f1]

theorem Wrote.extends {H H1 H2 : Heap} {o : Loc} {v : Val} (h1 : Wrote H o v H1) (h2 : Extends H1 H2) : Wrote H o v H2 := by
  have hlt := h1.lt
  obtain ⟨a1, b1, c, c', d1, e1, f1⟩ := h1
  refine ⟨Nat.le_trans a1 h2.length_le, fun a ha hne => ?_, c, c', d1, e1, ?_⟩
  · rw [h2.getElem? (Nat.lt_of_lt_of_le ha a1), b1 a ha hne]
  · rw [h2.getElem? (Nat.lt_of_lt_of_le hlt a1), f1]

/-! ## What values stand for -/

section
variable {P : Prog} {H H' : Heap} {Q Q' : Nat → Prop}

mutual
/-- What a value stands for depends on the memory that it refers to only. -/
theorem Has.move (h : ∀ a, a < H.length → Q a → Q' a ∧ H'[a]? = H[a]?) : ∀ {t v T}, Has P H Q t v T → Has P H' Q' t v T
  | _, _, _, .basic x => .basic x
  | _, _, _, .other s x => .other s x
  | _, _, _, .named h1 => .named (Has.move h h1)
  | _, _, _, .alias h1 => .alias (Has.move h h1)
  | _, _, _, .nilPtr t => .nilPtr t
  | _, _, _, .nilSlice t => .nilSlice t
  | _, _, _, .nilMap k t => .nilMap k t
  | _, _, _, .ptr h1 h2 h3 => .ptr (h _ (read_lt h2) h1).1 ((read_congr (h _ (read_lt h2) h1).2).trans h2) (Has.move h h3)
  | _, _, _, .slice h1 h2 h3 h4 => .slice (h _ (read_lt h2) h1).1 ((read_congr (h _ (read_lt h2) h1).2).trans h2) h3 (HasElems.move h h4)
  | _, _, _, .map h1 h2 h3 h4 h5 => .map (h _ (read_lt h2) h1).1 ((read_congr (h _ (read_lt h2) h1).2).trans h2) h3 h4 (HasEntries.move h h5)
  | _, _, _, .struct h1 h2 => .struct h1 (HasFields.move h h2)

theorem HasElems.move (h : ∀ a, a < H.length → Q a → Q' a ∧ H'[a]? = H[a]?) : ∀ {t vs Ts}, HasElems P H Q t vs Ts → HasElems P H' Q' t vs Ts
  | _, _, _, .nil t => .nil t
  | _, _, _, .cons h1 h2 => .cons (Has.move h h1) (HasElems.move h h2)

theorem HasEntries.move (h : ∀ a, a < H.length → Q a → Q' a ∧ H'[a]? = H[a]?) : ∀ {t vs Ts}, HasEntries P H Q t vs Ts → HasEntries P H' Q' t vs Ts
  | _, _, _, .nil t => .nil t
  | _, _, _, .cons h1 h2 => .cons (Has.move h h1) (HasEntries.move h h2)

theorem HasFields.move (h : ∀ a, a < H.length → Q a → Q' a ∧ H'[a]? = H[a]?) : ∀ {fs vs Ts}, HasFields P H Q fs vs Ts → HasFields P H' Q' fs vs Ts
  | _, _, _, .nil => .nil
  | _, _, _, .cons h1 h2 => .cons (Has.move h h1) (HasFields.move h h2)
end

end

/-- The types are those of their underlying types. -/
theorem has_unalias {P : Prog} {H : Heap} {Q : Nat → Prop} {t : Ty} {v : Val} {T : Tree} : Has P H Q t v T ↔ Has P H Q (P.unalias t) v T := by
  cases t with
  | alias n => exact ⟨fun h => by cases h; assumption, fun h => .alias h⟩
  | _ => exact Iff.rfl

theorem has_underlying {P : Prog} {H : Heap} {Q : Nat → Prop} {t : Ty} {v : Val} {T : Tree} : Has P H Q t v T ↔ Has P H Q (P.underlying t) v T := by
  rw [has_unalias]
  unfold Prog.underlying
  split
  · rename_i n h
    rw [h]
    exact ⟨fun h => by cases h; assumption, fun h => .named h⟩
  · exact Iff.rfl

mutual
/-- Values that can be copied by assignment do not refer to memory. -/
theorem Has.fine {P : Prog} {H H' : Heap} {Q Q' : Nat → Prop} : ∀ {t v T}, Has P H Q t v T → ∀ {n}, P.fineTo n t = true → Has P H' Q' t v T
  | _, _, _, .basic x, _, _ => .basic x
  | _, _, _, .other s x, _, _ => .other s x
  | _, _, _, .named h1, n, hf => by
    cases n with
    | zero => cases hf
    | succ n => exact .named (Has.fine h1 (by simpa [Prog.fineTo] using hf))
  | _, _, _, .alias h1, n, hf => by cases n <;> cases hf
  | _, _, _, .nilPtr t, _, _ => .nilPtr t
  | _, _, _, .nilSlice t, _, _ => .nilSlice t
  | _, _, _, .nilMap k t, _, _ => .nilMap k t
  | _, _, _, .ptr h1 h2 h3, n, hf => by cases n <;> cases hf
  | _, _, _, .slice h1 h2 h3 h4, n, hf => by cases n <;> cases hf
  | _, _, _, .map h1 h2 h3 h4 h5, n, hf => by cases n <;> cases hf
  | _, _, _, .struct h1 h2, n, hf => by
    cases n with
    | zero => cases hf
    | succ n =>
      refine .struct h1 (HasFields.fine h2 (n := n) ?_)
      rw [Prog.fineTo, List.all_eq_true] at hf
      exact hf

theorem HasFields.fine {P : Prog} {H H' : Heap} {Q Q' : Nat → Prop} : ∀ {fs vs Ts}, HasFields P H Q fs vs Ts → ∀ {n}, (∀ f ∈ fs, P.fineTo n f.2 = true) → HasFields P H' Q' fs vs Ts
  | _, _, _, .nil, _, _ => .nil
  | _, _, _, .cons h1 h2, _, hf => .cons (Has.fine h1 (hf _ List.mem_cons_self)) (HasFields.fine h2 fun f hm => hf f (List.mem_cons_of_mem _ hm))
end

/-- Nil stands for nil. -/
theorem Has.nil_iff {P : Prog} {H : Heap} {Q : Nat → Prop} : ∀ {t v T}, Has P H Q t v T → (v = .nil ↔ T = .nil)
  | _, _, _, .basic x => by simp
  | _, _, _, .other s x => by simp
  | _, _, _, .named h1 => Has.nil_iff h1
  | _, _, _, .alias h1 => Has.nil_iff h1
  | _, _, _, .nilPtr t => by simp
  | _, _, _, .nilSlice t => by simp
  | _, _, _, .nilMap k t => by simp
  | _, _, _, .ptr h1 h2 h3 => by simp
  | _, _, _, .slice h1 h2 h3 h4 => by simp
  | _, _, _, .map h1 h2 h3 h4 h5 => by simp
  | _, _, _, .struct h1 h2 => by simp

theorem Has.nil_any {P : Prog} {H : Heap} {Q : Nat → Prop} (H' : Heap) (Q' : Nat → Prop) : ∀ {t v T}, Has P H Q t v T → T = .nil → Has P H' Q' t .nil .nil
  | _, _, _, .basic x, h => by cases h
  | _, _, _, .other s x, h => by cases h
  | _, _, _, .named h1, h => .named (Has.nil_any H' Q' h1 h)
  | _, _, _, .alias h1, h => .alias (Has.nil_any H' Q' h1 h)
  | _, _, _, .nilPtr t, _ => .nilPtr t
  | _, _, _, .nilSlice t, _ => .nilSlice t
  | _, _, _, .nilMap k t, _ => .nilMap k t
  | _, _, _, .ptr h1 h2 h3, h => by cases h
  | _, _, _, .slice h1 h2 h3 h4, h => by cases h
  | _, _, _, .map h1 h2 h3 h4 h5, h => by cases h
  | _, _, _, .struct h1 h2, h => by cases h

end Verif.DeepCopy

import Verif.DeepCopy.Lemmas2
namespace Verif.DeepCopy

theorem Tree.size_elem {T : Tree} : ∀ {Ts : List Tree}, T ∈ Ts → T.size ≤ Tree.sizes Ts
  | _ :: Ts, h => by
    simp only [Tree.sizes]
    obtain h | h := List.mem_cons.1 h
    · subst h; omega
    · have := Tree.size_elem h; omega

theorem Tree.size_entry {k : String} {T : Tree} : ∀ {Ts : List (String × Tree)}, (k, T) ∈ Ts → T.size ≤ Tree.sizesE Ts
  | (_, _) :: Ts, h => by
    simp only [Tree.sizesE]
    obtain h | h := List.mem_cons.1 h
    · cases h; omega
    · have := Tree.size_entry h; omega

section
variable {P : Prog} {W : World} {into : Into}

theorem HasElems.length_eq {H : Heap} {Q : Nat → Prop} : ∀ {t vs Ts}, HasElems P H Q t vs Ts → vs.length = Ts.length
  | _, _, _, .nil _ => rfl
  | _, _, _, .cons _ h => by simp [HasElems.length_eq h]

theorem HasElems.append {H : Heap} {Q : Nat → Prop} : ∀ {t vs Ts vs' Ts'}, HasElems P H Q t vs Ts → HasElems P H Q t vs' Ts' → HasElems P H Q t (vs ++ vs') (Ts ++ Ts')
  | _, _, _, _, _, .nil _, h => h
  | _, _, _, _, _, .cons h1 h2, h => .cons h1 (HasElems.append h2 h)

theorem HasEntries.append {H : Heap} {Q : Nat → Prop} : ∀ {t vs Ts vs' Ts'}, HasEntries P H Q t vs Ts → HasEntries P H Q t vs' Ts' → HasEntries P H Q t (vs ++ vs') (Ts ++ Ts')
  | _, _, _, _, _, .nil _, h => h
  | _, _, _, _, _, .cons h1 h2, h => .cons h1 (HasEntries.append h2 h)

/-- Entries in another order. -/
theorem HasEntries.perm {H : Heap} {Q : Nat → Prop} {t : Ty} {l l' : List (String × Val)} (hp : l.Perm l') : ∀ {Ts}, HasEntries P H Q t l Ts → ∃ Ts', Ts.Perm Ts' ∧ HasEntries P H Q t l' Ts' := by
  induction hp with
  | nil => intro Ts h; exact ⟨Ts, .refl _, h⟩
  | cons x _ ih =>
    intro Ts h
    cases h with
    | cons h1 h2 =>
      obtain ⟨Ts', p, h⟩ := ih h2
      exact ⟨_, p.cons _, .cons h1 h⟩
  | swap x y l =>
    intro Ts h
    cases h with
    | cons h1 h2 =>
      cases h2 with
      | cons h2 h3 => exact ⟨_, .swap _ _ _, .cons h2 (.cons h1 h3)⟩
  | trans _ _ ih1 ih2 =>
    intro Ts h
    obtain ⟨T1, p1, h1⟩ := ih1 h
    obtain ⟨T2, p2, h2⟩ := ih2 h1
    exact ⟨T2, p1.trans p2, h2⟩

theorem HasEntries.perm_trees {H : Heap} {Q : Nat → Prop} {t : Ty} {Ts Ts' : List (String × Tree)} (hp : Ts.Perm Ts') : ∀ {l}, HasEntries P H Q t l Ts → ∃ l', l.Perm l' ∧ HasEntries P H Q t l' Ts' := by
  induction hp with
  | nil => intro Ts h; exact ⟨Ts, .refl _, h⟩
  | cons x _ ih =>
    intro Ts h
    cases h with
    | cons h1 h2 =>
      obtain ⟨Ts', p, h⟩ := ih h2
      exact ⟨_, p.cons _, .cons h1 h⟩
  | swap x y l =>
    intro Ts h
    cases h with
    | cons h1 h2 =>
      cases h2 with
      | cons h2 h3 => exact ⟨_, .swap _ _ _, .cons h2 (.cons h1 h3)⟩
  | trans _ _ ih1 ih2 =>
    intro Ts h
    obtain ⟨T1, p1, h1⟩ := ih1 h
    obtain ⟨T2, p2, h2⟩ := ih2 h1
    exact ⟨T2, p1.trans p2, h2⟩

/-- As `CopyOk`, into a place with a known value. -/
def CopyFrom (P : Prog) (f : Heap → Loc → Loc → Run Heap) (t : Ty) (T : Tree) (x : Val) : Prop :=
  ∀ (H : Heap) (Q : Nat → Prop) (i o : Loc) (v : Val), Has P H Q t v T → H.read i = some v → H.read o = some x → i.addr ≠ o.addr → (∀ a, Q a → a ≠ o.addr) →
    ∃ H' v', f H i o = .ok H' ∧ Wrote H o v' H' ∧ Has P H' (New H H') t v' T

theorem CopyOk.from {f : Heap → Loc → Loc → Run Heap} {t : Ty} {T : Tree} (h : CopyOk P f t T) (x : Val) : CopyFrom P f t T x :=
  fun H Q i o v => h H Q i o v x

/-- The cells after `B`. -/
def Above (B : Nat) (H : Heap) (a : Nat) : Prop := B < a ∧ a < H.length

/-- A loop over the elements of a slice. -/
theorem forElems_ok {f : Heap → Loc → Loc → Run Heap} {e : Ty} {x0 : Val} {B : Nat} {i o li : Loc} {off len : Nat} {vs : List Val} (hio : i.addr ≠ B) (hoB : o.addr ≠ B) (hli : li.addr ≠ B)
    (hlen : off + len ≤ vs.length) :
    ∀ (n j : Nat) (H : Heap) (Q : Nat → Prop) (Ts : List Tree) (done : List Val) (Td : List Tree), j + n = len → done.length = j → (∀ T ∈ Ts, CopyFrom P f e T x0) → (∀ a, Q a → a ≠ B) →
      H.read i = some (.slice li off len) → H.read o = some (.slice ⟨B, []⟩ 0 len) → H.read li = some (.arr vs) → HasElems P H Q e ((vs.drop (off + j)).take n) Ts →
      H.read ⟨B, []⟩ = some (.arr (done ++ List.replicate n x0)) → HasElems P H (Above B H) e done Td →
      ∃ H' new, forElems f i o j n H = .ok H' ∧ Wrote H ⟨B, []⟩ (.arr (done ++ new)) H' ∧ new.length = n ∧ HasElems P H' (Above B H') e (done ++ new) (Td ++ Ts)
  | 0, j, H, Q, Ts, done, Td, hj, hd, hf, hQ, h1, h2, h3, h4, h5, h6 => by
    simp only [List.take_zero] at h4
    cases h4
    refine ⟨H, [], rfl, ?_, rfl, ?_⟩
    · simp only [List.replicate_zero] at h5
      exact Wrote.refl h5
    · rw [List.append_nil, List.append_nil]
      exact h6
  | n + 1, j, H, Q, Ts, done, Td, hj, hd, hf, hQ, h1, h2, h3, h4, h5, h6 => by
    have hlt : off + j < vs.length := by omega
    have hcons : (vs.drop (off + j)).take (n + 1) = vs[off + j] :: (vs.drop (off + (j + 1))).take n := by
      rw [List.drop_eq_getElem_cons hlt, List.take_succ_cons]
      rfl
    rw [hcons] at h4
    cases h4 with
    | @cons _ _ _ T Ts hT hTs =>
      have hri : H.read (li.sub (.idx (off + j))) = some vs[off + j] := by
        rw [read_sub h3]
        simp [Val.get, List.getElem?_eq_getElem hlt, get_nil]
      have hro : H.read ((⟨B, []⟩ : Loc).sub (.idx (0 + j))) = some x0 := by
        rw [read_sub h5, Nat.zero_add]
        simp [Val.get, List.getElem?_append_right (Nat.le_of_eq hd), hd, get_nil]
      obtain ⟨H1, v', k1, k2, k3⟩ := hf T List.mem_cons_self H Q _ _ _ hT hri hro hli hQ
      have hset : (Val.arr (done ++ List.replicate (n + 1) x0)).set [.idx (0 + j)] v' = some (.arr ((done ++ [v']) ++ List.replicate n x0)) := by
        rw [Nat.zero_add]
        simp only [Val.set, List.getElem?_append_right (Nat.le_of_eq hd), hd, Nat.sub_self, List.replicate_succ, List.getElem?_cons_zero, Option.bind_some, set_nil, Option.map_some]
        rw [List.set_append_right _ _ (by omega)]
        simp [hd]
      have hw := (Wrote.refl h5).sub k2 hset
      have hB : B < H.length := read_lt h5
      have key : ∀ a, a < H.length → a ≠ B → H1[a]? = H[a]? := fun a ha hne => hw.2.1 a ha hne
      obtain ⟨H2, new, m1, m2, m3, m4⟩ := forElems_ok hio hoB hli hlen n (j + 1) H1 (fun a => Q a ∧ a < H.length) Ts (done ++ [v']) (Td ++ [T]) (by omega) (by simp [hd])
        (fun T hm => hf T (List.mem_cons_of_mem _ hm)) (fun a ha => hQ a ha.1) (hw.keeps hio h1) (hw.keeps hoB h2) (hw.keeps hli h3)
        (hTs.move fun a ha hq => ⟨⟨hq, ha⟩, key a ha (hQ a hq)⟩) hw.read
        ((h6.move fun a ha hq => ⟨⟨hq.1, Nat.lt_of_lt_of_le ha hw.1⟩, key a ha (Nat.ne_of_gt hq.1)⟩).append
          (.cons (k3.move fun a ha hq => ⟨⟨Nat.lt_of_lt_of_le hB hq.1, hq.2⟩, rfl⟩) (.nil _)))
      refine ⟨H2, v' :: new, ?_, ?_, by simp [m3], ?_⟩
      · rw [forElems]
        simp only [load_ok h1, load_ok h2, ok_bind]
        rw [if_pos ⟨by omega, by omega⟩, k1, ok_bind, m1]
      · have := hw.trans m2
        simpa using this
      · simpa using m4

/-- The loop after `*out = make(…)`. -/
theorem makeSlice_ok {f : Heap → Loc → Loc → Run Heap} {t e name : Ty} (ht : P.underlying t = .slice e) (hn : P.underlying name = .slice e) {Ts : List Tree} (hf : ∀ T ∈ Ts, CopyFrom P f e T (P.zero e)) {H : Heap}
    {Q : Nat → Prop} {i o : Loc} {v x : Val} (hv : Has P H Q t v (.slice Ts)) (hi : H.read i = some v) (ho : H.read o = some x) (hio : i.addr ≠ o.addr) (hQ : ∀ a, Q a → a ≠ o.addr) :
    ∃ H1 H' v', P.exec W into (.makeSlice name) H i o = .ok H1 ∧ (do let n ← lenOf (← load H1 i); forElems f i o 0 n H1) = .ok H' ∧ Wrote H o v' H' ∧ Has P H' (New H H') t v' (.slice Ts) := by
  have hv' := has_underlying.1 hv
  rw [ht] at hv'
  cases hv' with
  | @slice _ l off len vs _ h1 h2 h3 h4 =>
    have hli := read_lt h2
    have hii := read_lt hi
    have hoo := read_lt ho
    have hz : P.elem name = e := by unfold Prog.elem; rw [hn]
    have he := extends_alloc H (.arr (List.replicate len (P.zero e)))
    have hal : (alloc H (.arr (List.replicate len (P.zero e)))).2 = ⟨H.length, []⟩ := rfl
    obtain ⟨H1, k1, k2, k3⟩ := store_ok (he.read ho) (.slice ⟨H.length, []⟩ 0 len)
    have kr := read_alloc H (.arr (List.replicate len (P.zero e)))
    rw [hal] at kr
    have keys : ∀ a, a < H.length → a ≠ o.addr → H1[a]? = H[a]? := fun a ha hne => by rw [k2.2.1 a (Nat.lt_of_lt_of_le ha he.length_le) hne, he.getElem? ha]
    have hr1 : H1.read i = some (.slice l off len) := by rw [read_congr (keys _ hii hio), hi]
    have hr2 : H1.read l = some (.arr vs) := by rw [read_congr (keys _ hli (hQ _ h1)), h2]
    obtain ⟨H', new, m1, m2, m3, m4⟩ := forElems_ok (P := P) (f := f) (e := e) (x0 := P.zero e) (B := H.length) (i := i) (o := o) (li := l) (Nat.ne_of_lt hii) (Nat.ne_of_lt hoo) (Nat.ne_of_lt hli) h3 len 0 H1
      (fun a => Q a ∧ a < H.length) Ts [] [] (by omega) rfl hf (fun a ha => Nat.ne_of_lt ha.2) hr1 k2.read hr2
      (h4.move fun a ha hq => ⟨⟨hq, ha⟩, keys a ha (hQ a hq)⟩) (by simpa using k2.keeps (l := ⟨H.length, []⟩) (Ne.symm (Nat.ne_of_lt hoo)) kr) (.nil _)
    refine ⟨H1, H', .slice ⟨H.length, []⟩ 0 len, ?_, ?_, (Wrote.after he k2 hoo).before m2 (Nat.le_refl _), has_underlying.2 ?_⟩
    · simp only [Prog.exec, load_ok hi, ok_bind, lenOf, hz]
      exact k1
    · simp only [load_ok hr1, ok_bind, lenOf, m1]
    · rw [ht]
      simp only [List.nil_append] at m2 m4
      refine .slice ⟨Nat.le_refl _, Nat.lt_of_lt_of_le m2.lt m2.1⟩ m2.read (by omega) ?_
      rw [List.drop_zero, List.take_of_length_le (by omega)]
      exact m4.move fun a _ hq => ⟨⟨Nat.le_of_lt hq.1, hq.2⟩, rfl⟩

/-- What is needed of the body of a loop over the entries of a map. -/
def EntryOk (P : Prog) (f : Heap → String → Loc → Run Heap) (o : Loc) (e : Ty) (T : Tree) : Prop :=
  ∀ (H : Heap) (Q : Nat → Prop) (B : Nat) (x : Loc) (k : String) (v : Val) (done : List (String × Val)), Has P H Q e v T → H.read x = some v → H.read o = some (.map B) →
    H.read ⟨B, []⟩ = some (.entries done) → k ∉ done.map (·.1) → x.addr ≠ B → o.addr ≠ B → (∀ a, Q a → a ≠ B) →
    ∃ H' v', f H k x = .ok H' ∧ Wrote H ⟨B, []⟩ (.entries (done ++ [(k, v')])) H' ∧ Has P H' (Above B H') e v' T

theorem forEntries_ok {f : Heap → String → Loc → Run Heap} {e : Ty} {B : Nat} {o : Loc} (hoB : o.addr ≠ B) :
    ∀ (kvs : List (String × Val)) (H : Heap) (Q : Nat → Prop) (Ts : List (String × Tree)) (done : List (String × Val)) (Td : List (String × Tree)), (∀ k T, (k, T) ∈ Ts → EntryOk P f o e T) →
      (∀ a, Q a → a ≠ B) → H.read o = some (.map B) → HasEntries P H Q e kvs Ts → ((done ++ kvs).map (·.1)).Nodup → H.read ⟨B, []⟩ = some (.entries done) → HasEntries P H (Above B H) e done Td →
      ∃ H' new, forEntries f kvs H = .ok H' ∧ Wrote H ⟨B, []⟩ (.entries (done ++ new)) H' ∧ new.map (·.1) = kvs.map (·.1) ∧ HasEntries P H' (Above B H') e (done ++ new) (Td ++ Ts)
  | [], H, Q, Ts, done, Td, hf, hQ, h1, h2, h3, h4, h5 => by
    cases h2
    refine ⟨H, [], rfl, ?_, rfl, ?_⟩
    · rw [List.append_nil]
      exact Wrote.refl h4
    · rw [List.append_nil, List.append_nil]
      exact h5
  | (k, v) :: kvs, H, Q, Ts, done, Td, hf, hQ, h1, h2, h3, h4, h5 => by
    cases h2 with
    | @cons _ _ _ _ T Ts hT hTs =>
      have he := extends_alloc H v
      have hB : B < H.length := read_lt h4
      have hk : k ∉ done.map (·.1) := by
        rw [List.map_append, List.nodup_append] at h3
        exact fun hm => h3.2.2 k hm k (by simp) rfl
      obtain ⟨H1, v', k1, k2, k3⟩ := hf k T List.mem_cons_self (alloc H v).1 (fun a => Q a ∧ a < H.length) B (alloc H v).2 k v done (hT.extends he) (read_alloc _ _) (he.read h1) (he.read h4) hk
        (by simp [alloc]; omega) hoB (fun a ha => hQ a ha.1)
      have hw : Wrote H ⟨B, []⟩ (.entries (done ++ [(k, v')])) H1 := Wrote.after he k2 hB
      have key : ∀ a, a < H.length → a ≠ B → H1[a]? = H[a]? := fun a ha hne => hw.2.1 a ha hne
      obtain ⟨H2, new, m1, m2, m3, m4⟩ := forEntries_ok hoB kvs H1 (fun a => Q a ∧ a < H.length) Ts (done ++ [(k, v')]) (Td ++ [(k, T)]) (fun k T hm => hf k T (List.mem_cons_of_mem _ hm)) (fun a ha => hQ a ha.1)
        (hw.keeps hoB h1) (hTs.move fun a ha hq => ⟨⟨hq, ha⟩, key a ha (hQ a hq)⟩) (by simpa using h3) hw.read
        ((h5.move fun a ha hq => ⟨⟨hq.1, Nat.lt_of_lt_of_le ha hw.1⟩, key a ha (Nat.ne_of_gt hq.1)⟩).append (.cons k3 (.nil _)))
      refine ⟨H2, (k, v') :: new, ?_, ?_, by simp [m3], ?_⟩
      · rw [forEntries]
        simp only [k1, ok_bind, m1]
      · have := hw.trans m2
        simpa using this
      · simpa using m4

/-- The loop after `*out = make(…)`. -/
theorem makeMap_ok {f : Heap → String → Loc → Run Heap} {t k e name : Ty} (ht : P.underlying t = .map k e) {Ts : List (String × Tree)} {i o : Loc} (hf : ∀ k T, (k, T) ∈ Ts → EntryOk P f o e T) {H : Heap}
    {Q : Nat → Prop} {v x : Val} (hv : Has P H Q t v (.map Ts)) (hi : H.read i = some v) (ho : H.read o = some x) (hio : i.addr ≠ o.addr) (hQ : ∀ a, Q a → a ≠ o.addr) :
    ∃ H1 H' v', P.exec W into (.makeMap name) H i o = .ok H1 ∧ (do let kvs ← entriesOf H1 (← load H1 i); forEntries f (W.order H1 kvs) H1) = .ok H' ∧ Wrote H o v' H' ∧ Has P H' (New H H') t v' (.map Ts) := by
  have hv' := has_underlying.1 hv
  rw [ht] at hv'
  cases hv' with
  | @map _ _ m kvs kvs' _ h1 h2 h3 h4 h5 =>
    have hli := read_lt h2
    have hii := read_lt hi
    have hoo := read_lt ho
    have he := extends_alloc H (.entries [])
    obtain ⟨H1, k1, k2, k3⟩ := store_ok (he.read ho) (.map H.length)
    have kr : (alloc H (.entries [])).1.read ⟨H.length, []⟩ = _ := read_alloc H (.entries [])
    have keys : ∀ a, a < H.length → a ≠ o.addr → H1[a]? = H[a]? := fun a ha hne => by rw [k2.2.1 a (Nat.lt_of_lt_of_le ha he.length_le) hne, he.getElem? ha]
    have hr1 : H1.read i = some (.map m) := by rw [read_congr (keys _ hii hio), hi]
    have hr2 : H1.read ⟨m, []⟩ = some (.entries kvs) := by rw [read_congr (keys _ hli (hQ _ h1)), h2]
    have hp := W.order_perm H1 kvs
    obtain ⟨Ts', p, h6⟩ := h5.perm (h4.symm.trans hp.symm)
    obtain ⟨H', new, m1, m2, m3, m4⟩ := forEntries_ok (P := P) (f := f) (e := e) (B := H.length) (o := o) (Nat.ne_of_lt hoo) (W.order H1 kvs) H1 (fun a => Q a ∧ a < H.length) Ts' [] []
      (fun k T hm => hf k T (p.mem_iff.2 hm)) (fun a ha => Nat.ne_of_lt ha.2) k2.read (h6.move fun a ha hq => ⟨⟨hq, ha⟩, keys a ha (hQ a hq)⟩)
      (by simpa using (hp.map (·.1)).nodup_iff.2 h3) (k2.keeps (l := ⟨H.length, []⟩) (Ne.symm (Nat.ne_of_lt hoo)) kr) (.nil _)
    simp only [List.nil_append] at m2 m4
    obtain ⟨new', p', h7⟩ := m4.perm_trees p.symm
    refine ⟨H1, H', .map H.length, ?_, ?_, (Wrote.after he k2 hoo).before m2 (Nat.le_refl _), has_underlying.2 ?_⟩
    · simp only [Prog.exec]
      exact k1
    · simp only [load_ok hr1, ok_bind, entriesOf, load_ok hr2, pure_ok, m1]
    · rw [ht]
      refine .map ⟨Nat.le_refl _, Nat.lt_of_lt_of_le m2.lt m2.1⟩ m2.read ?_ p' (h7.move fun a _ hq => ⟨⟨Nat.le_of_lt hq.1, hq.2⟩, rfl⟩)
      rw [m3]
      exact (hp.map (·.1)).nodup_iff.2 h3

/-- Writing an entry. -/
theorem putEntry_ok {H : Heap} {o : Loc} {B : Nat} {kvs : List (String × Val)} (ho : H.read o = some (.map B)) (hB : H.read ⟨B, []⟩ = some (.entries kvs)) (k : String) (v : Val) :
    ∃ H', putEntry H o k v = .ok H' ∧ Wrote H ⟨B, []⟩ (.entries (kvs.filter (fun kv => kv.1 ≠ k) ++ [(k, v)])) H' ∧ H'.length = H.length := by
  obtain ⟨H', h1, h2, h3⟩ := store_ok hB (.entries (kvs.filter (fun kv => kv.1 ≠ k) ++ [(k, v)]))
  refine ⟨H', ?_, h2, h3⟩
  simp only [putEntry, load_ok ho, ok_bind, load_ok hB]
  exact h1

theorem filter_keys {k : String} {kvs : List (String × Val)} (h : k ∉ kvs.map (·.1)) : kvs.filter (fun kv => kv.1 ≠ k) = kvs :=
  List.filter_eq_self.2 fun kv hm => by
    simp only [decide_not, Bool.not_eq_eq_eq_not, Bool.not_true, decide_eq_false_iff_not]
    exact fun he => h (List.mem_map.2 ⟨kv, hm, he⟩)

/-- A body that makes a value and writes it. -/
theorem EntryOk.mk' {f : Heap → String → Loc → Run Heap} {o : Loc} {e : Ty} {T : Tree}
    (h : ∀ (H : Heap) (Q : Nat → Prop) (x : Loc) (v : Val), Has P H Q e v T → H.read x = some v → (∃ m, H.read o = some (.map m)) → ∃ H' v', (∀ k, f H k x = putEntry H' o k v') ∧ Extends H H' ∧ Has P H' (New H H') e v' T) :
    EntryOk P f o e T := by
  intro H Q B x k v done hv hx ho hB hk hxB hoB hQ
  obtain ⟨H1, v', h1, h2, h3⟩ := h H Q x v hv hx ⟨B, ho⟩
  obtain ⟨H', k1, k2, k3⟩ := putEntry_ok (h2.read ho) (h2.read hB) k v'
  rw [filter_keys hk] at k2
  have hBl : B < H.length := read_lt hB
  refine ⟨H', v', by rw [h1, k1], Wrote.after h2 k2 hBl, ?_⟩
  exact h3.move fun a ha hq => ⟨⟨Nat.lt_of_lt_of_le hBl hq.1, by rw [k3]; exact ha⟩, k2.2.1 a ha (Nat.ne_of_gt (Nat.lt_of_lt_of_le hBl hq.1))⟩

end

end Verif.DeepCopy

import Verif.DeepCopy.Lemmas4
namespace Verif.DeepCopy

section
variable {P : Prog} {W : World} {into : Into}

theorem HasEntries.struct_ne {H : Heap} {Q : Nat → Prop} {fs : List (String × Ty)} : ∀ {t vs Ts}, HasEntries P H Q t vs Ts → P.underlying t = .struct fs → ∀ {k T}, (k, T) ∈ Ts → T ≠ .nil
  | _, _, _, .nil _, _, _, _, h => by cases h
  | _, _, _, .cons h1 h2, ht, k, T, h => by
    obtain h | h := List.mem_cons.1 h
    · cases h
      exact h1.struct_ne ht
    · exact HasEntries.struct_ne h2 ht h

theorem HasElems.struct_ne {H : Heap} {Q : Nat → Prop} {fs : List (String × Ty)} : ∀ {t vs Ts}, HasElems P H Q t vs Ts → P.underlying t = .struct fs → ∀ {T}, T ∈ Ts → T ≠ .nil
  | _, _, _, .nil _, _, _, h => by cases h
  | _, _, _, .cons h1 h2, ht, T, h => by
    obtain h | h := List.mem_cons.1 h
    · cases h
      exact h1.struct_ne ht
    · exact HasElems.struct_ne h2 ht h

/-- The blocks inside copy what is in a tree. -/
def BlockOk (P : Prog) (W : World) (into : Into) (block : Ty → Ty → Option Gen) (T : Tree) : Prop :=
  ∀ name u u' g, block name u = some g → g.errs = 0 → P.underlying name = P.underlying u → P.underlying u' = P.underlying u → P.CompilesAll g.code u' → Stmt.noAddrs g.code = true →
    ∀ T', T' ≠ .nil → T'.size < T.size → CopyOk P (P.execs W into g.code) u T'

theorem execs_two {s1 s2 : Stmt} {H H1 H' : Heap} {i o : Loc} (h1 : P.exec W into s1 H i o = .ok H1) (h2 : P.exec W into s2 H1 i o = .ok H') : P.execs W into [s1, s2] H i o = .ok H' := by
  simp [Prog.execs, h1, h2]

theorem genMap_ok (hP : P.Ok) (hW : W.Copies P) {block : Ty → Ty → Option Gen} {name t t' k e : Ty} {ne : Nat} {g : Gen} {T : Tree} (hg : P.genMap block name ne k e = some g) (he : g.errs = 0)
    (ht : P.underlying t = .map k e) (hc : P.CompilesAll g.code t') (hna : Stmt.noAddrs g.code = true) (hT : T ≠ .nil) (hs : SubOk P into T) (hb : BlockOk P W into block T) :
    CopyOk P (P.execs W into g.code) t T := by
  intro H Q i o v x hv hi ho hio hQ
  have hv' := has_underlying.1 hv
  rw [ht] at hv'
  have hTs : ∃ Ts, T = .map Ts := by
    cases hv' with
    | nilMap => exact absurd rfl hT
    | map => exact ⟨_, rfl⟩
  obtain ⟨Ts, rfl⟩ := hTs
  have hlt : ∀ {k T'}, (k, T') ∈ Ts → T'.size < (Tree.map Ts).size := fun hm => by
    have := Tree.size_entry hm
    simp only [Tree.size]
    omega
  unfold Prog.genMap at hg
  split at hg
  · cases hg
    cases he
  · split at hg
    · rename_i hm
      rw [← hasAny_iff] at hm
      cases hg
      simp only at he hc hna ⊢
      split at hc
      · rename_i hy
        obtain ⟨H1, H', v', h1, h2, h3, h4⟩ := makeMap_ok (W := W) (into := into) (name := name) (Ts := Ts) ht (fun k T' hm' => entry_call hW hc.2.1 hm (hs.mono (Nat.le_of_lt (hlt hm')))) hv hi ho hio hQ
        rw [if_pos hy]
        exact ⟨H', v', execs_two h1 (by rw [Prog.exec]; exact h2), h3, h4⟩
      · rename_i hy
        split at hc
        · rename_i hy2
          rw [if_neg hy, if_pos hy2] at hna
          cases hna
        · rename_i hy2
          obtain ⟨H1, H', v', h1, h2, h3, h4⟩ := makeMap_ok (W := W) (into := into) (name := name) (Ts := Ts) ht (fun k T' hm' => entry_callDeref hW hc.2.1.1 hc.2.1.2 fun n hn hme =>
            hs n T' hme (.inl (hasAny_owner (owner_named hn) hm)) fun _ => hasAny_owner (owner_named hn) hm) hv hi ho hio hQ
          rw [if_neg hy, if_neg hy2]
          exact ⟨H', v', execs_two h1 (by rw [Prog.exec]; exact h2), h3, h4⟩
    · rename_i hm
      split at hg
      · rename_i hf
        cases hg
        obtain ⟨H1, H', v', h1, h2, h3, h4⟩ := makeMap_ok (W := W) (into := into) (name := name) (Ts := Ts) ht (fun k T' hm' => entry_keep hf) hv hi ho hio hQ
        exact ⟨H', v', execs_two h1 (by rw [Prog.exec]; exact h2), h3, h4⟩
      · split at hg
        · rename_i hr
          obtain ⟨b, hb1, hb2⟩ := Option.map_eq_some_iff.1 hg
          subst hb2
          simp only at he hc hna ⊢
          have hna' : Stmt.noAddrs b.code = true := by simpa [Stmt.noAddrs, Stmt.noAddr] using hna
          have hcb : P.CompilesAll b.code (P.underlying e) := hc.2.1
          obtain ⟨H1, H', v', h1, h2, h3, h4⟩ := makeMap_ok (W := W) (into := into) (name := name) (Ts := Ts) ht (fun k T' hm' => entry_block hr hP fun hn =>
            hb e e (P.underlying e) b hb1 (by omega) rfl (underlying_idem hP e) hcb hna' T' hn (hlt hm')) hv hi ho hio hQ
          exact ⟨H', v', execs_two h1 (by rw [Prog.exec]; exact h2), h3, h4⟩
        · split at hg
          · rename_i fs hst
            cases hg
            have hel : ∀ k T', (k, T') ∈ Ts → T' ≠ .nil := by
              intro k T' hm'
              cases hv' with
              | map _ _ _ _ h5 => exact h5.struct_ne hst hm'
            obtain ⟨H1, H', v', h1, h2, h3, h4⟩ := makeMap_ok (W := W) (into := into) (name := name) (Ts := Ts) ht (fun k T' hm' => entry_callDeref hW hc.2.1.1 hc.2.1.2 fun n hn hme =>
              hs n T' hme (.inr (hlt hm')) fun hn => absurd hn (hel _ _ hm')) hv hi ho hio hQ
            exact ⟨H', v', execs_two h1 (by rw [Prog.exec]; exact h2), h3, h4⟩
          · cases hg
            simp only at he
            omega

theorem genSlice_ok {block : Ty → Ty → Option Gen} {name t t' e : Ty} {ne : Nat} {g : Gen} {T : Tree} (hg : P.genSlice block name ne e = some g) (he : g.errs = 0)
    (ht : P.underlying t = .slice e) (hname : P.underlying name = .slice e) (ht' : P.underlying t' = .slice e) (hc : P.CompilesAll g.code t') (hna : Stmt.noAddrs g.code = true) (hT : T ≠ .nil) (hs : SubOk P into T)
    (hb : BlockOk P W into block T) : CopyOk P (P.execs W into g.code) t T := by
  intro H Q i o v x hv hi ho hio hQ
  have hv' := has_underlying.1 hv
  rw [ht] at hv'
  have hTs : ∃ Ts, T = .slice Ts := by
    cases hv' with
    | nilSlice => exact absurd rfl hT
    | slice => exact ⟨_, rfl⟩
  obtain ⟨Ts, rfl⟩ := hTs
  have hlt : ∀ {T'}, T' ∈ Ts → T'.size < (Tree.slice Ts).size := fun hm => by
    have := Tree.size_elem hm
    simp only [Tree.size]
    omega
  unfold Prog.genSlice at hg
  split at hg
  · rename_i hm
    cases hg
    obtain ⟨H1, H', v', h1, h2, h3, h4⟩ := makeSlice_ok (W := W) (into := into) (Ts := Ts) ht hname (fun T' hm' => (callInto_ok hc.2.1 fun n hn hme => hs n T' hme (.inl (hasAny_owner (owner_named hn) hm)) fun _ => hasAny_owner (owner_named hn) hm).from _) hv hi ho hio hQ
    exact ⟨H', v', execs_two h1 (by rw [Prog.exec]; exact h2), h3, h4⟩
  · split at hg
    · rename_i hf
      cases hg
      have hcp : ∀ T' ∈ Ts, CopyFrom P (fun H i o => do store H o (← load H i)) e T' (P.zero e) := by
        intro T' _ H Q i o v hv hi ho hio hQ
        obtain ⟨H', h1, h2, h3⟩ := store_ok ho v
        exact ⟨H', v, by simp only [load_ok hi, ok_bind, h1], h2, has_underlying.2 ((has_underlying.1 hv).fine hf)⟩
      obtain ⟨H1, H', v', h1, h2, h3, h4⟩ := makeSlice_ok (W := W) (into := into) (Ts := Ts) ht hname hcp hv hi ho hio hQ
      exact ⟨H', v', execs_two h1 (by rw [Prog.exec]; exact h2), h3, h4⟩
    · split at hg
      · rename_i hr
        obtain ⟨b, hb1, hb2⟩ := Option.map_eq_some_iff.1 hg
        subst hb2
        simp only at he hc hna ⊢
        have hna' : Stmt.noAddrs b.code = true := by simpa [Stmt.noAddrs, Stmt.noAddr] using hna
        have hcb : P.CompilesAll b.code e := by
          have := hc.2.1
          simp only [Prog.Compiles, ht'] at this
          exact this
        have hcp : ∀ T' ∈ Ts, CopyFrom P (fun H i o => do
            match ← load H i with
            | .nil => return H
            | _ => P.execs W into b.code H i o) e T' (P.zero e) := by
          intro T' hm' H Q i o v hv hi ho hio hQ
          by_cases hn : T' = .nil
          · have := hv.nil_iff.2 hn
            subst this
            have hz : P.zero e = .nil := by
              unfold Prog.zero
              rw [if_pos hr]
            rw [hz] at ho
            refine ⟨H, .nil, by simp [load_ok hi], Wrote.refl ho, ?_⟩
            rw [hn]
            exact hv.nil_any _ _ hn
          · have hvn : v ≠ .nil := fun h => hn (hv.nil_iff.1 h)
            obtain ⟨H', v', k1, k2, k3⟩ := hb e e e b hb1 (by omega) rfl rfl hcb hna' T' hn (hlt hm') H Q i o v _ hv hi ho hio hQ
            refine ⟨H', v', ?_, k2, k3⟩
            simp only [load_ok hi, ok_bind]
            cases v <;> simp_all
        obtain ⟨H1, H', v', h1, h2, h3, h4⟩ := makeSlice_ok (W := W) (into := into) (Ts := Ts) ht hname hcp hv hi ho hio hQ
        exact ⟨H', v', execs_two h1 (by rw [Prog.exec]; exact h2), h3, h4⟩
      · split at hg
        · rename_i fs hst
          cases hg
          have hel : ∀ T' ∈ Ts, T' ≠ .nil := by
            intro T' hm'
            cases hv' with
            | slice _ _ _ h5 => exact h5.struct_ne hst hm'
          obtain ⟨H1, H', v', h1, h2, h3, h4⟩ := makeSlice_ok (W := W) (into := into) (Ts := Ts) ht hname (fun T' hm' => (callInto_ok hc.2.1 fun n hn hme => hs n T' hme (.inr (hlt hm')) fun hn => absurd hn (hel _ hm')).from _) hv hi ho hio hQ
          exact ⟨H', v', execs_two h1 (by rw [Prog.exec]; exact h2), h3, h4⟩
        · cases hg
          simp only at he
          omega

theorem genPtr_ok (hP : P.Ok) (hW : W.Copies P) {block : Ty → Ty → Option Gen} {t t' e : Ty} {g : Gen} {T : Tree} (hg : P.genPtr block e = some g) (he : g.errs = 0)
    (ht : P.underlying t = .ptr e) (ht' : P.underlying t' = .ptr e) (hc : P.CompilesAll g.code t') (hna : Stmt.noAddrs g.code = true) (hT : T ≠ .nil) (hs : SubOk P into T)
    (hb : BlockOk P W into block T) : CopyOk P (P.execs W into g.code) t T := by
  intro H Q i o v x hv hi ho hio hQ
  have hv' := has_underlying.1 hv
  rw [ht] at hv'
  have hpe : P.unalias (.ptr e) = .ptr e := rfl
  have hoo := read_lt ho
  have hii := read_lt hi
  -- what is common: a new cell is made, and its content is written
  have hnew : ∀ (u : Ty), ∃ H1, P.exec W into (.new u) H i o = .ok H1 ∧ Wrote H o (.ptr ⟨H.length, []⟩) H1 ∧ H1.read ⟨H.length, []⟩ = some (P.zero u) ∧ H1.length = H.length + 1 := by
    intro u
    have hx := extends_alloc H (P.zero u)
    obtain ⟨H1, k1, k2, k3⟩ := store_ok (hx.read ho) (.ptr ⟨H.length, []⟩)
    refine ⟨H1, ?_, Wrote.after hx k2 hoo, ?_, by rw [k3]; simp [alloc]⟩
    · simp only [Prog.exec]
      exact k1
    · exact k2.keeps (l := ⟨H.length, []⟩) (Ne.symm (Nat.ne_of_lt hoo)) (read_alloc H (P.zero u))
  cases hv' with
  | nilPtr => exact absurd rfl hT
  | @ptr _ l w T1 h1 h2 h3 =>
    have hll := read_lt h2
    have hlo : l.addr ≠ o.addr := hQ _ h1
    have hlt : T1.size < (Tree.ptr T1).size := by simp [Tree.size]
    have hv2 : Has P H Q (.ptr e) (.ptr l) (.ptr T1) := .ptr h1 h2 h3
    -- the pieces of a run that writes into the new cell
    have fin : ∀ {H1 H' : Heap} {v' : Val}, Wrote H o (.ptr ⟨H.length, []⟩) H1 → H1.length = H.length + 1 → Wrote H1 ⟨H.length, []⟩ v' H' → Has P H' (New H1 H') e v' T1 →
        Wrote H o (.ptr ⟨H.length, []⟩) H' ∧ Has P H' (New H H') t (.ptr ⟨H.length, []⟩) (.ptr T1) := by
      intro H1 H' v' a1 a2 a3 a4
      refine ⟨a1.before a3 (Nat.le_refl _), has_underlying.2 ?_⟩
      rw [ht]
      exact .ptr ⟨Nat.le_refl _, Nat.lt_of_lt_of_le a3.lt a3.1⟩ a3.read (a4.new a1.1)
    unfold Prog.genPtr at hg
    split at hg
    · rename_i hm
      rw [← hasAny_iff] at hm
      cases hg
      simp only at hc ⊢
      split at hc
      · rename_i hy
        obtain ⟨⟨n, hn, hme⟩, m, hm1, hm2, hm3⟩ := hc.1
        rw [owner_named hn] at hm1
        cases hm1
        have han := hasAny_owner (owner_named hn) hm
        obtain ⟨H1, v', k1, k2, k3⟩ := callCopy_ptr (into := into) hW hpe hn hme hm3 (T := .ptr T1) (fun T' _ => .inr (hs n T' hme (.inl han) fun _ => han)) hv2 hi
        obtain ⟨H', m1, m2, m3⟩ := store_made k2 ho k3
        rw [if_pos hy]
        refine ⟨H', v', ?_, m2, has_underlying.2 (by rw [ht]; exact m3)⟩
        simp [Prog.execs, Prog.exec, k1, m1]
      · rename_i hy
        obtain ⟨⟨n, hn, hme⟩, m, hm1, hm2, hm3⟩ := hc.1
        rw [owner_named hn] at hm1
        cases hm1
        have han := hasAny_owner (owner_named hn) hm
        obtain ⟨H1, v', k1, k2, k3⟩ := callCopy_deref (into := into) hW hpe hn hme hm3 (T := T1) (.inr (hs n T1 hme (.inl han) fun _ => han)) hv2 hi
        have hx := extends_alloc H1 v'
        have hp : Has P (alloc H1 v').1 (New H (alloc H1 v').1) (.ptr e) (.ptr (alloc H1 v').2) (.ptr T1) :=
          .ptr ⟨k2.length_le, by simp [alloc]⟩ (read_alloc _ _) (k3.later hx)
        obtain ⟨H', m1, m2, m3⟩ := store_made (k2.trans hx) ho hp
        rw [if_neg hy]
        refine ⟨H', .ptr (alloc H1 v').2, ?_, m2, has_underlying.2 (by rw [ht]; exact m3)⟩
        simp [Prog.execs, Prog.exec, k1, m1]
    · split at hg
      · rename_i hf
        cases hg
        obtain ⟨H1, a1, a2, a3, a4⟩ := hnew e
        have hi1 := a2.keeps hio hi
        have hl1 := a2.keeps hlo h2
        obtain ⟨H', b1, b2, b3⟩ := store_ok a3 w
        obtain ⟨c1, c2⟩ := fin a2 a4 b2 (has_underlying.2 ((has_underlying.1 h3).fine hf))
        refine ⟨H', _, execs_two a1 ?_, c1, c2⟩
        simp [Prog.exec, deref, load_ok hi1, load_ok a2.read, load_ok hl1, b1]
      · split at hg
        · rename_i hr
          obtain ⟨b, hb1, hb2⟩ := Option.map_eq_some_iff.1 hg
          subst hb2
          simp only at he hc hna ⊢
          have hna' : Stmt.noAddrs b.code = true := by simpa [Stmt.noAddrs, Stmt.noAddr] using hna
          have hcb : P.CompilesAll b.code e := by
            have := hc.2.1
            simp only [Prog.Compiles, ht'] at this
            exact this
          obtain ⟨H1, a1, a2, a3, a4⟩ := hnew (P.underlying e)
          have hi1 := a2.keeps hio hi
          have hl1 := a2.keeps hlo h2
          have hz : P.zero (P.underlying e) = .nil := by
            unfold Prog.zero
            rw [underlying_idem hP, if_pos hr]
          rw [hz] at a3
          by_cases hn : T1 = .nil
          · have := h3.nil_iff.2 hn
            subst this
            obtain ⟨c1, c2⟩ := fin a2 a4 (Wrote.refl a3) (by rw [hn]; exact h3.nil_any _ _ hn)
            refine ⟨H1, _, execs_two a1 ?_, c1, c2⟩
            simp [Prog.exec, deref, load_ok hi1, load_ok hl1]
          · have hvn : w ≠ .nil := fun h => hn (h3.nil_iff.1 h)
            have h3' : Has P H1 (fun a => Q a ∧ a < H.length) (P.underlying e) w T1 := (has_underlying.1 h3).move fun a ha hq => ⟨⟨hq, ha⟩, a2.2.1 a ha (hQ a hq)⟩
            obtain ⟨H', v', k1, k2, k3⟩ := hb (P.underlying e) (P.underlying e) e b hb1 (by omega) rfl (underlying_idem hP e).symm hcb hna' T1 hn hlt H1 _ l ⟨H.length, []⟩ w _ h3' hl1 a3
              (Nat.ne_of_lt hll) (fun a ha => Nat.ne_of_lt ha.2)
            obtain ⟨c1, c2⟩ := fin a2 a4 k2 (has_underlying.2 k3)
            refine ⟨H', _, execs_two a1 ?_, c1, c2⟩
            simp only [Prog.exec, deref, load_ok hi1, ok_bind, pure_ok, load_ok hl1, load_ok a2.read]
            cases w <;> simp_all
        · split at hg
          · rename_i fs hst
            cases hg
            obtain ⟨H1, a1, a2, a3, a4⟩ := hnew e
            have hi1 := a2.keeps hio hi
            have hl1 := a2.keeps hlo h2
            have h3' : Has P H1 (fun a => Q a ∧ a < H.length) e w T1 := h3.move fun a ha hq => ⟨⟨hq, ha⟩, a2.2.1 a ha (hQ a hq)⟩
            obtain ⟨H', v', k1, k2, k3⟩ := (callInto_ok (into := into) (T := T1) hc.2.1 fun n hn hme => hs n T1 hme (.inr hlt) fun hn => absurd hn (h3.struct_ne hst)) H1 _ l ⟨H.length, []⟩ w _ h3' hl1 a3
              (Nat.ne_of_lt hll) (fun a ha => Nat.ne_of_lt ha.2)
            obtain ⟨c1, c2⟩ := fin a2 a4 k2 k3
            refine ⟨H', _, execs_two a1 ?_, c1, c2⟩
            simp only [Prog.exec, deref, load_ok hi1, ok_bind, pure_ok, load_ok a2.read]
            exact k1
          · cases hg
            cases he

end

end Verif.DeepCopy
